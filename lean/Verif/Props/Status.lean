import Verif.Spec.Status
import Verif.Proof.Dump
import Verif.Props.Dump

/-!
# C51: what `status` answers
-/

namespace Pizauth
open LockedState

variable {E : Env}

theorem instantFmt_shows {now : Instant} {wall : SysTime} {i : Instant} {s : String} (hmin : timeMin ≤ wall)
    (hmax : wall ≤ timeMax) (h : instantFmt E now wall i = some s) : ShowsTime E now wall i s := by
  unfold instantFmt checkedDurationSince checkedSub checkedAdd at h
  unfold ShowsTime
  by_cases hlt : i < now
  · have e1 : wall - ((now - i).toNat : Int) = wall + (i - now) := by omega
    simp only [hlt, if_true, Int.le_of_lt hlt] at h
    rw [e1] at h
    by_cases h1 : timeMin ≤ wall + (i - now)
    · rw [if_pos h1] at h
      rw [if_pos ⟨h1, by omega⟩]; exact h
    · rw [if_neg h1] at h
      rw [if_neg (fun h => h1 h.1)]
      exact (Option.some.inj h).symm
  · have e1 : wall + ((i - now).toNat : Int) = wall + (i - now) := by omega
    simp only [hlt, if_false, Int.not_lt.mp hlt, if_true] at h
    rw [e1] at h
    by_cases h1 : wall + (i - now) ≤ timeMax
    · rw [if_pos h1] at h
      rw [if_pos ⟨by omega, h1⟩]; exact h
    · rw [if_neg h1] at h
      rw [if_neg (fun h => h1 h.2)]
      exact (Option.some.inj h).symm

theorem statusText_shown {now : Instant} {wall : SysTime} {ts : TokenState} {s : String} (hmin : timeMin ≤ wall)
    (hmax : wall ≤ timeMax) (h : statusText E now wall ts = some s) : Shown.Text E now wall (ts.shown now) s := by
  unfold statusText at h
  split at h
  · cases h; exact .noToken
  · split at h
    · rename_i p i hp
      obtain ⟨x, hx, rfl⟩ := Option.map_eq_some_iff.mp h
      simp only [TokenState.shown, hp]
      exact .notified (instantFmt_shows hmin hmax hx)
    · rename_i p hp
      cases h
      simp only [TokenState.shown, hp]
      exact .never
  · split at h
    · rename_i hx
      have hx : now < _ := hx
      split at h
      · rename_i h1 h2
        cases h
        simp only [TokenState.shown, hx, if_true]
        exact .valid (instantFmt_shows hmin hmax h1) (instantFmt_shows hmin hmax h2)
      · cases h
    · rename_i hx
      have hx : ¬ now < _ := hx
      split at h
      · rename_i i hi
        obtain ⟨x, hx', rfl⟩ := Option.map_eq_some_iff.mp h
        simp only [TokenState.shown, hx, if_false, hi]
        exact .attempted (instantFmt_shows hmin hmax hx')
      · rename_i hi
        cases h
        simp only [TokenState.shown, hx, if_false, hi]
        exact .expired

theorem statusText_congr {now : Instant} {wall : SysTime} {ts1 ts2 : TokenState} (h : ts1.shown now = ts2.shown now) :
    statusText E now wall ts1 = statusText E now wall ts2 := by
  unfold statusText
  cases ts1 <;> cases ts2 <;> simp only [TokenState.shown, GT.gt] at h ⊢
  all_goals (repeat' split at h)
  all_goals simp_all
  rename_i h1 h2 
  rw [if_neg (Int.not_lt.mpr h1), if_neg (Int.not_lt.mpr h2)]

theorem insertSorted_perm (s : String) : ∀ l, (insertSorted s l).Perm (s :: l)
  | [] => .refl _
  | x :: r => by
    unfold insertSorted
    split
    · exact .refl _
    · exact ((insertSorted_perm s r).cons x).trans (.swap ..)

theorem sortStrings_perm : ∀ l, (sortStrings l).Perm l
  | [] => .refl _
  | x :: r => (insertSorted_perm x _).trans ((sortStrings_perm r).cons x)

theorem insertSorted_sorted (s : String) : ∀ {l : List String}, l.Pairwise (· ≤ ·) →
    (insertSorted s l).Pairwise (· ≤ ·)
  | [], _ => by simp [insertSorted]
  | x :: r, h => by
    unfold insertSorted
    obtain ⟨h1, h2⟩ := List.pairwise_cons.mp h
    split
    · rename_i hle
      refine List.pairwise_cons.mpr ⟨?_, h⟩
      intro y hy
      rcases List.mem_cons.mp hy with rfl | hy
      · exact hle
      · exact String.le_trans hle (h1 y hy)
    · rename_i hle
      refine List.pairwise_cons.mpr ⟨?_, insertSorted_sorted s h2⟩
      intro y hy
      rcases List.mem_cons.mp ((insertSorted_perm s r).mem_iff.mp hy) with rfl | hy
      · exact (String.le_total x y).resolve_right hle
      · exact h1 y hy

theorem sortStrings_sorted : ∀ l : List String, (sortStrings l).Pairwise (· ≤ ·)
  | [] => .nil
  | x :: r => insertSorted_sorted x (sortStrings_sorted r)

theorem sortStrings_congr {l1 l2 : List String} (h : l1.Perm l2) : sortStrings l1 = sortStrings l2 :=
  List.Perm.eq_of_pairwise (le := (· ≤ ·)) (fun _ _ _ _ h1 h2 => String.le_antisymm h1 h2) (sortStrings_sorted _)
    (sortStrings_sorted _) (((sortStrings_perm _).trans h).trans (sortStrings_perm _).symm)

/-- The lines of `status`, by entry. -/
theorem statusLines {ls : LockedState} {now : Instant} {wall : SysTime} (h : ls.WF) :
    optAll (statusLine E now wall ls) ls.actIds =
      optAll (fun e : Entry => (statusText E now wall e.ts).map fun s => e.name ++ ": " ++ s) ls.details := by
  have : ∀ l : List Entry, (∀ e ∈ l, e ∈ ls.details) →
      optAll (statusLine E now wall ls) (l.map Entry.id) =
        optAll (fun e : Entry => (statusText E now wall e.ts).map fun s => e.name ++ ": " ++ s) l := by
    intro l
    induction l with
    | nil => intro _; rfl
    | cons e l ih =>
      intro hl
      obtain ⟨a, ha⟩ := h.has (hl e (by simp))
      simp only [List.map_cons, optAll, ih fun x hx => hl x (by simp [hx])]
      unfold statusLine
      rw [h.account ha, h.tokenstate (hl e (by simp))]
      simp only [h.get?_name ha.2]
  exact this ls.details fun _ h => h


theorem optAll_some {α β : Type} {f : α → Option β} : ∀ {l : List α} {r : List β}, optAll f l = some r →
    (∀ x ∈ l, (f x).isSome) ∧ ∀ g : α → β, (∀ x ∈ l, f x = some (g x)) → r = l.map g
  | [], r, h => by cases h; simp
  | a :: l, r, h => by
    unfold optAll at h
    cases h1 : f a with
    | none => simp [h1] at h
    | some x =>
      cases h2 : optAll f l with
      | none => simp [h1, h2] at h
      | some r' =>
        simp only [h1, h2, Option.some.injEq] at h
        subst h
        obtain ⟨k1, k2⟩ := optAll_some h2
        refine ⟨fun y hy => ?_, fun g hg => ?_⟩
        · rcases List.mem_cons.mp hy with rfl | hy
          · simp [h1]
          · exact k1 y hy
        · rw [k2 g fun y hy => hg y (by simp [hy])]
          have := hg a (by simp)
          rw [h1] at this
          simp [Option.some.inj this]

/-- The answer which a request to be carried out is given. -/
theorem status_exec {w w' : World} {buf b : Bytes} (h : Executes E w buf w') (hp : parseReq buf = .status)
    (hb : w'.threads 0 = [.reply b, .close]) : statusReply E w.now w.wall w.ls = some b ∧ w'.ls = w.ls := by
  obtain ⟨inp, hs⟩ := h.step
  have h0 := h.reach.inv0
  have hst := (stepR_of_step h0.wf hs).2
  cases hst with
  | run ht hx =>
    have hlt := h0.lt_of_mem ht
    rw [apply_threads_self hlt] at hb
    rw [h.serving] at ht
    cases ht
    cases hx <;> simp_all [World.apply]
  | runPanic ht hx => rw [h.serving] at hb; cases hb

theorem status_lines {w w' : World} {buf b : Bytes} (h : Executes E w buf w') (hp : parseReq buf = .status)
    (hb : w'.threads 0 = [.reply b, .close]) :
    w'.ls = w.ls ∧
    if w.ls.config.accounts = [] then b = utf8 "error:No accounts configured"
    else ∃ (lines : List String) (text : String → String),
      b = utf8 ("ok:" ++ "\n".intercalate lines) ∧ lines.Pairwise (· ≤ ·) ∧
      lines.Perm (w.ls.config.accounts.map fun p => p.1 ++ ": " ++ text p.1) ∧
      (timeMin ≤ w.wall → w.wall ≤ timeMax →
        ∀ n ts, Holds w.ls n ts → Shown.Text E w.now w.wall (ts.shown w.now) (text n)) := by
  have hwf := h.reach.inv0.wf
  obtain ⟨hr, hls⟩ := status_exec h hp hb
  refine ⟨hls, ?_⟩
  unfold statusReply at hr
  obtain ⟨acts, ha, hb'⟩ := Option.map_eq_some_iff.mp hr
  rw [statusLines hwf] at ha
  obtain ⟨k1, k2⟩ := optAll_some ha
  have hk : ∀ e ∈ w.ls.details, statusText E w.now w.wall e.ts ≠ none := by
    intro e he hn
    have := k1 e he
    rw [hn] at this; cases this
  let text : String → String := fun n =>
    ((w.ls.details.find? fun e => e.name == n).bind fun e => statusText E w.now w.wall e.ts).getD ""
  have htext : ∀ e ∈ w.ls.details, statusText E w.now w.wall e.ts = some (text e.name) := by
    intro e he
    have hf : w.ls.details.find? (fun e' => e'.name == e.name) = some e := hwf.find_name he
    cases ht : statusText E w.now w.wall e.ts with
    | none => exact absurd ht (hk e he)
    | some s => simp only [text, hf, Option.bind_some, ht, Option.getD_some]
  have hacts := k2 (fun e => e.name ++ ": " ++ text e.name) fun e he => by rw [htext e he]; rfl
  have hmap : acts = w.ls.config.accounts.map fun p => p.1 ++ ": " ++ text p.1 := by
    have := hwf.names
    calc acts = (w.ls.details.map Entry.name).map fun n => n ++ ": " ++ text n := by rw [hacts, List.map_map]; rfl
      _ = _ := by rw [this, List.map_map]; rfl
  by_cases hnil : w.ls.config.accounts = []
  · rw [if_pos hnil, ← hb', hmap, hnil]; rfl
  · rw [if_neg hnil]
    have hne : acts.isEmpty = false := by
      rw [hmap, Bool.eq_false_iff]
      simpa using hnil
    rw [hne] at hb'
    refine ⟨sortStrings acts, text, hb'.symm, sortStrings_sorted _, hmap ▸ sortStrings_perm acts, ?_⟩
    rintro hmin hmax n ts ⟨e, he, rfl, rfl⟩
    exact statusText_shown hmin hmax (htext e he)

/-- **C51.** `status` answers with one line for each account, in sorted order; the line of an account is its name and
a text for that part of its state which may be shown. -/
theorem C51_lines {w w' : World} {buf b : Bytes} (h : Executes E w buf w') (hp : parseReq buf = .status)
    (hb : w'.threads 0 = [.reply b, .close]) (hmin : timeMin ≤ w.wall) (hmax : w.wall ≤ timeMax) :
    w'.ls = w.ls ∧
    if w.ls.config.accounts = [] then b = utf8 "error:No accounts configured"
    else ∃ (lines : List String) (text : String → String),
      b = utf8 ("ok:" ++ "\n".intercalate lines) ∧ lines.Pairwise (· ≤ ·) ∧
      lines.Perm (w.ls.config.accounts.map fun p => p.1 ++ ": " ++ text p.1) ∧
      ∀ n ts, Holds w.ls n ts → Shown.Text E w.now w.wall (ts.shown w.now) (text n) := by
  obtain ⟨h1, h2⟩ := status_lines h hp hb
  refine ⟨h1, ?_⟩
  split
  · rwa [if_pos ‹_›] at h2
  · rw [if_neg ‹_›] at h2
    obtain ⟨lines, text, k1, k2, k3, k4⟩ := h2
    exact ⟨lines, text, k1, k2, k3, k4 hmin hmax⟩

theorem optAll_congr {α β : Type} {f : α → Option β} : ∀ {l1 l2 : List α}, l1.Perm l2 →
    (optAll f l1 = none ↔ optAll f l2 = none) ∧
    ∀ r1 r2, optAll f l1 = some r1 → optAll f l2 = some r2 → r1.Perm r2 := by
  intro l1 l2 h
  induction h with
  | nil => exact ⟨.rfl, fun r1 r2 h1 h2 => by rw [h1] at h2; cases h2; exact .refl _⟩
  | cons x _ ih =>
    obtain ⟨i1, i2⟩ := ih
    unfold optAll
    cases f x with
    | none => exact ⟨by simp, fun r1 r2 h1 => by cases h1⟩
    | some y =>
      rename_i l1 l2 _
      cases k1 : optAll f l1 <;> cases k2 : optAll f l2 <;> simp_all
  | swap x y l =>
    simp only [optAll]
    cases f x <;> cases f y <;> cases optAll f l <;> simp
    exact .swap ..
  | trans _ _ ih1 ih2 =>
    rename_i l1 l2 l3 _ _
    refine ⟨ih1.1.trans ih2.1, fun r1 r3 h1 h3 => ?_⟩
    cases h2 : optAll f l2 with
    | none => rw [ih1.1.mpr h2] at h1; cases h1
    | some r2 => exact (ih1.2 _ _ h1 h2).trans (ih2.2 _ _ h2 h3)

theorem optAll_of_map {α β γ : Type} {f : β → Option γ} {g : α → β} : ∀ {l : List α},
    optAll f (l.map g) = optAll (fun x => f (g x)) l
  | [] => rfl
  | a :: l => by simp only [List.map_cons, optAll, optAll_of_map (l := l)]

/-- The text for what may be shown, as the daemon computes it. -/
noncomputable def shownText (E : Env) (now : Instant) (wall : SysTime) (s : Shown) : Option String :=
  open Classical in if h : ∃ ts : TokenState, ts.shown now = s then statusText E now wall h.choose else none

theorem shownText_eq {now : Instant} {wall : SysTime} (ts : TokenState) :
    shownText E now wall (ts.shown now) = statusText E now wall ts := by
  have h : ∃ ts' : TokenState, ts'.shown now = ts.shown now := ⟨ts, rfl⟩
  unfold shownText
  rw [dif_pos h]
  exact statusText_congr h.choose_spec

theorem statusReply_congr {ls1 ls2 : LockedState} {now : Instant} {wall : SysTime} (h1 : ls1.WF) (h2 : ls2.WF)
    (h : SameShown now ls1 ls2) : statusReply E now wall ls1 = statusReply E now wall ls2 := by
  have hview : ∀ ls : LockedState, ls.WF → optAll (statusLine E now wall ls) ls.actIds =
      optAll (fun v : String × Shown => (shownText E now wall v.2).map fun s => v.1 ++ ": " ++ s)
        (ls.details.map fun e => (e.name, e.ts.shown now)) := by
    intro ls hls
    rw [statusLines hls, optAll_of_map]
    congr 1
    funext e
    rw [shownText_eq]
  have hn : ∀ ls : LockedState, ls.WF → (ls.details.map fun e => (e.name, e.ts.shown now)).Nodup := by
    intro ls hls
    apply nodup_of_map (f := Prod.fst)
    rw [List.map_map]
    exact hls.names_nodup
  have hmem : ∀ ls : LockedState, ∀ v : String × Shown, v ∈ (ls.details.map fun e => (e.name, e.ts.shown now)) ↔
      ∃ ts, Holds ls v.1 ts ∧ ts.shown now = v.2 := by
    rintro ls ⟨n, s⟩
    simp only [List.mem_map, Prod.mk.injEq]
    constructor
    · rintro ⟨e, he, rfl, rfl⟩; exact ⟨_, ⟨e, he, rfl, rfl⟩, rfl⟩
    · rintro ⟨ts, ⟨e, he, rfl, rfl⟩, rfl⟩; exact ⟨e, he, rfl, rfl⟩
  have hperm : (ls1.details.map fun e => (e.name, e.ts.shown now)).Perm (ls2.details.map fun e => (e.name, e.ts.shown now)) := by
    rw [List.perm_ext_iff_of_nodup (hn _ h1) (hn _ h2)]
    intro v
    rw [hmem, hmem]
    exact h v.1 v.2
  unfold statusReply
  rw [hview _ h1, hview _ h2]
  obtain ⟨c1, c2⟩ := optAll_congr (f := fun v : String × Shown => (shownText E now wall v.2).map fun s => v.1 ++ ": " ++ s) hperm
  cases k1 : optAll (fun v : String × Shown => (shownText E now wall v.2).map fun s => v.1 ++ ": " ++ s)
      (ls1.details.map fun e => (e.name, e.ts.shown now)) with
  | none => rw [c1.mp k1]
  | some r1 =>
    cases k2 : optAll (fun v : String × Shown => (shownText E now wall v.2).map fun s => v.1 ++ ": " ++ s)
        (ls2.details.map fun e => (e.name, e.ts.shown now)) with
    | none => rw [c1.mpr k2] at k1; cases k1
    | some r2 =>
      have := c2 _ _ k1 k2
      simp only [Option.map_some, Option.some.injEq]
      rw [sortStrings_congr this]
      have he : r1.isEmpty = r2.isEmpty := by
        rw [Bool.eq_iff_iff, List.isEmpty_iff, List.isEmpty_iff]
        exact ⟨fun h => by subst h; exact this.nil_eq.symm ▸ rfl, fun h => by subst h; exact this.eq_nil⟩
      rw [he]

/-- **C51.** The answer does not depend on anything but the names of the accounts and the part of their states which
may be shown: in particular not on tokens, OAuth states, verifiers or URLs. -/
theorem C51_no_secrets {w1 w1' w2 w2' : World} {buf1 buf2 b1 b2 : Bytes} (h1 : Executes E w1 buf1 w1')
    (h2 : Executes E w2 buf2 w2') (hp1 : parseReq buf1 = .status) (hp2 : parseReq buf2 = .status)
    (hb1 : w1'.threads 0 = [.reply b1, .close]) (hb2 : w2'.threads 0 = [.reply b2, .close]) (hnow : w1.now = w2.now)
    (hwall : w1.wall = w2.wall) (h : SameShown w1.now w1.ls w2.ls) : b1 = b2 := by
  obtain ⟨k1, _⟩ := status_exec h1 hp1 hb1
  obtain ⟨k2, _⟩ := status_exec h2 hp2 hb2
  rw [statusReply_congr h1.reach.inv0.wf h2.reach.inv0.wf h, hnow, hwall] at k1
  exact Option.some.inj (k1.symm.trans k2)

/-! ## Examples -/

open Demo

theorem replies_one {w : World} {b : Bytes}
    (h : (match w.threads 0 with
      | [.reply b', .close] => b' == b
      | _ => false) = true) : w.threads 0 = [.reply b, .close] := by
  split at h
  · rename_i b' hb; rw [hb, eq_of_beq h]
  · cases h

def sStatus (l : List Action) : List Action := l ++ [.connect (Cmd.wire .status)]

example : Executes env (after (sStatus sToken)) (Cmd.wire .status) (andThen (after (sStatus sToken)) [.run 0 {}]) ∧
    parseReq (Cmd.wire .status) = .status ∧
    (andThen (after (sStatus sToken)) [.run 0 {}]).threads 0 =
      [.reply (utf8 "ok:a: Active access token (obtained date; expires date)\nb b: No access token"), .close] :=
  ⟨executes_of (after_reach _) (by decide +kernel) (by decide +kernel), by decide +kernel, replies_one (by decide +kernel)⟩

/-- Another token server's answer: other secrets. -/
def answerOther : Body :=
  .obj [("token_type", .str "Bearer"), ("access_token", .str "X"), ("expires_in", .u64 3600)]

def sOther : List Action := sAsk ++ [.http callback false] ++ n1 3 ++ [.run 1 { net := .body answerOther }] ++ n1 4

/-- The hypotheses of `C51_no_secrets` hold for two states with different tokens. -/
example : Executes env (after (sStatus sOther)) (Cmd.wire .status) (andThen (after (sStatus sOther)) [.run 0 {}]) ∧
    (after (sStatus sOther)).ls ≠ (after (sStatus sToken)).ls ∧
    SameShown (after (sStatus sOther)).now (after (sStatus sOther)).ls (after (sStatus sToken)).ls := by
  refine ⟨executes_of (after_reach _) (by decide +kernel) (by decide +kernel), by decide +kernel, ?_⟩
  have h1 : (after (sStatus sOther)).ls.details.map (fun e => (e.name, e.ts)) =
    [("a", .active ⟨"X", 0, 3600000000000, none, false, 0, none⟩), ("b b", .empty)] := by decide +kernel
  have h2 : (after (sStatus sToken)).ls.details.map (fun e => (e.name, e.ts)) =
    [("a", .active ⟨"T1", 0, 3600000000000, some "R1", false, 0, none⟩), ("b b", .empty)] := by decide +kernel
  have key : ∀ (ls : LockedState) n ts, Holds ls n ts ↔ (n, ts) ∈ ls.details.map (fun e => (e.name, e.ts)) := by
    intro ls n ts
    simp [Holds, List.mem_map]
  intro n s
  simp only [key, h1, h2]
  have hnow : (after (sStatus sOther)).now = 0 := by decide +kernel
  simp only [hnow, List.mem_cons, List.not_mem_nil, or_false, Prod.mk.injEq]
  constructor
  · rintro ⟨ts, ⟨rfl, rfl⟩ | ⟨rfl, rfl⟩, rfl⟩
    · exact ⟨_, .inl ⟨rfl, rfl⟩, rfl⟩
    · exact ⟨_, .inr ⟨rfl, rfl⟩, rfl⟩
  · rintro ⟨ts, ⟨rfl, rfl⟩ | ⟨rfl, rfl⟩, rfl⟩
    · exact ⟨_, .inl ⟨rfl, rfl⟩, rfl⟩
    · exact ⟨_, .inr ⟨rfl, rfl⟩, rfl⟩

end Pizauth
