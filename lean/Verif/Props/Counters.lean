import Verif.Proof.Inv
import Verif.Props.Demo

/-!
# Counters do not overflow

The code counts account identifiers in a `u128` (src/server/state.rs:152,408-424: "if it wraps, we lose correctness") and
failed refreshes in a `u64` (src/server/state.rs:453, src/server/refresher.rs:96); the model counts without
bound. Here is how large the counters can become in an execution, so that the difference does not matter.
-/

namespace Pizauth
open LockedState

section
variable {E : Env} {S : Static} {now : Instant} {wall : SysTime} {ls : LockedState} {tid : Nat}
  {op : Op} {inp : Input} {f : Eff}

private theorem updateLoop_count {ls : LockedState} : ∀ (l : List (String × Account)) (c : Nat) {es : List Entry} {c' : Nat},
    ls.updateLoop l c = some (es, c') → c' ≤ c + l.length
  | [], c, es, c', h => by
    simp only [LockedState.updateLoop, Option.some.injEq, Prod.mk.injEq] at h
    simp; omega
  | (n, a) :: r, c, es, c', h => by
    unfold LockedState.updateLoop at h
    have fresh : ∀ {d : Nat} {g : List Entry → List Entry},
        ((ls.updateLoop r d).map fun (es, c') => (g es, c')) = some (es, c') → c' ≤ d + r.length := by
      intro d g hg
      obtain ⟨⟨es0, c0⟩, h0, h1⟩ := Option.map_eq_some_iff.mp hg
      simp only [Prod.mk.injEq] at h1
      have := updateLoop_count r d h0
      omega
    simp only [List.length_cons]
    split at h
    · split at h
      · split at h
        · cases h
        · have := fresh h; omega
      · have := fresh h; omega
    · have := fresh h; omega

private theorem restoreCollect_length {ls : LockedState} {d : Dump} : ∀ (es : List Entry) {l : List (String × TokenState)},
    ls.restoreCollect now wall d es = some l → l.length ≤ es.length
  | [], l, h => by simp only [LockedState.restoreCollect, Option.some.injEq] at h; subst h; simp
  | e :: r, l, h => by
    unfold LockedState.restoreCollect at h
    split at h
    · cases h
    · obtain ⟨l0, h0, h1⟩ := Option.map_eq_some_iff.mp h
      have := restoreCollect_length r h0
      subst h1
      split <;> simp <;> omega

private theorem restoreApply_count : ∀ (l : List (String × TokenState)) {ls ls' : LockedState},
    ls.restoreApply l = some ls' → ls'.accountCount = ls.accountCount + l.length
  | [], ls, ls', h => by simp only [LockedState.restoreApply, Option.some.injEq] at h; subst h; simp
  | (n, ts) :: r, ls, ls', h => by
    unfold LockedState.restoreApply at h
    split at h
    · cases h
    · have := restoreApply_count r h
      simp only [List.length_cons] at this ⊢
      omega

private theorem restore_count {plain : Bytes} {drain : List (String × TokenState)} {ls' : LockedState}
    (h : ls.restore now wall plain drain = .ok ls') : ls'.accountCount ≤ ls.accountCount + ls.details.length := by
  unfold LockedState.restore at h
  split at h
  · cases h
  · split at h
    · cases h
    · split at h
      · cases h
      · rename_i l hl
        split at h
        · rename_i hp
          split at h
          · cases h
          · rename_i ls0 h0
            cases h
            have h1 := restoreApply_count _ h0
            have h2 := restoreCollect_length _ hl
            have h3 := (List.isPerm_iff.mp hp).length_eq
            omega
        · cases h

private theorem notifyLoop_count {d : Dur} : ∀ (ids : List AccountId) {ls ls' : LockedState} {os : List Obs},
    notifyLoop E now d ids ls = some (ls', os) → ls'.accountCount ≤ ls.accountCount + ids.length
  | [], ls, ls', os, h => by
    simp only [notifyLoop, Option.some.injEq, Prod.mk.injEq] at h
    rw [← h.1]; simp
  | i :: r, ls, ls', os, h => by
    unfold notifyLoop at h
    simp only [List.length_cons]
    split at h
    · cases h
    · split at h
      · split at h
        · rename_i ls1 _ hr
          obtain ⟨⟨ls2, os2⟩, h0, h1⟩ := Option.map_eq_some_iff.mp h
          simp only [Prod.mk.injEq] at h1
          have h2 := notifyLoop_count r h0
          unfold LockedState.tokenstateReplace at hr
          split at hr
          · simp only [Option.some.injEq, Prod.mk.injEq] at hr
            have h3 : ls1.accountCount = ls.accountCount + 1 := by rw [← hr.2]
            rw [h1.1] at h2
            omega
          · cases hr
        · cases h
      · have := notifyLoop_count r h; omega
    · have := notifyLoop_count r h; omega

/-- An operation hands out at most two new identifiers, or one for every account. -/
private theorem ExecR.count (hx : ExecR E S now wall ls tid op inp f) :
    f.ls.accountCount ≤ ls.accountCount + 2 ∨ f.ls.accountCount ≤ ls.accountCount + ls.details.length ∨
      ∃ c, op = .install c ∧ f.ls.accountCount ≤ ls.accountCount + c.accounts.length := by
  cases hx <;> try (refine Or.inl ?_; simp [LockedState.put, LockedState.bump]; done)
  case restoreOk h => exact Or.inr (Or.inl (restore_count h))
  case install c ls' h =>
    refine Or.inr (Or.inr ⟨c, rfl, ?_⟩)
    unfold LockedState.updateConf at h
    obtain ⟨⟨es, c0⟩, h0, h1⟩ := Option.map_eq_some_iff.mp h
    subst h1
    exact updateLoop_count _ _ h0

/-- No counter of failures exceeds `n`. -/
private def Fails (ls : LockedState) (n : Nat) : Prop := ∀ e ∈ ls.details, ∀ t, e.ts = .active t → t.fails ≤ n

private theorem Fails.put {n : Nat} (h : Fails ls n) {id : AccountId} {ts : TokenState}
    (ht : ∀ t, ts = .active t → t.fails ≤ n + 1) : Fails (ls.put id ts) (n + 1) := by
  intro e he t het
  rcases mem_put.mp he with ⟨hm, _⟩ | ⟨e0, _, _, rfl⟩
  · have := h e hm t het; omega
  · exact ht t het

private theorem Fails.mono {n : Nat} (h : Fails ls n) : Fails ls (n + 1) :=
  fun e he t ht => Nat.le_succ_of_le (h e he t ht)

private theorem ExecR.fails {n : Nat} (hx : ExecR E S now wall ls tid op inp f) (hw : ls.WF) (h : Fails ls n)
    (hop : ∀ c, op = .install c → c.Ok E) : Fails f.ls (n + 1) := by
  have hb : Fails ls.bump n := h
  cases hx <;> first
    | exact h.mono
    | (refine Fails.put h fun t ht => ?_; cases ht; done)
    | (refine Fails.put hb fun t ht => ?_; cases ht; done)
    | (refine Fails.put h fun t ht => ?_; simp only [freshActive, TokenState.active.injEq] at ht; subst ht
       simp; done)
    | (refine Fails.put h fun t ht => ?_; rename_i t0 _ _ _; cases ht; have := h _ ‹ls.Has _ _›.1 _ ‹_›; simp only; omega)
    | (refine Fails.put hb fun t ht => ?_; cases ht; have := h _ ‹ls.Has _ _›.1 _ ‹_›; simp only; omega)
    | skip
  case restoreOk hr =>
    obtain ⟨d, _, _, hR⟩ := restore_ok hw hr
    intro e he t ht
    rcases hR.back e he with ⟨hm, _⟩ | ⟨_, e0, _, _, a, tok, o, x, rt, _, _, _, hts⟩
    · have := h e hm t ht; omega
    · rw [ht] at hts
      simp only [TokenState.restore, TokenState.active.injEq] at hts
      subst hts
      simp
  case install c ls' hu =>
    obtain ⟨ls'', h1, _, _, _, h5⟩ := hw.updateConf (hop c rfl).nodup (hop c rfl).names
    rw [hu] at h1
    cases h1
    intro e he t ht
    obtain ⟨a, _, ⟨o, ho, _⟩ | ⟨_, hem, _⟩⟩ := h5 e he
    · have := h e ho.1 t ht; omega
    · rw [hem] at ht; cases ht

end

/-- The configurations which an action can bring in, with at most `k` accounts. -/
private def Small (k : Nat) (a : Action) : Prop := ∀ tid inp c, a = .run tid inp → inp.conf = .ok c → c.accounts.length ≤ k

/-- The bounds after `n` actions. -/
private structure Bounds (k n : Nat) (w : World) : Prop where
  count : w.ls.accountCount ≤ k + n * (k + 2)
  conf : w.ls.config.accounts.length ≤ k
  inst : ∀ i c, .install c ∈ w.threads i → c.accounts.length ≤ k
  fails : Fails w.ls n

private theorem details_length {ls : LockedState} (h : ls.WF) : ls.details.length = ls.config.accounts.length := by
  have := congrArg List.length h.names
  simpa using this

private theorem notifier_count {E : Env} {w w' : World} (h : w.ls.WF) (hs : w.step E .notifier = some w') :
    w'.ls.accountCount ≤ w.ls.accountCount + w.ls.details.length := by
  simp only [World.step] at hs
  split at hs
  · cases hs
  · cases hs
  · unfold World.stepNotifier at hs
    split at hs
    · split at hs <;> cases hs <;> simp
    · split at hs
      · cases hs; simp
      · cases hs
    · split at hs
      · cases hs; simp
      · rename_i ls' cmds hl
        cases hs
        have := notifyLoop_count _ hl
        simpa [World.observe, LockedState.actIds] using this

private theorem Bounds.step {E : Env} {k n : Nat} {w w' : World} {a : Action} (hi : Inv0 E w) (h : Bounds k n w)
    (ha : Small k a) (hs : w.step E a = some w') : Bounds k (n + 1) w' := by
  have hk : n * (k + 2) + (k + 2) = (n + 1) * (k + 2) := by rw [Nat.add_mul, Nat.one_mul]
  have hd := details_length hi.wf
  have hc := h.count
  have hconf := h.conf
  have same : Bounds k (n + 1) w := ⟨by omega, h.conf, h.inst, h.fails.mono⟩
  obtain ⟨hrun, hr⟩ := stepR_of_step hi.wf hs
  cases hr with
  | connect buf hb =>
    refine ⟨same.count, same.conf, ?_, same.fails⟩
    intro i c hm
    simp only [setThread] at hm
    split at hm
    · simp at hm
    · exact h.inst i c hm
  | http buf sec hb =>
    refine ⟨same.count, same.conf, ?_, same.fails⟩
    intro i c hm
    simp only [setThread] at hm
    split at hm
    · simp at hm
    · exact h.inst i c hm
  | @run tid inp op rest f ht hx =>
    have hop : ∀ c, op = .install c → c.Ok E := by
      rintro c rfl
      exact hi.inst tid c (by rw [ht]; simp)
    have hopk : ∀ c, op = .install c → c.accounts.length ≤ k := by
      rintro c rfl
      exact h.inst tid c (by rw [ht]; simp)
    refine ⟨?_, ?_, ?_, hx.fails hi.wf h.fails hop⟩
    · simp only [World.apply]
      rcases hx.count with h1 | h1 | ⟨c, h0, h1⟩
      · omega
      · omega
      · have := hopk c h0; omega
    · rcases (hx.state hi.wf hop).2.2 with h3 | h3
      · simp only [World.apply]; rw [h3]; exact h.conf
      · exact hopk _ h3
    · intro i c hm
      rcases mem_apply_threads hm with ⟨rfl, hm | hm⟩ | ⟨_, hm, _⟩ | ⟨_, hm, _⟩
      · obtain ⟨_, _, _, hcf, _⟩ := hx.next_install (Or.inl hm); exact ha _ _ c rfl hcf
      · exact h.inst i c (by rw [ht]; exact List.mem_cons_of_mem _ hm)
      · obtain ⟨_, _, _, hcf, _⟩ := hx.next_install (Or.inr hm); exact ha _ _ c rfl hcf
      · exact h.inst i c hm
  | @refScan es hp he =>
    refine ⟨same.count, same.conf, ?_, same.fails⟩
    intro i c hm
    simp only at hm
    rcases spawnAll_cases w.threads w.nextTid i (es.map fun e => .rfStart e.id) with
      ⟨_, h1⟩ | ⟨_, op, hop, h1⟩ | ⟨_, h1⟩
    · rw [h1] at hm; exact h.inst i c hm
    · rw [h1] at hm
      simp at hm
      subst hm
      simp at hop
    · rw [h1] at hm; exact h.inst i c hm
  | @notScan ls' hp hn =>
    refine ⟨?_, ?_, h.inst, ?_⟩
    · have := notifier_count hi.wf hs
      omega
    · simp only; rw [hn.config]; exact h.conf
    · intro e he t ht
      rcases hn.back e he with ⟨hm, _⟩ | ⟨_, _, _, _, _, hts, _⟩
      · have := h.fails e hm t ht; omega
      · rw [ht] at hts; cases hts
  | _ => exact ⟨same.count, same.conf, same.inst, same.fails⟩

private theorem Bounds.run {E : Env} {k : Nat} : ∀ (acts : List Action) {n : Nat} {w w' : World}, Inv0 E w →
    Bounds k n w → (∀ a ∈ acts, Small k a) → w.run E acts = some w' → Bounds k (n + acts.length) w'
  | [], n, w, w', _, h, _, hr => by
    simp only [World.run, Option.some.injEq] at hr
    subst hr; exact h
  | a :: r, n, w, w', hi, h, ha, hr => by
    simp only [World.run] at hr
    split at hr
    · cases hr
    · rename_i w1 hs
      have h1 := h.step hi (ha a (by simp)) hs
      have h2 := Bounds.run r (hi.step (stepR_of_step hi.wf hs).2) h1 (fun b hb => ha b (List.mem_cons_of_mem _ hb)) hr
      have : n + 1 + r.length = n + (a :: r).length := by simp; omega
      exact this ▸ h2

private theorem bounds {E : Env} {k : Nat} {w0 w : World} {acts : List Action} (hi : IsInit E w0)
    (h0 : w0.ls.config.accounts.length ≤ k) (ha : ∀ tid inp c, .run tid inp ∈ acts → inp.conf = .ok c → c.accounts.length ≤ k)
    (hr : w0.run E acts = some w) : Bounds k acts.length w := by
  have hb : Bounds k 0 w0 := by
    refine ⟨?_, h0, ?_, ?_⟩
    · rw [hi.ls]; simp only [LockedState.new]; omega
    · intro i c hm; rw [hi.threads i] at hm; simp at hm
    · intro e he t ht
      rw [hi.ls] at he
      have := newDetails_mem _ _ e he
      rw [this.2.2] at ht; cases ht
  have := hb.run acts (Inv0.init hi) (fun a hm tid inp c he hc => ha tid inp c (he ▸ hm) hc) hr
  simpa using this

/-- **C122** (identifiers): if no configuration has more than `k` accounts, an execution of `n` actions hands out at
most `k + n * (k + 2)` identifiers, and the identifiers of the accounts are below that. -/
theorem C122_ids (E : Env) (k : Nat) (w0 w : World) (acts : List Action) (hi : IsInit E w0)
    (h0 : w0.ls.config.accounts.length ≤ k) (ha : ∀ tid inp c, .run tid inp ∈ acts → inp.conf = .ok c → c.accounts.length ≤ k)
    (hr : w0.run E acts = some w) :
    w.ls.accountCount ≤ k + acts.length * (k + 2) ∧ ∀ e ∈ w.ls.details, e.id < k + acts.length * (k + 2) := by
  have hb := bounds hi h0 ha hr
  have hi' : Inv0 E w := by
    clear hb h0 ha
    have : ∀ (l : List Action) {w0 w : World}, Inv0 E w0 → w0.run E l = some w → Inv0 E w := by
      intro l
      induction l with
      | nil => intro w0 w h hr; simp only [World.run, Option.some.injEq] at hr; subst hr; exact h
      | cons a r ih =>
        intro w0 w h hr
        simp only [World.run] at hr
        split at hr
        · cases hr
        · rename_i w1 hs; exact ih (h.step (stepR_of_step h.wf hs).2) hr
    exact this acts (Inv0.init hi) hr
  refine ⟨hb.count, fun e he => Nat.lt_of_lt_of_le (hi'.wf.lt e he) hb.count⟩

/-- **C122** (identifiers): in a `u128`, the counter does not wrap before 2^64 actions, if no configuration has more than
2^62 accounts. -/
theorem C122_u128 (E : Env) (w0 w : World) (acts : List Action) (hi : IsInit E w0)
    (h0 : w0.ls.config.accounts.length ≤ 2 ^ 62)
    (ha : ∀ tid inp c, .run tid inp ∈ acts → inp.conf = .ok c → c.accounts.length ≤ 2 ^ 62)
    (hn : acts.length < 2 ^ 64) (hr : w0.run E acts = some w) : w.ls.accountCount < 2 ^ 128 := by
  have h := (C122_ids E (2 ^ 62) w0 w acts hi h0 ha hr).1
  have : acts.length * (2 ^ 62 + 2) ≤ 2 ^ 64 * (2 ^ 62 + 2) := Nat.mul_le_mul_right _ (Nat.le_of_lt hn)
  have : (2 : Nat) ^ 62 + 2 ^ 64 * (2 ^ 62 + 2) < 2 ^ 128 := by decide
  omega

/-- **C122** (failures): after `n` actions, no token has more than `n` failed refreshes on record; in a `u64`, the counter
does not overflow before 2^64 actions. -/
theorem C122_fails (E : Env) (w0 w : World) (acts : List Action) (hi : IsInit E w0) (hr : w0.run E acts = some w)
    (e : Entry) (he : e ∈ w.ls.details) (t : ActiveTok) (ht : e.ts = .active t) :
    t.fails ≤ acts.length := by
  obtain ⟨k, h0, ha⟩ : ∃ k, w0.ls.config.accounts.length ≤ k ∧
      ∀ tid inp c, .run tid inp ∈ acts → inp.conf = .ok c → c.accounts.length ≤ k := by
    clear hr
    induction acts with
    | nil => exact ⟨_, Nat.le_refl _, by simp⟩
    | cons a r ih =>
      obtain ⟨k, h0, ha⟩ := ih
      have : ∃ m, ∀ tid inp c, a = .run tid inp → inp.conf = .ok c → c.accounts.length ≤ m := by
        cases a with
        | run tid inp =>
          cases hcf : inp.conf with
          | ok c => exact ⟨c.accounts.length, fun _ _ c' h1 h2 => by cases h1; rw [hcf] at h2; cases h2; exact Nat.le_refl _⟩
          | _ => exact ⟨0, fun _ _ c' h1 h2 => by cases h1; rw [hcf] at h2; cases h2⟩
        | _ => exact ⟨0, fun _ _ _ h => by cases h⟩
      obtain ⟨m, hm⟩ := this
      refine ⟨k + m, by omega, fun tid inp c hin hc => ?_⟩
      rcases List.mem_cons.mp hin with h | h
      · have := hm tid inp c h.symm hc; omega
      · have := ha tid inp c h hc; omega
  exact (bounds hi h0 ha hr).fails e he t ht

/-! ## Examples -/

/-- Two accounts, one authorisation: four identifiers are handed out. -/
example : (Demo.w0.run Demo.env Demo.sToken).map (fun w => (w.ls.accountCount, w.ls.details.map Entry.id)) =
    some (4, [3, 1]) := by decide +kernel

/-- A refresh fails because the name of the server is not known: one failure is on record. -/
example : ((Demo.after (Demo.sRefresh ++ [.run 2 {}, .run 2 { net := .transport .dns }, .run 2 {}])).ls.details.map
    fun e => match e.ts with | .active t => some t.fails | _ => none) = [some 1, none] := by decide +kernel

end Pizauth
