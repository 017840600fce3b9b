import Verif.Proof.Deadline
import Verif.Props.Prompt

/-!
# C114, C115: logins and refreshes come to an end in time
-/

namespace Pizauth
open LockedState

variable {E : Env} {r : Run E} {δ T C : Nat}

/-- **C114.** A request from a browser, and the login it is part of, is dealt with in time: with at most ten attempts to
reach the token server and pauses of six seconds between them. -/
theorem C114 (hf : r.Timely δ T C) {k : Nat} {buf : Bytes} {sec : Bool} (h : r.action k = some (.http buf sec)) :
    ∃ i m, k < m ∧ (r.world m).now ≤ (r.world k).now + 10 * ((T : Int) + 6000000000) + 27 * (δ : Int) ∧
      (r.world (k + 1)).log = ((r.world k).now, .httpReq i buf sec) :: (r.world k).log ∧
      (r.world (k + 1)).threads i = [.http buf sec] ∧ (r.world m).threads i = [] := by
  have hstart : (r.world (k + 1)).threads (r.world k).nextTid = [.http buf sec] ∧
      (r.world (k + 1)).now = (r.world k).now ∧
      (r.world (k + 1)).log = ((r.world k).now, .httpReq (r.world k).nextTid buf sec) :: (r.world k).log := by
    rcases r.stepR k with ⟨h', _⟩ | ⟨a, h', _, hs⟩
    · rw [h] at h'; cases h'
    · rw [h] at h'
      cases h'
      generalize r.world (k + 1) = w' at hs
      cases hs
      exact ⟨setThread_same .., rfl, rfl⟩
  obtain ⟨S, hS⟩ : ∃ S : Nat, (S : Int) = 6000000000 := ⟨6000000000, rfl⟩
  obtain ⟨m, hm, hb, he⟩ := hf.ends (S := S) (by omega) (k + 1) (r.world k).nextTid
  rw [hstart.1, hstart.2.1] at hb
  simp only [opsLast, Op.lasts, List.map_cons, List.map_nil, List.sum_cons, List.sum_nil] at hb
  exact ⟨_, m, by omega, by omega, hstart.2.2, hstart.1, he⟩

/-- **C114.** So within six minutes (and a few turns), if requests to token servers time out after 30 seconds. -/
theorem C114_minutes (hf : r.Timely δ T C) (hT : (T : Int) ≤ 30 * 1000000000) {k : Nat} {buf : Bytes} {sec : Bool}
    (h : r.action k = some (.http buf sec)) :
    ∃ i m, k < m ∧ (r.world m).now ≤ (r.world k).now + 6 * 60 * 1000000000 + 27 * (δ : Int) ∧
      (r.world (k + 1)).log = ((r.world k).now, .httpReq i buf sec) :: (r.world k).log ∧
      (r.world (k + 1)).threads i = [.http buf sec] ∧ (r.world m).threads i = [] := by
  obtain ⟨i, m, h1, h2, h3⟩ := C114 hf h
  exact ⟨i, m, h1, by omega, h3⟩

/-- **C115.** No account is marked as being refreshed for longer than one request, one run of `transient_error_if_cmd` and
seven turns take. -/
theorem C115 (hf : r.Timely δ T C) (k : Nat) (n : String) :
    ∃ m, k ≤ m ∧ (r.world m).now ≤ (r.world k).now + (T : Int) + (C : Int) + 7 * (δ : Int) ∧
      ¬ Marked (r.world m).ls n := by
  refine Classical.byContradiction fun hex => ?_
  have hall : ∀ m, k ≤ m → (r.world m).now ≤ (r.world k).now + (T : Int) + (C : Int) + 7 * (δ : Int) →
      Marked (r.world m).ls n := fun m hm hb => Classical.not_not.mp fun hc => hex ⟨m, hm, hb, hc⟩
  obtain ⟨e, he, t, hn, hts, hon⟩ := hall k (Nat.le_refl _) (by omega)
  obtain ⟨i, hi⟩ := (Reach.refInv _ (r.reach k)).marked e he t hts hon
  obtain ⟨S, hS⟩ : ∃ S : Nat, (S : Int) = 6000000000 := ⟨6000000000, rfl⟩
  obtain ⟨m, hm, hb, hend⟩ := hf.ends (S := S) (by omega) k i
  have hlast : opsLast δ T C S ((r.world k).threads i) ≤ T + C + 7 * δ := by
    obtain ⟨o, ho, hh⟩ := hi
    rw [((Reach.shape _ (r.reach k)).refreshing ho hh).2]
    cases o <;> simp only [Op.refreshHandle, reduceCtorEq] at hh <;>
      simp only [opsLast, Op.lasts, List.map_cons, List.map_nil, List.sum_cons, List.sum_nil] <;> omega
  have hkeep : RefreshingAccount (r.world m) i n := by
    refine Run.keepIn (r := r) (P := fun m => RefreshingAccount (r.world m) i n) (B := (r.world m).now) ⟨e, he, hn, hi⟩
      (fun j hj hjb h => ?_) m hm (Int.le_refl _)
    have := r.now_le_succ j
    rcases r.stepR j with ⟨_, h'⟩ | ⟨a, _, _, hs⟩
    · rw [h']; exact h
    · exact hs.refreshingAccount (r.reach j) h (hall j hj (by omega)) (hall (j + 1) (by omega) (by omega))
  obtain ⟨_, _, _, o, ho, _⟩ := hkeep
  rw [hend] at ho
  cases ho

/-! ## These are not empty promises -/

/-- Whoever waits in the `j`th world of an execution is not kept waiting for long. -/
def answeredB (E : Env) (δ T C : Nat) (w : World) (l : List Action) (j : Nat) : Bool :=
  (w.run E (l.take j)).all fun v => (List.range v.nextTid).all fun i =>
    match v.threads i with
    | [] => true
    | op :: _ => !op.waits || (List.range l.length).any fun m => decide (j ≤ m) &&
        (match l[m]? with | some (.run i' _) => i' == i | _ => false) &&
        (w.run E (l.take m)).all fun v' => decide (v'.now ≤ v.now + (op.patience δ T C v.now : Int))

theorem Run.timely_of (l : List Action) {w : World} (hr : Reach E w) (h : eagerB E δ w l = true)
    (ha : (List.range (l.length + 1)).all (answeredB E δ T C w l) = true) :
    ∃ r : Run E, r.Timely δ T C ∧ r.world 0 = w ∧ (∀ m, w.run E (l.take m) = some (r.world m)) ∧
      ∀ k (h : k < l.length), r.action k = some l[k] := by
  obtain ⟨r, hf, h0, h3, h2⟩ := Run.prompt_of_take l hr h
  refine ⟨r, ⟨hf, fun n i op rest ht hw => ?_⟩, h0, h3, h2⟩
  have hn := List.all_eq_true.mp ha (min n l.length) (List.mem_range.mpr (by omega))
  unfold answeredB at hn
  rw [← List.take_eq_take_min, h3 n] at hn
  simp only [Option.all_some, List.all_eq_true, List.mem_range] at hn
  have hi := hn i ((r.reach n).inv0.lt_of_mem ht)
  rw [ht] at hi
  simp only [hw, Bool.not_true, Bool.false_or, List.any_eq_true, List.mem_range, Bool.and_eq_true, decide_eq_true_eq,
    h3, Option.all_some] at hi
  obtain ⟨m, hm, ⟨hj, hact⟩, hb⟩ := hi
  refine ⟨m, by omega, hb, ?_⟩
  rw [h2 m hm]
  rw [List.getElem?_eq_getElem hm] at hact
  split at hact
  · rename_i heq
    simp only [beq_iff_eq] at hact
    injection heq with heq
    exact ⟨_, by rw [heq, hact]⟩
  · cases hact

/-- Go on as long as there is something to do. -/
def settle (E : Env) : Nat → World → List Action
  | 0, _ => []
  | k + 1, w =>
    let a : Option Action :=
      match (List.range w.nextTid).find? (fun i => !(w.threads i).head?.all Op.waits) with
      | some i => some (.run i {})
      | none => if w.stepRefresher.isSome then some .refresher else if (w.stepNotifier E).isSome then some .notifier else none
    match a with
    | none => []
    | some a => match w.step E a with
      | some w' => a :: settle E k w'
      | none => []

/-- What happens outside, and after each of it what there is to do. -/
def drive (E : Env) : List Action → World → List Action
  | [], w => settle E 30 w
  | a :: l, w =>
    let s := settle E 30 w
    match (w.run E s).bind (·.step E a) with
    | some w' => s ++ a :: drive E l w'
    | none => s

namespace Demo

/-- Five seconds. -/
def five : Nat := 5000000000

/-- The token server cannot be reached at first; ten seconds later it is tried again, and answers after another ten. -/
def outage : List Action := drive env [.http callback false, .tick five, .tick five, .run 1 {}, .tick five, .tick five,
  .run 1 {}, .tick five, .tick five, .run 1 { net := .body answer }] (after sAsk)

/-- A refresh is answered after ten seconds. -/
def slow : List Action := drive env [.tick five, .tick five, .run 2 { net := .body answer2 }] (after sRefresh)

end Demo

open Demo in
/-- C114: a login for which the token server is not reached at first; there is a token at the end. -/
example : ∃ r : Run env, r.Timely five 10000000000 0 ∧ r.action 5 = some (.http callback false) ∧
    (∃ i m, (r.world m).now ≤ 295000000000 ∧ (r.world 6).threads i = [.http callback false] ∧
      (r.world m).threads i = []) ∧
    ∃ t, HoldsToken (r.world 26).ls "a" t ∧ t.accessToken = "T1" := by
  obtain ⟨r, hf, h0, h3, h2⟩ := Run.timely_of (δ := five) (T := 10000000000) (C := 0) outage (after_reach sAsk)
    (by decide +kernel) (by decide +kernel)
  refine ⟨r, hf, h2 5 (by decide +kernel), ?_, ?_⟩
  · obtain ⟨i, m, _, hb, _, h4, h5⟩ := C114 hf (h2 5 (by decide +kernel))
    refine ⟨i, m, ?_, h4, h5⟩
    have : (r.world 5).now = 0 := by
      have h : ((after sAsk).run env (outage.take 5)).map World.now = some 0 := by decide +kernel
      rw [h3 5] at h
      simpa using h
    rw [this] at hb
    have h5 : five = 5000000000 := rfl
    omega
  · have h : ((after sAsk).run env (outage.take 26)).any (fun w => w.ls.details.any fun e => e.name == "a" &&
        match e.ts with | .active t => t.accessToken == "T1" | _ => false) = true := by decide +kernel
    rw [h3 26] at h
    simp only [Option.any_some, List.any_eq_true, Bool.and_eq_true, beq_iff_eq] at h
    obtain ⟨e, he, hn, h⟩ := h
    cases hts : e.ts with
    | active t => rw [hts] at h; exact ⟨t, ⟨e, he, hn, hts⟩, by simpa using h⟩
    | empty => rw [hts] at h; cases h
    | pending p => rw [hts] at h; cases h

open Demo in
/-- C115: a refresh which takes ten seconds. -/
example : ∃ r : Run env, r.Timely five 10000000000 0 ∧ Marked (r.world 0).ls "a" ∧
    ∃ m, (r.world m).now ≤ 45000000000 ∧ ¬ Marked (r.world m).ls "a" := by
  obtain ⟨r, hf, h0, h3, _⟩ := Run.timely_of (δ := five) (T := 10000000000) (C := 0) slow (after_reach sRefresh)
    (by decide +kernel) (by decide +kernel)
  refine ⟨r, hf, ?_, ?_⟩
  · have h : (after sRefresh).ls.details.any (fun e => e.name == "a" &&
        match e.ts with | .active t => t.ongoing | _ => false) = true := by decide +kernel
    rw [h0]
    simp only [List.any_eq_true, Bool.and_eq_true, beq_iff_eq] at h
    obtain ⟨e, he, hn, h⟩ := h
    cases hts : e.ts with
    | active t => rw [hts] at h; exact ⟨e, he, t, hn, hts, h⟩
    | empty => rw [hts] at h; cases h
    | pending p => rw [hts] at h; cases h
  · obtain ⟨m, _, hb, h⟩ := C115 hf 0 "a"
    refine ⟨m, ?_, h⟩
    have : (r.world 0).now = 0 := by rw [h0]; decide +kernel
    rw [this] at hb
    have h5 : five = 5000000000 := rfl
    omega

end Pizauth
