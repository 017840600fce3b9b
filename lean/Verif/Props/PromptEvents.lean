import Verif.Proof.PromptEvents
import Verif.Props.Prompt

/-!
# C101: events are executed in time
-/

namespace Pizauth
open LockedState

variable {E : Env} {r : Run E} {δ c : Nat}

/-- **C101.** The command is run for the first event which waits within `c + 6·δ`, for the first two within twice that
time, and so on. -/
theorem C101 (hf : r.Prompt δ) (he : r.PromptEvents δ c) {k : Nat} (hst : NotStranded (r.world k))
    (hset : ∀ m, k ≤ m → (r.world m).ls.config.tokenEventCmd.isSome = true) {l l' : List (String × TokenEvent)}
    (hl : openEvents (r.world k) = l ++ l') :
    ∃ m x, k ≤ m ∧ (r.world m).now ≤ (r.world k).now + (l.length : Int) * ((c : Int) + 6 * (δ : Int)) ∧
      executedEvents (r.world m).log = executedEvents (r.world k).log ++ l ++ x := by
  have hall := r.notStranded hst hset
  suffices ∀ j, j ≤ l.length → ∃ m x, k ≤ m ∧
      (r.world m).now ≤ (r.world k).now + (j : Int) * ((c : Int) + 6 * (δ : Int)) ∧
      Run.EvRel (r.world k) (r.world m) x ∧ j ≤ x.length by
    obtain ⟨m, x, hm, hb, ⟨h1, q, h2⟩, h3⟩ := this l.length (Nat.le_refl _)
    rw [hl, List.append_assoc] at h2
    obtain ⟨y, hy⟩ := List.prefix_of_prefix_length_le (List.prefix_append l (l' ++ q))
      (h2 ▸ List.prefix_append x (openEvents (r.world m))) h3
    exact ⟨m, y, hm, hb, by rw [h1, ← hy, List.append_assoc]⟩
  intro j
  induction j with
  | zero => exact fun _ => ⟨k, [], Nat.le_refl _, by omega, ⟨by simp, [], by simp⟩, Nat.le_refl _⟩
  | succ j ih =>
    intro hj
    obtain ⟨m, x, hm, hb, hrel, hx⟩ := ih (by omega)
    have hmul : ((j + 1 : Nat) : Int) * ((c : Int) + 6 * (δ : Int)) =
        (j : Int) * ((c : Int) + 6 * (δ : Int)) + ((c : Int) + 6 * (δ : Int)) := by
      rw [Int.natCast_succ, Int.add_mul, Int.one_mul]
    by_cases hlt : j + 1 ≤ x.length
    · exact ⟨m, x, hm, by omega, hrel, hlt⟩
    · have hopen : openEvents (r.world m) ≠ [] := by
        intro hc
        obtain ⟨_, q, h⟩ := hrel
        rw [hc, hl] at h
        have := congrArg List.length h
        simp at this
        omega
      obtain ⟨m', y, hm', hb', hy, hrel'⟩ := he.exec hf (fun m' h => hall m' (by omega)) (fun m' h => hset m' (by omega)) hopen
      refine ⟨m', x ++ y, by omega, by omega, hrel.trans hrel', ?_⟩
      have := List.length_pos_iff.mpr hy
      simp; omega

/-- **C101.** What a thread has to tell (see C33 and C57) is queued within `3·δ`, behind the events which wait then. -/
theorem C101_queued (hf : r.Prompt δ) {k i : Nat} {n : String} {e : TokenEvent}
    (h : .pushEvent n e ∈ (r.world k).threads i) :
    ∃ m, k ≤ m ∧ (r.world m).now ≤ (r.world k).now + 3 * (δ : Int) ∧
      openEvents (r.world (m + 1)) = openEvents (r.world m) ++ [(n, e)] := by
  obtain ⟨m, inp, f, rest, hm, hb, hx, hw⟩ := hf.wakes (o := .pushEvent n e) rfl 3 h (Reach.soon _ (r.reach k) i)
  refine ⟨m, hm, by omega, ?_⟩
  rw [hw]
  cases hx
  simp [openEvents, World.apply]

/-! ## These are not empty promises -/

theorem Run.PromptEvents.cons {r : Run E} (hf : r.PromptEvents δ c) {w : World} {a : Action} (hr : Reach E w)
    (hs : w.step E a = some (r.world 0))
    (h : (r.world 0).now = w.now ∨ w.stepEventer = none) : (r.cons hr hs).PromptEvents δ c where
  eventer
    | 0, hn => by
      rcases h with h | h
      · obtain ⟨m, hm, hb, h'⟩ := hf.eventer 0 fun m hm hb => hn (m + 1) (by omega) (by
          show (r.world m).now ≤ w.now + (δ : Int)
          omega)
        refine ⟨m + 1, by omega, ?_, h'⟩
        show (r.world m).now ≤ w.now + (δ : Int)
        omega
      · exact absurd h (hn 0 (Nat.le_refl _) (by omega)).1
    | n + 1, hn => by
      obtain ⟨m, hm, hb, h'⟩ := hf.eventer n fun m hm hb => hn (m + 1) (by omega) hb
      exact ⟨m + 1, by omega, hb, h'⟩
  command
    | 0, hn => by
      have hn' : w.evPc = .running := hn
      rcases h with h | h
      · by_cases ha : (r.cons hr hs).action 0 = some .eventer
        · exact ⟨0, Nat.le_refl _, by omega, ha⟩
        · obtain ⟨m, hm, hb, h'⟩ := hf.command 0 (((r.cons hr hs).evPc_keep ha).trans hn)
          refine ⟨m + 1, by omega, ?_, h'⟩
          show (r.world m).now ≤ w.now + (c : Int)
          omega
      · rw [World.stepEventer, hn'] at h; cases h
    | n + 1, hn => by
      obtain ⟨m, hm, hb, h'⟩ := hf.command n hn
      exact ⟨m + 1, by omega, hb, h'⟩

/-- The clock moves only when the event thread has nothing to do, either, and at the end it has not. -/
def eagerEvB (E : Env) : World → List Action → Bool
  | w, [] => w.stepEventer.isNone
  | w, a :: l =>
    match w.step E a with
    | some w' => (w'.now == w.now || w.stepEventer.isNone) && eagerEvB E w' l
    | none => false

theorem Run.promptEvents_of : ∀ (l : List Action) {w : World}, Reach E w → eagerB E δ w l = true →
    eagerEvB E w l = true →
    ∃ r : Run E, r.Prompt δ ∧ r.PromptEvents δ c ∧ r.world 0 = w ∧
      (∀ m, ∃ j, j ≤ l.length ∧ w.run E (l.take j) = some (r.world m))
  | [], w, hr, h, h' => by
    simp only [eagerB, Bool.and_eq_true, decide_eq_true_eq] at h
    exact ⟨Run.still hr, Run.still_prompt hr h.1 (idle_of hr h.2),
      Run.still_promptEvents hr (by simpa [eagerEvB] using h'), rfl, fun m => ⟨0, Nat.le_refl _, rfl⟩⟩
  | a :: l, w, hr, h, h' => by
    unfold eagerB at h
    unfold eagerEvB at h'
    cases hs : w.step E a with
    | none => rw [hs] at h; cases h
    | some w1 =>
      rw [hs] at h h'
      simp only [Bool.and_eq_true, Bool.or_eq_true, beq_iff_eq, decide_eq_true_eq] at h
      simp only [Bool.and_eq_true, Bool.or_eq_true, beq_iff_eq, Option.isNone_iff_eq_none] at h'
      have hr1 := Reach.step a hr hs
      obtain ⟨r, hf, he, h0, h3⟩ := Run.promptEvents_of l hr1 h.2 h'.2
      have hs' : w.step E a = some (r.world 0) := by rw [h0]; exact hs
      refine ⟨r.cons hr hs', hf.cons hr hs' (by rw [h0]; exact h.1.imp id fun ⟨h1, h2⟩ => ⟨h1, idle_of hr h2⟩),
        he.cons hr hs' (by rw [h0]; exact h'.1), rfl, ?_⟩
      intro m
      cases m with
      | zero => exact ⟨0, by simp, rfl⟩
      | succ m =>
        obtain ⟨j, hj, h⟩ := h3 m
        exact ⟨j + 1, by simpa using hj, by simp only [List.take_succ_cons, World.run, hs]; exact h⟩

open Demo in
/-- Account "a" has just obtained a token and nobody has been told: the command is run within 90 seconds if it takes 30
at most, and everybody gets a turn within 10. -/
example : ∃ r : Run env, r.world 0 = after sToken ∧ ∃ m x, (r.world m).now ≤ 90000000000 ∧
    executedEvents (r.world m).log = ("a", .new) :: x := by
  obtain ⟨r, hf, he, h0, h3⟩ := Run.promptEvents_of (δ := ten) (c := 30000000000)
    (n0 0 ++ [.eventer, .eventer, .eventer, .eventer, .eventer] ++
      eager env ten 8 (after (sToken ++ [.eventer, .eventer, .eventer, .eventer, .eventer])))
    (after_reach sToken) (by decide +kernel) (by decide +kernel)
  have hset : ∀ m, (r.world m).ls.config.tokenEventCmd.isSome = true :=
    Run.prompt_all (P := fun w => w.ls.config.tokenEventCmd.isSome) h3 (by decide +kernel)
  have h1 : executedEvents (after sToken).log = [] := by decide +kernel
  have h2 : openEvents (after sToken) = [("a", .new)] := by decide +kernel
  have hnow : (after sToken).now = 0 := by decide +kernel
  obtain ⟨m, x, _, hb, h⟩ := C101 hf he (k := 0) (l := [("a", .new)]) (l' := []) (by
    rw [h0]
    intro _
    right; left
    decide +kernel) (fun m _ => hset m) (by rw [h0, h2]; rfl)
  rw [h0, hnow] at hb
  rw [h0, h1] at h
  exact ⟨r, h0, m, x, by simpa [ten] using hb, h⟩

open Demo in
/-- A thread which has an event to tell. -/
example : ∃ w, Reach env w ∧ .pushEvent "a" .new ∈ w.threads 1 := by
  have h : ((after (sAsk ++ [.http callback false] ++ n1 3 ++ [.run 1 { net := .body answer }] ++ n1 1)).threads 1).any
      (fun o => match o with | .pushEvent n .new => n == "a" | _ => false) = true := by decide +kernel
  obtain ⟨o, ho, h⟩ := List.any_eq_true.mp h
  split at h
  · simp only [beq_iff_eq] at h
    subst h
    exact ⟨_, after_reach _, ho⟩
  · cases h

end Pizauth
