import Verif.Spec.PromptEvents
import Verif.Proof.Prompt

/-!
# Events are executed soon
-/

namespace Pizauth
namespace Run
variable {E : Env} {r : Run E} {δ c : Nat}

theorem ev_step (r : Run E) {m : Nat} (ha : r.action m = some .eventer) :
    StepR E (r.world m) .eventer (r.world (m + 1)) := by
  rcases r.stepR m with ⟨h, _⟩ | ⟨a, h', _, hs⟩
  · rw [ha] at h; cases h
  · rw [ha] at h'; cases h'; exact hs

theorem ev_now (r : Run E) {m : Nat} (ha : r.action m = some .eventer) : (r.world (m + 1)).now = (r.world m).now := by
  have hs := r.ev_step ha
  generalize r.world (m + 1) = w' at hs
  cases hs <;> rfl

theorem PromptEvents.turn (hf : r.PromptEvents δ c) {n : Nat} (h : (r.world n).evPc ≠ .wait)
    (h' : (r.world n).evPc ≠ .running) :
    ∃ m, n ≤ m ∧ (r.world m).now ≤ (r.world n).now + (δ : Int) ∧ r.action m = some .eventer ∧
      (r.world m).evPc = (r.world n).evPc := by
  by_cases hex : ∃ m, n ≤ m ∧ r.action m = some .eventer ∧ (r.world m).now ≤ (r.world n).now + (δ : Int)
  · obtain ⟨m, hm, ⟨ha, hnow⟩, hk⟩ := first hex
    refine ⟨m, hm, hnow, ha, keepUntil (P := fun k => (r.world k).evPc = (r.world n).evPc) rfl hm
      fun k h1 h2 h3 => (r.evPc_keep fun hc => hk k h1 h2 ⟨hc, ?_⟩).trans h3⟩
    exact Int.le_trans (r.now_mono (by omega)) hnow
  · obtain ⟨m, h1, h2, h3⟩ := hf.eventer n fun m hm hb => by
      have : (r.world m).evPc = (r.world n).evPc :=
        keepIn (r := r) (P := fun k => (r.world k).evPc = (r.world n).evPc) rfl
          (fun k h1 h2 h3 => (r.evPc_keep fun hc => hex ⟨k, h1, hc, Int.le_trans (r.now_le_succ k) h2⟩).trans h3) m hm hb
      refine ⟨?_, by rw [this]; exact h'⟩
      unfold World.stepEventer
      rw [this]
      cases hpc : (r.world n).evPc with
      | wait => exact absurd hpc h
      | drain => simp only; split <;> simp
      | readCmd act e => simp only; split <;> simp
      | running => exact absurd hpc h'
    exact absurd ⟨m, h1, h3, h2⟩ hex

theorem PromptEvents.ended (hf : r.PromptEvents δ c) {n : Nat} (h : (r.world n).evPc = .running) :
    ∃ m, n ≤ m ∧ (r.world m).now ≤ (r.world n).now + (c : Int) ∧ (r.world m).evPc = .drain := by
  obtain ⟨k, hk, hb, ha⟩ := hf.command n h
  obtain ⟨m, hm, ⟨ha, hle⟩, hfirst⟩ := first (P := fun m => r.action m = some .eventer ∧ m ≤ k) ⟨k, hk, ha, Nat.le_refl _⟩
  have hpk : (r.world m).evPc = .running :=
    keepUntil (P := fun j => (r.world j).evPc = .running) h hm fun j h1 h2 h3 =>
      (r.evPc_keep fun hc => hfirst j h1 h2 ⟨hc, by omega⟩).trans h3
  have hmb := r.now_mono hle
  have hn := r.ev_now ha
  refine ⟨m + 1, by omega, by omega, ?_⟩
  have hs := r.ev_step ha
  clear hn
  generalize r.world (m + 1) = w' at hs
  cases hs <;> first
    | rfl
    | (rename_i hp1; rw [hpk] at hp1; cases hp1; done)
    | (rename_i hp1 hp2; rw [hpk] at hp1; cases hp1; done)

theorem PromptEvents.wakes (hf : r.PromptEvents δ c) (hp : r.Prompt δ) {n : Nat} (h : (r.world n).evPc = .wait)
    (hw : EventerWoken (r.world n)) :
    ∃ m, n ≤ m ∧ (r.world m).now ≤ (r.world n).now + 4 * (δ : Int) ∧ (r.world m).evPc = .drain := by
  by_cases hex : ∃ m, n ≤ m ∧ (r.world m).now ≤ (r.world n).now + 4 * (δ : Int) ∧ (r.world m).evPc = .drain
  · exact hex
  exfalso
  have hact : ∀ m, (r.world m).evPc = .wait → r.action m = some .eventer → (r.world (m + 1)).evPc = .drain := by
    intro m hm ha
    have hs := r.ev_step ha
    generalize r.world (m + 1) = w' at hs
    cases hs <;> first | rfl | (rename_i hp; rw [hm] at hp; cases hp) | (rename_i hp _; rw [hm] at hp; cases hp)
  have hstay : ∀ m, n ≤ m → (r.world m).now ≤ (r.world n).now + 4 * (δ : Int) → (r.world m).evPc = .wait := by
    refine keepIn (r := r) (P := fun m => (r.world m).evPc = .wait) h fun m hm hb h => ?_
    by_cases ha : r.action m = some .eventer
    · exact absurd ⟨m + 1, by omega, hb, hact m h ha⟩ hex
    · exact (r.evPc_keep ha).trans h
  have hpred : ∀ m, n ≤ m → (r.world m).evPred = true → ∀ k, m ≤ k →
      (r.world k).now ≤ (r.world n).now + 4 * (δ : Int) → (r.world k).evPred = true := by
    intro m hm hp
    refine keepIn (r := r) (P := fun m => (r.world m).evPred = true) hp fun k hk hb hp => ?_
    have hscan : (r.world (k + 1)).evPc = .wait := hstay (k + 1) (by omega) hb
    rcases r.stepR k with ⟨_, h⟩ | ⟨a, h', _, hs⟩
    · rw [h]; exact hp
    · generalize r.world (k + 1) = w' at hs hscan
      cases hs <;> first | exact hp | (simp [World.apply, hp]; done) | cases hscan
  obtain ⟨m, hm, hmb, hover⟩ : ∃ m, n ≤ m ∧ (r.world m).now ≤ (r.world n).now + 3 * (δ : Int) ∧
      ∀ k, m ≤ k → (r.world k).now ≤ (r.world n).now + 4 * (δ : Int) → (r.world k).evPred = true := by
    rcases hw with hw | ⟨i, hi⟩
    · exact ⟨n, Nat.le_refl _, by omega, hpred n (Nat.le_refl _) hw⟩
    · obtain ⟨m, inp, f, rest, hm, hb, hx, hw⟩ := hp.wakes (o := .wakeEventer) rfl 3 hi (Reach.soon _ (r.reach n) i)
      have : (r.world (m + 1)).evPred = true := by
        rw [hw]; cases hx; simp [World.apply]
      refine ⟨m + 1, by omega, ?_, hpred (m + 1) (by omega) this⟩
      rw [hw, apply_now]; omega
  obtain ⟨k, hk, hkb, ha⟩ := hf.eventer m fun k hk hb => by
    have := hstay k (by omega) (by omega)
    unfold World.stepEventer
    rw [this]
    simp [hover k hk (by omega)]
  have hn := r.ev_now ha
  exact hex ⟨k + 1, by omega, by omega, hact k (hstay k (by omega) (by omega)) ha⟩

/-- Some open event is executed soon. -/
theorem PromptEvents.exec (hf : r.PromptEvents δ c) (hp : r.Prompt δ) {n : Nat}
    (hst : ∀ m, n ≤ m → NotStranded (r.world m))
    (hset : ∀ k, n ≤ k → (r.world k).ls.config.tokenEventCmd.isSome = true) (ho : openEvents (r.world n) ≠ []) :
    ∃ m x, n ≤ m ∧ (r.world m).now ≤ (r.world n).now + ((c : Int) + 6 * (δ : Int)) ∧ x ≠ [] ∧
      EvRel (r.world n) (r.world m) x := by
  have now' : ∀ m, n ≤ m → openEvents (r.world m) ≠ [] ∨ ∃ x, x ≠ [] ∧ EvRel (r.world n) (r.world m) x := by
    intro m hm
    obtain ⟨x, hx⟩ := r.evRel hm hset
    by_cases hxe : x = []
    · subst hxe
      obtain ⟨q, h⟩ := hx.2
      left
      intro hc
      rw [hc] at h
      simp at h
      exact ho h.1
    · exact .inr ⟨x, hxe, hx⟩
  have cRead : ∀ m, n ≤ m → (r.world m).now ≤ (r.world n).now + ((c : Int) + 5 * (δ : Int)) →
      ∀ act e, (r.world m).evPc = .readCmd act e →
      ∃ m x, n ≤ m ∧ (r.world m).now ≤ (r.world n).now + ((c : Int) + 6 * (δ : Int)) ∧ x ≠ [] ∧
        EvRel (r.world n) (r.world m) x := by
    intro m hm hb act e hpc
    obtain ⟨k, hk, hkb, ha, hpk⟩ := hf.turn (n := m) (by rw [hpc]; exact nofun) (by rw [hpc]; exact nofun)
    rw [hpc] at hpk
    obtain ⟨x, hx⟩ := r.evRel (show n ≤ k by omega) hset
    have hn := r.ev_now ha
    have hs := r.ev_step ha
    have hrel : EvRel (r.world k) (r.world (k + 1)) [(act, e)] := by
      have hse := hset k (by omega)
      clear hn
      generalize r.world (k + 1) = w' at hs
      cases hs
      case evWait hp1 _ => rw [hpk] at hp1; cases hp1
      case evEmpty hp1 _ => rw [hpk] at hp1; cases hp1
      case evPop hp1 _ => rw [hpk] at hp1; cases hp1
      case evEnd hp1 => rw [hpk] at hp1; cases hp1
      case evNoCmd hp1 hp2 => rw [hp2] at hse; cases hse
      case evCmd hp1 hp2 =>
        rw [hpk] at hp1; cases hp1
        exact ⟨by simp [executedEvents], [], by simp [openEvents, hpk, eventInHand]⟩
    exact ⟨k + 1, x ++ [(act, e)], by omega, by omega, by simp, hx.trans hrel⟩
  have cDrain : ∀ m, n ≤ m → (r.world m).now ≤ (r.world n).now + ((c : Int) + 4 * (δ : Int)) →
      (r.world m).evPc = .drain →
      ∃ m x, n ≤ m ∧ (r.world m).now ≤ (r.world n).now + ((c : Int) + 6 * (δ : Int)) ∧ x ≠ [] ∧
        EvRel (r.world n) (r.world m) x := by
    intro m hm hb hpc
    obtain ⟨k, hk, hkb, ha, hpk⟩ := hf.turn (n := m) (by rw [hpc]; exact nofun) (by rw [hpc]; exact nofun)
    rw [hpc] at hpk
    rcases now' k (by omega) with h | ⟨x, h1, h2⟩
    · have hn := r.ev_now ha
      have hs := r.ev_step ha
      obtain ⟨act, e, hp⟩ : ∃ act e, (r.world (k + 1)).evPc = .readCmd act e := by
        clear hn
        generalize r.world (k + 1) = w' at hs
        cases hs
        case evWait hp1 _ => rw [hpk] at hp1; cases hp1
        case evNoCmd hp1 _ => rw [hpk] at hp1; cases hp1
        case evCmd hp1 _ => rw [hpk] at hp1; cases hp1
        case evEnd hp1 => rw [hpk] at hp1; cases hp1
        case evEmpty hp1 hp2 => rw [openEvents, hpk, hp2] at h; exact absurd rfl h
        case evPop => exact ⟨_, _, rfl⟩
      exact cRead (k + 1) (by omega) (by omega) act e hp
    · exact ⟨k, x, by omega, by omega, h1, h2⟩
  cases hpc : (r.world n).evPc with
  | readCmd act e => exact cRead n (Nat.le_refl _) (by omega) act e hpc
  | drain => exact cDrain n (Nat.le_refl _) (by omega) hpc
  | running =>
    obtain ⟨k, hk, hb, hpk⟩ := hf.ended hpc
    exact cDrain k hk (by omega) hpk
  | wait =>
    rcases hst n (Nat.le_refl _) (by rw [openEvents, hpc] at ho; exact ho) with h | h
    · exact absurd hpc h
    · obtain ⟨m, hm, hb, hpk⟩ := hf.wakes hp hpc h
      exact cDrain m hm (by omega) hpk

/-- If there is nothing to do for the event thread either, nothing need happen. -/
theorem still_promptEvents {w : World} (hr : Reach E w) (h : w.stepEventer = none) :
    (Run.mk (fun _ => w) (fun _ => none) hr (fun _ => rfl) : Run E).PromptEvents δ c where
  eventer n hn := absurd h (hn n (Nat.le_refl _) (by omega)).1
  command n hn := by
    have : w.evPc = .running := hn
    rw [World.stepEventer, this] at h
    cases h

end Run
end Pizauth
