import Verif.Spec.Deadline
import Verif.Proof.Prompt
import Verif.Proof.Session

/-!
# How long threads live
-/

namespace Pizauth
open LockedState

variable {E : Env}

/-- An upper bound on the time a thread still needs because of an operation, if pauses last for `S`. -/
def Op.lasts (δ T C S : Nat) : Op → Nat
  | .unix _ => 6 * δ
  | .http _ _ => 7 * δ + 10 * (T + S + 2 * δ)
  | .exSend _ k => 5 * δ + (T + S + 2 * δ) + (9 - k) * (T + S + 2 * δ)
  | .exAwait _ k => 5 * δ + (T + S + δ) + (9 - k) * (T + S + 2 * δ)
  | .exSleep _ k _ => 5 * δ + (S + δ) + (9 - k) * (T + S + 2 * δ)
  | .exDone _ _ => 5 * δ
  | .fail _ _ => 4 * δ
  | .rfStart _ => T + C + 8 * δ
  | .rfSend _ => T + C + 7 * δ
  | .rfAwait _ => T + C + 6 * δ
  | .rfTransient _ => C + 6 * δ
  | .rfCmd _ _ _ => C + 5 * δ
  | .rfCmdWait _ _ => C + 4 * δ
  | .rfNow _ _ _ _ => 5 * δ
  | .rfStore _ _ _ _ _ => 4 * δ
  | .rfCmdErr _ _ => 4 * δ
  | .rfPerm _ => 3 * δ
  | .rfCmdOk _ => 2 * δ
  | _ => δ

/-- The time until its next step. -/
def Op.first (δ T C S : Nat) : Op → Nat
  | .exAwait _ _ | .rfAwait _ => T
  | .rfCmdWait _ _ => C
  | .exSleep _ _ _ => S + δ
  | _ => δ

def opsLast (δ T C S : Nat) (l : List Op) : Nat := (l.map (Op.lasts δ T C S)).sum

theorem opsLast_append (δ T C S : Nat) (l r : List Op) : opsLast δ T C S (l ++ r) = opsLast δ T C S l + opsLast δ T C S r := by
  simp [opsLast]

theorem ExecR.lasts {St : Static} {now : Instant} {wall : SysTime} {ls : LockedState} {tid : Nat} {op : Op}
    {inp : Input} {f : Eff} (hx : ExecR E St now wall ls tid op inp f) (δ T C S : Nat) :
    op.first δ T C S + opsLast δ T C S f.next ≤ op.lasts δ T C S := by
  cases hx
  case exSleepRetry c k wake h1 h2 =>
    simp only [retryPost] at h2
    have : 9 - k = (9 - (k + 1)) + 1 := by omega
    simp only [opsLast, Op.lasts, Op.first, List.map_cons, List.map_nil, List.sum_cons, List.sum_nil]
    rw [this, Nat.add_mul]
    omega
  case failOk => simp only; split <;> simp only [opsLast, Op.lasts, Op.first, List.map_cons, List.map_nil, List.sum_cons, List.sum_nil] <;> omega
  all_goals
    simp only [opsLast, Op.lasts, Op.first, List.map_cons, List.map_nil, List.sum_cons, List.sum_nil]
    try omega

namespace Run
variable {r : Run E} {δ T C : Nat}

/-- Threads come to their next step in time, with the operations they had. -/
theorem Timely.turn (hf : r.Timely δ T C) {S : Nat} (hS : (6000000000 : Int) ≤ S) {n i : Nat} {op : Op} {rest : List Op} (h : (r.world n).threads i = op :: rest) :
    ∃ m inp f, n ≤ m ∧ (r.world m).now ≤ (r.world n).now + (op.first δ T C S : Int) ∧ (r.world m).threads i = op :: rest ∧
      ExecR E (r.world m).st (r.world m).now (r.world m).wall (r.world m).ls i op inp f ∧
      r.world (m + 1) = (r.world m).apply i rest f := by
  obtain ⟨k, hk, hnow, inp, ha⟩ : ∃ m, n ≤ m ∧ (r.world m).now ≤ (r.world n).now + (op.first δ T C S : Int) ∧
      ∃ inp, r.action m = some (.run i inp) := by
    cases hw : op.waits with
    | false =>
      obtain ⟨m, h1, h2, h3⟩ := hf.prompt.thread n i op rest h hw
      refine ⟨m, h1, ?_, h3⟩
      cases op <;> simp only [Op.waits, Bool.true_eq_false] at hw <;> exact h2
    | true =>
      obtain ⟨m, h1, h2, h3⟩ := hf.outside n i op rest h hw
      refine ⟨m, h1, ?_, h3⟩
      cases op <;> simp only [Op.waits, Bool.false_eq_true] at hw <;> try exact h2
      case exSleep c k t =>
        have := Reach.wake _ (r.reach n) i c k t (by rw [h]; exact List.mem_cons_self)
        simp only [Op.patience, Op.first] at h2 ⊢
        omega
  obtain ⟨m, hm, ⟨hle, inp, ha⟩, hfirst⟩ := first
    (P := fun m => m ≤ k ∧ ∃ inp, r.action m = some (.run i inp)) ⟨k, hk, Nat.le_refl _, inp, ha⟩
  have ht : (r.world m).threads i = op :: rest :=
    keepUntil (P := fun j => (r.world j).threads i = op :: rest) h hm fun j h1 h2 h3 => by
      rw [r.busy (by rw [h3]; simp) fun inp hc => hfirst j h1 h2 ⟨by omega, inp, hc⟩]; exact h3
  obtain ⟨op', rest', f, ht', hx, hw'⟩ := hf.prompt.own ha
  rw [ht] at ht'
  cases ht'
  exact ⟨m, inp, f, hm, Int.le_trans (r.now_mono hle) hnow, ht, hx, hw'⟩

/-- Every thread ends in time. -/
theorem Timely.ends (hf : r.Timely δ T C) {S : Nat} (hS : (6000000000 : Int) ≤ S) (n i : Nat) :
    ∃ m, n ≤ m ∧ (r.world m).now ≤ (r.world n).now + (opsLast δ T C S ((r.world n).threads i) : Int) ∧
      (r.world m).threads i = [] := by
  suffices ∀ k n, opsWork ((r.world n).threads i) ≤ k →
      ∃ m, n ≤ m ∧ (r.world m).now ≤ (r.world n).now + (opsLast δ T C S ((r.world n).threads i) : Int) ∧
        (r.world m).threads i = [] from this _ n (Nat.le_refl _)
  intro k
  induction k with
  | zero =>
    intro n h
    refine ⟨n, Nat.le_refl _, by omega, ?_⟩
    cases ht : (r.world n).threads i with
    | nil => rfl
    | cons o l =>
      rw [ht] at h
      have : 0 < o.work := by cases o <;> simp [Op.work] <;> omega
      simp [opsWork] at h
      omega
  | succ k ih =>
    intro n h
    cases ht : (r.world n).threads i with
    | nil => exact ⟨n, Nat.le_refl _, by omega, ht⟩
    | cons op rest =>
      obtain ⟨m, inp, f, hm, hnow, ht', hx, hw⟩ := hf.turn hS ht
      have hth : (r.world (m + 1)).threads i = f.next ++ rest := by
        rw [hw, apply_threads_self ((r.reach m).inv0.lt_of_mem ht')]
      obtain ⟨m', hm', hnow', he⟩ := ih (m + 1) (by
        rw [hth, opsWork_append]
        rw [ht] at h
        have := hx.work
        simp [opsWork] at h this ⊢
        omega)
      refine ⟨m', by omega, ?_, he⟩
      rw [hth, opsLast_append, show (r.world (m + 1)).now = (r.world m).now by rw [hw, apply_now]] at hnow'
      have := hx.lasts δ T C S
      have h1 : opsLast δ T C S (op :: rest) = op.lasts δ T C S + opsLast δ T C S rest := by simp [opsLast]
      rw [h1]
      omega

end Run

end Pizauth
