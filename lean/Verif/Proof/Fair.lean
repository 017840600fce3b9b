import Verif.Spec.Fair
import Verif.Proof.Schedule
import Verif.Proof.Refresh
import Verif.Proof.Events
import Verif.Proof.Main

/-!
# What must happen eventually
-/

namespace Pizauth
open LockedState

variable {E : Env}

/-- An upper bound on the number of steps a thread still makes because of an operation. -/
def Op.work : Op → Nat
  | .unix _ => 6
  | .http _ _ => 10 + 3 * retryPost
  | .exSend _ k => 8 + 3 * (retryPost - k)
  | .exAwait _ k => 7 + 3 * (retryPost - k)
  | .exSleep _ k _ => 6 + 3 * (retryPost - k)
  | .exDone _ _ => 5
  | .fail _ _ => 4
  | .rfStart _ => 10
  | .rfSend _ => 9
  | .rfAwait _ => 8
  | .rfTransient _ => 7
  | .rfCmd _ _ _ => 6
  | .rfCmdWait _ _ => 5
  | .rfNow _ _ _ _ => 5
  | .rfStore _ _ _ _ _ => 4
  | .rfCmdErr _ _ => 4
  | .rfPerm _ => 3
  | .rfCmdOk _ => 2
  | _ => 1

def opsWork (l : List Op) : Nat := (l.map Op.work).sum

theorem opsWork_append (l r : List Op) : opsWork (l ++ r) = opsWork l + opsWork r := by simp [opsWork]

theorem ExecR.work {S : Static} {now : Instant} {wall : SysTime} {ls : LockedState} {tid : Nat} {op : Op}
    {inp : Input} {f : Eff} (hx : ExecR E S now wall ls tid op inp f) : opsWork f.next < op.work := by
  cases hx <;> try (simp [opsWork, Op.work, retryPost]; done)
  case exSleepRetry h => simp [opsWork, Op.work] ; omega
  case failOk => simp only; split <;> simp [opsWork, Op.work]
  all_goals (simp [opsWork, Op.work]; try omega)

namespace Run
variable {r : Run E}

theorem reach (r : Run E) : ∀ n, Reach E (r.world n)
  | 0 => r.start
  | n + 1 => by
    have h := r.next n
    split at h
    · exact .step _ (r.reach n) h
    · rw [h]; exact r.reach n

theorem stepR (r : Run E) (n : Nat) :
    (r.action n = none ∧ r.world (n + 1) = r.world n) ∨
    ∃ a, r.action n = some a ∧ (r.world n).step E a = some (r.world (n + 1)) ∧ StepR E (r.world n) a (r.world (n + 1)) := by
  have h := r.next n
  cases ha : r.action n with
  | none => rw [ha] at h; exact .inl ⟨rfl, h⟩
  | some a => rw [ha] at h; exact .inr ⟨a, rfl, h, (stepR_of_step (r.reach n).inv0.wf h).2⟩

/-- A step of thread `i` in a run which goes on. -/
theorem Fair.own (hf : r.Fair) {n i : Nat} {inp : Input} (ha : r.action n = some (.run i inp)) :
    ∃ op rest f, (r.world n).threads i = op :: rest ∧
      ExecR E (r.world n).st (r.world n).now (r.world n).wall (r.world n).ls i op inp f ∧
      r.world (n + 1) = (r.world n).apply i rest f := by
  rcases r.stepR n with ⟨h, _⟩ | ⟨a, h, _, hs⟩
  · rw [ha] at h; cases h
  · rw [ha] at h
    cases h
    have hal := hf.alive (n + 1)
    generalize r.world (n + 1) = w' at hs hal
    cases hs with
    | run ht hx => exact ⟨_, _, _, ht, hx, rfl⟩
    | runPanic => cases hal

theorem now_le_succ (r : Run E) (n : Nat) : (r.world n).now ≤ (r.world (n + 1)).now := by
  rcases r.stepR n with ⟨_, h⟩ | ⟨a, _, _, hs⟩
  · rw [h]; exact Int.le_refl _
  · generalize r.world (n + 1) = w' at hs
    cases hs <;> try exact Int.le_refl _
    case tick d => simp only; omega

theorem now_mono (r : Run E) {n m : Nat} (h : n ≤ m) : (r.world n).now ≤ (r.world m).now := by
  induction h with
  | refl => exact Int.le_refl _
  | step _ ih => exact Int.le_trans ih (r.now_le_succ _)

/-- Time passes any moment. -/
theorem Fair.later (hf : r.Fair) (n : Nat) (t : Instant) : ∃ m, n ≤ m ∧ ∀ k, m ≤ k → t < (r.world k).now := by
  obtain ⟨m, hm⟩ := hf.time (t + 1)
  refine ⟨max n m, Nat.le_max_left _ _, fun k hk => ?_⟩
  have := r.now_mono (Nat.le_trans (Nat.le_max_right n m) hk)
  omega

/-- What is kept from one moment to the next is kept forever. -/
theorem keep {P : Nat → Prop} {n : Nat} (h : P n) (hs : ∀ m, n ≤ m → P m → P (m + 1)) : ∀ m, n ≤ m → P m := by
  intro m hm
  induction hm with
  | refl => exact h
  | step hm ih => exact hs _ hm ih

/-- A busy thread changes only by its own steps. -/
theorem busy (r : Run E) {n i : Nat} (h : (r.world n).threads i ≠ []) (ha : ∀ inp, r.action n ≠ some (.run i inp)) :
    (r.world (n + 1)).threads i = (r.world n).threads i := by
  rcases r.stepR n with ⟨_, h⟩ | ⟨a, h', _, hs⟩
  · rw [h]
  · have h0 := (r.reach n).inv0
    have ha' : ∀ inp, a ≠ .run i inp := by rintro inp rfl; exact ha inp h'
    by_cases hi : i = 0
    · subst hi
      exact hs.threads0 h0 h ha'
    · refine hs.threads_other ?_ hi ha'
      rcases Nat.lt_or_ge i (r.world n).nextTid with hl | hl
      · exact hl
      · exact absurd (h0.tids i hl) h

/-- Threads come to their next step with the operations they had. -/
theorem Fair.turn (hf : r.Fair) {n i : Nat} (h : (r.world n).threads i ≠ []) :
    ∃ m inp, n ≤ m ∧ r.action m = some (.run i inp) ∧ (r.world m).threads i = (r.world n).threads i := by
  obtain ⟨k, hk, inp, ha⟩ := hf.thread n i h
  obtain ⟨d, rfl⟩ := Nat.exists_eq_add_of_le hk
  clear hk
  induction d generalizing n with
  | zero => exact ⟨n, inp, Nat.le_refl _, ha, rfl⟩
  | succ d ih =>
    by_cases hown : ∃ inp, r.action n = some (.run i inp)
    · obtain ⟨inp, ha⟩ := hown
      exact ⟨n, inp, Nat.le_refl _, ha, rfl⟩
    · have he := r.busy h fun inp hc => hown ⟨inp, hc⟩
      obtain ⟨m, inp, hm, ha, ht⟩ := ih (n := n + 1) (by rw [he]; exact h) (by rw [← ha]; congr 1; omega)
      exact ⟨m, inp, by omega, ha, by rw [ht, he]⟩

/-- Every thread ends. -/
theorem Fair.thread_ends (hf : r.Fair) (n i : Nat) : ∃ m, n ≤ m ∧ (r.world m).threads i = [] := by
  suffices ∀ k n, opsWork ((r.world n).threads i) ≤ k → ∃ m, n ≤ m ∧ (r.world m).threads i = [] from
    this _ n (Nat.le_refl _)
  intro k
  induction k with
  | zero =>
    intro n h
    refine ⟨n, Nat.le_refl _, ?_⟩
    cases ht : (r.world n).threads i with
    | nil => rfl
    | cons o l =>
      rw [ht] at h
      have : 0 < o.work := by cases o <;> simp [Op.work] <;> omega
      simp [opsWork] at h
      omega
  | succ k ih =>
    intro n h
    by_cases hb : (r.world n).threads i = []
    · exact ⟨n, Nat.le_refl _, hb⟩
    · obtain ⟨m, inp, hm, ha, ht⟩ := hf.turn hb
      obtain ⟨op, rest, f, ht', hx, hw⟩ := hf.own ha
      obtain ⟨m', hm', he⟩ := ih (m + 1) (by
        rw [hw, apply_threads_self ((r.reach m).inv0.lt_of_mem ht'), opsWork_append]
        rw [← ht, ht'] at h
        have := hx.work
        simp [opsWork] at h this ⊢
        omega)
      exact ⟨m', by omega, he⟩

/-- An operation which a thread has to perform is eventually performed. -/
theorem Fair.performed (hf : r.Fair) {n i : Nat} {o : Op} (h : o ∈ (r.world n).threads i) :
    ∃ m inp rest, n ≤ m ∧ r.action m = some (.run i inp) ∧ (r.world m).threads i = o :: rest := by
  obtain ⟨k, hk, he⟩ := hf.thread_ends n i
  obtain ⟨d, rfl⟩ := Nat.exists_eq_add_of_le hk
  clear hk
  induction d generalizing n with
  | zero => rw [Nat.add_zero] at he; rw [he] at h; cases h
  | succ d ih =>
    have hne : (r.world n).threads i ≠ [] := by intro hc; rw [hc] at h; cases h
    by_cases hown : ∃ inp, r.action n = some (.run i inp)
    · obtain ⟨inp, ha⟩ := hown
      obtain ⟨op, rest, f, ht, hx, hw⟩ := hf.own ha
      by_cases ho : o = op
      · subst ho; exact ⟨n, inp, rest, Nat.le_refl _, ha, ht⟩
      · have : o ∈ (r.world (n + 1)).threads i := by
          rw [hw, apply_threads_self ((r.reach n).inv0.lt_of_mem ht)]
          rw [ht] at h
          exact List.mem_append_right _ ((List.mem_cons.mp h).resolve_left ho)
        obtain ⟨m, inp, rest, hm, h⟩ := ih this (by rw [← he]; congr 2; omega)
        exact ⟨m, inp, rest, by omega, h⟩
    · have hb := r.busy hne fun inp hc => hown ⟨inp, hc⟩
      obtain ⟨m, inp, rest, hm, h⟩ := ih (n := n + 1) (by rw [hb]; exact h) (by rw [← he]; congr 2; omega)
      exact ⟨m, inp, rest, by omega, h⟩

/-- The first moment. -/
theorem first {P : Nat → Prop} {n : Nat} (h : ∃ m, n ≤ m ∧ P m) : ∃ m, n ≤ m ∧ P m ∧ ∀ k, n ≤ k → k < m → ¬ P k := by
  obtain ⟨m, hm, hp⟩ := h
  obtain ⟨d, rfl⟩ := Nat.exists_eq_add_of_le hm
  clear hm
  induction d generalizing n with
  | zero => exact ⟨n, Nat.le_refl _, hp, fun k h1 h2 => by omega⟩
  | succ d ih =>
    by_cases h : P n
    · exact ⟨n, Nat.le_refl _, h, fun k h1 h2 => by omega⟩
    · obtain ⟨m, hm, h1, h2⟩ := ih (n := n + 1) (by rwa [show n + 1 + d = n + (d + 1) by omega])
      refine ⟨m, by omega, h1, fun k hk1 hk2 => ?_⟩
      by_cases hkn : k = n
      · subst hkn; exact h
      · exact h2 k (by omega) hk2

/-- What is kept until something happens. -/
theorem keepUntil {P : Nat → Prop} {n m : Nat} (h : P n) (hnm : n ≤ m) (hs : ∀ k, n ≤ k → k < m → P k → P (k + 1)) :
    P m := by
  induction hnm with
  | refl => exact h
  | @step m hm ih => exact hs m hm (by omega) (ih fun k h1 h2 => hs k h1 (by omega))

/-! ## The refresher -/

theorem refPc_keep (r : Run E) {n : Nat} (h : r.action n ≠ some .refresher) :
    (r.world (n + 1)).refPc = (r.world n).refPc := by
  rcases r.stepR n with ⟨_, h⟩ | ⟨a, h', _, hs⟩
  · rw [h]
  · generalize r.world (n + 1) = w' at hs
    cases hs <;> first | rfl | exact absurd h' h

theorem Fair.ref_turn (hf : r.Fair) {n : Nat} (h : (r.world n).refPc = .compute ∨ (r.world n).refPc = .scan) :
    ∃ m, n ≤ m ∧ r.action m = some .refresher ∧ (r.world m).refPc = (r.world n).refPc := by
  by_cases hex : ∃ m, n ≤ m ∧ r.action m = some .refresher
  · obtain ⟨m, hm, ha, hk⟩ := first hex
    exact ⟨m, hm, ha, keepUntil (P := fun k => (r.world k).refPc = (r.world n).refPc) rfl hm
      fun k h1 h2 h3 => (r.refPc_keep (hk k h1 h2)).trans h3⟩
  · refine absurd (hf.refresher n fun m hm => ?_) hex
    have : (r.world m).refPc = (r.world n).refPc := keepUntil (P := fun k => (r.world k).refPc = (r.world n).refPc) rfl hm
      fun k h1 h2 h3 => (r.refPc_keep fun hc => hex ⟨k, h1, hc⟩).trans h3
    unfold World.stepRefresher
    rcases h with h | h <;> rw [this, h] <;> simp only <;> split <;> simp

theorem waitOver_iff {p : Bool} {x : Option Instant} {now : Instant} :
    World.waitOver p x now = true ↔ p = true ∨ ∃ s, x = some s ∧ s < now := by
  unfold World.waitOver checkedDurationSince
  cases x with
  | none => simp
  | some s => simp; 

/-- A wait which is limited, or at whose end somebody is working, ends. -/
theorem Fair.ref_wakes (hf : r.Fair) {n : Nat} {x : Option Instant} (h : (r.world n).refPc = .wait x)
    (hw : (∃ s, x = some s) ∨ RefresherWoken (r.world n)) : ∃ m, n ≤ m ∧ (r.world m).refPc = .scan := by
  by_cases hex : ∃ m, n ≤ m ∧ (r.world m).refPc = .scan
  · exact hex
  exfalso
  have hact : ∀ m, (r.world m).refPc = .wait x → r.action m = some .refresher → (r.world (m + 1)).refPc = .scan := by
    intro m hm ha
    rcases r.stepR m with ⟨h, _⟩ | ⟨a, h', _, hs⟩
    · rw [ha] at h; cases h
    · rw [ha] at h'
      cases h'
      generalize r.world (m + 1) = w' at hs
      cases hs <;> first | rfl | (rename_i hp; rw [hm] at hp; cases hp) | (rename_i hp _; rw [hm] at hp; cases hp)
  have hstay : ∀ m, n ≤ m → (r.world m).refPc = .wait x := by
    refine keep (P := fun m => (r.world m).refPc = .wait x) h fun m hm h => ?_
    by_cases ha : r.action m = some .refresher
    · exact absurd ⟨m + 1, by omega, hact m h ha⟩ hex
    · exact (r.refPc_keep ha).trans h
  have hpred : ∀ m, n ≤ m → (r.world m).refPred = true → ∀ k, m ≤ k → (r.world k).refPred = true := by
    intro m hm hp
    refine keep (P := fun m => (r.world m).refPred = true) hp fun k hk hp => ?_
    have hscan : (r.world (k + 1)).refPc = .wait x := hstay (k + 1) (by omega)
    rcases r.stepR k with ⟨_, h⟩ | ⟨a, h', _, hs⟩
    · rw [h]; exact hp
    · generalize r.world (k + 1) = w' at hs hscan
      cases hs <;> first | exact hp | (simp [World.apply, hp]; done) | cases hscan
  obtain ⟨m, hm, hover⟩ : ∃ m, n ≤ m ∧ ∀ k, m ≤ k → World.waitOver (r.world k).refPred x (r.world k).now = true := by
    rcases hw with ⟨s, rfl⟩ | hw | ⟨i, hi⟩
    · obtain ⟨m, hm, hl⟩ := hf.later n s
      exact ⟨m, hm, fun k hk => waitOver_iff.mpr (.inr ⟨s, rfl, hl k hk⟩)⟩
    · exact ⟨n, Nat.le_refl _, fun k hk => waitOver_iff.mpr (.inl (hpred n (Nat.le_refl _) hw k hk))⟩
    · obtain ⟨m, inp, rest, hm, ha, ht⟩ := hf.performed hi
      obtain ⟨op, rest', f, ht', hx, hw⟩ := hf.own ha
      rw [ht] at ht'
      cases ht'
      have : (r.world (m + 1)).refPred = true := by
        rw [hw]; cases hx; simp [World.apply]
      exact ⟨m + 1, by omega, fun k hk => waitOver_iff.mpr (.inl (hpred (m + 1) (by omega) this k hk))⟩
  obtain ⟨k, hk, ha⟩ := hf.refresher m fun k hk => by
    unfold World.stepRefresher
    rw [hstay k (by omega)]
    simp [hover k hk]
  exact hex ⟨k + 1, by omega, hact k (hstay k (by omega)) ha⟩

/-- As long as there is a token, the refresher comes round to look at it. -/
theorem Fair.ref_scans (hf : r.Fair) {n : Nat} (h : ∀ m, n ≤ m → ∃ a d, RefreshAt (r.world m).ls (r.world m).now a d) :
    ∃ m, n ≤ m ∧ r.action m = some .refresher ∧ (r.world m).refPc = .scan := by
  have hwait : ∀ k, n ≤ k → ∀ x, (r.world k).refPc = .wait x →
      ∃ m, n ≤ m ∧ r.action m = some .refresher ∧ (r.world m).refPc = .scan := by
    intro k hk x hx
    obtain ⟨a, d, hd⟩ := h k hk
    obtain ⟨m, hm, hsc⟩ := hf.ref_wakes hx
      (((Reach.refSched _ (r.reach k)) x hx a d hd).imp (fun ⟨s, h, _⟩ => ⟨s, h⟩) id)
    obtain ⟨m', hm', ha, hp⟩ := hf.ref_turn (.inr hsc)
    exact ⟨m', by omega, ha, hp.trans hsc⟩
  cases hpc : (r.world n).refPc with
  | scan =>
    obtain ⟨m', hm', ha, hp⟩ := hf.ref_turn (.inr hpc)
    exact ⟨m', by omega, ha, hp.trans hpc⟩
  | wait x => exact hwait n (Nat.le_refl _) x hpc
  | compute =>
    obtain ⟨m, hm, ha, hp⟩ := hf.ref_turn (.inl hpc)
    rw [hpc] at hp
    rcases r.stepR m with ⟨h, _⟩ | ⟨a, h', _, hs⟩
    · rw [ha] at h; cases h
    · rw [ha] at h'
      cases h'
      have : ∃ x, (r.world (m + 1)).refPc = .wait x := by
        generalize r.world (m + 1) = w' at hs
        cases hs <;> first | exact ⟨_, rfl⟩ | (rename_i hp'; rw [hp] at hp'; cases hp'; done) | (rename_i hp' _; rw [hp] at hp'; cases hp')
      obtain ⟨x, hx⟩ := this
      exact hwait (m + 1) (by omega) x hx

/-! ## The notifier -/

theorem notPc_keep (r : Run E) {n : Nat} (h : r.action n ≠ some .notifier) :
    (r.world (n + 1)).notPc = (r.world n).notPc := by
  rcases r.stepR n with ⟨_, h⟩ | ⟨a, h', _, hs⟩
  · rw [h]
  · generalize r.world (n + 1) = w' at hs
    cases hs <;> first | rfl | exact absurd h' h

theorem Fair.not_turn (hf : r.Fair) {n : Nat} (h : (r.world n).notPc = .compute ∨ (r.world n).notPc = .scan) :
    ∃ m, n ≤ m ∧ r.action m = some .notifier ∧ (r.world m).notPc = (r.world n).notPc := by
  by_cases hex : ∃ m, n ≤ m ∧ r.action m = some .notifier
  · obtain ⟨m, hm, ha, hk⟩ := first hex
    exact ⟨m, hm, ha, keepUntil (P := fun k => (r.world k).notPc = (r.world n).notPc) rfl hm
      fun k h1 h2 h3 => (r.notPc_keep (hk k h1 h2)).trans h3⟩
  · refine absurd (hf.notifier n fun m hm => ?_) hex
    have : (r.world m).notPc = (r.world n).notPc := keepUntil (P := fun k => (r.world k).notPc = (r.world n).notPc) rfl hm
      fun k h1 h2 h3 => (r.notPc_keep fun hc => hex ⟨k, h1, hc⟩).trans h3
    unfold World.stepNotifier
    rcases h with h | h <;> rw [this, h] <;> simp only <;> split <;> simp

/-- A wait which is limited, or at whose end somebody is working, ends. -/
theorem Fair.not_wakes (hf : r.Fair) {n : Nat} {x : Option Instant} (h : (r.world n).notPc = .wait x)
    (hw : (∃ s, x = some s) ∨ NotifierWoken (r.world n)) : ∃ m, n ≤ m ∧ (r.world m).notPc = .scan := by
  by_cases hex : ∃ m, n ≤ m ∧ (r.world m).notPc = .scan
  · exact hex
  exfalso
  have hact : ∀ m, (r.world m).notPc = .wait x → r.action m = some .notifier → (r.world (m + 1)).notPc = .scan := by
    intro m hm ha
    rcases r.stepR m with ⟨h, _⟩ | ⟨a, h', _, hs⟩
    · rw [ha] at h; cases h
    · rw [ha] at h'
      cases h'
      generalize r.world (m + 1) = w' at hs
      cases hs <;> first | rfl | (rename_i hp; rw [hm] at hp; cases hp) | (rename_i hp _; rw [hm] at hp; cases hp)
  have hstay : ∀ m, n ≤ m → (r.world m).notPc = .wait x := by
    refine keep (P := fun m => (r.world m).notPc = .wait x) h fun m hm h => ?_
    by_cases ha : r.action m = some .notifier
    · exact absurd ⟨m + 1, by omega, hact m h ha⟩ hex
    · exact (r.notPc_keep ha).trans h
  have hpred : ∀ m, n ≤ m → (r.world m).notPred = true → ∀ k, m ≤ k → (r.world k).notPred = true := by
    intro m hm hp
    refine keep (P := fun m => (r.world m).notPred = true) hp fun k hk hp => ?_
    have hscan : (r.world (k + 1)).notPc = .wait x := hstay (k + 1) (by omega)
    rcases r.stepR k with ⟨_, h⟩ | ⟨a, h', _, hs⟩
    · rw [h]; exact hp
    · generalize r.world (k + 1) = w' at hs hscan
      cases hs <;> first | exact hp | (simp [World.apply, hp]; done) | cases hscan
  obtain ⟨m, hm, hover⟩ : ∃ m, n ≤ m ∧ ∀ k, m ≤ k → World.waitOver (r.world k).notPred x (r.world k).now = true := by
    rcases hw with ⟨s, rfl⟩ | hw | ⟨i, hi⟩
    · obtain ⟨m, hm, hl⟩ := hf.later n s
      exact ⟨m, hm, fun k hk => waitOver_iff.mpr (.inr ⟨s, rfl, hl k hk⟩)⟩
    · exact ⟨n, Nat.le_refl _, fun k hk => waitOver_iff.mpr (.inl (hpred n (Nat.le_refl _) hw k hk))⟩
    · obtain ⟨m, inp, rest, hm, ha, ht⟩ := hf.performed hi
      obtain ⟨op, rest', f, ht', hx, hw⟩ := hf.own ha
      rw [ht] at ht'
      cases ht'
      have : (r.world (m + 1)).notPred = true := by
        rw [hw]; cases hx; simp [World.apply]
      exact ⟨m + 1, by omega, fun k hk => waitOver_iff.mpr (.inl (hpred (m + 1) (by omega) this k hk))⟩
  obtain ⟨k, hk, ha⟩ := hf.notifier m fun k hk => by
    unfold World.stepNotifier
    rw [hstay k (by omega)]
    simp [hover k hk]
  exact hex ⟨k + 1, by omega, hact k (hstay k (by omega)) ha⟩

/-- As long as the user is to be told, the notifier comes round to look at it. -/
theorem Fair.not_scans (hf : r.Fair) {n : Nat} (h : ∀ m, n ≤ m → ∃ a d, NotifyAt (r.world m).ls (r.world m).now a d) :
    ∃ m, n ≤ m ∧ r.action m = some .notifier ∧ (r.world m).notPc = .scan := by
  have hwait : ∀ k, n ≤ k → ∀ x, (r.world k).notPc = .wait x →
      ∃ m, n ≤ m ∧ r.action m = some .notifier ∧ (r.world m).notPc = .scan := by
    intro k hk x hx
    obtain ⟨a, d, hd⟩ := h k hk
    obtain ⟨m, hm, hsc⟩ := hf.not_wakes hx
      (((Reach.notSched _ (r.reach k)) x hx a d hd).imp (fun ⟨s, h, _⟩ => ⟨s, h⟩) id)
    obtain ⟨m', hm', ha, hp⟩ := hf.not_turn (.inr hsc)
    exact ⟨m', by omega, ha, hp.trans hsc⟩
  cases hpc : (r.world n).notPc with
  | scan =>
    obtain ⟨m', hm', ha, hp⟩ := hf.not_turn (.inr hpc)
    exact ⟨m', by omega, ha, hp.trans hpc⟩
  | wait x => exact hwait n (Nat.le_refl _) x hpc
  | compute =>
    obtain ⟨m, hm, ha, hp⟩ := hf.not_turn (.inl hpc)
    rw [hpc] at hp
    rcases r.stepR m with ⟨h, _⟩ | ⟨a, h', _, hs⟩
    · rw [ha] at h; cases h
    · rw [ha] at h'
      cases h'
      have : ∃ x, (r.world (m + 1)).notPc = .wait x := by
        generalize r.world (m + 1) = w' at hs
        cases hs <;> first | exact ⟨_, rfl⟩ | (rename_i hp'; rw [hp] at hp'; cases hp'; done) | (rename_i hp' _; rw [hp] at hp'; cases hp')
      obtain ⟨x, hx⟩ := this
      exact hwait (m + 1) (by omega) x hx

/-! ## The event thread -/

theorem evPc_keep (r : Run E) {n : Nat} (h : r.action n ≠ some .eventer) :
    (r.world (n + 1)).evPc = (r.world n).evPc := by
  rcases r.stepR n with ⟨_, h⟩ | ⟨a, h', _, hs⟩
  · rw [h]
  · generalize r.world (n + 1) = w' at hs
    cases hs <;> first | rfl | exact absurd h' h

theorem Fair.ev_turn (hf : r.Fair) {n : Nat} (h : (r.world n).evPc ≠ .wait) :
    ∃ m, n ≤ m ∧ r.action m = some .eventer ∧ (r.world m).evPc = (r.world n).evPc := by
  by_cases hex : ∃ m, n ≤ m ∧ r.action m = some .eventer
  · obtain ⟨m, hm, ha, hk⟩ := first hex
    exact ⟨m, hm, ha, keepUntil (P := fun k => (r.world k).evPc = (r.world n).evPc) rfl hm
      fun k h1 h2 h3 => (r.evPc_keep (hk k h1 h2)).trans h3⟩
  · refine absurd (hf.eventer n fun m hm => ?_) hex
    have : (r.world m).evPc = (r.world n).evPc := keepUntil (P := fun k => (r.world k).evPc = (r.world n).evPc) rfl hm
      fun k h1 h2 h3 => (r.evPc_keep fun hc => hex ⟨k, h1, hc⟩).trans h3
    unfold World.stepEventer
    rw [this]
    cases hpc : (r.world n).evPc with
    | wait => exact absurd hpc h
    | drain => simp only; split <;> simp
    | readCmd act e => simp only; split <;> simp
    | running => simp

theorem Fair.ev_wakes (hf : r.Fair) {n : Nat} (h : (r.world n).evPc = .wait) (hw : EventerWoken (r.world n)) :
    ∃ m, n ≤ m ∧ (r.world m).evPc = .drain := by
  by_cases hex : ∃ m, n ≤ m ∧ (r.world m).evPc = .drain
  · exact hex
  exfalso
  have hact : ∀ m, (r.world m).evPc = .wait → r.action m = some .eventer → (r.world (m + 1)).evPc = .drain := by
    intro m hm ha
    rcases r.stepR m with ⟨h, _⟩ | ⟨a, h', _, hs⟩
    · rw [ha] at h; cases h
    · rw [ha] at h'
      cases h'
      generalize r.world (m + 1) = w' at hs
      cases hs <;> first | rfl | (rename_i hp; rw [hm] at hp; cases hp) | (rename_i hp _; rw [hm] at hp; cases hp)
  have hstay : ∀ m, n ≤ m → (r.world m).evPc = .wait := by
    refine keep (P := fun m => (r.world m).evPc = .wait) h fun m hm h => ?_
    by_cases ha : r.action m = some .eventer
    · exact absurd ⟨m + 1, by omega, hact m h ha⟩ hex
    · exact (r.evPc_keep ha).trans h
  have hpred : ∀ m, n ≤ m → (r.world m).evPred = true → ∀ k, m ≤ k → (r.world k).evPred = true := by
    intro m hm hp
    refine keep (P := fun m => (r.world m).evPred = true) hp fun k hk hp => ?_
    have hscan : (r.world (k + 1)).evPc = .wait := hstay (k + 1) (by omega)
    rcases r.stepR k with ⟨_, h⟩ | ⟨a, h', _, hs⟩
    · rw [h]; exact hp
    · generalize r.world (k + 1) = w' at hs hscan
      cases hs <;> first | exact hp | (simp [World.apply, hp]; done) | cases hscan
  obtain ⟨m, hm, hover⟩ : ∃ m, n ≤ m ∧ ∀ k, m ≤ k → (r.world k).evPred = true := by
    rcases hw with hw | ⟨i, hi⟩
    · exact ⟨n, Nat.le_refl _, hpred n (Nat.le_refl _) hw⟩
    · obtain ⟨m, inp, rest, hm, ha, ht⟩ := hf.performed hi
      obtain ⟨op, rest', f, ht', hx, hw⟩ := hf.own ha
      rw [ht] at ht'
      cases ht'
      have : (r.world (m + 1)).evPred = true := by
        rw [hw]; simp [World.apply, hx.wakes rfl]
      exact ⟨m + 1, by omega, hpred (m + 1) (by omega) this⟩
  obtain ⟨k, hk, ha⟩ := hf.eventer m fun k hk => by
    unfold World.stepEventer
    rw [hstay k (by omega)]
    simp [hover k hk]
  exact hex ⟨k + 1, by omega, hact k (hstay k (by omega)) ha⟩

/-- What happened to events between two moments: `x` were executed. -/
def EvRel (w w' : World) (x : List (String × TokenEvent)) : Prop :=
  executedEvents w'.log = executedEvents w.log ++ x ∧ ∃ q, openEvents w ++ q = x ++ openEvents w'

theorem EvRel.trans {w1 w2 w3 : World} {x y : List (String × TokenEvent)} (h : EvRel w1 w2 x) (h' : EvRel w2 w3 y) :
    EvRel w1 w3 (x ++ y) := by
  obtain ⟨h1, q, h2⟩ := h
  obtain ⟨h3, q', h4⟩ := h'
  refine ⟨by rw [h3, h1, List.append_assoc], q ++ q', ?_⟩
  rw [← List.append_assoc, h2, List.append_assoc, h4, List.append_assoc]

theorem evRel (r : Run E) {n m : Nat} (h : n ≤ m)
    (hset : ∀ k, n ≤ k → (r.world k).ls.config.tokenEventCmd.isSome = true) : ∃ x, EvRel (r.world n) (r.world m) x := by
  induction h with
  | refl => exact ⟨[], by simp, [], by simp⟩
  | @step m hm ih =>
    obtain ⟨x, hx⟩ := ih
    rcases r.stepR m with ⟨_, h⟩ | ⟨a, h', _, hs⟩
    · exact ⟨x, by rw [h]; exact hx⟩
    · obtain ⟨q, d, y, _, h2, h3, _, h5⟩ := hs.events
      rw [← h5 (hset m hm)] at h3
      exact ⟨x ++ y, hx.trans ⟨h2, q, h3⟩⟩

theorem notStranded (r : Run E) {n : Nat} (h : NotStranded (r.world n))
    (hset : ∀ k, n ≤ k → (r.world k).ls.config.tokenEventCmd.isSome = true) : ∀ m, n ≤ m → NotStranded (r.world m) := by
  refine keep (P := fun m => NotStranded (r.world m)) h fun m hm h => ?_
  rcases r.stepR m with ⟨_, h'⟩ | ⟨a, _, _, hs⟩
  · rw [h']; exact h
  · exact h.step (r.reach m) hs (hset m hm)

/-- Some open event is executed. -/
theorem Fair.ev_exec (hf : r.Fair) {n : Nat} (hst : ∀ m, n ≤ m → NotStranded (r.world m))
    (hset : ∀ k, n ≤ k → (r.world k).ls.config.tokenEventCmd.isSome = true) (ho : openEvents (r.world n) ≠ []) :
    ∃ m x, n ≤ m ∧ x ≠ [] ∧ EvRel (r.world n) (r.world m) x := by
  have now' : ∀ m, n ≤ m → openEvents (r.world m) ≠ [] ∨ ∃ x, x ≠ [] ∧ EvRel (r.world n) (r.world m) x := by
    intro m hm
    obtain ⟨x, hx⟩ := r.evRel hm hset
    by_cases hxe : x = []
    · subst hxe
      obtain ⟨q, h⟩ := hx.2
      left
      intro hc
      rw [hc] at h
      simp at h
      exact ho h.1
    · exact .inr ⟨x, hxe, hx⟩
  have hstep : ∀ m, r.action m = some .eventer → StepR E (r.world m) .eventer (r.world (m + 1)) := by
    intro m ha
    rcases r.stepR m with ⟨h, _⟩ | ⟨a, h', _, hs⟩
    · rw [ha] at h; cases h
    · rw [ha] at h'; cases h'; exact hs
  have cRead : ∀ m, n ≤ m → ∀ act e, (r.world m).evPc = .readCmd act e →
      ∃ m x, n ≤ m ∧ x ≠ [] ∧ EvRel (r.world n) (r.world m) x := by
    intro m hm act e hpc
    obtain ⟨k, hk, ha, hpk⟩ := hf.ev_turn (n := m) (by rw [hpc]; exact nofun)
    rw [hpc] at hpk
    obtain ⟨x, hx⟩ := r.evRel (show n ≤ k by omega) hset
    have hs := hstep k ha
    have hrel : EvRel (r.world k) (r.world (k + 1)) [(act, e)] := by
      have hse := hset k (by omega)
      generalize r.world (k + 1) = w' at hs
      cases hs
      case evWait hp1 _ => rw [hpk] at hp1; cases hp1
      case evEmpty hp1 _ => rw [hpk] at hp1; cases hp1
      case evPop hp1 _ => rw [hpk] at hp1; cases hp1
      case evEnd hp1 => rw [hpk] at hp1; cases hp1
      case evNoCmd hp1 hp2 => rw [hp2] at hse; cases hse
      case evCmd hp1 hp2 =>
        rw [hpk] at hp1; cases hp1
        exact ⟨by simp [executedEvents], [], by simp [openEvents, hpk, eventInHand]⟩
    exact ⟨k + 1, x ++ [(act, e)], by omega, by simp, hx.trans hrel⟩
  have cDrain : ∀ m, n ≤ m → (r.world m).evPc = .drain → ∃ m x, n ≤ m ∧ x ≠ [] ∧ EvRel (r.world n) (r.world m) x := by
    intro m hm hpc
    obtain ⟨k, hk, ha, hpk⟩ := hf.ev_turn (n := m) (by rw [hpc]; exact nofun)
    rw [hpc] at hpk
    rcases now' k (by omega) with h | ⟨x, h1, h2⟩
    · have hs := hstep k ha
      obtain ⟨act, e, hp⟩ : ∃ act e, (r.world (k + 1)).evPc = .readCmd act e := by
        generalize r.world (k + 1) = w' at hs
        cases hs
        case evWait hp1 _ => rw [hpk] at hp1; cases hp1
        case evNoCmd hp1 _ => rw [hpk] at hp1; cases hp1
        case evCmd hp1 _ => rw [hpk] at hp1; cases hp1
        case evEnd hp1 => rw [hpk] at hp1; cases hp1
        case evEmpty hp1 hp2 => rw [openEvents, hpk, hp2] at h; exact absurd rfl h
        case evPop => exact ⟨_, _, rfl⟩
      exact cRead (k + 1) (by omega) act e hp
    · exact ⟨k, x, by omega, h1, h2⟩
  cases hpc : (r.world n).evPc with
  | readCmd act e => exact cRead n (Nat.le_refl _) act e hpc
  | drain => exact cDrain n (Nat.le_refl _) hpc
  | running =>
    obtain ⟨k, hk, ha, hpk⟩ := hf.ev_turn (n := n) (by rw [hpc]; exact nofun)
    rw [hpc] at hpk
    have hs := hstep k ha
    refine cDrain (k + 1) (by omega) ?_
    generalize r.world (k + 1) = w' at hs
    cases hs <;> first
      | rfl
      | (rename_i hp1; rw [hpk] at hp1; cases hp1; done)
      | (rename_i hp1 hp2; rw [hpk] at hp1; cases hp1; done)
  | wait =>
    rcases hst n (Nat.le_refl _) (by rw [openEvents, hpc] at ho; exact ho) with h | h
    · exact absurd hpc h
    · obtain ⟨m, hm, hp⟩ := hf.ev_wakes hpc h
      exact cDrain m hm hp

end Run

/-! ## How token states change -/

section
variable {S : Static} {now : Instant} {wall : SysTime} {ls : LockedState} {tid : Nat}
  {op : Op} {inp : Input} {f : Eff}

/-- Where an unmarked token comes from. -/
theorem ExecR.unmarked_from (hx : ExecR E S now wall ls tid op inp f) (h : ls.WF) (hop : OpInv E S ls op)
    (hinst : ∀ c, op = .install c → c.Ok E)
    {e' : Entry} {t : ActiveTok} (he' : e' ∈ f.ls.details) (hts : e'.ts = .active t) (hon : t.ongoing = false) :
    e' ∈ ls.details ∨ ∃ e ∈ ls.details, e.name = e'.name ∧ ∀ t, e.ts = .active t → t.ongoing = true := by
  have hput : ∀ (ls1 : LockedState) (e0 : Entry) (a0 : Account) (ts : TokenState), ls1.details = ls.details →
      ls.Has e0 a0 → f.ls = ls1.put e0.id ts →
      ((∀ t, ts = .active t → t.ongoing = true) ∨ ∀ t, e0.ts = .active t → t.ongoing = true) →
      e' ∈ ls.details ∨ ∃ e ∈ ls.details, e.name = e'.name ∧ ∀ t, e.ts = .active t → t.ongoing = true := by
    intro ls1 e0 a0 ts hd ha hf hw
    rw [hf] at he'
    rcases mem_put.mp he' with ⟨hm, _⟩ | ⟨e1, hm, hid, rfl⟩
    · exact .inl (hd ▸ hm)
    · rcases hw with hw | hw
      · rw [hw t hts] at hon; cases hon
      · refine .inr ⟨e0, ha.1, ?_, hw⟩
        rw [hd] at hm
        rw [h.entry_id_inj hm ha.1 hid]
  have hmark : ∀ (e : Entry) (t1 t2 : ActiveTok), e.ts = .active t1 → t1.ongoing = true → e.ts = .active t2 →
      t2.ongoing = true := by
    intro e t1 t2 h1 h2 h3
    rw [h1] at h3; cases h3; exact h2
  cases hx <;> try exact .inl he'
  case auth ha _ _ => exact hput ls _ _ _ rfl ha rfl (.inl nofun)
  case restoreOk d plain ls' h1 h2 h3 h4 =>
    obtain ⟨d, _, _, hr⟩ := restore_ok h h4
    rcases hr.back e' he' with ⟨hm, _⟩ | ⟨_, e, he, hn, a, tok, o, x, rt, _, hna, _⟩
    · exact .inl hm
    · exact .inr ⟨e, he, hn, fun t ht => absurd ht (hna t)⟩
  case install c ls' hu =>
    have hc := hinst c rfl
    obtain ⟨ls'', h1, h2, h3, h4, h5⟩ := h.updateConf hc.nodup hc.names
    rw [hu] at h1
    cases h1
    obtain ⟨a, _, ⟨o, ho, _⟩ | ⟨_, hts', _⟩⟩ := h5 e' he'
    · exact .inl ho.1
    · rw [hts] at hts'; cases hts'
  case revoke ha _ => exact hput ls _ _ _ rfl ha rfl (.inl nofun)
  case httpError ha _ _ _ _ _ => exact hput ls _ _ _ rfl ha rfl (.inl nofun)
  case exDoneOk ha hid h1 h2 h3 h4 h5 =>
    obtain ⟨p, x, code, hp, _⟩ := hop.2 _ _ ha hid
    exact hput ls _ _ _ rfl ha rfl (.inr fun t ht => by rw [hp] at ht; cases ht)
  case failOk ha hid => exact hput ls _ _ _ rfl ha rfl (.inl nofun)
  case rfStartOk ha hid hts' hon' hrt => exact hput ls.bump _ _ _ rfl ha rfl (.inl fun t ht => by cases ht; rfl)
  case rfStartNoRt ha hid hts' hon' hrt => exact hput ls.bump _ _ _ rfl ha rfl (.inl nofun)
  case rfPermOk ha hid => exact hput ls _ _ _ rfl ha rfl (.inl nofun)
  case rfStoreNoExpiry ha hid hex => exact hput ls _ _ _ rfl ha rfl (.inl nofun)
  case rfStoreOk ha hid hex =>
    obtain ⟨t1, ht1, hon1, _⟩ := hop.2 _ _ ha hid
    exact hput ls _ _ _ rfl ha rfl (.inr fun t2 => hmark _ t1 t2 ht1 hon1)
  case rfTransientCmd ha hid hts' hm hc =>
    obtain ⟨t1, ht1, hon1, _⟩ := hop.2 _ _ ha hid
    exact hput ls _ _ _ rfl ha rfl (.inr fun t2 => hmark _ t1 t2 ht1 hon1)
  case rfTransientKeep ha hid hts' hm =>
    obtain ⟨t1, ht1, hon1, _⟩ := hop.2 _ _ ha hid
    exact hput ls.bump _ _ _ rfl ha rfl (.inr fun t2 => hmark _ t1 t2 ht1 hon1)
  case rfCmdOkOk ha hid hts' =>
    obtain ⟨t1, ht1, hon1, _⟩ := hop.2 _ _ ha hid
    exact hput ls _ _ _ rfl ha rfl (.inr fun t2 => hmark _ t1 t2 ht1 hon1)
  case rfCmdErrOk ha hid => exact hput ls _ _ _ rfl ha rfl (.inl nofun)

/-- Where a pending authorisation comes from. -/
theorem ExecR.waiting_from (hx : ExecR E S now wall ls tid op inp f) (h : ls.WF) (hinst : ∀ c, op = .install c → c.Ok E)
    {e' : Entry} {p : PendingTok} (he' : e' ∈ f.ls.details) (hts : e'.ts = .pending p) :
    e' ∈ ls.details ∨ p.lastNotification = none := by
  have hput : ∀ (ls1 : LockedState) (id : Nat) (ts : TokenState), ls1.details = ls.details →
      f.ls = ls1.put id ts → (∀ p, ts = .pending p → p.lastNotification = none) →
      e' ∈ ls.details ∨ p.lastNotification = none := by
    intro ls1 id ts hd hf hw
    rw [hf] at he'
    rcases mem_put.mp he' with ⟨hm, _⟩ | ⟨e1, _, _, rfl⟩
    · exact .inl (hd ▸ hm)
    · exact .inr (hw p hts)
  cases hx <;>
    first
    | exact .inl he'
    | (refine hput ls _ _ rfl rfl ?_; intro t h; cases h; done)
    | (refine hput ls.bump _ _ rfl rfl ?_; intro t h; cases h; done)
    | skip
  case auth ha _ _ => exact hput ls _ _ rfl rfl fun p hp => by cases hp; rfl
  case restoreOk d plain ls' h1 h2 h3 h4 =>
    obtain ⟨d, _, _, hr⟩ := restore_ok h h4
    rcases hr.back e' he' with ⟨hm, _⟩ | ⟨_, e, he, hn, a, tok, o, x, rt, _, _, _, hts'⟩
    · exact .inl hm
    · rw [hts] at hts'; cases hts'
  case install c ls' hu =>
    have hc := hinst c rfl
    obtain ⟨ls'', h1, h2, h3, h4, h5⟩ := h.updateConf hc.nodup hc.names
    rw [hu] at h1
    cases h1
    obtain ⟨a, _, ⟨o, ho, _⟩ | ⟨_, hts', _⟩⟩ := h5 e' he'
    · exact .inl ho.1
    · rw [hts] at hts'; cases hts'

/-- Where a handle on an account comes from. -/
theorem ExecR.handle_from (hx : ExecR E S now wall ls tid op inp f) (h : ls.WF) {o : Op} {e' : Entry} (ho : o ∈ f.next)
    (hoh : o.refreshHandle = some e'.id) (he' : e' ∈ f.ls.details) :
    ∃ e ∈ ls.details, e.name = e'.name ∧
      (op.refreshHandle = some e.id ∨
       ∃ t a r c, e.ts = .active t ∧ t.ongoing = false ∧ t.refreshToken = some r ∧ ls.config.get? e.name = some a ∧
         c.tokenUri = a.tokenUri ∧ c.form = refreshForm a r ∧ .rfSend c ∈ f.next) := by
  cases hx <;> simp only [List.mem_cons, List.not_mem_nil, or_false] at ho <;>
    first
    | exact ho.elim
    | (subst ho; cases hoh; done)
    | (subst ho; exact ⟨e', he', rfl, .inl hoh⟩)
    | (rcases ho with rfl | rfl <;> cases hoh; done)
    | (rcases ho with rfl | rfl | rfl <;> cases hoh; done)
    | (rcases ho with rfl | rfl | rfl | rfl <;> cases hoh; done)
    | skip
  case failOk =>
    rcases ho with rfl | ho
    · cases hoh
    · split at ho <;> simp at ho
      rcases ho with rfl | rfl <;> cases hoh
  case rfStartOk e a t r ha hid hts hon hrt =>
    rcases mem_put.mp he' with ⟨hm, _⟩ | ⟨e1, hm, hid', rfl⟩
    · subst ho
      have := h.lt e' hm
      simp [Op.refreshHandle] at hoh
      omega
    · have := h.entry_id_inj hm ha.1 hid'
      subst this
      exact ⟨e1, hm, rfl, .inr ⟨_, a, r, _, hts, hon, hrt, ha.2, rfl, rfl, List.mem_singleton.mpr rfl⟩⟩
  case rfTransientCmd e a t cmd ha hid hts hm hc =>
    rcases mem_put.mp he' with ⟨hm, _⟩ | ⟨e1, hm, hid', rfl⟩
    · subst ho
      have := h.lt e' hm
      simp [Op.refreshHandle] at hoh
      omega
    · have := h.entry_id_inj hm ha.1 hid'
      subst this
      exact ⟨e1, hm, rfl, .inl (congrArg some hid.symm)⟩

end

/-- A token which is not being refreshed stays, as long as there is one and it is not being refreshed. -/
theorem StepR.unmarked_stays {w w' : World} {a : Action} (hr : Reach E w) (hs : StepR E w a w') {e e' : Entry}
    {t t' : ActiveTok} (he : e ∈ w.ls.details) (hts : e.ts = .active t) (hon : t.ongoing = false)
    (he' : e' ∈ w'.ls.details) (hts' : e'.ts = .active t') (hon' : t'.ongoing = false) (hn : e'.name = e.name) :
    e' = e := by
  have h0 := hr.inv0
  have key : e' ∈ w.ls.details → e' = e := fun h => h0.wf.entry_name_inj h he hn
  cases hs <;> try exact key he'
  case run tid inp op rest f ht hx =>
    rcases hx.unmarked_from h0.wf (Reach.opsInv w hr tid op (by rw [ht]; simp))
      (by rintro c rfl; exact h0.inst tid c (by rw [ht]; simp)) he' hts' hon' with h | ⟨e1, h1, h2, h3⟩
    · exact key h
    · have := h0.wf.entry_name_inj h1 he (h2.trans hn)
      subst this
      rw [h3 t hts] at hon; cases hon
  case notScan ls' hp hn' =>
    rcases hn'.back e' he' with ⟨h, _⟩ | ⟨_, _, p, _, _, hts'', _⟩
    · exact key h
    · rw [hts'] at hts''; cases hts''

/-- What was known to the user of an authorisation stays known, unless the notifier tells them. -/
theorem StepR.waiting_stays {w w' : World} {a : Action} (hr : Reach E w) (hs : StepR E w a w') {n : String}
    {p p' : PendingTok} (hp : HoldsPending w.ls n p) (hp' : HoldsPending w'.ls n p') :
    p' = p ∨ p'.lastNotification = none ∨
      (a = .notifier ∧ w.notPc = .scan ∧ notifyDue w.ls.config.authNotifyInterval w.now p = true) := by
  have h0 := hr.inv0
  obtain ⟨e, he, hn, hts⟩ := hp
  obtain ⟨e', he', hn', hts'⟩ := hp'
  have key : e' ∈ w.ls.details → p' = p := fun h => by
    have := h0.wf.entry_name_inj h he (hn'.trans hn.symm)
    subst this
    rw [hts] at hts'; cases hts'; rfl
  cases hs <;> try exact .inl (key he')
  case run tid inp op rest f ht hx =>
    rcases hx.waiting_from h0.wf (by rintro c rfl; exact h0.inst tid c (by rw [ht]; simp)) he' hts' with h | h
    · exact .inl (key h)
    · exact .inr (.inl h)
  case notScan ls' hp hN =>
    rcases hN.back e' he' with ⟨h, _⟩ | ⟨e1, he1, p1, hd, hn1, hts1, _⟩
    · exact .inl (key h)
    · have := h0.wf.entry_name_inj he1 he ((hn1.symm.trans hn').trans hn.symm)
      subst this
      obtain ⟨h1, h2⟩ := dueEntry_some.mp hd
      rw [hts] at h1; cases h1
      exact .inr (.inr ⟨rfl, hp, h2⟩)

/-- An account which is marked is being refreshed by the same thread as before. -/
theorem StepR.refreshingAccount {w w' : World} {a : Action} (hr : Reach E w) (hs : StepR E w a w') {i : Nat} {n : String}
    (h : RefreshingAccount w i n) (hm0 : Marked w.ls n) (hm : Marked w'.ls n) : RefreshingAccount w' i n := by
  have h0 := hr.inv0
  obtain ⟨e, he, hn, o, ho, hoh⟩ := h
  obtain ⟨e', he', t', hn', hts', hon'⟩ := hm
  have hi0 := ((Reach.shape w hr).refreshing ho hoh)
  have key : e' ∈ w.ls.details → e' = e := fun h => h0.wf.entry_name_inj h he (hn'.trans hn.symm)
  have same : w'.threads i = w.threads i → e' ∈ w.ls.details → RefreshingAccount w' i n := fun h1 h2 =>
    ⟨e', he', hn', o, by rw [h1]; exact ho, by rw [key h2]; exact hoh⟩
  have hlt := h0.lt_of_mem' ho
  cases hs <;> try exact same rfl he'
  case connect buf hb => exact same (by simp only; rw [setThread_ne _ hi0.1]) he'
  case http buf sec hb => exact same (by simp only; rw [setThread_ne _ (by omega)]) he'
  case refScan => exact same (by simp only; rw [spawnAll_lt _ _ _ _ hlt]) he'
  case notScan ls' hp hN =>
    rcases hN.back e' he' with ⟨h, _⟩ | ⟨_, _, p, _, _, hts'', _⟩
    · exact same rfl h
    · rw [hts'] at hts''; cases hts''
  case run tid inp op rest f ht hx =>
    have hcase := hx.marked h0.wf (by rintro c rfl; exact h0.inst tid c (by rw [ht]; simp)) he' hts' hon'
    by_cases hti : i = tid
    · subst hti
      rw [hi0.2] at ht
      cases ht
      rcases hcase with ⟨h1, h2⟩ | ⟨o', ho', hoh'⟩
      · rw [key h1] at h2; exact absurd hoh h2
      · refine ⟨e', he', hn', o', ?_, hoh'⟩
        rw [apply_threads_self hlt]
        exact List.mem_append_left _ ho'
    · rcases hcase with ⟨h1, h2⟩ | ⟨o', ho', hoh'⟩
      · exact same (apply_threads_other hlt hti rest f) h1
      · exfalso
        obtain ⟨e1, he1, t1, hn1, hts1, hon1⟩ := hm0
        have h1e := h0.wf.entry_name_inj he1 he (hn1.trans hn.symm)
        subst h1e
        obtain ⟨e2, he2, hn2, h | ⟨t, _, _, _, h1, h2, _⟩⟩ := hx.handle_from h0.wf ho' hoh' he' <;>
          have h2e := h0.wf.entry_name_inj he2 he (hn2.trans (hn'.trans hn.symm)) <;> subst h2e
        · exact hti ((Reach.refInv w hr).unique i tid _ ⟨o, ho, hoh⟩ ⟨op, by rw [ht]; simp, h⟩)
        · rw [hts1] at h1; cases h1; rw [hon1] at h2; cases h2

/-- A token starts to be refreshed when a thread is about to send its refresh token. -/
theorem StepR.marked_now {w w' : World} {a : Action} (hr : Reach E w) (hs : StepR E w a w') {n : String} {t : ActiveTok}
    (h : HoldsToken w.ls n t) (hon : t.ongoing = false) (hm : Marked w'.ls n) :
    ∃ i c act rt, .rfSend c ∈ w'.threads i ∧ t.refreshToken = some rt ∧ w.ls.config.get? n = some act ∧
      c.tokenUri = act.tokenUri ∧ c.form = refreshForm act rt := by
  have h0 := hr.inv0
  obtain ⟨e, he, hn, hts⟩ := h
  obtain ⟨e', he', t', hn', hts', hon'⟩ := hm
  have key : ¬ e' ∈ w.ls.details := fun h => by
    have := h0.wf.entry_name_inj h he (hn'.trans hn.symm)
    subst this
    rw [hts] at hts'; cases hts'; rw [hon] at hon'; cases hon'
  cases hs <;> try exact absurd he' key
  case notScan ls' hp hN =>
    rcases hN.back e' he' with ⟨h, _⟩ | ⟨_, _, p, _, _, hts'', _⟩
    · exact absurd h key
    · rw [hts'] at hts''; cases hts''
  case run tid inp op rest f ht hx =>
    rcases hx.marked h0.wf (by rintro c rfl; exact h0.inst tid c (by rw [ht]; simp)) he' hts' hon' with ⟨h, _⟩ | ⟨o, ho, hoh⟩
    · exact absurd h key
    · obtain ⟨e2, he2, hn2, h | ⟨t2, act, rt, c, h1, h2, h3, h4, h5, h6, h7⟩⟩ := hx.handle_from h0.wf ho hoh he' <;>
        have h2e := h0.wf.entry_name_inj he2 he (hn2.trans (hn'.trans hn.symm)) <;> subst h2e
      · exfalso
        obtain ⟨i, hi⟩ := h0.wf.has he
        have hop := Reach.opsInv w hr tid op (by rw [ht]; simp)
        cases op <;> simp only [Op.refreshHandle, reduceCtorEq, Option.some.injEq] at h <;>
          obtain ⟨t1, ht1, hon1, _⟩ := hop.2 _ _ hi h.symm <;>
          rw [hts] at ht1 <;> cases ht1 <;> rw [hon] at hon1 <;> cases hon1
      · rw [hts] at h1
        cases h1
        exact ⟨tid, c, act, rt, by rw [apply_threads_self (h0.lt_of_mem ht)]; exact List.mem_append_left _ h7, h3, hn ▸ h4,
          h5, h6⟩

end Pizauth
