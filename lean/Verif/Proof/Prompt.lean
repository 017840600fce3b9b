import Verif.Spec.Prompt
import Verif.Proof.Fair

/-!
# What must happen soon
-/

namespace Pizauth
open LockedState

variable {E : Env}

/-! ## Wake-ups and events are not far down in the list of what a thread has to do -/

def Op.isWake : Op → Bool
  | .wakeRefresher | .wakeNotifier | .wakeEventer | .pushEvent _ _ => true
  | _ => false

/-- Operations which do not wait and lead to no others. -/
def Op.quick : Op → Bool
  | .wakeRefresher | .wakeNotifier | .wakeEventer | .pushEvent _ _ | .reply _ | .close | .install _ | .httpAnswer _
  | .notifyError _ _ => true
  | _ => false

/-- Wake-ups and events are among the first `k` operations, and those before them are quick. -/
def soon : Nat → List Op → Prop
  | 0, l => ∀ o ∈ l, o.isWake = false
  | _ + 1, [] => True
  | k + 1, o :: l => if o.quick = true then soon k l else ∀ x ∈ l, x.isWake = false

theorem soon_none : ∀ (k : Nat) (l : List Op), (∀ o ∈ l, o.isWake = false) → soon k l
  | 0, _, h => h
  | _ + 1, [], _ => trivial
  | k + 1, o :: l, h => by
    unfold soon
    split
    · exact soon_none k l fun x hx => h x (List.mem_cons_of_mem _ hx)
    · exact fun x hx => h x (List.mem_cons_of_mem _ hx)

theorem soon_succ : ∀ (k : Nat) (l : List Op), soon k l → soon (k + 1) l
  | 0, l, h => soon_none _ l h
  | _ + 1, [], _ => trivial
  | k + 1, o :: l, h => by
    unfold soon at h ⊢
    split at h
    · rename_i hq; rw [if_pos hq]; exact soon_succ k l h
    · rename_i hq; rw [if_neg hq]; exact h

theorem ExecR.soon_next {S : Static} {now : Instant} {wall : SysTime} {ls : LockedState} {tid : Nat} {op : Op}
    {inp : Input} {f : Eff} (hx : ExecR E S now wall ls tid op inp f) (hq : op.quick = false) :
    soon 3 (f.next ++ [.close]) ∧ soon 3 f.next := by
  cases hx <;> first | (simp [Op.quick] at hq; done) | (simp [soon, Op.quick, Op.isWake]; done) | skip
  case failOk => simp only; split <;> simp [soon, Op.quick, Op.isWake]

theorem ExecR.quick_next {S : Static} {now : Instant} {wall : SysTime} {ls : LockedState} {tid : Nat} {op : Op}
    {inp : Input} {f : Eff} (hx : ExecR E S now wall ls tid op inp f) (hq : op.quick = true) : f.next = [] := by
  cases hx <;> first | rfl | (simp [Op.quick] at hq; done)

theorem ShapeInv.slow {w : World} (h : ShapeInv w) {i : Nat} {op : Op} {rest : List Op} (ht : w.threads i = op :: rest)
    (hq : op.quick = false) : rest = [] ∨ rest = [.close] := by
  by_cases hi : i = 0
  · subst hi
    have hm := h.main
    rw [ht] at hm
    rcases hm.cons with ⟨buf, rfl, rfl⟩ | ⟨c, rfl, rfl⟩ | ⟨rfl, rfl⟩ | ⟨ho, ops, rfl, hops⟩
    · exact .inr rfl
    · simp [Op.quick] at hq
    · exact .inl rfl
    · cases op <;> simp [Op.quick, Op.isTail, Op.isReply] at hq ho
  · have hm := h.work i hi
    rw [ht] at hm
    rcases hm.cons with ⟨ho, hr⟩ | ⟨ho, rfl⟩ | ⟨⟨b, rfl⟩, hr⟩
    · cases op <;> simp [Op.quick, Op.isTail] at hq ho
    · exact .inl rfl
    · simp [Op.quick] at hq

theorem Reach.soon : ∀ w, Reach E w → ∀ i, soon 3 (w.threads i) := by
  apply Reach.induct
  · intro w hi i
    rw [hi.threads]; trivial
  · intro w a w' hr h0 _ ih hs i
    have hnew : ∀ o : Op, Pizauth.soon 3 [o] := by
      intro o; cases o <;> simp [Pizauth.soon, Op.quick]
    cases hs <;> try exact ih i
    case connect buf hb =>
      simp only
      by_cases hi : i = 0
      · subst hi; rw [setThread_same]; simp [Pizauth.soon, Op.quick, Op.isWake]
      · rw [setThread_ne _ hi]; exact ih i
    case http buf sec hb =>
      simp only
      by_cases hi : i = w.nextTid
      · subst hi; rw [setThread_same]; exact hnew _
      · rw [setThread_ne _ hi]; exact ih i
    case refScan es hp he =>
      simp only
      rcases spawnAll_cases w.threads w.nextTid i (es.map fun e => .rfStart e.id) with
        ⟨_, h1⟩ | ⟨_, op, hop, h1⟩ | ⟨_, h1⟩ <;> rw [h1]
      · exact ih i
      · exact hnew _
      · exact ih i
    case run tid inp op rest f ht hx =>
      have hself : Pizauth.soon 3 (f.next ++ rest) := by
        have hold := ih tid
        rw [ht] at hold
        cases hq : op.quick with
        | true =>
          rw [hx.quick_next hq, List.nil_append]
          unfold Pizauth.soon at hold
          rw [if_pos hq] at hold
          exact soon_succ _ _ hold
        | false =>
          rcases (Reach.shape w hr).slow ht hq with rfl | rfl
          · rw [List.append_nil]; exact (hx.soon_next hq).2
          · exact (hx.soon_next hq).1
      simp only [World.apply]
      rcases spawnAll_cases (setThread w.threads tid (f.next ++ rest)) w.nextTid i f.spawn with
        ⟨_, h1⟩ | ⟨_, o, ho, h1⟩ | ⟨_, h1⟩ <;> rw [h1]
      · by_cases hi : i = tid
        · subst hi; rw [setThread_same]; exact hself
        · rw [setThread_ne _ hi]; exact ih i
      · exact hnew _
      · by_cases hi : i = tid
        · subst hi; rw [setThread_same]; exact hself
        · rw [setThread_ne _ hi]; exact ih i

namespace Run
variable {r : Run E} {δ : Nat}

/-- What is kept as long as the clock does not pass `B`. -/
theorem keepIn {P : Nat → Prop} {n : Nat} {B : Instant} (h : P n)
    (hs : ∀ m, n ≤ m → (r.world (m + 1)).now ≤ B → P m → P (m + 1)) : ∀ m, n ≤ m → (r.world m).now ≤ B → P m := by
  intro m hm
  induction hm with
  | refl => exact fun _ => h
  | @step m hm ih => exact fun hb => hs m hm hb (ih (Int.le_trans (r.now_le_succ m) hb))

theorem Prompt.own (hf : r.Prompt δ) {n i : Nat} {inp : Input} (ha : r.action n = some (.run i inp)) :
    ∃ op rest f, (r.world n).threads i = op :: rest ∧
      ExecR E (r.world n).st (r.world n).now (r.world n).wall (r.world n).ls i op inp f ∧
      r.world (n + 1) = (r.world n).apply i rest f := by
  rcases r.stepR n with ⟨h, _⟩ | ⟨a, h, _, hs⟩
  · rw [ha] at h; cases h
  · rw [ha] at h
    cases h
    have hal := hf.alive (n + 1)
    generalize r.world (n + 1) = w' at hs hal
    cases hs with
    | run ht hx => exact ⟨_, _, _, ht, hx, rfl⟩
    | runPanic => cases hal

/-- Threads come to their next step within `δ`, with the operations they had. -/
theorem Prompt.turn (hf : r.Prompt δ) {n i : Nat} {op : Op} {rest : List Op} (h : (r.world n).threads i = op :: rest)
    (hw : op.waits = false) :
    ∃ m inp f, n ≤ m ∧ (r.world m).now ≤ (r.world n).now + (δ : Int) ∧ r.action m = some (.run i inp) ∧
      (r.world m).threads i = op :: rest ∧
      ExecR E (r.world m).st (r.world m).now (r.world m).wall (r.world m).ls i op inp f ∧
      r.world (m + 1) = (r.world m).apply i rest f := by
  obtain ⟨k, hk, hnow, inp, ha⟩ := hf.thread n i op rest h hw
  obtain ⟨m, hm, ⟨hle, inp, ha⟩, hfirst⟩ := first
    (P := fun m => m ≤ k ∧ ∃ inp, r.action m = some (.run i inp)) ⟨k, hk, Nat.le_refl _, inp, ha⟩
  have ht : (r.world m).threads i = op :: rest :=
    keepUntil (P := fun j => (r.world j).threads i = op :: rest) h hm fun j h1 h2 h3 => by
      rw [r.busy (by rw [h3]; simp) fun inp hc => hfirst j h1 h2 ⟨by omega, inp, hc⟩]; exact h3
  obtain ⟨op', rest', f, ht', hx, hw'⟩ := hf.own ha
  rw [ht] at ht'
  cases ht'
  exact ⟨m, inp, f, hm, Int.le_trans (r.now_mono hle) hnow, ha, ht, hx, hw'⟩

theorem quick_waits {o : Op} (h : o.quick = true) : o.waits = false := by cases o <;> simp [Op.quick, Op.waits] at h ⊢

theorem isWake_quick {o : Op} (h : o.isWake = true) : o.quick = true := by cases o <;> simp [Op.quick, Op.isWake] at h ⊢

theorem apply_now (w : World) (i : Nat) (rest : List Op) (f : Eff) : (w.apply i rest f).now = w.now := rfl

/-- A wake-up which a thread has to perform is performed within three turns. -/
theorem Prompt.wakes (hf : r.Prompt δ) {o : Op} (ho : o.isWake = true) : ∀ (k : Nat) {n i : Nat},
    o ∈ (r.world n).threads i → soon k ((r.world n).threads i) →
    ∃ m inp f rest, n ≤ m ∧ (r.world m).now ≤ (r.world n).now + (k : Int) * (δ : Int) ∧
      ExecR E (r.world m).st (r.world m).now (r.world m).wall (r.world m).ls i o inp f ∧
      r.world (m + 1) = (r.world m).apply i rest f := by
  intro k
  induction k with
  | zero => intro n i h hs; have := hs o h; rw [ho] at this; cases this
  | succ k ih =>
    intro n i h hs
    cases ht : (r.world n).threads i with
    | nil => rw [ht] at h; cases h
    | cons op rest =>
      rw [ht] at hs h
      unfold soon at hs
      have hq : op.quick = true := by
        cases hq : op.quick with
        | true => rfl
        | false =>
          rw [hq, if_neg (by simp)] at hs
          rcases List.mem_cons.mp h with rfl | h
          · rw [isWake_quick ho] at hq; cases hq
          · have := hs o h; rw [ho] at this; cases this
      rw [if_pos hq] at hs
      obtain ⟨m, inp, f, hm, hnow, ha, ht', hx, hw⟩ := hf.turn ht (quick_waits hq)
      have hmul : ((k + 1 : Nat) : Int) * (δ : Int) = (k : Int) * (δ : Int) + (δ : Int) := by
        rw [Int.natCast_succ, Int.add_mul, Int.one_mul]
      have hpos : 0 ≤ (k : Int) * (δ : Int) := Int.mul_nonneg (by omega) (by omega)
      by_cases hop : o = op
      · subst hop
        exact ⟨m, inp, f, rest, hm, by omega, hx, hw⟩
      · have hrest : (r.world (m + 1)).threads i = rest := by
          rw [hw, apply_threads_self ((r.reach m).inv0.lt_of_mem ht'), hx.quick_next hq, List.nil_append]
        obtain ⟨m', inp', f', rest', hm', hnow', h'⟩ := ih (n := m + 1) (i := i)
          (by rw [hrest]; exact (List.mem_cons.mp h).resolve_left hop) (by rw [hrest]; exact hs)
        rw [hw, apply_now] at hnow'
        exact ⟨m', inp', f', rest', by omega, by omega, h'⟩

/-! ## The refresher -/

theorem Prompt.ref_turn (hf : r.Prompt δ) {n : Nat} (h : (r.world n).refPc = .compute ∨ (r.world n).refPc = .scan) :
    ∃ m, n ≤ m ∧ (r.world m).now ≤ (r.world n).now + (δ : Int) ∧ r.action m = some .refresher ∧
      (r.world m).refPc = (r.world n).refPc := by
  by_cases hex : ∃ m, n ≤ m ∧ r.action m = some .refresher ∧ (r.world m).now ≤ (r.world n).now + (δ : Int)
  · obtain ⟨m, hm, ⟨ha, hnow⟩, hk⟩ := first hex
    refine ⟨m, hm, hnow, ha, keepUntil (P := fun k => (r.world k).refPc = (r.world n).refPc) rfl hm
      fun k h1 h2 h3 => (r.refPc_keep fun hc => hk k h1 h2 ⟨hc, ?_⟩).trans h3⟩
    exact Int.le_trans (r.now_mono (by omega)) hnow
  · obtain ⟨m, h1, h2, h3⟩ := hf.refresher n fun m hm hb => by
      have : (r.world m).refPc = (r.world n).refPc :=
        keepIn (r := r) (P := fun k => (r.world k).refPc = (r.world n).refPc) rfl
          (fun k h1 h2 h3 => (r.refPc_keep fun hc => hex ⟨k, h1, hc, Int.le_trans (r.now_le_succ k) h2⟩).trans h3) m hm hb
      unfold World.stepRefresher
      rcases h with h | h <;> rw [this, h] <;> simp only <;> split <;> simp
    exact absurd ⟨m, h1, h3, h2⟩ hex

/-- A wait which is over, or about to be ended, ends. -/
theorem Prompt.ref_wakes (hf : r.Prompt δ) {n : Nat} {x : Option Instant} (h : (r.world n).refPc = .wait x)
    (hw : (∃ s, x = some s ∧ s < (r.world n).now) ∨ RefresherWoken (r.world n)) :
    ∃ m, n ≤ m ∧ (r.world m).now ≤ (r.world n).now + 4 * (δ : Int) ∧ (r.world m).refPc = .scan := by
  by_cases hex : ∃ m, n ≤ m ∧ (r.world m).now ≤ (r.world n).now + 4 * (δ : Int) ∧ (r.world m).refPc = .scan
  · exact hex
  exfalso
  have hact : ∀ m, (r.world m).refPc = .wait x → r.action m = some .refresher →
      (r.world (m + 1)).refPc = .scan ∧ (r.world (m + 1)).now = (r.world m).now := by
    intro m hm ha
    rcases r.stepR m with ⟨h, _⟩ | ⟨a, h', _, hs⟩
    · rw [ha] at h; cases h
    · rw [ha] at h'
      cases h'
      generalize r.world (m + 1) = w' at hs
      cases hs <;> first | exact ⟨rfl, rfl⟩ | (rename_i hp; rw [hm] at hp; cases hp) | (rename_i hp _; rw [hm] at hp; cases hp)
  have hstay : ∀ m, n ≤ m → (r.world m).now ≤ (r.world n).now + 4 * (δ : Int) → (r.world m).refPc = .wait x := by
    refine keepIn (r := r) (P := fun m => (r.world m).refPc = .wait x) h fun m hm hb h => ?_
    by_cases ha : r.action m = some .refresher
    · exact absurd ⟨m + 1, by omega, hb, (hact m h ha).1⟩ hex
    · exact (r.refPc_keep ha).trans h
  have hpred : ∀ m, n ≤ m → (r.world m).refPred = true → ∀ k, m ≤ k →
      (r.world k).now ≤ (r.world n).now + 4 * (δ : Int) → (r.world k).refPred = true := by
    intro m hm hp
    refine keepIn (r := r) (P := fun m => (r.world m).refPred = true) hp fun k hk hb hp => ?_
    have hscan : (r.world (k + 1)).refPc = .wait x := hstay (k + 1) (by omega) hb
    rcases r.stepR k with ⟨_, h⟩ | ⟨a, h', _, hs⟩
    · rw [h]; exact hp
    · generalize r.world (k + 1) = w' at hs hscan
      cases hs <;> first | exact hp | (simp [World.apply, hp]; done) | cases hscan
  obtain ⟨m, hm, hmb, hover⟩ : ∃ m, n ≤ m ∧ (r.world m).now ≤ (r.world n).now + 3 * (δ : Int) ∧
      ∀ k, m ≤ k → (r.world k).now ≤ (r.world n).now + 4 * (δ : Int) →
        World.waitOver (r.world k).refPred x (r.world k).now = true := by
    rcases hw with ⟨s, rfl, hs⟩ | hw | ⟨i, hi⟩
    · refine ⟨n, Nat.le_refl _, by omega, fun k hk _ => waitOver_iff.mpr (.inr ⟨s, rfl, ?_⟩)⟩
      have := r.now_mono hk
      omega
    · exact ⟨n, Nat.le_refl _, by omega, fun k hk hb => waitOver_iff.mpr (.inl (hpred n (Nat.le_refl _) hw k hk hb))⟩
    · obtain ⟨m, inp, f, rest, hm, hb, hx, hw⟩ := hf.wakes (o := .wakeRefresher) rfl 3 hi (Reach.soon _ (r.reach n) i)
      have : (r.world (m + 1)).refPred = true := by
        rw [hw]; cases hx; simp [World.apply]
      refine ⟨m + 1, by omega, ?_, fun k hk hb => waitOver_iff.mpr (.inl (hpred (m + 1) (by omega) this k hk hb))⟩
      rw [hw, apply_now]; omega
  obtain ⟨k, hk, hkb, ha⟩ := hf.refresher m fun k hk hb => by
    unfold World.stepRefresher
    rw [hstay k (by omega) (by omega)]
    simp [hover k hk (by omega)]
  obtain ⟨h1, h2⟩ := hact k (hstay k (by omega) (by omega)) ha
  exact hex ⟨k + 1, by omega, by omega, h1⟩

/-- Once a token is due, the refresher looks at it soon. -/
theorem Prompt.ref_scans (hf : r.Prompt δ) {n : Nat} {a : String}
    (h : ∀ m, n ≤ m → (r.world m).now ≤ (r.world n).now + 6 * (δ : Int) →
      ∃ d, RefreshAt (r.world m).ls (r.world m).now a d ∧ d < (r.world n).now) :
    ∃ m, n ≤ m ∧ (r.world m).now ≤ (r.world n).now + 6 * (δ : Int) ∧ r.action m = some .refresher ∧
      (r.world m).refPc = .scan := by
  have hwait : ∀ k, n ≤ k → (r.world k).now ≤ (r.world n).now + (δ : Int) → ∀ x, (r.world k).refPc = .wait x →
      ∃ m, n ≤ m ∧ (r.world m).now ≤ (r.world n).now + 6 * (δ : Int) ∧ r.action m = some .refresher ∧
        (r.world m).refPc = .scan := by
    intro k hk hb x hx
    obtain ⟨d, hd, hlt⟩ := h k hk (by omega)
    have hn := r.now_mono hk
    obtain ⟨m, hm, hmb, hsc⟩ := hf.ref_wakes hx
      (((Reach.refSched _ (r.reach k)) x hx a d hd).imp (fun ⟨s, h, hle⟩ => ⟨s, h, by omega⟩) id)
    obtain ⟨m', hm', hmb', ha, hp⟩ := hf.ref_turn (.inr hsc)
    exact ⟨m', by omega, by omega, ha, hp.trans hsc⟩
  cases hpc : (r.world n).refPc with
  | scan =>
    obtain ⟨m', hm', hb', ha, hp⟩ := hf.ref_turn (.inr hpc)
    exact ⟨m', by omega, by omega, ha, hp.trans hpc⟩
  | wait x => exact hwait n (Nat.le_refl _) (by omega) x hpc
  | compute =>
    obtain ⟨m, hm, hb, ha, hp⟩ := hf.ref_turn (.inl hpc)
    rw [hpc] at hp
    rcases r.stepR m with ⟨h, _⟩ | ⟨a, h', _, hs⟩
    · rw [ha] at h; cases h
    · rw [ha] at h'
      cases h'
      have : ∃ x, (r.world (m + 1)).refPc = .wait x ∧ (r.world (m + 1)).now = (r.world m).now := by
        generalize r.world (m + 1) = w' at hs
        cases hs <;> first | exact ⟨_, rfl, rfl⟩ | (rename_i hp'; rw [hp] at hp'; cases hp'; done) | (rename_i hp' _; rw [hp] at hp'; cases hp')
      obtain ⟨x, hx, hxn⟩ := this
      exact hwait (m + 1) (by omega) (by omega) x hx

/-! ## The notifier -/

theorem Prompt.not_turn (hf : r.Prompt δ) {n : Nat} (h : (r.world n).notPc = .compute ∨ (r.world n).notPc = .scan) :
    ∃ m, n ≤ m ∧ (r.world m).now ≤ (r.world n).now + (δ : Int) ∧ r.action m = some .notifier ∧
      (r.world m).notPc = (r.world n).notPc := by
  by_cases hex : ∃ m, n ≤ m ∧ r.action m = some .notifier ∧ (r.world m).now ≤ (r.world n).now + (δ : Int)
  · obtain ⟨m, hm, ⟨ha, hnow⟩, hk⟩ := first hex
    refine ⟨m, hm, hnow, ha, keepUntil (P := fun k => (r.world k).notPc = (r.world n).notPc) rfl hm
      fun k h1 h2 h3 => (r.notPc_keep fun hc => hk k h1 h2 ⟨hc, ?_⟩).trans h3⟩
    exact Int.le_trans (r.now_mono (by omega)) hnow
  · obtain ⟨m, h1, h2, h3⟩ := hf.notifier n fun m hm hb => by
      have : (r.world m).notPc = (r.world n).notPc :=
        keepIn (r := r) (P := fun k => (r.world k).notPc = (r.world n).notPc) rfl
          (fun k h1 h2 h3 => (r.notPc_keep fun hc => hex ⟨k, h1, hc, Int.le_trans (r.now_le_succ k) h2⟩).trans h3) m hm hb
      unfold World.stepNotifier
      rcases h with h | h <;> rw [this, h] <;> simp only <;> split <;> simp
    exact absurd ⟨m, h1, h3, h2⟩ hex

theorem Prompt.not_wakes (hf : r.Prompt δ) {n : Nat} {x : Option Instant} (h : (r.world n).notPc = .wait x)
    (hw : (∃ s, x = some s ∧ s < (r.world n).now) ∨ NotifierWoken (r.world n)) :
    ∃ m, n ≤ m ∧ (r.world m).now ≤ (r.world n).now + 4 * (δ : Int) ∧ (r.world m).notPc = .scan := by
  by_cases hex : ∃ m, n ≤ m ∧ (r.world m).now ≤ (r.world n).now + 4 * (δ : Int) ∧ (r.world m).notPc = .scan
  · exact hex
  exfalso
  have hact : ∀ m, (r.world m).notPc = .wait x → r.action m = some .notifier →
      (r.world (m + 1)).notPc = .scan ∧ (r.world (m + 1)).now = (r.world m).now := by
    intro m hm ha
    rcases r.stepR m with ⟨h, _⟩ | ⟨a, h', _, hs⟩
    · rw [ha] at h; cases h
    · rw [ha] at h'
      cases h'
      generalize r.world (m + 1) = w' at hs
      cases hs <;> first | exact ⟨rfl, rfl⟩ | (rename_i hp; rw [hm] at hp; cases hp) | (rename_i hp _; rw [hm] at hp; cases hp)
  have hstay : ∀ m, n ≤ m → (r.world m).now ≤ (r.world n).now + 4 * (δ : Int) → (r.world m).notPc = .wait x := by
    refine keepIn (r := r) (P := fun m => (r.world m).notPc = .wait x) h fun m hm hb h => ?_
    by_cases ha : r.action m = some .notifier
    · exact absurd ⟨m + 1, by omega, hb, (hact m h ha).1⟩ hex
    · exact (r.notPc_keep ha).trans h
  have hpred : ∀ m, n ≤ m → (r.world m).notPred = true → ∀ k, m ≤ k →
      (r.world k).now ≤ (r.world n).now + 4 * (δ : Int) → (r.world k).notPred = true := by
    intro m hm hp
    refine keepIn (r := r) (P := fun m => (r.world m).notPred = true) hp fun k hk hb hp => ?_
    have hscan : (r.world (k + 1)).notPc = .wait x := hstay (k + 1) (by omega) hb
    rcases r.stepR k with ⟨_, h⟩ | ⟨a, h', _, hs⟩
    · rw [h]; exact hp
    · generalize r.world (k + 1) = w' at hs hscan
      cases hs <;> first | exact hp | (simp [World.apply, hp]; done) | cases hscan
  obtain ⟨m, hm, hmb, hover⟩ : ∃ m, n ≤ m ∧ (r.world m).now ≤ (r.world n).now + 3 * (δ : Int) ∧
      ∀ k, m ≤ k → (r.world k).now ≤ (r.world n).now + 4 * (δ : Int) →
        World.waitOver (r.world k).notPred x (r.world k).now = true := by
    rcases hw with ⟨s, rfl, hs⟩ | hw | ⟨i, hi⟩
    · refine ⟨n, Nat.le_refl _, by omega, fun k hk _ => waitOver_iff.mpr (.inr ⟨s, rfl, ?_⟩)⟩
      have := r.now_mono hk
      omega
    · exact ⟨n, Nat.le_refl _, by omega, fun k hk hb => waitOver_iff.mpr (.inl (hpred n (Nat.le_refl _) hw k hk hb))⟩
    · obtain ⟨m, inp, f, rest, hm, hb, hx, hw⟩ := hf.wakes (o := .wakeNotifier) rfl 3 hi (Reach.soon _ (r.reach n) i)
      have : (r.world (m + 1)).notPred = true := by
        rw [hw]; cases hx; simp [World.apply]
      refine ⟨m + 1, by omega, ?_, fun k hk hb => waitOver_iff.mpr (.inl (hpred (m + 1) (by omega) this k hk hb))⟩
      rw [hw, apply_now]; omega
  obtain ⟨k, hk, hkb, ha⟩ := hf.notifier m fun k hk hb => by
    unfold World.stepNotifier
    rw [hstay k (by omega) (by omega)]
    simp [hover k hk (by omega)]
  obtain ⟨h1, h2⟩ := hact k (hstay k (by omega) (by omega)) ha
  exact hex ⟨k + 1, by omega, by omega, h1⟩

/-- If the user is to be told of something, the notifier looks at it soon, if only the clock goes on. -/
theorem Prompt.not_scans (hf : r.Prompt δ) {n : Nat} {a : String}
    (h : ∀ m, n ≤ m → (r.world m).now ≤ (r.world n).now + 7 * (δ : Int) →
      ∃ d, NotifyAt (r.world m).ls (r.world m).now a d ∧ d ≤ (r.world m).now)
    (hlate : ∃ m, (r.world n).now + (δ : Int) < (r.world m).now) :
    ∃ m, n ≤ m ∧ (r.world m).now ≤ (r.world n).now + 7 * (δ : Int) ∧ r.action m = some .notifier ∧
      (r.world m).notPc = .scan := by
  have hscan : ∀ k, n ≤ k → (r.world k).now ≤ (r.world n).now + 6 * (δ : Int) → (r.world k).notPc = .scan →
      ∃ m, n ≤ m ∧ (r.world m).now ≤ (r.world n).now + 7 * (δ : Int) ∧ r.action m = some .notifier ∧
        (r.world m).notPc = .scan := by
    intro k hk hb hsc
    obtain ⟨m', hm', hmb', ha, hp⟩ := hf.not_turn (.inr hsc)
    exact ⟨m', by omega, by omega, ha, hp.trans hsc⟩
  have hwait : ∀ k, n ≤ k → (r.world k).now ≤ (r.world n).now + (δ : Int) → ∀ x, (r.world k).notPc = .wait x →
      ∃ m, n ≤ m ∧ (r.world m).now ≤ (r.world n).now + 7 * (δ : Int) ∧ r.action m = some .notifier ∧
        (r.world m).notPc = .scan := by
    intro k hk hb x hx
    obtain ⟨d, hd, hle⟩ := h k hk (by omega)
    rcases (Reach.notSched _ (r.reach k)) x hx a d hd with ⟨s, rfl, hs⟩ | hw
    · obtain ⟨l, hl⟩ := hlate
      have hkl : k ≤ l := by
        rcases Nat.lt_or_ge l k with hc | hc
        · have := r.now_mono (Nat.le_of_lt hc); omega
        · exact hc
      obtain ⟨k2, hk2, hlt, hfirst⟩ := first (P := fun m => (r.world k).now < (r.world m).now) ⟨l, hkl, by omega⟩
      have hk2b : (r.world k2).now ≤ (r.world k).now + (δ : Int) := by
        have hne : k2 ≠ k := by rintro rfl; exact Int.lt_irrefl _ hlt
        have h1 := hfirst (k2 - 1) (by omega) (by omega)
        have h2 := hf.clock (k2 - 1)
        rw [show k2 - 1 + 1 = k2 by omega] at h2
        omega
      by_cases hex : ∃ j, k ≤ j ∧ j < k2 ∧ r.action j = some .notifier
      · obtain ⟨j, hj, ⟨hj2, ha⟩, hjf⟩ := first (P := fun j => j < k2 ∧ r.action j = some .notifier) hex
        have hpc : (r.world j).notPc = .wait (some s) :=
          keepUntil (P := fun j => (r.world j).notPc = .wait (some s)) hx hj fun i h1 h2 h3 =>
            (r.notPc_keep fun hc => hjf i h1 h2 ⟨by omega, hc⟩).trans h3
        have hjn := r.now_mono (Nat.le_of_lt hj2)
        rcases r.stepR j with ⟨h, _⟩ | ⟨a, h', _, hs⟩
        · rw [ha] at h; cases h
        · rw [ha] at h'
          cases h'
          have : (r.world (j + 1)).notPc = .scan ∧ (r.world (j + 1)).now = (r.world j).now := by
            generalize r.world (j + 1) = w' at hs
            cases hs <;> first | exact ⟨rfl, rfl⟩ | (rename_i hp; rw [hpc] at hp; cases hp) | (rename_i hp _; rw [hpc] at hp; cases hp)
          exact hscan (j + 1) (by omega) (by omega) this.1
      · have hpc : (r.world k2).notPc = .wait (some s) :=
          keepUntil (P := fun j => (r.world j).notPc = .wait (some s)) hx hk2 fun i h1 h2 h3 =>
            (r.notPc_keep fun hc => hex ⟨i, h1, h2, hc⟩).trans h3
        obtain ⟨m, hm, hmb, hsc⟩ := hf.not_wakes hpc (.inl ⟨s, rfl, by omega⟩)
        exact hscan m (by omega) (by omega) hsc
    · obtain ⟨m, hm, hmb, hsc⟩ := hf.not_wakes hx (.inr hw)
      exact hscan m (by omega) (by omega) hsc
  cases hpc : (r.world n).notPc with
  | scan => exact hscan n (Nat.le_refl _) (by omega) hpc
  | wait x => exact hwait n (Nat.le_refl _) (by omega) x hpc
  | compute =>
    obtain ⟨m, hm, hb, ha, hp⟩ := hf.not_turn (.inl hpc)
    rw [hpc] at hp
    rcases r.stepR m with ⟨h, _⟩ | ⟨a, h', _, hs⟩
    · rw [ha] at h; cases h
    · rw [ha] at h'
      cases h'
      have : ∃ x, (r.world (m + 1)).notPc = .wait x ∧ (r.world (m + 1)).now = (r.world m).now := by
        generalize r.world (m + 1) = w' at hs
        cases hs <;> first | exact ⟨_, rfl, rfl⟩ | (rename_i hp'; rw [hp] at hp'; cases hp'; done) | (rename_i hp' _; rw [hp] at hp'; cases hp')
      obtain ⟨x, hx, hxn⟩ := this
      exact hwait (m + 1) (by omega) (by omega) x hx

/-- The first moment after a given time comes at most `δ` later. -/
theorem Prompt.passes (hf : r.Prompt δ) (k : Nat) {D : Instant} (h : ∃ m, D < (r.world m).now) :
    ∃ m, k ≤ m ∧ D < (r.world m).now ∧ (r.world m).now ≤ max (r.world k).now (D + (δ : Int)) := by
  obtain ⟨l, hl⟩ := h
  obtain ⟨m, hm, hlt, hfirst⟩ := first (P := fun m => D < (r.world m).now) (n := k) ⟨max k l, Nat.le_max_left _ _, by
    have := r.now_mono (Nat.le_max_right k l); omega⟩
  refine ⟨m, hm, hlt, ?_⟩
  by_cases hk : m = k
  · subst hk; omega
  · have h1 := hfirst (m - 1) (by omega) (by omega)
    have h2 := hf.clock (m - 1)
    rw [show m - 1 + 1 = m by omega] at h2
    omega

end Run
end Pizauth
