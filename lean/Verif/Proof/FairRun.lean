import Verif.Proof.Fair

/-!
# Fair executions exist

From every state in which no client is being served there is a fair execution (in which no client connects any more).
-/

namespace Pizauth

variable {E : Env}

/-- Operations which can always be performed and lead to no others. -/
def Op.calm : Op → Bool
  | .wakeRefresher | .wakeNotifier | .pushEvent _ _ | .wakeEventer | .rfStart _ | .rfSend _ | .rfAwait _ | .rfPerm _
  | .rfNow _ _ _ _ | .rfStore _ _ _ _ _ | .rfTransient _ | .rfCmd _ _ _ | .rfCmdWait _ _ | .rfCmdOk _
  | .rfCmdErr _ _ => true
  | _ => false

theorem exec_calm {S : Static} {now : Instant} {wall : SysTime} {ls : LockedState} {tid : Nat} {op : Op}
    (h : op.calm = true) (inp : Input) : exec E S now wall ls tid op inp ≠ .disabled := by
  cases op <;> simp [Op.calm] at h
  case rfStart => simp only [exec, execRfStart]; repeat' split <;> try simp
  case rfPerm => simp only [exec, execRfPerm]; repeat' split <;> try simp
  case rfStore => simp only [exec, execRfStore]; repeat' split <;> try simp
  case rfTransient => simp only [exec, execRfTransient]; repeat' split <;> try simp
  case rfCmdOk => simp only [exec, execRfCmdOk]; repeat' split <;> try simp
  case rfCmdErr => simp only [exec, execRfCmdErr]; repeat' split <;> try simp
  all_goals simp [exec, execRfAwait]
  all_goals (repeat' split <;> try simp)

theorem ExecR.calm {S : Static} {now : Instant} {wall : SysTime} {ls : LockedState} {tid : Nat} {op : Op}
    {inp : Input} {f : Eff} (hx : ExecR E S now wall ls tid op inp f) (h : op.calm = true) :
    (∀ o ∈ f.next, o.calm = true) ∧ f.spawn = [] ∧ f.term = false := by
  cases hx <;> simp [Op.calm] at h ⊢

/-- All threads are calm and the daemon is running. -/
structure Calm (w : World) : Prop where
  proc : w.proc = .running
  ops : ∀ i, ∀ o ∈ w.threads i, o.calm = true

theorem Calm.run {w : World} (hr : Reach E w) (h : Calm w) {i : Nat} (hne : w.threads i ≠ []) (inp : Input) :
    ∃ w', w.step E (.run i inp) = some w' ∧ Calm w' := by
  have h0 := hr.inv0
  cases ht : w.threads i with
  | nil => exact absurd ht hne
  | cons op rest =>
    have hop : op.calm = true := h.ops i op (by rw [ht]; simp)
    have hout := exec_calm (E := E) (S := w.st) (now := w.now) (wall := w.wall) (ls := w.ls) (tid := i) hop inp
    cases hx : exec E w.st w.now w.wall w.ls i op inp with
    | disabled => exact absurd hx hout
    | panic =>
      obtain ⟨buf, rfl, _⟩ := exec_panic h0.wf h0.ports (by rintro c rfl; cases hop)
        (Reach.opsInv w hr i op (by rw [ht]; simp)) hx
      cases hop
    | ok f =>
      have hx' := exec_ok h0.wf hx
      obtain ⟨h1, h2, h3⟩ := hx'.calm hop
      refine ⟨w.apply i rest f, by simp [World.step, h.proc, ht, hx], ?_, ?_⟩
      · simp [World.apply, h3, h.proc]
      · intro j o ho
        simp only [World.apply, h2, spawnAll] at ho
        by_cases hj : j = i
        · subst hj
          rw [setThread_same] at ho
          rcases List.mem_append.mp ho with ho | ho
          · exact h1 o ho
          · exact h.ops j o (by rw [ht]; exact List.mem_cons_of_mem _ ho)
        · rw [setThread_ne _ hj] at ho
          exact h.ops j o ho

theorem Calm.step {w w' : World} {a : Action} (hr : Reach E w) (h : Calm w) (hs : w.step E a = some w')
    (h1 : ∀ buf, a ≠ .connect buf) (h2 : ∀ buf s, a ≠ .http buf s) : Calm w' := by
  have h0 := hr.inv0
  have hst := (stepR_of_step h0.wf hs).2
  cases hst <;> try exact ⟨h.proc, h.ops⟩
  case connect => exact absurd rfl (h1 _)
  case http => exact absurd rfl (h2 _ _)
  case run tid inp op rest f ht hx =>
    obtain ⟨w2, h3, h4⟩ := h.run hr (i := tid) (by rw [ht]; simp) inp
    rw [hs] at h3; cases h3; exact h4
  case runPanic tid inp op rest ht hx =>
    obtain ⟨w2, h3, h4⟩ := h.run hr (i := tid) (by rw [ht]; simp) inp
    rw [hs] at h3; cases h3; exact h4
  case refScan es hp he =>
    refine ⟨h.proc, fun i o ho => ?_⟩
    simp only at ho
    rcases spawnAll_cases w.threads w.nextTid i (es.map fun e => .rfStart e.id) with
      ⟨_, h1⟩ | ⟨_, op, hop, h1⟩ | ⟨_, h1⟩ <;> rw [h1] at ho
    · exact h.ops i o ho
    · simp at ho; subst ho
      obtain ⟨e, _, rfl⟩ := List.mem_map.mp hop
      rfl
    · exact h.ops i o ho

/-- Each number occurs again and again. -/
def pick (n : Nat) : Nat := n - 2 ^ n.log2

theorem pick_again (i n : Nat) : ∃ m, n ≤ m ∧ pick m = i := by
  refine ⟨2 ^ (i + n) + i, ?_, ?_⟩
  · have := @Nat.lt_two_pow_self (i + n); omega
  · have h : (2 ^ (i + n) + i).log2 = i + n := by
      have := @Nat.lt_two_pow_self (i + n)
      rw [Nat.log2_eq_iff (by omega)]
      refine ⟨by omega, ?_⟩
      rw [Nat.pow_succ]; omega
    unfold pick
    rw [h]; omega

/-- Everybody has their turn. -/
def turn (inp : Nat → Input) (n : Nat) : Action :=
  match n % 5 with
  | 0 => .tick nsPerSec
  | 1 => .refresher
  | 2 => .notifier
  | 3 => .eventer
  | _ => .run (pick (n / 5)) (inp n)

def turnWorld (E : Env) (inp : Nat → Input) (w : World) : Nat → World
  | 0 => w
  | n + 1 =>
    match (turnWorld E inp w n).step E (turn inp n) with
    | some w' => w'
    | none => turnWorld E inp w n

def turnAction (E : Env) (inp : Nat → Input) (w : World) (n : Nat) : Option Action :=
  match (turnWorld E inp w n).step E (turn inp n) with
  | some _ => some (turn inp n)
  | none => none

def turnRun (inp : Nat → Input) {w : World} (hr : Reach E w) : Run E where
  world := turnWorld E inp w
  action := turnAction E inp w
  start := hr
  next n := by
    unfold turnAction
    cases h : (turnWorld E inp w n).step E (turn inp n) with
    | none => simp only [turnWorld, h]
    | some w' => simp only [turnWorld, h]

theorem turn_tick (inp : Nat → Input) (n : Nat) : turn inp (5 * n) = .tick nsPerSec := by
  unfold turn; rw [show 5 * n % 5 = 0 by omega]; rfl
theorem turn_refresher (inp : Nat → Input) (n : Nat) : turn inp (5 * n + 1) = .refresher := by
  unfold turn; rw [show (5 * n + 1) % 5 = 1 by omega]; rfl
theorem turn_notifier (inp : Nat → Input) (n : Nat) : turn inp (5 * n + 2) = .notifier := by
  unfold turn; rw [show (5 * n + 2) % 5 = 2 by omega]; rfl
theorem turn_eventer (inp : Nat → Input) (n : Nat) : turn inp (5 * n + 3) = .eventer := by
  unfold turn; rw [show (5 * n + 3) % 5 = 3 by omega]; rfl
theorem turn_run (inp : Nat → Input) (n : Nat) : turn inp (5 * n + 4) = .run (pick n) (inp (5 * n + 4)) := by
  unfold turn; rw [show (5 * n + 4) % 5 = 4 by omega, show (5 * n + 4) / 5 = n by omega]; rfl

/-- Whatever the token servers answer, there is a fair execution from any state in which no client is being served. -/
theorem turnRun_fair (inp : Nat → Input) {w : World} (hr : Reach E w) (h : Calm w) : (turnRun inp hr).Fair := by
  have hreach := (turnRun inp hr).reach
  have hcalm : ∀ n, Calm ((turnRun inp hr).world n) := by
    intro n
    induction n with
    | zero => exact h
    | succ n ih =>
      show Calm (turnWorld E inp w (n + 1))
      unfold turnWorld
      cases hs : (turnWorld E inp w n).step E (turn inp n) with
      | none => exact ih
      | some w' =>
        refine ih.step (hreach n) hs (fun buf hc => ?_) (fun buf s hc => ?_) <;>
          (unfold turn at hc; split at hc <;> cases hc)
  have hact : ∀ n w', ((turnRun inp hr).world n).step E (turn inp n) = some w' →
      (turnRun inp hr).action n = some (turn inp n) := by
    intro n w' hs
    show turnAction E inp w n = _
    unfold turnAction
    rw [show (turnWorld E inp w n).step E (turn inp n) = some w' from hs]
  refine ⟨fun n => (hcalm n).proc, ?_, ?_, ?_, ?_, ?_⟩
  · -- time
    have hadd : ∀ n : Nat, ((turnRun inp hr).world 0).now + (n : Int) ≤ ((turnRun inp hr).world (5 * n)).now := by
      intro n
      induction n with
      | zero => simp
      | succ n ih =>
        have h1 : ((turnRun inp hr).world (5 * n + 1)).now = ((turnRun inp hr).world (5 * n)).now + (nsPerSec : Int) := by
          show (turnWorld E inp w (5 * n + 1)).now = _
          unfold turnWorld
          rw [turn_tick]
          simp only [World.step, show (turnWorld E inp w (5 * n)).proc = .running from (hcalm _).proc]
          rfl
        have h2 := (turnRun inp hr).now_mono (show 5 * n + 1 ≤ 5 * (n + 1) by omega)
        have h3 : (nsPerSec : Int) = 1000000000 := rfl
        omega
    intro t
    refine ⟨5 * (t - ((turnRun inp hr).world 0).now).toNat, ?_⟩
    have := hadd (t - ((turnRun inp hr).world 0).now).toNat
    omega
  · -- threads
    intro n i hne
    refine Classical.byContradiction fun hno => ?_
    have hkeep : ∀ m, n ≤ m → ((turnRun inp hr).world m).threads i = ((turnRun inp hr).world n).threads i :=
      Run.keep (P := fun m => ((turnRun inp hr).world m).threads i = ((turnRun inp hr).world n).threads i) rfl
        fun m hm ih => ((turnRun inp hr).busy (by rw [ih]; exact hne) fun inp' hc => hno ⟨m, hm, inp', hc⟩).trans ih
    obtain ⟨q, hq, hp⟩ := pick_again i n
    obtain ⟨w', hs, _⟩ := (hcalm (5 * q + 4)).run (hreach _) (i := i) (by rw [hkeep _ (by omega)]; exact hne) (inp (5 * q + 4))
    have := hact (5 * q + 4) w' (by rw [turn_run, hp]; exact hs)
    rw [turn_run, hp] at this
    exact hno ⟨5 * q + 4, by omega, _, this⟩
  · intro n hen
    obtain ⟨w', hs⟩ := Option.ne_none_iff_exists'.mp (hen (5 * n + 1) (by omega))
    have := hact (5 * n + 1) w' (by rw [turn_refresher]; unfold World.step; rw [(hcalm _).proc]; exact hs)
    rw [turn_refresher] at this
    exact ⟨5 * n + 1, by omega, this⟩
  · intro n hen
    obtain ⟨w', hs⟩ := Option.ne_none_iff_exists'.mp (hen (5 * n + 2) (by omega))
    have := hact (5 * n + 2) w' (by rw [turn_notifier]; unfold World.step; rw [(hcalm _).proc]; exact hs)
    rw [turn_notifier] at this
    exact ⟨5 * n + 2, by omega, this⟩
  · intro n hen
    obtain ⟨w', hs⟩ := Option.ne_none_iff_exists'.mp (hen (5 * n + 3) (by omega))
    have := hact (5 * n + 3) w' (by rw [turn_eventer]; unfold World.step; rw [(hcalm _).proc]; exact hs)
    rw [turn_eventer] at this
    exact ⟨5 * n + 3, by omega, this⟩

/-- Nobody changes the configuration in this execution. -/
theorem turnRun_config (inp : Nat → Input) {w : World} (hr : Reach E w) (h : Calm w) (n : Nat) :
    ((turnRun inp hr).world n).ls.config = w.ls.config ∧ Calm ((turnRun inp hr).world n) := by
  induction n with
  | zero => exact ⟨rfl, h⟩
  | succ n ih =>
    have hreach := (turnRun inp hr).reach n
    show (turnWorld E inp w (n + 1)).ls.config = _ ∧ Calm (turnWorld E inp w (n + 1))
    unfold turnWorld
    cases hs : (turnWorld E inp w n).step E (turn inp n) with
    | none => exact ih
    | some w' =>
      constructor
      · have hst := (stepR_of_step hreach.inv0.wf hs).2
        rcases hst.config hreach.inv0 with h | ⟨c, tid, rest, ht, _⟩
        · exact h.trans ih.1
        · have ht' : ((turnRun inp hr).world n).threads tid = .install c :: rest := ht
          have := ih.2.ops tid (.install c) (by rw [ht']; simp)
          cases this
      · refine ih.2.step hreach hs (fun buf hc => ?_) (fun buf s hc => ?_) <;>
          (unfold turn at hc; split at hc <;> cases hc)

/-- Calmness can be checked. -/
theorem calm_of {w : World} (hr : Reach E w) (h : w.proc = .running)
    (hc : (List.range w.nextTid).all (fun i => (w.threads i).all Op.calm) = true) : Calm w := by
  refine ⟨h, fun i o ho => ?_⟩
  have hi := hr.inv0.lt_of_mem' ho
  have := List.all_eq_true.mp hc i (List.mem_range.mpr hi)
  exact List.all_eq_true.mp this o ho

/-- One more action in front. -/
def Run.cons (r : Run E) {w : World} {a : Action} (hr : Reach E w) (hs : w.step E a = some (r.world 0)) : Run E where
  world
    | 0 => w
    | n + 1 => r.world n
  action
    | 0 => some a
    | n + 1 => r.action n
  start := hr
  next
    | 0 => hs
    | n + 1 => r.next n

theorem Run.Fair.cons {r : Run E} (hf : r.Fair) {w : World} {a : Action} (hr : Reach E w)
    (hs : w.step E a = some (r.world 0)) : (r.cons hr hs).Fair where
  alive
    | 0 => (stepR_of_step hr.inv0.wf hs).1
    | n + 1 => hf.alive n
  time t := by
    obtain ⟨n, h⟩ := hf.time t
    exact ⟨n + 1, h⟩
  thread
    | 0, i, h => by
      by_cases hown : ∃ inp, (r.cons hr hs).action 0 = some (.run i inp)
      · obtain ⟨inp, ho⟩ := hown
        exact ⟨0, Nat.le_refl _, inp, ho⟩
      · have hb := (r.cons hr hs).busy (n := 0) h fun inp hc => hown ⟨inp, hc⟩
        obtain ⟨m, _, inp, hm⟩ := hf.thread 0 i (by
          have : (r.world 0).threads i = _ := hb
          rw [this]; exact h)
        exact ⟨m + 1, by omega, inp, hm⟩
    | n + 1, i, h => by
      obtain ⟨m, hm, inp, h'⟩ := hf.thread n i h
      exact ⟨m + 1, by omega, inp, h'⟩
  refresher n h := by
    obtain ⟨m, hm, h'⟩ := hf.refresher n fun m hm => h (m + 1) (by omega)
    exact ⟨m + 1, by omega, h'⟩
  notifier n h := by
    obtain ⟨m, hm, h'⟩ := hf.notifier n fun m hm => h (m + 1) (by omega)
    exact ⟨m + 1, by omega, h'⟩
  eventer n h := by
    obtain ⟨m, hm, h'⟩ := hf.eventer n fun m hm => h (m + 1) (by omega)
    exact ⟨m + 1, by omega, h'⟩

/-- Every finite execution which ends calmly is the beginning of a fair one. -/
theorem Run.Fair.prepend : ∀ (l : List Action) {w w' : World}, Reach E w → w.run E l = some w' →
    (∃ r : Run E, r.Fair ∧ r.world 0 = w') →
    ∃ r : Run E, r.Fair ∧ r.world 0 = w ∧ r.world l.length = w' ∧ ∀ k (h : k < l.length), r.action k = some l[k]
  | [], w, w', _, h, ⟨r, hf, h0⟩ => by
    simp only [World.run, Option.some.injEq] at h
    subst h
    exact ⟨r, hf, h0, h0, fun k h => absurd h (by simp)⟩
  | a :: l, w, w', hr, h, hex => by
    simp only [World.run] at h
    cases hs : w.step E a with
    | none => rw [hs] at h; cases h
    | some w1 =>
      rw [hs] at h
      obtain ⟨r, hf, h0, h1, h2⟩ := Run.Fair.prepend l (.step a hr hs) h hex
      have hs' : w.step E a = some (r.world 0) := by rw [h0]; exact hs
      refine ⟨r.cons hr hs', hf.cons hr hs', rfl, h1, ?_⟩
      intro k hk
      cases k with
      | zero => rfl
      | succ k => exact h2 k (by simp at hk; omega)

end Pizauth
