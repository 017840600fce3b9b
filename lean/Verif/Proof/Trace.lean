import Verif.Spec.Trace
import Verif.Proof.Refresh

/-!
# What a worker thread has done so far, and what it still has to do
-/

namespace Pizauth
open LockedState

variable {E : Env}

/-- Operations which only make something known. -/
def Op.isPlain : Op → Bool
  | .wakeRefresher | .wakeNotifier | .pushEvent _ _ | .wakeEventer | .notifyError _ _ | .httpAnswer _ => true
  | _ => false

/-- In the past of `w` thread `i`, having done `l` until then, went from operation `o` to the list `next`. -/
def StepTo (E : Env) (w : World) (i : Nat) (l : List Obs) (o : Op) (next : List Op) : Prop :=
  ∃ w1 w2 inp, Reach E w1 ∧ w1.step E (.run i inp) = some w2 ∧ Steps E w2 w ∧ w1.threads i = [o] ∧
    w2.threads i = next ∧ threadLog i w1.log = l

theorem StepTo.step {w w' : World} {i : Nat} {l : List Obs} {o : Op} {next : List Op} {a : Action}
    (h : StepTo E w i l o next) (hs : w.step E a = some w') : StepTo E w' i l o next := by
  obtain ⟨w1, w2, inp, h1, h2, h3, h4⟩ := h
  exact ⟨w1, w2, inp, h1, h2, .step a h3 hs, h4⟩

/-- The effect of the step. -/
theorem StepTo.exec {w : World} {i : Nat} {l : List Obs} {o : Op} {next : List Op} (h : StepTo E w i l o next)
    (hne : next ≠ [o]) :
    ∃ w1 w2 inp f, Reach E w1 ∧ w1.step E (.run i inp) = some w2 ∧ Steps E w2 w ∧ w1.threads i = [o] ∧
      w2.threads i = next ∧ threadLog i w1.log = l ∧ ExecR E w1.st w1.now w1.wall w1.ls i o inp f ∧ f.next = next ∧
      f.ls = w2.ls ∧ w2 = w1.apply i [] f := by
  obtain ⟨w1, w2, inp, h1, h2, h3, h4, h5, h6⟩ := h
  have hs := (stepR_of_step h1.inv0.wf h2).2
  cases hs with
  | runPanic ht hp => rw [h4] at h5; exact absurd h5.symm hne
  | run ht hx =>
    rw [h4] at ht
    cases ht
    have hlt := h1.inv0.tid_lt h4
    rw [apply_threads_self hlt, List.append_nil] at h5
    exact ⟨w1, _, inp, _, h1, h2, h3, h4, by rw [apply_threads_self hlt, List.append_nil]; exact h5, h6, hx, h5, rfl, rfl⟩

/-- `k` attempts of a code exchange have failed. -/
inductive ExFails (i : Nat) (c : ExCtx) : Nat → List Obs → Prop where
  | zero : ExFails i c 0 []
  | succ {k : Nat} {l : List Obs} {t : TransportKind} : ExFails i c k l →
      ExFails i c (k + 1) (.resp i c.tokenUri c.form (.transport t) :: .post i c.tokenUri c.form :: l)

/-- A callback was answered and its code is being exchanged. -/
def Exchange (E : Env) (w : World) (i : Nat) (c : ExCtx) (l : List Obs) : Prop :=
  ∃ buf sec ans, StepTo E w i [.httpReq i buf sec] (.http buf sec) [.httpAnswer ans, .exSend c 0] ∧
    l = [.httpAnswer i ans, .httpReq i buf sec]

/-- Why a code exchange failed (after what thread `i` has done since the callback was answered). -/
inductive FailWhy (E : Env) (w : World) (i : Nat) (c : ExCtx) (l0 : List Obs) (msg : String) : List Obs → Prop where
  | net {k : Nat} {l : List Obs} {net : Net} : ExFails i c k l → k < 10 → net.isResponse = true → (∀ b, net ≠ .body b) →
      FailReason c.tokenUri net msg →
      FailWhy E w i c l0 msg (.resp i c.tokenUri c.form net :: .post i c.tokenUri c.form :: l)
  | body {k : Nat} {l : List Obs} {b : Body} : ExFails i c k l → k < 10 →
      StepTo E w i (.resp i c.tokenUri c.form (.body b) :: .post i c.tokenUri c.form :: (l ++ l0)) (.exDone c b)
        [.fail c.id msg] →
      FailWhy E w i c l0 msg (.resp i c.tokenUri c.form (.body b) :: .post i c.tokenUri c.form :: l)
  | all {l : List Obs} : ExFails i c 10 l → msg = "couldn't connect to " ++ c.tokenUri → FailWhy E w i c l0 msg l

/-- The thread is about to do `o`, having done `l` (newest first). -/
inductive Core (E : Env) (w : World) (i : Nat) : List Obs → Op → Prop where
  | http {buf : Bytes} {sec : Bool} : Core E w i [.httpReq i buf sec] (.http buf sec)
  | exSend {c : ExCtx} {k : Nat} {l l0 : List Obs} : Exchange E w i c l0 → ExFails i c k l → k < 10 →
      Core E w i (l ++ l0) (.exSend c k)
  | exAwait {c : ExCtx} {k : Nat} {l l0 : List Obs} : Exchange E w i c l0 → ExFails i c k l → k < 10 →
      Core E w i (.post i c.tokenUri c.form :: (l ++ l0)) (.exAwait c k)
  | exSleep {c : ExCtx} {k : Nat} {l l0 : List Obs} {wake : Instant} : Exchange E w i c l0 → ExFails i c (k + 1) l →
      k < 10 → Core E w i (l ++ l0) (.exSleep c k wake)
  | exDone {c : ExCtx} {k : Nat} {l l0 : List Obs} {b : Body} : Exchange E w i c l0 → ExFails i c k l → k < 10 →
      Core E w i (.resp i c.tokenUri c.form (.body b) :: .post i c.tokenUri c.form :: (l ++ l0)) (.exDone c b)
  | fail {c : ExCtx} {l l0 : List Obs} {msg : String} : Exchange E w i c l0 → FailWhy E w i c l0 msg l →
      Core E w i (l ++ l0) (.fail c.id msg)
  | rfStart {id : Nat} : Core E w i [] (.rfStart id)
  | rfSend {id : Nat} {c : RfCtx} : StepTo E w i [] (.rfStart id) [.rfSend c] → Core E w i [] (.rfSend c)
  | rfAwait {id : Nat} {c : RfCtx} : StepTo E w i [] (.rfStart id) [.rfSend c] →
      Core E w i [.post i c.tokenUri c.form] (.rfAwait c)
  | rfPerm {id : Nat} {c : RfCtx} {net : Net} : StepTo E w i [] (.rfStart id) [.rfSend c] → net.IsPermanent →
      Core E w i [.resp i c.tokenUri c.form net, .post i c.tokenUri c.form] (.rfPerm c)
  | rfNow {id : Nat} {c : RfCtx} {b : Body} {tok : String} {x : Nat} : StepTo E w i [] (.rfStart id) [.rfSend c] →
      Issued b tok x →
      Core E w i [.resp i c.tokenUri c.form (.body b), .post i c.tokenUri c.form]
        (.rfNow c tok x (newRefreshToken b c.refreshToken))
  | rfStore {id : Nat} {c : RfCtx} {b : Body} {tok : String} {x : Nat} {t : Instant} :
      StepTo E w i [] (.rfStart id) [.rfSend c] → Issued b tok x →
      StepTo E w i [.resp i c.tokenUri c.form (.body b), .post i c.tokenUri c.form]
        (.rfNow c tok x (newRefreshToken b c.refreshToken)) [.rfStore c tok x (newRefreshToken b c.refreshToken) t] →
      Core E w i [.resp i c.tokenUri c.form (.body b), .post i c.tokenUri c.form]
        (.rfStore c tok x (newRefreshToken b c.refreshToken) t)
  | rfTransient {id : Nat} {c : RfCtx} {net : Net} : StepTo E w i [] (.rfStart id) [.rfSend c] → net.IsTransient →
      Core E w i [.resp i c.tokenUri c.form net, .post i c.tokenUri c.form] (.rfTransient c)
  | rfCmd {id id' : Nat} {c : RfCtx} {net : Net} {cmd : String} : StepTo E w i [] (.rfStart id) [.rfSend c] →
      net.IsTransient →
      StepTo E w i [.resp i c.tokenUri c.form net, .post i c.tokenUri c.form] (.rfTransient c) [.rfCmd id' c.name cmd] →
      Core E w i [.resp i c.tokenUri c.form net, .post i c.tokenUri c.form] (.rfCmd id' c.name cmd)
  | rfCmdWait {id id' : Nat} {c : RfCtx} {net : Net} {cmd : String} : StepTo E w i [] (.rfStart id) [.rfSend c] →
      net.IsTransient →
      StepTo E w i [.resp i c.tokenUri c.form net, .post i c.tokenUri c.form] (.rfTransient c) [.rfCmd id' c.name cmd] →
      Core E w i [.transientCmd i cmd c.name, .resp i c.tokenUri c.form net, .post i c.tokenUri c.form]
        (.rfCmdWait id' c.name)
  | rfCmdOk {id id' : Nat} {c : RfCtx} {net : Net} {cmd : String} : StepTo E w i [] (.rfStart id) [.rfSend c] →
      net.IsTransient →
      StepTo E w i [.resp i c.tokenUri c.form net, .post i c.tokenUri c.form] (.rfTransient c) [.rfCmd id' c.name cmd] →
      Core E w i [.transientCmdEnd i true, .transientCmd i cmd c.name, .resp i c.tokenUri c.form net,
        .post i c.tokenUri c.form] (.rfCmdOk id')
  | rfCmdErr {id id' : Nat} {c : RfCtx} {net : Net} {cmd : String} : StepTo E w i [] (.rfStart id) [.rfSend c] →
      net.IsTransient →
      StepTo E w i [.resp i c.tokenUri c.form net, .post i c.tokenUri c.form] (.rfTransient c) [.rfCmd id' c.name cmd] →
      Core E w i [.transientCmdEnd i false, .transientCmd i cmd c.name, .resp i c.tokenUri c.form net,
        .post i c.tokenUri c.form] (.rfCmdErr id' c.name)

/-- What a plain operation makes known. -/
inductive Says (i : Nat) : Op → List Obs → Prop where
  | wakeRefresher : Says i .wakeRefresher []
  | wakeNotifier : Says i .wakeNotifier []
  | wakeEventer : Says i .wakeEventer []
  | event {n : String} {e : TokenEvent} : Says i (.pushEvent n e) [.event i n e]
  | answer {b : Bytes} : Says i (.httpAnswer b) [.httpAnswer i b]
  | error {n m : String} {o : Obs} : o.IsErrorReport i n m → Says i (.notifyError n m) [o]

/-- Of the list `tail` the operations `ops` remain; what was done so far made `l` known (newest first). -/
inductive Tail (i : Nat) (tail : List Op) : List Obs → List Op → Prop where
  | start : Tail i tail [] tail
  | step {l os : List Obs} {o : Op} {ops : List Op} : Tail i tail l (o :: ops) → Says i o os → Tail i tail (os ++ l) ops

/-- A worker thread which did `l` and still has to do `ops`. -/
inductive Trace (E : Env) (w : World) (i : Nat) : List Obs → List Op → Prop where
  | core {l : List Obs} {o : Op} : Core E w i l o → Trace E w i l [o]
  | answer {buf : Bytes} {sec : Bool} {ans : Bytes} {c : ExCtx} :
      StepTo E w i [.httpReq i buf sec] (.http buf sec) [.httpAnswer ans, .exSend c 0] →
      Trace E w i [.httpReq i buf sec] [.httpAnswer ans, .exSend c 0]
  | tail {l m : List Obs} {o : Op} {tail ops : List Op} : Core E w i l o → StepTo E w i l o tail →
      (∀ o ∈ tail, o.isPlain = true) → Tail i tail m ops → Trace E w i (m ++ l) ops

theorem Exchange.step {w w' : World} {i : Nat} {c : ExCtx} {l : List Obs} {a : Action} (h : Exchange E w i c l)
    (hs : w.step E a = some w') : Exchange E w' i c l := by
  obtain ⟨b, s, ans, h1, h2⟩ := h
  exact ⟨b, s, ans, h1.step hs, h2⟩

theorem FailWhy.step {w w' : World} {i : Nat} {c : ExCtx} {l l0 : List Obs} {msg : String} {a : Action}
    (h : FailWhy E w i c l0 msg l) (hs : w.step E a = some w') : FailWhy E w' i c l0 msg l := by
  cases h with
  | net h1 h2 h3 h4 h5 => exact .net h1 h2 h3 h4 h5
  | body h1 h2 h3 => exact .body h1 h2 (h3.step hs)
  | all h1 h2 => exact .all h1 h2

theorem Core.step {w w' : World} {i : Nat} {l : List Obs} {o : Op} {a : Action} (h : Core E w i l o)
    (hs : w.step E a = some w') : Core E w' i l o := by
  cases h with
  | http => exact .http
  | exSend h1 h2 h3 => exact .exSend (h1.step hs) h2 h3
  | exAwait h1 h2 h3 => exact .exAwait (h1.step hs) h2 h3
  | exSleep h1 h2 h3 => exact .exSleep (h1.step hs) h2 h3
  | exDone h1 h2 h3 => exact .exDone (h1.step hs) h2 h3
  | fail h1 h2 => exact .fail (h1.step hs) (h2.step hs)
  | rfStart => exact .rfStart
  | rfSend h1 => exact .rfSend (h1.step hs)
  | rfAwait h1 => exact .rfAwait (h1.step hs)
  | rfPerm h1 h2 => exact .rfPerm (h1.step hs) h2
  | rfNow h1 h2 => exact .rfNow (h1.step hs) h2
  | rfStore h1 h2 h3 => exact .rfStore (h1.step hs) h2 (h3.step hs)
  | rfTransient h1 h2 => exact .rfTransient (h1.step hs) h2
  | rfCmd h1 h2 h3 => exact .rfCmd (h1.step hs) h2 (h3.step hs)
  | rfCmdWait h1 h2 h3 => exact .rfCmdWait (h1.step hs) h2 (h3.step hs)
  | rfCmdOk h1 h2 h3 => exact .rfCmdOk (h1.step hs) h2 (h3.step hs)
  | rfCmdErr h1 h2 h3 => exact .rfCmdErr (h1.step hs) h2 (h3.step hs)

theorem Trace.step {w w' : World} {i : Nat} {l : List Obs} {ops : List Op} {a : Action} (h : Trace E w i l ops)
    (hs : w.step E a = some w') : Trace E w' i l ops := by
  cases h with
  | core h => exact .core (h.step hs)
  | answer h => exact .answer (h.step hs)
  | tail h1 h2 h3 h4 => exact .tail (h1.step hs) (h2.step hs) h3 h4

theorem threadLog_append (i : Nat) (l L : Log) : threadLog i (l ++ L) = threadLog i l ++ threadLog i L := by
  simp [threadLog]

section
variable {S : Static} {now : Instant} {wall : SysTime} {ls : LockedState} {tid : Nat}
  {op : Op} {inp : Input} {f : Eff}

/-- Observations of an operation are its thread's. -/
theorem ExecR.obs_thread (hx : ExecR E S now wall ls tid op inp f) {i : Nat} (hi : i ≠ tid) :
    ∀ o ∈ f.obs, o.thread ≠ some i := by
  cases hx <;> simp [Obs.thread] <;> exact fun h => hi h.symm

theorem ExecR.obs_self (hx : ExecR E S now wall ls tid op inp f) (h0 : op.isPlain = true ∨ op.isCore = true) :
    ∀ o ∈ f.obs, o.thread = some tid := by
  cases hx <;> simp [Op.isPlain, Op.isCore, Obs.thread] at h0 ⊢

theorem ExecR.says (hx : ExecR E S now wall ls tid op inp f) (h0 : op.isPlain = true) : Says tid op f.obs := by
  cases hx <;> simp [Op.isPlain] at h0 <;> constructor
  case notifyErrorCmd => exact .inl ⟨_, rfl⟩
  case notifyErrorLog => exact .inr rfl

end

theorem Op.not_plain_of_core {o : Op} (h : o.isCore = true) : o.isPlain = false := by
  cases o <;> first | rfl | cases h

theorem Core.isCore {w : World} {i : Nat} {l : List Obs} {o : Op} (h : Core E w i l o) : o.isCore = true := by
  cases h <;> rfl

theorem obs_threadLog {i : Nat} {now : Instant} {os : List Obs} (h : ∀ o ∈ os, o.thread = some i) :
    threadLog i ((os.map fun o => (now, o)).reverse) = os.reverse := by
  simp only [threadLog, ← List.map_reverse, List.map_map]
  have : (Prod.snd ∘ fun o : Obs => (now, o)) = id := rfl
  rw [this, List.map_id, List.filter_eq_self]
  intro o ho
  simp [h o (List.mem_reverse.mp ho)]

theorem obs_threadLog_nil {i : Nat} {l : Log} (h : ∀ p ∈ l, p.2.thread ≠ some i) : threadLog i l = [] := by
  simp only [threadLog, List.filter_eq_nil_iff, List.mem_map]
  rintro o ⟨p, hp, rfl⟩
  simpa using h p hp


theorem Tail.mem {i : Nat} {tail : List Op} {l : List Obs} {ops : List Op} (h : Tail i tail l ops) :
    ∀ o ∈ ops, o ∈ tail := by
  induction h with
  | start => exact fun o ho => ho
  | step _ _ ih => exact fun o ho => ih o (List.mem_cons_of_mem _ ho)

theorem Says.rev {i : Nat} {o : Op} {os : List Obs} (h : Says i o os) : os.reverse = os := by
  cases h <;> rfl

theorem str_get {b : Body} {k v : String} : b.str k = some v ↔ b.get k = some (.str v) := by
  unfold Body.str
  split <;> simp_all

theorem u64_get {b : Body} {k : String} {v : Nat} : b.u64 k = some v ↔ b.get k = some (.u64 v) := by
  unfold Body.u64
  split <;> simp_all

theorem not_issued {b : Body}
    (h : (b.str "error").isSome ∨ ¬ (b.str "token_type" = some "Bearer" ∧ (b.u64 "expires_in").isSome ∧
      (b.str "access_token").isSome)) : ¬ ∃ tok x, Issued b tok x := by
  rintro ⟨tok, x, h1⟩
  rcases h with h | h
  · obtain ⟨m, hm⟩ := Option.isSome_iff_exists.mp h
    exact h1.noError m (str_get.mp hm)
  · exact h ⟨str_get.mpr h1.bearer, by rw [u64_get.mpr h1.expires]; rfl, by rw [str_get.mpr h1.token]; rfl⟩

theorem Trace.own {w w' : World} {i : Nat} {inp : Input} {op : Op} {rest : List Op} {f : Eff} {l : List Obs}
    (hr : Reach E w) (hl : threadLog i w.log = l) (ht : w.threads i = op :: rest)
    (h : Trace E w i l (op :: rest)) (hs : w.step E (.run i inp) = some w')
    (hx : ExecR E w.st w.now w.wall w.ls i op inp f) (hw : w' = w.apply i rest f) :
    Trace E w' i (f.obs.reverse ++ l) (f.next ++ rest) := by
  have hlt := hr.inv0.tid_lt ht
  have hto : rest = [] → ∀ next, next = f.next → StepTo E w' i l op next := by
    rintro rfl _ rfl
    refine ⟨w, w', inp, hr, hs, .refl, ht, ?_, hl⟩
    rw [hw, apply_threads_self hlt, List.append_nil]
  have hop := Reach.opsInv w hr i op (by rw [ht]; simp)
  cases h with
  | core hc =>
    simp only [List.append_nil]
    replace hto := hto rfl
    have hc' := hc.step hs
    have htail : f.obs = [] → (∀ o ∈ f.next, o.isPlain = true) → Trace E w' i (f.obs.reverse ++ l) f.next := by
      intro h1 h2
      rw [h1]
      exact .tail hc' (hto _ rfl) h2 .start
    cases hc with
    | http =>
      cases hx
      case httpCode => exact .answer (hto _ rfl)
      all_goals exact htail rfl (by simp [Op.isPlain])
    | @exSend c k l1 l0 h1 h2 h3 => cases hx; exact .core (.exAwait (l := l1) (h1.step hs) h2 h3)
    | @exAwait c k l1 l0 h1 h2 h3 =>
      cases hx
      case exAwaitBody => exact .core (.exDone (h1.step hs) h2 h3)
      case exAwaitErr m hn1 hn2 hn3 => exact .core (.fail (l := _ :: _ :: l1) (h1.step hs) (.net h2 h3 hn1 hn2 hn3))
      case exAwaitRetry => exact .core (.exSleep (l := _ :: _ :: l1) (h1.step hs) (.succ h2) h3)
    | @exSleep c k l1 l0 wake h1 h2 h3 =>
      cases hx
      case exSleepRetry hk _ => exact .core (.exSend (l := l1) (h1.step hs) h2 hk)
      case exSleepFail hk _ =>
        have hk' : k + 1 = 10 := by simp only [retryPost] at hk; omega
        rw [hk'] at h2
        exact .core (.fail (l := l1) (h1.step hs) (.all h2 rfl))
    | exDone h1 h2 h3 =>
      cases hx
      case exDoneErr => exact .core (.fail (l := _ :: _ :: _) (h1.step hs) (.body h2 h3 (hto _ rfl)))
      case exDoneInvalid => exact .core (.fail (l := _ :: _ :: _) (h1.step hs) (.body h2 h3 (hto _ rfl)))
      all_goals exact htail rfl (by simp [Op.isPlain])
    | fail h1 h2 =>
      cases hx
      case failStale => exact htail rfl (by simp)
      case failOk e a ha he =>
        refine htail rfl ?_
        intro o ho
        rcases List.mem_cons.mp ho with rfl | ho
        · rfl
        · split at ho <;> simp at ho
          rcases ho with rfl | rfl <;> rfl
    | rfStart =>
      cases hx
      case rfStartOk => exact .core (.rfSend (hto _ rfl))
      all_goals exact htail rfl (by simp)
    | rfSend h1 => cases hx; exact .core (.rfAwait (h1.step hs))
    | rfAwait h1 =>
      cases hx
      case rfAwaitOk =>
        exact .core (.rfNow (h1.step hs) (issued_of (by assumption) (by assumption) (by assumption) (by assumption)))
      case rfAwaitPerm hn =>
        refine .core (.rfPerm (h1.step hs) ?_)
        rcases hn with ⟨b, hb, hn⟩ | hn | ⟨c, x, hn⟩ | hn
        · exact .inr (.inr (.inr ⟨b, hb, not_issued hn⟩))
        · exact .inr (.inl hn)
        · exact .inl ⟨c, x, hn⟩
        · exact .inr (.inr (.inl hn))
      case rfAwaitTransient hn =>
        refine .core (.rfTransient (h1.step hs) ?_)
        rcases hn with hn | ⟨k, hk, hn⟩
        · exact .inr (.inr (.inr hn))
        · cases k
          · exact .inl hn
          · exact .inr (.inl hn)
          · exact .inr (.inr (.inl hn))
          · exact absurd rfl hk
    | rfNow h1 h2 => cases hx; exact .core (.rfStore (h1.step hs) h2 (hto _ rfl))
    | rfTransient h1 h2 =>
      cases hx
      case rfTransientCmd => exact .core (.rfCmd (h1.step hs) h2 (hto _ rfl))
      all_goals exact htail rfl (by simp [Op.isPlain])
    | rfCmd h1 h2 h3 => cases hx; exact .core (.rfCmdWait (h1.step hs) h2 (h3.step hs))
    | rfCmdWait h1 h2 h3 =>
      cases hx
      case rfCmdWaitOk => exact .core (.rfCmdOk (h1.step hs) h2 (h3.step hs))
      case rfCmdWaitErr => exact .core (.rfCmdErr (h1.step hs) h2 (h3.step hs))
    | rfPerm h1 h2 => cases hx <;> exact htail rfl (by simp [Op.isPlain])
    | rfStore h1 h2 h3 => cases hx <;> exact htail rfl (by simp [Op.isPlain])
    | rfCmdOk h1 h2 h3 => cases hx <;> exact htail rfl (by simp [Op.isPlain])
    | rfCmdErr h1 h2 h3 => cases hx <;> exact htail rfl (by simp [Op.isPlain])
  | answer h1 =>
    cases hx
    refine .core ?_
    exact .exSend (k := 0) (l := []) ⟨_, _, _, h1.step hs, rfl⟩ .zero (by decide)
  | @tail l0 m o tl _ h1 h2 h3 h4 =>
    have hpl : op.isPlain = true := h3 op (h4.mem op (by simp))
    have hsay := hx.says hpl
    have hn : f.next = [] := by cases hx <;> first | rfl | cases hpl
    rw [hn, hsay.rev, ← List.append_assoc]
    exact .tail (h1.step hs) (h2.step hs) h3 (.step h4 hsay)

/-- What happens to the log and the operations of a worker thread when anyone makes a step. -/
theorem thread_step {w w' : World} {i : Nat} {a : Action} (hr : Reach E w) (hs : StepR E w a w') (hi : i ≠ 0)
    (hlt : i < w.nextTid) :
    (threadLog i w'.log = threadLog i w.log ∧ w'.threads i = w.threads i) ∨
    ∃ inp op rest f, a = .run i inp ∧ w.threads i = op :: rest ∧ ExecR E w.st w.now w.wall w.ls i op inp f ∧
      w' = w.apply i rest f ∧ w'.threads i = f.next ++ rest ∧ threadLog i w'.log = f.obs.reverse ++ threadLog i w.log := by
  have hsh := Reach.shape w hr
  cases hs <;> try exact .inl ⟨rfl, rfl⟩
  case connect => exact .inl ⟨by simp [threadLog, Obs.thread], by simp only; rw [setThread_ne _ hi]⟩
  case http =>
    refine .inl ⟨?_, by simp only; rw [setThread_ne _ (by omega)]⟩
    have : w.nextTid ≠ i := by omega
    simp [threadLog, Obs.thread, this]
  case run tid inp op rest f ht hx =>
    by_cases hti : i = tid
    · subst hti
      refine .inr ⟨inp, op, rest, f, rfl, ht, hx, rfl, apply_threads_self hlt _ _, ?_⟩
      simp only [World.apply]
      rw [threadLog_append, obs_threadLog]
      refine hx.obs_self ?_
      have hsh' := hsh.work i hi
      rw [ht] at hsh'
      rcases hsh'.cons with ⟨h, _⟩ | ⟨h, _⟩ | ⟨⟨b, rfl⟩, _⟩
      · left; revert h; cases op <;> simp [Op.isTail, Op.isPlain]
      · exact .inr h
      · exact .inl rfl
    · refine .inl ⟨?_, apply_threads_other hlt hti _ _⟩
      simp only [World.apply]
      rw [threadLog_append, obs_threadLog_nil, List.nil_append]
      intro p hp
      simp only [List.mem_reverse, List.mem_map] at hp
      obtain ⟨o, ho, rfl⟩ := hp
      exact hx.obs_thread hti o ho
  case refScan => exact .inl ⟨rfl, by simp only; rw [spawnAll_lt _ _ _ _ hlt]⟩
  case notScan =>
    refine .inl ⟨?_, rfl⟩
    simp only
    rw [threadLog_append, obs_threadLog_nil, List.nil_append]
    intro p hp
    simp only [List.mem_reverse, List.mem_map, List.mem_flatMap] at hp
    obtain ⟨o, ⟨e, he, ho⟩, rfl⟩ := hp
    obtain ⟨_, _, h1, h2, h⟩ := authCmdFor_mem ho
    subst h
    simp [Obs.thread]

/-- A thread that does not exist has done nothing; a new thread has one operation. -/
theorem thread_new {w w' : World} {i : Nat} {a : Action} (hr : Reach E w) (hs : StepR E w a w') (hge : w.nextTid ≤ i)
    (hl : threadLog i w.log = []) :
    (w'.nextTid ≤ i ∧ threadLog i w'.log = []) ∨
    (∃ buf sec, threadLog i w'.log = [.httpReq i buf sec] ∧ w'.threads i = [.http buf sec]) ∨
    (∃ id, threadLog i w'.log = [] ∧ w'.threads i = [.rfStart id]) := by
  have h0 := hr.inv0
  have hsp : ∀ (g : Nat → List Op) (ops : List Op), (∀ o ∈ ops, ∃ id, o = .rfStart id) →
      w.nextTid + ops.length ≤ i ∨ ∃ id, spawnAll g w.nextTid ops i = [.rfStart id] := by
    intro g ops hops
    rcases Nat.lt_or_ge i (w.nextTid + ops.length) with h1 | h1
    · right
      obtain ⟨k, rfl⟩ := Nat.exists_eq_add_of_le hge
      rw [spawnAll_get ops g w.nextTid k (by omega)]
      obtain ⟨id, hid⟩ := hops (ops[k]'(by omega)) (List.getElem_mem _)
      exact ⟨id, by rw [hid]⟩
    · exact .inl h1
  cases hs <;> try exact .inl ⟨hge, hl⟩
  case http buf sec hb =>
    by_cases hc : i = w.nextTid
    · subst hc
      refine .inr (.inl ⟨buf, sec, ?_, by simp only; rw [setThread_same]⟩)
      show threadLog _ ([(w.now, Obs.httpReq w.nextTid buf sec)] ++ w.log) = _
      rw [threadLog_append, hl]
      simp [threadLog, Obs.thread]
    · refine .inl ⟨by simp only; omega, ?_⟩
      have : w.nextTid ≠ i := fun h => hc h.symm
      show threadLog _ ([(w.now, Obs.httpReq w.nextTid buf sec)] ++ w.log) = _
      rw [threadLog_append, hl]
      simp [threadLog, Obs.thread, this]
  case run tid inp op rest f ht hx =>
    have hlt := h0.tid_lt ht
    have hlog : threadLog i (w.apply tid rest f).log = [] := by
      simp only [World.apply]
      rw [threadLog_append, hl, List.append_nil]
      apply obs_threadLog_nil
      intro p hp
      simp only [List.mem_reverse, List.mem_map] at hp
      obtain ⟨o, ho, rfl⟩ := hp
      exact hx.obs_thread (by omega) o ho
    rcases hsp (setThread w.threads tid (f.next ++ rest)) f.spawn (fun o ho => by
      obtain ⟨e, _, h, _⟩ := hx.spawn_rfStart ho; exact ⟨_, h⟩) with h1 | ⟨id, h1⟩
    · exact .inl ⟨h1, hlog⟩
    · exact .inr (.inr ⟨id, hlog, h1⟩)
  case refScan es hp he =>
    rcases hsp w.threads (es.map fun e => .rfStart e.id) (fun o ho => by
      obtain ⟨e, _, h⟩ := List.mem_map.mp ho; exact ⟨_, h.symm⟩) with h1 | ⟨id, h1⟩
    · exact .inl ⟨by simpa using h1, hl⟩
    · exact .inr (.inr ⟨id, hl, h1⟩)
  case notScan =>
    refine .inl ⟨hge, ?_⟩
    simp only
    rw [threadLog_append, hl, List.append_nil]
    apply obs_threadLog_nil
    intro p hp
    simp only [List.mem_reverse, List.mem_map, List.mem_flatMap] at hp
    obtain ⟨o, ⟨e, he, ho⟩, rfl⟩ := hp
    obtain ⟨_, _, h1, h2, h⟩ := authCmdFor_mem ho
    subst h
    simp [Obs.thread]

/-- The life of every worker thread. -/
theorem Reach.trace {w : World} (hr : Reach E w) {i : Nat} (hi : i ≠ 0) :
    (w.nextTid ≤ i ∧ threadLog i w.log = []) ∨ Trace E w i (threadLog i w.log) (w.threads i) := by
  induction hr with
  | init h =>
    refine .inl ⟨by rw [h.nextTid]; omega, by rw [h.log]; rfl⟩
  | @step w w' a hw hs ih =>
    have hR := (stepR_of_step hw.inv0.wf hs).2
    rcases Nat.lt_or_ge i w.nextTid with hlt | hge
    · rcases ih with ih | ih
      · omega
      · right
        rcases thread_step hw hR hi hlt with ⟨h1, h2⟩ | ⟨inp, op, rest, f, rfl, ht, hx, hw', h1, h2⟩
        · rw [h1, h2]; exact ih.step hs
        · rw [h1, h2]
          rw [ht] at ih
          exact ih.own hw rfl ht hs hx hw'
    · have hl : threadLog i w.log = [] := by
        rcases ih with ih | ih
        · exact ih.2
        · rw [hw.inv0.tids i hge] at ih
          generalize hops : ([] : List Op) = ops at ih
          generalize hlg : threadLog i w.log = l at ih
          cases ih with
          | core => cases hops
          | answer => cases hops
          | tail h1 h2 h3 h4 =>
            obtain ⟨w1, w2, _, h5, h6, h7, h8, _⟩ := h2
            have e1 := h5.inv0.tid_lt h8
            have e2 : w1.nextTid ≤ w.nextTid := by
              have k1 := (stepR_of_step h5.inv0.wf h6).2.nextTid
              have k2 : w2.nextTid ≤ w.nextTid := by
                refine Steps.induct (Reach.step _ h5 h6) (P := fun w => w2.nextTid ≤ w.nextTid) (Nat.le_refl _) ?_ w h7
                intro w a w' _ _ _ _ ih hs
                exact Nat.le_trans ih hs.nextTid
              omega
            omega
      rcases thread_new hw hR hge hl with h | ⟨b, s, h1, h2⟩ | ⟨id, h1, h2⟩
      · exact .inl h
      · rw [h1, h2]; exact .inr (.core .http)
      · rw [h1, h2]; exact .inr (.core .rfStart)

end Pizauth
