import Verif.Proof.EventCause
import Verif.Proof.Leak
import Verif.Proof.Secrets
import Verif.Spec.Messages

/-!
# What is logged
-/

namespace Pizauth
open LockedState

variable {E : Env}

/-! ## Single operations -/

theorem sayRfPerm_stale {ls : LockedState} {c : RfCtx} {why : Why} (h : ∀ e ∈ ls.details, e.id ≠ c.id) :
    sayRfPerm ls c why = [] := by
  unfold sayRfPerm
  rw [isActIdValid_false.mpr h]
  rfl

theorem sayRfPerm_ok {ls : LockedState} (hw : ls.WF) {c : RfCtx} {why : Why} {e : Entry} {a : Account} (ha : ls.Has e a)
    (hid : e.id = c.id) :
    sayRfPerm ls c why = [⟨.info, "Permanent refresh error for " ++ c.name ++ ": " ++ why.text a.name⟩] := by
  unfold sayRfPerm
  have hnew : (ls.put e.id .empty).Has ⟨e.name, ls.accountCount, .empty⟩ a := ⟨mem_put_new ha.1 rfl, ha.2⟩
  have hacc := (hw.put e.id .empty).account hnew
  rw [← hid, isActIdValid_iff.mpr ⟨e, ha.1, rfl⟩]
  simp only [if_true, hw.tokenstateReplace ha.1]
  simp only at hacc
  rw [hacc]

theorem sayRfStore_stale {ls : LockedState} {c : RfCtx} {x : Nat} {t : Instant} (h : ∀ e ∈ ls.details, e.id ≠ c.id) :
    sayRfStore ls c x t = [] := by
  unfold sayRfStore
  rw [isActIdValid_false.mpr h]
  rfl

theorem sayRfStore_ok {ls : LockedState} (hw : ls.WF) {c : RfCtx} {x : Nat} {t : Instant} {e : Entry} {a : Account}
    (ha : ls.Has e a) (hid : e.id = c.id) {r : Option Instant} (hr : ExpiryAt ls a t x r) :
    sayRfStore ls c x t = match r with
      | none => [⟨.info, "Permanent refresh error for " ++ c.name ++ ": " ++ "Can't represent expiry"⟩]
      | some _ => [] := by
  unfold sayRfStore
  rw [← hid, isActIdValid_iff.mpr ⟨e, ha.1, rfl⟩]
  obtain ⟨r', h1, h2⟩ := hw.expiryInstant ha t x
  have : r' = r := by unfold ExpiryAt at hr h2; rw [hr, h2]
  subst this
  simp only [if_true, h1]
  cases r' <;> rfl

theorem sayRfTransient_stale {ls : LockedState} {c : RfCtx} {why : Why} (h : ∀ e ∈ ls.details, e.id ≠ c.id) :
    sayRfTransient ls c why = [] := by
  unfold sayRfTransient
  rw [isActIdValid_false.mpr h]
  rfl

theorem sayRfTransient_ok {ls : LockedState} (hw : ls.WF) {c : RfCtx} {why : Why} {e : Entry} {a : Account} {t : ActiveTok}
    (ha : ls.Has e a) (hid : e.id = c.id) (ht : e.ts = .active t) :
    sayRfTransient ls c why = if (t.fails + 1) % 6 = 0 ∧ ls.config.transientErrorIfCmd.isSome then []
      else [⟨.info, "Transitory refresh error for " ++ c.name ++ " : " ++ why.text c.name⟩] := by
  unfold sayRfTransient
  rw [← hid, isActIdValid_iff.mpr ⟨e, ha.1, rfl⟩, hw.tokenstate ha.1, ht]
  rfl

theorem ExpiryAt.none_lt {ls : LockedState} {a : Account} {t : Instant} {x : Nat} (h : ExpiryAt ls a t x none) :
    timeMax < t + x * 1000000000 := by
  unfold ExpiryAt checkedAdd secs nsPerSec at h
  split at h
  · cases h
  · rename_i hx
    split at hx
    · cases hx
    · rename_i hn; simp at hn ⊢; omega

theorem permReason {x : Words} {n : String} {net : Net} (h : net.IsPermanent) :
    PermReason n net ((whyFailed x net).text n) := by
  rcases h with ⟨code, b, rfl⟩ | ⟨m, rfl⟩ | rfl | ⟨b, rfl, hb⟩
  · cases b
    · exact .status
    · exact .statusBody
  · exact .json
  · exact .other
  · unfold whyFailed
    simp only
    cases he : b.str "error" with
    | some e => exact .error (str_get.mp he)
    | none =>
      refine .format (fun e h => ?_) hb
      rw [str_get.mpr h] at he
      cases he

theorem transReason {x : Words} {n : String} {net : Net} (h : net.IsTransient) :
    TransReason net ((whyFailed x net).text n) := by
  rcases h with rfl | rfl | rfl | ⟨m, rfl⟩
  · exact .failed (by simp)
  · exact .failed (by simp)
  · exact .failed (by simp)
  · exact .read

/-! ## Steps -/

namespace Logged

theorem step_spec {g g' : Logged} {a : Action} {x : Words} (h : g.step E a x = some g') :
    g.w.step E a = some g'.w ∧ g'.why = g.whyAfter x a ∧ g'.said = (g.say E x a).reverse ++ g.said := by
  unfold step at h
  rw [Option.map_eq_some_iff] at h
  obtain ⟨w', h1, rfl⟩ := h
  exact ⟨h1, rfl, rfl⟩

theorem Reach.world {g : Logged} (h : Logged.Reach E g) : Pizauth.Reach E g.w := by
  induction h with
  | init hi => exact .init hi
  | step a x _ hs ih => exact .step a ih (step_spec hs).1

/-- Logging does not get in the way. -/
theorem lift {w : World} (h : Pizauth.Reach E w) : ∃ g : Logged, g.w = w ∧ Logged.Reach E g := by
  induction h with
  | @init w hi => exact ⟨⟨w, fun _ => .plain "", []⟩, rfl, .init hi⟩
  | @step w w' a hr hs ih =>
    obtain ⟨g, rfl, hg⟩ := ih
    refine ⟨⟨w', g.whyAfter {} a, (g.say E {} a).reverse ++ g.said⟩, rfl, .step a {} hg ?_⟩
    unfold step
    rw [hs]; rfl

end Logged

/-! ## Invariants -/

theorem StepR.log_sub {w w' : World} {a : Action} (hs : StepR E w a w') : ∀ p ∈ w.log, p ∈ w'.log := by
  obtain ⟨l, h, _⟩ := hs.log_new
  intro p hp
  rw [h]; exact List.mem_append_right _ hp

theorem StepR.now_le {w w' : World} {a : Action} (hs : StepR E w a w') : w.now ≤ w'.now := by
  cases hs
  case tick d => simp only; omega
  all_goals exact Int.le_refl _

theorem Got.mono {w w' : World} {tid : Nat} {net : Net} (h : Got w tid net) (hl : ∀ p ∈ w.log, p ∈ w'.log) :
    Got w' tid net := by
  obtain ⟨t, u, f, h⟩ := h
  exact ⟨t, u, f, hl _ h⟩

theorem InfoOk.mono {w w' : World} {tid : Nat} {n s : String} (h : InfoOk w tid n s) (hl : ∀ p ∈ w.log, p ∈ w'.log)
    (hn : w.now ≤ w'.now) : InfoOk w' tid n s := by
  cases h with
  | permanent h1 h2 => exact .permanent (h1.mono hl) h2
  | endless h1 h2 h3 => exact .endless (h1.mono hl) h2 (by omega)
  | transitory h1 h2 => exact .transitory (h1.mono hl) h2
  | command h1 h2 => obtain ⟨t, h2⟩ := h2; exact .command (hl _ h1) ⟨t, hl _ h2⟩

theorem WarnOk.mono {w w' : World} {tid : Nat} {s : String} (h : WarnOk w tid s) (hl : ∀ p ∈ w.log, p ∈ w'.log) :
    WarnOk w' tid s := by
  cases h with
  | request h0 h1 h2 => exact .request h0 (hl _ h1) h2
  | callback h1 => exact .callback (hl _ h1)

/-- A browser's request is being dealt with. -/
def Op.isWeb : Op → Bool
  | .http _ _ | .exSend _ _ | .exAwait _ _ | .exSleep _ _ _ | .exDone _ _ | .fail _ _ | .notifyError _ _ => true
  | _ => false

def Web (w : World) (tid : Nat) : Prop := ∃ t b s, (t, Obs.httpReq tid b s) ∈ w.log

/-- What is known when a thread is about to do something. -/
def OpKnown (g : Logged) (tid : Nat) : Op → Prop
  | .rfPerm _ => ∃ net x, Got g.w tid net ∧ g.why tid = whyFailed x net ∧ net.IsPermanent
  | .rfTransient _ => ∃ net x, Got g.w tid net ∧ g.why tid = whyFailed x net ∧ net.IsTransient
  | .rfNow _ _ n _ => ∃ b tok, Got g.w tid (.body b) ∧ Issued b tok n
  | .rfStore _ _ n _ t => t ≤ g.w.now ∧ ∃ b tok, Got g.w tid (.body b) ∧ Issued b tok n
  | .rfCmdWait _ act => ∃ t cmd, (t, Obs.transientCmd tid cmd act) ∈ g.w.log
  | .rfCmdErr _ act => (∃ t cmd, (t, Obs.transientCmd tid cmd act) ∈ g.w.log) ∧
      (∃ t, (t, Obs.transientCmdEnd tid false) ∈ g.w.log) ∧ ∃ s, g.why tid = .plain s
  | .pushEvent n .invalidated => ∃ s, (tid, ⟨.info, s⟩) ∈ g.said ∧ IsPermanentError n s
  | o => o.isWeb = true → Web g.w tid

/-- Operations for which it matters why a refresh has failed. -/
def Op.needsWhy : Op → Bool
  | .rfPerm _ | .rfTransient _ | .rfCmdErr _ _ => true
  | _ => false

theorem OpKnown.mono {g g' : Logged} {tid : Nat} {o : Op} (h : OpKnown g tid o) (hl : ∀ p ∈ g.w.log, p ∈ g'.w.log)
    (hs : ∀ p ∈ g.said, p ∈ g'.said) (hn : g.w.now ≤ g'.w.now) (hw : o.needsWhy = true → g'.why tid = g.why tid) :
    OpKnown g' tid o := by
  cases o
  case rfPerm =>
    obtain ⟨net, x, h1, h2, h3⟩ := h
    exact ⟨net, x, h1.mono hl, (hw rfl).trans h2, h3⟩
  case rfTransient =>
    obtain ⟨net, x, h1, h2, h3⟩ := h
    exact ⟨net, x, h1.mono hl, (hw rfl).trans h2, h3⟩
  case rfNow =>
    obtain ⟨b, tok, h1, h2⟩ := h
    exact ⟨b, tok, h1.mono hl, h2⟩
  case rfStore =>
    obtain ⟨h0, b, tok, h1, h2⟩ := h
    exact ⟨by omega, b, tok, h1.mono hl, h2⟩
  case rfCmdWait =>
    obtain ⟨t, cmd, h⟩ := h
    exact ⟨t, cmd, hl _ h⟩
  case rfCmdErr =>
    obtain ⟨⟨t, cmd, h⟩, ⟨t', h'⟩, s, h2⟩ := h
    exact ⟨⟨t, cmd, hl _ h⟩, ⟨t', hl _ h'⟩, s, (hw rfl).trans h2⟩
  case pushEvent n ev =>
    cases ev
    case invalidated =>
      obtain ⟨s, h1, h2⟩ := h
      exact ⟨s, hs _ h1, h2⟩
    all_goals exact fun hc => by cases hc
  all_goals
    intro hc
    obtain ⟨t, b, s, h⟩ := h hc
    exact ⟨t, b, s, hl _ h⟩

/-- A message that was logged is true. -/
def MsgOk (w : World) (p : Nat × Msg) : Prop :=
  match p.2.level with
  | .info => ∃ n, InfoOk w p.1 n p.2.text
  | .warn => WarnOk w p.1 p.2.text
  | .error => Web w p.1

theorem MsgOk.mono {w w' : World} {p : Nat × Msg} (h : MsgOk w p) (hl : ∀ p ∈ w.log, p ∈ w'.log)
    (hn : w.now ≤ w'.now) : MsgOk w' p := by
  unfold MsgOk at h ⊢
  cases hp : p.2.level <;> simp only [hp] at h ⊢
  · obtain ⟨t, b, s, h⟩ := h; exact ⟨t, b, s, hl _ h⟩
  · exact h.mono hl
  · obtain ⟨n, h⟩ := h; exact ⟨n, h.mono hl hn⟩

structure SaidInv (g : Logged) : Prop where
  ops : ∀ tid, ∀ o ∈ g.w.threads tid, OpKnown g tid o
  msgs : ∀ p ∈ g.said, MsgOk g.w p
  events : ∀ t tid n, (t, Obs.event tid n .invalidated) ∈ g.w.log → ∃ s, (tid, ⟨.info, s⟩) ∈ g.said ∧ IsPermanentError n s

theorem requestTokenErr_warn {S : Static} {ls : LockedState} {id : AccountId} {inp : Input} {x : Words} {m : Msg}
    (h : m ∈ requestTokenErr E S ls id inp x) : m.level = .warn := by
  unfold requestTokenErr at h
  split at h <;> simp at h
  rw [h]

theorem takeWhile_colon {buf : Bytes} : colon ∉ buf → (buf.takeWhile (· != colon)).length = buf.length := by
  induction buf with
  | nil => intro _; rfl
  | cons b l ih =>
    intro h
    have hb : b ≠ colon := fun hc => h (hc ▸ List.mem_cons_self)
    rw [List.takeWhile_cons_of_pos (by simpa using hb), List.length_cons, ih fun hc => h (List.mem_cons_of_mem _ hc),
      List.length_cons]

theorem parseReq_no_colon {buf : Bytes} (h : colon ∉ buf) : parseReq buf = .invalid := by
  unfold parseReq
  rw [takeWhile_colon h]
  simp

theorem sayUnix_warn {S : Static} {now : Instant} {wall : SysTime} {ls : LockedState} {buf : Bytes} {inp : Input}
    {x : Words} {m : Msg} (h : m ∈ sayUnix E S now wall ls buf inp x) : m.level = .warn ∧
    (colon ∉ buf → m.text = "Syntactically invalid request '" ++ (fromUtf8 buf).getD "<can't represent as UTF-8" ++ "'") := by
  unfold sayUnix at h
  by_cases hc : colon ∈ buf
  · refine ⟨?_, fun hn => absurd hc hn⟩
    split at h
    · simp only at h
      (repeat' split at h) <;> simp at h <;> rw [h]
    · split at h <;> simp at h
      rw [h]
    · (repeat' split at h) <;> first | exact requestTokenErr_warn h | simp at h
    · (repeat' split at h) <;> first | exact requestTokenErr_warn h | simp at h
    · simp at h
  · rw [parseReq_no_colon hc] at h
    simp only [takeWhile_colon hc, if_true, List.mem_singleton] at h
    rw [h]
    exact ⟨rfl, fun _ => rfl⟩

theorem sayHttp_warn {S : Static} {ls : LockedState} {buf : Bytes} {sec : Bool} {x : Words} {m : Msg}
    (h : m ∈ sayHttp E S ls buf sec x) : m.level = .warn := by
  unfold sayHttp at h
  (repeat' split at h) <;> simp at h <;> rw [h]

theorem sayExDone_warn {now : Instant} {ls : LockedState} {c : ExCtx} {b : Body} {m : Msg}
    (h : m ∈ sayExDone now ls c b) : m.level = .warn := by
  unfold sayExDone at h
  (repeat' split at h) <;> simp at h <;> rw [h]

theorem SaidInv.new {g : Logged} (hr : Reach E g.w) (h : SaidInv g) {tid : Nat} {op : Op} {rest : List Op}
    (ht : g.w.threads tid = op :: rest) {inp : Input} {x : Words} {m : Msg}
    (hm : m ∈ sayOp E g.w.st g.w.now g.w.wall g.w.ls op inp x (g.why tid)) : MsgOk g.w (tid, m) := by
  have hw := hr.inv0.wf
  have hmem : op ∈ g.w.threads tid := by rw [ht]; simp
  have hk := h.ops tid op hmem
  have hop := Reach.opsInv g.w hr tid op hmem
  unfold MsgOk
  cases op <;> simp only [sayOp, List.not_mem_nil] at hm
  case unix buf =>
    obtain ⟨h1, h2⟩ := sayUnix_warn hm
    rw [h1]
    obtain ⟨h0, _⟩ := (Reach.shape g.w hr).unix hmem
    obtain ⟨t, hreq⟩ := hr.unix_request (h0 ▸ hmem)
    exact .request h0 (lastRequest_mem hreq) h2
  case http buf sec =>
    rw [sayHttp_warn hm]
    obtain ⟨t, b, s, h⟩ := hk rfl
    exact .callback h
  case exDone c b =>
    rw [sayExDone_warn hm]
    obtain ⟨t, b, s, h⟩ := hk rfl
    exact .callback h
  case notifyError act msg =>
    split at hm <;> simp at hm
    rw [hm]
    exact hk rfl
  case rfPerm c =>
    rcases hw.validCases c.id with ⟨_, hst⟩ | ⟨_, e, a, ha, hid⟩
    · rw [sayRfPerm_stale hst] at hm; cases hm
    · rw [sayRfPerm_ok hw ha hid, List.mem_singleton] at hm
      obtain ⟨_, _, _, _, _, _, hn⟩ := hop.2 e a ha hid
      obtain ⟨net, x', h1, h2, h3⟩ := hk
      rw [hm, ← hn, h2]
      exact ⟨c.name, .permanent h1 (permReason h3)⟩
  case rfStore c tok n rt t =>
    rcases hw.validCases c.id with ⟨_, hst⟩ | ⟨_, e, a, ha, hid⟩
    · rw [sayRfStore_stale hst] at hm; cases hm
    · obtain ⟨r, _, hr'⟩ := hw.expiryInstant ha t n
      rw [sayRfStore_ok hw ha hid hr'] at hm
      cases r <;> simp at hm
      obtain ⟨h0, b, tok', h1, h2⟩ := hk
      have := hr'.none_lt
      rw [hm]
      refine ⟨c.name, ?_⟩
      have e : "Permanent refresh error for " ++ c.name ++ ": " ++ "Can't represent expiry" =
          "Permanent refresh error for " ++ c.name ++ ": Can't represent expiry" := by
        rw [String.append_assoc]; rfl
      simp only [e]
      exact .endless h1 h2 (by omega)
  case rfTransient c =>
    rcases hw.validCases c.id with ⟨_, hst⟩ | ⟨_, e, a, ha, hid⟩
    · rw [sayRfTransient_stale hst] at hm; cases hm
    · obtain ⟨t, hts, _⟩ := hop.2 e a ha hid
      rw [sayRfTransient_ok hw ha hid hts] at hm
      split at hm
      · cases hm
      rw [List.mem_singleton] at hm
      obtain ⟨net, x', h1, h2, h3⟩ := hk
      rw [hm, h2]
      exact ⟨c.name, .transitory h1 (transReason h3)⟩
  case rfCmdErr id act =>
    rw [List.mem_singleton] at hm
    obtain ⟨⟨t, cmd, h1⟩, ⟨t', h2⟩, s, h3⟩ := hk
    rw [hm]
    exact ⟨act, .command h2 ⟨t, h1⟩⟩

theorem permanent_of {net : Net}
    (h : (∃ b, net = .body b ∧
          ((b.str "error").isSome ∨ ¬ (b.str "token_type" = some "Bearer" ∧ (b.u64 "expires_in").isSome ∧
            (b.str "access_token").isSome))) ∨
        (∃ m, net = .badJson m) ∨ (∃ code x, net = .status code x) ∨ net = .transport .other) : net.IsPermanent := by
  rcases h with ⟨b, h1, h2⟩ | h | h | h
  · exact .inr (.inr (.inr ⟨b, h1, not_issued h2⟩))
  · exact .inr (.inl h)
  · exact .inl h
  · exact .inr (.inr (.inl h))

theorem transient_of {net : Net} (h : (∃ m, net = .readErr m) ∨ ∃ k, k ≠ .other ∧ net = .transport k) : net.IsTransient := by
  rcases h with h | ⟨k, h1, h2⟩
  · exact .inr (.inr (.inr h))
  · cases k
    · exact .inl h2
    · exact .inr (.inl h2)
    · exact .inr (.inr (.inl h2))
    · exact absurd rfl h1

theorem ExecR.next_web {S : Static} {now : Instant} {wall : SysTime} {ls : LockedState} {tid : Nat} {op : Op}
    {inp : Input} {f : Eff} (hx : ExecR E S now wall ls tid op inp f) {o : Op} (ho : o ∈ f.next)
    (h : o.isWeb = true) : op.isWeb = true := by
  cases hx <;>
    first
    | rfl
    | (simp at ho; done)
    | (simp at ho; subst ho; cases h; done)
    | (simp at ho; rcases ho with rfl | rfl <;> cases h; done)
    | (simp at ho; rcases ho with rfl | rfl | rfl <;> cases h; done)
    | (simp at ho; rcases ho with rfl | rfl | rfl | rfl <;> cases h; done)

theorem SaidInv.step {g g' : Logged} {a : Action} {x : Words} (hr : Reach E g.w) (h : SaidInv g)
    (hs : g.step E a x = some g') : SaidInv g' := by
  obtain ⟨h1, h2, h3⟩ := Logged.step_spec hs
  have h0 := hr.inv0
  have hst := (stepR_of_step h0.wf h1).2
  have hl := hst.log_sub
  have hn := hst.now_le
  have hsd : ∀ p ∈ g.said, p ∈ g'.said := fun p hp => by rw [h3]; exact List.mem_append_right _ hp
  have same : ∀ tid o, o ∈ g.w.threads tid → (o.needsWhy = true → g'.why tid = g.why tid) → OpKnown g' tid o :=
    fun tid o ho hy => (h.ops tid o ho).mono hl hsd hn hy
  have whyr : (∀ tid inp, a ≠ .run tid inp) → ∀ tid, g'.why tid = g.why tid := by
    intro ha tid
    rw [h2]
    unfold Logged.whyAfter
    split
    · rename_i inp; exact absurd rfl (ha _ _)
    · rfl
  refine ⟨?_, ?_, ?_⟩
  · intro tid o ho
    generalize hw' : g'.w = w' at hst ho
    cases hst
    case run tid' inp op rest f ht hx =>
      have hmem : op ∈ g.w.threads tid' := by rw [ht]; simp
      have hk := h.ops tid' op hmem
      have hop := Reach.opsInv g.w hr tid' op hmem
      have hwt : g'.why tid' = whyOp op inp x (g.why tid') := by
        rw [h2]; unfold Logged.whyAfter; simp only [ht, if_true]
      have hsaid : ∀ m ∈ sayOp E g.w.st g.w.now g.w.wall g.w.ls op inp x (g.why tid'), (tid', m) ∈ g'.said := by
        intro m hm
        rw [h3]
        refine List.mem_append_left _ ?_
        unfold Logged.say
        simp only [ht, List.mem_reverse, List.mem_map]
        exact ⟨m, hm, rfl⟩
      have hlog : ∀ o ∈ f.obs, (g.w.now, o) ∈ g'.w.log := by
        intro o ho
        rw [hw']
        refine List.mem_append_left _ ?_
        simp only [List.mem_reverse, List.mem_map]
        exact ⟨o, ho, rfl⟩
      rcases mem_apply_threads ho with ⟨rfl, ho | ho⟩ | ⟨_, ho, _⟩ | ⟨hne, ho, _⟩
      · -- what the operation leads to
        have other : (o.isWeb = true → Web g'.w tid) := by
          intro hc
          have := hx.next_web ho hc
          obtain ⟨t, b, s, hq⟩ : Web g.w tid := by
            cases op <;> first | exact hk this | cases this
          exact ⟨t, b, s, hl _ hq⟩
        have got : ∀ u fm net, f.obs = [.resp tid u fm net] → Got g'.w tid net := fun u fm net hf =>
          ⟨_, u, fm, hlog _ (by rw [hf]; exact List.mem_singleton_self _)⟩
        have hwok := h0.wf
        cases o
        case rfPerm c =>
          cases hx <;> simp at ho
          case rfAwaitPerm hc =>
            exact ⟨_, x, got _ _ _ rfl, hwt, permanent_of hc⟩
          case failOk => split at ho <;> simp at ho
        case rfTransient c =>
          cases hx <;> simp at ho
          case rfAwaitTransient hc =>
            exact ⟨_, x, got _ _ _ rfl, hwt, transient_of hc⟩
          case failOk => split at ho <;> simp at ho
        case rfNow c tok n rt =>
          cases hx <;> simp at ho
          case rfAwaitOk b tok' n' _ _ _ _ _ =>
            obtain ⟨rfl, rfl, rfl, rfl⟩ := ho
            exact ⟨b, _, got _ _ _ rfl, issued_of (by assumption) (by assumption) (by assumption) (by assumption)⟩
          case failOk => split at ho <;> simp at ho
        case rfStore c tok n rt t =>
          cases hx <;> simp at ho
          case rfNow =>
            obtain ⟨rfl, rfl, rfl, rfl, rfl⟩ := ho
            obtain ⟨b, tok', h1, h2⟩ := hk
            exact ⟨hn, b, tok', h1.mono hl, h2⟩
          case failOk => split at ho <;> simp at ho
        case rfCmdWait id act =>
          cases hx <;> simp at ho
          case rfCmd =>
            obtain ⟨rfl, rfl⟩ := ho
            exact ⟨_, _, hlog _ (List.mem_singleton_self _)⟩
          case failOk => split at ho <;> simp at ho
        case rfCmdErr id act =>
          cases hx <;> simp at ho
          case rfCmdWaitErr hc =>
            obtain ⟨rfl, rfl⟩ := ho
            obtain ⟨t, cmd, hk⟩ := hk
            refine ⟨⟨t, cmd, hl _ hk⟩, ⟨_, hlog _ (List.mem_singleton_self _)⟩, x.cmd, ?_⟩
            rw [hwt]
            simp only [whyOp, hc, Bool.false_eq_true, if_false]
          case failOk => split at ho <;> simp at ho
        case pushEvent n ev _ =>
          cases ev
          case invalidated =>
            cases hx <;> simp at ho
            case failOk e a ha hid _ =>
              obtain ⟨p, hp⟩ := hop.2 e a ha hid
              rw [hp] at ho
              cases ho
            case rfPermOk e a ha hid _ =>
              subst ho
              exact ⟨_, hsaid _ (by simp only [sayOp, sayRfPerm_ok hwok ha hid]; exact List.mem_singleton_self _),
                _, .inl rfl⟩
            case rfStoreNoExpiry e a ha hid hex _ =>
              subst ho
              exact ⟨_, hsaid _ (by simp only [sayOp, sayRfStore_ok hwok ha hid hex]; exact List.mem_singleton_self _),
                _, .inl rfl⟩
            case rfCmdErrStale =>
              subst ho
              exact ⟨_, hsaid _ (List.mem_singleton_self _), _, .inr rfl⟩
            case rfCmdErrOk =>
              subst ho
              exact ⟨_, hsaid _ (List.mem_singleton_self _), _, .inr rfl⟩
          all_goals exact fun hc => by cases hc
        all_goals exact other
      · refine same tid o (by rw [ht]; exact List.mem_cons_of_mem _ ho) fun hy => ?_
        have hc : o.isCore = true := by cases o <;> first | rfl | cases hy
        rcases ((Reach.shape g.w hr).core hc (by rw [ht]; exact List.mem_cons_of_mem _ ho)).2 with h | ⟨b, c, rfl, _⟩
        · rw [ht] at h; cases h; cases ho
        · cases hy
      · obtain ⟨e, _, rfl, _⟩ := hx.spawn_rfStart ho
        exact fun hc => by cases hc
      · refine same tid o ho fun _ => ?_
        rw [h2]; unfold Logged.whyAfter; simp only [ht, if_neg hne]
    case runPanic tid' inp op rest ht hx =>
      refine same tid o ho fun hy => ?_
      rw [h2]
      unfold Logged.whyAfter
      simp only [ht]
      split
      · rename_i hc
        subst hc
        have hc : o.isCore = true := by cases o <;> first | rfl | cases hy
        rcases ((Reach.shape g.w hr).core hc ho).2 with h | ⟨b, c, rfl, _⟩
        · rw [ht] at h
          cases h
          cases o <;> first | rfl | cases hy
        · cases hy
      · rfl
    case connect buf hb =>
      simp only [setThread] at ho
      split at ho
      · simp at ho
        rcases ho with rfl | rfl <;> exact fun hc => by cases hc
      · exact same tid o ho fun _ => whyr (by simp) tid
    case http buf sec hb =>
      simp only [setThread] at ho
      split at ho
      · simp at ho
        subst ho
        rename_i hc
        subst hc
        refine fun _ => ⟨g.w.now, buf, sec, ?_⟩
        rw [hw']; exact List.mem_cons_self
      · exact same tid o ho fun _ => whyr (by simp) tid
    case refScan es hp he =>
      simp only at ho
      rcases spawnAll_cases g.w.threads g.w.nextTid tid (es.map fun e => .rfStart e.id) with
        ⟨_, h1⟩ | ⟨_, op, hop, h1⟩ | ⟨_, h1⟩
      · rw [h1] at ho; exact same tid o ho fun _ => whyr (by simp) tid
      · rw [h1] at ho
        simp only [List.mem_map] at hop
        obtain ⟨e, _, rfl⟩ := hop
        simp at ho
        subst ho
        exact fun hc => by cases hc
      · rw [h1] at ho; exact same tid o ho fun _ => whyr (by simp) tid
    all_goals exact same tid o ho fun _ => whyr (by simp) tid
  · intro p hp
    rw [h3] at hp
    rcases List.mem_append.mp hp with hp | hp
    · refine MsgOk.mono ?_ hl hn
      unfold Logged.say at hp
      split at hp
      · rename_i tid inp
        split at hp
        · cases hp
        · rename_i op rest ht
          simp only [List.mem_reverse, List.mem_map] at hp
          obtain ⟨m, hm, rfl⟩ := hp
          exact h.new hr ht hm
      · cases hp
    · exact (h.msgs p hp).mono hl hn
  · intro t tid n he
    obtain ⟨l, hl', hnew⟩ := hst.log_new
    rw [hl'] at he
    rcases List.mem_append.mp he with he | he
    · obtain ⟨_, hno⟩ := hnew _ he
      generalize g'.w = w' at hno
      simp only at hno
      cases hno
      rename_i tid' inp op rest f ht hx ho
      have : op = .pushEvent n .invalidated ∧ tid = tid' := by
        cases hx <;> simp at ho
        exact ⟨by rw [ho.2.1, ho.2.2], ho.1⟩
      obtain ⟨rfl, rfl⟩ := this
      obtain ⟨s, h1, h2⟩ := h.ops tid (.pushEvent n .invalidated) (by rw [ht]; simp)
      exact ⟨s, hsd _ h1, h2⟩
    · obtain ⟨s, h1, h2⟩ := h.events t tid n he
      exact ⟨s, hsd _ h1, h2⟩

theorem Logged.Reach.saidInv {g : Logged} (h : Logged.Reach E g) : SaidInv g := by
  induction h with
  | @init w why hi =>
    refine ⟨fun tid o ho => ?_, fun p hp => (by cases hp), fun t tid n he => ?_⟩
    · simp only [hi.threads] at ho; cases ho
    · simp only [hi.log] at he; cases he
  | step a x hr hs ih => exact ih.step hr.world hs

/-! ## Errors -/

def isError (p : Nat × Msg) : Bool := decide (p.2.level = .error)

theorem say_not_error {S : Static} {now : Instant} {wall : SysTime} {ls : LockedState} {op : Op} {inp : Input} {x : Words}
    {why : Why} (h : ∀ act msg, op ≠ .notifyError act msg) :
    ∀ m ∈ sayOp E S now wall ls op inp x why, m.level ≠ .error := by
  intro m hm
  cases op <;> simp only [sayOp, List.not_mem_nil] at hm
  case unix => rw [(sayUnix_warn hm).1]; simp
  case http => rw [sayHttp_warn hm]; simp
  case exDone => rw [sayExDone_warn hm]; simp
  case notifyError act msg => exact absurd rfl (h act msg)
  case rfPerm => unfold sayRfPerm at hm; (repeat' split at hm) <;> simp at hm <;> rw [hm] <;> simp
  case rfStore => unfold sayRfStore at hm; (repeat' split at hm) <;> simp at hm <;> rw [hm] <;> simp
  case rfTransient => unfold sayRfTransient at hm; (repeat' split at hm) <;> simp at hm <;> rw [hm] <;> simp
  case rfCmdErr => rw [List.mem_singleton] at hm; rw [hm]; simp

theorem filter_not_error {tid : Nat} {l : List Msg} (h : ∀ m ∈ l, m.level ≠ .error) :
    ((l.map fun m => (tid, m)).reverse).filter isError = [] := by
  rw [List.filter_eq_nil_iff]
  intro p hp
  simp only [List.mem_reverse, List.mem_map] at hp
  obtain ⟨m, hm, rfl⟩ := hp
  simp [isError, h m hm]

theorem ExecR.no_errorLog {S : Static} {now : Instant} {wall : SysTime} {ls : LockedState} {tid : Nat} {op : Op}
    {inp : Input} {f : Eff} (hx : ExecR E S now wall ls tid op inp f) (h : ∀ act msg, op ≠ .notifyError act msg) (t : Instant) :
    ((f.obs.map fun o => (t, o)).reverse).filterMap errorMessage = [] := by
  cases hx <;> first | rfl | exact absurd rfl (h _ _)

theorem StepR.errors {g g' : Logged} {a : Action} {x : Words} (hs : StepR E g.w a g'.w)
    (h3 : g'.said = (g.say E x a).reverse ++ g.said) (h : g.said.filter isError = g.w.log.filterMap errorMessage) :
    g'.said.filter isError = g'.w.log.filterMap errorMessage := by
  rw [h3, List.filter_append, h]
  generalize hw' : g'.w = w' at hs
  cases hs
  case run tid inp op rest f ht hx =>
    have hl : (g.w.apply tid rest f).log = (f.obs.map fun o => (g.w.now, o)).reverse ++ g.w.log := rfl
    rw [hl, List.filterMap_append]
    congr 1
    simp only [Logged.say, ht]
    by_cases hop : ∃ act msg, op = .notifyError act msg
    · obtain ⟨act, msg, rfl⟩ := hop
      cases hx
      case notifyErrorCmd hc => simp [sayOp, hc, errorMessage]
      case notifyErrorLog hc => simp [sayOp, hc, errorMessage, isError]
    · have hop' : ∀ act msg, op ≠ .notifyError act msg := fun act msg hc => hop ⟨act, msg, hc⟩
      rw [filter_not_error (say_not_error hop'), hx.no_errorLog hop']
  case runPanic tid inp op rest ht hx =>
    have hop : ∀ act msg, op ≠ .notifyError act msg := by
      rintro act msg rfl
      simp only [exec, execNotifyError] at hx
      split at hx <;> cases hx
    simp only [Logged.say, ht]
    rw [filter_not_error (say_not_error hop)]
    rfl
  case notScan ls' hp hn =>
    rw [List.filterMap_append]
    congr 1
    symm
    show _ = ([] : List (Nat × Msg))
    rw [List.filterMap_eq_nil_iff]
    intro p hp
    obtain ⟨c, n, u, hq⟩ := authCmds_mem hp
    obtain ⟨t, o⟩ := p
    simp only at hq
    subst hq
    rfl
  all_goals rfl

theorem Logged.Reach.errors {g : Logged} (h : Logged.Reach E g) : g.said.filter isError = g.w.log.filterMap errorMessage := by
  induction h with
  | @init w why hi => simp only [hi.log]; rfl
  | @step g g' a x hr hs ih =>
    obtain ⟨h1, _, h3⟩ := Logged.step_spec hs
    exact (stepR_of_step hr.world.inv0.wf h1).2.errors h3 ih

/-! ## Secrets -/

section
variable {s : Swap} {E' : Env}

theorem swap_requestTokenErr (h : s.Ok E E') (S : Static) (ls : LockedState) (id : AccountId) (inp : Input) (x : Words) :
    requestTokenErr E' S (ls.swap s) id (inp.swap s) x = requestTokenErr E S ls id inp x := by
  unfold requestTokenErr
  simp only [Input.swap]
  rw [swap_requestToken h]
  cases requestToken E S ls id inp.rndState inp.rndVerifier <;> rfl

theorem swap_sayUnix (h : s.Ok E E') (S : Static) (now : Instant) (wall : SysTime) (ls : LockedState) (buf : Bytes)
    (hd : parseReq buf ≠ .dump) (inp : Input) (x : Words) :
    sayUnix E' S now wall (ls.swap s) buf (inp.swap s) x = sayUnix E S now wall ls buf inp x := by
  unfold sayUnix
  cases hq : parseReq buf with
  | dump => exact absurd hq hd
  | refresh u act =>
    simp only [swap_validate]
    cases ls.validateActName act with
    | none => rfl
    | some id =>
      simp only [swap_tokenstate]
      cases ls.tokenstate id with
      | none => rfl
      | some t => cases t <;> simp only [Option.map_some, TokenState.swap] <;> first | rfl | exact swap_requestTokenErr h _ _ _ _ _
  | showtoken u act =>
    simp only [swap_validate]
    cases ls.validateActName act with
    | none => rfl
    | some id =>
      simp only [swap_tokenstate]
      cases ls.tokenstate id with
      | none => rfl
      | some t => cases t <;> simp only [Option.map_some, TokenState.swap] <;> first | rfl | exact swap_requestTokenErr h _ _ _ _ _
  | _ => rfl

theorem swap_sayHttp (h : s.Ok E E') (S : Static) (ls : LockedState) (buf : Bytes) (sec : Bool) (x : Words) :
    sayHttp E' S (ls.swap s) (s.page sec buf) sec x = sayHttp E S ls buf sec x := by
  unfold sayHttp
  rw [h.parseGet]
  cases parseGet E buf sec with
  | none => rfl
  | some uri =>
    simp only [Option.map_some, swap_param uri (show "state" ≠ "code" by decide)]
    cases uri.param "state" with
    | none => rfl
    | some st =>
      simp only [swap_matching]
      cases ls.actIdMatchingTokenState st with
      | none => rfl
      | some id =>
        simp only [swap_account]
        cases ls.account id with
        | none => rfl
        | some act => simp only [Option.map_some, h.redirect]

theorem swap_sayOp (h : s.Ok E E') (S : Static) (now : Instant) (wall : SysTime) (ls : LockedState) (op : Op)
    (ho : ¬ DumpOp op) (inp : Input) (x : Words) (why : Why) :
    sayOp E' S now wall (ls.swap s) (op.swap s) (inp.swap s) x why = sayOp E S now wall ls op inp x why := by
  cases op with
  | unix buf => exact swap_sayUnix h _ _ _ _ _ (fun e => ho ⟨_, rfl, .inl e⟩) _ _
  | http buf sec => exact swap_sayHttp h _ _ _ _ _
  | exDone c b => simp only [sayOp, Op.swap, sayExDone, ExCtx.swap, swap_valid, swap_expiry]
  | rfPerm c =>
    simp only [sayOp, Op.swap, sayRfPerm, RfCtx.swap, swap_valid, swap_replace_empty]
    split
    · cases ls.tokenstateReplace c.id .empty with
      | none => rfl
      | some p =>
        simp only [Option.map_some, swap_account]
        cases p.2.account p.1 <;> rfl
    · rfl
  | rfStore c a b d t => simp only [sayOp, Op.swap, sayRfStore, RfCtx.swap, swap_valid, swap_expiry]
  | rfTransient c =>
    simp only [sayOp, Op.swap, sayRfTransient, RfCtx.swap, swap_valid, swap_tokenstate]
    cases ls.tokenstate c.id with
    | none => rfl
    | some t => cases t <;> rfl
  | _ => rfl

theorem swap_whyOp (op : Op) (inp : Input) (x : Words) (why : Why) : whyOp (op.swap s) (inp.swap s) x why = whyOp op inp x why := by
  cases op <;> rfl

def Logged.swap (s : Swap) (g : Logged) : Logged := { g with w := g.w.swap s }

theorem swap_logged_step (h : s.Ok E E') {g : Logged} {a : Action} {x : Words}
    (ho : ∀ tid inp, a = .run tid inp → ∀ o ∈ g.w.threads tid, ¬ DumpOp o) :
    (g.swap s).step E' (a.swap s) x = (g.step E a x).map (Logged.swap s) := by
  have hsay : (g.swap s).say E' x (a.swap s) = g.say E x a := by
    cases a <;> try rfl
    rename_i tid inp
    have ho := ho tid inp rfl
    simp only [Action.swap, Logged.say]
    have ht : (g.swap s).w.threads tid = (g.w.threads tid).map (Op.swap s) := rfl
    rw [ht]
    cases hg : g.w.threads tid with
    | nil => rfl
    | cons op rest =>
      simp only [List.map_cons]
      exact congrArg _ (swap_sayOp h _ _ _ _ _ (ho op (by rw [hg]; simp)) _ _ _)
  have hwhy : (g.swap s).whyAfter x (a.swap s) = g.whyAfter x a := by
    cases a <;> try rfl
    rename_i tid inp
    simp only [Action.swap, Logged.whyAfter]
    have ht : (g.swap s).w.threads tid = (g.w.threads tid).map (Op.swap s) := rfl
    rw [ht]
    cases hg : g.w.threads tid with
    | nil => rfl
    | cons op rest =>
      simp only [List.map_cons]
      funext i
      split
      · exact swap_whyOp op inp x _
      · rfl
  unfold Logged.step
  rw [hsay, hwhy]
  have := swap_step h ho
  simp only [Logged.swap] at this ⊢
  rw [this]
  cases g.w.step E a <;> rfl

theorem swap_logged_run (h : s.Ok E E') : ∀ (l : List (Action × Words)) {g : Logged}, Logged.Reach E g → NoDumps g.w →
    (∀ p ∈ l, ¬ AsksDumpOrRestore p.1) →
    (g.swap s).run E' (l.map fun p => (p.1.swap s, p.2)) = (g.run E l).map (Logged.swap s)
  | [], _, _, _, _ => rfl
  | (a, x) :: l, g, hr, hn, hd => by
    simp only [List.map_cons, Logged.run]
    rw [swap_logged_step h]
    · cases hs : g.step E a x with
      | none => rfl
      | some g1 =>
        exact swap_logged_run h l (.step a x hr hs) (hn.step hr.world (hd (a, x) (by simp)) (Logged.step_spec hs).1)
          fun b hb => hd b (by simp [hb])
    · intro tid inp _ o ho ⟨buf, hb, hq⟩
      subst hb
      obtain ⟨rfl, _⟩ := (Reach.shape g.w hr.world).unix ho
      obtain ⟨t, ht⟩ := hr.world.unix_request ho
      have := hn t buf (lastRequest_mem ht)
      rcases hq with hq | ⟨d, hq⟩
      · exact this.1 hq
      · exact this.2 d hq

end

/-! ## Tokens -/

section
variable {σ τ : String → String} {ls ls' : LockedState}

theorem requestTokenErr_rel {S : Static} (h : LSRel σ τ ls ls') (id : AccountId) (inp : Input) (net : Net) (x : Words) :
    requestTokenErr E S ls id inp x = requestTokenErr E S ls' id { inp with net := net } x := by
  unfold requestTokenErr
  have := h.requestToken (E := E) (S := S) id inp.rndState inp.rndVerifier
  simp only
  generalize requestToken E S ls id inp.rndState inp.rndVerifier = a at this ⊢
  generalize requestToken E S ls' id inp.rndState inp.rndVerifier = b at this ⊢
  cases this <;> rfl

theorem sayUnix_rel {S : Static} {now : Instant} {wall : SysTime} (h : LSRel σ τ ls ls') {buf : Bytes}
    (hd : parseReq buf ≠ .dump) (inp : Input) (net : Net) (x : Words) :
    sayUnix E S now wall ls buf inp x = sayUnix E S now wall ls' buf { inp with net := net } x := by
  unfold sayUnix
  cases hq : parseReq buf with
  | dump => exact absurd hq hd
  | refresh u act =>
    simp only [h.validateActName]
    cases ls'.validateActName act with
    | none => rfl
    | some id =>
      have ht := h.tokenstate id
      simp only
      generalize ls.tokenstate id = a at ht ⊢
      generalize ls'.tokenstate id = b at ht ⊢
      cases ht with
      | none => rfl
      | some ht => cases ht <;> first | rfl | exact requestTokenErr_rel h _ _ _ _
  | showtoken u act =>
    simp only [h.validateActName]
    cases ls'.validateActName act with
    | none => rfl
    | some id =>
      have ht := h.tokenstate id
      simp only
      generalize ls.tokenstate id = a at ht ⊢
      generalize ls'.tokenstate id = b at ht ⊢
      cases ht with
      | none => rfl
      | some ht => cases ht <;> first | rfl | exact requestTokenErr_rel h _ _ _ _
  | _ => rfl

theorem sayExDone_rel {now : Instant} (h : LSRel σ τ ls ls') (c : ExCtx) (b : Body) :
    sayExDone now ls c b = sayExDone now ls' c (b.subst σ τ) := by
  unfold sayExDone
  rw [h.isActIdValid, Body.subst_str b (by decide) (by decide), Body.subst_str b (by decide) (by decide),
    Body.subst_u64 b (by decide) (by decide), Body.subst_access]
  split
  · rfl
  · cases b.str "error" with
    | some e => rfl
    | none =>
      simp only [h.expiry]
      cases b.str "access_token" with
      | none =>
        simp only [Option.map_none]
      | some t =>
        simp only [Option.map_some]
        (repeat' split) <;> simp_all

theorem sayOp_rel {S : Static} {now : Instant} {wall : SysTime} (h : LSRel σ τ ls ls') {op op' : Op} (ho : OpRel σ τ op op')
    (inp : Input) (x : Words) (why : Why) :
    sayOp E S now wall ls op inp x why = sayOp E S now wall ls' op' { inp with net := inp.net.subst σ τ } x why := by
  have perm : ∀ {c c' : RfCtx}, CtxRel τ c c' → sayRfPerm ls c why = sayRfPerm ls' c' why := by
    intro c c' hc
    cases hc with
    | @mk id n u f g x y _ _ =>
      unfold sayRfPerm
      rw [h.isActIdValid]
      split
      · have hr := h.replace id (.empty : TSRel σ τ .empty .empty)
        simp only
        generalize ls.tokenstateReplace id _ = x at hr ⊢
        generalize ls'.tokenstateReplace id _ = y at hr ⊢
        cases hr with
        | none => rfl
        | some hr => cases hr with | mk hr => simp only [hr.account]
      · rfl
  have store : ∀ {c c' : RfCtx} (n : Nat) (t : Instant), CtxRel τ c c' → sayRfStore ls c n t = sayRfStore ls' c' n t := by
    intro c c' n t hc
    cases hc with
    | @mk id n u f g x y _ _ =>
      unfold sayRfStore
      simp only [h.isActIdValid, h.expiry]
  have trans : ∀ {c c' : RfCtx}, CtxRel τ c c' → sayRfTransient ls c why = sayRfTransient ls' c' why := by
    intro c c' hc
    cases hc with
    | @mk id n u f g x y _ _ =>
      unfold sayRfTransient
      simp only [h.isActIdValid, h.config]
      split
      · have ht := h.tokenstate id
        generalize ls.tokenstate id = a at ht ⊢
        generalize ls'.tokenstate id = b at ht ⊢
        cases ht with
        | none => rfl
        | some ht =>
          cases ht with
          | empty => rfl
          | pending => rfl
          | active ht => cases ht; rfl
      · rfl
  cases ho with
  | shown hx => rfl
  | exDone c b => exact sayExDone_rel h c b
  | rfSend hc => rfl
  | rfAwait hc => rfl
  | rfPerm hc => exact perm hc
  | rfTransient hc => exact trans hc
  | rfNow hc hx hr => rfl
  | rfStore hc hx hr => exact store _ _ hc
  | same h1 h2 h3 h4 h5 h6 =>
    cases op with
    | unix buf => exact sayUnix_rel h (h5 buf rfl) inp _ x
    | notifyError act msg => simp only [sayOp, h.config]
    | http buf sec => simp only [sayOp, sayHttp, h.actIdMatching, h.account]
    | exDone c b => exact absurd rfl (h6 c b)
    | rfPerm c => exact absurd rfl (h3 c)
    | rfTransient c => exact absurd rfl (h4 c)
    | rfStore c tok n rt t => exact store _ _ (.mk (.inl rfl) (.refl _ _))
    | _ => rfl

theorem whyFailed_subst (x : Words) (net : Net) : whyFailed x (net.subst σ τ) = whyFailed x net := by
  cases net with
  | body b =>
    simp only [Net.subst, whyFailed]
    rw [Body.subst_str b (by decide) (by decide)]
  | _ => rfl

theorem whyOp_rel {op op' : Op} (ho : OpRel σ τ op op') (inp : Input) (x : Words) (why : Why) :
    whyOp op inp x why = whyOp op' { inp with net := inp.net.subst σ τ } x why := by
  cases ho with
  | same =>
    cases op <;> first | rfl | exact (whyFailed_subst x inp.net).symm
  | rfAwait hc => exact (whyFailed_subst x inp.net).symm
  | _ => rfl

theorem WorldRel.parts {w v : World} (h : WorldRel σ τ w v) :
    LSRel σ τ w.ls v.ls ∧ (∀ i, Each (OpRel σ τ) (w.threads i) (v.threads i)) ∧ v.st = w.st ∧ v.now = w.now ∧ v.wall = w.wall := by
  cases h with
  | mk h1 h2 => exact ⟨h1, h2, rfl, rfl, rfl⟩

theorem logged_step_rel {g h g' : Logged} (hg : WorldRel σ τ g.w h.w) (hy : h.why = g.why) (hs : h.said = g.said) {a : Action}
    {x : Words} (hd : ¬ AsksDump a) (hst : g.step E a x = some g') :
    ∃ h', h.step E (a.subst σ τ) x = some h' ∧ WorldRel σ τ g'.w h'.w ∧ h'.why = g'.why ∧ h'.said = g'.said := by
  obtain ⟨h1, h2, h3⟩ := Logged.step_spec hst
  obtain ⟨v', h4, h5⟩ := step_rel hg hd h1
  obtain ⟨hl, ht, e1, e2, e3⟩ := hg.parts
  refine ⟨⟨v', h.whyAfter x (a.subst σ τ), (h.say E x (a.subst σ τ)).reverse ++ h.said⟩, ?_, h5, ?_, ?_⟩
  · unfold Logged.step; rw [h4]; rfl
  · rw [h2]
    simp only
    cases a <;> try exact hy
    rename_i tid inp
    simp only [Logged.whyAfter, Action.subst, hy]
    have ht := ht tid
    generalize g.w.threads tid = l at ht ⊢
    generalize h.w.threads tid = m at ht ⊢
    cases ht with
    | nil => rfl
    | cons ho _ =>
      simp only
      funext i
      split
      · exact (whyOp_rel ho inp x _).symm
      · rfl
  · rw [h3, hs]
    congr 2
    cases a <;> try rfl
    rename_i tid inp
    simp only [Logged.say, Action.subst, hy, e1, e2, e3]
    have ht := ht tid
    generalize g.w.threads tid = l at ht ⊢
    generalize h.w.threads tid = m at ht ⊢
    cases ht with
    | nil => rfl
    | cons ho _ =>
      simp only
      rw [sayOp_rel hl ho]

theorem logged_run_rel : ∀ (l : List (Action × Words)) {g h g' : Logged}, WorldRel σ τ g.w h.w → h.why = g.why →
    h.said = g.said → (∀ p ∈ l, ¬ AsksDump p.1) → g.run E l = some g' →
    ∃ h', h.run E (l.map fun p => (p.1.subst σ τ, p.2)) = some h' ∧ h'.said = g'.said
  | [], g, h, g', hg, hy, hs, hd, hr => by cases hr; exact ⟨h, rfl, hs⟩
  | (a, x) :: l, g, h, g', hg, hy, hs, hd, hr => by
    unfold Logged.run at hr
    cases ha : g.step E a x with
    | none => rw [ha] at hr; cases hr
    | some g1 =>
      rw [ha] at hr
      obtain ⟨h1, e1, e2, e3, e4⟩ := logged_step_rel hg hy hs (hd (a, x) (by simp)) ha
      obtain ⟨h', e5, e6⟩ := logged_run_rel l e2 e3 e4 (fun p hp => hd p (by simp [hp])) hr
      refine ⟨h', ?_, e6⟩
      simp only [List.map_cons, Logged.run, e1]
      exact e5

end

/-! ## Failed attempts -/

theorem ExecR.failed {S : Static} {now : Instant} {wall : SysTime} {ls : LockedState} {tid : Nat} {op : Op} {inp : Input}
    {f : Eff} (hx : ExecR E S now wall ls tid op inp f) (h : ls.WF) (hu : ∀ buf, op ≠ .unix buf) (hc : ∀ c, op ≠ .install c)
    {n : String} {t t' : ActiveTok} (ht : HoldsToken ls n t) (ht' : HoldsToken f.ls n t') (hf : t'.fails = t.fails + 1) :
    ∃ c e a, op = .rfTransient c ∧ ls.Has e a ∧ e.id = c.id ∧ e.name = n ∧ e.ts = .active t := by
  obtain ⟨e0, he0, hn0, hts0⟩ := ht
  obtain ⟨e1, he1, hn1, hts1⟩ := ht'
  have same : ∀ ls1 : LockedState, ls1.details = ls.details → e1 ∈ ls1.details → False := by
    intro ls1 hd he
    have := h.entry_name_inj he0 (hd ▸ he) (hn0.trans hn1.symm)
    subst this
    rw [hts0] at hts1
    cases hts1
    omega
  -- the entry which has changed is that of the account
  have put : ∀ (ls1 : LockedState) (e : Entry) (ts : TokenState), ls1.details = ls.details → f.ls = ls1.put e.id ts →
      e ∈ ls.details → e = e0 ∧ ts = .active t' := by
    intro ls1 e ts hd hl he
    rw [hl] at he1
    rcases mem_put.mp he1 with ⟨he, _⟩ | ⟨e2, he2, hid, rfl⟩
    · exact (same ls1 hd he).elim
    · have h1 : e2 = e := h.entry_id_inj (hd ▸ he2) he hid
      subst h1
      exact ⟨h.entry_name_inj he he0 (hn1.trans hn0.symm), hts1⟩
  cases hx <;> first | exact (same _ rfl he1).elim | exact absurd rfl (hu _) | exact absurd rfl (hc _) | skip
  case httpError ha _ _ _ _ _ => cases (put ls _ _ rfl rfl (And.left ‹ls.Has _ _›)).2
  case exDoneOk => cases (put ls _ _ rfl rfl (And.left ‹ls.Has _ _›)).2; simp [freshActive] at hf
  case failOk => cases (put ls _ _ rfl rfl (And.left ‹ls.Has _ _›)).2
  case rfStartOk =>
    obtain ⟨rfl, h2⟩ := put ls.bump _ _ rfl rfl (And.left ‹ls.Has _ _›)
    cases h2
    rename_i hts _ _
    rw [hts0] at hts
    cases hts
    simp at hf
  case rfStartNoRt => cases (put ls.bump _ _ rfl rfl (And.left ‹ls.Has _ _›)).2
  case rfPermOk => cases (put ls _ _ rfl rfl (And.left ‹ls.Has _ _›)).2
  case rfStoreNoExpiry => cases (put ls _ _ rfl rfl (And.left ‹ls.Has _ _›)).2
  case rfStoreOk => cases (put ls _ _ rfl rfl (And.left ‹ls.Has _ _›)).2; simp [freshActive] at hf
  case rfTransientCmd c e a t2 cmd ha hid hts h6 hcmd =>
    obtain ⟨rfl, h2⟩ := put ls _ _ rfl rfl ha.1
    exact ⟨_, _, _, rfl, ha, hid, hn0, hts0⟩
  case rfTransientKeep c e a t2 ha hid hts h6 =>
    obtain ⟨rfl, h2⟩ := put ls.bump _ _ rfl rfl ha.1
    exact ⟨_, _, _, rfl, ha, hid, hn0, hts0⟩
  case rfCmdOkOk e a t2 ha hid hts =>
    obtain ⟨rfl, h2⟩ := put ls _ _ rfl rfl ha.1
    rw [hts0] at hts
    cases hts
    cases h2
    simp at hf
  case rfCmdErrOk => cases (put ls _ _ rfl rfl (And.left ‹ls.Has _ _›)).2

theorem Logged.step_failed {g g' : Logged} (hg : Logged.Reach E g) {tid : Nat} {inp : Input} {x : Words}
    (hs : g.step E (.run tid inp) x = some g') (h0 : tid ≠ 0) {n : String} {t t' : ActiveTok} (ht : HoldsToken g.w.ls n t)
    (ht' : HoldsToken g'.w.ls n t') (hf : t'.fails = t.fails + 1) :
    ∃ net, Got g.w tid net ∧
      ((∃ r, TransReason net r ∧ g'.said = (tid, ⟨.info, "Transitory refresh error for " ++ n ++ " : " ++ r⟩) :: g.said ∧
          ¬ (t'.fails % 6 = 0 ∧ g.w.ls.config.transientErrorIfCmd.isSome)) ∨
        (g'.said = g.said ∧ t'.fails % 6 = 0 ∧ g.w.ls.config.transientErrorIfCmd.isSome)) := by
  have hr := hg.world
  have hw := hr.inv0.wf
  obtain ⟨h1, _, h3⟩ := step_spec hs
  have hst := (stepR_of_step hw h1).2
  generalize hw' : g'.w = w' at hst ht'
  cases hst
  case runPanic =>
    exfalso
    obtain ⟨e0, he0, hn0, hts0⟩ := ht
    obtain ⟨e1, he1, hn1, hts1⟩ := ht'
    have := hw.entry_name_inj he0 he1 (hn0.trans hn1.symm)
    subst this
    rw [hts0] at hts1
    cases hts1
    omega
  case run op rest f hth hx =>
    have hmem : op ∈ g.w.threads tid := by rw [hth]; simp
    have hls : (g.w.apply tid rest f).ls = f.ls := rfl
    rw [hls] at ht'
    obtain ⟨c, e, a, rfl, ha, hid, hn, hts⟩ := hx.failed hw
      (fun buf hc => h0 ((Reach.shape g.w hr).unix (hc ▸ hmem)).1)
      (fun c hc => h0 ((Reach.shape g.w hr).install (hc ▸ hmem)).1) ht ht' hf
    obtain ⟨net, y, k1, k2, k3⟩ := hg.saidInv.ops tid _ hmem
    have hop := Reach.opsInv g.w hr tid _ hmem
    obtain ⟨_, _, _, _, _, _, hcn⟩ := hop.2 e a ha hid
    have hcn : c.name = n := by rw [hcn, ← hn]; exact hw.get?_name ha.2
    refine ⟨net, k1, ?_⟩
    rw [h3]
    simp only [Logged.say, hth, sayOp, sayRfTransient_ok hw ha hid hts, hf]
    split
    · rename_i hc
      exact .inr ⟨rfl, hc⟩
    · rename_i hc
      refine .inl ⟨(whyFailed y net).text c.name, transReason k3, ?_, hc⟩
      rw [k2, hcn]
      rfl

end Pizauth
