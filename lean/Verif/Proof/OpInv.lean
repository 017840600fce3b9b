import Verif.Proof.Inv

/-!
# What the operations in flight know about their accounts

An operation refers to an account by an id. Ids are never reused and change whenever the token state changes, so as
long as the id is valid, the account is in the same state (and has the same security-relevant configuration) as when
the operation was created.
-/

namespace Pizauth
open LockedState

/-- `P` holds for the entry with id `id`, if there is one. -/
def OnValid (ls : LockedState) (id : Nat) (P : Entry → Account → Prop) : Prop :=
  ∀ e a, ls.Has e a → e.id = id → P e a

theorem OnValid.evolves {ls ls' : LockedState} {id : Nat} {P : Entry → Account → Prop} (hev : Evolves ls ls')
    (hlt : id < ls.accountCount) (hP : ∀ e a a', SameSec a a' → P e a → P e a') (h : OnValid ls id P) :
    OnValid ls' id P := by
  intro e a' he hid
  obtain ⟨a, ha, hs⟩ := hev.old he (hid ▸ hlt)
  exact hP e a a' hs (h e a ha hid)

/-- A code exchange: the account is pending and the POST is made up from it. -/
def ExOk (E : Env) (S : Static) (c : ExCtx) (e : Entry) (a : Account) : Prop :=
  ∃ p x code, e.ts = .pending p ∧ a.redirectUrl E S.httpPort S.httpsPort = .ok x ∧ c.tokenUri = a.tokenUri ∧
    c.form = codeForm a code p.codeVerifier (E.renderUrl x)

/-- A refresh: the account has a token which is marked as being refreshed, and the POST is made up from it. -/
def RfOk (c : RfCtx) (e : Entry) (a : Account) : Prop :=
  ∃ t, e.ts = .active t ∧ t.ongoing = true ∧ t.refreshToken = some c.refreshToken ∧ c.tokenUri = a.tokenUri ∧
    c.form = refreshForm a c.refreshToken ∧ c.name = a.name

def PendOk (e : Entry) (_ : Account) : Prop := ∃ p, e.ts = .pending p

def OngoingOk (act : Option String) (e : Entry) (a : Account) : Prop :=
  ∃ t, e.ts = .active t ∧ t.ongoing = true ∧ ∀ n, act = some n → n = a.name

def OpInv (E : Env) (S : Static) (ls : LockedState) : Op → Prop
  | .exSend c _ | .exAwait c _ | .exSleep c _ _ | .exDone c _ =>
    c.id < ls.accountCount ∧ OnValid ls c.id (ExOk E S c)
  | .fail id _ => id < ls.accountCount ∧ OnValid ls id PendOk
  | .rfStart id => id < ls.accountCount
  | .rfSend c | .rfAwait c | .rfPerm c | .rfNow c _ _ _ | .rfStore c _ _ _ _ | .rfTransient c =>
    c.id < ls.accountCount ∧ OnValid ls c.id (RfOk c)
  | .rfCmd id act _ | .rfCmdWait id act | .rfCmdErr id act =>
    id < ls.accountCount ∧ OnValid ls id (OngoingOk (some act))
  | .rfCmdOk id => id < ls.accountCount ∧ OnValid ls id (OngoingOk none)
  | _ => True

theorem redirectUrl_sameSec {E : Env} {a a' : Account} (h : SameSec a a') (p q : Option Nat) :
    a.redirectUrl E p q = a'.redirectUrl E p q := by
  unfold Account.redirectUrl
  rw [h.redirectUri]

theorem codeForm_sameSec {a a' : Account} (h : SameSec a a') (x y z : String) :
    codeForm a x y z = codeForm a' x y z := by
  unfold codeForm
  rw [h.clientId, h.clientSecret]

theorem refreshForm_sameSec {a a' : Account} (h : SameSec a a') (x : String) :
    refreshForm a x = refreshForm a' x := by
  unfold refreshForm
  rw [h.clientId, h.clientSecret]

theorem authParams_sameSec {a a' : Account} (h : SameSec a a') (x y z : String) :
    authParams a x y z = authParams a' x y z := by
  unfold authParams
  rw [h.clientId, h.scopes, h.authUriFields]

theorem ExOk.sameSec {E : Env} {S : Static} {c : ExCtx} (e : Entry) (a a' : Account) (h : SameSec a a')
    (hx : ExOk E S c e a) : ExOk E S c e a' := by
  obtain ⟨p, x, code, h1, h2, h3, h4⟩ := hx
  exact ⟨p, x, code, h1, by rw [← redirectUrl_sameSec h]; exact h2, by rw [← h.tokenUri]; exact h3,
    by rw [← codeForm_sameSec h]; exact h4⟩

theorem RfOk.sameSec {c : RfCtx} (e : Entry) (a a' : Account) (h : SameSec a a')
    (hx : RfOk c e a) : RfOk c e a' := by
  obtain ⟨t, h1, h2, h3, h4, h5, h6⟩ := hx
  exact ⟨t, h1, h2, h3, by rw [← h.tokenUri]; exact h4, by rw [← refreshForm_sameSec h]; exact h5,
    by rw [← h.name]; exact h6⟩

theorem OngoingOk.sameSec {act : Option String} (e : Entry) (a a' : Account) (h : SameSec a a')
    (hx : OngoingOk act e a) : OngoingOk act e a' := by
  obtain ⟨t, h1, h2, h3⟩ := hx
  exact ⟨t, h1, h2, fun n hn => by rw [← h.name]; exact h3 n hn⟩

theorem OpInv.evolves {E : Env} {S : Static} {ls ls' : LockedState} (hev : Evolves ls ls') {op : Op}
    (h : OpInv E S ls op) : OpInv E S ls' op := by
  have hc := hev.count
  cases op <;> try exact trivial
  case rfStart id => exact Nat.lt_of_lt_of_le h hc
  all_goals
    refine ⟨Nat.lt_of_lt_of_le h.1 hc, h.2.evolves hev h.1 ?_⟩
    first
    | exact ExOk.sameSec
    | exact RfOk.sameSec
    | exact OngoingOk.sameSec
    | exact fun _ _ _ _ h => h

section
variable {E : Env} {S : Static} {now : Instant} {wall : SysTime} {ls : LockedState} {tid : Nat}
  {op : Op} {inp : Input} {f : Eff}

/-- The operations that an operation creates are fine. -/
theorem ExecR.opInv (hx : ExecR E S now wall ls tid op inp f) (h : ls.WF) (hop : OpInv E S ls op) :
    ∀ o, o ∈ f.next ∨ o ∈ f.spawn → OpInv E S f.ls o := by
  intro o ho
  have hself : ∀ {e : Entry} {a : Account} (P : Entry → Account → Prop), ls.Has e a → P e a →
      OnValid ls e.id P := by
    intro e a P he hP e' a' he' hid
    have := h.entry_id_inj he'.1 he.1 hid
    subst this
    have : a = a' := by have h1 := he.2; rw [he'.2] at h1; exact (Option.some.inj h1).symm
    subst this
    exact hP
  have hnew : ∀ {ls : LockedState} {e : Entry} {a : Account} {ts : TokenState} (P : Entry → Account → Prop), ls.WF →
      ls.Has e a →
      P { name := e.name, id := ls.accountCount, ts := ts } a →
      OnValid (ls.put e.id ts) ls.accountCount P := by
    intro ls e a ts P h he hP e' a' he' hid
    have hm := mem_put_new (ts := ts) he.1 rfl
    have := (h.put e.id ts).entry_id_inj he'.1 hm hid
    subst this
    have : a = a' := by
      have h1 := he'.2
      rw [put_config] at h1
      simp only [he.2] at h1
      exact Option.some.inj h1
    subst this
    exact hP
  cases hx <;> simp at ho <;>
    first
    | exact False.elim ho
    | (subst ho; exact trivial)
    | (subst ho; exact hop)
    | (rcases ho with rfl | rfl <;> exact trivial)
    | (rcases ho with rfl | rfl | rfl <;> exact trivial)
    | (rcases ho with rfl | rfl | rfl | rfl <;> exact trivial)
    | skip
  case refreshSched ha hreq hts =>
    rcases ho with rfl | rfl
    · exact trivial
    · exact h.lt _ ha.1
  case showExpired ha hreq hts hexp hon =>
    rcases ho with rfl | rfl
    · exact trivial
    · exact h.lt _ ha.1
  case httpCode ha hp hps hr horg herr hcode =>
    rcases ho with rfl | rfl
    · exact trivial
    · exact ⟨h.lt _ ha.1, hself _ ha ⟨_, _, _, hp, hr, rfl, rfl⟩⟩
  case exAwaitErr h1 h2 _ =>
    subst ho
    refine ⟨hop.1, fun e a he hid => ?_⟩
    obtain ⟨p, _, _, hp, _⟩ := hop.2 e a he hid
    exact ⟨p, hp⟩
  case exSleepFail h1 h2 =>
    subst ho
    refine ⟨hop.1, fun e a he hid => ?_⟩
    obtain ⟨p, _, _, hp, _⟩ := hop.2 e a he hid
    exact ⟨p, hp⟩
  case exDoneErr h1 h2 h3 =>
    subst ho
    refine ⟨hop.1, fun e a he hid => ?_⟩
    obtain ⟨p, _, _, hp, _⟩ := hop.2 e a he hid
    exact ⟨p, hp⟩
  case exDoneInvalid h1 h2 h3 h4 =>
    subst ho
    refine ⟨hop.1, fun e a he hid => ?_⟩
    obtain ⟨p, _, _, hp, _⟩ := hop.2 e a he hid
    exact ⟨p, hp⟩
  case failOk ha hid =>
    rcases ho with rfl | ho
    · exact trivial
    · split at ho <;> simp at ho
      rcases ho with rfl | rfl <;> exact trivial
  case rfStartOk e a t r ha hid hts hon hrt =>
    subst ho
    refine ⟨Nat.lt_succ_self _, ?_⟩
    exact hnew (ls := ls.bump) (e := e) _ h.bump ha ⟨_, rfl, rfl, hrt, rfl, rfl, rfl⟩
  case rfTransientCmd e a t cmd ha hid hts hmod hcmd =>
    subst ho
    obtain ⟨t', h1, h2, _, _, _, h6⟩ := hop.2 e a ha hid
    rw [hts] at h1
    cases h1
    refine ⟨Nat.lt_succ_self _, hnew _ h ha ⟨_, rfl, h2, ?_⟩⟩
    rintro n hn
    cases hn
    exact h6
  case rfCmdWaitOk hok =>
    subst ho
    refine ⟨hop.1, fun e a he hid => ?_⟩
    obtain ⟨t, h1, h2, _⟩ := hop.2 e a he hid
    exact ⟨t, h1, h2, by simp⟩

end

/-- All operations in flight are fine. -/
def OpsInv (E : Env) (w : World) : Prop := ∀ i o, o ∈ w.threads i → OpInv E w.st w.ls o

theorem OpsInv.step {E : Env} {w w' : World} {a : Action} (h0 : Inv0 E w) (h : OpsInv E w)
    (hs : StepR E w a w') : OpsInv E w' := by
  have hev := hs.evolves h0
  have hst := hs.st
  cases hs <;> try exact h
  case connect buf hb =>
    intro i o ho
    simp only [setThread] at ho
    split at ho
    · simp at ho; rcases ho with rfl | rfl <;> exact trivial
    · exact h i o ho
  case http buf sec hb =>
    intro i o ho
    simp only [setThread] at ho
    split at ho
    · simp at ho; subst ho; exact trivial
    · exact h i o ho
  case run tid inp op rest f ht hx =>
    have hop : OpInv E w.st w.ls op := h tid op (by rw [ht]; simp)
    intro i o ho
    rcases mem_apply_threads ho with ⟨rfl, ho | ho⟩ | ⟨_, ho, _⟩ | ⟨_, ho, _⟩
    · exact hx.opInv h0.wf hop o (Or.inl ho)
    · exact (h i o (by rw [ht]; exact List.mem_cons_of_mem _ ho)).evolves hev
    · exact hx.opInv h0.wf hop o (Or.inr ho)
    · exact (h i o ho).evolves hev
  case refScan es hp he =>
    intro i o ho
    simp only at ho
    rcases spawnAll_cases w.threads w.nextTid i (es.map fun e => .rfStart e.id) with
      ⟨_, h1⟩ | ⟨_, op, hop, h1⟩ | ⟨_, h1⟩
    · rw [h1] at ho; exact h i o ho
    · rw [h1] at ho
      simp at ho
      subst ho
      simp only [List.mem_map] at hop
      obtain ⟨e, hem, rfl⟩ := hop
      subst he
      exact h0.wf.lt e ((List.mem_filter.mp hem).1)
    · rw [h1] at ho; exact h i o ho
  case notScan hp hn =>
    intro i o ho
    exact (h i o ho).evolves hev

theorem Reach.opsInv {E : Env} : ∀ w, Reach E w → OpsInv E w := by
  apply Reach.induct
  · intro w hi i o ho
    rw [hi.threads] at ho; simp at ho
  · intro w a w' _ h0 _ h hs
    exact h.step h0 hs

/-! ## Panics -/

theorem startAuth_not_panic {E : Env} {S : Static} {ls : LockedState} (h : ls.WF)
    (hp : S.httpPort.isSome ∨ S.httpsPort.isSome) {e : Entry} (he : e ∈ ls.details)
    (hts : ∀ t, e.ts ≠ .active t) (u : Bool) (inp : Input) : startAuth E S ls e.id u inp ≠ .panic := by
  obtain ⟨a, ha⟩ := h.has he
  unfold startAuth requestToken
  rw [h.tokenstate he, h.account ha]
  have key : ∀ r : Res (Url × LockedState),
      r = (match a.redirectUrl E S.httpPort S.httpsPort with
      | .panic => .panic
      | .err m => .err m
      | .ok redirect =>
        match E.parseWithParams a.authUri
            (authParams a (codeChallenge E (b64 inp.rndVerifier.toList)) (E.renderUrl redirect)
              (b64 inp.rndState.toList)) with
        | none => .err "url"
        | some url =>
          match ls.tokenstateReplace e.id (freshPending url inp) with
          | none => .panic
          | some (_, ls') => .ok (url, ls')) →
      (match r with
      | .panic => Out.panic
      | .err _ => .ok { ls := ls }
      | .ok (url, ls') =>
        .ok { ls := ls', next := [.wakeNotifier, .reply (pendingReply E u url)] }) ≠ .panic := by
    rintro r rfl
    cases hr : a.redirectUrl E S.httpPort S.httpsPort with
    | panic => exact absurd hr (redirectUrl_not_panic hp)
    | err m => simp
    | ok redirect =>
      simp only [h.tokenstateReplace he]
      cases E.parseWithParams a.authUri
            (authParams a (codeChallenge E (b64 inp.rndVerifier.toList)) (E.renderUrl redirect)
              (b64 inp.rndState.toList)) <;> simp
  cases hc : e.ts with
  | active t => exact absurd hc (hts t)
  | empty => exact key _ rfl
  | pending p => exact key _ rfl

theorem authDump_not_panic {E : Env} {ls : LockedState} (h : ls.WF) (now : Instant) (wall : SysTime)
    (nonce : Vector UInt8 12) (order : List (String × (AccountDump × TokenStateDump))) :
    authDump E ls now wall nonce order ≠ .panic := by
  obtain ⟨ds, h1, _⟩ := h.dumpLoop now wall ls.details fun e he => he
  unfold authDump LockedState.dump
  rw [h1]
  by_cases hperm : order.isPerm ds = true
  · simp only [hperm, if_true]
    cases encDump { version := dumpVersion, accounts := order } with
    | none => simp
    | some b => simp only; cases E.encrypt nonce.toList b <;> simp
  · simp [hperm]

/-- The only operation that can panic is answering `status`, and only because a time cannot be printed. -/
theorem exec_panic {E : Env} {S : Static} {now : Instant} {wall : SysTime} {ls : LockedState} {tid : Nat}
    {op : Op} {inp : Input} (h : ls.WF) (hp : S.httpPort.isSome ∨ S.httpsPort.isSome)
    (hinst : ∀ c, op = .install c → c.Ok E) (hop : OpInv E S ls op)
    (hx : exec E S now wall ls tid op inp = .panic) :
    ∃ buf, op = .unix buf ∧ parseReq buf = .status ∧ statusReply E now wall ls = none := by
  cases op with
  | unix buf =>
    refine ⟨buf, rfl, ?_⟩
    simp only [exec] at hx
    cases hreq : parseReq buf with
    | dump =>
      simp only [hreq, execUnix] at hx
      split at hx <;> simp at hx
      exact absurd (by assumption) (authDump_not_panic h now wall inp.nonce inp.dumpOrder)
    | info => simp [hreq, execUnix] at hx
    | reload =>
      simp only [hreq, execUnix] at hx
      split at hx
      · split at hx <;> simp at hx
      · simp at hx
    | refresh u n =>
      simp only [hreq, execUnix] at hx
      split at hx
      · simp at hx
      · rename_i id hid
        obtain ⟨e, he, rfl, rfl⟩ := validateActName_some hid
        rw [h.tokenstate he] at hx
        cases hts : e.ts with
        | empty => rw [hts] at hx; exact absurd hx (startAuth_not_panic h hp he (by simp [hts]) u inp)
        | pending p => rw [hts] at hx; exact absurd hx (startAuth_not_panic h hp he (by simp [hts]) u inp)
        | active t => rw [hts] at hx; simp at hx
    | restore d =>
      simp only [hreq, execUnix] at hx
      split at hx
      · simp at hx
      · split at hx
        · simp at hx
        · split at hx <;> simp at hx
          rename_i plain _ _ hr
          rcases restore_cases (now := now) (wall := wall) h (plain := plain) (drain := inp.drainOrder) with h1 | h1 | ⟨_, _, _, _, h1, _⟩ <;>
            (rw [h1] at hr; cases hr)
    | revoke n =>
      simp only [hreq, execUnix] at hx
      split at hx
      · simp at hx
      · rename_i id hid
        obtain ⟨e, he, rfl, rfl⟩ := validateActName_some hid
        rw [h.tokenstateReplace he] at hx
        simp at hx
    | showtoken u n =>
      simp only [hreq, execUnix] at hx
      split at hx
      · simp at hx
      · rename_i id hid
        obtain ⟨e, he, rfl, rfl⟩ := validateActName_some hid
        rw [h.tokenstate he] at hx
        cases hts : e.ts with
        | empty => rw [hts] at hx; exact absurd hx (startAuth_not_panic h hp he (by simp [hts]) u inp)
        | pending p => rw [hts] at hx; simp at hx
        | active t =>
          rw [hts] at hx
          simp only at hx
          split at hx
          · simp at hx
          · split at hx <;> simp at hx
    | shutdown => simp [hreq, execUnix] at hx
    | status =>
      simp only [hreq, execUnix] at hx
      split at hx <;> simp at hx
      exact ⟨rfl, by assumption⟩
    | unknown c => simp [hreq, execUnix] at hx
    | invalid => simp [hreq, execUnix] at hx
  | install c =>
    have hc := hinst c rfl
    obtain ⟨ls', h1, _⟩ := h.updateConf hc.nodup hc.names
    simp [exec, h1] at hx
  | reply b => simp [exec] at hx
  | close => simp [exec] at hx
  | wakeRefresher => simp [exec] at hx
  | wakeNotifier => simp [exec] at hx
  | pushEvent act ev => simp [exec] at hx
  | wakeEventer => simp [exec] at hx
  | notifyError act msg =>
    simp only [exec, execNotifyError] at hx
    split at hx <;> simp at hx
  | http buf sec =>
    simp only [exec, execHttp] at hx
    split at hx
    · simp at hx
    split at hx
    · simp at hx
    split at hx
    · simp at hx
    rename_i id hid
    obtain ⟨e, he, rfl, p, hpd, _⟩ := actIdMatching_some hid
    obtain ⟨a, ha⟩ := h.has he
    rw [h.account ha] at hx
    simp only at hx
    split at hx
    · exact absurd (by assumption) (redirectUrl_not_panic hp)
    · simp at hx
    split at hx
    · simp at hx
    split at hx
    · rw [h.tokenstateReplace he] at hx
      simp [h.put_account ha] at hx
    split at hx
    · simp at hx
    rw [h.tokenstate he, hpd] at hx
    simp at hx
  | httpAnswer b => simp [exec] at hx
  | exSend c k => simp [exec] at hx
  | exAwait c k =>
    simp only [exec, execExAwait] at hx
    cases hn : inp.net <;> simp [hn] at hx
  | exSleep c k wake =>
    simp only [exec, execExSleep] at hx
    split at hx
    · simp at hx
    · split at hx <;> simp at hx
  | exDone c b =>
    simp only [exec, execExDone] at hx
    rcases h.validCases c.id with ⟨hv, _⟩ | ⟨hv, e, a, ha, hid⟩
    · simp [hv] at hx
    rw [← hid] at hv hx
    simp only [hv, Bool.not_true, Bool.false_eq_true, if_false] at hx
    split at hx
    · simp at hx
    split at hx
    · rename_i x tok _ _ _
      obtain ⟨r, hr, _⟩ := h.expiryInstant ha now x
      rw [hr] at hx
      cases r with
      | none => simp at hx
      | some t => simp [h.account ha, h.tokenstateReplace ha.1] at hx
    · simp at hx
  | fail id m =>
    simp only [exec, execFail] at hx
    rcases h.validCases id with ⟨hv, _⟩ | ⟨hv, e, a, ha, rfl⟩
    · simp [hv] at hx
    simp [hv, h.tokenstate ha.1, h.tokenstateReplace ha.1, h.put_account ha] at hx
  | rfStart id =>
    simp only [exec, execRfStart] at hx
    rcases h.validCases id with ⟨hv, _⟩ | ⟨hv, e, a, ha, rfl⟩
    · simp [hv] at hx
    simp only [hv, if_true, h.tokenstate ha.1] at hx
    cases hts : e.ts with
    | empty => simp [hts] at hx
    | pending p => simp [hts] at hx
    | active t =>
      simp only [hts] at hx
      cases ho : t.ongoing with
      | true => simp [ho] at hx
      | false =>
        simp only [ho, Bool.false_eq_true, if_false, h.tokenstateReplace ha.1, h.put_account ha,
          h.put_tokenstate ha.1] at hx
        have : ∀ ts, (ls.bump.put e.id ts).account (ls.accountCount + 1) = some a :=
          h.bump.put_account (e := e) (a := a) ha
        cases hr : t.refreshToken with
        | none => simp [hr, h.put_replace ha.1] at hx
        | some r => simp [hr, h.put_replace ha.1, this] at hx
  | rfSend c => simp [exec] at hx
  | rfAwait c => simp [exec, execRfAwait] at hx
  | rfPerm c =>
    simp only [exec, execRfPerm] at hx
    rcases h.validCases c.id with ⟨hv, _⟩ | ⟨hv, e, a, ha, hid⟩
    · simp [hv] at hx
    rw [← hid] at hv hx
    simp [hv, h.tokenstateReplace ha.1] at hx
  | rfNow c tok x rt => simp [exec] at hx
  | rfStore c tok x rt t =>
    simp only [exec, execRfStore] at hx
    rcases h.validCases c.id with ⟨hv, _⟩ | ⟨hv, e, a, ha, hid⟩
    · simp [hv] at hx
    rw [← hid] at hv hx
    obtain ⟨r, hr, _⟩ := h.expiryInstant ha t x
    cases r <;> simp [hv, hr, h.tokenstateReplace ha.1] at hx
  | rfTransient c =>
    simp only [exec, execRfTransient] at hx
    rcases h.validCases c.id with ⟨hv, _⟩ | ⟨hv, e, a, ha, hid⟩
    · simp [hv] at hx
    obtain ⟨t, hts, _⟩ := hop.2 e a ha hid
    rw [← hid] at hv hx
    simp only [hv, if_true, h.tokenstate ha.1, hts, h.tokenstateReplace ha.1,
      LockedState.tokenstateSetOngoingRefresh, h.put_tokenstate ha.1, h.put_replace ha.1, LockedState.put_config] at hx
    split at hx
    · cases hc : ls.config.transientErrorIfCmd <;> simp [hc] at hx
    · simp at hx
  | rfCmd id act cmd => simp [exec] at hx
  | rfCmdWait id act => simp [exec] at hx
  | rfCmdOk id =>
    simp only [exec, execRfCmdOk] at hx
    rcases h.validCases id with ⟨hv, _⟩ | ⟨hv, e, a, ha, rfl⟩
    · simp [hv] at hx
    obtain ⟨t, hts, _⟩ := hop.2 e a ha rfl
    simp [hv, LockedState.tokenstateSetOngoingRefresh, h.tokenstate ha.1, hts, h.tokenstateReplace ha.1] at hx
  | rfCmdErr id act =>
    simp only [exec, execRfCmdErr] at hx
    rcases h.validCases id with ⟨hv, _⟩ | ⟨hv, e, a, ha, rfl⟩
    · simp [hv] at hx
    simp [hv, h.tokenstateReplace ha.1] at hx

/-- A reachable process aborts only while answering `status`. -/
theorem Reach.panic {E : Env} {w : World} (hr : Reach E w) {tid : Nat} {inp : Input} {op : Op}
    {rest : List Op} (ht : w.threads tid = op :: rest)
    (hx : exec E w.st w.now w.wall w.ls tid op inp = .panic) :
    ∃ buf, op = .unix buf ∧ parseReq buf = .status ∧ statusReply E w.now w.wall w.ls = none := by
  have h0 := hr.inv0
  refine exec_panic h0.wf h0.ports ?_ (Reach.opsInv w hr tid op (by rw [ht]; simp)) hx
  rintro c rfl
  exact h0.inst tid c (by rw [ht]; simp)

end Pizauth
