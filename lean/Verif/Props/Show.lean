import Verif.Proof.Requests
import Verif.Props.Demo

/-!
# C10, C11: `show` and `refresh`
-/

namespace Pizauth
open LockedState

variable {E : Env}

/-! ## C10 -/

/-- The redirect URI of an account of a running daemon can be computed. -/
theorem redirectUrl_ok (hl : HostLaw E) {w : World} (hr : Reach E w) {n : String} {a : Account}
    (ha : w.ls.config.get? n = some a) : ∃ x, a.redirectUrl E w.st.httpPort w.st.httpsPort = .ok x := by
  have h0 := hr.inv0
  have hm := mem_of_lookup ha
  obtain ⟨_, hu, _⟩ := h0.conf.uris _ hm
  simp only [Env.isHttpUri] at hu
  have hp : w.st.httpPort.isSome || w.st.httpsPort.isSome := by simpa using h0.ports
  cases hpar : E.parseUrl a.redirectUri with
  | none => simp [hpar] at hu
  | some u =>
    simp only [hpar, Bool.or_eq_true, beq_iff_eq] at hu
    obtain ⟨host, hh, hne⟩ := hl _ _ hpar hu
    have hset : ∀ p, ∃ x, u.setPort p = some x := by
      intro p
      have hf : u.scheme ≠ "file" := by rcases hu with h | h <;> rw [h] <;> decide
      unfold Url.setPort
      simp only [hh, Option.isNone_some, Option.some.injEq, Bool.or_eq_true, decide_eq_true_eq, hne, hf,
        Bool.false_eq_true, or_self, if_false]
      split <;> exact ⟨_, rfl⟩
    unfold Account.redirectUrl
    simp only [hp, if_true, hpar]
    split
    · obtain ⟨x, hx⟩ := hset w.st.httpsPort
      exact ⟨x, by rw [hx]⟩
    · obtain ⟨x, hx⟩ := hset w.st.httpPort
      exact ⟨x, by rw [hx]⟩

theorem authUrl_ok (hl : HostLaw E) {w : World} (hr : Reach E w) {n : String} {a : Account}
    (ha : w.ls.config.get? n = some a) (inp : Input) : ∃ url, AuthUrl E w.st a inp url := by
  obtain ⟨x, hx⟩ := redirectUrl_ok hl hr ha
  obtain ⟨hu, _, _⟩ := hr.inv0.conf.uris _ (mem_of_lookup ha)
  simp only [Env.isHttpUri] at hu
  cases hpar : E.parseUrl a.authUri with
  | none => simp [hpar] at hu
  | some u => exact ⟨_, x, hx, by simp only [Env.parseWithParams, hpar, Option.map_some]; rfl⟩

/-- **C10.** `show n` for an account which holds nothing creates a fresh authorisation request, made of this request's
random bytes, and goes on to report its URL. (If http URLs have hosts, as the URL standard says. Otherwise the port of
the redirect URI may not be settable, and there is no answer.) -/
theorem C10_start (hl : HostLaw E) {w w' : World} {inp : Input} {buf : Bytes} {u : Bool} {n : String} (hr : Reach E w)
    (ht : w.threads 0 = [.unix buf, .close]) (hp : parseReq buf = .showtoken u n) (hn : HoldsNothing w.ls n)
    (hs : w.step E (.run 0 inp) = some w') :
    ∃ p, HoldsPending w'.ls n p ∧ p.state = b64 inp.rndState.toList ∧ p.codeVerifier = b64 inp.rndVerifier.toList ∧
      p.lastNotification = none ∧
      w'.threads 0 = [.wakeNotifier, .reply (if u then utf8 ("pending:" ++ E.renderUrl p.url) else utf8 "pending:"), .close] := by
  have h0 := hr.inv0
  obtain ⟨e1, he1, hn1, hts1⟩ := hn
  obtain ⟨f, hx, rfl⟩ := hr.handled ht hs (by rw [hp]; simp)
  have same : ∀ {e a}, w.ls.Has e a → e.name = n → e = e1 := fun ha hn =>
    h0.wf.entry_name_inj ha.1 he1 (hn.trans hn1.symm)
  cases hx.show hp with
  | unknown h => exact absurd hn1 (h e1 he1)
  | auth ha hn hts hurl =>
    subst hn
    refine ⟨_, ⟨_, mem_put_new ha.1 rfl, rfl, rfl⟩, rfl, rfl, rfl, ?_⟩
    rw [apply_threads_self h0.tid0]; rfl
  | authErr ha hn hts hurl =>
    obtain ⟨url, hu⟩ := authUrl_ok hl hr ha.2 inp
    exact absurd hu (hurl url)
  | pending ha hn hts => rw [same ha hn, hts1] at hts; cases hts
  | tok ha hn hts => rw [same ha hn, hts1] at hts; cases hts
  | ongoing ha hn hts => rw [same ha hn, hts1] at hts; cases hts
  | expired ha hn hts => rw [same ha hn, hts1] at hts; cases hts

/-- **C10.** `show n` for an account with an outstanding authorisation request changes nothing (no account, no thread, no
event), and goes on to report that request's URL. -/
theorem C10_again {w w' : World} {inp : Input} {buf : Bytes} {u : Bool} {n : String} {p : PendingTok} (hr : Reach E w)
    (ht : w.threads 0 = [.unix buf, .close]) (hp : parseReq buf = .showtoken u n) (hn : HoldsPending w.ls n p)
    (hs : w.step E (.run 0 inp) = some w') :
    w' = { w with
      threads := setThread w.threads 0
        [.reply (if u then utf8 ("pending:" ++ E.renderUrl p.url) else utf8 "pending:"), .close] } := by
  have h0 := hr.inv0
  obtain ⟨e1, he1, hn1, hts1⟩ := hn
  obtain ⟨f, hx, rfl⟩ := hr.handled ht hs (by rw [hp]; simp)
  have same : ∀ {e a}, w.ls.Has e a → e.name = n → e = e1 := fun ha hn =>
    h0.wf.entry_name_inj ha.1 he1 (hn.trans hn1.symm)
  cases hx.show hp with
  | unknown h => exact absurd hn1 (h e1 he1)
  | auth ha hn hts => rw [same ha hn, hts1] at hts; cases hts
  | authErr ha hn hts => rw [same ha hn, hts1] at hts; cases hts
  | pending ha hn hts =>
    rw [same ha hn, hts1] at hts
    cases hts
    simp [World.apply, spawnAll, pendingReply]
  | tok ha hn hts => rw [same ha hn, hts1] at hts; cases hts
  | ongoing ha hn hts => rw [same ha hn, hts1] at hts; cases hts
  | expired ha hn hts => rw [same ha hn, hts1] at hts; cases hts

/-- **C10.** `show`, `refresh` or `revoke` of an unknown account change nothing and go on to report an error. -/
theorem C10_unknown {w w' : World} {inp : Input} {buf : Bytes} {n : String} (hr : Reach E w)
    (ht : w.threads 0 = [.unix buf, .close])
    (hp : (∃ u, parseReq buf = .showtoken u n) ∨ (∃ u, parseReq buf = .refresh u n) ∨ parseReq buf = .revoke n)
    (hn : w.ls.config.get? n = none) (hs : w.step E (.run 0 inp) = some w') :
    w' = { w with threads := setThread w.threads 0 [.reply (utf8 ("error:No account '" ++ n ++ "'")), .close] } := by
  have h0 := hr.inv0
  have hno : ∀ e ∈ w.ls.details, e.name ≠ n := by
    rintro e he rfl
    obtain ⟨a, ha⟩ := h0.wf.has he
    rw [ha.2] at hn; cases hn
  obtain ⟨f, hx, rfl⟩ := hr.handled ht hs (by rcases hp with ⟨u, h⟩ | ⟨u, h⟩ | h <;> rw [h] <;> simp)
  have hf : f = { ls := w.ls, next := [.reply (noAccountReply n)] } := by
    rcases hp with ⟨u, hp⟩ | ⟨u, hp⟩ | hp
    · cases hx.show hp with
      | unknown _ => rfl
      | auth ha hn => exact absurd hn (hno _ ha.1)
      | authErr ha hn => exact absurd hn (hno _ ha.1)
      | pending ha hn => exact absurd hn (hno _ ha.1)
      | tok ha hn => exact absurd hn (hno _ ha.1)
      | ongoing ha hn => exact absurd hn (hno _ ha.1)
      | expired ha hn => exact absurd hn (hno _ ha.1)
    · cases hx.refreshReq hp with
      | unknown _ => rfl
      | auth ha hn => exact absurd hn (hno _ ha.1)
      | authErr ha hn => exact absurd hn (hno _ ha.1)
      | sched ha hn => exact absurd hn (hno _ ha.1)
    · rcases hx.revokeReq hp with ⟨_, h⟩ | ⟨e, a, ha, hn, _⟩
      · exact h
      · exact absurd hn (hno _ ha.1)
  rw [hf]
  simp [World.apply, spawnAll, noAccountReply]

/-- Account `n` has an outstanding authorisation request. -/
def Outstanding (n : String) (w : World) : Prop := ∃ p, HoldsPending w.ls n p

/-- The request being handled is not `refresh n`. -/
def NotRefreshing (n : String) (w : World) : Prop := ∀ buf u, .unix buf ∈ w.threads 0 → parseReq buf ≠ .refresh u n

/-- A step replaces an outstanding authorisation request by another one only if it handles `refresh n`. -/
theorem C10_keep {w w' : World} {act : Action} {n : String} {p p' : PendingTok} (hr : Reach E w)
    (hp : HoldsPending w.ls n p) (hn : NotRefreshing n w) (hs : w.step E act = some w')
    (hp' : HoldsPending w'.ls n p') : p'.url = p.url ∧ p'.state = p.state ∧ p'.codeVerifier = p.codeVerifier := by
  have h0 := hr.inv0
  replace hs := (stepR_of_step h0.wf hs).2
  obtain ⟨e, he, rfl, hts⟩ := hp
  obtain ⟨e', he', hn', hts'⟩ := hp'
  rcases hs.pending_back hr he' hts' with h1 | ⟨e1, he1, p1, _, hn1, hts1, rfl⟩ |
      ⟨inp, buf, u, e1, a, url, _, ht, hea, hn1, hre, _, _, _, _⟩
  · rw [h0.wf.entry_name_inj h1 he hn', hts] at hts'
    cases hts'
    exact ⟨rfl, rfl, rfl⟩
  · rw [h0.wf.entry_name_inj he1 he (hn1.trans hn'), hts] at hts1
    cases hts1
    exact ⟨rfl, rfl, rfl⟩
  · have := h0.wf.entry_name_inj hea.1 he (hn1.trans hn')
    subst this
    rcases hre with ⟨_, h⟩ | ⟨h, _⟩
    · rw [hts] at h; cases h
    · exact absurd h (hn buf u (by rw [ht]; simp))

/-- **C10.** As long as an authorisation request is outstanding and the user does not ask for a new one with
`refresh n`, it stays the very same request: same URL, state and code verifier. -/
theorem C10_same {w w' : World} {n : String} {p p' : PendingTok} (hr : Reach E w) (hp : HoldsPending w.ls n p)
    (hs : StepsWhile E (fun w => Outstanding n w ∧ NotRefreshing n w) w w') (hp' : HoldsPending w'.ls n p') :
    p'.url = p.url ∧ p'.state = p.state ∧ p'.codeVerifier = p.codeVerifier := by
  induction hs generalizing p' with
  | refl _ =>
    obtain ⟨e, he, rfl, hts⟩ := hp
    obtain ⟨e', he', hn', hts'⟩ := hp'
    rw [hr.inv0.wf.entry_name_inj he' he hn', hts] at hts'
    cases hts'
    exact ⟨rfl, rfl, rfl⟩
  | @step w1 w2 a hs1 hst hq ih =>
    obtain ⟨⟨p1, hp1⟩, hnr⟩ := hs1.last
    obtain ⟨h1, h2, h3⟩ := ih hp1
    obtain ⟨h4, h5, h6⟩ := C10_keep (hs1.steps.reach hr) hp1 hnr hst hp'
    exact ⟨h4.trans h1, h5.trans h2, h6.trans h3⟩

/-- **C10.** Hence all `show n --withurl` requests handled while it is outstanding report the same URL. -/
theorem C10_same_url {w w1 w2 : World} {n : String} {p : PendingTok} {buf : Bytes} {u : Bool} {inp : Input}
    (hr : Reach E w) (hp : HoldsPending w.ls n p)
    (hs : StepsWhile E (fun w => Outstanding n w ∧ NotRefreshing n w) w w1)
    (ht : w1.threads 0 = [.unix buf, .close]) (hreq : parseReq buf = .showtoken u n)
    (h1 : w1.step E (.run 0 inp) = some w2) :
    w2.ls = w1.ls ∧
      w2.threads 0 = [.reply (if u then utf8 ("pending:" ++ E.renderUrl p.url) else utf8 "pending:"), .close] := by
  obtain ⟨⟨p1, hp1⟩, _⟩ := hs.last
  have := C10_again (hs.steps.reach hr) ht hreq hp1 h1
  rw [this, (C10_same hr hp hs hp1).1]
  exact ⟨rfl, by simp only [setThread_same]⟩

/-! ## C11 -/

theorem pendingReply_no_url (url : Url) : pendingReply E false url = utf8 "pending:" := rfl

theorem ShowR.reply {S : Static} {now : Instant} {ls : LockedState} {n : String} {inp : Input} {f : Eff} {b : Bytes}
    (h : ShowR E S now ls false n inp f) (hb : .reply b ∈ f.next) (hh : b.head? = some 112) : b = utf8 "pending:" := by
  have no : ∀ {x : Bytes} {y : UInt8}, x.head? = some y → y ≠ 112 → b = x → b = utf8 "pending:" := by
    rintro x y hx hy rfl; rw [hx] at hh; cases hh; exact absurd rfl hy
  cases h <;> simp at hb
  · exact no (noAccountReply_head _) (by decide) hb
  · rw [pendingReply_no_url] at hb; exact hb
  · rw [pendingReply_no_url] at hb; exact hb
  · exact no (tokReply_head _) (by decide) hb
  · exact no (y := 101) (by decide +kernel) (by decide) hb
  · exact no (y := 101) (by decide +kernel) (by decide) hb

theorem RefreshR.reply {S : Static} {ls : LockedState} {n : String} {inp : Input} {f : Eff} {b : Bytes}
    (h : RefreshR E S ls false n inp f) (hb : .reply b ∈ f.next) (hh : b.head? = some 112) : b = utf8 "pending:" := by
  have no : ∀ {x : Bytes} {y : UInt8}, x.head? = some y → y ≠ 112 → b = x → b = utf8 "pending:" := by
    rintro x y hx hy rfl; rw [hx] at hh; cases hh; exact absurd rfl hy
  cases h <;> simp at hb
  · exact no (noAccountReply_head _) (by decide) hb
  · rw [pendingReply_no_url] at hb; exact hb
  · exact no (y := 115) (by decide +kernel) (by decide) hb

/-- **C11.** The answers to `show` and `refresh` without the `withurl` flag: the only one which says that an
authorisation is pending (the only one beginning with `p`) says nothing else. -/
theorem C11 {w : World} {buf b : Bytes} {n : String} (h : Answers E w buf b)
    (hp : parseReq buf = .showtoken false n ∨ parseReq buf = .refresh false n) (hb : b.head? = some 112) :
    b = utf8 "pending:" := by
  obtain ⟨t, wd, inp, f, hd, hm, _⟩ := h.decided
  rcases hp with hp | hp
  · exact (hd.exec.show hp).reply hm hb
  · exact (hd.exec.refreshReq hp).reply hm hb

/-- **C11.** The answer to such a request does not depend on any URL: it is the account's token, or one of these
texts. -/
theorem C11_all {w : World} {buf b : Bytes} {n : String} (h : Answers E w buf b)
    (hp : parseReq buf = .showtoken false n ∨ parseReq buf = .refresh false n) :
    b = utf8 ("error:No account '" ++ n ++ "'") ∨ b = utf8 "pending:" ∨ b = utf8 "scheduled:" ∨
    b = utf8 "error:Access token has expired. Refreshing is in progress but has not yet succeeded" ∨
    b = utf8 "error:Access token has expired. Refreshing initiated" ∨
    ∃ wd t, Reach E wd ∧ Steps E wd w ∧ lastRequest wd.log = lastRequest w.log ∧ HoldsToken wd.ls n t ∧
      wd.now < t.expiry ∧ b = utf8 ("access_token:" ++ t.accessToken) := by
  obtain ⟨_, wd, inp, f, hd, hm, _, hreq⟩ := h.decided_at
  rcases hp with hp | hp
  · cases hd.exec.show hp <;> simp at hm
    · exact .inl hm
    · exact .inr (.inl hm)
    · exact .inr (.inl hm)
    · rename_i e a t ha hn hts hx
      exact .inr (.inr (.inr (.inr (.inr ⟨wd, t, hd.reach, hd.allSteps, hd.req.trans hreq.symm,
        ⟨e, ha.1, hn, hts⟩, hx, hm⟩))))
    · exact .inr (.inr (.inr (.inl hm)))
    · exact .inr (.inr (.inr (.inr (.inl hm))))
  · cases hd.exec.refreshReq hp <;> simp at hm
    · exact .inl hm
    · exact .inr (.inl hm)
    · exact .inr (.inr (.inl hm))

/-! ## Concrete cases -/

namespace Demo

theorem hostLaw : HostLaw env := by
  intro s u h _
  have key : ∀ x ∈ urls, x.2.host.isSome = true ∧ x.2.host ≠ some "" := by decide +kernel
  obtain ⟨h1, h2⟩ := key _ (mem_of_lookup (show urls.lookup s = some u from h))
  cases hh : u.host with
  | none => simp [hh] at h1
  | some x => exact ⟨x, rfl, fun hx => h2 (by simp [hh, hx])⟩

def showA_nourl : Bytes := Cmd.wire (.show "a" false)

/-- C10: `show a` at the beginning starts an authorisation … -/
example : HoldsNothing (after [.connect showA]).ls "a" ∧ parseReq showA = .showtoken true "a" ∧
    (after [.connect showA]).threads 0 = [.unix showA, .close] ∧
    ((after [.connect showA]).step env (.run 0 {})).isSome = true ∧
    ∃ p, HoldsPending (after sAsk).ls "a" p :=
  ⟨⟨⟨"a", 0, .empty⟩, by decide +kernel, rfl, rfl⟩, by decide +kernel, rfl, by decide +kernel, _,
    _, List.mem_cons_self, rfl, rfl⟩

/-- … and a second one reports the same URL. -/
example : ∃ url, Answers env (after ([.connect showA] ++ n0 2)) showA (utf8 ("pending:" ++ url)) ∧
    Answers env (after (sAsk ++ [.connect showA, .run 0 {}])) showA (utf8 ("pending:" ++ url)) :=
  ⟨"https://as/auth?access_type=offline&code_challenge=" ++
    codeChallenge env (b64 (Vector.replicate 64 0).toList) ++
    "&code_challenge_method=S256&client_id=id&redirect_uri=http://localhost:8080/&response_type=code" ++
    "&state=AAAAAAAAAAA&scope=s1 s2&prompt=consent",
   answers_of (t := 0) (t' := 0) (after_reach _) (by decide +kernel) (by decide +kernel),
   answers_of (t := 0) (t' := 0) (after_reach _) (by decide +kernel) (by decide +kernel)⟩

/-- C10: an unknown account. -/
example : (after [.connect (Cmd.wire (.revoke "x"))]).ls.config.get? "x" = none ∧
    parseReq (Cmd.wire (.revoke "x")) = .revoke "x" ∧
    ((after [.connect (Cmd.wire (.revoke "x"))]).step env (.run 0 {})).isSome = true := by decide +kernel

/-- C11: without the flag there is no URL. -/
example : parseReq showA_nourl = .showtoken false "a" ∧
    Answers env (after ([.connect showA_nourl] ++ n0 2)) showA_nourl (utf8 "pending:") :=
  ⟨by decide +kernel, answers_of (t := 0) (t' := 0) (after_reach _) (by decide +kernel) (by decide +kernel)⟩

end Demo
end Pizauth
