import Verif.Spec.Expiry
import Verif.Proof.Reload
import Verif.Props.Demo

/-!
# C01, C02, C05, C09: which tokens are handed out
-/

namespace Pizauth
open LockedState

variable {E : Env}

/-- Right after start-up no account holds anything and nothing is being answered. -/
theorem IsInit.empty {w : World} (h : IsInit E w) : ∀ e ∈ w.ls.details, e.ts = .empty := by
  intro e he
  have h1 := h.ls
  rw [h1] at he
  exact (newDetails_mem _ _ e he).2.2

/-- **C01.** Whenever `pizauth show n` is answered with a token, the log shows that the token was obtained for `n`
as it is configured at that moment (up to refresh timing). -/
theorem C01_shown {w : World} {buf : Bytes} {u : Bool} {n tok : String}
    (h : Answers E w buf (utf8 ("access_token:" ++ tok))) (hp : parseReq buf = .showtoken u n) :
    ∃ a i, w.ls.config.get? n = some a ∧ i.tok = tok ∧ Lineage E w.st n a w.log i := by
  obtain ⟨w0, hi, hs⟩ := h.reach.steps
  obtain ⟨L, hl, hsin, hsh⟩ := shown_since (n := n) (.init hi) (fun e he _ => hi.empty e he)
    (by intro b; rw [hi.threads 0]; simp) (by intro b; rw [hi.threads 0]; simp) hs
  rw [hi.log, List.append_nil] at hl
  obtain ⟨t, wd, inp, f, hd, hm1, hm2⟩ := h.decided
  obtain ⟨t', hreq⟩ := h.request
  obtain ⟨a, i, td, h1, h2, h3, _⟩ := hsh t' buf u tok hreq hp hm2
  exact ⟨a, i, h1, h2, hl ▸ h3⟩

/-- **C01**, for the daemon's own record, which is also what goes into a dump. -/
theorem C01_stored {w : World} {n : String} {t : ActiveTok} (hr : Reach E w) (h : HoldsToken w.ls n t) :
    ∃ a, w.ls.config.get? n = some a ∧ Lineage E w.st n a w.log t.info := by
  obtain ⟨w0, hi, hs⟩ := hr.steps
  obtain ⟨L, hl, hsin⟩ := since_of_steps (n := n) (.init hi) (fun e he _ => hi.empty e he)
    (by intro b; rw [hi.threads 0]; simp) hs
  rw [hi.log, List.append_nil] at hl
  obtain ⟨e, he, hn, hts⟩ := h
  obtain ⟨a, ha⟩ := hr.inv0.wf.has he
  have := hsin.entries e a ha hn
  unfold EntrySince at this
  rw [hts] at this
  refine ⟨a, hn ▸ ha.2, ?_⟩
  rw [hl]; exact this

/-- **C02.** After `pizauth revoke n` has been answered with success, every token shown for `n` was obtained from
scratch after that: the client's request to authorise `n`, and all POSTs (or the restored dump), are in the part
`L` of the log written since. -/
theorem C02_shown {w0 w : World} {buf0 buf : Bytes} {u : Bool} {n tok : String}
    (h0 : Answers E w0 buf0 (utf8 "ok:")) (hp0 : parseReq buf0 = .revoke n) (hs : Steps E w0 w)
    (h : Answers E w buf (utf8 ("access_token:" ++ tok))) (hp : parseReq buf = .showtoken u n) :
    ∃ L a i, w.log = L ++ w0.log ∧ w.ls.config.get? n = some a ∧ i.tok = tok ∧ Lineage E w.st n a L i := by
  obtain ⟨t0, hreq0⟩ := h0.request
  obtain ⟨_, _, _, _, _, _, hm0⟩ := h0.decided
  obtain ⟨_, hempty⟩ := Reach.revoked w0 h0.reach t0 buf0 n hreq0 hp0 hm0
  obtain ⟨L, hl, hsin, hsh⟩ := shown_since (n := n) h0.reach hempty (h0.reach.no_unix hm0)
    (by
      intro tok' hm
      have := h0.reach.revoked_threads hreq0 hp0 hm0 _ hm
      exact ne_of_head (tokReply_head tok') (y := 111) (by decide +kernel) (by decide) this) hs
  obtain ⟨t, wd, inp, f, hd, hm1, hm2⟩ := h.decided
  obtain ⟨t', hreq⟩ := h.request
  obtain ⟨a, i, td, h1, h2, h3, _⟩ := hsh t' buf u tok hreq hp hm2
  exact ⟨L, a, i, hl, h1, h2, h3⟩

/-- **C02**, for the daemon's own record: nothing in flight at the time of the revoke brings a token back. -/
theorem C02_stored {w0 w : World} {buf0 : Bytes} {n : String} {t : ActiveTok}
    (h0 : Answers E w0 buf0 (utf8 "ok:")) (hp0 : parseReq buf0 = .revoke n) (hs : Steps E w0 w)
    (h : HoldsToken w.ls n t) :
    ∃ L a, w.log = L ++ w0.log ∧ w.ls.config.get? n = some a ∧ Lineage E w.st n a L t.info := by
  obtain ⟨t0, hreq0⟩ := h0.request
  obtain ⟨_, _, _, _, _, _, hm0⟩ := h0.decided
  obtain ⟨_, hempty⟩ := Reach.revoked w0 h0.reach t0 buf0 n hreq0 hp0 hm0
  obtain ⟨L, hl, hsin⟩ := since_of_steps (n := n) h0.reach hempty (h0.reach.no_unix hm0) hs
  obtain ⟨e, he, hn, hts⟩ := h
  obtain ⟨a, ha⟩ := (hs.reach h0.reach).inv0.wf.has he
  have := hsin.entries e a ha hn
  unfold EntrySince at this
  rw [hts] at this
  exact ⟨L, a, hl, hn ▸ ha.2, this⟩

/-- **C02**: at the moment at which a successful revoke is answered, the account exists and holds nothing. -/
theorem C02_now {w : World} {buf : Bytes} {n : String} (h : Answers E w buf (utf8 "ok:"))
    (hp : parseReq buf = .revoke n) : HoldsNothing w.ls n := by
  obtain ⟨t0, hreq0⟩ := h.request
  obtain ⟨_, _, _, _, _, _, hm0⟩ := h.decided
  obtain ⟨⟨a, ha⟩, hempty⟩ := Reach.revoked w h.reach t0 buf n hreq0 hp hm0
  obtain ⟨e, he, hn⟩ := h.reach.inv0.wf.entry_of_get? ha
  exact ⟨e, he, hn, hempty e he hn⟩

/-- After a reload an account which was changed in a security-relevant way holds nothing. -/
theorem Reloads.changed_empty {w0 w1 : World} {c : Config} {n : String} (h : Reloads E w0 c w1)
    (hc : SecChanged w0.ls.config c n) : ∀ e ∈ w1.ls.details, e.name = n → e.ts = .empty := by
  obtain ⟨_, hu, hok, _⟩ := h.state
  obtain ⟨ls'', h1, h2, h3, h4, h5⟩ := h.reach.inv0.wf.updateConf hok.nodup hok.names
  rw [hu] at h1
  cases h1
  intro e he hn
  obtain ⟨a, ha, ⟨o, ho, hsec⟩ | ⟨_, hts, _⟩⟩ := h5 e he
  · exact absurd hsec.symm (hc o a (hn ▸ ho.2) (hn ▸ ha))
  · exact hts

/-- **C05.** If a reload changes account `n` in a security-relevant way (or adds or removes it), then every token
shown for `n` later was obtained from scratch after the reload. -/
theorem C05_shown {w0 w1 w : World} {c : Config} {buf : Bytes} {u : Bool} {n tok : String}
    (h0 : Reloads E w0 c w1) (hc : SecChanged w0.ls.config c n) (hs : Steps E w1 w)
    (h : Answers E w buf (utf8 ("access_token:" ++ tok))) (hp : parseReq buf = .showtoken u n) :
    ∃ L a i, w.log = L ++ w1.log ∧ w.ls.config.get? n = some a ∧ i.tok = tok ∧ Lineage E w.st n a L i := by
  obtain ⟨hr, _, _, _, _, _, hth, _⟩ := h0.state
  obtain ⟨L, hl, hsin, hsh⟩ := shown_since (n := n) hr (h0.changed_empty hc) (by intro b; rw [hth]; simp)
    (by
      intro tok' hm
      rw [hth] at hm
      simp at hm
      exact ne_of_head (tokReply_head tok') (y := 111) (by decide +kernel) (by decide) hm) hs
  obtain ⟨t, wd, inp, f, hd, hm1, hm2⟩ := h.decided
  obtain ⟨t', hreq⟩ := h.request
  obtain ⟨a, i, td, h1, h2, h3, _⟩ := hsh t' buf u tok hreq hp hm2
  exact ⟨L, a, i, hl, h1, h2, h3⟩

/-- **C05**, for the daemon's own record: no authentication or refresh started before the reload stores a token
afterwards. -/
theorem C05_stored {w0 w1 w : World} {c : Config} {n : String} {t : ActiveTok}
    (h0 : Reloads E w0 c w1) (hc : SecChanged w0.ls.config c n) (hs : Steps E w1 w) (h : HoldsToken w.ls n t) :
    ∃ L a, w.log = L ++ w1.log ∧ w.ls.config.get? n = some a ∧ Lineage E w.st n a L t.info := by
  obtain ⟨hr, _, _, _, _, _, hth, _⟩ := h0.state
  obtain ⟨L, hl, hsin⟩ := since_of_steps (n := n) hr (h0.changed_empty hc) (by intro b; rw [hth]; simp) hs
  obtain ⟨e, he, hn, hts⟩ := h
  obtain ⟨a, ha⟩ := (hs.reach hr).inv0.wf.has he
  have := hsin.entries e a ha hn
  unfold EntrySince at this
  rw [hts] at this
  exact ⟨L, a, hl, hn ▸ ha.2, this⟩

/-- **C09.** A token is only shown if it expires after some moment `td` at which the daemon looked at it while
handling this very request. Where the expiry comes from is part of the `Lineage`. -/
theorem C09_shown {w : World} {buf : Bytes} {u : Bool} {n tok : String} {t : Instant}
    (h : Answers E w buf (utf8 ("access_token:" ++ tok))) (hp : parseReq buf = .showtoken u n)
    (hreq : lastRequest w.log = some (t, buf)) :
    ∃ a i td, w.ls.config.get? n = some a ∧ i.tok = tok ∧ Lineage E w.st n a w.log i ∧
      t ≤ td ∧ td ≤ w.now ∧ td < i.expiry := by
  obtain ⟨w0, hi, hs⟩ := h.reach.steps
  obtain ⟨L, hl, hsin, hsh⟩ := shown_since (n := n) (.init hi) (fun e he _ => hi.empty e he)
    (by intro b; rw [hi.threads 0]; simp) (by intro b; rw [hi.threads 0]; simp) hs
  rw [hi.log, List.append_nil] at hl
  obtain ⟨_, _, _, _, _, _, hm2⟩ := h.decided
  obtain ⟨a, i, td, h1, h2, h3, h4⟩ := hsh t buf u tok hreq hp hm2
  exact ⟨a, i, td, h1, h2, hl ▸ h3, h4⟩

/-- **C09.** More precisely: at some moment at which this request was already the last one, the account held this token,
it was not expired, and its expiry was the one its `Lineage` says. -/
theorem C09_held {w : World} {buf : Bytes} {u : Bool} {n tok : String}
    (h : Answers E w buf (utf8 ("access_token:" ++ tok))) (hp : parseReq buf = .showtoken u n) :
    ∃ wd t a, Reach E wd ∧ Steps E wd w ∧ lastRequest wd.log = lastRequest w.log ∧ HoldsToken wd.ls n t ∧
      t.accessToken = tok ∧ wd.now < t.expiry ∧ wd.ls.config.get? n = some a ∧ Lineage E wd.st n a wd.log t.info := by
  obtain ⟨_, wd, inp, f, hd, hm, _, hreq⟩ := h.decided_at
  obtain ⟨e, a, t, ha, hn, hts, hx, htok, _⟩ := hd.exec.tok_reply hp hm
  have ht : HoldsToken wd.ls n t := ⟨e, ha.1, hn, hts⟩
  obtain ⟨a', ha', hl⟩ := C01_stored hd.reach ht
  exact ⟨wd, t, a', hd.reach, hd.allSteps, hd.req.trans hreq.symm, ht, htok, hx, ha', hl⟩

theorem expiryRule_of {ls : LockedState} {a : Account} {now : Instant} {x : Nat} {expiry : Instant}
    (h : ExpiryAt ls a now x (some expiry)) : ExpiryRule ls.config a now x expiry := by
  unfold ExpiryAt checkedAdd at h
  have hs : ((secs x : Nat) : Int) = (x : Int) * 1000000000 := by simp [secs, nsPerSec]
  rw [hs] at h
  unfold ExpiryRule
  by_cases hc : now + (x : Int) * 1000000000 ≤ timeMax
  · simp only [hc, if_true, Option.some.injEq] at h ⊢; exact h
  · simp only [hc, if_false] at h ⊢
    split at h
    · exact Option.some.inj h
    · cases h

/-- **C09.** Whenever a step gives account `n` another token or another expiry, the step restores a dump, or it
evaluates a token server's answer and the expiry follows from `expires_in`. -/
theorem C09_expiry {w w' : World} {act : Action} {n : String} {t : ActiveTok} (hr : Reach E w)
    (hs : w.step E act = some w') (h : HoldsToken w'.ls n t)
    (hnew : ∀ t', HoldsToken w.ls n t' → t'.info ≠ t.info) :
    (∃ plain, w'.log = (w.now, .restored plain) :: w.log) ∨
    ∃ a x, w.ls.config.get? n = some a ∧ ExpiryRule w.ls.config a t.obtained x t.expiry ∧
      ((∃ tid c b, (w.threads tid).head? = some (.exDone c b) ∧ b.u64 "expires_in" = some x) ∨
       (∃ tid c rt, (w.threads tid).head? = some (.rfStore c t.accessToken x rt t.obtained))) := by
  have h0 := hr.inv0
  have hs := (stepR_of_step h0.wf hs).2
  obtain ⟨e', he', hn, hts⟩ := h
  have same : ∀ e ∈ w.ls.details, e.name = n → ∀ t', e.ts = .active t' → t'.info = t.info → False :=
    fun e he hne t' ht' hi => hnew t' ⟨e, he, hne, ht'⟩ hi
  have same' : e' ∈ w.ls.details → False := fun he => same e' he hn t hts rfl
  cases hs <;> try exact (same' he').elim
  case notScan ls' hp hnr =>
    rcases hnr.back e' he' with ⟨hm, _⟩ | ⟨e0, he0, p, hp0, hn0, hts0, _⟩
    · exact (same' hm).elim
    · rw [hts] at hts0; cases hts0
  case run tid inp op rest f ht hx =>
    have hop : op ∈ w.threads tid := by rw [ht]; simp
    have hput : ∀ (ls1 : LockedState) (e0 : Entry) (a0 : Account) (ts : TokenState), ls1.details = w.ls.details →
        w.ls.Has e0 a0 → e' ∈ (ls1.put e0.id ts).details → e0.name = n ∧ ts = .active t := by
      intro ls1 e0 a0 ts hd hh hm
      rcases mem_put.mp hm with ⟨hm1, _⟩ | ⟨e1, hm1, hid, rfl⟩
      · exact (same' (hd ▸ hm1)).elim
      · rw [hd] at hm1
        have := h0.wf.entry_id_inj hm1 hh.1 hid
        subst this
        exact ⟨hn, hts⟩
    cases hx <;> try exact (same' he').elim
    case auth ha _ _ => cases (hput w.ls _ _ _ rfl ha he').2
    case restoreOk buf d plain ls' h1 h2 h3 h4 => exact .inl ⟨_, rfl⟩
    case revoke ha _ => cases (hput w.ls _ _ _ rfl ha he').2
    case install c ls' hu =>
      have hc := h0.inst tid c hop
      obtain ⟨ls'', h1, h2, h3, h4, h5⟩ := h0.wf.updateConf hc.nodup hc.names
      rw [hu] at h1
      cases h1
      obtain ⟨a, _, ⟨o, ho, _⟩ | ⟨_, hts', _⟩⟩ := h5 e' he'
      · exact (same' ho.1).elim
      · rw [hts] at hts'; cases hts'
    case httpError ha _ _ _ _ _ => cases (hput w.ls _ _ _ rfl ha he').2
    case exDoneOk c b e0 a0 x tok expiry ha hid h1 h2 h3 h4 h5 =>
      obtain ⟨hn0, hts0⟩ := hput w.ls _ _ _ rfl ha he'
      unfold freshActive at hts0
      simp only [TokenState.active.injEq] at hts0
      subst hts0
      exact .inr ⟨a0, x, hn0 ▸ ha.2, expiryRule_of h5, .inl ⟨tid, c, b, by rw [ht]; rfl, h3⟩⟩
    case failOk ha hid => cases (hput w.ls _ _ _ rfl ha he').2
    case rfStartOk ha hid hts1 hon hrt =>
      obtain ⟨hn0, hts0⟩ := hput w.ls.bump _ _ _ rfl ha he'
      simp only [TokenState.active.injEq] at hts0
      subst hts0
      exact (same _ ha.1 hn0 _ hts1 rfl).elim
    case rfStartNoRt ha hid hts hon hrt => cases (hput w.ls.bump _ _ _ rfl ha he').2
    case rfPermOk ha hid => cases (hput w.ls _ _ _ rfl ha he').2
    case rfStoreNoExpiry ha hid hex => cases (hput w.ls _ _ _ rfl ha he').2
    case rfStoreOk c tok x rt t0 e0 a0 expiry ha hid hex =>
      obtain ⟨hn0, hts0⟩ := hput w.ls _ _ _ rfl ha he'
      unfold freshActive at hts0
      simp only [TokenState.active.injEq] at hts0
      subst hts0
      exact .inr ⟨a0, x, hn0 ▸ ha.2, expiryRule_of hex, .inr ⟨tid, c, rt, by rw [ht]; rfl⟩⟩
    case rfTransientCmd ha hid hts1 hm hc =>
      obtain ⟨hn0, hts0⟩ := hput w.ls _ _ _ rfl ha he'
      simp only [TokenState.active.injEq] at hts0
      subst hts0
      exact (same _ ha.1 hn0 _ hts1 rfl).elim
    case rfTransientKeep ha hid hts1 hm =>
      obtain ⟨hn0, hts0⟩ := hput w.ls.bump _ _ _ rfl ha he'
      simp only [TokenState.active.injEq] at hts0
      subst hts0
      exact (same _ ha.1 hn0 _ hts1 rfl).elim
    case rfCmdOkOk ha hid hts1 =>
      obtain ⟨hn0, hts0⟩ := hput w.ls _ _ _ rfl ha he'
      simp only [TokenState.active.injEq] at hts0
      subst hts0
      exact (same _ ha.1 hn0 _ hts1 rfl).elim
    case rfCmdErrOk ha hid => cases (hput w.ls _ _ _ rfl ha he').2

/-! ## Concrete cases -/

namespace Demo

/-- C01, C09: the token "T1" is shown, and it is that of the configuration `conf`. -/
example : Answers env (after sShow) showA (utf8 ("access_token:" ++ "T1")) ∧ parseReq showA = .showtoken true "a" ∧
    (after sShow).ls.config.get? "a" = some (act "a" "https://ts/token") :=
  ⟨answers_of (t := 0) (t' := 0) (after_reach _) (by decide +kernel) (by decide +kernel), by decide +kernel,
    by decide +kernel⟩

/-- C02: a refresh is in flight when the account is revoked; its answer is not stored. -/
def sRevoke : List Action := sRefresh ++ [.run 2 {}, .connect revokeA] ++ n0 3
/-- … the refresh continues. -/
def sAfterRevoke : List Action := sRevoke ++ n0 2 ++ [.run 2 { net := .body answer2 }, .run 2 {}, .run 2 {}]

example : Answers env (after sRevoke) revokeA (utf8 "ok:") ∧ parseReq revokeA = .revoke "a" ∧
    (w0.run env sAfterRevoke).isSome = true ∧ (after sAfterRevoke).threads 2 = [] ∧ (after sAfterRevoke).ls.details.all (fun e => e.ts == .empty) = true :=
  ⟨answers_of (t := 0) (t' := 0) (after_reach _) (by decide +kernel) (by decide +kernel), by decide +kernel,
    by decide +kernel, List.isEmpty_iff.mp (by decide +kernel), by decide +kernel⟩

/-- … and after a new authorisation there is a token again. -/
def sAgain : List Action :=
  sAfterRevoke ++ sAsk ++ [.http callback false] ++ List.replicate 3 (.run 3 {}) ++
    [.run 3 { net := .body answer }] ++ List.replicate 4 (.run 3 {}) ++ [.connect showA, .run 0 {}]

example : Answers env (after sAgain) showA (utf8 ("access_token:" ++ "T1")) ∧ (after sAgain).proc = .running ∧
    (after sRevoke).log.length < (after sAgain).log.length :=
  ⟨answers_of (t := 0) (t' := 0) (after_reach _) (by decide +kernel) (by decide +kernel), by decide +kernel,
    by decide +kernel⟩

/-- C05: a refresh is in flight when the account's token server is changed. -/
def sReload : List Action := sRefresh ++ [.run 2 {}, .connect (Cmd.wire .reload), .run 0 { conf := .ok conf2 }]

example : Reloads env (after sReload) conf2 (andThen (after sReload) [.run 0 {}]) ∧
    SecChanged (after sReload).ls.config conf2 "a" ∧ ¬ SecChanged (after sReload).ls.config conf2 "b b" := by
  refine ⟨⟨after_reach _, ⟨.run 0 {}, ?_⟩, ⟨0, by decide +kernel⟩⟩, ?_, ?_⟩
  · exact andThen_one (by decide +kernel)
  · have h1 : (after sReload).ls.config.get? "a" = some (act "a" "https://ts/token") := by decide +kernel
    have h2 : conf2.get? "a" = some (act "a" "https://ts2/token") := by decide +kernel
    intro a a' ha ha'
    rw [h1] at ha
    rw [h2] at ha'
    cases ha
    cases ha'
    decide +kernel
  · intro h
    exact h (act "b b" "https://ts2/token") (act "b b" "https://ts2/token") (by decide +kernel) (by decide +kernel) rfl

end Demo

end Pizauth
