import Verif.Spec.Schedule
import Verif.Spec.Dump
import Verif.Spec.Refresh
import Verif.Spec.Info
import Verif.Proof.Obs
import Verif.Props.Show
import Verif.Props.Dump

/-!
# C66-C70: the exact effects of further requests, and error reports
-/

namespace Pizauth
open LockedState

variable {E : Env}

theorem startsRefresh_of {w : World} (h0 : Inv0 E w) {e : Entry} {a : Account} (ha : w.ls.Has e a) {b : Bytes} :
    StartsRefresh w (w.apply 0 [.close] { ls := w.ls, spawn := [.rfStart e.id], next := [.reply b] }) e.name b := by
  have h00 : (0 : Nat) ≠ w.nextTid := by have := h0.tid0; omega
  refine ⟨⟨e, ha.1, rfl, ?_⟩, ?_, fun i h1 h2 => ?_, ?_⟩
  · simp [World.apply, spawnAll, setThread]
  · simp [World.apply, spawnAll, setThread, h00]
  · simp [World.apply, spawnAll, setThread, h1, h2]
  · simp [World.apply]

/-- **C66.** `show n` for an account with a token: if the token has not expired, it is the answer and nothing changes.
If it has, the answer is an error, which says whether a refresh is in progress. If none is, one is started. The token
is kept in any case. -/
theorem C66 {w w' : World} {buf : Bytes} {u : Bool} {n : String} {t : ActiveTok} (h : Executes E w buf w')
    (hp : parseReq buf = .showtoken u n) (ht : HoldsToken w.ls n t) :
    (w.now < t.expiry →
      w' = { w with threads := setThread w.threads 0 [.reply (utf8 ("access_token:" ++ t.accessToken)), .close] }) ∧
    (t.expiry ≤ w.now → t.ongoing = true →
      w' = { w with threads := setThread w.threads 0 [.reply (utf8
        "error:Access token has expired. Refreshing is in progress but has not yet succeeded"), .close] }) ∧
    (t.expiry ≤ w.now → t.ongoing = false →
      StartsRefresh w w' n (utf8 "error:Access token has expired. Refreshing initiated")) := by
  obtain ⟨hr, hth, inp, hs⟩ := h
  have h0 := hr.inv0
  obtain ⟨e1, he1, hn1, hts1⟩ := ht
  obtain ⟨f, hx, rfl⟩ := hr.handled hth hs (by rw [hp]; simp)
  have same : ∀ {e a}, w.ls.Has e a → e.name = n → e = e1 := fun ha hn =>
    h0.wf.entry_name_inj ha.1 he1 (hn.trans hn1.symm)
  cases hx.show hp with
  | unknown h => exact absurd hn1 (h e1 he1)
  | auth ha hn hts => rw [same ha hn, hts1] at hts; cases hts
  | authErr ha hn hts => rw [same ha hn, hts1] at hts; cases hts
  | pending ha hn hts => rw [same ha hn, hts1] at hts; cases hts
  | tok ha hn hts hlt =>
    rw [same ha hn, hts1] at hts
    cases hts
    exact ⟨fun _ => by simp [World.apply, spawnAll], fun h => by omega, fun h => by omega⟩
  | ongoing ha hn hts hle ho =>
    rw [same ha hn, hts1] at hts
    cases hts
    exact ⟨fun h => by omega, fun _ _ => by simp [World.apply, spawnAll], fun _ h => by rw [ho] at h; cases h⟩
  | expired ha hn hts hle ho =>
    rw [same ha hn, hts1] at hts
    cases hts
    subst hn
    exact ⟨fun h => by omega, fun _ h => (by rw [ho] at h; cases h), fun _ _ => startsRefresh_of h0 ha⟩

/-- **C67.** `refresh n` for an account with a token starts a refresh, whether or not the token has expired, and whether
or not one is in progress, and answers `scheduled:`. -/
theorem C67_token {w w' : World} {buf : Bytes} {u : Bool} {n : String} {t : ActiveTok} (h : Executes E w buf w')
    (hp : parseReq buf = .refresh u n) (ht : HoldsToken w.ls n t) : StartsRefresh w w' n (utf8 "scheduled:") := by
  obtain ⟨hr, hth, inp, hs⟩ := h
  have h0 := hr.inv0
  obtain ⟨e1, he1, hn1, hts1⟩ := ht
  obtain ⟨f, hx, rfl⟩ := hr.handled hth hs (by rw [hp]; simp)
  have same : ∀ {e a}, w.ls.Has e a → e.name = n → e = e1 := fun ha hn =>
    h0.wf.entry_name_inj ha.1 he1 (hn.trans hn1.symm)
  cases hx.refreshReq hp with
  | unknown h => exact absurd hn1 (h e1 he1)
  | auth ha hn hts => rw [same ha hn] at hts; exact absurd hts1 (hts _)
  | authErr ha hn hts => rw [same ha hn] at hts; exact absurd hts1 (hts _)
  | sched ha hn hts => subst hn; exact startsRefresh_of h0 ha

/-- **C67.** `refresh n` for an account without a token begins a new authorisation, made of this request's random bytes,
in place of one which may be outstanding, and goes on to report its URL. -/
theorem C67_new (hl : HostLaw E) {w w' : World} {inp : Input} {buf : Bytes} {u : Bool} {n : String} (hr : Reach E w)
    (ht : w.threads 0 = [.unix buf, .close]) (hp : parseReq buf = .refresh u n)
    (hn : HoldsNothing w.ls n ∨ ∃ p, HoldsPending w.ls n p) (hs : w.step E (.run 0 inp) = some w') :
    ∃ p, HoldsPending w'.ls n p ∧ p.state = b64 inp.rndState.toList ∧ p.codeVerifier = b64 inp.rndVerifier.toList ∧
      p.lastNotification = none ∧
      w'.threads 0 = [.wakeNotifier, .reply (if u then utf8 ("pending:" ++ E.renderUrl p.url) else utf8 "pending:"), .close] := by
  have h0 := hr.inv0
  obtain ⟨e1, he1, hn1, hts1⟩ : ∃ e ∈ w.ls.details, e.name = n ∧ ∀ t, e.ts ≠ .active t := by
    rcases hn with ⟨e, h1, h2, h3⟩ | ⟨p, e, h1, h2, h3⟩ <;> exact ⟨e, h1, h2, fun t => by rw [h3]; simp⟩
  obtain ⟨f, hx, rfl⟩ := hr.handled ht hs (by rw [hp]; simp)
  have same : ∀ {e a}, w.ls.Has e a → e.name = n → e = e1 := fun ha hn =>
    h0.wf.entry_name_inj ha.1 he1 (hn.trans hn1.symm)
  cases hx.refreshReq hp with
  | unknown h => exact absurd hn1 (h e1 he1)
  | auth ha hn hts hurl =>
    subst hn
    refine ⟨_, ⟨_, mem_put_new ha.1 rfl, rfl, rfl⟩, rfl, rfl, rfl, ?_⟩
    rw [apply_threads_self h0.tid0]; rfl
  | authErr ha hn hts hurl =>
    obtain ⟨url, hu⟩ := authUrl_ok hl hr ha.2 inp
    exact absurd hu (hurl url)
  | sched ha hn hts => rw [same ha hn] at hts; exact absurd hts (hts1 _)

/-- **C68.** An error is reported by `error_notify_cmd` if there is one in the configuration at that moment, and written
to the system's log only if there is none. -/
theorem C68 {w w' : World} {a : Action} {t : Instant} {i : Nat} {o : Obs} {n msg : String} {l : Log} (hr : Reach E w)
    (hs : w.step E a = some w') (hl : w'.log = l ++ w.log) (hm : (t, o) ∈ l) (ho : o.IsErrorReport i n msg) :
    o = match w.ls.config.errorNotifyCmd with
      | some cmd => .errorCmd i cmd n msg
      | none => .errorLog i n msg := by
  obtain ⟨l', h1, h2⟩ := (stepR_of_step hr.inv0.wf hs).2.log_new
  have : l' = l := List.append_cancel_right (h1.symm.trans hl)
  subst this
  have hn : NewObs E w a w' o := (h2 _ hm).2
  have key : (∀ cmd, o = .errorCmd i cmd n msg → w.ls.config.errorNotifyCmd = some cmd) ∧
      (o = .errorLog i n msg → w.ls.config.errorNotifyCmd = none) := by
    cases hn
    case run hth hx ho' =>
      cases hx <;> simp at ho'
      all_goals (subst ho'; exact ⟨fun _ h => (by cases h <;> assumption), fun h => (by cases h <;> assumption)⟩)
    all_goals exact ⟨fun _ h => (by cases h), fun h => by cases h⟩
  rcases ho with ⟨cmd, h⟩ | h
  · rw [key.1 cmd h, h]
  · rw [key.2 h, h]

/-- **C69.** `info` is answered with the ports of the servers, and changes nothing. -/
theorem C69 {w w' : World} {buf : Bytes} (h : Executes E w buf w') (hp : parseReq buf = .info) :
    w' = { w with threads := setThread w.threads 0 (
      [.reply (utf8 (infoText w.st.httpPort w.st.httpsPort w.st.httpsPubKey)), .close]) } := by
  obtain ⟨hr, hth, inp, hs⟩ := h
  simp only [World.step, hth] at hs
  cases hproc : w.proc <;> rw [hproc] at hs <;> try cases hs
  simp only [exec, hp, execUnix, Option.some.injEq] at hs
  subst hs
  have h : infoReply w.st = utf8 (infoText w.st.httpPort w.st.httpsPort w.st.httpsPubKey) := rfl
  rw [← h]
  simp [World.apply, spawnAll, hproc]

/-- **C69.** These are the ports at which callbacks are accepted, and they never change, whatever reloads bring. -/
theorem C69_ports {w0 w : World} (hr : Reach E w0) (hs : Steps E w0 w) : w.st = w0.st :=
  hs.st hr

/-- **C70.** `shutdown` ends the process, without an answer and without any other effect. -/
theorem C70 {w w' : World} {buf : Bytes} (h : Executes E w buf w') (hp : parseReq buf = .shutdown) :
    w'.proc = .terminated ∧ w'.ls = w.ls ∧ w'.log = w.log := by
  obtain ⟨hr, hth, inp, hs⟩ := h
  simp only [World.step, hth] at hs
  cases hproc : w.proc <;> rw [hproc] at hs <;> try cases hs
  simp only [exec, hp, execUnix, Option.some.injEq] at hs
  subst hs
  exact ⟨by simp [World.apply], rfl, rfl⟩

/-- **C70.** Nothing happens after that. -/
theorem C70_end {w : World} (h : w.proc = .terminated) (a : Action) : w.step E a = none := by
  unfold World.step
  rw [h]

/-- **C70.** The process does not end (other than by a crash) for any other reason. -/
theorem C70_only {w w' : World} {a : Action} (hr : Reach E w) (hs : w.step E a = some w')
    (ht : w'.proc = .terminated) : ∃ buf, parseReq buf = .shutdown ∧ Executes E w buf w' := by
  have hs0 := hs
  obtain ⟨hrun, hs⟩ := stepR_of_step hr.inv0.wf hs
  cases hs with
  | run hth hx =>
    have hterm : ∀ {f : Eff} {i rest}, (w.apply i rest f).proc = .terminated → f.term = true := by
      intro f i rest h
      by_cases hf : f.term = true
      · exact hf
      · simp [World.apply, hf, hrun] at h
    have := hterm ht
    cases hx <;> simp at this
    rename_i tid inp rest buf hp
    have hsh := Reach.shape w hr
    by_cases h0 : tid = 0
    · subst h0
      have hm := hsh.main
      rw [hth] at hm
      rcases hm.cons with ⟨buf', h1, rfl⟩ | ⟨c, h1, _⟩ | ⟨h1, _⟩ | ⟨h1 | h1, _⟩
      · exact ⟨buf, hp, hr, hth, inp, hs0⟩
      all_goals simp [Op.isTail, Op.isReply] at h1
    · have hm := hsh.work tid h0
      rw [hth] at hm
      rcases hm.cons with ⟨h1, _⟩ | ⟨h1, _⟩ | ⟨⟨_, h1⟩, _⟩ <;> simp [Op.isTail, Op.isCore] at h1
  | _ => simp_all

/-- **C71.** What a thread which was started to refresh account `n` does first. If the account has a token which is not
being refreshed, it marks the token as being refreshed, records the time of the attempt, and is about to POST the
account's refresh token to the account's `token_uri`. If there is no refresh token, the token is removed. If the token
is being refreshed, or there is none, the thread ends, and nothing changes. -/
theorem C71 {w w' : World} {i : Nat} {n : String} {inp : Input} (hr : Reach E w) (hi : StartedFor w i n)
    (hs : w.step E (.run i inp) = some w') :
    (∀ t r, HoldsToken w.ls n t → t.ongoing = false → t.refreshToken = some r →
      HoldsToken w'.ls n { t with ongoing := true, lastAttempt := some w.now } ∧ RefreshingAccount w' i n ∧
      ∃ a c, w.ls.config.get? n = some a ∧ w'.threads i = [.rfSend c] ∧ c.tokenUri = a.tokenUri ∧
        c.form = refreshPost a r) ∧
    (∀ t, HoldsToken w.ls n t → t.ongoing = false → t.refreshToken = none →
      HoldsNothing w'.ls n ∧ w'.threads i = [] ∧ w'.log = w.log) ∧
    (((∃ t, HoldsToken w.ls n t ∧ t.ongoing = true) ∨ (∃ p, HoldsPending w.ls n p) ∨ HoldsNothing w.ls n) →
      w' = { w with threads := setThread w.threads i [] }) := by
  have h0 := hr.inv0
  obtain ⟨e1, he1, rfl, hth1⟩ := hi
  have hset : ∀ {e : Entry}, e ∈ w.ls.details → e.name = e1.name → e = e1 := fun he hn =>
    h0.wf.entry_name_inj he he1 hn
  obtain ⟨hrun, hs⟩ := stepR_of_step h0.wf hs
  cases hs with
  | runPanic hth hx =>
    rw [hth1] at hth
    cases hth
    obtain ⟨buf, h, _⟩ := hr.panic hth1 hx
    cases h
  | run hth hx =>
    rw [hth1] at hth
    cases hth
    cases hx with
    | rfStartStale h => exact absurd rfl (h e1 he1)
    | rfStartNot ha hid hts =>
      cases h0.wf.entry_id_inj ha.1 he1 hid
      refine ⟨fun t r ⟨e, he, hn, h1⟩ ho => ?_, fun t ⟨e, he, hn, h1⟩ ho => ?_, fun _ => ?_⟩
      · cases hset he hn
        rcases hts with h | ⟨p, h⟩ | ⟨t', h, ho'⟩ <;> rw [h1] at h <;> cases h
        rw [ho] at ho'; cases ho'
      · cases hset he hn
        rcases hts with h | ⟨p, h⟩ | ⟨t', h, ho'⟩ <;> rw [h1] at h <;> cases h
        rw [ho] at ho'; cases ho'
      · simp [World.apply, spawnAll, hrun]
    | @rfStartOk _ _ e a t r ha hid hts ho hrt =>
      cases h0.wf.entry_id_inj ha.1 he1 hid
      refine ⟨fun t' r' ⟨e', he, hn, h1⟩ _ hr' => ?_, fun t' ⟨e', he, hn, h1⟩ _ hr' => ?_, fun h => ?_⟩
      · cases hset he hn
        rw [hts] at h1
        cases h1
        rw [hrt] at hr'
        cases hr'
        have hth' : ∀ c, (w.apply i [] { ls := c, next := [.rfSend ⟨w.ls.accountCount + 1, a.name, a.tokenUri,
            refreshForm a r, r⟩] }).threads i = [.rfSend ⟨w.ls.accountCount + 1, a.name, a.tokenUri,
            refreshForm a r, r⟩] := by
          intro c; simp [World.apply, spawnAll, setThread]
        refine ⟨⟨_, mem_put_new (ls := w.ls.bump) ha.1 rfl, rfl, rfl⟩,
          ⟨_, mem_put_new (ls := w.ls.bump) ha.1 rfl, rfl, .rfSend ⟨w.ls.accountCount + 1, a.name, a.tokenUri,
            refreshForm a r, r⟩, ?_, rfl⟩, a, _, ha.2, hth' _, rfl, rfl⟩
        rw [hth']; simp
      · cases hset he hn
        rw [hts] at h1
        cases h1
        rw [hrt] at hr'; cases hr'
      · rcases h with ⟨t', ⟨e', he, hn, h1⟩, ho'⟩ | ⟨p, e', he, hn, h1⟩ | ⟨e', he, hn, h1⟩ <;> cases hset he hn <;>
          rw [hts] at h1 <;> cases h1
        rw [ho] at ho'; cases ho'
    | @rfStartNoRt _ _ e a t ha hid hts ho hrt =>
      cases h0.wf.entry_id_inj ha.1 he1 hid
      refine ⟨fun t' r' ⟨e', he, hn, h1⟩ _ hr' => ?_, fun t' ⟨e', he, hn, h1⟩ _ hr' => ?_, fun h => ?_⟩
      · cases hset he hn
        rw [hts] at h1
        cases h1
        rw [hrt] at hr'; cases hr'
      · exact ⟨⟨_, mem_put_new (ls := w.ls.bump) ha.1 rfl, rfl, rfl⟩, by simp [World.apply, spawnAll, setThread], rfl⟩
      · rcases h with ⟨t', ⟨e', he, hn, h1⟩, ho'⟩ | ⟨p, e', he, hn, h1⟩ | ⟨e', he, hn, h1⟩ <;> cases hset he hn <;>
          rw [hts] at h1 <;> cases h1
        rw [ho] at ho'; cases ho'

/-! ## Concrete cases -/

section Example
open Demo

/-- The next request is `buf`, two hours after the token was obtained. -/
def sHours (buf : Bytes) : List Action := sToken ++ [.tick (2 * 3600 * 1000000000), .connect buf]

/-- The token when it has expired. -/
def hoursTok : ActiveTok := (holdsTok (after (sHours showA)) "a").getD default

/-- C66: the token is shown. -/
example : ∃ w', Executes env (after (sToken ++ [.connect showA])) showA w' ∧ parseReq showA = .showtoken true "a" ∧
    ∃ t, HoldsToken (after (sToken ++ [.connect showA])).ls "a" t ∧
      (after (sToken ++ [.connect showA])).now < t.expiry :=
  ⟨_, executes_of (inp := {}) (after_reach _) (by decide +kernel) (by decide +kernel), by decide +kernel,
    (holdsTok (after (sToken ++ [.connect showA])) "a").getD default, holdsTok_holds (by decide +kernel), by decide +kernel⟩

/-- C66: the token has expired; thread 2 is started to refresh it. -/
example : ∃ w', Executes env (after (sHours showA)) showA w' ∧ HoldsToken (after (sHours showA)).ls "a" hoursTok ∧
    hoursTok.expiry ≤ (after (sHours showA)).now ∧ hoursTok.ongoing = false ∧
    StartsRefresh (after (sHours showA)) w' "a" (utf8 "error:Access token has expired. Refreshing initiated") ∧
    (after (sHours showA)).nextTid = 2 :=
  have hx := executes_of (inp := {}) (after_reach (sHours showA)) (by decide +kernel) (by decide +kernel)
  have hh : HoldsToken (after (sHours showA)).ls "a" hoursTok := holdsTok_holds (by decide +kernel)
  ⟨_, hx, hh, by decide +kernel, by decide +kernel,
    (C66 hx (u := true) (n := "a") (by decide +kernel) hh).2.2 (by decide +kernel) (by decide +kernel), by decide +kernel⟩

def sScheduled : List Action := sToken ++ [.connect refreshA]

def schedTok : ActiveTok := (holdsTok (after sScheduled) "a").getD default

/-- C67: the token has not expired, and yet thread 2 is started to refresh it. -/
example : ∃ w', Executes env (after sScheduled) refreshA w' ∧ HoldsToken (after sScheduled).ls "a" schedTok ∧
    (after sScheduled).now < schedTok.expiry ∧ StartsRefresh (after sScheduled) w' "a" (utf8 "scheduled:") :=
  have hx := executes_of (inp := {}) (after_reach sScheduled) (buf := refreshA) (by decide +kernel) (by decide +kernel)
  have hh : HoldsToken (after sScheduled).ls "a" schedTok := holdsTok_holds (by decide +kernel)
  ⟨_, hx, hh, by decide +kernel, C67_token (u := true) hx (by decide +kernel) hh⟩

/-- C67: `refresh` replaces an outstanding authorisation (here it is made of the same random bytes). -/
example : (after (sAsk ++ [.connect refreshA])).ls.details.any
      (fun e => e.name == "a" && (match e.ts with | .pending _ => true | _ => false)) = true ∧
    ((after (sAsk ++ [.connect refreshA])).step env (.run 0 {})).isSome = true := by decide +kernel

/-- C68: without `error_notify_cmd`, the error with which the user is sent back is written to the log. -/
example : (after (sAsk ++ [.http callbackErr false] ++ n1 3)).log.any
      (fun p => match p.2 with | .errorLog 1 "a" _ => true | _ => false) = true := by decide +kernel

/-- C69: the answer. -/
example : infoText (some 8080) none none = "{\"http_port\":\"8080\",\"https_port\":\"none\"}" ∧
    ∃ w', Executes env (after [.connect (utf8 "info:")]) (utf8 "info:") w' ∧ parseReq (utf8 "info:") = .info :=
  ⟨by decide +kernel, _, executes_of (inp := {}) (after_reach _) (by decide +kernel) (by decide +kernel), by decide +kernel⟩

/-- C70: the process ends. -/
example : ∃ w', Executes env (after [.connect (utf8 "shutdown:")]) (utf8 "shutdown:") w' ∧
    parseReq (utf8 "shutdown:") = .shutdown :=
  ⟨_, executes_of (inp := {}) (after_reach _) (by decide +kernel) (by decide +kernel), by decide +kernel⟩

/-- C71: thread 2 was started for account "a", whose token is not being refreshed; it has a refresh token. -/
example : ∃ t, StartedFor (after (sToken ++ [.connect refreshA, .run 0 {}])) 2 "a" ∧
    HoldsToken (after (sToken ++ [.connect refreshA, .run 0 {}])).ls "a" t ∧ t.ongoing = false ∧
    t.refreshToken = some "R1" ∧
    ((after (sToken ++ [.connect refreshA, .run 0 {}])).step env (.run 2 {})).isSome = true := by
  refine ⟨_, ⟨_, List.mem_cons_self, by decide +kernel, rfl⟩, holdsTok_holds
    (t := (holdsTok (after (sToken ++ [.connect refreshA, .run 0 {}])) "a").getD default)
    (by decide +kernel), by decide +kernel, by decide +kernel, by decide +kernel⟩

end Example

end Pizauth
