import Verif.Spec.Callback
import Verif.Proof.Lineage
import Verif.Proof.FairRun
import Verif.Props.Show
import Verif.Props.Client

/-!
# A complete session with the daemon, step by step
-/

namespace Pizauth
open LockedState

variable {E : Env}

/-- `w'` can follow `w`, at the same time, with the observations `L` (newest first) in between. -/
structure Onward (E : Env) (w w' : World) (L : List Obs) : Prop where
  steps : Steps E w w'
  st : w'.st = w.st
  now : w'.now = w.now
  wall : w'.wall = w.wall
  proc : w'.proc = .running
  log : w'.log = L.map (fun o => (w.now, o)) ++ w.log

theorem Onward.refl {w : World} (h : w.proc = .running) : Onward E w w [] := ⟨.refl, rfl, rfl, rfl, h, rfl⟩

theorem Onward.trans {w0 w1 w2 : World} {L1 L2 : List Obs} (h1 : Onward E w0 w1 L1) (h2 : Onward E w1 w2 L2) :
    Onward E w0 w2 (L2 ++ L1) where
  steps := h1.steps.trans h2.steps
  st := h2.st.trans h1.st
  now := h2.now.trans h1.now
  wall := h2.wall.trans h1.wall
  proc := h2.proc
  log := by rw [h2.log, h1.log, h1.now]; simp

/-- What is observed when thread `i` performs an operation which changes no account. -/
def Op.saying (i : Nat) : Op → Option (List Obs)
  | .reply b => some [.reply b]
  | .close => some [.closed]
  | .wakeRefresher | .wakeNotifier | .wakeEventer => some []
  | .pushEvent act e => some [.event i act e]
  | .httpAnswer b => some [.httpAnswer i b]
  | _ => none

/-- One operation of a thread which succeeds. -/
theorem onward_run {w : World} {i : Nat} {op : Op} {rest : List Op} {inp : Input} {f : Eff} (h : w.proc = .running)
    (ht : w.threads i = op :: rest) (hx : exec E w.st w.now w.wall w.ls i op inp = .ok f) (hterm : f.term = false) :
    Onward E w (w.apply i rest f) f.obs.reverse := by
  refine ⟨.one (a := .run i inp) (by simp [World.step, h, ht, hx]), rfl, rfl, rfl, by simp [World.apply, hterm, h], ?_⟩
  simp [World.apply, List.map_reverse]

/-- The same, for an operation which starts no thread. -/
theorem onward_op {w : World} {i : Nat} {op : Op} {rest : List Op} (inp : Input) {f : Eff} (h : w.proc = .running)
    (ht : w.threads i = op :: rest) (hx : exec E w.st w.now w.wall w.ls i op inp = .ok f) (hterm : f.term = false)
    (hsp : f.spawn = []) :
    ∃ w', Onward E w w' f.obs.reverse ∧ w'.ls = f.ls ∧ w'.threads i = f.next ++ rest ∧
      ∀ j, j ≠ i → w'.threads j = w.threads j :=
  ⟨_, onward_run h ht hx hterm, rfl, by simp [World.apply, hsp, spawnAll, setThread],
    fun j hj => by simp [World.apply, hsp, spawnAll, setThread, hj]⟩

/-- A thread performs operations which change no account. -/
theorem onward_saying {i : Nat} : ∀ (ops : List Op) {w : World} {rest : List Op} {ls : List (List Obs)},
    w.proc = .running → w.threads i = ops ++ rest → ops.map (Op.saying i) = ls.map some →
    ∃ w', Onward E w w' ls.flatten.reverse ∧ w'.ls = w.ls ∧ w'.threads i = rest ∧ w'.nextTid = w.nextTid ∧
      ∀ j, j ≠ i → w'.threads j = w.threads j
  | [], w, rest, [], h, ht, _ => ⟨w, .refl h, rfl, ht, rfl, fun _ _ => rfl⟩
  | op :: ops, w, rest, l :: ls, h, ht, hs => by
    simp only [List.map_cons, List.cons.injEq] at hs
    have key : ∃ f, exec E w.st w.now w.wall w.ls i op {} = .ok f ∧ f.term = false ∧ f.obs = l ∧ l.length ≤ 1 ∧
        f.ls = w.ls ∧ f.next = [] ∧ f.spawn = [] := by
      have h1 := hs.1
      cases op <;> simp only [Op.saying, Option.some.injEq, reduceCtorEq] at h1 <;> subst h1 <;>
        exact ⟨_, rfl, rfl, rfl, by simp, rfl, rfl, rfl⟩
    obtain ⟨f, hx, h1, h2, h2', h3, h4, h5⟩ := key
    have ho := onward_run h ht hx h1
    obtain ⟨w', g1, g2, g3, g4, g5⟩ := onward_saying (i := i) ops (w := w.apply i (ops ++ rest) f) (rest := rest) (ls := ls)
      ho.proc (by simp [World.apply, h4, h5, spawnAll, setThread]) hs.2
    refine ⟨w', ?_, by rw [g2]; exact h3, g3, by rw [g4]; simp [World.apply, h5], fun j hj => ?_⟩
    · have := ho.trans g1
      rw [h2] at this
      simpa using this
    · rw [g5 j hj]
      simp [World.apply, h5, spawnAll, setThread, hj]
  | [], _, _, _ :: _, _, _, hs => by simp at hs
  | _ :: _, _, _, [], _, _, hs => by simp at hs

/-- A client connects. -/
theorem onward_connect {w : World} (h : w.proc = .running) (hi : w.threads 0 = []) (buf : Bytes) :
    ∃ w', Onward E w w' [.request buf] ∧ w'.ls = w.ls ∧ w'.threads 0 = [.unix buf, .close] ∧ w'.nextTid = w.nextTid ∧
      ∀ j, j ≠ 0 → w'.threads j = w.threads j := by
  refine ⟨{ w with threads := setThread w.threads 0 [.unix buf, .close] }.observe [.request buf],
    ⟨.one (a := .connect buf) (by simp [World.step, h, hi]), rfl, rfl, rfl, h, rfl⟩, rfl, by simp [World.observe, setThread], rfl,
    fun j hj => by simp [World.observe, setThread, hj]⟩

/-- A request is handled, and answered. -/
theorem onward_request {w : World} (hr : Reach E w) (h : w.proc = .running) (hi : w.threads 0 = []) {buf : Bytes}
    {inp : Input} {ls : LockedState} {next : List Op} {l : List (List Obs)}
    (hx : exec E w.st w.now w.wall w.ls 0 (.unix buf) inp = .ok { ls := ls, next := next })
    (hn : next.map (Op.saying 0) = l.map some) :
    ∃ w', Onward E w w' (.closed :: l.flatten.reverse ++ [.request buf]) ∧ w'.ls = ls ∧ w'.threads 0 = [] ∧
      Reach E w' := by
  obtain ⟨w1, a1, a2, a3, _, _⟩ := onward_connect (E := E) h hi buf
  have hx1 : exec E w1.st w1.now w1.wall w1.ls 0 (.unix buf) inp = .ok { ls := ls, next := next } := by
    rw [a1.st, a1.now, a1.wall, a2]; exact hx
  have b1 := onward_run a1.proc a3 hx1 rfl
  obtain ⟨w2, c1, c2, c3, _, _⟩ := onward_saying (E := E) (i := 0) (next ++ [.close]) (rest := []) (ls := l ++ [[.closed]])
    b1.proc (by simp [World.apply, spawnAll, setThread]) (by simp [hn, Op.saying])
  have ho := (a1.trans b1).trans c1
  exact ⟨w2, by simpa using ho, c2, c3, ho.steps.reach hr⟩

/-! ## The three requests -/

variable {w : World} {n : String} {a : Account}

/-- `revoke`. -/
theorem onward_revoke (hr : Reach E w) (h : w.proc = .running) (hi : w.threads 0 = [])
    (ha : w.ls.config.get? n = some a) :
    ∃ w', Onward E w w' [.closed, .reply (utf8 "ok:"), .event 0 n .revoked, .request (utf8 ("revoke:" ++ n))] ∧
      w'.ls.config = w.ls.config ∧ w'.threads 0 = [] ∧ Reach E w' ∧ HoldsNothing w'.ls n ∧
      ∀ m p, m ≠ n → HoldsPending w'.ls m p → HoldsPending w.ls m p := by
  have h0 := hr.inv0
  obtain ⟨e, he, rfl⟩ := h0.wf.entry_of_get? ha
  have hp : parseReq (utf8 ("revoke:" ++ e.name)) = .revoke e.name := C47 (.revoke e.name)
  obtain ⟨w', h1, h2, h3, h4⟩ := onward_request hr h hi (buf := utf8 ("revoke:" ++ e.name)) (inp := {})
    (ls := w.ls.put e.id .empty) (next := [.pushEvent e.name .revoked, .wakeEventer, .reply (utf8 "ok:")])
    (l := [[.event 0 e.name .revoked], [], [.reply (utf8 "ok:")]])
    (by simp only [exec, hp, execUnix, h0.wf.validateActName he, h0.wf.tokenstateReplace he]) rfl
  refine ⟨w', by simpa using h1, by rw [h2]; rfl, h3, h4, by rw [h2]; exact ⟨_, mem_put_new he rfl, rfl, rfl⟩, ?_⟩
  rintro m p hm ⟨e', he', rfl, ht⟩
  rw [h2, mem_put] at he'
  rcases he' with ⟨he', _⟩ | ⟨e0, g1, g2, rfl⟩
  · exact ⟨e', he', rfl, ht⟩
  · cases ht

theorem parseReq_show (n : String) : parseReq (utf8 ("showtoken:withurl " ++ n)) = .showtoken true n := by
  have := C47 (.show n true)
  have hw : Cmd.wire (.show n true) = utf8 ("showtoken:withurl " ++ n) :=
    congrArg utf8 (String.toList_inj.mp (by simp [withUrlWord]))
  rw [hw] at this
  exact this

/-- `show` for an account which holds nothing. -/
theorem onward_show (hl : HostLaw E) (hr : Reach E w) (h : w.proc = .running) (hi : w.threads 0 = [])
    (hn : HoldsNothing w.ls n) (rs : Vector UInt8 8) (rv : Vector UInt8 64) :
    ∃ w' p, Onward E w w' [.closed, .reply (utf8 ("pending:" ++ E.renderUrl p.url)),
        .request (utf8 ("showtoken:withurl " ++ n))] ∧
      w'.ls.config = w.ls.config ∧ w'.threads 0 = [] ∧ Reach E w' ∧ HoldsPending w'.ls n p ∧
      p.state = b64 rs.toList ∧ p.codeVerifier = b64 rv.toList ∧
      ∀ m q, m ≠ n → HoldsPending w'.ls m q → HoldsPending w.ls m q := by
  have h0 := hr.inv0
  obtain ⟨e, he, rfl, ht⟩ := hn
  obtain ⟨a, ha⟩ := h0.wf.has he
  let inp : Input := { rndState := rs, rndVerifier := rv }
  obtain ⟨url, x, hx, hu⟩ := authUrl_ok hl hr ha.2 inp
  obtain ⟨w', h1, h2, h3, h4⟩ := onward_request hr h hi (buf := utf8 ("showtoken:withurl " ++ e.name)) (inp := inp)
    (ls := w.ls.put e.id (freshPending url inp))
    (next := [.wakeNotifier, .reply (utf8 ("pending:" ++ E.renderUrl url))])
    (l := [[], [.reply (utf8 ("pending:" ++ E.renderUrl url))]])
    (by
      simp only [exec, parseReq_show, execUnix, h0.wf.validateActName he, h0.wf.tokenstate he, ht, startAuth, requestToken,
        h0.wf.account ha, hx, hu]
      have := h0.wf.tokenstateReplace he (freshPending url inp)
      simp only [freshPending] at this
      simp only [this]
      rfl) rfl
  refine ⟨w', ⟨b64 rv.toList, none, b64 rs.toList, url⟩, by simpa using h1, by rw [h2]; rfl, h3, h4,
    by rw [h2]; exact ⟨_, mem_put_new he rfl, rfl, rfl⟩, rfl, rfl, ?_⟩
  rintro m q hm ⟨e', he', rfl, ht'⟩
  rw [h2, mem_put] at he'
  rcases he' with ⟨he', _⟩ | ⟨e0, g1, g2, rfl⟩
  · exact ⟨e', he', rfl, ht'⟩
  · exact absurd (by rw [h0.wf.entry_id_inj g1 he g2]) hm

/-- `show` for an account which has a valid token. -/
theorem onward_token (hr : Reach E w) (h : w.proc = .running) (hi : w.threads 0 = []) {t : ActiveTok}
    (hn : HoldsToken w.ls n t) (ht : w.now < t.expiry) :
    ∃ w', Onward E w w' [.closed, .reply (utf8 ("access_token:" ++ t.accessToken)),
        .request (utf8 ("showtoken:withurl " ++ n))] ∧ w'.ls = w.ls ∧ w'.threads 0 = [] ∧ Reach E w' := by
  have h0 := hr.inv0
  obtain ⟨e, he, rfl, hts⟩ := hn
  obtain ⟨w', h1, h2, h3, h4⟩ := onward_request hr h hi (buf := utf8 ("showtoken:withurl " ++ e.name)) (inp := {})
    (ls := w.ls) (next := [.reply (utf8 ("access_token:" ++ t.accessToken))])
    (l := [[.reply (utf8 ("access_token:" ++ t.accessToken))]])
    (by simp only [exec, parseReq_show, execUnix, h0.wf.validateActName he, h0.wf.tokenstate he, hts]; simp [ht]) rfl
  exact ⟨w', by simpa using h1, h2, h3, h4⟩

/-- A callback with a code, which the token server exchanges for a token. -/
theorem onward_callback (hr : Reach E w) (h : w.proc = .running) (hi : w.threads 0 = [])
    (ha : w.ls.config.get? n = some a) {p : PendingTok} (hn : HoldsPending w.ls n p)
    (hf : ∀ m q, m ≠ n → HoldsPending w.ls m q → q.state ≠ p.state) {buf : Bytes} {sec : Bool} {uri x : Url}
    {code : String} (hsrv : (if sec then w.st.httpsPort else w.st.httpPort).isSome = true)
    (hg : parseGet E buf sec = some uri) (hs : uri.param "state" = some p.state)
    (hc : uri.param "code" = some code) (he : uri.param "error" = none)
    (hx : a.redirectUrl E w.st.httpPort w.st.httpsPort = .ok x) (ho : SameOrigin x uri)
    {b : Body} {tok : String} {s : Nat} (hb : Issued b tok s) (ht : w.now + (s * 1000000000 : Nat) ≤ timeMax) :
    ∃ w' i, i ≠ 0 ∧ Onward E w w' [.event i n .new,
        .resp i a.tokenUri (exchangePost a code p.codeVerifier (E.renderUrl x)) (.body b),
        .post i a.tokenUri (exchangePost a code p.codeVerifier (E.renderUrl x)),
        .httpAnswer i (Answer.bytes (.ok "pizauth processing authentication: you can safely close this page.")),
        .httpReq i buf sec] ∧
      w'.ls.config = w.ls.config ∧ w'.threads 0 = [] ∧ Reach E w' ∧
      ∃ t, HoldsToken w'.ls n t ∧ t.accessToken = tok ∧ t.expiry = w.now + (s * 1000000000 : Nat) := by
  have h0 := hr.inv0
  obtain ⟨e, hem, rfl, hts⟩ := hn
  have hid : w.ls.actIdMatchingTokenState p.state = some e.id := by
    cases hm : w.ls.actIdMatchingTokenState p.state with
    | none => exact absurd rfl (actIdMatching_none hm e hem p hts)
    | some id =>
      obtain ⟨e', g1, rfl, q, g2, g3⟩ := actIdMatching_some hm
      by_cases hne : e'.name = e.name
      · rw [h0.wf.entry_name_inj g1 hem hne]
      · exact absurd g3 (hf _ q hne ⟨e', g1, rfl, g2⟩)
  have hhas : w.ls.Has e a := ⟨hem, ha⟩
  -- the connection
  let i := w.nextTid
  have hi0 : i ≠ 0 := by have := h0.tid0; simp only [i]; omega
  let w1 := { w with threads := setThread w.threads i [.http buf sec], nextTid := i + 1 }.observe [.httpReq i buf sec]
  have o1 : Onward E w w1 [.httpReq i buf sec] :=
    ⟨.one (a := .http buf sec) (by simp [World.step, h, hsrv, w1, i]), rfl, rfl, rfl, h, rfl⟩
  -- the first half
  let c : ExCtx := ⟨e.id, a.tokenUri, exchangePost a code p.codeVerifier (E.renderUrl x)⟩
  have hx1 : exec E w1.st w1.now w1.wall w1.ls i (.http buf sec) {} =
      .ok { ls := w.ls, next := [.httpAnswer (Answer.bytes (.ok
        "pizauth processing authentication: you can safely close this page.")), .exSend c 0] } := by
    show execHttp E w.st w.ls buf sec = _
    simp only [execHttp, hg, hs, hid, h0.wf.account hhas, hx, ho.1, ho.2.1, ho.2.2, he, hc, h0.wf.tokenstate hem, hts,
      ne_eq, not_true_eq_false, or_self, if_false]
    rfl
  obtain ⟨w2, o2, l2, t2, j2⟩ := onward_op (rest := []) {} o1.proc (by simp [w1, World.observe, setThread]) hx1 rfl rfl
  have z1 : w1.threads 0 = [] := by simp [w1, World.observe, setThread, Ne.symm hi0, hi]
  obtain ⟨w3, o3, l3, t3, _, j3⟩ := onward_saying (E := E) (i := i) [.httpAnswer (Answer.bytes (.ok
    "pizauth processing authentication: you can safely close this page."))] (rest := [.exSend c 0]) (ls := [[_]])
    o2.proc t2 rfl
  -- the exchange
  obtain ⟨w4, o4, l4, t4, j4⟩ := onward_op (E := E) {} o3.proc t3 rfl rfl rfl
  obtain ⟨w5, o5, l5, t5, j5⟩ := onward_op (E := E) { net := .body b } o4.proc t4 rfl rfl rfl
  have n5 : w5.now = w.now := by rw [o5.now, o4.now, o3.now, o2.now, o1.now]
  have hexp : checkedAdd w.now (secs s) = some (w.now + (s * 1000000000 : Nat)) := by
    unfold checkedAdd
    exact if_pos ht
  have hl5 : w5.ls = w.ls := by rw [l5]; show w4.ls = _; rw [l4]; show w3.ls = _; rw [l3, l2]
  have hx6 : exec E w5.st w5.now w5.wall w5.ls i (.exDone c b) {} =
      .ok { ls := w.ls.put e.id (freshActive tok w.now (w.now + (s * 1000000000 : Nat)) (b.str "refresh_token")),
            next := [.wakeRefresher, .pushEvent e.name .new, .wakeEventer] } := by
    rw [hl5, n5]
    show execExDone w.now w.ls c b = _
    have hv : w.ls.isActIdValid c.id = true := isActIdValid_iff.mpr ⟨e, hem, rfl⟩
    have h1 : b.str "error" = none := by
      cases hm : b.str "error" with
      | none => rfl
      | some m =>
        simp only [Body.str] at hm
        split at hm <;> cases hm
        exact absurd ‹_› (hb.noError _)
    have h2 : b.str "token_type" = some "Bearer" := by simp [Body.str, hb.bearer]
    have h3 : b.str "access_token" = some tok := by simp [Body.str, hb.token]
    have h4 : b.u64 "expires_in" = some s := by simp [Body.u64, hb.expires]
    simp only [execExDone, hv, h1, h2, h3, h4, c, expiryInstant, hexp, h0.wf.account hhas, h0.wf.get?_name ha, Bool.not_true,
      Bool.false_eq_true, if_false]
    rw [show TokenState.active _ = freshActive tok w.now (w.now + (s * 1000000000 : Nat)) (b.str "refresh_token") from rfl,
      h0.wf.tokenstateReplace hem]
  obtain ⟨w6, o6, l6, t6, j6⟩ := onward_op (E := E) {} o5.proc t5 hx6 rfl rfl
  obtain ⟨w7, o7, l7, t7, _, j7⟩ := onward_saying (E := E) (i := i) [.wakeRefresher, .pushEvent e.name .new, .wakeEventer]
    (rest := []) (ls := [[], [.event i e.name .new], []]) o6.proc t6 rfl
  have o := (((((o1.trans o2).trans o3).trans o4).trans o5).trans o6).trans o7
  have z := Ne.symm hi0
  refine ⟨w7, i, hi0, by simpa using o, by rw [l7, l6]; rfl,
    by rw [j7 0 z, j6 0 z, j5 0 z, j4 0 z, j3 0 z, j2 0 z, z1], o.steps.reach hr,
    { accessToken := tok, obtained := w.now, expiry := w.now + (s * 1000000000 : Nat),
      refreshToken := b.str "refresh_token", ongoing := false, fails := 0, lastAttempt := none },
    ⟨{ name := e.name, id := w.ls.accountCount, ts := _ }, by rw [l7, l6]; exact mem_put_new hem rfl, rfl, rfl⟩, rfl, rfl⟩

/-! ## No thread waits for another one -/

/-- Every operation except waiting and the handling of a request can be performed, whatever comes from the outside. -/
theorem exec_enabled {S : Static} {now : Instant} {wall : SysTime} {ls : LockedState} {i : Nat} (op : Op)
    (hop : ∀ c k wake, op = .exSleep c k wake → wake ≤ now) (hu : ∀ buf, op ≠ .unix buf) (inp : Input) :
    exec E S now wall ls i op inp ≠ .disabled := by
  cases op with
  | unix buf => exact absurd rfl (hu buf)
  | install c => simp only [exec]; split <;> simp
  | notifyError => simp only [exec, execNotifyError]; split <;> simp
  | http => simp only [exec, execHttp]; (repeat' split) <;> simp
  | exAwait => simp only [exec, execExAwait]; (repeat' split) <;> simp
  | exSleep c k wake =>
    have := hop c k wake rfl
    simp only [exec, execExSleep]; rw [if_neg (by omega)]; split <;> simp
  | exDone => simp only [exec, execExDone]; (repeat' split) <;> simp
  | fail => simp only [exec, execFail]; (repeat' split) <;> simp
  | rfStart => exact exec_calm rfl inp
  | rfPerm => exact exec_calm rfl inp
  | rfStore => exact exec_calm rfl inp
  | rfTransient => exact exec_calm rfl inp
  | rfCmdOk => exact exec_calm rfl inp
  | rfCmdErr => exact exec_calm rfl inp
  | rfAwait => exact exec_calm rfl inp
  | _ => simp [exec]

/-- Every operation except waiting can be performed, for some choice of the environment. -/
theorem exec_enabled_some {S : Static} {now : Instant} {wall : SysTime} {ls : LockedState} {i : Nat} (op : Op)
    (hop : ∀ c k wake, op = .exSleep c k wake → wake ≤ now) :
    ∃ inp, exec E S now wall ls i op inp ≠ .disabled := by
  by_cases hu : ∀ buf, op ≠ .unix buf
  · exact ⟨{}, exec_enabled op hop hu {}⟩
  · have hu' : ∃ buf, op = .unix buf := by
      cases op with
      | unix buf => exact ⟨buf, rfl⟩
      | _ => exact absurd (fun _ h => by cases h) hu
    obtain ⟨buf, rfl⟩ := hu'
    simp only [exec]
    cases hp : parseReq buf with
    | dump =>
      cases hd : ls.dumpLoop now wall ls.details with
      | none => exact ⟨{}, by simp [execUnix, authDump, LockedState.dump, hd]⟩
      | some acts =>
        refine ⟨{ dumpOrder := acts }, ?_⟩
        have hpm : acts.isPerm acts = true := List.isPerm_iff.mpr (.refl _)
        simp only [execUnix, authDump, LockedState.dump, hd, hpm, if_true]
        cases encDump { version := dumpVersion, accounts := acts } with
        | none => simp
        | some b => simp only; cases E.encrypt _ b <;> simp
    | restore d =>
      cases hde : E.decrypt (d.take nonceLen) (d.drop nonceLen) with
      | none => exact ⟨{}, by simp only [execUnix, hde]; split <;> simp⟩
      | some plain =>
        have key : ∃ l, ls.restore now wall plain l ≠ .disabled := by
          simp only [LockedState.restore]
          cases decDump plain with
          | none => exact ⟨[], by simp⟩
          | some dd =>
            simp only
            cases ls.restoreCollect now wall dd ls.details with
            | none => exact ⟨[], by simp only; split <;> simp⟩
            | some l =>
              have hpm : l.isPerm l = true := List.isPerm_iff.mpr (.refl _)
              exact ⟨l, by simp only [hpm, if_true]; (repeat' split) <;> simp⟩
        obtain ⟨l, hl⟩ := key
        refine ⟨{ drainOrder := l }, ?_⟩
        simp only [execUnix, hde]
        split
        · simp
        · cases hres : ls.restore now wall plain l <;> simp_all
    | reload => exact ⟨{ conf := .error "" }, by simp [execUnix]⟩
    | refresh u n => exact ⟨{}, by simp only [execUnix, startAuth]; (repeat' split) <;> simp⟩
    | showtoken u n => exact ⟨{}, by simp only [execUnix, startAuth]; (repeat' split) <;> simp⟩
    | revoke n => exact ⟨{}, by simp only [execUnix]; (repeat' split) <;> simp⟩
    | status => exact ⟨{}, by simp only [execUnix]; split <;> simp⟩
    | _ => exact ⟨{}, by simp [execUnix]⟩

/-- The next operation of a thread can be performed. -/
theorem run_enabled {w : World} (hr : Reach E w) (h : w.proc = .running) {i : Nat} {op : Op} {rest : List Op}
    (ht : w.threads i = op :: rest) (hop : ∀ c k wake, op = .exSleep c k wake → wake ≤ w.now) :
    ∃ inp w', w.step E (.run i inp) = some w' := by
  obtain ⟨inp, hx⟩ := exec_enabled_some (E := E) (S := w.st) (now := w.now) (wall := w.wall) (ls := w.ls) (i := i) op hop
  refine ⟨inp, ?_⟩
  simp only [World.step, h, ht]
  cases hc : exec E w.st w.now w.wall w.ls i op inp with
  | disabled => exact absurd hc hx
  | panic => exact ⟨_, rfl⟩
  | ok f => exact ⟨_, rfl⟩

/-- The next operation of a thread other than the main thread can be performed, whatever comes from the outside. -/
theorem run_enabled_work {w : World} (hr : Reach E w) (h : w.proc = .running) {i : Nat} (hi : i ≠ 0) {op : Op}
    {rest : List Op} (ht : w.threads i = op :: rest) (hop : ∀ c k wake, op = .exSleep c k wake → wake ≤ w.now)
    (inp : Input) : ∃ w', w.step E (.run i inp) = some w' := by
  have hx := exec_enabled (E := E) (S := w.st) (now := w.now) (wall := w.wall) (ls := w.ls) (i := i) op hop
    (by
      rintro buf rfl
      exact hi ((Reach.shape w hr).unix (i := i) (buf := buf) (by rw [ht]; simp)).1) inp
  simp only [World.step, h, ht]
  cases hc : exec E w.st w.now w.wall w.ls i op inp with
  | disabled => exact absurd hc hx
  | panic => exact ⟨_, rfl⟩
  | ok f => exact ⟨_, rfl⟩

/-! ## The main thread can finish -/

/-- An operation of the main thread other than `shutdown` and a failing `status` can be performed. -/
theorem main_run {w : World} (hr : Reach E w) (h : w.proc = .running) {op : Op} {rest : List Op}
    (ht : w.threads 0 = op :: rest) (hop : ∀ c k wake, op ≠ .exSleep c k wake)
    (hq : ∀ buf, op = .unix buf → parseReq buf ≠ .shutdown ∧ parseReq buf ≠ .status) :
    ∃ inp f, ExecR E w.st w.now w.wall w.ls 0 op inp f ∧ w.step E (.run 0 inp) = some (w.apply 0 rest f) ∧
      (w.apply 0 rest f).proc = .running ∧ (w.apply 0 rest f).threads 0 = f.next ++ rest := by
  obtain ⟨inp, w', hs⟩ := run_enabled hr h ht (fun c k wake hc => absurd hc (hop c k wake))
  have hs' := (stepR_of_step hr.inv0.wf hs).2
  cases hs' with
  | runPanic ht' hx =>
    rw [ht] at ht'
    cases ht'
    obtain ⟨buf, h1, h2, _⟩ := hr.panic ht hx
    exact absurd h2 (hq buf h1).2
  | @run _ _ op' rest' f ht' hx =>
    rw [ht] at ht'
    cases ht'
    refine ⟨inp, f, hx, hs, ?_, apply_threads_self hr.inv0.tid0 rest f⟩
    have hterm : f.term = false := by
      cases hx <;> first | rfl | skip
      case shutdown buf hp => exact absurd hp (hq buf rfl).1
    simp [World.apply, hterm, h]

theorem drain_main {w : World} : ∀ (ops : List Op), Reach E w → w.proc = .running → w.threads 0 = ops ++ [.close] →
    (∀ o ∈ ops, o.isTail = true ∨ o.isReply = true) →
    ∃ w', Steps E w w' ∧ w'.proc = .running ∧ w'.threads 0 = [] := by
  intro ops
  induction ops generalizing w with
  | nil =>
    intro hr h ht _
    obtain ⟨inp, f, hx, hs, h1, h2⟩ := main_run hr h ht (by simp) (by simp)
    refine ⟨_, .one hs, h1, ?_⟩
    rw [h2, (hx.plain (by simp)).1]; rfl
  | cons o ops ih =>
    intro hr h ht ho
    have ho1 := ho o (by simp)
    obtain ⟨inp, f, hx, hs, h1, h2⟩ := main_run hr h (op := o) (rest := ops ++ [.close]) (by simpa using ht)
      (by rintro c k wake rfl; simp [Op.isTail, Op.isReply] at ho1)
      (by rintro buf rfl; simp [Op.isTail, Op.isReply] at ho1)
    rw [(hx.plain (by rcases ho1 with ho1 | ho1 <;> simp [ho1])).1] at h2
    obtain ⟨w', g1, g2, g3⟩ := ih (hr.step _ hs) h1 (by simpa using h2) (fun o' h' => ho o' (by simp [h']))
    exact ⟨w', (Steps.one hs).trans g1, g2, g3⟩

theorem drain_install {w : World} {c : Config} (hr : Reach E w) (h : w.proc = .running)
    (ht : w.threads 0 = [.install c, .wakeNotifier, .wakeRefresher, .reply (utf8 "ok:"), .close]) :
    ∃ w', Steps E w w' ∧ w'.proc = .running ∧ w'.threads 0 = [] := by
  obtain ⟨inp, f, hx, hs, h1, h2⟩ := main_run hr h ht (by simp) (by simp)
  rw [hx.install_next.1] at h2
  obtain ⟨w', g1, g2, g3⟩ := drain_main [.wakeNotifier, .wakeRefresher, .reply (utf8 "ok:")] (hr.step _ hs) h1 h2
    (by simp [Op.isTail, Op.isReply])
  exact ⟨w', (Steps.one hs).trans g1, g2, g3⟩

/-- The main thread can finish what it is doing, unless it is about to handle `shutdown` or `status`. -/
theorem main_idle {w : World} (hr : Reach E w) (h : w.proc = .running)
    (hq : ∀ buf, w.threads 0 = [.unix buf, .close] → parseReq buf ≠ .shutdown ∧ parseReq buf ≠ .status) :
    ∃ w', Steps E w w' ∧ w'.proc = .running ∧ w'.threads 0 = [] := by
  have hm := (Reach.shape w hr).main
  generalize hth : w.threads 0 = l at hm
  cases hm with
  | idle => exact ⟨w, .refl, h, hth⟩
  | start buf =>
    obtain ⟨inp, f, hx, hs, h1, h2⟩ := main_run hr h hth (by simp) (by rintro _ hb; cases hb; exact hq _ hth)
    rcases hx.unix_next with ⟨c, hc⟩ | hn
    · rw [hc] at h2
      obtain ⟨w', g1, g2, g3⟩ := drain_install (hr.step _ hs) h1 h2
      exact ⟨w', (Steps.one hs).trans g1, g2, g3⟩
    · obtain ⟨w', g1, g2, g3⟩ := drain_main _ (hr.step _ hs) h1 h2 hn
      exact ⟨w', (Steps.one hs).trans g1, g2, g3⟩
  | inst c => exact drain_install hr h hth
  | rest ho => exact drain_main _ hr h hth ho

/-- How long a thread still has to wait before it repeats a POST. -/
theorem Reach.wake : ∀ w, Reach E w → ∀ i c k t, .exSleep c k t ∈ w.threads i → t ≤ w.now + 6000000000 := by
  refine Reach.induct ?_ ?_
  · intro w hi i c k t ho
    rw [hi.threads] at ho; cases ho
  · intro w a w' hr h0 _ ih hs i c k t ho
    cases hs <;> try exact ih i c k t ho
    case tick d => have := ih i c k t ho; simp only; omega
    case connect buf hb =>
      by_cases hi : i = 0
      · subst hi; simp [setThread] at ho
      · simp only [setThread_ne _ hi] at ho; exact ih i c k t ho
    case http buf sec hb =>
      by_cases hi : i = w.nextTid
      · subst hi; simp [setThread] at ho
      · simp only [setThread_ne _ hi] at ho; exact ih i c k t ho
    case run tid inp op rest f ht hx =>
      rcases mem_apply_threads ho with ⟨rfl, ho | ho⟩ | ⟨_, ho, _⟩ | ⟨_, ho, _⟩
      · cases hx <;> simp at ho
        case exAwaitRetry =>
          obtain ⟨_, _, rfl⟩ := ho
          exact Int.le_refl _
        all_goals (split at ho <;> simp at ho)
      · exact ih i c k t (by rw [ht]; simp [ho])
      · obtain ⟨e, _, h, _⟩ := hx.spawn_rfStart ho
        cases h
      · exact ih i c k t ho
    case refScan es hp hes =>
      rcases spawnAll_cases w.threads w.nextTid i (es.map fun e => Op.rfStart e.id) with ⟨_, h1⟩ | ⟨_, op, hop, h1⟩ | ⟨_, h1⟩
      · simp only [h1] at ho; exact ih i c k t ho
      · simp only [h1, List.mem_singleton] at ho
        subst ho
        simp at hop
      · simp only [h1] at ho; exact ih i c k t ho

end Pizauth
