import Verif.Proof.Session
import Verif.Props.Callback
import Verif.Props.AuthUrl

/-!
# C91, C92: nothing gets stuck
-/

namespace Pizauth
open LockedState

variable {E : Env}

/-- **C91.** Whatever has happened to a running daemon, each of its accounts can be given a token: `revoke`, `show`, log
in, `show`. Here `rs` and `rv` are the random bytes which `show` draws (no other account waits for the state made of
them), `buf` is the request by which the browser brings the code to the account's redirect URI `x`, and `b` is what the
token server answers. Then the daemon can go from `w` to a state in which the token was shown; it needs no time for
this, and the list is all that is observed. The user is told the account's `auth_uri` with the parameters of `C46`. -/
theorem C91 (hl : HostLaw E) {w : World} (hr : Reach E w) (hp : w.proc = .running) (hi : w.threads 0 = [])
    {n : String} {a : Account} (ha : w.ls.config.get? n = some a)
    (rs : Vector UInt8 8) (rv : Vector UInt8 64) (hf : ∀ m q, m ≠ n → HoldsPending w.ls m q → q.state ≠ b64 rs.toList)
    {x uri : Url} {buf : Bytes} {sec : Bool} {code : String}
    (hx : a.redirectUrl E w.st.httpPort w.st.httpsPort = .ok x) (ho : SameOrigin x uri)
    (hsrv : (if sec then w.st.httpsPort else w.st.httpPort).isSome = true) (hg : parseGet E buf sec = some uri)
    (hs : uri.param "state" = some (b64 rs.toList)) (hc : uri.param "code" = some code) (he : uri.param "error" = none)
    {b : Body} {tok : String} {s : Nat} (hb : Issued b tok s) (h0 : 0 < s)
    (ht : w.now + (s * 1000000000 : Nat) ≤ timeMax) :
    ∃ w' i url, i ≠ 0 ∧ Steps E w w' ∧ w'.proc = .running ∧ w'.threads 0 = [] ∧ w'.ls.config = w.ls.config ∧
      E.parseWithParams a.authUri
        ([("access_type", "offline"), ("code_challenge", b64 (E.sha256 (utf8 (b64 rv.toList)))),
          ("code_challenge_method", "S256"), ("client_id", a.clientId), ("redirect_uri", E.renderUrl x),
          ("response_type", "code"), ("state", b64 rs.toList)] ++
          (if a.scopes = [] then [] else [("scope", " ".intercalate a.scopes)]) ++ a.authUriFields) = some url ∧
      w'.log = [
        .closed, .reply (utf8 ("access_token:" ++ tok)), .request (utf8 ("showtoken:withurl " ++ n)),
        .event i n .new,
        .resp i a.tokenUri (exchangePost a code (b64 rv.toList) (E.renderUrl x)) (.body b),
        .post i a.tokenUri (exchangePost a code (b64 rv.toList) (E.renderUrl x)),
        .httpAnswer i (Answer.bytes (.ok "pizauth processing authentication: you can safely close this page.")),
        .httpReq i buf sec,
        .closed, .reply (utf8 ("pending:" ++ E.renderUrl url)), .request (utf8 ("showtoken:withurl " ++ n)),
        .closed, .reply (utf8 "ok:"), .event 0 n .revoked, .request (utf8 ("revoke:" ++ n))].map (fun o => (w.now, o)) ++
        w.log := by
  obtain ⟨w1, a1, a2, a3, a4, a5, a6⟩ := onward_revoke hr hp hi ha
  obtain ⟨w2, p, b1, b2, b3, b4, b5, b6, b7, b8⟩ := onward_show hl a4 a1.proc a3 a5 rs rv
  have n2 : w2.now = w.now := by rw [b1.now, a1.now]
  have s2 : w2.st = w.st := by rw [b1.st, a1.st]
  have c2 : w2.ls.config = w.ls.config := by rw [b2, a2]
  obtain ⟨w3, i, c1, c3, c4, c5, c6, t, c7, c8, c9⟩ := onward_callback (n := n) (a := a) (p := p) (x := x) (s := s) (tok := tok)
    (b := b) (buf := buf) (sec := sec) (uri := uri) (code := code) b4 b1.proc b3 (by rw [c2]; exact ha) b5
    (fun m q hm hq => by rw [b6]; exact hf m q hm (a6 m q hm (b8 m q hm hq)))
    (by rw [s2]; exact hsrv) hg (by rw [b6]; exact hs) hc he (by rw [s2]; exact hx) ho hb (by rw [n2]; exact ht)
  obtain ⟨w4, d1, d2, d3, d4⟩ := onward_token c6 c3.proc c5 c7 (by rw [c9, c3.now]; omega)
  have o := ((a1.trans b1).trans c3).trans d1
  refine ⟨w4, i, p.url, c1, o.steps, o.proc, d3, by rw [d2, c4, c2], ?_, ?_⟩
  · obtain ⟨a', base, x', e1, e2, e3, e4⟩ := C46 b4 b5
    rw [c2, ha] at e1
    cases e1
    rw [s2, hx] at e3
    cases e3
    rw [e4, b6, ‹p.codeVerifier = _›]
    simp only [Env.parseWithParams, e2, Option.map_some, List.append_assoc]
  rw [o.log, b7, c8]
  rfl

/-- **C91.** A daemon which is serving a client can finish this, unless the client asks it to shut down (or for `status`,
see C07). -/
theorem C91_idle {w : World} (hr : Reach E w) (hp : w.proc = .running)
    (hq : ∀ buf, w.threads 0 = [.unix buf, .close] → parseReq buf ≠ .shutdown ∧ parseReq buf ≠ .status) :
    ∃ w', Steps E w w' ∧ w'.proc = .running ∧ w'.threads 0 = [] := main_idle hr hp hq

/-- **C92.** No thread which exchanges a code or refreshes a token ever waits for another thread: it can go on, whatever
the others are doing and whatever it gets from the outside, at once or, when it waits to repeat a POST, after at most six
seconds. -/
theorem C92 {w : World} (hr : Reach E w) (hp : w.proc = .running) {i : Nat} (hi : i ≠ 0) (hne : w.threads i ≠ []) :
    ∃ (d : Nat) (w1 : World), w.step E (.tick d) = some w1 ∧ d ≤ 6000000000 ∧
      (0 < d → ∃ c k t, w.threads i = [.exSleep c k t]) ∧ ∀ inp, ∃ w2, w1.step E (.run i inp) = some w2 := by
  have hstep : ∀ d : Nat, w.step E (.tick d) = some { w with now := w.now + (d : Int), wall := w.wall + (d : Int) } := by
    intro d; simp [World.step, hp]
  cases hth : w.threads i with
  | nil => exact absurd hth hne
  | cons op rest =>
    by_cases hw : ∃ c k t, op = .exSleep c k t ∧ w.now < t
    · obtain ⟨c, k, t, rfl, hlt⟩ := hw
      have h6 := Reach.wake w hr i c k t (by rw [hth]; simp)
      refine ⟨(t - w.now).toNat, _, hstep _, by omega, fun _ => ⟨c, k, t, ?_⟩, fun inp => ?_⟩
      · have := (Reach.shape w hr).work i hi
        rw [hth] at this
        rcases this.cons with ⟨h, _⟩ | ⟨_, h⟩ | ⟨⟨_, h⟩, _⟩
        · cases h
        · rw [h]
        · cases h
      · exact run_enabled_work (hr.step _ (hstep (t - w.now).toNat)) hp hi (op := .exSleep c k t) (rest := rest) hth
          (by rintro _ _ _ h; cases h; simp only; omega) inp
    · refine ⟨0, _, hstep 0, by omega, by omega, fun inp => ?_⟩
      refine run_enabled_work (hr.step _ (hstep 0)) hp hi (op := op) (rest := rest) hth ?_ inp
      rintro c k t rfl
      have : ¬ w.now < t := fun h => hw ⟨c, k, t, rfl, h⟩
      simp only
      omega

/-- **C92.** The thread which serves clients can go on as well. (What it gets from the outside has to be something that can
come: for `dump`, an order of the accounts; for `reload`, a configuration which can be read, or an error.) -/
theorem C92_main {w : World} (hr : Reach E w) (hp : w.proc = .running) (hne : w.threads 0 ≠ []) :
    ∃ inp w', w.step E (.run 0 inp) = some w' := by
  cases hth : w.threads 0 with
  | nil => exact absurd hth hne
  | cons op rest =>
    refine run_enabled hr hp hth ?_
    rintro c k t rfl
    have := (Reach.shape w hr).main
    rw [hth] at this
    rcases this.cons with ⟨_, h, _⟩ | ⟨_, h, _⟩ | ⟨h, _⟩ | ⟨h, _⟩
    · cases h
    · cases h
    · cases h
    · simp [Op.isTail, Op.isReply] at h

/-! ## Concrete cases -/

open Demo in
/-- C91: account "a" gets a new token while a refresh of its old one is in progress. -/
example : ∃ w', Steps env (after sRefresh) w' ∧ (.reply (utf8 "access_token:T2")) ∈ w'.log.map Prod.snd ∧
    (.reply (utf8 "access_token:T2")) ∉ (after sRefresh).log.map Prod.snd := by
  obtain ⟨w', i, url, _, h1, _, _, _, _, h2⟩ := C91 hostLaw (after_reach sRefresh) (by decide +kernel) (by decide +kernel)
    (n := "a") (a := act "a" "https://ts/token") (by decide +kernel) (Vector.replicate 8 0) (Vector.replicate 64 0)
    (by
      rintro m q hm ⟨e, he, rfl, ht⟩
      have : ∀ e ∈ (after sRefresh).ls.details, e.name ≠ "a" → e.ts = .empty := by decide +kernel
      rw [this e he hm] at ht; cases ht)
    (x := ⟨"http", some "localhost", some 8080, "/", []⟩)
    (uri := ⟨"http", some "localhost", some 8080, "/", [("code", "c"), ("state", "AAAAAAAAAAA")]⟩) (buf := callback)
    (sec := false) (code := "c") (by decide +kernel) ⟨rfl, rfl, rfl⟩ (by decide +kernel) (by decide +kernel)
    (by decide +kernel) rfl rfl (b := answer2) (tok := "T2") (s := 3600) (issued_of (by decide +kernel) (by decide +kernel) (by decide +kernel) (by decide +kernel)) (by decide)
    (by decide +kernel)
  exact ⟨w', h1, by rw [h2]; simp, by decide +kernel⟩

open Demo in
/-- C91, C92: while `reload` is being handled. -/
example : ∃ w', Steps env (after [.connect (utf8 "reload:")]) w' ∧ w'.threads 0 = [] := by
  obtain ⟨w', h1, _, h2⟩ := C91_idle (after_reach [.connect (utf8 "reload:")]) (by decide +kernel) (by
    intro buf h
    have : buf = utf8 "reload:" := by
      have h' : (after [.connect (utf8 "reload:")]).threads 0 = [.unix (utf8 "reload:"), .close] := rfl
      rw [h'] at h; cases h; rfl
    subst this
    decide +kernel)
  exact ⟨w', h1, h2⟩

open Demo in
/-- C92: a refresh thread. -/
example : (after sRefresh).threads 2 ≠ [] ∧ (after sRefresh).proc = .running := by
  constructor
  · intro h
    have : ((after sRefresh).threads 2).isEmpty = false := by decide +kernel
    rw [h] at this; cases this
  · decide +kernel

end Pizauth
