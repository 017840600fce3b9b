import Verif.Model.World
import Verif.Spec.Log
import Verif.Spec.Trace

/-!
# A concrete daemon, for the examples beside the theorems

Two accounts; the URL "parser" is a table of the URLs which occur.
-/

namespace Pizauth.Demo
open Pizauth

/-- The URLs which occur in the examples. -/
def urls : List (String × Url) :=
  [("https://as/auth", ⟨"https", some "as", none, "/auth", []⟩),
   ("https://ts/token", ⟨"https", some "ts", none, "/token", []⟩),
   ("https://ts2/token", ⟨"https", some "ts2", none, "/token", []⟩),
   ("http://localhost/", ⟨"http", some "localhost", none, "/", []⟩),
   ("https://localhost/", ⟨"https", some "localhost", none, "/", []⟩),
   ("http://localhost:8080/?code=c&state=AAAAAAAAAAA",
      ⟨"http", some "localhost", some 8080, "/", [("code", "c"), ("state", "AAAAAAAAAAA")]⟩),
   ("http://localhost:8080/?error=denied&state=AAAAAAAAAAA",
      ⟨"http", some "localhost", some 8080, "/", [("error", "denied"), ("state", "AAAAAAAAAAA")]⟩),
   ("http://evil:8080/?code=c&state=AAAAAAAAAAA",
      ⟨"http", some "evil", some 8080, "/", [("code", "c"), ("state", "AAAAAAAAAAA")]⟩),
   ("http://localhost:8080/?code=c&state=zzz",
      ⟨"http", some "localhost", some 8080, "/", [("code", "c"), ("state", "zzz")]⟩),
   ("http://localhost:8080/?code=c",
      ⟨"http", some "localhost", some 8080, "/", [("code", "c")]⟩)]

def renderPairs : List (String × String) → String
  | [] => ""
  | [(k, v)] => k ++ "=" ++ v
  | (k, v) :: r => k ++ "=" ++ v ++ "&" ++ renderPairs r

/-- External components: a URL table, "hash" and "encryption" that do nothing. -/
def env : Env where
  parseUrl s := urls.lookup s
  renderUrl u := u.scheme ++ "://" ++ u.host.getD "" ++
    (match u.port with
     | some p => ":" ++ toString p
     | none => "") ++ u.rest ++ (if u.query.isEmpty then "" else "?" ++ renderPairs u.query)
  sha256 b := b
  encrypt _ p := some p
  decrypt _ c := some c
  rfc2822 _ := some "date"

def act (name tokenUri : String) : Account :=
  { name := name, authUri := "https://as/auth", authUriFields := [("prompt", "consent")], clientId := "id",
    clientSecret := some "sec", redirectUri := "http://localhost/", refreshAtLeast := none,
    refreshBeforeExpiry := none, refreshRetry := none, scopes := ["s1", "s2"], tokenUri := tokenUri }

def conf : Config :=
  { accounts := [("a", act "a" "https://ts/token"), ("b b", act "b b" "https://ts2/token")]
    authNotifyCmd := some "notify", authNotifyInterval := secs 900, errorNotifyCmd := none,
    httpListen := some "127.0.0.1:8080", httpsListen := none, transientErrorIfCmd := some "nc -z host 80",
    refreshAtLeast := none, refreshBeforeExpiry := none, refreshRetry := none, tokenEventCmd := some "ev" }

/-- The same, but account "a" has another token server. -/
def conf2 : Config := { conf with accounts := [("a", act "a" "https://ts2/token"), ("b b", act "b b" "https://ts2/token")] }

/-- The same, but with a shorter refresh time for account "a" and without "b b". -/
def conf3 : Config :=
  { conf with accounts := [("a", { act "a" "https://ts/token" with refreshRetry := some (secs 5) })] }

def static : Static := ⟨some 8080, none, none⟩

def w0 : World := World.init conf static 0 1700000000000000000

theorem w0_init : IsInit env w0 where
  conf := by decide +kernel
  ls := rfl
  httpPort := rfl
  httpsPort := rfl
  threads := fun _ => rfl
  nextTid := rfl
  refPred := rfl
  refPc := rfl
  notPred := rfl
  notPc := rfl
  evQueue := rfl
  evPred := rfl
  evPc := rfl
  proc := rfl
  log := rfl

theorem run_reach {E : Env} : ∀ (l : List Action) {w w' : World}, Reach E w → w.run E l = some w' → Reach E w'
  | [], w, w', h, hr => by simp only [World.run, Option.some.injEq] at hr; exact hr ▸ h
  | a :: l, w, w', h, hr => by
    simp only [World.run] at hr
    cases hs : w.step E a with
    | none => simp [hs] at hr
    | some w1 => simp only [hs] at hr; exact run_reach l (.step a h hs) hr

theorem run_steps {E : Env} {w1 : World} : ∀ (l : List Action) {w w' : World}, Steps E w1 w →
    w.run E l = some w' → Steps E w1 w'
  | [], w, w', h, hr => by simp only [World.run, Option.some.injEq] at hr; exact hr ▸ h
  | a :: l, w, w', h, hr => by
    simp only [World.run] at hr
    cases hs : w.step E a with
    | none => simp [hs] at hr
    | some w1 => simp only [hs] at hr; exact run_steps l (.step a h hs) hr

/-- The state after a list of actions (or the initial state if they are not possible). -/
def after (l : List Action) : World := (w0.run env l).getD w0

theorem after_reach (l : List Action) : Reach env (after l) := by
  unfold after
  cases h : w0.run env l with
  | none => exact .init w0_init
  | some w => exact run_reach l (.init w0_init) h

/-- The state after some more actions. -/
def andThen (w : World) (l : List Action) : World := (w.run env l).getD w

theorem andThen_steps (w : World) (l : List Action) : Steps env w (andThen w l) := by
  unfold andThen
  cases h : w.run env l with
  | none => exact .refl
  | some w' => exact run_steps l .refl h

theorem andThen_one {w : World} {a : Action} (h : (w.step env a).isSome = true) :
    w.step env a = some (andThen w [a]) := by
  unfold andThen
  simp only [World.run]
  cases hs : w.step env a with
  | none => rw [hs] at h; cases h
  | some w' => rfl

/-- A check that the next step of the main thread writes an answer. -/
theorem answers_of {w : World} {buf b : Bytes} {t t' : Instant} (hr : Reach env w)
    (h1 : (w.step env (.run 0 {})).map World.log = some ((t, .reply b) :: w.log))
    (h2 : lastRequest w.log = some (t', buf)) : Answers env w buf b := by
  refine ⟨hr, ?_, ⟨t', h2⟩⟩
  cases hs : w.step env (.run 0 {}) with
  | none => rw [hs] at h1; cases h1
  | some w' =>
    rw [hs] at h1
    exact ⟨_, w', t, hs, Option.some.inj h1⟩

/-- Check a history. -/
def duringB (p : World → Bool) (q : World → Action → World → Bool) : World → List Action → Bool
  | w, [] => p w
  | w, a :: l =>
    match w.step env a with
    | none => false
    | some w' => p w && q w a w' && duringB p q w' l

theorem during_cons {E : Env} {P : World → Prop} {Q : World → Action → World → Prop} {w0 w w1 : World} {a : Action}
    (hp : P w0) (hs : w0.step E a = some w) (hq : Q w0 a w) (h : During E P Q w w1) : During E P Q w0 w1 := by
  induction h with
  | refl h => exact .step a (.refl hp) hs hq h
  | step b _ hs' hq' hp' ih => exact .step b ih hs' hq' hp'

theorem during_run {P : World → Prop} {Q : World → Action → World → Prop} {p : World → Bool}
    {q : World → Action → World → Bool} (hp : ∀ w, p w = true → P w) (hq : ∀ w a w', q w a w' = true → Q w a w') :
    ∀ (l : List Action) {w : World}, duringB p q w l = true → During env P Q w (andThen w l)
  | [], w, h => .refl (hp w h)
  | a :: l, w, h => by
    simp only [duringB] at h
    cases hs : w.step env a with
    | none => rw [hs] at h; cases h
    | some w' =>
      rw [hs] at h
      simp only [Bool.and_eq_true] at h
      have ih := during_run hp hq l h.2
      have hrun : ∀ (l : List Action) {w : World}, duringB p q w l = true → (w.run env l).isSome = true := by
        intro l
        induction l with
        | nil => intro w _; rfl
        | cons b l ih =>
          intro w h
          simp only [duringB] at h
          simp only [World.run]
          cases hs : w.step env b with
          | none => rw [hs] at h; cases h
          | some w' =>
            rw [hs] at h
            simp only [Bool.and_eq_true] at h
            exact ih h.2
      have he : andThen w (a :: l) = andThen w' l := by
        have := hrun l h.2
        unfold andThen
        simp only [World.run, hs]
        cases hr : w'.run env l with
        | none => rw [hr] at this; cases this
        | some w2 => rfl
      rw [he]
      exact during_cons (hp w h.1.1) hs (hq _ _ _ h.1.2) ih

theorem during_of {P : World → Prop} {Q : World → Action → World → Prop} {p : World → Bool}
    {q : World → Action → World → Bool} (hp : ∀ w, p w = true → P w) (hq : ∀ w a w', q w a w' = true → Q w a w')
    {l : List Action} (h : duringB p q w0 l = true) : During env P Q w0 (after l) := during_run hp hq l h

/-! ## Stories -/

def n0 (k : Nat) : List Action := List.replicate k (.run 0 {})
def n1 (k : Nat) : List Action := List.replicate k (.run 1 {})

def showA : Bytes := Cmd.wire (.show "a" true)
def refreshA : Bytes := Cmd.wire (.refresh "a" true)
def revokeA : Bytes := Cmd.wire (.revoke "a")

def callback : Bytes := utf8 "GET /?code=c&state=AAAAAAAAAAA HTTP/1.1\r\nHost: localhost:8080\r\n\r\n"
def callbackErr : Bytes := utf8 "GET /?error=denied&state=AAAAAAAAAAA HTTP/1.1\r\nHost: localhost:8080\r\n\r\n"

/-- The token server's answer. -/
def answer : Body :=
  .obj [("token_type", .str "Bearer"), ("access_token", .str "T1"), ("expires_in", .u64 3600),
        ("refresh_token", .str "R1")]

def answer2 : Body :=
  .obj [("token_type", .str "Bearer"), ("access_token", .str "T2"), ("expires_in", .u64 3600)]

/-- `pizauth show a` starts an authorisation. -/
def sAsk : List Action := [.connect showA] ++ n0 4

/-- The browser is redirected to pizauth; up to (not including) the use of the token server's answer, by thread 1. -/
def sCallback : List Action := sAsk ++ [.http callback false] ++ n1 3 ++ [.run 1 { net := .body answer }]

/-- The token is stored, an event is queued. -/
def sToken : List Action := sCallback ++ n1 4

/-- `pizauth show a` is about to be answered. -/
def sShow : List Action := sToken ++ [.connect showA, .run 0 {}]

/-- `pizauth refresh a`: thread 2 is about to send the refresh token. -/
def sRefresh : List Action := sToken ++ [.connect refreshA] ++ n0 3 ++ [.run 2 {}]

/-- The refresh was answered and its result stored. -/
def sRefreshed : List Action :=
  sRefresh ++ [.run 2 {}, .run 2 { net := .body answer2 }, .run 2 {}, .run 2 {}, .run 2 {}, .run 2 {}, .run 2 {}]

end Pizauth.Demo
