import Verif.Proof.Leak
import Verif.Props.AuthUrl
import Verif.Props.Demo

/-!
# C97: Client secrets, verifiers and codes go nowhere but to token servers

Replace the client secrets in configurations, the random bytes which verifiers are made of, and the authorisation codes
in callbacks by others (so that the hashes of verifiers stay the same), and leave everything else that happens to the
server as it is. Then everything that can be observed of the server stays as it is too, except for the fields
`client_secret`, `code_verifier` and `code` of forms which are sent to token servers.

`dump` and `restore` are left out: dumps contain client secrets, in encrypted form.
-/

namespace Pizauth

/-- C97. -/
theorem C97 {E E' : Env} {w w' : World} {l : List Action} (s : Swap) (hs : s.Ok E E') (hi : IsInit E w)
    (hd : ∀ a ∈ l, ¬ AsksDumpOrRestore a) (hr : w.run E l = some w') :
    ∃ v', { w with ls := LockedState.new (w.ls.config.swap s) }.run E' (l.map (Action.swap s)) = some v' ∧
      v'.proc = w'.proc ∧ v'.log = w'.log.map fun p => (p.1, p.2.swap s) := by
  have h := swap_run hs l (.init hi) (fun t buf hm => by rw [hi.log] at hm; cases hm) hd
  have e : w.swap s = { w with ls := LockedState.new (w.ls.config.swap s) } := by
    unfold World.swap
    rw [← swap_new, ← hi.ls, hi.log]
    congr 1
    funext i
    rw [hi.threads]; rfl
  rw [e, hr] at h
  exact ⟨_, h, rfl, rfl⟩

/-- C97: other verifiers, with the same hashes, can be had: there is such a replacement for every other way of making
random bytes. -/
theorem C97_verifiers (E : Env) (f : Vector UInt8 64 → Vector UInt8 64) (hf : ∀ x y, f x = f y → x = y) :
    ∃ (s : Swap) (E' : Env), s.bytes = f ∧ s.Ok E E' := by
  classical
  have hb : ∀ x y : Vector UInt8 64, b64 x.toList = b64 y.toList → x = y := by
    intro x y h
    exact Vector.toList_inj.mp (b64Enc_inj _ _ (String.ofList_injective h))
  refine ⟨⟨id, f, fun v => if h : ∃ r : Vector UInt8 64, v = b64 r.toList then b64 (f h.choose).toList else v, id, fun _ => id⟩,
    { E with sha256 := fun b => if h : ∃ r : Vector UInt8 64, b = utf8 (b64 (f r).toList) then E.sha256 (utf8 (b64 h.choose.toList))
      else E.sha256 b }, rfl, ⟨fun _ _ h => h, ?_, rfl, ?_, ?_⟩⟩
  · intro r
    have h : ∃ q : Vector UInt8 64, b64 r.toList = b64 q.toList := ⟨r, rfl⟩
    simp only [dif_pos h]
    rw [← hb _ _ h.choose_spec]
  · intro r
    have h : ∃ q : Vector UInt8 64, utf8 (b64 (f r).toList) = utf8 (b64 (f q).toList) := ⟨r, rfl⟩
    simp only [dif_pos h]
    rw [← hf _ _ (hb _ _ (utf8_inj h.choose_spec))]
  · intro buf sec
    cases hp : parseGet E buf sec with
    | none => simp [hp]
    | some u => simp [hp, Url.swap]

/-! The history in which a token is obtained and refreshed, with the client secret "sec!" instead of "sec", another
verifier, and the code "d" instead of "c". -/

namespace Demo.Leak

def urlC : Url := ⟨"http", some "localhost", some 8080, "/", [("code", "c"), ("state", "AAAAAAAAAAA")]⟩
def urlD : Url := ⟨"http", some "localhost", some 8080, "/", [("code", "d"), ("state", "AAAAAAAAAAA")]⟩

def urls : List (String × Url) :=
  [("https://as/auth", ⟨"https", some "as", none, "/auth", []⟩),
   ("https://ts/token", ⟨"https", some "ts", none, "/token", []⟩),
   ("https://ts2/token", ⟨"https", some "ts2", none, "/token", []⟩),
   ("http://localhost/", ⟨"http", some "localhost", none, "/", []⟩),
   ("http://localhost:8080/?code=c&state=AAAAAAAAAAA", urlC),
   ("http://localhost:8080/?code=d&state=AAAAAAAAAAA", urlD)]

/-- The functions of `Demo`, with fewer URLs and a hash which is always the same. -/
def env : Env := { Demo.env with parseUrl := fun s => urls.lookup s, sha256 := fun _ => [1, 2, 3] }

def callbackD : Bytes := utf8 "GET /?code=d&state=AAAAAAAAAAA HTTP/1.1\r\nHost: localhost:8080\r\n\r\n"

def swap : Swap where
  secret x := x ++ "!"
  bytes _ := Vector.replicate 64 7
  verifier _ := b64 (Vector.replicate 64 7).toList
  code x := if x = "c" then "d" else x
  page sec buf := if sec = false ∧ parseGet env buf false = some urlC then callbackD else buf

theorem lookup_mem {s : String} {u : Url} : ∀ {l : List (String × Url)}, l.lookup s = some u → (s, u) ∈ l
  | (k, v) :: l, h => by
    rw [List.lookup_cons] at h
    by_cases hk : s = k
    · subst hk
      simp only [beq_self_eq_true] at h
      cases h; simp
    · rw [beq_false_of_ne hk] at h
      exact List.mem_cons_of_mem _ (lookup_mem h)

theorem parseGet_url {b : Bytes} {sec : Bool} {u : Url} (h : parseGet env b sec = some u) :
    ∃ x : String, ((if sec then "https" else "http") ++ "://" ++ x, u) ∈ urls := by
  unfold parseGet at h
  split at h
  · cases h
  · split at h
    · cases h
    · split at h
      · cases h
      · split at h
        · rename_i hh path _
          rw [String.append_assoc] at h
          exact ⟨_, lookup_mem h⟩
        · cases h

theorem swap_ok : swap.Ok env env where
  secret x y h := (String.append_left_inj "!").mp h
  verifier _ := rfl
  env := rfl
  hash _ := rfl
  page buf sec := by
    have hd : parseGet env callbackD false = some urlD := by decide +kernel
    have he : Url.swap swap urlC = urlD := by decide +kernel
    have hfix : ∀ p ∈ urls, p.2 ≠ urlC → Url.swap swap p.2 = p.2 := by decide +kernel
    by_cases hc : sec = false ∧ parseGet env buf false = some urlC
    · have : swap.page sec buf = callbackD := if_pos hc
      obtain ⟨rfl, hc⟩ := hc
      rw [this, hd, hc, Option.map_some, he]
    · have : swap.page sec buf = buf := if_neg hc
      rw [this]
      cases hp : parseGet env buf sec with
      | none => rfl
      | some u =>
        obtain ⟨x, hx⟩ := parseGet_url hp
        rw [Option.map_some, hfix _ hx]
        rintro rfl
        cases sec with
        | false => exact hc ⟨rfl, hp⟩
        | true =>
          have key : ∀ p ∈ urls, p.2 = urlC → p.1.toList[4]? = some ':' := by decide +kernel
          have := key _ hx rfl
          simp at this

def story : List Action := Demo.sRefreshed

theorem story_no_dump : ∀ a ∈ story, ¬ AsksDumpOrRestore a := by
  have h : story.all (fun
      | .connect b =>
        match parseReq b with
        | .dump | .restore _ => false
        | _ => true
      | _ => true) = true := by decide +kernel
  intro a ha ⟨b, hb, hd⟩
  have := List.all_eq_true.mp h a ha
  subst hb
  rcases hd with hd | ⟨d, hd⟩ <;> simp [hd] at this

def w0 : World := Demo.w0

theorem w0_init : IsInit env w0 := { Demo.w0_init with conf := by decide +kernel }

/-- The code and the secret are in forms. -/
example : ∃ w', w0.run env story = some w' ∧ w'.log.any (fun
      | (_, .post _ _ f) => f.lookup "code" == some "c" && f.lookup "client_secret" == some "sec"
      | _ => false) = true ∧
    ∃ v', { w0 with ls := LockedState.new (w0.ls.config.swap swap) }.run env (story.map (Action.swap swap)) = some v' ∧
      v'.proc = w'.proc ∧ v'.log = w'.log.map fun p => (p.1, p.2.swap swap) := by
  have h : ((w0.run env story).any fun w => w.log.any fun
      | (_, .post _ _ f) => f.lookup "code" == some "c" && f.lookup "client_secret" == some "sec"
      | _ => false) = true := by decide +kernel
  cases hr : w0.run env story with
  | none => rw [hr] at h; cases h
  | some w' =>
    rw [hr] at h
    exact ⟨w', rfl, h, C97 _ swap_ok w0_init story_no_dump hr⟩

/-- The other ones are in the other history, and these nowhere. -/
example : (({ w0 with ls := LockedState.new (w0.ls.config.swap swap) }.run env (story.map (Action.swap swap))).any fun (w : World) =>
    w.log.any (fun
      | (_, .post _ _ f) => f.lookup "code" == some "d" && f.lookup "client_secret" == some "sec!" &&
          f.lookup "code_verifier" == some (b64 (List.replicate 64 7))
      | _ => false) &&
    w.log.all (fun
      | (_, .post _ _ f) => f.lookup "code" != some "c" && f.lookup "client_secret" != some "sec"
      | _ => true)) = true := by decide +kernel

/-- An answer which tells a secret is not the same for other secrets. -/
example : (Obs.reply (utf8 "sec")).swap swap ≠ Obs.reply (utf8 "sec!") := by decide +kernel

end Demo.Leak

/-- Random bytes can be replaced by their complements. -/
example (E : Env) : ∃ (s : Swap) (E' : Env), s.bytes = (fun v => v.map (255 - ·)) ∧ s.Ok E E' :=
  C97_verifiers E _ fun x y h => by
    ext i hi
    have := congrArg (fun v => v[i]) h
    simpa using this

end Pizauth
