import Verif.Spec.Base64
import Verif.Props.Show
import Verif.Proof.Texts

/-!
# C46, C52, C53: authorisation URLs
-/

namespace Pizauth
open LockedState

variable {E : Env}

/-! ## C53 -/

theorem setPort_eq {u u' : Url} {p : Option Nat} (hs : u.scheme = "http" ∨ u.scheme = "https")
    (h : u.setPort p = some u') : u' = { u with port := p.bind (shownPort u.scheme) } := by
  unfold Url.setPort at h
  split at h
  · cases h
  · cases p with
    | none => simp at h; exact h.symm
    | some p =>
      simp only [Option.isSome_some, Bool.true_and, decide_eq_true_eq] at h
      split at h
      · rename_i hd
        simp only [Option.some.injEq] at h
        subst h
        rcases hs with hs | hs <;> simp [defaultPort, hs] at hd <;> simp [shownPort, hs, hd]
      · rename_i hd
        simp only [Option.some.injEq] at h
        subst h
        rcases hs with hs | hs <;> simp [defaultPort, hs] at hd <;> simp [shownPort, hs, hd]

/-- **C53.** Computing the redirect URI of an account never fails while the daemon runs (if http URLs have hosts, as
the URL standard says). -/
theorem C53_computable (hl : HostLaw E) {w : World} (hr : Reach E w) {n : String} {a : Account}
    (ha : w.ls.config.get? n = some a) : ∃ x, a.redirectUrl E w.st.httpPort w.st.httpsPort = .ok x :=
  redirectUrl_ok hl hr ha

/-- **C53**, in part: the redirect URI is the configured one with the port of the server for its scheme. Missing: URIs
which do not begin (in upper or lower case) with the name of their scheme, see `C53_not`. -/
theorem C53_partial (hl : HostLaw E) {w : World} (hr : Reach E w) {n : String} {a : Account} {u : Url}
    (ha : w.ls.config.get? n = some a) (hu : E.parseUrl a.redirectUri = some u)
    (hpre : BeginsLike a.redirectUri "https" ↔ u.scheme = "https") :
    a.redirectUrl E w.st.httpPort w.st.httpsPort =
      .ok { u with port := (servedAt u.scheme w.st.httpPort w.st.httpsPort).bind (shownPort u.scheme) } := by
  have hsch : u.scheme = "http" ∨ u.scheme = "https" := by
    obtain ⟨_, h, _⟩ := hr.inv0.conf.uris _ (mem_of_lookup ha)
    simpa [Env.isHttpUri, hu] using h
  obtain ⟨x, hx⟩ := redirectUrl_ok hl hr ha
  rw [hx]
  replace hpre : startsWith (toLowercase a.redirectUri) "https" = decide (u.scheme = "https") := by
    rw [Bool.eq_iff_iff, startsLower_iff, hpre, decide_eq_true_eq]
  unfold Account.redirectUrl at hx
  split at hx
  · simp only [hu, hpre] at hx
    split at hx
    · rename_i hc
      simp only [Bool.and_eq_true, decide_eq_true_eq] at hc
      split at hx
      · cases hx
      · rename_i h
        cases hx
        rw [setPort_eq hsch h]
        simp [servedAt, hc]
    · rename_i hc
      simp only [Bool.and_eq_true, decide_eq_true_eq] at hc
      split at hx
      · cases hx
      · rename_i h
        cases hx
        rw [setPort_eq hsch h]
        have : ¬ (u.scheme = "https" ∧ w.st.httpsPort.isSome) := fun h => hc ⟨h.2, h.1⟩
        simp [servedAt, this]
  · cases hx

namespace Demo

/-- The URL standard strips leading white space. -/
def envSp : Env :=
  { env with parseUrl := fun s =>
      if s = " https://localhost/" then env.parseUrl "https://localhost/" else env.parseUrl s }

def actSp : Account := { act "a" "https://ts/token" with redirectUri := " https://localhost/" }

def confSp : Config := { conf with accounts := [("a", actSp)], httpsListen := some "127.0.0.1:8443" }

def staticSp : Static := ⟨some 8080, some 8443, some "key"⟩

def wSp : World := World.init confSp staticSp 0 1700000000000000000

theorem wSp_init : IsInit envSp wSp where
  conf := by decide +kernel
  ls := rfl
  httpPort := rfl
  httpsPort := rfl
  threads := fun _ => rfl
  nextTid := rfl
  refPred := rfl
  refPc := rfl
  notPred := rfl
  notPc := rfl
  evQueue := rfl
  evPred := rfl
  evPc := rfl
  proc := rfl
  log := rfl

theorem hostLawSp : HostLaw envSp := by
  intro s u h hs
  simp only [envSp] at h
  split at h
  · exact hostLaw _ _ h hs
  · exact hostLaw _ _ h hs

end Demo

/-- **C53 does not hold** for a redirect URI with white space before `https:`: the code looks at the beginning of the
text of the URI, and the authorisation server is told the port of the HTTP server. -/
theorem C53_not : ¬ ∀ (E : Env), HostLaw E → ∀ (w : World) (n : String) (a : Account) (u : Url), Reach E w →
    w.ls.config.get? n = some a → E.parseUrl a.redirectUri = some u →
    a.redirectUrl E w.st.httpPort w.st.httpsPort =
      .ok { u with port := (servedAt u.scheme w.st.httpPort w.st.httpsPort).bind (shownPort u.scheme) } := by
  intro h
  have h1 := h Demo.envSp Demo.hostLawSp Demo.wSp "a" Demo.actSp ⟨"https", some "localhost", none, "/", []⟩
    (.init Demo.wSp_init) (by decide +kernel) (by decide +kernel)
  revert h1
  decide +kernel

/-- **C53.** A server which is not running has no port: if only HTTPS was served at start-up, and a reload brings an
account with an http redirect URI, that URI is used with its default port, at which nobody listens. -/
theorem C53_no_server {a : Account} {u : Url} {p : Nat} (hu : E.parseUrl a.redirectUri = some u)
    (hh : ∃ h, u.host = some h ∧ h ≠ "") (hs : u.scheme = "http")
    (hpre : ¬ BeginsLike a.redirectUri "https") :
    a.redirectUrl E none (some p) = .ok { u with port := none } := by
  obtain ⟨h, hh, hne⟩ := hh
  rw [← startsLower_iff, Bool.not_eq_true] at hpre
  simp [Account.redirectUrl, hu, hpre, Url.setPort, hh, hne, hs]

/-! ## C46 -/

/-- **C46.** An outstanding authorisation's URL is the account's `auth_uri` with pizauth's own parameters, in this
order, followed by `auth_uri_fields` as they are. (With `C10` and `C30`: this is the URL which is shown.) -/
theorem C46 {w : World} {n : String} {p : PendingTok} (hr : Reach E w) (hp : HoldsPending w.ls n p) :
    ∃ a base redirect, w.ls.config.get? n = some a ∧ E.parseUrl a.authUri = some base ∧
      a.redirectUrl E w.st.httpPort w.st.httpsPort = .ok redirect ∧
      p.url = { base with
        query := base.query ++
          [("access_type", "offline"), ("code_challenge", b64 (E.sha256 (utf8 p.codeVerifier))),
           ("code_challenge_method", "S256"), ("client_id", a.clientId), ("redirect_uri", E.renderUrl redirect),
           ("response_type", "code"), ("state", p.state)] ++
          (if a.scopes = [] then [] else [("scope", " ".intercalate a.scopes)]) ++ a.authUriFields } := by
  obtain ⟨e, he, rfl, hts⟩ := hp
  obtain ⟨a, ha⟩ := hr.inv0.wf.has he
  obtain ⟨rs, rv, redirect, h1, h2, h3, h4⟩ := Reach.pendMade w hr e a p ha hts
  unfold Env.parseWithParams at h4
  cases hb : E.parseUrl a.authUri with
  | none => simp [hb] at h4
  | some base =>
    refine ⟨a, base, redirect, ha.2, hb, h3, ?_⟩
    simp only [hb, Option.map_some, Option.some.injEq] at h4
    rw [← h4]
    simp only [authParams, codeChallenge, List.isEmpty_iff, List.append_assoc]

/-- **C53**, in part, as the authorisation server sees it: the `redirect_uri` in the URL of an outstanding authorisation
is the one which the account is configured to have (now), with the port of the server for its scheme. The same is missing
as in `C53_partial`. -/
theorem C53_url_partial (hl : HostLaw E) {w : World} {n : String} {p : PendingTok} (hr : Reach E w)
    (hp : HoldsPending w.ls n p) :
    ∃ a u, w.ls.config.get? n = some a ∧ E.parseUrl a.redirectUri = some u ∧
      ((BeginsLike a.redirectUri "https" ↔ u.scheme = "https") →
        ("redirect_uri", E.renderUrl
          { u with port := (servedAt u.scheme w.st.httpPort w.st.httpsPort).bind (shownPort u.scheme) }) ∈ p.url.query) := by
  obtain ⟨a, base, redirect, ha, _, hred, hurl⟩ := C46 hr hp
  obtain ⟨_, hu, _⟩ := hr.inv0.conf.uris _ (mem_of_lookup ha)
  simp only [Env.isHttpUri] at hu
  cases hpar : E.parseUrl a.redirectUri with
  | none => simp [hpar] at hu
  | some u =>
    refine ⟨a, u, ha, hpar, fun hpre => ?_⟩
    rw [C53_partial hl hr ha hpar hpre] at hred
    cases hred
    rw [hurl]
    simp

/-! ## C52 -/

theorem b64Char_safe (n : Nat) : UrlSafe (b64Char n) := by
  by_cases h : n < 64
  · have key : ∀ i : Fin 64, UrlSafe (b64Char i.val) := by decide +kernel
    exact key ⟨n, h⟩
  · have : b64Char n = 'A' := by
      have hlen : b64Alphabet.length = 64 := by decide +kernel
      simp only [b64Char, List.getD, List.getElem?_eq_none (by omega : b64Alphabet.length ≤ n), Option.getD_none]
    rw [this]; decide

theorem b64Char_inj {m n : Nat} (hm : m < 64) (hn : n < 64) (h : b64Char m = b64Char n) : m = n := by
  have key : ∀ i j : Fin 64, b64Char i.val = b64Char j.val → i = j := by decide +kernel
  exact congrArg Fin.val (key ⟨m, hm⟩ ⟨n, hn⟩ h)

theorem b64Enc_safe : ∀ (l : Bytes), ∀ c ∈ b64Enc l, UrlSafe c
  | [], c, h => by simp [b64Enc] at h
  | [a], c, h => by
    simp only [b64Enc, List.mem_cons, List.not_mem_nil, or_false] at h
    rcases h with rfl | rfl <;> exact b64Char_safe _
  | [a, b], c, h => by
    simp only [b64Enc, List.mem_cons, List.not_mem_nil, or_false] at h
    rcases h with rfl | rfl | rfl <;> exact b64Char_safe _
  | a :: b :: d :: r, c, h => by
    simp only [b64Enc, List.mem_cons] at h
    rcases h with rfl | rfl | rfl | rfl | h
    iterate 4 exact b64Char_safe _
    exact b64Enc_safe r c h

theorem b64Enc_length : ∀ (l : Bytes), (b64Enc l).length = (4 * l.length + 2) / 3
  | [] => rfl
  | [a] => by simp [b64Enc]
  | [a, b] => by simp [b64Enc]
  | a :: b :: d :: r => by
    simp only [b64Enc, List.length_cons, b64Enc_length r]
    omega

theorem u8_ext {a b : UInt8} (h : a.toNat = b.toNat) : a = b := UInt8.toNat_inj.mp h

theorem b64Enc_inj : ∀ (l m : Bytes), b64Enc l = b64Enc m → l = m
  | [], m, h => by
    have := congrArg List.length h
    rw [b64Enc_length, b64Enc_length] at this
    cases m with
    | nil => rfl
    | cons x m => simp at this; omega
  | [a], m, h => by
    have hl := congrArg List.length h
    rw [b64Enc_length, b64Enc_length] at hl
    match m, hl, h with
    | [], hl, _ => simp at hl
    | [a'], _, h =>
      simp only [b64Enc, List.cons.injEq, and_true] at h
      have h1 := a.toNat_lt; have h2 := a'.toNat_lt
      have k1 := b64Char_inj (by omega) (by omega) h.1
      have k2 := b64Char_inj (by omega) (by omega) h.2
      rw [u8_ext (a := a) (b := a') (by omega)]
    | [_, _], hl, _ => simp at hl
    | _ :: _ :: _ :: r, hl, _ => simp at hl; omega
  | [a, b], m, h => by
    have hl := congrArg List.length h
    rw [b64Enc_length, b64Enc_length] at hl
    match m, hl, h with
    | [], hl, _ => simp at hl
    | [_], hl, _ => simp at hl
    | [a', b'], _, h =>
      simp only [b64Enc, List.cons.injEq, and_true] at h
      have h1 := a.toNat_lt; have h2 := a'.toNat_lt; have h3 := b.toNat_lt; have h4 := b'.toNat_lt
      have k1 := b64Char_inj (by omega) (by omega) h.1
      have k2 := b64Char_inj (by omega) (by omega) h.2.1
      have k3 := b64Char_inj (by omega) (by omega) h.2.2
      rw [u8_ext (a := a) (b := a') (by omega), u8_ext (a := b) (b := b') (by omega)]
    | _ :: _ :: _ :: r, hl, _ => simp at hl; omega
  | a :: b :: c :: l, m, h => by
    have hl := congrArg List.length h
    rw [b64Enc_length, b64Enc_length] at hl
    match m, hl, h with
    | [], hl, _ => simp at hl; omega
    | [_], hl, _ => simp at hl; omega
    | [_, _], hl, _ => simp at hl; omega
    | a' :: b' :: c' :: m, _, h =>
      simp only [b64Enc, List.cons.injEq] at h
      have h1 := a.toNat_lt; have h2 := a'.toNat_lt; have h3 := b.toNat_lt; have h4 := b'.toNat_lt
      have h5 := c.toNat_lt; have h6 := c'.toNat_lt
      have k1 := b64Char_inj (by omega) (by omega) h.1
      have k2 := b64Char_inj (by omega) (by omega) h.2.1
      have k3 := b64Char_inj (by omega) (by omega) h.2.2.1
      have k4 := b64Char_inj (by omega) (by omega) h.2.2.2.1
      rw [u8_ext (a := a) (b := a') (by omega), u8_ext (a := b) (b := b') (by omega),
        u8_ext (a := c) (b := c') (by omega), b64Enc_inj l m h.2.2.2.2]

theorem value_append (l m : List Bool) : Base64.value (l ++ m) = Base64.value l * 2 ^ m.length + Base64.value m := by
  have key : ∀ (m : List Bool) (n : Nat), m.foldl (fun n b => 2 * n + b.toNat) n =
      n * 2 ^ m.length + m.foldl (fun n b => 2 * n + b.toNat) 0 := by
    intro m
    induction m with
    | nil => intro n; simp
    | cons b m ih =>
      intro n
      rw [List.foldl_cons, List.foldl_cons, ih (2 * n + b.toNat), ih (2 * 0 + b.toNat), List.length_cons, Nat.pow_succ,
        Nat.add_mul, Nat.add_mul, Nat.add_assoc, Nat.mul_comm (2 ^ m.length) 2, ← Nat.mul_assoc, Nat.mul_comm n 2]
      omega
  unfold Base64.value
  rw [List.foldl_append, key]

theorem b64Char_letter {n : Nat} (h : n < 64) : b64Char n = Base64.letter n := by
  have key : ∀ i : Fin 64, b64Char i.val = Base64.letter i.val := by decide +kernel
  exact key ⟨n, h⟩

theorem bits_value (b : UInt8) : ∃ b7 b6 b5 b4 b3 b2 b1 b0, Base64.bits b = [b7, b6, b5, b4, b3, b2, b1, b0] ∧
    Base64.value [b7, b6, b5, b4, b3, b2] = b.toNat / 4 ∧ Base64.value [b1, b0] = b.toNat % 4 ∧
    Base64.value [b7, b6, b5, b4] = b.toNat / 16 ∧ Base64.value [b3, b2, b1, b0] = b.toNat % 16 ∧
    Base64.value [b7, b6] = b.toNat / 64 ∧ Base64.value [b5, b4, b3, b2, b1, b0] = b.toNat % 64 := by
  refine ⟨_, _, _, _, _, _, _, _, rfl, ?_⟩
  have key : ∀ i : Fin 256, (Base64.value [i.val.testBit 7, i.val.testBit 6, i.val.testBit 5, i.val.testBit 4,
        i.val.testBit 3, i.val.testBit 2] = i.val / 4 ∧
      Base64.value [i.val.testBit 1, i.val.testBit 0] = i.val % 4 ∧
      Base64.value [i.val.testBit 7, i.val.testBit 6, i.val.testBit 5, i.val.testBit 4] = i.val / 16 ∧
      Base64.value [i.val.testBit 3, i.val.testBit 2, i.val.testBit 1, i.val.testBit 0] = i.val % 16 ∧
      Base64.value [i.val.testBit 7, i.val.testBit 6] = i.val / 64 ∧
      Base64.value [i.val.testBit 5, i.val.testBit 4, i.val.testBit 3, i.val.testBit 2, i.val.testBit 1,
        i.val.testBit 0] = i.val % 64) := by decide +kernel
  exact key ⟨b.toNat, b.toNat_lt⟩

theorem b64Enc_text : ∀ l : Bytes, b64Enc l = (Base64.groups (l.flatMap Base64.bits)).map fun g => Base64.letter (Base64.value g)
  | [] => rfl
  | [a] => by
    obtain ⟨a7, a6, a5, a4, a3, a2, a1, a0, ha, h1, h2, _⟩ := bits_value a
    have hlt := a.toNat_lt
    have e2 := value_append [a1, a0] [false, false, false, false]
    rw [h2] at e2
    simp only [b64Enc, List.flatMap_cons, List.flatMap_nil, ha, List.cons_append, List.nil_append, Base64.groups,
      List.map_cons, List.map_nil, List.length_cons, List.length_nil, List.replicate]
    simp only [List.cons_append, List.nil_append] at e2
    rw [h1, e2, b64Char_letter (by omega), b64Char_letter (by omega)]
    rfl
  | [a, b] => by
    obtain ⟨a7, a6, a5, a4, a3, a2, a1, a0, ha, h1, h2, _⟩ := bits_value a
    obtain ⟨b7, b6, b5, b4, b3, b2, b1, b0, hb, _, _, h3, h4, _⟩ := bits_value b
    have hlt := a.toNat_lt
    have hlt' := b.toNat_lt
    have e2 := value_append [a1, a0] [b7, b6, b5, b4]
    have e3 := value_append [b3, b2, b1, b0] [false, false]
    rw [h2, h3] at e2
    rw [h4] at e3
    simp only [b64Enc, List.flatMap_cons, List.flatMap_nil, ha, hb, List.cons_append, List.nil_append, Base64.groups,
      List.map_cons, List.map_nil, List.length_cons, List.length_nil, List.replicate]
    simp only [List.cons_append, List.nil_append] at e2 e3
    rw [h1, e2, e3, b64Char_letter (by omega), b64Char_letter (by omega), b64Char_letter (by omega)]
    rfl
  | a :: b :: c :: r => by
    obtain ⟨a7, a6, a5, a4, a3, a2, a1, a0, ha, h1, h2, _⟩ := bits_value a
    obtain ⟨b7, b6, b5, b4, b3, b2, b1, b0, hb, _, _, h3, h4, _⟩ := bits_value b
    obtain ⟨c7, c6, c5, c4, c3, c2, c1, c0, hc, _, _, _, _, h5, h6⟩ := bits_value c
    have hlt := a.toNat_lt
    have hlt' := b.toNat_lt
    have hlt'' := c.toNat_lt
    have e2 := value_append [a1, a0] [b7, b6, b5, b4]
    have e3 := value_append [b3, b2, b1, b0] [c7, c6]
    rw [h2, h3] at e2
    rw [h4, h5] at e3
    simp only [b64Enc, List.flatMap_cons, ha, hb, hc, List.cons_append, List.nil_append, Base64.groups, List.map_cons]
    simp only [List.cons_append, List.nil_append] at e2 e3
    rw [h1, e2, e3, h6, b64Char_letter (by omega), b64Char_letter (by omega), b64Char_letter (by omega),
      b64Char_letter (by omega), b64Enc_text r]
    rfl

/-- **C52.** The encoding is that of RFC 4648 for URLs, without padding. -/
theorem C52_base64 (l : Bytes) : b64 l = Base64.text l := by
  unfold b64 Base64.text
  rw [b64Enc_text]

/-- **C52.** Different bytes have different encodings. -/
theorem C52_inj {l m : Bytes} (h : b64 l = b64 m) : l = m := by
  apply b64Enc_inj
  have := congrArg String.toList h
  simpa [b64] using this

/-- **C52.** The state and the code verifier of an outstanding authorisation encode 8 and 64 (random) bytes, and consist
of 11 and 86 URL-safe characters. -/
theorem C52 {w : World} {n : String} {p : PendingTok} (hr : Reach E w) (hp : HoldsPending w.ls n p) :
    (∃ rs : Vector UInt8 8, p.state = b64 rs.toList) ∧ (∃ rv : Vector UInt8 64, p.codeVerifier = b64 rv.toList) ∧
    p.state.length = 11 ∧ p.codeVerifier.length = 86 ∧
    (∀ c ∈ p.state.toList, UrlSafe c) ∧ (∀ c ∈ p.codeVerifier.toList, UrlSafe c) := by
  obtain ⟨e, he, rfl, hts⟩ := hp
  obtain ⟨a, ha⟩ := hr.inv0.wf.has he
  obtain ⟨rs, rv, redirect, h1, h2, h3, h4⟩ := Reach.pendMade w hr e a p ha hts
  have hlen : ∀ b : Bytes, (b64 b).length = (4 * b.length + 2) / 3 := fun b => by
    simp [b64, b64Enc_length]
  refine ⟨⟨rs, h1⟩, ⟨rv, h2⟩, ?_, ?_, ?_, ?_⟩
  · rw [h1, hlen]; simp
  · rw [h2, hlen]; simp
  · intro c hc; rw [h1] at hc; exact b64Enc_safe _ c (by simpa [b64] using hc)
  · intro c hc; rw [h2] at hc; exact b64Enc_safe _ c (by simpa [b64] using hc)

namespace Demo

/-- C46, C52: the authorisation of `sAsk`. -/
example : ∃ p, HoldsPending (after sAsk).ls "a" p ∧ p.state = "AAAAAAAAAAA" ∧
    p.url.query.map Prod.fst = ["access_type", "code_challenge", "code_challenge_method", "client_id", "redirect_uri",
      "response_type", "state", "scope", "prompt"] :=
  ⟨_, ⟨_, List.mem_cons_self, rfl, rfl⟩, by decide +kernel, by decide +kernel⟩

/-- C52: encodings (cf. RFC 4648). -/
example : Base64.text (utf8 "foobar") = "Zm9vYmFy" ∧ Base64.text (utf8 "fooba") = "Zm9vYmE" ∧
    Base64.text (utf8 "foob") = "Zm9vYg" ∧ Base64.text [0xff] = "_w" := by decide +kernel

example : b64 [0x14, 0xfb, 0x9c, 0x03, 0xd9, 0x7e] = "FPucA9l-" := by decide +kernel

/-- C53: the redirect URI of account "a". -/
example : (act "a" "https://ts/token").redirectUrl env w0.st.httpPort w0.st.httpsPort =
      .ok ⟨"http", some "localhost", some 8080, "/", []⟩ ∧
    ¬ BeginsLike "http://localhost/" "https" ∧ BeginsLike "HTTPS://localhost/" "https" := by
  simp only [← startsLower_iff]; decide +kernel

end Demo
end Pizauth
