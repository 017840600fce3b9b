import Verif.Spec.UrlText
import Verif.Spec.Examples
import Verif.Props.UrlStd
import Verif.Props.Examples
import Verif.Props.Manual
import Verif.Props.Boot

/-!
# C111: the text of authorisation URLs
-/

namespace Pizauth
open UrlStd

variable {E : Env} {L : Lib}

/-! ## Queries -/

theorem queryByte_eq (b : UInt8) : queryByte b = ascii (Form.encByte b) := by
  have h : ∀ n < 256, queryByte (UInt8.ofNat n) = ascii (Form.encByte (UInt8.ofNat n)) := by decide +kernel
  have := h b.toNat b.toNat_lt
  rwa [UInt8.ofNat_toNat] at this

theorem queryWord_eq (s : String) : queryWord s = String.ofList (ascii (Form.encode s)) := by
  unfold queryWord Form.encode
  congr 1
  generalize utf8 s = l
  induction l with
  | nil => rfl
  | cons b l ih =>
    rw [List.flatMap_cons, List.flatMap_cons, ih, queryByte_eq]
    simp [ascii]

theorem queryWord_append (s t : String) : queryWord (s ++ t) = queryWord s ++ queryWord t := by
  simp [queryWord, utf8_append, String.ofList_append]

theorem ascii_append (a b : Bytes) : ascii (a ++ b) = ascii a ++ ascii b := List.map_append ..

theorem intercalate_cons (x y : String) (l : List String) :
    "&".intercalate (x :: y :: l) = x ++ "&" ++ "&".intercalate (y :: l) := by
  rw [← String.toList_inj]
  simp [String.toList_intercalate]

theorem appendPair_text (t : Bytes) (ht : t ≠ []) (p : String × String) :
    String.ofList (ascii (Form.appendPair t p)) = String.ofList (ascii t) ++ "&" ++ (queryWord p.1 ++ "=" ++ queryWord p.2) := by
  rw [← String.toList_inj]
  simp [Form.appendPair, ht, queryWord_eq, ascii]

theorem extendPairs_text (t : Bytes) (ht : t ≠ []) (p : String × String) (ps : List (String × String)) :
    String.ofList (ascii (Form.extendPairs t (p :: ps))) = String.ofList (ascii t) ++ "&" ++ queryOf (p :: ps) := by
  induction ps generalizing t p with
  | nil =>
    show String.ofList (ascii (Form.appendPair t p)) = _
    rw [appendPair_text t ht]
    simp [queryOf]
  | cons q ps ih =>
    show String.ofList (ascii (Form.extendPairs (Form.appendPair t p) (q :: ps))) = _
    rw [ih _ (by simp [Form.appendPair]), appendPair_text t ht]
    unfold queryOf
    simp only [List.map_cons]
    rw [intercalate_cons]
    simp only [String.append_assoc]

theorem body_text (p : String × String) (ps : List (String × String)) :
    String.ofList (ascii (Form.extendPairs [] (p :: ps))) = queryOf (p :: ps) := by
  have h1 : String.ofList (ascii (Form.appendPair [] p)) = queryWord p.1 ++ "=" ++ queryWord p.2 := by
    rw [← String.toList_inj]
    simp [Form.appendPair, queryWord_eq, ascii]
  show String.ofList (ascii (Form.extendPairs (Form.appendPair [] p) ps)) = _
  cases ps with
  | nil => exact h1.trans (by simp [queryOf])
  | cons q ps =>
    rw [extendPairs_text _ (by simp [Form.appendPair]), h1]
    unfold queryOf
    simp only [List.map_cons]
    rw [intercalate_cons]

/-- **C111.** The text of a URL with added parameters is its text, `?` (or `&` if there are parameters already) and the
parameters, if it is in its canonical form and has no fragment. -/
theorem C111_text (hu : UsesUrls E L) (hL : L.Canonical) {s : String} {u v : Url} {ps : List (String × String)}
    (h : E.parseUrl s = some u) (hs : u.scheme = "http" ∨ u.scheme = "https") (hc : E.renderUrl u = s)
    (hf : '#' ∉ s.toList) (hne : ps ≠ []) (hv : E.parseWithParams s ps = some v) :
    ('?' ∉ s.toList → E.renderUrl v = s ++ "?" ++ queryOf ps) ∧
    ('?' ∈ s.toList → s.toList.getLast? ≠ some '?' → E.renderUrl v = s ++ "&" ++ queryOf ps) := by
  simp only [Env.parseWithParams, h, Option.map_some, Option.some.injEq] at hv
  subst hv
  rw [hu.parse] at h
  obtain ⟨sch, r, p, h1, h2, h3, rfl⟩ := parse_http h hs
  obtain ⟨hg, rfl⟩ := special_good hL h2 h3
  rw [hu.render] at hc ⊢
  have t0 := render_text hg p.port []
  have t1 := render_text hg p.port ps
  have e0 : ({ p.url with port := p.port, query := p.url.query ++ [] } : Url) = p.url := by
    rw [List.append_nil]; rfl
  rw [e0, hc] at t0
  have e1 : ({ p.url with port := p.port, query := p.url.query ++ ps } : Url) = { p.url with query := p.url.query ++ ps } := rfl
  rw [← e1, t1]
  have a0 : added p.query [] = p.query := by simp [added]
  have hemp : ps.isEmpty = false := by cases ps <;> simp_all
  rw [a0] at t0
  have hfr : p.fragment = none := by
    cases hq : p.fragment with
    | none => rfl
    | some x => exact absurd (by rw [t0]; simp [Parts.text, hq, marked]) hf
  have ht : s.toList = p.scheme ++ "://".toList ++ p.userinfo ++ p.host ++ UrlStd.portText p.port ++ p.path ++ marked '?' p.query := by
    rw [t0, String.toList_ofList]
    simp [Parts.text, hfr, marked]
  obtain ⟨q, ps, rfl⟩ : ∃ q qs, ps = q :: qs := by
    cases ps with
    | nil => exact absurd rfl hne
    | cons q qs => exact ⟨q, qs, rfl⟩
  constructor
  · intro hq
    have hqn : p.query = none := by
      cases hx : p.query with
      | none => rfl
      | some x => exact absurd (by rw [ht]; simp [hx, marked]) hq
    rw [← String.toList_inj]
    have hb := congrArg String.toList (body_text q ps)
    rw [String.toList_ofList] at hb
    simp only [Parts.text, hfr, hqn, added, hemp, marked, bytesOf, Form.withParams, Option.map_none, Option.getD_none,
      Bool.false_eq_true, if_false, hb, String.toList_ofList, String.toList_append, ht]
    simp
  · intro hq hlast
    obtain ⟨x, hx⟩ : ∃ x, p.query = some x := by
      cases hx : p.query with
      | some x => exact ⟨x, rfl⟩
      | none =>
        exfalso
        rw [ht, hx] at hq
        simp only [marked, List.append_nil, List.mem_append] at hq
        rcases hq with ((((hq | hq) | hq) | hq) | hq) | hq
        · rcases hg.scheme with e | e <;> rw [e] at hq <;> revert hq <;> decide
        · revert hq; decide
        · rcases hg.userinfo with e | ⟨t, e, ht'⟩
          · rw [e] at hq; cases hq
          · rw [e] at hq
            rcases List.mem_append.mp hq with hq | hq
            · exact absurd (authChar_vis (ht' _ hq)).2.1 (by decide)
            · revert hq; decide
        · exact absurd (authChar_vis (hg.host.chars _ hq)).2.1 (by decide)
        · exact absurd (authChar_vis (portText_auth _ _ hq)).2.1 (by decide)
        · exact (pathChar_vis (hg.path.2 _ hq)).2.1 rfl
    have hxne : x ≠ [] := by
      rintro rfl
      rw [ht, hx] at hlast
      exact hlast List.getLast?_concat
    have hux : utf8 (String.ofList x) ≠ [] := by
      intro e
      rw [utf8_ascii fun c hc => vis_lt (queryChar_vis (hg.query x hx c hc)).1] at e
      exact hxne (List.map_eq_nil_iff.mp e)
    have hback : ascii (utf8 (String.ofList x)) = x := by
      have hv := fun c hc => vis_lt (queryChar_vis (hg.query x hx c hc)).1
      rw [utf8_ascii hv]
      unfold ascii
      rw [List.map_map]
      conv => rhs; rw [← List.map_id x]
      refine List.map_congr_left fun c hc => ?_
      have := hv c hc
      have e : (UInt8.ofNat c.toNat).toNat = c.toNat := by simp; omega
      simp only [Function.comp, e, Char.ofNat_toNat, id]
    have hb := congrArg String.toList (extendPairs_text _ hux q ps)
    rw [String.toList_ofList, hback] at hb
    rw [← String.toList_inj]
    simp only [Parts.text, hfr, hx, added, hemp, marked, bytesOf, Form.withParams, Option.map_some, Option.getD_some,
      Bool.false_eq_true, if_false, hb, String.toList_ofList, String.toList_append, ht]
    simp

/-! ## The URLs of accounts -/

/-- Is the host of an http URL plain ASCII? Then it does not matter what the libraries do. -/
def plainHost (s : String) : Bool :=
  match scheme (clean s.toList) with
  | none => true
  | some (sch, r) =>
    (sch = "http".toList ∨ sch = "https".toList) &&
      match (hostEnd false (cutLast '@' ((r.dropWhile slash).takeWhile (!ender ·))).2).1 with
      | [] => true
      | '[' :: _ => false
      | l => plain (Form.lossy (Form.percentDecode (utf8 (String.ofList l)))).toList

theorem host_lib (L' : Lib) {l : List Char} (h : (match l with
      | [] => true
      | '[' :: _ => false
      | l => plain (Form.lossy (Form.percentDecode (utf8 (String.ofList l)))).toList) = true) : host L l = host L' l := by
  unfold host
  split
  · rfl
  · cases h
  · rename_i h1 h2
    split at h
    · exact absurd rfl h1
    · cases h
    · simp only [domain, h, if_true]

theorem parse_lib (L' : Lib) {s : String} (h : plainHost s = true) : parse L s = parse L' s := by
  unfold plainHost at h
  unfold parse
  split at h
  · rename_i e; rw [e]
  · rename_i sch r e
    rw [e]
    simp only [Bool.and_eq_true, decide_eq_true_eq] at h
    simp only [h.1, if_true]
    congr 1
    unfold special
    simp only [host_lib (L := L) L' h.2]

theorem queryWord_plain {l : List Char} (h : ∀ c ∈ l, c ∈ queryPlain.toList) : queryWord (String.ofList l) = String.ofList l := by
  have hlt : ∀ c ∈ queryPlain.toList, c.toNat < 128 := by decide +kernel
  unfold queryWord
  rw [utf8_ascii fun c hc => hlt c (h c hc)]
  congr 1
  induction l with
  | nil => rfl
  | cons c l ih =>
    rw [List.map_cons, List.flatMap_cons, ih fun d hd => h d (List.mem_cons_of_mem _ hd)]
    have h1 := h c (List.mem_cons_self ..)
    have h2 := hlt c h1
    have e : (UInt8.ofNat c.toNat).toNat = c.toNat := by simp; omega
    have : queryByte (UInt8.ofNat c.toNat) = [c] := by
      unfold queryByte
      rw [e, Char.ofNat_toNat, if_pos h1]
    rw [this]
    rfl

theorem urlSafe_plain {c : Char} (h : UrlSafe c) : c ∈ queryPlain.toList := by
  have hlt : c.toNat < 128 := by
    unfold UrlSafe at h
    rcases h with h | h | h | rfl | rfl
    · have : c.toNat ≤ 'Z'.toNat := h.2
      exact Nat.lt_of_le_of_lt this (by decide)
    · have : c.toNat ≤ 'z'.toNat := h.2
      exact Nat.lt_of_le_of_lt this (by decide)
    · have : c.toNat ≤ '9'.toNat := h.2
      exact Nat.lt_of_le_of_lt this (by decide)
    · decide
    · decide
  have key : ∀ n < 128, (('A' ≤ Char.ofNat n ∧ Char.ofNat n ≤ 'Z') ∨ ('a' ≤ Char.ofNat n ∧ Char.ofNat n ≤ 'z') ∨
      ('0' ≤ Char.ofNat n ∧ Char.ofNat n ≤ '9') ∨ Char.ofNat n = '-' ∨ Char.ofNat n = '_') →
      Char.ofNat n ∈ queryPlain.toList := by decide +kernel
  have := key c.toNat hlt
  rw [Char.ofNat_toNat] at this
  exact this h

theorem queryWord_b64 (b : Bytes) : queryWord (b64 b) = b64 b :=
  queryWord_plain fun c hc => urlSafe_plain (b64Enc_safe b c hc)

theorem queryWord_nat (n : Nat) : queryWord (toString n) = toString n := by
  have : toString n = String.ofList (decimal n) := rfl
  rw [this]
  refine queryWord_plain fun c hc => urlSafe_plain ?_
  have := decimal_digits c hc
  simp only [digit, Bool.and_eq_true, decide_eq_true_eq] at this
  exact .inr (.inr (.inl this))

/-- The default redirect URI, served at this port. -/
theorem redirect_text (hu : UsesUrls E L) {a : Account} (ha : a.redirectUri = "http://localhost/") {x : Nat} {y : Option Nat}
    {u : Url} (h : a.redirectUrl E (some x) y = .ok u) :
    E.renderUrl u = "http://localhost" ++ (if x = 80 then "" else ":" ++ toString x) ++ "/" := by
  have hp : E.parseUrl "http://localhost/" = some { scheme := "http", host := some "localhost", port := none, rest := "\n/\n\n", query := [] } := by
    rw [hu.parse, parse_lib Demo.lib (by decide +kernel)]
    decide +kernel
  have hnl : startsWith (toLowercase "http://localhost/") "https" = false := by decide +kernel
  unfold Account.redirectUrl at h
  simp only [ha, hp, hnl, Bool.and_false, Option.isSome_some, Bool.true_or, if_true, Bool.false_eq_true, if_false,
    Url.setPort, defaultPort] at h
  rw [hu.render]
  by_cases hx : x = 80
  · subst hx
    simp at h
    subst h
    decide +kernel
  · simp [hx] at h
    subst h
    rw [if_neg hx, ← String.toList_inj]
    have : pieces "\n/\n\n".toList = [[], ['/'], [], []] := by decide +kernel
    unfold render
    simp only [this]
    have hq : queryText [] [] = [] := by decide +kernel
    rw [hq]
    simp [UrlStd.portText, decimal]

theorem with_text (hu : UsesUrls E L) (hL : L.Canonical) {s : String} {u v : Url} {ps : List (String × String)}
    (h : E.parseUrl s = some u) (hs : u.scheme = "http" ∨ u.scheme = "https") (hc : E.renderUrl u = s)
    (hf : '#' ∉ s.toList) (hq : '?' ∉ s.toList) (hne : ps ≠ []) (hv : v = { u with query := u.query ++ ps }) :
    E.renderUrl v = s ++ "?" ++ queryOf ps := by
  refine (C111_text hu hL h hs hc hf hne ?_).1 hq
  unfold Env.parseWithParams
  rw [h, hv]
  rfl

theorem run_text {n s : String} {u : Url} {ps : List (String × String)} (h : E.renderUrl u = s ++ "?" ++ queryOf ps) :
    Cli.run (.show n true) (.answer (utf8 ("pending:" ++ E.renderUrl u))) =
      ⟨[], some ("Access token unavailable until authorised with URL " ++ s ++ "?" ++ queryOf ps), 1⟩ := by
  have hrun := run_pending (E := E) (c := .show n true) (.inl rfl) u
  have hrep : pendingReply E true u = utf8 ("pending:" ++ E.renderUrl u) := rfl
  have key : ∀ x y z q : String, x ++ (y ++ z ++ q) = x ++ y ++ z ++ q := by
    intros; simp only [String.append_assoc]
  have hun : unavailable E true u = "Access token unavailable until authorised with URL " ++ s ++ "?" ++ queryOf ps := by
    have : ∀ x : String, x ++ (if true = true then E.renderUrl u else "") = x ++ s ++ "?" ++ queryOf ps := by
      intro x
      rw [if_pos rfl, h, key]
    exact this _
  rw [← hrep, hrun, hun]

/-- **C111.** What `pizauth show` says for an account without a token, if its `auth_uri` is in its canonical form, without
parameters, and its redirect URI is the default. -/
theorem C111 (hu : UsesUrls E L) (hL : L.Canonical) {w w' : World} {n : String} {a : Account} {u : Url} {x : Nat}
    (hx : Executes E w (Cmd.wire (.show n true)) w') (hn : HoldsNothing w.ls n) (ha : w.ls.config.get? n = some a)
    (hr : a.redirectUri = "http://localhost/") (hport : w.st.httpPort = some x)
    (hc : E.parseUrl a.authUri = some u) (hc' : E.renderUrl u = a.authUri) (hf : '#' ∉ a.authUri.toList) (hq : '?' ∉ a.authUri.toList) :
    ∃ (rs : Vector UInt8 8) (rv : Vector UInt8 64) (b : Bytes), .reply b ∈ w'.threads 0 ∧ Cli.run (.show n true) (.answer b) = ⟨[],
      some ("Access token unavailable until authorised with URL " ++ a.authUri ++ "?" ++ queryOf (
        [("access_type", "offline"), ("code_challenge", b64 (E.sha256 (utf8 (b64 rv.toList)))),
          ("code_challenge_method", "S256"), ("client_id", a.clientId),
          ("redirect_uri", "http://localhost" ++ (if x = 80 then "" else ":" ++ toString x) ++ "/"), ("response_type", "code"),
          ("state", b64 rs.toList)] ++
          (if a.scopes = [] then [] else [("scope", " ".intercalate a.scopes)]) ++ a.authUriFields)), 1⟩ := by
  have hl := C108_host hu
  obtain ⟨hrch, hth, inp, hs⟩ := hx
  obtain ⟨p, hp, hst, hcv, -, ht⟩ := C10_start hl hrch hth (C47 _) hn hs
  refine ⟨inp.rndState, inp.rndVerifier, utf8 ("pending:" ++ E.renderUrl p.url), by rw [ht]; simp, ?_⟩
  have hr' : Reach E w' := .step _ hrch hs
  have hcfg : w'.ls.config = w.ls.config ∧ w'.st = w.st := by
    obtain ⟨f, hx, rfl⟩ := hrch.handled hth hs (by rw [C47]; simp [Cmd.req])
    refine ⟨?_, rfl⟩
    show f.ls.config = _
    cases hx.show (C47 _) <;> rfl
  obtain ⟨a', base, redirect, ha', hb, hred, hurl⟩ := C46 hr' hp
  rw [hcfg.1, ha] at ha'
  cases ha'
  rw [hc] at hb
  cases hb
  rw [hcfg.2, hport] at hred
  have hrt := redirect_text hu hr hred
  rw [hrt, hcv, hst] at hurl
  have hsch : u.scheme = "http" ∨ u.scheme = "https" := by
    obtain ⟨h1, _⟩ := hrch.inv0.conf.uris _ (mem_of_lookup ha)
    simpa [Env.isHttpUri, hc] using h1
  rw [List.append_assoc, List.append_assoc] at hurl
  have htext := with_text hu hL hc hsch hc' hf hq (List.append_ne_nil_of_left_ne_nil (List.cons_ne_nil _ _) _) hurl
  rw [← List.append_assoc] at htext
  exact run_text htext

theorem queryOf_cons (p q : String × String) (r : List (String × String)) :
    queryOf (p :: q :: r) = queryWord p.1 ++ "=" ++ queryWord p.2 ++ "&" ++ queryOf (q :: r) := by
  unfold queryOf
  simp only [List.map_cons]
  rw [intercalate_cons]

theorem queryOf_one (p : String × String) : queryOf [p] = queryWord p.1 ++ "=" ++ queryWord p.2 := by
  simp [queryOf]

theorem words :
    queryWord "access_type" = "access_type" ∧ queryWord "offline" = "offline" ∧ queryWord "code_challenge" = "code_challenge" ∧
    queryWord "code_challenge_method" = "code_challenge_method" ∧ queryWord "S256" = "S256" ∧
    queryWord "client_id" = "client_id" ∧ queryWord "redirect_uri" = "redirect_uri" ∧
    queryWord "http://localhost" = "http%3A%2F%2Flocalhost" ∧ queryWord "/" = "%2F" ∧ queryWord ":" = "%3A" ∧ queryWord "" = "" ∧
    queryWord "response_type" = "response_type" ∧ queryWord "code" = "code" ∧ queryWord "state" = "state" ∧
    queryWord "scope" = "scope" ∧ queryWord "login_hint" = "login_hint" := by decide +kernel

theorem word_redirect (x : Nat) : queryWord ("http://localhost" ++ (if x = 80 then "" else ":" ++ toString x) ++ "/") =
    "http%3A%2F%2Flocalhost" ++ (if x = 80 then "" else "%3A" ++ toString x) ++ "%2F" := by
  obtain ⟨-, -, -, -, -, -, -, h1, h2, h3, h4, -⟩ := words
  rw [queryWord_append, queryWord_append, h1, h2]
  split
  · rw [h4]
  · rw [queryWord_append, h3, queryWord_nat]

/-- pizauth's parameters, for an account with scopes. -/
theorem own_text (ch i st sc : String) (x : Nat) (hch : queryWord ch = ch) (hst : queryWord st = st) (f : String × String)
    (fs : List (String × String)) :
    queryOf ([("access_type", "offline"), ("code_challenge", ch), ("code_challenge_method", "S256"), ("client_id", i),
      ("redirect_uri", "http://localhost" ++ (if x = 80 then "" else ":" ++ toString x) ++ "/"), ("response_type", "code"),
      ("state", st)] ++ [("scope", sc)] ++ (f :: fs)) =
    "access_type=offline&code_challenge=" ++ (ch ++ "&code_challenge_method=S256&client_id=" ++ queryWord i ++
      "&redirect_uri=http%3A%2F%2Flocalhost" ++ (if x = 80 then "" else "%3A" ++ toString x) ++
      "%2F&response_type=code&state=" ++ st ++ "&scope=" ++ queryWord sc ++ "&" ++ queryOf (f :: fs)) := by
  obtain ⟨h1, h2, h3, h4, h5, h6, h7, -, -, -, -, h8, h9, h10, h11, -⟩ := words
  simp only [List.cons_append, List.nil_append, queryOf_cons, h1, h2, h3, h4, h5, h6, h7, h8, h9, h10, h11, hch, hst,
    word_redirect]
  generalize (if x = 80 then "" else "%3A" ++ toString x) = port
  generalize queryOf (f :: fs) = rest
  generalize queryWord i = i
  generalize queryWord sc = sc
  have e1 : "access_type=offline&code_challenge=" = "access_type" ++ ("=" ++ ("offline" ++ ("&" ++ ("code_challenge" ++ "=")))) := by
    decide +kernel
  have e2 : "&code_challenge_method=S256&client_id=" =
      "&" ++ ("code_challenge_method" ++ ("=" ++ ("S256" ++ ("&" ++ ("client_id" ++ "="))))) := by decide +kernel
  have e3 : "&redirect_uri=http%3A%2F%2Flocalhost" = "&" ++ ("redirect_uri" ++ ("=" ++ "http%3A%2F%2Flocalhost")) := by decide +kernel
  have e4 : "%2F&response_type=code&state=" = "%2F" ++ ("&" ++ ("response_type" ++ ("=" ++ ("code" ++ ("&" ++ ("state" ++ "=")))))) := by
    decide +kernel
  have e5 : "&scope=" = "&" ++ ("scope" ++ "=") := by decide +kernel
  rw [e1, e2, e3, e4, e5]
  simp only [String.append_assoc]

theorem uri_lib (hu : UsesUrls E L) {s : String} {u : Url} (hp : plainHost s = true) (h : parse Demo.lib s = some u) :
    E.parseUrl s = some u := by
  rw [hu.parse, parse_lib Demo.lib hp, h]

theorem isHttp_lib (hu : UsesUrls E L) {s : String} (hp : plainHost s = true)
    (h : ∃ u, parse Demo.lib s = some u ∧ (u.scheme = "http" ∨ u.scheme = "https")) : IsHttpUri E s := by
  obtain ⟨u, h1, h2⟩ := h
  exact ⟨u, uri_lib hu hp h1, h2⟩

/-- The first `show` after the start with a configuration of one account. -/
theorem first_show (hu : UsesUrls E L) (hL : L.Canonical) {M : Machine} {now : Instant} {wall : SysTime} {w0 w w' : World}
    {a : Account} {u : Url} {f : String × String} {fs : List (String × String)} {sc l s n i : String} {scs : List String}
    {file : String} (hfile : Config.fromStr E file = .ok (defaultsWith a))
    (hb : serverBoot M (defaultsWith a) now wall = .ok w0) (hs : Steps E w0 w) (hcfg : w.ls.config = defaultsWith a)
    (hx : Executes E w (Cmd.wire (.show n true)) w') (hn : HoldsNothing w.ls n)
    (ha : a.name = n ∧ a.redirectUri = "http://localhost/" ∧ a.authUri = s ∧ a.scopes = scs ∧ a.authUriFields = f :: fs ∧ a.clientId = i)
    (hc : E.parseUrl s = some u) (hc' : E.renderUrl u = s)
    (hf : '#' ∉ s.toList) (hq : '?' ∉ s.toList) (hsc : scs ≠ []) (hsc' : " ".intercalate scs = sc)
    (hl : "Access token unavailable until authorised with URL " ++ s ++ "?" ++ "access_type=offline&code_challenge=" = l) :
    ∃ (x : Nat) (rs : Vector UInt8 8) (rv : Vector UInt8 64) (b : Bytes), M.bindHttp "127.0.0.1:0" = .ok x ∧ .reply b ∈ w'.threads 0 ∧
      Cli.run (.show n true) (.answer b) = ⟨[], some (l ++ (b64 (E.sha256 (utf8 (b64 rv.toList))) ++
        "&code_challenge_method=S256&client_id=" ++ queryWord i ++
        "&redirect_uri=http%3A%2F%2Flocalhost" ++ (if x = 80 then "" else "%3A" ++ toString x) ++
        "%2F&response_type=code&state=" ++ b64 rs.toList ++ "&scope=" ++ queryWord sc ++ "&" ++ queryOf (f :: fs))), 1⟩ := by
  obtain ⟨rfl, ha2, rfl, rfl, ha5, rfl⟩ := ha
  have hhttp : IsHttpUri E "http://localhost/" := isHttp_lib hu (by decide +kernel)
    ⟨{ scheme := "http", host := some "localhost", port := none, rest := "\n/\n\n", query := [] }, by decide +kernel, .inl rfl⟩
  obtain ⟨x, hx1, hx2⟩ := (C106_ports hb).2.1 "127.0.0.1:0" rfl
  have hst := hs.st (.init (C106 hhttp hfile hb).1)
  obtain ⟨rs, rv, b, h1, h2⟩ := C111 hu hL hx hn (a := a) (by rw [hcfg]; simp [Config.get?, defaultsWith]) ha2 (by rw [hst]; exact hx2)
    hc hc' hf hq
  refine ⟨x, rs, rv, b, hx1, h1, ?_⟩
  rw [h2, ha5, if_neg hsc, hsc', own_text _ _ _ _ _ (queryWord_b64 _) (queryWord_b64 _), ← String.append_assoc, hl]

/-- **C111.** The first time that `pizauth show` is executed with the configuration of README.md, it prints this
message with this authorisation URL. -/
theorem C111_office (hu : UsesUrls E L) (hL : L.Canonical) {M : Machine} {c : Config} {now : Instant} {wall : SysTime}
    {w0 w w' : World} {n i k e : String} (hf : Config.fromStr E (officeFile n i k e) = .ok c)
    (hb : serverBoot M c now wall = .ok w0) (hs : Steps E w0 w) (hcfg : w.ls.config = c)
    (hx : Executes E w (Cmd.wire (.show n true)) w') (hn : HoldsNothing w.ls n) :
    ∃ (x : Nat) (rs : Vector UInt8 8) (rv : Vector UInt8 64) (b : Bytes), M.bindHttp "127.0.0.1:0" = .ok x ∧ .reply b ∈ w'.threads 0 ∧
      Cli.run (.show n true) (.answer b) = ⟨[], some (
        "Access token unavailable until authorised with URL https://login.microsoftonline.com/common/oauth2/v2.0/authorize?access_type=offline&code_challenge=" ++
        (b64 (E.sha256 (utf8 (b64 rv.toList))) ++ "&code_challenge_method=S256&client_id=" ++ queryWord i ++
        "&redirect_uri=http%3A%2F%2Flocalhost" ++ (if x = 80 then "" else "%3A" ++ toString x) ++
        "%2F&response_type=code&state=" ++ b64 rs.toList ++
        "&scope=https%3A%2F%2Foutlook.office365.com%2FIMAP.AccessAsUser.All+https%3A%2F%2Foutlook.office365.com%2FSMTP.Send+offline_access&login_hint=" ++
        queryWord e)), 1⟩ := by
  have h1 : parse Demo.lib "https://login.microsoftonline.com/common/oauth2/v2.0/authorize" =
      some { scheme := "https", host := some "login.microsoftonline.com", port := none, rest := "\n/common/oauth2/v2.0/authorize\n\n", query := [] } := by
    decide +kernel
  have h2 : ∃ u, parse Demo.lib "https://login.microsoftonline.com/common/oauth2/v2.0/token" = some u ∧
      (u.scheme = "http" ∨ u.scheme = "https") :=
    ⟨{ scheme := "https", host := some "login.microsoftonline.com", port := none, rest := "\n/common/oauth2/v2.0/token\n\n", query := [] },
      by decide +kernel, .inr rfl⟩
  have hconf := C110_office (isHttp_lib hu (by decide +kernel) ⟨_, h1, .inr rfl⟩) (isHttp_lib hu (by decide +kernel) h2) n i k e
  rw [hf] at hconf
  cases hconf
  obtain ⟨x, rs, rv, b, g1, g2, g3⟩ := first_show (s := "https://login.microsoftonline.com/common/oauth2/v2.0/authorize")
    (scs := ["https://outlook.office365.com/IMAP.AccessAsUser.All", "https://outlook.office365.com/SMTP.Send", "offline_access"])
    hu hL hf hb hs hcfg hx hn ⟨rfl, rfl, rfl, rfl, rfl, rfl⟩ (uri_lib hu (by decide +kernel) h1)
    (by rw [hu.render]; decide +kernel) (by decide +kernel) (by decide +kernel) (List.cons_ne_nil _ _)
    (sc := "https://outlook.office365.com/IMAP.AccessAsUser.All https://outlook.office365.com/SMTP.Send offline_access")
    (by decide +kernel)
    (l := "Access token unavailable until authorised with URL https://login.microsoftonline.com/common/oauth2/v2.0/authorize?access_type=offline&code_challenge=")
    (by decide +kernel)
  refine ⟨x, rs, rv, b, g1, g2, g3.trans ?_⟩
  have e1 : queryWord "https://outlook.office365.com/IMAP.AccessAsUser.All https://outlook.office365.com/SMTP.Send offline_access" =
      "https%3A%2F%2Foutlook.office365.com%2FIMAP.AccessAsUser.All+https%3A%2F%2Foutlook.office365.com%2FSMTP.Send+offline_access" := by
    decide +kernel
  have e2 : ∀ s t : String, s ++ "&scope=" ++ "https%3A%2F%2Foutlook.office365.com%2FIMAP.AccessAsUser.All+https%3A%2F%2Foutlook.office365.com%2FSMTP.Send+offline_access" ++
      "&" ++ ("login_hint" ++ "=" ++ t) = s ++
      "&scope=https%3A%2F%2Foutlook.office365.com%2FIMAP.AccessAsUser.All+https%3A%2F%2Foutlook.office365.com%2FSMTP.Send+offline_access&login_hint=" ++ t := by
    intro s t
    have : "&scope=https%3A%2F%2Foutlook.office365.com%2FIMAP.AccessAsUser.All+https%3A%2F%2Foutlook.office365.com%2FSMTP.Send+offline_access&login_hint=" =
      "&scope=" ++ ("https%3A%2F%2Foutlook.office365.com%2FIMAP.AccessAsUser.All+https%3A%2F%2Foutlook.office365.com%2FSMTP.Send+offline_access" ++
        ("&" ++ ("login_hint" ++ "="))) := by decide +kernel
    rw [this]
    simp only [String.append_assoc]
  rw [e1, queryOf_one, words.2.2.2.2.2.2.2.2.2.2.2.2.2.2.2, e2]

/-- **C111.** The same for the configuration for Gmail. -/
theorem C111_gmail (hu : UsesUrls E L) (hL : L.Canonical) {M : Machine} {c : Config} {now : Instant} {wall : SysTime}
    {w0 w w' : World} {n e i k : String} (hf : Config.fromStr E (gmailFile n e i k) = .ok c)
    (hb : serverBoot M c now wall = .ok w0) (hs : Steps E w0 w) (hcfg : w.ls.config = c)
    (hx : Executes E w (Cmd.wire (.show n true)) w') (hn : HoldsNothing w.ls n) :
    ∃ (x : Nat) (rs : Vector UInt8 8) (rv : Vector UInt8 64) (b : Bytes), M.bindHttp "127.0.0.1:0" = .ok x ∧ .reply b ∈ w'.threads 0 ∧
      Cli.run (.show n true) (.answer b) = ⟨[], some (
        "Access token unavailable until authorised with URL https://accounts.google.com/o/oauth2/auth?access_type=offline&code_challenge=" ++
        (b64 (E.sha256 (utf8 (b64 rv.toList))) ++ "&code_challenge_method=S256&client_id=" ++ queryWord i ++
        "&redirect_uri=http%3A%2F%2Flocalhost" ++ (if x = 80 then "" else "%3A" ++ toString x) ++
        "%2F&response_type=code&state=" ++ b64 rs.toList ++
        "&scope=https%3A%2F%2Fmail.google.com%2F&login_hint=" ++ queryWord e)), 1⟩ := by
  have h1 : parse Demo.lib "https://accounts.google.com/o/oauth2/auth" =
      some { scheme := "https", host := some "accounts.google.com", port := none, rest := "\n/o/oauth2/auth\n\n", query := [] } := by
    decide +kernel
  have h2 : ∃ u, parse Demo.lib "https://oauth2.googleapis.com/token" = some u ∧ (u.scheme = "http" ∨ u.scheme = "https") :=
    ⟨{ scheme := "https", host := some "oauth2.googleapis.com", port := none, rest := "\n/token\n\n", query := [] },
      by decide +kernel, .inr rfl⟩
  have hconf := C110_gmail (isHttp_lib hu (by decide +kernel) ⟨_, h1, .inr rfl⟩) (isHttp_lib hu (by decide +kernel) h2) n e i k
  rw [hf] at hconf
  cases hconf
  obtain ⟨x, rs, rv, b, g1, g2, g3⟩ := first_show (s := "https://accounts.google.com/o/oauth2/auth")
    (scs := ["https://mail.google.com/"]) hu hL hf hb hs hcfg hx hn ⟨rfl, rfl, rfl, rfl, rfl, rfl⟩ (uri_lib hu (by decide +kernel) h1)
    (by rw [hu.render]; decide +kernel) (by decide +kernel) (by decide +kernel) (List.cons_ne_nil _ _)
    (sc := "https://mail.google.com/") (by decide +kernel)
    (l := "Access token unavailable until authorised with URL https://accounts.google.com/o/oauth2/auth?access_type=offline&code_challenge=")
    (by decide +kernel)
  refine ⟨x, rs, rv, b, g1, g2, g3.trans ?_⟩
  have e1 : queryWord "https://mail.google.com/" = "https%3A%2F%2Fmail.google.com%2F" := by decide +kernel
  have e2 : ∀ s t : String, s ++ "&scope=" ++ "https%3A%2F%2Fmail.google.com%2F" ++ "&" ++ ("login_hint" ++ "=" ++ t) = s ++
      "&scope=https%3A%2F%2Fmail.google.com%2F&login_hint=" ++ t := by
    intro s t
    have : "&scope=https%3A%2F%2Fmail.google.com%2F&login_hint=" =
      "&scope=" ++ ("https%3A%2F%2Fmail.google.com%2F" ++ ("&" ++ ("login_hint" ++ "="))) := by decide +kernel
    rw [this]
    simp only [String.append_assoc]
  rw [e1, queryOf_one, words.2.2.2.2.2.2.2.2.2.2.2.2.2.2.2, e2]

namespace Demo

def officeAcc : Account :=
  { name := "officesmtp"
    authUri := "https://login.microsoftonline.com/common/oauth2/v2.0/authorize"
    authUriFields := [("login_hint", "email@example.com")]
    clientId := "i"
    clientSecret := some "k"
    redirectUri := "http://localhost/"
    refreshAtLeast := none
    refreshBeforeExpiry := none
    refreshRetry := none
    scopes := ["https://outlook.office365.com/IMAP.AccessAsUser.All",
      "https://outlook.office365.com/SMTP.Send",
      "offline_access"]
    tokenUri := "https://login.microsoftonline.com/common/oauth2/v2.0/token" }

def officeMachine : Machine := { machine with bindHttp := fun _ => .ok 14204 }

def office0 : World := (serverBoot officeMachine (defaultsWith officeAcc) 0 0).toOption.getD w0

def officeAsk : World := (office0.step envUrl (.connect (Cmd.wire (.show "officesmtp" true)))).getD w0

def officeAsked : World := (officeAsk.step envUrl (.run 0 {})).getD w0

/-- The hypotheses of `C111_office` are met. -/
example : Config.fromStr envUrl (officeFile "officesmtp" "i" "k" "email@example.com") = .ok (defaultsWith officeAcc) ∧
    serverBoot officeMachine (defaultsWith officeAcc) 0 0 = .ok office0 ∧ Steps envUrl office0 officeAsk ∧
    officeAsk.ls.config = defaultsWith officeAcc ∧ Executes envUrl officeAsk (Cmd.wire (.show "officesmtp" true)) officeAsked ∧
    HoldsNothing officeAsk.ls "officesmtp" := by
  have h1 : Config.fromStr envUrl (officeFile "officesmtp" "i" "k" "email@example.com") = .ok (defaultsWith officeAcc) :=
    C110_office (isHttp_lib envUrl_uses (by decide +kernel) ⟨{ scheme := "https", host := some "login.microsoftonline.com", port := none, rest := "\n/common/oauth2/v2.0/authorize\n\n", query := [] }, by decide +kernel, .inr rfl⟩)
      (isHttp_lib envUrl_uses (by decide +kernel) ⟨{ scheme := "https", host := some "login.microsoftonline.com", port := none, rest := "\n/common/oauth2/v2.0/token\n\n", query := [] }, by decide +kernel, .inr rfl⟩) ..
  have h2 : serverBoot officeMachine (defaultsWith officeAcc) 0 0 = .ok office0 := by
    unfold office0
    generalize hx : serverBoot officeMachine (defaultsWith officeAcc) 0 0 = x
    cases x with
    | ok _ => rfl
    | error e =>
      have : (serverBoot officeMachine (defaultsWith officeAcc) 0 0).toOption.isSome = true := by decide +kernel
      rw [hx] at this
      cases this
  have h3 : office0.step envUrl (.connect (Cmd.wire (.show "officesmtp" true))) = some officeAsk := by
    unfold officeAsk
    generalize hx : office0.step envUrl (.connect (Cmd.wire (.show "officesmtp" true))) = x
    cases x with
    | some _ => rfl
    | none =>
      have : (office0.step envUrl (.connect (Cmd.wire (.show "officesmtp" true)))).isSome = true := by decide +kernel
      rw [hx] at this
      cases this
  have h4 : officeAsk.step envUrl (.run 0 {}) = some officeAsked := by
    unfold officeAsked
    generalize hx : officeAsk.step envUrl (.run 0 {}) = x
    cases x with
    | some _ => rfl
    | none =>
      have : (officeAsk.step envUrl (.run 0 {})).isSome = true := by decide +kernel
      rw [hx] at this
      cases this
  have hh : IsHttpUri envUrl "http://localhost/" := isHttp_lib envUrl_uses (by decide +kernel)
    ⟨{ scheme := "http", host := some "localhost", port := none, rest := "\n/\n\n", query := [] }, by decide +kernel, .inl rfl⟩
  have hr := Reach.init (C106 hh h1 h2).1
  obtain ⟨hth, hls⟩ : officeAsk.threads 0 = [.unix (Cmd.wire (.show "officesmtp" true)), .close] ∧ officeAsk.ls = office0.ls := by
    have hs := (stepR_of_step hr.inv0.wf h3).2
    generalize officeAsk = w at hs ⊢
    cases hs
    exact ⟨by simp [setThread], rfl⟩
  have hcfg := (C106 hh h1 h2).2.1
  refine ⟨h1, h2, .step _ .refl h3, by rw [hls, hcfg], ⟨.step _ hr h3, hth, {}, h4⟩, ?_⟩
  obtain ⟨e, he, hen⟩ := hr.inv0.wf.entry_of_get? (n := "officesmtp") (a := officeAcc) (by rw [hcfg]; rfl)
  rw [hls]
  exact ⟨e, he, hen, (C106 hh h1 h2).2.2.1 e he⟩

/-- What is printed (if all random bytes are zero). -/
example : (officeAsked.threads 0).filterMap (fun op => match op with | .reply b => some b | _ => none) =
    [utf8 "pending:https://login.microsoftonline.com/common/oauth2/v2.0/authorize?access_type=offline&code_challenge=QUFBQUFBQUFBQUFBQUFBQUFBQUFBQUFBQUFBQUFBQUFBQUFBQUFBQUFBQUFBQUFBQUFBQUFBQUFBQUFBQUFBQUFBQUFBQUFBQUFBQUFBQUFBQUFBQUE&code_challenge_method=S256&client_id=i&redirect_uri=http%3A%2F%2Flocalhost%3A14204%2F&response_type=code&state=AAAAAAAAAAA&scope=https%3A%2F%2Foutlook.office365.com%2FIMAP.AccessAsUser.All+https%3A%2F%2Foutlook.office365.com%2FSMTP.Send+offline_access&login_hint=email%40example.com"] := by
  decide +kernel

end Demo

end Pizauth
