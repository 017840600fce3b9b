import Verif.Proof.Form
import Verif.Spec.HttpResponse
import Verif.Props.AuthUrl
import Verif.Props.Posts
import Verif.Props.Callback

/-!
# C87: parameters cannot be forged. C88: HTTP answers
-/

namespace Pizauth
open FormSpec

variable {E : Env}

/-! ## C87 -/

/-- **C87.** What is written for a list of names and values is a form with exactly these names and values, whatever
characters they consist of; and it cannot be read in any other way. -/
theorem C87 (ps qs : List (String × String)) : IsForm qs (Form.body ps) ↔ qs = ps := by
  constructor
  · intro h
    rw [← Form.parse_isForm h, Form.parse_isForm (Form.isForm_body ps)]
  · rintro rfl
    exact Form.isForm_body qs

/-- **C87.** Forms can be read in only one way, no matter who has written them. -/
theorem C87_unique {ps qs : List (String × String)} {t : Bytes} (hp : IsForm ps t) (hq : IsForm qs t) : ps = qs := by
  rw [← Form.parse_isForm hp, Form.parse_isForm hq]

/-- **C87**, for token servers: the body of each POST is a form which has each of its names once, so a code or a token
with strange characters adds no parameter, and replaces none. -/
theorem C87_post {w : World} {t : Instant} {i : Nat} {u : String} {f ps : List (String × String)} (hr : Reach E w)
    (hm : (t, .post i u f) ∈ w.log) (h : IsForm ps (Form.body f)) : ps = f ∧ (ps.map Prod.fst).Nodup := by
  have he := (C87 f ps).mp h
  subst he
  refine ⟨rfl, ?_⟩
  obtain ⟨n, a, w1, w2, inp, _, _, _, _, _, hf⟩ := C20 hr hm
  rcases hf with ⟨p, code, redirect, _, rfl⟩ | ⟨tok, r, _, _, rfl, _⟩
  · unfold exchangePost secretParam
    cases a.clientSecret <;> simp <;> decide
  · unfold refreshPost secretParam
    cases a.clientSecret <;> simp <;> decide

/-- **C87**, for authorisation servers. If `q` is the text of the query of the configured `auth_uri` (`none`: it has
none), the query of the URL which the user is asked to visit is read as the parameters of `C46`: those of `q`, then
pizauth's, then the `auth_uri_fields`. -/
theorem C87_url {w : World} {n : String} {p : PendingTok} (hr : Reach E w) (hp : HoldsPending w.ls n p) :
    ∃ a base redirect, w.ls.config.get? n = some a ∧ E.parseUrl a.authUri = some base ∧
      a.redirectUrl E w.st.httpPort w.st.httpsPort = .ok redirect ∧
      ∀ q, base.query = Form.queryPairs q →
        Form.queryPairs (some (Form.withParams q
          ([("access_type", "offline"), ("code_challenge", b64 (E.sha256 (utf8 p.codeVerifier))),
            ("code_challenge_method", "S256"), ("client_id", a.clientId), ("redirect_uri", E.renderUrl redirect),
            ("response_type", "code"), ("state", p.state)] ++
            (if a.scopes = [] then [] else [("scope", " ".intercalate a.scopes)]) ++ a.authUriFields))) =
          p.url.query := by
  obtain ⟨a, base, redirect, h1, h2, h3, h4⟩ := C46 hr hp
  refine ⟨a, base, redirect, h1, h2, h3, ?_⟩
  intro q hq
  have hpar := Form.parse_withParams q
  rw [h4]
  simp only [Form.queryPairs, Option.getD_some] at hq ⊢
  rw [hpar, Form.queryPairs, hq]
  simp only [List.append_assoc]

/-- **C87**, for callbacks: a form is read as what it stands for, whichever characters the authorisation server chose to
escape. -/
theorem C87_callback {ps : List (String × String)} {t : Bytes} (h : IsForm ps t) : Form.queryPairs (some t) = ps :=
  Form.parse_isForm h

/-- **C87.** What is written consists of letters, digits and `*-._+%=&`: it does not end the query, the URL, or the line
in which it stands. -/
theorem C87_harmless (ps : List (String × String)) : ∀ b ∈ Form.body ps, Harmless b := Form.body_harmless ps

/-! A code which tries to be more than a code. -/

example : Form.body [("code", "c&client_id=x"), ("client_id", "é +%")] =
    utf8 "code=c%26client_id%3Dx&client_id=%C3%A9+%2B%25" := by decide +kernel

example : Form.parse (utf8 "code=c%26client_id%3Dx&client_id=%C3%A9+%2B%25") =
    [("code", "c&client_id=x"), ("client_id", "é +%")] := by decide +kernel

example : Form.queryPairs (some (Form.withParams (some (utf8 "hd=x")) [("state", "s")])) = [("hd", "x"), ("state", "s")] := by
  decide +kernel

/-! Another style of escaping: `é` and `=` as they are, `/` needlessly escaped, in lower case. -/

example : Form.parse (utf8 "code=4%2fAé==&state=s") = [("code", "4/Aé=="), ("state", "s")] := by decide +kernel

/-! What is not a form: bytes which are not UTF-8 become U+FFFD, a lonely `%` stays, names without value have the empty
one, empty pieces are skipped. -/

example : Form.parse (utf8 "&a%FFb=%E2%82&%zz&&x=") = [("a�b", "�"), ("%zz", ""), ("x", "")] := by decide +kernel

/-! ## C88 -/

open HttpSpec

/-- A page. -/
def page (text : String) : String := "<html><body><h2>" ++ text ++ "</h2></body></html>"

/-- The four answers which there are. -/
def pages : List Bytes :=
  [utf8 ("HTTP/1.1 200 OK\r\n\r\n" ++ page "pizauth processing authentication: you can safely close this page."),
   utf8 ("HTTP/1.1 200 OK\r\n\r\n" ++ page "No pending token matches request state: request a fresh token"),
   utf8 "HTTP/1.1 400\r\n\r\n", utf8 "HTTP/1.1 404\r\n\r\n"]

theorem ok_bytes (t : String) : Answer.bytes (.ok t) = utf8 ("HTTP/1.1 200 OK\r\n\r\n" ++ page t) :=
  congrArg utf8 (String.toList_inj.mp (by simp [page]))

/-- **C88.** Whatever a browser is made to ask for, what it gets is one of four fixed texts: nothing of the request, of
the configuration or of a token is in it. -/
theorem C88_fixed {w : World} {t : Instant} {i : Nat} {b : Bytes} (hr : Reach E w) (hm : (t, .httpAnswer i b) ∈ w.log) :
    b ∈ pages := by
  have hb : .httpAnswer i b ∈ threadLog i w.log := by
    refine List.mem_filter.mpr ⟨List.mem_map.mpr ⟨_, hm, rfl⟩, ?_⟩
    simp [Obs.thread]
  obtain ⟨buf, sec, hq⟩ := C27_asked hr hb
  obtain ⟨ans, rfl, w1, w2, inp, _, _, _, _, ha⟩ := C27_answer hr hq hb
  unfold pages
  cases ha with
  | malformed => simp [Answer.bytes]
  | noState => simp [Answer.bytes]
  | unknown => rw [ok_bytes]; exact List.mem_cons_of_mem _ (List.mem_cons_self ..)
  | origin => simp [Answer.bytes]
  | error => simp [Answer.bytes]
  | noCode => simp [Answer.bytes]
  | code => rw [ok_bytes]; exact List.mem_cons_self ..

/-- **C88**, in part: answers with status 200 are HTTP responses. Missing: those with the status 400 and 404, in which
the blank after the status code is missing, see `C88_not`. -/
theorem C88_partial {w : World} {t : Instant} {i : Nat} {b : Bytes} (hr : Reach E w)
    (hm : (t, .httpAnswer i b) ∈ w.log) :
    Response 200 b ∨ b = utf8 "HTTP/1.1 400\r\n\r\n" ∨ b = utf8 "HTTP/1.1 404\r\n\r\n" := by
  have h := C88_fixed hr hm
  simp only [pages, List.mem_cons, List.not_mem_nil, or_false] at h
  have key : ∀ s : String, Response 200 (utf8 ("HTTP/1.1 200 OK\r\n\r\n" ++ s)) := by
    intro s
    refine ⟨[50, 48, 48], utf8 "OK", [], utf8 s, ⟨2, 0, 0, by decide, by decide, by decide, by decide, rfl, rfl⟩,
      by decide +kernel, by simp, ?_⟩
    rw [utf8_append]
    congr 1
  rcases h with rfl | rfl | rfl | rfl
  · exact .inl (key _)
  · exact .inl (key _)
  · exact .inr (.inl rfl)
  · exact .inr (.inr rfl)

theorem not_response {n : Nat} {b : Bytes} (h : b.drop 12 = [13, 10, 13, 10]) : ¬ Response n b := by
  rintro ⟨code, reason, fields, body, ⟨x, y, z, _, _, _, _, _, rfl⟩, _, _, rfl⟩
  have e : utf8 "HTTP/1.1 " = [72, 84, 84, 80, 47, 49, 46, 49, 32] := by decide +kernel
  have e' : utf8 " " = [32] := by decide +kernel
  rw [e, e'] at h
  simp at h

namespace Demo

/-- Somebody connects who does not speak HTTP. -/
def sGarbage : List Action := [.http (utf8 "hello") false, .run 1 {}, .run 1 {}]

/-- Somebody asks for the page without giving a state. -/
def sPlain : List Action := [.http (utf8 "GET /?code=c HTTP/1.1\r\nHost: localhost:8080\r\n\r\n") false, .run 1 {}, .run 1 {}]

end Demo

open Demo in
/-- **C88 does not hold**: the answers to requests which are not understood, and to those for other pages, are not HTTP
responses. -/
theorem C88_not : (∃ w t i b, Reach env w ∧ (t, .httpAnswer i b) ∈ w.log ∧ ∀ n, ¬ Response n b) := by
  refine ⟨after sGarbage, 0, 1, utf8 "HTTP/1.1 400\r\n\r\n", after_reach _, ?_, ?_⟩
  · decide +kernel
  · intro n
    exact not_response (by decide +kernel)

/-! The page which the user sees. -/

open Demo in
example : ∃ t, (t, .httpAnswer 1 (http200 msgProcessing)) ∈ (after sCallback).log := by
  refine ⟨0, ?_⟩
  decide +kernel

open Demo in
example : ∃ t, (t, .httpAnswer 1 (utf8 "HTTP/1.1 404\r\n\r\n")) ∈ (after sPlain).log := by
  refine ⟨0, ?_⟩
  decide +kernel

end Pizauth
