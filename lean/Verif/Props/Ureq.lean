import Verif.Spec.Ureq
import Verif.Props.Posts
import Verif.Props.Demo

/-!
# C113: Redirections by token servers

The library with which `pizauth` sends requests follows redirections. Whatever the servers answer, the form with the
client secret and with the authorisation code or the refresh token is sent once, to the `token_uri` of the account. But
the answer of the last server counts as that of the token server.
-/

namespace Pizauth
open Ureq

namespace Ureq

variable {join : String → String → Option String} {web : Request → List Request → Reply}

theorem redirectMethod_get {s : Nat} {m m' : String} (hm : m = "POST" ∨ m = "GET") (h : redirectMethod s m = some m') : m' = "GET" := by
  unfold redirectMethod at h
  rcases hm with rfl | rfl
  all_goals
    by_cases h1 : s = 301 ∨ s = 302 ∨ s = 303
    · rw [if_pos h1] at h
      injection h with h
      exact h.symm
    · rw [if_neg h1] at h
      by_cases h2 : s = 307 ∨ s = 308
      · rw [if_pos h2] at h
        first
          | (injection h with h; exact h.symm)
          | cases h
      · rw [if_neg h2] at h
        cases h

theorem redirectMethod_iff {s : Nat} {m m' : String} (hm : m = "POST" ∨ m = "GET") (h : redirectMethod s m = some m') :
    s = 301 ∨ s = 302 ∨ s = 303 ∨ (m ≠ "POST" ∧ (s = 307 ∨ s = 308)) := by
  unfold redirectMethod at h
  by_cases h1 : s = 301 ∨ s = 302 ∨ s = 303
  · rcases h1 with h1 | h1 | h1 <;> simp [h1]
  · rw [if_neg h1] at h
    by_cases h2 : s = 307 ∨ s = 308
    · rcases hm with rfl | rfl
      · rw [if_pos h2] at h; cases h
      · exact .inr (.inr (.inr ⟨by decide, h2⟩))
    · rw [if_neg h2] at h
      cases h

/-- One request leads to the next. -/
def Leads (join : String → String → Option String) (web : Request → List Request → Reply) (q : Request) (before : List Request) (q' : Request) : Prop :=
  ∃ r l, web q before = .response r ∧ r.redirects (q.method == "POST") ∧ r.location = some l ∧ join q.uri l = some q'.uri ∧
    q'.method = "GET" ∧ q'.form = none

/-- The end of a sequence of requests. -/
def Ends (join : String → String → Option String) (web : Request → List Request → Reply) (n : Nat) (q : Request) (before : List Request)
    (e : Except TransportKind Response) : Prop :=
  (∃ k, web q before = .fail k ∧ e = .error k) ∨
  ∃ r, web q before = .response r ∧
    ((e = .ok r ∧ (¬ (300 ≤ r.status ∧ r.status < 399) ∨ r.location = none ∨ ¬ r.redirects (q.method == "POST"))) ∨
     (e = .error .other ∧ 300 ≤ r.status ∧ r.status < 399 ∧ (n = 0 ∨ ∃ l, r.location = some l ∧ join q.uri l = none)))

theorem redirectMethod_none {s : Nat} {m : String} (hm : m = "POST" ∨ m = "GET") (h : redirectMethod s m = none) :
    ¬ (s = 301 ∨ s = 302 ∨ s = 303 ∨ ((m == "POST") = false ∧ (s = 307 ∨ s = 308))) := by
  unfold redirectMethod at h
  split at h
  · split at h <;> cases h
  · rename_i h1
    rintro (h2 | h2 | h2 | ⟨h2, h3⟩)
    · exact h1 (.inl h2)
    · exact h1 (.inr (.inl h2))
    · exact h1 (.inr (.inr h2))
    · rw [if_pos h3] at h
      rcases hm with rfl | rfl
      · simp at h2
      · simp at h

/-- A whole sequence of requests. -/
inductive Run (join : String → String → Option String) (web : Request → List Request → Reply) :
    Nat → Request → List Request → List Request → Except TransportKind Response → Prop
  | stop {n : Nat} {q : Request} {before : List Request} {e : Except TransportKind Response} :
      Ends join web n q before e → Run join web n q before (q :: before) e
  | next {n : Nat} {q q1 : Request} {before qs : List Request} {e : Except TransportKind Response} :
      Leads join web q before q1 → Run join web n q1 (q :: before) qs e → Run join web (n + 1) q before qs e

theorem follow_run : ∀ (n : Nat) (q : Request) (before : List Request), (q.method = "POST" ∨ q.method = "GET") →
    Run join web n q before (follow join web n q before).1 (follow join web n q before).2
  | n, q, before, hm => by
    unfold follow
    cases hw : web q before with
    | fail k => exact .stop (.inl ⟨k, hw, rfl⟩)
    | response r =>
      simp only
      split
      · rename_i h3
        cases n with
        | zero => exact .stop (.inr ⟨r, hw, .inr ⟨rfl, h3.1, h3.2, .inl rfl⟩⟩)
        | succ n =>
          simp only
          cases hl : r.location with
          | none => exact .stop (.inr ⟨r, hw, .inl ⟨rfl, .inr (.inl hl)⟩⟩)
          | some l =>
            simp only
            cases hj : join q.uri l with
            | none => exact .stop (.inr ⟨r, hw, .inr ⟨rfl, h3.1, h3.2, .inr ⟨l, hl, hj⟩⟩⟩)
            | some u =>
              simp only
              cases hd : redirectMethod r.status q.method with
              | none => exact .stop (.inr ⟨r, hw, .inl ⟨rfl, .inr (.inr (redirectMethod_none hm hd))⟩⟩)
              | some m =>
                simp only
                obtain rfl := redirectMethod_get hm hd
                refine .next ⟨r, l, hw, ?_, hl, hj, rfl, rfl⟩ (follow_run n ⟨"GET", u, none⟩ (q :: before) (.inr rfl))
                rcases redirectMethod_iff hm hd with h | h | h | ⟨h, h'⟩
                · exact .inl h
                · exact .inr (.inl h)
                · exact .inr (.inr (.inl h))
                · exact .inr (.inr (.inr ⟨by simpa using h, h'⟩))
      · rename_i h3
        exact .stop (.inr ⟨r, hw, .inl ⟨rfl, .inl h3⟩⟩)

/-- The requests after the first one. -/
theorem Run.rest {n : Nat} {q : Request} {before qs : List Request} {e : Except TransportKind Response} (h : Run join web n q before qs e) :
    ∃ l, qs = l ++ q :: before ∧ l.length ≤ n ∧ ∀ x ∈ l, x.method = "GET" ∧ x.form = none := by
  induction h with
  | stop _ => exact ⟨[], rfl, Nat.zero_le _, fun x hx => by cases hx⟩
  | @next n q q1 before qs e hl _ ih =>
    obtain ⟨l, rfl, h2, h3⟩ := ih
    refine ⟨l ++ [q1], by simp, by simp; omega, ?_⟩
    intro x hx
    rcases List.mem_append.mp hx with hx | hx
    · exact h3 x hx
    · obtain rfl := List.mem_singleton.mp hx
      obtain ⟨_, _, _, _, _, _, h⟩ := hl
      exact h

/-- Each request but the first is where the answer to the one before it pointed. -/
theorem Run.leads {n : Nat} {q : Request} {before qs : List Request} {e : Except TransportKind Response} (h : Run join web n q before qs e) :
    ∀ l1 l2 q1 q2, qs = l1 ++ q2 :: q1 :: l2 → before.length ≤ l2.length → Leads join web q1 l2 q2 := by
  induction h with
  | @stop n q before e _ =>
    intro l1 l2 q1 q2 he hl
    have := congrArg List.length he
    simp at this
    omega
  | @next n q q' before qs e hl hrun ih =>
    intro l1 l2 q1 q2 he hlen
    by_cases hb : before.length = l2.length
    · obtain ⟨l, hqs, _⟩ := hrun.rest
      rw [hqs, show l1 ++ q2 :: q1 :: l2 = (l1 ++ [q2, q1]) ++ l2 by simp,
        show l ++ q' :: q :: before = (l ++ [q', q]) ++ before by simp] at he
      obtain ⟨h1, rfl⟩ := List.append_inj' he hb
      have h2 := (List.append_inj' h1 rfl).2
      cases h2
      exact hl
    · exact ih l1 l2 q1 q2 he (by simp; omega)

/-- What counts is what became of the last request. -/
theorem Run.last {n : Nat} {q : Request} {before qs : List Request} {e : Except TransportKind Response} (h : Run join web n q before qs e) :
    ∃ q' b m, qs = q' :: b ∧ n + before.length = m + b.length ∧ Ends join web m q' b e := by
  induction h with
  | @stop n q before e h => exact ⟨q, before, n, rfl, rfl, h⟩
  | next _ _ ih =>
    obtain ⟨q', b, m, h1, h2, h3⟩ := ih
    exact ⟨q', b, m, h1, by simp at h2; omega, h3⟩

theorem outcome_means (r : Response) : r.Means (outcome (.ok r)) := by
  unfold outcome Response.Means
  simp only
  split
  · rename_i h; exact .inl ⟨h, rfl⟩
  · rename_i h
    cases hb : r.body with
    | none => exact .inr (.inr ⟨by omega, rfl, _, rfl⟩)
    | some s => exact .inr (.inl ⟨by omega, s, rfl, _, rfl⟩)

theorem send_eq {uri : String} {form : List (String × String)} : send join web uri form =
    ((follow join web 5 ⟨"POST", uri, some form⟩ []).1.reverse, outcome (follow join web 5 ⟨"POST", uri, some form⟩ []).2) := rfl

end Ureq

/-- **C113.** Whatever servers answer: the form is sent once, to the given address. There are at most five other requests,
and nothing is sent with these. -/
theorem C113_form (join : String → String → Option String) (web : Request → List Request → Reply) (uri : String)
    (form : List (String × String)) :
    ∃ rest, (send join web uri form).1 = ⟨"POST", uri, some form⟩ :: rest ∧ rest.length ≤ 5 ∧
      ∀ q ∈ rest, q.method = "GET" ∧ q.form = none := by
  obtain ⟨l, h1, h2, h3⟩ := (follow_run (join := join) (web := web) 5 ⟨"POST", uri, some form⟩ [] (.inl rfl)).rest
  rw [send_eq, h1]
  exact ⟨l.reverse, by simp, by simpa using h2, fun q hq => h3 q (by simpa using hq)⟩

/-- C113: a request goes where the answer to the one before it said, and only after the answers 301, 302 and 303 (and, if it was a GET, 307
and 308). So a form is not sent again after a redirection, not even if the server asks for that with 307 or 308. -/
theorem C113_where {join : String → String → Option String} {web : Request → List Request → Reply} {uri : String}
    {form : List (String × String)} {l1 l2 : List Request} {q1 q2 : Request}
    (h : (send join web uri form).1 = l1 ++ q1 :: q2 :: l2) :
    ∃ r l, web q1 l1.reverse = .response r ∧ r.redirects (q1.method == "POST") ∧ r.location = some l ∧
      join q1.uri l = some q2.uri := by
  have hrun := follow_run (join := join) (web := web) 5 ⟨"POST", uri, some form⟩ [] (.inl rfl)
  rw [send_eq] at h
  have h' := congrArg List.reverse h
  simp only [List.reverse_reverse] at h'
  obtain ⟨r, l, h1, h2, h3, h4, _⟩ := hrun.leads l2.reverse l1.reverse q1 q2 (by rw [h']; simp) (Nat.zero_le _)
  exact ⟨r, l, h1, h2, h3, h4⟩

/-- C113: what counts is the answer to the last request. (There is an error if this is the sixth one and it is answered with yet another
redirection, or if it points to something which is no address.) -/
theorem C113_last (join : String → String → Option String) (web : Request → List Request → Reply) (uri : String)
    (form : List (String × String)) :
    ∃ l q, (send join web uri form).1 = l ++ [q] ∧
      ((∃ k, web q l.reverse = .fail k ∧ (send join web uri form).2 = .transport k) ∨
       ∃ r, web q l.reverse = .response r ∧
        (r.Means (send join web uri form).2 ∨
         ((send join web uri form).2 = .transport .other ∧ 300 ≤ r.status ∧ r.status < 399 ∧
          (l.length = 5 ∨ ∃ x, r.location = some x ∧ join q.uri x = none)))) := by
  obtain ⟨q, b, m, h1, h2, h3⟩ := (follow_run (join := join) (web := web) 5 ⟨"POST", uri, some form⟩ [] (.inl rfl)).last
  rw [send_eq, h1]
  refine ⟨b.reverse, q, by simp, ?_⟩
  rw [List.reverse_reverse]
  rcases h3 with ⟨k, hw, he⟩ | ⟨r, hw, ⟨he, _⟩ | ⟨he, ha, hb, hc⟩⟩
  · exact .inl ⟨k, hw, by rw [he]; rfl⟩
  · exact .inr ⟨r, hw, .inl (by rw [he]; exact outcome_means r)⟩
  · refine .inr ⟨r, hw, .inr ⟨by rw [he]; rfl, ha, hb, hc.imp (fun h => ?_) id⟩⟩
    simp at h2 ⊢
    omega

/-- **C113**, partial: if the server at the given address answers, and does not redirect, then it alone is asked, and it is its
answer that counts. (Missing: if it redirects, see `C113_not`.) -/
theorem C113_partial {join : String → String → Option String} {web : Request → List Request → Reply} {uri : String}
    {form : List (String × String)} {r : Response} (hw : web ⟨"POST", uri, some form⟩ [] = .response r)
    (hr : r.status < 300 ∨ 399 ≤ r.status ∨ r.location = none) :
    (send join web uri form).1 = [⟨"POST", uri, some form⟩] ∧ r.Means (send join web uri form).2 := by
  have : follow join web 5 ⟨"POST", uri, some form⟩ [] = ([⟨"POST", uri, some form⟩], .ok r) := by
    unfold follow
    rw [hw]
    simp only
    split
    · rename_i h3
      rcases hr with h | h | h
      · omega
      · omega
      · rw [h]
    · rfl
  rw [send_eq, this]
  exact ⟨rfl, outcome_means r⟩

/-- C113: the answers 307 and 308, which ask to send the form elsewhere, count as answers. -/
theorem C113_kept {join : String → String → Option String} {web : Request → List Request → Reply} {uri u l : String}
    {form : List (String × String)} {r : Response} (hw : web ⟨"POST", uri, some form⟩ [] = .response r)
    (hr : r.status = 307 ∨ r.status = 308) (hl : r.location = some l) (hj : join uri l = some u) :
    (send join web uri form).1 = [⟨"POST", uri, some form⟩] ∧ r.Means (send join web uri form).2 := by
  have : follow join web 5 ⟨"POST", uri, some form⟩ [] = ([⟨"POST", uri, some form⟩], .ok r) := by
    unfold follow
    rw [hw]
    rcases hr with h | h <;> simp [h, hl, hj, redirectMethod]
  rw [send_eq, this]
  exact ⟨rfl, outcome_means r⟩

/-- **C113**, for the whole program: for every POST which the server makes, a form is sent to nobody but to the token server of an
account, whatever that answers. -/
theorem C113_secret {E : Env} {w : World} {t : Instant} {i : Nat} {u : String} {f : List (String × String)} (hr : Reach E w)
    (hm : (t, .post i u f) ∈ w.log) :
    ∃ n a, DidStep E i w fun w1 _ => w1.ls.config.get? n = some a ∧
      ∀ join web q, q ∈ (send join web u f).1 → q.form ≠ none →
        q.uri = a.tokenUri ∧ q.form = some f ∧
        ((∃ p code redirect, HoldsPending w1.ls n p ∧ f = exchangePost a code p.codeVerifier redirect) ∨
         ∃ tok r, HoldsToken w1.ls n tok ∧ tok.refreshToken = some r ∧ f = refreshPost a r) := by
  obtain ⟨n, a, w1, w2, inp, h1, h2, h3, ha, rfl, h⟩ := C20 hr hm
  refine ⟨n, a, w1, w2, inp, h1, h2, h3, ha, ?_⟩
  intro join web q hq hf
  obtain ⟨rest, he, _, hrest⟩ := C113_form join web a.tokenUri f
  rw [he] at hq
  rcases List.mem_cons.mp hq with rfl | hq
  · refine ⟨rfl, rfl, h.imp id ?_⟩
    rintro ⟨tok, r, a1, a2, a3, _⟩
    exact ⟨tok, r, a1, a2, a3⟩
  · exact absurd (hrest q hq).2 hf

/-! ## Examples -/

namespace Demo.Ureq

/-- Addresses are given in full. -/
def join (_ l : String) : Option String := some l

/-- The server at https://a.example/ redirects with `status`, and an answer to everybody else grants a token. -/
def web (status : Nat) (q : Request) (_ : List Request) : Reply :=
  if q.uri = "https://a.example/" then .response ⟨status, some "http://b.example/", some ""⟩
  else .response ⟨200, none, some "{\"token_type\":\"Bearer\",\"access_token\":\"T\",\"expires_in\":3600}"⟩

/-- A server which redirects to itself. -/
def loop (_ : Request) (_ : List Request) : Reply := .response ⟨302, some "https://a.example/", some ""⟩

def form : List (String × String) := [("refresh_token", "R")]

/-- What the second server says. -/
def granted : Body := .obj [("expires_in", .u64 3600), ("access_token", .str "T"), ("token_type", .str "Bearer")]

/-- The form is sent to the first server only, and is not sent if it redirects. -/
example : send join (web 302) "https://a.example/" form =
    ([⟨"POST", "https://a.example/", some form⟩, ⟨"GET", "http://b.example/", none⟩], .body granted) := by decide +kernel

/-- `307` is not followed. -/
example : send join (web 307) "https://a.example/" form =
    ([⟨"POST", "https://a.example/", some form⟩], .badJson "invalid") := by decide +kernel

/-- Without a redirection. -/
example : send join (web 302) "http://b.example/" form = ([⟨"POST", "http://b.example/", some form⟩], .body granted) := by decide +kernel

/-- A server which redirects for ever is asked six times. -/
example : ((send join loop "https://a.example/" form).1.length, (send join loop "https://a.example/" form).2) = (6, .transport .other) := by
  decide +kernel

theorem granted_issued : Issued granted "T" 3600 :=
  ⟨nofun, rfl, rfl, rfl⟩

/-- A refresh of the server in the example, to which C113_secret applies: the token server redirects, then the token in use is that of
the other server. -/
example : (w0.run env (sRefresh ++ [.run 2 {}, .run 2 { net := (send join (web 302) "https://a.example/" form).2 }, .run 2 {}, .run 2 {}])).isSome = true ∧
    (after (sRefresh ++ [.run 2 {}])).log.any (fun o => match o.2 with
      | .post 2 u f => u == "https://ts/token" && (send join (web 302) u f).1.all fun q => q.form.isNone || q.uri == u
      | _ => false) = true ∧
    (after (sRefresh ++ [.run 2 {}, .run 2 { net := (send join (web 302) "https://a.example/" form).2 }, .run 2 {}, .run 2 {}])).ls.details.any (fun e =>
      match e.ts with
      | .active t => t.accessToken == "T"
      | _ => false) = true := by
  decide +kernel

end Demo.Ureq

/-- Against C113: a token is accepted which the token server did not grant. It is granted by the answer of another server to which it
redirects; this is so even if only the former is asked with an encrypted connection. -/
theorem C113_not :
    ¬ ∀ (join : String → String → Option String) (web : Request → List Request → Reply) (uri : String) (form : List (String × String))
      (b : Body) (tok : String) (x : Nat), (send join web uri form).2 = .body b → Issued b tok x →
      ∃ r, web ⟨"POST", uri, some form⟩ [] = .response r ∧ r.Means (.body b) := by
  intro h
  obtain ⟨r, h1, h2⟩ := h Demo.Ureq.join (Demo.Ureq.web 302) "https://a.example/" Demo.Ureq.form Demo.Ureq.granted "T" 3600
    (by decide +kernel) Demo.Ureq.granted_issued
  cases h1
  rcases h2 with ⟨h, _⟩ | ⟨_, s, hs, msg, h⟩ | ⟨_, h, _⟩
  · exact absurd h (by decide)
  · cases hs
    exact absurd h (by
      have : Net.ofText "" msg = .badJson msg := rfl
      rw [this]; exact nofun)
  · cases h

end Pizauth
