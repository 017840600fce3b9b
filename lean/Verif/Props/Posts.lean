import Verif.Proof.TraceInv
import Verif.Props.AuthUrl
import Verif.Props.Tokens

/-!
# C20, C23, C24: what is sent to token servers
-/

namespace Pizauth
open LockedState

variable {E : Env}

/-- Is this observation a POST? -/
def Obs.isPost : Obs → Bool
  | .post _ _ _ => true
  | _ => false

section lemmas
variable {w : World} {i : Nat}

/-- The main thread sends nothing to token servers, nor does any thread in the name of another. -/
theorem post_thread : ∀ w, Reach E w → ∀ t j u f, (t, .post j u f) ∈ w.log → j ≠ 0 := by
  apply Reach.induct
  · intro w hi t j u f h; rw [hi.log] at h; cases h
  · intro w a w' hw _ _ ih hs t j u f h
    obtain ⟨l, hl, hnew⟩ := hs.log_new
    rw [hl] at h
    rcases List.mem_append.mp h with h | h
    · have := (hnew _ h).2
      cases this with
      | run ht hx ho =>
        have hm : ∀ {o : Op} {rest}, w.threads j = o :: rest → o ∈ w.threads j := fun h => by rw [h]; simp
        cases hx <;> simp at ho <;> obtain ⟨rfl, _⟩ := ho
        · exact ((Reach.shape w hw).core rfl (hm ht)).1
        · exact ((Reach.shape w hw).core rfl (hm ht)).1
    · exact ih t j u f h

theorem mem_threadLog {L : Log} {t : Instant} {o : Obs} (h : (t, o) ∈ L) (ho : o.thread = some i) : o ∈ threadLog i L := by
  unfold threadLog
  simp only [List.mem_filter, List.mem_map, beq_iff_eq]
  exact ⟨⟨_, h, rfl⟩, ho⟩

/-- The reason for a POST. -/
theorem Core.post {l : List Obs} {o : Op} (h : Core E w i l o) {u : String} {f : List (String × String)}
    (hm : .post i u f ∈ l) :
    (∃ c l0, Exchange E w i c l0 ∧ c.tokenUri = u ∧ c.form = f) ∨
    ∃ id c, StepTo E w i [] (.rfStart id) [.rfSend c] ∧ c.tokenUri = u ∧ c.form = f := by
  rcases h.exchange_mem with ⟨c, l0, h1, h2⟩ | ⟨b, s, rfl⟩ | ⟨id, rfl⟩ | h1
  · rcases h2 _ hm with ⟨_, h⟩ | ⟨_, _, h⟩ | h | ⟨_, h⟩ <;> simp at h
    exact .inl ⟨c, l0, h1, h.1.symm, h.2.symm⟩
  · simp at hm
  · cases h; cases hm
  · obtain ⟨id, c, h2, h3⟩ := h.refresh_mem h1
    rcases h3 _ hm with h | ⟨_, h⟩ | ⟨_, h⟩ | ⟨_, h⟩ <;> simp at h
    exact .inr ⟨id, c, h2, h.1.symm, h.2.symm⟩

theorem Tail.says {tail ops : List Op} {m : List Obs} (h : Tail i tail m ops) : ∃ pre, SaysAll i pre m := by
  obtain ⟨pre, _, h⟩ := h.split
  exact ⟨pre, h⟩

theorem post_cause (hr : Reach E w) {t : Instant} {u : String} {f : List (String × String)}
    (hm : (t, .post i u f) ∈ w.log) :
    (∃ c l0, Exchange E w i c l0 ∧ c.tokenUri = u ∧ c.form = f) ∨
    ∃ id c, StepTo E w i [] (.rfStart id) [.rfSend c] ∧ c.tokenUri = u ∧ c.form = f := by
  have hm' := mem_threadLog hm rfl
  rcases hr.trace (post_thread w hr _ _ _ _ hm) with ⟨_, h⟩ | h
  · rw [h] at hm'; cases hm'
  · generalize threadLog i w.log = l at h hm'
    generalize w.threads i = ops at h
    cases h with
    | core h => exact h.post hm'
    | answer => simp at hm'
    | tail h1 _ _ h4 =>
      obtain ⟨_, hsay⟩ := h4.says
      rcases List.mem_append.mp hm' with h | h
      · exact absurd h hsay.no_post
      · exact h1.post h

/-- At most `n` POSTs, and none after an HTTP response. -/
def FewPosts (n : Nat) (l : List Obs) : Prop :=
  (l.filter Obs.isPost).length ≤ n ∧
  ∀ l1 l2 j u f net, l = l1 ++ .resp j u f net :: l2 → net.isResponse = true → ∀ o ∈ l1, o.isPost = false

theorem FewPosts.mono {n m : Nat} {l : List Obs} (h : FewPosts n l) (hnm : n ≤ m) : FewPosts m l :=
  ⟨Nat.le_trans h.1 hnm, h.2⟩

theorem FewPosts.nil : FewPosts 0 [] := ⟨Nat.le_refl 0, by simp⟩

theorem FewPosts.other {n : Nat} {l : List Obs} {o : Obs} (h : FewPosts n l) (ho : o.isPost = false) : FewPosts n (o :: l) := by
  refine ⟨by simpa [ho] using h.1, ?_⟩
  intro l1 l2 j u f net he hn o' ho'
  cases l1 with
  | nil => cases ho'
  | cons x l1 =>
    simp only [List.cons_append, List.cons.injEq] at he
    rcases List.mem_cons.mp ho' with rfl | ho'
    · rw [← he.1]; exact ho
    · exact h.2 l1 l2 j u f net he.2 hn o' ho'

/-- No HTTP response was received. -/
def NoResp (l : List Obs) : Prop := ∀ j u f net, .resp j u f net ∈ l → net.isResponse = false

theorem FewPosts.post {n : Nat} {l : List Obs} {i : Nat} {u : String} {f : List (String × String)} (h : FewPosts n l)
    (hr : NoResp l) : FewPosts (n + 1) (.post i u f :: l) := by
  refine ⟨Nat.succ_le_succ h.1, ?_⟩
  intro l1 l2 j u f net he hn o' ho'
  cases l1 with
  | nil => cases ho'
  | cons x l1 =>
    simp only [List.cons_append, List.cons.injEq] at he
    have := hr j u f net (by rw [he.2]; simp)
    rw [hn] at this
    cases this

theorem NoResp.cons {l : List Obs} {o : Obs} (h : NoResp l) (ho : ∀ j u f net, o = .resp j u f net → net.isResponse = false) :
    NoResp (o :: l) := by
  intro j u f net hm
  rcases List.mem_cons.mp hm with hm | hm
  · exact ho _ _ _ _ hm.symm
  · exact h _ _ _ _ hm

theorem ExFails.fewPosts {c : ExCtx} {k : Nat} {l l0 : List Obs} (h : ExFails i c k l) (h0 : FewPosts 0 l0) (hr : NoResp l0) :
    FewPosts k (l ++ l0) ∧ NoResp (l ++ l0) := by
  induction h with
  | zero => exact ⟨h0, hr⟩
  | succ _ ih => exact ⟨(ih.1.post ih.2).other rfl, (ih.2.cons (by simp)).cons (by rintro _ _ _ _ h; cases h; rfl)⟩

theorem Exchange.noPosts {c : ExCtx} {l0 : List Obs} (h : Exchange E w i c l0) : FewPosts 0 l0 ∧ NoResp l0 := by
  obtain ⟨b, s, ans, _, rfl⟩ := h
  exact ⟨(FewPosts.nil.other rfl).other rfl, by intro j u f net h; simp at h⟩

theorem Core.fewPosts {l : List Obs} {o : Op} (h : Core E w i l o) : FewPosts 10 l := by
  have one : ∀ u f, FewPosts 1 [.post i u f] := fun u f => FewPosts.nil.post (by intro _ _ _ _ h; cases h)
  cases h with
  | http => exact (FewPosts.nil.other rfl).mono (by omega)
  | exSend h1 h2 h3 => exact (h2.fewPosts h1.noPosts.1 h1.noPosts.2).1.mono (by omega)
  | exSleep h1 h2 h3 => exact (h2.fewPosts h1.noPosts.1 h1.noPosts.2).1.mono (by omega)
  | exAwait h1 h2 h3 =>
    have := h2.fewPosts h1.noPosts.1 h1.noPosts.2
    exact (this.1.post this.2).mono (by omega)
  | exDone h1 h2 h3 =>
    have := h2.fewPosts h1.noPosts.1 h1.noPosts.2
    exact ((this.1.post this.2).other rfl).mono (by omega)
  | fail h1 h2 =>
    cases h2 with
    | net h3 h4 _ _ _ =>
      have := h3.fewPosts h1.noPosts.1 h1.noPosts.2
      exact ((this.1.post this.2).other rfl).mono (by omega)
    | body h3 h4 _ =>
      have := h3.fewPosts h1.noPosts.1 h1.noPosts.2
      exact ((this.1.post this.2).other rfl).mono (by omega)
    | all h3 _ => exact (h3.fewPosts h1.noPosts.1 h1.noPosts.2).1
  | rfStart => exact FewPosts.nil.mono (by omega)
  | rfSend => exact FewPosts.nil.mono (by omega)
  | rfAwait => exact (one _ _).mono (by omega)
  | rfPerm => exact ((one _ _).other rfl).mono (by omega)
  | rfNow => exact ((one _ _).other rfl).mono (by omega)
  | rfStore => exact ((one _ _).other rfl).mono (by omega)
  | rfTransient => exact ((one _ _).other rfl).mono (by omega)
  | rfCmd => exact ((one _ _).other rfl).mono (by omega)
  | rfCmdWait => exact (((one _ _).other rfl).other rfl).mono (by omega)
  | rfCmdOk => exact ((((one _ _).other rfl).other rfl).other rfl).mono (by omega)
  | rfCmdErr => exact ((((one _ _).other rfl).other rfl).other rfl).mono (by omega)

theorem FewPosts.append {n : Nat} {l m : List Obs} (h : FewPosts n l) (hm : ∀ o ∈ m, o.isPost = false) :
    FewPosts n (m ++ l) := by
  induction m with
  | nil => exact h
  | cons o m ih => exact (ih fun o ho => hm o (List.mem_cons_of_mem _ ho)).other (hm o (by simp))

end lemmas

/-- **C20.** Every POST goes to the `token_uri` of an account, with that account's client id and secret. It is a code
exchange for the authorisation this account waited for when the callback came, or it is a refresh of the token this
account had when the refresh began. In the latter case the refresh token has a lineage for this very account
(`Lineage` says: from answers of token servers to POSTs under security-identical configurations). -/
theorem C20 {w : World} {t : Instant} {i : Nat} {u : String} {f : List (String × String)} (hr : Reach E w)
    (hm : (t, .post i u f) ∈ w.log) :
    ∃ n a, DidStep E i w fun w1 _ => w1.ls.config.get? n = some a ∧ u = a.tokenUri ∧
      ((∃ p code redirect, HoldsPending w1.ls n p ∧ f = exchangePost a code p.codeVerifier redirect) ∨
       (∃ tok r, HoldsToken w1.ls n tok ∧ tok.refreshToken = some r ∧ f = refreshPost a r ∧
          Lineage E w1.st n a w1.log tok.info)) := by
  rcases post_cause hr hm with ⟨c, l0, h1, rfl, rfl⟩ | ⟨id, c, h1, rfl, rfl⟩
  · obtain ⟨buf, sec, w1, w2, inp, uri, e, a, p, x, code, g1, g2, g3, g4, g5, g6, g7, g8, g9, g10, g11, g12, g13, g14, g15,
      rfl⟩ := h1.inv
    exact ⟨e.name, a, w1, w2, inp, g1, g2, g3, g9.2, rfl, .inl ⟨p, code, _, ⟨e, g9.1, rfl, g10⟩, rfl⟩⟩
  · obtain ⟨w1, w2, inp, e, a, t, r, g1, g2, g3, g4, g5, g6, g7, g8, g9, g10, rfl, _⟩ := refreshBegan h1
    have hh : HoldsToken w1.ls e.name t := ⟨e, g6.1, rfl, g8⟩
    obtain ⟨a', ha', hlin⟩ := C01_stored g1 hh
    have := g6.2.symm.trans ha'
    cases this
    exact ⟨e.name, a, w1, w2, inp, g1, g2, g3, g6.2, rfl, .inr ⟨t, r, hh, g10, rfl, hlin⟩⟩

/-- **C23.** What `param` is: the value of the first pair with this name in the query of a request. -/
theorem C23_param (u : Url) (key : String) :
    (∀ v, u.param key = some v ↔ ∃ l r, u.query = l ++ (key, v) :: r ∧ ∀ x ∈ l, x.1 ≠ key) ∧
    (u.param key = none ↔ ∀ x ∈ u.query, x.1 ≠ key) := by
  unfold Url.param
  induction u.query with
  | nil => simp
  | cons x q ih =>
    obtain ⟨k, v⟩ := x
    by_cases hk : k = key
    · subst hk
      refine ⟨fun v' => ?_, ?_⟩
      · rw [List.lookup_cons_self]
        constructor
        · rintro ⟨⟩; exact ⟨[], q, rfl, nofun⟩
        · rintro ⟨l, r, he, hl⟩
          cases l with
          | nil => simp at he; simp [he.1]
          | cons y l => cases he; exact absurd rfl (hl _ (List.mem_cons_self ..))
      · rw [List.lookup_cons_self]
        simp
    · have hne : (key == k) = false := by simpa using fun h : key = k => hk h.symm
      simp only [List.lookup_cons, hne]
      refine ⟨fun v' => (ih.1 v').trans ⟨?_, ?_⟩, ih.2.trans ?_⟩
      · rintro ⟨l, r, he, hl⟩
        exact ⟨(k, v) :: l, r, by rw [he]; rfl, by simpa using ⟨hk, by simpa using hl⟩⟩
      · rintro ⟨l, r, he, hl⟩
        cases l with
        | nil => simp at he; exact absurd he.1.1 hk
        | cons y l =>
          cases he
          exact ⟨l, r, rfl, fun x hx => hl x (List.mem_cons_of_mem _ hx)⟩
      · simp [hk]

/-- **C23.** A code is only sent to a token server for a callback (handled by the same thread `i`) whose `state` is that
of an authorisation request for which pizauth waited when it handled the callback. The POST goes to the account's token
server and has the callback's code, and the verifier, redirect URI and client which belong to the URL of this very
authorisation request. -/
theorem C23 {w : World} {t : Instant} {i : Nat} {u code verifier redirect : String} {a : Account} (hr : Reach E w)
    (hm : (t, .post i u (exchangePost a code verifier redirect)) ∈ w.log) :
    ∃ n p uri buf sec, .httpReq i buf sec ∈ threadLog i w.log ∧ parseGet E buf sec = some uri ∧
      uri.param "state" = some p.state ∧ uri.param "code" = some code ∧ uri.param "error" = none ∧
      verifier = p.codeVerifier ∧
      ("state", p.state) ∈ p.url.query ∧
      ("code_challenge", b64 (E.sha256 (utf8 verifier))) ∈ p.url.query ∧
      ("code_challenge_method", "S256") ∈ p.url.query ∧
      ("redirect_uri", redirect) ∈ p.url.query ∧
      ("client_id", a.clientId) ∈ p.url.query ∧
      DidStep E i w fun w1 _ => threadLog i w1.log = [.httpReq i buf sec] ∧ HoldsPending w1.ls n p ∧
        ∃ a' base, w1.ls.config.get? n = some a' ∧ a'.clientId = a.clientId ∧ a'.clientSecret = a.clientSecret ∧
          u = a'.tokenUri ∧ E.parseUrl a'.authUri = some base ∧ { p.url with query := base.query } = base := by
  rcases post_cause hr hm with ⟨c, l0, h1, rfl, hf⟩ | ⟨id, c, h1, rfl, hf⟩
  · obtain ⟨buf, sec, w1, w2, inp, uri, e, a', p, x, code', g1, g2, g3, g4, g5, g6, g7, g8, g9, g10, g11, g12, g13, g14,
      g15, rfl⟩ := h1.inv
    have hp : HoldsPending w1.ls e.name p := ⟨e, g9.1, rfl, g10⟩
    obtain ⟨a2, base, x', k1, k2, k3, k4⟩ := C46 g1 hp
    cases g9.2.symm.trans k1
    cases g12.symm.trans k3
    obtain ⟨l, hl⟩ := Steps.log g1 ((Steps.one g2).trans g3)
    have hreq : .httpReq i buf sec ∈ threadLog i w.log := by
      rw [hl, threadLog_append, g5]; simp
    simp only [codeForm, exchangePost, secretParam, List.cons_append, List.nil_append, List.cons.injEq,
      Prod.mk.injEq, true_and] at hf
    obtain ⟨rfl, hid, rfl, rfl, hsec⟩ := hf
    have hsec' : a'.clientSecret = a.clientSecret := by
      revert hsec
      cases a'.clientSecret <;> cases a.clientSecret <;> simp
    refine ⟨e.name, p, uri, buf, sec, hreq, g8, g11, g15, g14, rfl, ?_, ?_, ?_, ?_, ?_, w1, w2, inp, g1, g2, g3, g5, hp, a',
      base, k1, hid, hsec', rfl, k2, ?_⟩ <;> rw [k4]
    all_goals simp [hid]
  · obtain ⟨w1, w2, inp, e, a, t, r, g1, g2, g3, g4, g5, g6, g7, g8, g9, g10, rfl, _⟩ := refreshBegan h1
    simp only [refreshForm, exchangePost] at hf
    simp at hf

/-- **C24.** A thread (there is one for each callback, and one for each refresh) sends at most ten POSTs, and none after
it got an HTTP response. (`threadLog` has the newest observation first.) -/
theorem C24 {w : World} {i : Nat} (hr : Reach E w) :
    ((threadLog i w.log).filter Obs.isPost).length ≤ 10 ∧
    ∀ after before j u f net, threadLog i w.log = after ++ .resp j u f net :: before → (∀ k, net ≠ .transport k) →
      ∀ o ∈ after, o.isPost = false := by
  have key : FewPosts 10 (threadLog i w.log) := by
    by_cases hi : i = 0
    · have : ∀ o ∈ threadLog i w.log, o.isPost = false := by
        intro o ho
        unfold threadLog at ho
        simp only [List.mem_filter, List.mem_map, beq_iff_eq] at ho
        obtain ⟨⟨⟨t, o'⟩, h1, rfl⟩, h2⟩ := ho
        cases o' <;> try rfl
        cases h2
        exact absurd hi (post_thread w hr _ _ _ _ h1)
      have h := (FewPosts.nil.append this).mono (Nat.zero_le 10)
      rwa [List.append_nil] at h
    · rcases hr.trace hi with ⟨_, h⟩ | h
      · rw [h]; exact FewPosts.nil.mono (by omega)
      · generalize threadLog i w.log = l at h
        generalize w.threads i = ops at h
        cases h with
        | core h => exact h.fewPosts
        | answer => exact (FewPosts.nil.other rfl).mono (by omega)
        | tail h1 _ _ h4 =>
          obtain ⟨_, hsay⟩ := h4.says
          refine h1.fewPosts.append fun o ho => ?_
          cases o <;> try rfl
          exact absurd ho hsay.no_post
  refine ⟨key.1, fun l1 l2 j u f net h hn => key.2 l1 l2 j u f net h ?_⟩
  cases net <;> first | rfl | exact absurd rfl (hn _)

section Example
open Demo

/-- A callback whose code could not be delivered at the first attempt. -/
def sRetry : List Action :=
  sAsk ++ [.http callback false] ++ n1 3 ++
    [.run 1 { net := .transport .dns }, .tick 60000000000, .run 1 {}, .run 1 {},
     .run 1 { net := .body answer }]

/-- It was sent twice, to the token server of account "a". -/
example : (w0.run env sRetry).isSome = true ∧
    (threadLog 1 (after sRetry).log).filter Obs.isPost =
      [.post 1 "https://ts/token" (exchangePost (act "a" "https://ts/token") "c" (b64 (List.replicate 64 0)) "http://localhost:8080/"),
       .post 1 "https://ts/token" (exchangePost (act "a" "https://ts/token") "c" (b64 (List.replicate 64 0)) "http://localhost:8080/")] := by
  decide +kernel

end Example

end Pizauth
