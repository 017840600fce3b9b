import Verif.Props.Posts

/-!
# C83: authorisation codes are used once
-/

namespace Pizauth
open LockedState

variable {E : Env}

/-- Is this observation a POST which sends the authorisation code `code`? -/
def Obs.sendsCode (code : String) : Obs → Bool
  | .post _ _ f => f.contains ("code", code)
  | _ => false

/-- The HTTP request `buf` carries the authorisation code `code`. -/
def CarriesCode (E : Env) (buf : Bytes) (sec : Bool) (code : String) : Prop :=
  ∃ uri, parseGet E buf sec = some uri ∧ uri.param "code" = some code

theorem exchangePost_code {a : Account} {code c v r : String} (h : ("code", code) ∈ exchangePost a c v r) : c = code := by
  unfold exchangePost secretParam at h
  split at h <;> simp at h <;> exact h.symm

theorem refreshPost_code {a : Account} {code r : String} : ("code", code) ∉ refreshPost a r := by
  unfold refreshPost secretParam
  split <;> simp

/-- A code is only sent by a thread whose callback carried it. -/
theorem code_carried {w : World} {t : Instant} {i : Nat} {u code : String} {f : List (String × String)} (hr : Reach E w)
    (hm : (t, .post i u f) ∈ w.log) (hc : ("code", code) ∈ f) :
    ∃ t' buf sec, (t', .httpReq i buf sec) ∈ w.log ∧ CarriesCode E buf sec code := by
  obtain ⟨n, a, _, _, _, _, _, _, _, rfl, ⟨p, c, redirect, _, rfl⟩ | ⟨_, r, _, _, rfl, _⟩⟩ := C20 hr hm
  · obtain rfl := exchangePost_code hc
    obtain ⟨n', p', uri, buf, sec, h1, h2, _, h3, _⟩ := C23 hr hm
    unfold threadLog at h1
    simp only [List.mem_filter, List.mem_map, Prod.exists, exists_eq_right] at h1
    obtain ⟨⟨t', h1⟩, _⟩ := h1
    exact ⟨t', buf, sec, h1, uri, h2, h3⟩
  · exact absurd hc refreshPost_code

/-- The POSTs of a code, if only one thread sends it. -/
theorem sends_le {i : Nat} {code : String} {l : List Obs}
    (h : ∀ j u f, .post j u f ∈ l → ("code", code) ∈ f → j = i) :
    (l.filter (Obs.sendsCode code)).length ≤ ((l.filter fun o => o.thread == some i).filter Obs.isPost).length := by
  rw [List.filter_filter]
  induction l with
  | nil => exact Nat.le_refl _
  | cons o l ih =>
    have ih := ih fun j u f hm => h j u f (List.mem_cons_of_mem _ hm)
    by_cases hs : o.sendsCode code = true
    · have : (o.isPost && (o.thread == some i)) = true := by
        cases o <;> simp [Obs.sendsCode] at hs
        simp only [Obs.isPost, Obs.thread, Bool.true_and, beq_iff_eq, Option.some.injEq]
        exact h _ _ _ (List.mem_cons_self ..) hs
      simp only [List.filter_cons, hs, this, if_true, List.length_cons]
      omega
    · simp only [List.filter_cons, hs, Bool.false_eq_true, if_false]
      refine Nat.le_trans ih ?_
      split
      · simp
      · exact Nat.le_refl _

/-- **C83**, what holds: if only one callback carried the code, then it was sent by one thread only, at most ten times, and
not again after there was an HTTP response. -/
theorem C83_partial {w : World} {code : String} (hr : Reach E w)
    (hone : ∀ t t' i j b b' s s', (t, .httpReq i b s) ∈ w.log → (t', .httpReq j b' s') ∈ w.log → CarriesCode E b s code →
      CarriesCode E b' s' code → i = j) :
    ∃ i, (∀ t j u f, (t, .post j u f) ∈ w.log → ("code", code) ∈ f → j = i) ∧
      ((w.log.map Prod.snd).filter (Obs.sendsCode code)).length ≤ 10 ∧
      ∀ after before t u f net, w.log = after ++ (t, .resp i u f net) :: before → (∀ k, net ≠ .transport k) →
        ∀ p ∈ after, p.2.sendsCode code = false := by
  by_cases h : ∃ t i u f, (t, Obs.post i u f) ∈ w.log ∧ ("code", code) ∈ f
  · obtain ⟨t, i, u, f, hm, hc⟩ := h
    obtain ⟨t1, b1, s1, h1, h2⟩ := code_carried hr hm hc
    have huniq : ∀ t j u f, (t, Obs.post j u f) ∈ w.log → ("code", code) ∈ f → j = i := by
      intro t' j u' f' hm' hc'
      obtain ⟨t3, b3, s3, h3, h4⟩ := code_carried hr hm' hc'
      exact hone _ _ _ _ _ _ _ _ h3 h1 h4 h2
    refine ⟨i, huniq, ?_, ?_⟩
    · refine Nat.le_trans (sends_le (i := i) ?_) (C24 (i := i) hr).1
      intro j u f hm hc
      obtain ⟨⟨t, o⟩, hm, rfl⟩ := List.mem_map.mp hm
      exact huniq t j u f hm hc
    · intro after before t u f net hl hn p hp
      by_cases hs : p.2.sendsCode code = true
      · exfalso
        obtain ⟨tp, o⟩ := p
        cases o <;> simp [Obs.sendsCode] at hs
        rename_i j u' f'
        obtain rfl := huniq tp j u' f' (by rw [hl]; exact List.mem_append_left _ hp) hs
        have := (C24 (i := j) hr).2 (threadLog j after) (threadLog j before) j u f net
          (by rw [hl, threadLog_append]; simp [threadLog, Obs.thread]) hn _ (mem_threadLog hp rfl)
        cases this
      · simpa using hs
  · have hno : ∀ t j u f, (t, Obs.post j u f) ∈ w.log → ("code", code) ∉ f := fun t j u f hm hc => h ⟨t, j, u, f, hm, hc⟩
    have hall : ∀ p ∈ w.log, p.2.sendsCode code = false := by
      rintro ⟨t, o⟩ hp
      cases o <;> try rfl
      simpa [Obs.sendsCode] using hno _ _ _ _ hp
    refine ⟨0, fun t j u f hm hc => absurd hc (hno t j u f hm), ?_, ?_⟩
    · rw [List.filter_eq_nil_iff.mpr]
      · simp
      · intro o ho
        obtain ⟨p, hp, rfl⟩ := List.mem_map.mp ho
        simp [hall p hp]
    · intro after before t u f net hl _ p hp
      exact hall p (by rw [hl]; exact List.mem_append_left _ hp)

section Example
open Demo

/-- The browser loads the redirect page twice. Thread 1 sends the code, gets a token and stores it. -/
def sTwice : List Action :=
  sAsk ++ [.http callback false, .http callback false, .run 2 {}, .run 2 {}] ++ n1 3 ++ [.run 1 { net := .body answer }] ++ n1 4

/-- **C83 fails.** The token server has granted a token for the code, and it was stored. After that the code is sent
once more, by the thread which handles the second callback. -/
theorem C83_not : ∃ w w' u f, Reach env w ∧ w.step env (.run 2 {}) = some w' ∧
    (∃ t, HoldsToken w.ls "a" t ∧ t.accessToken = "T1") ∧
    .resp 1 u f (.body answer) ∈ w.log.map Prod.snd ∧ ("code", "c") ∈ f ∧ Issued answer "T1" 3600 ∧
    w'.log = (w'.now, .post 2 u f) :: w.log := by
  let f := exchangePost (act "a" "https://ts/token") "c" (b64 (List.replicate 64 0)) "http://localhost:8080/"
  refine ⟨after sTwice, andThen (after sTwice) [.run 2 {}], "https://ts/token", f, after_reach _,
    andThen_one (by decide +kernel), ?_, by decide +kernel, by decide +kernel,
    issued_of (by decide +kernel) (by decide +kernel) (by decide +kernel) (by decide +kernel), by decide +kernel⟩
  exact ⟨_, ⟨((after sTwice).ls.details.head?).getD default, by decide +kernel, by decide +kernel, rfl⟩, by decide +kernel⟩

/-- A code which had to be sent twice, by the same thread. -/
example : ((after sRetry).log.map Prod.snd).filter (Obs.sendsCode "c") =
      [.post 1 "https://ts/token" (exchangePost (act "a" "https://ts/token") "c" (b64 (List.replicate 64 0)) "http://localhost:8080/"),
       .post 1 "https://ts/token" (exchangePost (act "a" "https://ts/token") "c" (b64 (List.replicate 64 0)) "http://localhost:8080/")] ∧
    ((after sRetry).log.map Prod.snd).filter (fun o => match o with | .httpReq .. => true | _ => false) =
      [.httpReq 1 callback false] := by
  decide +kernel

end Example

end Pizauth
