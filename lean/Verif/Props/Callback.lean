import Verif.Proof.Callback
import Verif.Props.Crash
import Verif.Props.Show
import Verif.Props.Demo
import Verif.Props.Tokens
import Verif.Props.RefreshResult

/-!
# C21, C22, C25, C26, C27: HTTP requests
-/

namespace Pizauth
open LockedState

variable {E : Env}

section lemmas
variable {w w1 w2 : World} {i : Nat} {buf : Bytes} {sec : Bool} {inp : Input}

/-- The step which handles a request. -/
theorem handle_step (hr : Reach E w1) (ht : Handling w1 i buf sec) (hs : w1.step E (.run i inp) = some w2) :
    ∃ f, ExecR E w1.st w1.now w1.wall w1.ls i (.http buf sec) inp f ∧ w2.threads i = f.next ∧ w2.ls = f.ls ∧
      threadLog i w2.log = threadLog i w1.log := by
  have hs' := (stepR_of_step hr.inv0.wf hs).2
  cases hs' with
  | runPanic h hx =>
    unfold Handling at ht
    rw [ht] at h
    cases h
    obtain ⟨_, h, _⟩ := hr.panic ht hx
    cases h
  | run h hx =>
    unfold Handling at ht
    rw [ht] at h
    cases h
    refine ⟨_, hx, by rw [apply_threads_self (hr.inv0.tid_lt ht), List.append_nil], rfl, ?_⟩
    have hobs : ∀ {f}, ExecR E w1.st w1.now w1.wall w1.ls i (.http buf sec) inp f → f.obs = [] := by
      intro f hx; cases hx <;> rfl
    simp [World.apply, hobs hx]

theorem handling_ne (hr : Reach E w1) (ht : Handling w1 i buf sec) : i ≠ 0 ∧ threadLog i w1.log = [.httpReq i buf sec] := by
  have hi : i ≠ 0 := ((Reach.shape w1 hr).core (o := .http buf sec) rfl (by rw [ht]; simp)).1
  refine ⟨hi, ?_⟩
  rcases hr.trace hi with ⟨h, _⟩ | h
  · have := hr.inv0.tids i h; rw [ht] at this; cases this
  · generalize threadLog i w1.log = l at h
    rw [ht] at h
    generalize hops : [Op.http buf sec] = ops at h
    cases h with
    | core h => cases hops; cases h; rfl
    | answer => cases hops
    | tail _ _ h3 h4 =>
      subst hops
      have := h3 _ (h4.mem _ (List.mem_singleton.mpr rfl))
      cases this

/-- What the rest of the daemon sees of a thread which only has to answer. -/
theorem only_answer (hr : Reach E w1) (ht : Handling w1 i buf sec) (hs : w1.step E (.run i inp) = some w2)
    (h : ∀ f, ExecR E w1.st w1.now w1.wall w1.ls i (.http buf sec) inp f → f.ls = w1.ls ∧ (f.next = [] ∨ ∃ b, f.next = [.httpAnswer b])) :
    w2.ls = w1.ls ∧ ∀ w, Steps E w2 w →
      (threadLog i w.log = [.httpReq i buf sec] ∨ ∃ b, threadLog i w.log = [.httpAnswer i b, .httpReq i buf sec]) ∧
      ∀ inp' w', w.step E (.run i inp') = some w' → w'.ls = w.ls := by
  obtain ⟨f, hx, h1, h2, h3⟩ := handle_step hr ht hs
  obtain ⟨hls, hn⟩ := h f hx
  obtain ⟨hi, hlog⟩ := handling_ne hr ht
  have hr2 : Reach E w2 := .step _ hr hs
  have hlt : i < w2.nextTid := Nat.lt_of_lt_of_le (hr.inv0.tid_lt ht) (stepR_of_step hr.inv0.wf hs).2.nextTid
  have hp : ∀ o ∈ w2.threads i, o.isPlain = true := by
    rw [h1]
    rcases hn with hn | ⟨b, hn⟩ <;> rw [hn] <;> simp [Op.isPlain]
  refine ⟨h2.trans hls, fun w hst => ?_⟩
  obtain ⟨_, m, ht, hl⟩ := plain_forward hr2 hi hlt hp w hst
  rw [h3, hlog] at hl
  refine ⟨?_, fun inp' w' hs' => plain_same (hst.reach hr2) (fun o ho => hp o (ht.mem o ho)) hs'⟩
  obtain ⟨pre, hpre, hsay⟩ := ht.split
  rw [h1] at hpre
  have hsub : pre = [] ∨ ∃ b, pre = [.httpAnswer b] := by
    rcases hn with hn | ⟨b, hn⟩ <;> rw [hn] at hpre
    · left; simp at hpre; exact hpre.1
    · cases pre with
      | nil => exact .inl rfl
      | cons o pre =>
        right
        simp at hpre
        exact ⟨b, by rw [hpre.2.1, ← hpre.1]⟩
  rcases hsub with rfl | ⟨b, rfl⟩
  · cases hsay; exact .inl hl
  · right
    simp [SaysAll] at hsay
    exact ⟨b, by rw [hl, hsay]; rfl⟩

theorem sameOrigin_iff {x uri : Url} :
    SameOrigin x uri ↔ ¬ (x.scheme ≠ uri.scheme ∨ x.host ≠ uri.host ∨ x.port ≠ uri.port) := by
  unfold SameOrigin
  constructor
  · rintro ⟨h1, h2, h3⟩ (h | h | h)
    · exact h h1
    · exact h h2
    · exact h h3
  · intro h
    exact ⟨Classical.byContradiction fun h1 => h (.inl h1), Classical.byContradiction fun h1 => h (.inr (.inl h1)),
      Classical.byContradiction fun h1 => h (.inr (.inr h1))⟩

/-- Requests are handled by worker threads. -/
theorem httpReq_thread : ∀ w, Reach E w → ∀ t j buf sec, (t, .httpReq j buf sec) ∈ w.log → j ≠ 0 := by
  apply Reach.induct
  · intro w hi t j u f h; rw [hi.log] at h; cases h
  · intro w a w' hw h0 _ ih hs t j buf sec h
    obtain ⟨l, hl, hnew⟩ := hs.log_new
    rw [hl] at h
    rcases List.mem_append.mp h with h | h
    · have := (hnew _ h).2
      generalize hg : Obs.httpReq j buf sec = g at this
      cases this with
      | http => cases hg; exact Nat.ne_of_gt h0.tid0
      | run ht hx ho => subst hg; cases hx <;> simp at ho
      | _ => cases hg
    · exact ih t j buf sec h

theorem httpAnswer_thread : ∀ w, Reach E w → ∀ t j b, (t, .httpAnswer j b) ∈ w.log → j ≠ 0 := by
  apply Reach.induct
  · intro w hi t j b h; rw [hi.log] at h; cases h
  · intro w a w' hw h0 _ ih hs t j b h
    obtain ⟨l, hl, hnew⟩ := hs.log_new
    rw [hl] at h
    rcases List.mem_append.mp h with h | h
    · have := (hnew _ h).2
      generalize hg : Obs.httpAnswer j b = g at this
      cases this with
      | run ht hx ho =>
        subst hg
        cases hx <;> simp at ho
        obtain ⟨rfl, rfl⟩ := ho
        rintro rfl
        have hm := (Reach.shape w hw).main
        rw [ht] at hm
        rcases hm.cons with ⟨_, h, _⟩ | ⟨_, h, _⟩ | ⟨h, _⟩ | ⟨h | h, _⟩ <;> cases h
      | _ => cases hg
    · exact ih t j b h

theorem Core.asked {l : List Obs} {o : Op} (h : Core E w i l o) {b : Bytes} (hb : .httpAnswer i b ∈ l) :
    ∃ buf sec, .httpReq i buf sec ∈ l := by
  have ex : ∀ {c l0} (l1 : List Obs), Exchange E w i c l0 → ∃ buf sec, .httpReq i buf sec ∈ l1 ++ l0 := by
    rintro c l0 l1 ⟨buf, sec, ans, _, rfl⟩
    exact ⟨buf, sec, by simp⟩
  cases h with
  | http => simp at hb
  | exSend h1 => exact ex _ h1
  | exAwait h1 => exact ex (_ :: _) h1
  | exSleep h1 => exact ex _ h1
  | exDone h1 => exact ex (_ :: _ :: _) h1
  | fail h1 => exact ex _ h1
  | _ => simp at hb

theorem mem_log {L : Log} {o : Obs} (h : o ∈ threadLog i L) : (∃ t, (t, o) ∈ L) ∧ o.thread = some i := by
  unfold threadLog at h
  simp only [List.mem_filter, List.mem_map, beq_iff_eq] at h
  obtain ⟨⟨⟨t, _⟩, h1, rfl⟩, h2⟩ := h
  exact ⟨⟨t, h1⟩, h2⟩

theorem httpReq_ne (hr : Reach E w) (hm : .httpReq i buf sec ∈ threadLog i w.log) : i ≠ 0 := by
  obtain ⟨⟨t, h⟩, _⟩ := mem_log hm
  exact httpReq_thread w hr _ _ _ _ h

/-- The answer decided on is the right one. -/
theorem answer_of {S : Static} {now : Instant} {wall : SysTime} {ls : LockedState} {f : Eff} 
    (hx : ExecR E S now wall ls i (.http buf sec) inp f) {b : Bytes} (hb : .httpAnswer b ∈ f.next) :
    ∃ ans, b = Answer.bytes ans ∧ AnswerFor E S ls buf sec ans := by
  have names : ∀ {uri s e a p}, parseGet E buf sec = some uri → uri.param "state" = some s → ls.Has e a →
      e.ts = .pending p → p.state = s → Names E ls buf sec e.name p uri :=
    fun h1 h2 h3 h4 h5 => ⟨h1, by rw [h2, h5], ⟨_, h3.1, rfl, h4⟩⟩
  have red : ∀ {e : Entry} {a x uri}, ls.Has e a → a.redirectUrl E S.httpPort S.httpsPort = .ok x →
      ¬ (x.scheme ≠ uri.scheme ∨ x.host ≠ uri.host ∨ x.port ≠ uri.port) → AtRedirect E S ls e.name uri :=
    fun h3 h6 h7 => ⟨_, _, h3.2, h6, sameOrigin_iff.mpr h7⟩
  cases hx with
  | httpBad h1 => simp at hb; subst hb; exact ⟨.badRequest, rfl, .malformed h1⟩
  | httpNoState h1 h2 => simp at hb; subst hb; exact ⟨.notFound, rfl, .noState h1 h2⟩
  | httpNoMatch h1 h2 h3 =>
    simp at hb; subst hb
    exact ⟨.ok msgNoPending, rfl, .unknown h1 h2 (by rintro n p ⟨e, he, _, hp⟩; exact h3 e he p hp)⟩
  | httpRedirErr => simp at hb
  | httpOrigin h1 h2 h3 h4 h5 h6 h7 =>
    simp at hb; subst hb
    refine ⟨.notFound, rfl, .origin (names h1 h2 h3 h4 h5) ?_⟩
    rintro ⟨a, x, k1, k2, k3⟩
    rw [h3.2] at k1
    cases k1
    rw [h6] at k2
    cases k2
    exact sameOrigin_iff.mp k3 h7
  | httpError h1 h2 h3 h4 h5 h6 h7 h8 =>
    simp at hb; subst hb
    exact ⟨.badRequest, rfl, .error (names h1 h2 h3 h4 h5) (red h3 h6 h7) h8⟩
  | httpNoCode h1 h2 h3 h4 h5 h6 h7 h8 h9 =>
    simp at hb; subst hb
    exact ⟨.badRequest, rfl, .noCode (names h1 h2 h3 h4 h5) (red h3 h6 h7) h8 h9⟩
  | httpCode h1 h2 h3 h4 h5 h6 h7 h8 h9 =>
    simp at hb; subst hb
    exact ⟨.ok msgProcessing, rfl, .code (names h1 h2 h3 h4 h5) (red h3 h6 h7) h8 h9⟩

/-- Handling a request leads to at most one answer. -/
theorem one_answer {S : Static} {now : Instant} {wall : SysTime} {ls : LockedState} {f : Eff}
    (hx : ExecR E S now wall ls i (.http buf sec) inp f) :
    (f.next = [] ∧ ∃ n a m, ls.config.get? n = some a ∧ a.redirectUrl E S.httpPort S.httpsPort = .err m) ∨
    ∃ b r, f.next = .httpAnswer b :: r ∧ ∀ b', .httpAnswer b' ∉ r := by
  cases hx
  case httpRedirErr h1 h2 h3 h4 h5 h6 => exact .inl ⟨rfl, _, _, _, ‹LockedState.Has _ _ _›.2, ‹_ = Res.err _›⟩
  all_goals exact .inr ⟨_, _, rfl, by simp⟩

end lemmas

/-- **C21.** Handling a request which cannot be parsed, has no `state`, or whose `state` belongs to no outstanding
authorisation changes nothing; afterwards the thread does nothing but write its answer: it sends nothing to a token
server, runs no command, queues no event, and none of its steps changes the state. -/
theorem C21 {w1 w2 : World} {i : Nat} {buf : Bytes} {sec : Bool} {inp : Input} (hr : Reach E w1)
    (ht : Handling w1 i buf sec) (hs : w1.step E (.run i inp) = some w2) (hn : ∀ n p uri, ¬ Names E w1.ls buf sec n p uri) :
    w2.ls = w1.ls ∧ ∀ w, Steps E w2 w →
      (threadLog i w.log = [.httpReq i buf sec] ∨ ∃ b, threadLog i w.log = [.httpAnswer i b, .httpReq i buf sec]) ∧
      ∀ inp' w', w.step E (.run i inp') = some w' → w'.ls = w.ls := by
  refine only_answer hr ht hs fun f hx => ?_
  have no : ∀ {uri s e a p}, parseGet E buf sec = some uri → uri.param "state" = some s → w1.ls.Has e a → e.ts = .pending p →
      p.state = s → False := fun h1 h2 h3 h4 h5 => hn _ _ _ ⟨h1, by rw [h2, h5], ⟨_, h3.1, rfl, h4⟩⟩
  cases hx with
  | httpBad => exact ⟨rfl, .inr ⟨_, rfl⟩⟩
  | httpNoState => exact ⟨rfl, .inr ⟨_, rfl⟩⟩
  | httpNoMatch => exact ⟨rfl, .inr ⟨_, rfl⟩⟩
  | httpRedirErr h1 h2 h3 h4 h5 => exact (no h1 h2 h3 h4 h5).elim
  | httpOrigin h1 h2 h3 h4 h5 => exact (no h1 h2 h3 h4 h5).elim
  | httpError h1 h2 h3 h4 h5 => exact (no h1 h2 h3 h4 h5).elim
  | httpNoCode h1 h2 h3 h4 h5 => exact (no h1 h2 h3 h4 h5).elim
  | httpCode h1 h2 h3 h4 h5 => exact (no h1 h2 h3 h4 h5).elim

/-- **C22.** The same holds for a request which did not come to the redirect URI (scheme, host and port) of the account
which its `state` names. -/
theorem C22 {w1 w2 : World} {i : Nat} {buf : Bytes} {sec : Bool} {inp : Input} (hr : Reach E w1)
    (ht : Handling w1 i buf sec) (hs : w1.step E (.run i inp) = some w2)
    (hn : ∀ n p uri, Names E w1.ls buf sec n p uri → ¬ AtRedirect E w1.st w1.ls n uri) :
    w2.ls = w1.ls ∧ ∀ w, Steps E w2 w →
      (threadLog i w.log = [.httpReq i buf sec] ∨ ∃ b, threadLog i w.log = [.httpAnswer i b, .httpReq i buf sec]) ∧
      ∀ inp' w', w.step E (.run i inp') = some w' → w'.ls = w.ls := by
  refine only_answer hr ht hs fun f hx => ?_
  have no : ∀ {uri s e a p x}, parseGet E buf sec = some uri → uri.param "state" = some s → w1.ls.Has e a →
      e.ts = .pending p → p.state = s → a.redirectUrl E w1.st.httpPort w1.st.httpsPort = .ok x →
      ¬ (x.scheme ≠ uri.scheme ∨ x.host ≠ uri.host ∨ x.port ≠ uri.port) → False :=
    fun h1 h2 h3 h4 h5 h6 h7 => hn _ _ _ ⟨h1, by rw [h2, h5], ⟨_, h3.1, rfl, h4⟩⟩ ⟨_, _, h3.2, h6, sameOrigin_iff.mpr h7⟩
  cases hx with
  | httpBad => exact ⟨rfl, .inr ⟨_, rfl⟩⟩
  | httpNoState => exact ⟨rfl, .inr ⟨_, rfl⟩⟩
  | httpNoMatch => exact ⟨rfl, .inr ⟨_, rfl⟩⟩
  | httpRedirErr => exact ⟨rfl, .inl rfl⟩
  | httpOrigin => exact ⟨rfl, .inr ⟨_, rfl⟩⟩
  | httpError h1 h2 h3 h4 h5 h6 h7 => exact (no h1 h2 h3 h4 h5 h6 h7).elim
  | httpNoCode h1 h2 h3 h4 h5 h6 h7 => exact (no h1 h2 h3 h4 h5 h6 h7).elim
  | httpCode h1 h2 h3 h4 h5 h6 h7 => exact (no h1 h2 h3 h4 h5 h6 h7).elim

/-- **C27.** A request is answered at most once, … -/
theorem C27_once {w : World} {i : Nat} {buf : Bytes} {sec : Bool} (hr : Reach E w)
    (hm : .httpReq i buf sec ∈ threadLog i w.log) : ((threadLog i w.log).filter Obs.isHttpAnswer).length ≤ 1 := by
  rcases callback_trace hr (httpReq_ne hr hm) hm with ⟨_, h⟩ | ⟨next, h1, h2, h⟩
  · rw [h]; simp [List.filter, Obs.isHttpAnswer]
  obtain ⟨w1, w2, inp, f, g1, g2, g3, g4, g5, g6, hx, g7, g8, g9⟩ := h1.exec h2
  subst g7
  have small : ∀ {r m}, SaysAll i r m → (∀ b, .httpAnswer b ∉ r) → m.filter Obs.isHttpAnswer = [] := by
    intro r m h hno
    rw [List.filter_eq_nil_iff]
    intro o ho
    cases o <;> simp [Obs.isHttpAnswer]
    exact hno _ (h.answers ho)
  rcases h with ⟨hp, m, ht, hl⟩ | ⟨c, ans, hn, ⟨_, hl⟩ | ⟨m, hl, hno⟩⟩
  · rw [hl, List.filter_append]
    obtain ⟨pre, hpre, hsay⟩ := ht.split
    rcases one_answer hx with ⟨hn, _⟩ | ⟨b, r, hn, hno⟩
    · rw [hn] at hpre
      simp at hpre
      rw [hpre.1] at hsay
      cases hsay
      simp [List.filter, Obs.isHttpAnswer]
    · rw [hn] at hpre
      cases pre with
      | nil => cases hsay; simp [List.filter, Obs.isHttpAnswer]
      | cons o pre =>
        simp at hpre
        obtain ⟨os, m', k1, k2, rfl⟩ := hsay
        rw [List.filter_append, small k2 (fun b hb => hno b (by rw [hpre.2]; exact List.mem_append_left _ hb))]
        rw [← hpre.1] at k1
        cases k1
        simp [List.filter, Obs.isHttpAnswer]
  · rw [hl]; simp [List.filter, Obs.isHttpAnswer]
  · rw [hl, List.filter_append]
    rw [show m.filter Obs.isHttpAnswer = [] from by rw [List.filter_eq_nil_iff]; simpa using hno]
    simp [List.filter, Obs.isHttpAnswer]

/-- … the answer is the right one for the state in which the request was handled, … -/
theorem C27_answer {w : World} {i : Nat} {buf b : Bytes} {sec : Bool} (hr : Reach E w)
    (hm : .httpReq i buf sec ∈ threadLog i w.log) (hb : .httpAnswer i b ∈ threadLog i w.log) :
    ∃ ans, b = Answer.bytes ans ∧ DidStep E i w fun w1 _ => Handling w1 i buf sec ∧ AnswerFor E w1.st w1.ls buf sec ans := by
  rcases callback_trace hr (httpReq_ne hr hm) hm with ⟨_, h⟩ | ⟨next, h1, h2, h⟩
  · rw [h] at hb; simp at hb
  obtain ⟨w1, w2, inp, f, g1, g2, g3, g4, g5, g6, hx, g7, g8, g9⟩ := h1.exec h2
  subst g7
  have hin : .httpAnswer b ∈ f.next := by
    rcases h with ⟨hp, m, ht, hl⟩ | ⟨c, ans, hn, ⟨_, hl⟩ | ⟨m, hl, hno⟩⟩
    · rw [hl] at hb
      obtain ⟨pre, hpre, hsay⟩ := ht.split
      rcases List.mem_append.mp hb with hb | hb
      · rw [hpre]; exact List.mem_append_left _ (hsay.answers hb)
      · simp at hb
    · rw [hl] at hb; simp at hb
    · rw [hl] at hb
      rcases List.mem_append.mp hb with hb | hb
      · cases hno _ hb
      · simp at hb; rw [hn, hb]; simp
  obtain ⟨ans, k1, k2⟩ := answer_of hx hin
  exact ⟨ans, k1, w1, w2, inp, g1, g2, g3, g4, k2⟩

/-- … and when the thread is done, it was answered (given that http URLs have hosts). -/
theorem C27_finished {w : World} {i : Nat} {buf : Bytes} {sec : Bool} (hl : HostLaw E) (hr : Reach E w)
    (hm : .httpReq i buf sec ∈ threadLog i w.log) (hd : w.threads i = []) : ∃ b, .httpAnswer i b ∈ threadLog i w.log := by
  rcases callback_trace hr (httpReq_ne hr hm) hm with ⟨h, _⟩ | ⟨next, h1, h2, h⟩
  · rw [hd] at h; cases h
  obtain ⟨w1, w2, inp, f, g1, g2, g3, g4, g5, g6, hx, g7, g8, g9⟩ := h1.exec h2
  subst g7
  rcases one_answer hx with ⟨_, n, a, m, k1, k2⟩ | ⟨b, r, hn, hno⟩
  · obtain ⟨x, hx⟩ := redirectUrl_ok hl g1 k1
    rw [k2] at hx; cases hx
  rcases h with ⟨hp, m, ht, hl⟩ | ⟨c, ans, hn, ⟨h, _⟩ | ⟨m, hl, hno⟩⟩
  · rw [hd] at ht
    rw [hn] at ht
    obtain ⟨os, m', k1, k2, rfl⟩ := ht.done
    cases k1
    exact ⟨b, by rw [hl]; simp⟩
  · rw [hd, hn] at h; cases h
  · exact ⟨ans, by rw [hl]; simp⟩

/-- No answer without a request. -/
theorem C27_asked {w : World} {i : Nat} {b : Bytes} (hr : Reach E w) (hb : .httpAnswer i b ∈ threadLog i w.log) :
    ∃ buf sec, .httpReq i buf sec ∈ threadLog i w.log := by
  have hi : i ≠ 0 := by
    obtain ⟨⟨t, h⟩, _⟩ := mem_log hb
    exact httpAnswer_thread w hr _ _ _ h
  rcases hr.trace hi with ⟨_, h⟩ | h
  · rw [h] at hb; cases hb
  · generalize threadLog i w.log = l at h hb
    generalize w.threads i = ops at h
    cases h with
    | core h =>
      obtain ⟨buf, sec, h⟩ := h.asked hb
      exact ⟨buf, sec, h⟩
    | answer => simp at hb
    | @tail _ _ _ tail _ h1 h2 h3 h4 =>
      obtain ⟨pre, hpre, hsay⟩ := h4.split
      rcases List.mem_append.mp hb with hb | hb
      · have hin := hsay.answers hb
        have hne : ∀ o' : Op, o'.isPlain = false → tail ≠ [o'] := fun o' ho' he => by
          have := h3 o' (by rw [he]; simp)
          rw [ho'] at this; cases this
        obtain ⟨w1, w2, inp, f, g1, g2, g3, g4, g5, g6, hx, g7, g8, g9⟩ := h2.exec (hne _ (Op.not_plain_of_core h1.isCore))
        have hin' : .httpAnswer b ∈ f.next := by rw [g7, hpre]; exact List.mem_append_left _ hin
        cases h1 with
        | @http buf sec => exact ⟨buf, sec, by simp⟩
        | _ => exfalso; cases hx <;> simp at hin' <;> (split at hin' <;> simp at hin')
      · obtain ⟨buf, sec, h⟩ := h1.asked hb
        exact ⟨buf, sec, List.mem_append_right _ h⟩

/-! ## C25, C26: the outcome of a code exchange -/

section lemmas
variable {w w1 w2 : World} {i : Nat} {buf : Bytes} {sec : Bool} {inp : Input}

theorem authLost_of {o : Op} {h : Nat} (ht : w.threads i = [o]) (ho : o.authHandle = some h)
    (hst : ∀ e ∈ w.ls.details, e.id ≠ h) : AuthLost w i := by
  refine ⟨⟨h, o, by rw [ht]; simp, ho⟩, ?_⟩
  rintro n ⟨e, he, _, o', ho', hh⟩
  rw [ht] at ho'
  simp only [List.mem_singleton] at ho'
  subst ho'
  rw [ho] at hh
  exact hst e he (Option.some.inj hh).symm

/-- The token a code exchange yields. -/
def FirstToken (b : Body) (tok : String) (now x' : Instant) : ActiveTok :=
  { accessToken := tok, obtained := now, expiry := x', refreshToken := firstRefreshToken b, ongoing := false, fails := 0,
    lastAttempt := none }

/-- All outcomes of a code exchange. -/
theorem exchange_end (hr : Reach E w) (hd : w.threads i = []) (hm : .httpReq i buf sec ∈ threadLog i w.log)
    {u : String} {form : List (String × String)} (hp : .post i u form ∈ threadLog i w.log) :
    ∃ n p, DidStep E i w (fun w1 w2 => Handling w1 i buf sec ∧ w2.ls = w1.ls ∧
        ∃ uri, Names E w1.ls buf sec n p uri ∧ AtRedirect E w1.st w1.ls n uri) ∧
      ∃ l, (∀ o ∈ l, o.IsTraffic) ∧
        ((∃ o msg, DidStep E i w (fun w1 w2 => ExchangingAccount w1 i n ∧ HoldsPending w1.ls n p ∧ HoldsNothing w2.ls n) ∧
            o.IsErrorReport i n ("Authentication for " ++ n ++ " failed: " ++ msg) ∧ threadLog i w.log = o :: l ∧ ¬ Granted l ∧
            ∃ u f net l', l = .resp i u f net :: l' ∧ FailReason u net msg) ∨
         (DidStep E i w (fun w1 w2 => AuthLost w1 i ∧ w2.ls = w1.ls) ∧ threadLog i w.log = l) ∨
         ∃ b tok x, (∃ u f, .resp i u f (.body b) ∈ l) ∧ (∀ j u f b', .resp j u f (.body b') ∈ l → b' = b) ∧ Issued b tok x ∧
          ((∃ x', DidStep E i w (fun w1 w2 => ExchangingAccount w1 i n ∧ HoldsPending w1.ls n p ∧
              HoldsToken w2.ls n (FirstToken b tok w1.now x') ∧
              ∃ a, w1.ls.config.get? n = some a ∧ ExpiryRule w1.ls.config a w1.now x x') ∧
            threadLog i w.log = .event i n .new :: l) ∨
           (DidStep E i w (fun w1 w2 => ExchangingAccount w1 i n ∧ HoldsPending w1.ls n p ∧ w2.ls = w1.ls ∧
              timeMax < w1.now + x * 1000000000) ∧ threadLog i w.log = l))) := by
  have hi := httpReq_ne hr hm
  obtain ⟨l, o, tail, m, h1, h2, h3, h4, h5⟩ := hr.finished hi hd (by intro h; rw [h] at hm; cases hm)
  have hml : .httpReq i buf sec ∈ l := by
    rw [h5] at hm
    refine (List.mem_append.mp hm).resolve_left fun h => ?_
    clear h2 h3 h5 hm
    induction tail generalizing m with
    | nil => cases h4; cases h
    | cons o tail ih =>
      obtain ⟨os, m', k1, k2, rfl⟩ := h4
      rcases List.mem_append.mp h with h | h
      · exact ih _ k2 h
      · cases k1 with
        | error k => rcases k with ⟨_, rfl⟩ | rfl <;> simp at h
        | _ => simp at h
  have hpl : .post i u form ∈ l := by
    rw [h5] at hp
    refine (List.mem_append.mp hp).resolve_left fun h => ?_
    clear h2 h3 h5 hm hp
    induction tail generalizing m with
    | nil => cases h4; cases h
    | cons o tail ih =>
      obtain ⟨os, m', k1, k2, rfl⟩ := h4
      rcases List.mem_append.mp h with h | h
      · exact ih _ k2 h
      · cases k1 with
        | error k => rcases k with ⟨_, rfl⟩ | rfl <;> simp at h
        | _ => simp at h
  have hne : ∀ o' : Op, o'.isPlain = false → tail ≠ [o'] := by
    rintro o' ho' rfl
    rw [h3 o' (by simp)] at ho'
    cases ho'
  have hplain := Op.not_plain_of_core h1.isCore
  obtain ⟨w1, w2, inp, f, g1, g2, g3, g4, g5, g6, hx, g7, g8, g9⟩ := h2.exec (hne _ hplain)
  -- what was known before the last step which could change anything
  have h1' : Core E w1 i l o := by
    rcases g1.trace hi with ⟨_, h⟩ | h
    · rw [g6] at h; rw [h] at hpl; cases hpl
    · rw [g6, g4] at h
      generalize hops : [o] = ops at h
      cases h with
      | core h => cases hops; exact h
      | answer => cases hops
      | tail _ _ k3 k4 =>
        subst hops
        have := k4.plain k3 o (List.mem_singleton.mpr rfl)
        rw [hplain] at this; cases this
  have hsteps : ∀ {v}, Steps E v w1 → Steps E v w := fun h => (Steps.step _ h g2).trans g3
  rcases h1'.httpReq_mem hml with ⟨rfl, _⟩ | ⟨c, l0, l1, hex, hl, hh, htr⟩
  · simp at hpl
  obtain ⟨buf', sec', v1, v2, inp', uri, e, a, p, x, code, q1, q2, q3, q4, q5, q6, q7, q8, q9, q10, q11, q12, q13, q14, q15,
    q16⟩ := hex.inv
  have hbuf : buf' = buf ∧ sec' = sec := by
    rw [hl, q6] at hml
    rcases List.mem_append.mp hml with hm | hm
    · rcases htr _ hm with h | ⟨_, h⟩ <;> cases h
    · simp at hm; exact ⟨hm.1.symm, hm.2.symm⟩
  obtain ⟨rfl, rfl⟩ := hbuf
  refine ⟨e.name, p, ⟨v1, v2, inp', q1, q2, hsteps q3, q4, q7, uri, ⟨q8, q11, e, q9.1, rfl, q10⟩, a, x, q9.2, q12,
    sameOrigin_iff.mpr q13⟩, l, ?_, ?_⟩
  · intro ob hob
    rw [hl, q6] at hob
    rcases List.mem_append.mp hob with hob | hob
    · rcases htr _ hob with rfl | ⟨_, rfl⟩ <;> trivial
    · simp at hob; rcases hob with rfl | rfl <;> trivial
  -- the account
  have acct : ∀ {e' a'}, w1.ls.Has e' a' → e'.id = c.id → e' = e ∧ a'.name = e.name := by
    intro e' a' h hid
    obtain ⟨_, k1, _⟩ := (steps_evolves (.step _ q1 q2) _ q3).old h
      (by rw [hid, q16, q7]; exact q1.inv0.wf.lt _ q9.1)
    rw [q7] at k1
    have := q1.inv0.wf.entry_id_inj k1.1 q9.1 (by rw [hid, q16])
    exact ⟨this, by rw [← this]; exact (g1.inv0.wf.get?_name h.2)⟩
  have exch : ∀ {a'}, w1.ls.Has e a' → e.id = c.id → ExchangingAccount w1 i e.name :=
    fun h hid => ⟨e, h.1, rfl, o, by rw [g4]; simp, by rw [hh, hid]⟩
  have nobody : ∀ {c k l l0 j u f b}, Exchange E w1 i c l0 → ExFails i c k l → .resp j u f (.body b) ∉ l ++ l0 := by
    rintro c k l l0 j u f b ⟨_, _, _, _, rfl⟩ h hm
    rcases List.mem_append.mp hm with hm | hm
    · rcases h.mem hm with h | ⟨_, h⟩ <;> cases h
    · simp at hm
  have only : ∀ {c k l l0 b}, Exchange E w1 i c l0 → ExFails i c k l → ∀ j u f b',
      .resp j u f (.body b') ∈ .resp i c.tokenUri c.form (.body b) :: .post i c.tokenUri c.form :: (l ++ l0) → b' = b := by
    intro c k l l0 b h1 h2 j u f b' hm
    simp only [List.mem_cons, Obs.resp.injEq, reduceCtorEq, false_or, Net.body.injEq] at hm
    rcases hm with hm | hm
    · exact hm.2.2.2
    · exact absurd hm (nobody h1 h2)
  cases h1' with
  | exSend => cases hx; exact absurd g7.symm (hne _ rfl)
  | exAwait => cases hx <;> exact absurd g7.symm (hne _ rfl)
  | exSleep => cases hx <;> exact absurd g7.symm (hne _ rfl)
  | @exDone c' k l1' l0' b k1 k2 k3 =>
    have hh' : c'.id = c.id := Option.some.inj hh
    cases hx with
    | exDoneStale hst =>
      subst g7
      cases h4
      exact .inr (.inl ⟨⟨w1, w2, inp, g1, g2, g3, authLost_of g4 rfl hst, g8.symm⟩, h5⟩)
    | exDoneErr => exact absurd g7.symm (hne _ rfl)
    | exDoneInvalid => exact absurd g7.symm (hne _ rfl)
    | exDoneNoExpiry he hid j1 j2 j3 j4 hex =>
      subst g7
      cases h4
      obtain ⟨rfl, _⟩ := acct he (hid.trans hh')
      refine .inr (.inr ⟨b, _, _, ⟨c'.tokenUri, c'.form, by simp⟩, only k1 k2, issued_of j1 j2 j3 j4, .inr
        ⟨⟨w1, w2, inp, g1, g2, g3, exch he (hid.trans hh'), ⟨_, he.1, rfl, q10⟩, g8.symm, ?_⟩, h5⟩⟩)
      unfold ExpiryAt checkedAdd at hex
      split at hex
      · cases hex
      · rename_i hc
        split at hc
        · cases hc
        · simp only [secs, nsPerSec] at *; omega
    | exDoneOk he hid j1 j2 j3 j4 hex =>
      subst g7
      simp [SaysAll] at h4
      subst h4
      obtain ⟨rfl, hn⟩ := acct he (hid.trans hh')
      refine .inr (.inr ⟨b, _, _, ⟨c'.tokenUri, c'.form, by simp⟩, only k1 k2, issued_of j1 j2 j3 j4, .inl
        ⟨_, ⟨w1, w2, inp, g1, g2, g3, exch he (hid.trans hh'), ⟨_, he.1, rfl, q10⟩, ?_, _, he.2, expiryRule_of hex⟩, ?_⟩⟩)
      · rw [← g8]; exact holds_put he.1
      · rw [h5, hn]; rfl
  | @fail c' l1' l0' msg k1 k2 =>
    have hh' : c'.id = c.id := Option.some.inj hh
    cases hx with
    | failStale hst =>
      subst g7
      cases h4
      exact .inr (.inl ⟨⟨w1, w2, inp, g1, g2, g3, authLost_of g4 rfl hst, g8.symm⟩, h5⟩)
    | failOk he hid =>
      obtain ⟨rfl, hn⟩ := acct he (hid.trans hh')
      rw [q10] at g7
      subst g7
      obtain ⟨os, m', s1, s2, rfl⟩ := h4
      cases s2
      cases s1 with
      | @error _ _ ob s1 =>
        refine .inl ⟨ob, msg, ⟨w1, w2, inp, g1, g2, g3, exch he (hid.trans hh'), ⟨_, he.1, rfl, q10⟩, ?_⟩, ?_, by rw [h5]; rfl, ?_, ?_⟩
        · rw [← g8]; exact holds_put he.1
        · rw [hn] at s1; exact s1
        · rintro ⟨j, u, f, b, tok, x, hb, hiss⟩
          cases k2 with
          | net n1 n2 n3 n4 _ =>
            simp only [List.cons_append, List.mem_cons, Obs.resp.injEq, reduceCtorEq, false_or] at hb
            rcases hb with hb | hb
            · exact n4 _ hb.2.2.2.symm
            · exact nobody k1 n1 hb
          | body n1 n2 n3 =>
            simp only [List.cons_append, List.mem_cons, Obs.resp.injEq, reduceCtorEq, false_or, Net.body.injEq] at hb
            rcases hb with ⟨_, _, _, rfl⟩ | hb
            · obtain ⟨_, _, _, f', _, _, _, _, _, _, hx', hf', _, _⟩ := n3.exec (by simp)
              cases hx' with
              | exDoneErr _ _ m => exact not_issued (.inl (by rw [m]; rfl)) ⟨_, _, hiss⟩
              | exDoneInvalid _ _ _ m => exact not_issued (.inr m) ⟨_, _, hiss⟩
              | _ => simp at hf'
            · exact nobody k1 n1 hb
          | all n1 _ => exact nobody k1 n1 hb
        · cases k2 with
          | net n1 n2 n3 n4 n5 => exact ⟨_, _, _, _, rfl, n5⟩
          | body n1 n2 n3 =>
            refine ⟨_, _, _, _, rfl, ?_⟩
            obtain ⟨_, _, _, f', _, _, _, _, _, _, hx', hf', _, _⟩ := n3.exec (by simp)
            cases hx' with
            | exDoneErr _ _ m =>
              simp at hf'
              rw [hf'] at m
              exact .refused (str_get.mp m)
            | exDoneInvalid _ _ m =>
              simp at hf'
              rw [← hf']
              exact .invalid fun m' hm => by rw [str_get.mpr hm] at m; cases m
            | _ => simp at hf'
          | all n1 n2 => cases n1; exact ⟨_, _, _, _, rfl, by rw [n2]; exact .unreachable⟩
  | _ => cases hh

end lemmas

/-- **C25**, what holds: if the token server grants a token in exchange for the code of a callback, then the account `n`
whose authorisation `p` the callback named gets it, and one event is queued; unless the thread's handle on the account
is lost when the answer arrives (`C25_not` shows that this can happen although the same authorisation is still
outstanding), or the clock cannot represent the token's expiry. -/
theorem C25_partial {w : World} {i : Nat} {buf : Bytes} {sec : Bool} {u tok : String} {form : List (String × String)}
    {b : Body} {x : Nat} (hr : Reach E w) (hd : w.threads i = []) (hm : .httpReq i buf sec ∈ threadLog i w.log)
    (hp : .post i u form ∈ threadLog i w.log) (hb : .resp i u form (.body b) ∈ threadLog i w.log) (hiss : Issued b tok x) :
    ∃ n p, DidStep E i w (fun w1 w2 => Handling w1 i buf sec ∧ w2.ls = w1.ls ∧
        ∃ uri, Names E w1.ls buf sec n p uri ∧ AtRedirect E w1.st w1.ls n uri) ∧
      ∃ l, (∀ o ∈ l, o.IsTraffic) ∧
        ((∃ x', DidStep E i w (fun w1 w2 => ExchangingAccount w1 i n ∧ HoldsPending w1.ls n p ∧
              HoldsToken w2.ls n (FirstToken b tok w1.now x') ∧
              ∃ a, w1.ls.config.get? n = some a ∧ ExpiryRule w1.ls.config a w1.now x x') ∧
            threadLog i w.log = .event i n .new :: l) ∨
         (DidStep E i w (fun w1 w2 => AuthLost w1 i ∧ w2.ls = w1.ls) ∧ threadLog i w.log = l) ∨
         (DidStep E i w (fun w1 w2 => ExchangingAccount w1 i n ∧ HoldsPending w1.ls n p ∧ w2.ls = w1.ls ∧
              timeMax < w1.now + x * 1000000000) ∧ threadLog i w.log = l)) := by
  obtain ⟨n, p, h1, l, h2, h3⟩ := exchange_end hr hd hm hp
  refine ⟨n, p, h1, l, h2, ?_⟩
  rcases h3 with ⟨o, msg, _, k2, k3, k4, _⟩ | h | ⟨b', tok', x', k1, k2, k3, k4⟩
  · exfalso
    rw [k3] at hb
    rcases List.mem_cons.mp hb with hb | hb
    · rcases k2 with ⟨_, k2⟩ | k2 <;> rw [k2] at hb <;> cases hb
    · exact k4 ⟨_, _, _, _, _, _, hb, hiss⟩
  · exact .inr (.inl h)
  · have hbl : .resp i u form (.body b) ∈ l := by
      rcases k4 with ⟨_, _, k4⟩ | ⟨_, k4⟩ <;> rw [k4] at hb
      · simpa using hb
      · exact hb
    cases k2 _ _ _ _ hbl
    have etok : tok' = tok := by have := k3.token.symm.trans hiss.token; simpa using this
    have ex : x' = x := by have := k3.expires.symm.trans hiss.expires; simpa using this
    subst etok ex
    rcases k4 with h | h
    · exact .inl h
    · exact .inr (.inr h)

/-- **C26**, for answers of the token server (including none): a thread which sent the code of a callback to the token
server and did not get a token for it ends the authorisation `p` of the account `n` named by the callback and reports
this exactly once (`o`), with the reason for the failure of the last attempt (`FailReason`); or else the account was
changed meanwhile, then it changes and reports nothing. -/
theorem C26_exchange {w : World} {i : Nat} {buf : Bytes} {sec : Bool} {u : String} {form : List (String × String)}
    (hr : Reach E w) (hd : w.threads i = []) (hm : .httpReq i buf sec ∈ threadLog i w.log)
    (hp : .post i u form ∈ threadLog i w.log) (hng : ¬ Granted (threadLog i w.log)) :
    ∃ n p, DidStep E i w (fun w1 w2 => Handling w1 i buf sec ∧ w2.ls = w1.ls ∧
        ∃ uri, Names E w1.ls buf sec n p uri ∧ AtRedirect E w1.st w1.ls n uri) ∧
      ∃ l, (∀ o ∈ l, o.IsTraffic) ∧
        ((∃ o msg, DidStep E i w (fun w1 w2 => ExchangingAccount w1 i n ∧ HoldsPending w1.ls n p ∧ HoldsNothing w2.ls n) ∧
            o.IsErrorReport i n ("Authentication for " ++ n ++ " failed: " ++ msg) ∧ threadLog i w.log = o :: l ∧
            ∃ u f net l', l = .resp i u f net :: l' ∧ FailReason u net msg) ∨
         (DidStep E i w (fun w1 w2 => AuthLost w1 i ∧ w2.ls = w1.ls) ∧ threadLog i w.log = l)) := by
  obtain ⟨n, p, h1, l, h2, h3⟩ := exchange_end hr hd hm hp
  refine ⟨n, p, h1, l, h2, ?_⟩
  rcases h3 with ⟨o, msg, k1, k2, k3, _, k4⟩ | h | ⟨b, tok, x, ⟨u', f', k1⟩, _, k3, k4⟩
  · exact .inl ⟨o, msg, k1, k2, k3, k4⟩
  · exact .inr h
  · refine absurd ⟨i, u', f', b, tok, x, ?_, k3⟩ hng
    rcases k4 with ⟨_, _, k4⟩ | ⟨_, k4⟩ <;> rw [k4]
    · exact List.mem_cons_of_mem _ k1
    · exact k1

/-- **C26**, for errors reported by the callback itself: the authorisation it names ends at once, the callback is answered
with status 400, and the error is reported exactly once. -/
theorem C26_callback {w1 w2 : World} {i : Nat} {buf : Bytes} {sec : Bool} {inp : Input} {n m : String} {p : PendingTok}
    {uri : Url} (hr : Reach E w1) (ht : Handling w1 i buf sec) (hs : w1.step E (.run i inp) = some w2)
    (hn : Names E w1.ls buf sec n p uri) (hu : ∀ n' p' uri', Names E w1.ls buf sec n' p' uri' → n' = n)
    (ha : AtRedirect E w1.st w1.ls n uri) (he : uri.param "error" = some m) :
    HoldsNothing w2.ls n ∧ ∀ w, Steps E w2 w →
      (∀ inp' w', w.step E (.run i inp') = some w' → w'.ls = w.ls) ∧
      (w.threads i = [] → ∃ o, o.IsErrorReport i n ("Authentication for " ++ n ++ " failed: " ++ m) ∧
        threadLog i w.log = [o, .httpAnswer i (Answer.bytes .badRequest), .httpReq i buf sec]) := by
  obtain ⟨f, hx, h1, h2, h3⟩ := handle_step hr ht hs
  obtain ⟨hi, hlog⟩ := handling_ne hr ht
  have hr2 : Reach E w2 := .step _ hr hs
  have hlt : i < w2.nextTid := Nat.lt_of_lt_of_le (hr.inv0.tid_lt ht) (stepR_of_step hr.inv0.wf hs).2.nextTid
  obtain ⟨n1, n2, n3⟩ := hn
  obtain ⟨a, x, a1, a2, a3⟩ := ha
  have key : ∀ {uri' s e a' p'}, parseGet E buf sec = some uri' → uri'.param "state" = some s → w1.ls.Has e a' →
      e.ts = .pending p' → p'.state = s → uri' = uri ∧ e.name = n ∧ a' = a := by
    intro uri' s e a' p' k1 k2 k3 k4 k5
    have hn : e.name = n := hu _ _ _ ⟨k1, by rw [k2, k5], ⟨e, k3.1, rfl, k4⟩⟩
    have h3 := k3.2
    rw [hn, a1] at h3
    rw [n1] at k1
    exact ⟨(Option.some.inj k1).symm, hn, (Option.some.inj h3).symm⟩
  have done : ∀ {e : Entry} {a' : Account} {m'}, w1.ls.Has e a' → e.name = n → m' = m → a'.name = n →
      f = { ls := w1.ls.put e.id .empty, next := [.httpAnswer http400, .notifyError a'.name (authFailedMsg a'.name m')] } →
      HoldsNothing w2.ls n ∧ ∀ w, Steps E w2 w →
      (∀ inp' w', w.step E (.run i inp') = some w' → w'.ls = w.ls) ∧
      (w.threads i = [] → ∃ o, o.IsErrorReport i n ("Authentication for " ++ n ++ " failed: " ++ m) ∧
        threadLog i w.log = [o, .httpAnswer i (Answer.bytes .badRequest), .httpReq i buf sec]) := by
    rintro e a' _ k1 rfl rfl k2 rfl
    refine ⟨by rw [h2]; exact holds_put k1.1, fun w hst => ?_⟩
    have hp : ∀ o ∈ w2.threads i, o.isPlain = true := by rw [h1]; simp [Op.isPlain]
    obtain ⟨_, m', ht, hl⟩ := plain_forward hr2 hi hlt hp w hst
    rw [h3, hlog] at hl
    refine ⟨fun inp' w' hs' => plain_same (hst.reach hr2) (fun o ho => hp o (ht.mem o ho)) hs', fun hd => ?_⟩
    rw [hd, h1] at ht
    obtain ⟨os, m1, s1, s2, rfl⟩ := ht.done
    obtain ⟨os', m2, s3, s4, rfl⟩ := s2
    cases s4
    cases s1
    cases s3 with
    | @error _ _ o s3 =>
      refine ⟨o, ?_, by rw [hl]; rfl⟩
      rw [k2] at s3; exact s3
  cases hx with
  | httpBad k1 => rw [n1] at k1; cases k1
  | httpNoState k1 k2 =>
    rw [n1] at k1; cases k1; rw [n2] at k2; cases k2
  | httpNoMatch k1 k2 k3 =>
    rw [n1] at k1; cases k1; rw [n2] at k2; cases k2
    obtain ⟨e, he, _, hp⟩ := n3
    exact absurd rfl (k3 e he p hp)
  | httpRedirErr k1 k2 k3 k4 k5 k6 =>
    obtain ⟨rfl, _, rfl⟩ := key k1 k2 k3 k4 k5
    rw [a2] at k6; cases k6
  | httpOrigin k1 k2 k3 k4 k5 k6 k7 =>
    obtain ⟨rfl, _, rfl⟩ := key k1 k2 k3 k4 k5
    rw [a2] at k6; cases k6
    exact absurd k7 (sameOrigin_iff.mp a3)
  | httpError k1 k2 k3 k4 k5 k6 k7 k8 =>
    obtain ⟨rfl, k9, rfl⟩ := key k1 k2 k3 k4 k5
    rw [he] at k8; cases k8
    exact done k3 k9 rfl (hr.inv0.wf.get?_name a1) rfl
  | httpNoCode k1 k2 k3 k4 k5 k6 k7 k8 =>
    obtain ⟨rfl, _, _⟩ := key k1 k2 k3 k4 k5
    rw [he] at k8; cases k8
  | httpCode k1 k2 k3 k4 k5 k6 k7 k8 =>
    obtain ⟨rfl, _, _⟩ := key k1 k2 k3 k4 k5
    rw [he] at k8; cases k8

section Example
open Demo

/-- The user is notified, and comes back after almost fifteen minutes: the request of thread 1 is about to be handled. -/
def sLate : List Action :=
  sAsk ++ [.notifier, .notifier, .notifier, .tick (secs 899), .http callback false]

/-- The code is sent to the token server; before the answer comes, it is time for a reminder. -/
def sReminded : List Action :=
  sLate ++ n1 3 ++ [.tick (secs 2), .notifier, .notifier, .notifier, .run 1 { net := .body answer }]

def sGrantLost : List Action := sReminded ++ n1 1

/-- The authorisation account "a" waits for. -/
def pendA (w : World) : Option PendingTok :=
  match w.ls.details.find? (fun e => e.name == "a") with
  | some ⟨_, _, .pending p⟩ => some p
  | _ => none

theorem pendA_holds {w : World} {p : PendingTok} (h : pendA w = some p) : HoldsPending w.ls "a" p := by
  unfold pendA at h
  split at h
  · rename_i id n p' hf
    cases h
    have h1 := List.mem_of_find?_eq_some hf
    have h2 := List.find?_some hf
    exact ⟨_, h1, by simpa using h2, rfl⟩
  · cases h

theorem getD_of_isSome {l : List Action} (h : (w0.run env l).isSome = true) : w0.run env l = some (after l) := by
  unfold after
  obtain ⟨w, hw⟩ := Option.isSome_iff_exists.mp h
  rw [hw]; rfl

theorem run_append {E : Env} : ∀ (l l' : List Action) (w : World), w.run E (l ++ l') = (w.run E l).bind fun w => w.run E l'
  | [], l', w => rfl
  | a :: l, l', w => by
    simp only [List.cons_append, World.run]
    cases w.step E a with
    | none => rfl
    | some w1 => exact run_append l l' w1

theorem steps_of_run {l0 l : List Action} {w : World} (h0 : (w0.run env l0).isSome = true)
    (h : w0.run env (l0 ++ l) = some w) : Steps env (after l0) w := by
  rw [run_append, getD_of_isSome h0] at h
  exact run_steps l .refl h

theorem no_error {b : Body} (h : b.get "error" = none) : ∀ m, b.get "error" ≠ some (.str m) := by
  intro m hm; rw [h] at hm; cases hm

theorem handling_of {w : World} {i : Nat} {buf : Bytes} {sec : Bool}
    (h : (match w.threads i with
      | [.http b s] => b == buf && s == sec
      | _ => false) = true) : Handling w i buf sec := by
  unfold Handling
  split at h
  · rename_i b s hh
    simp at h
    rw [hh, h.1, h.2]
  · cases h

/-- **C25 fails.** In `sReminded` the token server has just granted a token for the authorisation which was outstanding when
the callback was handled. It still is outstanding: the request is the same, only the time of the last notification has
changed. But when the thread is done (`sGrantLost`), the account has no token, and nothing was reported. -/
theorem C25_not : ∃ (w1 w2 w : World) (p p' : PendingTok) (uri : Url),
    Reach env w1 ∧ Handling w1 1 callback false ∧ Names env w1.ls callback false "a" p uri ∧ AtRedirect env w1.st w1.ls "a" uri ∧
    Steps env w1 w2 ∧ (∃ u f, threadLog 1 w2.log =
      [.resp 1 u f (.body answer), .post 1 u f, .httpAnswer 1 (Answer.bytes (.ok
        "pizauth processing authentication: you can safely close this page.")), .httpReq 1 callback false]) ∧
    Issued answer "T1" 3600 ∧
    HoldsPending w2.ls "a" p' ∧ p' = { p with lastNotification := some w2.now } ∧
    Steps env w2 w ∧ w.threads 1 = [] ∧ w.ls = w2.ls ∧ threadLog 1 w.log = threadLog 1 w2.log := by
  have h1 : (pendA (after sLate)).isSome = true := by decide +kernel
  have h2 : pendA (after sReminded) =
      (pendA (after sLate)).map fun p => { p with lastNotification := some (after sReminded).now } := by decide +kernel
  obtain ⟨p, hp⟩ := Option.isSome_iff_exists.mp h1
  rw [hp] at h2
  have hst : (pendA (after sLate)).map (fun p => p.state) = some "AAAAAAAAAAA" := by decide +kernel
  rw [hp] at hst
  simp at hst
  have r1 : (w0.run env sLate).isSome = true := by decide +kernel
  have r2 : w0.run env sReminded = some (after sReminded) := getD_of_isSome (by decide +kernel)
  have r3 : w0.run env sGrantLost = some (after sGrantLost) := getD_of_isSome (by decide +kernel)
  refine ⟨after sLate, after sReminded, after sGrantLost, p, _,
    ⟨"http", some "localhost", some 8080, "/", [("code", "c"), ("state", "AAAAAAAAAAA")]⟩, after_reach _, ?_, ⟨?_, ?_, pendA_holds hp⟩,
    ⟨act "a" "https://ts/token", ⟨"http", some "localhost", some 8080, "/", []⟩, ?_, ?_, ?_⟩, ?_, ?_, ?_, pendA_holds h2, rfl, ?_,
    ?_, ?_, ?_⟩
  · exact handling_of (by decide +kernel)
  · decide +kernel
  · rw [hst]; decide +kernel
  · decide +kernel
  · decide +kernel
  · unfold SameOrigin; decide +kernel
  · exact steps_of_run (l := n1 3 ++ [.tick (secs 2), .notifier, .notifier, .notifier, .run 1 { net := .body answer }]) r1
      (by rw [← List.append_assoc]; exact r2)
  · refine ⟨"https://ts/token", codeForm (act "a" "https://ts/token") "c"
      "AAAAAAAAAAAAAAAAAAAAAAAAAAAAAAAAAAAAAAAAAAAAAAAAAAAAAAAAAAAAAAAAAAAAAAAAAAAAAAAAAAAAAA" "http://localhost:8080/", ?_⟩
    decide +kernel
  · exact ⟨no_error (by decide +kernel), by decide +kernel, by decide +kernel, by decide +kernel⟩
  · exact steps_of_run (l := n1 1) (by rw [r2]; rfl) r3
  · exact List.isEmpty_iff.mp (by decide +kernel)
  · decide +kernel
  · decide +kernel

def callbackUnknown : Bytes := utf8 "GET /?code=c&state=zzz HTTP/1.1\r\nHost: localhost:8080\r\n\r\n"
def callbackEvil : Bytes := utf8 "GET /?code=c&state=AAAAAAAAAAA HTTP/1.1\r\nHost: evil:8080\r\n\r\n"

/-- A callback with an unknown state, and one which came to another host: the authorisation goes on. -/
example : (w0.run env (sAsk ++ [.http callbackUnknown false] ++ n1 2)).isSome = true ∧
    (after (sAsk ++ [.http callbackUnknown false] ++ n1 2)).ls = (after sAsk).ls ∧
    threadLog 1 (after (sAsk ++ [.http callbackUnknown false] ++ n1 2)).log =
      [.httpAnswer 1 (Answer.bytes (.ok "No pending token matches request state: request a fresh token")),
       .httpReq 1 callbackUnknown false] := by
  decide +kernel

example : (w0.run env (sAsk ++ [.http callbackEvil false] ++ n1 2)).isSome = true ∧
    (after (sAsk ++ [.http callbackEvil false] ++ n1 2)).ls = (after sAsk).ls ∧
    threadLog 1 (after (sAsk ++ [.http callbackEvil false] ++ n1 2)).log =
      [.httpAnswer 1 (Answer.bytes .notFound), .httpReq 1 callbackEvil false] := by
  decide +kernel

/-- The token server refuses the code: the authorisation ends, and this is reported. -/
example : (w0.run env (sAsk ++ [.http callback false] ++ n1 3 ++ [.run 1 { net := .badJson "x" }] ++ n1 2)).isSome = true ∧
    (after (sAsk ++ [.http callback false] ++ n1 3 ++ [.run 1 { net := .badJson "x" }] ++ n1 2)).ls.details.map
      (fun e => (e.name, e.ts)) = [("a", .empty), ("b b", .empty)] ∧
    ((threadLog 1 (after (sAsk ++ [.http callback false] ++ n1 3 ++ [.run 1 { net := .badJson "x" }] ++ n1 2)).log).map
      fun o => match o with
        | .errorLog _ n _ => n
        | _ => "") = ["a", "", "", "", ""] := by
  decide +kernel

/-- It grants a token: the account has it. -/
example : (w0.run env sToken).isSome = true ∧
    (after sToken).ls.details.map (fun e => tokOf e.ts) = [some ("T1", some "R1", false, 0), none] ∧
    (threadLog 1 (after sToken).log).head? = some (.event 1 "a" .new) := by
  decide +kernel

/-- A callback which reports an error ends the authorisation. -/
example : (w0.run env (sAsk ++ [.http callbackErr false] ++ n1 3)).isSome = true ∧
    (after (sAsk ++ [.http callbackErr false] ++ n1 3)).ls.details.map (fun e => (e.name, e.ts)) =
      [("a", .empty), ("b b", .empty)] ∧
    threadLog 1 (after (sAsk ++ [.http callbackErr false] ++ n1 3)).log =
      [.errorLog 1 "a" "Authentication for a failed: denied", .httpAnswer 1 (Answer.bytes .badRequest),
       .httpReq 1 callbackErr false] := by
  decide +kernel

end Example

end Pizauth
