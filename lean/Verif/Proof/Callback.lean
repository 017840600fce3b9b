import Verif.Proof.TraceInv
import Verif.Spec.Callback

/-!
# The life of a thread which handles an HTTP request
-/

namespace Pizauth
open LockedState

variable {E : Env} {w : World} {i : Nat}

/-- Is this observation an answer to an HTTP request? -/
def Obs.isHttpAnswer : Obs → Bool
  | .httpAnswer _ _ => true
  | _ => false

theorem Core.httpReq_mem {l : List Obs} {o : Op} {buf : Bytes} {sec : Bool} (h : Core E w i l o)
    (hm : .httpReq i buf sec ∈ l) :
    (l = [.httpReq i buf sec] ∧ o = .http buf sec) ∨
    ∃ c l0 l1, Exchange E w i c l0 ∧ l = l1 ++ l0 ∧ o.authHandle = some c.id ∧
      ∀ ob ∈ l1, ob = .post i c.tokenUri c.form ∨ ∃ n, ob = .resp i c.tokenUri c.form n := by
  have hf : ∀ {c k l1}, ExFails i c k l1 → ∀ ob ∈ l1, ob = .post i c.tokenUri c.form ∨ ∃ n, ob = .resp i c.tokenUri c.form n :=
    fun h ob hob => (h.mem hob).imp_right fun ⟨t, h⟩ => ⟨_, h⟩
  cases h with
  | http => simp at hm; obtain ⟨rfl, rfl⟩ := hm; exact .inl ⟨rfl, rfl⟩
  | exSend h1 h2 _ => exact .inr ⟨_, _, _, h1, rfl, rfl, hf h2⟩
  | exSleep h1 h2 _ => exact .inr ⟨_, _, _, h1, rfl, rfl, hf h2⟩
  | @exAwait c k l1 l0 h1 h2 _ =>
    refine .inr ⟨_, _, .post i c.tokenUri c.form :: l1, h1, rfl, rfl, ?_⟩
    intro ob hob
    rcases List.mem_cons.mp hob with rfl | hob
    · exact .inl rfl
    · exact hf h2 ob hob
  | @exDone c k l1 l0 b h1 h2 _ =>
    refine .inr ⟨_, _, .resp i c.tokenUri c.form (.body b) :: .post i c.tokenUri c.form :: l1, h1, rfl, rfl, ?_⟩
    intro ob hob
    simp only [List.mem_cons] at hob
    rcases hob with rfl | rfl | hob
    · exact .inr ⟨_, rfl⟩
    · exact .inl rfl
    · exact hf h2 ob hob
  | fail h1 h2 => exact .inr ⟨_, _, _, h1, rfl, rfl, fun ob hob => h2.mem hob⟩
  | _ => simp at hm

theorem Exchange.log {c : ExCtx} {l0 : List Obs} (h : Exchange E w i c l0) :
    ∃ buf sec ans, l0 = [.httpAnswer i ans, .httpReq i buf sec] ∧
      StepTo E w i [.httpReq i buf sec] (.http buf sec) [.httpAnswer ans, .exSend c 0] := by
  obtain ⟨b, s, ans, h, rfl⟩ := h
  exact ⟨b, s, ans, rfl, h⟩

theorem SaysAll.answers {tail : List Op} {m : List Obs} (h : SaysAll i tail m) {j : Nat} {b : Bytes}
    (hm : .httpAnswer j b ∈ m) : .httpAnswer b ∈ tail := by
  induction tail generalizing m with
  | nil => cases h; cases hm
  | cons o tail ih =>
    obtain ⟨os, m', h1, h2, rfl⟩ := h
    rcases List.mem_append.mp hm with hm | hm
    · exact List.mem_cons_of_mem _ (ih h2 hm)
    · cases h1 with
      | answer => simp at hm; exact List.mem_cons.mpr (.inl (by rw [hm.2]))
      | error h => rcases h with ⟨_, rfl⟩ | rfl <;> simp at hm
      | _ => simp at hm

theorem StepTo.no_answer {l : List Obs} {o : Op} {tail : List Op} (h : StepTo E w i l o tail) (ho : o.authHandle.isSome = true)
    (hp : ∀ o ∈ tail, o.isPlain = true) : ∀ b, .httpAnswer b ∉ tail := by
  have hne : tail ≠ [o] := by
    rintro rfl
    have := hp o (by simp)
    cases o <;> simp [Op.authHandle, Op.isPlain] at ho this
  obtain ⟨w1, w2, inp, f, g1, g2, g3, g4, g5, g6, hx, g7, g8, g9⟩ := h.exec hne
  subst g7
  intro b hb
  cases hx <;> simp [Op.authHandle] at ho hb
  split at hb <;> simp at hb

/-- The life of a thread which handles a request. -/
theorem callback_trace (hr : Reach E w) (hi : i ≠ 0) {buf : Bytes} {sec : Bool}
    (hm : .httpReq i buf sec ∈ threadLog i w.log) :
    (w.threads i = [.http buf sec] ∧ threadLog i w.log = [.httpReq i buf sec]) ∨
    ∃ next, StepTo E w i [.httpReq i buf sec] (.http buf sec) next ∧ next ≠ [.http buf sec] ∧
      (((∀ o ∈ next, o.isPlain = true) ∧ ∃ m, Tail i next m (w.threads i) ∧ threadLog i w.log = m ++ [.httpReq i buf sec]) ∨
       (∃ c ans, next = [.httpAnswer ans, .exSend c 0] ∧
        (w.threads i = next ∧ threadLog i w.log = [.httpReq i buf sec] ∨
         ∃ m, threadLog i w.log = m ++ [.httpAnswer i ans, .httpReq i buf sec] ∧ ∀ o ∈ m, o.isHttpAnswer = false))) := by
  have core : ∀ {l o}, Core E w i l o → .httpReq i buf sec ∈ l → (l = [.httpReq i buf sec] ∧ o = .http buf sec) ∨
      ∃ c ans m, StepTo E w i [.httpReq i buf sec] (.http buf sec) [.httpAnswer ans, .exSend c 0] ∧
        l = m ++ [.httpAnswer i ans, .httpReq i buf sec] ∧ o.authHandle = some c.id ∧ ∀ o ∈ m, o.isHttpAnswer = false := by
    intro l o h hm
    rcases h.httpReq_mem hm with h | ⟨c, l0, l1, h1, rfl, h2, h3⟩
    · exact .inl h
    · obtain ⟨buf', sec', ans, rfl, h4⟩ := h1.log
      have : buf' = buf ∧ sec' = sec := by
        rcases List.mem_append.mp hm with hm | hm
        · rcases h3 _ hm with h | ⟨_, h⟩ <;> cases h
        · simp at hm; exact ⟨hm.1.symm, hm.2.symm⟩
      obtain ⟨rfl, rfl⟩ := this
      refine .inr ⟨c, ans, l1, h4, rfl, h2, fun ob hob => ?_⟩
      rcases h3 ob hob with rfl | ⟨_, rfl⟩ <;> rfl
  rcases hr.trace hi with ⟨_, h⟩ | h
  · rw [h] at hm; cases hm
  · generalize hl : threadLog i w.log = l at h hm
    generalize ht : w.threads i = ops at h
    cases h with
    | core h =>
      rcases core h hm with ⟨rfl, rfl⟩ | ⟨c, ans, m, h1, rfl, _, h2⟩
      · exact .inl ⟨rfl, rfl⟩
      · exact .inr ⟨_, h1, by simp, .inr ⟨c, ans, rfl, .inr ⟨m, rfl, h2⟩⟩⟩
    | answer h =>
      simp at hm
      obtain ⟨rfl, rfl⟩ := hm
      exact .inr ⟨_, h, by simp, .inr ⟨_, _, rfl, .inl ⟨rfl, rfl⟩⟩⟩
    | @tail l m o tail _ h1 h2 h3 h4 =>
      obtain ⟨pre, hpre, hsay⟩ := h4.split
      have hm' : .httpReq i buf sec ∈ l := by
        rcases List.mem_append.mp hm with hm | hm
        · exfalso
          have : ∀ {tail m}, SaysAll i tail m → .httpReq i buf sec ∉ m := by
            intro tail
            induction tail with
            | nil => intro m h; cases h; simp
            | cons o tail ih =>
              rintro m ⟨os, m', h1, h2, rfl⟩ hm
              rcases List.mem_append.mp hm with hm | hm
              · exact ih h2 hm
              · cases h1 with
                | error h => rcases h with ⟨_, rfl⟩ | rfl <;> simp at hm
                | _ => simp at hm
          exact this hsay hm
        · exact hm
      rcases core h1 hm' with ⟨rfl, rfl⟩ | ⟨c, ans, m', k1, rfl, k2, k3⟩
      · refine .inr ⟨tail, h2, ?_, .inl ⟨h3, m, h4, rfl⟩⟩
        rintro rfl
        have := h3 _ (List.mem_singleton.mpr rfl)
        cases this
      · refine .inr ⟨_, k1, by simp, .inr ⟨c, ans, rfl, .inr ⟨m ++ m', by simp, ?_⟩⟩⟩
        intro ob hob
        rcases List.mem_append.mp hob with hob | hob
        · cases ob <;> try rfl
          have := hsay.answers hob
          exact absurd (by rw [hpre]; exact List.mem_append_left _ this) (h2.no_answer (by rw [k2]; rfl) h3 _)
        · exact k3 ob hob

/-- How a thread goes on which has only plain operations left. -/
theorem plain_forward {w2 : World} (hr : Reach E w2) (hi : i ≠ 0) (hlt : i < w2.nextTid)
    (hp : ∀ o ∈ w2.threads i, o.isPlain = true) : ∀ w, Steps E w2 w →
    i < w.nextTid ∧ ∃ m, Tail i (w2.threads i) m (w.threads i) ∧ threadLog i w.log = m ++ threadLog i w2.log := by
  refine Steps.induct hr (P := fun w => i < w.nextTid ∧ ∃ m, Tail i (w2.threads i) m (w.threads i) ∧
    threadLog i w.log = m ++ threadLog i w2.log) ⟨hlt, [], .start, rfl⟩ ?_
  · rintro w a w' hst hw h0 _ ⟨hlt, m, h1, h2⟩ hs
    refine ⟨Nat.lt_of_lt_of_le hlt hs.nextTid, ?_⟩
    rcases thread_step hw hs hi hlt with ⟨h3, h4⟩ | ⟨inp, op, rest, f, rfl, h3, hx, rfl, h4, h5⟩
    · exact ⟨m, by rw [h4]; exact h1, by rw [h3, h2]⟩
    · have hpl := hp op (h1.mem op (by rw [h3]; simp))
      have hsay := hx.says hpl
      rw [h3] at h1
      have hnext : f.next = [] := by cases hx <;> simp [Op.isPlain] at hpl <;> rfl
      refine ⟨f.obs ++ m, ?_, ?_⟩
      · rw [h4, hnext]; exact h1.step hsay
      · rw [h5, hsay.rev, h2, List.append_assoc]

/-- Plain operations do not change the state. -/
theorem plain_same {inp : Input} {w' : World} (hr : Reach E w) (hp : ∀ o ∈ w.threads i, o.isPlain = true)
    (hs : w.step E (.run i inp) = some w') : w'.ls = w.ls := by
  replace hs := (stepR_of_step hr.inv0.wf hs).2
  cases hs with
  | runPanic => rfl
  | run ht hx =>
    have hpl := hp _ (by rw [ht]; exact List.mem_cons_self)
    cases hx <;> simp [Op.isPlain] at hpl <;> rfl

end Pizauth
