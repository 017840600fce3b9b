import Verif.Spec.Life
import Verif.Props.RefreshResult
import Verif.Props.Callback
import Verif.Proof.Dump

/-!
# The life of an account
-/

namespace Pizauth
open LockedState

variable {E : Env}

section
variable {w : World} {i : Nat}

theorem holds_inj {ls : LockedState} (h : ls.WF) {n : String} {s : TokenState} {e : Entry} (he : e ∈ ls.details)
    (hn : e.name = n) (hs : Holds ls n s) : e.ts = s := by
  obtain ⟨e', he', hn', rfl⟩ := hs
  rw [h.entry_name_inj he he' (hn.trans hn'.symm)]

/-- Replacing a token state. -/
theorem put_change {ls ls1 : LockedState} (h : ls.WF) (hd : ls1.details = ls.details) {e : Entry} (he : e ∈ ls.details)
    {n : String} {s s' ts : TokenState} (hs : Holds ls n s) (hs' : Holds (ls1.put e.id ts) n s') :
    s' = s ∨ (e.name = n ∧ e.ts = s ∧ s' = ts) := by
  obtain ⟨e', he', hn', rfl⟩ := hs'
  rcases mem_put.mp he' with ⟨h1, _⟩ | ⟨e1, h1, hid, rfl⟩
  · rw [hd] at h1
    exact .inl (holds_inj h h1 hn' hs)
  · rw [hd] at h1
    have := h.entry_id_inj h1 he hid
    subst this
    exact .inr ⟨hn', holds_inj h he hn' hs, rfl⟩

/-- A thread which has just one thing to do. -/
theorem core_of (hr : Reach E w) {o : Op} {rest : List Op} (ht : w.threads i = o :: rest) (ho : o.isCore = true) :
    i ≠ 0 ∧ w.threads i = [o] ∧ Core E w i (threadLog i w.log) o := by
  obtain ⟨hi, h⟩ := (Reach.shape w hr).core ho (by rw [ht]; simp)
  have ht1 : w.threads i = [o] := by
    rcases h with h | ⟨b, c, rfl, h⟩
    · exact h
    · rw [h] at ht; cases ht
  refine ⟨hi, ht1, ?_⟩
  rcases hr.trace hi with ⟨h1, _⟩ | h1
  · have := hr.inv0.tid_lt ht
    omega
  · rw [ht1] at h1
    generalize hops : [o] = ops at h1
    generalize threadLog i w.log = L at h1 ⊢
    cases h1 with
    | core h => cases hops; exact h
    | answer => cases hops
    | tail _ _ k3 k4 =>
      subst hops
      have := k4.plain k3 o (List.mem_singleton.mpr rfl)
      rw [Op.not_plain_of_core ho] at this
      cases this

theorem exchange_has {c : ExCtx} {l0 : List Obs} (hx : Exchange E w i c l0) {e : Entry} {a : Account}
    (he : w.ls.Has e a) (hid : e.id = c.id) : ∃ p code, e.ts = .pending p ∧ HasCode E w i e.name p code := by
  obtain ⟨buf, sec, v1, v2, inp', uri, e1, a1, p, x, code, q1, q2, q3, q4, q5, q6, q7, q8, q9, q10, q11, q12, q13, q14, q15,
    q16⟩ := hx.inv
  obtain ⟨_, k1, _⟩ := (steps_evolves (.step _ q1 q2) _ q3).old he (by rw [hid, q16, q7]; exact q1.inv0.wf.lt _ q9.1)
  rw [q7] at k1
  have := q1.inv0.wf.entry_id_inj k1.1 q9.1 (by rw [hid, q16])
  subst this
  exact ⟨p, code, q10, buf, sec, uri, ⟨v1, v2, inp', q1, q2, q3, q4, ⟨q8, q11, e, q9.1, rfl, q10⟩, a1, x, q9.2, q12,
    sameOrigin_iff.mpr q13⟩, q14, q15⟩

theorem fail_log {c : ExCtx} {l l0 : List Obs} {msg : String} (hx : Exchange E w i c l0) (hf : FailWhy E w i c l0 msg l) :
    (∃ u f net l', l ++ l0 = .resp i u f net :: l') ∧ ¬ Granted (l ++ l0) := by
  have nobody : ∀ {k l j u f b}, ExFails i c k l → .resp j u f (.body b) ∉ l ++ l0 := by
    intro k l j u f b h hm
    obtain ⟨_, _, _, _, rfl⟩ := hx
    rcases List.mem_append.mp hm with hm | hm
    · rcases h.mem hm with h | ⟨_, h⟩ <;> cases h
    · simp at hm
  constructor
  · cases hf with
    | net => exact ⟨_, _, _, _, rfl⟩
    | body => exact ⟨_, _, _, _, rfl⟩
    | all h => cases h; exact ⟨_, _, _, _, rfl⟩
  · rintro ⟨j, u, f, b, tok, x, hb, hiss⟩
    cases hf with
    | net n1 n2 n3 n4 _ =>
      simp only [List.cons_append, List.mem_cons, Obs.resp.injEq, reduceCtorEq, false_or] at hb
      rcases hb with hb | hb
      · exact n4 _ hb.2.2.2.symm
      · exact nobody n1 hb
    | body n1 n2 n3 =>
      simp only [List.cons_append, List.mem_cons, Obs.resp.injEq, reduceCtorEq, false_or, Net.body.injEq] at hb
      rcases hb with ⟨_, _, _, rfl⟩ | hb
      · obtain ⟨_, _, _, f', _, _, _, _, _, _, hx', hf', _, _⟩ := n3.exec (by simp)
        cases hx' with
        | exDoneErr _ _ m => exact not_issued (.inl (by rw [m]; rfl)) ⟨_, _, hiss⟩
        | exDoneInvalid _ _ _ m => exact not_issued (.inr m) ⟨_, _, hiss⟩
        | _ => simp at hf'
      · exact nobody n1 hb
    | all n1 _ => exact nobody n1 hb

/-- The form of a refresh. -/
theorem rfStart_form {id : Nat} {c : RfCtx} (h : StepTo E w i [] (.rfStart id) [.rfSend c]) :
    ∃ a, c.form = refreshPost a c.refreshToken := by
  obtain ⟨w1, w2, inp, f, _, _, _, _, _, _, hx, hn, _, _⟩ := h.exec (by simp)
  cases hx <;> simp only [reduceCtorEq, List.cons.injEq, Op.rfSend.injEq, and_true, List.nil_eq] at hn
  subst hn
  exact ⟨_, rfl⟩

end

end Pizauth
