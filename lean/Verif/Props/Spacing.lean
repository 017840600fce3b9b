import Verif.Props.Posts
import Verif.Proof.Life

/-!
# C24: the time between two attempts to exchange a code
-/

namespace Pizauth
open LockedState

variable {E : Env}

section lemmas

/-- A new answer of a token server comes from the thread which waited for it. -/
theorem NewObs.resp_run {w w' : World} {a : Action} {i : Nat} {u : String} {f : List (String × String)} {net : Net}
    (h : NewObs E w a w' (.resp i u f net)) :
    ∃ o rest, w.threads i = o :: rest ∧ ((∃ c k, o = .exAwait c k) ∨ ∃ c, o = .rfAwait c) ∧ ∃ inp, a = .run i inp := by
  cases h with
  | run ht hx ho =>
    cases hx <;> simp at ho <;> obtain ⟨rfl, _⟩ := ho
    all_goals first
      | exact ⟨_, _, ht, .inl ⟨_, _, rfl⟩, _, rfl⟩
      | exact ⟨_, _, ht, .inr ⟨_, rfl⟩, _, rfl⟩

theorem no_resp_of {w : World} {i : Nat} {t : Instant} {u : String} {f : List (String × String)} {net : Net}
    (hm : (t, .resp i u f net) ∈ w.log) : .resp i u f net ∈ threadLog i w.log := mem_threadLog hm rfl

/-- A code is sent again only six seconds after the last attempt failed. -/
theorem Reach.waited : ∀ w, Reach E w → ∀ i t1 u f net, (t1, .resp i u f net) ∈ w.log →
    (∀ c k, .exSend c k ∈ w.threads i → t1 + 6000000000 ≤ w.now) ∧
    (∀ c k t, .exSleep c k t ∈ w.threads i → t1 + 6000000000 ≤ t) := by
  refine Reach.induct ?_ ?_
  · intro w hi i t1 u f net hm
    rw [hi.log] at hm; cases hm
  · intro w a w' hr h0 hst ih hs i t1 u f net hm
    obtain ⟨l, hl, hnew⟩ := hs.log_new
    rw [hl] at hm
    have hle := fun h => Reach.log_le w hr (t1, .resp i u f net) h
    have hcase : (∃ o rest, w.threads i = o :: rest ∧ ((∃ c k, o = .exAwait c k) ∨ ∃ c, o = .rfAwait c) ∧
        (∃ inp, a = .run i inp) ∧ t1 = w.now) ∨ (t1, .resp i u f net) ∈ w.log := by
      rcases List.mem_append.mp hm with h | h
      · obtain ⟨o, rest, k1, k2, k3⟩ := (hnew _ h).2.resp_run
        exact .inl ⟨o, rest, k1, k2, k3, (hnew _ h).1⟩
      · exact .inr h
    clear hm hnew hl
    have old : (∀ c k, .exSend c k ∈ w.threads i → t1 + 6000000000 ≤ w.now) ∧
        (∀ c k t, .exSleep c k t ∈ w.threads i → t1 + 6000000000 ≤ t) := by
      rcases hcase with ⟨o, rest, k1, k2, _, _⟩ | h
      · obtain ⟨_, k3, _⟩ := core_of hr k1 (by rcases k2 with ⟨_, _, rfl⟩ | ⟨_, rfl⟩ <;> rfl)
        rw [k3]
        rcases k2 with ⟨_, _, rfl⟩ | ⟨_, rfl⟩ <;> simp
      · exact ih i t1 u f net h
    cases hs <;> try exact old
    case tick d =>
      refine ⟨fun c k ho => ?_, old.2⟩
      have := old.1 c k ho
      simp only; omega
    case connect buf hb =>
      by_cases hi : i = 0
      · subst hi; simp [setThread]
      · simp only [setThread_ne _ hi]; exact old
    case http buf sec hb =>
      by_cases hi : i = w.nextTid
      · subst hi; simp [setThread]
      · simp only [setThread_ne _ hi]; exact old
    case run tid inp op rest f' ht hx =>
      have hnow : (w.apply tid rest f').now = w.now := rfl
      constructor
      · intro c k ho
        rw [hnow]
        rcases mem_apply_threads ho with ⟨rfl, ho | ho⟩ | ⟨_, ho, _⟩ | ⟨_, ho, _⟩
        · cases hx <;> simp at ho
          case httpCode =>
            exfalso
            obtain ⟨_, _, k1⟩ := core_of hr ht rfl
            rcases hcase with ⟨o, rest, k2, k3, _⟩ | h
            · rw [ht] at k2; cases k2
              rcases k3 with ⟨_, _, h⟩ | ⟨_, h⟩ <;> cases h
            · have hm := no_resp_of h
              generalize threadLog _ w.log = L at k1 hm
              cases k1
              simp at hm
          case exSleepRetry =>
            have := old.2 _ _ _ (by rw [ht]; exact List.mem_cons_self ..)
            omega
          all_goals (split at ho <;> simp at ho)
        · exact old.1 c k (by rw [ht]; simp [ho])
        · obtain ⟨e, _, h, _⟩ := hx.spawn_rfStart ho
          cases h
        · exact old.1 c k ho
      · intro c k t ho
        rcases mem_apply_threads ho with ⟨rfl, ho | ho⟩ | ⟨_, ho, _⟩ | ⟨_, ho, _⟩
        · cases hx <;> simp at ho
          case exAwaitRetry =>
            obtain ⟨_, _, rfl⟩ := ho
            have : t1 ≤ w.now := by
              rcases hcase with ⟨_, _, _, _, _, h⟩ | h
              · exact Int.le_of_eq h
              · exact hle h
            simp only [retryDelay, secs, nsPerSec]
            omega
          all_goals (split at ho <;> simp at ho)
        · exact old.2 c k t (by rw [ht]; simp [ho])
        · obtain ⟨e, _, h, _⟩ := hx.spawn_rfStart ho
          cases h
        · exact old.2 c k t ho
    case refScan es hp hes =>
      rcases spawnAll_cases w.threads w.nextTid i (es.map fun e => Op.rfStart e.id) with ⟨_, h1⟩ | ⟨_, op, hop, h1⟩ | ⟨_, h1⟩
      · simp only [h1]; exact old
      · simp only [h1, List.mem_singleton]
        simp only [List.mem_map] at hop
        obtain ⟨_, _, rfl⟩ := hop
        simp
      · simp only [h1]; exact old

end lemmas

/-- **C24**, the time between attempts: a thread which got an answer from a token server, or failed to, sends nothing more
within the next six seconds. -/
theorem C24_spacing {w : World} {i : Nat} {t1 t2 : Instant} {u u' : String} {f f' : List (String × String)} {net : Net}
    {after before : Log} (hr : Reach E w) (hl : w.log = after ++ (t2, .post i u f) :: before)
    (hm : (t1, .resp i u' f' net) ∈ before) : t1 + 6000000000 ≤ t2 := by
  have key : ∀ w, Reach E w → ∀ after, w.log = after ++ (t2, .post i u f) :: before → t1 + 6000000000 ≤ t2 := by
    refine Reach.induct ?_ ?_
    · intro w hi after hl
      rw [hi.log] at hl; cases after <;> cases hl
    · intro w a w' hr h0 hst ih hs after hl
      obtain ⟨l, hw, hnew⟩ := hs.log_new
      rw [hw] at hl
      rcases List.append_eq_append_iff.mp hl with ⟨a', rfl, h2⟩ | ⟨c, rfl, h2⟩
      · exact ih _ h2
      · cases c with
        | nil => exact ih [] h2.symm
        | cons x c =>
          simp only [List.cons_append, List.cons.injEq] at h2
          obtain ⟨rfl, h2⟩ := h2
          obtain ⟨ht2, hn⟩ := hnew (t2, .post i u f) (by simp)
          simp only at ht2 hn
          subst ht2
          cases hn with
          | run ht hx ho =>
            cases hx <;> simp at ho <;> obtain ⟨rfl, rfl, rfl⟩ := ho
            all_goals
              have hlen := congrArg List.length hw
              simp [World.apply] at hlen
              have hc : c = [] := List.eq_nil_of_length_eq_zero (by omega)
              subst hc
              simp only [List.nil_append] at h2
              subst h2
            · exact (Reach.waited w hr _ _ _ _ _ hm).1 _ _ (by rw [ht]; exact List.mem_cons_self ..)
            · exfalso
              obtain ⟨_, _, k1⟩ := core_of hr ht rfl
              have hm' := no_resp_of hm
              generalize threadLog _ w.log = L at k1 hm'
              cases k1
              cases hm'
  exact key w hr after hl

section Example
open Demo

/-- In `sRetry` the code was sent again after a minute. -/
example : ((after sRetry).log.filter fun p => p.2.isPost).map (·.1) = [60000000000, 0] := by decide +kernel

end Example

end Pizauth
