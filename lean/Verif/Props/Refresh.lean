import Verif.Proof.Refresh
import Verif.Props.Demo

/-!
# C12, C13: refreshes of a token
-/

namespace Pizauth
open LockedState

variable {E : Env}

/-- **C12.** At most one thread refreshes the token of an account (with a handle that is still valid). -/
theorem C12_single_refresh {w : World} {i j : Nat} {n : String} (hr : Reach E w) (hi : RefreshingAccount w i n)
    (hj : RefreshingAccount w j n) : i = j := by
  obtain ⟨e, he, rfl, h1⟩ := hi
  obtain ⟨e', he', hn, h2⟩ := hj
  have : e' = e := hr.inv0.wf.entry_name_inj he' he hn
  subst this
  exact (Reach.refInv w hr).unique i j _ h1 h2

/-- **C12.** A thread whose handle is no longer valid changes nothing, for no account. -/
theorem C12_stale_harmless {w w' : World} {i h : Nat} {inp : Input} (hr : Reach E w) (hi : Refreshing w i h)
    (hstale : ∀ e ∈ w.ls.details, e.id ≠ h) (hs : w.step E (.run i inp) = some w') : w'.ls = w.ls := by
  obtain ⟨o, ho, hoh⟩ := hi
  obtain ⟨_, ht⟩ := (Reach.shape w hr).refreshing ho hoh
  replace hs := (stepR_of_step hr.inv0.wf hs).2
  cases hs with
  | runPanic _ _ => rfl
  | run ht' hx =>
    rw [ht] at ht'
    cases ht'
    show _ = _
    rcases hx.sameBut hr.inv0.wf (Op.accId_of_refreshHandle hoh) with h | ⟨e, he, hid, _⟩
    · exact h
    · exact absurd hid (hstale e he)

/-- **C13.** If an account is marked as being refreshed then a thread is refreshing it, with a valid handle. -/
theorem C13_mark_has_thread {w : World} {n : String} (hr : Reach E w) (hm : Marked w.ls n) :
    ∃ i, RefreshingAccount w i n := by
  obtain ⟨e, he, t, hn, hts, hon⟩ := hm
  obtain ⟨i, hi⟩ := (Reach.refInv w hr).marked e he t hts hon
  exact ⟨i, e, he, hn, hi⟩

/-- **C13.** Conversely the account is marked as long as that thread is at work. -/
theorem C13_thread_has_mark {w : World} {i : Nat} {n : String} (hr : Reach E w) (hi : RefreshingAccount w i n) :
    Marked w.ls n := by
  obtain ⟨e, he, hn, o, ho, hoh⟩ := hi
  obtain ⟨a, ha⟩ := hr.inv0.wf.has he
  have hop := Reach.opsInv w hr i o ho
  have key : ∃ t, e.ts = .active t ∧ t.ongoing = true := by
    cases o <;> simp only [Op.refreshHandle, reduceCtorEq, Option.some.injEq] at hoh <;>
      (obtain ⟨t, h1, h2, _⟩ := hop.2 e a ha hoh.symm; exact ⟨t, h1, h2⟩)
  obtain ⟨t, h1, h2⟩ := key
  exact ⟨e, he, t, hn, h1, h2⟩

/-- **C13.** The thread ends its refresh after at most six of its own steps, whatever happens meanwhile. -/
theorem C13_refresh_ends {w0 w : World} {i h k : Nat} (hr : Reach E w0) (hi : Refreshing w0 i h)
    (hs : StepsOf E i w0 k w) (hk : 6 ≤ k) : ∀ h', ¬ Refreshing w i h' := by
  rintro h' ⟨o', ho', hh'⟩
  obtain ⟨_, _, ⟨o, h1, ht, hoh, hle⟩ | htail⟩ := StepsOf.refresh hr hi hs
  · have : 1 ≤ o.refreshLeft := by cases o <;> simp [Op.refreshLeft]
    omega
  · have := htail o' ho'
    cases o' <;> simp_all [Op.isTail, Op.refreshHandle]

/-- **C13.** Each of these steps is possible at any time: the thread never waits for another thread. (What it waits
for is the answer of the token server, or the end of a command, both of which come from outside.) -/
theorem C13_never_blocked {w : World} {i h : Nat} (hr : Reach E w) (hp : w.proc = .running) (hi : Refreshing w i h)
    (inp : Input) : ∃ w', w.step E (.run i inp) = some w' := by
  obtain ⟨o, ho, hoh⟩ := hi
  obtain ⟨_, ht⟩ := (Reach.shape w hr).refreshing ho hoh
  unfold World.step
  simp only [hp, ht]
  cases hx : exec E w.st w.now w.wall w.ls i o inp with
  | panic => exact ⟨_, rfl⟩
  | ok f => exact ⟨_, rfl⟩
  | disabled =>
    exfalso
    cases o <;> simp only [Op.refreshHandle, reduceCtorEq] at hoh <;>
      simp only [exec, execRfAwait, execRfPerm, execRfStore, execRfTransient, execRfCmdOk, execRfCmdErr,
        reduceCtorEq] at hx <;>
      (repeat' split at hx) <;> cases hx

section Example
open Demo

/-- Two `pizauth refresh a`, before either of the threads (2 and 3) has started. -/
def sTwo : List Action := sToken ++ [.connect refreshA] ++ n0 3 ++ [.connect refreshA] ++ n0 3

/-- Both have made their first step: only the first of them is refreshing. -/
example : (w0.run env (sTwo ++ [.run 2 {}, .run 3 {}])).isSome = true ∧
    ((after (sTwo ++ [.run 2 {}, .run 3 {}])).threads 2).map Op.refreshHandle = [some 5] ∧
    ((after (sTwo ++ [.run 2 {}, .run 3 {}])).threads 3).length = 0 ∧
    (after (sTwo ++ [.run 2 {}, .run 3 {}])).ls.details.map (fun e => (e.name, e.id)) = [("a", 5), ("b b", 1)] := by
  decide +kernel

end Example

end Pizauth
