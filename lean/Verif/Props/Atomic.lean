import Verif.Proof.Atomic

/-!
# C90: critical sections are atomic

The threads have the operations which `Verif.Model.Locks` says; what they compute is arbitrary. That they are executed
one memory access at a time, in any order in which locks allow it, makes no difference.
-/

namespace Pizauth
open Locks

variable {V L E : Type}

/-- **C90**: what can be seen of an execution in which other threads may run between any two accesses to shared data,
and the data and the variables of the threads when no lock is held, are those of an execution in which all the sections
are single steps; and the other way round. -/
theorem C90 {v : Lock → V} {tr : List (Nat × Op × E)} {ts : List (Thread V L E)} {mem : Lock → V} :
    Mach.Run (Filled allPrograms) v tr ⟨ts, fun _ => none, mem⟩ ↔ Coarse.Run (Filled allPrograms) v tr ⟨ts, mem⟩ := by
  refine ⟨fun h => ?_, fun h => h.fine⟩
  obtain ⟨c, own, hc, hs⟩ := Sim.run (fun _ => Shape.of_filled) h
  have e : c = ⟨ts, mem⟩ := by
    obtain ⟨cts, cmem⟩ := c
    congr 1
    · apply List.ext_getElem?
      intro i
      by_cases hi : i < ts.length
      · obtain ⟨y, hy, hr⟩ := hs.rel i _ (List.getElem?_eq_getElem hi)
        have ho : own i = none := by
          cases ho : own i with
          | none => rfl
          | some l => have := (hs.own l i).mpr ho; cases this
        rw [ho] at hr
        rw [hy, List.getElem?_eq_getElem hi]
        generalize ts[i] = x at hr
        cases hr
        rfl
      · have hl := hs.len
        simp only at hl
        rw [List.getElem?_eq_none (by omega), List.getElem?_eq_none (by omega)]
    · funext l
      exact (hs.free l rfl).symm
  rw [e] at hc
  exact hc

/-- **C90**, at any time: there is an execution in which all sections are single steps, of which the same can be seen;
the data of all locks which are free, and all threads which hold no lock, are the same. -/
theorem C90_within {v : Lock → V} {tr : List (Nat × Op × E)} {m : Mach V L E}
    (h : Mach.Run (Filled allPrograms) v tr m) : ∃ c, Coarse.Run (Filled allPrograms) v tr c ∧
      (∀ l, m.owner l = none → m.mem l = c.mem l) ∧
      ∀ i, (∀ l, m.owner l ≠ some i) → m.threads[i]? = c.threads[i]? := by
  obtain ⟨c, own, hc, hs⟩ := Sim.run (fun _ => Shape.of_filled) h
  refine ⟨c, hc, hs.free, fun i hi => ?_⟩
  by_cases hl : i < m.threads.length
  · obtain ⟨y, hy, hr⟩ := hs.rel i _ (List.getElem?_eq_getElem hl)
    have ho : own i = none := by
      cases ho : own i with
      | none => rfl
      | some l => exact absurd ((hs.own l i).mpr ho) (hi l)
    rw [ho] at hr
    rw [hy, List.getElem?_eq_getElem hl]
    generalize m.threads[i] = x at hr
    cases hr
    rfl
  · have := hs.len
    rw [List.getElem?_eq_none (by omega), List.getElem?_eq_none (by omega)]

namespace Demo

/-- A refresh thread which increments what the global lock protects, with two accesses. -/
def inc : List (Instr Nat Nat Unit) :=
  [.acquire .state, .access .state (fun v _ v' a' => v' = v ∧ a' = v), .access .state (fun _ a v' a' => v' = a + 1 ∧ a' = a),
    .release .state]

def cmd : List (Instr Nat Nat Unit) := [.outside .cmd fun _ _ _ => True]

theorem inc_filled : Filled allPrograms inc := by
  refine ⟨refreshThread, by simp [allPrograms, programs], [.acquire .state, .release .state], ?_, ?_⟩
  · exact .seq (a := [.acquire .state, .release .state]) (b := []) (.seq (a := [_]) (b := [_]) (.op _) (.op _)) (.right .skip)
  · exact .acquire (accs := [_, _]) (is := [_]) (by simp) (.release .nil)

theorem cmd_filled : Filled allPrograms cmd :=
  ⟨commandThread, by simp [allPrograms, programs], [.cmd], .op _, .outside (by simp) .nil⟩

end Demo

open Demo in
/-- A case: a command ends while the first of two threads is between its two accesses. -/
example : Mach.Run (Filled allPrograms) (fun _ => 0) [(2, .cmd, ())]
      (⟨[([], 0), ([], 1), ([], 0)], fun _ => none, at_ (fun _ => 0) .state 2⟩ : Mach Nat Nat Unit) ∧
    Coarse.Run (Filled allPrograms) (fun _ => 0) [(2, .cmd, ())]
      (⟨[([], 0), ([], 1), ([], 0)], at_ (fun _ => 0) .state 2⟩ : Coarse Nat Nat Unit) := by
  have h := (((((((((((Mach.Run.init (P := Filled allPrograms) (v := fun _ : Lock => 0)).step
    (.spawn (a := 0) inc_filled)).step (.spawn (a := 0) inc_filled)).step (.spawn (a := 0) cmd_filled)).step
    (.acquire (i := 0) rfl rfl)).step (.access (i := 0) rfl rfl ⟨rfl, rfl⟩)).step
    (.outside (i := 2) (e := ()) (a' := 0) rfl trivial)).step (.access (i := 0) rfl rfl ⟨rfl, rfl⟩)).step
    (.release (i := 0) rfl rfl)).step
    (.acquire (i := 1) rfl rfl)).step (.access (i := 1) rfl rfl ⟨rfl, rfl⟩)).step (.access (i := 1) rfl rfl ⟨rfl, rfl⟩)
  have h := h.step (.release (i := 1) rfl rfl)
  have key : ∀ (tr tr' : List (Nat × Op × Unit)) (m m' : Mach Nat Nat Unit),
      Mach.Run (Filled allPrograms) (fun _ : Lock => 0) tr m → tr = tr' → m.threads = m'.threads →
      (∀ l, m.owner l = m'.owner l) → (∀ l, m.mem l = m'.mem l) →
      Mach.Run (Filled allPrograms) (fun _ : Lock => 0) tr' m' := by
    rintro tr tr' ⟨a, b, c⟩ ⟨a', b', c'⟩ h rfl rfl h1 h2
    obtain rfl : b = b' := funext h1
    obtain rfl : c = c' := funext h2
    exact h
  have h := key _ [(2, .cmd, ())] _ ⟨[([], 0), ([], 1), ([], 0)], fun _ => none, at_ (fun _ => 0) .state 2⟩ h rfl rfl
    (fun l => by cases l <;> rfl) (fun l => by cases l <;> rfl)
  exact ⟨h, C90.mp h⟩

end Pizauth
