import Verif.Props.Schedule
import Verif.Props.Refresh

/-!
# C119: how many threads are started for a token which is due

The refresher starts a thread for a token which is due, and looks at the tokens again at once: until that thread has noted
that the token is being refreshed, the token is still due, and so the refresher starts another thread for it, and another.
Only one of them sends anything.
-/

namespace Pizauth
open LockedState

variable {E : Env}

section lemmas

theorem Steps.evolves {w w' : World} (hr : Reach E w) (h : Steps E w w') : Evolves w.ls w'.ls := by
  induction h with
  | refl => exact .refl _
  | step a h1 hs ih => exact ih.trans ((stepR_of_step (h1.reach hr).inv0.wf hs).2.evolves (h1.reach hr).inv0)

/-- After `put`, no entry has the id. -/
theorem put_gone {ls : LockedState} {id : AccountId} {ts : TokenState} (hlt : id < ls.accountCount) :
    ∀ e ∈ (ls.put id ts).details, e.id ≠ id := by
  intro e he
  simp only [put, List.mem_map] at he
  obtain ⟨e0, _, rfl⟩ := he
  split
  · simp only; omega
  · assumption

end lemmas

/-- **C119 (partial).** If several threads were started to refresh an account's token, then as soon as one of them has
taken its first step, each of the others ends with its first step, whenever it takes it: it changes nothing and sends
nothing. -/
theorem C119_partial {w w1 w2 w3 : World} {i j : Nat} {n : String} {inp inp' : Input} (hr : Reach E w)
    (hi : StartedFor w i n) (hj : StartedFor w j n) (hij : i ≠ j) (hs : w.step E (.run i inp) = some w1)
    (h12 : Steps E w1 w2) (hw : w2.threads j = w.threads j) (hs' : w2.step E (.run j inp') = some w3) :
    w3 = { w2 with threads := w3.threads } ∧ ∀ k, w3.threads k = if k = j then [] else w2.threads k := by
  have h0 := hr.inv0
  obtain ⟨e, he, hn, hti⟩ := hi
  obtain ⟨e', he', hn', htj⟩ := hj
  obtain rfl : e = e' := Eq.symm <| h0.wf.entry_name_inj he' he (hn'.trans hn.symm)
  have hlt := h0.wf.lt _ he
  have hr1 : Reach E w1 := .step _ hr hs
  have hr2 := h12.reach hr1
  have hst := (stepR_of_step h0.wf hs).2
  have hev0 := hst.evolves h0
  have hlt1 : e.id < w1.ls.accountCount := Nat.lt_of_lt_of_le hlt hev0.count
  have hkey : ∀ x ∈ w1.ls.details, x.id = e.id →
      (x.ts = .empty ∨ (∃ p, x.ts = .pending p) ∨ ∃ t, x.ts = .active t ∧ t.ongoing = true) := by
    cases hst
    case runPanic op rest ht hx =>
      rw [hti] at ht; cases ht
      obtain ⟨_, h, _⟩ := hr.panic hti hx
      cases h
    case run op rest f ht hx =>
      rw [hti] at ht; cases ht
      simp only [World.apply]
      cases hx
      case rfStartStale hh => exact fun x hx hid => absurd hid (hh x hx)
      case rfStartNot e2 a hh hts hid =>
        intro x hx hx2
        rw [h0.wf.entry_id_inj hx hh.1 (hx2.trans hid.symm)]
        exact hts
      case rfStartOk e2 a t r hh _ _ _ hid =>
        rw [hid]
        exact fun x hx hx2 => absurd hx2 (put_gone (by simp only [bump]; omega) x hx)
      case rfStartNoRt e2 a t hh _ _ _ hid =>
        rw [hid]
        exact fun x hx hx2 => absurd hx2 (put_gone (by simp only [bump]; omega) x hx)
  rw [htj] at hw
  have hst' := (stepR_of_step hr2.inv0.wf hs').2
  have hjlt2 : j < w2.nextTid := hr2.inv0.tid_lt hw
  have hnot : ∀ x t, x ∈ w2.ls.details → x.id = e.id → x.ts = .active t → t.ongoing ≠ false := by
    intro x t hx hid hts hon
    obtain ⟨a, ha⟩ := hr2.inv0.wf.has hx
    obtain ⟨_, hh, _⟩ := (h12.evolves hr1).old ha (hid ▸ hlt1)
    rcases hkey _ hh.1 hid with h | ⟨p, h⟩ | ⟨t', h, h'⟩ <;> rw [hts] at h <;> cases h
    rw [hon] at h'; cases h'
  cases hst'
  case runPanic op rest ht hx =>
    rw [hw] at ht; cases ht
    obtain ⟨_, h, _⟩ := hr2.panic hw hx
    cases h
  case run op rest f ht hx =>
    rw [hw] at ht; cases ht
    cases hx
    case rfStartStale => simp [World.apply, spawnAll, setThread]
    case rfStartNot => simp [World.apply, spawnAll, setThread]
    case rfStartOk hh h1 h2 _ hid => exact absurd h2 (hnot _ _ hh.1 hid h1)
    case rfStartNoRt hh h1 h2 _ hid => exact absurd h2 (hnot _ _ hh.1 hid h1)

/-! ## The threads are not limited in number -/

open Demo

/-- A state like `after sDue`, except for its threads, of which those from 2 to `1 + n` were started for "a". -/
structure Storm (n : Nat) (w : World) : Prop where
  reach : Reach env w
  ls : w.ls = (after sDue).ls
  now : w.now = (after sDue).now
  log : w.log = (after sToken).log
  proc : w.proc = .running
  pc : w.refPc = .scan
  next : w.nextTid = 2 + n
  started : ∀ i, 2 ≤ i → i < 2 + n → w.threads i = [.rfStart 3]

theorem storm (n : Nat) : ∃ w, Storm n w := by
  induction n with
  | zero =>
    refine ⟨after sDue, after_reach _, rfl, rfl, ?_, ?_, ?_, ?_, fun i h h' => by omega⟩ <;> decide +kernel
  | succ n ih =>
    obtain ⟨w, h⟩ := ih
    have h1 : w.step env .refresher =
        some { w with threads := spawnAll w.threads w.nextTid [.rfStart 3], nextTid := w.nextTid + 1, refPc := .compute } := by
      have hd : dueIds (after sDue).ls (after sDue).now (after sDue).ls.actIds = some [3] := by decide +kernel
      simp only [World.step, h.proc, World.stepRefresher, h.pc, h.ls, h.now, hd]
      rfl
    generalize hw1 : { w with threads := spawnAll w.threads w.nextTid [.rfStart 3], nextTid := w.nextTid + 1, refPc := .compute } = w1 at h1
    have h2 : w1.step env .refresher = some { w1 with refPc := .wait (some 3510000000000) } := by
      have hd : (optAll (refreshAt (after sDue).ls (after sDue).now) (after sDue).ls.actIds).map
          (nextWakeup (after sDue).now) = some (some 3510000000000) := by decide +kernel
      obtain ⟨ts, hts, hn⟩ := Option.map_eq_some_iff.mp hd
      subst hw1
      simp only [World.step, h.proc, World.stepRefresher, h.ls, h.now, hts, hn]
    have h3 : ({ w1 with refPc := .wait (some 3510000000000) } : World).step env .refresher =
        some { w1 with refPred := false, refPc := .scan } := by
      have hd : ∀ b, World.waitOver b (some 3510000000000) (after sDue).now = true := by decide +kernel
      subst hw1
      simp only [World.step, h.proc, World.stepRefresher, h.now, hd, if_true]
    refine ⟨_, .step _ (.step _ (.step _ h.reach h1) h2) h3, ?_, ?_, ?_, ?_, rfl, ?_, ?_⟩
    · subst hw1; exact h.ls
    · subst hw1; exact h.now
    · subst hw1; exact h.log
    · subst hw1; exact h.proc
    · subst hw1; simp only [h.next]; omega
    · subst hw1
      intro i hi hi'
      simp only [spawnAll, h.next, setThread]
      split
      · rfl
      · exact h.started i hi (by omega)

/-- **C119 (negation).** However large `n` is, once the token of "a" is due, the daemon can have `n` threads, started one
after the other at the same time, of which each is about to refresh it; no command was given. -/
theorem C119_not : ∀ n, ∃ w, Reach env w ∧ w.log = (after sToken).log ∧ ∀ i, 2 ≤ i → i < 2 + n → StartedFor w i "a" := by
  intro n
  obtain ⟨w, h⟩ := storm n
  refine ⟨w, h.reach, h.log, fun i hi hi' => ?_⟩
  have : ((after sDue).ls.details.filter fun e => e.name == "a" && e.id == 3) ≠ [] := by decide +kernel
  obtain ⟨e, he⟩ := List.exists_mem_of_ne_nil _ this
  rw [List.mem_filter] at he
  simp only [Bool.and_eq_true, beq_iff_eq] at he
  exact ⟨e, h.ls ▸ he.1, he.2.1, he.2.2 ▸ h.started i hi hi'⟩

/-- Two threads were started for "a": thread 2 begins the refresh, and later thread 3 ends at once. -/
def sStorm : List Action := sDue ++ List.replicate 4 .refresher

example : StartedFor (after sStorm) 2 "a" ∧ StartedFor (after sStorm) 3 "a" ∧
    (andThen (after sStorm) [.run 2 {}]).threads 2 ≠ [] ∧
    ((andThen (after sStorm) [.run 2 {}, .run 2 {}]).step env (.run 3 {})).isSome = true := by
  have hm : ((after sStorm).ls.details.filter fun e => e.name == "a" && e.id == 3) ≠ [] := by decide +kernel
  obtain ⟨e, he⟩ := List.exists_mem_of_ne_nil _ hm
  rw [List.mem_filter] at he
  simp only [Bool.and_eq_true, beq_iff_eq] at he
  have h2 : ((after sStorm).threads 2).map (fun o => match o with | .rfStart i => some i | _ => none) = [some 3] ∧
      ((after sStorm).threads 3).map (fun o => match o with | .rfStart i => some i | _ => none) = [some 3] := by
    decide +kernel
  have h3 : ∀ l : List Op, l.map (fun o => match o with | .rfStart i => some i | _ => none) = [some 3] →
      l = [.rfStart 3] := by
    intro l hl
    match l, hl with
    | [.rfStart i], hl => simp at hl; rw [hl]
  refine ⟨⟨e, he.1, he.2.1, he.2.2 ▸ h3 _ h2.1⟩, ⟨e, he.1, he.2.1, he.2.2 ▸ h3 _ h2.2⟩, ?_, by decide +kernel⟩
  intro h
  have : ((andThen (after sStorm) [.run 2 {}]).threads 2).isEmpty = false := by decide +kernel
  rw [h] at this
  cases this

end Pizauth
