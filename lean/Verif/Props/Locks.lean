import Verif.Model.Locks

/-!
# C80, C81: no deadlocks; waiting for clients
-/

namespace Pizauth.Locks

/-- With the lock `h` held, these operations never take a second lock, wait for nothing while a lock is held (but for a
client, if `w`), and end without a lock. -/
def Disc (w : Bool) : Option Lock → List Op → Prop
  | h, [] => h = none
  | h, .acquire l :: r => h = none ∧ Disc w (some l) r
  | h, .release l :: r => h = some l ∧ Disc w none r
  | h, .write :: r => (h = none ∨ w = true ∧ h = some .state) ∧ Disc w h r
  | h, _ :: r => h = none ∧ Disc w h r

/-- The lock which is held after the program, if it keeps to the discipline. -/
def Prog.check (w : Bool) : Option Lock → Prog → Option (Option Lock)
  | h, .skip => some h
  | h, .op (.acquire l) => if h = none then some (some l) else none
  | h, .op (.release l) => if h = some l then some none else none
  | h, .op .write => if h = none ∨ w = true ∧ h = some .state then some h else none
  | h, .op _ => if h = none then some h else none
  | h, .seq p q => (p.check w h).bind fun h1 => q.check w h1
  | h, .alt p q => if p.check w h = q.check w h then p.check w h else none
  | h, .star p => if p.check w h = some h then some h else none

theorem Disc.of_check {w : Bool} {p : Prog} {ops : List Op} (hp : p.Path ops) {h h' : Option Lock}
    (hc : p.check w h = some h') {r : List Op} (hr : Disc w h' r) : Disc w h (ops ++ r) := by
  induction hp generalizing h h' r with
  | skip => simp only [Prog.check, Option.some.injEq] at hc; subst hc; exact hr
  | op o =>
    cases o <;> (
      simp only [Prog.check] at hc
      split at hc
      · rename_i he
        cases hc
        first
          | exact ⟨he, hr⟩
          | (subst he; exact ⟨rfl, hr⟩)
      · cases hc)
  | seq ha hb iha ihb =>
    simp only [Prog.check, Option.bind_eq_some_iff] at hc
    obtain ⟨h1, h2, h3⟩ := hc
    rw [List.append_assoc]
    exact iha h2 (ihb h3 hr)
  | left ha iha =>
    simp only [Prog.check] at hc
    split at hc
    · exact iha hc hr
    · cases hc
  | right hb ihb =>
    simp only [Prog.check] at hc
    split at hc
    · rename_i he
      rw [he] at hc
      exact ihb hc hr
    · cases hc
  | zero =>
    simp only [Prog.check] at hc
    split at hc
    · cases hc; exact hr
    · cases hc
  | more ha hb iha ihb =>
    have hc' := hc
    simp only [Prog.check] at hc
    split at hc
    · rename_i he
      cases hc
      rw [List.append_assoc]
      exact iha he (ihb hc' hr)
    · cases hc

theorem programs_check : ∀ p ∈ programs, p.check false none = some none := by
  intro p hp
  simp only [programs, List.mem_cons, List.not_mem_nil, or_false] at hp
  rcases hp with rfl | rfl | rfl | rfl | rfl | rfl | rfl <;> rfl

theorem allPrograms_check : ∀ p ∈ allPrograms, p.check true none = some none := by
  intro p hp
  simp only [allPrograms, programs, List.mem_cons, List.not_mem_nil, or_false] at hp
  rcases hp with rfl | rfl | rfl | rfl | rfl | rfl | rfl | rfl <;> rfl

/-- The lock which a thread holds. -/
def Sys.Holds (s : Sys) (i : Nat) (h : Option Lock) : Prop := ∀ l, s.owner l = some i ↔ h = some l

/-- Every thread keeps to the discipline from here. -/
structure Inv (w : Bool) (s : Sys) : Prop where
  disc : ∀ (i : Nat) (ops : List Op), s.threads[i]? = some ops → ∃ h, s.Holds i h ∧ Disc w h ops
  owner : ∀ (l : Lock) (i : Nat), s.owner l = some i → i < s.threads.length

theorem Inv.reach {w : Bool} {ps : List Prog} (hps : ∀ p ∈ ps, p.check w none = some none) {s : Sys}
    (hr : Reach ps s) : Inv w s := by
  induction hr with
  | init => exact ⟨by intro i ops h; simp at h, by intro l i h; simp at h⟩
  | spawn hr hp ho hs ih =>
    rename_i s s' ops p
    cases hs
    have hd : Disc w none ops := by
      have := Disc.of_check ho (hps p hp) (r := []) rfl
      rwa [List.append_nil] at this
    refine ⟨?_, ?_⟩
    · intro i ops' hi
      by_cases hlt : i < s.threads.length
      · rw [List.getElem?_append_left hlt] at hi
        exact ih.disc i ops' hi
      · have : i = s.threads.length := by
          have := (List.getElem?_eq_some_iff.mp hi).1
          simp at this; omega
        subst this
        simp at hi
        subst hi
        refine ⟨none, ?_, hd⟩
        intro l
        constructor
        · intro h; have := ih.owner l _ h; omega
        · intro h; cases h
    · intro l i h
      have := ih.owner l i h
      simp; omega
  | go hr hs ih =>
    rename_i s s' i
    simp only [Sys.step] at hs
    -- the other threads
    have other : ∀ {r : List Op} {j : Nat} {ops : List Op}, j ≠ i → (s.threads.set i r)[j]? = some ops →
        s.threads[j]? = some ops := by
      intro r j ops hne h
      rwa [List.getElem?_set_ne (Ne.symm hne)] at h
    split at hs
    · cases hs
    · cases hs
    · rename_i l r hi
      split at hs
      · rename_i hfree
        cases hs
        have hlt := (List.getElem?_eq_some_iff.mp hi).1
        obtain ⟨h, hh, hd⟩ := ih.disc i _ hi
        obtain ⟨hn, hd⟩ := hd
        subst hn
        refine ⟨?_, ?_⟩
        · intro j ops hj
          by_cases e : j = i
          · subst e
            simp [hlt] at hj
            subst hj
            refine ⟨some l, ?_, hd⟩
            intro k
            simp only
            by_cases hk : k = l
            · simp [hk]
            · simp only [hk, if_false]
              have := hh k
              constructor
              · intro h; rw [this] at h; cases h
              · intro h; cases h; exact absurd rfl hk
          · obtain ⟨h', hh', hd'⟩ := ih.disc j ops (other e hj)
            refine ⟨h', ?_, hd'⟩
            intro k
            simp only
            by_cases hk : k = l
            · subst hk
              have := hh' k
              rw [hfree] at this
              simp only [if_true]
              constructor
              · intro h; exact absurd (Option.some.inj h).symm e
              · intro h; exact absurd (this.mpr h) (by simp)
            · simp only [hk, if_false]; exact hh' k
        · intro k j hk
          simp only at hk
          split at hk
          · cases hk; simpa using hlt
          · simpa using ih.owner k j hk
      · cases hs
    · rename_i l r hi
      split at hs
      · rename_i hown
        cases hs
        have hlt := (List.getElem?_eq_some_iff.mp hi).1
        obtain ⟨h, hh, hd⟩ := ih.disc i _ hi
        obtain ⟨hn, hd⟩ := hd
        subst hn
        refine ⟨?_, ?_⟩
        · intro j ops hj
          by_cases e : j = i
          · subst e
            simp [hlt] at hj
            subst hj
            refine ⟨none, ?_, hd⟩
            intro k
            simp only
            by_cases hk : k = l
            · simp [hk]
            · simp only [hk, if_false]
              have := hh k
              constructor
              · intro h; rw [this] at h; cases h; exact absurd rfl hk
              · intro h; cases h
          · obtain ⟨h', hh', hd'⟩ := ih.disc j ops (other e hj)
            refine ⟨h', ?_, hd'⟩
            intro k
            simp only
            by_cases hk : k = l
            · subst hk
              have := hh' k
              rw [hown] at this
              simp only [if_true]
              constructor
              · intro h; cases h
              · intro h; exact absurd (Option.some.inj (this.mpr h)).symm e
            · simp only [hk, if_false]; exact hh' k
        · intro k j hk
          simp only at hk
          split at hk
          · cases hk
          · simpa using ih.owner k j hk
      · cases hs
    · rename_i o r ha hrel hi
      cases hs
      have hlt := (List.getElem?_eq_some_iff.mp hi).1
      obtain ⟨h, hh, hd⟩ := ih.disc i _ hi
      have hd' : Disc w h r := by
        cases o with
        | acquire l => exact absurd rfl (ha l)
        | release l => exact absurd rfl (hrel l)
        | _ => exact hd.2
      refine ⟨?_, ?_⟩
      · intro j ops hj
        by_cases e : j = i
        · subst e
          simp [hlt] at hj
          subst hj
          exact ⟨h, hh, hd'⟩
        · exact ih.disc j ops (other e hj)
      · intro k j hk
        simpa using ih.owner k j hk

end Pizauth.Locks

namespace Pizauth
open Locks

/-- **C80**: whenever a thread holds a lock, the next thing it does is to release it, or (only if the thread executes
`status`, and the lock is the global one) to write an answer to its client. So no thread waits for a lock, for the
network, for a command, for a request, or sleeps, while it holds a lock. -/
theorem C80_holder {s : Sys} (hr : Reach allPrograms s) {l : Lock} {i : Nat} (ho : s.owner l = some i) :
    ∃ o r, s.threads[i]? = some (o :: r) ∧ (o = .release l ∨ o = .write ∧ l = .state) := by
  have hi := Inv.reach allPrograms_check hr
  have hlt := hi.owner l i ho
  obtain ⟨ops, hops⟩ : ∃ ops, s.threads[i]? = some ops := ⟨s.threads[i], by simp [hlt]⟩
  obtain ⟨h, hh, hd⟩ := hi.disc i ops hops
  have he : h = some l := (hh l).mp ho
  subst he
  cases ops with
  | nil => cases hd
  | cons o r =>
    refine ⟨o, r, hops, ?_⟩
    cases o with
    | release k => exact .inl (by rw [Option.some.inj hd.1])
    | write => exact .inr ⟨rfl, by
        rcases hd.1 with h | h
        · cases h
        · exact Option.some.inj h.2⟩
    | acquire k => exact absurd hd.1 (by simp)
    | _ => exact absurd hd.1 (by simp)

/-- **C80**: a thread never takes a lock twice, and holds one at a time. -/
theorem C80_one {s : Sys} (hr : Reach allPrograms s) {k l : Lock} {i : Nat} (hk : s.owner k = some i) (hl : s.owner l = some i) :
    k = l := by
  have hi := Inv.reach allPrograms_check hr
  have hlt := hi.owner l i hl
  obtain ⟨ops, hops⟩ : ∃ ops, s.threads[i]? = some ops := ⟨s.threads[i], by simp [hlt]⟩
  obtain ⟨h, hh, hd⟩ := hi.disc i ops hops
  have h1 := (hh l).mp hl
  have h2 := (hh k).mp hk
  rw [h1] at h2
  exact (Option.some.inj h2).symm

/-- **C80**, no deadlock: a thread which has not ended can go on, or it waits for a lock whose holder can go on. -/
theorem C80_progress {s : Sys} (hr : Reach allPrograms s) {i : Nat} {o : Op} {r : List Op} (ht : s.threads[i]? = some (o :: r)) :
    (∃ s', s.step (.go i) = some s') ∨
      ∃ l j, o = .acquire l ∧ s.owner l = some j ∧ j ≠ i ∧ ∃ s', s.step (.go j) = some s' := by
  have hi := Inv.reach allPrograms_check hr
  cases o with
  | acquire l =>
    cases ho : s.owner l with
    | none => exact .inl ⟨_, by simp only [Sys.step, ht, ho, if_true]; rfl⟩
    | some j =>
      obtain ⟨o', r', ht', h'⟩ := C80_holder hr ho
      refine .inr ⟨l, j, rfl, ho, ?_, ?_⟩
      · intro e
        subst e
        rw [ht] at ht'
        cases ht'
        rcases h' with h' | h'
        · cases h'
        · cases h'.1
      · rcases h' with rfl | ⟨rfl, -⟩
        · exact ⟨_, by simp only [Sys.step, ht', ho, if_true]; rfl⟩
        · exact ⟨_, by simp only [Sys.step, ht']; rfl⟩
  | release l =>
    obtain ⟨h, hh, hd⟩ := hi.disc i _ ht
    have ho := (hh l).mpr hd.1
    exact .inl ⟨_, by simp only [Sys.step, ht, ho, if_true]; rfl⟩
  | _ => exact .inl ⟨_, by simp only [Sys.step, ht]; rfl⟩

/-- **C80**: threads other than those which execute `status` do nothing at all but compute while they hold a lock: every
`acquire` in their sequence of operations is followed by its `release` at once. -/
theorem C80_sections {p : Prog} (hp : p ∈ programs) {ops a b : List Op} {l : Lock} (ho : p.Path ops)
    (he : ops = a ++ .acquire l :: b) : ∃ c, b = .release l :: c := by
  have hd := Disc.of_check ho (programs_check p hp) (r := []) rfl
  rw [List.append_nil, he] at hd
  have : ∀ (a : List Op) (h : Option Lock), Disc false h (a ++ .acquire l :: b) → ∃ c, b = .release l :: c := by
    intro a
    induction a with
    | nil =>
      intro h hd
      obtain ⟨_, hd⟩ := hd
      cases b with
      | nil => cases hd
      | cons o c =>
        cases o with
        | release k => exact ⟨c, by rw [Option.some.inj hd.1]⟩
        | write =>
          rcases hd.1 with e | e
          · cases e
          · cases e.1
        | acquire k => exact absurd hd.1 (by simp)
        | _ => exact absurd hd.1 (by simp)
    | cons o a ih =>
      intro h hd
      cases o with
      | acquire k => exact ih _ hd.2
      | release k => exact ih _ hd.2
      | write => exact ih _ hd.2
      | net => exact ih _ hd.2
      | cmd => exact ih _ hd.2
      | sleep => exact ih _ hd.2
      | read => exact ih _ hd.2
  exact this a none hd

namespace Demo
open Locks

/-- `status` waits for its client, the refresher waits for `status`. -/
def lsB : Sys := ⟨[[.write, .release .state], [.acquire .state, .release .state, .acquire .refresher,
  .release .refresher, .acquire .state, .release .state]], fun l => if l = .state then some 0 else none⟩

theorem status_path : statusRequest.Path [.read, .acquire .state, .write, .release .state] :=
  .seq (.op _) (.seq (.op _) (.seq (.op _) (.op _)))

theorem pending_path : unixRequest.Path [.read, .acquire .state, .release .state] :=
  .seq (.op _) (.right (.right (.right (.left (.seq (.seq (.op _) (.op _)) (.right .skip))))))

theorem lsB_reach : Reach allPrograms lsB := by
  refine Reach.go (i := 0) (s := ⟨[[.acquire .state, .write, .release .state], [.acquire .state, .release .state,
    .acquire .refresher, .release .refresher, .acquire .state, .release .state]], fun _ => none⟩) ?_ rfl
  refine Reach.go (i := 0) (s := ⟨[[.read, .acquire .state, .write, .release .state], [.acquire .state, .release .state,
    .acquire .refresher, .release .refresher, .acquire .state, .release .state]], fun _ => none⟩) ?_ rfl
  refine Reach.spawn (s := ⟨[[.read, .acquire .state, .write, .release .state]], fun _ => none⟩)
    (p := .star refresherTurn) (ops := [.acquire .state, .release .state, .acquire .refresher, .release .refresher,
      .acquire .state, .release .state] ++ []) ?_ (by simp [allPrograms, programs]) ?_ rfl
  · exact Reach.spawn (p := mainThread) (ops := [.read, .acquire .state, .write, .release .state] ++ []) .init
      (by simp [allPrograms]) (.more (.left status_path) .zero) rfl
  · exact .more (.seq (.seq (.op _) (.op _)) (.seq (.op _) (.seq .zero (.seq (.op _) (.seq (.op _) (.op _)))))) .zero

/-- The refresher holds the lock, the main thread waits for it. -/
def lsC : Sys := ⟨[[.acquire .state, .release .state], [.release .state, .acquire .refresher,
  .release .refresher, .acquire .state, .release .state]], fun l => if l = .state then some 1 else none⟩

theorem lsC_reach : Reach programs lsC := by
  refine Reach.go (i := 1) (s := ⟨[[.acquire .state, .release .state], [.acquire .state, .release .state,
    .acquire .refresher, .release .refresher, .acquire .state, .release .state]], fun _ => none⟩) ?_ rfl
  refine Reach.go (i := 0) (s := ⟨[[.read, .acquire .state, .release .state], [.acquire .state, .release .state,
    .acquire .refresher, .release .refresher, .acquire .state, .release .state]], fun _ => none⟩) ?_ rfl
  refine Reach.spawn (s := ⟨[[.read, .acquire .state, .release .state]], fun _ => none⟩)
    (p := .star refresherTurn) (ops := [.acquire .state, .release .state, .acquire .refresher, .release .refresher,
      .acquire .state, .release .state] ++ []) ?_ (by simp [programs]) ?_ rfl
  · exact Reach.spawn (p := .star unixRequest) (ops := [.read, .acquire .state, .release .state] ++ []) .init
      (by simp [programs])
      (.more pending_path .zero) rfl
  · exact .more (.seq (.seq (.op _) (.op _)) (.seq (.op _) (.seq .zero (.seq (.op _) (.seq (.op _) (.op _)))))) .zero

end Demo

open Demo in
example : Reach programs lsC ∧ lsC.owner .state = some 1 ∧ (lsC.step (.go 0)).isNone ∧ (lsC.step (.go 1)).isSome :=
  ⟨lsC_reach, rfl, rfl, rfl⟩

/-- **C81** does not hold: while the client of `status` does not read its answer, the refresher cannot go on. -/
theorem C81_not : ¬ ∀ (s : Sys), Reach allPrograms s → ∀ (l : Lock) (i j : Nat) (r r' : List Op) (o : Op),
    s.threads[i]? = some (.acquire l :: r) → s.owner l = some j → s.threads[j]? = some (o :: r') →
    o ≠ .write ∧ o ≠ .read := by
  intro h
  exact (h Demo.lsB Demo.lsB_reach .state 1 0 _ _ _ rfl rfl rfl).1 rfl

/-- **C81** (partial): as long as there is no `status` request, a thread which waits for a lock waits for a thread
which needs nothing to release it. -/
theorem C81_partial {s : Sys} (hr : Reach programs s) {l : Lock} {j : Nat} (ho : s.owner l = some j) :
    ∃ r s', s.threads[j]? = some (.release l :: r) ∧ s.step (.go j) = some s' ∧ s'.owner l = none := by
  have hi := Inv.reach programs_check hr
  have hlt := hi.owner l j ho
  obtain ⟨ops, hops⟩ : ∃ ops, s.threads[j]? = some ops := ⟨s.threads[j], by simp [hlt]⟩
  obtain ⟨h, hh, hd⟩ := hi.disc j ops hops
  have he : h = some l := (hh l).mp ho
  subst he
  cases ops with
  | nil => cases hd
  | cons o r =>
    cases o with
    | release k =>
      have : l = k := Option.some.inj hd.1
      subst this
      exact ⟨r, _, hops, by simp only [Sys.step, hops, ho, if_true]; rfl, by simp⟩
    | write =>
      rcases hd.1 with h | h
      · cases h
      · cases h.1
    | acquire k => exact absurd hd.1 (by simp)
    | _ => exact absurd hd.1 (by simp)

end Pizauth
