import Verif.Model.Atomic

/-!
# C90: sections in the order in which they are left
-/

namespace Pizauth.Locks

/-- Where a thread is: outside of all sections, in one, in one of which something was seen. -/
inductive Place where
  | out
  | within (l : Lock)
  | done (l : Lock)
deriving DecidableEq

def Place.next : Place → Op → Option Place
  | .out, .acquire l => some (.within l)
  | .out, .release _ => none
  | .out, _ => some .out
  | .within l, .release k => if l = k then some .out else none
  | .within _, .acquire _ => none
  | .within l, _ => some (.done l)
  | .done l, .release k => if l = k then some .out else none
  | .done _, _ => none

def Place.run : Place → List Op → Option Place
  | s, [] => some s
  | s, o :: r => (s.next o).bind fun s' => s'.run r

/-- The place after the program. -/
def Prog.place : Place → Prog → Option Place
  | s, .skip => some s
  | s, .op o => s.next o
  | s, .seq p q => (p.place s).bind fun s' => q.place s'
  | s, .alt p q => if p.place s = q.place s then p.place s else none
  | s, .star p => if p.place s = some s then some s else none

theorem Place.run_append (s : Place) (a b : List Op) : s.run (a ++ b) = (s.run a).bind fun s' => s'.run b := by
  induction a generalizing s with
  | nil => rfl
  | cons o a ih =>
    simp only [List.cons_append, Place.run]
    cases s.next o with
    | none => rfl
    | some s' => exact ih s'

theorem Place.run_of_place {p : Prog} {ops : List Op} (hp : p.Path ops) {s s' : Place} (hc : p.place s = some s') :
    s.run ops = some s' := by
  induction hp generalizing s s' with
  | skip => exact hc
  | op o => simp only [Prog.place] at hc; simp [Place.run, hc]
  | seq ha hb iha ihb =>
    simp only [Prog.place, Option.bind_eq_some_iff] at hc
    obtain ⟨s1, h1, h2⟩ := hc
    rw [Place.run_append, iha h1]
    exact ihb h2
  | left ha iha =>
    simp only [Prog.place] at hc
    split at hc
    · exact iha hc
    · cases hc
  | right hb ihb =>
    simp only [Prog.place] at hc
    split at hc
    · rename_i he; rw [he] at hc; exact ihb hc
    · cases hc
  | zero =>
    simp only [Prog.place] at hc
    split at hc
    · exact hc
    · cases hc
  | more ha hb iha ihb =>
    have hc' := hc
    simp only [Prog.place] at hc
    split at hc
    · rename_i he
      rw [Place.run_append, iha he]
      exact ihb hc'
    · cases hc

/-- A list of operations in which nothing but one operation which is seen is done within a section. -/
inductive OShape : List Op → Prop where
  | nil : OShape []
  | outside {o : Op} {r : List Op} (ho : ∀ l, o ≠ .acquire l ∧ o ≠ .release l) (h : OShape r) : OShape (o :: r)
  | block {l : Lock} {r : List Op} (h : OShape r) : OShape (.acquire l :: .release l :: r)
  | seen {l : Lock} {o : Op} {r : List Op} (ho : ∀ l, o ≠ .acquire l ∧ o ≠ .release l) (h : OShape r) :
      OShape (.acquire l :: o :: .release l :: r)

theorem OShape.of_run (n : Nat) (ops : List Op) (hn : ops.length ≤ n) (h : Place.out.run ops = some .out) : OShape ops := by
  induction n generalizing ops with
  | zero =>
    cases ops with
    | nil => exact .nil
    | cons o r => simp at hn
  | succ n ih =>
    cases ops with
    | nil => exact .nil
    | cons o r =>
      have out : (∀ l, o ≠ .acquire l ∧ o ≠ .release l) → Place.out.run r = some .out → OShape (o :: r) :=
        fun ho hr => .outside ho (ih r (by simpa using hn) hr)
      cases o with
      | acquire l =>
        cases r with
        | nil => simp [Place.run, Place.next] at h
        | cons o2 r2 =>
          have seen : (∀ l, o2 ≠ .acquire l ∧ o2 ≠ .release l) → (Place.done l).run r2 = some .out →
              OShape (.acquire l :: o2 :: r2) := by
            intro ho hr
            cases r2 with
            | nil => simp [Place.run] at hr
            | cons o3 r3 =>
              cases o3 <;> simp only [Place.run, Place.next, Option.bind_none, reduceCtorEq] at hr
              split at hr
              · rename_i he
                subst he
                exact .seen ho (ih r3 (by simp at hn; omega) hr)
              · cases hr
          cases o2 with
          | release k =>
            simp only [Place.run, Place.next, Option.bind_some] at h
            split at h
            · rename_i he
              subst he
              exact .block (ih r2 (by simp at hn; omega) h)
            · cases h
          | acquire k => simp [Place.run, Place.next] at h
          | _ => exact seen (fun l => ⟨by simp, by simp⟩) h
      | release l => simp [Place.run, Place.next] at h
      | _ => exact out (fun l => ⟨by simp, by simp⟩) h

theorem allPrograms_place : ∀ p ∈ allPrograms, p.place .out = some .out := by decide

variable {V L E : Type}

/-- The same with accesses. -/
inductive Shape : List (Instr V L E) → Prop where
  | nil : Shape []
  | outside {o : Op} {f : L → E → L → Prop} {r : List (Instr V L E)} (h : Shape r) : Shape (.outside o f :: r)
  | block {l : Lock} {accs r : List (Instr V L E)} (ha : ∀ x ∈ accs, ∃ f, x = .access l f) (h : Shape r) :
      Shape (.acquire l :: (accs ++ .release l :: r))
  | seen {l : Lock} {o : Op} {f : L → E → L → Prop} {accs r : List (Instr V L E)} (ha : ∀ x ∈ accs, ∃ f, x = .access l f)
      (h : Shape r) : Shape (.acquire l :: (accs ++ .outside o f :: .release l :: r))

theorem Shape.of_fills {ops : List Op} (ho : OShape ops) {is : List (Instr V L E)} (h : Fills ops is) : Shape is := by
  induction ho generalizing is with
  | nil => cases h; exact .nil
  | outside ho _ ih =>
    cases h with
    | acquire => exact absurd rfl (ho _).1
    | release => exact absurd rfl (ho _).2
    | outside _ h => exact .outside (ih h)
  | block _ ih =>
    cases h with
    | acquire ha h =>
      cases h with
      | release h => exact .block ha (ih h)
      | outside ho h => exact absurd rfl (ho _).2
    | outside ho h => exact absurd rfl (ho _).1
  | seen ho _ ih =>
    cases h with
    | acquire ha h =>
      cases h with
      | acquire => exact absurd rfl (ho _).1
      | release => exact absurd rfl (ho _).2
      | outside _ h =>
        cases h with
        | release h => exact .seen ha (ih h)
        | outside ho h => exact absurd rfl (ho _).2
    | outside ho h => exact absurd rfl (ho _).1

theorem Shape.of_filled {is : List (Instr V L E)} (h : Filled allPrograms is) : Shape is := by
  obtain ⟨p, hp, ops, hpath, hf⟩ := h
  exact .of_fills (.of_run _ ops (Nat.le_refl _) (Place.run_of_place hpath (allPrograms_place p hp))) hf

theorem Accesses.snoc {l : Lock} {is : List (Instr V L E)} {v v1 v2 : V} {a a1 a2 : L} {f : V → L → V → L → Prop}
    (h : Accesses l is v a v1 a1) (hf : f v1 a1 v2 a2) : Accesses l (is ++ [.access l f]) v a v2 a2 := by
  induction h with
  | nil => exact .cons hf .nil
  | cons hg _ ih => exact .cons hg (ih hf)

/-- What is left of a section. -/
inductive Tail (l : Lock) : List (Instr V L E) → Prop where
  | release {r : List (Instr V L E)} (h : Shape r) : Tail l (.release l :: r)
  | seen {o : Op} {f : L → E → L → Prop} {r : List (Instr V L E)} (h : Shape r) : Tail l (.outside o f :: .release l :: r)

/-- A thread in the machine with single accesses, `m` being the data, and in the one with sections, `c` being the data:
a section which the thread is in is not executed yet, or, if it was seen, it is. -/
inductive Rel (m c : Lock → V) : Option Lock → Thread V L E → Thread V L E → Prop where
  | free {is : List (Instr V L E)} {a : L} (h : Shape is) : Rel m c none (is, a) (is, a)
  | within {l : Lock} {before todo tail : List (Instr V L E)} {a0 a : L} (hd : Accesses l before (c l) a0 (m l) a)
      (ht : ∀ x ∈ todo, ∃ f, x = .access l f) (h : Tail l tail) :
      Rel m c (some l) (todo ++ tail, a) (.acquire l :: (before ++ (todo ++ tail)), a0)
  | over {l : Lock} {r : List (Instr V L E)} {a : L} (hm : m l = c l) (h : Shape r) :
      Rel m c (some l) (.release l :: r, a) (r, a)

theorem Rel.congr {m c m' c' : Lock → V} {o : Option Lock} {x y : Thread V L E} (h : Rel m c o x y)
    (hm : ∀ l, o = some l → m l = m' l ∧ c l = c' l) : Rel m' c' o x y := by
  cases h with
  | free h => exact .free h
  | within hd ht h =>
    obtain ⟨h1, h2⟩ := hm _ rfl
    rw [h1, h2] at hd
    exact .within hd ht h
  | over he h =>
    obtain ⟨h1, h2⟩ := hm _ rfl
    exact .over (by rw [← h1, ← h2, he]) h

/-- The states of the two machines belong together. -/
structure Sim (s : Mach V L E) (c : Coarse V L E) (h : Nat → Option Lock) : Prop where
  len : s.threads.length = c.threads.length
  own : ∀ l i, s.owner l = some i ↔ h i = some l
  free : ∀ l, s.owner l = none → s.mem l = c.mem l
  rel : ∀ i x, s.threads[i]? = some x → ∃ y, c.threads[i]? = some y ∧ Rel s.mem c.mem (h i) x y
  new : ∀ i, s.threads.length ≤ i → h i = none

theorem at_same {α : Type} (f : Lock → α) (l : Lock) (a : α) : at_ f l a l = a := by simp [at_]
theorem at_other {α : Type} (f : Lock → α) {k l : Lock} (a : α) (h : k ≠ l) : at_ f l a k = f k := by simp [at_, h]

theorem at_self {α : Type} (f : Lock → α) (l : Lock) : at_ f l (f l) = f := by
  funext k
  by_cases h : k = l
  · subst h; simp [at_]
  · simp [at_, h]

theorem at_at {α : Type} (f : Lock → α) (l : Lock) (a b : α) : at_ (at_ f l a) l b = at_ f l b := by
  funext k
  by_cases h : k = l <;> simp [at_, h]

theorem lt_of_some {α : Type} {l : List α} {i : Nat} {x : α} (h : l[i]? = some x) : i < l.length :=
  (List.getElem?_eq_some_iff.mp h).1

theorem set_same {α : Type} {l : List α} {i : Nat} {x : α} (h : l[i]? = some x) : l.set i x = l := by
  apply List.ext_getElem?
  intro j
  rw [List.getElem?_set]
  split
  · rename_i e; subst e; rw [if_pos (lt_of_some h), h]
  · rfl

/-- One thread does something in both machines. -/
theorem Sim.change {s : Mach V L E} {c : Coarse V L E} {own : Nat → Option Lock} (h : Sim s c own) {i : Nat}
    (hi : i < s.threads.length) {x' y' : Thread V L E} {o' : Option Lock} {owner' : Lock → Option Nat}
    {mem' cmem' : Lock → V}
    (ho : ∀ l j, owner' l = some j ↔ (if j = i then o' else own j) = some l)
    (hf : ∀ l, owner' l = none → mem' l = cmem' l) (hr : Rel mem' cmem' o' x' y')
    (hm : ∀ j l, j ≠ i → own j = some l → s.mem l = mem' l ∧ c.mem l = cmem' l) :
    Sim ⟨s.threads.set i x', owner', mem'⟩ ⟨c.threads.set i y', cmem'⟩ (fun j => if j = i then o' else own j) := by
  refine ⟨by simp [h.len], ho, hf, ?_, ?_⟩
  · intro j x hx
    simp only [List.getElem?_set] at hx ⊢
    by_cases e : i = j
    · subst e
      rw [if_pos rfl, if_pos hi] at hx
      cases hx
      refine ⟨y', by rw [if_pos rfl, if_pos (h.len ▸ hi)], ?_⟩
      simpa using hr
    · rw [if_neg e] at hx
      obtain ⟨y, hy, hxy⟩ := h.rel j x hx
      refine ⟨y, by rw [if_neg e, hy], ?_⟩
      have e' : j ≠ i := fun k => e k.symm
      simp only [if_neg e']
      exact hxy.congr fun l hl => hm j l e' hl
  · intro j hj
    simp only [List.length_set] at hj
    have : j ≠ i := by omega
    simp only [if_neg this]
    exact h.new j hj

theorem Sim.unowned {s : Mach V L E} {c : Coarse V L E} {own : Nat → Option Lock} (h : Sim s c own) {l : Lock} {i j : Nat}
    (ho : s.owner l = some i) (hj : own j = some l) : j = i := by
  have := (h.own l j).mpr hj
  rw [ho] at this
  exact (Option.some.inj this).symm

/-- Every step of the machine with single accesses is a step, or nothing, in the one with sections. -/
theorem Sim.step {P : List (Instr V L E) → Prop} (hP : ∀ is, P is → Shape is) {s s' : Mach V L E} {c : Coarse V L E}
    {own : Nat → Option Lock} (h : Sim s c own) {ev : List (Nat × Op × E)} (hs : s.Step P ev s') :
    ∃ c' own', ((ev = [] ∧ c' = c) ∨ c.Step P ev c') ∧ Sim s' c' own' := by
  cases hs with
  | @spawn is a hp =>
    refine ⟨_, own, .inr (.spawn (a := a) hp), by simp [h.len], h.own, h.free, ?_, ?_⟩
    · intro i x hx
      simp only [List.getElem?_append] at hx ⊢
      by_cases hi : i < s.threads.length
      · rw [if_pos hi] at hx
        rw [if_pos (h.len ▸ hi)]
        exact h.rel i x hx
      · rw [if_neg hi] at hx
        rw [if_neg (h.len ▸ hi), ← h.len]
        refine ⟨x, hx, ?_⟩
        rw [h.new i (by omega)]
        have hz : i - s.threads.length = 0 := by
          have := lt_of_some hx
          simp at this
          omega
        rw [hz] at hx
        cases hx
        exact .free (hP is hp)
    · intro i hi
      simp at hi
      exact h.new i (by omega)
  | @acquire i l r a ht ho =>
    obtain ⟨y, hy, hr⟩ := h.rel i _ ht
    have hi := lt_of_some ht
    generalize hoi : own i = oi at hr
    have key : ∀ {tail : List (Instr V L E)} {todo : List (Instr V L E)}, r = todo ++ tail →
        (∀ x ∈ todo, ∃ f, x = .access l f) → Tail l tail → own i = none → y = (.acquire l :: r, a) →
        ∃ c' own', (([] = ([] : List (Nat × Op × E)) ∧ c' = c) ∨ c.Step P [] c') ∧
          Sim ⟨s.threads.set i (r, a), at_ s.owner l (some i), s.mem⟩ c' own' := by
      intro tail todo er hta htl hoi hyy
      refine ⟨c, fun j => if j = i then some l else own j, .inl ⟨rfl, rfl⟩, ?_⟩
      have := h.change (i := i) hi (x' := (r, a)) (y' := y) (o' := some l) (owner' := at_ s.owner l (some i))
        (mem' := s.mem) (cmem' := c.mem) ?_ ?_ ?_ (fun _ _ _ _ => ⟨rfl, rfl⟩)
      · rw [set_same hy] at this; exact this
      · intro k j
        by_cases hk : k = l
        · subst hk
          rw [at_same]
          by_cases hj : j = i
          · simp [hj]
          · simp only [hj, if_false]
            rw [← h.own k j, ho]
            simp [Ne.symm hj]
        · rw [at_other _ _ hk]
          by_cases hj : j = i
          · subst hj
            simp only [if_true]
            rw [h.own k j, hoi]
            simp [Ne.symm hk]
          · simp only [hj, if_false]
            exact h.own k j
      · intro k hk
        by_cases hkl : k = l
        · subst hkl; rw [at_same] at hk; cases hk
        · rw [at_other _ _ hkl] at hk; exact h.free k hk
      · rw [hyy, er]
        have hm := h.free l ho
        exact .within (before := []) (by rw [hm]; exact .nil) hta htl
    generalize hx : ((Instr.acquire l :: r, a) : Thread V L E) = x at hr
    cases hr with
    | free hsh =>
      cases hx
      cases hsh with
      | block ha hsh => exact key rfl ha (.release hsh) hoi rfl
      | seen ha hsh => exact key rfl ha (.seen hsh) hoi rfl
    | @within l' before todo tail _ _ hd hta htl =>
      exfalso
      cases todo with
      | nil => cases htl <;> cases hx
      | cons z todo =>
        obtain ⟨f, rfl⟩ := hta z (by simp)
        cases hx
    | over _ _ => cases hx
  | @access i l f r a a' v' ht ho hf =>
    obtain ⟨y, hy, hr⟩ := h.rel i _ ht
    have hi := lt_of_some ht
    have hoi := (h.own l i).mp ho
    rw [hoi] at hr
    generalize hx : ((Instr.access l f :: r, a) : Thread V L E) = x at hr
    cases hr with
    | @within _ before todo tail a0 a1 hd hta htl =>
      cases todo with
      | nil => cases htl <;> cases hx
      | cons z todo =>
        cases hx
        refine ⟨c, fun j => if j = i then some l else own j, .inl ⟨rfl, rfl⟩, ?_⟩
        have := h.change (i := i) hi (x' := (todo ++ tail, a')) (y' := (.acquire l :: (before ++ (.access l f :: todo ++ tail)), a0))
          (o' := some l) (owner' := s.owner) (mem' := at_ s.mem l v') (cmem' := c.mem) ?_ ?_ ?_ ?_
        · rw [set_same hy] at this; exact this
        · intro k j
          by_cases hj : j = i
          · subst hj
            simp only [if_true]
            rw [h.own k j, hoi]
          · simp only [hj, if_false]
            exact h.own k j
        · intro k hk
          have hkl : k ≠ l := by rintro rfl; rw [ho] at hk; cases hk
          rw [at_other _ _ hkl]
          exact h.free k hk
        · have e : before ++ (Instr.access l f :: todo ++ tail) = (before ++ [Instr.access l f]) ++ (todo ++ tail) := by simp
          rw [e]
          exact .within (by rw [at_same]; exact hd.snoc hf) (fun x hx => hta x (by simp [hx])) htl
        · intro j k hj hk
          have hkl : k ≠ l := by rintro rfl; exact hj (h.unowned ho hk)
          exact ⟨by rw [at_other _ _ hkl], rfl⟩
    | over _ _ => cases hx
  | @release i l r a ht ho =>
    obtain ⟨y, hy, hr⟩ := h.rel i _ ht
    have hi := lt_of_some ht
    have hoi := (h.own l i).mp ho
    rw [hoi] at hr
    have hown : ∀ k j, at_ s.owner l none k = some j ↔ (if j = i then none else own j) = some k := by
      intro k j
      by_cases hk : k = l
      · subst hk
        rw [at_same]
        by_cases hj : j = i
        · simp [hj]
        · simp only [hj, if_false]
          rw [← h.own k j, ho]
          simp [Ne.symm hj]
      · rw [at_other _ _ hk]
        by_cases hj : j = i
        · subst hj
          simp only [if_true]
          rw [h.own k j, hoi]
          simp [Ne.symm hk]
        · simp only [hj, if_false]
          exact h.own k j
    generalize hx : ((Instr.release l :: r, a) : Thread V L E) = x at hr
    cases hr with
    | @within _ before todo tail a0 a1 hd hta htl =>
      cases todo with
      | cons z todo =>
        obtain ⟨f, rfl⟩ := hta z (by simp)
        cases hx
      | nil =>
        cases htl with
        | seen => cases hx
        | release hsh =>
          cases hx
          refine ⟨_, fun j => if j = i then none else own j, .inr (.section_ (by simpa using hy) hd), ?_⟩
          refine h.change (i := i) hi (o' := none) hown ?_ (.free hsh) ?_
          · intro k hk
            by_cases hkl : k = l
            · subst hkl; rw [at_same]
            · rw [at_other _ _ hkl] at hk ⊢
              exact h.free k hk
          · intro j k hj hk
            have hkl : k ≠ l := by rintro rfl; exact hj (h.unowned ho hk)
            exact ⟨rfl, by rw [at_other _ _ hkl]⟩
    | over hm hsh =>
      cases hx
      refine ⟨c, fun j => if j = i then none else own j, .inl ⟨rfl, rfl⟩, ?_⟩
      have := h.change (i := i) hi (x' := (r, a)) (y' := (r, a)) (o' := none) (mem' := s.mem) (cmem' := c.mem) hown ?_ (.free hsh)
        (fun _ _ _ _ => ⟨rfl, rfl⟩)
      · rw [set_same hy] at this; exact this
      · intro k hk
        by_cases hkl : k = l
        · subst hkl; exact hm
        · rw [at_other _ _ hkl] at hk; exact h.free k hk
  | @outside i o f r a a' e ht hf =>
    obtain ⟨y, hy, hr⟩ := h.rel i _ ht
    have hi := lt_of_some ht
    have hown : ∀ k j, s.owner k = some j ↔ (if j = i then own i else own j) = some k := by
      intro k j
      by_cases hj : j = i
      · subst hj; simpa using h.own k j
      · simp only [hj, if_false]; exact h.own k j
    generalize hx : ((Instr.outside o f :: r, a) : Thread V L E) = x at hr
    generalize hoi : own i = oi at hr hown
    cases hr with
    | free hsh =>
      cases hx
      cases hsh with
      | outside hsh =>
        refine ⟨_, fun j => if j = i then none else own j, .inr (.outside hy hf), ?_⟩
        exact h.change (i := i) hi (o' := none) hown h.free (.free hsh) (fun _ _ _ _ => ⟨rfl, rfl⟩)
    | @within l before todo tail a0 a1 hd hta htl =>
      cases todo with
      | cons z todo =>
        obtain ⟨f, rfl⟩ := hta z (by simp)
        cases hx
      | nil =>
        cases htl with
        | release => cases hx
        | seen hsh =>
          cases hx
          have ho := (h.own l i).mpr hoi
          refine ⟨_, fun j => if j = i then some l else own j, .inr (.seen (by simpa using hy) hd hf), ?_⟩
          refine h.change (i := i) hi (o' := some l) hown ?_ (.over (by rw [at_same]) hsh) ?_
          · intro k hk
            have hkl : k ≠ l := by rintro rfl; rw [ho] at hk; cases hk
            rw [at_other _ _ hkl]
            exact h.free k hk
          · intro j k hj hk
            have hkl : k ≠ l := by rintro rfl; exact hj (h.unowned ho hk)
            exact ⟨rfl, by rw [at_other _ _ hkl]⟩
    | over _ _ => cases hx

theorem Sim.run {P : List (Instr V L E) → Prop} (hP : ∀ is, P is → Shape is) {v : Lock → V} {tr : List (Nat × Op × E)}
    {s : Mach V L E} (h : Mach.Run P v tr s) : ∃ c own, Coarse.Run P v tr c ∧ Sim s c own := by
  induction h with
  | init => exact ⟨_, fun _ => none, .init, rfl, by simp, fun _ _ => rfl, by simp, fun _ _ => rfl⟩
  | @step tr ev m m' _ hs ih =>
    obtain ⟨c, own, hc, hsim⟩ := ih
    obtain ⟨c', own', h1, h2⟩ := hsim.step hP hs
    refine ⟨c', own', ?_, h2⟩
    rcases h1 with ⟨rfl, rfl⟩ | h1
    · simpa using hc
    · exact .step hc h1

/-! ## The other direction: a section at a time is one of the orders -/

theorem Mach.Run.accesses {P : List (Instr V L E) → Prop} {v : Lock → V} {tr : List (Nat × Op × E)} {m : Mach V L E}
    (h : Mach.Run P v tr m) {i : Nat} {l : Lock} (ho : m.owner l = some i) {accs : List (Instr V L E)} {v0 v' : V} {a a' : L}
    (hf : Accesses l accs v0 a v' a') {r : List (Instr V L E)} (ht : m.threads[i]? = some (accs ++ r, a)) (hv : m.mem l = v0) :
    Mach.Run P v tr ⟨m.threads.set i (r, a'), m.owner, at_ m.mem l v'⟩ := by
  induction hf generalizing m with
  | nil =>
    rw [List.nil_append] at ht
    rw [← hv, at_self, set_same ht]
    exact h
  | @cons f is v0 v1 v2 a0 a1 a2 hf _ ih =>
    have h1 := h.step (.access (by simpa using ht) ho (by rw [hv]; exact hf))
    rw [List.append_nil] at h1
    have h2 := ih h1 ho (by simp [List.getElem?_set, lt_of_some ht]) (at_same _ _ _)
    simp only [List.set_set, at_at] at h2
    exact h2

/-- A state of the machine with sections as a state of the other one. -/
def Coarse.fine (c : Coarse V L E) : Mach V L E := ⟨c.threads, fun _ => none, c.mem⟩

theorem at_none (l : Lock) (i : Option Nat) : at_ (at_ (fun _ => (none : Option Nat)) l i) l none = fun _ => none := by
  funext k
  by_cases h : k = l <;> simp [at_, h]

theorem Coarse.Run.fine {P : List (Instr V L E) → Prop} {v : Lock → V} {tr : List (Nat × Op × E)} {c : Coarse V L E}
    (h : Coarse.Run P v tr c) : Mach.Run P v tr c.fine := by
  induction h with
  | init => exact .init
  | @step tr ev c c' _ hs ih =>
    cases hs with
    | spawn hp => exact ih.step (.spawn hp)
    | outside ht hf => exact ih.step (.outside ht hf)
    | @section_ i l accs r a a' v' ht hf =>
      have hi := lt_of_some ht
      have h1 := ih.step (.acquire (i := i) (l := l) ht rfl)
      rw [List.append_nil] at h1
      have h2 := h1.accesses (i := i) (l := l) (at_same _ _ _) hf (by simp only [Coarse.fine, List.getElem?_set, if_pos hi, if_true]; rfl) rfl
      have h3 := h2.step (.release (i := i) (l := l) (r := r) (a := a') (by simp [Coarse.fine, hi]) (at_same _ _ _))
      simpa [Coarse.fine, at_none] using h3
    | @seen i l accs r a a1 a2 v' o f e ht hf hw =>
      have hi := lt_of_some ht
      have h1 := ih.step (.acquire (i := i) (l := l) ht rfl)
      rw [List.append_nil] at h1
      have h2 := h1.accesses (i := i) (l := l) (at_same _ _ _) hf (by simp only [Coarse.fine, List.getElem?_set, if_pos hi, if_true]; rfl) rfl
      have h3 := h2.step (.outside (i := i) (o := o) (f := f) (by simp [Coarse.fine, hi]; rfl) hw)
      have h4 := h3.step (.release (i := i) (l := l) (r := r) (a := a2) (by simp [Coarse.fine, hi]) (at_same _ _ _))
      simpa [Coarse.fine, at_none] using h4

end Pizauth.Locks
