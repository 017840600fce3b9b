import Verif.Spec.Ipv4
import Verif.Proof.Ipv6

/-!
# IPv4 addresses
-/

namespace Pizauth
namespace UrlStd.Ipv4
open Ip Ipv6

theorem numeral_iff {b : Nat} {t : List Char} {n : Nat} :
    Numeral b t n ↔ (∀ c ∈ t, hexDigit c = true ∧ digitVal c < b) ∧ number b t = n := by
  constructor
  · intro h
    induction h with
    | nil => exact ⟨nofun, rfl⟩
    | cons hc hd _ ih =>
      obtain ⟨h1, h2, _⟩ := hexDigitOf hc
      refine ⟨fun c h => ?_, by rw [number_cons, h2, ih.2]⟩
      rcases List.mem_cons.mp h with rfl | h
      · exact ⟨h1, h2 ▸ hd⟩
      · exact ih.1 c h
  · induction t generalizing n with
    | nil => rintro ⟨_, rfl⟩; exact .nil
    | cons c t ih =>
      rintro ⟨h, rfl⟩
      rw [number_cons]
      obtain ⟨h1, h2⟩ := h c (List.mem_cons_self ..)
      exact .cons (hexDigit_of h1) h2 (ih ⟨fun c hc => h c (List.mem_cons_of_mem _ hc), rfl⟩)

theorem hexDigit_lt {c : Char} (h : hexDigit c = true) : c.toNat < 128 := by
  simp only [hexDigit, digit, Bool.or_eq_true, Bool.and_eq_true, decide_eq_true_eq, Char.le_def, UInt32.le_iff_toNat_le] at h
  have h1 : ('9' : Char).val.toNat = 57 := rfl
  have h2 : ('f' : Char).val.toNat = 102 := rfl
  have h3 : ('F' : Char).val.toNat = 70 := rfl
  have h4 : c.val.toNat = c.toNat := rfl
  omega

theorem hexDigit_digit {c : Char} (h : digit c = true) : hexDigit c = true := by simp [hexDigit, h]

theorem digits {c : Char} : (hexDigit c = true ∧ digitVal c < 16 ↔ hexDigit c = true) ∧
    (hexDigit c = true ∧ digitVal c < 10 ↔ digit c = true) ∧
    (hexDigit c = true ∧ digitVal c < 8 ↔ (digit c && c != '8' && c != '9') = true) := by
  by_cases h : hexDigit c = true
  · have := ascii_all (fun c => !hexDigit c || (decide (digitVal c < 16) && (decide (digitVal c < 10) == digit c) &&
      (decide (digitVal c < 8) == (digit c && c != '8' && c != '9')))) (by decide +kernel) (hexDigit_lt h)
    simp only [h, Bool.not_true, Bool.false_or, Bool.and_eq_true, decide_eq_true_eq, beq_iff_eq] at this
    obtain ⟨⟨h1, h2⟩, h3⟩ := this
    refine ⟨⟨fun _ => h, fun _ => ⟨h, h1⟩⟩, ?_, ?_⟩
    · rw [← h2]; simp [h]
    · rw [← h3]; simp [h]
  · have hd : ¬ digit c = true := fun hd => h (hexDigit_digit hd)
    simp [h, hd]

theorem numeral16 {t : List Char} {n : Nat} : Numeral 16 t n ↔ t.all hexDigit = true ∧ number 16 t = n := by
  rw [numeral_iff, List.all_eq_true]
  simp only [digits.1]

theorem numeral10 {t : List Char} {n : Nat} : Numeral 10 t n ↔ t.all digit = true ∧ number 10 t = n := by
  rw [numeral_iff, List.all_eq_true]
  simp only [digits.2.1]

theorem numeral8 {t : List Char} {n : Nat} :
    Numeral 8 t n ↔ t.all (fun c => digit c && c != '8' && c != '9') = true ∧ number 8 t = n := by
  rw [numeral_iff, List.all_eq_true]
  simp only [digits.2.2]

theorem guard_eq {p : Bool} {a n : Nat} : (if p = true then some a else none) = some n ↔ p = true ∧ a = n := by
  cases p <;> simp

theorem part_iff {t : List Char} {n : Nat} : ipv4Number t = some n ↔ Part t n := by
  unfold ipv4Number
  split
  · constructor
    · nofun
    · intro h; cases h
  · rename_i r
    rw [guard_eq, ← numeral16]
    constructor
    · exact fun h => .hex (.inl rfl) h
    · intro h
      cases h with
      | hex _ h => exact h
      | octal h => have := (numeral8.mp h).1; simp [digit] at this
      | decimal h => exact (h rfl).elim
  · rename_i r
    rw [guard_eq, ← numeral16]
    constructor
    · exact fun h => .hex (.inr rfl) h
    · intro h
      cases h with
      | hex _ h => exact h
      | octal h => have := (numeral8.mp h).1; simp [digit] at this
      | decimal h => exact (h rfl).elim
  · rename_i c r h1 h2
    rw [guard_eq, ← numeral8]
    constructor
    · exact fun h => .octal h
    · intro h
      cases h with
      | hex hc h =>
        rcases hc with rfl | rfl
        · exact (h1 rfl).elim
        · exact (h2 rfl).elim
      | octal h => exact h
      | decimal h => exact (h rfl).elim
  · rename_i h1 h2 h3 h4
    rw [guard_eq, ← numeral10]
    constructor
    · intro h
      cases t with
      | nil => exact (h1 rfl).elim
      | cons c r =>
        by_cases hc : c = '0'
        · subst hc
          cases r with
          | nil =>
            obtain ⟨_, rfl⟩ := numeral10.mp h
            exact .octal .nil
          | cons d r => exact (h4 d r rfl).elim
        · exact .decimal hc h
    · intro h
      cases h with
      | hex hc h => exact (h4 _ _ rfl).elim
      | @octal t _ h =>
        cases t with
        | nil => obtain ⟨_, rfl⟩ := numeral8.mp h; exact numeral10.mpr ⟨rfl, rfl⟩
        | cons d r => exact (h4 _ _ rfl).elim
      | decimal _ h => exact h

theorem part_not_dot {t : List Char} {n : Nat} (h : Part t n) : '.' ∉ t ∧ t ≠ [] := by
  have hn : ∀ {b t n}, Numeral b t n → '.' ∉ t := fun h hm => by
    have := ((numeral_iff.mp h).1 _ hm).1
    revert this; decide
  cases h with
  | hex hc h =>
    refine ⟨fun hm => ?_, nofun⟩
    rcases List.mem_cons.mp hm with e | hm
    · cases e
    · rcases List.mem_cons.mp hm with e | hm
      · subst e; rcases hc with hc | hc <;> cases hc
      · exact hn h hm
  | octal h =>
    refine ⟨fun hm => ?_, nofun⟩
    rcases List.mem_cons.mp hm with e | hm
    · cases e
    · exact hn h hm
  | decimal _ h => exact ⟨hn h, nofun⟩

theorem join_labels : ∀ l : List Char, ['.'].intercalate (labels l) = l := by
  intro l
  induction l with
  | nil => rfl
  | cons c r ih =>
    unfold labels
    split
    · rename_i hc
      cases hl : labels r with
      | nil => exact (labels_ne_nil r hl).elim
      | cons x xs =>
        rw [hl] at ih
        rw [hc]
        cases xs with
        | nil => simp [List.intercalate] at ih ⊢; exact ih
        | cons y ys => simp [List.intercalate, List.intersperse] at ih ⊢; exact ih
    · cases hl : labels r with
      | nil => exact (labels_ne_nil r hl).elim
      | cons x xs =>
        rw [hl] at ih
        cases xs with
        | nil => simp [List.intercalate] at ih ⊢; exact ih
        | cons y ys => simp [List.intercalate, List.intersperse] at ih ⊢; exact ih

theorem parts_not_dot {t : List Char} {ns : List Nat} (h : Numbers t ns) : t ≠ [] ∧ t.getLast? ≠ some '.' := by
  induction h with
  | one h =>
    obtain ⟨h1, h2⟩ := part_not_dot h
    exact ⟨h2, fun e => h1 (List.mem_of_getLast? e)⟩
  | @cons t r n ns h _ ih =>
    refine ⟨by simp, ?_⟩
    rw [List.getLast?_append]
    cases r with
    | nil => exact (ih.1 rfl).elim
    | cons c r =>
      rw [List.getLast?_cons_cons]
      cases hl : (c :: r).getLast? with
      | none => simp at hl
      | some x => rw [hl] at ih; simpa using ih.2

theorem labels_dot (l : List Char) : labels (l ++ ['.']) = labels l ++ [[]] := by
  induction l with
  | nil => rfl
  | cons c r ih =>
    rw [List.cons_append, labels, labels, ih]
    by_cases hc : c = '.'
    · rw [if_pos hc, if_pos hc]; rfl
    · rw [if_neg hc, if_neg hc]
      cases hl : labels r with
      | nil => exact (labels_ne_nil r hl).elim
      | cons x xs => rfl

/-- The pieces of numbers with dots between them. -/
theorem labels_parts {t : List Char} {ns : List Nat} (h : Numbers t ns) :
    (labels t).mapM ipv4Number = some ns ∧ labels (t ++ ['.']) = labels t ++ [[]] := by
  induction h with
  | one h =>
    have hd := (part_not_dot h).1
    rw [labels_one hd, labels_append _ hd]
    simp [part_iff.mpr h, labels]
  | cons h _ ih =>
    have hd := (part_not_dot h).1
    rw [List.append_assoc, List.cons_append, labels_append _ hd, labels_append _ hd, ih.2]
    simp [part_iff.mpr h, ih.1]

theorem parts_of_mapM : ∀ {xs : List (List Char)} {ns : List Nat}, xs ≠ [] → xs.mapM ipv4Number = some ns →
    Numbers (['.'].intercalate xs) ns
  | [], _, h, _ => (h rfl).elim
  | [x], ns, _, h => by
    simp only [List.mapM_cons, List.mapM_nil, Option.bind_eq_bind, Option.bind_eq_some_iff, Option.pure_def, Option.some.injEq] at h
    obtain ⟨n, hn, _, rfl, rfl⟩ := h
    simpa [List.intercalate] using Numbers.one (part_iff.mp hn)
  | x :: y :: xs, ns, _, h => by
    rw [List.mapM_cons] at h
    simp only [Option.bind_eq_bind, Option.bind_eq_some_iff, Option.pure_def, Option.some.injEq] at h
    obtain ⟨n, hn, ms, hm, rfl⟩ := h
    have := parts_of_mapM (xs := y :: xs) nofun hm
    have e : ['.'].intercalate (x :: y :: xs) = x ++ '.' :: ['.'].intercalate (y :: xs) := by
      simp [List.intercalate, List.intersperse]
    rw [e]
    exact .cons (part_iff.mp hn) this

theorem join_snoc : ∀ {xs : List (List Char)} (y : List Char), xs ≠ [] →
    ['.'].intercalate (xs ++ [y]) = ['.'].intercalate xs ++ '.' :: y
  | [], _, h => (h rfl).elim
  | [x], y, _ => by simp [List.intercalate, List.intersperse]
  | x :: x' :: xs, y, _ => by
    have := join_snoc (xs := x' :: xs) y nofun
    have e : ∀ zs : List (List Char), ['.'].intercalate (x :: x' :: zs) = x ++ '.' :: ['.'].intercalate (x' :: zs) := by
      intro zs; simp [List.intercalate, List.intersperse]
    rw [List.cons_append, List.cons_append, e, e]
    rw [List.cons_append] at this
    rw [this]
    simp

/-- The parts of a domain, and the domain itself. -/
theorem parts_cases (d : List Char) :
    (parts d = labels d ∧ d = ['.'].intercalate (parts d)) ∨
    (labels d = parts d ++ [[]] ∧ parts d ≠ [] ∧ d = ['.'].intercalate (parts d) ++ ['.']) := by
  unfold parts
  by_cases h : ((labels d).length > 1 && (labels d).getLast? == some []) = true
  · rw [if_pos h]
    simp only [Bool.and_eq_true, decide_eq_true_eq, beq_iff_eq] at h
    obtain ⟨h1, h2⟩ := h
    have e : labels d = (labels d).dropLast ++ [[]] := by
      have hne := labels_ne_nil d
      rw [List.getLast?_eq_some_getLast hne] at h2
      rw [← Option.some.inj h2, List.dropLast_concat_getLast hne]
    have hne : (labels d).dropLast ≠ [] := fun e => by
      have : (labels d).dropLast.length = 0 := by rw [e]; rfl
      rw [List.length_dropLast] at this
      omega
    refine .inr ⟨e, hne, ?_⟩
    conv => lhs; rw [← join_labels d, e]
    exact join_snoc [] hne
  · rw [if_neg h]
    exact .inl ⟨rfl, (join_labels d).symm⟩

theorem parts_iff {d : List Char} {ns : List Nat} :
    (parts d).mapM ipv4Number = some ns ↔ ∃ u, (d = u ∨ d = u ++ ['.']) ∧ Numbers u ns := by
  constructor
  · intro h
    rcases parts_cases d with ⟨h1, h2⟩ | ⟨h1, h2, h3⟩
    · exact ⟨d, .inl rfl, h2 ▸ parts_of_mapM (by rw [h1]; exact labels_ne_nil d) h⟩
    · exact ⟨_, .inr h3, parts_of_mapM h2 h⟩
  · rintro ⟨u, hu, hp⟩
    have hl := labels_parts hp
    rcases hu with rfl | rfl
    · have : parts d = labels d := by
        rcases parts_cases d with ⟨h1, _⟩ | ⟨_, _, h3⟩
        · exact h1
        · exact ((parts_not_dot hp).2 (by rw [h3]; simp)).elim
      rw [this]; exact hl.1
    · have : parts (u ++ ['.']) = labels u := by
        unfold parts
        rw [hl.2]
        have := labels_ne_nil u
        rw [if_pos]
        · simp
        · simp only [Bool.and_eq_true, decide_eq_true_eq, beq_iff_eq]
          refine ⟨?_, by simp⟩
          cases hq : labels u with
          | nil => exact (this hq).elim
          | cons x xs => simp
      rw [this]; exact hl.1

theorem ipv4_iff {d : List Char} {n : Nat} : ipv4 d = some n ↔ V4 d n := by
  have key : ∀ ns : List Nat, (if ns.length > 4 || ns.isEmpty then none
    else if ns.dropLast.any (fun n => decide (255 < n)) then none
    else if ns.getLastD 0 ≥ 256 ^ (5 - ns.length) then none
    else some ((ns.dropLast.zipIdx.map fun (n, i) => n * 256 ^ (3 - i)).sum + ns.getLastD 0)) = some n ↔ Address ns n := by
    intro ns
    match ns with
    | [] => simp; nofun
    | [a] =>
      simp
      constructor
      · rintro ⟨h, rfl⟩; exact .one h
      · intro h; cases h with | one h => exact ⟨h, rfl⟩
    | [a, b] =>
      simp [List.zipIdx]
      constructor
      · rintro ⟨h1, h2, rfl⟩; exact .two (by omega) h2
      · intro h; cases h with | two h1 h2 => exact ⟨by omega, h2, rfl⟩
    | [a, b, c] =>
      simp [List.zipIdx]
      constructor
      · rintro ⟨⟨h0, h1⟩, h2, rfl⟩; exact .three (by omega) (by omega) h2
      · intro h; cases h with | three h1 h2 h3 => exact ⟨⟨by omega, by omega⟩, h3, rfl⟩
    | [a, b, c, d] =>
      simp [List.zipIdx]
      constructor
      · rintro ⟨⟨h0, h1, h2⟩, h3, rfl⟩
        rw [← Nat.add_assoc]; exact .four (by omega) (by omega) (by omega) h3
      · intro h; cases h with | four h1 h2 h3 h4 => exact ⟨⟨by omega, by omega, by omega⟩, h4, by omega⟩
    | _ :: _ :: _ :: _ :: _ :: _ => simp; nofun
  unfold ipv4 V4
  constructor
  · intro h
    split at h
    · cases h
    · rename_i ns hm
      obtain ⟨u, hu, hp⟩ := parts_iff.mp hm
      exact ⟨u, ns, hu, hp, (key ns).mp h⟩
  · rintro ⟨u, ns, hu, hp, ha⟩
    rw [parts_iff.mpr ⟨u, hu, hp⟩]
    exact (key ns).mpr ha

theorem digit_mem {c : Char} : digit c = true ↔ c ∈ "0123456789".toList := by
  constructor
  · intro h
    have := ascii_all (fun c => !digit c || "0123456789".toList.contains c) (by decide +kernel) (hexDigit_lt (hexDigit_digit h))
    simpa [h] using this
  · intro h
    have : ∀ c ∈ "0123456789".toList, digit c = true := by decide
    exact this c h

theorem labels_last {l u : List Char} (hl : l = [] ∨ l.getLast? = some '.') (hu : '.' ∉ u) :
    ∃ xs, labels (l ++ u) = xs ++ [u] := by
  induction l with
  | nil => exact ⟨[], labels_one hu⟩
  | cons c r ih =>
    have hr : r = [] ∨ r.getLast? = some '.' := by
      cases r with
      | nil => exact .inl rfl
      | cons d r =>
        rcases hl with hl | hl
        · cases hl
        · rw [List.getLast?_cons_cons] at hl; exact .inr hl
    rw [List.cons_append, labels]
    obtain ⟨xs, hx⟩ := ih hr
    by_cases hc : c = '.'
    · rw [if_pos hc, hx]; exact ⟨[] :: xs, rfl⟩
    · rw [if_neg hc, hx]
      cases xs with
      | nil =>
        have : r ≠ [] := by
          rintro rfl
          rcases hl with hl | hl
          · cases hl
          · simp at hl; exact hc hl
        exfalso
        have h1 := join_labels (r ++ u)
        rw [hx] at h1
        simp [List.intercalate] at h1
        rw [h1] at this
        exact this rfl
      | cons x xs => exact ⟨(c :: x) :: xs, rfl⟩

theorem numeric_part {u : List Char} (hne : u ≠ []) :
    ((!u.isEmpty && u.all digit) || (ipv4Number u).isSome) = true ↔
      ((∀ c ∈ u, c ∈ "0123456789".toList) ∨ ∃ n, Part u n) := by
  have h1 : u.isEmpty = false := by cases u with | nil => exact (hne rfl).elim | cons => rfl
  rw [h1]
  simp only [Bool.not_false, Bool.true_and, Bool.or_eq_true, List.all_eq_true, digit_mem, Option.isSome_iff_exists, part_iff]

theorem numeric_iff {d : List Char} : endsInNumber d = true ↔ Numeric d := by
  unfold endsInNumber
  constructor
  · intro h
    split at h
    · rename_i x hx
      have hne : x ≠ [] := by
        rintro rfl
        revert h; decide
      obtain ⟨ys, hy⟩ : ∃ ys, parts d = ys ++ [x] := by
        obtain ⟨ys, hy⟩ := List.getLast?_eq_some_iff.mp hx
        exact ⟨ys, hy⟩
      have e : ∃ l, (l = [] ∨ l.getLast? = some '.') ∧ ['.'].intercalate (parts d) = l ++ x := by
        rw [hy]
        cases ys with
        | nil => exact ⟨[], .inl rfl, by simp [List.intercalate]⟩
        | cons y ys =>
          refine ⟨['.'].intercalate (y :: ys) ++ ['.'], .inr (by simp), ?_⟩
          rw [join_snoc (xs := y :: ys) _ nofun]; simp
      obtain ⟨l, hl, he⟩ := e
      refine ⟨l, x, hl, ?_, hne, (numeric_part hne).mp h⟩
      rcases parts_cases d with ⟨_, h2⟩ | ⟨_, _, h2⟩
      · left; rw [h2]; exact he
      · right; rw [h2, he]
    · cases h
  · rintro ⟨l, u, hl, ht, hne, hp⟩
    have hd : '.' ∉ u := by
      rcases hp with h | ⟨n, h⟩
      · intro hm; have := h _ hm; revert this; decide
      · exact (part_not_dot h).1
    have hlast : (parts d).getLast? = some u := by
      rcases ht with rfl | rfl
      · obtain ⟨xs, hx⟩ := labels_last hl hd
        unfold parts
        rw [hx, if_neg]
        · simp
        · simp [hne]
      · obtain ⟨xs, hx⟩ := labels_last hl hd
        have : labels (l ++ u ++ ['.']) = xs ++ [u] ++ [[]] := by rw [labels_dot, hx]
        unfold parts
        rw [this, if_pos]
        · simp
        · simp
    rw [hlast]
    exact (numeric_part hne).mpr hp

/-! ## Lower case -/

theorem lower_facts {c : Char} (h : c.toNat < 128) :
    (c.toLower = '0' ↔ c = '0') ∧ (c.toLower = 'x' ∨ c.toLower = 'X' ↔ c = 'x' ∨ c = 'X') ∧
    hexDigit c.toLower = hexDigit c ∧ (hexDigit c = true → digitVal c.toLower = digitVal c) ∧
    digit c.toLower = digit c := by
  have := ascii_all (fun c => decide (c.toLower = '0' ↔ c = '0') && decide (c.toLower = 'x' ∨ c.toLower = 'X' ↔ c = 'x' ∨ c = 'X') &&
    (hexDigit c.toLower == hexDigit c) && (!hexDigit c || digitVal c.toLower == digitVal c) && (digit c.toLower == digit c))
    (by decide +kernel) h
  simp only [Bool.and_eq_true, decide_eq_true_eq, beq_iff_eq, Bool.or_eq_true, Bool.not_eq_true'] at this
  obtain ⟨⟨⟨⟨h1, h2⟩, h3⟩, h4⟩, h5⟩ := this
  refine ⟨h1, h2, h3, fun hh => ?_, h5⟩
  rcases h4 with h4 | h4
  · rw [h4] at hh; cases hh
  · exact h4

theorem number_lower {b : Nat} {t : List Char} (h : ∀ c ∈ t, c.toNat < 128 ∧ hexDigit c = true) :
    number b (t.map Char.toLower) = number b t := by
  induction t with
  | nil => rfl
  | cons c t ih =>
    obtain ⟨h1, h2⟩ := h c (List.mem_cons_self ..)
    rw [List.map_cons, number_cons, number_cons, ih fun c hc => h c (List.mem_cons_of_mem _ hc), (lower_facts h1).2.2.2.1 h2,
      List.length_map]

theorem numeral_lower {b : Nat} {t : List Char} {n : Nat} (h : ∀ c ∈ t, c.toNat < 128) :
    Numeral b (t.map Char.toLower) n ↔ Numeral b t n := by
  rw [numeral_iff, numeral_iff]
  have h1 : (∀ c ∈ t.map Char.toLower, hexDigit c = true ∧ digitVal c < b) ↔ ∀ c ∈ t, hexDigit c = true ∧ digitVal c < b := by
    constructor
    · intro ha c hc
      have := ha _ (List.mem_map_of_mem hc)
      obtain ⟨_, _, h3, h4, _⟩ := lower_facts (h c hc)
      rw [h3] at this
      rw [h4 this.1] at this
      exact this
    · intro ha c hc
      obtain ⟨d, hd, rfl⟩ := List.mem_map.mp hc
      have := ha d hd
      obtain ⟨_, _, h3, h4, _⟩ := lower_facts (h d hd)
      rw [h3, h4 this.1]
      exact this
  rw [h1]
  constructor
  · rintro ⟨ha, hn⟩
    exact ⟨ha, by rw [number_lower fun c hc => ⟨h c hc, (ha c hc).1⟩] at hn; exact hn⟩
  · rintro ⟨ha, hn⟩
    exact ⟨ha, by rw [number_lower fun c hc => ⟨h c hc, (ha c hc).1⟩]; exact hn⟩

theorem part_lower {t : List Char} {n : Nat} (h : ∀ c ∈ t, c.toNat < 128) : Part (t.map Char.toLower) n ↔ Part t n := by
  cases t with
  | nil => exact Iff.rfl
  | cons a t =>
    have ht : ∀ c ∈ t, c.toNat < 128 := fun c hc => h c (List.mem_cons_of_mem _ hc)
    have ha := lower_facts (h a (List.mem_cons_self ..))
    constructor
    · intro hp
      generalize hx : (a :: t).map Char.toLower = x at hp
      cases hp with
      | @hex c u n hc hn =>
        rw [List.map_cons] at hx
        injection hx with h1 h2
        cases t with
        | nil => cases h2
        | cons b t =>
          injection h2 with h3 h4
          rw [ha.1.mp h1]
          subst h4 h3
          exact .hex ((lower_facts (ht b (List.mem_cons_self ..))).2.1.mp hc)
            ((numeral_lower fun c hc => ht c (List.mem_cons_of_mem _ hc)).mp hn)
      | octal hn =>
        rw [List.map_cons] at hx
        injection hx with h1 h2
        rw [ha.1.mp h1]
        subst h2
        exact .octal ((numeral_lower ht).mp hn)
      | decimal hc hn =>
        rw [← hx, numeral_lower h] at hn
        rw [List.map_cons] at hx
        injection hx with h1 h2
        exact .decimal (fun e => hc (h1 ▸ ha.1.mpr e)) hn
    · intro hp
      cases hp with
      | @hex c u n hc hn =>
        have hc' := (lower_facts (ht c (List.mem_cons_self ..))).2.1.mpr hc
        exact .hex hc' ((numeral_lower fun c hc => ht c (List.mem_cons_of_mem _ hc)).mpr hn)
      | octal hn => exact .octal ((numeral_lower ht).mpr hn)
      | decimal hc hn => exact .decimal (fun e => hc (ha.1.mp e)) ((numeral_lower h).mpr hn)

theorem ipv4Number_lower {t : List Char} (h : ∀ c ∈ t, c.toNat < 128) : ipv4Number (t.map Char.toLower) = ipv4Number t :=
  Option.ext fun n => by rw [part_iff, part_iff, part_lower h]

theorem parts_sub (d : List Char) : ∀ x ∈ parts d, x ∈ labels d := by
  intro x hx
  rcases parts_cases d with ⟨h, _⟩ | ⟨h, _⟩
  · rw [← h]; exact hx
  · rw [h]; exact List.mem_append_left _ hx

theorem parts_lower {d : List Char} (h : ∀ c ∈ d, c.toNat < 128) :
    parts (d.map Char.toLower) = (parts d).map (·.map Char.toLower) := by
  unfold parts
  rw [labels_lower h]
  simp only [List.length_map, List.getLast?_map]
  have : ((labels d).getLast?.map (·.map Char.toLower) == some []) = ((labels d).getLast? == some []) := by
    cases (labels d).getLast? with
    | none => rfl
    | some x => cases x <;> rfl
  rw [this]
  split <;> simp

theorem ipv4_lower {d : List Char} (h : ∀ c ∈ d, c.toNat < 128) : ipv4 (d.map Char.toLower) = ipv4 d := by
  unfold ipv4
  rw [parts_lower h]
  have : ∀ xs : List (List Char), (∀ x ∈ xs, ∀ c ∈ x, c.toNat < 128) →
      (xs.map (·.map Char.toLower)).mapM ipv4Number = xs.mapM ipv4Number := by
    intro xs hx
    induction xs with
    | nil => rfl
    | cons x xs ih =>
      rw [List.map_cons, List.mapM_cons, List.mapM_cons, ipv4Number_lower (hx x (List.mem_cons_self ..)),
        ih fun y hy => hx y (List.mem_cons_of_mem _ hy)]
  rw [this _ fun x hx c hc => h c (mem_labels (parts_sub d x hx) c hc)]

theorem endsInNumber_lower {d : List Char} (h : ∀ c ∈ d, c.toNat < 128) : endsInNumber (d.map Char.toLower) = endsInNumber d := by
  unfold endsInNumber
  rw [parts_lower h, List.getLast?_map]
  cases hl : (parts d).getLast? with
  | none => rfl
  | some x =>
    have hx : ∀ c ∈ x, c.toNat < 128 := fun c hc => h c (mem_labels (parts_sub d x (List.mem_of_getLast? hl)) c hc)
    have ha : (x.map Char.toLower).all digit = x.all digit := by
      rw [Bool.eq_iff_iff, List.all_eq_true, List.all_eq_true]
      constructor
      · intro ha c hc
        rw [← (lower_facts (hx c hc)).2.2.2.2]
        exact ha _ (List.mem_map_of_mem hc)
      · intro ha c hc
        obtain ⟨d, hd, rfl⟩ := List.mem_map.mp hc
        rw [(lower_facts (hx d hd)).2.2.2.2]
        exact ha d hd
    have he : (x.map Char.toLower).isEmpty = x.isEmpty := by cases x <;> rfl
    simp only [Option.map_some]
    rw [ha, he, ipv4Number_lower hx]

theorem dotted_text (n : Nat) (h : n < 4294967296) : Dotted (ipv4Text n) (n / 16777216) (n / 65536 % 256) (n / 256 % 256) (n % 256) := by
  refine ⟨?_, by omega, by omega, by omega, by omega⟩
  have h1 : n / 256 ^ 3 % 256 = n / 16777216 := by omega
  have h2 : n / 256 ^ 2 % 256 = n / 65536 % 256 := by omega
  unfold ipv4Text
  rw [h1, h2]
  simp only [String.toList_append, toString_decimal]
  have : ".".toList = ['.'] := rfl
  simp [this]

theorem v4_lt {t : List Char} {n : Nat} (h : V4 t n) : n < 4294967296 := by
  obtain ⟨_, _, _, _, h⟩ := h
  cases h <;> omega

/-- The characters of addresses. -/
theorem part_chars {t : List Char} {n : Nat} (h : Part t n) : ∀ c ∈ t, hexDigit c = true ∨ c = 'x' ∨ c = 'X' := by
  have hn : ∀ {b t n}, Numeral b t n → ∀ c ∈ t, hexDigit c = true ∨ c = 'x' ∨ c = 'X' := fun h c hc =>
    .inl ((numeral_iff.mp h).1 c hc).1
  intro d hd
  cases h with
  | hex hc h =>
    rcases List.mem_cons.mp hd with rfl | hd
    · exact .inl rfl
    · rcases List.mem_cons.mp hd with rfl | hd
      · exact .inr hc
      · exact hn h d hd
  | octal h =>
    rcases List.mem_cons.mp hd with rfl | hd
    · exact .inl rfl
    · exact hn h d hd
  | decimal _ h => exact hn h d hd

theorem v4_chars {t : List Char} {n : Nat} (h : V4 t n) : ∀ c ∈ t, hexDigit c = true ∨ c = 'x' ∨ c = 'X' ∨ c = '.' := by
  obtain ⟨u, ns, hu, hp, ha⟩ := h
  have : ∀ c ∈ u, hexDigit c = true ∨ c = 'x' ∨ c = 'X' ∨ c = '.' := by
    clear hu ha
    induction hp with
    | one h => intro c hc; rcases part_chars h c hc with h | h | h <;> simp [h]
    | cons h _ ih =>
      intro c hc
      rcases List.mem_append.mp hc with hc | hc
      · rcases part_chars h c hc with h | h | h <;> simp [h]
      · rcases List.mem_cons.mp hc with rfl | hc
        · simp
        · exact ih c hc
  intro c hc
  rcases hu with rfl | rfl
  · exact this c hc
  · rcases List.mem_append.mp hc with hc | hc
    · exact this c hc
    · simp at hc; simp [hc]

theorem v4_char_facts {c : Char} (h : hexDigit c = true ∨ c = 'x' ∨ c = 'X' ∨ c = '.') :
    c.toNat < 128 ∧ forbidden c = false ∧ c ≠ '-' := by
  have hlt : c.toNat < 128 := by
    rcases h with h | rfl | rfl | rfl
    · exact hexDigit_lt h
    all_goals decide
  have := ascii_all (fun c => !(hexDigit c || c == 'x' || c == 'X' || c == '.') || (!forbidden c && c != '-')) (by decide +kernel) hlt
  have hd : (hexDigit c || c == 'x' || c == 'X' || c == '.') = true := by rcases h with h | h | h | h <;> simp [h]
  rw [hd] at this
  simp at this
  exact ⟨hlt, this⟩

theorem v4_numeric {t : List Char} {n : Nat} (h : V4 t n) : Numeric t := by
  obtain ⟨u, ns, hu, hp, ha⟩ := h
  have : ∃ l x m, (l = [] ∨ l.getLast? = some '.') ∧ u = l ++ x ∧ Part x m := by
    clear hu ha
    induction hp with
    | one h => exact ⟨[], _, _, .inl rfl, rfl, h⟩
    | @cons t r n ns h _ ih =>
      obtain ⟨l, x, m, hl, rfl, hm⟩ := ih
      refine ⟨t ++ '.' :: l, x, m, .inr ?_, by simp, hm⟩
      rcases hl with rfl | hl
      · simp
      · rw [List.getLast?_append]
        cases l with
        | nil => cases hl
        | cons a l => rw [List.getLast?_cons_cons, hl]; rfl
  obtain ⟨l, x, m, hl, rfl, hm⟩ := this
  exact ⟨l, x, hl, hu, (part_not_dot hm).2, .inr ⟨m, hm⟩⟩

/-! ## Domains in ASCII -/

theorem label_split {t y : List Char} {ys : List (List Char)} (h : labels t = y :: ys) :
    (∃ r, t = y ++ r) ∧ ∀ z ∈ ys, ∃ l r, l.getLast? = some '.' ∧ t = l ++ (z ++ r) := by
  induction t generalizing y ys with
  | nil => injection h with h1 h2; subst h1 h2; exact ⟨⟨[], rfl⟩, nofun⟩
  | cons c t ih =>
    have more : ∀ l : List Char, l.getLast? = some '.' → (c :: l).getLast? = some '.' := by
      intro l hl
      cases l with
      | nil => cases hl
      | cons a l => rw [List.getLast?_cons_cons]; exact hl
    cases hl : labels t with
    | nil => exact (labels_ne_nil t hl).elim
    | cons x xs =>
      obtain ⟨⟨r, h1⟩, h2⟩ := ih hl
      rw [labels, hl] at h
      by_cases hc : c = '.'
      · rw [if_pos hc] at h
        injection h with h3 h4
        subst h3 h4 hc
        refine ⟨⟨_, rfl⟩, fun z hz => ?_⟩
        rcases List.mem_cons.mp hz with rfl | hz
        · exact ⟨['.'], r, rfl, by rw [← h1]; rfl⟩
        · obtain ⟨l, r, h3, h4⟩ := h2 z hz
          exact ⟨'.' :: l, r, more l h3, by rw [h4]; rfl⟩
      · rw [if_neg hc] at h
        injection h with h3 h4
        subst h3 h4
        refine ⟨⟨r, by rw [h1]; rfl⟩, fun z hz => ?_⟩
        obtain ⟨l, r, h3, h4⟩ := h2 z hz
        exact ⟨c :: l, r, more l h3, by rw [h4]; rfl⟩

theorem mem_labels_split {t x : List Char} (hx : x ∈ labels t) :
    ∃ l r, (l = [] ∨ l.getLast? = some '.') ∧ t = l ++ (x ++ r) := by
  cases hl : labels t with
  | nil => exact (labels_ne_nil t hl).elim
  | cons y ys =>
    obtain ⟨⟨r, h1⟩, h2⟩ := label_split hl
    rw [hl] at hx
    rcases List.mem_cons.mp hx with rfl | hx
    · exact ⟨[], r, .inl rfl, h1⟩
    · obtain ⟨l, r, h3, h4⟩ := h2 x hx
      exact ⟨l, r, .inr h3, h4⟩

theorem plain_of_ascii {t : List Char} (h : AsciiDomain t) : plain t = true ∧ ∀ c ∈ t, domainChar c = true := by
  obtain ⟨_, h1, h2⟩ := h
  refine ⟨?_, fun c hc => ?_⟩
  · simp only [plain, Bool.and_eq_true, List.all_eq_true, decide_eq_true_eq]
    refine ⟨fun c hc => by have := h1 c hc; omega, fun x hx => ?_⟩
    obtain ⟨l, r, hl, rfl⟩ := mem_labels_split hx
    rw [bne_iff_ne]
    intro he
    refine h2 l (x ++ r) hl rfl ?_
    rw [List.map_append, List.take_append_of_le_length]
    · exact he
    · have := congrArg List.length he
      rw [List.length_take] at this
      have h4 : "xn--".toList.length = 4 := rfl
      omega
  · obtain ⟨a, b, d⟩ := h1 c hc
    have hv : vis c = true := by
      have := ascii_all (fun c => !(decide (32 < c.toNat) && decide (c.toNat < 127)) || vis c) (by decide +kernel) (c := c) (by omega)
      simpa [a, b] using this
    have hf : forbidden c = false := by
      unfold forbidden
      have : ("#/:<>?@[\\]^|%".toList.contains c) = false := by simpa using d
      rw [this]
      have h1 : ¬ c.toNat ≤ 32 := by omega
      have h2 : (c.toNat == 127) = false := by rw [beq_eq_false_iff_ne]; omega
      simp [h1, h2]
    simp [domainChar, hv, hf]

theorem lower_domainChar {c : Char} (h : domainChar c = true) : domainChar c.toLower = true := by
  have hlt := (domainChar_auth h).1
  have := ascii_all (fun c => !domainChar c || domainChar c.toLower) (by decide +kernel) hlt
  simpa [h] using this

theorem host_ascii (L : Lib) {t : List Char} (h : AsciiDomain t) :
    host L t = if endsInNumber t then (ipv4 t).map ipv4Text else some (t.map Char.toLower) := by
  obtain ⟨h1, h2⟩ := plain_of_ascii h
  have ha : ∀ c ∈ t, c.toNat < 128 := plain_ascii h1
  have hd : domain L t = some (t.map Char.toLower) := by
    unfold domain
    rw [h1, if_pos rfl]
    simp only
    rw [if_neg]
    simp only [Bool.or_eq_true, not_or, List.isEmpty_iff, Bool.not_eq_true, List.any_eq_false]
    refine ⟨by simpa using h.1, fun c hc => ?_⟩
    obtain ⟨d, hd, rfl⟩ := List.mem_map.mp hc
    have := lower_domainChar (h2 d hd)
    simp only [domainChar, Bool.and_eq_true, Bool.not_eq_true'] at this
    simp [this.2]
  rw [host_domain h.1 (fun c hc => (domainChar_auth (h2 c hc)).2.2.2.1) (e := t.map Char.toLower)]
  · rw [endsInNumber_lower ha, ipv4_lower ha]
  · rw [decoded fun c hc => ⟨(domainChar_auth (h2 c hc)).1, (domainChar_auth (h2 c hc)).2.2.2.2⟩]
    exact hd

theorem v4_ascii {t : List Char} {n : Nat} (h : V4 t n) : AsciiDomain t := by
  refine ⟨?_, fun c hc => ?_, fun l r _ ht he => ?_⟩
  · rintro rfl
    obtain ⟨l, u, _, hu, hne, _⟩ := v4_numeric h
    rcases hu with hu | hu
    · have := List.append_eq_nil_iff.mp hu.symm; exact hne this.2
    · simp at hu
  · obtain ⟨h1, h2, _⟩ := v4_char_facts (v4_chars h c hc)
    unfold forbidden at h2
    simp only [Bool.or_eq_false_iff, decide_eq_false_iff_not, beq_eq_false_iff_ne] at h2
    obtain ⟨⟨h2, h3⟩, h4⟩ := h2
    exact ⟨by omega, by omega, by simpa using h4⟩
  · have hm : '-' ∈ (r.map Char.toLower) := List.mem_of_mem_take (i := 4) (by rw [he]; decide)
    obtain ⟨c, hc, he⟩ := List.mem_map.mp hm
    obtain ⟨h1, _, h3⟩ := v4_char_facts (v4_chars h c (by rw [ht]; exact List.mem_append_right _ hc))
    have := ascii_all (fun c => c.toLower != '-' || c == '-') (by decide +kernel) h1
    simp [he, h3] at this

end UrlStd.Ipv4
end Pizauth
