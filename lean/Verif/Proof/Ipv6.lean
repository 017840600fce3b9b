import Verif.Spec.Ipv6
import Verif.Model.Ipv6
import Verif.Proof.UrlStd

/-!
# IPv6 addresses
-/

namespace Pizauth
namespace UrlStd.Ipv6
open Ip

theorem hexDigitOf {c : Char} {d : Nat} (h : HexDigitOf c d) : hexDigit c = true ∧ digitVal c = d ∧ d < 16 := by
  have hd : d < 16 := by
    refine Classical.byContradiction fun hn => ?_
    rcases h with h | h <;> rw [List.getElem?_eq_none (by simp; omega)] at h <;> cases h
  have key : ∀ d < 16, (∀ c, "0123456789abcdef".toList[d]? = some c → hexDigit c = true ∧ digitVal c = d) ∧
      ∀ c, "0123456789ABCDEF".toList[d]? = some c → hexDigit c = true ∧ digitVal c = d := by
    intro d hd
    have : ∀ d < 16, (("0123456789abcdef".toList[d]?).all fun c => hexDigit c && digitVal c == d) = true ∧
      (("0123456789ABCDEF".toList[d]?).all fun c => hexDigit c && digitVal c == d) = true := by decide
    obtain ⟨h1, h2⟩ := this d hd
    refine ⟨fun c hc => ?_, fun c hc => ?_⟩
    · rw [hc] at h1; simpa using h1
    · rw [hc] at h2; simpa using h2
  rcases h with h | h
  · exact ⟨((key d hd).1 c h).1, ((key d hd).1 c h).2, hd⟩
  · exact ⟨((key d hd).2 c h).1, ((key d hd).2 c h).2, hd⟩

theorem hexDigit_of {c : Char} (h : hexDigit c = true) : HexDigitOf c (digitVal c) := by
  have hlt : c.toNat < 128 := by
    simp only [hexDigit, digit, Bool.or_eq_true, Bool.and_eq_true, decide_eq_true_eq, Char.le_def, UInt32.le_iff_toNat_le] at h
    have h1 : ('9' : Char).val.toNat = 57 := rfl
    have h2 : ('f' : Char).val.toNat = 102 := rfl
    have h3 : ('F' : Char).val.toNat = 70 := rfl
    have h4 : c.val.toNat = c.toNat := rfl
    omega
  have key : ∀ n < 128, hexDigit (Char.ofNat n) = true →
      "0123456789abcdef".toList[digitVal (Char.ofNat n)]? = some (Char.ofNat n) ∨
      "0123456789ABCDEF".toList[digitVal (Char.ofNat n)]? = some (Char.ofNat n) := by decide +kernel
  have := key c.toNat hlt
  rw [Char.ofNat_toNat] at this
  exact this h

theorem foldl_number (b : Nat) : ∀ (l : List Char) (a : Nat),
    l.foldl (fun n c => n * b + digitVal c) a = a * b ^ l.length + l.foldl (fun n c => n * b + digitVal c) 0
  | [], a => by simp
  | c :: r, a => by
    simp only [List.foldl_cons, List.length_cons]
    rw [foldl_number b r (a * b + digitVal c), foldl_number b r (0 * b + digitVal c)]
    simp only [Nat.zero_mul, Nat.zero_add, Nat.pow_succ, Nat.add_mul, Nat.mul_comm (b ^ r.length) b, Nat.mul_assoc]
    omega

theorem number_cons (b : Nat) (c : Char) (l : List Char) : number b (c :: l) = digitVal c * b ^ l.length + number b l := by
  unfold number
  rw [List.foldl_cons, foldl_number]
  simp

theorem hexNumber_iff {t : List Char} {n : Nat} : HexNumber t n ↔ t.all hexDigit = true ∧ number 16 t = n := by
  constructor
  · intro h
    induction h with
    | nil => exact ⟨rfl, rfl⟩
    | cons hc _ ih =>
      obtain ⟨h1, h2, _⟩ := hexDigitOf hc
      refine ⟨by simp [h1]; simpa using ih.1, ?_⟩
      rw [number_cons, h2, ih.2]
  · induction t generalizing n with
    | nil => rintro ⟨_, rfl⟩; exact .nil
    | cons c t ih =>
      rintro ⟨h, rfl⟩
      simp only [List.all_cons, Bool.and_eq_true] at h
      rw [number_cons]
      exact .cons (hexDigit_of h.1) (ih ⟨h.2, rfl⟩)

theorem hexNumber_lt {t : List Char} {n : Nat} (h : HexNumber t n) : n < 16 ^ t.length := by
  induction h with
  | nil => simp
  | @cons c d t n hc _ ih =>
    obtain ⟨_, _, h3⟩ := hexDigitOf hc
    have : (d + 1) * 16 ^ t.length ≤ 16 * 16 ^ t.length := Nat.mul_le_mul_right _ (by omega)
    rw [List.length_cons, Nat.pow_succ, Nat.mul_comm (16 ^ t.length) 16]
    rw [Nat.add_mul] at this
    omega

theorem group_lt {t : List Char} {n : Nat} (h : Group t n) : n < 65536 :=
  Nat.lt_of_lt_of_le (hexNumber_lt h.1) (Nat.pow_le_pow_right (n := 16) (by decide) h.2.2)

/-- As `Ending`, step by step. -/
inductive Tail : List Char → List Nat → Prop where
  | one {t : List Char} {n : Nat} : Group t n → Tail t [n]
  | dots {t : List Char} {a b c d : Nat} : Dotted t a b c d → Tail t [a * 256 + b, c * 256 + d]
  | cons {t r : List Char} {n : Nat} {ns : List Nat} : Group t n → Tail r ns → Tail (t ++ ':' :: r) (n :: ns)

theorem Tail.of_groups {t : List Char} {ns : List Nat} (h : Groups t ns) : Tail t ns := by
  induction h with
  | one h => exact .one h
  | cons h _ ih => exact .cons h ih

theorem tail_iff {t : List Char} {ns : List Nat} : Tail t ns ↔ Ending t ns := by
  constructor
  · intro h
    induction h with
    | one h => exact .inl (.one h)
    | dots h => exact .inr (.inl ⟨_, _, _, _, h, rfl⟩)
    | @cons t r n ns h _ ih =>
      rcases ih with ih | ⟨a, b, c, d, hd, rfl⟩ | ⟨l, u, xs, a, b, c, d, hl, hd, rfl, rfl⟩
      · exact .inl (.cons h ih)
      · exact .inr (.inr ⟨t, r, [n], a, b, c, d, .one h, hd, rfl, rfl⟩)
      · exact .inr (.inr ⟨t ++ ':' :: l, u, n :: xs, a, b, c, d, .cons h hl, hd, by simp, rfl⟩)
  · rintro (h | ⟨a, b, c, d, hd, rfl⟩ | ⟨l, u, xs, a, b, c, d, hl, hd, rfl, rfl⟩)
    · exact .of_groups h
    · exact .dots hd
    · induction hl with
      | one h => exact .cons h (.dots hd)
      | cons h _ ih =>
        rw [List.append_assoc, List.cons_append]
        exact .cons h ih

/-! ## Embedded IPv4 addresses -/

theorem toString_decimal (n : Nat) : (toString n).toList = decimal n := by
  rw [Nat.toString_eq_ofList_toDigits]; simp [decimal]

theorem digitVal_lt {c : Char} (h : digit c = true) : digitVal c < 10 ∧ c = Nat.digitChar (digitVal c) := by
  have hlt : c.toNat < 128 := by
    simp only [digit, Bool.and_eq_true, decide_eq_true_eq, Char.le_def, UInt32.le_iff_toNat_le] at h
    have h1 : ('9' : Char).val.toNat = 57 := rfl
    have h4 : c.val.toNat = c.toNat := rfl
    omega
  have key : ∀ n < 128, digit (Char.ofNat n) = true → digitVal (Char.ofNat n) < 10 ∧
      Char.ofNat n = Nat.digitChar (digitVal (Char.ofNat n)) := by decide +kernel
  have := key c.toNat hlt
  rw [Char.ofNat_toNat] at this
  exact this h

theorem number_snoc (b : Nat) (l : List Char) (c : Char) : number b (l ++ [c]) = number b l * b + digitVal c := by
  simp [number]

/-- Digits without leading zeros are the decimal text of their value. -/
theorem decimal_number : ∀ (k : Nat) (l : List Char), l.length = k → l ≠ [] → l.all digit = true →
    (l.head? = some '0' → l.length = 1) → l = decimal (number 10 l) := by
  intro k
  induction k with
  | zero => intro l h1 h2; exact absurd (List.length_eq_zero_iff.mp h1) h2
  | succ k ih =>
    intro l h1 h2 h3 h4
    obtain ⟨r, c, rfl⟩ : ∃ r c, l = r ++ [c] := ⟨l.dropLast, l.getLast h2, (List.dropLast_concat_getLast h2).symm⟩
    simp only [List.all_append, Bool.and_eq_true, List.all_cons, List.all_nil, Bool.and_true] at h3
    obtain ⟨hc, hc'⟩ := digitVal_lt h3.2
    rw [number_snoc]
    cases r with
    | nil =>
      have : number 10 [] = 0 := rfl
      rw [this, Nat.zero_mul, Nat.zero_add]
      unfold decimal
      rw [Nat.toDigits_of_lt_base hc]
      simpa using hc'
    | cons x r =>
      have hx : x ≠ '0' := by
        rintro rfl
        have := h4 rfl
        simp at this
      have hr := ih (x :: r) (by simpa using h1) (by simp) h3.1 (fun h => absurd (by simpa using h) hx)
      have hpos : 0 < number 10 (x :: r) := by
        rw [number_cons]
        have h5 := digitVal_lt (List.all_eq_true.mp h3.1 x (by simp))
        have : digitVal x ≠ 0 := by
          intro h0
          rw [h0] at h5
          exact hx h5.2
        have : 0 < digitVal x * 10 ^ r.length := Nat.mul_pos (by omega) (Nat.pow_pos (by decide))
        omega
      have h5 := Nat.toDigits_append_toDigits (b := 10) (n := number 10 (x :: r)) (d := digitVal c) (by decide) hpos hc
      unfold decimal at hr ⊢
      rw [Nat.mul_comm, ← h5, ← hr, Nat.toDigits_of_lt_base hc, ← hc']

theorem quad_iff {l : List Char} {n : Nat} : quad l = some n ↔ l = decimal n ∧ n < 256 := by
  constructor
  · intro h
    cases l with
    | nil => cases h
    | cons c r =>
      unfold quad at h
      simp only at h
      split at h
      · cases h
      · rename_i h1
        split at h
        · cases h
        · rename_i h2
          split at h
          · cases h
          · rename_i h3
            injection h with h
            subst h
            refine ⟨decimal_number _ _ rfl (by simp) (by simpa using h1) fun h => ?_, by omega⟩
            have hc : c = '0' := by simpa using h
            have : r = [] := Classical.not_not.mp fun hr => h2 ⟨hc, hr⟩
            rw [this]; rfl
  · rintro ⟨rfl, hn⟩
    have key : ∀ n < 256, quad (decimal n) = some n := by decide +kernel
    exact key n hn

theorem not_dot_decimal (n : Nat) : '.' ∉ decimal n := by
  intro h
  have := decimal_digits (n := n) '.' h
  revert this; decide

theorem quads_iff {l : List Char} {q : List Nat} : quads l = some q ↔
    ∃ a b c d, Dotted l a b c d ∧ q = [a * 256 + b, c * 256 + d] := by
  have hd : ∀ a b c d, (toString a ++ "." ++ toString b ++ "." ++ toString c ++ "." ++ toString d).toList =
      decimal a ++ '.' :: (decimal b ++ '.' :: (decimal c ++ '.' :: decimal d)) := by
    intro a b c d
    simp only [String.toList_append, toString_decimal]
    simp
  constructor
  · intro h
    unfold quads at h
    split at h
    · rename_i a b c d hm
      injection h with h
      refine ⟨a, b, c, d, ?_, h.symm⟩
      have hall : ∀ {xs : List (List Char)} {ys : List Nat}, xs.mapM quad = some ys → xs = ys.map decimal ∧ ∀ y ∈ ys, y < 256 := by
        intro xs
        induction xs with
        | nil => intro ys h; simp at h; subst h; simp
        | cons x xs ih =>
          intro ys h
          simp only [List.mapM_cons, Option.bind_eq_bind, Option.bind_eq_some_iff, Option.pure_def, Option.some.injEq] at h
          obtain ⟨y, hy, zs, hz, rfl⟩ := h
          obtain ⟨h1, h2⟩ := quad_iff.mp hy
          obtain ⟨h3, h4⟩ := ih hz
          refine ⟨by rw [List.map_cons, ← h1, ← h3], fun y' hy' => ?_⟩
          rcases List.mem_cons.mp hy' with rfl | hy'
          · exact h2
          · exact h4 y' hy'
      obtain ⟨h1, h2⟩ := hall hm
      refine ⟨?_, h2 a (by simp), h2 b (by simp), h2 c (by simp), h2 d (by simp)⟩
      rw [hd]
      have hj : ∀ l : List Char, ['.'].intercalate (labels l) = l := by
        intro l
        induction l with
        | nil => rfl
        | cons c r ih =>
          unfold labels
          split
          · rename_i hc
            cases hl : labels r with
            | nil => exact (labels_ne_nil r hl).elim
            | cons x xs =>
              rw [hl] at ih
              rw [hc]
              cases xs with
              | nil => simp [List.intercalate] at ih ⊢; exact ih
              | cons y ys => simp [List.intercalate, List.intersperse] at ih ⊢; exact ih
          · cases hl : labels r with
            | nil => exact (labels_ne_nil r hl).elim
            | cons x xs =>
              rw [hl] at ih
              cases xs with
              | nil => simp [List.intercalate] at ih ⊢; exact ih
              | cons y ys => simp [List.intercalate, List.intersperse] at ih ⊢; exact ih
      rw [← hj l, h1]
      simp [List.intercalate, List.intersperse]
    · cases h
  · rintro ⟨a, b, c, d, ⟨rfl, ha, hb, hc, hd'⟩, rfl⟩
    unfold quads
    rw [hd, labels_append _ (not_dot_decimal a), labels_append _ (not_dot_decimal b), labels_append _ (not_dot_decimal c),
      labels_one (not_dot_decimal d)]
    have hq : ∀ {n}, n < 256 → quad (decimal n) = some n := fun h => quad_iff.mpr ⟨rfl, h⟩
    simp [hq ha, hq hb, hq hc, hq hd']

/-! ## The loop -/

theorem hex_prefix {t rest : List Char} (h4 : t.length ≤ 4) (ht : t.all hexDigit = true)
    (hr : ∀ c, rest.head? = some c → hexDigit c = false) : ((t ++ rest).take 4).takeWhile hexDigit = t := by
  rw [List.take_append, List.take_of_length_le h4, List.takeWhile_append_of_pos (List.all_eq_true.mp ht)]
  have : ((rest.take (4 - t.length)).takeWhile hexDigit) = [] := by
    cases rest with
    | nil => simp
    | cons c r =>
      cases hk : 4 - t.length with
      | zero => rfl
      | succ k => rw [List.take_succ_cons, List.takeWhile_cons_of_neg (by rw [hr c rfl]; simp)]
  rw [this, List.append_nil]

theorem group_head {t : List Char} {n : Nat} (h : Group t n) : ∃ c r, t = c :: r ∧ hexDigit c = true := by
  cases t with
  | nil => have := h.2.1; simp at this
  | cons c r =>
    have := (hexNumber_iff.mp h.1).1
    simp only [List.all_cons, Bool.and_eq_true] at this
    exact ⟨c, r, rfl, this.1⟩

theorem hex_ne_colon {c : Char} (h : hexDigit c = true) : c ≠ ':' := by
  rintro rfl; revert h; decide

theorem loop_cons (k : Nat) (c : Char) (r : List Char) (pre : Option (List Nat)) (cur : List Nat) :
    loop (k + 1) (c :: r) pre cur =
    if pointer pre cur = 8 then none
    else if c = ':' then
      if pre = none then loop k r (some cur) [] else none
    else
      match (c :: r).drop (((c :: r).take 4).takeWhile hexDigit).length with
      | [] => some (pre, cur ++ [number 16 (((c :: r).take 4).takeWhile hexDigit)])
      | d :: r' =>
        if d = '.' then
          if (((c :: r).take 4).takeWhile hexDigit) = [] ∨ pointer pre cur > 6 then none
          else (quads (c :: r)).map fun q => (pre, cur ++ q)
        else if d = ':' then
          if r' = [] then none else loop k r' pre (cur ++ [number 16 (((c :: r).take 4).takeWhile hexDigit)])
        else none := by
  cases pre <;> rfl

theorem loop_group {t r : List Char} {n k : Nat} {pre : Option (List Nat)} {cur : List Nat} (h : Group t n) (hr : r ≠ [])
    (hp : pointer pre cur ≠ 8) : loop (k + 1) (t ++ ':' :: r) pre cur = loop k r pre (cur ++ [n]) := by
  obtain ⟨c, t', rfl, hc⟩ := group_head h
  have hh := hex_prefix (rest := ':' :: r) h.2.2 (hexNumber_iff.mp h.1).1 (by rintro c ⟨⟩; decide)
  rw [List.cons_append] at hh ⊢
  rw [loop_cons, if_neg hp, if_neg (hex_ne_colon hc)]
  simp only [hh]
  rw [← List.cons_append, List.drop_left]
  simp only
  rw [if_neg (by decide), if_pos trivial, if_neg hr, (hexNumber_iff.mp h.1).2]

theorem loop_last {t : List Char} {n k : Nat} {pre : Option (List Nat)} {cur : List Nat} (h : Group t n)
    (hp : pointer pre cur ≠ 8) : loop (k + 1) t pre cur = some (pre, cur ++ [n]) := by
  obtain ⟨c, t', rfl, hc⟩ := group_head h
  have hh := hex_prefix (rest := []) h.2.2 (hexNumber_iff.mp h.1).1 (by rintro c ⟨⟩)
  rw [List.append_nil] at hh
  rw [loop_cons, if_neg hp, if_neg (hex_ne_colon hc)]
  simp only [hh, List.drop_length]
  rw [(hexNumber_iff.mp h.1).2]

theorem loop_dots {t : List Char} {a b c d k : Nat} {pre : Option (List Nat)} {cur : List Nat} (h : Dotted t a b c d)
    (hp : pointer pre cur ≤ 6) : loop (k + 1) t pre cur = some (pre, cur ++ [a * 256 + b, c * 256 + d]) := by
  have hq := quads_iff.mpr ⟨a, b, c, d, h, rfl⟩
  have ht : t = decimal a ++ '.' :: (decimal b ++ '.' :: (decimal c ++ '.' :: decimal d)) := by
    rw [h.1]
    simp only [String.toList_append, toString_decimal]
    simp
  have hlen : (decimal a).length ≤ 4 := by
    have : ∀ n < 256, (decimal n).length ≤ 4 := by decide +kernel
    exact this a h.2.1
  have hall : (decimal a).all hexDigit = true := List.all_eq_true.mpr fun x hx => by
    have := decimal_digits x hx
    simp [hexDigit, this]
  have hh := hex_prefix (rest := '.' :: (decimal b ++ '.' :: (decimal c ++ '.' :: decimal d))) hlen hall
    (by rintro c ⟨⟩; decide)
  rw [← ht] at hh
  have hdrop : t.drop (decimal a).length = '.' :: (decimal b ++ '.' :: (decimal c ++ '.' :: decimal d)) := by
    rw [ht, List.drop_left]
  have hne : decimal a ≠ [] := Nat.toDigits_ne_nil
  cases t with
  | nil => cases hda : decimal a <;> rw [hda] at ht <;> cases ht
  | cons x r =>
    have hx : x ≠ ':' := by
      rintro rfl
      cases hda : decimal a with
      | nil => exact hne hda
      | cons y ys =>
        rw [hda] at ht
        injection ht with h1 _
        subst h1
        rw [hda] at hall
        revert hall
        simp [hexDigit, digit]
    rw [loop_cons, if_neg (by omega), if_neg hx]
    simp only [hh, hdrop]
    rw [if_pos trivial, if_neg (by rintro (h | h); exact hne h; omega), hq]
    rfl

theorem tail_ne_nil {t : List Char} {ns : List Nat} (h : Tail t ns) : t ≠ [] ∧ ns ≠ [] := by
  cases h with
  | one h => obtain ⟨c, r, rfl, _⟩ := group_head h; simp
  | dots h =>
    refine ⟨?_, by simp⟩
    rintro rfl
    have := congrArg List.length h.1
    simp at this
  | cons h _ => simp

theorem pointer_append (pre : Option (List Nat)) (cur ys : List Nat) : pointer pre (cur ++ ys) = pointer pre cur + ys.length := by
  cases pre <;> simp [pointer] <;> omega

theorem loop_tail {l : List Char} {ys : List Nat} (h : Tail l ys) : ∀ {k : Nat} {pre : Option (List Nat)} {cur : List Nat},
    l.length ≤ k → pointer pre cur + ys.length ≤ 8 → loop k l pre cur = some (pre, cur ++ ys) := by
  induction h with
  | one h =>
    intro k pre cur hk hp
    obtain ⟨c, r, rfl, _⟩ := group_head h
    cases k with
    | zero => simp at hk
    | succ k => exact loop_last h (by simp at hp; omega)
  | @dots t a b c d h =>
    intro k pre cur hk hp
    cases k with
    | zero => exact absurd (List.length_eq_zero_iff.mp (by omega)) (tail_ne_nil (.dots h)).1
    | succ k => exact loop_dots h (by simp at hp; omega)
  | @cons t r n ns h ht ih =>
    intro k pre cur hk hp
    cases k with
    | zero => simp at hk
    | succ k =>
      simp only [List.length_cons, List.length_append] at hp hk
      rw [loop_group h (tail_ne_nil ht).1 (by omega), ih (by omega) (by rw [pointer_append]; simp; omega)]
      simp

theorem loop_groups {l : List Char} {xs : List Nat} (h : Groups l xs) : ∀ {k : Nat} {r : List Char} {cur : List Nat},
    (l ++ ':' :: ':' :: r).length ≤ k → cur.length + xs.length < 8 →
    ∃ k', r.length ≤ k' ∧ loop k (l ++ ':' :: ':' :: r) none cur = loop k' r (some (cur ++ xs)) [] := by
  induction h with
  | @one t n h =>
    intro k r cur hk hp
    simp only [List.length_cons, List.length_append] at hp hk
    obtain ⟨k, rfl⟩ : ∃ k', k = k' + 2 := ⟨k - 2, by omega⟩
    refine ⟨k, by omega, ?_⟩
    rw [loop_group h (by simp) (by simp [pointer]; omega), loop_cons, if_neg (by simp [pointer] at *; omega), if_pos rfl, if_pos rfl]
  | @cons t l n ns h _ ih =>
    intro k r cur hk hp
    simp only [List.length_cons, List.length_append] at hp hk
    obtain ⟨k, rfl⟩ : ∃ k', k = k' + 1 := ⟨k - 1, by omega⟩
    obtain ⟨k', h1, h2⟩ := ih (k := k) (r := r) (cur := cur ++ [n])
      (by simp only [List.length_append, List.length_cons]; omega) (by simp; omega)
    refine ⟨k', h1, ?_⟩
    rw [List.append_assoc, List.cons_append, loop_group h (by simp) (by simp [pointer]; omega), h2]
    simp

/-- Nothing, or groups. -/
def Right (t : List Char) (ns : List Nat) : Prop := (t = [] ∧ ns = []) ∨ Tail t ns

theorem loop_right {l : List Char} {ys : List Nat} (h : Right l ys) {k : Nat} {pre : Option (List Nat)} {cur : List Nat}
    (hk : l.length ≤ k) (hp : pointer pre cur + ys.length ≤ 8) : loop k l pre cur = some (pre, cur ++ ys) := by
  rcases h with ⟨rfl, rfl⟩ | h
  · cases k <;> simp [loop]
  · exact loop_tail h hk hp

theorem loop_sound : ∀ (k : Nat) {l : List Char} {pre q : Option (List Nat)} {cur cur' : List Nat},
    loop k l pre cur = some (q, cur') → pointer pre cur ≤ 8 →
    (q = pre ∧ ∃ ys, cur' = cur ++ ys ∧ Right l ys ∧ pointer pre cur' ≤ 8) ∨
    (pre = none ∧ ∃ xs lt rt, q = some (cur ++ xs) ∧
      ((xs = [] ∧ l = ':' :: rt) ∨ (Groups lt xs ∧ l = lt ++ ':' :: ':' :: rt)) ∧ Right rt cur' ∧ pointer q cur' ≤ 8) := by
  have hnil : ∀ {k : Nat} {pre q : Option (List Nat)} {cur cur' : List Nat}, loop k [] pre cur = some (q, cur') →
      pointer pre cur ≤ 8 → (q = pre ∧ ∃ ys, cur' = cur ++ ys ∧ Right [] ys ∧ pointer pre cur' ≤ 8) := by
    intro k pre q cur cur' h hp
    have : loop k [] pre cur = some (pre, cur) := by cases k <;> simp [loop]
    rw [this] at h
    injection h with h
    injection h with h1 h2
    subst h1 h2
    exact ⟨rfl, [], by simp, .inl ⟨rfl, rfl⟩, hp⟩
  intro k
  induction k with
  | zero =>
    intro l pre q cur cur' h hp
    cases l with
    | nil => exact .inl (hnil h hp)
    | cons c r => cases h
  | succ k ih =>
    intro l pre q cur cur' h hp
    cases l with
    | nil => exact .inl (hnil h hp)
    | cons c r =>
      rw [loop_cons] at h
      by_cases h8 : pointer pre cur = 8
      · rw [if_pos h8] at h; cases h
      · rw [if_neg h8] at h
        by_cases hc : c = ':'
        · rw [if_pos hc] at h
          subst hc
          cases pre with
          | some p => rw [if_neg (by simp)] at h; cases h
          | none =>
            rw [if_pos rfl] at h
            simp only [pointer] at hp h8
            rcases ih h (by simp [pointer]; omega) with ⟨rfl, ys, rfl, hy, hp'⟩ | ⟨hn, _⟩
            · exact .inr ⟨rfl, [], [], r, by simp, .inl ⟨rfl, rfl⟩, by simpa using hy, hp'⟩
            · cases hn
        · rw [if_neg hc] at h
          generalize hh : ((c :: r).take 4).takeWhile hexDigit = t at h
          have hall : t.all hexDigit = true := by rw [← hh]; exact List.all_takeWhile
          have hlen : t.length ≤ 4 := by
            rw [← hh]
            exact Nat.le_trans (List.takeWhile_sublist _).length_le (by simp; omega)
          have hpre : c :: r = t ++ (c :: r).drop t.length := by
            have h1 : t <+: c :: r := by
              rw [← hh]
              exact (List.takeWhile_prefix _).trans (List.take_prefix _ _)
            obtain ⟨s, hs⟩ := h1
            rw [← hs, List.drop_left]
          have hg : t ≠ [] → Group t (number 16 t) := fun hne =>
            ⟨hexNumber_iff.mpr ⟨hall, rfl⟩, by have := List.length_pos_iff.mpr hne; omega, hlen⟩
          cases hd : (c :: r).drop t.length with
          | nil =>
            rw [hd] at h hpre
            simp only [Option.some.injEq, Prod.mk.injEq] at h
            obtain ⟨rfl, rfl⟩ := h
            rw [List.append_nil] at hpre
            refine .inl ⟨rfl, [number 16 t], rfl, .inr ?_, by rw [pointer_append]; simp; omega⟩
            rw [hpre]
            exact .one (hg (by rw [← hpre]; simp))
          | cons d r' =>
            rw [hd] at h hpre
            simp only at h
            have hne : d = ':' → t ≠ [] := by
              rintro rfl rfl
              injection hpre with h1 _
              exact hc h1
            by_cases hdot : d = '.'
            · rw [if_pos hdot] at h
              split at h
              · cases h
              · rename_i hcond
                obtain ⟨q', hq, heq⟩ := Option.map_eq_some_iff.mp h
                injection heq with h1 h2
                subst h1 h2
                obtain ⟨a, b, x, y, hdt, rfl⟩ := quads_iff.mp hq
                refine .inl ⟨rfl, _, rfl, .inr (.dots hdt), ?_⟩
                rw [pointer_append]
                have : ¬ pointer pre cur > 6 := fun hp => hcond (.inr hp)
                simp
                omega
            · rw [if_neg hdot] at h
              by_cases hcol : d = ':'
              · rw [if_pos hcol] at h
                by_cases hr' : r' = []
                · rw [if_pos hr'] at h; cases h
                · rw [if_neg hr'] at h
                  have hgt := hg (hne hcol)
                  subst hcol
                  rcases ih h (by rw [pointer_append]; simp; omega) with ⟨rfl, ys, rfl, hy, hp'⟩ | ⟨rfl, xs, lt, rt, rfl, hl, hR, hp'⟩
                  · refine .inl ⟨rfl, number 16 t :: ys, by simp, .inr ?_, hp'⟩
                    rw [hpre]
                    rcases hy with ⟨hy, _⟩ | hy
                    · exact absurd hy hr'
                    · exact .cons hgt hy
                  · refine .inr ⟨rfl, number 16 t :: xs, ?_⟩
                    rcases hl with ⟨rfl, rfl⟩ | ⟨hl, rfl⟩
                    · exact ⟨t, rt, by simp, .inr ⟨.one hgt, hpre⟩, hR, hp'⟩
                    · exact ⟨t ++ ':' :: lt, rt, by simp, .inr ⟨.cons hgt hl, by rw [hpre]; simp⟩, hR, hp'⟩
              · rw [if_neg hcol] at h; cases h

theorem right_iff {t : List Char} {ns : List Nat} : Right t ns ↔ (t = [] ∧ ns = []) ∨ Ending t ns := by
  unfold Right; rw [tail_iff]

theorem parse_iff {t : List Char} {a : List Nat} : parse t = some a ↔ Text t a := by
  constructor
  · intro h
    unfold parse at h
    split at h
    · cases h
    · split at h
      · split at h
        · rename_i r _
          obtain ⟨⟨q, cur⟩, h1, h2⟩ := Option.bind_eq_some_iff.mp h
          rcases loop_sound _ h1 (by simp [pointer]) with ⟨rfl, ys, rfl, hy, hp⟩ | ⟨hn, _⟩
          · simp only [finish, Option.some.injEq, List.nil_append, List.length_nil] at h2
            simp only [pointer, List.length_nil, List.nil_append] at hp
            subst h2
            refine ⟨by simp; omega, .inr ⟨[], r, [], cur, 8 - 0 - cur.length, rfl, by simp, by omega, .inl ⟨rfl, rfl⟩, right_iff.mp hy⟩⟩
          · cases hn
        · cases h
      · rename_i l hl
        obtain ⟨⟨q, cur⟩, h1, h2⟩ := Option.bind_eq_some_iff.mp h
        rcases loop_sound _ h1 (by simp [pointer]) with ⟨rfl, ys, rfl, hy, hp⟩ | ⟨_, xs, lt, rt, rfl, hlt, hR, hp⟩
        · simp only [finish, List.nil_append] at h2
          split at h2
          · injection h2 with h2
            subst h2
            refine ⟨‹_›, .inl ?_⟩
            rcases right_iff.mp hy with ⟨_, rfl⟩ | hy
            · simp at *
            · exact hy
          · cases h2
        · simp only [finish, Option.some.injEq, List.nil_append] at h2
          simp only [pointer, List.nil_append] at hp
          subst h2
          rcases hlt with ⟨_, rfl⟩ | ⟨hlt, rfl⟩
          · exact (hl _ rfl).elim
          · exact ⟨by simp; omega, .inr ⟨lt, rt, xs, cur, 8 - xs.length - cur.length, by simp, rfl, by omega, .inr hlt,
              right_iff.mp hR⟩⟩
  · rintro ⟨hlen, h | ⟨l, r, xs, ys, k, rfl, rfl, hk, hl, hr⟩⟩
    · have ht := tail_iff.mpr h
      have h1 := loop_tail ht (k := t.length) (pre := none) (cur := []) (Nat.le_refl _) (by simp [pointer, hlen])
      have hlong : 2 ≤ t.length := by
        cases ht with
        | one _ => simp at hlen
        | dots _ => simp at hlen
        | cons hg _ => have := hg.2.1; simp; omega
      have hfirst : ∀ r, t ≠ ':' :: r := by
        intro r heq
        cases ht with
        | one _ => simp at hlen
        | dots _ => simp at hlen
        | cons hg _ =>
          obtain ⟨c, t'', rfl, hc⟩ := group_head hg
          injection heq with h3 _
          exact hex_ne_colon hc h3
      unfold parse
      rw [if_neg (by omega)]
      split
      · exact (hfirst _ rfl).elim
      · rw [h1]
        simp [finish, hlen]
    · simp only [List.length_append, List.length_replicate] at hlen
      have hr' := right_iff.mpr hr
      rcases hl with ⟨rfl, rfl⟩ | hl
      · unfold parse
        rw [if_neg (by simp)]
        simp only [List.nil_append]
        show (loop r.length r (some []) []).bind finish = _
        rw [loop_right hr' (Nat.le_refl _) (by simp [pointer] at *; omega)]
        simp only [Option.bind_some, finish, List.nil_append, List.length_nil] at *
        rw [show 8 - 0 - ys.length = k by omega]
      · have hg := Tail.of_groups hl
        obtain ⟨c, l', hcl, hc⟩ : ∃ c l', l = c :: l' ∧ hexDigit c = true := by
          cases hl with
          | one h => exact group_head h
          | cons h _ =>
            obtain ⟨c, r, rfl, hc⟩ := group_head h
            exact ⟨c, _, rfl, hc⟩
        obtain ⟨k', hk', h1⟩ := loop_groups hl (k := (l ++ ':' :: ':' :: r).length) (r := r) (cur := []) (Nat.le_refl _)
          (by simp; omega)
        have h2 : l ++ "::".toList ++ r = l ++ ':' :: ':' :: r := by simp
        rw [h2]
        unfold parse
        rw [if_neg (by simp; omega)]
        split
        · rename_i heq
          rw [hcl] at heq
          injection heq with h3 _
          exact (hex_ne_colon hc h3).elim
        · rw [h1, loop_right hr' hk' (by simp [pointer]; omega)]
          simp only [Option.bind_some, finish, List.nil_append]
          rw [show 8 - xs.length - ys.length = k by omega]

/-! ## Texts -/

theorem toDigits_hex (n : Nat) : (Nat.toDigits 16 n).all hexDigit = true ∧ number 16 (Nat.toDigits 16 n) = n := by
  have key : ∀ d < 16, hexDigit (Nat.digitChar d) = true ∧ digitVal (Nat.digitChar d) = d := by decide
  induction n using Nat.strongRecOn with
  | _ n ih =>
    by_cases h : n < 16
    · rw [Nat.toDigits_of_lt_base h]
      obtain ⟨h1, h2⟩ := key n h
      refine ⟨by simp [h1], ?_⟩
      rw [number_cons, h2]
      simp [number]
    · rw [Nat.toDigits_of_base_le (by decide) (by omega)]
      obtain ⟨h1, h2⟩ := ih (n / 16) (by omega)
      obtain ⟨h3, h4⟩ := key (n % 16) (by omega)
      refine ⟨by simp only [List.all_append, h1, List.all_cons, h3, List.all_nil]; rfl, ?_⟩
      rw [number_snoc, h2, h4]
      omega

theorem group_digits {n : Nat} (h : n < 65536) : Group (Nat.toDigits 16 n) n := by
  refine ⟨hexNumber_iff.mpr (toDigits_hex n), Nat.length_toDigits_pos, ?_⟩
  exact (Nat.length_toDigits_le_iff (by decide) (by decide)).mpr h

theorem join_plain (ns : List Nat) : join ns = Plain ns := by
  induction ns with
  | nil => rfl
  | cons n r ih =>
    cases r with
    | nil => simp [join, Plain, List.intercalate]
    | cons m r =>
      rw [join, ih]
      · simp [Plain, List.intercalate, List.intersperse]
      · simp

theorem groups_join : ∀ (ns : List Nat), ns ≠ [] → (∀ n ∈ ns, n < 65536) → Groups (join ns) ns
  | [], h, _ => absurd rfl h
  | [n], _, h => .one (group_digits (h n (by simp)))
  | n :: m :: r, _, h => by
    rw [join]
    · exact .cons (group_digits (h n (by simp))) (groups_join (m :: r) (by simp) fun x hx => h x (by simp [hx]))
    · simp

theorem takeWhile_zeros (b : List Nat) (n : Nat) : n ≤ (b.takeWhile (· == 0)).length ↔ ∀ i, i < n → b[i]? = some 0 := by
  induction b generalizing n with
  | nil =>
    constructor
    · intro h i hi; simp at h; omega
    · intro h
      cases n with
      | zero => simp
      | succ n => have := h 0 (by omega); simp at this
  | cons x b ih =>
    cases n with
    | zero => simp
    | succ n =>
      by_cases hx : x = 0
      · subst hx
        rw [List.takeWhile_cons_of_pos (by simp), List.length_cons, Nat.add_le_add_iff_right, ih]
        constructor
        · intro h i hi
          cases i with
          | zero => rfl
          | succ i => exact h i (by omega)
        · intro h i hi
          exact h (i + 1) (by omega)
      · rw [List.takeWhile_cons_of_neg (by simpa using hx)]
        constructor
        · intro h; simp at h
        · intro h
          have := h 0 (by omega)
          simp at this
          exact absurd this hx

theorem zeros_iff {a : List Nat} {s n : Nat} : Zeros a s n ↔ s ≤ a.length ∧ n ≤ zerosAt a s := by
  unfold zerosAt
  rw [takeWhile_zeros]
  simp only [List.getElem?_drop]
  constructor
  · rintro ⟨h1, h2⟩
    exact ⟨by omega, fun i hi => h2 (s + i) (by omega) (by omega)⟩
  · rintro ⟨h1, h2⟩
    refine ⟨?_, fun i h3 h4 => ?_⟩
    · cases n with
      | zero => omega
      | succ n =>
        have := h2 n (by omega)
        have hlt : s + n < a.length := by
          refine Classical.byContradiction fun hc => ?_
          rw [List.getElem?_eq_none (by omega)] at this
          cases this
        omega
    · have := h2 (i - s) (by omega)
      rwa [show s + (i - s) = i by omega] at this

theorem longest_spec (a : List Nat) :
    ((longest a).2 = 0 ∨ ((longest a).1 < a.length ∧ (longest a).2 = zerosAt a (longest a).1)) ∧
    ∀ i, i < a.length → zerosAt a i < (longest a).2 ∨ (zerosAt a i = (longest a).2 ∧ ((longest a).2 = 0 ∨ (longest a).1 ≤ i)) := by
  unfold longest
  have key : ∀ m, ∀ best, best = (List.range m).foldl
      (fun best i => if zerosAt a i > best.2 then (i, zerosAt a i) else best) ((0, 0) : Nat × Nat) →
      (best.2 = 0 ∨ (best.1 < m ∧ best.2 = zerosAt a best.1)) ∧
      ∀ i, i < m → zerosAt a i < best.2 ∨ (zerosAt a i = best.2 ∧ (best.2 = 0 ∨ best.1 ≤ i)) := by
    intro m
    induction m with
    | zero => rintro _ rfl; exact ⟨.inl rfl, fun i hi => by omega⟩
    | succ m ih =>
      rintro _ rfl
      rw [List.range_succ, List.foldl_append]
      obtain ⟨h1, h2⟩ := ih _ rfl
      generalize (List.range m).foldl (fun best i => if zerosAt a i > best.2 then (i, zerosAt a i) else best)
        ((0, 0) : Nat × Nat) = best at h1 h2
      simp only [List.foldl_cons, List.foldl_nil]
      by_cases hgt : zerosAt a m > best.2
      · rw [if_pos hgt]
        refine ⟨.inr ⟨by simp, rfl⟩, fun i hi => ?_⟩
        by_cases him : i = m
        · subst him; exact .inr ⟨rfl, .inr (Nat.le_refl _)⟩
        · have := h2 i (by omega)
          simp only
          omega
      · rw [if_neg hgt]
        refine ⟨?_, fun i hi => ?_⟩
        · omega
        · by_cases him : i = m
          · subst him
            omega
          · exact h2 i (by omega)
  exact key a.length _ rfl

theorem text_recommended (a : List Nat) : Recommended a (text a) := by
  obtain ⟨h1, h2⟩ := longest_spec a
  unfold text
  generalize longest a = b at h1 h2
  obtain ⟨s, n⟩ := b
  simp only at h1 h2 ⊢
  have hend : zerosAt a a.length = 0 := by simp [zerosAt]
  split
  · refine .inl ⟨fun s' n' hz => ?_, join_plain a⟩
    obtain ⟨h3, h4⟩ := zeros_iff.mp hz
    by_cases hs : s' = a.length
    · subst hs; omega
    · have := h2 s' (by omega); omega
  · rcases h1 with h1 | ⟨h1, h1'⟩
    · omega
    · refine .inr ⟨s, n, by omega, zeros_iff.mpr ⟨by omega, by omega⟩, fun s' n' hz => ?_, ?_⟩
      · obtain ⟨h3, h4⟩ := zeros_iff.mp hz
        by_cases hs : s' = a.length
        · subst hs; omega
        · have := h2 s' (by omega); omega
      · rw [join_plain, join_plain]; simp

theorem recommended_unique {a : List Nat} {t t' : List Char} (h : Recommended a t) (h' : Recommended a t') : t = t' := by
  rcases h with ⟨h1, rfl⟩ | ⟨s, n, h1, h2, h3, rfl⟩ <;> rcases h' with ⟨h1', rfl⟩ | ⟨s', n', h1', h2', h3', rfl⟩
  · rfl
  · have := h1 _ _ h2'; omega
  · have := h1' _ _ h2; omega
  · have h4 := h3 _ _ h2'
    have h5 := h3' _ _ h2
    have : s = s' := by omega
    have : n = n' := by omega
    subst s' n'
    rfl

theorem text_text {a : List Nat} (hlen : a.length = 8) (ha : ∀ n ∈ a, n < 65536) : Text (text a) a := by
  refine ⟨hlen, ?_⟩
  rcases text_recommended a with ⟨_, ht⟩ | ⟨s, n, h1, h2, _, ht⟩ <;> rw [ht]
  · rw [← join_plain]
    exact .inl (.inl (groups_join a (by rintro rfl; simp at hlen) ha))
  · refine .inr ⟨_, _, a.take s, a.drop (s + n), n, rfl, ?_, by omega, ?_, ?_⟩
    · apply List.ext_getElem?
      intro i
      have hs := h2.1
      by_cases hi : i < s
      · rw [List.append_assoc, List.getElem?_append_left (by simp; omega), List.getElem?_take_of_lt hi]
      · by_cases hi' : i < s + n
        · rw [h2.2 i (by omega) hi', List.getElem?_append_left (by simp; omega),
            List.getElem?_append_right (by simp; omega), List.getElem?_replicate, if_pos]
          simp only [List.length_take]
          omega
        · rw [List.getElem?_append_right (by simp; omega)]
          simp only [List.getElem?_drop, List.length_append, List.length_take, List.length_replicate]
          congr 1
          omega
    · by_cases hs : a.take s = []
      · exact .inl ⟨by rw [hs]; rfl, hs⟩
      · rw [← join_plain]
        exact .inr (groups_join _ hs fun x hx => ha x (List.mem_of_mem_take hx))
    · by_cases hs : a.drop (s + n) = []
      · exact .inl ⟨by rw [hs]; rfl, hs⟩
      · rw [← join_plain]
        exact .inr (.inl (groups_join _ hs fun x hx => ha x (List.mem_of_mem_drop hx)))

theorem groups_lt {t : List Char} {ns : List Nat} (h : Tail t ns) : ∀ n ∈ ns, n < 65536 := by
  induction h with
  | one h => intro n hn; simp at hn; subst hn; exact group_lt h
  | dots h =>
    obtain ⟨_, h1, h2, h3, h4⟩ := h
    intro n hn
    simp at hn
    omega
  | cons h _ ih =>
    intro n hn
    rcases List.mem_cons.mp hn with rfl | hn
    · exact group_lt h
    · exact ih n hn

theorem text_lt {t : List Char} {a : List Nat} (h : Text t a) : a.length = 8 ∧ ∀ n ∈ a, n < 65536 := by
  refine ⟨h.1, ?_⟩
  rcases h.2 with h | ⟨l, r, xs, ys, k, _, rfl, _, hl, hr⟩
  · exact groups_lt (tail_iff.mpr h)
  · intro n hn
    simp only [List.mem_append, List.mem_replicate] at hn
    rcases hn with (hn | ⟨_, rfl⟩) | hn
    · rcases hl with ⟨_, rfl⟩ | hl
      · cases hn
      · exact groups_lt (.of_groups hl) n hn
    · decide
    · rcases hr with ⟨_, rfl⟩ | hr
      · cases hn
      · exact groups_lt (tail_iff.mpr hr) n hn

theorem join_chars : ∀ (ns : List Nat), ∀ c ∈ join ns, hexDigit c = true ∨ c = ':'
  | [], c, h => by cases h
  | [n], c, h => .inl (List.all_eq_true.mp (toDigits_hex n).1 c h)
  | n :: m :: r, c, h => by
    rw [join] at h
    · rcases List.mem_append.mp h with h | h
      · exact .inl (List.all_eq_true.mp (toDigits_hex n).1 c h)
      · rcases List.mem_cons.mp h with rfl | h
        · exact .inr rfl
        · exact join_chars (m :: r) c h
    · simp

theorem text_chars (a : List Nat) : ∀ c ∈ text a, hexDigit c = true ∨ c = ':' := by
  intro c h
  unfold text at h
  simp only at h
  split at h
  · exact join_chars _ c h
  · rcases List.mem_append.mp h with h | h
    · exact join_chars _ c h
    · rcases List.mem_cons.mp h with rfl | h
      · exact .inr rfl
      · rcases List.mem_cons.mp h with rfl | h
        · exact .inr rfl
        · exact join_chars _ c h

/-- Canonical addresses stay what they are. -/
theorem canonical_canonical {l t : List Char} (h : canonical l = some t) :
    canonical t = some t ∧ ∀ c ∈ t, hexDigit c = true ∨ c = ':' ∨ c = '.' := by
  obtain ⟨a, ha, rfl⟩ := Option.map_eq_some_iff.mp h
  obtain ⟨h1, h2⟩ := text_lt (parse_iff.mp ha)
  refine ⟨?_, fun c hc => ?_⟩
  · unfold canonical
    rw [parse_iff.mpr (text_text h1 h2)]
    rfl
  · rcases text_chars a c hc with h | h
    · exact .inl h
    · exact .inr (.inl h)

end UrlStd.Ipv6
end Pizauth
