import Verif.Model.Form
import Verif.Spec.Form
import Verif.Props.Http

/-!
# Lemmas about forms
-/

namespace Pizauth
namespace Form
open FormSpec

theorem hexVal_hex {x : UInt8} {n : Nat} (h : Hex x n) : hexVal x = some n ∧ x ≠ 43 ∧ x ≠ 38 ∧ x ≠ 61 ∧ n < 16 := by
  cases h with
  | dig n h =>
    revert h; revert n
    have : ∀ n : Fin 10, hexVal (UInt8.ofNat (48 + n.val)) = some n.val ∧ UInt8.ofNat (48 + n.val) ≠ 43 ∧
        UInt8.ofNat (48 + n.val) ≠ 38 ∧ UInt8.ofNat (48 + n.val) ≠ 61 ∧ n.val < 16 := by decide +kernel
    exact fun n h => this ⟨n, h⟩
  | upper n h1 h2 =>
    have : ∀ n : Fin 16, 10 ≤ n.val → hexVal (UInt8.ofNat (55 + n.val)) = some n.val ∧ UInt8.ofNat (55 + n.val) ≠ 43 ∧
        UInt8.ofNat (55 + n.val) ≠ 38 ∧ UInt8.ofNat (55 + n.val) ≠ 61 ∧ n.val < 16 := by decide +kernel
    exact this ⟨n, h2⟩ h1
  | lower n h1 h2 =>
    have : ∀ n : Fin 16, 10 ≤ n.val → hexVal (UInt8.ofNat (87 + n.val)) = some n.val ∧ UInt8.ofNat (87 + n.val) ≠ 43 ∧
        UInt8.ofNat (87 + n.val) ≠ 38 ∧ UInt8.ofNat (87 + n.val) ≠ 61 ∧ n.val < 16 := by decide +kernel
    exact this ⟨n, h2⟩ h1

theorem percentDecode_other {b : UInt8} (h : b ≠ 37) (r : Bytes) : percentDecode (b :: r) = b :: percentDecode r := by
  rw [percentDecode.eq_def]
  simp only [h, if_false]

theorem percentDecode_escape {x y : UInt8} {h l : Nat} (hx : hexVal x = some h) (hy : hexVal y = some l) (r : Bytes) :
    percentDecode (37 :: x :: y :: r) = UInt8.ofNat (16 * h + l) :: percentDecode r := by
  rw [percentDecode.eq_def]
  simp only [if_true, hx, hy]

theorem percentDecode_enc {bs t : Bytes} (h : Enc bs t) :
    percentDecode (t.map fun x => if x = 43 then 32 else x) = bs := by
  induction h with
  | nil => simp [percentDecode]
  | plain h1 h2 h3 _ ih => rw [List.map_cons, if_neg h2, percentDecode_other h1, ih]
  | blank _ ih => rw [List.map_cons, if_pos rfl, percentDecode_other (by decide), ih]
  | escape hx hy _ ih =>
    obtain ⟨ex, nx, _⟩ := hexVal_hex hx
    obtain ⟨ey, ny, _⟩ := hexVal_hex hy
    rw [List.map_cons, List.map_cons, List.map_cons, if_neg nx, if_neg ny, if_neg (by decide),
      percentDecode_escape ex ey, ih]

theorem enc_amp {bs t : Bytes} (h : Enc bs t) : 38 ∉ t := by
  induction h with
  | nil => simp
  | plain h1 h2 h3 _ ih =>
    simp only [List.mem_cons, not_or]
    exact ⟨fun h => h3 h.symm, ih⟩
  | blank _ ih =>
    simp only [List.mem_cons, not_or]
    exact ⟨by decide, ih⟩
  | escape hx hy _ ih =>
    simp only [List.mem_cons, not_or]
    exact ⟨by decide, fun h => (hexVal_hex hx).2.2.1 h.symm, fun h => (hexVal_hex hy).2.2.1 h.symm, ih⟩

theorem lossyLoop_utf8 (l : List Char) (fuel : Nat) (h : (utf8 (String.ofList l)).length ≤ fuel) :
    lossyLoop fuel (utf8 (String.ofList l)) = l := by
  induction l generalizing fuel with
  | nil => cases fuel <;> simp [utf8_empty, lossyLoop]
  | cons c l ih =>
    rw [utf8_ofList_cons] at h ⊢
    have hlen : (String.utf8EncodeChar c).length = c.utf8Size := String.length_utf8EncodeChar c
    have hpos := Char.utf8Size_pos c
    rw [List.length_append, hlen] at h
    cases fuel with
    | zero => omega
    | succ fuel =>
      cases hb : String.utf8EncodeChar c ++ utf8 (String.ofList l) with
      | nil =>
        have := congrArg List.length hb
        rw [List.length_append, hlen] at this
        simp at this; omega
      | cons b r =>
        have hd : ByteArray.utf8DecodeChar? ⟨(b :: r).toArray⟩ 0 = some c := by
          rw [← hb]
          have := ByteArray.utf8DecodeChar?_utf8EncodeChar_append (b := ⟨(utf8 (String.ofList l)).toArray⟩) (c := c)
          rw [← this]
          congr 1
          apply ByteArray.ext
          simp
        simp only [lossyLoop, hd]
        rw [← hb, ← hlen, List.drop_left, ih _ (by omega)]

theorem lossy_utf8 (s : String) : lossy (utf8 s) = s := by
  have h := lossyLoop_utf8 s.toList (utf8 s).length (by rw [String.ofList_toList]; exact Nat.le_refl _)
  rw [String.ofList_toList] at h
  rw [lossy, h, String.ofList_toList]

theorem decode_enc {s : String} {t : Bytes} (h : Enc (utf8 s) t) : decode t = s := by
  rw [decode, percentDecode_enc h, lossy_utf8]

theorem cut_append {c : UInt8} {a b : Bytes} (h : c ∉ a) : cut c (a ++ c :: b) = (a, b) := by
  induction a with
  | nil => simp [cut]
  | cons x a ih =>
    simp only [List.mem_cons, not_or] at h
    rw [List.cons_append, cut, if_neg (fun e => h.1 e.symm), ih h.2]

theorem pieces_ne_nil (t : Bytes) : pieces t ≠ [] := by
  cases t with
  | nil => simp [pieces]
  | cons b r =>
    rw [pieces]
    split
    · simp
    · split <;> simp

theorem pieces_append (a t : Bytes) : pieces (a ++ 38 :: t) = pieces a ++ pieces t := by
  induction a with
  | nil => simp [pieces]
  | cons b a ih =>
    rw [List.cons_append, pieces, pieces, ih]
    split
    · rfl
    · cases h : pieces a with
      | nil => exact absurd h (pieces_ne_nil a)
      | cons p ps => rfl

theorem pieces_one {a : Bytes} (h : 38 ∉ a) : pieces a = [a] := by
  induction a with
  | nil => rfl
  | cons b a ih =>
    simp only [List.mem_cons, not_or] at h
    rw [pieces, if_neg (fun e => h.1 e.symm), ih h.2]

theorem parse_append (a t : Bytes) : parse (a ++ 38 :: t) = parse a ++ parse t := by
  simp [parse, pieces_append]

theorem parse_nil : parse [] = [] := rfl

theorem parse_one {n v : String} {tn tv : Bytes} (hn : Enc (utf8 n) tn) (h61 : 61 ∉ tn) (hv : Enc (utf8 v) tv) :
    parse (tn ++ 61 :: tv) = [(n, v)] := by
  have h38 : 38 ∉ tn ++ 61 :: tv := by
    simp only [List.mem_append, List.mem_cons, not_or]
    exact ⟨enc_amp hn, by decide, enc_amp hv⟩
  rw [parse, pieces_one h38]
  have : (!(tn ++ 61 :: tv).isEmpty) = true := by simp
  simp [pair, cut_append h61, decode_enc hn, decode_enc hv]

theorem parse_isForm {ps : List (String × String)} {t : Bytes} (h : IsForm ps t) : parse t = ps := by
  induction h with
  | nil => rfl
  | one hn h61 hv => exact parse_one hn h61 hv
  | cons hn h61 hv _ ih => rw [parse_append, parse_one hn h61 hv, ih]; rfl

/-! ## What is written -/

theorem encByte_cases (b : UInt8) :
    (encByte b = [b] ∧ b ≠ 37 ∧ b ≠ 43 ∧ b ≠ 38 ∧ b ≠ 61 ∧ Harmless b) ∨ (encByte b = [43] ∧ b = 32) ∨
      (∃ h l, encByte b = [37, hexDigit h, hexDigit l] ∧ h < 16 ∧ l < 16 ∧ b = UInt8.ofNat (16 * h + l)) := by
  unfold encByte
  split
  · rename_i h
    refine .inl ⟨rfl, ?_⟩
    have : ∀ n : Fin 256, unchanged (UInt8.ofNat n.val) = true → UInt8.ofNat n.val ≠ 37 ∧ UInt8.ofNat n.val ≠ 43 ∧
        UInt8.ofNat n.val ≠ 38 ∧ UInt8.ofNat n.val ≠ 61 ∧ Harmless (UInt8.ofNat n.val) := by
      unfold Harmless
      decide +kernel
    have h2 := this ⟨b.toNat, b.toNat_lt⟩
    simp only [UInt8.ofNat_toNat] at h2
    exact h2 h
  · split
    · exact .inr (.inl ⟨rfl, by assumption⟩)
    · refine .inr (.inr ⟨_, _, rfl, ?_, ?_, ?_⟩)
      · have := b.toNat_lt
        omega
      · omega
      · rw [Nat.div_add_mod, UInt8.ofNat_toNat]

theorem hexDigit_hex {n : Nat} (h : n < 16) : Hex (hexDigit n) n := by
  unfold hexDigit
  split
  · exact .dig n (by assumption)
  · exact .upper n (by omega) h

theorem hexDigit_harmless {n : Nat} (h : n < 16) : Harmless (hexDigit n) := by
  have : ∀ n : Fin 16, Harmless (hexDigit n.val) := by unfold Harmless; decide +kernel
  exact this ⟨n, h⟩

theorem enc_flatMap (bs : Bytes) : Enc bs (bs.flatMap encByte) ∧ 61 ∉ bs.flatMap encByte ∧
    ∀ b ∈ bs.flatMap encByte, Harmless b := by
  induction bs with
  | nil => exact ⟨.nil, by simp, by simp⟩
  | cons b bs ih =>
    obtain ⟨h1, h2, h3⟩ := ih
    rw [List.flatMap_cons]
    rcases encByte_cases b with ⟨e, n1, n2, n3, n4, hb⟩ | ⟨e, rfl⟩ | ⟨h, l, e, hh, hl, hb⟩
    · rw [e]
      refine ⟨.plain n1 n2 n3 h1, ?_, ?_⟩
      · simp only [List.cons_append, List.nil_append, List.mem_cons, not_or]
        exact ⟨fun e => n4 e.symm, h2⟩
      · intro x hx
        simp only [List.cons_append, List.nil_append, List.mem_cons] at hx
        rcases hx with rfl | hx
        · exact hb
        · exact h3 x hx
    · rw [e]
      refine ⟨.blank h1, ?_, ?_⟩
      · simp only [List.cons_append, List.nil_append, List.mem_cons, not_or]
        exact ⟨by decide, h2⟩
      · intro x hx
        simp only [List.cons_append, List.nil_append, List.mem_cons] at hx
        rcases hx with rfl | hx
        · unfold Harmless; decide +kernel
        · exact h3 x hx
    · rw [e]
      have hx := hexDigit_hex hh
      have hy := hexDigit_hex hl
      refine ⟨by subst hb; exact .escape hx hy h1, ?_, ?_⟩
      · simp only [List.cons_append, List.nil_append, List.mem_cons, not_or]
        exact ⟨by decide, fun e => (hexVal_hex hx).2.2.2.1 e.symm, fun e => (hexVal_hex hy).2.2.2.1 e.symm, h2⟩
      · intro x hx
        simp only [List.cons_append, List.nil_append, List.mem_cons] at hx
        rcases hx with rfl | rfl | rfl | hx
        · unfold Harmless; decide +kernel
        · exact hexDigit_harmless hh
        · exact hexDigit_harmless hl
        · exact h3 x hx

theorem enc_encode (s : String) : Enc (utf8 s) (encode s) := (enc_flatMap _).1

theorem encode_eq (s : String) : 61 ∉ encode s := (enc_flatMap _).2.1

theorem encode_harmless (s : String) : ∀ b ∈ encode s, Harmless b := (enc_flatMap _).2.2

/-- One pair, as it is written. -/
def encPair (p : String × String) : Bytes := encode p.1 ++ 61 :: encode p.2

theorem extendPairs_cons {t : Bytes} (ht : t ≠ []) (p : String × String) (ps : List (String × String)) :
    extendPairs t (p :: ps) = t ++ 38 :: extendPairs [] (p :: ps) := by
  have h0 : extendPairs [] (p :: ps) = extendPairs (encPair p) ps := by
    simp [extendPairs, appendPair, encPair]
  have h1 : extendPairs t (p :: ps) = extendPairs (t ++ 38 :: encPair p) ps := by
    simp [extendPairs, appendPair, encPair, ht]
  rw [h0, h1]
  have key : ∀ (ps : List (String × String)) (a b : Bytes), b ≠ [] → extendPairs (a ++ b) ps = a ++ extendPairs b ps := by
    intro ps
    induction ps with
    | nil => intros; rfl
    | cons p ps ih =>
      intro a b hb
      have e1 : extendPairs (a ++ b) (p :: ps) = extendPairs (a ++ (b ++ 38 :: encPair p)) ps := by
        simp [extendPairs, appendPair, encPair, hb]
      have e2 : extendPairs b (p :: ps) = extendPairs (b ++ 38 :: encPair p) ps := by
        simp [extendPairs, appendPair, encPair, hb]
      rw [e1, e2, ih _ _ (by simp)]
  rw [show t ++ 38 :: encPair p = (t ++ [38]) ++ encPair p by simp, key _ _ _ (by simp [encPair])]
  simp

theorem isForm_body (ps : List (String × String)) : IsForm ps (body ps) := by
  induction ps with
  | nil => exact .nil
  | cons p ps ih =>
    have h0 : body (p :: ps) = extendPairs (encPair p) ps := by
      simp [body, extendPairs, appendPair, encPair]
    rw [h0]
    cases ps with
    | nil => exact .one (enc_encode _) (encode_eq _) (enc_encode _)
    | cons q ps =>
      rw [extendPairs_cons (by simp [encPair])]
      exact .cons (enc_encode _) (encode_eq _) (enc_encode _) ih

theorem body_harmless (ps : List (String × String)) : ∀ b ∈ body ps, Harmless b := by
  have key : ∀ (ps : List (String × String)) (t : Bytes), (∀ b ∈ t, Harmless b) → ∀ b ∈ extendPairs t ps, Harmless b := by
    intro ps
    induction ps with
    | nil => intro t h; exact h
    | cons p ps ih =>
      intro t h
      refine ih _ ?_
      intro b hb
      simp only [appendPair, List.mem_append] at hb
      rcases hb with ((((hb | hb) | hb) | hb) | hb)
      · exact h b hb
      · split at hb
        · cases hb
        · simp only [List.mem_singleton] at hb
          subst hb; unfold Harmless; decide +kernel
      · exact encode_harmless _ b hb
      · simp only [List.mem_singleton] at hb
        subst hb; unfold Harmless; decide +kernel
      · exact encode_harmless _ b hb
  exact key ps [] (by simp)

theorem parse_withParams (q : Option Bytes) (ps : List (String × String)) :
    parse (withParams q ps) = queryPairs q ++ ps := by
  unfold withParams queryPairs
  by_cases hq : q.getD [] = []
  · rw [hq]
    exact parse_isForm (isForm_body ps)
  · cases ps with
    | nil => simp [extendPairs]
    | cons p ps =>
      rw [extendPairs_cons hq, parse_append]
      exact congrArg _ (parse_isForm (isForm_body (p :: ps)))

end Form
end Pizauth
