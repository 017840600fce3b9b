import Verif.Spec.Query
import Verif.Proof.Form

/-!
# Lemmas about queries
-/

namespace Pizauth
namespace Form
open FormSpec

/-! ## Beginnings of characters -/

theorem second_iff (b0 b1 : UInt8) : second b0 b1 = true ↔
    (b0.toNat = 0xE0 ∧ 0xA0 ≤ b1.toNat ∧ b1.toNat ≤ 0xBF) ∨ (b0.toNat = 0xED ∧ 0x80 ≤ b1.toNat ∧ b1.toNat ≤ 0x9F) ∨
    (0xE1 ≤ b0.toNat ∧ b0.toNat ≤ 0xEF ∧ b0.toNat ≠ 0xED ∧ 0x80 ≤ b1.toNat ∧ b1.toNat ≤ 0xBF) ∨
    (b0.toNat = 0xF0 ∧ 0x90 ≤ b1.toNat ∧ b1.toNat ≤ 0xBF) ∨
    (0xF1 ≤ b0.toNat ∧ b0.toNat ≤ 0xF3 ∧ 0x80 ≤ b1.toNat ∧ b1.toNat ≤ 0xBF) ∨
    (b0.toNat = 0xF4 ∧ 0x80 ≤ b1.toNat ∧ b1.toNat ≤ 0x8F) := by
  unfold second
  simp only [← UInt8.toNat_inj, UInt8.le_iff_toNat_le, UInt8.reduceToNat]
  (repeat' split) <;> first | (simp only [decide_eq_true_eq]; omega) | (simp; omega)

theorem valid_nat (c : Char) : c.val.toNat < 0xD800 ∨ (0xDFFF < c.val.toNat ∧ c.val.toNat < 0x110000) := c.valid

theorem u8 (n : Nat) (h : n < 256) : (UInt8.ofNat n).toNat = n := by
  simp [Nat.mod_eq_of_lt h]

theorem enc_length (c : Char) : (String.utf8EncodeChar c).length ≤ 4 := by
  rw [String.length_utf8EncodeChar]; exact Char.utf8Size_le_four c

theorem begins_length {b : Bytes} (h : Begins b) : b.length ≤ 3 := by
  obtain ⟨c, r, hr, he⟩ := h
  have := enc_length c
  rw [he, List.length_append] at this
  cases r with
  | nil => exact absurd rfl hr
  | cons x r => simp only [List.length_cons] at this; omega

/-- The bytes of a character which has at least three. -/
theorem enc_three {c : Char} {b0 b1 b2 : UInt8} {r : Bytes} (h : String.utf8EncodeChar c = b0 :: b1 :: b2 :: r) :
    second b0 b1 = true ∧ (r ≠ [] → 0xF0 ≤ b0.toNat ∧ 0x80 ≤ b2.toNat ∧ b2.toNat ≤ 0xBF) := by
  have hv := valid_nat c
  unfold String.utf8EncodeChar at h
  simp only at h
  generalize c.val.toNat = n at h hv
  rw [second_iff]
  split at h
  · simp at h
  · split at h
    · simp at h
    · split at h
      · simp only [List.cons.injEq] at h
        obtain ⟨rfl, rfl, rfl, rfl⟩ := h
        refine ⟨?_, fun h => absurd rfl h⟩
        rw [u8 _ (by omega), u8 _ (by omega)]
        omega
      · simp only [List.cons.injEq] at h
        obtain ⟨rfl, rfl, rfl, rfl⟩ := h
        rw [u8 _ (by omega), u8 _ (by omega), u8 _ (by omega)]
        omega

def mkChar (n : Nat) (h : n < 0xD800 ∨ (0xDFFF < n ∧ n < 0x110000)) : Char :=
  ⟨UInt32.ofNat n, by
    unfold UInt32.isValidChar Nat.isValidChar
    rw [UInt32.toNat_ofNat', Nat.mod_eq_of_lt (by omega)]; exact h⟩

theorem mkChar_nat (n : Nat) (h) : (mkChar n h).val.toNat = n := by
  unfold mkChar
  simp only
  rw [UInt32.toNat_ofNat', Nat.mod_eq_of_lt (by omega)]

theorem begins2 {b0 b1 : UInt8} : Begins [b0, b1] ↔ second b0 b1 = true := by
  constructor
  · rintro ⟨c, r, hr, he⟩
    cases r with
    | nil => exact absurd rfl hr
    | cons b2 r => exact (enc_three he).1
  · intro h
    rw [second_iff] at h
    by_cases h3 : b0.toNat < 0xF0
    · refine ⟨mkChar ((b0.toNat - 0xE0) * 4096 + (b1.toNat - 0x80) * 64) (by omega), [0x80], by simp, ?_⟩
      unfold String.utf8EncodeChar
      simp only [mkChar_nat]
      rw [if_neg (by omega), if_neg (by omega), if_pos (by omega)]
      simp only [List.cons_append, List.nil_append, List.cons.injEq, and_true, ← UInt8.toNat_inj]
      rw [u8 _ (by omega), u8 _ (by omega), u8 _ (by omega)]
      refine ⟨by omega, by omega, ?_⟩
      show _ = 128
      omega
    · refine ⟨mkChar ((b0.toNat - 0xF0) * 262144 + (b1.toNat - 0x80) * 4096) (by omega), [0x80, 0x80], by simp, ?_⟩
      unfold String.utf8EncodeChar
      simp only [mkChar_nat]
      rw [if_neg (by omega), if_neg (by omega), if_neg (by omega)]
      simp only [List.cons_append, List.nil_append, List.cons.injEq, and_true, ← UInt8.toNat_inj]
      rw [u8 _ (by omega), u8 _ (by omega), u8 _ (by omega), u8 _ (by omega)]
      refine ⟨by omega, by omega, ?_, ?_⟩ <;> show _ = 128 <;> omega

theorem begins3 {b0 b1 b2 : UInt8} :
    Begins [b0, b1, b2] ↔ second b0 b1 = true ∧ 0xF0 ≤ b0.toNat ∧ 0x80 ≤ b2.toNat ∧ b2.toNat ≤ 0xBF := by
  constructor
  · rintro ⟨c, r, hr, he⟩
    exact ⟨(enc_three he).1, (enc_three he).2 hr⟩
  · rintro ⟨h, h3, h4, h5⟩
    rw [second_iff] at h
    refine ⟨mkChar ((b0.toNat - 0xF0) * 262144 + (b1.toNat - 0x80) * 4096 + (b2.toNat - 0x80) * 64) (by omega), [0x80], by simp, ?_⟩
    unfold String.utf8EncodeChar
    simp only [mkChar_nat]
    rw [if_neg (by omega), if_neg (by omega), if_neg (by omega)]
    simp only [List.cons_append, List.nil_append, List.cons.injEq, and_true, ← UInt8.toNat_inj]
    rw [u8 _ (by omega), u8 _ (by omega), u8 _ (by omega), u8 _ (by omega)]
    refine ⟨by omega, by omega, by omega, ?_⟩
    show _ = 128
    omega

theorem badLen_pos (b : Bytes) : 1 ≤ badLen b := by
  unfold badLen
  (repeat' split) <;> omega

theorem begins_badLen {b p : Bytes} (hp : p <+: b) (h : Begins p) : p.length ≤ badLen b := by
  have hl := begins_length h
  have h1 := badLen_pos b
  match p, hl, hp, h with
  | [], _, _, _ => simp
  | [_], _, _, _ => simpa using h1
  | [b0, b1], _, ⟨r, hr⟩, h =>
    subst hr
    simp only [badLen, List.cons_append, List.nil_append, begins2.mp h, if_true]
    (repeat' split) <;> simp
  | [b0, b1, b2], _, ⟨r, hr⟩, h =>
    subst hr
    obtain ⟨h1, h2, h3, h4⟩ := begins3.mp h
    simp only [badLen, List.cons_append, List.nil_append, h1, if_true, UInt8.le_iff_toNat_le, UInt8.reduceToNat]
    rw [if_pos ⟨h2, h3, h4⟩]
    simp

theorem badLen_begins {b : Bytes} (hb : b ≠ []) : badLen b ≤ b.length ∧ (Begins (b.take (badLen b)) ∨ badLen b = 1) := by
  match b, hb with
  | [x], _ => simp [badLen]
  | b0 :: b1 :: r, _ =>
    by_cases hs : second b0 b1 = true
    · have h2 : Begins ([b0, b1] : Bytes) := begins2.mpr hs
      cases r with
      | nil => simpa [badLen, hs] using h2
      | cons b2 r =>
        by_cases h : 0xF0 ≤ b0 ∧ 0x80 ≤ b2 ∧ b2 ≤ 0xBF
        · have h3 : Begins ([b0, b1, b2] : Bytes) := by
            simp only [UInt8.le_iff_toNat_le, UInt8.reduceToNat] at h
            exact begins3.mpr ⟨hs, h⟩
          simpa [badLen, hs, h] using h3
        · simpa only [badLen, hs, h, if_true, if_false, List.take_succ_cons, List.take_zero, List.length_cons,
            Nat.reduceEqDiff, or_false, Nat.le_add_left, true_and] using h2
    · simp [badLen, hs]

/-! ## Text -/

theorem decode_some {b : Bytes} {c : Char} (h : ByteArray.utf8DecodeChar? ⟨b.toArray⟩ 0 = some c) :
    ∃ r, b = String.utf8EncodeChar c ++ r := by
  obtain ⟨l, hl⟩ := ByteArray.exists_of_utf8DecodeChar?_eq_some h
  refine ⟨l.data.toList, ?_⟩
  have := congrArg (fun x : ByteArray => x.data.toList) hl
  simpa using this

theorem decode_append (c : Char) (r : Bytes) :
    ByteArray.utf8DecodeChar? ⟨(String.utf8EncodeChar c ++ r).toArray⟩ 0 = some c := by
  have := ByteArray.utf8DecodeChar?_utf8EncodeChar_append (b := ⟨r.toArray⟩) (c := c)
  rw [← this]
  congr 1
  apply ByteArray.ext
  simp

theorem lossyLoop_text {b : Bytes} (fuel : Nat) (h : b.length ≤ fuel) : Text b (lossyLoop fuel b) := by
  induction fuel generalizing b with
  | zero =>
    rw [List.length_eq_zero_iff.mp (Nat.le_zero.mp h)]
    exact .nil
  | succ fuel ih =>
    cases b with
    | nil => exact .nil
    | cons x r =>
      unfold lossyLoop
      split
      next c hc =>
        obtain ⟨r', hr'⟩ := decode_some hc
        have hlen := String.length_utf8EncodeChar c
        have hpos := Char.utf8Size_pos c
        have hl := congrArg List.length hr'
        rw [hr', ← hlen, List.drop_left]
        refine .char (ih ?_)
        rw [List.length_append] at hl
        omega
      next hc =>
        obtain ⟨h1, h2⟩ := badLen_begins (b := x :: r) (by simp)
        have h3 := badLen_pos (x :: r)
        have e := List.take_append_drop (badLen (x :: r)) (x :: r)
        have hl : ((x :: r).take (badLen (x :: r))).length = badLen (x :: r) := by rw [List.length_take]; omega
        have ht : Text ((x :: r).take (badLen (x :: r)) ++ (x :: r).drop (badLen (x :: r)))
            ('�' :: lossyLoop fuel ((x :: r).drop (badLen (x :: r)))) := by
          refine .bad ?_ ?_ ?_ ?_ (ih ?_)
          · rintro c ⟨s, hs⟩
            rw [e] at hs
            rw [← hs, decode_append] at hc
            cases hc
          · intro h0
            rw [h0] at hl
            simp at hl; omega
          · rw [hl]; exact h2
          · intro p hp hb
            rw [e] at hp
            rw [hl]; exact begins_badLen hp hb
          · rw [List.length_drop]; omega
        rw [e] at ht
        exact ht

theorem text_lossyLoop {b : Bytes} {l : List Char} (h : Text b l) (fuel : Nat) (hf : b.length ≤ fuel) : lossyLoop fuel b = l := by
  induction h generalizing fuel with
  | nil => cases fuel <;> rfl
  | @char c r l _ ih =>
    have hlen := String.length_utf8EncodeChar c
    have hpos := Char.utf8Size_pos c
    rw [List.length_append] at hf
    cases fuel with
    | zero => omega
    | succ fuel =>
      have hd := decode_append c r
      cases hb : String.utf8EncodeChar c ++ r with
      | nil =>
        have := congrArg List.length hb
        rw [List.length_append, hlen] at this
        simp at this; omega
      | cons x r' =>
        rw [hb] at hd
        simp only [lossyLoop, hd]
        rw [← hb, ← hlen, List.drop_left, ih _ (by omega)]
  | @bad b r l hc hne hb hmax _ ih =>
    have hpos : 1 ≤ b.length := List.length_pos_iff.mpr hne
    have hlen : badLen (b ++ r) = b.length := by
      have hne' : b ++ r ≠ [] := by simp [hne]
      obtain ⟨h1, h2⟩ := badLen_begins hne'
      have h3 := badLen_pos (b ++ r)
      have up : badLen (b ++ r) ≤ b.length := by
        rcases h2 with h2 | h2
        · have := hmax _ (List.take_prefix _ _) h2
          rw [List.length_take] at this
          omega
        · omega
      have lo : b.length ≤ badLen (b ++ r) := by
        rcases hb with hb | hb
        · exact begins_badLen (List.prefix_append _ _) hb
        · omega
      omega
    rw [List.length_append] at hf
    cases fuel with
    | zero => omega
    | succ fuel =>
      cases hx : b ++ r with
      | nil => simp [hne] at hx
      | cons x r' =>
        unfold lossyLoop
        rw [← hx]
        split
        next c hd =>
          obtain ⟨s, hs⟩ := decode_some hd
          exact absurd ⟨s, hs.symm⟩ (hc c)
        · rw [hlen, List.drop_left, ih _ (by omega)]

theorem text_iff {b : Bytes} {s : String} : Text b s.toList ↔ lossy b = s := by
  unfold lossy
  constructor
  · intro h
    rw [text_lossyLoop h _ (Nat.le_refl _), String.ofList_toList]
  · rintro rfl
    rw [String.toList_ofList]
    exact lossyLoop_text _ (Nat.le_refl _)

/-- Text without U+FFFD is exactly what was sent. -/
theorem text_exact {b : Bytes} {l : List Char} (h : Text b l) (hn : '�' ∉ l) : b = utf8 (String.ofList l) := by
  induction h with
  | nil => simp [utf8_empty]
  | char _ ih =>
    rw [utf8_ofList_cons, ← ih fun h => hn (List.mem_cons_of_mem _ h)]
  | bad => exact absurd (List.mem_cons_self ..) hn

/-! ## Escapes -/

theorem hex_hexVal {x : UInt8} {n : Nat} (h : hexVal x = some n) : Hex x n := by
  have hx : x = UInt8.ofNat x.toNat := by simp
  unfold hexVal at h
  simp only [UInt8.le_iff_toNat_le, UInt8.reduceToNat] at h
  split at h
  next h1 =>
    cases h
    have := Hex.dig (x.toNat - 48) (by omega)
    rwa [show 48 + (x.toNat - 48) = x.toNat by omega, ← hx] at this
  · split at h
    next h1 =>
      cases h
      have := Hex.upper (x.toNat - 55) (by omega) (by omega)
      rwa [show 55 + (x.toNat - 55) = x.toNat by omega, ← hx] at this
    · split at h
      next h1 =>
        cases h
        have := Hex.lower (x.toNat - 87) (by omega) (by omega)
        rwa [show 87 + (x.toNat - 87) = x.toNat by omega, ← hx] at this
      · cases h

theorem hexVal_blank (x : UInt8) : hexVal (if x = 43 then 32 else x) = hexVal x := by
  split
  · next h => subst h; decide
  · rfl

theorem percentDecode_percent {t : Bytes} (h : ¬ ∃ x y h l r, t = x :: y :: r ∧ Hex x h ∧ Hex y l) :
    percentDecode (37 :: t.map fun x => if x = 43 then 32 else x) =
      37 :: percentDecode (t.map fun x => if x = 43 then 32 else x) := by
  match t with
  | [] => rfl
  | [x] =>
    rw [percentDecode.eq_def]
    simp only [if_true, List.map_cons, List.map_nil]
    rw [percentDecode.eq_def]
    simp only [percentDecode]
    (repeat' split) <;> rfl
  | x :: y :: r =>
    rw [percentDecode.eq_def]
    simp only [if_true, List.map_cons, hexVal_blank]
    split
    next hx hy => exact absurd ⟨x, y, _, _, r, rfl, hex_hexVal hx, hex_hexVal hy⟩ h
    · rfl

theorem unescaped_decode {t bs : Bytes} (h : Unescaped t bs) : percentDecode (t.map fun x => if x = 43 then 32 else x) = bs := by
  induction h with
  | nil => simp [percentDecode]
  | plain h1 h2 _ ih => rw [List.map_cons, if_neg h2, percentDecode_other h1, ih]
  | blank _ ih => rw [List.map_cons, if_pos rfl, percentDecode_other (by decide), ih]
  | escape hx hy _ ih =>
    obtain ⟨ex, nx, _⟩ := hexVal_hex hx
    obtain ⟨ey, ny, _⟩ := hexVal_hex hy
    rw [List.map_cons, List.map_cons, List.map_cons, if_neg nx, if_neg ny, if_neg (by decide),
      percentDecode_escape ex ey, ih]
  | percent hn _ ih => rw [List.map_cons, if_neg (by decide), percentDecode_percent hn, ih]

theorem unescaped_exists (n : Nat) (t : Bytes) (hn : t.length ≤ n) : ∃ bs, Unescaped t bs := by
  induction n generalizing t with
  | zero =>
    rw [List.length_eq_zero_iff.mp (Nat.le_zero.mp hn)]
    exact ⟨[], .nil⟩
  | succ n ih =>
    cases t with
    | nil => exact ⟨[], .nil⟩
    | cons b t =>
      simp only [List.length_cons] at hn
      obtain ⟨bs, hbs⟩ := ih t (by omega)
      by_cases h1 : b = 37
      · subst h1
        by_cases he : ∃ x y h l r, t = x :: y :: r ∧ Hex x h ∧ Hex y l
        · obtain ⟨x, y, h, l, r, rfl, hx, hy⟩ := he
          simp only [List.length_cons] at hn
          obtain ⟨bs, hbs⟩ := ih r (by omega)
          exact ⟨_, .escape hx hy hbs⟩
        · exact ⟨_, .percent he hbs⟩
      · by_cases h2 : b = 43
        · subst h2; exact ⟨_, .blank hbs⟩
        · exact ⟨_, .plain h1 h2 hbs⟩

theorem reads_iff {t : Bytes} {s : String} : Reads t s ↔ decode t = s := by
  unfold Reads decode
  constructor
  · rintro ⟨bs, h1, h2⟩
    rw [unescaped_decode h1]
    exact text_iff.mp h2
  · intro h
    obtain ⟨bs, hbs⟩ := unescaped_exists _ t (Nat.le_refl _)
    rw [unescaped_decode hbs] at h
    exact ⟨bs, hbs, text_iff.mpr h⟩

/-! ## Pieces -/

theorem cut_none {c : UInt8} {a : Bytes} (h : c ∉ a) : cut c a = (a, []) := by
  induction a with
  | nil => rfl
  | cons x a ih =>
    simp only [List.mem_cons, not_or] at h
    rw [cut, if_neg (fun e => h.1 e.symm), ih h.2]

theorem split_at (c : UInt8) (t : Bytes) : c ∉ t ∨ ∃ a r, t = a ++ c :: r ∧ c ∉ a := by
  induction t with
  | nil => exact .inl (by simp)
  | cons x t ih =>
    by_cases h : c = x
    · exact .inr ⟨[], t, by simp [h], by simp⟩
    · rcases ih with h1 | ⟨a, r, rfl, h1⟩
      · exact .inl (by simp [h, h1])
      · exact .inr ⟨x :: a, r, rfl, by simp [h, h1]⟩

theorem piece_iff {t : Bytes} {p : String × String} : Piece t p ↔ pair t = p := by
  constructor
  · intro h
    cases h with
    | both h1 h2 h3 => rw [pair, cut_append h1, reads_iff.mp h2, reads_iff.mp h3]
    | name h1 h2 =>
      rw [pair, cut_none h1, reads_iff.mp h2]
      rfl
  · rintro rfl
    rcases split_at 61 t with h | ⟨a, r, rfl, h⟩
    · rw [pair, cut_none h]
      exact .name h (reads_iff.mpr rfl)
    · rw [pair, cut_append h]
      exact .both h (reads_iff.mpr rfl) (reads_iff.mpr rfl)

theorem parse_piece {t : Bytes} (h0 : t ≠ []) (h : 38 ∉ t) : parse t = [pair t] := by
  rw [parse, pieces_one h]
  simp [h0]

theorem query_parse {t : Bytes} {ps : List (String × String)} (h : Query t ps) : parse t = ps := by
  induction h with
  | nil => rfl
  | last h0 h1 hp => rw [parse_piece h0 h1, piece_iff.mp hp]
  | cons h0 h1 hp _ ih => rw [parse_append, parse_piece h0 h1, piece_iff.mp hp, ih]; rfl
  | @empty r ps _ ih =>
    have := parse_append [] r
    rw [List.nil_append] at this
    rw [this, ih]; rfl

theorem parse_query (n : Nat) (t : Bytes) (hn : t.length ≤ n) : Query t (parse t) := by
  induction n generalizing t with
  | zero =>
    rw [List.length_eq_zero_iff.mp (Nat.le_zero.mp hn)]
    exact .nil
  | succ n ih =>
    rcases split_at 38 t with h | ⟨a, r, rfl, h⟩
    · by_cases h0 : t = []
      · subst h0; exact .nil
      · rw [parse_piece h0 h]
        exact .last h0 h (piece_iff.mpr rfl)
    · rw [List.length_append, List.length_cons] at hn
      have hr := ih r (by omega)
      rw [parse_append]
      by_cases h0 : a = []
      · subst h0
        exact .empty hr
      · rw [parse_piece h0 h]
        exact .cons h0 h (piece_iff.mpr rfl) hr

theorem query_iff {t : Bytes} {ps : List (String × String)} : Query t ps ↔ parse t = ps :=
  ⟨query_parse, fun h => h ▸ parse_query _ t (Nat.le_refl _)⟩

/-! ## What was sent -/

theorem reads_exact {t : Bytes} {s : String} (h : Reads t s) (hs : '�' ∉ s.toList) : Unescaped t (utf8 s) := by
  obtain ⟨bs, h1, h2⟩ := h
  rw [text_exact h2 hs, String.ofList_toList] at h1
  exact h1

theorem query_sent {t : Bytes} {ps : List (String × String)} {n v : String} (h : Query t ps) (hm : (n, v) ∈ ps) :
    ∃ a p b, t = a ++ p ++ b ∧ Piece p (n, v) ∧ 38 ∉ p ∧ (a = [] ∨ ∃ a', a = a' ++ [38]) ∧ (b = [] ∨ ∃ b', b = 38 :: b') := by
  have step : ∀ {x r : Bytes}, (∃ a p b, r = a ++ p ++ b ∧ Piece p (n, v) ∧ 38 ∉ p ∧ (a = [] ∨ ∃ a', a = a' ++ [38]) ∧
      (b = [] ∨ ∃ b', b = 38 :: b')) → ∃ a p b, x ++ 38 :: r = a ++ p ++ b ∧ Piece p (n, v) ∧ 38 ∉ p ∧
      (a = [] ∨ ∃ a', a = a' ++ [38]) ∧ (b = [] ∨ ∃ b', b = 38 :: b') := by
    rintro x r ⟨a, p, b, rfl, hp, h38, ha, hb⟩
    refine ⟨x ++ 38 :: a, p, b, by simp, hp, h38, .inr ?_, hb⟩
    rcases ha with rfl | ⟨a', rfl⟩
    · exact ⟨x, rfl⟩
    · exact ⟨x ++ 38 :: a', by simp⟩
  induction h with
  | nil => cases hm
  | @last t p h0 h1 hp =>
    rw [List.mem_singleton] at hm
    subst hm
    exact ⟨[], t, [], by simp, hp, h1, .inl rfl, .inl rfl⟩
  | @cons t r p ps h0 h1 hp _ ih =>
    rcases List.mem_cons.mp hm with h | hm
    · subst h
      exact ⟨[], t, 38 :: r, by simp, hp, h1, .inl rfl, .inr ⟨r, rfl⟩⟩
    · exact step (ih hm)
  | empty _ ih => exact step (x := []) (ih hm)

end Form
end Pizauth
