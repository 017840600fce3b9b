import Verif.Spec.Http
import Verif.Props.HttpSize

/-!
# C63: which HTTP requests are understood
-/

namespace Pizauth

variable {E : Env}

theorem isRustWs_white (c : Char) : isRustWs c = true ↔ White c := by
  unfold isRustWs White
  simp only [Bool.or_eq_true, Bool.and_eq_true, decide_eq_true_eq, List.mem_cons, List.not_mem_nil, or_false]
  omega

theorem nl_mem_utf8EncodeChar (c : Char) : (10 : UInt8) ∈ String.utf8EncodeChar c ↔ c = '\n' := by
  have hc : c = '\n' ↔ c.val.toNat = 10 := by
    constructor
    · rintro rfl; rfl
    · intro h
      apply Char.ext
      apply UInt32.toNat_inj.mp
      exact h
  have hv : c.val.toNat < 1114112 := by
    have := c.valid
    unfold UInt32.isValidChar Nat.isValidChar at this
    omega
  have key : ∀ n, (10 : UInt8) = UInt8.ofNat n ↔ n % 256 = 10 := by
    intro n
    rw [← UInt8.toNat_inj]
    simp [UInt8.toNat_ofNat']
    omega
  rw [hc]
  unfold String.utf8EncodeChar
  generalize c.val.toNat = v at hv
  simp only
  split
  · simp only [List.mem_cons, List.not_mem_nil, or_false, key]; omega
  · split
    · simp only [List.mem_cons, List.not_mem_nil, or_false, key]; omega
    · split
      · simp only [List.mem_cons, List.not_mem_nil, or_false, key]; omega
      · simp only [List.mem_cons, List.not_mem_nil, or_false, key]; omega

theorem utf8_ofList_cons (c : Char) (l : List Char) :
    utf8 (String.ofList (c :: l)) = String.utf8EncodeChar c ++ utf8 (String.ofList l) := by
  unfold utf8
  rw [String.toByteArray_ofList, String.toByteArray_ofList, List.utf8Encode_cons, List.utf8Encode_singleton]
  simp

theorem utf8_ofList_append (l m : List Char) :
    utf8 (String.ofList (l ++ m)) = utf8 (String.ofList l) ++ utf8 (String.ofList m) := by
  rw [String.ofList_append, utf8_append]

theorem nl_mem_utf8 (l : List Char) : (10 : UInt8) ∈ utf8 (String.ofList l) ↔ '\n' ∈ l := by
  induction l with
  | nil => simp [utf8_empty]
  | cons c l ih =>
    rw [utf8_ofList_cons, List.mem_append, nl_mem_utf8EncodeChar, ih, List.mem_cons]
    constructor
    · rintro (rfl | h)
      · exact .inl rfl
      · exact .inr h
    · rintro (h | h)
      · exact .inl h.symm
      · exact .inr h

theorem splitLine_no {l r : Bytes} (h : 10 ∉ l) : splitLine (l ++ 10 :: r) = (l ++ [10], r) := by
  induction l with
  | nil => rfl
  | cons x l ih =>
    simp only [List.mem_cons, not_or] at h
    have hx : x ≠ 10 := fun he => h.1 he.symm
    simp [splitLine, hx, ih h.2]

theorem splitLine_none {l : Bytes} (h : 10 ∉ l) : splitLine l = (l, []) := by
  induction l with
  | nil => rfl
  | cons x l ih =>
    simp only [List.mem_cons, not_or] at h
    have hx : x ≠ 10 := fun he => h.1 he.symm
    simp [splitLine, hx, ih h.2]

/-- The first line ends with a newline, or it is everything. -/
theorem splitLine_ended : ∀ b : Bytes, (∃ l, (splitLine b).1 = l ++ [10]) ∨ (splitLine b).2 = []
  | [] => .inr rfl
  | x :: r => by
    unfold splitLine
    split
    · rename_i h; subst h; exact .inl ⟨[], rfl⟩
    · rcases splitLine_ended r with ⟨l, h⟩ | h
      · exact .inl ⟨x :: l, by simp [h]⟩
      · exact .inr (by simp [h])

theorem dropLast_concat_getLast {l : List Char} {c : Char} (h : l.getLast? = some c) : l = l.dropLast ++ [c] := by
  have hne : l ≠ [] := by rintro rfl; cases h
  rw [List.getLast?_eq_some_getLast hne] at h
  cases h
  exact (List.dropLast_concat_getLast hne).symm

theorem FirstLine.split {b r : Bytes} {l : List Char} (h : FirstLine b l r) :
    splitLine b = (utf8 (String.ofList l), r) := by
  obtain ⟨hb, h1, h2⟩ := h
  have hnl : utf8 (String.ofList ['\n']) = [10] := by decide +kernel
  by_cases hl : l.getLast? = some '\n'
  · have he := dropLast_concat_getLast hl
    rw [hb, he, utf8_ofList_append, hnl, List.append_assoc]
    exact splitLine_no fun hm => h1 ((nl_mem_utf8 _).mp hm)
  · have hr : r = [] := h2.resolve_left hl
    have hno : '\n' ∉ l := by
      intro hm
      have hne : l ≠ [] := by rintro rfl; cases hm
      rw [← List.dropLast_concat_getLast hne, List.mem_append] at hm
      rcases hm with hm | hm
      · exact h1 hm
      · simp only [List.mem_cons, List.not_mem_nil, or_false] at hm
        exact hl (by rw [List.getLast?_eq_some_getLast hne, ← hm])
    rw [hb, hr, List.append_nil]
    exact splitLine_none fun hm => hno ((nl_mem_utf8 _).mp hm)

theorem readLine_iff {b r : Bytes} {l : List Char} : readLine b = some (l, r) ↔ FirstLine b l r := by
  constructor
  · intro h
    unfold readLine at h
    obtain ⟨s, hs, he⟩ := Option.map_eq_some_iff.mp h
    cases he
    have hu : utf8 s = (splitLine b).1 := utf8_of_fromUtf8 hs
    have hnl : utf8 (String.ofList ['\n']) = [10] := by decide +kernel
    refine ⟨by rw [String.ofList_toList, hu, splitLine_append], ?_, ?_⟩
    · intro hm
      have hne : s.toList ≠ [] := by intro hc; rw [hc] at hm; cases hm
      have he := List.dropLast_concat_getLast hne
      have h1 := splitLine_noNl b
      rw [← hu, ← String.ofList_toList (s := s), ← he, utf8_ofList_append, utf8_ofList_cons] at h1
      rw [show utf8 (String.ofList []) = [] from utf8_empty, List.append_nil,
        List.dropLast_append_of_ne_nil (String.utf8EncodeChar_ne_nil)] at h1
      exact h1 (List.mem_append_left _ ((nl_mem_utf8 _).mpr hm))
    · rcases splitLine_ended b with ⟨l, hl⟩ | h
      · left
        rw [← hu] at hl
        have hmem : (10 : UInt8) ∈ utf8 s := by rw [hl]; simp
        rw [← String.ofList_toList (s := s), nl_mem_utf8] at hmem
        have hne : s.toList ≠ [] := by intro hc; rw [hc] at hmem; cases hmem
        have he := List.dropLast_concat_getLast hne
        rw [List.getLast?_eq_some_getLast hne]
        rw [← he, List.mem_append] at hmem
        rcases hmem with hm | hm
        · exfalso
          have h1 := splitLine_noNl b
          rw [← hu, ← String.ofList_toList (s := s), ← he, utf8_ofList_append, utf8_ofList_cons] at h1
          rw [show utf8 (String.ofList []) = [] from utf8_empty, List.append_nil,
            List.dropLast_append_of_ne_nil (String.utf8EncodeChar_ne_nil)] at h1
          exact h1 (List.mem_append_left _ ((nl_mem_utf8 _).mpr hm))
        · simp only [List.mem_cons, List.not_mem_nil, or_false] at hm
          rw [← hm]
      · exact .inr h
  · intro h
    unfold readLine
    rw [h.split]
    simp [fromUtf8_utf8]

theorem trimEnd_iff {l t : List Char} : trimEnd l = t ↔ Trimmed l t := by
  unfold trimEnd Trimmed
  constructor
  · rintro rfl
    refine ⟨⟨(l.reverse.takeWhile isRustWs).reverse, ?_, ?_⟩, ?_⟩
    · rw [← List.reverse_append, List.takeWhile_append_dropWhile, List.reverse_reverse]
    · intro c hc
      rw [List.mem_reverse] at hc
      exact (isRustWs_white c).mp (List.all_eq_true.mp List.all_takeWhile c hc)
    · intro c hc hw
      rw [List.getLast?_reverse] at hc
      have := List.head?_dropWhile_not isRustWs l.reverse
      rw [hc] at this
      simp only [(isRustWs_white c).mpr hw] at this
      cases this
  · rintro ⟨⟨ws, rfl, hws⟩, hlast⟩
    rw [List.reverse_append, List.dropWhile_append_of_pos (by
      intro c hc
      exact (isRustWs_white c).mpr (hws c (List.mem_reverse.mp hc)))]
    cases hr : t.reverse with
    | nil => simp at hr; subst hr; rfl
    | cons c r =>
      have hc : t.getLast? = some c := by rw [List.getLast?_eq_head?_reverse, hr]; rfl
      have : isRustWs c = false := by
        cases h : isRustWs c with
        | false => rfl
        | true => exact absurd ((isRustWs_white c).mp h) (hlast c hc)
      rw [List.dropWhile_cons_of_neg (by simp [this]), ← hr, List.reverse_reverse]

/-- What the header loop does with the lines it reads. -/
def joinLines : List (List Char) → List (List Char) → Option (List (List Char))
  | req, [] => some req
  | req, line :: ls =>
    match line with
    | ' ' :: _ | '\t' :: _ =>
      match pushCont req line with
      | none => none
      | some req' => joinLines req' ls
    | _ => joinLines (trimEnd line :: req) ls

theorem isBlank_iff {l : List Char} : isBlank l = true ↔ ∀ c ∈ l, White c := by
  unfold isBlank
  rw [List.all_eq_true]
  exact ⟨fun h c hc => (isRustWs_white c).mp (h c hc), fun h c hc => (isRustWs_white c).mpr (h c hc)⟩

theorem not_isBlank_iff {l : List Char} : isBlank l = false ↔ ∃ c ∈ l, ¬ White c := by
  rw [← Bool.not_eq_true, isBlank_iff]
  simp

theorem headerLoopN_iff : ∀ (fuel : Nat) {b : Bytes} {size : Nat} {req r : List (List Char)} {rest : Bytes}, b.length < fuel →
    (headerLoopN fuel b size req = some (r, rest) ↔
      ∃ ls b2 blank, FirstLines b ls b2 ∧ FirstLine b2 blank rest ∧ (∀ c ∈ blank, White c) ∧
        (∀ l ∈ ls, ∃ c ∈ l, ¬ White c) ∧ size + linesSize ls < 16384 ∧ joinLines req ls = some r)
  | 0, _, _, _, _, _, h => by omega
  | fuel + 1, b, size, req, r, rest, hfuel => by
    constructor
    · intro h
      unfold headerLoopN at h
      split at h
      · cases h
      · rename_i hsize
        have hlt : size < 16384 := by unfold maxHttpRequestSize at hsize; omega
        split at h
        · cases h
        · rename_i line b' hl
          have hfl := readLine_iff.mp hl
          have hb' := readLine_rest hl
          split at h
          · rename_i hblank
            cases h
            exact ⟨[], b, line, .nil _, hfl, isBlank_iff.mp hblank, by simp, by simpa [linesSize] using hlt, rfl⟩
          · rename_i hblank
            have hblank : isBlank line = false := by simpa using hblank
            have hpos := splitLine_pos hl hblank
            have hlen : b'.length < fuel := by
              have := congrArg List.length (splitLine_append b)
              rw [List.length_append, ← hb'] at this
              omega
            have hsz : (splitLine b).1.length = (utf8 (String.ofList line)).length := by rw [hfl.split]
            have fin : ∀ req', headerLoopN fuel b' (size + (splitLine b).1.length) req' = some (r, rest) →
                (∀ ls, joinLines req (line :: ls) = joinLines req' ls) →
                ∃ ls b2 blank, FirstLines b ls b2 ∧ FirstLine b2 blank rest ∧ (∀ c ∈ blank, White c) ∧
                  (∀ l ∈ ls, ∃ c ∈ l, ¬ White c) ∧ size + linesSize ls < 16384 ∧ joinLines req ls = some r := by
              intro req' h1 h2
              obtain ⟨ls, b2, blank, e1, e2, e3, e4, e5, e6⟩ := (headerLoopN_iff fuel hlen).mp h1
              refine ⟨line :: ls, b2, blank, .cons hfl e1, e2, e3, ?_, ?_, by rw [h2, e6]⟩
              · intro l hm
                rcases List.mem_cons.mp hm with rfl | hm
                · exact not_isBlank_iff.mp hblank
                · exact e4 l hm
              · simp only [linesSize, List.map_cons, List.sum_cons] at e5 ⊢
                omega
            split at h
            · split at h
              · cases h
              · rename_i req' hreq
                exact fin req' h fun ls => by simp only [joinLines, hreq]
            · split at h
              · cases h
              · rename_i req' hreq
                exact fin req' h fun ls => by simp only [joinLines, hreq]
            · refine fin _ h fun ls => ?_
              rw [joinLines]
              assumption
              assumption
    · rintro ⟨ls, b2, blank, e1, e2, e3, e4, e5, e6⟩
      have hsize : ¬ maxHttpRequestSize ≤ size := by unfold maxHttpRequestSize; omega
      unfold headerLoopN
      rw [if_neg hsize]
      cases e1 with
      | nil =>
        rw [readLine_iff.mpr e2]
        simp only [isBlank_iff.mpr e3, if_true]
        simp only [joinLines] at e6
        cases e6; rfl
      | @cons _ b' _ line ls hfl e1 =>
        have hl := readLine_iff.mpr hfl
        have hblank : isBlank line = false := not_isBlank_iff.mpr (e4 line (by simp))
        have hpos := splitLine_pos hl hblank
        have hlen : b'.length < fuel := by
          have := congrArg List.length (splitLine_append b)
          rw [List.length_append, ← readLine_rest hl] at this
          omega
        have hsz : (splitLine b).1.length = (utf8 (String.ofList line)).length := by rw [hfl.split]
        have fin : ∀ req', joinLines req' ls = some r →
            headerLoopN fuel b' (size + (splitLine b).1.length) req' = some (r, rest) := by
          intro req' h1
          refine (headerLoopN_iff fuel hlen).mpr ⟨ls, b2, blank, e1, e2, e3, fun l hm => e4 l (by simp [hm]), ?_, h1⟩
          simp only [linesSize, List.map_cons, List.sum_cons] at e5 ⊢
          omega
        rw [hl]
        simp only [hblank, Bool.false_eq_true, if_false]
        unfold joinLines at e6
        split
        · simp only at e6
          split at e6
          · cases e6
          · rename_i req' hreq
            simp only [hreq]
            exact fin req' e6
        · simp only at e6
          split at e6
          · cases e6
          · rename_i req' hreq
            simp only [hreq]
            exact fin req' e6
        · split at e6
          · exfalso; simp at *
          · exfalso; simp at *
          · exact fin _ e6

theorem indented_cases (l : List Char) :
    (∃ r, l = ' ' :: r) ∨ (∃ r, l = '\t' :: r) ∨ ((∀ r, l ≠ ' ' :: r) ∧ ∀ r, l ≠ '\t' :: r) := by
  by_cases h1 : ∃ r, l = ' ' :: r
  · exact .inl h1
  · by_cases h2 : ∃ r, l = '\t' :: r
    · exact .inr (.inl h2)
    · exact .inr (.inr ⟨fun r h => h1 ⟨r, h⟩, fun r h => h2 ⟨r, h⟩⟩)

theorem joinLines_indented {l : List Char} (h : Indented l) (req ls : List (List Char)) :
    joinLines req (l :: ls) = match req with | [] => none | x :: xs => joinLines ((x ++ trimEnd l) :: xs) ls := by
  obtain ⟨c, r, rfl, rfl | rfl⟩ := h <;> cases req <;> simp [joinLines, pushCont]

theorem joinLines_plain {l : List Char} (h : ¬ Indented l) (req ls : List (List Char)) :
    joinLines req (l :: ls) = joinLines (trimEnd l :: req) ls := by
  rcases indented_cases l with ⟨r, rfl⟩ | ⟨r, rfl⟩ | ⟨h1, h2⟩
  · exact absurd ⟨' ', r, rfl, .inl rfl⟩ h
  · exact absurd ⟨'\t', r, rfl, .inr rfl⟩ h
  · rw [joinLines]
    · exact fun r hr => h1 r hr
    · exact fun r hr => h2 r hr

theorem Joined.unique {ls : List (List Char)} {t u : List Char} (h1 : Joined ls t) (h2 : Joined ls u) : t = u := by
  induction h1 generalizing u with
  | nil => cases h2; rfl
  | cons a _ ih => cases h2 with | cons b h2 => rw [← trimEnd_iff.mpr a, ← trimEnd_iff.mpr b, ih h2]

theorem Joined.exists : ∀ ls : List (List Char), ∃ t, Joined ls t
  | [] => ⟨[], .nil⟩
  | _ :: ls => let ⟨_, hu⟩ := Joined.exists ls; ⟨_, .cons (trimEnd_iff.mp rfl) hu⟩

theorem joinLines_conts_eq {x u : List Char} {req cs ls : List (List Char)} (hc : ∀ l ∈ cs, Indented l) (h : Joined cs u) :
    joinLines (x :: req) (cs ++ ls) = joinLines ((x ++ u) :: req) ls := by
  induction h generalizing x with
  | nil => simp
  | cons a h ih =>
    rw [List.cons_append, joinLines_indented (hc _ (by simp))]
    simp only
    rw [ih (fun l hl => hc l (by simp [hl])), trimEnd_iff.mpr a, List.append_assoc]

/-- The texts of headers. -/
inductive Texts : List Header → List (List Char) → Prop where
  | nil : Texts [] []
  | cons {h : Header} {t : List Char} {hs : List Header} {ts : List (List Char)} : h.Text t → Texts hs ts →
      Texts (h :: hs) (t :: ts)

theorem joinLines_headers {hs : List Header} {ts : List (List Char)} (h : Texts hs ts) (hw : ∀ h ∈ hs, h.WF)
    (req : List (List Char)) : joinLines req (hs.flatMap Header.lines) = some (ts.reverse ++ req) := by
  induction h generalizing req with
  | nil => rfl
  | @cons hd t hs ts ht _ ih =>
    have hwf := hw hd (by simp)
    obtain ⟨line, conts⟩ := hd
    cases ht with
    | cons a hj =>
      rw [List.flatMap_cons, Header.lines, List.cons_append, joinLines_plain hwf.line,
        joinLines_conts_eq hwf.conts hj, ih (fun h hh => hw h (by simp [hh])), trimEnd_iff.mpr a]
      simp

theorem Texts.exists : ∀ hs : List Header, ∃ ts, Texts hs ts
  | [] => ⟨[], .nil⟩
  | h :: hs => let ⟨_, h2⟩ := Texts.exists hs; let ⟨_, h1⟩ := Joined.exists h.lines; ⟨_, .cons h1 h2⟩

theorem span_indented : ∀ ls : List (List Char), ∃ cs rs, ls = cs ++ rs ∧ (∀ l ∈ cs, Indented l) ∧
    ∀ l r, rs = l :: r → ¬ Indented l
  | [] => ⟨[], [], rfl, by simp, by simp⟩
  | l :: ls => by
    by_cases h : Indented l
    · obtain ⟨cs, rs, e, h1, h2⟩ := span_indented ls
      refine ⟨l :: cs, rs, by rw [e]; rfl, ?_, h2⟩
      intro x hx
      rcases List.mem_cons.mp hx with rfl | hx
      · exact h
      · exact h1 x hx
    · exact ⟨[], l :: ls, rfl, by simp, fun x r he => by cases he; exact h⟩

/-- Lines of which the first is not indented are the lines of headers. -/
theorem headers_of_lines : ∀ (n : Nat) (ls : List (List Char)), ls.length ≤ n → (∀ l r, ls = l :: r → ¬ Indented l) →
    (∀ l ∈ ls, ∃ c ∈ l, ¬ White c) → ∃ hs : List Header, ls = hs.flatMap Header.lines ∧ ∀ h ∈ hs, h.WF
  | _, [], _, _, _ => ⟨[], rfl, by simp⟩
  | 0, _ :: _, h, _, _ => by simp at h
  | n + 1, l :: ls, hn, h, hv => by
    obtain ⟨cs, rs, rfl, h1, h2⟩ := span_indented ls
    obtain ⟨hs, rfl, hw⟩ := headers_of_lines n rs (by simp at hn; omega) h2 (fun l hl => hv l (by simp [hl]))
    refine ⟨⟨l, cs⟩ :: hs, rfl, ?_⟩
    intro x hx
    rcases List.mem_cons.mp hx with rfl | hx
    · exact ⟨h l _ rfl, h1, fun y hy => hv y (by simp only [Header.lines] at hy; simp at hy ⊢; rcases hy with h | h <;> simp [h])⟩
    · exact hw x hx

theorem toLower_iff {c d u : Char} (hu : u.toNat = d.toNat - 32) (h1 : 97 ≤ d.toNat) (h2 : d.toNat ≤ 122) :
    c.toLower = d ↔ c = d ∨ c = u := by
  have ext : ∀ {a b : Char}, a = b ↔ a.toNat = b.toNat := by
    intro a b
    exact ⟨fun h => by rw [h], fun h => Char.ext (UInt32.toNat_inj.mp h)⟩
  have key : c.toLower.toNat = if 65 ≤ c.toNat ∧ c.toNat ≤ 90 then c.toNat + 32 else c.toNat := by
    unfold Char.toLower
    by_cases h : c.val ≥ 'A'.val ∧ c.val ≤ 'Z'.val
    · have h' : 65 ≤ c.toNat ∧ c.toNat ≤ 90 := ⟨h.1, h.2⟩
      rw [dif_pos h, if_pos h']
      show (c.val + ('a'.val - 'A'.val)).toNat = c.toNat + 32
      rw [UInt32.toNat_add]
      show (c.toNat + 32) % 4294967296 = _
      omega
    · have h' : ¬ (65 ≤ c.toNat ∧ c.toNat ≤ 90) := fun h' => h ⟨h'.1, h'.2⟩
      rw [dif_neg h, if_neg h']
  rw [ext, key, ext, ext]
  split <;> omega

theorem isHostName_iff {n : List Char} : isHostName n = true ↔ NamesHost n := by
  unfold isHostName NamesHost
  rw [beq_iff_eq]
  have h1 : ∀ c : Char, c.toLower = 'h' ↔ c = 'h' ∨ c = 'H' := fun c => toLower_iff rfl (by decide) (by decide)
  have h2 : ∀ c : Char, c.toLower = 'o' ↔ c = 'o' ∨ c = 'O' := fun c => toLower_iff rfl (by decide) (by decide)
  have h3 : ∀ c : Char, c.toLower = 's' ↔ c = 's' ∨ c = 'S' := fun c => toLower_iff rfl (by decide) (by decide)
  have h4 : ∀ c : Char, c.toLower = 't' ↔ c = 't' ∨ c = 'T' := fun c => toLower_iff rfl (by decide) (by decide)
  have e : "host".toList = ['h', 'o', 's', 't'] := by decide
  rw [e]
  constructor
  · intro h
    rcases n with _ | ⟨a, _ | ⟨b, _ | ⟨c, _ | ⟨d, _ | ⟨x, n⟩⟩⟩⟩⟩ <;> simp at h
    exact ⟨a, b, c, d, rfl, (h1 _).mp h.1, (h2 _).mp h.2.1, (h3 _).mp h.2.2.1, (h4 _).mp h.2.2.2⟩
  · rintro ⟨a, b, c, d, rfl, ha, hb, hc, hd⟩
    simp [(h1 a).mpr ha, (h2 b).mpr hb, (h3 c).mpr hc, (h4 d).mpr hd]

theorem hostValue_iff {t v : List Char} : hostValue t = some v ↔ HostField t v := by
  unfold hostValue
  simp only
  constructor
  · intro h
    split at h
    · cases h
    · rename_i hlen
      split at h
      · rename_i hname
        simp only [Option.some.injEq] at h
        have hsplit := (List.takeWhile_append_dropWhile (p := fun c => c != ':') (l := t)).symm
        generalize hn : t.takeWhile (fun c => c != ':') = name at *
        cases hd : t.dropWhile (fun c => c != ':') with
        | nil =>
          rw [hd] at hsplit
          simp at hsplit
          rw [← hsplit] at hlen
          exact absurd rfl hlen
        | cons c r =>
          have hc : c = ':' := by
            have := List.head?_dropWhile_not (fun c => c != ':') t
            rw [hd] at this
            simpa using this
          subst hc
          rw [hd] at hsplit
          have hdrop : t.drop (name.length + 1) = r := by rw [hsplit]; simp
          rw [hdrop] at h
          refine ⟨name, r.takeWhile (fun c => c == ' ' || c == '\t'), ?_, ?_, isHostName_iff.mp hname, ?_, ?_⟩
          · rw [← h, List.takeWhile_append_dropWhile]; exact hsplit
          · intro hm
            rw [← hn] at hm
            have := List.all_eq_true.mp (List.all_takeWhile (p := fun c => c != ':') (l := t)) ':' hm
            simp at this
          · intro c hm
            have := List.all_eq_true.mp (List.all_takeWhile (p := fun c => c == ' ' || c == '\t') (l := r)) c hm
            simpa using this
          · rintro ⟨c, r', e, hc⟩
            have := List.head?_dropWhile_not (fun c => c == ' ' || c == '\t') r
            rw [h, e] at this
            rcases hc with rfl | rfl <;> simp at this
      · cases h
  · rintro ⟨name, ws, rfl, hno, hname, hws, hv⟩
    have htw : (name ++ ':' :: (ws ++ v)).takeWhile (fun c => c != ':') = name := by
      rw [List.takeWhile_append_of_pos (by
        intro c hc
        have : c ≠ ':' := by rintro rfl; exact hno hc
        simp [this])]
      simp
    rw [htw, if_neg (by simp), if_pos (isHostName_iff.mpr hname)]
    have hdrop : (name ++ ':' :: (ws ++ v)).drop (name.length + 1) = ws ++ v := by simp
    rw [hdrop, List.dropWhile_append_of_pos (by
      intro c hc
      rcases hws c hc with rfl | rfl <;> rfl)]
    cases v with
    | nil => rfl
    | cons c r =>
      rw [List.dropWhile_cons_of_neg]
      intro hc
      exact hv ⟨c, r, rfl, by simpa using hc⟩

theorem findHost_some {h : List Char} : ∀ {ts : List (List Char)} {x : List Char}, findHost ts (some x) = some (some h) ↔
    x = h ∧ ∀ t ∈ ts, hostValue t = none
  | [], x => by simp [findHost]
  | t :: ts, x => by
    unfold findHost
    cases ht : hostValue t with
    | none => simp only [findHost_some (ts := ts), List.mem_cons, forall_eq_or_imp, ht, true_and]
    | some v => simp [ht]

theorem findHost_iff {h : List Char} : ∀ {ts : List (List Char)}, findHost ts none = some (some h) ↔
    ∃ pre t post, ts = pre ++ t :: post ∧ hostValue t = some h ∧ ∀ x ∈ pre ++ post, hostValue x = none
  | [] => by simp [findHost]
  | t :: ts => by
    unfold findHost
    cases ht : hostValue t with
    | none =>
      simp only [findHost_iff (ts := ts)]
      constructor
      · rintro ⟨pre, t', post, rfl, h1, h2⟩
        refine ⟨t :: pre, t', post, rfl, h1, ?_⟩
        intro x hx
        rcases List.mem_cons.mp hx with rfl | hx
        · exact ht
        · exact h2 x hx
      · rintro ⟨pre, t', post, e, h1, h2⟩
        cases pre with
        | nil => cases e; rw [ht] at h1; cases h1
        | cons y pre =>
          cases e
          exact ⟨pre, t', post, rfl, h1, fun x hx => h2 x (by simp at hx ⊢; exact .inr hx)⟩
    | some v =>
      simp only [Option.isSome_none, Bool.false_eq_true, if_false, findHost_some]
      constructor
      · rintro ⟨rfl, h2⟩
        exact ⟨[], t, ts, rfl, ht, h2⟩
      · rintro ⟨pre, t', post, e, h1, h2⟩
        cases pre with
        | nil => cases e; rw [ht] at h1; cases h1; exact ⟨rfl, h2⟩
        | cons y pre => cases e; have := h2 t (by simp); rw [ht] at this; cases this

theorem splitSpaces_ne (l : List Char) : splitSpaces l ≠ [] := by
  cases l with
  | nil => simp [splitSpaces]
  | cons c r =>
    unfold splitSpaces
    split
    · simp
    · split <;> simp

theorem splitSpaces_unfold (c : Char) (r : List Char) : splitSpaces (c :: r) =
    if c = ' ' then [] :: splitSpaces r
    else
      match splitSpaces r with
      | [] => [[c]]
      | x :: xs => (c :: x) :: xs := rfl

theorem splitSpaces_one {l p : List Char} : splitSpaces l = [p] ↔ l = p ∧ ' ' ∉ p := by
  induction l generalizing p with
  | nil =>
    constructor
    · intro h; cases h; exact ⟨rfl, by simp⟩
    · rintro ⟨rfl, _⟩; rfl
  | cons c r ih =>
    rw [splitSpaces_unfold]
    split
    · rename_i hc
      subst hc
      constructor
      · intro h; simp at h; exact absurd h.2 (splitSpaces_ne r)
      · rintro ⟨rfl, h⟩; simp at h
    · rename_i hc
      split
      · rename_i h; exact absurd h (splitSpaces_ne r)
      · rename_i x xs h
        constructor
        · intro he
          simp at he
          obtain ⟨rfl, rfl⟩ := he
          obtain ⟨rfl, h2⟩ := ih.mp h
          exact ⟨rfl, by simp [h2]; exact fun he => hc he.symm⟩
        · rintro ⟨rfl, h2⟩
          simp at h2
          rw [ih.mpr ⟨rfl, h2.2⟩] at h
          cases h; rfl

theorem splitSpaces_cons {l p : List Char} {q : List Char} {qs : List (List Char)} :
    splitSpaces l = p :: q :: qs ↔ ∃ r, l = p ++ ' ' :: r ∧ ' ' ∉ p ∧ splitSpaces r = q :: qs := by
  induction l generalizing p with
  | nil => simp [splitSpaces]
  | cons c r ih =>
    rw [splitSpaces_unfold]
    split
    · rename_i hc
      subst hc
      constructor
      · intro h; simp at h; exact ⟨r, by rw [h.1]; rfl, by rw [h.1]; simp, h.2⟩
      · rintro ⟨r', e, h1, h2⟩
        cases p with
        | nil => cases e; rw [h2]
        | cons x p => cases e; simp at h1
    · rename_i hc
      split
      · rename_i h; exact absurd h (splitSpaces_ne r)
      · rename_i x xs h
        constructor
        · intro he
          simp at he
          obtain ⟨rfl, rfl⟩ := he
          obtain ⟨r', rfl, h1, h2⟩ := ih.mp h
          exact ⟨r', rfl, by simp [h1]; exact fun he => hc he.symm, h2⟩
        · rintro ⟨r', e, h1, h2⟩
          cases p with
          | nil => cases e; exact absurd rfl hc
          | cons y p =>
            cases e
            simp at h1
            rw [ih.mpr ⟨r', rfl, h1.2, h2⟩] at h
            cases h; rfl

theorem parseReqLine_iff {l p : List Char} : parseReqLine l = some p ↔
    ∃ v, l = "GET ".toList ++ p ++ ' ' :: v ∧ ' ' ∉ p ∧ ' ' ∉ v := by
  have e : "GET ".toList = ['G', 'E', 'T', ' '] := by decide
  rw [e]
  unfold parseReqLine
  constructor
  · intro h
    split at h
    · rename_i m q v hs
      split at h
      · rename_i hm
        cases h
        subst hm
        obtain ⟨r, rfl, _, h2⟩ := splitSpaces_cons.mp hs
        obtain ⟨r', rfl, h3, h4⟩ := splitSpaces_cons.mp h2
        obtain ⟨rfl, h5⟩ := splitSpaces_one.mp h4
        exact ⟨_, rfl, h3, h5⟩
      · cases h
    · cases h
  · rintro ⟨v, rfl, h1, h2⟩
    rw [show splitSpaces (['G', 'E', 'T', ' '] ++ p ++ ' ' :: v) = [['G', 'E', 'T'], p, v] from
      splitSpaces_cons.mpr ⟨p ++ ' ' :: v, rfl, by decide, splitSpaces_cons.mpr ⟨v, rfl, h1, splitSpaces_one.mpr ⟨rfl, h2⟩⟩⟩]
    rfl

theorem Texts.append {hs hs' : List Header} {ts ts' : List (List Char)} (h : Texts hs ts) (h' : Texts hs' ts') :
    Texts (hs ++ hs') (ts ++ ts') := by
  induction h with
  | nil => exact h'
  | cons a _ ih => exact .cons a ih

theorem Texts.split {hs : List Header} {ts ts' : List (List Char)} (h : Texts hs (ts ++ ts')) :
    ∃ h1 h2, hs = h1 ++ h2 ∧ Texts h1 ts ∧ Texts h2 ts' := by
  induction ts generalizing hs with
  | nil => exact ⟨[], hs, rfl, .nil, h⟩
  | cons t ts ih =>
    cases h with
    | cons a h =>
      obtain ⟨h1, h2, rfl, e1, e2⟩ := ih h
      exact ⟨_ :: h1, h2, rfl, .cons a e1, e2⟩

theorem Texts.mem {hs : List Header} {ts : List (List Char)} (h : Texts hs ts) {x : Header} (hx : x ∈ hs) {t : List Char}
    (ht : x.Text t) : t ∈ ts := by
  induction h with
  | nil => cases hx
  | cons a _ ih =>
    rcases List.mem_cons.mp hx with rfl | hx
    · rw [Joined.unique ht a]; simp
    · exact List.mem_cons_of_mem _ (ih hx)

theorem Texts.mem' {hs : List Header} {ts : List (List Char)} (h : Texts hs ts) {t : List Char}
    (ht : t ∈ ts) : ∃ x ∈ hs, x.Text t := by
  induction h with
  | nil => cases ht
  | cons a _ ih =>
    rcases List.mem_cons.mp ht with rfl | ht
    · exact ⟨_, by simp, a⟩
    · obtain ⟨x, hx, h⟩ := ih ht
      exact ⟨x, by simp [hx], h⟩

/-- **C63.** An HTTP server understands exactly the `GET` requests smaller than 16 KiB with exactly one `host` field;
the request is for the URL with the scheme of the server, that host and the requested path. -/
theorem C63 {b : Bytes} {sec : Bool} {uri : Url} : parseGet E b sec = some uri ↔
    ∃ path host, GetRequest b path host ∧
      E.parseUrl ((if sec then "https" else "http") ++ "://" ++ String.ofList host ++ String.ofList path) = some uri := by
  constructor
  · intro h
    unfold parseGet at h
    split at h
    · cases h
    · rename_i line b1 hl
      have hfl := readLine_iff.mp hl
      split at h
      · cases h
      · rename_i path hp
        obtain ⟨v, rfl, hsp1, hsp2⟩ := parseReqLine_iff.mp hp
        split at h
        · cases h
        · rename_i req rest hloop
          obtain ⟨ls, b2, blank, e1, e2, e3, e4, e5, e6⟩ := (headerLoopN_iff _ (by omega)).mp hloop
          split at h
          · rename_i host hh
            have hfirst : ∀ l r, ls = l :: r → ¬ Indented l := by
              rintro l r rfl hi
              rw [joinLines_indented hi] at e6
              cases e6
            obtain ⟨hs, rfl, hw⟩ := headers_of_lines ls.length ls (Nat.le_refl _) hfirst e4
            obtain ⟨ts, hts⟩ := Texts.exists hs
            rw [joinLines_headers hts hw] at e6
            simp only [List.append_nil, Option.some.injEq] at e6
            subst e6
            rw [List.reverse_reverse] at hh
            obtain ⟨p1, t, p2, rfl, hv, hno⟩ := findHost_iff.mp hh
            obtain ⟨h1, h2, rfl, t1, t2⟩ := hts.split
            cases t2 with
            | @cons hd _ h2 _ a t2 =>
              refine ⟨path, host, ⟨v, h1, h2, hd, blank, b1, b2, rest, hfl, hsp1, hsp2, e1, hw, e2, e3, ?_,
                ⟨t, a, hostValue_iff.mp hv⟩, ?_⟩, h⟩
              · rw [hfl.split] at e5
                simpa [linesSize] using e5
              · intro x hx t' v' ht' hf
                have : hostValue t' = none := by
                  apply hno
                  rcases List.mem_append.mp hx with hx | hx
                  · exact List.mem_append_left _ (t1.mem hx ht')
                  · exact List.mem_append_right _ (t2.mem hx ht')
                rw [hostValue_iff.mpr hf] at this
                cases this
          · cases h
  · rintro ⟨path, host, ⟨v, h1, h2, hd, blank, b1, b2, rest, hfl, hsp1, hsp2, e1, hw, e2, e3, e5, ⟨t, ht, hf⟩, hno⟩, hu⟩
    unfold parseGet
    rw [readLine_iff.mpr hfl]
    simp only
    rw [parseReqLine_iff.mpr ⟨v, rfl, hsp1, hsp2⟩]
    simp only
    obtain ⟨ts1, hts1⟩ := Texts.exists h1
    obtain ⟨ts2, hts2⟩ := Texts.exists h2
    have hts := hts1.append (.cons ht hts2)
    have hloop : headerLoop b1 (splitLine b).1.length = some ((ts1 ++ t :: ts2).reverse, rest) := by
      refine (headerLoopN_iff _ (by omega)).mpr ⟨_, b2, blank, e1, e2, e3, ?_, ?_, ?_⟩
      · intro l hl
        obtain ⟨x, hx, hl⟩ := List.mem_flatMap.mp hl
        exact (hw x hx).visible l hl
      · rw [hfl.split]
        simpa [linesSize] using e5
      · rw [joinLines_headers hts hw, List.append_nil]
    rw [hloop]
    simp only [List.reverse_reverse]
    have hfind : findHost (ts1 ++ t :: ts2) none = some (some host) := by
      refine findHost_iff.mpr ⟨ts1, t, ts2, rfl, hostValue_iff.mpr hf, ?_⟩
      intro x hx
      cases hxv : hostValue x with
      | none => rfl
      | some v =>
        exfalso
        rcases List.mem_append.mp hx with hx | hx
        · obtain ⟨y, hy, hyt⟩ := hts1.mem' hx
          exact hno y (by simp [hy]) x v hyt (hostValue_iff.mp hxv)
        · obtain ⟨y, hy, hyt⟩ := hts2.mem' hx
          exact hno y (by simp [hy]) x v hyt (hostValue_iff.mp hxv)
    rw [hfind]
    exact hu

/-! ## Examples -/

open Demo

/-- A request with the field name in capitals, two continuation lines, and data after the empty line. -/
example : parseGet env (utf8 "GET /?code=c HTTP/1.1\r\naccept: x,\r\n y\nHOST:\t localhost:80\r\n\t80\n \nfurther data") false = none ∧
    parseGet env (utf8 "GET /?code=c HTTP/1.1\r\naccept: x,\r\n y\nHOST:\t localhost:8080\r\n\r\nfurther data") false =
      some ⟨"http", some "localhost", some 8080, "/", [("code", "c")]⟩ := by decide +kernel

/-- Two `host` fields, no `host` field, another method, too many parts, not UTF-8: these are refused. -/
example : parseGet env (utf8 "GET /?code=c HTTP/1.1\r\nhost: localhost:8080\r\nHost: localhost:8080\r\n\r\n") false = none ∧
    parseGet env (utf8 "GET /?code=c HTTP/1.1\r\nhosts: localhost:8080\r\n\r\n") false = none ∧
    parseGet env (utf8 "POST /?code=c HTTP/1.1\r\nhost: localhost:8080\r\n\r\n") false = none ∧
    parseGet env (utf8 "GET /?code=c  HTTP/1.1\r\nhost: localhost:8080\r\n\r\n") false = none ∧
    parseGet env (utf8 "GET /?code=c HTTP/1.1\r\nhost: localhost:8080\r\n" ++ [0xff, 13, 10] ++ utf8 "\r\n") false = none := by
  decide +kernel

end Pizauth
