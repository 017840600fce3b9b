import Verif.Model.HttpStream

/-!
# Reading an HTTP request while it arrives
-/

namespace Pizauth

variable {E : Env}

theorem splitLine_lengths (b : Bytes) : (splitLine b).1.length + (splitLine b).2.length = b.length := by
  induction b with
  | nil => rfl
  | cons x r ih =>
    unfold splitLine
    split
    · simp; omega
    · simp only [List.length_cons]; omega

theorem splitLine_some {b : Bytes} (h : b ≠ []) : 0 < (splitLine b).1.length := by
  cases b with
  | nil => exact absurd rfl h
  | cons x r => unfold splitLine; split <;> simp

theorem splitLine_arrive {b : Bytes} (h : b.contains 10 = true) (x : Bytes) :
    splitLine (b ++ x) = ((splitLine b).1, (splitLine b).2 ++ x) := by
  induction b with
  | nil => simp at h
  | cons y r ih =>
    rw [List.cons_append]
    unfold splitLine
    split
    · simp
    · rename_i hy
      have : r.contains 10 = true := by simpa [Ne.symm hy] using h
      rw [ih this]

theorem readLine_arrive {b : Bytes} (h : b.contains 10 = true) (x : Bytes) :
    readLine (b ++ x) = (readLine b).map fun p => (p.1, p.2 ++ x) := by
  unfold readLine
  rw [splitLine_arrive h]
  cases fromUtf8 (splitLine b).1 <;> simp

theorem readLine_left {b b' : Bytes} {l : List Char} (h : readLine b = some (l, b')) : b' = (splitLine b).2 := by
  unfold readLine at h
  cases hf : fromUtf8 (splitLine b).1 <;> simp [hf] at h
  exact h.2.symm

/-- A line with a character has a byte. -/
theorem readLine_nonempty {b b' : Bytes} {l : List Char} (h : readLine b = some (l, b')) (hl : isBlank l = false) : b ≠ [] := by
  rintro rfl
  have : readLine [] = some ([], []) := by decide +kernel
  rw [this] at h
  cases h
  simp [isBlank] at hl

theorem readLine_progress {b b' : Bytes} {l : List Char} (h : readLine b = some (l, b')) (hl : isBlank l = false) :
    b'.length < b.length := by
  have h1 := splitLine_lengths b
  have h2 := splitLine_some (readLine_nonempty h hl)
  rw [readLine_left h]
  omega

/-- At the end of the stream the loop is that of `parse_get` with all bytes. -/
theorem streamLoopN_eof : ∀ (n : Nat) (b : Bytes) (size : Nat) (req : List (List Char)), b.length < n →
    streamLoopN n b true size req = some ((headerLoopN n b size req).map (·.1))
  | 0, _, _, _, h => by omega
  | n + 1, b, size, req, h => by
    unfold streamLoopN headerLoopN
    simp only [lineReady, Bool.true_or, Bool.not_true, Bool.false_eq_true, if_false]
    split
    · rfl
    · cases hl : readLine b with
      | none => rfl
      | some p =>
        obtain ⟨line, b'⟩ := p
        simp only
        by_cases hb : isBlank line = true
        · rw [if_pos hb, if_pos hb]; rfl
        · rw [if_neg hb, if_neg hb]
          have hlt := readLine_progress hl (by simpa using hb)
          split
          · cases hc : pushCont req _ with
            | none => rfl
            | some req' => exact streamLoopN_eof n b' _ _ (by omega)
          · cases hc : pushCont req _ with
            | none => rfl
            | some req' => exact streamLoopN_eof n b' _ _ (by omega)
          · rename_i d1 d2
            split
            · exact (d1 _ rfl).elim
            · exact (d2 _ rfl).elim
            · exact streamLoopN_eof n b' _ _ (by omega)

/-- What the loop has found stays, whatever arrives later, and whether or not the stream ends. -/
theorem streamLoopN_append : ∀ (n m : Nat) (b x : Bytes) (eof : Bool) (size : Nat) (req : List (List Char))
    (r : Option (List (List Char))), b.length < n → (b ++ x).length < m → streamLoopN n b false size req = some r →
    streamLoopN m (b ++ x) eof size req = some r
  | 0, _, _, _, _, _, _, _, h, _, _ => by omega
  | _, 0, _, _, _, _, _, _, _, h, _ => by omega
  | n + 1, m + 1, b, x, eof, size, req, r, hn, hm, h => by
    unfold streamLoopN at h ⊢
    simp only [List.length_append] at hm
    by_cases h1 : maxHttpRequestSize ≤ size
    · rw [if_pos h1] at h ⊢; exact h
    rw [if_neg h1] at h ⊢
    by_cases h2 : b.contains 10 = true
    · have h3 : (!lineReady b false) = false := by unfold lineReady; rw [h2]; rfl
      have h4 : (!lineReady (b ++ x) eof) = false := by
        have : (b ++ x).contains 10 = true := by
          simp only [List.contains_iff_mem, List.mem_append] at h2 ⊢; exact .inl h2
        unfold lineReady; rw [this]; simp
      rw [h3] at h; rw [h4]
      simp only [Bool.false_eq_true, if_false] at h ⊢
      rw [readLine_arrive h2, splitLine_arrive h2]
      cases hl : readLine b with
      | none => rw [hl] at h; exact h
      | some p =>
        obtain ⟨line, b'⟩ := p
        rw [hl] at h
        simp only [Option.map_some] at h ⊢
        by_cases hb : isBlank line = true
        · rw [if_pos hb] at h ⊢; exact h
        · rw [if_neg hb] at h ⊢
          have hlt := readLine_progress hl (by simpa using hb)
          split at h
          · cases hc : pushCont req _ with
            | none => simp only [hc] at h ⊢; exact h
            | some req' =>
              simp only [hc] at h ⊢
              exact streamLoopN_append n m b' x eof _ _ _ (by omega) (by simp; omega) h
          · cases hc : pushCont req _ with
            | none => simp only [hc] at h ⊢; exact h
            | some req' =>
              simp only [hc] at h ⊢
              exact streamLoopN_append n m b' x eof _ _ _ (by omega) (by simp; omega) h
          · exact streamLoopN_append n m b' x eof _ _ _ (by omega) (by simp; omega) h
    · have h3 : (!lineReady b false) = true := by simpa [lineReady] using h2
      rw [h3] at h
      simp at h

/-- With `eof`, `streamGet` is `parseGet`. -/
theorem streamGet_eof (b : Bytes) (sec : Bool) : streamGet E b true sec = some (parseGet E b sec) := by
  unfold streamGet parseGet headerLoop requestUri
  simp only [lineReady, Bool.true_or, Bool.not_true, Bool.false_eq_true, if_false]
  cases hl : readLine b with
  | none => rfl
  | some p =>
    obtain ⟨line, b'⟩ := p
    simp only
    cases hp : parseReqLine line with
    | none => rfl
    | some path =>
      simp only
      rw [streamLoopN_eof _ _ _ _ (Nat.lt_succ_self _)]
      cases headerLoopN (b'.length + 1) b' (splitLine b).1.length [] with
      | none => rfl
      | some p => rfl

theorem streamGet_append {b x : Bytes} {eof sec : Bool} {r : Option Url} (h : streamGet E b false sec = some r) :
    streamGet E (b ++ x) eof sec = some r := by
  unfold streamGet at h ⊢
  by_cases h2 : b.contains 10 = true
  · have h3 : (!lineReady b false) = false := by unfold lineReady; rw [h2]; rfl
    have h4 : (!lineReady (b ++ x) eof) = false := by
      have : (b ++ x).contains 10 = true := by
        simp only [List.contains_iff_mem, List.mem_append] at h2 ⊢; exact .inl h2
      unfold lineReady; rw [this]; simp
    rw [h3] at h; rw [h4]
    simp only [Bool.false_eq_true, if_false] at h ⊢
    rw [readLine_arrive h2, splitLine_arrive h2]
    cases hl : readLine b with
    | none => rw [hl] at h; exact h
    | some p =>
      obtain ⟨line, b'⟩ := p
      rw [hl] at h
      simp only [Option.map_some] at h ⊢
      cases hp : parseReqLine line with
      | none => rw [hp] at h; exact h
      | some path =>
        rw [hp] at h
        simp only at h ⊢
        cases hs : streamLoopN (b'.length + 1) b' false (splitLine b).1.length [] with
        | none => rw [hs] at h; cases h
        | some q =>
          rw [streamLoopN_append _ ((b' ++ x).length + 1) b' x eof _ _ q (Nat.lt_succ_self _) (Nat.lt_succ_self _) hs]
          rw [hs] at h
          exact h
  · have h3 : (!lineReady b false) = true := by simpa [lineReady] using h2
    rw [h3] at h
    simp at h

/-- An empty line follows. -/
def EmptyNext (b : Bytes) : Prop := ∃ q, b = 10 :: q ∨ b = 13 :: 10 :: q

/-- There is an empty line further on. -/
def EmptyAhead (b : Bytes) : Prop := ∃ p q, b = p ++ 10 :: q ∧ EmptyNext q

theorem EmptyAhead.line : ∀ {b : Bytes}, EmptyAhead b → b.contains 10 = true ∧
    (EmptyNext (splitLine b).2 ∨ EmptyAhead (splitLine b).2)
  | [], ⟨p, q, h, _⟩ => by simp at h
  | y :: r, ⟨p, q, h, hq⟩ => by
    unfold splitLine
    by_cases hy : y = 10
    · subst hy
      simp only [if_true]
      refine ⟨by simp, ?_⟩
      cases p with
      | nil => simp at h; rw [h]; exact .inl hq
      | cons z p => simp at h; exact .inr ⟨p, q, h.2, hq⟩
    · rw [if_neg hy]
      cases p with
      | nil => simp at h; exact absurd h.1 hy
      | cons z p =>
        simp at h
        obtain ⟨h1, h2⟩ := EmptyAhead.line (b := r) ⟨p, q, h.2, hq⟩
        refine ⟨by rw [List.contains_iff_mem] at h1 ⊢; exact List.mem_cons_of_mem _ h1, h2⟩

theorem streamLoopN_emptyNext {n : Nat} {b : Bytes} {size : Nat} {req : List (List Char)} (h : EmptyNext b) :
    streamLoopN n b false size req ≠ none := by
  cases n with
  | zero => simp [streamLoopN]
  | succ n =>
    unfold streamLoopN
    split
    · simp
    · obtain ⟨q, rfl | rfl⟩ := h
      · have h1 : readLine ([10] ++ q) = some (['\n'], q) := by
          rw [readLine_arrive (by decide +kernel)]
          have : readLine [10] = some (['\n'], []) := by decide +kernel
          rw [this]; rfl
        have h2 : readLine (10 :: q) = some (['\n'], q) := h1
        have h3 : isBlank ['\n'] = true := by decide
        simp [lineReady, h2, h3]
      · have h1 : readLine ([13, 10] ++ q) = some (['\r', '\n'], q) := by
          rw [readLine_arrive (by decide +kernel)]
          have : readLine [13, 10] = some (['\r', '\n'], []) := by decide +kernel
          rw [this]; rfl
        have h2 : readLine (13 :: 10 :: q) = some (['\r', '\n'], q) := h1
        have h3 : isBlank ['\r', '\n'] = true := by decide
        simp [lineReady, h2, h3]

theorem streamLoopN_emptyAhead : ∀ (n : Nat) (b : Bytes) (size : Nat) (req : List (List Char)),
    EmptyNext b ∨ EmptyAhead b → streamLoopN n b false size req ≠ none
  | 0, _, _, _, _ => by simp [streamLoopN]
  | n + 1, b, size, req, .inl h => streamLoopN_emptyNext h
  | n + 1, b, size, req, .inr h => by
    obtain ⟨h1, h2⟩ := h.line
    unfold streamLoopN
    have h3 : (!lineReady b false) = false := by unfold lineReady; rw [h1]; rfl
    split
    · simp
    · rw [h3]
      simp only [Bool.false_eq_true, if_false]
      split
      · simp
      · rename_i line b' hl
        rw [← readLine_left hl] at h2
        split
        · simp
        · split
          · split
            · simp
            · exact streamLoopN_emptyAhead n b' _ _ h2
          · split
            · simp
            · exact streamLoopN_emptyAhead n b' _ _ h2
          · exact streamLoopN_emptyAhead n b' _ _ h2

theorem streamGet_emptyAhead {b : Bytes} {sec : Bool} (h : EmptyAhead b) : streamGet E b false sec ≠ none := by
  obtain ⟨h1, h2⟩ := h.line
  unfold streamGet
  have h3 : (!lineReady b false) = false := by unfold lineReady; rw [h1]; rfl
  rw [h3]
  simp only [Bool.false_eq_true, if_false]
  split
  · simp
  · rename_i line b' hl
    rw [← readLine_left hl] at h2
    split
    · simp
    · split
      · rename_i hn; exact absurd hn (streamLoopN_emptyAhead _ _ _ _ h2)
      · simp
      · simp

end Pizauth
