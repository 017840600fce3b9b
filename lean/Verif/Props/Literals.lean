import Verif.Proof.Lex
import Verif.Proof.Texts

/-!
# C40, C41: string and time literals
-/

namespace Pizauth

/-! ## C40 -/

/-- **C40.** The literal made by putting a backslash before quotes and backslashes is one token, whatever follows. -/
theorem C40_token (s rest : String) : lex (quoteStr s ++ rest) = ⟨.STRING, quoteStr s⟩ :: lex rest := by
  rw [lex_eq, lex_eq]
  have : (quoteStr s ++ rest).toList = quoteChars s.toList ++ rest.toList := by simp [quoteStr]
  rw [this, lexC_quote]
  rfl

/-- **C40.** It denotes the string it was made from. -/
theorem C40_denotes (s : String) : unescapeStr (quoteStr s) = s := unescapeStr_quote s

/-- **C40.** There are no other string literals: every string token, in any file, was made like this. So unescaping it
finds an opening and a closing quote and only escaped quotes and backslashes (the assertions in the code). -/
theorem C40_only {file : String} {t : Tok} (h : t ∈ lex file) (hk : t.kind = .STRING) :
    t.text = quoteStr (unescapeStr t.text) := by
  obtain ⟨v, hv⟩ := string_tok_quote h hk
  rw [hv, unescapeStr_quote]

/-! ## C41 -/

theorem isDigit09_eq (c : Char) : isDigit09 c = c.isDigit := by
  simp only [isDigit09, Char.isDigit, Char.le_def]

theorem digitsVal_append (ds : List Char) : ∀ n : Nat,
    ds.foldl (fun n c => n * 10 + (c.toNat - 48)) n = n * 10 ^ ds.length + numberOf ds := by
  induction ds with
  | nil => intro n; simp [numberOf]
  | cons c r ih =>
    intro n
    simp only [List.foldl_cons, ih, numberOf, List.length_cons, digitVal]
    have : '0'.toNat = 48 := rfl
    rw [this, Nat.pow_succ, Nat.add_mul, Nat.mul_assoc, Nat.mul_comm 10, Nat.add_assoc]

theorem digitsVal_eq (ds : List Char) : digitsVal ds = numberOf ds := by
  unfold digitsVal; rw [digitsVal_append]; simp

/-- **C41.** A time literal (digits and a unit) denotes exactly that time, or is rejected since it does not fit. -/
theorem C41 {ds : List Char} {u : Char} {k : Nat} (hne : ds ≠ []) (hd : ∀ c ∈ ds, c ∈ "0123456789".toList)
    (hu : unitSecs u = some k) :
    timeStrToDuration (String.ofList (ds ++ [u])) =
      if numberOf ds * k < 2 ^ 64 then .ok (numberOf ds * k * 1000000000) else .error .badTime := by
  have hdig : ∀ c ∈ ds, c.isDigit = true := fun c hc => isDigit09_eq c ▸ isDigit09_iff.mpr (hd c hc)
  have hunit : (u = 's' ∧ k = 1) ∨ (u = 'm' ∧ k = 60) ∨ (u = 'h' ∧ k = 3600) ∨ (u = 'd' ∧ k = 86400) := by
    unfold unitSecs at hu
    repeat' split at hu
    all_goals simp_all
  have hud : u.isDigit = false := by rcases hunit with h | h | h | h <;> rw [h.1] <;> decide
  have hf : (ds ++ [u]).filter Char.isDigit = ds := by
    rw [List.filter_append, List.filter_eq_self.mpr hdig]
    simp [hud]
  have hall : ds.all Char.isDigit = true := List.all_eq_true.mpr hdig
  have hemp : ds.isEmpty = false := by cases ds with
    | nil => exact absurd rfl hne
    | cons _ _ => rfl
  have hsz : (2 ^ 64 : Nat) = u64Size := by decide
  unfold timeStrToDuration secs nsPerSec
  simp only [String.toList_ofList, hf, List.take_left', parseU64, hemp, hall, digitsVal_eq, Bool.not_true, Bool.or_self,
    Bool.false_eq_true, if_false, List.getLast?_append, List.getLast?_singleton, Option.or, hsz]
  by_cases hn : numberOf ds < u64Size
  · simp only [hn, if_true]
    rcases hunit with ⟨rfl, rfl⟩ | ⟨rfl, rfl⟩ | ⟨rfl, rfl⟩ | ⟨rfl, rfl⟩
    · simp [hn]
    all_goals
      simp only [checkedMul]
      split <;> rename_i hs <;> split at hs <;> simp_all
  · have hk : 0 < k := by rcases hunit with h | h | h | h <;> omega
    have : ¬ numberOf ds * k < u64Size := by
      have := Nat.le_mul_of_pos_right (numberOf ds) hk
      omega
    simp only [hn, this, if_false]

/-- **C41.** Every time token, in any file, has this form. So there is always an answer (no panic). -/
theorem C41_only {file : String} {t : Tok} (h : t ∈ lex file) (hk : t.kind = .TIME) :
    ∃ ds u k, t.text = String.ofList (ds ++ [u]) ∧ ds ≠ [] ∧ (∀ c ∈ ds, c ∈ "0123456789".toList) ∧ unitSecs u = some k := by
  obtain ⟨ds, u, h1, h2, h3, h4⟩ := time_tok_shape h hk
  rcases h4 with rfl | rfl | rfl | rfl
  · exact ⟨ds, _, 86400, h1, h2, fun c hc => isDigit09_iff.mp (h3 c hc), by decide⟩
  · exact ⟨ds, _, 3600, h1, h2, fun c hc => isDigit09_iff.mp (h3 c hc), by decide⟩
  · exact ⟨ds, _, 60, h1, h2, fun c hc => isDigit09_iff.mp (h3 c hc), by decide⟩
  · exact ⟨ds, _, 1, h1, h2, fun c hc => isDigit09_iff.mp (h3 c hc), by decide⟩

theorem C41_no_panic {file : String} {t : Tok} (h : t ∈ lex file) (hk : t.kind = .TIME) :
    timeStrToDuration t.text ≠ .error .panic := by
  obtain ⟨ds, u, k, h1, h2, h3, h4⟩ := C41_only h hk
  rw [h1, C41 h2 h3 h4]
  split <;> simp

theorem numberOf_ofDigitChars (ds : List Char) : numberOf ds = Nat.ofDigitChars 10 ds 0 := by
  rw [← digitsVal_eq, digitsVal, Nat.ofDigitChars_eq_foldl]
  congr 1
  funext n c
  have : '0'.toNat = 48 := rfl
  rw [this, Nat.mul_comm]

/-- **C41.** Every number of seconds which fits can be written. -/
theorem C41_write (n : Nat) (h : n < 2 ^ 64) : timeStrToDuration (toString n ++ "s") = .ok (n * 1000000000) := by
  have h1 : toString n ++ "s" = String.ofList (Nat.toDigits 10 n ++ ['s']) := by
    rw [String.ofList_append, ← Nat.toString_eq_ofList_toDigits]
  have hv : numberOf (Nat.toDigits 10 n) = n := by
    rw [numberOf_ofDigitChars, Nat.ofDigitChars_ten_toDigits]
  rw [h1, C41 (k := 1) Nat.toDigits_ne_nil
    (fun c hc => by rw [← isDigit09_iff, isDigit09_eq]; exact Nat.isDigit_of_mem_toDigits (by decide) (by decide) hc) (by decide), hv]
  simp [h]

/-! ## Concrete cases -/

/-- C40: the repository's tests `test_unescape_string` and `string_escapes`. -/
example : unescapeStr "\"\"" = "" ∧ unescapeStr "\"a\"" = "a" ∧ unescapeStr "\"a\\\"\"" = "a\"" ∧
    unescapeStr "\"a\\\"b\"" = "a\"b" ∧ unescapeStr "\"\\\\\"" = "\\" ∧
    (lex "\"\\\\\"").length = 1 ∧ (lex "\"\\\"\\\"\"").length = 1 ∧ (lex "\"\\n\"").length = 4 := by
  decide +kernel

/-- C40: a literal. -/
example : quoteStr "a\"b\\\nü" = "\"a\\\"b\\\\\nü\"" ∧
    lex "x \"a\\\"b\\\\\nü\";" = [⟨.UNMATCHED, "x"⟩, ⟨.STRING, "\"a\\\"b\\\\\nü\""⟩, ⟨.SEMI, ";"⟩] := by decide +kernel

/-- C41: the repository's test `test_time_str_to_duration`. -/
example : timeStrToDuration "0s" = .ok (secs 0) ∧ timeStrToDuration "1s" = .ok (secs 1) ∧
    timeStrToDuration "1m" = .ok (secs 60) ∧ timeStrToDuration "2m" = .ok (secs 120) ∧
    timeStrToDuration "1h" = .ok (secs 3600) ∧ timeStrToDuration "1d" = .ok (secs 86400) ∧
    timeStrToDuration "9223372036854775808m" = .error .badTime ∧
    timeStrToDuration "18446744073709551615s" = .ok (secs 18446744073709551615) ∧
    timeStrToDuration "18446744073709551616s" = .error .badTime := by decide +kernel

example : lex "12m" = [⟨.TIME, "12m"⟩] ∧ numberOf "12".toList = 12 ∧ unitSecs 'm' = some 60 := by decide +kernel

end Pizauth
