import Verif.Model.Syntax
import Verif.Spec.Literals

/-!
# The lexer
-/

namespace Pizauth

/-! ## Matches -/

theorem takeWhile_length_le {α : Type} (p : α → Bool) : ∀ l : List α, (l.takeWhile p).length ≤ l.length
  | [] => by simp
  | a :: l => by
    have := takeWhile_length_le p l
    simp only [List.takeWhile]
    split <;> simp_all

theorem takeWhile_take {α : Type} (p : α → Bool) : ∀ l : List α, l.take (l.takeWhile p).length = l.takeWhile p
  | [] => by simp
  | a :: l => by
    have := takeWhile_take p l
    simp only [List.takeWhile]
    split <;> simp_all

theorem takeWhile_all {α : Type} (p : α → Bool) {a : α} : ∀ {l : List α}, a ∈ l.takeWhile p → p a = true
  | [], h => by simp at h
  | b :: l, h => by
    simp only [List.takeWhile] at h
    split at h
    · rcases List.mem_cons.mp h with rfl | h
      · assumption
      · exact takeWhile_all p h
    · cases h

theorem matchInt_bound {i : List Char} {n : Nat} (h : matchInt i = some n) : 0 < n ∧ n ≤ i.length := by
  unfold matchInt at h
  have hl := takeWhile_length_le isDigit09 i
  split at h
  · cases h
  · cases h; omega

theorem matchTime_bound {i : List Char} {n : Nat} (h : matchTime i = some n) : 0 < n ∧ n ≤ i.length := by
  unfold matchTime at h
  split at h
  · cases h
  · rename_i m hm
    split at h
    · cases h
    · rename_i c r hd
      split at h
      · cases h
        have := congrArg List.length hd
        simp at this
        omega
      · cases h

theorem matchStrRest_bound : ∀ {i : List Char} {n : Nat}, matchStrRest i = some n → 0 < n ∧ n ≤ i.length
  | [], n, h => by simp [matchStrRest] at h
  | c :: r, n, h => by
    rw [matchStrRest.eq_def] at h
    simp only at h
    split at h
    · cases h; simp
    · split at h
      · cases r with
        | nil => cases h
        | cons c2 r2 =>
          simp only at h
          split at h
          · simp only [Option.map_eq_some_iff] at h
            obtain ⟨m, hm, rfl⟩ := h
            have := matchStrRest_bound hm
            simp; omega
          · cases h
      · simp only [Option.map_eq_some_iff] at h
        obtain ⟨m, hm, rfl⟩ := h
        have := matchStrRest_bound hm
        simp; omega

theorem matchStr_bound {i : List Char} {n : Nat} (h : matchStr i = some n) : 0 < n ∧ n ≤ i.length := by
  unfold matchStr at h
  split at h
  · cases h
  · split at h
    · simp only [Option.map_eq_some_iff] at h
      obtain ⟨m, hm, rfl⟩ := h
      have := matchStrRest_bound hm
      simp; omega
    · cases h

theorem matchLit_bound {s : String} (hs : s ≠ "") {i : List Char} {n : Nat} (h : matchLit s i = some n) :
    0 < n ∧ n ≤ i.length := by
  unfold matchLit at h
  split at h
  · rename_i hp
    cases h
    refine ⟨?_, (List.isPrefixOf_iff_prefix.mp hp).length_le⟩
    cases hl : s.toList with
    | nil => exact absurd (String.toList_eq_nil_iff.mp hl) hs
    | cons c r => simp
  · cases h

theorem matchComment_bound {i : List Char} {n : Nat} (h : matchComment i = some n) : 0 < n ∧ n ≤ i.length := by
  unfold matchComment at h
  split at h
  · rename_i hp
    cases h
    refine ⟨?_, takeWhile_length_le _ _⟩
    obtain ⟨r, rfl⟩ := List.isPrefixOf_iff_prefix.mp hp
    simp
  · cases h

theorem matchBlank_bound {i : List Char} {n : Nat} (h : matchBlank i = some n) : 0 < n ∧ n ≤ i.length := by
  unfold matchBlank at h
  have hl := takeWhile_length_le isBlankChar i
  split at h
  · cases h
  · cases h; omega

theorem matchAny_bound {i : List Char} {n : Nat} (h : matchAny i = some n) : 0 < n ∧ n ≤ i.length := by
  unfold matchAny at h
  split at h
  · cases h
  · cases h; simp

theorem rule_bound {k : Kind} {m : List Char → Option Nat} (hm : (k, m) ∈ lexRules) {i : List Char} {n : Nat}
    (h : m i = some n) : 0 < n ∧ n ≤ i.length := by
  simp only [lexRules, List.mem_cons, Prod.mk.injEq, List.not_mem_nil, or_false] at hm
  rcases hm with ⟨_, rfl⟩ | ⟨_, rfl⟩ | ⟨_, rfl⟩ | hm
  · exact matchTime_bound h
  · exact matchInt_bound h
  · exact matchStr_bound h
  iterate 29
    rcases hm with ⟨_, rfl⟩ | hm
    · exact matchLit_bound (by decide) h
  rcases hm with ⟨_, rfl⟩ | ⟨_, rfl⟩ | ⟨_, rfl⟩
  · exact matchComment_bound h
  · exact matchBlank_bound h
  · exact matchAny_bound h

/-! ## The longest match -/

theorem longest_spec {i : List Char} : ∀ {rs : List (Kind × (List Char → Option Nat))} {best : Option (Kind × Nat)}
    {k : Kind} {n : Nat}, longest i rs best = some (k, n) →
    best = some (k, n) ∨ ∃ m, (k, m) ∈ rs ∧ m i = some n
  | [], best, k, n, h => .inl h
  | (k1, m1) :: rs, best, k, n, h => by
    simp only [longest] at h
    rcases longest_spec h with h | ⟨m, hm, hn⟩
    · split at h
      · cases h; exact .inr ⟨m1, by simp, by assumption⟩
      · split at h
        · cases h; exact .inr ⟨m1, by simp, by assumption⟩
        · exact .inl h
      · exact .inl h
    · exact .inr ⟨m, List.mem_cons_of_mem _ hm, hn⟩

theorem longest_none {i : List Char} : ∀ {rs : List (Kind × (List Char → Option Nat))} {best : Option (Kind × Nat)},
    longest i rs best = none → best = none ∧ ∀ x ∈ rs, x.2 i = none
  | [], best, h => ⟨h, by simp⟩
  | (k1, m1) :: rs, best, h => by
    simp only [longest] at h
    obtain ⟨h1, h2⟩ := longest_none h
    split at h1
    · cases h1
    · split at h1 <;> cases h1
    · refine ⟨h1, ?_⟩
      intro x hx
      rcases List.mem_cons.mp hx with rfl | hx
      · assumption
      · exact h2 x hx

theorem longest_lexRules_bound {i : List Char} {k : Kind} {n : Nat} (h : longest i lexRules none = some (k, n)) :
    0 < n ∧ n ≤ i.length := by
  rcases longest_spec h with h | ⟨m, hm, hn⟩
  · cases h
  · exact rule_bound hm hn

theorem longest_lexRules_some (c : Char) (r : List Char) : ∃ k n, longest (c :: r) lexRules none = some (k, n) := by
  cases h : longest (c :: r) lexRules none with
  | none =>
    have := (longest_none h).2 (.UNMATCHED, matchAny) (by simp [lexRules])
    simp [matchAny] at this
  | some x => exact ⟨x.1, x.2, rfl⟩

/-- The tokens of a list of characters. -/
def lexC (i : List Char) : List Tok := lexLoop i.length i

theorem lex_eq (s : String) : lex s = lexC s.toList := rfl

theorem lexLoop_fuel : ∀ (n : Nat) (i : List Char), i.length ≤ n → lexLoop n i = lexC i
  | 0, i, h => by
    have : i = [] := List.length_eq_zero_iff.mp (by omega)
    subst this; rfl
  | n + 1, [], _ => by rfl
  | n + 1, c :: r, h => by
    unfold lexC
    simp only [List.length_cons, lexLoop]
    obtain ⟨k, m, hl⟩ := longest_lexRules_some c r
    obtain ⟨h1, h2⟩ := longest_lexRules_bound hl
    simp only [List.length_cons] at h h2
    have e1 := lexLoop_fuel n ((c :: r).drop m) (by simp; omega)
    have e2 := lexLoop_fuel r.length ((c :: r).drop m) (by simp; omega)
    simp only [hl, e1, e2]

theorem lexC_nil : lexC [] = [] := rfl

theorem lexC_step {i : List Char} {k : Kind} {n : Nat} (h : longest i lexRules none = some (k, n)) :
    lexC i = if k = .skip then lexC (i.drop n) else ⟨k, String.ofList (i.take n)⟩ :: lexC (i.drop n) := by
  obtain ⟨h1, h2⟩ := longest_lexRules_bound h
  cases i with
  | nil => simp at h2; omega
  | cons c r =>
    simp only [List.length_cons] at h2
    have : lexC (c :: r) = lexLoop (r.length + 1) (c :: r) := rfl
    rw [this]
    simp only [lexLoop, h]
    rw [lexLoop_fuel r.length ((c :: r).drop n) (by simp; omega)]

/-- Where a token comes from. -/
theorem mem_lexLoop : ∀ {n : Nat} {i : List Char} {t : Tok}, t ∈ lexLoop n i →
    ∃ j m l, j <:+ i ∧ (t.kind, m) ∈ lexRules ∧ m j = some l ∧ t.text = String.ofList (j.take l)
  | 0, i, t, h => by simp [lexLoop] at h
  | n + 1, i, t, h => by
    simp only [lexLoop] at h
    cases hl : longest i lexRules none with
    | none => simp [hl] at h
    | some x =>
      obtain ⟨k, l⟩ := x
      simp only [hl] at h
      have hrec : t ∈ lexLoop n (i.drop l) → ∃ j m l, j <:+ i ∧ (t.kind, m) ∈ lexRules ∧ m j = some l ∧
          t.text = String.ofList (j.take l) := by
        intro h
        obtain ⟨j, m, l', h1, h2⟩ := mem_lexLoop h
        exact ⟨j, m, l', h1.trans (List.drop_suffix l i), h2⟩
      split at h
      · exact hrec h
      · rcases List.mem_cons.mp h with rfl | h
        · rcases longest_spec hl with hl | ⟨m, hm, hn⟩
          · cases hl
          · exact ⟨i, m, l, List.suffix_rfl, hm, hn, rfl⟩
        · exact hrec h

theorem string_tok {s : String} {t : Tok} (h : t ∈ lex s) (hk : t.kind = .STRING) :
    ∃ j l, matchStr j = some l ∧ t.text = String.ofList (j.take l) := by
  obtain ⟨j, m, l, _, h1, h2, h3⟩ := mem_lexLoop h
  rw [hk] at h1
  simp [lexRules] at h1
  subst h1
  exact ⟨j, l, h2, h3⟩

theorem time_tok {s : String} {t : Tok} (h : t ∈ lex s) (hk : t.kind = .TIME) :
    ∃ j l, matchTime j = some l ∧ t.text = String.ofList (j.take l) := by
  obtain ⟨j, m, l, _, h1, h2, h3⟩ := mem_lexLoop h
  rw [hk] at h1
  simp [lexRules] at h1
  subst h1
  exact ⟨j, l, h2, h3⟩

/-! ## Strings -/

theorem longest_quote (r : List Char) : longest ('"' :: r) lexRules none =
    match matchStrRest r with
    | some n => some (.STRING, n + 1)
    | none => some (.UNMATCHED, 1) := by
  simp [longest, lexRules, matchLit, matchTime, matchInt, matchStr, matchComment, matchBlank, matchAny, isDigit09,
    isBlankChar]
  cases h : matchStrRest r with
  | none => simp
  | some n => simp

theorem matchStrRest_escape : ∀ (s r : List Char),
    matchStrRest (escapeChars s ++ '"' :: r) = some ((escapeChars s).length + 1)
  | [], r => by simp only [escapeChars, List.nil_append]; rw [matchStrRest.eq_def]; simp
  | c :: s, r => by
    have ih := matchStrRest_escape s r
    simp only [escapeChars]
    split
    · rename_i hc
      rw [List.cons_append, List.cons_append, matchStrRest.eq_def]
      simp only [show ¬ ('\\' = '"') by decide, if_false, if_true, hc.symm, ih, Option.map_some, List.length_cons]
    · rename_i hc
      simp only [not_or] at hc
      rw [List.cons_append, matchStrRest.eq_def]
      simp only [hc.1, hc.2, if_false, ih, Option.map_some, List.length_cons]

theorem matchStrRest_inv : ∀ {i : List Char} {n : Nat}, matchStrRest i = some n →
    ∃ s, i.take n = escapeChars s ++ ['"']
  | [], n, h => by simp [matchStrRest] at h
  | c :: r, n, h => by
    rw [matchStrRest.eq_def] at h
    simp only at h
    split at h
    · rename_i hc
      cases h; exact ⟨[], by simp [hc, escapeChars]⟩
    · rename_i hc
      split at h
      · rename_i hb
        cases r with
        | nil => cases h
        | cons c2 r2 =>
          simp only at h
          split at h
          · rename_i hc2
            simp only [Option.map_eq_some_iff] at h
            obtain ⟨m, hm, rfl⟩ := h
            obtain ⟨s, hs⟩ := matchStrRest_inv hm
            refine ⟨c2 :: s, ?_⟩
            simp only [escapeChars, hc2.symm, if_true, List.take_succ_cons, hs, hb, List.cons_append]
          · cases h
      · rename_i hb
        simp only [Option.map_eq_some_iff] at h
        obtain ⟨m, hm, rfl⟩ := h
        obtain ⟨s, hs⟩ := matchStrRest_inv hm
        refine ⟨c :: s, ?_⟩
        simp only [escapeChars, hc, hb, or_self, if_false, List.take_succ_cons, hs, List.cons_append]

theorem unescapeLoop_escape : ∀ s : List Char, unescapeLoop (escapeChars s ++ ['"']) = s
  | [] => rfl
  | c :: s => by
    have ih := unescapeLoop_escape s
    simp only [escapeChars]
    split
    · simp only [List.cons_append, unescapeLoop, if_true, ih]
    · rename_i hc
      simp only [not_or] at hc
      rw [List.cons_append]
      cases hr : escapeChars s ++ ['"'] with
      | nil => simp at hr
      | cons x r =>
        simp only [unescapeLoop, hc.2, if_false]
        rw [← hr, ih]

/-- A string literal is one token, whatever follows it. -/
theorem lexC_quote (s r : List Char) : lexC (quoteChars s ++ r) = ⟨.STRING, String.ofList (quoteChars s)⟩ :: lexC r := by
  have h : longest (quoteChars s ++ r) lexRules none = some (.STRING, (quoteChars s).length) := by
    have : quoteChars s ++ r = '"' :: (escapeChars s ++ '"' :: r) := by simp [quoteChars]
    rw [this, longest_quote, matchStrRest_escape]
    simp [quoteChars]
  rw [lexC_step h]
  simp

theorem string_tok_quote {s : String} {t : Tok} (h : t ∈ lex s) (hk : t.kind = .STRING) :
    ∃ v, t.text = quoteStr v := by
  obtain ⟨j, l, h1, h2⟩ := string_tok h hk
  unfold matchStr at h1
  cases j with
  | nil => cases h1
  | cons c r =>
    simp only at h1
    split at h1
    · rename_i hc
      simp only [Option.map_eq_some_iff] at h1
      obtain ⟨m, hm, rfl⟩ := h1
      obtain ⟨v, hv⟩ := matchStrRest_inv hm
      refine ⟨String.ofList v, ?_⟩
      rw [h2]
      simp [quoteStr, quoteChars, hv, hc]
    · cases h1

theorem unescapeStr_quote (s : String) : unescapeStr (quoteStr s) = s := by
  simp [unescapeStr, quoteStr, quoteChars, unescapeLoop_escape]

/-! ## Times -/

theorem time_tok_shape {s : String} {t : Tok} (h : t ∈ lex s) (hk : t.kind = .TIME) :
    ∃ ds u, t.text = String.ofList (ds ++ [u]) ∧ ds ≠ [] ∧ (∀ c ∈ ds, isDigit09 c = true) ∧
      (u = 'd' ∨ u = 'h' ∨ u = 'm' ∨ u = 's') := by
  obtain ⟨j, l, h1, h2⟩ := time_tok h hk
  unfold matchTime at h1
  cases hi : matchInt j with
  | none => simp [hi] at h1
  | some n =>
    simp only [hi] at h1
    cases hd : j.drop n with
    | nil => simp [hd] at h1
    | cons u r =>
      simp only [hd] at h1
      split at h1
      · rename_i hu
        cases h1
        have hn : n = (j.takeWhile isDigit09).length ∧ 0 < n := by
          refine ⟨?_, (matchInt_bound hi).1⟩
          unfold matchInt at hi
          split at hi
          · cases hi
          · cases hi; omega
        have ht : j.take n = j.takeWhile isDigit09 := by
          rw [hn.1]
          exact takeWhile_take isDigit09 j
        refine ⟨j.takeWhile isDigit09, u, ?_, ?_, ?_, hu⟩
        · rw [h2, List.take_add_one, ht]
          have hj : j[n]? = some u := by
            have := congrArg List.head? hd
            simpa [List.head?_drop] using this
          simp [hj]
        · intro h0; rw [h0] at hn; simp at hn; omega
        · intro c hc
          exact takeWhile_all isDigit09 hc
      · cases h1

end Pizauth
