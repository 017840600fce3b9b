import Verif.Spec.Cli

/-!
# Parsing of flags
-/

namespace Pizauth.Cli

/-- The flags of the client commands. -/
def flagOpts (u : Bool) : List Opt := [optH, optV] ++ if u then [optU] else []

def known (u : Bool) (c : Char) : Bool := c == 'h' || c == 'v' || (u && c == 'u')

def optOf (c : Char) : Opt := if c = 'h' then optH else if c = 'v' then optV else optU

theorem find_short (u : Bool) (c : Char) :
    find (flagOpts u) (.short c) = if known u c then some (optOf c) else none := by
  cases u <;> simp only [find, flagOpts, known, optOf, optH, optV, optU] <;> by_cases h1 : c = 'h' <;>
    by_cases h2 : c = 'v' <;> by_cases h3 : c = 'u' <;> simp_all <;>
    first | rfl | (simp only [eq_comm (b := c)]; simp [h1, h2, h3])

theorem optOf_arg (c : Char) : (optOf c).arg = false := by
  unfold optOf
  split
  · rfl
  · split <;> rfl

theorem letters_flags (u : Bool) (cs : List Char) :
    letters (flagOpts u) cs = if cs.all (known u) then some (cs.map optOf, none) else none := by
  induction cs with
  | nil => rfl
  | cons c r ih =>
    simp only [letters, find_short]
    by_cases h : known u c = true
    · simp only [h, if_true, optOf_arg, ih, List.all_cons, Bool.true_and, Bool.false_eq_true, if_false]
      split <;> simp
    · simp [h]

theorem find_long (u : Bool) (s : String) :
    find (flagOpts u) (.long s) = if s = "help" then some optH else if s = "verbose" then some optV else none := by
  by_cases h1 : s = "help"
  · subst h1; cases u <;> rfl
  · by_cases h2 : s = "verbose"
    · subst h2; cases u <;> rfl
    · have e1 : ("help" == s) = false := by simpa using fun h => h1 h.symm
      have e2 : ("verbose" == s) = false := by simpa using fun h => h2 h.symm
      cases u <;> simp [find, flagOpts, optH, optV, optU, e1, e2, h1, h2]

/-- One option is understood. -/
def okOpt (u : Bool) (x : String) : Bool :=
  match lettersOf x with
  | some l => l.all (known u)
  | none => false

def optVals (x : String) : List (Opt × Option String) := ((lettersOf x).getD []).map fun c => (optOf c, none)

theorem known_ne {u : Bool} {c : Char} (h : known u c = true) : c ≠ '=' ∧ c.utf8Size = 1 := by
  unfold known at h
  simp only [Bool.or_eq_true, beq_iff_eq, Bool.and_eq_true] at h
  rcases h with (rfl | rfl) | ⟨_, rfl⟩ <;> decide

theorem takeWhile_all {α : Type} {p : α → Bool} {l : List α} (h : l.all p = true) :
    l.takeWhile p = l ∧ l.dropWhile p = [] := by
  induction l with
  | nil => exact ⟨rfl, rfl⟩
  | cons a l ih =>
    simp only [List.all_cons, Bool.and_eq_true] at h
    simp [h.1, ih h.2]

def single : List Char → Option (List Char)
  | [c] => some [c]
  | _ => none

theorem lettersOf_dashdash {x : String} {tail : List Char} (hx : x.toList = '-' :: '-' :: tail)
    (n1 : x ≠ "--verbose") (n2 : x ≠ "--help") : lettersOf x = single tail := by
  unfold lettersOf
  rw [if_neg n1, if_neg n2, hx]
  match tail with
  | [] => rfl
  | [c] => rfl
  | a :: b :: r => rfl

/-- An option which starts with `--`. -/
theorem find_dashdash (u : Bool) (x : String) (tail : List Char) (hx : x.toList = '-' :: '-' :: tail) :
    (match find (flagOpts u) (.ofChars (tail.takeWhile (· != '='))) with
     | none => none
     | some o => if !o.arg && !(tail.dropWhile (· != '=')).isEmpty then none else some o) =
    (if okOpt u x then (lettersOf x).bind fun l => l.head?.map optOf else none) ∧
    (okOpt u x = true → ∃ c, lettersOf x = some [c] ∧ tail.dropWhile (· != '=') = []) := by
  have hxs : x = String.ofList ('-' :: '-' :: tail) := by rw [← hx]; simp
  by_cases hv : tail = "verbose".toList
  · subst hv
    have : x = "--verbose" := by rw [hxs]; decide
    subst this
    cases u <;> exact ⟨by decide, fun _ => ⟨'v', by decide, by decide⟩⟩
  by_cases hh : tail = "help".toList
  · subst hh
    have : x = "--help" := by rw [hxs]; decide
    subst this
    cases u <;> exact ⟨by decide, fun _ => ⟨'h', by decide, by decide⟩⟩
  have n1 : x ≠ "--verbose" := by
    rintro rfl
    apply hv
    have : "--verbose".toList = '-' :: '-' :: "verbose".toList := by decide
    rw [this] at hx
    simpa using hx.symm
  have n2 : x ≠ "--help" := by
    rintro rfl
    apply hh
    have : "--help".toList = '-' :: '-' :: "help".toList := by decide
    rw [this] at hx
    simpa using hx.symm
  have hl := lettersOf_dashdash hx n1 n2
  have harg : ∀ nm o, find (flagOpts u) nm = some o → o.arg = false := by
    intro nm o h
    cases nm with
    | short c => rw [find_short] at h; split at h <;> cases h; exact optOf_arg c
    | long s =>
      rw [find_long] at h
      split at h
      · cases h; rfl
      · split at h <;> cases h; rfl
  by_cases h1 : ∃ c, tail = [c]
  · obtain ⟨c, rfl⟩ := h1
    simp only [single] at hl
    have hk : okOpt u x = known u c := by simp [okOpt, hl]
    by_cases hc : known u c = true
    · obtain ⟨hne, hsz⟩ := known_ne hc
      have e1 : [c].takeWhile (· != '=') = [c] := by simp [hne]
      have e2 : [c].dropWhile (· != '=') = [] := by simp [hne]
      refine ⟨?_, fun _ => ⟨c, hl, e2⟩⟩
      rw [e1, e2, hk, if_pos hc, hl]
      simp only [Name.ofChars, hsz, if_true, find_short, hc]
      simp
    · refine ⟨?_, fun h => absurd (hk ▸ h) hc⟩
      rw [hk, if_neg hc]
      by_cases he : c = '='
      · subst he
        have : Name.ofChars (['='].takeWhile (· != '=')) = .long "" := by decide
        rw [this, find_long]
        simp
      · have e1 : [c].takeWhile (· != '=') = [c] := by simp [he]
        rw [e1]
        have hf : find (flagOpts u) (Name.ofChars [c]) = none := by
          simp only [Name.ofChars]
          split
          · rw [find_short, if_neg hc]
          · rw [find_long, if_neg, if_neg]
            · intro h; have := congrArg String.toList h; simp at this
            · intro h; have := congrArg String.toList h; simp at this
        rw [hf]
  · have hl' : lettersOf x = none := by
      rw [hl]
      match tail, h1 with
      | [], _ => rfl
      | [c], h1 => exact absurd ⟨c, rfl⟩ h1
      | a :: b :: r, _ => rfl
    have hk : okOpt u x = false := by simp [okOpt, hl']
    refine ⟨?_, fun h => by rw [hk] at h; cases h⟩
    rw [hk]
    simp only [Bool.false_eq_true, if_false]
    by_cases he : tail.dropWhile (· != '=') = []
    · have htw : tail.takeWhile (· != '=') = tail := by
        have := List.takeWhile_append_dropWhile (p := (· != '=')) (l := tail)
        rw [he, List.append_nil] at this
        exact this
      rw [htw]
      have ho : Name.ofChars tail = .long (String.ofList tail) := by
        match tail, h1 with
        | [], _ => rfl
        | [c], h1 => exact absurd ⟨c, rfl⟩ h1
        | a :: b :: r, _ => rfl
      rw [ho, find_long, if_neg, if_neg]
      · intro h; apply hv; rw [← h]; simp
      · intro h; apply hh; rw [← h]; simp
    · cases hf : find (flagOpts u) (Name.ofChars (tail.takeWhile (· != '='))) with
      | none => rfl
      | some o =>
        have h3 : (tail.dropWhile (· != '=')).isEmpty = false := by
          cases h : tail.dropWhile (· != '=') with
          | nil => exact absurd h he
          | cons => rfl
        simp [harg _ _ hf, h3]

theorem isOption_eq (a : String) : isOption a = isArg a := by
  unfold isOption isArg
  have ha : a = "-" ↔ a.toList = ['-'] := by rw [← String.toList_inj]; rfl
  rw [Bool.eq_iff_iff]
  simp only [Bool.and_eq_true, beq_iff_eq, bne_iff_ne, ne_eq, ha]
  split <;> rename_i h
  · simp [h]
  · match hl : a.toList with
    | [] => simp
    | [c] => simp
    | c :: d :: r =>
      simp only [List.head?_cons, Option.some.injEq, Bool.false_eq_true, iff_false, not_and]
      rintro rfl
      exact absurd hl (h _ _)

theorem options_cons (a : String) (r : List String) (h : a ≠ "--") :
    options (a :: r) = if isArg a then a :: options r else options r := by
  simp [options, h]; split <;> simp_all [isOption_eq]

theorem others_cons (a : String) (r : List String) (h : a ≠ "--") :
    others (a :: r) = if isArg a then others r else a :: others r := by
  simp [others, h]; split <;> simp_all [isOption_eq]

theorem scan_flags (u : Bool) (args : List String) :
    scan (flagOpts u) args = if (options args).all (okOpt u) then
      some ⟨(options args).flatMap optVals, others args⟩ else none := by
  induction args with
  | nil => rfl
  | cons cur r ih =>
    unfold scan
    by_cases hd : cur = "--"
    · subst hd
      have : isArg "--" = true := by decide
      simp [this, options, others, isOption_eq]
    rw [options_cons _ _ hd, others_cons _ _ hd]
    by_cases ha : isArg cur = true
    · simp only [ha, Bool.not_true, Bool.false_eq_true, if_false, if_true, if_neg hd]
      obtain ⟨c0, cs, hcs⟩ : ∃ c0 cs, cur.toList = '-' :: c0 :: cs := by
        unfold isArg at ha
        split at ha
        · rename_i a b h; exact ⟨_, _, h⟩
        · cases ha
      rw [hcs]
      simp only [List.drop_succ_cons, List.drop_zero]
      by_cases hc0 : c0 = '-'
      · subst hc0
        obtain ⟨h1, h2⟩ := find_dashdash u cur cs hcs
        simp only
        cases hf : find (flagOpts u) (Name.ofChars (cs.takeWhile (· != '='))) with
        | none =>
          rw [hf] at h1
          have : okOpt u cur = false := by
            by_cases hk : okOpt u cur = true
            · obtain ⟨c, hc, _⟩ := h2 hk
              rw [hk, hc] at h1
              simp at h1
            · simpa using hk
          simp [this]
        | some o =>
          rw [hf] at h1
          by_cases hk : okOpt u cur = true
          · obtain ⟨c, hc, he⟩ := h2 hk
            rw [hk, hc, he] at h1
            simp at h1
            subst h1
            simp only [he, ih, hk, List.all_cons, Bool.true_and, List.flatMap_cons, List.isEmpty_nil, Bool.not_true,
              Bool.and_false, Bool.false_eq_true, if_false, if_true]
            split <;> simp [optVals, hc]
          · rw [if_neg hk] at h1
            simp only at h1
            split at h1
            · rename_i hb
              simp only [if_pos hb]
              simp [hk]
            · cases h1
      · have hl : lettersOf cur = some (c0 :: cs) := by
          unfold lettersOf
          rw [if_neg, if_neg, hcs]
          · split
            · rename_i h; cases h; exact absurd rfl hc0
            · rename_i h; cases h; exact absurd rfl hc0
            · rename_i h; cases h; rfl
            · rename_i h1 h2 h; exact absurd rfl (h _)
          · rintro rfl; have : "--help".toList = '-' :: '-' :: "help".toList := by decide
            rw [this] at hcs; cases hcs; exact hc0 rfl
          · rintro rfl; have : "--verbose".toList = '-' :: '-' :: "verbose".toList := by decide
            rw [this] at hcs; cases hcs; exact hc0 rfl
        split
        · rename_i h; cases h; exact absurd rfl hc0
        · rename_i h
          have hk : okOpt u cur = (c0 :: cs).all (known u) := by simp [okOpt, hl]
          rw [letters_flags, ih]
          by_cases hall : (c0 :: cs).all (known u) = true
          · rw [if_pos hall]
            simp only [hk, hall, List.all_cons, Bool.true_and, List.flatMap_cons]
            split <;> simp [optVals, hl]
          · rw [if_neg hall]
            have hk' : okOpt u cur = false := by rw [hk]; simpa using hall
            rw [List.all_cons, hk']
            simp
    · simp only [ha, Bool.not_false, if_true, ih]
      split <;> simp_all

end Pizauth.Cli
