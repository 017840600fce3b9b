import Verif.Spec.Json

/-!
# Reading JSON: soundness and completeness
-/

namespace Pizauth.Json
open JsonSpec

/-! ## White space, digits -/

theorem isWs_iff {c : Char} : isWs c = true ↔ c = ' ' ∨ c = '\n' ∨ c = '\t' ∨ c = '\r' := by
  simp [isWs, or_assoc]

theorem isDig_iff {c : Char} : isDig c = true ↔ '0' ≤ c ∧ c ≤ '9' := by
  simp [isDig]

theorem skipWs_split (s : List Char) : ∃ w, Ws w ∧ s = w ++ skipWs s := by
  refine ⟨s.takeWhile isWs, ?_, by simp [skipWs]⟩
  intro c hc
  exact isWs_iff.mp (List.all_eq_true.mp List.all_takeWhile c hc)

theorem skipWs_ws {w r : List Char} (hw : Ws w) : skipWs (w ++ r) = skipWs r := by
  induction w with
  | nil => rfl
  | cons c w ih =>
    have h1 : isWs c = true := isWs_iff.mpr (hw c (List.mem_cons_self ..))
    have h2 : Ws w := fun x hx => hw x (List.mem_cons_of_mem _ hx)
    show List.dropWhile isWs (c :: (w ++ r)) = _
    rw [List.dropWhile_cons_of_pos h1]
    exact ih h2

theorem skipWs_cons {c : Char} {r : List Char} (h : isWs c = false) : skipWs (c :: r) = c :: r := by
  unfold skipWs
  rw [List.dropWhile_cons_of_neg (by simp [h])]

theorem Ws.nil : Ws [] := nofun

theorem skipWs_self {w : List Char} (hw : Ws w) : skipWs w = [] := by
  have := skipWs_ws (r := []) hw
  rw [List.append_nil] at this
  exact this

/-- What does not begin with a digit. -/
def NoDig (r : List Char) : Prop := ∀ c r', r = c :: r' → isDig c = false

theorem digits_sound {s ds r : List Char} (h : digits s = (ds, r)) : s = ds ++ r ∧ (∀ c ∈ ds, '0' ≤ c ∧ c ≤ '9') := by
  unfold digits at h
  injection h with h1 h2
  subst h1 h2
  refine ⟨by simp, fun c hc => isDig_iff.mp (List.all_eq_true.mp List.all_takeWhile c hc)⟩

theorem digits_complete {ds r : List Char} (h : ∀ c ∈ ds, '0' ≤ c ∧ c ≤ '9') (hr : NoDig r) : digits (ds ++ r) = (ds, r) := by
  unfold digits
  have h1 : ∀ c ∈ ds, isDig c = true := fun c hc => isDig_iff.mpr (h c hc)
  have h2 : r.takeWhile isDig = [] ∧ r.dropWhile isDig = r := by
    cases r with
    | nil => exact ⟨rfl, rfl⟩
    | cons c r =>
      have := hr c r rfl
      rw [List.takeWhile_cons_of_neg (by simp [this]), List.dropWhile_cons_of_neg (by simp [this])]
      exact ⟨rfl, rfl⟩
  rw [List.takeWhile_append_of_pos h1, List.dropWhile_append_of_pos h1, h2.1, h2.2, List.append_nil]

theorem dig_le {c : Char} (h : '0' ≤ c ∧ c ≤ '9') : 48 ≤ c.toNat ∧ c.toNat ≤ 57 :=
  ⟨h.1, h.2⟩

/-! ## Numbers -/

theorem digitsVal_acc (ds : List Char) (n : Nat) :
    ds.foldl (fun n c => n * 10 + (c.toNat - 48)) n = n * 10 ^ ds.length + decimal ds := by
  induction ds generalizing n with
  | nil => simp [decimal]
  | cons c ds ih =>
    simp only [List.foldl_cons, ih, decimal, List.length_cons, Nat.pow_succ, Nat.add_mul]
    rw [Nat.mul_assoc n, Nat.mul_comm 10, Nat.add_assoc]
    rfl

/-- What may follow a number. -/
def Stop (r : List Char) : Prop :=
  ∀ c r', r = c :: r' → isDig c = false ∧ c ≠ '.' ∧ c ≠ 'e' ∧ c ≠ 'E'

theorem Stop.noDig {r : List Char} (h : Stop r) : NoDig r := fun c r' he => (h c r' he).1

theorem intPart_sound {s i r : List Char} (h : intPart s = some (i, r)) : s = i ++ r ∧ Int i := by
  unfold intPart at h
  split at h
  · injection h with h; injection h with h1 h2; subst h1 h2
    exact ⟨rfl, .inl rfl⟩
  · rename_i hz
    split at h
    · cases h
    · rename_i ds r' hne hd
      injection h with h; injection h with h1 h2; subst h1 h2
      obtain ⟨h1, h2⟩ := digits_sound hd
      have hn : ds ≠ [] := hne
      refine ⟨h1, .inr ⟨⟨hn, h2⟩, ?_⟩⟩
      intro h0
      cases ds with
      | nil => cases h0
      | cons c ds =>
        simp only [List.head?_cons, Option.some.injEq] at h0
        subst h0
        exact hz _ h1

theorem intPart_complete {i r : List Char} (hi : Int i) (hr : NoDig r) : intPart (i ++ r) = some (i, r) := by
  unfold intPart
  rcases hi with rfl | ⟨⟨hn, hd⟩, h0⟩
  · rfl
  · split
    · rename_i r' he
      cases i with
      | nil => exact absurd rfl hn
      | cons c i =>
        injection he with h1 h2
        subst h1
        exact absurd rfl h0
    · rw [digits_complete hd hr]
      split
      · rename_i he; injection he with h1 h2; exact absurd h1 hn
      · rename_i he; injection he with h1 h2; subst h1 h2; rfl

theorem fracPart_sound {s f r : List Char} (h : fracPart s = some (f, r)) : s = f ++ r ∧ Frac f := by
  unfold fracPart at h
  split at h
  · split at h
    · cases h
    · rename_i ds r' hne hd
      injection h with h; injection h with h1 h2; subst h1 h2
      obtain ⟨h1, h2⟩ := digits_sound hd
      have hn : ds ≠ [] := hne
      exact ⟨by rw [h1]; rfl, .inr ⟨ds, ⟨hn, h2⟩, rfl⟩⟩
  · injection h with h; injection h with h1 h2; subst h1 h2
    exact ⟨rfl, .inl rfl⟩

theorem fracPart_complete {f r : List Char} (hf : Frac f) (hr : NoDig r) (hp : ∀ r', r ≠ '.' :: r') :
    fracPart (f ++ r) = some (f, r) := by
  unfold fracPart
  rcases hf with rfl | ⟨ds, ⟨hn, hd⟩, rfl⟩
  · split
    · rename_i he; exact absurd he (hp _)
    · rfl
  · simp only [List.cons_append, digits_complete hd hr]

theorem expSign_sound (s : List Char) : s = (expSign s).1 ++ (expSign s).2 ∧
    ((expSign s).1 = [] ∨ (expSign s).1 = ['+'] ∨ (expSign s).1 = ['-']) := by
  unfold expSign
  split <;> simp

theorem expSign_complete {g ds r : List Char} (hs : g = [] ∨ g = ['+'] ∨ g = ['-']) (hd : Digits ds) :
    expSign (g ++ (ds ++ r)) = (g, ds ++ r) := by
  rcases hs with rfl | rfl | rfl
  · cases ds with
    | nil => exact absurd rfl hd.1
    | cons c ds =>
      have := dig_le (hd.2 c (List.mem_cons_self ..))
      unfold expSign
      split
      · rename_i he; injection he with h1 h2; subst h1; exact absurd this (by decide)
      · rename_i he; injection he with h1 h2; subst h1; exact absurd this (by decide)
      · rfl
  · rfl
  · rfl

theorem expPart_sound {s e r : List Char} (h : expPart s = some (e, r)) : s = e ++ r ∧ Exp e := by
  unfold expPart at h
  split at h
  · rename_i c r0
    split at h
    · rename_i hc
      split at h
      · cases h
      · rename_i ds r' hne hd
        injection h with h; injection h with h1 h2; subst h1 h2
        obtain ⟨h1, h2⟩ := digits_sound hd
        have hn : ds ≠ [] := hne
        obtain ⟨h3, h4⟩ := expSign_sound r0
        refine ⟨?_, .inr ⟨c, _, ds, by simpa using hc, h4, ⟨hn, h2⟩, rfl⟩⟩
        show c :: r0 = _
        rw [h1] at h3
        simp only [List.cons_append, List.append_assoc]
        exact congrArg _ h3
    · injection h with h; injection h with h1 h2; subst h1 h2
      exact ⟨rfl, .inl rfl⟩
  · injection h with h; injection h with h1 h2; subst h1 h2
    exact ⟨rfl, .inl rfl⟩

theorem expPart_complete {e r : List Char} (he : Exp e) (hr : Stop r) : expPart (e ++ r) = some (e, r) := by
  unfold expPart
  rcases he with rfl | ⟨c, g, ds, hc, hs, hd, rfl⟩
  · cases r with
    | nil => rfl
    | cons c r =>
      obtain ⟨_, _, h2, h3⟩ := hr c r rfl
      simp [h2, h3]
  · have : (c == 'e' || c == 'E') = true := by rcases hc with rfl | rfl <;> rfl
    simp only [List.cons_append, this, if_true, List.append_assoc, expSign_complete hs hd, digits_complete hd.2 hr.noDig]
    split
    · rename_i he; injection he with h1 h2; exact absurd h1 hd.1
    · rename_i he; injection he with h1 h2; subst h1 h2; rfl

theorem sign_sound (s : List Char) : s = (sign s).1 ++ (sign s).2 ∧ ((sign s).1 = [] ∨ (sign s).1 = ['-']) := by
  unfold sign
  split <;> simp

theorem int_head {i : List Char} (h : Int i) : ∃ c i', i = c :: i' ∧ '0' ≤ c ∧ c ≤ '9' := by
  rcases h with rfl | ⟨⟨hn, hd⟩, _⟩
  · exact ⟨'0', [], rfl, by decide⟩
  · cases i with
    | nil => exact absurd rfl hn
    | cons c i => exact ⟨c, i, rfl, hd c (List.mem_cons_self ..)⟩

theorem int_digits {i : List Char} (h : Int i) : ∀ c ∈ i, '0' ≤ c ∧ c ≤ '9' := by
  rcases h with rfl | ⟨⟨hn, hd⟩, _⟩
  · intro c hc
    rw [List.mem_singleton] at hc
    subst hc
    decide
  · exact hd

theorem sign_complete {g i r : List Char} (hs : g = [] ∨ g = ['-']) (hi : Int i) : sign (g ++ (i ++ r)) = (g, i ++ r) := by
  rcases hs with rfl | rfl
  · obtain ⟨c, i', rfl, hc⟩ := int_head hi
    have := dig_le hc
    unfold sign
    split
    · rename_i he; injection he with h1 h2; subst h1; exact absurd this (by decide)
    · rfl
  · rfl

/-- A number consisting of digits only is just its integer part. -/
theorem int_of_digits {t : List Char} (h : Number t) (hd : ∀ c ∈ t, '0' ≤ c ∧ c ≤ '9') : Int t := by
  obtain ⟨hs, hi, hf, he⟩ := h
  rename_i g i f e
  have no : ∀ {x : Char}, x ∈ g ++ i ++ f ++ e → x.toNat < 48 ∨ 57 < x.toNat → False := by
    intro x hx hlt
    have := dig_le (hd x hx)
    omega
  have hs : g = [] := by
    rcases hs with rfl | rfl
    · rfl
    · exact (no (x := '-') (by simp) (by decide)).elim
  have hf : f = [] := by
    rcases hf with rfl | ⟨ds, _, rfl⟩
    · rfl
    · exact (no (x := '.') (by simp) (by decide)).elim
  have he : e = [] := by
    rcases he with rfl | ⟨c, s, ds, hc, _, _, rfl⟩
    · rfl
    · exact (no (x := c) (by simp) (by rcases hc with rfl | rfl <;> decide)).elim
  subst hs hf he
  simpa using hi

theorem numVal_text {t : List Char} {d : Nat} (h : Number t) : Text d (.val (numVal t)) t := by
  have hv : digitsVal t = decimal t := by
    unfold digitsVal
    rw [digitsVal_acc]; simp
  unfold numVal
  rw [hv]
  split
  · rename_i hc
    simp only [Bool.and_eq_true, List.all_eq_true, decide_eq_true_eq] at hc
    exact .nat (int_of_digits h fun c hc' => isDig_iff.mp (hc.1 c hc')) hc.2
  · rename_i hc
    refine .num h fun hi => hc ?_
    simp only [Bool.and_eq_true, List.all_eq_true, decide_eq_true_eq]
    exact ⟨fun c hc' => isDig_iff.mpr (int_digits hi.1 c hc'), hi.2⟩

theorem numVal_nat {t : List Char} (h : Int t) (hl : decimal t < 2 ^ 64) : numVal t = .nat (decimal t) := by
  have hv : digitsVal t = decimal t := by
    unfold digitsVal
    rw [digitsVal_acc]; simp
  unfold numVal
  rw [hv, if_pos]
  simp only [Bool.and_eq_true, List.all_eq_true, decide_eq_true_eq]
  exact ⟨fun c hc' => isDig_iff.mpr (int_digits h c hc'), hl⟩

theorem numVal_num {t : List Char} (h : Number t) (hl : ¬ (Int t ∧ decimal t < 2 ^ 64)) : numVal t = .num t := by
  have hv : digitsVal t = decimal t := by
    unfold digitsVal
    rw [digitsVal_acc]; simp
  unfold numVal
  rw [hv, if_neg]
  intro hc
  simp only [Bool.and_eq_true, List.all_eq_true, decide_eq_true_eq] at hc
  exact hl ⟨int_of_digits h fun c hc' => isDig_iff.mp (hc.1 c hc'), hc.2⟩

theorem number_of_int {t : List Char} (h : Int t) : Number t := by
  have := Number.mk (sign := []) (i := t) (f := []) (e := []) (.inl rfl) h (.inl rfl) (.inl rfl)
  simpa using this

theorem number_sound {s r : List Char} {j : Json} (h : number s = some (j, r)) :
    ∃ t, s = t ++ r ∧ Number t ∧ j = numVal t := by
  unfold number at h
  split at h
  · cases h
  · rename_i i r1 hi
    split at h
    · cases h
    · rename_i f r2 hf
      split at h
      · cases h
      · rename_i e r3 he
        injection h with h; injection h with h1 h2; subst h1 h2
        obtain ⟨h1, h1'⟩ := sign_sound s
        obtain ⟨h2, h2'⟩ := intPart_sound hi
        obtain ⟨h3, h3'⟩ := fracPart_sound hf
        obtain ⟨h4, h4'⟩ := expPart_sound he
        refine ⟨_, ?_, .mk h1' h2' h3' h4', rfl⟩
        rw [h2, h3, h4] at h1
        simpa [List.append_assoc] using h1

theorem number_complete {t r : List Char} (h : Number t) (hr : Stop r) : number (t ++ r) = some (numVal t, r) := by
  obtain ⟨hs, hi, hf, he⟩ := h
  rename_i g i f e
  have e1 : NoDig (e ++ r) := by
    intro c r' h
    rcases he with rfl | ⟨c', s, ds, hc, _, _, rfl⟩
    · exact hr.noDig c r' h
    · injection h with h; subst h; rcases hc with rfl | rfl <;> decide
  have e2 : ∀ r', e ++ r ≠ '.' :: r' := by
    intro r' h
    rcases he with rfl | ⟨c', s, ds, hc, _, _, rfl⟩
    · exact (hr '.' r' h).2.1 rfl
    · injection h with h; subst h; rcases hc with h | h <;> revert h <;> decide
  have e3 : NoDig (f ++ (e ++ r)) := by
    intro c r' h
    rcases hf with rfl | ⟨ds, _, rfl⟩
    · exact e1 c r' h
    · injection h with h; subst h; decide
  unfold number
  simp only [List.append_assoc, sign_complete hs hi, intPart_complete hi e3, fracPart_complete hf e1 e2, expPart_complete he hr]

/-! ## Strings -/

theorem char_of_nat {c : Char} {n : Nat} (h : c.toNat = n) : c = Char.ofNat n := by
  rw [← h, Char.ofNat_toNat]

theorem hexVal_sound {c : Char} {v : Nat} (h : hexVal c = some v) : HexDigit c v := by
  unfold hexVal at h
  split at h
  · rename_i hd
    have hd := dig_le (isDig_iff.mp hd)
    injection h with h
    subst h
    have : c.toNat = 48 ∨ c.toNat = 49 ∨ c.toNat = 50 ∨ c.toNat = 51 ∨ c.toNat = 52 ∨ c.toNat = 53 ∨ c.toNat = 54 ∨
        c.toNat = 55 ∨ c.toNat = 56 ∨ c.toNat = 57 := by omega
    rcases this with h | h | h | h | h | h | h | h | h | h <;>
      (obtain rfl := char_of_nat h; exact .inl (by decide))
  · split at h
    · rename_i hd
      simp only [Bool.and_eq_true, decide_eq_true_eq] at hd
      have hd : 97 ≤ c.toNat ∧ c.toNat ≤ 102 := hd
      injection h with h
      subst h
      have : c.toNat = 97 ∨ c.toNat = 98 ∨ c.toNat = 99 ∨ c.toNat = 100 ∨ c.toNat = 101 ∨ c.toNat = 102 := by omega
      rcases this with h | h | h | h | h | h <;> (obtain rfl := char_of_nat h; exact .inl (by decide))
    · split at h
      · rename_i hd
        simp only [Bool.and_eq_true, decide_eq_true_eq] at hd
        have hd : 65 ≤ c.toNat ∧ c.toNat ≤ 70 := hd
        injection h with h
        subst h
        have : c.toNat = 65 ∨ c.toNat = 66 ∨ c.toNat = 67 ∨ c.toNat = 68 ∨ c.toNat = 69 ∨ c.toNat = 70 := by omega
        rcases this with h | h | h | h | h | h <;> (obtain rfl := char_of_nat h; exact .inr (by decide))
      · cases h

theorem hexVal_complete {c : Char} {v : Nat} (h : HexDigit c v) : hexVal c = some v := by
  have key : ∀ l : List Char, l.length = 16 → (∀ v : Fin 16, l[v.val]?.bind hexVal = some v.val) →
      l[v]? = some c → hexVal c = some v := by
    intro l hl hall hv
    have hlt : v < 16 := by
      obtain ⟨hlt, _⟩ := List.getElem?_eq_some_iff.mp hv
      omega
    have := hall ⟨v, hlt⟩
    simpa [hv] using this
  rcases h with h | h
  · exact key _ (by decide) (by decide) h
  · exact key _ (by decide) (by decide) h

theorem hex4_sound {s r : List Char} {n : Nat} (h : hex4 s = some (n, r)) : ∃ t, s = t ++ r ∧ Hex4 t n := by
  unfold hex4 at h
  split at h
  · split at h
    · rename_i a b c d r' _ _ _ _ x y z u h1 h2 h3 h4
      injection h with h; injection h with h h'; subst h h'
      exact ⟨[a, b, c, d], rfl, a, b, c, d, x, y, z, u, rfl, hexVal_sound h1, hexVal_sound h2, hexVal_sound h3,
        hexVal_sound h4, by omega⟩
    · cases h
  · cases h

theorem hex4_complete {t r : List Char} {n : Nat} (h : Hex4 t n) : hex4 (t ++ r) = some (n, r) := by
  obtain ⟨a, b, c, d, x, y, z, u, rfl, h1, h2, h3, h4, rfl⟩ := h
  simp only [hex4, List.cons_append, List.nil_append, hexVal_complete h1, hexVal_complete h2, hexVal_complete h3,
    hexVal_complete h4, Option.some.injEq, Prod.mk.injEq, and_true]
  omega

theorem escape_sound {s r : List Char} {c : Char} (h : escape s = some (c, r)) : ∃ e, s = e ++ r ∧ Esc e c ∧ e ≠ [] := by
  unfold escape at h
  split at h
  case h_9 r0 =>
    split at h
    · cases h
    · rename_i n r1 hx
      obtain ⟨t, rfl, ht⟩ := hex4_sound hx
      split at h
      · rename_i hn
        injection h with h; injection h with h h'; subst h h'
        exact ⟨'u' :: t, rfl, .u ht (by simpa using hn), nofun⟩
      · rename_i hn
        simp only [Bool.or_eq_true, decide_eq_true_eq, not_or, Nat.not_lt] at hn
        split at h
        · cases h
        · split at h
          · split at h
            · cases h
            · rename_i m r2 hx'
              obtain ⟨t', rfl, ht'⟩ := hex4_sound hx'
              split at h
              · cases h
              · rename_i hm
                simp only [Bool.or_eq_true, decide_eq_true_eq, not_or, Nat.not_lt] at hm
                injection h with h; injection h with h h'; subst h h'
                exact ⟨'u' :: (t ++ '\\' :: 'u' :: t'), by simp, .pair ht (by omega) (by omega) ht' (by omega) (by omega), nofun⟩
          · cases h
  case h_10 => cases h
  all_goals
    injection h with h; injection h with h h'; subst h h'
    exact ⟨[_], rfl, by constructor, nofun⟩

theorem escape_complete {e r : List Char} {c : Char} (h : Esc e c) : escape (e ++ r) = some (c, r) := by
  cases h with
  | u ht hn =>
    simp only [escape, List.cons_append, hex4_complete ht]
    rw [if_pos (by simpa using hn)]
  | pair ht h1 h2 ht' h3 h4 =>
    simp only [escape, List.cons_append, List.append_assoc, hex4_complete ht, hex4_complete ht']
    rw [if_neg (by simp; omega), if_neg (by omega), if_neg (by simp; omega)]
  | _ => rfl

theorem string_sound {fuel : Nat} {s v r : List Char} (h : string fuel s = some (v, r)) :
    ∃ t, s = t ++ '"' :: r ∧ Str v t := by
  induction fuel generalizing s v r with
  | zero => simp [string] at h
  | succ fuel ih =>
    unfold string at h
    split at h
    · cases h
    · rename_i c r0
      split at h
      · rename_i hc
        rw [beq_iff_eq] at hc
        subst hc
        injection h with h; injection h with h h'; subst h h'
        exact ⟨[], rfl, .nil⟩
      · rename_i hc
        split at h
        · rename_i hb
          rw [beq_iff_eq] at hb
          subst hb
          split at h
          · cases h
          · rename_i x r1 he
            obtain ⟨e, rfl, hx, _⟩ := escape_sound he
            split at h
            · cases h
            · rename_i v' r2 hs
              injection h with h; injection h with h h'; subst h h'
              obtain ⟨t, rfl, ht⟩ := ih hs
              exact ⟨'\\' :: (e ++ t), by simp, .esc hx ht⟩
        · rename_i hb
          split at h
          · cases h
          · rename_i hlt
            split at h
            · cases h
            · rename_i v' r2 hs
              injection h with h; injection h with h h'; subst h h'
              obtain ⟨t, rfl, ht⟩ := ih hs
              exact ⟨c :: t, rfl, .plain (by omega) (by simpa using hc) (by simpa using hb) ht⟩

theorem string_complete {v t : List Char} (h : Str v t) : ∀ {fuel : Nat} {r : List Char}, t.length < fuel →
    string fuel (t ++ '"' :: r) = some (v, r) := by
  induction h with
  | nil =>
    intro fuel r hf
    obtain ⟨f, rfl⟩ : ∃ f, fuel = f + 1 := ⟨fuel - 1, by simp at hf; omega⟩
    rfl
  | plain h1 h2 h3 _ ih =>
    intro fuel r hf
    obtain ⟨f, rfl⟩ : ∃ f, fuel = f + 1 := ⟨fuel - 1, by omega⟩
    simp only [List.length_cons] at hf
    simp only [string, List.cons_append, ih (fuel := f) (r := r) (by omega)]
    rw [if_neg (by simpa using h2), if_neg (by simpa using h3), if_neg (by omega)]
  | esc he _ ih =>
    intro fuel r hf
    obtain ⟨f, rfl⟩ : ∃ f, fuel = f + 1 := ⟨fuel - 1, by omega⟩
    simp only [List.length_cons, List.length_append] at hf
    simp only [string, List.cons_append, List.append_assoc, escape_complete he, ih (fuel := f) (r := r) (by omega)]
    rfl

theorem string_complete' {v t r : List Char} (h : Str v t) :
    string ((t ++ '"' :: r).length + 1) (t ++ '"' :: r) = some (v, r) :=
  string_complete h (by simp; omega)

/-! ## Values -/

/-- What is read of `s`, if `r` is left. -/
def Reads (d : Nat) (it : Item) (s r : List Char) : Prop :=
  match it with
  | .val _ => ∃ w t, Ws w ∧ Text d it t ∧ s = w ++ t ++ r
  | .elems _ => ∃ t, Text d it t ∧ s = t ++ ']' :: r
  | .members _ => ∃ t, Text d it t ∧ s = t ++ '}' :: r

theorem item_sound {fuel : Nat} {k : Kind} {d : Nat} {s r : List Char} {it : Item} (h : item fuel k d s = some (it, r)) :
    Reads d it s r := by
  induction fuel generalizing k d s r it with
  | zero => simp [item] at h
  | succ fuel ih =>
    cases k with
    | val =>
      obtain ⟨w, hw, hs⟩ := skipWs_split s
      unfold item at h
      generalize skipWs s = u at h hs
      split at h
      · injection h with h; injection h with h h'; subst h h'
        exact ⟨w, _, hw, .null, by simpa using hs⟩
      · injection h with h; injection h with h h'; subst h h'
        exact ⟨w, _, hw, .true, by simpa using hs⟩
      · injection h with h; injection h with h h'; subst h h'
        exact ⟨w, _, hw, .false, by simpa using hs⟩
      · split at h
        · cases h
        · rename_i v r1 hstr
          injection h with h; injection h with h h'; subst h h'
          obtain ⟨t, rfl, ht⟩ := string_sound hstr
          exact ⟨w, _, hw, .str ht, by simpa using hs⟩
      · rename_i r0
        split at h
        · cases h
        · rename_i depth
          obtain ⟨w2, hw2, hs2⟩ := skipWs_split r0
          split at h
          · rename_i heq2
            rw [heq2] at hs2
            injection h with h; injection h with h h'; subst h h'
            exact ⟨w, _, hw, .arr0 hw2, by rw [hs, hs2]; simp⟩
          · split at h
            · rename_i js r1 hit
              injection h with h; injection h with h h'; subst h h'
              obtain ⟨t, ht, hs3⟩ := ih hit
              exact ⟨w, _, hw, .arr ht, by rw [hs, hs3]; simp⟩
            · cases h
      · rename_i r0
        split at h
        · cases h
        · rename_i depth
          obtain ⟨w2, hw2, hs2⟩ := skipWs_split r0
          split at h
          · rename_i heq2
            rw [heq2] at hs2
            injection h with h; injection h with h h'; subst h h'
            exact ⟨w, _, hw, .obj0 hw2, by rw [hs, hs2]; simp⟩
          · split at h
            · rename_i js r1 hit
              injection h with h; injection h with h h'; subst h h'
              obtain ⟨t, ht, hs3⟩ := ih hit
              exact ⟨w, _, hw, .obj ht, by rw [hs, hs3]; simp⟩
            · cases h
      · split at h
        · cases h
        · rename_i j r1 hn
          injection h with h; injection h with h h'; subst h h'
          obtain ⟨t, ht, hn', rfl⟩ := number_sound hn
          exact ⟨w, t, hw, numVal_text hn', by rw [hs, ht]; simp⟩
    | elems =>
      unfold item at h
      split at h
      · rename_i j r1 hit
        obtain ⟨w, t, hw, ht, hs⟩ := ih hit
        obtain ⟨w2, hw2, hs2⟩ := skipWs_split r1
        split at h
        · rename_i r2 heq
          rw [heq] at hs2
          injection h with h; injection h with h h'; subst h h'
          exact ⟨_, .elem hw ht hw2, by rw [hs, hs2]; simp⟩
        · rename_i r2 heq
          rw [heq] at hs2
          split at h
          · rename_i js r3 hit2
            injection h with h; injection h with h h'; subst h h'
            obtain ⟨ts, hts, hs3⟩ := ih hit2
            exact ⟨_, .elems hw ht hw2 hts, by rw [hs, hs2, hs3]; simp⟩
          · cases h
        · cases h
      · cases h
    | members =>
      obtain ⟨w1, hw1, hs⟩ := skipWs_split s
      unfold item at h
      split at h
      · rename_i r0 heq
        rw [heq] at hs
        split at h
        · cases h
        · rename_i k r1 hstr
          obtain ⟨kt, rfl, hk⟩ := string_sound hstr
          obtain ⟨w2, hw2, hs2⟩ := skipWs_split r1
          split at h
          · rename_i r2 heq2
            rw [heq2] at hs2
            split at h
            · rename_i j r3 hit
              obtain ⟨w3, t, hw3, ht, hs3⟩ := ih hit
              obtain ⟨w4, hw4, hs4⟩ := skipWs_split r3
              split at h
              · rename_i r4 heq4
                rw [heq4] at hs4
                injection h with h; injection h with h h'; subst h h'
                exact ⟨_, .member hw1 hk hw2 hw3 ht hw4, by rw [hs, hs2, hs3, hs4]; simp⟩
              · rename_i r4 heq4
                rw [heq4] at hs4
                split at h
                · rename_i kvs r5 hit2
                  injection h with h; injection h with h h'; subst h h'
                  obtain ⟨ts, hts, hs5⟩ := ih hit2
                  exact ⟨_, .members hw1 hk hw2 hw3 ht hw4 hts, by rw [hs, hs2, hs3, hs4, hs5]; simp⟩
                · cases h
              · cases h
            · cases h
          · cases h
      · cases h

/-- The reader finds `it` in the text `t`, whatever precedes and follows it. -/
def Found (d : Nat) (it : Item) (t : List Char) : Prop :=
  match it with
  | .val _ => (∀ c t', t = c :: t' → isWs c = false ∧ c ≠ ']' ∧ c ≠ '}') ∧ t ≠ [] ∧
      ∀ fuel w r, t.length < fuel → Ws w → Stop r → item fuel .val d (w ++ (t ++ r)) = some (it, r)
  | .elems _ => (∀ r r', skipWs (t ++ r) ≠ ']' :: r') ∧
      ∀ fuel r, t.length + 1 < fuel → item fuel .elems d (t ++ ']' :: r) = some (it, r)
  | .members _ => (∀ r r', skipWs (t ++ r) ≠ '}' :: r') ∧
      ∀ fuel r, t.length + 1 < fuel → item fuel .members d (t ++ '}' :: r) = some (it, r)

theorem stop_of_ws {w r : List Char} {x : Char} (hw : Ws w) (hx : isDig x = false ∧ x ≠ '.' ∧ x ≠ 'e' ∧ x ≠ 'E') :
    Stop (w ++ x :: r) := by
  intro c r' h
  cases w with
  | nil => injection h with h; subst h; exact hx
  | cons y w =>
    injection h with h
    subst h
    rcases hw y (List.mem_cons_self ..) with rfl | rfl | rfl | rfl <;> decide

theorem found_number {d : Nat} {t : List Char} (h : Number t) : Found d (.val (numVal t)) t := by
  obtain ⟨c, t', rfl, hc⟩ : ∃ c t', t = c :: t' ∧ (c = '-' ∨ ('0' ≤ c ∧ c ≤ '9')) := by
    obtain ⟨hs, hi, _, _⟩ := h
    rename_i g i f e
    obtain ⟨c, i', rfl, hc⟩ := int_head hi
    rcases hs with rfl | rfl
    · exact ⟨c, _, rfl, .inr hc⟩
    · exact ⟨'-', _, rfl, .inl rfl⟩
  have hne : ∀ x : Char, x ≠ '-' → ¬ ('0' ≤ x ∧ x ≤ '9') → c ≠ x := by
    rintro x h1 h2 rfl
    exact hc.elim h1 h2
  have hws : isWs c = false := by
    rw [← Bool.not_eq_true, isWs_iff]
    rintro (h | h | h | h)
    all_goals exact hne _ (by decide) (by decide) h
  refine ⟨?_, nofun, ?_⟩
  · intro c' t'' he
    injection he with he; subst he
    exact ⟨hws, hne _ (by decide) (by decide), hne _ (by decide) (by decide)⟩
  · intro fuel w r hf hw hr
    obtain ⟨f, rfl⟩ : ∃ f, fuel = f + 1 := ⟨fuel - 1, by omega⟩
    unfold item
    rw [skipWs_ws hw, List.cons_append, skipWs_cons hws]
    split
    case h_7 =>
      rw [← List.cons_append, number_complete h hr]
    all_goals
      rename_i he
      injection he with he
      exact absurd he (hne _ (by decide) (by decide))

theorem head_skip {t r r' : List Char} {x : Char} {w : List Char} (hw : Ws w) (ht : t ≠ [])
    (h : ∀ c t', t = c :: t' → isWs c = false ∧ c ≠ x) : skipWs (w ++ (t ++ r)) ≠ x :: r' := by
  rw [skipWs_ws hw]
  cases t with
  | nil => exact absurd rfl ht
  | cons c t =>
    obtain ⟨h1, h2⟩ := h c t rfl
    rw [List.cons_append, skipWs_cons h1]
    intro he
    injection he with he
    exact h2 he

theorem item_complete {d : Nat} {it : Item} {t : List Char} (h : Text d it t) : Found d it t := by
  induction h with
  | null =>
    refine ⟨fun c t' he => by injection he with he; subst he; decide, nofun, fun fuel w r hf hw hr => ?_⟩
    obtain ⟨f, rfl⟩ : ∃ f, fuel = f + 1 := ⟨fuel - 1, by omega⟩
    unfold item
    rw [skipWs_ws hw]
    rfl
  | true =>
    refine ⟨fun c t' he => by injection he with he; subst he; decide, nofun, fun fuel w r hf hw hr => ?_⟩
    obtain ⟨f, rfl⟩ : ∃ f, fuel = f + 1 := ⟨fuel - 1, by omega⟩
    unfold item
    rw [skipWs_ws hw]
    rfl
  | false =>
    refine ⟨fun c t' he => by injection he with he; subst he; decide, nofun, fun fuel w r hf hw hr => ?_⟩
    obtain ⟨f, rfl⟩ : ∃ f, fuel = f + 1 := ⟨fuel - 1, by omega⟩
    unfold item
    rw [skipWs_ws hw]
    rfl
  | nat hi hl =>
    rw [← numVal_nat hi hl]
    exact found_number (number_of_int hi)
  | num hn hl =>
    rw [← numVal_num hn hl]
    exact found_number hn
  | str hs =>
    refine ⟨fun c t' he => by injection he with he; subst he; decide, nofun, fun fuel w r hf hw hr => ?_⟩
    obtain ⟨f, rfl⟩ : ∃ f, fuel = f + 1 := ⟨fuel - 1, by omega⟩
    unfold item
    rw [skipWs_ws hw, List.cons_append, skipWs_cons (by decide)]
    simp only [List.append_assoc, List.cons_append, List.nil_append]
    rw [string_complete' hs]
  | arr0 hw2 =>
    refine ⟨fun c t' he => by injection he with he; subst he; decide, nofun, fun fuel w r hf hw hr => ?_⟩
    obtain ⟨f, rfl⟩ : ∃ f, fuel = f + 1 := ⟨fuel - 1, by omega⟩
    unfold item
    rw [skipWs_ws hw, List.cons_append, skipWs_cons (by decide)]
    simp only [List.append_assoc, List.cons_append, List.nil_append]
    rw [skipWs_ws hw2, skipWs_cons (by decide)]
    rfl
  | obj0 hw2 =>
    refine ⟨fun c t' he => by injection he with he; subst he; decide, nofun, fun fuel w r hf hw hr => ?_⟩
    obtain ⟨f, rfl⟩ : ∃ f, fuel = f + 1 := ⟨fuel - 1, by omega⟩
    unfold item
    rw [skipWs_ws hw, List.cons_append, skipWs_cons (by decide)]
    simp only [List.append_assoc, List.cons_append, List.nil_append]
    rw [skipWs_ws hw2, skipWs_cons (by decide)]
    rfl
  | arr ht ih =>
    refine ⟨fun c t' he => by injection he with he; subst he; decide, nofun, fun fuel w r hf hw hr => ?_⟩
    obtain ⟨f, rfl⟩ : ∃ f, fuel = f + 1 := ⟨fuel - 1, by omega⟩
    simp only [List.length_cons, List.length_append, List.length_nil] at hf
    unfold item
    rw [skipWs_ws hw, List.cons_append, skipWs_cons (by decide)]
    simp only [List.append_assoc, List.cons_append, List.nil_append]
    split
    · rename_i he; exact absurd he (ih.1 _ _)
    · rw [ih.2 f r (by omega)]
  | obj ht ih =>
    refine ⟨fun c t' he => by injection he with he; subst he; decide, nofun, fun fuel w r hf hw hr => ?_⟩
    obtain ⟨f, rfl⟩ : ∃ f, fuel = f + 1 := ⟨fuel - 1, by omega⟩
    simp only [List.length_cons, List.length_append, List.length_nil] at hf
    unfold item
    rw [skipWs_ws hw, List.cons_append, skipWs_cons (by decide)]
    simp only [List.append_assoc, List.cons_append, List.nil_append]
    split
    · rename_i he; exact absurd he (ih.1 _ _)
    · rw [ih.2 f r (by omega)]
  | elem hw1 ht hw2 ih =>
    obtain ⟨h1, h2, h3⟩ := ih
    refine ⟨fun r r' => ?_, fun fuel r hf => ?_⟩
    · simp only [List.append_assoc]
      exact head_skip hw1 h2 fun c t' he => ⟨(h1 c t' he).1, (h1 c t' he).2.1⟩
    · obtain ⟨f, rfl⟩ : ∃ f, fuel = f + 1 := ⟨fuel - 1, by omega⟩
      simp only [List.length_append] at hf
      unfold item
      simp only [List.append_assoc]
      rw [h3 f _ _ (by omega) hw1 (stop_of_ws hw2 (by decide))]
      simp only
      rw [skipWs_ws hw2, skipWs_cons (by decide)]
      rfl
  | elems hw1 ht hw2 _ ih ih2 =>
    obtain ⟨h1, h2, h3⟩ := ih
    refine ⟨fun r r' => ?_, fun fuel r hf => ?_⟩
    · simp only [List.append_assoc]
      exact head_skip hw1 h2 fun c t' he => ⟨(h1 c t' he).1, (h1 c t' he).2.1⟩
    · obtain ⟨f, rfl⟩ : ∃ f, fuel = f + 1 := ⟨fuel - 1, by omega⟩
      simp only [List.length_append, List.length_cons] at hf
      unfold item
      simp only [List.append_assoc, List.cons_append]
      rw [h3 f _ _ (by omega) hw1 (stop_of_ws hw2 (by decide))]
      simp only
      rw [skipWs_ws hw2, skipWs_cons (by decide)]
      simp only
      rw [ih2.2 f r (by omega)]
  | member hw1 hk hw2 hw3 ht hw4 ih =>
    obtain ⟨h1, h2, h3⟩ := ih
    refine ⟨fun r r' => ?_, fun fuel r hf => ?_⟩
    · simp only [List.append_assoc, List.cons_append]
      rw [skipWs_ws hw1, skipWs_cons (by decide)]
      intro he
      injection he with he
      revert he
      decide
    · obtain ⟨f, rfl⟩ : ∃ f, fuel = f + 1 := ⟨fuel - 1, by omega⟩
      simp only [List.length_append, List.length_cons] at hf
      unfold item
      simp only [List.append_assoc, List.cons_append]
      rw [skipWs_ws hw1, skipWs_cons (by decide)]
      simp only
      rw [string_complete' hk]
      simp only
      rw [skipWs_ws hw2, skipWs_cons (by decide)]
      simp only
      rw [h3 f _ _ (by omega) hw3 (stop_of_ws hw4 (by decide))]
      simp only
      rw [skipWs_ws hw4, skipWs_cons (by decide)]
      rfl
  | members hw1 hk hw2 hw3 ht hw4 _ ih ih2 =>
    obtain ⟨h1, h2, h3⟩ := ih
    refine ⟨fun r r' => ?_, fun fuel r hf => ?_⟩
    · simp only [List.append_assoc, List.cons_append]
      rw [skipWs_ws hw1, skipWs_cons (by decide)]
      intro he
      injection he with he
      revert he
      decide
    · obtain ⟨f, rfl⟩ : ∃ f, fuel = f + 1 := ⟨fuel - 1, by omega⟩
      simp only [List.length_append, List.length_cons] at hf
      unfold item
      simp only [List.append_assoc, List.cons_append]
      rw [skipWs_ws hw1, skipWs_cons (by decide)]
      simp only
      rw [string_complete' hk]
      simp only
      rw [skipWs_ws hw2, skipWs_cons (by decide)]
      simp only
      rw [h3 f _ _ (by omega) hw3 (stop_of_ws hw4 (by decide))]
      simp only
      rw [skipWs_ws hw4, skipWs_cons (by decide)]
      simp only
      rw [ih2.2 f r (by omega)]

theorem fromStr_iff {s : List Char} {j : Json} : fromStr s = some j ↔ IsText 127 j s := by
  constructor
  · intro h
    unfold fromStr at h
    split at h
    · rename_i j' r hit
      split at h
      · rename_i hr
        injection h with h
        subst h
        obtain ⟨w, t, hw, ht, hs⟩ := item_sound hit
        obtain ⟨w2, hw2, hs2⟩ := skipWs_split r
        rw [List.isEmpty_iff] at hr
        rw [hr, List.append_nil] at hs2
        exact ⟨w, t, w2, hw, ht, hw2, by rw [hs, ← hs2]⟩
      · cases h
    · cases h
  · rintro ⟨w1, t, w2, hw1, ht, hw2, rfl⟩
    have hstop : Stop w2 := by
      intro c r' h
      rcases hw2 c (by rw [h]; exact List.mem_cons_self ..) with rfl | rfl | rfl | rfl <;> decide
    unfold fromStr maxDepth
    rw [List.append_assoc, (item_complete ht).2.2 _ w1 w2 (by simp; omega) hw1 hstop]
    simp [skipWs_self hw2]

end Pizauth.Json
