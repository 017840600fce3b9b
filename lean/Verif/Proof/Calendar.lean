import Verif.Model.Calendar
import Verif.Spec.Calendar

/-!
# Dates: the model computes those of the specification
-/

namespace Pizauth
open Calendar

theorem yearDays_eq (y : Nat) : yearDays y = if y % 4 = 0 ∧ (y % 100 = 0 → y % 400 = 0) then 366 else 365 := by
  unfold yearDays leap
  by_cases h4 : y % 4 = 0 <;> by_cases h100 : y % 100 = 0 <;> by_cases h400 : y % 400 = 0 <;> simp [h4, h100, h400]

/-- The number of days before a year, in one formula. -/
theorem daysBeforeYear_eq (y : Nat) :
    daysBeforeYear y + (y + 99) / 100 = 365 * y + (y + 3) / 4 + (y + 399) / 400 := by
  induction y with
  | zero => rfl
  | succ y ih =>
    rw [daysBeforeYear, yearDays_eq]
    split <;> omega

theorem days1970 : daysBeforeYear 1970 = 719528 := by
  have := daysBeforeYear_eq 1970
  omega

theorem cycleToYo_cases {r y o : Nat} (h : cycleToYo r = (y, o)) :
    (r % 365 < yearDelta (r / 365) ∧ y = r / 365 - 1 ∧ o = r % 365 + (365 - yearDelta (r / 365 - 1))) ∨
    (¬ r % 365 < yearDelta (r / 365) ∧ y = r / 365 ∧ o = r % 365 - yearDelta (r / 365)) := by
  unfold cycleToYo at h
  by_cases hc : r % 365 < yearDelta (r / 365)
  · rw [if_pos hc] at h
    obtain ⟨rfl, rfl⟩ := Prod.mk.inj h
    exact .inl ⟨hc, rfl, rfl⟩
  · rw [if_neg hc] at h
    obtain ⟨rfl, rfl⟩ := Prod.mk.inj h
    exact .inr ⟨hc, rfl, rfl⟩

theorem yearDelta_table : ∀ y < 400, yearDelta (y + 1) + 365 = yearDelta y + yearDays y ∧ yearDelta y ≤ 97 := by
  decide +kernel

theorem yearDays_cycle (c y : Nat) : yearDays (c * 400 + y) = yearDays y := by
  rw [yearDays_eq, yearDays_eq]
  have h1 : (c * 400 + y) % 4 = y % 4 := by omega
  have h2 : (c * 400 + y) % 100 = y % 100 := by omega
  have h3 : (c * 400 + y) % 400 = y % 400 := by omega
  rw [h1, h2, h3]

theorem daysBeforeYear_cycle (c y : Nat) : daysBeforeYear (c * 400 + y) = 146097 * c + 365 * y + yearDelta y := by
  have := daysBeforeYear_eq (c * 400 + y)
  have h1 : (c * 400 + y + 3) / 4 = c * 100 + (y + 3) / 4 := by
    rw [show c * 400 + y + 3 = (y + 3) + (c * 100) * 4 by omega, Nat.add_mul_div_right _ _ (by omega), Nat.add_comm]
  have h2 : (c * 400 + y + 99) / 100 = c * 4 + (y + 99) / 100 := by
    rw [show c * 400 + y + 99 = (y + 99) + (c * 4) * 100 by omega, Nat.add_mul_div_right _ _ (by omega), Nat.add_comm]
  have h3 : (c * 400 + y + 399) / 400 = c + (y + 399) / 400 := by
    rw [show c * 400 + y + 399 = (y + 399) + c * 400 by omega, Nat.add_mul_div_right _ _ (by omega), Nat.add_comm]
  rw [h1, h2, h3] at this
  unfold yearDelta
  have : (y + 99) / 100 ≤ (y + 3) / 4 := by omega
  omega

theorem yearDays_pos (y : Nat) : 365 ≤ yearDays y ∧ yearDays y ≤ 366 := by
  unfold yearDays; split <;> omega

/-- The year of a day, and the day in the year. -/
theorem cycleToYo_spec {c r y o : Nat} (hr : r < 146097) (h : cycleToYo r = (y, o)) :
    daysBeforeYear (c * 400 + y) + o = 146097 * c + r ∧ o < yearDays (c * 400 + y) := by
  rw [daysBeforeYear_cycle, yearDays_cycle]
  have hp := yearDays_pos y
  have h400 : yearDelta 400 = 97 := by decide
  have h0 : yearDelta 0 = 0 := by decide
  rcases cycleToYo_cases h with ⟨hc, hy, ho⟩ | ⟨hc, hy, ho⟩
  · have hq : r / 365 ≠ 0 := fun hq => by rw [hq, h0] at hc; omega
    have e : r / 365 = y + 1 := by omega
    have := yearDelta_table y (by omega)
    rw [← hy] at ho
    rw [e] at hc
    omega
  · have hq : r / 365 ≠ 400 := fun hq => by rw [hq, h400] at hc; omega
    have := yearDelta_table y (by omega)
    rw [← hy] at ho hc
    omega

/-! ## Months -/

theorem leap_cases (y : Nat) : (leap y = true ∧ monthLengths y = monthLengths 4) ∨
    (leap y = false ∧ monthLengths y = monthLengths 1) := by
  unfold leap monthLengths
  by_cases h4 : y % 4 = 0 <;> by_cases h100 : y % 100 = 0 <;> by_cases h400 : y % 400 = 0 <;> simp [h4, h100, h400]

theorem monthDays_congr {y y' : Nat} (h : leap y = leap y') (m : Nat) : monthDays y m = monthDays y' m := by
  unfold monthDays; rw [h]

theorem daysOfMonths_congr {y y' : Nat} (h : leap y = leap y') (n : Nat) : daysOfMonths y n = daysOfMonths y' n := by
  induction n with
  | zero => rfl
  | succ n ih => rw [daysOfMonths, daysOfMonths, ih, monthDays_congr h]

/-- What a day of the year is. -/
def MonthDaySpec (y o : Nat) (md : Nat × Nat) : Prop :=
  (1 ≤ md.1 ∧ md.1 ≤ 12) ∧ (1 ≤ md.2 ∧ md.2 ≤ monthDays y md.1) ∧ daysOfMonths y (md.1 - 1) + (md.2 - 1) = o

instance (y o : Nat) (md : Nat × Nat) : Decidable (MonthDaySpec y o md) := by unfold MonthDaySpec; infer_instance

theorem monthDay_table : (∀ o < 366, MonthDaySpec 4 o (monthDay (monthLengths 4) 1 o)) ∧
    ∀ o < 365, MonthDaySpec 1 o (monthDay (monthLengths 1) 1 o) := by
  decide +kernel

theorem monthDay_spec {y o : Nat} (h : o < yearDays y) : MonthDaySpec y o (monthDay (monthLengths y) 1 o) := by
  unfold yearDays at h
  rcases leap_cases y with ⟨hl, hm⟩ | ⟨hl, hm⟩ <;> rw [hm] <;> simp only [hl, if_true, Bool.false_eq_true, if_false] at h
  · have e : leap y = leap 4 := hl.trans (by decide)
    have := monthDay_table.1 o h
    unfold MonthDaySpec at this ⊢
    rwa [monthDays_congr e, daysOfMonths_congr e]
  · have e : leap y = leap 1 := hl.trans (by decide)
    have := monthDay_table.2 o h
    unfold MonthDaySpec at this ⊢
    rwa [monthDays_congr e, daysOfMonths_congr e]

/-! ## Every day has one date -/

theorem daysBeforeYear_mono {y1 y2 : Nat} (h : y1 < y2) : daysBeforeYear y1 + yearDays y1 ≤ daysBeforeYear y2 := by
  induction y2 with
  | zero => omega
  | succ n ih =>
    rw [daysBeforeYear]
    rcases Nat.lt_succ_iff_lt_or_eq.mp h with h | rfl
    · have := ih h; omega
    · omega

theorem daysOfMonths_mono {y m1 m2 : Nat} (h : m1 < m2) :
    daysOfMonths y m1 + monthDays y (m1 + 1) ≤ daysOfMonths y m2 := by
  induction m2 with
  | zero => omega
  | succ n ih =>
    rw [daysOfMonths]
    rcases Nat.lt_succ_iff_lt_or_eq.mp h with h | rfl
    · have := ih h; omega
    · omega

theorem daysOfMonths_year (y : Nat) : daysOfMonths y 12 = yearDays y := by
  rcases leap_cases y with ⟨hl, -⟩ | ⟨hl, -⟩ <;> unfold yearDays <;> rw [hl]
  · exact (daysOfMonths_congr (y' := 4) (hl.trans (by decide)) 12).trans (by decide)
  · exact (daysOfMonths_congr (y' := 1) (hl.trans (by decide)) 12).trans (by decide)

theorem Calendar.Date.Valid.ordinal {c : Date} (h : c.Valid) :
    daysOfMonths c.year (c.month - 1) + (c.day - 1) < yearDays c.year := by
  have h1 := h.month
  have h2 := h.day
  rw [← daysOfMonths_year]
  have := daysOfMonths_mono (y := c.year) (m1 := c.month - 1) (m2 := 12) (by omega)
  rw [show c.month - 1 + 1 = c.month by omega] at this
  omega

/-- No two dates are the same day. -/
theorem Calendar.Date.days_inj {c c' : Date} (h : c.Valid) (h' : c'.Valid) (he : c.days = c'.days) :
    c.year = c'.year ∧ c.month = c'.month ∧ c.day = c'.day := by
  unfold Date.days at he
  have o := h.ordinal
  have o' := h'.ordinal
  have hy : c.year = c'.year := by
    rcases Nat.lt_trichotomy c.year c'.year with hl | hl | hl
    · have := daysBeforeYear_mono hl; omega
    · exact hl
    · have := daysBeforeYear_mono hl; omega
  have d := h.day
  have d' := h'.day
  have m := h.month
  have m' := h'.month
  rw [← hy] at he d'
  have hm : c.month = c'.month := by
    rcases Nat.lt_trichotomy c.month c'.month with hl | hl | hl
    · have := daysOfMonths_mono (y := c.year) (m1 := c.month - 1) (m2 := c'.month - 1) (by omega)
      rw [show c.month - 1 + 1 = c.month by omega] at this
      omega
    · exact hl
    · have := daysOfMonths_mono (y := c.year) (m1 := c'.month - 1) (m2 := c.month - 1) (by omega)
      rw [show c'.month - 1 + 1 = c'.month by omega] at this
      omega
  rw [← hm] at he
  exact ⟨hy, hm, by omega⟩

/-- No two dates are the same second. -/
theorem Calendar.Date.seconds_inj {c c' : Date} (h : c.Valid) (h' : c'.Valid) (he : c.seconds = c'.seconds) : c = c' := by
  unfold Date.seconds at he
  have a := h.hour; have b := h.minute; have d := h.second
  have a' := h'.hour; have b' := h'.minute; have d' := h'.second
  have hd : c.days = c'.days := by omega
  obtain ⟨h1, h2, h3⟩ := Date.days_inj h h' hd
  cases c; cases c'
  simp only [Date.mk.injEq] at *
  exact ⟨h1, h2, h3, by omega, by omega, by omega⟩

/-! ## Texts -/

theorem digit_char : ∀ n < 10, Char.ofNat (48 + n) = digit n := by decide

theorem writeHundreds_text {n : Nat} (h : n < 100) : writeHundreds n = (twoDigits n).toList := by
  unfold writeHundreds twoDigits
  rw [digit_char _ (by omega), digit_char _ (by omega), String.toList_ofList]

theorem writeOffset_text {off : Int} (h : -86400 < off ∧ off < 86400) : writeOffset off = (zoneText off).toList := by
  unfold writeOffset zoneText
  simp only
  rw [writeHundreds_text (by omega), writeHundreds_text (by omega)]
  split <;> simp

theorem weekday_text (n : Nat) (d : Int) (h : d = n) :
    ["Sun", "Mon", "Tue", "Wed", "Thu", "Fri", "Sat"].getD ((n + 6) % 7) "" =
      ["Thu", "Fri", "Sat", "Sun", "Mon", "Tue", "Wed"].getD ((d - 719528) % 7).toNat "" := by
  have hk : n % 7 < 7 := Nat.mod_lt _ (by omega)
  have h1 : (n + 6) % 7 = (n % 7 + 6) % 7 := by omega
  have h2 : ((d - 719528) % 7).toNat = (n % 7 + 2) % 7 := by omega
  rw [h1, h2]
  generalize n % 7 = k at hk
  revert hk
  revert k
  decide

theorem writeRfc2822_text {c : Date} {n sod : Nat} {off : Int} (h : c.Valid) (hy : c.year ≤ 9999) (hd : c.days = n)
    (hs : sod < 86400) (h1 : c.hour = sod / 3600) (h2 : c.minute = sod / 60 % 60) (h3 : c.second = sod % 60)
    (hz : -86400 < off ∧ off < 86400) :
    String.ofList (writeRfc2822 ((n + 6) % 7) c.day c.month c.year sod off) = c.text off := by
  have hday : c.day ≤ 31 := Nat.le_trans h.day.2 (by unfold monthDays; (repeat' split) <;> omega)
  have e : (if c.day < 10 then [Char.ofNat (48 + c.day)] else writeHundreds c.day) = (dayText c.day).toList := by
    unfold dayText
    split
    · rw [digit_char _ ‹_›, String.toList_ofList]
    · rw [writeHundreds_text (by omega)]
  unfold writeRfc2822
  rw [e, writeHundreds_text (n := c.year / 100) (by omega), writeHundreds_text (n := c.year % 100) (by omega),
    writeHundreds_text (n := sod / 3600) (by omega), writeHundreds_text (n := sod / 60 % 60) (by omega),
    writeHundreds_text (n := sod % 60) (by omega), writeOffset_text hz, ← h1, ← h2, ← h3,
    weekday_text n n rfl, ← hd]
  have k1 : [',', ' '] = ", ".toList := by decide
  have k2 : [' '] = " ".toList := by decide
  have k3 : [':'] = ":".toList := by decide
  rw [k1, k2, k3]
  simp only [← String.toList_append, String.ofList_toList]
  unfold Date.text Date.weekday monthName fourDigits
  simp only [String.append_assoc]
  rw [days1970]; rfl

/-- The date which the model prints. -/
theorem rfc2822_some {zone : Int → Int} {t : SysTime} {s : String} (hz : ∀ x, -86400 < zone x ∧ zone x < 86400)
    (h : rfc2822 zone t = some s) : ∃ c : Date, c.Valid ∧ c.year ≤ 9999 ∧
      c.seconds = t / 1000000000 + zone (t / 1000000000) ∧ s = c.text (zone (t / 1000000000)) := by
  unfold rfc2822 at h
  simp only at h
  have hz := hz (t / 1000000000)
  generalize hoff : zone (t / 1000000000) = off at *
  generalize hloc : t / 1000000000 + off = loc at *
  split at h
  · cases h
  · rename_i hd
    obtain ⟨n, hn⟩ : ∃ n : Nat, loc / 86400 + 719528 = n := ⟨_, (Int.toNat_of_nonneg (Int.not_lt.mp hd)).symm⟩
    rw [hn, Int.toNat_natCast] at h
    generalize hyo : cycleToYo (n % 146097) = yo at h
    obtain ⟨y, o⟩ := yo
    have hsp := cycleToYo_spec (c := n / 146097) (Nat.mod_lt _ (by omega)) hyo
    rw [Nat.div_add_mod] at hsp
    simp only at h
    generalize hY : n / 146097 * 400 + y = Y at *
    split at h
    · cases h
    · rename_i hmax
      have hm := monthDay_spec hsp.2
      generalize monthDay (monthLengths Y) 1 o = md at *
      obtain ⟨m, d⟩ := md
      obtain ⟨h1, h2, h3⟩ := hm
      simp only at h h1 h2 h3
      generalize hsod : (loc % 86400).toNat = sod at *
      have hsod' : (sod : Int) = loc % 86400 := by omega
      have hlt : sod < 86400 := by omega
      generalize hc : (⟨Y, m, d, sod / 3600, sod / 60 % 60, sod % 60⟩ : Date) = c
      have hv : c.Valid := by
        subst hc
        exact ⟨h1, h2, by simp only; omega, by simp only; omega, by simp only; omega⟩
      have hdays : c.days = n := by subst hc; unfold Date.days; simp only; omega
      have hy : c.year ≤ 9999 := by subst hc; simp only; omega
      refine ⟨c, hv, hy, ?_, ?_⟩
      · unfold Date.seconds; rw [hdays, days1970]; subst hc; simp only; omega
      · rw [← writeRfc2822_text hv hy hdays hlt (by subst hc; rfl) (by subst hc; rfl) (by subst hc; rfl) hz]
        subst hc
        exact (Option.some.inj h).symm

/-- When nothing can be printed. -/
theorem rfc2822_none {zone : Int → Int} {t : SysTime} :
    rfc2822 zone t = none ↔ t / 1000000000 + zone (t / 1000000000) < -62167219200 ∨
      253402300800 ≤ t / 1000000000 + zone (t / 1000000000) := by
  unfold rfc2822
  simp only
  generalize t / 1000000000 + zone (t / 1000000000) = loc
  split
  · simp only [true_iff]; omega
  · rename_i hd
    obtain ⟨n, hn⟩ : ∃ n : Nat, loc / 86400 + 719528 = n := ⟨_, (Int.toNat_of_nonneg (Int.not_lt.mp hd)).symm⟩
    rw [hn, Int.toNat_natCast]
    generalize hyo : cycleToYo (n % 146097) = yo
    obtain ⟨y, o⟩ := yo
    have hsp := cycleToYo_spec (c := n / 146097) (Nat.mod_lt _ (by omega)) hyo
    rw [Nat.div_add_mod] at hsp
    simp only
    generalize n / 146097 * 400 + y = Y at *
    have hmax : daysBeforeYear 10000 = 3652425 := by have := daysBeforeYear_eq 10000; omega
    split
    · rename_i hY
      simp only [true_iff]
      have : daysBeforeYear 10000 ≤ daysBeforeYear Y := by
        rcases Nat.lt_or_eq_of_le (show 10000 ≤ Y by omega) with h | rfl
        · have := daysBeforeYear_mono h; omega
        · omega
      omega
    · rename_i hY
      simp only [reduceCtorEq, false_iff]
      have := daysBeforeYear_mono (show Y < 10000 by omega)
      omega

end Pizauth
