import Verif.Proof.Calendar
import Verif.Props.Crash
import Verif.Props.Status

/-!
# C103: `status` shows dates which are right; and C08: when it crashes
-/

namespace Pizauth
open LockedState Calendar

variable {E : Env}

theorem year0 : (⟨0, 1, 1, 0, 0, 0⟩ : Date).seconds = -62167219200 := by
  unfold Date.seconds
  rw [days1970]
  decide

theorem year9999 : (⟨9999, 12, 31, 23, 59, 59⟩ : Date).seconds = 253402300799 := by
  have h := daysBeforeYear_eq 9999
  have h1 : (⟨9999, 12, 31, 23, 59, 59⟩ : Date).days = daysBeforeYear 9999 + 364 := by
    unfold Date.days
    generalize daysBeforeYear 9999 = k
    simp only
    rw [show daysOfMonths 9999 (12 - 1) = 334 by decide]
  unfold Date.seconds
  rw [h1, days1970]
  simp only
  omega

/-- **C103.** The text printed for a time is its date and time of day, as RFC 2822 writes them. -/
theorem C103 {zone : Int → Int} (hz : Zone zone) (t : SysTime) (s : String) :
    rfc2822 zone t = some s ↔ IsDate zone t s := by
  constructor
  · exact rfc2822_some hz
  · rintro ⟨c, h1, h2, h3, h4⟩
    cases h : rfc2822 zone t with
    | some s' =>
      obtain ⟨c', h1', h2', h3', h4'⟩ := rfc2822_some hz h
      rw [h4, h4', Date.seconds_inj h1 h1' (h3.trans h3'.symm)]
    | none =>
      exfalso
      rw [rfc2822_none, ← h3] at h
      have hd : c.days < 3652425 := by
        have := h1.ordinal
        have := daysBeforeYear_mono (show c.year < 10000 by omega)
        have := daysBeforeYear_eq 10000
        unfold Date.days
        omega
      have := h1.hour; have := h1.minute; have := h1.second
      unfold Date.seconds at h
      rw [days1970] at h
      omega

/-- **C103.** Nothing is printed, and the daemon crashes, exactly for years before 0 and after 9999. -/
theorem C103_none {zone : Int → Int} (t : SysTime) : rfc2822 zone t = none ↔ FarAway zone t := by
  rw [rfc2822_none, FarAway, year0, year9999]
  omega

/-! ## Dates can be read back -/

theorem split_unique {α : Type} {x : α} : ∀ {a a' b b' : List α}, x ∉ a → x ∉ a' → a ++ x :: b = a' ++ x :: b' →
    a = a' ∧ b = b'
  | [], [], _, _, _, _, h => ⟨rfl, (List.cons.inj h).2⟩
  | [], y :: _, _, _, _, h', h => absurd (List.cons.inj h).1 fun e => h' (by rw [e]; simp)
  | y :: _, [], _, _, h', _, h => absurd (List.cons.inj h).1 fun e => h' (by rw [← e]; simp)
  | y :: a, y' :: a', b, b', h1, h2, h => by
    obtain ⟨e1, e2⟩ := List.cons.inj h
    obtain ⟨e3, e4⟩ := split_unique (fun hm => h1 (by simp [hm])) (fun hm => h2 (by simp [hm])) e2
    exact ⟨by rw [e1, e3], e4⟩

theorem digit_not (n : Nat) : digit n ≠ ' ' ∧ digit n ≠ ':' := by
  by_cases h : n < 10
  · have : ∀ n < 10, digit n ≠ ' ' ∧ digit n ≠ ':' := by decide
    exact this n h
  · unfold digit
    have hl : "0123456789".toList.length = 10 := by decide
    rw [List.getD_eq_getElem?_getD, List.getElem?_eq_none (by omega)]
    decide

theorem digit_inj : ∀ a < 10, ∀ b < 10, digit a = digit b → a = b := by decide

theorem twoDigits_inj {a b : Nat} (ha : a < 100) (hb : b < 100) (h : twoDigits a = twoDigits b) : a = b := by
  unfold twoDigits at h
  have := String.ofList_injective h
  simp only [List.cons.injEq, and_true] at this
  have h1 := digit_inj _ (by omega) _ (by omega) this.1
  have h2 := digit_inj _ (by omega) _ (by omega) this.2
  omega

theorem twoDigits_not (n : Nat) : ' ' ∉ (twoDigits n).toList ∧ ':' ∉ (twoDigits n).toList := by
  unfold twoDigits
  rw [String.toList_ofList]
  have h1 := digit_not (n / 10)
  have h2 := digit_not (n % 10)
  simp [Ne.symm h1.1, Ne.symm h1.2, Ne.symm h2.1, Ne.symm h2.2]

theorem dayText_not (n : Nat) : ' ' ∉ (dayText n).toList := by
  unfold dayText
  split
  · rw [String.toList_ofList]
    simp [Ne.symm (digit_not n).1]
  · exact (twoDigits_not n).1

theorem dayText_inj {a b : Nat} (ha : a < 100) (hb : b < 100) (h : dayText a = dayText b) : a = b := by
  have hl : ∀ n, (dayText n).toList.length = if n < 10 then 1 else 2 := by
    intro n; unfold dayText twoDigits; split <;> simp [String.toList_ofList]
  have h1 := hl a
  have h2 := hl b
  rw [h, h2] at h1
  unfold dayText at h
  by_cases h3 : a < 10 <;> by_cases h4 : b < 10 <;> simp only [h3, h4, if_true, if_false] at h h1
  · have := String.ofList_injective h
    simp only [List.cons.injEq, and_true] at this
    exact digit_inj _ h3 _ h4 this
  · omega
  · omega
  · exact twoDigits_inj ha hb h

theorem weekday_not (c : Date) : ' ' ∉ c.weekday.toList := by
  unfold Date.weekday
  have : ((c.days : Int) - daysBeforeYear 1970) % 7 < 7 := Int.emod_lt_of_pos _ (by omega)
  have h0 : 0 ≤ ((c.days : Int) - daysBeforeYear 1970) % 7 := Int.emod_nonneg _ (by omega)
  generalize ((c.days : Int) - daysBeforeYear 1970) % 7 = k at *
  obtain ⟨n, rfl⟩ := Int.eq_ofNat_of_zero_le h0
  rw [Int.toNat_natCast]
  have hn : n < 7 := by omega
  have : ∀ n < 7, ' ' ∉ (["Thu", "Fri", "Sat", "Sun", "Mon", "Tue", "Wed"].getD n "").toList := by decide +kernel
  exact this n hn

theorem monthName_table : (∀ m < 13, ' ' ∉ (monthName m).toList) ∧
    ∀ a < 12, ∀ b < 12, monthName (a + 1) = monthName (b + 1) → a = b := by
  decide +kernel

/-- The parts of the text of a date. -/
theorem text_parts (c : Date) (off : Int) : (c.text off).toList =
    (c.weekday.toList ++ [',']) ++ ' ' :: ((dayText c.day).toList ++ ' ' :: ((monthName c.month).toList ++ ' ' ::
      ((fourDigits c.year).toList ++ ' ' :: (((twoDigits c.hour).toList ++ ':' :: ((twoDigits c.minute).toList ++ ':' ::
        (twoDigits c.second).toList)) ++ ' ' :: (zoneText off).toList)))) := by
  have k1 : ", ".toList = [',', ' '] := by decide
  have k2 : " ".toList = [' '] := by decide
  have k3 : ":".toList = [':'] := by decide
  unfold Date.text
  simp only [String.toList_append, k1, k2, k3, List.append_assoc, List.cons_append, List.nil_append]

/-- **C103.** Dates can be read back: the text of a date is that of no other date. -/
theorem C103_readable {c c' : Date} {off off' : Int} (h : c.Valid) (h' : c'.Valid) (hy : c.year ≤ 9999)
    (hy' : c'.year ≤ 9999) (he : c.text off = c'.text off') : c = c' ∧ zoneText off = zoneText off' := by
  have hl : (c.text off).toList = (c'.text off').toList := by rw [he]
  rw [text_parts, text_parts] at hl
  have d : ∀ c : Date, c.Valid → c.day < 100 := fun c h =>
    Nat.lt_of_le_of_lt h.day.2 (by unfold monthDays; (repeat' split) <;> omega)
  have w : ∀ c : Date, ' ' ∉ c.weekday.toList ++ [','] := fun c hm => by
    rcases List.mem_append.mp hm with hm | hm
    · exact weekday_not c hm
    · revert hm; decide
  have m : ∀ c : Date, c.Valid → ' ' ∉ (monthName c.month).toList := fun c h =>
    monthName_table.1 _ (by have := h.month; omega)
  have y : ∀ c : Date, ' ' ∉ (fourDigits c.year).toList := fun c hm => by
    unfold fourDigits at hm
    rw [String.toList_append] at hm
    rcases List.mem_append.mp hm with hm | hm
    · exact (twoDigits_not _).1 hm
    · exact (twoDigits_not _).1 hm
  have t : ∀ c : Date, ' ' ∉ (twoDigits c.hour).toList ++ ':' :: ((twoDigits c.minute).toList ++ ':' ::
      (twoDigits c.second).toList) := fun c hm => by
    simp only [List.mem_append, List.mem_cons, (twoDigits_not _).1, false_or, or_false] at hm
    rcases hm with hm | hm <;> exact absurd hm (by decide)
  obtain ⟨-, hl⟩ := split_unique (w c) (w c') hl
  obtain ⟨e1, hl⟩ := split_unique (dayText_not _) (dayText_not _) hl
  obtain ⟨e2, hl⟩ := split_unique (m c h) (m c' h') hl
  obtain ⟨e3, hl⟩ := split_unique (y c) (y c') hl
  obtain ⟨e4, e5⟩ := split_unique (t c) (t c') hl
  obtain ⟨e6, e4⟩ := split_unique (twoDigits_not _).2 (twoDigits_not _).2 e4
  obtain ⟨e7, e8⟩ := split_unique (twoDigits_not _).2 (twoDigits_not _).2 e4
  have k1 := dayText_inj (d c h) (d c' h') (String.toList_injective e1)
  have k2 : c.month = c'.month := by
    have a := h.month
    have a' := h'.month
    have := monthName_table.2 (c.month - 1) (by omega) (c'.month - 1) (by omega) (by
      rw [show c.month - 1 + 1 = c.month by omega, show c'.month - 1 + 1 = c'.month by omega]
      exact String.toList_injective e2)
    omega
  have k3 : c.year = c'.year := by
    unfold fourDigits at e3
    rw [String.toList_append, String.toList_append] at e3
    obtain ⟨e9, e10⟩ := List.append_inj e3 (by simp [twoDigits])
    have := twoDigits_inj (by omega) (by omega) (String.toList_injective e9)
    have := twoDigits_inj (by omega) (by omega) (String.toList_injective e10)
    omega
  have a := h.hour; have a1 := h.minute; have a2 := h.second
  have a' := h'.hour; have a1' := h'.minute; have a2' := h'.second
  have k4 := twoDigits_inj (by omega) (by omega) (String.toList_injective e6)
  have k5 := twoDigits_inj (by omega) (by omega) (String.toList_injective e7)
  have k6 := twoDigits_inj (by omega) (by omega) (String.toList_injective e8)
  refine ⟨?_, String.toList_injective e5⟩
  cases c; cases c'
  simp only [Date.mk.injEq]
  exact ⟨k3, k2, k1, k4, k5, k6⟩

/-! ## `status` -/

theorem instantFmt_eq {now : Instant} {wall : SysTime} {i : Instant} (hmin : timeMin ≤ wall) (hmax : wall ≤ timeMax) :
    instantFmt E now wall i =
      if timeMin ≤ wall + (i - now) ∧ wall + (i - now) ≤ timeMax then E.rfc2822 (wall + (i - now))
      else some "<unknown time>" := by
  cases h : instantFmt E now wall i with
  | some s =>
    have := instantFmt_shows hmin hmax h
    unfold ShowsTime at this
    split at this
    · rw [if_pos ‹_›, this]
    · rw [if_neg ‹_›, this]
  | none =>
    have h1 := instantFmt_none h
    by_cases h2 : timeMin ≤ wall + (i - now) ∧ wall + (i - now) ≤ timeMax
    · rw [if_pos h2, h1]
    · exfalso
      revert h
      unfold instantFmt checkedDurationSince checkedSub checkedAdd
      by_cases hlt : i < now
      · have e1 : wall - ((now - i).toNat : Int) = wall + (i - now) := by omega
        simp only [hlt, if_true, Int.le_of_lt hlt]
        rw [e1]
        rw [if_neg (fun h3 => h2 ⟨h3, by omega⟩)]
        simp
      · have e1 : wall + ((i - now).toNat : Int) = wall + (i - now) := by omega
        simp only [hlt, if_false, Int.not_lt.mp hlt, if_true]
        rw [e1]
        rw [if_neg (fun h3 => h2 ⟨by omega, h3⟩)]
        simp

theorem statusText_none_iff {now : Instant} {wall : SysTime} {ts : TokenState} :
    statusText E now wall ts = none ↔ ∃ i ∈ reportedTimes now ts, instantFmt E now wall i = none := by
  unfold statusText reportedTimes
  cases ts with
  | empty => simp
  | pending p => cases hp : p.lastNotification <;> simp [hp]
  | active a =>
    simp only [GT.gt]
    by_cases hx : now < a.expiry
    · simp only [hx, if_true]
      cases h1 : instantFmt E now wall a.obtained <;> cases h2 : instantFmt E now wall a.expiry <;> simp [h1, h2]
    · simp only [hx, if_false]
      cases hl : a.lastAttempt <;> simp [hl]

theorem optAll_none_iff {α β : Type} {f : α → Option β} {l : List α} : optAll f l = none ↔ ∃ x ∈ l, f x = none := by
  refine ⟨optAll_none, ?_⟩
  rintro ⟨x, hx, hf⟩
  induction l with
  | nil => simp at hx
  | cons a r ih =>
    unfold optAll
    rcases List.mem_cons.mp hx with rfl | hx
    · rw [hf]
    · rw [ih hx]
      cases f a <;> rfl

/-- **C08.** Exactly when `status` crashes the daemon: if some time about which it reports can be represented by the
system but not be printed. -/
theorem C08_exact {w w' : World} {act : Action} (hr : Reach E w) (hst : AnswersStatus w act)
    (hmin : timeMin ≤ w.wall) (hmax : w.wall ≤ timeMax) (hs : w.step E act = some w') :
    w'.proc = .aborted ↔ ∃ n ts, Holds w.ls n ts ∧ ∃ i ∈ reportedTimes w.now ts,
      (timeMin ≤ w.wall + (i - w.now) ∧ w.wall + (i - w.now) ≤ timeMax) ∧ E.rfc2822 (w.wall + (i - w.now)) = none := by
  obtain ⟨inp, buf, rest, rfl, ht, hp⟩ := hst
  have h0 := hr.inv0
  have key : statusReply E w.now w.wall w.ls = none ↔ ∃ n ts, Holds w.ls n ts ∧ ∃ i ∈ reportedTimes w.now ts,
      (timeMin ≤ w.wall + (i - w.now) ∧ w.wall + (i - w.now) ≤ timeMax) ∧
        E.rfc2822 (w.wall + (i - w.now)) = none := by
    unfold statusReply
    rw [Option.map_eq_none_iff, statusLines h0.wf, optAll_none_iff]
    simp only [Option.map_eq_none_iff, statusText_none_iff, instantFmt_eq hmin hmax, Holds]
    constructor
    · rintro ⟨e, he, i, hi, hn⟩
      split at hn
      · exact ⟨e.name, e.ts, ⟨e, he, rfl, rfl⟩, i, hi, ‹_›, hn⟩
      · cases hn
    · rintro ⟨_, _, ⟨e, he, rfl, rfl⟩, i, hi, hc, hn⟩
      exact ⟨e, he, i, hi, by rw [if_pos hc, hn]⟩
  rw [← key]
  obtain ⟨hrun, hs⟩ := stepR_of_step h0.wf hs
  cases hs
  case run op rest' f ht' hx =>
    rw [ht] at ht'
    obtain ⟨rfl, rfl⟩ := List.cons.inj ht'
    cases hx <;> simp only [hp, reduceCtorEq, false_and, or_false, exists_false] at *
    case status b _ _ => rw [‹statusReply _ _ _ _ = some _›]; simp [World.apply, hrun]
  case runPanic op rest' ht' hx =>
    rw [ht] at ht'
    obtain ⟨rfl, rfl⟩ := List.cons.inj ht'
    obtain ⟨_, _, _, hn⟩ := hr.panic ht hx
    simp [hn]

/-- **C08.** If dates are printed the way chrono does, `status` crashes the daemon exactly if it has to report about a
time which the system can represent and which is before year 0 or after year 9999. -/
theorem C08_years {zone : Int → Int} (hE : E.rfc2822 = rfc2822 zone) {w w' : World} {act : Action} (hr : Reach E w)
    (hst : AnswersStatus w act) (hmin : timeMin ≤ w.wall) (hmax : w.wall ≤ timeMax) (hs : w.step E act = some w') :
    w'.proc = .aborted ↔ ∃ n ts, Holds w.ls n ts ∧ ∃ i ∈ reportedTimes w.now ts,
      (timeMin ≤ w.wall + (i - w.now) ∧ w.wall + (i - w.now) ≤ timeMax) ∧ FarAway zone (w.wall + (i - w.now)) := by
  rw [C08_exact hr hst hmin hmax hs]
  simp only [hE, C103_none]

/-- How a time is shown: as its date, or as unknown if the system cannot represent it. -/
theorem C103_shown {zone : Int → Int} (hz : Zone zone) (hE : E.rfc2822 = rfc2822 zone) {now : Instant} {wall : SysTime}
    {i : Instant} {s : String} : ShowsTime E now wall i s ↔
      if timeMin ≤ wall + (i - now) ∧ wall + (i - now) ≤ timeMax then IsDate zone (wall + (i - now)) s
      else s = "<unknown time>" := by
  unfold ShowsTime
  rw [hE, C103 hz]

/-- **C103.** What `status` says about a token which is valid, in a year up to 9999: the dates when it was obtained and
when it expires. -/
theorem C103_status {zone : Int → Int} (hz : Zone zone) (hE : E.rfc2822 = rfc2822 zone) {w w' : World} {buf b : Bytes}
    (h : Executes E w buf w') (hp : parseReq buf = .status) (hb : w'.threads 0 = [.reply b, .close])
    (hmin : timeMin ≤ w.wall) (hmax : w.wall ≤ timeMax) :
    w.ls.config.accounts = [] ∨ ∃ lines : List String, b = utf8 ("ok:" ++ "\n".intercalate lines) ∧
      ∀ n t, HoldsToken w.ls n t → w.now < t.expiry → ∃ s1 s2,
        n ++ ": " ++ ("Active access token (obtained " ++ s1 ++ "; expires " ++ s2 ++ ")") ∈ lines ∧
        (if timeMin ≤ w.wall + (t.obtained - w.now) ∧ w.wall + (t.obtained - w.now) ≤ timeMax
         then IsDate zone (w.wall + (t.obtained - w.now)) s1 else s1 = "<unknown time>") ∧
        (if timeMin ≤ w.wall + (t.expiry - w.now) ∧ w.wall + (t.expiry - w.now) ≤ timeMax
         then IsDate zone (w.wall + (t.expiry - w.now)) s2 else s2 = "<unknown time>") := by
  obtain ⟨_, h2⟩ := C51_lines h hp hb hmin hmax
  split at h2
  · exact .inl ‹_›
  · obtain ⟨lines, text, h3, _, h4, h5⟩ := h2
    refine .inr ⟨lines, h3, ?_⟩
    intro n t ht hx
    have h6 := h5 n (.active t) ht
    simp only [TokenState.shown, hx, if_true] at h6
    obtain ⟨e, he, hn, _⟩ := ht
    obtain ⟨a, ha⟩ := h.reach.inv0.wf.has he
    have hm : n ++ ": " ++ text n ∈ lines :=
      h4.mem_iff.mpr (List.mem_map.mpr ⟨(n, a), by have := mem_of_lookup ha.2; rwa [hn] at this, rfl⟩)
    generalize text n = tx at h6 hm
    cases h6 with
    | valid k1 k2 => exact ⟨_, _, hm, (C103_shown hz hE).mp k1, (C103_shown hz hE).mp k2⟩

/-! ## Concrete cases -/

namespace Demo

/-- C103: the example of RFC 2822, appendix A.1.1, a leap day, the last second of a year; and the first time for which
nothing can be printed. -/
example : rfc2822 (fun _ => -21600) 880127706000000000 = some "Fri, 21 Nov 1997 09:55:06 -0600" ∧
    rfc2822 (fun _ => 3600) 951782400000000000 = some "Tue, 29 Feb 2000 01:00:00 +0100" ∧
    rfc2822 (fun _ => 0) 4107542399999999999 = some "Sun, 28 Feb 2100 23:59:59 +0000" ∧
    rfc2822 (fun _ => 0) 4107542400000000000 = some "Mon, 1 Mar 2100 00:00:00 +0000" ∧
    rfc2822 (fun _ => 0) (-1) = some "Wed, 31 Dec 1969 23:59:59 +0000" ∧
    rfc2822 (fun _ => 0) 253402300799999999999 = some "Fri, 31 Dec 9999 23:59:59 +0000" ∧
    rfc2822 (fun _ => 0) 253402300800000000000 = none := by
  decide +kernel

/-- C103: such zones exist. -/
example : Zone (fun _ => 3600) := fun _ => by simp only; omega

/-- The environment of the examples, with dates as chrono prints them. -/
def envChrono : Env := { env with rfc2822 := rfc2822 fun _ => 3600 }

/-- C103: what `status` answers when there is a token. -/
example : (w0.run envChrono (sToken ++ [.connect (Cmd.wire .status), .run 0 {}])).map
      (fun w => (w.threads 0).filterMap fun | .reply b => some b | _ => none) =
    some [utf8 ("ok:a: Active access token (obtained Tue, 14 Nov 2023 23:13:20 +0100; " ++
      "expires Wed, 15 Nov 2023 00:13:20 +0100)\nb b: No access token")] := by
  decide +kernel

/-- C08: with the absurd lifetime, the daemon crashes. -/
example : (w0.run envChrono sStatus).map World.proc = some .aborted := by decide +kernel

end Demo

end Pizauth
