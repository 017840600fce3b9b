import Verif.Proof.Cli

/-!
# Parsing of the arguments of `server` and `info`
-/

namespace Pizauth.Cli

/-- The options of `server` (`d := optD`) and `info` (`d := optJ`). -/
def confOpts (d : Opt) : List Opt := [optH, optV, optC, d]

def flagsOf (d : Opt) : List Char := ['h', 'v', d.short]

def optOfC (d : Opt) (c : Char) : Opt := if c = 'h' then optH else if c = 'v' then optV else if c = 'c' then optC else d

/-- The last option of `server` or `info`. -/
def Last (d : Opt) : Prop := d = optD ∨ d = optJ

variable {d : Opt}

theorem flag_cases (hd : Last d) {c : Char} (h : c ∈ flagsOf d) :
    c ≠ 'c' ∧ c ≠ '-' ∧ c ≠ '=' ∧ c.utf8Size = 1 ∧ (optOfC d c).arg = false ∧ (optOfC d c).short = c := by
  rcases hd with rfl | rfl <;> revert c <;> decide

theorem findC_short (hd : Last d) (c : Char) :
    find (confOpts d) (.short c) = if c ∈ flagsOf d ∨ c = 'c' then some (optOfC d c) else none := by
  rcases hd with rfl | rfl <;> simp only [find, confOpts, flagsOf, optOfC, optH, optV, optC, optD, optJ] <;>
    by_cases h1 : c = 'h' <;> by_cases h2 : c = 'v' <;> by_cases h3 : c = 'c' <;> by_cases h4 : c = 'd' <;>
    by_cases h5 : c = 'j' <;> simp_all <;>
    first | rfl | (simp only [eq_comm (b := c)]; simp [h1, h2, h3, h4, h5])

theorem findC_long (hd : Last d) (s : String) :
    find (confOpts d) (.long s) = if s = "help" then some optH else if s = "verbose" then some optV
      else if s = "config" then some optC else none := by
  by_cases h1 : s = "help"
  · subst h1; rcases hd with rfl | rfl <;> rfl
  · by_cases h2 : s = "verbose"
    · subst h2; rcases hd with rfl | rfl <;> rfl
    · by_cases h3 : s = "config"
      · subst h3; rcases hd with rfl | rfl <;> rfl
      · have e1 : ("help" == s) = false := by simpa using fun h => h1 h.symm
        have e2 : ("verbose" == s) = false := by simpa using fun h => h2 h.symm
        have e3 : ("config" == s) = false := by simpa using fun h => h3 h.symm
        rcases hd with rfl | rfl <;> simp [find, confOpts, optH, optV, optC, optD, optJ, e1, e2, e3, h1, h2, h3]

theorem letters_plain (hd : Last d) {cs : List Char} (h : ∀ c ∈ cs, c ∈ flagsOf d) :
    letters (confOpts d) cs = some (cs.map (optOfC d), none) := by
  induction cs with
  | nil => rfl
  | cons c r ih =>
    have hc := h c List.mem_cons_self
    simp only [letters, findC_short hd, hc, true_or, if_true, (flag_cases hd hc).2.2.2.2.1, Bool.false_eq_true, if_false,
      ih fun c hc => h c (List.mem_cons_of_mem _ hc)]
    rfl

theorem letters_conf (hd : Last d) {cs r : List Char} (h : ∀ c ∈ cs, c ∈ flagsOf d) :
    letters (confOpts d) (cs ++ 'c' :: r) =
      some (cs.map (optOfC d), some (optC, if r.isEmpty then none else some (String.ofList r))) := by
  induction cs with
  | nil =>
    have : (optOfC d 'c') = optC := rfl
    simp [letters, findC_short hd, this, show optC.arg = true from rfl]
  | cons c r ih =>
    have hc := h c List.mem_cons_self
    simp only [List.cons_append, letters, findC_short hd, hc, true_or, if_true, (flag_cases hd hc).2.2.2.2.1,
      Bool.false_eq_true, if_false, ih fun c hc => h c (List.mem_cons_of_mem _ hc)]
    rfl

theorem letters_inv (hd : Last d) {cs : List Char} {l : List Opt} {x : Option (Opt × Option String)}
    (h : letters (confOpts d) cs = some (l, x)) :
    (x = none ∧ l = cs.map (optOfC d) ∧ ∀ c ∈ cs, c ∈ flagsOf d) ∨
    ∃ fs r, cs = fs ++ 'c' :: r ∧ (∀ c ∈ fs, c ∈ flagsOf d) ∧ l = fs.map (optOfC d) ∧
      x = some (optC, if r.isEmpty then none else some (String.ofList r)) := by
  induction cs generalizing l with
  | nil => cases h; exact .inl ⟨rfl, rfl, nofun⟩
  | cons c r ih =>
    rw [letters, findC_short hd] at h
    by_cases hc : c = 'c'
    · subst hc
      have : (optOfC d 'c') = optC := rfl
      simp [this, show optC.arg = true from rfl] at h
      exact .inr ⟨[], r, rfl, nofun, h.1, by rw [← h.2]; simp⟩
    · by_cases hf : c ∈ flagsOf d
      · simp only [hf, true_or, if_true, (flag_cases hd hf).2.2.2.2.1, Bool.false_eq_true, if_false] at h
        cases hl : letters (confOpts d) r with
        | none => rw [hl] at h; cases h
        | some lx =>
          obtain ⟨l', x'⟩ := lx
          rw [hl] at h
          cases h
          rcases ih hl with ⟨h1, h2, h3⟩ | ⟨fs, r', h1, h2, h3, h4⟩
          · exact .inl ⟨h1, by rw [h2]; rfl, by simpa using ⟨hf, h3⟩⟩
          · exact .inr ⟨c :: fs, r', by rw [h1]; rfl, by simpa using ⟨hf, h2⟩, by rw [h3]; rfl, h4⟩
      · simp [hc, hf] at h

theorem scan_other {opts : List Opt} {a : String} {r : List String} (h : isArg a = false) :
    scan opts (a :: r) = (scan opts r).map fun m => { m with free := a :: m.free } := by
  rw [scan]; simp [h]

theorem scan_rest {opts : List Opt} {r : List String} : scan opts ("--" :: r) = some ⟨[], r⟩ := by
  rw [scan]; simp [show isArg "--" = true by decide]

theorem scan_long {opts : List Opt} {a : String} {r : List String} {tail : List Char} (ht : tail ≠ [])
    (h : a.toList = '-' :: '-' :: tail) :
    scan opts (a :: r) =
      match find opts (.ofChars (tail.takeWhile (· != '='))) with
      | none => none
      | some o =>
        if !o.arg && !(tail.dropWhile (· != '=')).isEmpty then none
        else (scan opts r).map fun m => { m with opts := (o,
          if (tail.dropWhile (· != '=')).isEmpty then none
          else some (String.ofList ((tail.dropWhile (· != '=')).drop 1))) :: m.opts } := by
  have hn : a ≠ "--" := by
    rintro rfl
    rw [show "--".toList = ['-', '-'] by decide] at h
    cases h; exact ht rfl
  rw [scan]
  have ha : isArg a = true := by unfold isArg; rw [h]; rfl
  simp only [ha, Bool.not_true, Bool.false_eq_true, if_false, if_neg hn, h, List.drop_succ_cons, List.drop_zero]
  rfl

theorem scan_short {opts : List Opt} {a : String} {r : List String} {c : Char} {cs : List Char} (hc : c ≠ '-')
    (h : a.toList = '-' :: c :: cs) :
    scan opts (a :: r) =
      match letters opts (c :: cs) with
      | none => none
      | some (l, none) => (scan opts r).map fun m => { m with opts := l.map (·, none) ++ m.opts }
      | some (l, some (o, some v)) =>
        (scan opts r).map fun m => { m with opts := l.map (·, none) ++ (o, some v) :: m.opts }
      | some (l, some (o, none)) =>
        match r with
        | [] => some ⟨l.map (·, none) ++ [(o, none)], []⟩
        | n :: r' =>
          if isArg n then
            (scan opts (n :: r')).map fun m => { m with opts := l.map (·, none) ++ (o, none) :: m.opts }
          else (scan opts r').map fun m => { m with opts := l.map (·, none) ++ (o, some n) :: m.opts } := by
  have hn : a ≠ "--" := by
    rintro rfl
    rw [show "--".toList = ['-', '-'] by decide] at h
    cases h; exact hc rfl
  rw [scan.eq_def]
  have ha : isArg a = true := by unfold isArg; rw [h]; rfl
  simp only [ha, Bool.not_true, Bool.false_eq_true, if_false, if_neg hn, h, List.drop_succ_cons, List.drop_zero]
  split
  · rename_i h'; cases h'; exact absurd rfl hc
  · rfl

/-- What `getopts` makes of an item. -/
def item (d : Opt) (x : Char × Option String) : Opt × Option String := (optOfC d x.1, x.2)

theorem map_item {d : Opt} (l : List Char) : (l.map (·, none)).map (item d) = (l.map (optOfC d)).map (·, none) := by
  simp [item]

theorem flags_head {l : List Char} {x : List Char} (hd : Last d) (h : ∀ c ∈ l, c ∈ flagsOf d) :
    ∃ c cs, l ++ 'c' :: x = c :: cs ∧ c ≠ '-' := by
  cases l with
  | nil => exact ⟨'c', x, rfl, by decide⟩
  | cons c l => exact ⟨c, l ++ 'c' :: x, rfl, (flag_cases hd (h c List.mem_cons_self)).2.1⟩

theorem long_conf (hd : Last d) {tail p : List Char} (h : tail = "config".toList ++ p ∨ tail = "c".toList ++ p)
    (hp : p = [] ∨ p.head? = some '=') :
    find (confOpts d) (.ofChars (tail.takeWhile (· != '='))) = some optC ∧ tail.dropWhile (· != '=') = p := by
  have key : ∀ w : List Char, w.all (· != '=') = true →
      (w ++ p).takeWhile (· != '=') = w ∧ (w ++ p).dropWhile (· != '=') = p := by
    intro w hw
    rw [List.takeWhile_append_of_pos (by simpa using hw), List.dropWhile_append_of_pos (by simpa using hw)]
    rcases hp with rfl | hp
    · simp
    · cases p with
      | nil => cases hp
      | cons a p => cases hp; simp
  rcases h with rfl | rfl
  · obtain ⟨h1, h2⟩ := key "config".toList (by decide)
    rw [h1, h2]
    refine ⟨?_, rfl⟩
    rw [show Name.ofChars "config".toList = .long "config" by decide, findC_long hd]
    rfl
  · obtain ⟨h1, h2⟩ := key "c".toList (by decide)
    rw [h1, h2]
    refine ⟨?_, rfl⟩
    rw [show Name.ofChars "c".toList = .short 'c' by decide, findC_short hd]
    simp; rfl

theorem isArg_list {a : String} (h : isArg a = true) : ∃ c cs, a.toList = '-' :: c :: cs := by
  unfold isArg at h
  split at h
  · rename_i hx; exact ⟨_, _, hx⟩
  · cases h

theorem lettersOf_short {a : String} {c : Char} {cs : List Char} (hc : c ≠ '-') (hcs : a.toList = '-' :: c :: cs) :
    lettersOf a = some (c :: cs) := by
  unfold lettersOf
  rw [if_neg, if_neg, hcs]
  · split
    · rename_i h; cases h; exact absurd rfl hc
    · rename_i h; cases h; exact absurd rfl hc
    · rename_i h; cases h; rfl
    · rename_i h1 h2 h; exact absurd rfl (h _)
  · rintro rfl; have : "--help".toList = '-' :: '-' :: "help".toList := by decide
    rw [this] at hcs; cases hcs; exact hc rfl
  · rintro rfl; have : "--verbose".toList = '-' :: '-' :: "verbose".toList := by decide
    rw [this] at hcs; cases hcs; exact hc rfl

/-- `--x`, without argument. -/
theorem lettersOf_long {a : String} {tail : List Char} (ha : a.toList = '-' :: '-' :: tail) {l : List Char}
    (h : lettersOf a = some l) :
    (tail = "verbose".toList ∧ l = ['v']) ∨ (tail = "help".toList ∧ l = ['h']) ∨ ∃ c, tail = [c] ∧ l = [c] := by
  have hs : a = String.ofList ('-' :: '-' :: tail) := by rw [← ha]; simp
  by_cases h1 : a = "--verbose"
  · subst h1
    left
    rw [show "--verbose".toList = '-' :: '-' :: "verbose".toList by decide] at ha
    cases h
    exact ⟨by simpa using ha.symm, rfl⟩
  · by_cases h2 : a = "--help"
    · subst h2
      right; left
      rw [show "--help".toList = '-' :: '-' :: "help".toList by decide] at ha
      cases h
      exact ⟨by simpa using ha.symm, rfl⟩
    · rw [lettersOf_dashdash ha h1 h2] at h
      right; right
      match tail, h with
      | [c], h => cases h; exact ⟨c, rfl, rfl⟩

theorem scan_of_given (hd : Last d) {args : List String} {items : List (Char × Option String)} {o : List String}
    (h : Given (flagsOf d) args items o) : scan (confOpts d) args = some ⟨items.map (item d), o⟩ := by
  induction h with
  | nil => rfl
  | other ha _ ih => rw [scan_other (isOption_eq _ ▸ ha), ih]; rfl
  | rest => exact scan_rest
  | @letters a r l items o ha hl hk _ ih =>
    rw [isOption_eq] at ha
    obtain ⟨c, cs, hcs⟩ := isArg_list ha
    by_cases hc : c = '-'
    · subst hc
      have hf : cs ≠ [] ∧ (∃ c, l = [c] ∧ find (confOpts d) (.ofChars (cs.takeWhile (· != '='))) = some (optOfC d c)) ∧
          cs.dropWhile (· != '=') = [] := by
        rcases lettersOf_long hcs hl with ⟨rfl, rfl⟩ | ⟨rfl, rfl⟩ | ⟨c, rfl, rfl⟩
        · refine ⟨by decide, ⟨'v', rfl, ?_⟩, by decide⟩
          rcases hd with rfl | rfl <;> decide
        · refine ⟨by decide, ⟨'h', rfl, ?_⟩, by decide⟩
          rcases hd with rfl | rfl <;> decide
        · have hcf := hk c List.mem_cons_self
          obtain ⟨_, _, h3, h4, _⟩ := flag_cases hd hcf
          refine ⟨by simp, ⟨c, rfl, ?_⟩, by simp [h3]⟩
          have : [c].takeWhile (· != '=') = [c] := by simp [h3]
          rw [this]
          simp [Name.ofChars, h4, findC_short hd, hcf]
      obtain ⟨hne, ⟨c, rfl, hf⟩, he⟩ := hf
      rw [scan_long hne hcs, hf, ih, he]
      simp [item]
    · rw [lettersOf_short hc hcs] at hl
      cases hl
      rw [scan_short hc hcs, letters_plain hd hk, ih]
      simp [item]
  | @long a r items o ha _ ih =>
    obtain ⟨tail, ht, hne, hs⟩ : ∃ tail, (tail = "config".toList ++ [] ∨ tail = "c".toList ++ []) ∧ tail ≠ [] ∧
        a.toList = '-' :: '-' :: tail := by
      rcases ha with rfl | rfl
      · exact ⟨"config".toList, .inl (by simp), by decide, by decide⟩
      · exact ⟨"c".toList, .inr (by simp), by decide, by decide⟩
    obtain ⟨h1, h2⟩ := long_conf hd ht (.inl rfl)
    rw [scan_long hne hs, h1, h2, ih]
    rfl
  | @longArg p a r items o ha _ ih =>
    obtain ⟨tail, ht, hne, hs⟩ : ∃ tail, (tail = "config".toList ++ '=' :: p.toList ∨ tail = "c".toList ++ '=' :: p.toList) ∧
        tail ≠ [] ∧ a.toList = '-' :: '-' :: tail := by
      rcases ha with rfl | rfl
      · exact ⟨_, .inl rfl, by simp, by simp [show "--config=".toList = '-' :: '-' :: "config=".toList by decide,
          show "config=".toList = "config".toList ++ ['='] by decide]⟩
      · exact ⟨_, .inr rfl, by simp, by simp [show "--c=".toList = '-' :: '-' :: "c=".toList by decide,
          show "c=".toList = "c".toList ++ ['='] by decide]⟩
    obtain ⟨h1, h2⟩ := long_conf hd ht (.inr rfl)
    rw [scan_long hne hs, h1, h2, ih]
    simp [item, show optC.arg = true from rfl]; rfl
  | @tight l p a r items o hk hp ha _ ih =>
    obtain ⟨c, cs, hcs, hc⟩ := flags_head (x := p.toList) hd hk
    have hs : a.toList = '-' :: c :: cs := by rw [← hcs, ha]; simp [show "-".toList = ['-'] by decide, show "c".toList = ['c'] by decide]
    rw [scan_short hc hs, ← hcs, letters_conf hd hk, ih]
    have : p.toList.isEmpty = false := by
      cases h : p.toList with
      | nil => exact absurd (String.toList_inj.mp (by rw [h]; rfl)) hp
      | cons => rfl
    simp [this, item]; rfl
  | @loose l p a r items o hk ha hp _ ih =>
    rw [isOption_eq] at hp
    obtain ⟨c, cs, hcs, hc⟩ := flags_head (x := []) hd hk
    have hs : a.toList = '-' :: c :: cs := by rw [← hcs, ha]; simp [show "-".toList = ['-'] by decide, show "c".toList = ['c'] by decide]
    rw [scan_short hc hs, ← hcs, letters_conf hd hk]
    simp [hp, ih, item]; rfl
  | @bare l a r items o hk ha hr _ ih =>
    simp only [isOption_eq] at hr
    obtain ⟨c, cs, hcs, hc⟩ := flags_head (x := []) hd hk
    have hs : a.toList = '-' :: c :: cs := by rw [← hcs, ha]; simp [show "-".toList = ['-'] by decide, show "c".toList = ['c'] by decide]
    rw [scan_short hc hs, ← hcs, letters_conf hd hk]
    cases r with
    | nil =>
      have ih' : (⟨[], []⟩ : Matches) = ⟨items.map (item d), o⟩ := Option.some.inj ih
      injection ih' with h1 h2
      obtain rfl : items = [] := List.map_eq_nil_iff.mp h1.symm
      subst h2
      simp [item]; rfl
    | cons n r =>
      have := hr n rfl
      simp [this, ih, item]; rfl

theorem find_ofChars (hd : Last d) {tw : List Char} {o : Opt} (h : find (confOpts d) (.ofChars tw) = some o) :
    ((tw = "config".toList ∨ tw = "c".toList) ∧ o = optC) ∨
    ∃ c ∈ flagsOf d, o = optOfC d c ∧ (tw = [c] ∨ (c = 'v' ∧ tw = "verbose".toList) ∨ (c = 'h' ∧ tw = "help".toList)) := by
  have hlong : ∀ s, Name.ofChars tw = .long s → tw = s.toList := by
    intro s hs
    unfold Name.ofChars at hs
    split at hs
    · split at hs <;> cases hs; simp
    · cases hs; simp
  cases hn : Name.ofChars tw with
  | short c =>
    have ht : tw = [c] := by
      unfold Name.ofChars at hn
      split at hn
      · split at hn <;> cases hn; rfl
      · cases hn
    rw [hn, findC_short hd] at h
    split at h
    · rename_i hc
      cases h
      rcases hc with hc | rfl
      · exact .inr ⟨c, hc, rfl, .inl ht⟩
      · exact .inl ⟨.inr (by rw [ht]; decide), rfl⟩
    · cases h
  | long s =>
    have ht := hlong s hn
    rw [hn, findC_long hd] at h
    split at h
    · rename_i hs
      cases h
      exact .inr ⟨'h', by simp [flagsOf], rfl, .inr (.inr ⟨rfl, by rw [ht, hs]⟩)⟩
    · split at h
      · rename_i hs
        cases h
        exact .inr ⟨'v', by simp [flagsOf], rfl, .inr (.inl ⟨rfl, by rw [ht, hs]⟩)⟩
      · split at h
        · rename_i hs
          cases h
          exact .inl ⟨.inl (by rw [ht, hs]), rfl⟩
        · cases h

theorem given_of_scan (hd : Last d) {n : Nat} {args : List String} {m : Matches} (hn : args.length ≤ n)
    (h : scan (confOpts d) args = some m) :
    ∃ items, Given (flagsOf d) args items m.free ∧ m.opts = items.map (item d) := by
  induction n generalizing args m with
  | zero =>
    cases args with
    | nil => cases h; exact ⟨[], .nil, rfl⟩
    | cons => simp at hn
  | succ n ih =>
    cases args with
    | nil => cases h; exact ⟨[], .nil, rfl⟩
    | cons a r =>
      have hn' : r.length ≤ n := by simpa using hn
      by_cases ha : isArg a = true
      · by_cases hdd : a = "--"
        · subst hdd
          rw [scan_rest] at h
          cases h
          exact ⟨[], .rest, rfl⟩
        obtain ⟨c, cs, hcs⟩ := isArg_list ha
        by_cases hc : c = '-'
        · subst hc
          have hne : cs ≠ [] := by
            rintro rfl; exact hdd (String.toList_inj.mp (by rw [hcs]; decide))
          rw [scan_long hne hcs] at h
          cases hf : find (confOpts d) (Name.ofChars (cs.takeWhile (· != '='))) with
          | none => rw [hf] at h; cases h
          | some o =>
            rw [hf] at h
            dsimp only at h
            have hsplit := List.takeWhile_append_dropWhile (p := (· != '=')) (l := cs)
            rcases find_ofChars hd hf with ⟨htw, rfl⟩ | ⟨c, hcf, rfl, htw⟩
            · rw [if_neg (by simp [show optC.arg = true from rfl])] at h
              simp only [Option.map_eq_some_iff] at h
              obtain ⟨m', hm', rfl⟩ := h
              obtain ⟨items, hg, hi⟩ := ih hn' hm'
              cases hdw : cs.dropWhile (· != '=') with
              | nil =>
                rw [hdw, List.append_nil] at hsplit
                rw [hsplit] at htw
                refine ⟨_, .long (a := a) ?_ hg, by simp [hi, item]; rfl⟩
                rcases htw with rfl | rfl
                · exact .inl (String.toList_inj.mp (by rw [hcs]; decide))
                · exact .inr (String.toList_inj.mp (by rw [hcs]; decide))
              | cons e p =>
                have he : e = '=' := by
                  have := List.head?_dropWhile_not (p := (· != '=')) (l := cs)
                  rw [hdw] at this
                  simpa using this
                subst he
                rw [hdw] at hsplit
                refine ⟨_, .longArg (p := String.ofList p) (a := a) ?_ hg, by simp [hi, item]; rfl⟩
                rcases htw with htw | htw
                · refine .inl (String.toList_inj.mp ?_)
                  rw [hcs, ← hsplit, htw]
                  simp [show "--config=".toList = '-' :: '-' :: "config=".toList by decide,
                    show "config=".toList = "config".toList ++ ['='] by decide]
                · refine .inr (String.toList_inj.mp ?_)
                  rw [hcs, ← hsplit, htw]
                  simp [show "--c=".toList = '-' :: '-' :: "c=".toList by decide,
                    show "c=".toList = "c".toList ++ ['='] by decide]
            · rw [(flag_cases hd hcf).2.2.2.2.1] at h
              split at h
              · cases h
              · rename_i hdw
                have hdw : cs.dropWhile (· != '=') = [] := by simpa using hdw
                rw [hdw, List.append_nil] at hsplit
                rw [hsplit] at htw
                simp only [Option.map_eq_some_iff] at h
                obtain ⟨m', hm', rfl⟩ := h
                obtain ⟨items, hg, hi⟩ := ih hn' hm'
                refine ⟨_, .letters (isOption_eq _ ▸ ha) (l := [c]) ?_ (by simpa using hcf) hg, by simp [hi, item, hdw]⟩
                rcases htw with rfl | ⟨rfl, rfl⟩ | ⟨rfl, rfl⟩
                · rw [lettersOf_dashdash hcs]
                  · rfl
                  · rintro rfl
                    rw [show "--verbose".toList = '-' :: '-' :: "verbose".toList by decide] at hcs
                    simp at hcs
                  · rintro rfl
                    rw [show "--help".toList = '-' :: '-' :: "help".toList by decide] at hcs
                    simp at hcs
                · rw [show a = "--verbose" from String.toList_inj.mp (by rw [hcs]; decide)]; decide
                · rw [show a = "--help" from String.toList_inj.mp (by rw [hcs]; decide)]; decide
        · rw [scan_short hc hcs] at h
          cases hl : letters (confOpts d) (c :: cs) with
          | none => rw [hl] at h; cases h
          | some lx =>
            obtain ⟨l, x⟩ := lx
            rw [hl] at h
            rcases letters_inv hd hl with ⟨rfl, rfl, hk⟩ | ⟨fs, r', hfs, hk, rfl, rfl⟩
            · simp only [Option.map_eq_some_iff] at h
              obtain ⟨m', hm', rfl⟩ := h
              obtain ⟨items, hg, hi⟩ := ih hn' hm'
              exact ⟨_, .letters (isOption_eq _ ▸ ha) (lettersOf_short hc hcs) hk hg, by simp [hi, item]⟩
            · have hal : a = "-" ++ String.ofList fs ++ "c" ++ String.ofList r' := by
                apply String.toList_inj.mp
                rw [hcs, hfs]
                simp [show "-".toList = ['-'] by decide, show "c".toList = ['c'] by decide]
              cases r' with
              | nil =>
                have hal' : a = "-" ++ String.ofList fs ++ "c" := by simpa using hal
                simp only [List.isEmpty_nil, if_true] at h
                cases r with
                | nil =>
                  cases h
                  exact ⟨_, .bare hk hal' nofun .nil, by simp [item]; rfl⟩
                | cons p r =>
                  simp only at h
                  by_cases hp : isArg p = true
                  · rw [if_pos hp] at h
                    simp only [Option.map_eq_some_iff] at h
                    obtain ⟨m', hm', rfl⟩ := h
                    obtain ⟨items, hg, hi⟩ := ih hn' hm'
                    exact ⟨_, .bare hk hal' (by simpa [isOption_eq] using hp) hg, by simp [hi, item]; rfl⟩
                  · rw [if_neg hp] at h
                    simp only [Option.map_eq_some_iff] at h
                    obtain ⟨m', hm', rfl⟩ := h
                    obtain ⟨items, hg, hi⟩ := ih (by simp at hn'; omega) hm'
                    exact ⟨_, .loose hk hal' (by simpa [isOption_eq] using hp) hg, by simp [hi, item]; rfl⟩
              | cons y r' =>
                simp only [List.isEmpty_cons, Bool.false_eq_true, if_false, Option.map_eq_some_iff] at h
                obtain ⟨m', hm', rfl⟩ := h
                obtain ⟨items, hg, hi⟩ := ih hn' hm'
                refine ⟨_, .tight hk (p := String.ofList (y :: r')) ?_ hal hg, by simp [hi, item]; rfl⟩
                intro he
                have := congrArg String.toList he
                simp at this
      · rw [scan_other (by simpa using ha)] at h
        simp only [Option.map_eq_some_iff] at h
        obtain ⟨m', hm', rfl⟩ := h
        obtain ⟨items, hg, hi⟩ := ih hn' hm'
        exact ⟨items, .other (by simpa [isOption_eq] using ha) hg, hi⟩

theorem given_known (hd : Last d) {args : List String} {items : List (Char × Option String)} {o : List String}
    (h : Given (flagsOf d) args items o) : ∀ x ∈ items, (optOfC d x.1).short = x.1 := by
  have hfl : ∀ l : List Char, (∀ c ∈ l, c ∈ flagsOf d) → ∀ x ∈ l.map (fun c => (c, (none : Option String))),
      (optOfC d x.1).short = x.1 := by
    intro l hl x hx
    obtain ⟨c, hc, rfl⟩ := List.mem_map.mp hx
    exact (flag_cases hd (hl c hc)).2.2.2.2.2
  have hc : (optOfC d 'c').short = 'c' := rfl
  induction h with
  | nil => nofun
  | rest => nofun
  | other _ _ ih => exact ih
  | letters _ _ hk _ ih =>
    intro x hx
    rcases List.mem_append.mp hx with hx | hx
    · exact hfl _ hk x hx
    · exact ih x hx
  | long _ _ ih =>
    intro x hx
    rcases List.mem_cons.mp hx with rfl | hx
    · exact hc
    · exact ih x hx
  | longArg _ _ ih =>
    intro x hx
    rcases List.mem_cons.mp hx with rfl | hx
    · exact hc
    · exact ih x hx
  | tight hk _ _ _ ih | loose hk _ _ _ ih | bare hk _ _ _ ih =>
    intro x hx
    rcases List.mem_append.mp hx with hx | hx
    · exact hfl _ hk x hx
    · rcases List.mem_cons.mp hx with rfl | hx
      · exact hc
      · exact ih x hx

theorem countP_item {l : List (Char × Option String)} (h : ∀ x ∈ l, (optOfC d x.1).short = x.1) (c : Char) :
    ((l.map (item d)).countP fun x => x.1.short == c) = (l.map (·.1)).count c := by
  rw [List.countP_map, List.count, List.countP_map]
  apply List.countP_congr
  intro x hx
  simp [item, h x hx]

theorem countP_itemO (hd : Last d) {l : List (Char × Option String)} (h : ∀ x ∈ l, (optOfC d x.1).short = x.1) {o : Opt}
    (ho : o ∈ confOpts d) : ((l.map (item d)).countP fun x => x.1 == o) = (l.map (·.1)).count o.short := by
  rw [List.countP_map, List.count, List.countP_map]
  apply List.countP_congr
  intro x hx
  have hs := h x hx
  have hoo : optOfC d o.short = o := by
    rcases hd with rfl | rfl <;> revert o <;> decide
  simp only [item, Function.comp, beq_iff_eq]
  constructor
  · intro he; rw [← he, hs]
  · intro he; rw [he, hoo]

/-- The arguments of `server` and `info`. -/
theorem getopts_conf (hd : Last d) (args : List String) (m : Matches) :
    getopts (confOpts d) args = some m ↔
      ∃ items, Given (flagsOf d) args items m.free ∧ m.opts = items.map (item d) ∧
        (items.map (·.1)).count 'h' ≤ 1 ∧ (items.map (·.1)).count 'c' ≤ 1 ∧ (items.map (·.1)).count d.short ≤ 1 := by
  have hall : ∀ items : List (Char × Option String), (∀ x ∈ items, (optOfC d x.1).short = x.1) →
      (((confOpts d).all fun o => o.multi || decide (((items.map (item d)).countP fun x => x.1 == o) ≤ 1)) = true ↔
        (items.map (·.1)).count 'h' ≤ 1 ∧ (items.map (·.1)).count 'c' ≤ 1 ∧ (items.map (·.1)).count d.short ≤ 1) := by
    intro items hk
    have e1 := countP_itemO hd hk (o := optH) (by simp [confOpts])
    have e2 := countP_itemO hd hk (o := optC) (by simp [confOpts])
    have e3 := countP_itemO hd hk (o := d) (by simp [confOpts])
    have hm : d.multi = false := by rcases hd with rfl | rfl <;> rfl
    simp only [confOpts, List.all_cons, List.all_nil, e1, e2, e3, hm, show optH.multi = false from rfl,
      show optC.multi = false from rfl, show optV.multi = true from rfl, show optH.short = 'h' from rfl,
      show optC.short = 'c' from rfl, Bool.false_or, Bool.true_or, Bool.true_and, Bool.and_true, Bool.and_eq_true,
      decide_eq_true_eq]
  unfold getopts
  constructor
  · intro h
    split at h
    · cases h
    · rename_i m' hs
      split at h
      · rename_i ha
        cases h
        obtain ⟨items, hg, hi⟩ := given_of_scan hd (Nat.le_refl _) hs
        rw [hi] at ha
        exact ⟨items, hg, hi, (hall items (given_known hd hg)).mp ha⟩
      · cases h
  · rintro ⟨items, hg, hi, hc⟩
    rw [scan_of_given hd hg, ← hi]
    simp only
    rw [if_pos (by rw [hi]; exact (hall items (given_known hd hg)).mpr hc)]

theorem has_item {l : List (Char × Option String)} (h : ∀ x ∈ l, (optOfC d x.1).short = x.1) (c : Char) {f : List String} :
    Matches.has ⟨l.map (item d), f⟩ c = true ↔ (l.map (·.1)).count c ≠ 0 := by
  have := countP_item h c
  unfold Matches.has
  rw [← this, ← Nat.pos_iff_ne_zero, List.countP_pos_iff, List.any_eq_true]

theorem str_item {l : List (Char × Option String)} (h : ∀ x ∈ l, (optOfC d x.1).short = x.1) (c : Char) {f : List String} :
    Matches.str ⟨l.map (item d), f⟩ c = (l.lookup c).join := by
  unfold Matches.str
  induction l with
  | nil => rfl
  | cons x l ih =>
    have hx := h x List.mem_cons_self
    have ih := ih fun y hy => h y (List.mem_cons_of_mem _ hy)
    obtain ⟨y, v⟩ := x
    simp only [List.map_cons, List.find?_cons, item] at hx ih ⊢
    rw [hx]
    by_cases hc : y = c
    · subst hc; simp [List.lookup]
    · have h1 : (y == c) = false := by simpa using hc
      have h2 : (c == y) = false := by simpa using fun h => hc h.symm
      simp only [h1, List.lookup, h2]
      exact ih

end Pizauth.Cli
