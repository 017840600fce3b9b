import Verif.Proof.Texts
import Verif.Proof.CliConf
import Verif.Props.Tokens
import Verif.Props.Client
import Verif.Props.Dump
import Verif.Props.Requests
import Verif.Proof.Receive

/-!
# C72-C74: the command line, and what clients receive
-/

namespace Pizauth
open Cli

variable {E : Env}

namespace Cli

theorem options_arg {args : List String} {x : String} (h : x ∈ options args) : isArg x = true := by
  rw [← isOption_eq]
  unfold options at h
  exact (List.mem_filter.mp h).2

/-- All letters of the options. -/
def allLetters (args : List String) : List Char := (options args).flatMap fun x => (lettersOf x).getD []

theorem flatMap_optVals (l : List String) :
    l.flatMap optVals = (l.flatMap fun x => (lettersOf x).getD []).map fun c => (optOf c, none) := by
  induction l with
  | nil => rfl
  | cons a l ih => simp [ih, optVals]

theorem allOk_iff {u : Bool} {args : List String} :
    (options args).all (okOpt u) = true ↔
      (∀ x ∈ options args, lettersOf x ≠ none) ∧ ∀ c ∈ allLetters args, known u c = true := by
  rw [List.all_eq_true]
  unfold allLetters
  constructor
  · intro h
    refine ⟨fun x hx hn => ?_, fun c hc => ?_⟩
    · have := h x hx; simp [okOpt, hn] at this
    · obtain ⟨x, hx, hc⟩ := List.mem_flatMap.mp hc
      have := h x hx
      unfold okOpt at this
      cases hl : lettersOf x with
      | none => rw [hl] at this; cases this
      | some l => rw [hl] at this hc; exact List.all_eq_true.mp this c hc
  · rintro ⟨h1, h2⟩ x hx
    unfold okOpt
    cases hl : lettersOf x with
    | none => exact absurd hl (h1 x hx)
    | some l => exact List.all_eq_true.mpr fun c hc => h2 c (List.mem_flatMap.mpr ⟨x, hx, by rw [hl]; exact hc⟩)

theorem optOf_short {u : Bool} {c : Char} (h : known u c = true) : (optOf c).short = c := by
  unfold known at h
  simp only [Bool.or_eq_true, beq_iff_eq, Bool.and_eq_true] at h
  rcases h with (rfl | rfl) | ⟨_, rfl⟩ <;> rfl

theorem countP_short {u : Bool} {l : List Char} (h : ∀ c ∈ l, known u c = true) (d : Char) :
    ((l.map fun c => (optOf c, (none : Option String))).countP fun x => x.1.short == d) = l.count d := by
  rw [List.countP_map, List.count]
  apply List.countP_congr
  intro c hc
  simp [optOf_short (h c hc)]

theorem countP_opt {u : Bool} {l : List Char} (h : ∀ c ∈ l, known u c = true) {d : Char} (hd : known u d = true) :
    ((l.map fun c => (optOf c, (none : Option String))).countP fun x => x.1 == optOf d) = l.count d := by
  rw [List.countP_map, List.count]
  apply List.countP_congr
  intro c hc
  simp only [Function.comp, beq_iff_eq]
  constructor
  · intro he; rw [← optOf_short (h c hc), he, optOf_short hd]
  · rintro rfl; rfl

/-- What the flags of a client command amount to. -/
theorem getopts_flags (u : Bool) (args : List String) (m : Matches) :
    getopts (flagOpts u) args = some m ↔
      ((∀ x ∈ options args, lettersOf x ≠ none) ∧ ∀ c ∈ allLetters args, known u c = true) ∧
      (allLetters args).count 'h' ≤ 1 ∧ (u = true → (allLetters args).count 'u' ≤ 1) ∧
      m = ⟨(allLetters args).map fun c => (optOf c, none), others args⟩ := by
  unfold getopts
  rw [scan_flags, ← allOk_iff]
  by_cases h : (options args).all (okOpt u) = true
  · have hk := (allOk_iff.mp h).2
    have hh : known u 'h' = true := by simp [known]
    have hcu : (u = true → (allLetters args).count 'u' ≤ 1) ↔
        (u = true → (((allLetters args).map fun c => (optOf c, (none : Option String))).countP fun x => x.1 == optU) ≤ 1) := by
      constructor
      · rintro h rfl; have := countP_opt hk (d := 'u') (by simp [known]); rw [show optOf 'u' = optU from rfl] at this; have := h rfl; omega
      · rintro h rfl; have := countP_opt hk (d := 'u') (by simp [known]); rw [show optOf 'u' = optU from rfl] at this; have := h rfl; omega
    have hch := countP_opt hk hh
    rw [show optOf 'h' = optH from rfl] at hch
    have hf : (options args).flatMap optVals = (allLetters args).map fun c => (optOf c, none) := flatMap_optVals _
    simp only [h, if_true, hf, true_and]
    rw [← hch, hcu]
    change (if (flagOpts u).all _ = true then some _ else none) = some m ↔ _
    constructor
    · intro hm
      split at hm
      · rename_i hall
        cases hm
        rw [List.all_eq_true] at hall
        refine ⟨?_, ?_, rfl⟩
        · have := hall optH (by simp [flagOpts])
          simpa [optH] using this
        · rintro rfl
          have := hall optU (by simp [flagOpts])
          simpa [optU] using this
      · cases hm
    · rintro ⟨h1, h2, rfl⟩
      rw [if_pos]
      · rw [List.all_eq_true]
        intro o ho
        unfold flagOpts at ho
        simp only [List.mem_append, List.mem_cons, List.not_mem_nil, or_false] at ho
        rcases ho with (rfl | rfl) | ho
        · simp [optH] at h1 ⊢; exact h1
        · simp [optV]
        · cases u
          · simp at ho
          · simp at ho; subst ho; have := h2 rfl; simp [optU] at this ⊢; exact this
  · simp [h]

theorem has_iff {u : Bool} {l : List Char} {f : List String} (h : ∀ c ∈ l, known u c = true) (d : Char) :
    Matches.has ⟨l.map fun c => (optOf c, none), f⟩ d = true ↔ d ∈ l := by
  unfold Matches.has
  simp only [List.any_map, List.any_eq_true, Function.comp, beq_iff_eq]
  constructor
  · rintro ⟨c, hc, rfl⟩; rw [optOf_short (h c hc)]; exact hc
  · intro hd; exact ⟨d, hd, optOf_short (h d hd)⟩

theorem known_iff {u : Bool} {l : List Char} : (∀ c ∈ l, known u c = true) ∧ ¬ 'h' ∈ l ↔
    ∀ c ∈ l, c = 'v' ∨ (u = true ∧ c = 'u') := by
  unfold known
  constructor
  · rintro ⟨h1, h2⟩ c hc
    have := h1 c hc
    simp only [Bool.or_eq_true, beq_iff_eq, Bool.and_eq_true] at this
    rcases this with (rfl | h) | h
    · exact absurd hc h2
    · exact .inl h
    · exact .inr h
  · intro h
    refine ⟨fun c hc => ?_, fun hc => ?_⟩
    · rcases h c hc with rfl | ⟨rfl, rfl⟩ <;> simp
    · rcases h _ hc with h | ⟨_, h⟩ <;> revert h <;> decide

theorem count_zero {l : List Char} {c : Char} : l.count c = 0 ↔ ¬ c ∈ l := List.count_eq_zero

/-- A command for one account. -/
theorem forAccount_iff (u : Bool) (args : List String) (mk : String → Bool → Cmd) (c : Cmd) (v : Nat) :
    forAccount (flagOpts u) args mk = .client c v ↔
      ∃ n l, others args = [n] ∧ AllLetters (if u then ['v', 'u'] else ['v']) args l ∧ l.count 'u' ≤ 1 ∧
        l.count 'v' = v ∧ c = mk n (decide (l.count 'u' = 0)) := by
  have hal : ∀ l, AllLetters (if u then ['v', 'u'] else ['v']) args l ↔
      (∀ x ∈ options args, lettersOf x ≠ none) ∧ l = allLetters args ∧
        ((∀ c ∈ allLetters args, known u c = true) ∧ ¬ 'h' ∈ allLetters args) := by
    intro l
    unfold AllLetters
    rw [known_iff]
    refine and_congr_right fun _ => and_congr_right fun hl => ?_
    subst hl
    cases u <;> simp [allLetters]
  simp only [hal]
  unfold forAccount
  constructor
  · intro h
    split at h
    · cases h
    · rename_i m hm
      obtain ⟨⟨h1, h2⟩, h3, h4, rfl⟩ := (getopts_flags u args m).mp hm
      by_cases hh : Matches.has ⟨(allLetters args).map fun c => (optOf c, none), others args⟩ 'h' = true
      · rw [if_pos hh] at h; cases h
      · rw [if_neg hh] at h
        rw [has_iff h2] at hh
        split at h
        · rename_i n hn
          simp only at hn
          refine ⟨n, _, hn, ⟨h1, rfl, h2, hh⟩, ?_, ?_, ?_⟩
          · cases u with
            | true => exact h4 rfl
            | false =>
              have : 'u' ∉ allLetters args := fun hu => by have := h2 _ hu; revert this; decide
              rw [count_zero.mpr this]; omega
          · cases h
            exact (countP_short h2 'v').symm
          · cases h
            congr 1
            rw [Bool.eq_iff_iff]
            simp only [Bool.not_eq_true', decide_eq_true_eq, count_zero]
            rw [← has_iff h2 (f := others args)]
            simp
        · cases h
  · rintro ⟨n, l, hn, ⟨h1, rfl, h2, h3⟩, h4, rfl, rfl⟩
    have hm := (getopts_flags u args ⟨(allLetters args).map fun c => (optOf c, none), others args⟩).mpr
      ⟨⟨h1, h2⟩, by rw [count_zero.mpr h3]; omega, fun _ => h4, rfl⟩
    rw [hm]
    have hh : ¬ Matches.has ⟨(allLetters args).map fun c => (optOf c, none), others args⟩ 'h' = true := by
      rw [has_iff h2]; exact h3
    simp only
    rw [if_neg hh]
    simp only [hn]
    congr 1
    · congr 1
      rw [Bool.eq_iff_iff]
      simp only [Bool.not_eq_true', decide_eq_true_eq, count_zero]
      rw [← has_iff h2 (f := [n])]
      simp
    · exact countP_short h2 'v'

/-- A command without arguments. -/
theorem simple_iff (args : List String) (c0 c : Cmd) (v : Nat) :
    simple args c0 = .client c v ↔
      ∃ l, others args = [] ∧ AllLetters ['v'] args l ∧ l.count 'v' = v ∧ c = c0 := by
  have hal : ∀ l, AllLetters ['v'] args l ↔
      (∀ x ∈ options args, lettersOf x ≠ none) ∧ l = allLetters args ∧
        ((∀ c ∈ allLetters args, known false c = true) ∧ ¬ 'h' ∈ allLetters args) := by
    intro l
    unfold AllLetters
    rw [known_iff]
    refine and_congr_right fun _ => and_congr_right fun hl => ?_
    subst hl
    simp [allLetters]
  simp only [hal]
  unfold simple
  rw [show [optH, optV] = flagOpts false from rfl]
  constructor
  · intro h
    split at h
    · cases h
    · rename_i m hm
      obtain ⟨⟨h1, h2⟩, h3, h4, rfl⟩ := (getopts_flags false args m).mp hm
      split at h
      · cases h
      · rename_i hh
        simp only [Bool.or_eq_true, not_or] at hh
        rw [has_iff h2] at hh
        cases h
        refine ⟨_, ?_, ⟨h1, rfl, h2, hh.1⟩, (countP_short h2 'v').symm, rfl⟩
        simpa using hh.2
  · rintro ⟨l, hn, ⟨h1, rfl, h2, h3⟩, rfl, rfl⟩
    have hm := (getopts_flags false args ⟨(allLetters args).map fun c => (optOf c, none), others args⟩).mpr
      ⟨⟨h1, h2⟩, by rw [count_zero.mpr h3]; omega, nofun, rfl⟩
    rw [hm]
    have hh : ¬ Matches.has ⟨(allLetters args).map fun c => (optOf c, none), []⟩ 'h' = true := by
      rw [has_iff h2]; exact h3
    simp only [hn, hh, List.isEmpty_nil]
    simp
    exact countP_short h2 'v'

theorem wu_iff {l : List Char} {wu : Bool} :
    (l.count 'u' ≤ 1 ∧ wu = decide (l.count 'u' = 0)) ↔ l.count 'u' = if wu then 0 else 1 := by
  cases wu <;> simp <;> omega

theorem forAccount_show (args : List String) (c : Cmd) (v : Nat) (mk : String → Bool → Cmd) :
    forAccount [optH, optV, optU] args mk = .client c v ↔
      ∃ n wu l, others args = [n] ∧ AllLetters ['v', 'u'] args l ∧ l.count 'u' = (if wu then 0 else 1) ∧
        l.count 'v' = v ∧ c = mk n wu := by
  rw [show [optH, optV, optU] = flagOpts true from rfl, forAccount_iff]
  constructor
  · rintro ⟨n, l, h1, h2, h3, h4, h5⟩
    exact ⟨n, _, l, h1, h2, wu_iff.mp ⟨h3, rfl⟩, h4, h5⟩
  · rintro ⟨n, wu, l, h1, h2, h3, h4, h5⟩
    obtain ⟨h6, rfl⟩ := wu_iff.mpr h3
    exact ⟨n, l, h1, h2, h6, h4, h5⟩

theorem forAccount_revoke (args : List String) (c : Cmd) (v : Nat) :
    forAccount [optH, optV] args (fun act _ => .revoke act) = .client c v ↔
      ∃ n l, others args = [n] ∧ AllLetters ['v'] args l ∧ l.count 'v' = v ∧ c = .revoke n := by
  rw [show [optH, optV] = flagOpts false from rfl, forAccount_iff]
  constructor
  · rintro ⟨n, l, h1, h2, h3, h4, h5⟩
    exact ⟨n, l, h1, h2, h4, h5⟩
  · rintro ⟨n, l, h1, h2, h4, h5⟩
    refine ⟨n, l, h1, h2, ?_, h4, h5⟩
    have : 'u' ∉ l := fun hu => by have := h2.2.2 _ hu; revert this; decide
    rw [count_zero.mpr this]; omega

end Cli

/-- **C72.** A command line makes a request exactly if it `Means` it: the command word, then options (letters, alone or in
groups, or long names) and other arguments in any order, and `--` before arguments which look like options. -/
theorem C72_client (args : List String) (stdin : Bytes) (c : Cmd) (v : Nat) :
    call args stdin = .client c v ↔ Means args stdin c v := by
  unfold Means
  cases args with
  | nil => simp [call]
  | cons cmd rest =>
    constructor
    · intro h
      unfold call at h
      dsimp only at h
      split at h
      · obtain ⟨l, h1, h2, h3, rfl⟩ := (simple_iff ..).mp h
        exact ⟨cmd, rest, l, rfl, h3, ‹_›, h1, h2⟩
      split at h
      · split at h
        · cases h
        · split at h <;> cases h
      split at h
      · obtain ⟨n, wu, l, h1, h2, h3, h4, rfl⟩ := (forAccount_show ..).mp h
        exact ⟨cmd, rest, l, rfl, h4, ‹_›, h1, h2, h3⟩
      split at h
      · obtain ⟨l, h1, h2, h3, rfl⟩ := (simple_iff ..).mp h
        exact ⟨cmd, rest, l, rfl, h3, ‹_›, h1, h2⟩
      split at h
      · obtain ⟨l, h1, h2, h3, rfl⟩ := (simple_iff ..).mp h
        exact ⟨cmd, rest, l, rfl, h3, ‹_›, rfl, h1, h2⟩
      split at h
      · obtain ⟨n, l, h1, h2, h4, rfl⟩ := (forAccount_revoke ..).mp h
        exact ⟨cmd, rest, l, rfl, h4, ‹_›, h1, h2⟩
      split at h
      · split at h
        · cases h
        · split at h <;> cases h
      split at h
      · obtain ⟨n, wu, l, h1, h2, h3, h4, rfl⟩ := (forAccount_show ..).mp h
        exact ⟨cmd, rest, l, rfl, h4, ‹_›, h1, h2, h3⟩
      split at h
      · obtain ⟨l, h1, h2, h3, rfl⟩ := (simple_iff ..).mp h
        exact ⟨cmd, rest, l, rfl, h3, ‹_›, h1, h2⟩
      split at h
      · obtain ⟨l, h1, h2, h3, rfl⟩ := (simple_iff ..).mp h
        exact ⟨cmd, rest, l, rfl, h3, ‹_›, h1, h2⟩
      · cases h
    · rintro ⟨cmd', rest', l, he, hv, hm⟩
      cases he
      cases c <;> dsimp only at hm
      case «show» n wu =>
        obtain ⟨rfl, h1, h2, h3⟩ := hm
        simpa [call] using (forAccount_show rest (.show n wu) v .show).mpr ⟨n, wu, l, h1, h2, h3, hv, rfl⟩
      case refresh n wu =>
        obtain ⟨rfl, h1, h2, h3⟩ := hm
        simpa [call] using (forAccount_show rest (.refresh n wu) v .refresh).mpr ⟨n, wu, l, h1, h2, h3, hv, rfl⟩
      case revoke n =>
        obtain ⟨rfl, h1, h2⟩ := hm
        simpa [call] using (forAccount_revoke rest (.revoke n) v).mpr ⟨n, l, h1, h2, hv, rfl⟩
      case restore d =>
        obtain ⟨rfl, rfl, h1, h2⟩ := hm
        simpa [call] using (simple_iff rest (.restore d) (.restore d) v).mpr ⟨l, h1, h2, hv, rfl⟩
      case dump =>
        obtain ⟨rfl, h1, h2⟩ := hm
        simpa [call] using (simple_iff rest .dump .dump v).mpr ⟨l, h1, h2, hv, rfl⟩
      case reload =>
        obtain ⟨rfl, h1, h2⟩ := hm
        simpa [call] using (simple_iff rest .reload .reload v).mpr ⟨l, h1, h2, hv, rfl⟩
      case shutdown =>
        obtain ⟨rfl, h1, h2⟩ := hm
        simpa [call] using (simple_iff rest .shutdown .shutdown v).mpr ⟨l, h1, h2, hv, rfl⟩
      case status =>
        obtain ⟨rfl, h1, h2⟩ := hm
        simpa [call] using (simple_iff rest .status .status v).mpr ⟨l, h1, h2, hv, rfl⟩

/-- **C72.** Any other command line, unless it is one of `info` or `server`, leads to the usage message. -/
theorem C72_usage (args : List String) (stdin : Bytes) (h : ∀ c v, ¬ Means args stdin c v)
    (h1 : args.head? ≠ some "info") (h2 : args.head? ≠ some "server") : call args stdin = .usage := by
  cases hc : call args stdin with
  | usage => rfl
  | client c v => exact absurd ((C72_client ..).mp hc) (h c v)
  | info j p =>
    exfalso
    cases args with
    | nil => cases hc
    | cons cmd rest =>
      unfold call at hc
      simp only [List.head?_cons, ne_eq, Option.some.injEq] at h1 h2
      simp only [if_neg h1, if_neg h2] at hc
      unfold simple forAccount at hc
      repeat (split at hc <;> try cases hc)
  | server p d v =>
    exfalso
    cases args with
    | nil => cases hc
    | cons cmd rest =>
      unfold call at hc
      simp only [List.head?_cons, ne_eq, Option.some.injEq] at h1 h2
      simp only [if_neg h1, if_neg h2] at hc
      unfold simple forAccount at hc
      repeat (split at hc <;> try cases hc)

theorem confCall_iff {d : Opt} (hd : Last d) (rest : List String) (mk : Option String → Bool → Nat → Call)
    (x : Call) (hx : x ≠ .usage) :
    (match getopts (confOpts d) rest with
      | none => .usage
      | some m => if m.has 'h' || !m.free.isEmpty then .usage else mk (m.str 'c') (m.has d.short) (m.count 'v')) = x ↔
    ∃ items b, Given (flagsOf d) rest items [] ∧ (items.map (·.1)).count 'h' = 0 ∧ (items.map (·.1)).count 'c' ≤ 1 ∧
      (items.map (·.1)).count d.short = (if b then 1 else 0) ∧
      x = mk (items.lookup 'c').join b ((items.map (·.1)).count 'v') := by
  constructor
  · intro h
    split at h
    · exact absurd h.symm hx
    · rename_i m hm
      obtain ⟨items, hg, hi, h1, h2, h3⟩ := (getopts_conf hd rest m).mp hm
      have hk := given_known hd hg
      obtain ⟨mo, mf⟩ := m
      simp only at hg hi
      subst hi
      split at h
      · exact absurd h.symm hx
      · rename_i hh
        simp only [Bool.or_eq_true, not_or, Bool.not_eq_true', List.isEmpty_eq_false_iff, ne_eq, Decidable.not_not] at hh
        obtain ⟨hh, rfl⟩ := hh
        rw [has_item hk] at hh
        refine ⟨items, Matches.has ⟨items.map (item d), []⟩ d.short, hg, by simpa using hh, h2, ?_, ?_⟩
        · have := has_item hk d.short (f := [])
          split
          · rename_i ht; have := this.mp ht; omega
          · rename_i ht; have := mt this.mpr ht; simpa using this
        · rw [← h, str_item hk]
          congr 1
          exact countP_item hk 'v'
  · rintro ⟨items, b, hg, h1, h2, h3, rfl⟩
    have hk := given_known hd hg
    have hm := (getopts_conf hd rest ⟨items.map (item d), []⟩).mpr ⟨items, hg, rfl, by omega, h2, by split at h3 <;> omega⟩
    rw [hm]
    simp only
    have hh : Matches.has ⟨items.map (item d), []⟩ 'h' = false := by
      rw [Bool.eq_false_iff, ne_eq, has_item hk]; simpa using h1
    have hb : Matches.has ⟨items.map (item d), []⟩ d.short = b := by
      rw [Bool.eq_iff_iff, has_item hk, h3]; cases b <;> simp
    rw [hh, hb, str_item hk]
    simp only [List.isEmpty_nil, Bool.not_true, Bool.or_self, Bool.false_eq_true, if_false]
    congr 1
    exact countP_item hk 'v'

/-- **C72.** When the server is started, and with which configuration file (`none`: the default one). The file is given
by `-c`, whose argument may be attached or follow; after `--config` it has to be attached with `=`. -/
theorem C72_server (args : List String) (stdin : Bytes) (conf : Option String) (detach : Bool) (v : Nat) :
    call args stdin = .server conf detach v ↔
      ∃ rest items, args = "server" :: rest ∧ Given ['h', 'v', 'd'] rest items [] ∧
        (items.map (·.1)).count 'h' = 0 ∧ (items.map (·.1)).count 'c' ≤ 1 ∧
        (items.map (·.1)).count 'd' = (if detach then 0 else 1) ∧ (items.map (·.1)).count 'v' = v ∧
        conf = (items.lookup 'c').join := by
  have key := confCall_iff (d := optD) (.inl rfl)
  constructor
  · intro h
    have hs : args.head? = some "server" := by
      cases args with
      | nil => cases h
      | cons cmd rest =>
        by_cases hs : cmd = "server"
        · rw [hs]; rfl
        · exfalso
          unfold call simple forAccount at h
          dsimp only at h
          rw [if_neg hs] at h
          repeat (split at h <;> try cases h)
    cases args with
    | nil => cases hs
    | cons cmd rest =>
      cases hs
      have h' : (match getopts (confOpts optD) rest with
        | none => Call.usage
        | some m => if m.has 'h' || !m.free.isEmpty then Call.usage else
          Call.server (m.str 'c') (!m.has optD.short) (m.count 'v')) = .server conf detach v := by
        simp [call, confOpts, show optD.short = 'd' from rfl] at h ⊢; exact h
      obtain ⟨items, b, hg, h1, h2, h3, h4⟩ :=
        (key rest (fun p b v => .server p (!b) v) _ (by nofun)).mp h'
      injection h4 with h5 h6 h7
      subst h6
      exact ⟨rest, items, rfl, hg, h1, h2, by rw [show (items.map (·.1)).count 'd' = _ from h3]; cases b <;> rfl, h7.symm, h5⟩
  · rintro ⟨rest, items, rfl, hg, h1, h2, h3, h4, h5⟩
    have h' := (key rest (fun p b v => .server p (!b) v) (.server conf detach v) (by nofun)).mpr
      ⟨items, !detach, hg, h1, h2, by rw [show (items.map (·.1)).count optD.short = _ from h3]; cases detach <;> rfl,
        by simp [h4, h5]⟩
    simp [call, confOpts, show optD.short = 'd' from rfl] at h' ⊢; exact h'

/-- **C72.** The same for `info`. -/
theorem C72_info (args : List String) (stdin : Bytes) (json : Bool) (conf : Option String) :
    call args stdin = .info json conf ↔
      ∃ rest items, args = "info" :: rest ∧ Given ['h', 'v', 'j'] rest items [] ∧
        (items.map (·.1)).count 'h' = 0 ∧ (items.map (·.1)).count 'c' ≤ 1 ∧
        (items.map (·.1)).count 'j' = (if json then 1 else 0) ∧ conf = (items.lookup 'c').join := by
  have key := confCall_iff (d := optJ) (.inr rfl)
  constructor
  · intro h
    have hs : args.head? = some "info" := by
      cases args with
      | nil => cases h
      | cons cmd rest =>
        by_cases hs : cmd = "info"
        · rw [hs]; rfl
        · exfalso
          unfold call simple forAccount at h
          dsimp only at h
          rw [if_neg hs] at h
          repeat (split at h <;> try cases h)
    cases args with
    | nil => cases hs
    | cons cmd rest =>
      cases hs
      have h' : (match getopts (confOpts optJ) rest with
        | none => Call.usage
        | some m => if m.has 'h' || !m.free.isEmpty then Call.usage else
          Call.info (m.has optJ.short) (m.str 'c')) = .info json conf := by
        simp [call, confOpts, show optJ.short = 'j' from rfl] at h ⊢; exact h
      obtain ⟨items, b, hg, h1, h2, h3, h4⟩ :=
        (key rest (fun p b _ => .info b p) _ (by nofun)).mp h'
      injection h4 with h5 h6
      subst h5
      exact ⟨rest, items, rfl, hg, h1, h2, h3, h6⟩
  · rintro ⟨rest, items, rfl, hg, h1, h2, h3, h4⟩
    have h' := (key rest (fun p b _ => .info b p) (.info json conf) (by nofun)).mpr
      ⟨items, json, hg, h1, h2, h3, by simp [h4]⟩
    simp [call, confOpts, show optJ.short = 'j' from rfl] at h' ⊢; exact h'

/-- **C72**, consequence: after `--` every account name can be given, whatever it looks like. -/
theorem C72_any_name (n : String) (stdin : Bytes) :
    call ["show", "--", n] stdin = .client (.show n true) 0 ∧
    call ["refresh", "--", n] stdin = .client (.refresh n true) 0 ∧
    call ["revoke", "--", n] stdin = .client (.revoke n) 0 := by
  have ho : others ["--", n] = [n] := by simp [others]
  have hl : ∀ k, AllLetters k ["--", n] [] := fun k => ⟨by simp [options], by simp [options], nofun⟩
  exact ⟨(C72_client ..).mpr ⟨_, _, [], rfl, rfl, rfl, ho, hl _, rfl⟩,
    (C72_client ..).mpr ⟨_, _, [], rfl, rfl, rfl, ho, hl _, rfl⟩,
    (C72_client ..).mpr ⟨_, _, [], rfl, rfl, rfl, ho, hl _⟩⟩

/-- **C72**, consequence: without `--` it can be given exactly if it does not look like an option. -/
theorem C72_plain_name (n : String) (stdin : Bytes) :
    (∃ c v, call ["revoke", n] stdin = .client c v) ↔ n = "-" ∨ ¬ BeginsWith n "-" := by
  have hopt : (n = "-" ∨ ¬ BeginsWith n "-") ↔ isArg n = false := by
    rw [← isOption_eq, ← startsWith_iff, startsWith]
    unfold isOption
    cases h : n.toList with
    | nil => simp [h]
    | cons c cs => by_cases hn : n = "-" <;> by_cases hc : c = '-' <;> simp [hn, hc, h] <;> grind
  rw [hopt]
  constructor
  · rintro ⟨c, v, h⟩
    obtain ⟨cmd, rest, l, he, _, hm⟩ := (C72_client ..).mp h
    cases he
    cases c <;> simp at hm
    by_cases hd : n = "--"
    · subst hd
      exact absurd hm.1 (by simp [others])
    · have := hm.1
      rw [others_cons _ _ hd] at this
      split at this
      · simp [others] at this
      · rename_i hf; simpa using hf
  · intro ha
    have hd : n ≠ "--" := by rintro rfl; revert ha; decide
    refine ⟨.revoke n, 0, (C72_client ..).mpr ⟨_, _, [], rfl, rfl, rfl, ?_, ?_⟩⟩
    · rw [others_cons _ _ hd, ha]; rfl
    · have : options [n] = [] := by rw [options_cons _ _ hd, ha]; rfl
      exact ⟨by rw [this]; nofun, by rw [this]; rfl, nofun⟩

/-! Cases: flags in a group, and in any order; `--` ; the argument of `-c`; mistakes. -/

example : call ["show", "-vuv", "work"] [] = .client (.show "work" false) 2 := by decide +kernel
example : call ["show", "work", "--verbose"] [] = .client (.show "work" true) 1 := by decide +kernel
example : call ["show", "-u", "-u", "work"] [] = .usage := by decide +kernel
example : call ["show", "-h", "work"] [] = .usage := by decide +kernel
example : call ["show", "work", "home"] [] = .usage := by decide +kernel
example : call ["revoke", "-u", "work"] [] = .usage := by decide +kernel
example : call ["revoke", "--", "-u"] [] = .client (.revoke "-u") 0 := by decide +kernel
example : call ["revoke", "-"] [] = .client (.revoke "-") 0 := by decide +kernel
example : call ["server", "-vdc", "p"] [] = .server (some "p") false 1 := by decide +kernel
example : call ["server", "-cp"] [] = .server (some "p") true 0 := by decide +kernel
example : call ["server", "--config=p"] [] = .server (some "p") true 0 := by decide +kernel
example : call ["server", "--config", "p"] [] = .usage := by decide +kernel
example : call ["server", "-c", "-v"] [] = .server none true 1 := by decide +kernel
example : call ["info", "-j"] [] = .info true none := by decide +kernel
example : Given ['h', 'v', 'd'] ["-vdc", "p"] [('v', none), ('d', none), ('c', some "p")] [] :=
  .loose (l := ['v', 'd']) (by decide) (by decide) (by decide) .nil

/-! ## C73: exit codes -/

/-- **C73.** The exit code is 0 or 1. If it is 1 then nothing was printed to stdout, and there was an error message; if
it is 0 then there was none. -/
theorem C73_code (c : Cmd) (conn : Conn) :
    (run c conn).code = 0 ∧ (run c conn).stderr = none ∨
    (run c conn).code = 1 ∧ (run c conn).stdout = [] ∧ (run c conn).stderr ≠ none := by
  unfold run
  repeat' split
  all_goals first | exact .inl ⟨rfl, rfl⟩ | exact .inr ⟨rfl, rfl, nofun⟩

theorem readReply_ok_iff (c : Cmd) (hc : c.isText = true) (b : Bytes) : (∃ o, c.readReply b = .ok o) ↔ Success c b := by
  have key : ∀ o, c.readReply b = .ok o → Success c b := by
    intro o h
    unfold Cmd.readReply at h
    split at h
    · cases h
    · rename_i rtn hr
      have hb := utf8_of_fromUtf8 hr
      split at h <;> try (simp [malformed] at h; done)
      all_goals
        have hsp := splitColon_some ‹_›
        subst hsp
        simp only [Success]
        first
        | exact hb.symm
        | exact ⟨_, hb.symm⟩
  refine ⟨fun ⟨o, ho⟩ => key o ho, fun h => ?_⟩
  have e1 : utf8 "scheduled:" = utf8 ("scheduled" ++ ":" ++ "") := rfl
  have e2 : utf8 "ok:" = utf8 ("ok" ++ ":" ++ "") := rfl
  have e3 : ∀ x, utf8 ("ok:" ++ x) = utf8 ("ok" ++ ":" ++ x) := fun _ => rfl
  cases c <;> simp [Cmd.isText] at hc <;> simp only [Success] at h
  · rw [h, e1, readReply_split (by decide +kernel)]; exact ⟨none, rfl⟩
  · rw [h, e2, readReply_split (by decide +kernel)]; exact ⟨none, rfl⟩
  · rw [h, e2, readReply_split (by decide +kernel)]; exact ⟨none, rfl⟩
  · rw [h, e2, readReply_split (by decide +kernel)]; exact ⟨none, rfl⟩
  · obtain ⟨tok, rfl⟩ := h; exact ⟨_, (C48_show ..).mpr ⟨tok, rfl, rfl⟩⟩
  · obtain ⟨x, rfl⟩ := h; rw [e3, readReply_split (by decide +kernel)]; exact ⟨some x, rfl⟩

/-- **C73.** A command exits with 0 exactly if the server was reached and answered with success. -/
theorem C73_success {c : Cmd} (hc : c.isText = true) (conn : Conn) :
    (run c conn).code = 0 ↔ ∃ b, conn = .answer b ∧ Success c b := by
  cases conn with
  | refused => simp [run, failWith]
  | unwritable => simp [run, failWith]
  | broken m => cases c <;> simp [Cmd.isText] at hc <;> simp [run, failWith]
  | answer b =>
    rw [show (∃ b', Conn.answer b = .answer b' ∧ Success c b') ↔ Success c b by simp, ← readReply_ok_iff c hc]
    cases hr : c.readReply b with
    | ok o =>
      cases o <;> cases c <;> simp [Cmd.isText] at hc <;> simp [run, hr]
    | err m =>
      cases c <;> simp [Cmd.isText] at hc <;> simp [run, hr, failWith]

/-- **C73.** `pizauth shutdown` waits for no answer: it prints nothing, and exits with 0 exactly if its request was
written. -/
theorem C73_shutdown (conn : Conn) :
    (run .shutdown conn).stdout = [] ∧
      ((run .shutdown conn).code = 0 ↔ conn ≠ .refused ∧ conn ≠ .unwritable) := by
  cases conn <;> simp [run, failWith]

/-- **C73.** `pizauth dump` exits with 0 exactly if the connection did not break, and then it has printed what was read,
byte by byte. -/
theorem C73_dump (conn : Conn) :
    ((run .dump conn).code = 0 ↔ ∃ b, conn = .answer b) ∧
      ∀ b, conn = .answer b → run .dump conn = ⟨b, none, 0⟩ := by
  cases conn <;> simp [run, failWith]

/-- **C73.** What the errors say: whether the server was not reached, or could not be written to, or the connection broke
(with the system's message). -/
theorem C73_message {c : Cmd} :
    (run c .refused).stderr = some "pizauth authenticator not running or not responding" ∧
    (run c .unwritable).stderr = some "Socket not writeable" ∧
    (c ≠ .shutdown → ∀ m, (run c (.broken m)).stderr = some m) := by
  refine ⟨rfl, rfl, fun hc m => ?_⟩
  cases c <;> first | exact absurd rfl hc | rfl

/-- **C73.** A client receives at most one answer: nothing, or one which was written while its request was the last. -/
theorem C73_one {w : World} {buf b : Bytes} (h : Receives E w buf b) :
    b = [] ∨ ∃ w1, Answers E w1 buf b ∧ Steps E w1 w ∧ lastRequest w1.log = lastRequest w.log := h.one

/-- **C73.** If `pizauth show` exits with 0 then it has printed one line, a token which the account held, and which was
not expired, at some moment at which this request was already the last one. -/
theorem C73_show {w : World} {n : String} {wu : Bool} {b : Bytes} (h : Receives E w (Cmd.wire (.show n wu)) b)
    (hc : (run (.show n wu) (.answer b)).code = 0) :
    ∃ tok wd t, (run (.show n wu) (.answer b)).stdout = utf8 (tok ++ "\n") ∧ Reach E wd ∧ Steps E wd w ∧
      lastRequest wd.log = lastRequest w.log ∧ HoldsToken wd.ls n t ∧ t.accessToken = tok ∧ wd.now < t.expiry := by
  obtain ⟨b', hb, tok, htok⟩ := (C73_success (c := .show n wu) rfl _).mp hc
  cases hb
  subst htok
  rcases C73_one h with he | ⟨w1, ha, hst, hreq⟩
  · have := congrArg fromUtf8 he
    rw [fromUtf8_utf8, show ([] : Bytes) = utf8 "" by decide, fromUtf8_utf8] at this
    have := congrArg String.length (Option.some.inj this)
    simp at this
  · obtain ⟨wd, t, a, h1, h2, h3, h4, h5, h6, _⟩ := C09_held ha (C47 _)
    refine ⟨tok, wd, t, ?_, h1, h2.trans hst, h3.trans hreq, h4, h5, h6⟩
    have hr : Cmd.readReply (.show n wu) (utf8 ("access_token:" ++ tok)) = .ok (some tok) :=
      (C48_show ..).mpr ⟨tok, rfl, rfl⟩
    simp [run, hr]

/-! ## C74: every request is answered -/

theorem utf8_ne_nil {s : String} (h : s ≠ "") : utf8 s ≠ [] := by
  intro he
  apply h
  have := congrArg fromUtf8 he
  rw [fromUtf8_utf8, show ([] : Bytes) = utf8 "" by decide, fromUtf8_utf8] at this
  exact Option.some.inj this

theorem append_ne_empty {a b : String} (h : a ≠ "") : a ++ b ≠ "" := by
  intro he
  apply h
  have := congrArg String.toList he
  simp at this
  exact this.1

theorem ExecR.no_reply {S : Static} {now : Instant} {wall : SysTime} {ls : LockedState} {tid : Nat} {buf : Bytes}
    {inp : Input} {f : Eff} (hx : ExecR E S now wall ls tid (.unix buf) inp f) (h : ∀ b, .reply b ∉ f.next) :
    parseReq buf = .dump ∨ parseReq buf = .shutdown ∨ parseReq buf = .invalid ∨
      ∃ e a, ls.Has e a ∧ ∀ url, ¬ AuthUrl E S a inp url := by
  cases hx <;> first
    | exact .inl ‹_›
    | exact .inr (.inl ‹_›)
    | exact .inr (.inr (.inl ‹_›))
    | exact .inr (.inr (.inr ⟨_, _, ‹_›, ‹_›⟩))
    | exact absurd (.head _) (h _)
    | exact absurd (.tail _ (.head _)) (h _)
    | exact absurd (.tail _ (.tail _ (.head _))) (h _)
    | exact absurd (.tail _ (.tail _ (.tail _ (.head _)))) (h _)

/-- Answers are not empty. -/
theorem ExecR.reply_ne_nil {S : Static} {now : Instant} {wall : SysTime} {ls : LockedState} {tid : Nat} {buf b : Bytes}
    {inp : Input} {f : Eff} (hx : ExecR E S now wall ls tid (.unix buf) inp f) (h : .reply b ∈ f.next)
    (hd : parseReq buf ≠ .dump) : b ≠ [] := by
  rcases hx.reply_form h with ⟨m, rfl⟩ | ⟨u, n, url, hr, rfl⟩ | ⟨u, n, tok, hr, rfl⟩ | ⟨u, n, hr, rfl⟩ | ⟨hr, rfl⟩ |
    ⟨hr, x, rfl⟩ | hr | hr
  · exact utf8_ne_nil (append_ne_empty (by decide))
  · obtain ⟨s, hs⟩ := pendingReply_form (E := E) u url
    rw [hs]
    exact utf8_ne_nil (append_ne_empty (by decide))
  · exact utf8_ne_nil (append_ne_empty (by decide))
  · decide
  · decide
  · exact utf8_ne_nil (append_ne_empty (by decide))
  · exact absurd hr hd
  · have hb : b = infoReply S := by
      cases hx <;> simp_all
    rw [hb]
    exact utf8_ne_nil (append_ne_empty (append_ne_empty (append_ne_empty (append_ne_empty (append_ne_empty
      (append_ne_empty (by decide)))))))

/-- **C74**, in part: every request is answered, except `shutdown` (and `dump`, see `C74_not`). If http URLs have hosts,
as the URL standard says. -/
theorem C74_partial (hl : HostLaw E) {w : World} {c : Cmd} (h : Receives E w c.wire []) : c = .shutdown ∨ c = .dump := by
  obtain ⟨t, wd, inp, f, hd, hb, _⟩ := h.done
  have hreq := C47 c
  have key : parseReq c.wire = .dump ∨ parseReq c.wire = .shutdown → c = .shutdown ∨ c = .dump := by
    rw [hreq]
    cases c <;> simp [Cmd.req]
  by_cases hno : ∀ b, .reply b ∉ f.next
  · rcases hd.exec.no_reply hno with h | h | h | ⟨e, a, ha, hurl⟩
    · exact key (.inl h)
    · exact key (.inr h)
    · rw [hreq] at h; cases c <;> cases h
    · obtain ⟨url, hu⟩ := authUrl_ok hl hd.reach ha.2 inp
      exact absurd hu (hurl url)
  · obtain ⟨b, hm⟩ : ∃ b, .reply b ∈ f.next := by
      simpa using hno
    by_cases hdump : parseReq c.wire = .dump
    · exact key (.inl hdump)
    · exfalso
      apply hd.exec.reply_ne_nil hm hdump
      have := List.flatten_eq_nil_iff.mp hb.symm
      exact this b (List.mem_filterMap.mpr ⟨_, hm, rfl⟩)

/-- **C74**, for `dump`: what `pizauth dump` prints is empty or a dump which was made while the request was carried out
(see `C36` for what restoring it does); and if the server cannot be reached, it fails. -/
theorem C74_dump_partial {w : World} {b : Bytes} (h : Receives E w (Cmd.wire .dump) b) (hb : b ≠ []) :
    run .dump (.answer b) = ⟨b, none, 0⟩ ∧
    ∃ w1 w1', Executes E w1 (Cmd.wire .dump) w1' ∧ w1'.threads 0 = [.reply b, .close] ∧ Steps E w1' w := by
  refine ⟨rfl, ?_⟩
  rcases C73_one h with h | ⟨w1, ha, hs, _⟩
  · exact absurd h hb
  · obtain ⟨w2, w3, h1, h2, h3⟩ := C36_answer ha (C47 _)
    exact ⟨w2, w3, h1, h2, h3.trans hs⟩

namespace Demo

/-- A token is dumped while the clock shows a time before 1970. -/
def sDump1970 : List Action := sToken ++ [.setWall (-5), .connect (Cmd.wire .dump), .run 0 { dumpOrder :=
  (((after (sToken ++ [.setWall (-5)])).ls.dumpLoop (after (sToken ++ [.setWall (-5)])).now (-5)
    (after sToken).ls.details).getD []) }]

end Demo

/-- C74 is false as stated: a dump may fail, and then the client prints nothing and exits with 0. -/
theorem C74_not : ∃ w, Receives Demo.env w (Cmd.wire .dump) [] ∧ run .dump (.answer []) = ⟨[], none, 0⟩ := by
  refine ⟨Demo.after Demo.sDump1970, ⟨Demo.after_reach _, ⟨.run 0 {}, Demo.andThen (Demo.after Demo.sDump1970) [.run 0 {}], 0,
    ?_, ?_⟩, ⟨0, ?_⟩, ?_⟩, rfl⟩
  · exact Demo.andThen_one (by decide +kernel)
  · decide +kernel
  · decide +kernel
  · decide +kernel

/-! Cases of C73: `show` with a token, and with none. -/

namespace Demo

def sShown : List Action := sShow ++ n0 1
def sShownNone : List Action := [.connect (Cmd.wire (.show "zz" true))] ++ n0 2

theorem receives_of {w : World} {buf b : Bytes} {t t' : Instant} (hr : Reach env w)
    (h1 : ((w.step env (.run 0 {})).map World.log == some ((t', .closed) :: w.log)) = true)
    (h2 : lastRequest w.log = some (t, buf)) (h3 : b = (repliesSince w.log).flatten) : Receives env w buf b := by
  refine ⟨hr, ?_, ⟨t, h2⟩, h3⟩
  cases hs : w.step env (.run 0 {}) with
  | none => rw [hs] at h1; simp at h1
  | some w' =>
    rw [hs] at h1
    simp at h1
    exact ⟨_, w', t', hs, h1⟩

end Demo

example : Receives Demo.env (Demo.after Demo.sShown) (Cmd.wire (.show "a" true)) (utf8 "access_token:T1") ∧
    run (.show "a" true) (.answer (utf8 "access_token:T1")) = ⟨utf8 "T1\n", none, 0⟩ :=
  ⟨Demo.receives_of (t := 0) (t' := 0) (Demo.after_reach _) (by decide +kernel) (by decide +kernel) (by decide +kernel),
    by decide +kernel⟩

example : Receives Demo.env (Demo.after Demo.sShownNone) (Cmd.wire (.show "zz" true)) (utf8 "error:No account 'zz'") ∧
    run (.show "zz" true) (.answer (utf8 "error:No account 'zz'")) = ⟨[], some "No account 'zz'", 1⟩ :=
  ⟨Demo.receives_of (t := 0) (t' := 0) (Demo.after_reach _) (by decide +kernel) (by decide +kernel) (by decide +kernel),
    by decide +kernel⟩

example : run (.show "a" true) .refused = ⟨[], some "pizauth authenticator not running or not responding", 1⟩ := rfl
example : run (.show "a" true) (.answer []) = ⟨[], some "Malformed response ''", 1⟩ := by decide +kernel

end Pizauth
