import Verif.Spec.Completion
import Verif.Props.Grammar
import Verif.Props.Cli

/-!
# C121: completion of command lines
-/

namespace Pizauth
namespace Completion

/-! ## Lexing -/

theorem lexC_tok {t : Tok} (h : TokOk t) (r : List Char) : lexC (t.text.toList ++ ' ' :: r) = t :: lexC r := by
  have hb := lexC_blank (c := ' ') (by decide) r
  cases h with
  | str hs =>
    obtain ⟨v, rfl⟩ := hs
    simp only [quoteStr, String.toList_ofList]
    rw [lexC_quote v.toList (' ' :: r), hb]
  | time hs => rw [lexC_time hs, hb]
  | fixed hs => rw [lexC_fixed hs, hb]

theorem lexC_onLine {ts : List Tok} (h : ∀ t ∈ ts, TokOk t) (r : List Char) : lexC (onLine ts ++ r) = ts ++ lexC r := by
  induction ts with
  | nil => rfl
  | cons t ts ih =>
    simp only [onLine, List.flatMap_cons, List.append_assoc, List.cons_append, List.nil_append]
    rw [lexC_tok (h t (by simp))]
    exact congrArg _ (ih fun t ht => h t (List.mem_cons_of_mem _ ht))

theorem lexC_onLines {ls : List (List Tok)} (h : ∀ t ∈ ls.flatten, TokOk t) (r : List Char) :
    lexC (onLines ls ++ r) = ls.flatten ++ lexC r := by
  induction ls with
  | nil => rfl
  | cons ts ls ih =>
    simp only [onLines, List.flatMap_cons, List.append_assoc, List.cons_append, List.flatten_cons]
    rw [lexC_blank (by decide), lexC_blank (by decide), lexC_blank (by decide),
      lexC_onLine fun t ht => h t (by simp [ht])]
    exact congrArg _ (ih fun t ht => h t (by simp only [List.flatten_cons, List.mem_append]; exact .inr ht))

theorem lexC_lbrace (r : List Char) (hr : r ≠ []) : lexC ('{' :: r) = ⟨.LBRACE, "{"⟩ :: lexC r := by
  cases r with
  | nil => exact absurd rfl hr
  | cons c r =>
    have hl : longest ('{' :: c :: r) lexRules none = some (.LBRACE, 1) := by rfl
    rw [lexC_step hl]
    rfl

theorem lexC_rbrace (r : List Char) : lexC ('}' :: '\n' :: r) = ⟨.RBRACE, "}"⟩ :: lexC r := by
  have hl : longest ('}' :: '\n' :: r) lexRules none = some (.RBRACE, 1) := by rfl
  rw [lexC_step hl, if_neg (by decide)]
  exact congrArg (List.cons _) (lexC_blank (c := '\n') (by decide) r)

theorem Tidy.lex {file : List Char} {l : List TopLevel} (h : Tidy file l) : ∃ ts, lexC file = ts ∧ RTops ts l := by
  induction h with
  | nil => exact ⟨[], rfl, .nil⟩
  | @account n ls fs file l hn _ hg ht _ ih =>
    obtain ⟨ts, h1, h2⟩ := ih
    refine ⟨_, ?_, .cons (.account (a := "account") (n := n) (b := "{") (c := "}") hg) h2⟩
    simp only [List.append_assoc]
    rw [show "account ".toList = "account".toList ++ [' '] from rfl, List.append_assoc]
    rw [show ([' '] : List Char) ++ (n.toList ++ (" {".toList ++ (onLines ls ++ ("\n}\n".toList ++ file)))) =
      ' ' :: (n.toList ++ ' ' :: '{' :: (onLines ls ++ '\n' :: '}' :: '\n' :: file)) from rfl]
    rw [lexC_tok (t := ⟨.ACCOUNT, "account"⟩) (.fixed rfl), lexC_tok (t := ⟨.STRING, n⟩) (.str hn),
      lexC_lbrace _ (by simp), lexC_onLines fun t h => (ht t h).1, lexC_blank (by decide), lexC_rbrace, h1]
    simp
  | @other ts x file l hg _ ht _ ih =>
    obtain ⟨ts', h1, h2⟩ := ih
    refine ⟨_, ?_, .cons hg h2⟩
    rw [lexC_onLine fun t h => (ht t h).1, lexC_blank (by decide), h1]

/-! ## Lines -/

theorem lines_line {l : List Char} (h : '\n' ∉ l) (r : List Char) : lines (l ++ '\n' :: r) = l :: lines r := by
  induction l with
  | nil => simp [lines]
  | cons c l ih =>
    have hc : c ≠ '\n' := fun e => h (by simp [e])
    rw [List.cons_append, lines, if_neg hc, ih fun hm => h (List.mem_cons_of_mem _ hm)]
    simp

theorem onLine_nl {ts : List Tok} (h : ∀ t ∈ ts, '\n' ∉ t.text.toList) : '\n' ∉ onLine ts := by
  intro hm
  simp only [onLine, List.mem_flatMap, List.mem_append, List.mem_singleton] at hm
  obtain ⟨t, ht, hm | hm⟩ := hm
  · exact h t ht hm
  · cases hm

/-- Lines which are indented, and the one before. -/
theorem lines_onLines {l : List Char} (hl : '\n' ∉ l) {ls : List (List Tok)} (h : ∀ t ∈ ls.flatten, '\n' ∉ t.text.toList)
    (r : List Char) : lines (l ++ onLines ls ++ '\n' :: r) = l :: (ls.map fun ts => ' ' :: ' ' :: onLine ts) ++ lines r := by
  induction ls generalizing l with
  | nil => simpa [onLines] using lines_line hl r
  | cons ts ls ih =>
    have h1 : '\n' ∉ onLine ts := onLine_nl fun t ht => h t (by simp [ht])
    have := ih (l := ' ' :: ' ' :: onLine ts) (by simp [h1])
      (fun t ht => h t (by simp only [List.flatten_cons, List.mem_append]; exact .inr ht))
    simp only [onLines, List.flatMap_cons, List.cons_append, List.append_assoc, List.map_cons] at this ⊢
    rw [lines_line hl, this]

/-! ## sed -/

theorem lastBrace_append (x : List Char) : lastBrace (x ++ [' ', '{']) = some (x, []) := by
  induction x with
  | nil => rfl
  | cons c x ih => simp [lastBrace, ih]

theorem substitute_account (n : List Char) : substitute ("account ".toList ++ n ++ " {".toList) = n := by
  have h : "account ".toList.isPrefixOf ("account ".toList ++ n ++ " {".toList) = true := by
    simp only [List.isPrefixOf_iff_prefix, List.append_assoc]
    exact List.prefix_append _ _
  have hd : ("account ".toList ++ n ++ " {".toList).drop 8 = n ++ [' ', '{'] := by
    rw [List.append_assoc, List.drop_append_of_le_length (by decide)]
    rfl
  rw [substitute, if_pos h, hd, lastBrace_append]
  simp

/-- Nothing but an account begins like one. -/
theorem not_account {ts : List Tok} {x : TopLevel} (hg : GTopLevel ts x) (hx : ∀ n fs, x ≠ .account n fs)
    (ht : ∀ t ∈ ts, TokOk t) : "account".toList.isPrefixOf (onLine ts) = false := by
  have key : ∀ {k : Kind} {s : String} {ts : List Tok}, TokOk ⟨k, s⟩ → k ≠ .ACCOUNT → k ≠ .STRING → k ≠ .TIME →
      "account".toList.isPrefixOf (onLine (⟨k, s⟩ :: ts)) = false := by
    intro k s ts h h1 h2 h3
    cases h with
    | str => exact absurd rfl h2
    | time => exact absurd rfl h3
    | fixed h =>
      simp only [onLine, List.flatMap_cons, List.append_assoc]
      cases k <;> first | (cases h; done) | (cases h; first | rfl | exact absurd rfl h1)
  cases hg
  case account => exact absurd rfl (hx _ _)
  all_goals exact key (ht _ (by simp)) (by simp) (by simp) (by simp)

theorem Tidy.accounts {file : List Char} {l : List TopLevel} (h : Tidy file l) :
    accounts file = (names l).map String.toList := by
  induction h with
  | nil => rfl
  | @account n ls fs file l hn hnl hg ht _ ih =>
    have hl : '\n' ∉ "account ".toList ++ n.toList ++ " {".toList := by
      intro hm
      simp only [List.mem_append] at hm
      rcases hm with (hm | hm) | hm
      · revert hm; decide
      · exact hnl hm
      · revert hm; decide
    have h1 := lines_onLines hl (fun t h => (ht t h).2) ('}' :: '\n' :: file)
    have h2 : lines ('}' :: '\n' :: file) = ['}'] :: lines file := lines_line (l := ['}']) (by decide) file
    have h3 : ("account ".toList ++ n.toList ++ " {".toList ++ onLines ls ++ "\n}\n".toList ++ file) =
      "account ".toList ++ n.toList ++ " {".toList ++ onLines ls ++ '\n' :: '}' :: '\n' :: file := by simp
    have h4 : "account".toList.isPrefixOf ("account ".toList ++ n.toList ++ " {".toList) = true := by
      rw [List.isPrefixOf_iff_prefix, List.append_assoc]
      exact ⟨' ' :: (n.toList ++ " {".toList), rfl⟩
    have h5 : (ls.map fun ts => ' ' :: ' ' :: onLine ts).filter ("account".toList.isPrefixOf ·) = [] := by
      rw [List.filter_eq_nil_iff]
      intro a ha
      obtain ⟨ts, _, rfl⟩ := List.mem_map.mp ha
      simp [List.isPrefixOf]
    unfold Completion.accounts at ih ⊢
    rw [h3, h1, h2]
    simp only [List.cons_append, List.filter_cons, h4, if_true, List.filter_append, h5, List.nil_append, List.map_cons]
    rw [substitute_account, show "account".toList.isPrefixOf ['}'] = false from rfl]
    simp only [Bool.false_eq_true, if_false, ih, names, List.filterMap_cons, List.map_cons]
  | @other ts x file l hg hx ht _ ih =>
    unfold Completion.accounts at ih ⊢
    rw [lines_line (onLine_nl fun t h => (ht t h).2), List.filter_cons, not_account hg hx fun t h => (ht t h).1]
    simp only [Bool.false_eq_true, if_false, ih]
    congr 1
    cases x <;> first | rfl | exact absurd rfl (hx _ _)

/-! ## awk -/

theorem contains_label (s : List Char) (r : List Char) (hs : ':' ∉ s) :
    (fields (s ++ ':' :: ' ' :: r)).1 = trimEnd s := by
  have h : (s ++ ':' :: ' ' :: r).takeWhile (· ≠ ':') = s := by
    rw [List.takeWhile_append_of_pos (by intro a ha; simp; rintro rfl; exact hs ha)]
    simp
  unfold fields
  simp only [h, List.drop_left]

theorem fields_conf {conf : List Char} (h1 : ':' ∉ conf) (h2 : conf.head? ≠ some ' ') :
    (fields ("  config file: ".toList ++ conf)).2 = some conf := by
  have h : ("  config file: ".toList ++ conf).takeWhile (· ≠ ':') = "  config file".toList := by
    rw [show "  config file: ".toList = "  config file".toList ++ [':', ' '] from rfl, List.append_assoc,
      List.takeWhile_append_of_pos (by decide)]
    simp
  have hd : ("  config file: ".toList ++ conf).drop "  config file".toList.length = ':' :: ' ' :: conf := by rfl
  have hw : (' ' :: conf).dropWhile (· = ' ') = conf := by
    cases conf with
    | nil => rfl
    | cons c r =>
      have : c ≠ ' ' := by rintro rfl; exact h2 rfl
      simp [this]
  have ht : conf.takeWhile (· ≠ ':') = conf := by
    have := List.takeWhile_append_of_pos (p := (· ≠ ':')) (l₁ := conf) (l₂ := [])
      (by intro a ha; simp; rintro rfl; exact h1 ha)
    simpa using this
  unfold fields
  simp only [h, hd, hw, ht, if_true]

/-- A line which is not about the configuration file. -/
theorem configFiles_skip {l : List Char} (h : '\n' ∉ l) (hc : contains "config file".toList (fields l).1 = false) (r : List Char) :
    configFiles (l ++ '\n' :: r) = configFiles r := by
  unfold configFiles
  rw [lines_line h, List.filterMap_cons, hc]
  rfl

theorem configFiles_conf {conf : List Char} (hf : '\n' ∉ conf) (hf2 : ':' ∉ conf) (hf3 : conf.head? ≠ some ' ')
    (r : List Char) : configFiles ("  config file: ".toList ++ conf ++ '\n' :: r) = conf :: configFiles r := by
  have h3 : '\n' ∉ "  config file: ".toList ++ conf := by
    simp only [List.mem_append, hf, or_false]
    decide
  have h4 : (fields ("  config file: ".toList ++ conf)).1 = "  config file".toList :=
    contains_label "  config file".toList conf (by decide)
  have h5 : contains "config file".toList "  config file".toList = true := by decide
  unfold configFiles
  rw [lines_line h3, List.filterMap_cons, h4, h5, fields_conf hf2 hf3]
  rfl

theorem configFiles_label (l : String) {x : List Char} (h1 : '\n' ∉ l.toList) (h2 : ':' ∉ l.toList) (h3 : '\n' ∉ x)
    (h4 : contains "config file".toList (trimEnd l.toList) = false) (r : List Char) :
    configFiles (l.toList ++ ':' :: ' ' :: x ++ '\n' :: r) = configFiles r := by
  refine configFiles_skip ?_ (by rw [contains_label _ _ h2, h4]) r
  intro hm
  rcases List.mem_append.mp hm with hm | hm
  · exact h1 hm
  · simp only [List.mem_cons, h3, or_false] at hm
    revert hm
    decide

theorem configFiles_head {prog cache conf : String} (hp : '\n' ∉ prog.toList)
    (hp2 : contains "config file".toList (fields (prog ++ " version " ++ Info.version ++ ":").toList).1 = false)
    (hc : '\n' ∉ cache.toList) (hf : '\n' ∉ conf.toList) (hf2 : ':' ∉ conf.toList) (hf3 : conf.toList.head? ≠ some ' ')
    (r : String) : configFiles (prog ++ " version " ++ Info.version ++ ":\n  cache directory: " ++ cache ++
      "\n  config file: " ++ conf ++ "\n" ++ r).toList = conf.toList :: configFiles r.toList := by
  have h1 : '\n' ∉ (prog ++ " version " ++ Info.version ++ ":").toList := by
    simp only [String.toList_append, List.mem_append, hp, false_or]
    decide
  have e : (prog ++ " version " ++ Info.version ++ ":\n  cache directory: " ++ cache ++
      "\n  config file: " ++ conf ++ "\n" ++ r).toList = (prog ++ " version " ++ Info.version ++ ":").toList ++ '\n' ::
        ("  cache directory".toList ++ ':' :: ' ' :: cache.toList ++ '\n' ::
          ("  config file: ".toList ++ conf.toList ++ '\n' :: r.toList)) := by
    simp only [String.toList_append, List.append_assoc]
    rfl
  rw [e, configFiles_skip h1 hp2, configFiles_label "  cache directory" (by decide) (by decide) hc (by decide),
    configFiles_conf hf hf2 hf3]

theorem configFiles_ports {p q : String} (hp : '\n' ∉ p.toList) (hq : '\n' ∉ q.toList) (r : String) :
    configFiles ("server running:\n  HTTP port: " ++ p ++ "\n  HTTPS port: " ++ q ++ "\n" ++ r).toList =
      configFiles r.toList := by
  have e : ("server running:\n  HTTP port: " ++ p ++ "\n  HTTPS port: " ++ q ++ "\n" ++ r).toList =
      "server running:".toList ++ '\n' :: ("  HTTP port".toList ++ ':' :: ' ' :: p.toList ++ '\n' ::
        ("  HTTPS port".toList ++ ':' :: ' ' :: q.toList ++ '\n' :: r.toList)) := by
    simp only [String.toList_append, List.append_assoc]
    rfl
  rw [e, configFiles_skip (by decide) (by decide), configFiles_label "  HTTP port" (by decide) (by decide) hp (by decide),
    configFiles_label "  HTTPS port" (by decide) (by decide) hq (by decide)]

end Completion

open Completion

/-- **C121**, what holds: in the layout of the manual, the words which are offered are exactly the names of the accounts, as they
are written. -/
theorem C121_partial {file : List Char} {l : List TopLevel} (h : Tidy file l) :
    parseConfigText (String.ofList file) = some l ∧ accounts file = (names l).map String.toList := by
  refine ⟨?_, h.accounts⟩
  obtain ⟨ts, h1, h2⟩ := h.lex
  rw [C55, lex_eq, String.toList_ofList, h1]
  simpa using GTopLevels.empty.append h2

private theorem fishQuoted_escape : ∀ s : List Char, fishQuoted (escapeChars s ++ ['"']) = some s
  | [] => rfl
  | c :: s => by
    have ih := fishQuoted_escape s
    by_cases hc : c = '"' ∨ c = '\\'
    · have e : escapeChars (c :: s) = '\\' :: c :: escapeChars s := by simp [escapeChars, hc]
      rw [e]
      rcases hc with rfl | rfl <;> simp [fishQuoted, ih]
    · have e : escapeChars (c :: s) = c :: escapeChars s := by simp [escapeChars, hc]
      simp only [not_or] at hc
      rw [e, List.cons_append]
      cases hr : escapeChars s ++ ['"'] with
      | nil => simp at hr
      | cons x r =>
        simp only [fishQuoted, hc.1, hc.2, if_false]
        rw [← hr, ih]
        rfl

private theorem tidy_strLit {file : List Char} {l : List TopLevel} (h : Tidy file l) : ∀ n ∈ names l, IsStrLit n := by
  induction h with
  | nil => nofun
  | account h1 _ _ _ _ ih =>
    intro n hn
    rcases List.mem_cons.mp hn with rfl | hn
    · exact h1
    · exact ih n hn
  | @other _ x _ l _ h2 _ _ ih =>
    have : names (x :: l) = names l := by
      cases x with
      | account n fs => exact absurd rfl (h2 n fs)
      | _ => rfl
    rwa [this]

/-- **C121.** In this layout, the fish shell offers exactly the names of the accounts (without quotes), if there are no tabs in
them. -/
theorem C121_fish {file : List Char} {l : List TopLevel} (h : Tidy file l)
    (ht : ∀ n ∈ names l, '\t' ∉ (unescapeStr n).toList) :
    (accounts file).map fishWord = (names l).map fun n => some (unescapeStr n).toList := by
  rw [(C121_partial h).2, List.map_map]
  refine List.map_congr_left fun n hn => ?_
  obtain ⟨v, rfl⟩ := tidy_strLit h n hn
  have hv := ht _ hn
  rw [unescapeStr_quote] at hv
  simp only [Function.comp_apply, unescapeStr_quote]
  have e : (quoteStr v).toList = '"' :: (escapeChars v.toList ++ ['"']) := by simp [quoteStr, quoteChars]
  rw [e, fishWord, fishQuoted_escape]
  simp only [Option.map_some]
  have : ∀ {a : List Char}, '\t' ∉ a → a.takeWhile (· ≠ '\t') = a := by
    intro a ha
    induction a with
    | nil => rfl
    | cons c a ih =>
      simp only [List.mem_cons, not_or] at ha
      rw [List.takeWhile_cons, if_pos (by simpa using Ne.symm ha.1), ih ha.2]
  rw [this hv]

/-- **C121**, negated: an account in a valid configuration file is not offered; or something is offered which is not an account;
or the configuration file is not found, because there is a colon in its path. -/
theorem C121_not :
    parseConfigText " account \"a\" {\n}\n" = some [.account "\"a\"" []] ∧ accounts " account \"a\" {\n}\n".toList = [] ∧
    parseConfigText "account \"a\"{}" = some [.account "\"a\"" []] ∧
      accounts "account \"a\"{}".toList = ["account \"a\"{}".toList] ∧
    (Info.textOut "pizauth" "/run/pizauth" "/home/a:b/pizauth.conf" none).map (fun s => configFiles s.toList) =
      some ["/home/a".toList] := by
  decide +kernel

/-- **C121.** The commands which are offered are exactly those which there are. -/
theorem C121_commands (accs : List String) (cmd : String) :
    cmd ∈ offers accs [] ↔ ∃ args stdin, Cli.call (cmd :: args) stdin ≠ .usage := by
  constructor
  · intro h
    simp only [offers, List.mem_cons, List.not_mem_nil, or_false] at h
    rcases h with rfl | rfl | rfl | rfl | rfl | rfl | rfl | rfl | rfl | rfl
    iterate 7 exact ⟨[], [], by decide +kernel⟩
    all_goals exact ⟨["a"], [], by decide +kernel⟩
  · rintro ⟨args, stdin, h⟩
    unfold Cli.call at h
    dsimp only at h
    simp only [offers, List.mem_cons, List.not_mem_nil, or_false]
    repeat' split at h
    all_goals first | (subst cmd; simp; done) | simp_all

/-- **C121.** Except for the options of `server`, every word which is offered is part of a command line which is accepted. (The
names of accounts must not look like options.) -/
theorem C121_words {accs ws : List String} {w : String} (ha : ∀ a ∈ accs, Cli.isArg a = false)
    (hs : ws.head? ≠ some "server") (h : w ∈ offers accs ws) :
    ∃ more stdin, Cli.call (ws ++ w :: more) stdin ≠ .usage := by
  unfold offers at h
  split at h
  · exact (C121_commands accs w).mp h
  rename_i sub rest
  split at h
  · subst sub; exact absurd rfl hs
  split at h
  · split at h
    · subst sub
      rw [List.mem_singleton.mp h]
      exact ⟨[], [], by decide +kernel⟩
    split at h
    · rename_i hsub
      rcases List.mem_append.mp h with h | h
      · have := ha w h
        rcases hsub with rfl | rfl
        all_goals
          refine ⟨[], [], ?_⟩
          simp [Cli.call, Cli.forAccount, Cli.getopts, Cli.scan, this, Cli.Matches.has]
      · rw [List.mem_singleton.mp h]
        rcases hsub with rfl | rfl <;> exact ⟨["a"], [], by decide +kernel⟩
    split at h
    · have := ha w h
      subst sub
      refine ⟨[], [], ?_⟩
      simp [Cli.call, Cli.forAccount, Cli.getopts, Cli.scan, this, Cli.Matches.has]
    · cases h
  · rename_i prev
    split at h
    · rename_i hsub
      have := ha w h
      obtain ⟨hsub, rfl⟩ := hsub
      have hu : Cli.isArg "-u" = true := by decide +kernel
      rcases hsub with rfl | rfl
      all_goals
        refine ⟨[], [], ?_⟩
        simp [Cli.call, Cli.forAccount, Cli.getopts, Cli.scan, this, hu, Cli.Matches.has, Cli.letters, Cli.find, Cli.optH,
          Cli.optV, Cli.optU]
    · cases h
  · cases h

/-- **C121**, negated for the options of `server`: `-d` is offered again after `-d`, though no command line with both is
accepted. -/
theorem C121_options_not (accs more : List String) (stdin : Bytes) :
    "-d" ∈ offers accs ["server", "-d"] ∧ Cli.call (["server", "-d", "-d"] ++ more) stdin = .usage := by
  refine ⟨by simp [offers], ?_⟩
  have hd : Cli.isArg "-d" = true := by decide +kernel
  simp [Cli.call, Cli.getopts, Cli.scan, hd, Cli.letters, Cli.find, Cli.optH, Cli.optV, Cli.optC, Cli.optD]
  cases Cli.scan _ more <;> simp

/-- **C121.** The configuration file is found if there is no colon in its path. (Neither the name of the program nor what the
server says is misleading.) -/
theorem C121_path {prog cache conf s : String} {sv : Option Json} (h : Info.textOut prog cache conf sv = some s)
    (hp : '\n' ∉ prog.toList)
    (hp2 : contains "config file".toList (fields (prog ++ " version " ++ Info.version ++ ":").toList).1 = false)
    (hc : '\n' ∉ cache.toList) (hf : '\n' ∉ conf.toList) (hf2 : ':' ∉ conf.toList) (hf3 : conf.toList.head? ≠ some ' ')
    (hsv : ∀ j k x, sv = some j → (j.get k).bind Json.asStr = some x → '\n' ∉ x.toList) :
    configFiles s.toList = [conf.toList] := by
  have head := configFiles_head hp hp2 hc hf hf2 hf3
  unfold Info.textOut at h
  dsimp only at h
  split at h
  · cases h
    rw [head]
    rfl
  · rename_i j
    split at h
    · rename_i p q hp hq
      have hp := hsv j _ p rfl hp
      have hq := hsv j _ q rfl hq
      split at h
      · cases h
        have := head ("server running:\n  HTTP port: " ++ p ++ "\n  HTTPS port: " ++ q ++ "\n" ++ "")
        rw [configFiles_ports hp hq, show configFiles "".toList = [] from rfl] at this
        simp only [String.append_assoc, String.append_empty] at this ⊢
        exact this
      · rename_i x hx
        split at h
        · rename_i y hy
          cases h
          have hy := hsv j "https_pub_key" y rfl (by rw [hx]; exact hy)
          have := head ("server running:\n  HTTP port: " ++ p ++ "\n  HTTPS port: " ++ q ++ "\n" ++
            ("  HTTPS public key: " ++ y ++ "\n"))
          have e : ("  HTTPS public key: " ++ y ++ "\n").toList =
              "  HTTPS public key".toList ++ ':' :: ' ' :: y.toList ++ '\n' :: [] := by
            simp only [String.toList_append, List.append_assoc]
            rfl
          rw [configFiles_ports hp hq, e, configFiles_label "  HTTPS public key" (by decide) (by decide) hy (by decide),
            show configFiles [] = [] from rfl] at this
          simp only [String.append_assoc] at this ⊢
          exact this
        · cases h
    · cases h

/-- A file in the layout of the manual. -/
def tidyFile : List Char :=
  "http_listen = \"127.0.0.1:80\" ; \naccount \"a {\" {\n  client_id = \"b\" ; \n}\naccount \"b\" {\n}\n".toList

theorem tidyFile_tidy : Tidy tidyFile [.httpListen "\"127.0.0.1:80\"", .account "\"a {\"" [.clientId "\"b\""],
    .account "\"b\"" []] := by
  have h3 : Tidy ("account ".toList ++ "\"b\"".toList ++ " {".toList ++ onLines [] ++ "\n}\n".toList ++ [])
      [.account "\"b\"" []] := .account ⟨"b", by decide⟩ (by decide) .empty nofun .nil
  have h2 := Tidy.account (n := "\"a {\"") (ls := [[⟨.CLIENT_ID, "client_id"⟩, ⟨.EQ, "="⟩, ⟨.STRING, "\"b\""⟩, ⟨.SEMI, ";"⟩]])
    (fs := [.clientId "\"b\""]) ⟨"a {", by decide⟩ (by decide) (.more .empty .clientId) (by
      intro t ht
      simp only [List.flatten_cons, List.flatten_nil, List.append_nil, List.mem_cons, List.not_mem_nil, or_false] at ht
      rcases ht with rfl | rfl | rfl | rfl
      all_goals refine ⟨?_, by decide⟩
      all_goals first | exact .fixed rfl | exact .str ⟨"b", by decide⟩) h3
  exact Tidy.other (ts := [⟨.HTTP_LISTEN, "http_listen"⟩, ⟨.EQ, "="⟩, ⟨.STRING, "\"127.0.0.1:80\""⟩, ⟨.SEMI, ";"⟩])
    .httpListen nofun (by
      intro t ht
      simp only [List.mem_cons, List.not_mem_nil, or_false] at ht
      rcases ht with rfl | rfl | rfl | rfl
      all_goals refine ⟨?_, by decide⟩
      all_goals first | exact .fixed rfl | exact .str ⟨"127.0.0.1:80", by decide⟩) h2

example : accounts tidyFile = ["\"a {\"".toList, "\"b\"".toList] := (C121_partial tidyFile_tidy).2

example : (accounts tidyFile).map fishWord = [some "a {".toList, some "b".toList] :=
  C121_fish tidyFile_tidy (by decide +kernel)

/-- As it is computed; and names with tabs, and lines which are not in this layout. -/
example : (accounts tidyFile).map fishWord = [some "a {".toList, some "b".toList] ∧
    fishWord "\"a\\\"\\\\\"".toList = some "a\"\\".toList ∧ fishWord "\"a\tb\"".toList = some "a".toList ∧
    fishWord "account \"a\"{}".toList = none := by decide +kernel

/-- As it is computed. -/
example : accounts tidyFile = ["\"a {\"".toList, "\"b\"".toList] ∧
    (Info.textOut "pizauth" "/run/pizauth" "/home/a/pizauth.conf" none).map (fun s => configFiles s.toList) =
      some ["/home/a/pizauth.conf".toList] ∧
    offers ["a", "b"] ["show", "-u"] = ["a", "b"] ∧ offers ["a", "b"] ["revoke"] = ["a", "b"] := by decide +kernel

end Pizauth
