import Verif.Proof.Grammar
import Verif.Props.Literals

/-!
# C54, C55: the language of configuration files
-/

namespace Pizauth

/-! ## C55 -/

/-- **C55.** The syntax tree of a file is the one the grammar gives to its tokens; a file with none is rejected. -/
theorem C55 (file : String) (l : List TopLevel) : parseConfigText file = some l ↔ GTopLevels (lex file) l :=
  parse_iff _ _

/-- **C55.** The grammar is not ambiguous. -/
theorem C55_unambiguous {ts : List Tok} {l l' : List TopLevel} (h : GTopLevels ts l) (h' : GTopLevels ts l') :
    l = l' := by
  have h1 := (parse_iff ts l).mpr h
  have h2 := (parse_iff ts l').mpr h'
  rw [h1] at h2
  exact Option.some.inj h2

/-! ## C54: blanks and comments -/

theorem lexC_blank {c : Char} (hc : isBlankChar c = true) (r : List Char) : lexC (c :: r) = lexC r := by
  have key : ∀ {c : Char} (hc : isBlankChar c = true) (r : List Char),
      lexC (c :: r) = lexC (r.drop (r.takeWhile isBlankChar).length) := by
    intro c hc r
    have hl : longest (c :: r) lexRules none = some (.skip, (r.takeWhile isBlankChar).length + 1) := by
      have hc' := hc
      simp only [isBlankChar, Bool.or_eq_true, beq_iff_eq] at hc
      rcases hc with ((rfl | rfl) | rfl) | rfl <;>
        simp [longest, lexRules, matchLit, matchTime, matchInt, matchStr, matchComment, matchBlank, matchAny, isDigit09,
          hc']
    rw [lexC_step hl]
    simp
  rw [key hc]
  cases r with
  | nil => simp
  | cons c2 r2 =>
    by_cases h2 : isBlankChar c2 = true
    · rw [key h2]; simp [h2]
    · simp [h2]

theorem lexC_comment (l r : List Char) (hl : '\n' ∉ l) : lexC ('/' :: '/' :: (l ++ '\n' :: r)) = lexC r := by
  have ht : (('/' :: '/' :: (l ++ '\n' :: r)).takeWhile (· != '\n')) = '/' :: '/' :: l := by
    have : ∀ l : List Char, '\n' ∉ l → (l ++ '\n' :: r).takeWhile (· != '\n') = l := by
      intro l
      induction l with
      | nil => simp
      | cons a l ih =>
        intro h
        simp only [List.mem_cons, not_or] at h
        simp [ih h.2, Ne.symm h.1]
    simp [this l hl]
  have h : longest ('/' :: '/' :: (l ++ '\n' :: r)) lexRules none = some (.skip, l.length + 2) := by
    have hm : matchComment ('/' :: '/' :: (l ++ '\n' :: r)) = some (l.length + 2) := by
      unfold matchComment
      rw [if_pos (by simp), ht]
      simp
    simp [longest, lexRules, matchLit, matchTime, matchInt, matchStr, hm, matchBlank, matchAny, isDigit09, isBlankChar]
  rw [lexC_step h]
  simp [lexC_blank (c := '\n') (by decide)]

/-- **C54.** Blanks before a token are ignored. -/
theorem C54_blank {c : Char} (hc : c = ' ' ∨ c = '\t' ∨ c = '\n' ∨ c = '\r') (file : String) :
    lex (String.ofList [c] ++ file) = lex file := by
  rw [lex_eq, lex_eq]
  simp only [String.toList_append, String.toList_ofList, List.cons_append, List.nil_append]
  exact lexC_blank (by rcases hc with rfl | rfl | rfl | rfl <;> decide) _

/-- **C54.** A comment extends to the end of its line, whatever is in it, and is ignored. -/
theorem C54_comment (line file : String) (hl : '\n' ∉ line.toList) : lex ("//" ++ line ++ "\n" ++ file) = lex file := by
  rw [lex_eq, lex_eq]
  have := lexC_comment line.toList file.toList hl
  simpa using this

/-! ## C54: every tree can be written -/

/-- Write tokens, with a space after each. -/
def writeToks (ts : List Tok) : String := ts.foldr (fun t r => t.text ++ " " ++ r) ""

theorem takeWhile_digits : ∀ (ds : List Char), (∀ c ∈ ds, isDigit09 c = true) → ∀ {u : Char}, isDigit09 u = false →
    ∀ r, (ds ++ u :: r).takeWhile isDigit09 = ds
  | [], _, u, hu, r => by simp [hu]
  | c :: ds, h, u, hu, r => by
    simp [h c (by simp), takeWhile_digits ds (fun c hc => h c (List.mem_cons_of_mem _ hc)) hu r]

theorem isDigit09_range (c : Char) : isDigit09 c = true ↔ '0' ≤ c ∧ c ≤ '9' := by simp [isDigit09]

theorem unit_cases {u : Char} {k : Nat} (h : unitSecs u = some k) : u = 'd' ∨ u = 'h' ∨ u = 'm' ∨ u = 's' := by
  unfold unitSecs at h
  repeat' split at h
  all_goals simp_all

/-- `longest` when the first rule has the longest match. -/
theorem longest_first {i : List Char} {k : Kind} {n : Nat} : ∀ {rs : List (Kind × (List Char → Option Nat))},
    (∀ x ∈ rs, ∀ m, x.2 i = some m → m ≤ n) → longest i rs (some (k, n)) = some (k, n)
  | [], _ => rfl
  | (k1, m1) :: rs, h => by
    simp only [longest]
    have ih := longest_first (k := k) (rs := rs) fun x hx => h x (List.mem_cons_of_mem _ hx)
    cases hm : m1 i with
    | none => simpa using ih
    | some m =>
      have := h (k1, m1) (by simp) m hm
      simp only [show ¬ m > n by omega, if_false]
      exact ih

theorem longest_cons_none {i : List Char} {k : Kind} {m : List Char → Option Nat} {n : Nat} (h : m i = some n)
    {rs : List (Kind × (List Char → Option Nat))} : longest i ((k, m) :: rs) none = longest i rs (some (k, n)) := by
  simp [longest, h]

theorem lexC_time {t : String} (h : IsTimeLit t) (r : List Char) :
    lexC (t.toList ++ ' ' :: r) = ⟨.TIME, t⟩ :: lexC (' ' :: r) := by
  obtain ⟨ds, u, k, rfl, hne, hd, hu⟩ := h
  have hd' : ∀ c ∈ ds, isDigit09 c = true := fun c hc => (isDigit09_range c).mpr (hd c hc)
  have hu' := unit_cases hu
  have hud : isDigit09 u = false := by rcases hu' with rfl | rfl | rfl | rfl <;> decide
  have htw := takeWhile_digits ds hd' hud (' ' :: r)
  obtain ⟨c, ds', rfl⟩ := List.exists_cons_of_ne_nil hne
  have hi : matchInt ((c :: ds') ++ u :: ' ' :: r) = some (ds'.length + 1) := by
    unfold matchInt
    rw [htw]
    rfl
  have ht : matchTime ((c :: ds') ++ u :: ' ' :: r) = some (ds'.length + 2) := by
    unfold matchTime
    rw [hi]
    have : ((c :: ds') ++ u :: ' ' :: r).drop (ds'.length + 1) = u :: ' ' :: r := by simp
    simp only [this, hu', if_true]
  have hl : longest ((c :: ds') ++ u :: ' ' :: r) lexRules none = some (.TIME, ds'.length + 2) := by
    unfold lexRules
    rw [longest_cons_none ht]
    have hc := hd c (by simp)
    have hne : ∀ (a : Char), ¬ ('0' ≤ a ∧ a ≤ '9') → (a == c) = false := by
      intro a ha
      simp only [beq_eq_false_iff_ne]
      rintro rfl
      exact ha hc
    have hlit : ∀ s : String, (∃ a l, s.toList = a :: l ∧ ¬ ('0' ≤ a ∧ a ≤ '9')) →
        matchLit s ((c :: ds') ++ u :: ' ' :: r) = none := by
      rintro s ⟨a, l, hs, ha⟩
      simp [matchLit, hs, List.isPrefixOf, hne a ha]
    have hnb : isBlankChar c = false := by
      have h1 := hne ' ' (by decide)
      have h2 := hne '\t' (by decide)
      have h3 := hne '\n' (by decide)
      have h4 := hne '\r' (by decide)
      rw [beq_eq_false_iff_ne] at h1 h2 h3 h4
      simp [isBlankChar, h1.symm, h2.symm, h3.symm, h4.symm]
    refine longest_first ?_
    intro x hx m hm
    simp only [List.mem_cons, List.not_mem_nil, or_false] at hx
    rcases hx with rfl | rfl | hx
    · dsimp only at hm; rw [hi] at hm; cases hm; omega
    · simp only [List.cons_append, matchStr] at hm
      have := hne '"' (by decide)
      rw [beq_eq_false_iff_ne] at this
      simp [this.symm] at hm
    iterate 29
      rcases hx with rfl | hx
      · dsimp only at hm; rw [hlit _ ⟨_, _, rfl, by decide⟩] at hm; cases hm
    rcases hx with rfl | rfl | rfl
    · simp [matchComment, List.isPrefixOf, hne '/' (by decide)] at hm
    · simp [matchBlank, hnb] at hm
    · simp [matchAny] at hm; omega
  have e : (String.ofList ((c :: ds') ++ [u])).toList ++ ' ' :: r = (c :: ds') ++ u :: ' ' :: r := by simp
  rw [e, lexC_step hl]
  have : (c :: ds' ++ u :: ' ' :: r).drop (ds'.length + 2) = ' ' :: r := by
    simp
  have h2 : (c :: ds' ++ u :: ' ' :: r).take (ds'.length + 2) = c :: ds' ++ [u] := by
    simp [List.take_append, List.take_of_length_le]
  rw [this, h2]
  simp

theorem lexC_fixed {k : Kind} {t : String} (h : fixedText k = some t) (r : List Char) :
    lexC (t.toList ++ ' ' :: r) = ⟨k, t⟩ :: lexC (' ' :: r) := by
  have hl : longest (t.toList ++ ' ' :: r) lexRules none = some (k, t.toList.length) := by
    cases k <;> first | (cases h; done) | (cases h; rfl)
  have hk : k ≠ .skip := by rintro rfl; cases h
  rw [lexC_step hl, if_neg hk]
  simp

theorem lex_write {ts : List Tok} (h : ∀ t ∈ ts, TokOk t) : lex (writeToks ts) = ts := by
  rw [lex_eq]
  induction ts with
  | nil => rfl
  | cons t ts ih =>
    have ih := ih fun t ht => h t (List.mem_cons_of_mem _ ht)
    have e : (writeToks (t :: ts)).toList = t.text.toList ++ ' ' :: (writeToks ts).toList := by
      simp [writeToks]
    rw [e]
    have hb := lexC_blank (c := ' ') (by decide) (writeToks ts).toList
    cases h t (by simp) with
    | str hs =>
      obtain ⟨v, rfl⟩ := hs
      have := lexC_quote v.toList (' ' :: (writeToks ts).toList)
      simp only [quoteStr, String.toList_ofList]
      rw [this, hb, ih]
    | time hs => rw [lexC_time hs, hb, ih]
    | fixed hs => rw [lexC_fixed hs, hb, ih]

/-! Tokens for a tree. -/

/-- There are tokens with this property for the nonterminal. -/
def Writable (G : List Tok → Prop) : Prop := ∃ ts, G ts ∧ ∀ t ∈ ts, TokOk t

theorem tokOk_mem4 {a b c d : Tok} (ha : TokOk a) (hb : TokOk b) (hc : TokOk c) (hd : TokOk d) :
    ∀ t ∈ [a, b, c, d], TokOk t := by
  intro t ht
  simp only [List.mem_cons, List.not_mem_nil, or_false] at ht
  rcases ht with rfl | rfl | rfl | rfl <;> assumption

theorem write_scopes : ∀ (ss : List String), (∀ s ∈ ss, IsStrLit s) → Writable (GScopes · ss) := by
  intro ss h
  cases ss with
  | nil => exact ⟨[], .empty, by simp⟩
  | cons s ss =>
    have : ∀ ss : List String, (∀ s ∈ ss, IsStrLit s) → Writable (RScopes · ss) := by
      intro ss
      induction ss with
      | nil => intro _; exact ⟨[], .nil, by simp⟩
      | cons s ss ih =>
        intro h
        obtain ⟨ts, h1, h2⟩ := ih fun s hs => h s (List.mem_cons_of_mem _ hs)
        refine ⟨_, .cons (c := ",") h1, ?_⟩
        intro t ht
        rcases List.mem_cons.mp ht with rfl | ht
        · exact .fixed rfl
        · rcases List.mem_cons.mp ht with rfl | ht
          · exact .str (h s (by simp))
          · exact h2 t ht
    obtain ⟨ts, h1, h2⟩ := this ss fun s hs => h s (List.mem_cons_of_mem _ hs)
    refine ⟨_, GScopes.one.append h1, ?_⟩
    intro t ht
    rcases List.mem_cons.mp ht with rfl | ht
    · exact .str (h s (by simp))
    · exact h2 t ht

theorem write_pairs : ∀ (kvs : List (String × String)), (∀ kv ∈ kvs, IsStrLit kv.1 ∧ IsStrLit kv.2) →
    Writable (GAuthUriFields · kvs) := by
  intro kvs h
  cases kvs with
  | nil => exact ⟨[], .empty, by simp⟩
  | cons kv kvs =>
    have : ∀ kvs : List (String × String), (∀ kv ∈ kvs, IsStrLit kv.1 ∧ IsStrLit kv.2) → Writable (RPairs · kvs) := by
      intro kvs
      induction kvs with
      | nil => intro _; exact ⟨[], .nil, by simp⟩
      | cons kv kvs ih =>
        intro h
        obtain ⟨ts, h1, h2⟩ := ih fun s hs => h s (List.mem_cons_of_mem _ hs)
        refine ⟨_, .cons (c := ",") (d := ":") h1, ?_⟩
        intro t ht
        have hkv := h kv (by simp)
        simp only [List.mem_cons] at ht
        rcases ht with rfl | rfl | rfl | rfl | ht
        · exact .fixed rfl
        · exact .str hkv.1
        · exact .fixed rfl
        · exact .str hkv.2
        · exact h2 t ht
    obtain ⟨ts, h1, h2⟩ := this kvs fun s hs => h s (List.mem_cons_of_mem _ hs)
    refine ⟨_, (GAuthUriFields.one (d := ":")).append h1, ?_⟩
    intro t ht
    have hkv := h kv (by simp)
    simp only [List.cons_append, List.nil_append, List.mem_cons] at ht
    rcases ht with rfl | rfl | rfl | ht
    · exact .str hkv.1
    · exact .fixed rfl
    · exact .str hkv.2
    · exact h2 t ht

theorem write_field {f : AccountField} (h : f.Lits) : Writable (GAccountField · f) := by
  cases f with
  | authUriFields kvs =>
    obtain ⟨ts, h1, h2⟩ := write_pairs kvs h
    refine ⟨_, .authUriFields (a := "auth_uri_fields") (b := "=") (c := "{") (d := "}") (e := ";") h1, ?_⟩
    intro t ht
    simp only [List.cons_append, List.nil_append, List.mem_cons, List.mem_append, List.not_mem_nil, or_false] at ht
    rcases ht with rfl | rfl | rfl | ht | rfl | rfl
    all_goals first | exact .fixed rfl | exact h2 t ht
  | scopes ss =>
    obtain ⟨ts, h1, h2⟩ := write_scopes ss h
    refine ⟨_, .scopes (a := "scopes") (b := "=") (c := "[") (d := "]") (e := ";") h1, ?_⟩
    intro t ht
    simp only [List.cons_append, List.nil_append, List.mem_cons, List.mem_append, List.not_mem_nil, or_false] at ht
    rcases ht with rfl | rfl | rfl | ht | rfl | rfl
    all_goals first | exact .fixed rfl | exact h2 t ht
  | authUri s => exact ⟨_, .authUri, tokOk_mem4 (.fixed rfl) (.fixed rfl) (.str h) (.fixed rfl)⟩
  | clientId s => exact ⟨_, .clientId, tokOk_mem4 (.fixed rfl) (.fixed rfl) (.str h) (.fixed rfl)⟩
  | clientSecret s => exact ⟨_, .clientSecret, tokOk_mem4 (.fixed rfl) (.fixed rfl) (.str h) (.fixed rfl)⟩
  | loginHint s => exact ⟨_, .loginHint, tokOk_mem4 (.fixed rfl) (.fixed rfl) (.str h) (.fixed rfl)⟩
  | redirectUri s => exact ⟨_, .redirectUri, tokOk_mem4 (.fixed rfl) (.fixed rfl) (.str h) (.fixed rfl)⟩
  | tokenUri s => exact ⟨_, .tokenUri, tokOk_mem4 (.fixed rfl) (.fixed rfl) (.str h) (.fixed rfl)⟩
  | refreshAtLeast s => exact ⟨_, .refreshAtLeast, tokOk_mem4 (.fixed rfl) (.fixed rfl) (.time h) (.fixed rfl)⟩
  | refreshBeforeExpiry s => exact ⟨_, .refreshBeforeExpiry, tokOk_mem4 (.fixed rfl) (.fixed rfl) (.time h) (.fixed rfl)⟩
  | refreshRetry s => exact ⟨_, .refreshRetry, tokOk_mem4 (.fixed rfl) (.fixed rfl) (.time h) (.fixed rfl)⟩

theorem write_fields : ∀ (fs : List AccountField), (∀ f ∈ fs, f.Lits) → Writable (RFields · fs)
  | [], _ => ⟨[], .nil, by simp⟩
  | f :: fs, h => by
    obtain ⟨t1, h1, h2⟩ := write_field (h f (by simp))
    obtain ⟨t2, h3, h4⟩ := write_fields fs fun f hf => h f (List.mem_cons_of_mem _ hf)
    exact ⟨_, .cons h1 h3, fun t ht => (List.mem_append.mp ht).elim (h2 t) (h4 t)⟩

theorem write_top {x : TopLevel} (h : x.Lits) : Writable (GTopLevel · x) := by
  cases x with
  | account n fs =>
    obtain ⟨ts, h1, h2⟩ := write_fields fs h.2
    have h1 : GAccountFields ts fs := by simpa using GAccountFields.empty.append h1
    refine ⟨_, .account (a := "account") (b := "{") (c := "}") h1, ?_⟩
    intro t ht
    simp only [List.cons_append, List.nil_append, List.mem_cons, List.mem_append, List.not_mem_nil, or_false] at ht
    rcases ht with rfl | rfl | rfl | ht | rfl
    all_goals first | exact .fixed rfl | exact h2 t ht | exact .str h.1
  | authErrorCmd => exact ⟨_, .authErrorCmd, tokOk_mem4 (.fixed rfl) (.fixed rfl) (.str ⟨"", rfl⟩) (.fixed rfl)⟩
  | httpListenNone => exact ⟨_, .httpListenNone, tokOk_mem4 (.fixed rfl) (.fixed rfl) (.fixed rfl) (.fixed rfl)⟩
  | httpsListenNone => exact ⟨_, .httpsListenNone, tokOk_mem4 (.fixed rfl) (.fixed rfl) (.fixed rfl) (.fixed rfl)⟩
  | authNotifyCmd s => exact ⟨_, .authNotifyCmd, tokOk_mem4 (.fixed rfl) (.fixed rfl) (.str h) (.fixed rfl)⟩
  | errorNotifyCmd s => exact ⟨_, .errorNotifyCmd, tokOk_mem4 (.fixed rfl) (.fixed rfl) (.str h) (.fixed rfl)⟩
  | httpListen s => exact ⟨_, .httpListen, tokOk_mem4 (.fixed rfl) (.fixed rfl) (.str h) (.fixed rfl)⟩
  | httpsListen s => exact ⟨_, .httpsListen, tokOk_mem4 (.fixed rfl) (.fixed rfl) (.str h) (.fixed rfl)⟩
  | transientErrorIfCmd s => exact ⟨_, .transientErrorIfCmd, tokOk_mem4 (.fixed rfl) (.fixed rfl) (.str h) (.fixed rfl)⟩
  | tokenEventCmd s => exact ⟨_, .tokenEventCmd, tokOk_mem4 (.fixed rfl) (.fixed rfl) (.str h) (.fixed rfl)⟩
  | authNotifyInterval s => exact ⟨_, .authNotifyInterval, tokOk_mem4 (.fixed rfl) (.fixed rfl) (.time h) (.fixed rfl)⟩
  | refreshAtLeast s => exact ⟨_, .refreshAtLeast, tokOk_mem4 (.fixed rfl) (.fixed rfl) (.time h) (.fixed rfl)⟩
  | refreshBeforeExpiry s => exact ⟨_, .refreshBeforeExpiry, tokOk_mem4 (.fixed rfl) (.fixed rfl) (.time h) (.fixed rfl)⟩
  | refreshRetry s => exact ⟨_, .refreshRetry, tokOk_mem4 (.fixed rfl) (.fixed rfl) (.time h) (.fixed rfl)⟩

theorem write_tops : ∀ (l : List TopLevel), (∀ x ∈ l, x.Lits) → Writable (RTops · l)
  | [], _ => ⟨[], .nil, by simp⟩
  | f :: fs, h => by
    obtain ⟨t1, h1, h2⟩ := write_top (h f (by simp))
    obtain ⟨t2, h3, h4⟩ := write_tops fs fun f hf => h f (List.mem_cons_of_mem _ hf)
    exact ⟨_, .cons h1 h3, fun t ht => (List.mem_append.mp ht).elim (h2 t) (h4 t)⟩

/-- **C54.** Every syntax tree whose literals are literals is the tree of some file. -/
theorem C54_write (l : List TopLevel) (h : ∀ x ∈ l, x.Lits) : ∃ file, parseConfigText file = some l := by
  obtain ⟨ts, h1, h2⟩ := write_tops l h
  refine ⟨writeToks ts, ?_⟩
  rw [C55, lex_write h2]
  simpa using GTopLevels.empty.append h1

/-! ## C54: and no others -/

/-- Literal tokens have the text of literals. -/
def LitToks (ts : List Tok) : Prop :=
  ∀ t ∈ ts, (t.kind = .STRING → IsStrLit t.text) ∧ (t.kind = .TIME → IsTimeLit t.text)

theorem lex_lits (file : String) : LitToks (lex file) := by
  intro t ht
  refine ⟨fun hk => ⟨_, C40_only ht hk⟩, fun hk => ?_⟩
  obtain ⟨ds, u, k, h1, h2, h3, h4⟩ := C41_only ht hk
  exact ⟨ds, u, k, h1, h2, fun c hc => (isDigit09_range c).mp (isDigit09_iff.mpr (h3 c hc)), h4⟩

theorem LitToks.left {a b : List Tok} (h : LitToks (a ++ b)) : LitToks a := fun t ht => h t (List.mem_append_left _ ht)
theorem LitToks.right {a b : List Tok} (h : LitToks (a ++ b)) : LitToks b := fun t ht => h t (List.mem_append_right _ ht)
theorem LitToks.str {ts : List Tok} (h : LitToks ts) {s : String} (hm : ⟨.STRING, s⟩ ∈ ts) : IsStrLit s := (h _ hm).1 rfl
theorem LitToks.time {ts : List Tok} (h : LitToks ts) {s : String} (hm : ⟨.TIME, s⟩ ∈ ts) : IsTimeLit s := (h _ hm).2 rfl

theorem GScopes.lits {ts ss} (h : GScopes ts ss) (hl : LitToks ts) : ∀ s ∈ ss, IsStrLit s := by
  induction h with
  | more _ ih =>
    intro s hs
    rcases List.mem_append.mp hs with hs | hs
    · exact ih hl.left s hs
    · rw [List.mem_singleton.mp hs]; exact hl.str (by simp)
  | one => intro s hs; rw [List.mem_singleton.mp hs]; exact hl.str (by simp)
  | empty => intro s hs; cases hs

theorem GAuthUriFields.lits {ts kvs} (h : GAuthUriFields ts kvs) (hl : LitToks ts) :
    ∀ kv ∈ kvs, IsStrLit kv.1 ∧ IsStrLit kv.2 := by
  induction h with
  | more _ ih =>
    intro s hs
    rcases List.mem_append.mp hs with hs | hs
    · exact ih hl.left s hs
    · rw [List.mem_singleton.mp hs]; exact ⟨hl.str (by simp), hl.str (by simp)⟩
  | one => intro s hs; rw [List.mem_singleton.mp hs]; exact ⟨hl.str (by simp), hl.str (by simp)⟩
  | empty => intro s hs; cases hs

theorem GAccountField.lits {ts f} (h : GAccountField ts f) (hl : LitToks ts) : f.Lits := by
  cases h
  case authUriFields h => exact h.lits hl.left.right
  case scopes h => exact h.lits hl.left.right
  all_goals first | exact hl.str (by simp) | exact hl.time (by simp)

theorem GAccountFields.lits {ts fs} (h : GAccountFields ts fs) (hl : LitToks ts) : ∀ f ∈ fs, f.Lits := by
  induction h with
  | more _ h ih =>
    intro f hf
    rcases List.mem_append.mp hf with hf | hf
    · exact ih hl.left f hf
    · rw [List.mem_singleton.mp hf]; exact h.lits hl.right
  | empty => intro f hf; cases hf

theorem GTopLevel.lits {ts x} (h : GTopLevel ts x) (hl : LitToks ts) : x.Lits := by
  cases h
  case account h => exact ⟨hl.str (by simp), h.lits hl.left.right⟩
  all_goals first | trivial | exact hl.str (by simp) | exact hl.time (by simp)

theorem GTopLevels.lits {ts l} (h : GTopLevels ts l) (hl : LitToks ts) : ∀ x ∈ l, x.Lits := by
  induction h with
  | more _ h ih =>
    intro f hf
    rcases List.mem_append.mp hf with hf | hf
    · exact ih hl.left f hf
    · rw [List.mem_singleton.mp hf]; exact h.lits hl.right
  | empty => intro f hf; cases hf

/-- **C54.** The trees of files are exactly those whose literals are literals. -/
theorem C54 (l : List TopLevel) : (∃ file, parseConfigText file = some l) ↔ ∀ x ∈ l, x.Lits :=
  ⟨fun ⟨file, h⟩ => ((C55 file l).mp h).lits (lex_lits file), C54_write l⟩

/-! ## Concrete cases -/

example : parseConfigText "refresh_retry=5m; // c\naccount \"x\" { scopes = [\"a\", \"b\"]; client_id = \"\\\"\"; }" =
    some [.refreshRetry "5m", .account "\"x\"" [.scopes ["\"a\"", "\"b\""], .clientId "\"\\\"\""]] ∧
    parseConfigText "account \"x\" { auth_uri_fields = { \"a\": \"b\", \"a\": \"c\" }; http_listen = none; }" = none ∧
    parseConfigText "http_listen = 5;" = none ∧ parseConfigText "" = some [] := by decide +kernel

/-- The repository's test `string_escapes`: only quotes and backslashes can be escaped. -/
example : parseConfigText "token_event_cmd = \"\\n\";" = none ∧
    parseConfigText "token_event_cmd = \"\n\";" = some [.tokenEventCmd "\"\n\""] := by decide +kernel

/-- Since the rule for more elements does not need a first one, a list may begin with a comma. -/
example : parseConfigText "account \"x\" { scopes = [ , \"a\" ]; }" = some [.account "\"x\"" [.scopes ["\"a\""]]] := by
  decide +kernel

end Pizauth
