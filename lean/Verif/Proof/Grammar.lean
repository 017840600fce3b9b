import Verif.Spec.Grammar

/-!
# The parser accepts exactly the language of the grammar
-/

namespace Pizauth

/-! ## Lists: right-recursive versions -/

inductive RScopes : List Tok → List String → Prop where
  | nil : RScopes [] []
  | cons {ts ss c s} : RScopes ts ss → RScopes (⟨.COMMA, c⟩ :: ⟨.STRING, s⟩ :: ts) (s :: ss)

theorem RScopes.snoc {ts ss} (h : RScopes ts ss) (c s : String) :
    RScopes (ts ++ [⟨.COMMA, c⟩, ⟨.STRING, s⟩]) (ss ++ [s]) := by
  induction h with
  | nil => exact .cons .nil
  | cons _ ih => exact .cons ih

theorem GScopes.append {ts ss} (h : GScopes ts ss) {ts' ss'} (h' : RScopes ts' ss') :
    GScopes (ts ++ ts') (ss ++ ss') := by
  induction h' generalizing ts ss with
  | nil => simpa using h
  | @cons ts' ss' c s _ ih =>
    have := ih (h.more (c := c) (s := s))
    simpa using this

theorem GScopes.split {ts ss} (h : GScopes ts ss) :
    (∃ s ts' ss', ts = ⟨.STRING, s⟩ :: ts' ∧ ss = s :: ss' ∧ RScopes ts' ss') ∨ RScopes ts ss := by
  induction h with
  | more _ ih =>
    rcases ih with ⟨s, ts', ss', rfl, rfl, h⟩ | h
    · exact .inl ⟨s, _, _, rfl, rfl, h.snoc _ _⟩
    · exact .inr (h.snoc _ _)
  | one => exact .inl ⟨_, [], [], rfl, rfl, .nil⟩
  | empty => exact .inr .nil

theorem parseScopesRest_complete {ts ss} (h : RScopes ts ss) {b : String} {r : List Tok} :
    parseScopesRest (ts ++ ⟨.RBRACKET, b⟩ :: r) = (ss, ⟨.RBRACKET, b⟩ :: r) := by
  induction h with
  | nil => simp [parseScopesRest]
  | cons _ ih => simp [parseScopesRest, ih]

theorem parseScopes_complete {ts ss} (h : GScopes ts ss) {b : String} {r : List Tok} :
    parseScopes (ts ++ ⟨.RBRACKET, b⟩ :: r) = (ss, ⟨.RBRACKET, b⟩ :: r) := by
  rcases h.split with ⟨s, ts', ss', rfl, rfl, hr⟩ | hr
  · simp [parseScopes, parseScopesRest_complete hr]
  · cases hr with
    | nil => simp [parseScopes, parseScopesRest]
    | cons hr => simpa [parseScopes] using parseScopesRest_complete (.cons hr) (b := b) (r := r)

theorem parseScopesRest_sound : ∀ (ts : List Tok), ∃ pre, ts = pre ++ (parseScopesRest ts).2 ∧
    RScopes pre (parseScopesRest ts).1 := by
  intro ts
  fun_induction parseScopesRest ts with
  | case1 c s r ih =>
    obtain ⟨pre, h1, h2⟩ := ih
    exact ⟨⟨.COMMA, c⟩ :: ⟨.STRING, s⟩ :: pre, by simp only [List.cons_append]; rw [← h1], .cons h2⟩
  | case2 ts h => exact ⟨[], rfl, .nil⟩

theorem parseScopes_sound (ts : List Tok) : ∃ pre, ts = pre ++ (parseScopes ts).2 ∧
    GScopes pre (parseScopes ts).1 := by
  unfold parseScopes
  split
  · rename_i s r
    obtain ⟨pre, h1, h2⟩ := parseScopesRest_sound r
    exact ⟨⟨.STRING, s⟩ :: pre, by simp only [List.cons_append]; rw [← h1], GScopes.one.append h2⟩
  · obtain ⟨pre, h1, h2⟩ := parseScopesRest_sound ts
    exact ⟨pre, h1, by simpa using GScopes.empty.append h2⟩

inductive RPairs : List Tok → List (String × String) → Prop where
  | nil : RPairs [] []
  | cons {ts kvs c k d v} : RPairs ts kvs →
      RPairs (⟨.COMMA, c⟩ :: ⟨.STRING, k⟩ :: ⟨.COLON, d⟩ :: ⟨.STRING, v⟩ :: ts) ((k, v) :: kvs)

theorem RPairs.snoc {ts kvs} (h : RPairs ts kvs) (c k d v : String) :
    RPairs (ts ++ [⟨.COMMA, c⟩, ⟨.STRING, k⟩, ⟨.COLON, d⟩, ⟨.STRING, v⟩]) (kvs ++ [(k, v)]) := by
  induction h with
  | nil => exact .cons .nil
  | cons _ ih => exact .cons ih

theorem GAuthUriFields.append {ts kvs} (h : GAuthUriFields ts kvs) {ts' kvs'} (h' : RPairs ts' kvs') :
    GAuthUriFields (ts ++ ts') (kvs ++ kvs') := by
  induction h' generalizing ts kvs with
  | nil => simpa using h
  | @cons ts' kvs' c k d v _ ih =>
    have := ih (h.more (c := c) (k := k) (d := d) (v := v))
    simpa using this

theorem GAuthUriFields.split {ts kvs} (h : GAuthUriFields ts kvs) :
    (∃ k d v ts' kvs', ts = ⟨.STRING, k⟩ :: ⟨.COLON, d⟩ :: ⟨.STRING, v⟩ :: ts' ∧ kvs = (k, v) :: kvs' ∧
      RPairs ts' kvs') ∨ RPairs ts kvs := by
  induction h with
  | more _ ih =>
    rcases ih with ⟨k, d, v, ts', kvs', rfl, rfl, h⟩ | h
    · exact .inl ⟨k, d, v, _, _, rfl, rfl, h.snoc _ _ _ _⟩
    · exact .inr (h.snoc _ _ _ _)
  | one => exact .inl ⟨_, _, _, [], [], rfl, rfl, .nil⟩
  | empty => exact .inr .nil

theorem parsePairsRest_complete {ts kvs} (h : RPairs ts kvs) {b : String} {r : List Tok} :
    parsePairsRest (ts ++ ⟨.RBRACE, b⟩ :: r) = (kvs, ⟨.RBRACE, b⟩ :: r) := by
  induction h with
  | nil => simp [parsePairsRest]
  | cons _ ih => simp [parsePairsRest, ih]

theorem parsePairs_complete {ts kvs} (h : GAuthUriFields ts kvs) {b : String} {r : List Tok} :
    parsePairs (ts ++ ⟨.RBRACE, b⟩ :: r) = (kvs, ⟨.RBRACE, b⟩ :: r) := by
  rcases h.split with ⟨k, d, v, ts', kvs', rfl, rfl, hr⟩ | hr
  · simp [parsePairs, parsePairsRest_complete hr]
  · cases hr with
    | nil => simp [parsePairs, parsePairsRest]
    | cons hr => simpa [parsePairs] using parsePairsRest_complete (.cons hr) (b := b) (r := r)

theorem parsePairsRest_sound : ∀ (ts : List Tok), ∃ pre, ts = pre ++ (parsePairsRest ts).2 ∧
    RPairs pre (parsePairsRest ts).1 := by
  intro ts
  fun_induction parsePairsRest ts with
  | case1 c k d v r ih =>
    obtain ⟨pre, h1, h2⟩ := ih
    exact ⟨⟨.COMMA, c⟩ :: ⟨.STRING, k⟩ :: ⟨.COLON, d⟩ :: ⟨.STRING, v⟩ :: pre,
      by simp only [List.cons_append]; rw [← h1], .cons h2⟩
  | case2 ts h => exact ⟨[], rfl, .nil⟩

theorem parsePairs_sound (ts : List Tok) : ∃ pre, ts = pre ++ (parsePairs ts).2 ∧
    GAuthUriFields pre (parsePairs ts).1 := by
  unfold parsePairs
  split
  · rename_i k d v r
    obtain ⟨pre, h1, h2⟩ := parsePairsRest_sound r
    exact ⟨⟨.STRING, k⟩ :: ⟨.COLON, d⟩ :: ⟨.STRING, v⟩ :: pre,
      by simp only [List.cons_append]; rw [← h1], GAuthUriFields.one.append h2⟩
  · obtain ⟨pre, h1, h2⟩ := parsePairsRest_sound ts
    exact ⟨pre, h1, by simpa using GAuthUriFields.empty.append h2⟩

/-! ## Account fields -/

theorem parseField_complete {ts f} (h : GAccountField ts f) {r : List Tok} : parseField (ts ++ r) = some (f, r) := by
  cases h <;> try (simp [parseField]; done)
  case authUriFields h =>
    simp only [List.append_assoc, List.cons_append, List.nil_append, parseField]
    rw [parsePairs_complete h]
  case scopes h =>
    simp only [List.append_assoc, List.cons_append, List.nil_append, parseField]
    rw [parseScopes_complete h]

theorem parseField_sound {ts r : List Tok} {f : AccountField} (h : parseField ts = some (f, r)) :
    ∃ pre, ts = pre ++ r ∧ GAccountField pre f := by
  unfold parseField at h
  split at h <;> try (cases h; done)
  case h_2 a b c r1 =>
    split at h
    · rename_i kvs d e r' hp
      cases h
      obtain ⟨pre, h1, h2⟩ := parsePairs_sound r1
      rw [hp] at h1 h2
      exact ⟨_, by rw [h1]; simp, .authUriFields (a := a) (b := b) (c := c) (d := d) (e := e) h2⟩
    · cases h
  case h_10 a b c r1 =>
    split at h
    · rename_i kvs d e r' hp
      cases h
      obtain ⟨pre, h1, h2⟩ := parseScopes_sound r1
      rw [hp] at h1 h2
      exact ⟨_, by rw [h1]; simp, .scopes (a := a) (b := b) (c := c) (d := d) (e := e) h2⟩
    · cases h
  all_goals
    rename_i a b s d r1
    cases h
    refine ⟨[⟨_, a⟩, ⟨_, b⟩, ⟨_, s⟩, ⟨_, d⟩], rfl, ?_⟩
    constructor

theorem GAccountField.pos {ts f} (h : GAccountField ts f) : 0 < ts.length := by
  cases h <;> simp

/-- Right-recursive version of `GAccountFields`. -/
inductive RFields : List Tok → List AccountField → Prop where
  | nil : RFields [] []
  | cons {ts fs t f} : GAccountField t f → RFields ts fs → RFields (t ++ ts) (f :: fs)

theorem RFields.snoc {ts fs} (h : RFields ts fs) {t f} (hf : GAccountField t f) : RFields (ts ++ t) (fs ++ [f]) := by
  induction h with
  | nil => simpa using RFields.cons hf .nil
  | cons h1 _ ih => simpa using RFields.cons h1 ih

theorem GAccountFields.right {ts fs} (h : GAccountFields ts fs) : RFields ts fs := by
  induction h with
  | more _ h ih => exact ih.snoc h
  | empty => exact .nil

theorem GAccountFields.append {ts fs} (h : GAccountFields ts fs) {ts' fs'} (h' : RFields ts' fs') :
    GAccountFields (ts ++ ts') (fs ++ fs') := by
  induction h' generalizing ts fs with
  | nil => simpa using h
  | cons h1 _ ih => simpa using ih (h.more h1)

theorem parseFields_complete {ts fs} (h : RFields ts fs) {b : String} {r : List Tok} : ∀ {n : Nat},
    ts.length ≤ n → parseFields n (ts ++ ⟨.RBRACE, b⟩ :: r) = (fs, ⟨.RBRACE, b⟩ :: r) := by
  induction h with
  | nil => intro n _; cases n <;> simp [parseFields, parseField]
  | @cons ts fs t f h1 _ ih =>
    intro n hn
    have := h1.pos
    simp only [List.length_append] at hn
    cases n with
    | zero => omega
    | succ n => simp [parseFields, parseField_complete h1, ih (n := n) (by omega)]

theorem parseFields_sound : ∀ (n : Nat) (ts : List Tok), ∃ pre, ts = pre ++ (parseFields n ts).2 ∧
    RFields pre (parseFields n ts).1
  | 0, ts => ⟨[], rfl, .nil⟩
  | n + 1, ts => by
    simp only [parseFields]
    split
    · exact ⟨[], rfl, .nil⟩
    · rename_i f r hf
      obtain ⟨p1, h1, h2⟩ := parseField_sound hf
      obtain ⟨p2, h3, h4⟩ := parseFields_sound n r
      exact ⟨p1 ++ p2, by rw [h1, List.append_assoc, ← h3], .cons h2 h4⟩

/-! ## Top level -/

theorem parseTopLevel_complete {ts x} (h : GTopLevel ts x) {r : List Tok} : parseTopLevel (ts ++ r) = some (x, r) := by
  cases h <;> try (simp [parseTopLevel]; done)
  case account h =>
    simp only [List.append_assoc, List.cons_append, List.nil_append, parseTopLevel]
    rw [parseFields_complete h.right (by simp)]

theorem parseTopLevel_sound {ts r : List Tok} {x : TopLevel} (h : parseTopLevel ts = some (x, r)) :
    ∃ pre, ts = pre ++ r ∧ GTopLevel pre x := by
  unfold parseTopLevel at h
  split at h <;> try (cases h; done)
  case h_1 a n b r1 =>
    split at h
    · rename_i fs d r' hp
      cases h
      obtain ⟨pre, h1, h2⟩ := parseFields_sound r1.length r1
      rw [hp] at h1 h2
      have h3 : GAccountFields pre fs := by simpa using GAccountFields.empty.append h2
      exact ⟨_, by rw [h1]; simp, .account (a := a) (b := b) (c := d) h3⟩
    · cases h
  all_goals
    rename_i a b s d r1
    cases h
    refine ⟨[⟨_, a⟩, ⟨_, b⟩, ⟨_, s⟩, ⟨_, d⟩], rfl, ?_⟩
    constructor

theorem GTopLevel.pos {ts x} (h : GTopLevel ts x) : 0 < ts.length := by
  cases h <;> simp

inductive RTops : List Tok → List TopLevel → Prop where
  | nil : RTops [] []
  | cons {ts l t x} : GTopLevel t x → RTops ts l → RTops (t ++ ts) (x :: l)

theorem RTops.snoc {ts l} (h : RTops ts l) {t x} (hf : GTopLevel t x) : RTops (ts ++ t) (l ++ [x]) := by
  induction h with
  | nil => simpa using RTops.cons hf .nil
  | cons h1 _ ih => simpa using RTops.cons h1 ih

theorem GTopLevels.right {ts l} (h : GTopLevels ts l) : RTops ts l := by
  induction h with
  | more _ h ih => exact ih.snoc h
  | empty => exact .nil

theorem GTopLevels.append {ts l} (h : GTopLevels ts l) {ts' l'} (h' : RTops ts' l') :
    GTopLevels (ts ++ ts') (l ++ l') := by
  induction h' generalizing ts l with
  | nil => simpa using h
  | cons h1 _ ih => simpa using ih (h.more h1)

theorem parseTopLevels_complete {ts l} (h : RTops ts l) : ∀ {n : Nat}, ts.length ≤ n →
    parseTopLevels n ts = some l := by
  induction h with
  | nil => intro n _; cases n <;> rfl
  | @cons ts l t x h1 _ ih =>
    intro n hn
    have hpos := h1.pos
    simp only [List.length_append] at hn
    cases n with
    | zero => omega
    | succ n =>
      have hp := parseTopLevel_complete h1 (r := ts)
      cases ht : t ++ ts with
      | nil => rw [List.append_eq_nil_iff.mp ht |>.1] at hpos; simp at hpos
      | cons a b =>
        rw [ht] at hp
        simp [parseTopLevels, hp, ih (n := n) (by omega)]

theorem parseTopLevels_sound : ∀ {n : Nat} {ts : List Tok} {l : List TopLevel}, parseTopLevels n ts = some l →
    RTops ts l
  | 0, [], l, h => by cases h; exact .nil
  | 0, _ :: _, l, h => by cases h
  | n + 1, [], l, h => by cases h; exact .nil
  | n + 1, t :: ts, l, h => by
    simp only [parseTopLevels] at h
    split at h
    · cases h
    · rename_i x r hx
      simp only [Option.map_eq_some_iff] at h
      obtain ⟨l', hl, rfl⟩ := h
      obtain ⟨pre, h1, h2⟩ := parseTopLevel_sound hx
      rw [h1]
      exact .cons h2 (parseTopLevels_sound hl)

theorem parse_iff (ts : List Tok) (l : List TopLevel) : parseTopLevels ts.length ts = some l ↔ GTopLevels ts l :=
  ⟨fun h => by simpa using GTopLevels.empty.append (parseTopLevels_sound h),
   fun h => parseTopLevels_complete h.right (Nat.le_refl _)⟩

end Pizauth
