import Verif.Model.Diag
import Verif.Spec.Diag
import Verif.Proof.Config
import Verif.Proof.Grammar
import Verif.Proof.Lex
import Verif.Props.Literals

/-!
# Messages about configuration files
-/

namespace Pizauth

/-! ## Tokens and their positions -/

theorem plexLoop_erase : ∀ (n off : Nat) (i : List Char), (plexLoop n off i).map PTok.tok = lexLoop n i
  | 0, _, _ => rfl
  | n + 1, off, i => by
    simp only [plexLoop, lexLoop]
    cases longest i lexRules none with
    | none => rfl
    | some x =>
      obtain ⟨k, m⟩ := x
      dsimp only
      split
      · exact plexLoop_erase n _ _
      · simp [plexLoop_erase n]

theorem plex_erase (s : String) : (plex s).map PTok.tok = lex s := plexLoop_erase _ _ _

theorem plexLoop_at : ∀ (n off : Nat) (i : List Char), i.length ≤ n → ∀ {k : Nat} {p : PTok},
    (plexLoop n off i)[k]? = some p → ∃ d, p.pos = off + d ∧ (lexC i)[k]? = some p.tok ∧
      lexC (i.drop d) = (lexC i).drop k ∧ p.tok.text.toList <+: i.drop d
  | 0, _, _, _, k, p, h => by simp [plexLoop] at h
  | n + 1, off, i, hn, k, p, h => by
    simp only [plexLoop] at h
    cases hl : longest i lexRules none with
    | none => simp [hl] at h
    | some x =>
      obtain ⟨kd, m⟩ := x
      have hst := lexC_step hl
      obtain ⟨hm, hm2⟩ := longest_lexRules_bound hl
      simp only [hl] at h
      split at h
      · rename_i hk
        obtain ⟨d, h1, h2, h3, h4⟩ := plexLoop_at n (off + m) (i.drop m) (by simp; omega) h
        rw [if_pos hk] at hst
        refine ⟨m + d, by omega, by rw [hst]; exact h2, ?_, ?_⟩
        · rw [hst, ← h3, List.drop_drop]
        · rw [List.drop_drop] at h4; exact h4
      · rename_i hk
        rw [if_neg hk] at hst
        cases k with
        | zero =>
          simp only [List.getElem?_cons_zero, Option.some.injEq] at h
          subst h
          refine ⟨0, rfl, by rw [hst]; rfl, by simp, ?_⟩
          simpa using List.take_prefix m i
        | succ k =>
          simp only [List.getElem?_cons_succ] at h
          obtain ⟨d, h1, h2, h3, h4⟩ := plexLoop_at n (off + m) (i.drop m) (by simp; omega) h
          refine ⟨m + d, by omega, by rw [hst]; exact h2, ?_, ?_⟩
          · rw [hst, List.drop_succ_cons, ← h3, List.drop_drop]
          · rw [List.drop_drop] at h4; exact h4

theorem plex_at {s : String} {k : Nat} {p : PTok} (h : (plex s)[k]? = some p) : TokenAt s k p.pos := by
  obtain ⟨d, h1, h2, h3, h4⟩ := plexLoop_at _ 0 s.toList (Nat.le_refl _) h
  have : p.pos = d := by omega
  subst this
  refine ⟨p.tok, h2, ?_, h4⟩
  rw [lex_eq, String.toList_ofList]
  exact h3

/-- The text of a keyword. -/
theorem lit_tok {file : String} {t : Tok} (h : t ∈ lex file) {s : String}
    (hk : ∀ m, (t.kind, m) ∈ lexRules → m = matchLit s) : t.text = s := by
  obtain ⟨j, m, l, _, h1, h2, h3⟩ := mem_lexLoop h
  rw [hk m h1] at h2
  unfold matchLit at h2
  split at h2
  · rename_i hp
    cases h2
    rw [h3, ← List.prefix_iff_eq_take.mp (List.isPrefixOf_iff_prefix.mp hp), String.ofList_toList]
  · cases h2

/-! ## The parser -/

theorem GAccountField.four {ts f} (h : GAccountField ts f) : 3 < ts.length := by
  cases h <;> simp <;> omega

theorem GTopLevel.four {ts x} (h : GTopLevel ts x) : 3 < ts.length := by
  cases h <;> simp <;> omega

theorem posAt_append {ts ts' : List PTok} {k : Nat} (h : k < ts.length) : posAt (ts ++ ts') k = posAt ts k := by
  simp [posAt, List.getElem?_append_left h]

theorem fieldPos_append {ts ts' : List PTok} (h : 3 < ts.length) (f : AccountField) :
    fieldPos f (ts ++ ts') = fieldPos f ts := by
  cases f <;> simp only [fieldPos] <;> exact posAt_append (by omega)

theorem topPos_append {ts ts' : List PTok} (h : 3 < ts.length) (x : TopLevel) :
    topPos x (ts ++ ts') = topPos x ts := by
  cases x <;> simp only [topPos] <;> exact posAt_append (by omega)

/-- Splitting positioned tokens like their erasure. -/
theorem map_split {ts : List PTok} {pre r : List Tok} (h : ts.map PTok.tok = pre ++ r) :
    ∃ p, ts = p ++ ts.drop (ts.length - r.length) ∧ p.map PTok.tok = pre ∧
      (ts.drop (ts.length - r.length)).map PTok.tok = r := by
  have hl : ts.length = pre.length + r.length := by
    have := congrArg List.length h; simpa using this
  refine ⟨ts.take (ts.length - r.length), (List.take_append_drop _ _).symm, ?_, ?_⟩
  · rw [List.map_take, h, hl]; simp
  · rw [List.map_drop, h, hl]; simp

/-- The fields of an account, with their positions. -/
inductive RPFields : List PTok → List (AccountField × Nat) → Prop where
  | nil : RPFields [] []
  | cons {ts fs t f} : GAccountField (t.map PTok.tok) f → RPFields ts fs → RPFields (t ++ ts) ((f, fieldPos f t) :: fs)

theorem parsePField_some {ts : List PTok} {p : AccountField × Nat} {r : List PTok} (h : parsePField ts = some (p, r)) :
    ∃ pre, ts = pre ++ r ∧ GAccountField (pre.map PTok.tok) p.1 ∧ p.2 = fieldPos p.1 pre ∧
      parseField (ts.map PTok.tok) = some (p.1, r.map PTok.tok) := by
  unfold parsePField at h
  split at h
  · cases h
  · rename_i f r' hf
    cases h
    obtain ⟨pre, h1, h2⟩ := parseField_sound hf
    obtain ⟨q, h3, h4, h5⟩ := map_split h1
    refine ⟨q, h3, by rw [h4]; exact h2, ?_, by rw [hf, h5]⟩
    have h6 := h2.four
    rw [← h4, List.length_map] at h6
    dsimp only
    conv => lhs; rw [h3]
    exact fieldPos_append h6 f

theorem parsePFields_eq : ∀ (n : Nat) (ts : List PTok),
    (parsePFields n ts).map Prod.fst = (parseFields n (ts.map PTok.tok)).1 ∧
      ∃ pre r, ts = pre ++ r ∧ r.map PTok.tok = (parseFields n (ts.map PTok.tok)).2 ∧ RPFields pre (parsePFields n ts)
  | 0, ts => ⟨rfl, [], ts, rfl, rfl, .nil⟩
  | n + 1, ts => by
    simp only [parsePFields, parseFields]
    cases hp : parsePField ts with
    | none =>
      have : parseField (ts.map PTok.tok) = none := by
        unfold parsePField at hp
        split at hp
        · assumption
        · cases hp
      rw [this]
      exact ⟨rfl, [], ts, rfl, rfl, .nil⟩
    | some x =>
      obtain ⟨p, r⟩ := x
      obtain ⟨pre, h1, h2, h3, h4⟩ := parsePField_some hp
      rw [h4]
      obtain ⟨h5, pre', r', h6, h7, h8⟩ := parsePFields_eq n r
      refine ⟨by simp [h5], pre ++ pre', r', by rw [h1, List.append_assoc, ← h6], h7, ?_⟩
      have := RPFields.cons h2 h8
      rw [← h3] at this
      exact this

/-- The options of a file, with their positions. -/
inductive RPTops : List PTok → List PTop → Prop where
  | nil : RPTops [] []
  | cons {ts ps t x} : GTopLevel (t.map PTok.tok) x.top → x.pos = topPos x.top t →
      (∀ n fs, x.top = .account n fs → x.fields.map Prod.fst = fs ∧
        ∃ a b c d mid, t = [a, b, c] ++ mid ++ [d] ∧ RPFields mid x.fields ∧
          [a, b, c].map PTok.tok = [⟨.ACCOUNT, a.tok.text⟩, ⟨.STRING, n⟩, ⟨.LBRACE, c.tok.text⟩]) →
      RPTops ts ps → RPTops (t ++ ts) (x :: ps)

theorem parsePTop_some {ts : List PTok} {x : PTop} {r : List PTok} (h : parsePTop ts = some (x, r)) :
    ∃ pre, ts = pre ++ r ∧ GTopLevel (pre.map PTok.tok) x.top ∧ x.pos = topPos x.top pre ∧
      parseTopLevel (ts.map PTok.tok) = some (x.top, r.map PTok.tok) ∧
      ∀ n fs, x.top = .account n fs → x.fields.map Prod.fst = fs ∧
        ∃ a b c d mid, pre = [a, b, c] ++ mid ++ [d] ∧ RPFields mid x.fields ∧
          [a, b, c].map PTok.tok = [⟨.ACCOUNT, a.tok.text⟩, ⟨.STRING, n⟩, ⟨.LBRACE, c.tok.text⟩] := by
  unfold parsePTop at h
  split at h
  · cases h
  · rename_i x' r' hf
    cases h
    obtain ⟨pre, h1, h2⟩ := parseTopLevel_sound hf
    obtain ⟨q, h3, h4, h5⟩ := map_split h1
    have h6 := h2.four
    rw [← h4, List.length_map] at h6
    refine ⟨q, h3, by rw [h4]; exact h2, ?_, by rw [hf, h5], ?_⟩
    · dsimp only
      conv => lhs; rw [h3]
      exact topPos_append h6 _
    · intro n fs hx
      dsimp only at hx ⊢
      subst hx
      -- the shape of the tokens
      rw [h1] at hf
      cases h2 with
      | @account a n b fts fs c hfs =>
        obtain ⟨q1, q2, rfl, e1, e2⟩ := List.map_eq_append_iff.mp h4
        obtain ⟨q3, q4, rfl, e3, e4⟩ := List.map_eq_append_iff.mp e1
        have hq3 : q3.length = 3 := by have := congrArg List.length e3; simpa using this
        have hq2 : q2.length = 1 := by have := congrArg List.length e2; simpa using this
        match q3, hq3, e3 with
        | [x1, x2, x3], _, e3 =>
        match q2, hq2, e2 with
        | [y], _, e2 =>
        simp only [List.map_cons, List.map_nil, List.cons.injEq, and_true] at e3 e2
        generalize hrest : List.drop (ts.length - r'.length) ts = rest at h3 h5
        have hts3 : ts.drop 3 = q4 ++ y :: rest := by rw [h3]; simp
        have hmap : (ts.drop 3).map PTok.tok = fts ++ ⟨.RBRACE, c⟩ :: rest.map PTok.tok := by
          rw [hts3]; simp [e4, e2]
        have hlen : (ts.drop 3).length = fts.length + (1 + rest.length) := by
          have := congrArg List.length hmap; simpa [Nat.add_comm, Nat.add_left_comm] using this
        have hpf := parseFields_complete hfs.right (b := c) (r := rest.map PTok.tok) (n := (ts.drop 3).length) (by omega)
        obtain ⟨g1, pre', r1, g2, g3, g4⟩ := parsePFields_eq (ts.drop 3).length (ts.drop 3)
        rw [hmap, hpf] at g1 g3
        refine ⟨g1, x1, x2, x3, y, q4, by simp, ?_, ?_⟩
        · have hq : pre' = q4 := by
            rw [hts3] at g2
            have hl2 : r1.length = 1 + rest.length := by
              have := congrArg List.length g3; simpa [Nat.add_comm] using this
            have := List.append_inj' (s₁ := q4) (t₁ := y :: rest) (s₂ := pre') (t₂ := r1) g2 (by simp; omega)
            exact this.1.symm
          rw [hq] at g4
          exact g4
        · simp [e3.1, e3.2.1, e3.2.2]

theorem parsePTops_eq : ∀ {n : Nat} {ts : List PTok} {ps : List PTop}, parsePTops n ts = some ps →
    RPTops ts ps ∧ parseTopLevels n (ts.map PTok.tok) = some (ps.map PTop.top)
  | 0, [], ps, h => by cases h; exact ⟨.nil, rfl⟩
  | 0, _ :: _, ps, h => by cases h
  | n + 1, [], ps, h => by cases h; exact ⟨.nil, rfl⟩
  | n + 1, t :: ts, ps, h => by
    simp only [parsePTops] at h
    split at h
    · cases h
    · rename_i x r hx
      simp only [Option.map_eq_some_iff] at h
      obtain ⟨ps', h1, rfl⟩ := h
      obtain ⟨pre, h2, h3, h4, h5, h6⟩ := parsePTop_some hx
      obtain ⟨h7, h8⟩ := parsePTops_eq h1
      refine ⟨by rw [h2]; exact .cons h3 h4 h6 h7, ?_⟩
      rw [List.map_cons] at h5
      simp only [List.map_cons, parseTopLevels, h5, h8, Option.map_some]

theorem parsePTops_none : ∀ {n : Nat} {ts : List PTok}, parsePTops n ts = none →
    parseTopLevels n (ts.map PTok.tok) = none
  | 0, [], h => by cases h
  | 0, _ :: _, h => rfl
  | n + 1, [], h => by cases h
  | n + 1, t :: ts, h => by
    simp only [parsePTops] at h
    split at h
    · rename_i hp
      have : parseTopLevel ((t :: ts).map PTok.tok) = none := by
        unfold parsePTop at hp
        split at hp
        · assumption
        · cases hp
      rw [List.map_cons] at this
      simp only [List.map_cons, parseTopLevels, this]
    · rename_i x r hx
      simp only [Option.map_eq_none_iff] at h
      obtain ⟨pre, h2, h3, h4, h5, h6⟩ := parsePTop_some hx
      rw [List.map_cons] at h5
      simp only [List.map_cons, parseTopLevels, h5, parsePTops_none h, Option.map_none]

/-! ## Lines and columns -/

theorem all_takeWhile_mem {α : Type} (p : α → Bool) (l : List α) : (l.takeWhile p).all p = true := by
  rw [List.all_eq_true]
  intro a ha
  exact takeWhile_all p ha

theorem trimEnd_split (l : List Char) : ∃ r, l = trimEnd l ++ r ∧ r.all isRustWs = true ∧
    ∀ c, (trimEnd l).getLast? = some c → isRustWs c = false := by
  refine ⟨(l.reverse.takeWhile isRustWs).reverse, ?_, ?_, ?_⟩
  · unfold trimEnd
    rw [← List.reverse_append, List.takeWhile_append_dropWhile, List.reverse_reverse]
  · rw [List.all_reverse]; exact all_takeWhile_mem _ _
  · intro c hc
    unfold trimEnd at hc
    rw [List.getLast?_reverse] at hc
    have := List.head?_dropWhile_not isRustWs l.reverse
    rw [hc] at this
    simpa using this

theorem trim_split (l : List Char) : ∃ a b, l = a ++ trim l ++ b ∧ a.all isRustWs = true ∧ b.all isRustWs = true ∧
    (∀ c, (trim l).head? = some c → isRustWs c = false) ∧ ∀ c, (trim l).getLast? = some c → isRustWs c = false := by
  obtain ⟨r, h1, h2, h3⟩ := trimEnd_split (l.dropWhile isRustWs)
  refine ⟨l.takeWhile isRustWs, r, ?_, all_takeWhile_mem _ _, h2, ?_, h3⟩
  · unfold trim
    rw [List.append_assoc, ← h1, List.takeWhile_append_dropWhile]
  · intro c hc
    have := List.head?_dropWhile_not isRustWs l
    have hh : (l.dropWhile isRustWs).head? = some c := by
      rw [h1]
      unfold trim at hc
      cases ht : trimEnd (l.dropWhile isRustWs) with
      | nil => rw [ht] at hc; cases hc
      | cons x y => rw [ht] at hc; simpa using hc
    rw [hh] at this
    simpa using this

theorem lastLine_split (l : List Char) : ∃ b, l = b ++ lastLine l ∧ (b = [] ∨ b.getLast? = some '\n') ∧
    '\n' ∉ lastLine l := by
  refine ⟨(l.reverse.dropWhile (· != '\n')).reverse, ?_, ?_, ?_⟩
  · unfold lastLine
    rw [← List.reverse_append, List.takeWhile_append_dropWhile, List.reverse_reverse]
  · cases hd : l.reverse.dropWhile (· != '\n') with
    | nil => exact .inl rfl
    | cons c r =>
      right
      have := List.head?_dropWhile_not (· != '\n') l.reverse
      rw [hd] at this
      simp at this
      rw [List.getLast?_reverse, this]; rfl
  · intro h
    unfold lastLine at h
    have := takeWhile_all _ (List.mem_reverse.mp h)
    simp at this

theorem errorAtSpan_located {file : String} {pos : Nat} (hp : pos ≤ file.toList.length) (msg : String) :
    ∃ line col code, Located file pos line col code ∧ errorAtSpan file.toList pos msg =
      "Line " ++ toString line ++ ", column " ++ toString col ++ ":\n  " ++ code ++ "\n" ++ msg := by
  refine ⟨_, _, _, ?_, rfl⟩
  obtain ⟨b, h1, h2, h3⟩ := lastLine_split (file.toList.take pos)
  generalize hll : lastLine (file.toList.take pos) = ll at h1 h3 ⊢
  generalize htw : (file.toList.drop pos).takeWhile (· != '\n') = tw
  obtain ⟨a1, b1, t1, t2, t3, _, _⟩ := trim_split (ll ++ tw)
  obtain ⟨a2, b2, u1, u2, u3, u4, u5⟩ := trim_split (trim (ll ++ tw))
  have hlen : b.length + ll.length = pos := by
    have := congrArg List.length h1
    rw [List.length_append, List.length_take] at this
    omega
  refine ⟨b, ll ++ tw, (file.toList.drop pos).dropWhile (· != '\n'), a1 ++ a2, b2 ++ b1, ?_, h2, ?_, ?_, ?_, ?_, ?_, ?_,
    ?_, ?_, ?_, ?_, ?_⟩
  · rw [← List.append_assoc, ← h1, ← htw, List.append_assoc, List.takeWhile_append_dropWhile, List.take_append_drop]
  · rw [List.mem_append, not_or]
    refine ⟨h3, ?_⟩
    intro h
    rw [← htw] at h
    have := takeWhile_all _ h
    simp at this
  · cases hd : (file.toList.drop pos).dropWhile (· != '\n') with
    | nil => exact .inl rfl
    | cons c r =>
      right
      have := List.head?_dropWhile_not (· != '\n') (file.toList.drop pos)
      rw [hd] at this
      simp at this
      rw [this]; rfl
  · rw [h1, List.count_append, List.count_eq_zero.mpr h3, Nat.add_zero]
  · omega
  · omega
  · rw [List.length_append]; omega
  · rw [String.toList_ofList]
    conv => lhs; rw [t1, u1]
    simp
  · intro c hc
    rw [← isRustWs_iff]
    exact List.all_eq_true.mp (by rw [List.all_append, t2, u2]; rfl : (a1 ++ a2).all isRustWs = true) c hc
  · intro c hc
    rw [← isRustWs_iff]
    exact List.all_eq_true.mp (by rw [List.all_append, u3, t3]; rfl : (b2 ++ b1).all isRustWs = true) c hc
  · rw [String.toList_ofList]
    intro c hc
    rw [← isRustWs_iff, u4 c hc]
    exact Bool.false_ne_true
  · rw [String.toList_ofList]
    intro c hc
    rw [← isRustWs_iff, u5 c hc]
    exact Bool.false_ne_true

/-! ## Errors of the checks -/

theorem mapError_ok {ε ε' α : Type} {x : Except ε α} {g : ε → ε'} {a : α} : x.mapError g = .ok a ↔ x = .ok a := by
  cases x <;> simp [Except.mapError]

theorem mapError_error {ε ε' α : Type} {x : Except ε α} {g : ε → ε'} {e : ε'} :
    x.mapError g = .error e ↔ ∃ e', x = .error e' ∧ g e' = e := by
  cases x <;> simp [Except.mapError]

theorem except_bind_error {ε α β : Type} {x : Except ε α} {f : α → Except ε β} {e : ε} (h : x >>= f = .error e) :
    x = .error e ∨ ∃ a, x = .ok a ∧ f a = .error e := by
  cases x with
  | error e' => left; cases h; rfl
  | ok a => right; exact ⟨a, rfl, h⟩

theorem foldlM_error {ε α β : Type} {f : β → α → Except ε β} : ∀ {l : List α} {s : β} {e : ε},
    l.foldlM f s = .error e → ∃ l1 a l2 s', l = l1 ++ a :: l2 ∧ l1.foldlM f s = .ok s' ∧ f s' a = .error e
  | [], s, e, h => by cases h
  | a :: l, s, e, h => by
    rw [List.foldlM_cons] at h
    rcases except_bind_error h with h | ⟨s1, h1, h2⟩
    · exact ⟨[], a, l, s, rfl, rfl, h⟩
    · obtain ⟨l1, b, l2, s', rfl, h4, h5⟩ := foldlM_error h2
      refine ⟨a :: l1, b, l2, s', rfl, ?_, h5⟩
      rw [List.foldlM_cons, h1]; exact h4

theorem fieldsM_ok {T : ErrTexts} {E : Env} {src : List Char} : ∀ {fs : List (AccountField × Nat)} {s s' : FieldAcc},
    fs.foldlM (fieldStepM T E src) s = .ok s' ↔ (fs.map Prod.fst).foldlM (fieldStep E) s = .ok s'
  | [], s, s' => by simp [pure, Except.pure]
  | p :: fs, s, s' => by
    simp only [List.map_cons, List.foldlM_cons]
    constructor
    · intro h
      obtain ⟨s1, h1, h2⟩ := except_bind_ok h
      rw [mapError_ok.mp h1]
      exact fieldsM_ok.mp h2
    · intro h
      obtain ⟨s1, h1, h2⟩ := except_bind_ok h
      have : fieldStepM T E src s p = .ok s1 := mapError_ok.mpr h1
      rw [this]
      exact fieldsM_ok.mpr h2

/-- The name of a field in messages. -/
def AccountField.name : AccountField → String
  | .authUri _ => "auth_uri"
  | .authUriFields _ => "auth_uri_fields"
  | .clientId _ => "client_id"
  | .clientSecret _ => "client_secret"
  | .loginHint _ => "login_hint"
  | .redirectUri _ => "redirect_uri"
  | .refreshAtLeast _ => "refresh_at_least"
  | .refreshBeforeExpiry _ => "refresh_before_expiry"
  | .refreshRetry _ => "refresh_retry"
  | .scopes _ => "scopes"
  | .tokenUri _ => "token_uri"

/-- A field which is a time. -/
def TimeField (f : AccountField) (t : String) : Prop :=
  f = .refreshAtLeast t ∨ f = .refreshBeforeExpiry t ∨ f = .refreshRetry t

theorem FromField.some_mem {α β : Type} {fs : List AccountField} {mk : α → AccountField} {k : Kind} {R : α → β → Prop}
    {b : β} (h : FromField fs mk k R (some b)) (hmk : ∀ a, (mk a).key = k) : k ∈ fs.map AccountField.key := by
  obtain ⟨a, h1, _⟩ := h
  exact hmk a ▸ List.mem_map_of_mem h1

theorem checkNotAssignedUri_error {T : Type} {E : Env} {name lit : String} {v : Option T} {e : ConfErr}
    (h : checkNotAssignedUri E name lit v = .error e) :
    (v.isSome ∧ e = .dup name) ∨ (v = none ∧ E.parseUrl (unescapeStr lit) = none ∧ e = .badUri) ∨
    (v = none ∧ ∃ u, E.parseUrl (unescapeStr lit) = some u ∧ u.scheme ≠ "http" ∧ u.scheme ≠ "https" ∧ e = .notHttp) := by
  unfold checkNotAssignedUri at h
  split at h
  · dsimp only at h
    split at h
    · split at h
      · cases h
      · rename_i hs
        cases h
        rw [not_or] at hs
        exact .inr (.inr ⟨rfl, _, by assumption, hs.1, hs.2, rfl⟩)
    · cases h
      exact .inr (.inl ⟨rfl, by assumption, rfl⟩)
  · cases h; exact .inl ⟨rfl, rfl⟩

theorem checkNotAssignedStr_error {T : Type} {name lit : String} {v : Option T} {e : ConfErr}
    (h : checkNotAssignedStr name lit v = .error e) : v.isSome ∧ e = .dup name := by
  unfold checkNotAssignedStr at h
  split at h
  · cases h
  · cases h; exact ⟨rfl, rfl⟩

theorem checkNotAssigned_error {T : Type} {name : String} {v : Option T} {e : ConfErr}
    (h : checkNotAssigned name v = .error e) : v.isSome ∧ e = .dup name := by
  unfold checkNotAssigned at h
  split at h
  · cases h
  · cases h; exact ⟨rfl, rfl⟩

theorem checkNotAssignedTime_error {T : Type} {name lit : String} {v : Option T} {e : ConfErr}
    (h : (checkNotAssignedTime name lit v >>= timeStrToDuration) = .error e) :
    (v.isSome ∧ e = .dup name) ∨ (v = none ∧ timeStrToDuration lit = .error e) := by
  unfold checkNotAssignedTime at h
  cases v with
  | none => exact .inr ⟨rfl, h⟩
  | some _ => cases h; exact .inl ⟨rfl, rfl⟩

/-- Why a field is rejected. -/
def FieldErr (E : Env) (fs : List AccountField) (f : AccountField) (e : ConfErr) : Prop :=
  (f.key ∈ fs.map AccountField.key ∧ e = .dup f.name) ∨
  (f.key ∉ fs.map AccountField.key ∧ UriField f f.lit ∧ E.parseUrl (unescapeStr f.lit) = none ∧ e = .badUri) ∨
  (f.key ∉ fs.map AccountField.key ∧ UriField f f.lit ∧ (∃ u, E.parseUrl (unescapeStr f.lit) = some u ∧
    u.scheme ≠ "http" ∧ u.scheme ≠ "https") ∧ e = .notHttp) ∨
  (f.key ∉ fs.map AccountField.key ∧ TimeField f f.lit ∧ timeStrToDuration f.lit = .error e)

theorem fieldStep_error {E : Env} {fs : List AccountField} {s : FieldAcc} {f : AccountField} {e : ConfErr}
    (hi : FieldInv E fs s) (h : fieldStep E s f = .error e) : FieldErr E fs f e := by
  have uri : ∀ {mk : String → AccountField} {k : Kind} {v : Option String} {name lit : String},
      FromField fs mk k (UriLit E) v → (∀ a, (mk a).key = k) → f.key = k → f.name = name → f.lit = lit →
      UriField f lit → checkNotAssignedUri E name lit v = .error e →
      FieldErr E fs f e := by
    intro mk k v name lit h1 h2 h3 h4 h5 h6 h7
    rcases checkNotAssignedUri_error h7 with ⟨a, b⟩ | ⟨a, b, c⟩ | ⟨a, u, b, c, d, g⟩
    · obtain ⟨x, rfl⟩ := Option.isSome_iff_exists.mp a
      exact Or.inl ⟨h3 ▸ h1.some_mem h2, by rw [b, h4]⟩
    · subst a
      exact Or.inr (Or.inl ⟨h3 ▸ h1, h5 ▸ h6, h5 ▸ b, c⟩)
    · subst a
      exact Or.inr (Or.inr (Or.inl ⟨h3 ▸ h1, h5 ▸ h6, ⟨u, h5 ▸ b, c, d⟩, g⟩))
  have str : ∀ {mk : String → AccountField} {k : Kind} {v : Option String} {name lit : String},
      FromField fs mk k StrLit v → (∀ a, (mk a).key = k) → f.key = k → f.name = name →
      checkNotAssignedStr name lit v = .error e → f.key ∈ fs.map AccountField.key ∧ e = .dup f.name := by
    intro mk k v name lit h1 h2 h3 h4 h7
    obtain ⟨a, b⟩ := checkNotAssignedStr_error h7
    obtain ⟨x, rfl⟩ := Option.isSome_iff_exists.mp a
    exact ⟨h3 ▸ h1.some_mem h2, by rw [b, h4]⟩
  have time : ∀ {mk : String → AccountField} {k : Kind} {v : Option Dur} {name lit : String} {g : Dur → FieldAcc},
      FromField fs mk k TimeLit v → (∀ a, (mk a).key = k) → f.key = k → f.name = name → f.lit = lit → TimeField f lit →
      (checkNotAssignedTime name lit v >>= fun t => timeStrToDuration t >>= fun d => pure (g d)) = .error e →
      FieldErr E fs f e := by
    intro mk k v name lit g h1 h2 h3 h4 h5 h6 h7
    have h8 : (checkNotAssignedTime name lit v >>= timeStrToDuration) = .error e := by
      rcases except_bind_error h7 with h7 | ⟨t, h7, h8⟩
      · rw [h7]; rfl
      · rw [h7]
        rcases except_bind_error h8 with h8 | ⟨d, _, h9⟩
        · exact h8
        · cases h9
    rcases checkNotAssignedTime_error h8 with ⟨a, b⟩ | ⟨a, b⟩
    · obtain ⟨x, rfl⟩ := Option.isSome_iff_exists.mp a
      exact Or.inl ⟨h3 ▸ h1.some_mem h2, by rw [b, h4]⟩
    · subst a
      exact Or.inr (Or.inr (Or.inr ⟨h3 ▸ h1, h5 ▸ h6, h5 ▸ b⟩))
  cases f <;> simp only [fieldStep] at h
  case authUri lit =>
    rcases except_bind_error h with h | ⟨_, _, h⟩
    · exact uri hi.authUri (fun _ => rfl) rfl rfl rfl (.inl rfl) h
    · cases h
  case redirectUri lit =>
    rcases except_bind_error h with h | ⟨_, _, h⟩
    · exact uri hi.redirectUri (fun _ => rfl) rfl rfl rfl (.inr (.inl rfl)) h
    · cases h
  case tokenUri lit =>
    rcases except_bind_error h with h | ⟨_, _, h⟩
    · exact uri hi.tokenUri (fun _ => rfl) rfl rfl rfl (.inr (.inr rfl)) h
    · cases h
  case authUriFields kvs =>
    split at h
    · rename_i hs
      cases h
      obtain ⟨x, hx⟩ := Option.isSome_iff_exists.mp hs
      have := hi.authUriFields; rw [hx] at this
      exact .inl ⟨this.some_mem fun _ => rfl, rfl⟩
    · cases h
  case scopes kvs =>
    split at h
    · rename_i hs
      cases h
      obtain ⟨x, hx⟩ := Option.isSome_iff_exists.mp hs
      have := hi.scopes; rw [hx] at this
      exact .inl ⟨this.some_mem fun _ => rfl, rfl⟩
    · cases h
  case clientId lit =>
    rcases except_bind_error h with h | ⟨_, _, h⟩
    · exact .inl (str hi.clientId (fun _ => rfl) rfl rfl h)
    · cases h
  case clientSecret lit =>
    rcases except_bind_error h with h | ⟨_, _, h⟩
    · exact .inl (str hi.clientSecret (fun _ => rfl) rfl rfl h)
    · cases h
  case loginHint lit =>
    rcases except_bind_error h with h | ⟨_, _, h⟩
    · exact .inl (str hi.loginHint (fun _ => rfl) rfl rfl h)
    · cases h
  case refreshAtLeast lit => exact time hi.refreshAtLeast (fun _ => rfl) rfl rfl rfl (.inl rfl) h
  case refreshBeforeExpiry lit => exact time hi.refreshBeforeExpiry (fun _ => rfl) rfl rfl rfl (.inr (.inl rfl)) h
  case refreshRetry lit => exact time hi.refreshRetry (fun _ => rfl) rfl rfl rfl (.inr (.inr rfl)) h

/-- The name of an option in messages. -/
def TopLevel.name : TopLevel → String
  | .account _ _ => "account"
  | .authErrorCmd => "auth_error_cmd"
  | .authNotifyCmd _ => "auth_notify_cmd"
  | .authNotifyInterval _ => "auth_notify_interval"
  | .errorNotifyCmd _ => "error_notify_cmd"
  | .httpListen _ | .httpListenNone => "http_listen"
  | .httpsListen _ | .httpsListenNone => "https_listen"
  | .transientErrorIfCmd _ => "transient_error_if_cmd"
  | .refreshAtLeast _ => "refresh_at_least"
  | .refreshBeforeExpiry _ => "refresh_before_expiry"
  | .refreshRetry _ => "refresh_retry"
  | .tokenEventCmd _ => "token_event_cmd"

/-- An option which is a time. -/
def TimeTop (x : TopLevel) (t : String) : Prop :=
  x = .authNotifyInterval t ∨ x = .refreshAtLeast t ∨ x = .refreshBeforeExpiry t ∨ x = .refreshRetry t

/-- Why an option is rejected. -/
def TopErr (l : List TopLevel) (t : TopLevel) (e : ConfErr) : Prop :=
  (t = .authErrorCmd ∧ e = .renamed) ∨
  (t ≠ .authErrorCmd ∧ t.key ∈ l.map TopLevel.key ∧ e = .dup t.name) ∨
  (t.key ∉ l.map TopLevel.key ∧ TimeTop t t.lit ∧ timeStrToDuration t.lit = .error e)

theorem FromTop.some_mem {β : Type} {l : List TopLevel} {R : TopLevel → β → Prop} {k : Kind} {b : β}
    (h : FromTop l R k (some b)) (hR : ∀ t b, R t b → t.key = k) : k ∈ l.map TopLevel.key := by
  obtain ⟨t, h1, h2⟩ := h
  exact hR t b h2 ▸ List.mem_map_of_mem h1

theorem topStep_error {E : Env} {l : List TopLevel} {s : ConfAcc} {t : TopLevel} {e : ConfErr} (hi : ConfInv E l s)
    (ht : t.key ≠ .ACCOUNT) (h : topStep E s t = .error e) : TopErr l t e := by
  have str : ∀ {mk : String → TopLevel} {k : Kind} {v : Option String} {name lit : String},
      FromTop l (StrT mk) k v → (∀ a, (mk a).key = k) → t.key = k → t.name = name → t ≠ .authErrorCmd →
      checkNotAssignedStr name lit v = .error e → TopErr l t e := by
    intro mk k v name lit h1 h2 h3 h4 h5 h7
    obtain ⟨a, b⟩ := checkNotAssignedStr_error h7
    obtain ⟨x, rfl⟩ := Option.isSome_iff_exists.mp a
    exact .inr (.inl ⟨h5, h3 ▸ h1.some_mem (by rintro _ _ ⟨s, rfl, _⟩; exact h2 s), by rw [b, h4]⟩)
  have lis : ∀ {n : TopLevel} {mk : String → TopLevel} {k : Kind} {v : Option (Option String)} {name : String},
      FromTop l (ListenT n mk) k v → n.key = k → (∀ a, (mk a).key = k) → t.key = k → t.name = name → t ≠ .authErrorCmd →
      v.isSome ∧ e = .dup name → TopErr l t e := by
    intro n mk k v name h1 h0 h2 h3 h4 h5 h7
    obtain ⟨a, b⟩ := h7
    obtain ⟨x, rfl⟩ := Option.isSome_iff_exists.mp a
    exact .inr (.inl ⟨h5, h3 ▸ h1.some_mem (by rintro _ _ (⟨rfl, _⟩ | ⟨s, rfl, _⟩); exact h0; exact h2 s), by rw [b, h4]⟩)
  have time : ∀ {mk : String → TopLevel} {k : Kind} {v : Option Dur} {name lit : String} {g : Dur → ConfAcc},
      FromTop l (TimeT mk) k v → (∀ a, (mk a).key = k) → t.key = k → t.name = name → t.lit = lit → TimeTop t lit →
      t ≠ .authErrorCmd →
      (checkNotAssignedTime name lit v >>= fun t => timeStrToDuration t >>= fun d => pure (g d)) = .error e →
      TopErr l t e := by
    intro mk k v name lit g h1 h2 h3 h4 h5 h6 h0 h7
    have h8 : (checkNotAssignedTime name lit v >>= timeStrToDuration) = .error e := by
      rcases except_bind_error h7 with h7 | ⟨t, h7, h8⟩
      · rw [h7]; rfl
      · rw [h7]
        rcases except_bind_error h8 with h8 | ⟨d, _, h9⟩
        · exact h8
        · cases h9
    rcases checkNotAssignedTime_error h8 with ⟨a, b⟩ | ⟨a, b⟩
    · obtain ⟨x, rfl⟩ := Option.isSome_iff_exists.mp a
      exact .inr (.inl ⟨h0, h3 ▸ h1.some_mem (by rintro _ _ ⟨s, rfl, _⟩; exact h2 s), by rw [b, h4]⟩)
    · subst a
      exact .inr (.inr ⟨h3 ▸ h1, h5 ▸ h6, h5 ▸ b⟩)
  cases t <;> simp only [topStep] at h
  case account n fs => exact absurd rfl ht
  case authErrorCmd => cases h; exact .inl ⟨rfl, rfl⟩
  case authNotifyCmd lit =>
    rcases except_bind_error h with h | ⟨_, _, h⟩
    · exact str hi.authNotifyCmd (fun _ => rfl) rfl rfl nofun h
    · cases h
  case errorNotifyCmd lit =>
    rcases except_bind_error h with h | ⟨_, _, h⟩
    · exact str hi.errorNotifyCmd (fun _ => rfl) rfl rfl nofun h
    · cases h
  case transientErrorIfCmd lit =>
    rcases except_bind_error h with h | ⟨_, _, h⟩
    · exact str hi.transientErrorIfCmd (fun _ => rfl) rfl rfl nofun h
    · cases h
  case tokenEventCmd lit =>
    rcases except_bind_error h with h | ⟨_, _, h⟩
    · exact str hi.tokenEventCmd (fun _ => rfl) rfl rfl nofun h
    · cases h
  case httpListen lit =>
    rcases except_bind_error h with h | ⟨_, _, h⟩
    · exact lis hi.httpListen rfl (fun _ => rfl) rfl rfl nofun (checkNotAssignedStr_error h)
    · cases h
  case httpListenNone =>
    rcases except_bind_error h with h | ⟨_, _, h⟩
    · exact lis hi.httpListen rfl (fun _ => rfl) rfl rfl nofun (checkNotAssigned_error h)
    · cases h
  case httpsListen lit =>
    rcases except_bind_error h with h | ⟨_, _, h⟩
    · exact lis hi.httpsListen rfl (fun _ => rfl) rfl rfl nofun (checkNotAssignedStr_error h)
    · cases h
  case httpsListenNone =>
    rcases except_bind_error h with h | ⟨_, _, h⟩
    · exact lis hi.httpsListen rfl (fun _ => rfl) rfl rfl nofun (checkNotAssigned_error h)
    · cases h
  case authNotifyInterval lit => exact time hi.authNotifyInterval (fun _ => rfl) rfl rfl rfl (.inl rfl) nofun h
  case refreshAtLeast lit => exact time hi.refreshAtLeast (fun _ => rfl) rfl rfl rfl (.inr (.inl rfl)) nofun h
  case refreshBeforeExpiry lit =>
    exact time hi.refreshBeforeExpiry (fun _ => rfl) rfl rfl rfl (.inr (.inr (.inl rfl))) nofun h
  case refreshRetry lit => exact time hi.refreshRetry (fun _ => rfl) rfl rfl rfl (.inr (.inr (.inr rfl))) nofun h

/-! ## Where the tokens are -/

theorem RPFields.split : ∀ {f1 : List (AccountField × Nat)} {ts : List PTok} {p : AccountField × Nat} {f2},
    RPFields ts (f1 ++ p :: f2) → ∃ t1 t r, ts = t1 ++ t ++ r ∧ RFields (t1.map PTok.tok) (f1.map Prod.fst) ∧
      GAccountField (t.map PTok.tok) p.1 ∧ p.2 = fieldPos p.1 t
  | [], ts, p, f2, h => by
    cases h with
    | @cons r _ t _ h1 h2 => exact ⟨[], t, r, rfl, .nil, h1, rfl⟩
  | q :: f1, ts, p, f2, h => by
    cases h with
    | @cons r _ t _ h1 h2 =>
      obtain ⟨t1, t', r', rfl, h4, h5, h6⟩ := RPFields.split h2
      exact ⟨t ++ t1, t', r', by simp, by rw [List.map_append]; exact .cons h1 h4, h5, h6⟩

theorem RPTops.split : ∀ {p1 : List PTop} {ts : List PTok} {x : PTop} {p2}, RPTops ts (p1 ++ x :: p2) →
    ∃ t1 t r, ts = t1 ++ t ++ r ∧ RTops (t1.map PTok.tok) (p1.map PTop.top) ∧ GTopLevel (t.map PTok.tok) x.top ∧
      x.pos = topPos x.top t ∧ ∀ n fs, x.top = .account n fs → x.fields.map Prod.fst = fs ∧
        ∃ a b c d mid, t = [a, b, c] ++ mid ++ [d] ∧ RPFields mid x.fields ∧
          [a, b, c].map PTok.tok = [⟨.ACCOUNT, a.tok.text⟩, ⟨.STRING, n⟩, ⟨.LBRACE, c.tok.text⟩]
  | [], ts, x, p2, h => by
    cases h with
    | @cons r _ t _ h1 h2 h3 h4 => exact ⟨[], t, r, rfl, .nil, h1, h2, h3⟩
  | q :: p1, ts, x, p2, h => by
    cases h with
    | @cons r _ t _ h1 h2 h3 h4 =>
      obtain ⟨t1, t', r', rfl, h5, h6⟩ := RPTops.split h4
      exact ⟨t ++ t1, t', r', by simp, by rw [List.map_append]; exact .cons h1 h5, h6⟩

theorem RPTops.accounts : ∀ {ps : List PTop} {ts : List PTok}, RPTops ts ps → ∀ x ∈ ps, ∀ n fs, x.top = .account n fs →
    x.fields.map Prod.fst = fs
  | [], ts, h => nofun
  | q :: ps, ts, h => by
    cases h with
    | cons h1 h2 h3 h4 =>
      intro x hx n fs he
      rcases List.mem_cons.mp hx with rfl | hx
      · exact (h3 n fs he).1
      · exact RPTops.accounts h4 x hx n fs he

theorem posAt_at {file : String} {t1 t r : List PTok} (h : plex file = t1 ++ t ++ r) {k : Nat} (hk : k < t.length) :
    TokenAt file (t1.length + k) (posAt t k) := by
  have h1 : (plex file)[t1.length + k]? = some t[k] := by
    rw [h, List.append_assoc, List.getElem?_append_right (by omega), List.getElem?_append_left (by omega)]
    simp [List.getElem?_eq_getElem hk]
  have h2 : posAt t k = t[k].pos := by simp [posAt, List.getElem?_eq_getElem hk]
  rw [h2]
  exact plex_at h1

theorem TokenAt.le {file : String} {k off : Nat} (h : TokenAt file k off) : off ≤ file.toList.length := by
  obtain ⟨t, h1, h2, _⟩ := h
  rcases Nat.lt_or_ge file.toList.length off with hl | hl
  · rw [List.drop_eq_nil_of_le (by omega)] at h2
    have h3 : lex (String.ofList []) = [] := by decide
    rw [h3] at h2
    have := congrArg List.length h2
    simp only [List.length_nil, List.length_drop] at this
    have := (List.getElem?_eq_some_iff.mp h1).1
    omega
  · exact hl

theorem report {E : Env} {u : String → String} {file : String} {t1 t r : List PTok} (h : plex file = t1 ++ t ++ r)
    {k : Nat} (hk : k < t.length) {msg : String} (hf : Fault E u file (t1.length + k) msg) :
    Reported E u file (errorAtSpan file.toList (posAt t k) msg) := by
  have h1 := posAt_at h hk
  obtain ⟨line, col, code, h2, h3⟩ := errorAtSpan_located h1.le msg
  exact ⟨_, msg, _, line, col, code, hf, h1, h2, h3⟩

theorem GAccountField.head {ts f} (h : GAccountField ts f) : ∃ kw r, ts = ⟨f.key, kw⟩ :: r := by
  cases h <;> exact ⟨_, _, rfl⟩

theorem GTopLevel.head {ts x} (h : GTopLevel ts x) : ∃ kw r, ts = ⟨x.key, kw⟩ :: r := by
  cases h <;> exact ⟨_, _, rfl⟩

theorem field_kw {file kw : String} {f : AccountField} (h : ⟨f.key, kw⟩ ∈ lex file) : kw = f.name := by
  cases f <;> exact lit_tok h (by intro m hm; simpa [AccountField.key, AccountField.name, lexRules] using hm)

theorem top_kw {file kw : String} {x : TopLevel} (h : ⟨x.key, kw⟩ ∈ lex file) : kw = x.name := by
  cases x <;> exact lit_tok h (by intro m hm; simpa [TopLevel.key, TopLevel.name, lexRules] using hm)

theorem field_time {ts : List Tok} {f : AccountField} {t : String} (h : GAccountField ts f) (ht : TimeField f t) :
    ⟨.TIME, t⟩ ∈ ts := by
  rcases ht with rfl | rfl | rfl <;> cases h <;> simp

theorem top_time {ts : List Tok} {x : TopLevel} {t : String} (h : GTopLevel ts x) (ht : TimeTop x t) :
    ⟨.TIME, t⟩ ∈ ts := by
  rcases ht with rfl | rfl | rfl | rfl <;> cases h <;> simp

/-- The message about a time. -/
theorem time_fault {file t : String} (h : ⟨.TIME, t⟩ ∈ lex file) {e : ConfErr} (he : timeStrToDuration t = .error e) :
    e = .badTime ∧ TimeFault file (timeMsg t) := by
  obtain ⟨ds, u, k, h1, h2, h3, h4⟩ := C41_only h rfl
  dsimp only at h1
  subst h1
  have hc := C41 h2 h3 h4
  rw [hc] at he
  split at he
  · cases he
  · rename_i hbig
    cases he
    refine ⟨rfl, ds, u, k, h, h4, ?_, ?_⟩
    · intro c hcm
      have := isDigit09_iff.mpr (h3 c hcm)
      unfold isDigit09 at this
      simpa using this
    · have hdig : ∀ c ∈ ds, c.isDigit = true := fun c hc => isDigit09_eq c ▸ isDigit09_iff.mpr (h3 c hc)
      have hud : u.isDigit = false := by
        unfold unitSecs at h4
        repeat' split at h4
        all_goals first | (cases h4; done) | (subst_vars; decide)
      have hf : (ds ++ [u]).filter Char.isDigit = ds := by
        rw [List.filter_append, List.filter_eq_self.mpr hdig]
        simp [hud]
      have hall : ds.all Char.isDigit = true := List.all_eq_true.mpr hdig
      have hemp : ds.isEmpty = false := by cases ds with
        | nil => exact absurd rfl h2
        | cons _ _ => rfl
      have hsz : u64Size = 2 ^ 64 := by decide
      unfold timeMsg
      simp only [String.toList_ofList, hf, List.take_left', parseU64, hemp, hall, digitsVal_eq, Bool.not_true,
        Bool.or_self, Bool.false_eq_true, if_false, hsz]
      by_cases hn : numberOf ds < 2 ^ 64
      · rw [if_pos hn]; exact .inr ⟨hn, by omega, rfl⟩
      · rw [if_neg hn]; exact .inl ⟨by omega, rfl⟩

/-! ## The whole -/

theorem FieldInv.clean {E : Env} {fs : List AccountField} {s : FieldAcc} (h : FieldInv E fs s) : CleanFields E fs :=
  ⟨h.once, h.values⟩

theorem ConfInv.clean {E : Env} {l : List TopLevel} {s : ConfAcc} (h : ConfInv E l s) : Clean E l :=
  ⟨h.once, h.values, h.blocks⟩

/-- The message about a field of an account. -/
theorem fieldM_error {T : ErrTexts} {E : Env} {file : String} {t1 t r : List PTok} (hplex : plex file = t1 ++ t ++ r)
    {l : List TopLevel} (hl : GTopLevels (t1.map PTok.tok) l) (hcl : Clean E l) {a b c d : PTok} {mid : List PTok}
    {n : String} (ht : t = [a, b, c] ++ mid ++ [d])
    (habc : [a, b, c].map PTok.tok = [⟨.ACCOUNT, a.tok.text⟩, ⟨.STRING, n⟩, ⟨.LBRACE, c.tok.text⟩])
    {f1 f2 : List (AccountField × Nat)} {p : AccountField × Nat} (hm : RPFields mid (f1 ++ p :: f2)) {s : FieldAcc}
    (hi : FieldInv E (f1.map Prod.fst) s) {m : Option String} (h : fieldStepM T E file.toList s p = .error m) :
    ∃ m', m = some m' ∧ Explained E T.url file m' := by
  obtain ⟨u1, u, u2, hmid, h1, h2, h3⟩ := hm.split
  obtain ⟨e, he, hme⟩ := mapError_error.mp h
  have hlex := plex_erase file
  rw [hplex, ht, hmid] at hlex
  have h1' : GAccountFields (u1.map PTok.tok) (f1.map Prod.fst) := by simpa using GAccountFields.empty.append h1
  have hu4 := h2.four
  rw [List.length_map] at hu4
  have hsplit : plex file = (t1 ++ [a, b, c] ++ u1) ++ u ++ (u2 ++ [d] ++ r) := by
    rw [hplex, ht, hmid]; simp
  have hlen : (t1 ++ [a, b, c] ++ u1).length = t1.length + 3 + u1.length := by simp; omega
  have hsub : ∀ x ∈ u.map PTok.tok, x ∈ lex file := by
    intro x hx
    rw [← hlex]; simp only [List.map_append, List.mem_append]
    simp [hx]
  have fault : ∀ {k : Nat} {msg : String}, k < u.length →
      FieldFault E T.url (f1.map Prod.fst) (u.map PTok.tok) p.1 k msg → p.2 = posAt u k →
      m = some (errorAtSpan file.toList p.2 msg) → ∃ m', m = some m' ∧ Explained E T.url file m' := by
    intro k msg hk hff hp hmm
    refine ⟨_, hmm, .inl ?_⟩
    rw [hp]
    refine report hsplit hk ?_
    rw [hlen]
    have := Fault.field (file := file) (r := (u2 ++ [d] ++ r).map PTok.tok) (a := a.tok.text) (n := n) (b := c.tok.text)
      (by rw [← hlex, ← habc]; simp) hl hcl h1' hi.clean h2 hff
    simpa using this
  obtain ⟨kw, tr, hkw⟩ := h2.head
  have hname : kw = p.1.name := field_kw (f := p.1) (hsub _ (by rw [hkw]; simp))
  have pos2 : (∀ x, p.1 ≠ .authUriFields x) → (∀ x, p.1 ≠ .scopes x) → p.2 = posAt u 2 := by
    intro g1 g2
    rw [h3]
    cases hp1 : p.1 <;> simp only [fieldPos] <;> first | exact absurd hp1 (g1 _) | exact absurd hp1 (g2 _)
  have uriNe : UriField p.1 p.1.lit → (∀ x, p.1 ≠ .authUriFields x) ∧ (∀ x, p.1 ≠ .scopes x) := by
    intro hu
    rcases hu with hu | hu | hu <;> rw [hu] <;> exact ⟨nofun, nofun⟩
  rcases fieldStep_error hi he with ⟨g1, rfl⟩ | ⟨g1, g2, g3, rfl⟩ | ⟨g1, g2, ⟨w, g3, g4, g5⟩, rfl⟩ | ⟨g1, g2, g3⟩
  · by_cases hlist : (∃ x, p.1 = .authUriFields x) ∨ ∃ x, p.1 = .scopes x
    · refine fault (k := 0) (by omega) (by rw [hkw]; exact .listTwice g1 hlist) ?_ ?_
      · rw [h3]
        rcases hlist with ⟨x, hx⟩ | ⟨x, hx⟩ <;> rw [hx] <;> rfl
      · rw [← hme, hname]; rfl
    · rw [not_or, not_exists, not_exists] at hlist
      refine fault (k := 2) (by omega) (by rw [hkw]; exact .twice g1 hlist.1 hlist.2) (pos2 hlist.1 hlist.2) ?_
      rw [← hme, hname]; rfl
  · exact fault (k := 2) (by omega) (.notUrl g1 g2 g3) (pos2 (uriNe g2).1 (uriNe g2).2) hme.symm
  · exact fault (k := 2) (by omega) (.notHttp g1 g2 g3 g4 g5) (pos2 (uriNe g2).1 (uriNe g2).2) hme.symm
  · obtain ⟨rfl, h5⟩ := time_fault (hsub _ (field_time h2 g2)) g3
    exact ⟨_, hme.symm, .inr h5⟩

/-- What a message about an account is. -/
theorem fromFieldsM_error {T : ErrTexts} {E : Env} {file : String} {t1 t r : List PTok} (hplex : plex file = t1 ++ t ++ r)
    {l : List TopLevel} (hl : GTopLevels (t1.map PTok.tok) l) (hcl : Clean E l) {a b c d : PTok} {mid : List PTok}
    {n : String} (ht : t = [a, b, c] ++ mid ++ [d])
    (habc : [a, b, c].map PTok.tok = [⟨.ACCOUNT, a.tok.text⟩, ⟨.STRING, n⟩, ⟨.LBRACE, c.tok.text⟩])
    {fs : List (AccountField × Nat)} (hm : RPFields mid fs) (hg : GTopLevel (t.map PTok.tok) (.account n (fs.map Prod.fst)))
    {m : Option String} {name : String}
    (h : Account.fromFieldsM T E file.toList name (posAt t 0) fs = .error m) :
    ∃ m', m = some m' ∧ Explained E T.url file m' := by
  have hlex := plex_erase file
  rw [hplex] at hlex
  simp only [List.map_append] at hlex
  have ht4 : 0 < t.length := by rw [ht]; simp
  have fault : ∀ {msg : String}, Fault E T.url file (t1.map PTok.tok).length msg →
      m = some (errorAtSpan file.toList (posAt t 0) msg) → ∃ m', m = some m' ∧ Explained E T.url file m' := by
    intro msg hf hmm
    exact ⟨_, hmm, .inl (report hplex ht4 (by simpa using hf))⟩
  unfold Account.fromFieldsM at h
  rcases except_bind_error h with h | ⟨s, h0, h⟩
  · obtain ⟨f1, p, f2, s', rfl, h2, h3⟩ := foldlM_error h
    have hi := fields_fold (fieldInv_init E) (fieldsM_ok.mp h2)
    rw [List.nil_append] at hi
    exact fieldM_error hplex hl hcl ht habc hm hi h3
  have hi := fields_fold (fieldInv_init E) (fieldsM_ok.mp h0)
  rw [List.nil_append] at hi
  have miss : ∀ {v : Option String} {k : Kind} {mk : String → AccountField} {R : String → String → Prop} {nm : String}
      {e : Option String}, FromField (fs.map Prod.fst) mk k R v → (∀ a, (mk a).key = k) →
      ((k, nm) = (.AUTH_URI, "auth_uri") ∨
        (k, nm) = (.CLIENT_ID, "client_id") ∧ .AUTH_URI ∈ (fs.map Prod.fst).map AccountField.key ∨
        (k, nm) = (.TOKEN_URI, "token_uri") ∧ .AUTH_URI ∈ (fs.map Prod.fst).map AccountField.key ∧
          .CLIENT_ID ∈ (fs.map Prod.fst).map AccountField.key) →
      (checkAssigned nm v).mapError (litMsg T file.toList "" (posAt t 0)) = .error e → e = m →
      ∃ m', m = some m' ∧ Explained E T.url file m' := by
    intro v k mk R nm e hv hk hn he hem
    obtain ⟨e', he1, he2⟩ := mapError_error.mp he
    cases v with
    | some _ => cases he1
    | none =>
      cases he1
      exact fault (.missing hlex.symm hl hcl hg hi.clean hv hn) (by rw [← hem, ← he2]; rfl)
  have pres : ∀ {v : Option String} {k : Kind} {mk : String → AccountField} {R : String → String → Prop} {nm x : String},
      FromField (fs.map Prod.fst) mk k R v → (∀ a, (mk a).key = k) →
      (checkAssigned nm v).mapError (litMsg T file.toList "" (posAt t 0)) = .ok x →
      k ∈ (fs.map Prod.fst).map AccountField.key := by
    intro v k mk R nm x hv hk he
    cases v with
    | some _ => exact hv.some_mem hk
    | none => cases he
  rcases except_bind_error h with h | ⟨x1, h1, h⟩
  · exact miss hi.authUri (fun _ => rfl) (.inl rfl) h rfl
  have p1 := pres hi.authUri (fun _ => rfl) h1
  rcases except_bind_error h with h | ⟨x2, h2, h⟩
  · exact miss hi.clientId (fun _ => rfl) (.inr (.inl ⟨rfl, p1⟩)) h rfl
  have p2 := pres hi.clientId (fun _ => rfl) h2
  rcases except_bind_error h with h | ⟨x3, h3, h⟩
  · exact miss hi.tokenUri (fun _ => rfl) (.inr (.inr ⟨rfl, p1, p2⟩)) h rfl
  have p3 := pres hi.tokenUri (fun _ => rfl) h3
  dsimp only at h
  split at h
  · rename_i hc
    obtain ⟨c1, c2⟩ := hc
    obtain ⟨x, hx⟩ := Option.isSome_iff_exists.mp c1
    have hh := hi.loginHint; rw [hx] at hh
    obtain ⟨hlit, hh1, _⟩ := hh
    have hk := hi.authUriFields
    cases hv : s.authUriFields with
    | none => rw [hv] at c2; cases c2
    | some y =>
      rw [hv] at hk c2
      obtain ⟨kvs, hk1, rfl⟩ := hk
      simp only [Option.getD_some, List.any_eq_true, beq_iff_eq, List.mem_map] at c2
      obtain ⟨_, ⟨kv, hkv, rfl⟩, hkv2⟩ := c2
      cases h
      exact fault (.hint hlex.symm hl hcl hg hi.clean p1 p2 p3 hh1 hk1 hkv hkv2) rfl
  · cases h

theorem fromFieldsM_ok {T : ErrTexts} {E : Env} {src : List Char} {name : String} {pos : Nat}
    {fs : List (AccountField × Nat)} {a : Account} :
    Account.fromFieldsM T E src name pos fs = .ok a ↔ Account.fromFields E name (fs.map Prod.fst) = .ok a := by
  unfold Account.fromFieldsM Account.fromFields
  cases h : (fs.map Prod.fst).foldlM (fieldStep E) {} with
  | error e =>
    have : ∃ e', fs.foldlM (fieldStepM T E src) {} = .error e' := by
      cases h' : fs.foldlM (fieldStepM T E src) {} with
      | error e' => exact ⟨e', rfl⟩
      | ok s => rw [fieldsM_ok.mp h'] at h; cases h
    obtain ⟨e', he'⟩ := this
    rw [he']
    simp [bind, Except.bind]
  | ok s =>
    rw [fieldsM_ok.mpr h]
    simp only [bind, Except.bind]
    cases s.authUri <;> simp only [checkAssigned, Except.mapError]
    · simp
    cases s.clientId <;> simp only []
    · simp
    cases s.tokenUri <;> simp only []
    · simp
    split <;> simp [throw, throwThe, MonadExceptOf.throw, pure, Except.pure]

theorem topsM_ok {T : ErrTexts} {E : Env} {src : List Char} : ∀ {ps : List PTop} {s s' : ConfAcc},
    (∀ x ∈ ps, ∀ n fs, x.top = .account n fs → x.fields.map Prod.fst = fs) →
    (ps.foldlM (topStepM T E src) s = .ok s' ↔ (ps.map PTop.top).foldlM (topStep E) s = .ok s')
  | [], s, s', _ => by simp [pure, Except.pure]
  | x :: ps, s, s', hx => by
    have step : ∀ s1, topStepM T E src s x = .ok s1 ↔ topStep E s x.top = .ok s1 := by
      intro s1
      unfold topStepM
      split
      · rename_i n fs he
        rw [he]
        have hf := hx x (by simp) n fs he
        simp only [topStep]
        constructor
        · intro h
          obtain ⟨a, h1, h2⟩ := except_bind_ok h
          rw [fromFieldsM_ok, hf] at h1
          cases h2
          rw [h1]; rfl
        · intro h
          obtain ⟨a, h1, h2⟩ := except_bind_ok h
          rw [← hf] at h1
          cases h2
          rw [fromFieldsM_ok.mpr h1]; rfl
      · exact mapError_ok
    simp only [List.map_cons, List.foldlM_cons]
    constructor
    · intro h
      obtain ⟨s1, h1, h2⟩ := except_bind_ok h
      rw [(step s1).mp h1]
      exact (topsM_ok fun y hy => hx y (List.mem_cons_of_mem _ hy)).mp h2
    · intro h
      obtain ⟨s1, h1, h2⟩ := except_bind_ok h
      rw [(step s1).mpr h1]
      exact (topsM_ok fun y hy => hx y (List.mem_cons_of_mem _ hy)).mpr h2

/-- The message about an option. -/
theorem topM_error {T : ErrTexts} {E : Env} {file : String} {p1 p2 : List PTop} {x : PTop}
    (hr : RPTops (plex file) (p1 ++ x :: p2)) {s : ConfAcc} (hi : ConfInv E (p1.map PTop.top) s) {m : Option String}
    (h : topStepM T E file.toList s x = .error m) : ∃ m', m = some m' ∧ Explained E T.url file m' := by
  obtain ⟨t1, t, r, hplex, h1, h2, h3, h4⟩ := hr.split
  have h1' : GTopLevels (t1.map PTok.tok) (p1.map PTop.top) := by simpa using GTopLevels.empty.append h1
  have hlex := plex_erase file
  rw [hplex] at hlex
  simp only [List.map_append] at hlex
  have ht4 := h2.four
  rw [List.length_map] at ht4
  have hsub : ∀ x ∈ t.map PTok.tok, x ∈ lex file := by
    intro x hx
    rw [← hlex]; simp only [List.mem_append]
    exact .inl (.inr hx)
  unfold topStepM at h
  split at h
  · rename_i n fs he
    obtain ⟨h5, a, b, c, d, mid, h6, h7, h8⟩ := h4 n fs he
    rcases except_bind_error h with h | ⟨_, _, h⟩
    · rw [h3, he] at h
      rw [he, ← h5] at h2
      exact fromFieldsM_error hplex h1' hi.clean h6 h8 h7 h2 h
    · cases h
  · rename_i hna
    have hkey : x.top.key ≠ .ACCOUNT := by
      cases hx : x.top <;> first | exact absurd hx (hna _ _) | nofun
    obtain ⟨e, he, hme⟩ := mapError_error.mp h
    obtain ⟨kw, tr, hkw⟩ := h2.head
    have hname : kw = x.top.name := top_kw (x := x.top) (hsub _ (by rw [hkw]; simp))
    rcases topStep_error hi hkey he with ⟨g1, rfl⟩ | ⟨g1, g2, rfl⟩ | ⟨g1, g2, g3⟩
    · rw [g1] at h2
      have hf : Fault E T.url file (t1.map PTok.tok).length _ := .renamed hlex.symm h1' hi.clean h2
      refine ⟨_, hme.symm, .inl ?_⟩
      rw [h3, g1]
      exact report hplex (k := 0) (by omega) (by simpa using hf)
    · rw [hkw] at h2 hlex
      have hf : Fault E T.url file ((t1.map PTok.tok).length + 2) _ := .twice hlex.symm h1' hi.clean h2 hkey g2
      refine ⟨_, hme.symm, .inl ?_⟩
      have hpos : x.pos = posAt t 2 := by
        rw [h3]
        cases hx : x.top <;> simp only [topPos] <;> first | exact absurd hx (hna _ _) | exact absurd hx g1
      rw [hpos]
      rw [hname] at hf
      rw [List.length_map] at hf
      exact report hplex (k := 2) (by omega) hf
    · obtain ⟨rfl, h5⟩ := time_fault (hsub _ (top_time h2 g2)) g3
      exact ⟨_, hme.symm, .inr h5⟩

theorem forM_mapError {α ε δ : Type} {f : α → Except ε Unit} {g : ε → δ} : ∀ {l : List α},
    l.forM (fun a => (f a).mapError g) = (l.forM f).mapError g
  | [] => rfl
  | a :: l => by
    have e1 : ∀ {ε : Type} (f : α → Except ε Unit), (a :: l).forM f = (f a >>= fun _ => l.forM f) := fun _ => rfl
    rw [e1, e1, forM_mapError]
    cases f a <;> rfl

theorem fromStrM_ok {T : ErrTexts} {E : Env} {file : String} {c : Config} :
    Config.fromStrM T E file = .ok c ↔ Config.fromStr E file = .ok c := by
  unfold Config.fromStrM Config.fromStr
  cases hp : parsePTops (plex file).length (plex file) with
  | none =>
    have := parsePTops_none hp
    rw [plex_erase] at this
    have h2 : parseConfigText file = none := by
      unfold parseConfigText
      rw [← this, ← plex_erase, List.length_map]
    simp [h2]
  | some ps =>
    obtain ⟨hr, hparse⟩ := parsePTops_eq hp
    rw [plex_erase] at hparse
    have hparse' : parseConfigText file = some (ps.map PTop.top) := by
      unfold parseConfigText
      rw [← hparse, ← plex_erase, List.length_map]
    rw [hparse']
    simp only
    unfold Config.fromAstM Config.fromAst
    have hok := fun s' => topsM_ok (T := T) (E := E) (src := file.toList) (s := {}) (s' := s') hr.accounts
    cases h : (ps.map PTop.top).foldlM (topStep E) {} with
    | error e =>
      have : ∃ e', ps.foldlM (topStepM T E file.toList) {} = .error e' := by
        cases h' : ps.foldlM (topStepM T E file.toList) {} with
        | error e' => exact ⟨e', rfl⟩
        | ok s => rw [(hok s).mp h'] at h; cases h
      obtain ⟨e', he'⟩ := this
      rw [he']
      simp [bind, Except.bind]
    | ok s =>
      rw [(hok s).mpr h]
      simp only [forM_mapError, bind, Except.bind, throw, throwThe, MonadExceptOf.throw, pure, Except.pure]
      split
      · simp
      · split
        · simp
        · cases s.accounts.forM (checkListen s.httpListen s.httpsListen) <;> simp [Except.mapError]

theorem forM_error {α ε : Type} {f : α → Except ε Unit} : ∀ {l : List α} {e : ε}, l.forM f = .error e →
    ∃ a ∈ l, f a = .error e
  | [], e, h => by cases h
  | a :: l, e, h => by
    have e1 : (a :: l).forM f = (f a >>= fun _ => l.forM f) := rfl
    rw [e1] at h
    rcases except_bind_error h with h | ⟨_, _, h⟩
    · exact ⟨a, by simp, h⟩
    · obtain ⟨b, hb, h⟩ := forM_error h
      exact ⟨b, List.mem_cons_of_mem _ hb, h⟩

/-- What the message for a rejected file is. -/
theorem fromStrM_error {T : ErrTexts} {E : Env} {file : String} {m : Option String}
    (h : Config.fromStrM T E file = .error m) : ∃ m', m = some m' ∧
      ((parseConfigText file = none ∧ m' = T.syn file) ∨
       ∃ l, parseConfigText file = some l ∧ (Explained E T.url file m' ∨ WholeFault E l m')) := by
  unfold Config.fromStrM at h
  split at h
  · rename_i hp
    cases h
    have := parsePTops_none hp
    rw [plex_erase] at this
    refine ⟨_, rfl, .inl ⟨?_, rfl⟩⟩
    unfold parseConfigText
    rw [← this, ← plex_erase, List.length_map]
  · rename_i ps hp
    obtain ⟨hr, hparse⟩ := parsePTops_eq hp
    rw [plex_erase] at hparse
    have hparse' : parseConfigText file = some (ps.map PTop.top) := by
      unfold parseConfigText
      rw [← hparse, ← plex_erase, List.length_map]
    have hacc := hr.accounts
    unfold Config.fromAstM at h
    rcases except_bind_error h with h | ⟨s, h0, h⟩
    · obtain ⟨p1, x, p2, s', rfl, h2, h3⟩ := foldlM_error h
      rw [topsM_ok fun y hy => hacc y (by simp [hy])] at h2
      have hi := tops_fold (confInv_init E) h2
      rw [List.nil_append] at hi
      obtain ⟨m', h4, h5⟩ := topM_error hr hi h3
      exact ⟨m', h4, .inr ⟨_, hparse', .inl h5⟩⟩
    · rw [topsM_ok hacc] at h0
      have hi := tops_fold (confInv_init E) h0
      rw [List.nil_append] at hi
      have hnone := hi.httpListen.listenNone_iff hi.once rfl (fun _ => rfl) (fun _ => nofun) nofun
      have hsnone := hi.httpsListen.listenNone_iff hi.once rfl (fun _ => rfl) (fun _ => nofun) nofun
      dsimp only at h
      split at h
      · rename_i hc
        cases h
        exact ⟨_, rfl, .inr ⟨_, hparse', .inr (.bothNone hi.clean (hnone.mp hc.1) (hsnone.mp hc.2))⟩⟩
      · split at h
        · rename_i hc
          cases h
          refine ⟨_, rfl, .inr ⟨_, hparse', .inr (.noAccounts hi.clean ?_)⟩⟩
          cases hb : acctBlocks (ps.map PTop.top) with
          | nil => rfl
          | cons b r =>
            have := (hi.names b.1).mpr (by rw [hb]; simp)
            rw [List.isEmpty_iff.mp hc] at this
            cases this
        · rcases except_bind_error h with h | ⟨_, _, h⟩
          · obtain ⟨p, hp, h⟩ := forM_error h
            obtain ⟨e, he, hme⟩ := mapError_error.mp h
            obtain ⟨fs, h3, h4⟩ := (hi.accounts p.1 p.2).mp hp
            have hred : RedirectIs fs p.2.redirectUri := (fromFields_ok h4).says.redirectUri
            unfold checkListen at he
            split at he
            · split at he
              · cases he
                exact ⟨_, hme.symm, .inr ⟨_, hparse', .inr (.https hi.clean h3 hred (startsWith_iff.mp ‹_›) (hsnone.mp ‹_›))⟩⟩
              · cases he
            · split at he
              · split at he
                · cases he
                  exact ⟨_, hme.symm, .inr ⟨_, hparse', .inr (.http hi.clean h3 hred (fun h => ‹¬ _ = true› (startsWith_iff.mpr h)) (startsWith_iff.mp ‹_›)
                    (hnone.mp ‹_›))⟩⟩
                · cases he
              · cases he
          · cases h

end Pizauth
