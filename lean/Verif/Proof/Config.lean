import Verif.Spec.Options
import Verif.Proof.Texts

/-!
# From the syntax tree to the configuration
-/

namespace Pizauth

/-! ## Account fields -/

/-- An optional local variable and the field it comes from. -/
def FromField {α β : Type} (fs : List AccountField) (mk : α → AccountField) (k : Kind) (R : α → β → Prop) :
    Option β → Prop
  | some b => ∃ a, mk a ∈ fs ∧ R a b
  | none => k ∉ fs.map AccountField.key

theorem FromField.snoc {α β : Type} {fs : List AccountField} {mk : α → AccountField} {k : Kind} {R : α → β → Prop}
    {o : Option β} (h : FromField fs mk k R o) {f : AccountField} (hk : f.key ≠ k) : FromField (fs ++ [f]) mk k R o := by
  cases o with
  | some b => obtain ⟨a, h1, h2⟩ := h; exact ⟨a, List.mem_append_left _ h1, h2⟩
  | none =>
    simp only [FromField, List.map_append, List.map_cons, List.map_nil, List.mem_append, List.mem_singleton, not_or]
    exact ⟨h, Ne.symm hk⟩

/-- `lit` denotes the URI `u`. -/
def UriLit (E : Env) (lit u : String) : Prop := u = unescapeStr lit ∧ IsHttpUri E u
def StrLit (lit s : String) : Prop := s = unescapeStr lit
def TimeLit (lit : String) (d : Dur) : Prop := timeStrToDuration lit = .ok d

/-- The local variables after the fields `fs`. -/
structure FieldInv (E : Env) (fs : List AccountField) (s : FieldAcc) : Prop where
  once : (fs.map AccountField.key).Nodup
  values : ∀ f ∈ fs, f.ValueOk E
  authUri : FromField fs .authUri .AUTH_URI (UriLit E) s.authUri
  authUriFields : FromField fs .authUriFields .AUTH_URI_FIELDS
    (fun kvs r => r = kvs.map fun kv => (unescapeStr kv.1, unescapeStr kv.2)) s.authUriFields
  clientId : FromField fs .clientId .CLIENT_ID StrLit s.clientId
  clientSecret : FromField fs .clientSecret .CLIENT_SECRET StrLit s.clientSecret
  loginHint : FromField fs .loginHint .LOGIN_HINT StrLit s.loginHint
  redirectUri : FromField fs .redirectUri .REDIRECT_URI (UriLit E) s.redirectUri
  refreshAtLeast : FromField fs .refreshAtLeast .REFRESH_AT_LEAST TimeLit s.refreshAtLeast
  refreshBeforeExpiry : FromField fs .refreshBeforeExpiry .REFRESH_BEFORE_EXPIRY TimeLit s.refreshBeforeExpiry
  refreshRetry : FromField fs .refreshRetry .REFRESH_RETRY TimeLit s.refreshRetry
  scopes : FromField fs .scopes .SCOPES (fun lits r => r = lits.map unescapeStr) s.scopes
  tokenUri : FromField fs .tokenUri .TOKEN_URI (UriLit E) s.tokenUri

theorem fieldInv_init (E : Env) : FieldInv E [] {} := by
  constructor <;> simp [FromField]

theorem checkNotAssignedUri_ok {T : Type} {E : Env} {name lit u : String} {v : Option T}
    (h : checkNotAssignedUri E name lit v = .ok u) : v = none ∧ u = unescapeStr lit ∧ IsHttpUri E u := by
  unfold checkNotAssignedUri at h
  split at h
  · dsimp only at h
    split at h
    · rename_i x hx
      split at h
      · rename_i hs
        cases h
        refine ⟨rfl, rfl, ?_⟩
        rw [← isHttpUri_iff]
        simp [Env.isHttpUri, hx, hs]
      · cases h
    · cases h
  · cases h

theorem checkNotAssignedUri_none {T : Type} {E : Env} {name lit : String}
    (h : IsHttpUri E (unescapeStr lit)) :
    checkNotAssignedUri E name lit (none : Option T) = .ok (unescapeStr lit) := by
  rw [← isHttpUri_iff] at h
  unfold Env.isHttpUri at h
  split at h
  · rename_i u hu
    simp only [Bool.or_eq_true, beq_iff_eq] at h
    simp [checkNotAssignedUri, hu, h]
  · cases h

theorem checkNotAssignedStr_ok {T : Type} {name lit s : String} {v : Option T}
    (h : checkNotAssignedStr name lit v = .ok s) : v = none ∧ s = unescapeStr lit := by
  unfold checkNotAssignedStr at h
  split at h
  · cases h; exact ⟨rfl, rfl⟩
  · cases h

theorem checkNotAssignedTime_ok {T : Type} {name lit s : String} {v : Option T}
    (h : checkNotAssignedTime name lit v = .ok s) : v = none ∧ s = lit := by
  unfold checkNotAssignedTime at h
  split at h
  · cases h; exact ⟨rfl, rfl⟩
  · cases h

theorem except_bind_ok {ε α β : Type} {x : Except ε α} {f : α → Except ε β} {b : β} (h : x >>= f = .ok b) :
    ∃ a, x = .ok a ∧ f a = .ok b := by
  cases x with
  | error e => cases h
  | ok a => exact ⟨a, rfl, h⟩

/-- The fields processed so far, and one more. -/
theorem fieldInv_step {E : Env} {fs : List AccountField} {s s' : FieldAcc} {f : AccountField} (hi : FieldInv E fs s)
    (h : fieldStep E s f = .ok s') : FieldInv E (fs ++ [f]) s' := by
  have nod : f.key ∉ fs.map AccountField.key → ((fs ++ [f]).map AccountField.key).Nodup := by
    intro hn
    rw [List.map_append, List.nodup_append]
    refine ⟨hi.once, by simp, ?_⟩
    intro a ha b hb
    simp only [List.map_cons, List.map_nil, List.mem_singleton] at hb
    rintro rfl
    exact hn (hb ▸ ha)
  have vals : f.ValueOk E → ∀ g ∈ fs ++ [f], g.ValueOk E := by
    intro hv g hg
    rcases List.mem_append.mp hg with hg | hg
    · exact hi.values g hg
    · rw [List.mem_singleton.mp hg]; exact hv
  have keep : ∀ {α β : Type} {mk : α → AccountField} {k : Kind} {R : α → β → Prop} {o : Option β},
      FromField fs mk k R o → f.key ≠ k → FromField (fs ++ [f]) mk k R o := fun h hk => h.snoc hk
  have add : ∀ {α β : Type} {mk : α → AccountField} {k : Kind} {R : α → β → Prop} {a : α} {b : β},
      f = mk a → R a b → FromField (fs ++ [f]) mk k R (some b) :=
    fun {_ _ _ _ _ a _} hf hr => ⟨a, by simp [hf], hr⟩
  cases f <;> simp only [fieldStep] at h
  case authUri lit =>
    obtain ⟨u, h1, h2⟩ := except_bind_ok h
    obtain ⟨h3, h4⟩ := checkNotAssignedUri_ok h1
    cases h2
    have h0 := hi.authUri; rw [h3] at h0
    exact ⟨nod h0, vals (by rw [AccountField.ValueOk, ← h4.1]; exact h4.2), add rfl h4, keep hi.4 nofun, keep hi.5 nofun, keep hi.6 nofun, keep hi.7 nofun,
      keep hi.8 nofun, keep hi.9 nofun, keep hi.10 nofun, keep hi.11 nofun, keep hi.12 nofun, keep hi.13 nofun⟩
  case authUriFields kvs =>
    split at h
    · cases h
    · rename_i h3
      cases h
      have h0 := hi.authUriFields; rw [show s.authUriFields = none by simpa using h3] at h0
      exact ⟨nod h0, vals trivial, keep hi.3 nofun, add rfl rfl, keep hi.5 nofun, keep hi.6 nofun, keep hi.7 nofun,
        keep hi.8 nofun, keep hi.9 nofun, keep hi.10 nofun, keep hi.11 nofun, keep hi.12 nofun, keep hi.13 nofun⟩
  case clientId lit =>
    obtain ⟨u, h1, h2⟩ := except_bind_ok h
    obtain ⟨h3, h4⟩ := checkNotAssignedStr_ok h1
    cases h2
    have h0 := hi.clientId; rw [h3] at h0
    exact ⟨nod h0, vals trivial, keep hi.3 nofun, keep hi.4 nofun, add rfl h4, keep hi.6 nofun, keep hi.7 nofun,
      keep hi.8 nofun, keep hi.9 nofun, keep hi.10 nofun, keep hi.11 nofun, keep hi.12 nofun, keep hi.13 nofun⟩
  case clientSecret lit =>
    obtain ⟨u, h1, h2⟩ := except_bind_ok h
    obtain ⟨h3, h4⟩ := checkNotAssignedStr_ok h1
    cases h2
    have h0 := hi.clientSecret; rw [h3] at h0
    exact ⟨nod h0, vals trivial, keep hi.3 nofun, keep hi.4 nofun, keep hi.5 nofun, add rfl h4, keep hi.7 nofun,
      keep hi.8 nofun, keep hi.9 nofun, keep hi.10 nofun, keep hi.11 nofun, keep hi.12 nofun, keep hi.13 nofun⟩
  case loginHint lit =>
    obtain ⟨u, h1, h2⟩ := except_bind_ok h
    obtain ⟨h3, h4⟩ := checkNotAssignedStr_ok h1
    cases h2
    have h0 := hi.loginHint; rw [h3] at h0
    exact ⟨nod h0, vals trivial, keep hi.3 nofun, keep hi.4 nofun, keep hi.5 nofun, keep hi.6 nofun, add rfl h4,
      keep hi.8 nofun, keep hi.9 nofun, keep hi.10 nofun, keep hi.11 nofun, keep hi.12 nofun, keep hi.13 nofun⟩
  case redirectUri lit =>
    obtain ⟨u, h1, h2⟩ := except_bind_ok h
    obtain ⟨h3, h4⟩ := checkNotAssignedUri_ok h1
    cases h2
    have h0 := hi.redirectUri; rw [h3] at h0
    exact ⟨nod h0, vals (by rw [AccountField.ValueOk, ← h4.1]; exact h4.2), keep hi.3 nofun, keep hi.4 nofun, keep hi.5 nofun, keep hi.6 nofun,
      keep hi.7 nofun, add rfl h4, keep hi.9 nofun, keep hi.10 nofun, keep hi.11 nofun, keep hi.12 nofun,
      keep hi.13 nofun⟩
  case refreshAtLeast lit =>
    obtain ⟨u, h1, h2⟩ := except_bind_ok h
    obtain ⟨h3, rfl⟩ := checkNotAssignedTime_ok h1
    obtain ⟨d, h4, h2⟩ := except_bind_ok h2
    cases h2
    have h0 := hi.refreshAtLeast; rw [h3] at h0
    exact ⟨nod h0, vals ⟨d, h4⟩, keep hi.3 nofun, keep hi.4 nofun, keep hi.5 nofun, keep hi.6 nofun,
      keep hi.7 nofun, keep hi.8 nofun, add rfl h4, keep hi.10 nofun, keep hi.11 nofun, keep hi.12 nofun,
      keep hi.13 nofun⟩
  case refreshBeforeExpiry lit =>
    obtain ⟨u, h1, h2⟩ := except_bind_ok h
    obtain ⟨h3, rfl⟩ := checkNotAssignedTime_ok h1
    obtain ⟨d, h4, h2⟩ := except_bind_ok h2
    cases h2
    have h0 := hi.refreshBeforeExpiry; rw [h3] at h0
    exact ⟨nod h0, vals ⟨d, h4⟩, keep hi.3 nofun, keep hi.4 nofun, keep hi.5 nofun, keep hi.6 nofun,
      keep hi.7 nofun, keep hi.8 nofun, keep hi.9 nofun, add rfl h4, keep hi.11 nofun, keep hi.12 nofun,
      keep hi.13 nofun⟩
  case refreshRetry lit =>
    obtain ⟨u, h1, h2⟩ := except_bind_ok h
    obtain ⟨h3, rfl⟩ := checkNotAssignedTime_ok h1
    obtain ⟨d, h4, h2⟩ := except_bind_ok h2
    cases h2
    have h0 := hi.refreshRetry; rw [h3] at h0
    exact ⟨nod h0, vals ⟨d, h4⟩, keep hi.3 nofun, keep hi.4 nofun, keep hi.5 nofun, keep hi.6 nofun,
      keep hi.7 nofun, keep hi.8 nofun, keep hi.9 nofun, keep hi.10 nofun, add rfl h4, keep hi.12 nofun,
      keep hi.13 nofun⟩
  case scopes lits =>
    split at h
    · cases h
    · rename_i h3
      cases h
      have h0 := hi.scopes; rw [show s.scopes = none by simpa using h3] at h0
      exact ⟨nod h0, vals trivial, keep hi.3 nofun, keep hi.4 nofun, keep hi.5 nofun, keep hi.6 nofun,
        keep hi.7 nofun, keep hi.8 nofun, keep hi.9 nofun, keep hi.10 nofun, keep hi.11 nofun, add rfl rfl,
        keep hi.13 nofun⟩
  case tokenUri lit =>
    obtain ⟨u, h1, h2⟩ := except_bind_ok h
    obtain ⟨h3, h4⟩ := checkNotAssignedUri_ok h1
    cases h2
    have h0 := hi.tokenUri; rw [h3] at h0
    exact ⟨nod h0, vals (by rw [AccountField.ValueOk, ← h4.1]; exact h4.2), keep hi.3 nofun, keep hi.4 nofun, keep hi.5 nofun, keep hi.6 nofun,
      keep hi.7 nofun, keep hi.8 nofun, keep hi.9 nofun, keep hi.10 nofun, keep hi.11 nofun, keep hi.12 nofun,
      add rfl h4⟩

theorem FromField.isNone {α β : Type} {fs : List AccountField} {mk : α → AccountField} {k : Kind} {R : α → β → Prop}
    {o : Option β} (h : FromField fs mk k R o) (hmk : ∀ a, (mk a).key = k) (hk : k ∉ fs.map AccountField.key) :
    o = none := by
  cases o with
  | none => rfl
  | some b => obtain ⟨a, h1, _⟩ := h; exact absurd (hmk a ▸ List.mem_map_of_mem h1) hk

/-- A new field with an acceptable value is accepted. -/
theorem fieldStep_ok {E : Env} {fs : List AccountField} {s : FieldAcc} {f : AccountField} (hi : FieldInv E fs s)
    (hn : f.key ∉ fs.map AccountField.key) (hv : f.ValueOk E) : ∃ s', fieldStep E s f = .ok s' := by
  cases f <;> simp only [fieldStep]
  case authUri lit => rw [hi.authUri.isNone (fun _ => rfl) hn, checkNotAssignedUri_none hv]; exact ⟨_, rfl⟩
  case redirectUri lit => rw [hi.redirectUri.isNone (fun _ => rfl) hn, checkNotAssignedUri_none hv]; exact ⟨_, rfl⟩
  case tokenUri lit => rw [hi.tokenUri.isNone (fun _ => rfl) hn, checkNotAssignedUri_none hv]; exact ⟨_, rfl⟩
  case authUriFields kvs => rw [hi.authUriFields.isNone (fun _ => rfl) hn]; exact ⟨_, rfl⟩
  case scopes kvs => rw [hi.scopes.isNone (fun _ => rfl) hn]; exact ⟨_, rfl⟩
  case clientId lit => rw [hi.clientId.isNone (fun _ => rfl) hn]; exact ⟨_, rfl⟩
  case clientSecret lit => rw [hi.clientSecret.isNone (fun _ => rfl) hn]; exact ⟨_, rfl⟩
  case loginHint lit => rw [hi.loginHint.isNone (fun _ => rfl) hn]; exact ⟨_, rfl⟩
  case refreshAtLeast lit =>
    obtain ⟨d, hd⟩ := hv
    rw [hi.refreshAtLeast.isNone (fun _ => rfl) hn]
    simp only [checkNotAssignedTime, bind, Except.bind, hd]
    exact ⟨_, rfl⟩
  case refreshBeforeExpiry lit =>
    obtain ⟨d, hd⟩ := hv
    rw [hi.refreshBeforeExpiry.isNone (fun _ => rfl) hn]
    simp only [checkNotAssignedTime, bind, Except.bind, hd]
    exact ⟨_, rfl⟩
  case refreshRetry lit =>
    obtain ⟨d, hd⟩ := hv
    rw [hi.refreshRetry.isNone (fun _ => rfl) hn]
    simp only [checkNotAssignedTime, bind, Except.bind, hd]
    exact ⟨_, rfl⟩

theorem fields_fold {E : Env} : ∀ {fs p : List AccountField} {s s' : FieldAcc}, FieldInv E p s →
    fs.foldlM (fieldStep E) s = .ok s' → FieldInv E (p ++ fs) s'
  | [], p, s, s', hi, h => by cases h; simpa using hi
  | f :: fs, p, s, s', hi, h => by
    rw [List.foldlM_cons] at h
    obtain ⟨s1, h1, h2⟩ := except_bind_ok h
    have := fields_fold (fieldInv_step hi h1) h2
    simpa using this

theorem fields_fold_ok {E : Env} : ∀ {fs p : List AccountField} {s : FieldAcc}, FieldInv E p s →
    ((p ++ fs).map AccountField.key).Nodup → (∀ f ∈ fs, f.ValueOk E) → ∃ s', fs.foldlM (fieldStep E) s = .ok s'
  | [], p, s, hi, _, _ => ⟨s, rfl⟩
  | f :: fs, p, s, hi, hn, hv => by
    have hf : f.key ∉ p.map AccountField.key := by
      intro hm
      rw [List.map_append, List.nodup_append] at hn
      exact hn.2.2 _ hm _ (by simp) rfl
    obtain ⟨s1, h1⟩ := fieldStep_ok hi hf (hv f (by simp))
    obtain ⟨s2, h2⟩ := fields_fold_ok (fs := fs) (fieldInv_step hi h1) (by simpa using hn)
      fun g hg => hv g (List.mem_cons_of_mem _ hg)
    refine ⟨s2, ?_⟩
    rw [List.foldlM_cons, h1]
    exact h2

theorem FromField.isSome {α β : Type} {fs : List AccountField} {mk : α → AccountField} {k : Kind} {R : α → β → Prop}
    {o : Option β} (h : FromField fs mk k R o) (hk : k ∈ fs.map AccountField.key) :
    ∃ a b, o = some b ∧ mk a ∈ fs ∧ R a b := by
  cases o with
  | none => exact absurd hk h
  | some b => obtain ⟨a, h1, h2⟩ := h; exact ⟨a, b, rfl, h1, h2⟩

/-- A field which may be specified only once has one value. -/
theorem field_unique {fs : List AccountField} (h : (fs.map AccountField.key).Nodup) {f g : AccountField} (hf : f ∈ fs)
    (hg : g ∈ fs) (hk : f.key = g.key) : f = g := by
  induction fs with
  | nil => cases hf
  | cons a fs ih =>
    simp only [List.map_cons, List.nodup_cons] at h
    rcases List.mem_cons.mp hf with hf | hf <;> rcases List.mem_cons.mp hg with hg | hg
    · rw [hf, hg]
    · exact absurd (by rw [← hf, hk]; exact List.mem_map_of_mem hg) h.1
    · exact absurd (by rw [← hg, ← hk]; exact List.mem_map_of_mem hf) h.1
    · exact ih h.2 hf hg

/-- What an accepted account is. -/
structure AcctFrom (E : Env) (n : String) (fs : List AccountField) (a : Account) : Prop where
  valid : FieldsValid E fs
  says : FieldsSay fs a
  name : a.name = n
  authOk : IsHttpUri E a.authUri
  redirOk : IsHttpUri E a.redirectUri ∨ a.redirectUri = "http://localhost/"
  tokenOk : IsHttpUri E a.tokenUri

theorem fromFields_ok {E : Env} {n : String} {fs : List AccountField} {a : Account}
    (h : Account.fromFields E n fs = .ok a) : AcctFrom E n fs a := by
  unfold Account.fromFields at h
  obtain ⟨s, h1, h⟩ := except_bind_ok h
  have hi := fields_fold (fieldInv_init E) h1
  rw [List.nil_append] at hi
  obtain ⟨au, h2, h⟩ := except_bind_ok h
  obtain ⟨ci, h3, h⟩ := except_bind_ok h
  obtain ⟨tu, h4, h⟩ := except_bind_ok h
  have ca : ∀ {T : Type} {nm : String} {v : Option T} {x : T}, checkAssigned nm v = .ok x → v = some x := by
    intro T nm v x hx
    unfold checkAssigned at hx
    split at hx
    · cases hx; rfl
    · cases hx
  replace h2 := ca h2
  replace h3 := ca h3
  replace h4 := ca h4
  dsimp only at h
  split at h
  · obtain ⟨_, h, _⟩ := except_bind_ok h; cases h
  · rename_i hh
    cases h
    have i1 := hi.authUri; rw [h2] at i1
    have i2 := hi.clientId; rw [h3] at i2
    have i3 := hi.tokenUri; rw [h4] at i3
    obtain ⟨l1, m1, r1⟩ := i1
    obtain ⟨l2, m2, r2⟩ := i2
    obtain ⟨l3, m3, r3⟩ := i3
    refine ⟨⟨hi.once, hi.values, List.mem_map_of_mem (f := AccountField.key) m1, List.mem_map_of_mem (f := AccountField.key) m2,
      List.mem_map_of_mem (f := AccountField.key) m3, ?_⟩, ⟨⟨l1, m1, r1.1⟩, ?_, ⟨l2, m2, r2⟩, ?_, ?_, ?_, ?_, ?_, ?_,
      ⟨l3, m3, r3.1⟩⟩, rfl, r1.2, ?_, r3.2⟩
    · intro hl hm kvs hkm kv hkv hc
      obtain ⟨_, b, hb, _⟩ := hi.loginHint.isSome (List.mem_map_of_mem (f := AccountField.key) hm)
      obtain ⟨kvs', b', hb', hm', hr⟩ := hi.authUriFields.isSome (List.mem_map_of_mem (f := AccountField.key) hkm)
      have := field_unique hi.once hkm hm' rfl
      cases this
      refine hh ⟨by simp [hb], ?_⟩
      rw [hb', hr]
      simp only [Option.getD_some, List.any_eq_true, beq_iff_eq]
      exact ⟨_, List.mem_map_of_mem hkv, hc⟩
    · have := hi.authUriFields
      cases ho : s.authUriFields with
      | none => rw [ho] at this; exact .inr ⟨this, rfl⟩
      | some x => rw [ho] at this; obtain ⟨l, m, r⟩ := this; exact .inl ⟨l, m, r⟩
    · have := hi.clientSecret
      cases ho : s.clientSecret with
      | none => rw [ho] at this; exact .inr ⟨this, rfl⟩
      | some x => rw [ho] at this; obtain ⟨l, m, r⟩ := this; exact .inl ⟨l, m, congrArg some r⟩
    · have := hi.redirectUri
      cases ho : s.redirectUri with
      | none => rw [ho] at this; exact .inr ⟨this, rfl⟩
      | some x => rw [ho] at this; obtain ⟨l, m, r⟩ := this; exact .inl ⟨l, m, r.1⟩
    · have := hi.refreshAtLeast
      cases ho : s.refreshAtLeast with
      | none => rw [ho] at this; exact .inr ⟨this, rfl⟩
      | some x => rw [ho] at this; obtain ⟨l, m, r⟩ := this; exact .inl ⟨l, x, m, r, rfl⟩
    · have := hi.refreshBeforeExpiry
      cases ho : s.refreshBeforeExpiry with
      | none => rw [ho] at this; exact .inr ⟨this, rfl⟩
      | some x => rw [ho] at this; obtain ⟨l, m, r⟩ := this; exact .inl ⟨l, x, m, r, rfl⟩
    · have := hi.refreshRetry
      cases ho : s.refreshRetry with
      | none => rw [ho] at this; exact .inr ⟨this, rfl⟩
      | some x => rw [ho] at this; obtain ⟨l, m, r⟩ := this; exact .inl ⟨l, x, m, r, rfl⟩
    · have := hi.scopes
      cases ho : s.scopes with
      | none => rw [ho] at this; exact .inr ⟨this, rfl⟩
      | some x => rw [ho] at this; obtain ⟨l, m, r⟩ := this; exact .inl ⟨l, m, r⟩
    · have := hi.redirectUri
      cases ho : s.redirectUri with
      | none => exact .inr rfl
      | some x => rw [ho] at this; obtain ⟨l, m, r⟩ := this; exact .inl r.2

theorem fromFields_accepts {E : Env} (n : String) {fs : List AccountField} (hv : FieldsValid E fs) :
    ∃ a, Account.fromFields E n fs = .ok a := by
  obtain ⟨s, hs⟩ := fields_fold_ok (fieldInv_init E) (by simpa using hv.once) hv.values
  have hi := fields_fold (fieldInv_init E) hs
  rw [List.nil_append] at hi
  obtain ⟨_, b1, e1, _⟩ := hi.authUri.isSome hv.authUri
  obtain ⟨_, b2, e2, _⟩ := hi.clientId.isSome hv.clientId
  obtain ⟨_, b3, e3, _⟩ := hi.tokenUri.isSome hv.tokenUri
  unfold Account.fromFields
  rw [hs]
  simp only [e1, e2, e3, checkAssigned, bind, Except.bind]
  split
  · rename_i hc
    exfalso
    obtain ⟨hl, ha⟩ := hc
    cases hlh : s.loginHint with
    | none => rw [hlh] at hl; cases hl
    | some x =>
      have i1 := hi.loginHint; rw [hlh] at i1
      obtain ⟨lh, m1, _⟩ := i1
      cases hau : s.authUriFields with
      | none => rw [hau] at ha; cases ha
      | some y =>
        have i2 := hi.authUriFields; rw [hau] at i2
        obtain ⟨kvs, m2, r⟩ := i2
        rw [hau, r] at ha
        simp only [Option.getD_some, List.any_eq_true, beq_iff_eq, List.mem_map] at ha
        obtain ⟨_, ⟨kv, hkv, rfl⟩, he⟩ := ha
        exact hv.hint lh m1 kvs m2 kv hkv he
  · exact ⟨_, rfl⟩

/-! ## Top level -/

/-- An optional local variable and the option it comes from. -/
def FromTop {β : Type} (l : List TopLevel) (R : TopLevel → β → Prop) (k : Kind) : Option β → Prop
  | some b => ∃ t ∈ l, R t b
  | none => k ∉ l.map TopLevel.key

theorem FromTop.snoc {β : Type} {l : List TopLevel} {R : TopLevel → β → Prop} {k : Kind} {o : Option β}
    (h : FromTop l R k o) {t : TopLevel} (hk : t.key ≠ k) : FromTop (l ++ [t]) R k o := by
  cases o with
  | some b => obtain ⟨a, h1, h2⟩ := h; exact ⟨a, List.mem_append_left _ h1, h2⟩
  | none =>
    simp only [FromTop, List.map_append, List.map_cons, List.map_nil, List.mem_append, List.mem_singleton, not_or]
    exact ⟨h, Ne.symm hk⟩

theorem FromTop.isNone {β : Type} {l : List TopLevel} {R : TopLevel → β → Prop} {k : Kind} {o : Option β}
    (h : FromTop l R k o) (hR : ∀ t b, R t b → t.key = k) (hk : k ∉ l.map TopLevel.key) : o = none := by
  cases o with
  | none => rfl
  | some b => obtain ⟨t, h1, h2⟩ := h; exact absurd (hR t b h2 ▸ List.mem_map_of_mem h1) hk

def StrT (mk : String → TopLevel) (t : TopLevel) (b : String) : Prop := ∃ s, t = mk s ∧ b = unescapeStr s
def TimeT (mk : String → TopLevel) (t : TopLevel) (d : Dur) : Prop := ∃ s, t = mk s ∧ timeStrToDuration s = .ok d
def ListenT (none_ : TopLevel) (mk : String → TopLevel) (t : TopLevel) (b : Option String) : Prop :=
  (t = none_ ∧ b = none) ∨ ∃ s, t = mk s ∧ b = some (unescapeStr s)

/-- The local variables after the options `l`. -/
structure ConfInv (E : Env) (l : List TopLevel) (s : ConfAcc) : Prop where
  once : (optKeys l).Nodup
  values : ∀ t ∈ l, t.ValueOk
  blocks : ∀ b ∈ acctBlocks l, FieldsValid E b.2
  nodup : (s.accounts.map Prod.fst).Nodup
  accounts : ∀ n a, (n, a) ∈ s.accounts ↔ ∃ fs, lastBlock l n = some fs ∧ Account.fromFields E n fs = .ok a
  authNotifyCmd : FromTop l (StrT .authNotifyCmd) .AUTH_NOTIFY_CMD s.authNotifyCmd
  authNotifyInterval : FromTop l (TimeT .authNotifyInterval) .AUTH_NOTIFY_INTERVAL s.authNotifyInterval
  errorNotifyCmd : FromTop l (StrT .errorNotifyCmd) .ERROR_NOTIFY_CMD s.errorNotifyCmd
  httpListen : FromTop l (ListenT .httpListenNone .httpListen) .HTTP_LISTEN s.httpListen
  httpsListen : FromTop l (ListenT .httpsListenNone .httpsListen) .HTTPS_LISTEN s.httpsListen
  transientErrorIfCmd : FromTop l (StrT .transientErrorIfCmd) .TRANSIENT_ERROR_IF_CMD s.transientErrorIfCmd
  refreshAtLeast : FromTop l (TimeT .refreshAtLeast) .REFRESH_AT_LEAST s.refreshAtLeast
  refreshBeforeExpiry : FromTop l (TimeT .refreshBeforeExpiry) .REFRESH_BEFORE_EXPIRY s.refreshBeforeExpiry
  refreshRetry : FromTop l (TimeT .refreshRetry) .REFRESH_RETRY s.refreshRetry
  tokenEventCmd : FromTop l (StrT .tokenEventCmd) .TOKEN_EVENT_CMD s.tokenEventCmd

theorem confInv_init (E : Env) : ConfInv E [] {} := by
  constructor <;> simp [FromTop, optKeys, acctBlocks, lastBlock]

theorem acctBlocks_append (l l' : List TopLevel) : acctBlocks (l ++ l') = acctBlocks l ++ acctBlocks l' := by
  induction l with
  | nil => rfl
  | cons t l ih => cases t <;> simp [acctBlocks, ih]

theorem lastBlock_snoc (l : List TopLevel) (n0 : String) (fs : List AccountField) (n : String) :
    lastBlock (l ++ [.account n0 fs]) n = if unescapeStr n0 = n then some fs else lastBlock l n := by
  simp only [lastBlock, acctBlocks_append, acctBlocks, List.reverse_append, List.reverse_cons, List.reverse_nil,
    List.nil_append, List.cons_append, List.lookup]
  by_cases h : unescapeStr n0 = n
  · simp [h]
  · have : (n == unescapeStr n0) = false := by simpa using Ne.symm h
    simp [this, h]

theorem checkNotAssigned_ok {T : Type} {name : String} {v : Option T} {u : Unit}
    (h : checkNotAssigned name v = .ok u) : v = none := by
  unfold checkNotAssigned at h
  split at h
  · rfl
  · cases h

theorem insertAcct_keys (l : List (String × Account)) (k : String) (v : Account) :
    (insertAcct l k v).map Prod.fst = if k ∈ l.map Prod.fst then l.map Prod.fst else l.map Prod.fst ++ [k] := by
  unfold insertAcct
  by_cases hk : k ∈ l.map Prod.fst
  · have : l.any (fun p => p.1 == k) = true := by
      obtain ⟨p, hp, rfl⟩ := List.mem_map.mp hk
      exact List.any_eq_true.mpr ⟨p, hp, by simp⟩
    rw [if_pos this, if_pos hk, List.map_map]
    apply List.map_congr_left
    intro p _
    by_cases hp : p.1 = k <;> simp [hp]
  · have : ¬ l.any (fun p => p.1 == k) = true := by
      intro h
      obtain ⟨p, hp, he⟩ := List.any_eq_true.mp h
      exact hk (List.mem_map.mpr ⟨p, hp, by simpa using he⟩)
    rw [if_neg this, if_neg hk]
    simp

theorem mem_insertAcct {l : List (String × Account)} {k : String} {v : Account} {n : String} {a : Account} :
    (n, a) ∈ insertAcct l k v ↔ (n = k ∧ a = v) ∨ (n ≠ k ∧ (n, a) ∈ l) := by
  unfold insertAcct
  split
  · rename_i h
    obtain ⟨p, hp, he⟩ := List.any_eq_true.mp h
    have he : p.1 = k := by simpa using he
    simp only [List.mem_map]
    constructor
    · rintro ⟨q, hq, hqe⟩
      split at hqe
      · cases hqe; exact .inl ⟨rfl, rfl⟩
      · rename_i hne
        subst hqe
        exact .inr ⟨by simpa using hne, hq⟩
    · rintro (⟨rfl, rfl⟩ | ⟨hne, hm⟩)
      · exact ⟨p, hp, by simp [he]⟩
      · exact ⟨(n, a), hm, by simp [hne]⟩
  · rename_i h
    have h' : ∀ b, (k, b) ∉ l := by
      intro b hb
      exact h (List.any_eq_true.mpr ⟨_, hb, by simp⟩)
    simp only [List.mem_append, List.mem_singleton, Prod.mk.injEq]
    constructor
    · rintro (hm | ⟨rfl, rfl⟩)
      · refine .inr ⟨?_, hm⟩
        rintro rfl; exact h' _ hm
      · exact .inl ⟨rfl, rfl⟩
    · rintro (h | ⟨_, hm⟩)
      · exact .inr h
      · exact .inl hm

/-- The options processed so far, and one more. -/
theorem confInv_step {E : Env} {l : List TopLevel} {s s' : ConfAcc} {t : TopLevel} (hi : ConfInv E l s)
    (h : topStep E s t = .ok s') : ConfInv E (l ++ [t]) s' := by
  have nod : t.key ∉ l.map TopLevel.key → t.key ≠ .ACCOUNT → (optKeys (l ++ [t])).Nodup := by
    intro hn ha
    simp only [optKeys, List.map_append, List.filter_append, List.map_cons, List.map_nil]
    rw [List.nodup_append]
    refine ⟨hi.once, List.filter_sublist.nodup (by simp), ?_⟩
    intro a hm b hb
    rintro rfl
    have h1 := (List.mem_filter.mp hm).1
    have h2 := (List.mem_filter.mp hb).1
    simp only [List.mem_singleton] at h2
    exact hn (h2 ▸ h1)
  have vals : t.ValueOk → ∀ g ∈ l ++ [t], g.ValueOk := by
    intro hv g hg
    rcases List.mem_append.mp hg with hg | hg
    · exact hi.values g hg
    · rw [List.mem_singleton.mp hg]; exact hv
  have keep : ∀ {β : Type} {R : TopLevel → β → Prop} {k : Kind} {o : Option β},
      FromTop l R k o → t.key ≠ k → FromTop (l ++ [t]) R k o := fun h hk => h.snoc hk
  have add : ∀ {β : Type} {R : TopLevel → β → Prop} {k : Kind} {b : β}, R t b → FromTop (l ++ [t]) R k (some b) :=
    fun hr => ⟨t, by simp, hr⟩
  have noBlocks : acctBlocks [t] = [] → ∀ b ∈ acctBlocks (l ++ [t]), FieldsValid E b.2 := by
    intro hb; rw [acctBlocks_append, hb, List.append_nil]; exact hi.blocks
  have noAccts : acctBlocks [t] = [] → ∀ n a, (n, a) ∈ s.accounts ↔ ∃ fs, lastBlock (l ++ [t]) n = some fs ∧
      Account.fromFields E n fs = .ok a := by
    intro hb; unfold lastBlock; rw [acctBlocks_append, hb, List.append_nil]; exact hi.accounts
  cases t <;> simp only [topStep] at h
  case authErrorCmd => cases h
  case account n0 fs =>
    obtain ⟨a, h1, h2⟩ := except_bind_ok h
    cases h2
    have hk : optKeys (l ++ [.account n0 fs]) = optKeys l := by simp [optKeys, TopLevel.key]
    refine ⟨by rw [hk]; exact hi.once, vals trivial, ?_, ?_, ?_,
      keep hi.6 nofun, keep hi.7 nofun, keep hi.8 nofun, keep hi.9 nofun, keep hi.10 nofun, keep hi.11 nofun,
      keep hi.12 nofun, keep hi.13 nofun, keep hi.14 nofun, keep hi.15 nofun⟩
    · intro b hb
      rw [acctBlocks_append] at hb
      rcases List.mem_append.mp hb with hb | hb
      · exact hi.blocks b hb
      · simp only [acctBlocks, List.mem_singleton] at hb
        rw [hb]; exact (fromFields_ok h1).valid
    · rw [insertAcct_keys]
      split
      · exact hi.nodup
      · rename_i hn
        rw [List.nodup_append]
        refine ⟨hi.nodup, by simp, ?_⟩
        intro a ha b hb
        simp only [List.mem_singleton] at hb
        rintro rfl
        exact hn (hb ▸ ha)
    · intro n a'
      rw [mem_insertAcct, lastBlock_snoc]
      constructor
      · rintro (⟨rfl, rfl⟩ | ⟨hne, hm⟩)
        · exact ⟨fs, by simp, h1⟩
        · rw [if_neg (Ne.symm hne)]; exact (hi.accounts n a').mp hm
      · rintro ⟨fs', h3, h4⟩
        split at h3
        · rename_i he
          cases h3
          rw [he, h4] at h1
          cases h1
          exact .inl ⟨he.symm, rfl⟩
        · rename_i hne
          exact .inr ⟨Ne.symm hne, (hi.accounts n a').mpr ⟨fs', h3, h4⟩⟩
  case authNotifyCmd lit =>
    obtain ⟨u, h1, h2⟩ := except_bind_ok h
    obtain ⟨h3, h4⟩ := checkNotAssignedStr_ok h1
    cases h2
    have h0 := hi.authNotifyCmd; rw [h3] at h0
    exact ⟨nod h0 nofun, vals trivial, noBlocks rfl, hi.nodup, noAccts rfl, add ⟨_, rfl, h4⟩, keep hi.authNotifyInterval nofun, keep hi.errorNotifyCmd nofun, keep hi.httpListen nofun, keep hi.httpsListen nofun, keep hi.transientErrorIfCmd nofun, keep hi.refreshAtLeast nofun, keep hi.refreshBeforeExpiry nofun, keep hi.refreshRetry nofun, keep hi.tokenEventCmd nofun⟩
  case authNotifyInterval lit =>
    obtain ⟨u, h1, h2⟩ := except_bind_ok h
    obtain ⟨h3, rfl⟩ := checkNotAssignedTime_ok h1
    obtain ⟨d, h4, h2⟩ := except_bind_ok h2
    cases h2
    have h0 := hi.authNotifyInterval; rw [h3] at h0
    exact ⟨nod h0 nofun, vals ⟨d, h4⟩, noBlocks rfl, hi.nodup, noAccts rfl, keep hi.authNotifyCmd nofun, add ⟨_, rfl, h4⟩, keep hi.errorNotifyCmd nofun, keep hi.httpListen nofun, keep hi.httpsListen nofun, keep hi.transientErrorIfCmd nofun, keep hi.refreshAtLeast nofun, keep hi.refreshBeforeExpiry nofun, keep hi.refreshRetry nofun, keep hi.tokenEventCmd nofun⟩
  case errorNotifyCmd lit =>
    obtain ⟨u, h1, h2⟩ := except_bind_ok h
    obtain ⟨h3, h4⟩ := checkNotAssignedStr_ok h1
    cases h2
    have h0 := hi.errorNotifyCmd; rw [h3] at h0
    exact ⟨nod h0 nofun, vals trivial, noBlocks rfl, hi.nodup, noAccts rfl, keep hi.authNotifyCmd nofun, keep hi.authNotifyInterval nofun, add ⟨_, rfl, h4⟩, keep hi.httpListen nofun, keep hi.httpsListen nofun, keep hi.transientErrorIfCmd nofun, keep hi.refreshAtLeast nofun, keep hi.refreshBeforeExpiry nofun, keep hi.refreshRetry nofun, keep hi.tokenEventCmd nofun⟩
  case httpListen lit =>
    obtain ⟨u, h1, h2⟩ := except_bind_ok h
    obtain ⟨h3, h4⟩ := checkNotAssignedStr_ok h1
    cases h2
    have h0 := hi.httpListen; rw [h3] at h0
    exact ⟨nod h0 nofun, vals trivial, noBlocks rfl, hi.nodup, noAccts rfl, keep hi.authNotifyCmd nofun, keep hi.authNotifyInterval nofun, keep hi.errorNotifyCmd nofun, add (.inr ⟨_, rfl, congrArg some h4⟩), keep hi.httpsListen nofun, keep hi.transientErrorIfCmd nofun, keep hi.refreshAtLeast nofun, keep hi.refreshBeforeExpiry nofun, keep hi.refreshRetry nofun, keep hi.tokenEventCmd nofun⟩
  case httpListenNone =>
    obtain ⟨u, h1, h2⟩ := except_bind_ok h
    have h3 := checkNotAssigned_ok h1
    cases h2
    have h0 := hi.httpListen; rw [h3] at h0
    exact ⟨nod h0 nofun, vals trivial, noBlocks rfl, hi.nodup, noAccts rfl, keep hi.authNotifyCmd nofun, keep hi.authNotifyInterval nofun, keep hi.errorNotifyCmd nofun, add (.inl ⟨rfl, rfl⟩), keep hi.httpsListen nofun, keep hi.transientErrorIfCmd nofun, keep hi.refreshAtLeast nofun, keep hi.refreshBeforeExpiry nofun, keep hi.refreshRetry nofun, keep hi.tokenEventCmd nofun⟩
  case httpsListen lit =>
    obtain ⟨u, h1, h2⟩ := except_bind_ok h
    obtain ⟨h3, h4⟩ := checkNotAssignedStr_ok h1
    cases h2
    have h0 := hi.httpsListen; rw [h3] at h0
    exact ⟨nod h0 nofun, vals trivial, noBlocks rfl, hi.nodup, noAccts rfl, keep hi.authNotifyCmd nofun, keep hi.authNotifyInterval nofun, keep hi.errorNotifyCmd nofun, keep hi.httpListen nofun, add (.inr ⟨_, rfl, congrArg some h4⟩), keep hi.transientErrorIfCmd nofun, keep hi.refreshAtLeast nofun, keep hi.refreshBeforeExpiry nofun, keep hi.refreshRetry nofun, keep hi.tokenEventCmd nofun⟩
  case httpsListenNone =>
    obtain ⟨u, h1, h2⟩ := except_bind_ok h
    have h3 := checkNotAssigned_ok h1
    cases h2
    have h0 := hi.httpsListen; rw [h3] at h0
    exact ⟨nod h0 nofun, vals trivial, noBlocks rfl, hi.nodup, noAccts rfl, keep hi.authNotifyCmd nofun, keep hi.authNotifyInterval nofun, keep hi.errorNotifyCmd nofun, keep hi.httpListen nofun, add (.inl ⟨rfl, rfl⟩), keep hi.transientErrorIfCmd nofun, keep hi.refreshAtLeast nofun, keep hi.refreshBeforeExpiry nofun, keep hi.refreshRetry nofun, keep hi.tokenEventCmd nofun⟩
  case transientErrorIfCmd lit =>
    obtain ⟨u, h1, h2⟩ := except_bind_ok h
    obtain ⟨h3, h4⟩ := checkNotAssignedStr_ok h1
    cases h2
    have h0 := hi.transientErrorIfCmd; rw [h3] at h0
    exact ⟨nod h0 nofun, vals trivial, noBlocks rfl, hi.nodup, noAccts rfl, keep hi.authNotifyCmd nofun, keep hi.authNotifyInterval nofun, keep hi.errorNotifyCmd nofun, keep hi.httpListen nofun, keep hi.httpsListen nofun, add ⟨_, rfl, h4⟩, keep hi.refreshAtLeast nofun, keep hi.refreshBeforeExpiry nofun, keep hi.refreshRetry nofun, keep hi.tokenEventCmd nofun⟩
  case refreshAtLeast lit =>
    obtain ⟨u, h1, h2⟩ := except_bind_ok h
    obtain ⟨h3, rfl⟩ := checkNotAssignedTime_ok h1
    obtain ⟨d, h4, h2⟩ := except_bind_ok h2
    cases h2
    have h0 := hi.refreshAtLeast; rw [h3] at h0
    exact ⟨nod h0 nofun, vals ⟨d, h4⟩, noBlocks rfl, hi.nodup, noAccts rfl, keep hi.authNotifyCmd nofun, keep hi.authNotifyInterval nofun, keep hi.errorNotifyCmd nofun, keep hi.httpListen nofun, keep hi.httpsListen nofun, keep hi.transientErrorIfCmd nofun, add ⟨_, rfl, h4⟩, keep hi.refreshBeforeExpiry nofun, keep hi.refreshRetry nofun, keep hi.tokenEventCmd nofun⟩
  case refreshBeforeExpiry lit =>
    obtain ⟨u, h1, h2⟩ := except_bind_ok h
    obtain ⟨h3, rfl⟩ := checkNotAssignedTime_ok h1
    obtain ⟨d, h4, h2⟩ := except_bind_ok h2
    cases h2
    have h0 := hi.refreshBeforeExpiry; rw [h3] at h0
    exact ⟨nod h0 nofun, vals ⟨d, h4⟩, noBlocks rfl, hi.nodup, noAccts rfl, keep hi.authNotifyCmd nofun, keep hi.authNotifyInterval nofun, keep hi.errorNotifyCmd nofun, keep hi.httpListen nofun, keep hi.httpsListen nofun, keep hi.transientErrorIfCmd nofun, keep hi.refreshAtLeast nofun, add ⟨_, rfl, h4⟩, keep hi.refreshRetry nofun, keep hi.tokenEventCmd nofun⟩
  case refreshRetry lit =>
    obtain ⟨u, h1, h2⟩ := except_bind_ok h
    obtain ⟨h3, rfl⟩ := checkNotAssignedTime_ok h1
    obtain ⟨d, h4, h2⟩ := except_bind_ok h2
    cases h2
    have h0 := hi.refreshRetry; rw [h3] at h0
    exact ⟨nod h0 nofun, vals ⟨d, h4⟩, noBlocks rfl, hi.nodup, noAccts rfl, keep hi.authNotifyCmd nofun, keep hi.authNotifyInterval nofun, keep hi.errorNotifyCmd nofun, keep hi.httpListen nofun, keep hi.httpsListen nofun, keep hi.transientErrorIfCmd nofun, keep hi.refreshAtLeast nofun, keep hi.refreshBeforeExpiry nofun, add ⟨_, rfl, h4⟩, keep hi.tokenEventCmd nofun⟩
  case tokenEventCmd lit =>
    obtain ⟨u, h1, h2⟩ := except_bind_ok h
    obtain ⟨h3, h4⟩ := checkNotAssignedStr_ok h1
    cases h2
    have h0 := hi.tokenEventCmd; rw [h3] at h0
    exact ⟨nod h0 nofun, vals trivial, noBlocks rfl, hi.nodup, noAccts rfl, keep hi.authNotifyCmd nofun, keep hi.authNotifyInterval nofun, keep hi.errorNotifyCmd nofun, keep hi.httpListen nofun, keep hi.httpsListen nofun, keep hi.transientErrorIfCmd nofun, keep hi.refreshAtLeast nofun, keep hi.refreshBeforeExpiry nofun, keep hi.refreshRetry nofun, add ⟨_, rfl, h4⟩⟩

theorem topStep_ok {E : Env} {l : List TopLevel} {s : ConfAcc} {t : TopLevel} (hi : ConfInv E l s)
    (hn : t.key ≠ .ACCOUNT → t.key ∉ l.map TopLevel.key) (hv : t.ValueOk)
    (hb : ∀ b ∈ acctBlocks [t], FieldsValid E b.2) : ∃ s', topStep E s t = .ok s' := by
  cases t <;> simp only [topStep]
  case authErrorCmd => exact absurd hv id
  case account n0 fs =>
    obtain ⟨a, ha⟩ := fromFields_accepts (unescapeStr n0) (hb (unescapeStr n0, fs) (by simp [acctBlocks]))
    simp only [ha, bind, Except.bind]
    exact ⟨_, rfl⟩
  case authNotifyCmd lit => rw [hi.authNotifyCmd.isNone (by rintro _ _ ⟨_, rfl, _⟩; rfl) (hn nofun)]; exact ⟨_, rfl⟩
  case authNotifyInterval lit =>
    obtain ⟨d, hd⟩ := hv
    rw [hi.authNotifyInterval.isNone (by rintro _ _ ⟨_, rfl, _⟩; rfl) (hn nofun)]
    simp only [checkNotAssignedTime, bind, Except.bind, hd]
    exact ⟨_, rfl⟩
  case errorNotifyCmd lit => rw [hi.errorNotifyCmd.isNone (by rintro _ _ ⟨_, rfl, _⟩; rfl) (hn nofun)]; exact ⟨_, rfl⟩
  case httpListen lit => rw [hi.httpListen.isNone (by rintro _ _ (⟨rfl, _⟩ | ⟨_, rfl, _⟩) <;> rfl) (hn nofun)]; exact ⟨_, rfl⟩
  case httpListenNone => rw [hi.httpListen.isNone (by rintro _ _ (⟨rfl, _⟩ | ⟨_, rfl, _⟩) <;> rfl) (hn nofun)]; exact ⟨_, rfl⟩
  case httpsListen lit => rw [hi.httpsListen.isNone (by rintro _ _ (⟨rfl, _⟩ | ⟨_, rfl, _⟩) <;> rfl) (hn nofun)]; exact ⟨_, rfl⟩
  case httpsListenNone => rw [hi.httpsListen.isNone (by rintro _ _ (⟨rfl, _⟩ | ⟨_, rfl, _⟩) <;> rfl) (hn nofun)]; exact ⟨_, rfl⟩
  case transientErrorIfCmd lit => rw [hi.transientErrorIfCmd.isNone (by rintro _ _ ⟨_, rfl, _⟩; rfl) (hn nofun)]; exact ⟨_, rfl⟩
  case refreshAtLeast lit =>
    obtain ⟨d, hd⟩ := hv
    rw [hi.refreshAtLeast.isNone (by rintro _ _ ⟨_, rfl, _⟩; rfl) (hn nofun)]
    simp only [checkNotAssignedTime, bind, Except.bind, hd]
    exact ⟨_, rfl⟩
  case refreshBeforeExpiry lit =>
    obtain ⟨d, hd⟩ := hv
    rw [hi.refreshBeforeExpiry.isNone (by rintro _ _ ⟨_, rfl, _⟩; rfl) (hn nofun)]
    simp only [checkNotAssignedTime, bind, Except.bind, hd]
    exact ⟨_, rfl⟩
  case refreshRetry lit =>
    obtain ⟨d, hd⟩ := hv
    rw [hi.refreshRetry.isNone (by rintro _ _ ⟨_, rfl, _⟩; rfl) (hn nofun)]
    simp only [checkNotAssignedTime, bind, Except.bind, hd]
    exact ⟨_, rfl⟩
  case tokenEventCmd lit => rw [hi.tokenEventCmd.isNone (by rintro _ _ ⟨_, rfl, _⟩; rfl) (hn nofun)]; exact ⟨_, rfl⟩

theorem tops_fold {E : Env} : ∀ {l p : List TopLevel} {s s' : ConfAcc}, ConfInv E p s →
    l.foldlM (topStep E) s = .ok s' → ConfInv E (p ++ l) s'
  | [], p, s, s', hi, h => by cases h; simpa using hi
  | f :: fs, p, s, s', hi, h => by
    rw [List.foldlM_cons] at h
    obtain ⟨s1, h1, h2⟩ := except_bind_ok h
    have := tops_fold (confInv_step hi h1) h2
    simpa using this

theorem tops_fold_ok {E : Env} : ∀ {l p : List TopLevel} {s : ConfAcc}, ConfInv E p s →
    (optKeys (p ++ l)).Nodup → (∀ t ∈ l, t.ValueOk) → (∀ b ∈ acctBlocks l, FieldsValid E b.2) →
    ∃ s', l.foldlM (topStep E) s = .ok s'
  | [], p, s, hi, _, _, _ => ⟨s, rfl⟩
  | t :: l, p, s, hi, hn, hv, hb => by
    have hf : t.key ≠ .ACCOUNT → t.key ∉ p.map TopLevel.key := by
      intro ha hm
      simp only [optKeys, List.map_append, List.filter_append, List.nodup_append] at hn
      exact hn.2.2 t.key (List.mem_filter.mpr ⟨hm, by simpa using ha⟩) t.key
        (List.mem_filter.mpr ⟨by simp, by simpa using ha⟩) rfl
    have hb' : acctBlocks (t :: l) = acctBlocks [t] ++ acctBlocks l := acctBlocks_append [t] l
    rw [hb'] at hb
    obtain ⟨s1, h1⟩ := topStep_ok hi hf (hv t (by simp)) fun b h => hb b (List.mem_append_left _ h)
    obtain ⟨s2, h2⟩ := tops_fold_ok (l := l) (confInv_step hi h1) (by simpa using hn)
      (fun g hg => hv g (List.mem_cons_of_mem _ hg)) fun b h => hb b (List.mem_append_right _ h)
    refine ⟨s2, ?_⟩
    rw [List.foldlM_cons, h1]
    exact h2

/-! The result -/

theorem forM_ok {α ε : Type} {f : α → Except ε Unit} : ∀ {l : List α}, l.forM f = .ok () ↔ ∀ a ∈ l, f a = .ok ()
  | [] => by simp [List.forM, pure, Except.pure]
  | a :: l => by
    have ih := forM_ok (f := f) (l := l)
    have e : (a :: l).forM f = (f a >>= fun _ => l.forM f) := rfl
    rw [e]
    simp only [List.mem_cons, forall_eq_or_imp]
    rw [← ih]
    constructor
    · intro h
      obtain ⟨u, h1, h2⟩ := except_bind_ok h
      exact ⟨h1, h2⟩
    · rintro ⟨h1, h2⟩
      rw [h1]; exact h2

theorem FromTop.listenNone {l : List TopLevel} {n : TopLevel} {mk : String → TopLevel} {k : Kind}
    {o : Option (Option String)} (h : FromTop l (ListenT n mk) k o) (ho : o = some none) : n ∈ l := by
  subst ho
  obtain ⟨t, hm, hr⟩ := h
  rcases hr with ⟨rfl, _⟩ | ⟨_, _, h⟩
  · exact hm
  · cases h

/-- Options other than accounts occur at most once. -/
theorem opt_unique {l : List TopLevel} (h : (optKeys l).Nodup) {f g : TopLevel} (hf : f ∈ l) (hg : g ∈ l)
    (hk : f.key = g.key) (ha : f.key ≠ .ACCOUNT) : f = g := by
  induction l with
  | nil => cases hf
  | cons a l ih =>
    have hne : a.key ≠ .ACCOUNT → a.key ∉ l.map TopLevel.key := by
      intro h1 hm
      have h2 : optKeys (a :: l) = a.key :: optKeys l := by simp [optKeys, h1]
      rw [h2, List.nodup_cons] at h
      exact h.1 (List.mem_filter.mpr ⟨hm, by simpa using h1⟩)
    have ih := ih (by
      refine List.Sublist.nodup ?_ h
      simp only [optKeys, List.map_cons]
      exact (List.sublist_cons_self _ _).filter _)
    rcases List.mem_cons.mp hf with hf | hf <;> rcases List.mem_cons.mp hg with hg | hg
    · rw [hf, hg]
    · exact absurd (by rw [← hf, hk]; exact List.mem_map_of_mem hg) (hne (hf ▸ ha))
    · exact absurd (by rw [← hg, ← hk]; exact List.mem_map_of_mem hf) (hne (hg ▸ hk ▸ ha))
    · exact ih hf hg

theorem FromTop.listenNone_iff {l : List TopLevel} {n : TopLevel} {mk : String → TopLevel} {k : Kind}
    {o : Option (Option String)} (h : FromTop l (ListenT n mk) k o) (hl : (optKeys l).Nodup) (hn : n.key = k)
    (hmk : ∀ s, (mk s).key = k) (hd : ∀ s, mk s ≠ n) (hk : k ≠ .ACCOUNT) : o = some none ↔ n ∈ l := by
  constructor
  · exact h.listenNone
  · intro hm
    cases o with
    | none => exact absurd (hn ▸ List.mem_map_of_mem hm) h
    | some b =>
      obtain ⟨t, ht, hr⟩ := h
      rcases hr with ⟨_, rfl⟩ | ⟨s, rfl, _⟩
      · rfl
      · exact absurd (opt_unique hl ht hm (by rw [hmk, hn]) (by rw [hmk]; exact hk)) (hd s)

theorem FromTop.strOpt {l : List TopLevel} {mk : String → TopLevel} {k : Kind} {o : Option String}
    (h : FromTop l (StrT mk) k o) : StrOpt l mk k o := by
  cases o with
  | none => exact .inr ⟨h, rfl⟩
  | some b => obtain ⟨_, hm, s, rfl, rfl⟩ := h; exact .inl ⟨s, hm, rfl⟩

theorem FromTop.timeOpt {l : List TopLevel} {mk : String → TopLevel} {k : Kind} {o : Option Dur}
    (h : FromTop l (TimeT mk) k o) : TimeOpt l mk k o := by
  cases o with
  | none => exact .inr ⟨h, rfl⟩
  | some b => obtain ⟨_, hm, s, rfl, hd⟩ := h; exact .inl ⟨s, b, hm, hd, rfl⟩

theorem FromTop.listenOpt {l : List TopLevel} {n : TopLevel} {mk : String → TopLevel} {k : Kind}
    {o : Option (Option String)} (h : FromTop l (ListenT n mk) k o) :
    ListenOpt l n mk k (o.getD (some listenDefault)) := by
  cases o with
  | none => exact .inr (.inr ⟨h, rfl⟩)
  | some b =>
    obtain ⟨t, hm, hr⟩ := h
    rcases hr with ⟨rfl, rfl⟩ | ⟨s, rfl, rfl⟩
    · exact .inr (.inl ⟨hm, rfl⟩)
    · exact .inl ⟨s, hm, rfl⟩

theorem lookup_some_iff_mem {α : Type} (n : String) (l : List (String × α)) :
    (∃ v, l.lookup n = some v) ↔ n ∈ l.map Prod.fst := by
  induction l with
  | nil => simp
  | cons p l ih =>
    simp only [List.lookup, List.map_cons, List.mem_cons]
    by_cases h : n = p.1
    · simp [h]
    · have : (n == p.1) = false := by simpa using h
      simp [this, h, ih]

theorem lastBlock_mem {l : List TopLevel} {n : String} {fs : List AccountField} (h : lastBlock l n = some fs) :
    (n, fs) ∈ acctBlocks l := by
  have : ∀ {l : List (String × List AccountField)}, l.lookup n = some fs → (n, fs) ∈ l := by
    intro l
    induction l with
    | nil => intro h; cases h
    | cons p l ih =>
      intro h
      simp only [List.lookup] at h
      split at h
      · rename_i he
        cases h
        rw [show n = p.1 by simpa using he]
        exact List.mem_cons_self
      · exact List.mem_cons_of_mem _ (ih h)
  exact List.mem_reverse.mp (this h)

theorem ConfInv.names {E : Env} {l : List TopLevel} {s : ConfAcc} (hi : ConfInv E l s) (n : String) :
    n ∈ s.accounts.map Prod.fst ↔ n ∈ (acctBlocks l).map Prod.fst := by
  have h1 : n ∈ (acctBlocks l).map Prod.fst ↔ ∃ fs, lastBlock l n = some fs := by
    unfold lastBlock
    rw [lookup_some_iff_mem]
    simp
  rw [h1]
  constructor
  · intro h
    obtain ⟨⟨n', a⟩, hm, rfl⟩ := List.mem_map.mp h
    obtain ⟨fs, h2, _⟩ := (hi.accounts _ a).mp hm
    exact ⟨fs, h2⟩
  · rintro ⟨fs, h2⟩
    obtain ⟨a, ha⟩ := fromFields_accepts n (hi.blocks _ (lastBlock_mem h2))
    exact List.mem_map.mpr ⟨(n, a), (hi.accounts n a).mpr ⟨fs, h2, ha⟩, rfl⟩

theorem redirect_unique {fs : List AccountField} (h : (fs.map AccountField.key).Nodup) {r r' : String}
    (h1 : RedirectIs fs r) (h2 : RedirectIs fs r') : r = r' := by
  rcases h1 with ⟨s, m, e⟩ | ⟨m, e⟩ <;> rcases h2 with ⟨s', m', e'⟩ | ⟨m', e'⟩
  · have := field_unique h m m' rfl
    cases this
    rw [e, e']
  · exact absurd (List.mem_map_of_mem (f := AccountField.key) m) m'
  · exact absurd (List.mem_map_of_mem (f := AccountField.key) m') m
  · rw [e, e']

theorem checkListen_ok {h hs : Option (Option String)} {p : String × Account} :
    checkListen h hs p = .ok () ↔ (BeginsWith p.2.redirectUri "https" → hs ≠ some none) ∧
      (¬ BeginsWith p.2.redirectUri "https" → BeginsWith p.2.redirectUri "http" → h ≠ some none) := by
  simp only [← startsWith_iff]
  unfold checkListen
  cases startsWith p.2.redirectUri "https" <;> cases startsWith p.2.redirectUri "http" <;> simp <;>
    split <;> simp_all

/-- What an accepted configuration is. -/
theorem fromAst_ok {E : Env} {l : List TopLevel} {c : Config} (h : Config.fromAst E l = .ok c) :
    ConfigValid E l ∧ ConfigSays l c ∧
      ∀ p ∈ c.accounts, ∃ fs, lastBlock l p.1 = some fs ∧ AcctFrom E p.1 fs p.2 := by
  unfold Config.fromAst at h
  obtain ⟨s, h1, h⟩ := except_bind_ok h
  have hi := tops_fold (confInv_init E) h1
  rw [List.nil_append] at hi
  dsimp only at h
  split at h
  · cases h
  rename_i hs
  split at h
  · cases h
  rename_i hne
  obtain ⟨_, h2, h⟩ := except_bind_ok h
  cases h
  rw [forM_ok] at h2
  have hnone := hi.httpListen.listenNone_iff hi.once rfl (fun _ => rfl) (fun _ => nofun) nofun
  have hsnone := hi.httpsListen.listenNone_iff hi.once rfl (fun _ => rfl) (fun _ => nofun) nofun
  have hacct : ∀ p ∈ s.accounts, ∃ fs, lastBlock l p.1 = some fs ∧ AcctFrom E p.1 fs p.2 := by
    intro p hp
    obtain ⟨fs, h3, h4⟩ := (hi.accounts p.1 p.2).mp hp
    exact ⟨fs, h3, fromFields_ok h4⟩
  have hred : ∀ n fs r, lastBlock l n = some fs → RedirectIs fs r → ∃ p ∈ s.accounts, p.2.redirectUri = r := by
    intro n fs r h3 h4
    have hv := hi.blocks _ (lastBlock_mem h3)
    obtain ⟨a, ha⟩ := fromFields_accepts n hv
    refine ⟨(n, a), (hi.accounts n a).mpr ⟨fs, h3, ha⟩, ?_⟩
    exact redirect_unique hv.once (fromFields_ok ha).says.redirectUri h4
  refine ⟨⟨hi.once, hi.values, hi.blocks, ?_, ?_, ?_, ?_⟩, ⟨hi.nodup, hi.names, ?_, hi.authNotifyCmd.strOpt,
    ⟨_, hi.authNotifyInterval.timeOpt, rfl⟩, hi.errorNotifyCmd.strOpt, hi.httpListen.listenOpt,
    hi.httpsListen.listenOpt, hi.transientErrorIfCmd.strOpt, hi.refreshAtLeast.timeOpt,
    hi.refreshBeforeExpiry.timeOpt, hi.refreshRetry.timeOpt, hi.tokenEventCmd.strOpt⟩, hacct⟩
  · intro h0
    cases ha : s.accounts with
    | nil => rw [ha] at hne; exact hne rfl
    | cons p r =>
      have := (hi.names p.1).mp (by rw [ha]; simp)
      rw [h0] at this; cases this
  · rintro ⟨a, b⟩
    exact hs ⟨hnone.mpr a, hsnone.mpr b⟩
  · intro n fs r h3 h4 h5 h6
    obtain ⟨p, hp, rfl⟩ := hred n fs r h3 h4
    exact (checkListen_ok.mp (h2 p hp)).1 h5 (hsnone.mpr h6)
  · intro n fs r h3 h4 h5 h6 h7
    obtain ⟨p, hp, rfl⟩ := hred n fs r h3 h4
    exact (checkListen_ok.mp (h2 p hp)).2 h5 h6 (hnone.mpr h7)
  · intro p hp
    obtain ⟨fs, h3, h4⟩ := hacct p hp
    exact ⟨fs, h3, h4.name, h4.says⟩

/-- Every valid file is accepted. -/
theorem fromAst_accepts {E : Env} {l : List TopLevel} (hv : ConfigValid E l) : ∃ c, Config.fromAst E l = .ok c := by
  obtain ⟨s, h1⟩ := tops_fold_ok (confInv_init E) (by simpa using hv.once) hv.values hv.blocks
  have hi := tops_fold (confInv_init E) h1
  rw [List.nil_append] at hi
  have hnone := hi.httpListen.listenNone_iff hi.once rfl (fun _ => rfl) (fun _ => nofun) nofun
  have hsnone := hi.httpsListen.listenNone_iff hi.once rfl (fun _ => rfl) (fun _ => nofun) nofun
  have h2 : s.accounts.forM (checkListen s.httpListen s.httpsListen) = .ok () := by
    rw [forM_ok]
    intro p hp
    obtain ⟨fs, h3, h4⟩ := (hi.accounts p.1 p.2).mp hp
    have hr : RedirectIs fs p.2.redirectUri := (fromFields_ok h4).says.redirectUri
    rw [checkListen_ok]
    exact ⟨fun h5 h6 => hv.https _ _ _ h3 hr h5 (hsnone.mp h6), fun h5 h6 h7 => hv.http _ _ _ h3 hr h5 h6 (hnone.mp h7)⟩
  have hne : s.accounts.isEmpty = false := by
    cases hb : acctBlocks l with
    | nil => exact absurd hb hv.account
    | cons b r =>
      have := (hi.names b.1).mpr (by rw [hb]; simp)
      cases ha : s.accounts with
      | nil => rw [ha] at this; cases this
      | cons _ _ => rfl
  unfold Config.fromAst
  rw [h1]
  simp only [bind, Except.bind]
  rw [if_neg (fun h => hv.server ⟨hnone.mp h.1, hsnone.mp h.2⟩)]
  simp only [hne, h2]
  exact ⟨_, rfl⟩

/-- What the rest of the daemon relies on. -/
theorem fromAst_Ok {E : Env} (hl : IsHttpUri E "http://localhost/") {l : List TopLevel} {c : Config}
    (h : Config.fromAst E l = .ok c) : c.Ok E := by
  obtain ⟨hv, hs, ha⟩ := fromAst_ok h
  refine ⟨hs.nodup, ?_, ?_, ?_, ?_⟩
  · intro p hp
    obtain ⟨_, _, h1, _⟩ := hs.accounts p hp
    exact h1
  · intro h0
    cases hb : acctBlocks l with
    | nil => exact hv.account hb
    | cons b r =>
      have := (hs.names b.1).mpr (by rw [hb]; simp)
      rw [h0] at this; cases this
  · cases h1 : c.httpListen with
    | some x => exact .inl rfl
    | none =>
      cases h2 : c.httpsListen with
      | some x => exact .inr rfl
      | none =>
        exfalso
        have a := hs.httpListen; rw [h1] at a
        have b := hs.httpsListen; rw [h2] at b
        refine hv.server ⟨?_, ?_⟩
        · rcases a with ⟨_, _, a⟩ | ⟨a, _⟩ | ⟨_, a⟩
          · cases a
          · exact a
          · cases a
        · rcases b with ⟨_, _, a⟩ | ⟨a, _⟩ | ⟨_, a⟩
          · cases a
          · exact a
          · cases a
  · intro p hp
    obtain ⟨fs, _, h1⟩ := ha p hp
    refine ⟨isHttpUri_iff.mpr h1.authOk, ?_, isHttpUri_iff.mpr h1.tokenOk⟩
    rcases h1.redirOk with h2 | h2
    · exact isHttpUri_iff.mpr h2
    · rw [h2]; exact isHttpUri_iff.mpr hl

end Pizauth
