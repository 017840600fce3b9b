import Verif.Model.State
import Verif.Spec.Security

/-!
# Lemmas about the state behind the lock: well-formedness, `put`, `Evolves`
-/

namespace Pizauth

/-! ## SameSec -/

theorem secureEq_iff (a b : Account) : a.secureEq b = true ↔ SameSec a b := by
  cases a; cases b
  simp [Account.secureEq, SameSec, and_assoc]

theorem SameSec.refl (a : Account) : SameSec a a := rfl
theorem SameSec.symm {a b : Account} (h : SameSec a b) : SameSec b a := Eq.symm h
theorem SameSec.trans {a b c : Account} (h : SameSec a b) (h' : SameSec b c) : SameSec a c := Eq.trans h h'

theorem SameSec.name {a b : Account} (h : SameSec a b) : a.name = b.name := by have h1 := congrArg Account.name h; simpa using h1
theorem SameSec.authUri {a b : Account} (h : SameSec a b) : a.authUri = b.authUri := by have h1 := congrArg Account.authUri h; simpa using h1
theorem SameSec.authUriFields {a b : Account} (h : SameSec a b) : a.authUriFields = b.authUriFields :=
  by have h1 := congrArg Account.authUriFields h; simpa using h1
theorem SameSec.clientId {a b : Account} (h : SameSec a b) : a.clientId = b.clientId := by have h1 := congrArg Account.clientId h; simpa using h1
theorem SameSec.clientSecret {a b : Account} (h : SameSec a b) : a.clientSecret = b.clientSecret :=
  by have h1 := congrArg Account.clientSecret h; simpa using h1
theorem SameSec.redirectUri {a b : Account} (h : SameSec a b) : a.redirectUri = b.redirectUri :=
  by have h1 := congrArg Account.redirectUri h; simpa using h1
theorem SameSec.scopes {a b : Account} (h : SameSec a b) : a.scopes = b.scopes := by have h1 := congrArg Account.scopes h; simpa using h1
theorem SameSec.tokenUri {a b : Account} (h : SameSec a b) : a.tokenUri = b.tokenUri := by have h1 := congrArg Account.tokenUri h; simpa using h1

theorem secureRestorable_iff (a : Account) (d : AccountDump) : a.secureRestorable d = true ↔ a.dump = d := by
  cases a; cases d
  simp [Account.secureRestorable, Account.dump, and_assoc]

theorem SameSec.dump {a b : Account} (h : SameSec a b) : a.dump = b.dump := by
  simp only [Account.dump, h.authUri, h.authUriFields, h.clientId, h.clientSecret, h.redirectUri, h.scopes,
    h.tokenUri]

theorem sameSec_of_dump {a b : Account} (h : a.dump = b.dump) (hn : a.name = b.name) : SameSec a b := by
  cases a; cases b
  simp_all [Account.dump, SameSec]

/-! ## Well-formedness (invariant I1 of src/server/state.rs:147-150 and more) -/

/-- The list of token states matches the configuration; ids are distinct and older than the counter. -/
structure LockedState.WF (ls : LockedState) : Prop where
  names : ls.details.map Entry.name = ls.config.accounts.map Prod.fst
  keys : (ls.config.accounts.map Prod.fst).Nodup
  actName : ∀ p ∈ ls.config.accounts, p.2.name = p.1
  ids : (ls.details.map Entry.id).Nodup
  lt : ∀ e ∈ ls.details, e.id < ls.accountCount

theorem nodup_map_inj {α β : Type} {f : α → β} {l : List α} (h : (l.map f).Nodup) {a b : α} (ha : a ∈ l)
    (hb : b ∈ l) (hab : f a = f b) : a = b := by
  induction l with
  | nil => simp at ha
  | cons x r ih =>
    simp only [List.map_cons, List.nodup_cons, List.mem_map, not_exists, not_and] at h
    rcases List.mem_cons.mp ha with rfl | ha' <;> rcases List.mem_cons.mp hb with rfl | hb'
    · rfl
    · exact absurd hab.symm (h.1 b hb')
    · exact absurd hab (h.1 a ha')
    · exact ih h.2 ha' hb'

theorem find?_of_nodup {α β : Type} [DecidableEq β] {f : α → β} {l : List α} (h : (l.map f).Nodup)
    {a : α} (ha : a ∈ l) : l.find? (fun x => f x == f a) = some a := by
  induction l with
  | nil => simp at ha
  | cons x r ih =>
    simp only [List.find?_cons]
    by_cases hx : f x = f a
    · simp [hx]
      exact nodup_map_inj h (by simp) ha hx
    · have hb : (f x == f a) = false := by simpa using hx
      rw [hb]
      simp only [List.map_cons, List.nodup_cons] at h
      rcases List.mem_cons.mp ha with rfl | ha'
      · exact absurd rfl hx
      · exact ih h.2 ha'

theorem lookup_of_mem {β : Type} {l : List (String × β)} (h : (l.map Prod.fst).Nodup) {k : String} {v : β}
    (hm : (k, v) ∈ l) : l.lookup k = some v := by
  induction l with
  | nil => simp at hm
  | cons x r ih =>
    obtain ⟨k', v'⟩ := x
    simp only [List.map_cons, List.nodup_cons, List.mem_map, not_exists, not_and] at h
    rw [List.lookup_cons]
    rcases List.mem_cons.mp hm with hm' | hm'
    · cases hm'; simp
    · have : k ≠ k' := fun hk => h.1 _ hm' (by simp [hk])
      have hb : (k == k') = false := by simpa using this
      rw [hb]
      exact ih h.2 hm'

theorem mem_of_lookup {β : Type} {l : List (String × β)} {k : String} {v : β}
    (h : l.lookup k = some v) : (k, v) ∈ l := by
  induction l with
  | nil => simp at h
  | cons x r ih =>
    obtain ⟨k', v'⟩ := x
    rw [List.lookup_cons] at h
    by_cases hk : k = k'
    · subst hk
      simp at h
      simp [h]
    · have hb : (k == k') = false := by simpa using hk
      rw [hb] at h
      exact List.mem_cons_of_mem _ (ih h)

theorem lookup_isSome_iff {β : Type} {l : List (String × β)} {k : String} :
    (l.lookup k).isSome ↔ k ∈ l.map Prod.fst := by
  induction l with
  | nil => simp
  | cons x r ih =>
    obtain ⟨k', v'⟩ := x
    rw [List.lookup_cons]
    by_cases hk : k = k'
    · subst hk; simp
    · have hb : (k == k') = false := by simpa using hk
      rw [hb]
      simp [ih, hk]

namespace LockedState

variable {ls ls' ls'' : LockedState}

/-- The entry with a given id: what the accessors see. -/
def Has (ls : LockedState) (e : Entry) (a : Account) : Prop :=
  e ∈ ls.details ∧ ls.config.get? e.name = some a

theorem WF.names_nodup (h : ls.WF) : (ls.details.map Entry.name).Nodup := h.names ▸ h.keys

theorem WF.account_exists (h : ls.WF) {e : Entry} (he : e ∈ ls.details) :
    ∃ a, ls.config.get? e.name = some a := by
  have : e.name ∈ ls.config.accounts.map Prod.fst := by
    rw [← h.names]; exact List.mem_map_of_mem he
  have := (lookup_isSome_iff (l := ls.config.accounts) (k := e.name)).mpr this
  exact Option.isSome_iff_exists.mp this

theorem WF.has (h : ls.WF) {e : Entry} (he : e ∈ ls.details) : ∃ a, ls.Has e a := by
  obtain ⟨a, ha⟩ := h.account_exists he
  exact ⟨a, he, ha⟩

theorem WF.get?_name (h : ls.WF) {n : String} {a : Account} (ha : ls.config.get? n = some a) : a.name = n :=
  h.actName _ (mem_of_lookup ha)

theorem WF.entry_of_get? (h : ls.WF) {n : String} {a : Account} (ha : ls.config.get? n = some a) :
    ∃ e ∈ ls.details, e.name = n := by
  have : n ∈ ls.config.accounts.map Prod.fst := List.mem_map.mpr ⟨_, mem_of_lookup ha, rfl⟩
  rw [← h.names] at this
  obtain ⟨e, he, hn⟩ := List.mem_map.mp this
  exact ⟨e, he, hn⟩

theorem WF.entry_id_inj (h : ls.WF) {e e' : Entry} (he : e ∈ ls.details) (he' : e' ∈ ls.details)
    (hid : e.id = e'.id) : e = e' := nodup_map_inj h.ids he he' hid

theorem WF.entry_name_inj (h : ls.WF) {e e' : Entry} (he : e ∈ ls.details) (he' : e' ∈ ls.details)
    (hn : e.name = e'.name) : e = e' := nodup_map_inj h.names_nodup he he' hn

theorem WF.find_id (h : ls.WF) {e : Entry} (he : e ∈ ls.details) :
    ls.details.find? (fun x => x.id == e.id) = some e := find?_of_nodup h.ids he

theorem WF.find_name (h : ls.WF) {e : Entry} (he : e ∈ ls.details) :
    ls.details.find? (fun x => x.name == e.name) = some e := find?_of_nodup h.names_nodup he

theorem WF.tokenstate (h : ls.WF) {e : Entry} (he : e ∈ ls.details) : ls.tokenstate e.id = some e.ts := by
  simp [LockedState.tokenstate, h.find_id he]

theorem WF.account (h : ls.WF) {e : Entry} {a : Account} (he : ls.Has e a) : ls.account e.id = some a := by
  simp [LockedState.account, h.find_id he.1, he.2]

theorem WF.validateActName (h : ls.WF) {e : Entry} (he : e ∈ ls.details) :
    ls.validateActName e.name = some e.id := by
  simp [LockedState.validateActName, h.find_name he]

theorem validateActName_some {n : String} {id : AccountId} (hv : ls.validateActName n = some id) :
    ∃ e ∈ ls.details, e.name = n ∧ e.id = id := by
  simp only [LockedState.validateActName, Option.map_eq_some_iff] at hv
  obtain ⟨e, he, hid⟩ := hv
  refine ⟨e, List.mem_of_find?_eq_some he, ?_, hid⟩
  simpa using List.find?_some he

theorem validateActName_none {n : String} (hv : ls.validateActName n = none) :
    ∀ e ∈ ls.details, e.name ≠ n := by
  simpa [LockedState.validateActName] using hv

theorem isActIdValid_iff {id : AccountId} : ls.isActIdValid id = true ↔ ∃ e ∈ ls.details, e.id = id := by
  simp [LockedState.isActIdValid]

theorem isActIdValid_false {id : AccountId} : ls.isActIdValid id = false ↔ ∀ e ∈ ls.details, e.id ≠ id := by
  simp [LockedState.isActIdValid]

theorem actIdMatching_some {s : String} {id : AccountId} (hm : ls.actIdMatchingTokenState s = some id) :
    ∃ e ∈ ls.details, e.id = id ∧ ∃ p, e.ts = .pending p ∧ p.state = s := by
  simp only [LockedState.actIdMatchingTokenState, Option.map_eq_some_iff] at hm
  obtain ⟨e, he, hid⟩ := hm
  refine ⟨e, List.mem_of_find?_eq_some he, hid, ?_⟩
  have := List.find?_some he
  unfold TokenStateMatches at this
  split at this
  · rename_i p hp
    exact ⟨p, hp, by simpa using this⟩
  · simp at this

theorem actIdMatching_none {s : String} (hm : ls.actIdMatchingTokenState s = none) :
    ∀ e ∈ ls.details, ∀ p, e.ts = .pending p → p.state ≠ s := by
  simp only [LockedState.actIdMatchingTokenState, Option.map_eq_none_iff, List.find?_eq_none] at hm
  intro e he p hp hs
  exact hm e he (by simp [TokenStateMatches, hp, hs])

/-! ## Replacing one token state -/

/-- Give the entry with id `id` the token state `ts` and a fresh id. -/
def put (ls : LockedState) (id : AccountId) (ts : TokenState) : LockedState :=
  { ls with
    accountCount := ls.accountCount + 1
    details := ls.details.map fun e =>
      if e.id = id then { e with id := ls.accountCount, ts := ts } else e }

theorem map_ite_id (l : List Entry) (f : Entry → Entry) (q : Entry → Prop) [DecidablePred q]
    (h : ∀ e ∈ l, ¬ q e) : (l.map fun e => if q e then f e else e) = l := by
  induction l with
  | nil => rfl
  | cons x r ih =>
    simp only [List.map_cons, List.cons.injEq]
    exact ⟨by simp [h x (by simp)], ih fun e he => h e (List.mem_cons_of_mem _ he)⟩

/-- `position` followed by an in-place update is a map, when the key is unique. -/
theorem findIdx?_modify_eq_map {β : Type} [DecidableEq β] (k : Entry → β) (l : List Entry)
    (h : (l.map k).Nodup) (b : β) (f : Entry → Entry) {i : Nat}
    (hi : l.findIdx? (fun x => k x == b) = some i) :
    l.modify i f = l.map fun e => if k e = b then f e else e := by
  induction l generalizing i with
  | nil => simp at hi
  | cons x r ih =>
    simp only [List.map_cons, List.nodup_cons, List.mem_map, not_exists, not_and] at h
    rw [List.findIdx?_cons] at hi
    by_cases hx : k x = b
    · simp [hx] at hi
      subst hi
      simp only [List.modify_zero_cons, List.map_cons, hx, if_true, List.cons.injEq, true_and]
      exact (map_ite_id r f _ fun e he hk => h.1 e he (hk.trans hx.symm)).symm
    · have hb : (k x == b) = false := by simpa using hx
      simp [hb] at hi
      obtain ⟨j, hj, rfl⟩ := hi
      simp [hx, ih h.2 hj]

theorem WF.tokenstateReplace (h : ls.WF) {e : Entry} (he : e ∈ ls.details) (ts : TokenState) :
    ls.tokenstateReplace e.id ts = some (ls.accountCount, ls.put e.id ts) := by
  have hsome : (ls.details.findIdx? (fun x => x.id == e.id)).isSome := by
    rw [List.findIdx?_isSome]
    simp only [List.any_eq_true]
    exact ⟨e, he, by simp⟩
  obtain ⟨i, hi⟩ := Option.isSome_iff_exists.mp hsome
  simp only [LockedState.tokenstateReplace, hi, put]
  rw [findIdx?_modify_eq_map Entry.id ls.details h.ids e.id _ hi]

theorem tokenstateReplace_none {id : AccountId} {ts : TokenState}
    (h : ls.tokenstateReplace id ts = none) : ∀ e ∈ ls.details, e.id ≠ id := by
  unfold LockedState.tokenstateReplace at h
  split at h
  · simp at h
  · rename_i hi
    simpa using hi

theorem mem_put {id : AccountId} {ts : TokenState} {e' : Entry} :
    e' ∈ (ls.put id ts).details ↔
      (e' ∈ ls.details ∧ e'.id ≠ id) ∨
      (∃ e ∈ ls.details, e.id = id ∧ e' = { name := e.name, id := ls.accountCount, ts := ts }) := by
  simp only [put, List.mem_map]
  constructor
  · rintro ⟨e, he, rfl⟩
    by_cases hid : e.id = id
    · right; exact ⟨e, he, hid, by simp [hid]⟩
    · left; simp [hid, he]
  · rintro (⟨he, hid⟩ | ⟨e, he, hid, rfl⟩)
    · exact ⟨e', he, by simp [hid]⟩
    · exact ⟨e, he, by simp [hid]⟩

theorem put_config (id : AccountId) (ts : TokenState) : (ls.put id ts).config = ls.config := rfl
theorem put_count (id : AccountId) (ts : TokenState) : (ls.put id ts).accountCount = ls.accountCount + 1 := rfl

theorem put_names (id : AccountId) (ts : TokenState) :
    (ls.put id ts).details.map Entry.name = ls.details.map Entry.name := by
  simp only [put, List.map_map]
  apply List.map_congr_left
  intro e _
  simp only [Function.comp]
  split <;> rfl

theorem nodup_ids_put (l : List Entry) (h : (l.map Entry.id).Nodup) (n id : Nat) (hlt : ∀ e ∈ l, e.id < n)
    (ts : TokenState) :
    ((l.map fun e => if e.id = id then { e with id := n, ts := ts } else e).map Entry.id).Nodup := by
  induction l with
  | nil => simp
  | cons x r ih =>
    simp only [List.map_cons, List.nodup_cons, List.mem_map, not_exists, not_and] at h ⊢
    refine ⟨?_, ih h.2 fun e he => hlt e (List.mem_cons_of_mem _ he)⟩
    rintro e' ⟨e, he, rfl⟩
    have h1 := h.1 e he
    have h2 := hlt x (by simp)
    have h3 := hlt e (List.mem_cons_of_mem _ he)
    by_cases hx : x.id = id <;> by_cases hy : e.id = id
    · exact absurd (hy.trans hx.symm) h1
    · simp [hx, hy]; omega
    · simp [hx, hy]; omega
    · simpa [hx, hy] using h1

theorem WF.put (h : ls.WF) (id : AccountId) (ts : TokenState) : (ls.put id ts).WF where
  names := by rw [put_names]; exact h.names
  keys := h.keys
  actName := h.actName
  ids := nodup_ids_put _ h.ids _ _ h.lt _
  lt := by
    intro e he
    rw [mem_put] at he
    rw [put_count]
    rcases he with ⟨he, _⟩ | ⟨e0, _, _, rfl⟩
    · exact Nat.lt_succ_of_lt (h.lt e he)
    · simp

/-- The entry that `put` created. -/
theorem mem_put_new {id : AccountId} {ts : TokenState} {e : Entry} (he : e ∈ ls.details) (hid : e.id = id) :
    { name := e.name, id := ls.accountCount, ts := ts : Entry } ∈ (ls.put id ts).details :=
  mem_put.mpr (Or.inr ⟨e, he, hid, rfl⟩)

/-! ## Evolution: ids never come back -/

/-- Every entry of the later state with an id from before is unchanged and its account's security-relevant
configuration is the same. -/
structure Evolves (ls ls' : LockedState) : Prop where
  count : ls.accountCount ≤ ls'.accountCount
  old : ∀ {e a'}, ls'.Has e a' → e.id < ls.accountCount → ∃ a, ls.Has e a ∧ SameSec a a'

theorem Evolves.refl (ls : LockedState) : Evolves ls ls :=
  ⟨Nat.le_refl _, fun h _ => ⟨_, h, SameSec.refl _⟩⟩

theorem Evolves.trans (h : Evolves ls ls') (h' : Evolves ls' ls'') : Evolves ls ls'' :=
  ⟨Nat.le_trans h.count h'.count, fun hh hl => by
    obtain ⟨a1, h1, s1⟩ := h'.old hh (Nat.lt_of_lt_of_le hl h.count)
    obtain ⟨a2, h2, s2⟩ := h.old h1 hl
    exact ⟨a2, h2, s2.trans s1⟩⟩

theorem evolves_put (id : AccountId) (ts : TokenState) : Evolves ls (ls.put id ts) where
  count := by rw [put_count]; omega
  old := by
    rintro e a' ⟨he, ha⟩ hl
    rw [mem_put] at he
    rcases he with ⟨he, _⟩ | ⟨e0, _, _, rfl⟩
    · exact ⟨a', ⟨he, ha⟩, SameSec.refl _⟩
    · simp at hl

/-! ## `update_conf` -/

theorem updateLoop_spec (h : ls.WF) : ∀ (l : List (String × Account)) (c0 : Nat),
    (l.map Prod.fst).Nodup → ls.accountCount ≤ c0 →
    ∃ es c1, ls.updateLoop l c0 = some (es, c1) ∧ c0 ≤ c1 ∧ es.map Entry.name = l.map Prod.fst ∧
      (es.map Entry.id).Nodup ∧
      ∀ e ∈ es, ∃ a, (e.name, a) ∈ l ∧
        ((∃ o, ls.Has e o ∧ SameSec a o) ∨
         (c0 ≤ e.id ∧ e.id < c1 ∧ e.ts = .empty ∧
           ∀ o, ls.config.get? e.name = some o → ¬ SameSec a o))
  | [], c0, _, _ => ⟨[], c0, rfl, Nat.le_refl _, rfl, by simp, by simp⟩
  | (n, newAct) :: r, c0, hn, hc => by
    simp only [List.map_cons, List.nodup_cons] at hn
    have fresh : ∀ (hns : ∀ o, ls.config.get? n = some o → ¬ SameSec newAct o),
        ∃ es c1, ((ls.updateLoop r (c0 + 1)).map fun (es, c') =>
            ({ name := n, id := c0, ts := .empty : Entry } :: es, c')) = some (es, c1) ∧ c0 ≤ c1 ∧
          es.map Entry.name = n :: r.map Prod.fst ∧ (es.map Entry.id).Nodup ∧
          ∀ e ∈ es, ∃ a, (e.name, a) ∈ (n, newAct) :: r ∧
            ((∃ o, ls.Has e o ∧ SameSec a o) ∨
             (c0 ≤ e.id ∧ e.id < c1 ∧ e.ts = .empty ∧
               ∀ o, ls.config.get? e.name = some o → ¬ SameSec a o)) := by
      intro hns
      obtain ⟨es, c1, h1, h2, h3, h4, h5⟩ := updateLoop_spec h r (c0 + 1) hn.2 (by omega)
      refine ⟨_, c1, by rw [h1]; rfl, by omega, by simp [h3], ?_, ?_⟩
      · simp only [List.map_cons, List.nodup_cons, List.mem_map, not_exists, not_and]
        refine ⟨?_, h4⟩
        intro e he
        obtain ⟨a, _, ⟨o, ho, _⟩ | ⟨hl, _⟩⟩ := h5 e he
        · have := h.lt e ho.1; omega
        · omega
      · intro e he
        rcases List.mem_cons.mp he with rfl | he
        · exact ⟨newAct, by simp, Or.inr ⟨by simp, by simp; omega, rfl, hns⟩⟩
        · obtain ⟨a, ha, hh⟩ := h5 e he
          refine ⟨a, List.mem_cons_of_mem _ ha, hh.imp_right ?_⟩
          rintro ⟨h6, h7⟩
          exact ⟨by omega, h7⟩
    unfold LockedState.updateLoop
    split
    · rename_i oldAct hold
      split
      · rename_i hse
        rw [secureEq_iff] at hse
        obtain ⟨e, he, hen⟩ := h.entry_of_get? hold
        subst hen
        rw [h.find_name he]
        obtain ⟨es, c1, h1, h2, h3, h4, h5⟩ := updateLoop_spec h r c0 hn.2 hc
        refine ⟨e :: es, c1, by simp [h1], h2, by simp [h3], ?_, ?_⟩
        · simp only [List.map_cons, List.nodup_cons, List.mem_map, not_exists, not_and]
          refine ⟨?_, h4⟩
          intro e' he' hid
          obtain ⟨a, ha, ⟨o, ho, _⟩ | ⟨hl, _⟩⟩ := h5 e' he'
          · have := h.entry_id_inj ho.1 he hid
            subst this
            exact hn.1 (List.mem_map.mpr ⟨_, ha, rfl⟩)
          · have := h.lt e he; omega
        · intro e' he'
          rcases List.mem_cons.mp he' with rfl | he'
          · exact ⟨newAct, by simp, Or.inl ⟨oldAct, ⟨he, hold⟩, hse⟩⟩
          · obtain ⟨a, ha, hh⟩ := h5 e' he'
            exact ⟨a, List.mem_cons_of_mem _ ha, hh⟩
      · rename_i hse
        rw [secureEq_iff] at hse
        exact fresh fun o ho => by rw [hold] at ho; cases ho; exact hse
    · rename_i hnone
      exact fresh fun o ho => by rw [hnone] at ho; cases ho

/-- Everything about `update_conf`. -/
theorem WF.updateConf (h : ls.WF) {c : Config} (hk : (c.accounts.map Prod.fst).Nodup)
    (hnm : ∀ p ∈ c.accounts, p.2.name = p.1) :
    ∃ ls', ls.updateConf c = some ls' ∧ ls'.WF ∧ Evolves ls ls' ∧ ls'.config = c ∧
      ∀ e ∈ ls'.details, ∃ a, c.get? e.name = some a ∧
        ((∃ o, ls.Has e o ∧ SameSec a o) ∨
         (ls.accountCount ≤ e.id ∧ e.ts = .empty ∧
           ∀ o, ls.config.get? e.name = some o → ¬ SameSec a o)) := by
  obtain ⟨es, c1, h1, h2, h3, h4, h5⟩ := updateLoop_spec h c.accounts ls.accountCount hk (Nat.le_refl _)
  have h5' : ∀ e ∈ es, ∃ a, c.get? e.name = some a ∧
        ((∃ o, ls.Has e o ∧ SameSec a o) ∨
         (ls.accountCount ≤ e.id ∧ e.ts = .empty ∧
           ∀ o, ls.config.get? e.name = some o → ¬ SameSec a o)) := by
    intro e he
    obtain ⟨a, ha, hh⟩ := h5 e he
    exact ⟨a, lookup_of_mem hk ha, hh.imp_right fun ⟨x, _, y⟩ => ⟨x, y⟩⟩
  refine ⟨_, by simp only [LockedState.updateConf, h1]; rfl, ?_, ?_, rfl, h5'⟩
  · refine ⟨h3, hk, hnm, h4, ?_⟩
    intro e he
    obtain ⟨a, _, ⟨o, ho, _⟩ | ⟨_, hl, _⟩⟩ := h5 e he
    · exact Nat.lt_of_lt_of_le (h.lt e ho.1) h2
    · exact hl
  · refine ⟨h2, ?_⟩
    rintro e a' ⟨he, ha'⟩ hl
    obtain ⟨a, ha, ⟨o, ho, hs⟩ | ⟨hge, _⟩⟩ := h5' e he
    · have : a = a' := by
        have : c.get? e.name = some a' := ha'
        rw [ha] at this; exact Option.some.inj this
      subst this
      exact ⟨o, ho, hs.symm⟩
    · omega

/-! ## `new` -/

theorem newDetails_names (l : List (String × Account)) (c : Nat) :
    (newDetails l c).map Entry.name = l.map Prod.fst := by
  induction l generalizing c with
  | nil => rfl
  | cons x r ih => simp [newDetails, ih]

theorem newDetails_mem (l : List (String × Account)) (c : Nat) :
    ∀ e ∈ newDetails l c, c ≤ e.id ∧ e.id < c + l.length ∧ e.ts = .empty := by
  induction l generalizing c with
  | nil => simp [newDetails]
  | cons x r ih =>
    intro e he
    simp only [newDetails, List.mem_cons] at he
    rcases he with rfl | he
    · simp
    · have := ih (c + 1) e he
      simp only [List.length_cons]
      exact ⟨by omega, by omega, this.2.2⟩

theorem newDetails_nodup (l : List (String × Account)) (c : Nat) :
    ((newDetails l c).map Entry.id).Nodup := by
  induction l generalizing c with
  | nil => simp [newDetails]
  | cons x r ih =>
    simp only [newDetails, List.map_cons, List.nodup_cons, List.mem_map, not_exists, not_and]
    refine ⟨?_, ih _⟩
    intro e he
    have := newDetails_mem r (c + 1) e he
    omega

theorem wf_new {c : Config} (hk : (c.accounts.map Prod.fst).Nodup) (hnm : ∀ p ∈ c.accounts, p.2.name = p.1) :
    (LockedState.new c).WF where
  names := newDetails_names _ _
  keys := hk
  actName := hnm
  ids := newDetails_nodup _ _
  lt := by
    intro e he
    have := newDetails_mem c.accounts 0 e he
    simp only [LockedState.new]
    omega

/-! ## `dump` -/

theorem WF.dumpLoop (h : ls.WF) (now : Instant) (wall : SysTime) :
    ∀ es : List Entry, (∀ e ∈ es, e ∈ ls.details) → ∃ ds, ls.dumpLoop now wall es = some ds ∧
      ds.map Prod.fst = es.map Entry.name ∧
      ∀ e ∈ es, ∃ a, ls.Has e a ∧ (e.name, (a.dump, e.ts.dump now wall)) ∈ ds
  | [], _ => ⟨[], rfl, rfl, by simp⟩
  | e :: r, hall => by
    obtain ⟨ds, h1, h2, h3⟩ := WF.dumpLoop h now wall r fun e he => hall e (List.mem_cons_of_mem _ he)
    obtain ⟨a, ha⟩ := h.has (hall e (by simp))
    refine ⟨_, by simp only [LockedState.dumpLoop, ha.2, h1]; rfl, by simp [h2], ?_⟩
    intro e' he'
    rcases List.mem_cons.mp he' with rfl | he'
    · exact ⟨a, ha, by simp⟩
    · obtain ⟨a', ha', hm⟩ := h3 e' he'
      exact ⟨a', ha', List.mem_cons_of_mem _ hm⟩

/-! ## `restore` -/

/-- `e` is an account without a token for which the dump `d` has a token recorded under the same configuration. -/
def Restorable (ls : LockedState) (now : Instant) (wall : SysTime) (d : Dump) (e : Entry) (ts : TokenState) : Prop :=
  ∃ a tok o x rt, ls.Has e a ∧ (∀ t, e.ts ≠ .active t) ∧
    d.accounts.reverse.lookup e.name = some (a.dump, .active tok o x rt) ∧
    ts = TokenState.restore now wall (.active tok o x rt)

theorem WF.restoreOne (h : ls.WF) (now : Instant) (wall : SysTime) (d : Dump) {e : Entry} (he : e ∈ ls.details) :
    ∃ ots, ls.restoreOne now wall d e = some ots ∧ ∀ ts, ots = some ts ↔ ls.Restorable now wall d e ts := by
  obtain ⟨a, ha⟩ := h.has he
  unfold LockedState.restoreOne
  rw [ha.2]
  simp only
  split
  · rename_i hnone
    refine ⟨none, rfl, fun ts => ⟨by simp, ?_⟩⟩
    rintro ⟨_, _, _, _, _, _, _, hl, _⟩
    rw [hnone] at hl; cases hl
  · rename_i ad td hl
    split
    · rename_i hr
      rw [secureRestorable_iff] at hr
      subst hr
      have key : ∀ ots : Option TokenState,
          (ots = match e.ts, TokenState.restore now wall td with
            | .empty, .active a => some (.active a)
            | .pending _, .active a => some (.active a)
            | _, _ => none) → ∀ ts, ots = some ts ↔ ls.Restorable now wall d e ts := by
        rintro ots rfl ts
        constructor
        · intro hts
          cases td with
          | empty => cases e.ts <;> simp [TokenState.restore] at hts
          | active tok o x rt =>
            refine ⟨a, tok, o, x, rt, ha, ?_, hl, ?_⟩
            · intro t ht; rw [ht] at hts; simp [TokenState.restore] at hts
            · cases hts' : e.ts <;> rw [hts'] at hts <;> simp [TokenState.restore] at hts ⊢ <;> exact hts.symm
        · rintro ⟨a', tok, o, x, rt, _, hna, hl', rfl⟩
          rw [hl] at hl'
          simp only [Option.some.injEq, Prod.mk.injEq] at hl'
          rw [hl'.2]
          cases hts' : e.ts with
          | empty => simp [TokenState.restore]
          | pending p => simp [TokenState.restore]
          | active t => exact absurd hts' (hna t)
      refine ⟨_, ?_, key _ rfl⟩
      cases e.ts <;> cases td <;> rfl
    · rename_i hr
      refine ⟨none, rfl, fun ts => ⟨by simp, ?_⟩⟩
      rintro ⟨a', _, _, _, _, ha', _, hl', _⟩
      rw [hl] at hl'
      have : a = a' := by have := ha.2; rw [ha'.2] at this; exact (Option.some.inj this).symm
      subst this
      simp only [Option.some.injEq, Prod.mk.injEq] at hl'
      exact absurd ((secureRestorable_iff _ _).mpr hl'.1.symm) hr

theorem WF.restoreCollect (h : ls.WF) (now : Instant) (wall : SysTime) (d : Dump) :
    ∀ es : List Entry, (∀ e ∈ es, e ∈ ls.details) → (es.map Entry.name).Nodup →
      ∃ l, ls.restoreCollect now wall d es = some l ∧ (l.map Prod.fst).Nodup ∧
        (∀ p ∈ l, p.1 ∈ es.map Entry.name) ∧
        ∀ e ∈ es, ∀ ts, (e.name, ts) ∈ l ↔ ls.Restorable now wall d e ts
  | [], _, _ => ⟨[], rfl, by simp, by simp, by simp⟩
  | e :: r, hall, hn => by
    simp only [List.map_cons, List.nodup_cons] at hn
    obtain ⟨l, h1, h2, h3, h4⟩ := WF.restoreCollect h now wall d r
      (fun e he => hall e (List.mem_cons_of_mem _ he)) hn.2
    obtain ⟨ots, ho, hots⟩ := h.restoreOne now wall d (hall e (by simp))
    unfold LockedState.restoreCollect
    rw [ho, h1]
    simp only [Option.map_some]
    have hnotin : ∀ ts, (e.name, ts) ∉ l := fun ts hm => hn.1 (h3 _ hm)
    cases ots with
    | none =>
      refine ⟨l, rfl, h2, fun p hp => List.mem_cons_of_mem _ (h3 p hp), ?_⟩
      intro e' he' ts
      rcases List.mem_cons.mp he' with rfl | he'
      · refine ⟨fun hm => absurd hm (hnotin ts), fun hr => ?_⟩
        have := (hots ts).mpr hr; cases this
      · exact h4 e' he' ts
    | some ts0 =>
      refine ⟨(e.name, ts0) :: l, rfl, ?_, ?_, ?_⟩
      · simp only [List.map_cons, List.nodup_cons]
        exact ⟨fun hm => by
          obtain ⟨p, hp, hpe⟩ := List.mem_map.mp hm
          exact hn.1 (hpe ▸ h3 p hp), h2⟩
      · intro p hp
        rcases List.mem_cons.mp hp with rfl | hp
        · simp
        · exact List.mem_cons_of_mem _ (h3 p hp)
      · intro e' he' ts
        rcases List.mem_cons.mp he' with rfl | he'
        · rw [← hots ts]
          simp only [List.mem_cons, Prod.mk.injEq, true_and, Option.some.injEq]
          exact ⟨fun hm => hm.elim Eq.symm fun hm => absurd hm (hnotin ts), fun hm => Or.inl hm.symm⟩
        · rw [← h4 e' he' ts]
          simp only [List.mem_cons, Prod.mk.injEq]
          refine ⟨fun hm => hm.elim (fun ⟨hne, _⟩ => ?_) id, Or.inr⟩
          exact absurd (hne ▸ List.mem_map_of_mem he') hn.1

theorem WF.restoreApply_cons (h : ls.WF) {e : Entry} (he : e ∈ ls.details) (ts : TokenState)
    (r : List (String × TokenState)) :
    ls.restoreApply ((e.name, ts) :: r) = (ls.put e.id ts).restoreApply r := by
  have hsome : (ls.details.findIdx? (fun x => x.name == e.name)).isSome := by
    rw [List.findIdx?_isSome]
    simp only [List.any_eq_true]
    exact ⟨e, he, by simp⟩
  obtain ⟨i, hi⟩ := Option.isSome_iff_exists.mp hsome
  simp only [LockedState.restoreApply, hi, LockedState.put]
  rw [findIdx?_modify_eq_map Entry.name ls.details h.names_nodup e.name _ hi]
  congr 2
  apply List.map_congr_left
  intro e' he'
  by_cases hc : e'.name = e.name
  · have := h.entry_name_inj he' he hc
    simp [this]
  · have : e'.id ≠ e.id := fun hid => hc (by rw [h.entry_id_inj he' he hid])
    simp [hc, this]

theorem WF.restoreApply (h : ls.WF) :
    ∀ l : List (String × TokenState), (l.map Prod.fst).Nodup → (∀ p ∈ l, p.1 ∈ ls.details.map Entry.name) →
      ∃ ls', ls.restoreApply l = some ls' ∧ ls'.WF ∧ Evolves ls ls' ∧ ls'.config = ls.config ∧
        (∀ e, e ∈ ls'.details → (e ∈ ls.details ∧ e.name ∉ l.map Prod.fst) ∨
          (ls.accountCount ≤ e.id ∧ (e.name, e.ts) ∈ l)) ∧
        (∀ e ∈ ls.details, e.name ∉ l.map Prod.fst → e ∈ ls'.details) ∧
        (∀ p ∈ l, ∃ e ∈ ls'.details, e.name = p.1 ∧ e.ts = p.2) := by
  intro l
  induction l generalizing ls with
  | nil =>
    intro _ _
    exact ⟨ls, rfl, h, Evolves.refl _, rfl, fun e he => Or.inl ⟨he, by simp⟩, fun e he _ => he, by simp⟩
  | cons p r ih =>
    intro hn hmem
    obtain ⟨n, ts⟩ := p
    simp only [List.map_cons, List.nodup_cons] at hn
    obtain ⟨e, he, hen⟩ := List.mem_map.mp (hmem (n, ts) (by simp))
    simp only at hen
    subst hen
    rw [h.restoreApply_cons he]
    obtain ⟨ls', h1, h2, h3, h4, h5, h6, h7⟩ := ih (h.put e.id ts) hn.2 (by
      intro p hp
      rw [put_names]
      exact hmem p (List.mem_cons_of_mem _ hp))
    refine ⟨ls', h1, h2, (evolves_put _ _).trans h3, h4, ?_, ?_, ?_⟩
    · intro e' he'
      rcases h5 e' he' with ⟨hm, hnr⟩ | ⟨hge, hm⟩
      · rcases mem_put.mp hm with ⟨hm, hid⟩ | ⟨e0, he0, hid, rfl⟩
        · left
          refine ⟨hm, ?_⟩
          simp only [List.map_cons, List.mem_cons, not_or]
          exact ⟨fun hc => hid (by rw [h.entry_name_inj hm he hc]), hnr⟩
        · right
          have := h.entry_id_inj he0 he hid
          subst this
          exact ⟨Nat.le_refl _, by simp⟩
      · right
        rw [put_count] at hge
        exact ⟨by omega, List.mem_cons_of_mem _ hm⟩
    · intro e' he' hnot
      simp only [List.map_cons, List.mem_cons, not_or] at hnot
      refine h6 e' (mem_put.mpr (Or.inl ⟨he', fun hid => hnot.1 ?_⟩)) hnot.2
      rw [h.entry_id_inj he' he hid]
    · intro p hp
      rcases List.mem_cons.mp hp with rfl | hp
      · refine ⟨_, h6 _ (mem_put_new he rfl) ?_, rfl, rfl⟩
        exact hn.1
      · exact h7 p hp

end LockedState
end Pizauth
