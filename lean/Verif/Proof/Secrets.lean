import Verif.Spec.Secrets
import Verif.Proof.Step

/-!
# Replacing tokens changes nothing else
-/

namespace Pizauth

section
variable {σ τ : String → String}

/-- Lists which are related element by element. -/
inductive Each {α : Type} (R : α → α → Prop) : List α → List α → Prop where
  | nil : Each R [] []
  | cons {a b : α} {l m : List α} : R a b → Each R l m → Each R (a :: l) (b :: m)

/-- Optional values which are related. -/
inductive Opt {α : Type} (R : α → α → Prop) : Option α → Option α → Prop where
  | none : Opt R none none
  | some {a b : α} : R a b → Opt R (some a) (some b)

variable (σ τ) in
inductive TokRel : ActiveTok → ActiveTok → Prop where
  | mk {x y : String} {o e : Instant} {r s : Option String} {g : Bool} {f : Nat} {l : Option Instant} : Repl σ x y →
      Opt (Repl τ) r s → TokRel ⟨x, o, e, r, g, f, l⟩ ⟨y, o, e, s, g, f, l⟩

variable (σ τ) in
inductive TSRel : TokenState → TokenState → Prop where
  | empty : TSRel .empty .empty
  | pending (p : PendingTok) : TSRel (.pending p) (.pending p)
  | active {a b : ActiveTok} : TokRel σ τ a b → TSRel (.active a) (.active b)

variable (σ τ) in
inductive EntryRel : Entry → Entry → Prop where
  | mk {n : String} {i : AccountId} {s t : TokenState} : TSRel σ τ s t → EntryRel ⟨n, i, s⟩ ⟨n, i, t⟩

variable (σ τ) in
inductive LSRel : LockedState → LockedState → Prop where
  | mk {c : Nat} {k : Config} {l m : List Entry} : Each (EntryRel σ τ) l m → LSRel ⟨c, k, l⟩ ⟨c, k, m⟩

theorem Repl.refl (f : String → String) (x : String) : Repl f x x := .inl rfl

theorem Opt.refl (f : String → String) : ∀ x, Opt (Repl f) x x
  | .none => .none
  | .some x => .some (.refl f x)

theorem TokRel.refl (a : ActiveTok) : TokRel σ τ a a := .mk (.refl _ _) (.refl _ _)

theorem TSRel.refl : ∀ s, TSRel σ τ s s
  | .empty => .empty
  | .pending p => .pending p
  | .active a => .active (.refl a)

theorem EntryRel.refl (e : Entry) : EntryRel σ τ e e := .mk (.refl _)

theorem Each.refl {α : Type} {R : α → α → Prop} (h : ∀ a, R a a) : ∀ l, Each R l l
  | [] => .nil
  | a :: l => .cons (h a) (Each.refl h l)

theorem LSRel.refl (ls : LockedState) : LSRel σ τ ls ls := .mk (Each.refl .refl _)

theorem Each.append {α : Type} {R : α → α → Prop} {l l' m m' : List α} (h : Each R l l') (h' : Each R m m') :
    Each R (l ++ m) (l' ++ m') := by
  induction h with
  | nil => exact h'
  | cons a _ ih => exact .cons a ih

theorem Each.find? {α : Type} {R : α → α → Prop} {p : α → Bool} (hp : ∀ a b, R a b → p a = p b) {l m : List α} (h : Each R l m) :
    Opt R (l.find? p) (m.find? p) := by
  induction h with
  | nil => exact .none
  | @cons a b l m hab _ ih =>
    simp only [List.find?_cons, hp a b hab]
    cases p b
    · exact ih
    · exact .some hab

theorem Each.findIdx? {α : Type} {R : α → α → Prop} {p : α → Bool} (hp : ∀ a b, R a b → p a = p b) {l m : List α} (h : Each R l m) :
    l.findIdx? p = m.findIdx? p := by
  induction h with
  | nil => rfl
  | @cons a b l m hab _ ih => simp only [List.findIdx?_cons, hp a b hab, ih]

theorem Each.any {α : Type} {R : α → α → Prop} {p : α → Bool} (hp : ∀ a b, R a b → p a = p b) {l m : List α} (h : Each R l m) :
    l.any p = m.any p := by
  induction h with
  | nil => rfl
  | @cons a b l m hab _ ih => simp only [List.any_cons, hp a b hab, ih]

theorem Each.map_eq {α β : Type} {R : α → α → Prop} {f : α → β} (hp : ∀ a b, R a b → f a = f b) {l m : List α} (h : Each R l m) :
    l.map f = m.map f := by
  induction h with
  | nil => rfl
  | @cons a b l m hab _ ih => simp only [List.map_cons, hp a b hab, ih]

theorem Each.modify {α : Type} {R : α → α → Prop} {f g : α → α} (hp : ∀ a b, R a b → R (f a) (g b)) {l m : List α} (h : Each R l m)
    (i : Nat) : Each R (l.modify i f) (m.modify i g) := by
  induction h generalizing i with
  | nil => simp; exact .nil
  | @cons a b l m hab h ih =>
    cases i with
    | zero => simp only [List.modify_zero_cons]; exact .cons (hp a b hab) h
    | succ i => simp only [List.modify_succ_cons]; exact .cons hab (ih i)

namespace LSRel

variable {ls ls' : LockedState} (h : LSRel σ τ ls ls')
include h

theorem config : ls.config = ls'.config := by cases h; rfl

theorem actIds : ls.actIds = ls'.actIds := by
  cases h with | mk h => exact h.map_eq fun _ _ h => by cases h; rfl

theorem validateActName (n : String) : ls.validateActName n = ls'.validateActName n := by
  cases h with
  | mk h =>
    unfold LockedState.validateActName
    have := h.find? (p := fun x => x.name == n) fun _ _ h => by cases h; rfl
    dsimp only
    generalize List.find? (fun x : Entry => x.name == n) _ = x at this ⊢
    generalize List.find? (fun x : Entry => x.name == n) _ = y at this ⊢
    cases this with
    | none => rfl
    | some h => cases h; rfl

theorem isActIdValid (id : AccountId) : ls.isActIdValid id = ls'.isActIdValid id := by
  cases h with | mk h => exact h.any fun _ _ h => by cases h; rfl

theorem actIdMatching (s : String) : ls.actIdMatchingTokenState s = ls'.actIdMatchingTokenState s := by
  cases h with
  | mk h =>
    unfold LockedState.actIdMatchingTokenState
    have := h.find? (p := fun x => LockedState.TokenStateMatches x.ts s) fun _ _ h => by
      cases h with | mk h => cases h <;> rfl
    dsimp only
    generalize List.find? (fun x : Entry => LockedState.TokenStateMatches x.ts s) _ = x at this ⊢
    generalize List.find? (fun x : Entry => LockedState.TokenStateMatches x.ts s) _ = y at this ⊢
    cases this with
    | none => rfl
    | some h => cases h; rfl

theorem account (id : AccountId) : ls.account id = ls'.account id := by
  cases h with
  | mk h =>
    unfold LockedState.account
    have := h.find? (p := fun x => x.id == id) fun _ _ h => by cases h; rfl
    dsimp only
    generalize List.find? (fun x : Entry => x.id == id) _ = x at this ⊢
    generalize List.find? (fun x : Entry => x.id == id) _ = y at this ⊢
    cases this with
    | none => rfl
    | some h => cases h; rfl

theorem tokenstate (id : AccountId) : Opt (TSRel σ τ) (ls.tokenstate id) (ls'.tokenstate id) := by
  cases h with
  | mk h =>
    unfold LockedState.tokenstate
    have := h.find? (p := fun x => x.id == id) fun _ _ h => by cases h; rfl
    dsimp only
    generalize List.find? (fun x : Entry => x.id == id) _ = x at this ⊢
    generalize List.find? (fun x : Entry => x.id == id) _ = y at this ⊢
    cases this with
    | none => exact .none
    | some h => cases h with | mk h => exact .some h

end LSRel

/-- A new account ID and a new state. -/
inductive PairRel (σ τ : String → String) : AccountId × LockedState → AccountId × LockedState → Prop where
  | mk {i : AccountId} {ls ls' : LockedState} : LSRel σ τ ls ls' → PairRel σ τ (i, ls) (i, ls')

theorem LSRel.replace {ls ls' : LockedState} (h : LSRel σ τ ls ls') (id : AccountId) {s t : TokenState} (hst : TSRel σ τ s t) :
    Opt (PairRel σ τ) (ls.tokenstateReplace id s) (ls'.tokenstateReplace id t) := by
  cases h with
  | @mk c k l m h =>
    unfold LockedState.tokenstateReplace
    have := h.findIdx? (p := fun x => x.id == id) fun _ _ h => by cases h; rfl
    dsimp only
    rw [this]
    cases List.findIdx? (fun x : Entry => x.id == id) m with
    | none => exact .none
    | some i =>
      refine .some (.mk (.mk (h.modify (fun a b hab => ?_) i)))
      cases hab
      exact .mk hst

theorem LSRel.setOngoing {ls ls' : LockedState} (h : LSRel σ τ ls ls') (id : AccountId) (g : Bool) :
    Opt (PairRel σ τ) (ls.tokenstateSetOngoingRefresh id g) (ls'.tokenstateSetOngoingRefresh id g) := by
  unfold LockedState.tokenstateSetOngoingRefresh
  have hts := h.tokenstate id
  generalize ls.tokenstate id = x at hts ⊢
  generalize ls'.tokenstate id = y at hts ⊢
  cases hts with
  | none => exact .none
  | some hts =>
    cases hts with
    | empty => exact .none
    | pending => exact .none
    | active ha =>
      cases ha with
      | mk h1 h2 => exact h.replace id (.active (.mk h1 h2))

theorem LSRel.updateLoop {ls ls' : LockedState} (h : LSRel σ τ ls ls') : ∀ (l : List (String × Account)) (c : Nat),
    Opt (fun p q => Each (EntryRel σ τ) p.1 q.1 ∧ p.2 = q.2) (ls.updateLoop l c) (ls'.updateLoop l c)
  | [], c => .some ⟨.nil, rfl⟩
  | (n, a) :: l, c => by
    unfold LockedState.updateLoop
    rw [h.config]
    have fresh : Opt (fun p q => Each (EntryRel σ τ) p.1 q.1 ∧ p.2 = q.2)
        ((ls.updateLoop l (c + 1)).map fun (es, c') => (({ name := n, id := c, ts := .empty } : Entry) :: es, c'))
        ((ls'.updateLoop l (c + 1)).map fun (es, c') => (({ name := n, id := c, ts := .empty } : Entry) :: es, c')) := by
      have ih := LSRel.updateLoop h l (c + 1)
      generalize ls.updateLoop l (c + 1) = x at ih ⊢
      generalize ls'.updateLoop l (c + 1) = y at ih ⊢
      cases ih with
      | none => exact .none
      | some ih => exact .some ⟨.cons (.refl _) ih.1, ih.2⟩
    cases ls'.config.get? n with
    | none => exact fresh
    | some old =>
      simp only
      split
      · have hf : Opt (EntryRel σ τ) (ls.details.find? fun x => x.name == n) (ls'.details.find? fun x => x.name == n) := by
          cases h with | mk h => exact h.find? fun _ _ h => by cases h; rfl
        generalize List.find? (fun x : Entry => x.name == n) ls.details = x at hf ⊢
        generalize List.find? (fun x : Entry => x.name == n) ls'.details = y at hf ⊢
        cases hf with
        | none => exact .none
        | some he =>
          have ih := LSRel.updateLoop h l c
          simp only
          generalize ls.updateLoop l c = x at ih ⊢
          generalize ls'.updateLoop l c = y at ih ⊢
          cases ih with
          | none => exact .none
          | some ih => exact .some ⟨.cons he ih.1, ih.2⟩
      · exact fresh

theorem LSRel.updateConf {ls ls' : LockedState} (h : LSRel σ τ ls ls') (c : Config) :
    Opt (LSRel σ τ) (ls.updateConf c) (ls'.updateConf c) := by
  unfold LockedState.updateConf
  have hc : ls.accountCount = ls'.accountCount := by cases h; rfl
  rw [hc]
  have := h.updateLoop c.accounts ls'.accountCount
  generalize ls.updateLoop c.accounts ls'.accountCount = x at this ⊢
  generalize ls'.updateLoop c.accounts ls'.accountCount = y at this ⊢
  cases this with
  | none => exact .none
  | @some a b h =>
    obtain ⟨a1, a2⟩ := a
    obtain ⟨b1, b2⟩ := b
    obtain ⟨h1, h2⟩ := h
    dsimp only at h1 h2
    subst h2
    exact .some (.mk h1)

theorem LSRel.expiry {ls ls' : LockedState} (h : LSRel σ τ ls ls') (id : AccountId) (t : Instant) (n : Nat) :
    expiryInstant ls id t n = expiryInstant ls' id t n := by
  unfold expiryInstant
  rw [h.account, h.config]

theorem LSRel.statusLine {E : Env} {now : Instant} {wall : SysTime} {ls ls' : LockedState} (h : LSRel σ τ ls ls') (id : AccountId) :
    statusLine E now wall ls id = statusLine E now wall ls' id := by
  unfold Pizauth.statusLine
  rw [h.account]
  have hts := h.tokenstate id
  generalize ls.tokenstate id = x at hts ⊢
  generalize ls'.tokenstate id = y at hts ⊢
  cases hts with
  | none => rfl
  | some hts =>
    cases hts with
    | empty => rfl
    | pending => rfl
    | active ha => cases ha; cases ls'.account id <;> rfl

theorem LSRel.statusReply {E : Env} {now : Instant} {wall : SysTime} {ls ls' : LockedState} (h : LSRel σ τ ls ls') :
    statusReply E now wall ls = statusReply E now wall ls' := by
  unfold Pizauth.statusReply
  rw [h.actIds, show Pizauth.statusLine E now wall ls = Pizauth.statusLine E now wall ls' from funext fun id => h.statusLine id]

theorem LSRel.refreshAt {now : Instant} {ls ls' : LockedState} (h : LSRel σ τ ls ls') (id : AccountId) :
    refreshAt ls now id = refreshAt ls' now id := by
  unfold Pizauth.refreshAt
  rw [h.account, h.config]
  have hts := h.tokenstate id
  generalize ls.tokenstate id = x at hts ⊢
  generalize ls'.tokenstate id = y at hts ⊢
  cases hts with
  | none => rfl
  | some hts =>
    cases hts with
    | empty => rfl
    | pending => rfl
    | active ha => cases ha; rfl

theorem LSRel.notifyAt {now : Instant} {ls ls' : LockedState} (h : LSRel σ τ ls ls') (id : AccountId) :
    notifyAt ls now id = notifyAt ls' now id := by
  unfold Pizauth.notifyAt
  rw [h.config]
  have hts := h.tokenstate id
  generalize ls.tokenstate id = x at hts ⊢
  generalize ls'.tokenstate id = y at hts ⊢
  cases hts with
  | none => rfl
  | some hts => cases hts <;> rfl

theorem LSRel.dueIds {now : Instant} {ls ls' : LockedState} (h : LSRel σ τ ls ls') : ∀ ids,
    dueIds ls now ids = dueIds ls' now ids
  | [] => rfl
  | id :: r => by
    unfold Pizauth.dueIds
    rw [h.refreshAt, LSRel.dueIds h r]

theorem LSRel.notifyLoop {E : Env} {now : Instant} {d : Dur} : ∀ (ids : List AccountId) {ls ls' : LockedState}, LSRel σ τ ls ls' →
    Opt (fun p q => LSRel σ τ p.1 q.1 ∧ p.2 = q.2) (notifyLoop E now d ids ls) (notifyLoop E now d ids ls')
  | [], _, _, h => .some ⟨h, rfl⟩
  | id :: r, ls, ls', h => by
    unfold Pizauth.notifyLoop
    rw [h.account, h.config]
    have hts := h.tokenstate id
    generalize ls.tokenstate id = x at hts ⊢
    generalize ls'.tokenstate id = y at hts ⊢
    cases hts with
    | none => exact .none
    | some hts =>
      cases hts with
      | empty => exact LSRel.notifyLoop r h
      | active => exact LSRel.notifyLoop r h
      | pending p =>
        simp only
        split
        · have hr := h.replace id (.pending { p with lastNotification := some now })
          generalize ls.tokenstateReplace id _ = x at hr ⊢
          generalize ls'.tokenstateReplace id _ = y at hr ⊢
          cases ls'.account id with
          | none => exact .none
          | some act =>
            cases hr with
            | none => exact .none
            | some hr =>
              cases hr with
              | mk hr =>
                have ih := LSRel.notifyLoop (E := E) (now := now) (d := d) r hr
                simp only
                generalize Pizauth.notifyLoop E now d r _ = x at ih ⊢
                generalize Pizauth.notifyLoop E now d r _ = y at ih ⊢
                cases ih with
                | none => exact .none
                | some ih => exact .some ⟨ih.1, by dsimp only; rw [ih.2]⟩
        · exact LSRel.notifyLoop r h

theorem LSRel.restoreOne {now : Instant} {wall : SysTime} {ls ls' : LockedState} (h : LSRel σ τ ls ls') (d : Dump) {e e' : Entry}
    (he : EntryRel σ τ e e') : ls.restoreOne now wall d e = ls'.restoreOne now wall d e' := by
  unfold LockedState.restoreOne
  rw [h.config]
  cases he with
  | mk he =>
    simp only
    split
    · rfl
    · split
      · rfl
      · split
        · cases he <;> rfl
        · rfl

theorem LSRel.restoreCollect {now : Instant} {wall : SysTime} {ls ls' : LockedState} (h : LSRel σ τ ls ls') (d : Dump)
    {l l' : List Entry} (hl : Each (EntryRel σ τ) l l') : ls.restoreCollect now wall d l = ls'.restoreCollect now wall d l' := by
  induction hl with
  | nil => rfl
  | @cons a b l m hab _ ih =>
    unfold LockedState.restoreCollect
    rw [h.restoreOne d hab, ih]
    have : a.name = b.name := by cases hab; rfl
    rw [this]

theorem LSRel.restoreApply : ∀ (r : List (String × TokenState)) {ls ls' : LockedState}, LSRel σ τ ls ls' →
    Opt (LSRel σ τ) (ls.restoreApply r) (ls'.restoreApply r)
  | [], _, _, h => .some h
  | (n, ts) :: r, _, _, h => by
    cases h with
    | @mk c k l m h =>
      unfold LockedState.restoreApply
      have := h.findIdx? (p := fun x => x.name == n) fun _ _ h => by cases h; rfl
      dsimp only
      rw [this]
      cases List.findIdx? (fun x : Entry => x.name == n) m with
      | none => exact .none
      | some i =>
        simp only
        apply LSRel.restoreApply r
        refine .mk (h.modify (fun a b hab => ?_) i)
        cases hab
        exact .mk (.refl _)

/-- Outcomes of a restore. -/
inductive RestoreRel (σ τ : String → String) : RestoreRes → RestoreRes → Prop where
  | panic : RestoreRel σ τ .panic .panic
  | disabled : RestoreRel σ τ .disabled .disabled
  | err : RestoreRel σ τ .err .err
  | ok {ls ls' : LockedState} : LSRel σ τ ls ls' → RestoreRel σ τ (.ok ls) (.ok ls')

theorem LSRel.restore {now : Instant} {wall : SysTime} {ls ls' : LockedState} (h : LSRel σ τ ls ls') (b : Bytes)
    (drain : List (String × TokenState)) : RestoreRel σ τ (ls.restore now wall b drain) (ls'.restore now wall b drain) := by
  unfold LockedState.restore
  split
  · exact .err
  · split
    · exact .err
    · rename_i d _ _
      have hd : Each (EntryRel σ τ) ls.details ls'.details := by cases h; assumption
      rw [h.restoreCollect d hd]
      split
      · exact .panic
      · split
        · have := LSRel.restoreApply drain h
          generalize ls.restoreApply drain = x at this ⊢
          generalize ls'.restoreApply drain = y at this ⊢
          cases this with
          | none => exact .panic
          | some h => exact .ok h
        · exact .disabled

/-! ## Operations -/

variable (σ τ) in
inductive CtxRel : RfCtx → RfCtx → Prop where
  | mk {i : AccountId} {n u : String} {f g : List (String × String)} {x y : String} : FormRepl τ f g → Repl τ x y →
      CtxRel ⟨i, n, u, f, x⟩ ⟨i, n, u, g, y⟩

variable (σ τ) in
inductive OpRel : Op → Op → Prop where
  | same {o : Op} : (∀ c, o ≠ .rfSend c) → (∀ c, o ≠ .rfAwait c) → (∀ c, o ≠ .rfPerm c) → (∀ c, o ≠ .rfTransient c) →
      (∀ buf, o = .unix buf → parseReq buf ≠ .dump) → (∀ c b, o ≠ .exDone c b) → OpRel o o
  | shown {x y : String} : Repl σ x y →
      OpRel (.reply (utf8 ("access_token:" ++ x))) (.reply (utf8 ("access_token:" ++ y)))
  | exDone (c : ExCtx) (b : Body) : OpRel (.exDone c b) (.exDone c (b.subst σ τ))
  | rfSend {c c' : RfCtx} : CtxRel τ c c' → OpRel (.rfSend c) (.rfSend c')
  | rfAwait {c c' : RfCtx} : CtxRel τ c c' → OpRel (.rfAwait c) (.rfAwait c')
  | rfPerm {c c' : RfCtx} : CtxRel τ c c' → OpRel (.rfPerm c) (.rfPerm c')
  | rfTransient {c c' : RfCtx} : CtxRel τ c c' → OpRel (.rfTransient c) (.rfTransient c')
  | rfNow {c c' : RfCtx} {x y : String} {n : Nat} {r s : Option String} : CtxRel τ c c' → Repl σ x y → Opt (Repl τ) r s →
      OpRel (.rfNow c x n r) (.rfNow c' y n s)
  | rfStore {c c' : RfCtx} {x y : String} {n : Nat} {r s : Option String} {t : Instant} : CtxRel τ c c' → Repl σ x y →
      Opt (Repl τ) r s → OpRel (.rfStore c x n r t) (.rfStore c' y n s t)

theorem OpRel.simple {o : Op} (h : match o with
    | .rfSend _ | .rfAwait _ | .rfPerm _ | .rfTransient _ | .unix _ | .exDone _ _ => False
    | _ => True) : OpRel σ τ o o := by
  refine .same ?_ ?_ ?_ ?_ ?_ ?_ <;> (try intro _ _) <;> (try intro _) <;> (try rintro rfl) <;> simp_all

variable (σ τ) in
structure EffRel (e f : Eff) : Prop where
  ls : LSRel σ τ e.ls f.ls
  next : Each (OpRel σ τ) e.next f.next
  spawn : e.spawn = f.spawn
  simple : ∀ o ∈ e.spawn, ∃ id, o = .rfStart id
  obs : Each (ObsRepl σ τ) e.obs f.obs
  wakeRef : e.wakeRef = f.wakeRef
  wakeNot : e.wakeNot = f.wakeNot
  wakeEv : e.wakeEv = f.wakeEv
  push : e.push = f.push
  term : e.term = f.term

variable (σ τ) in
inductive OutRel : Out → Out → Prop where
  | panic : OutRel .panic .panic
  | disabled : OutRel .disabled .disabled
  | ok {e f : Eff} : EffRel σ τ e f → OutRel (.ok e) (.ok f)

/-- The same operations, the same observations. -/
theorem OutRel.ok' {ls ls' : LockedState} (h : LSRel σ τ ls ls') {next next' : List Op} (hn : Each (OpRel σ τ) next next')
    {obs : List Obs} {a b c d : Bool} {p : List (String × TokenEvent)} {spawn : List Op} (hs : ∀ o ∈ spawn, ∃ id, o = .rfStart id) :
    OutRel σ τ (.ok ⟨ls, next, spawn, obs, a, b, c, p, d⟩) (.ok ⟨ls', next', spawn, obs, a, b, c, p, d⟩) :=
  .ok ⟨h, hn, rfl, hs, Each.refl .same _, rfl, rfl, rfl, rfl, rfl⟩

macro "ops" : tactic => `(tactic| (repeat' first | exact Each.nil | refine Each.cons (OpRel.simple trivial) ?_))
macro "nospawn" : tactic => `(tactic| (intro _ h; cases h))

inductive ReqRel (σ τ : String → String) : Res (Url × LockedState) → Res (Url × LockedState) → Prop where
  | panic : ReqRel σ τ .panic .panic
  | err (m : String) : ReqRel σ τ (.err m) (.err m)
  | ok {u : Url} {ls ls' : LockedState} : LSRel σ τ ls ls' → ReqRel σ τ (.ok (u, ls)) (.ok (u, ls'))

theorem LSRel.requestToken {E : Env} {S : Static} {ls ls' : LockedState} (h : LSRel σ τ ls ls') (id : AccountId)
    (a : Vector UInt8 8) (b : Vector UInt8 64) :
    ReqRel σ τ (requestToken E S ls id a b) (requestToken E S ls' id a b) := by
  unfold Pizauth.requestToken
  rw [h.account]
  have hts := h.tokenstate id
  generalize ls.tokenstate id = x at hts ⊢
  generalize ls'.tokenstate id = y at hts ⊢
  have fin : ∀ url : Url, ReqRel σ τ
      (match ls.tokenstateReplace id (.pending ⟨b64 b.toList, none, b64 a.toList, url⟩) with
        | none => .panic
        | some (_, ls') => .ok (url, ls'))
      (match ls'.tokenstateReplace id (.pending ⟨b64 b.toList, none, b64 a.toList, url⟩) with
        | none => .panic
        | some (_, ls') => .ok (url, ls')) := by
    intro url
    have hr := h.replace id (.pending ⟨b64 b.toList, none, b64 a.toList, url⟩)
    generalize ls.tokenstateReplace id _ = x at hr ⊢
    generalize ls'.tokenstateReplace id _ = y at hr ⊢
    cases hr with
    | none => exact .panic
    | some hr => cases hr with | mk hr => exact .ok hr
  cases hts with
  | none => exact .panic
  | some hts =>
    cases hts with
    | active => exact .panic
    | empty =>
      simp only
      split
      · exact .panic
      · split
        · exact .panic
        · exact .err _
        · split
          · exact .err _
          · exact fin _
    | pending =>
      simp only
      split
      · exact .panic
      · split
        · exact .panic
        · exact .err _
        · split
          · exact .err _
          · exact fin _

theorem LSRel.startAuth {E : Env} {S : Static} {ls ls' : LockedState} (h : LSRel σ τ ls ls') (id : AccountId) (wu : Bool)
    (inp : Input) (n : Net) : OutRel σ τ (startAuth E S ls id wu inp) (startAuth E S ls' id wu { inp with net := n }) := by
  unfold Pizauth.startAuth
  have hr := h.requestToken (E := E) (S := S) id inp.rndState inp.rndVerifier
  dsimp only
  generalize Pizauth.requestToken E S ls id inp.rndState inp.rndVerifier = x at hr ⊢
  generalize Pizauth.requestToken E S ls' id inp.rndState inp.rndVerifier = y at hr ⊢
  cases hr with
  | panic => exact .panic
  | err => exact .ok' h .nil (by nospawn)
  | ok hr => exact .ok' hr (by ops) (by nospawn)

theorem LSRel.unix {E : Env} {S : Static} {now : Instant} {wall : SysTime} {ls ls' : LockedState} (h : LSRel σ τ ls ls') {r : Req}
    (hd : r ≠ .dump) (inp : Input) (n : Net) :
    OutRel σ τ (execUnix E S now wall ls r inp) (execUnix E S now wall ls' r { inp with net := n }) := by
  unfold execUnix
  cases r with
  | dump => exact absurd rfl hd
  | info => exact .ok' h (by ops) (by nospawn)
  | reload =>
    simp only
    split
    · split
      · exact .ok' h (by ops) (by nospawn)
      · exact .disabled
    · exact .ok' h (by ops) (by nospawn)
  | refresh wu act =>
    simp only [h.validateActName]
    split
    · exact .ok' h (by ops) (by nospawn)
    · rename_i id _
      have hts := h.tokenstate id
      generalize ls.tokenstate id = x at hts ⊢
      generalize ls'.tokenstate id = y at hts ⊢
      cases hts with
      | none => exact .panic
      | some hts =>
        cases hts with
        | empty => exact h.startAuth id wu inp n
        | pending => exact h.startAuth id wu inp n
        | active => exact .ok' h (by ops) (by intro o ho; exact ⟨id, by simpa using ho⟩)
  | restore d =>
    simp only
    split
    · exact .ok' h (by ops) (by nospawn)
    · split
      · exact .ok' h (by ops) (by nospawn)
      · rename_i plain _
        have hr := h.restore (now := now) (wall := wall) plain inp.drainOrder
        generalize ls.restore now wall plain inp.drainOrder = x at hr ⊢
        generalize ls'.restore now wall plain inp.drainOrder = y at hr ⊢
        cases hr with
        | panic => exact .panic
        | disabled => exact .disabled
        | err => exact .ok' h (by ops) (by nospawn)
        | ok hr => exact .ok' hr (by ops) (by nospawn)
  | revoke act =>
    simp only [h.validateActName]
    split
    · exact .ok' h (by ops) (by nospawn)
    · rename_i id _
      have hr := h.replace id .empty
      generalize ls.tokenstateReplace id _ = x at hr ⊢
      generalize ls'.tokenstateReplace id _ = y at hr ⊢
      cases hr with
      | none => exact .panic
      | some hr => cases hr with | mk hr => exact .ok' hr (by ops) (by nospawn)
  | showtoken wu act =>
    simp only [h.validateActName]
    split
    · exact .ok' h (by ops) (by nospawn)
    · rename_i id _
      have hts := h.tokenstate id
      generalize ls.tokenstate id = x at hts ⊢
      generalize ls'.tokenstate id = y at hts ⊢
      cases hts with
      | none => exact .panic
      | some hts =>
        cases hts with
        | empty => exact h.startAuth id wu inp n
        | pending => exact .ok' h (by ops) (by nospawn)
        | active ha =>
          cases ha with
          | mk h1 h2 =>
            simp only
            split
            · exact .ok' h (.cons (.shown h1) .nil) (by nospawn)
            · split
              · exact .ok' h (by ops) (by nospawn)
              · exact .ok' h (by ops) (by intro o ho; exact ⟨id, by simpa using ho⟩)
  | shutdown => exact .ok' h (by ops) (by nospawn)
  | status =>
    simp only [h.statusReply]
    split
    · exact .panic
    · exact .ok' h (by ops) (by nospawn)
  | unknown cmd => exact .ok' h (by ops) (by nospawn)
  | invalid => exact .ok' h (by ops) (by nospawn)

theorem LSRel.http {E : Env} {S : Static} {ls ls' : LockedState} (h : LSRel σ τ ls ls') (buf : Bytes) (sec : Bool) :
    OutRel σ τ (execHttp E S ls buf sec) (execHttp E S ls' buf sec) := by
  unfold execHttp
  split
  · exact .ok' h (by ops) (by nospawn)
  · split
    · exact .ok' h (by ops) (by nospawn)
    · rw [h.actIdMatching]
      split
      · exact .ok' h (by ops) (by nospawn)
      · rename_i id _
        rw [h.account]
        split
        · exact .panic
        · split
          · exact .panic
          · exact .ok' h (by ops) (by nospawn)
          · split
            · exact .ok' h (by ops) (by nospawn)
            · split
              · have hr := h.replace id .empty
                generalize ls.tokenstateReplace id _ = x at hr ⊢
                generalize ls'.tokenstateReplace id _ = y at hr ⊢
                cases hr with
                | none => exact .panic
                | some hr =>
                  cases hr with
                  | mk hr =>
                    simp only [hr.account]
                    split
                    · exact .panic
                    · exact .ok' hr (by ops) (by nospawn)
              · split
                · exact .ok' h (by ops) (by nospawn)
                · have hts := h.tokenstate id
                  generalize ls.tokenstate id = x at hts ⊢
                  generalize ls'.tokenstate id = y at hts ⊢
                  cases hts with
                  | none => exact .panic
                  | some hts =>
                    cases hts with
                    | empty => exact .panic
                    | active => exact .panic
                    | pending => exact .ok' h (by ops) (by nospawn)

theorem lookup_subst (g : String → JVal → JVal) (k : String) : ∀ l : List (String × JVal),
    (l.map fun kv => (kv.1, g kv.1 kv.2)).lookup k = (l.lookup k).map (g k)
  | [] => rfl
  | (a, v) :: l => by
    simp only [List.map_cons, List.lookup_cons]
    cases h : k == a with
    | false => exact lookup_subst g k l
    | true => simp at h; subst h; rfl

theorem Body.subst_get (b : Body) (k : String) : (b.subst σ τ).get k = (b.get k).map fun v =>
    if k = "access_token" then v.subst σ else if k = "refresh_token" then v.subst τ else v := by
  cases b with
  | nonObj => rfl
  | obj kvs =>
    simp only [Body.subst, Body.get]
    rw [← lookup_subst fun k v => if k = "access_token" then v.subst σ else if k = "refresh_token" then v.subst τ else v]
    congr 1
    apply List.map_congr_left
    intro kv _
    by_cases h1 : kv.1 = "access_token"
    · simp [h1]
    · by_cases h2 : kv.1 = "refresh_token"
      · simp [h2]
      · simp [h1, h2]

theorem Body.subst_other (b : Body) {k : String} (h1 : k ≠ "access_token") (h2 : k ≠ "refresh_token") :
    (b.subst σ τ).get k = b.get k := by
  rw [Body.subst_get]
  simp [h1, h2]

theorem Body.subst_str (b : Body) {k : String} (h1 : k ≠ "access_token") (h2 : k ≠ "refresh_token") :
    (b.subst σ τ).str k = b.str k := by
  unfold Body.str; rw [Body.subst_other b h1 h2]

theorem Body.subst_u64 (b : Body) {k : String} (h1 : k ≠ "access_token") (h2 : k ≠ "refresh_token") :
    (b.subst σ τ).u64 k = b.u64 k := by
  unfold Body.u64; rw [Body.subst_other b h1 h2]

theorem Body.subst_access (b : Body) : (b.subst σ τ).str "access_token" = (b.str "access_token").map σ := by
  unfold Body.str
  rw [Body.subst_get]
  cases b.get "access_token" with
  | none => rfl
  | some v => cases v <;> rfl

theorem Body.subst_refresh (b : Body) : (b.subst σ τ).str "refresh_token" = (b.str "refresh_token").map τ := by
  unfold Body.str
  rw [Body.subst_get]
  cases b.get "refresh_token" with
  | none => rfl
  | some v => cases v <;> rfl

theorem Opt.map_repl (f : String → String) : ∀ x, Opt (Repl f) x (x.map f)
  | .none => .none
  | .some _ => .some (.inr rfl)

theorem rotate_rel (b : Body) {x y : String} (h : Repl τ x y) :
    Opt (Repl τ) (rotateRefreshToken b x) (rotateRefreshToken (b.subst σ τ) y) := by
  unfold rotateRefreshToken
  rw [Body.subst_get]
  cases b.get "refresh_token" with
  | none => exact .some h
  | some v =>
    cases v with
    | str s => exact .some (.inr rfl)
    | u64 n => exact .none
    | other => exact .none

theorem LSRel.exDone {now : Instant} {ls ls' : LockedState} (h : LSRel σ τ ls ls') (c : ExCtx) (b : Body) :
    OutRel σ τ (execExDone now ls c b) (execExDone now ls' c (b.subst σ τ)) := by
  unfold execExDone
  rw [h.isActIdValid, Body.subst_str b (k := "error") (by decide) (by decide),
    Body.subst_str b (k := "token_type") (by decide) (by decide), Body.subst_u64 b (k := "expires_in") (by decide) (by decide),
    Body.subst_access, Body.subst_refresh]
  split
  · exact .ok' h (by ops) (by nospawn)
  · split
    · exact .ok' h (by ops) (by nospawn)
    · by_cases htt : b.str "token_type" = some "Bearer"
      · simp only [htt]
        cases b.u64 "expires_in" with
        | none => exact .ok' h (by ops) (by nospawn)
        | some n =>
          cases b.str "access_token" with
          | none => exact .ok' h (by ops) (by nospawn)
          | some tok =>
            simp only [Option.map_some, h.expiry, h.account]
            split
            · exact .panic
            · exact .ok' h (by ops) (by nospawn)
            · split
              · exact .panic
              · rename_i expiry _ _ act _
                have hr := h.replace c.id (.active (.mk (x := tok) (y := σ tok) (o := now) (e := expiry) (g := false) (f := 0)
                  (l := none) (.inr rfl) (Opt.map_repl τ (b.str "refresh_token"))))
                generalize ls.tokenstateReplace c.id _ = x at hr ⊢
                generalize ls'.tokenstateReplace c.id _ = y at hr ⊢
                cases hr with
                | none => exact .panic
                | some hr => cases hr with | mk hr => exact .ok' hr (by ops) (by nospawn)
      · split
        · rename_i h1 _ _; exact absurd h1 htt
        · split
          · rename_i h1 _ _; exact absurd h1 htt
          · exact .ok' h (by ops) (by nospawn)

theorem LSRel.fail {ls ls' : LockedState} (h : LSRel σ τ ls ls') (id : AccountId) (msg : String) :
    OutRel σ τ (execFail ls id msg) (execFail ls' id msg) := by
  unfold execFail
  rw [h.isActIdValid]
  split
  · have hts := h.tokenstate id
    generalize ls.tokenstate id = x at hts ⊢
    generalize ls'.tokenstate id = y at hts ⊢
    cases hts with
    | none => exact .panic
    | some hts =>
      simp only
      have hr := h.replace id .empty
      generalize ls.tokenstateReplace id _ = x at hr ⊢
      generalize ls'.tokenstateReplace id _ = y at hr ⊢
      cases hr with
      | none => exact .panic
      | some hr =>
        cases hr with
        | mk hr =>
          simp only [hr.account]
          split
          · exact .panic
          · cases hts with
            | empty => exact .ok' hr (by ops) (by nospawn)
            | pending => exact .ok' hr (by ops) (by nospawn)
            | active => exact .ok' hr (by ops) (by nospawn)
  · exact .ok' h (by ops) (by nospawn)

theorem refreshForm_rel (act : Account) {x y : String} (h : Repl τ x y) : FormRepl τ (refreshForm act x) (refreshForm act y) := by
  refine .inr ⟨[("client_id", act.clientId)], x, y, [("grant_type", "refresh_token")] ++
    (match act.clientSecret with
      | some x => [("client_secret", x)]
      | none => []), ?_, ?_, h⟩ <;> rfl

theorem LSRel.rfStart {now : Instant} {ls ls' : LockedState} (h : LSRel σ τ ls ls') (id : AccountId) :
    OutRel σ τ (execRfStart now ls id) (execRfStart now ls' id) := by
  unfold execRfStart
  rw [h.isActIdValid]
  split
  · have hts := h.tokenstate id
    generalize ls.tokenstate id = x at hts ⊢
    generalize ls'.tokenstate id = y at hts ⊢
    cases hts with
    | none => exact .panic
    | some hts =>
      cases hts with
      | empty => exact .ok' h (by ops) (by nospawn)
      | pending => exact .ok' h (by ops) (by nospawn)
      | active ha =>
        cases ha with
        | @mk x y o e r s g f l h1 h2 =>
          simp only
          split
          · exact .ok' h (by ops) (by nospawn)
          · have hr := h.replace id (.active (.mk (o := o) (e := e) (g := true) (f := f) (l := l) h1 h2))
            generalize ls.tokenstateReplace id _ = x at hr ⊢
            generalize ls'.tokenstateReplace id _ = y at hr ⊢
            cases hr with
            | none => exact .panic
            | some hr =>
              cases hr with
              | @mk id1 ls1 ls1' hr =>
                simp only [hr.account]
                have hts := hr.tokenstate id1
                generalize ls1.tokenstate id1 = x at hts ⊢
                generalize ls1'.tokenstate id1 = y at hts ⊢
                cases ls1'.account id1 with
                | none => exact .panic
                | some act1 =>
                  cases hts with
                  | none => exact .panic
                  | some hts =>
                    cases hts with
                    | empty => exact .panic
                    | pending => exact .panic
                    | active ha =>
                      cases ha with
                      | @mk x y o e r s g f l h1 h2 =>
                        simp only
                        have h3 := h2
                        cases h3 with
                        | none =>
                          simp only
                          have hr2 := hr.replace id1 .empty
                          generalize ls1.tokenstateReplace id1 _ = x at hr2 ⊢
                          generalize ls1'.tokenstateReplace id1 _ = y at hr2 ⊢
                          cases hr2 with
                          | none => exact .panic
                          | some hr2 => cases hr2 with | mk hr2 => exact .ok' hr2 (by ops) (by nospawn)
                        | @some r s hrs =>
                          simp only
                          have hr2 := hr.replace id1 (.active (.mk (o := o) (e := e) (g := g) (f := f) (l := some now) h1 h2))
                          generalize ls1.tokenstateReplace id1 _ = x at hr2 ⊢
                          generalize ls1'.tokenstateReplace id1 _ = y at hr2 ⊢
                          cases hr2 with
                          | none => exact .panic
                          | some hr2 =>
                            cases hr2 with
                            | mk hr2 =>
                              simp only [hr2.account]
                              split
                              · exact .panic
                              · exact .ok' hr2 (.cons (.rfSend (.mk (refreshForm_rel _ hrs) hrs)) .nil) (by nospawn)
  · exact .ok' h (by ops) (by nospawn)

theorem afterBody_rel {c c' : RfCtx} (hc : CtxRel τ c c') (b : Body) :
    OpRel σ τ (afterRefreshBody c b) (afterRefreshBody c' (b.subst σ τ)) := by
  unfold afterRefreshBody
  rw [Body.subst_str b (k := "error") (by decide) (by decide),
    Body.subst_str b (k := "token_type") (by decide) (by decide), Body.subst_u64 b (k := "expires_in") (by decide) (by decide),
    Body.subst_access]
  split
  · exact .rfPerm hc
  · cases b.str "access_token" with
    | none => exact .rfPerm hc
    | some tok =>
      cases b.u64 "expires_in" with
      | none => exact .rfPerm hc
      | some n =>
        simp only [Option.map_some]
        split
        · rename_i h1 h2 h3
          cases h1; cases h2
          simp only [h3]
          exact .rfNow hc (.inr rfl) (rotate_rel b (by cases hc; assumption))
        · rename_i hno
          split
          · rename_i h1 h2 h3; exact absurd h3 (hno _ _ rfl rfl)
          · exact .rfPerm hc

theorem LSRel.rfAwait {ls ls' : LockedState} (h : LSRel σ τ ls ls') (tid : Nat) {c c' : RfCtx} (hc : CtxRel τ c c') (n : Net) :
    OutRel σ τ (execRfAwait ls tid c n) (execRfAwait ls' tid c' (n.subst σ τ)) := by
  unfold execRfAwait
  refine .ok ⟨h, .cons ?_ .nil, rfl, by nospawn, .cons ?_ .nil, rfl, rfl, rfl, rfl, rfl⟩
  · cases n with
    | body b => exact afterBody_rel hc b
    | badJson => exact .rfPerm hc
    | readErr => exact .rfTransient hc
    | status => exact .rfPerm hc
    | transport k => cases k <;> first | exact .rfTransient hc | exact .rfPerm hc
  · cases hc with
    | mk hf _ => exact .granted hf

theorem LSRel.rfPerm {ls ls' : LockedState} (h : LSRel σ τ ls ls') {c c' : RfCtx} (hc : CtxRel τ c c') :
    OutRel σ τ (execRfPerm ls c) (execRfPerm ls' c') := by
  cases hc with
  | @mk id n u f g x y _ _ =>
    unfold execRfPerm
    rw [h.isActIdValid]
    split
    · have hr := h.replace id .empty
      simp only
      generalize ls.tokenstateReplace id _ = x at hr ⊢
      generalize ls'.tokenstateReplace id _ = y at hr ⊢
      cases hr with
      | none => exact .panic
      | some hr => cases hr with | mk hr => exact .ok' hr (by ops) (by nospawn)
    · exact .ok' h (by ops) (by nospawn)

theorem LSRel.rfStore {ls ls' : LockedState} (h : LSRel σ τ ls ls') {c c' : RfCtx} (hc : CtxRel τ c c') {x y : String} {n : Nat}
    {r s : Option String} {t : Instant} (hx : Repl σ x y) (hr : Opt (Repl τ) r s) :
    OutRel σ τ (execRfStore ls c x n r t) (execRfStore ls' c' y n s t) := by
  cases hc with
  | @mk id nm u f g _ _ _ _ =>
    unfold execRfStore
    rw [h.isActIdValid]
    split
    · simp only [h.expiry]
      split
      · exact .panic
      · have hr := h.replace id .empty
        generalize ls.tokenstateReplace id _ = x at hr ⊢
        generalize ls'.tokenstateReplace id _ = y at hr ⊢
        cases hr with
        | none => exact .panic
        | some hr => cases hr with | mk hr => exact .ok' hr (by ops) (by nospawn)
      · rename_i expiry _
        have hr := h.replace id (.active (.mk (o := t) (e := expiry) (g := false) (f := 0) (l := none) hx hr))
        generalize ls.tokenstateReplace id _ = x at hr ⊢
        generalize ls'.tokenstateReplace id _ = y at hr ⊢
        cases hr with
        | none => exact .panic
        | some hr => cases hr with | mk hr => exact .ok' hr (by ops) (by nospawn)
    · exact .ok' h (by ops) (by nospawn)

theorem LSRel.rfTransient {now : Instant} {ls ls' : LockedState} (h : LSRel σ τ ls ls') {c c' : RfCtx} (hc : CtxRel τ c c') :
    OutRel σ τ (execRfTransient now ls c) (execRfTransient now ls' c') := by
  cases hc with
  | @mk id nm u _ _ _ _ _ _ =>
    unfold execRfTransient
    rw [h.isActIdValid]
    split
    · simp only
      have hts := h.tokenstate id
      generalize ls.tokenstate id = x at hts ⊢
      generalize ls'.tokenstate id = y at hts ⊢
      cases hts with
      | none => exact .panic
      | some hts =>
        cases hts with
        | empty => exact .panic
        | pending => exact .panic
        | active ha =>
          cases ha with
          | @mk x y o e r s g f l h1 h2 =>
            simp only
            have hr := h.replace id (.active (.mk (o := o) (e := e) (g := g) (f := f + 1) (l := some now) h1 h2))
            generalize ls.tokenstateReplace id _ = x at hr ⊢
            generalize ls'.tokenstateReplace id _ = y at hr ⊢
            cases hr with
            | none => exact .panic
            | some hr =>
              cases hr with
              | @mk id1 ls1 ls1' hr =>
                have hset : OutRel σ τ
                    (match ls1.tokenstateSetOngoingRefresh id1 false with
                      | none => .panic
                      | some (_, ls'') => .ok { ls := ls'', next := [.wakeRefresher] })
                    (match ls1'.tokenstateSetOngoingRefresh id1 false with
                      | none => .panic
                      | some (_, ls'') => .ok { ls := ls'', next := [.wakeRefresher] }) := by
                  have hr2 := hr.setOngoing id1 false
                  generalize ls1.tokenstateSetOngoingRefresh id1 false = x at hr2 ⊢
                  generalize ls1'.tokenstateSetOngoingRefresh id1 false = y at hr2 ⊢
                  cases hr2 with
                  | none => exact .panic
                  | some hr2 => cases hr2 with | mk hr2 => exact .ok' hr2 (by ops) (by nospawn)
                simp only [hr.config]
                split
                · split
                  · exact .ok' hr (by ops) (by nospawn)
                  · exact hset
                · exact hset
    · exact .ok' h (by ops) (by nospawn)

theorem LSRel.rfCmdOk {ls ls' : LockedState} (h : LSRel σ τ ls ls') (id : AccountId) :
    OutRel σ τ (execRfCmdOk ls id) (execRfCmdOk ls' id) := by
  unfold execRfCmdOk
  rw [h.isActIdValid]
  split
  · have hr := h.setOngoing id false
    generalize ls.tokenstateSetOngoingRefresh id false = x at hr ⊢
    generalize ls'.tokenstateSetOngoingRefresh id false = y at hr ⊢
    cases hr with
    | none => exact .panic
    | some hr => cases hr with | mk hr => exact .ok' hr (by ops) (by nospawn)
  · exact .ok' h (by ops) (by nospawn)

theorem LSRel.rfCmdErr {ls ls' : LockedState} (h : LSRel σ τ ls ls') (id : AccountId) (act : String) :
    OutRel σ τ (execRfCmdErr ls id act) (execRfCmdErr ls' id act) := by
  unfold execRfCmdErr
  rw [h.isActIdValid]
  simp only
  split
  · have hr := h.replace id .empty
    generalize ls.tokenstateReplace id _ = x at hr ⊢
    generalize ls'.tokenstateReplace id _ = y at hr ⊢
    cases hr with
    | none => exact .panic
    | some hr => cases hr with | mk hr => exact .ok' hr (by ops) (by nospawn)
  · exact .ok' h (by ops) (by nospawn)

/-- Operations on related states have related outcomes. -/
theorem exec_rel {E : Env} {S : Static} {now : Instant} {wall : SysTime} {ls ls' : LockedState} (h : LSRel σ τ ls ls') (tid : Nat)
    {op op' : Op} (ho : OpRel σ τ op op') (inp : Input) :
    OutRel σ τ (exec E S now wall ls tid op inp) (exec E S now wall ls' tid op' { inp with net := inp.net.subst σ τ }) := by
  cases ho with
  | shown hx => exact .ok ⟨h, .nil, rfl, by nospawn, .cons (.shown hx) .nil, rfl, rfl, rfl, rfl, rfl⟩
  | exDone c b => exact h.exDone c b
  | rfSend hc =>
    refine .ok ⟨h, .cons (.rfAwait hc) .nil, rfl, by nospawn, .cons ?_ .nil, rfl, rfl, rfl, rfl, rfl⟩
    cases hc with | mk hf _ => exact .sent hf
  | rfAwait hc => exact h.rfAwait tid hc inp.net
  | rfPerm hc => exact h.rfPerm hc
  | rfTransient hc => exact h.rfTransient hc
  | rfNow hc hx hr => exact .ok' h (.cons (.rfStore hc hx hr) .nil) (by nospawn)
  | rfStore hc hx hr => exact h.rfStore hc hx hr
  | same h1 h2 h3 h4 h5 h6 =>
    cases op with
    | unix buf => exact h.unix (h5 buf rfl) inp _
    | install c =>
      have hu := h.updateConf c
      simp only [exec]
      generalize ls.updateConf c = x at hu ⊢
      generalize ls'.updateConf c = y at hu ⊢
      cases hu with
      | none => exact .panic
      | some hu => exact .ok' hu (by ops) (by nospawn)
    | notifyError act msg =>
      simp only [exec, execNotifyError, h.config]
      split
      · exact .ok' h (by ops) (by nospawn)
      · exact .ok' h (by ops) (by nospawn)
    | http buf sec => exact h.http buf sec
    | exSend c k => exact .ok' h (by ops) (by nospawn)
    | exAwait c k =>
      simp only [exec, execExAwait]
      cases hn : inp.net with
      | body b =>
        exact .ok ⟨h, .cons (.exDone c b) .nil, rfl, by nospawn, .cons (.granted (.inl rfl)) .nil, rfl, rfl, rfl, rfl, rfl⟩
      | badJson => exact .ok' h (by ops) (by nospawn)
      | readErr => exact .ok' h (by ops) (by nospawn)
      | status => exact .ok' h (by ops) (by nospawn)
      | transport => exact .ok' h (by ops) (by nospawn)
    | exSleep c k wake =>
      simp only [exec, execExSleep]
      split
      · exact .disabled
      · split
        · exact .ok' h (by ops) (by nospawn)
        · exact .ok' h (by ops) (by nospawn)
    | exDone c b => exact absurd rfl (h6 c b)
    | fail id msg => exact h.fail id msg
    | rfStart id => exact h.rfStart id
    | rfSend c => exact absurd rfl (h1 c)
    | rfAwait c => exact absurd rfl (h2 c)
    | rfPerm c => exact absurd rfl (h3 c)
    | rfTransient c => exact absurd rfl (h4 c)
    | rfNow c tok n rt =>
      refine .ok' h (.cons (.rfStore ?_ (.refl _ _) (.refl _ _)) .nil) (by nospawn)
      exact .mk (.inl rfl) (.refl _ _)
    | rfStore c tok n rt t => exact h.rfStore (.mk (.inl rfl) (.refl _ _)) (.refl _ _) (.refl _ _)
    | rfCmd id act cmd => exact .ok' h (by ops) (by nospawn)
    | rfCmdWait id act =>
      simp only [exec]
      cases inp.cmdOk
      · exact .ok' h (by ops) (by nospawn)
      · exact .ok' h (by ops) (by nospawn)
    | rfCmdOk id => exact h.rfCmdOk id
    | rfCmdErr id act => exact h.rfCmdErr id act
    | _ => exact .ok' h (by ops) (by nospawn)

/-! ## Worlds -/

variable (σ τ) in
/-- Worlds that differ in token values only. -/
inductive WorldRel (w : World) : World → Prop
  | mk {ls' th' log' p} : LSRel σ τ w.ls ls' → (∀ i, Each (OpRel σ τ) (w.threads i) (th' i)) → LogRepl σ τ w.log log' →
    w.proc = p → WorldRel w { w with ls := ls', threads := th', log := log', proc := p }

theorem setThread_rel {f g : Nat → List Op} (h : ∀ i, Each (OpRel σ τ) (f i) (g i)) (t : Nat) {l m : List Op}
    (hl : Each (OpRel σ τ) l m) (i : Nat) : Each (OpRel σ τ) (setThread f t l i) (setThread g t m i) := by
  unfold setThread
  split
  · exact hl
  · exact h i

theorem spawnAll_rel : ∀ (s : List Op) {f g : Nat → List Op} (t : Nat), (∀ i, Each (OpRel σ τ) (f i) (g i)) →
    (∀ o ∈ s, ∃ id, o = .rfStart id) → ∀ i, Each (OpRel σ τ) (spawnAll f t s i) (spawnAll g t s i)
  | [], _, _, _, h, _, i => h i
  | o :: s, f, g, t, h, hs, i => by
    unfold spawnAll
    refine spawnAll_rel s (t + 1) (setThread_rel h t ?_) (fun o ho => hs o (by simp [ho])) i
    obtain ⟨id, rfl⟩ := hs o (by simp)
    exact .cons (.simple trivial) .nil

theorem LogRepl.append {t : Instant} {os os' : List Obs} {l l' : List (Instant × Obs)} (h : Each (ObsRepl σ τ) os os')
    (hl : LogRepl σ τ l l') : LogRepl σ τ ((os.map fun o => (t, o)).reverse ++ l) ((os'.map fun o => (t, o)).reverse ++ l') := by
  induction h generalizing l l' with
  | nil => exact hl
  | cons h _ ih =>
    simp only [List.map_cons, List.reverse_cons, List.append_assoc, List.singleton_append]
    exact ih (.cons h hl)

theorem apply_rel {w v : World} (h : WorldRel σ τ w v) (tid : Nat) {rest rest' : List Op} (hr : Each (OpRel σ τ) rest rest')
    {e f : Eff} (he : EffRel σ τ e f) : WorldRel σ τ (w.apply tid rest e) (v.apply tid rest' f) := by
  cases h with
  | mk hl ht hlog hpq =>
    simp only [World.apply, ← he.spawn, ← he.wakeRef, ← he.wakeNot, ← he.push, ← he.wakeEv, ← he.term]
    exact .mk he.ls (spawnAll_rel _ _ (setThread_rel ht tid (he.next.append hr)) he.simple) (LogRepl.append he.obs hlog) (by simp only; split <;> first | rfl | assumption)

/-- Steps from related states. -/
theorem step_rel {E : Env} {w v w' : World} (h : WorldRel σ τ w v) {a : Action} (hd : ¬ AsksDump a) (hs : w.step E a = some w') :
    ∃ v', v.step E (a.subst σ τ) = some v' ∧ WorldRel σ τ w' v' := by
  have hw := h
  cases h with
  | @mk ls' th' log' p hl ht hlog hpq =>
  subst hpq
  cases hp : w.proc with
  | aborted => simp only [World.step, hp] at hs; cases hs
  | terminated => simp only [World.step, hp] at hs; cases hs
  | running =>
    simp only [World.step, hp] at hs ⊢
    cases a with
    | tick d => cases hs; exact ⟨_, rfl, .mk hl ht hlog (by first | rfl | exact hp)⟩
    | setWall t => cases hs; exact ⟨_, rfl, .mk hl ht hlog (by first | rfl | exact hp)⟩
    | connect buf =>
      simp only [Action.subst] at hs ⊢
      have h0 := ht 0
      split at hs
      · rename_i hemp
        cases hs
        have : (th' 0).isEmpty = true := by
          generalize w.threads 0 = x at h0 hemp
          generalize th' 0 = y at h0
          cases h0 with
          | nil => rfl
          | cons => cases hemp
        refine ⟨_, if_pos this, .mk hl (setThread_rel ht 0 (.cons (.same ?_ ?_ ?_ ?_ ?_ ?_) (.cons (.simple trivial) .nil)))
          (LogRepl.append (.cons (.same _) .nil) hlog) (by first | rfl | exact hp)⟩
        · intro _ h; cases h
        · intro _ h; cases h
        · intro _ h; cases h
        · intro _ h; cases h
        · intro b hb; cases hb; exact fun hc => hd ⟨_, rfl, hc⟩
        · intro _ _ h; cases h
      · cases hs
    | http buf sec =>
      simp only [Action.subst] at hs ⊢
      generalize (if sec = true then w.st.httpsPort else w.st.httpPort).isSome = ok at hs ⊢
      cases ok with
      | false => cases hs
      | true =>
        cases hs
        exact ⟨_, rfl, .mk hl (setThread_rel ht _ (.cons (.simple trivial) .nil)) (LogRepl.append (.cons (.same _) .nil) hlog) (by first | rfl | exact hp)⟩
    | run tid inp =>
      simp only [Action.subst] at hs ⊢
      have ht' := ht tid
      generalize w.threads tid = x at ht' hs
      generalize th' tid = y at ht' ⊢
      cases ht' with
      | nil => cases hs
      | cons ho hr =>
        simp only at hs ⊢
        have hx := exec_rel (E := E) (S := w.st) (now := w.now) (wall := w.wall) hl tid ho inp
        generalize exec E w.st w.now w.wall w.ls tid _ inp = x at hx hs
        generalize exec E w.st w.now w.wall ls' tid _ _ = y at hx ⊢
        cases hx with
        | panic => cases hs; exact ⟨_, rfl, .mk hl ht hlog (by first | rfl | exact hp)⟩
        | disabled => cases hs
        | ok he =>
          cases hs
          have hx := apply_rel hw tid hr he
          rw [hp] at hx
          exact ⟨_, rfl, hx⟩
    | refresher =>
      simp only [Action.subst, World.stepRefresher] at hs ⊢
      have hat : refreshAt w.ls w.now = refreshAt ls' w.now := funext fun id => hl.refreshAt id
      rw [← hl.actIds, ← hat, ← hl.dueIds]
      split at hs
      · split at hs
        · cases hs; exact ⟨_, rfl, .mk hl ht hlog (by first | rfl | exact hp)⟩
        · cases hs; exact ⟨_, rfl, .mk hl ht hlog (by first | rfl | exact hp)⟩
      · split at hs
        · rename_i hw
          cases hs
          exact ⟨_, if_pos hw, .mk hl ht hlog (by first | rfl | exact hp)⟩
        · cases hs
      · split at hs
        · cases hs; exact ⟨_, rfl, .mk hl ht hlog (by first | rfl | exact hp)⟩
        · cases hs
          refine ⟨_, rfl, .mk (th' := spawnAll th' _ _) hl (spawnAll_rel _ _ ht fun o ho => ?_) hlog hp⟩
          obtain ⟨id, _, rfl⟩ := List.mem_map.mp ho
          exact ⟨id, rfl⟩
    | notifier =>
      simp only [Action.subst, World.stepNotifier] at hs ⊢
      have hat : notifyAt w.ls w.now = notifyAt ls' w.now := funext fun id => hl.notifyAt id
      rw [← hl.actIds, ← hat, ← hl.config]
      split at hs
      · split at hs
        · cases hs; exact ⟨_, rfl, .mk hl ht hlog (by first | rfl | exact hp)⟩
        · cases hs; exact ⟨_, rfl, .mk hl ht hlog (by first | rfl | exact hp)⟩
      · split at hs
        · rename_i hw
          cases hs
          exact ⟨_, if_pos hw, .mk hl ht hlog (by first | rfl | exact hp)⟩
        · cases hs
      · have hn := LSRel.notifyLoop (E := E) (now := w.now) (d := w.ls.config.authNotifyInterval) w.ls.actIds hl
        generalize notifyLoop E w.now w.ls.config.authNotifyInterval w.ls.actIds w.ls = x at hn hs
        generalize notifyLoop E w.now w.ls.config.authNotifyInterval w.ls.actIds ls' = y at hn ⊢
        cases hn with
        | none => cases hs; exact ⟨_, rfl, .mk hl ht hlog (by first | rfl | exact hp)⟩
        | @some a b hn =>
          obtain ⟨x, os⟩ := a
          obtain ⟨y, os'⟩ := b
          obtain ⟨h1, rfl⟩ := hn
          cases hs
          exact ⟨_, rfl, .mk (ls' := y) h1 ht (LogRepl.append (Each.refl .same _) hlog) hp⟩
    | eventer =>
      simp only [Action.subst, World.stepEventer] at hs ⊢
      rw [← hl.config]
      split at hs
      · split at hs
        · rename_i hw
          cases hs
          exact ⟨_, if_pos hw, .mk hl ht hlog (by first | rfl | exact hp)⟩
        · cases hs
      · split at hs
        · cases hs; exact ⟨_, rfl, .mk hl ht hlog (by first | rfl | exact hp)⟩
        · cases hs; exact ⟨_, rfl, .mk hl ht hlog (by first | rfl | exact hp)⟩
      · split at hs
        · cases hs; exact ⟨_, rfl, .mk hl ht hlog (by first | rfl | exact hp)⟩
        · cases hs; exact ⟨_, rfl, .mk hl ht (LogRepl.append (.cons (.same _) .nil) hlog) (by first | rfl | exact hp)⟩
      · cases hs; exact ⟨_, rfl, .mk hl ht (LogRepl.append (.cons (.same _) .nil) hlog) (by first | rfl | exact hp)⟩

theorem run_rel {E : Env} : ∀ (l : List Action) {w v w' : World}, WorldRel σ τ w v → (∀ a ∈ l, ¬ AsksDump a) →
    w.run E l = some w' → ∃ v', v.run E (l.map (Action.subst σ τ)) = some v' ∧ WorldRel σ τ w' v'
  | [], w, v, w', h, _, hs => by cases hs; exact ⟨v, rfl, h⟩
  | a :: l, w, v, w', h, hd, hs => by
    unfold World.run at hs
    cases ha : w.step E a with
    | none => rw [ha] at hs; cases hs
    | some w1 =>
      rw [ha] at hs
      obtain ⟨v1, h1, h2⟩ := step_rel h (hd a (by simp)) ha
      obtain ⟨v', h3, h4⟩ := run_rel l h2 (fun a ha => hd a (by simp [ha])) hs
      exact ⟨v', by simp [World.run, h1, h3], h4⟩

end

end Pizauth
