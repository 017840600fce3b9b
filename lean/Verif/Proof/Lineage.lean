import Verif.Spec.Trace
import Verif.Spec.Lineage
import Verif.Proof.Shape

/-!
# Every token has a lineage
-/

namespace Pizauth
open LockedState

/-! ## Executions -/

theorem Steps.reach {E : Env} {w0 w : World} (h : Steps E w0 w) (hr : Reach E w0) : Reach E w := by
  induction h with
  | refl => exact hr
  | step a _ hs ih => exact .step a ih hs

theorem Steps.trans {E : Env} {w0 w1 w2 : World} (h : Steps E w0 w1) (h' : Steps E w1 w2) : Steps E w0 w2 := by
  induction h' with
  | refl => exact h
  | step a _ hs ih => exact .step a ih hs

theorem During.steps {E : Env} {P : World → Prop} {Q : World → Action → World → Prop} {w0 w : World}
    (h : During E P Q w0 w) : Steps E w0 w := by
  induction h with
  | refl => exact .refl
  | step a _ hs _ _ ih => exact .step a ih hs

theorem During.last {E : Env} {P : World → Prop} {Q : World → Action → World → Prop} {w0 w : World}
    (h : During E P Q w0 w) : P w := by
  cases h <;> assumption

theorem Steps.one {E : Env} {w w' : World} {a : Action} (h : w.step E a = some w') : Steps E w w' :=
  .step a .refl h

theorem Reach.steps {E : Env} {w : World} (h : Reach E w) : ∃ w0, IsInit E w0 ∧ Steps E w0 w := by
  induction h with
  | init hi => exact ⟨_, hi, .refl⟩
  | step a _ hs ih => obtain ⟨w0, hi, hst⟩ := ih; exact ⟨w0, hi, .step a hst hs⟩

theorem Steps.induct {E : Env} {w0 : World} (hr : Reach E w0) {P : World → Prop} (hi : P w0)
    (hs : ∀ w a w', Steps E w0 w → Reach E w → Inv0 E w → w.proc = .running → P w → StepR E w a w' → P w') :
    ∀ w, Steps E w0 w → P w := by
  intro w h
  induction h with
  | refl => exact hi
  | @step w w' a hst hstep ih =>
    have hw := hst.reach hr
    obtain ⟨hp, hr'⟩ := stepR_of_step hw.inv0.wf hstep
    exact hs w a w' hst hw hw.inv0 hp ih hr'

theorem Steps.st {E : Env} {w0 w : World} (hr : Reach E w0) (h : Steps E w0 w) : w.st = w0.st := by
  refine Steps.induct hr (P := fun w => w.st = w0.st) rfl ?_ w h
  intro w a w' _ _ _ _ ih hs
  rw [hs.st, ih]

theorem Steps.log {E : Env} {w0 w : World} (hr : Reach E w0) (h : Steps E w0 w) : ∃ l, w.log = l ++ w0.log := by
  refine Steps.induct hr (P := fun w => ∃ l, w.log = l ++ w0.log) ⟨[], rfl⟩ ?_ w h
  rintro w a w' _ _ _ _ ⟨l, ih⟩ hs
  obtain ⟨l', hl⟩ := hs.log
  exact ⟨l' ++ l, by rw [hl, ih, List.append_assoc]⟩

theorem Steps.now {E : Env} {w0 w : World} (hr : Reach E w0) (h : Steps E w0 w) : w0.now ≤ w.now := by
  refine Steps.induct hr (P := fun w => w0.now ≤ w.now) (Int.le_refl _) ?_ w h
  rintro w a w' _ _ _ _ ih hs
  exact Int.le_trans ih hs.now

/-! ## Lineages -/

variable {E : Env} {S : Static} {n : String}

theorem exchangePost_eq (a : Account) (c v r : String) : codeForm a c v r = exchangePost a c v r := rfl
theorem refreshPost_eq (a : Account) (r : String) : refreshForm a r = refreshPost a r := rfl
theorem newRefreshToken_eq (b : Body) (r : String) : rotateRefreshToken b r = newRefreshToken b r := rfl

theorem Lineage.weaken {a : Account} {L : Log} {i : TokInfo} (h : Lineage E S n a L i) (L' : Log) :
    Lineage E S n a (L' ++ L) i := by
  induction L' with
  | nil => exact h
  | cons o L' ih => exact .later ih

theorem Lineage.sameSec {a a' : Account} {L : Log} {i : TokInfo} (hs : SameSec a a') (h : Lineage E S n a L i) :
    Lineage E S n a' L i := by
  induction h with
  | code h1 h2 h3 h4 h5 h6 =>
    rw [redirectUrl_sameSec hs] at h2
    rw [← exchangePost_eq, codeForm_sameSec hs, exchangePost_eq, hs.tokenUri] at h3
    exact .code h1 h2 h3 h4 h5 h6
  | refresh _ h2 h3 h4 h5 h6 ih =>
    rw [← refreshPost_eq, refreshForm_sameSec hs, refreshPost_eq, hs.tokenUri] at h3
    exact .refresh ih h2 h3 h4 h5 h6
  | restored h1 h2 h3 =>
    rw [hs.dump] at h3
    exact .restored h1 h2 h3
  | later _ ih => exact .later ih

theorem issued_of {b : Body} {tok : String} {x : Nat} (h1 : b.str "error" = none)
    (h2 : b.str "token_type" = some "Bearer") (h3 : b.u64 "expires_in" = some x)
    (h4 : b.str "access_token" = some tok) : Issued b tok x := by
  refine ⟨?_, ?_, ?_, ?_⟩
  · intro m hm; simp [Body.str, hm] at h1
  · unfold Body.str at h2; split at h2 <;> simp_all
  · unfold Body.str at h4; split at h4 <;> simp_all
  · unfold Body.u64 at h3; split at h3 <;> simp_all

theorem expiresAfter_of {ls : LockedState} {a : Account} {now : Instant} {x : Nat} {expiry : Instant}
    (h : ExpiryAt ls a now x (some expiry)) : ExpiresAfter now x expiry := by
  unfold ExpiryAt checkedAdd at h
  have hs : ((secs x : Nat) : Int) = (x : Int) * 1000000000 := by unfold secs nsPerSec; omega
  rw [hs] at h
  by_cases hc : now + (x : Int) * 1000000000 ≤ timeMax
  · simp only [hc, if_true, Option.some.injEq] at h
    exact Or.inl ⟨hc, h⟩
  · simp only [hc, if_false] at h
    split at h
    · exact Or.inr ⟨by omega, _, Option.some.inj h⟩
    · cases h

/-- What the log since some moment shows about the token state of account `n`. -/
def EntrySince (E : Env) (S : Static) (n : String) (L : Log) (e : Entry) (a : Account) : Prop :=
  match e.ts with
  | .empty => True
  | .pending _ => ∃ t buf, (t, .request buf) ∈ L ∧ AsksFor buf n
  | .active t => Lineage E S n a L t.info

theorem EntrySince.sameSec {L : Log} {e : Entry} {a a' : Account} (hs : SameSec a a')
    (h : EntrySince E S n L e a) : EntrySince E S n L e a' := by
  unfold EntrySince at h ⊢
  split at h
  · trivial
  · exact h
  · exact h.sameSec hs

theorem EntrySince.weaken {L : Log} {e : Entry} {a : Account}
    (h : EntrySince E S n L e a) (L' : Log) : EntrySince E S n (L' ++ L) e a := by
  unfold EntrySince at h ⊢
  split at h
  · trivial
  · obtain ⟨t, buf, h1, h2⟩ := h; exact ⟨t, buf, List.mem_append_right _ h1, h2⟩
  · exact h.weaken L'

/-- A refresh whose POST (and possibly answer) are in the log. -/
def RfSince (E : Env) (S : Static) (n : String) (L : Log) (c : RfCtx) (P : Log → Prop) (e : Entry) (a : Account) : Prop :=
  e.name = n → ∃ L1 L0 i, L = L1 ++ L0 ∧ Lineage E S n a L0 i ∧ i.rt = some c.refreshToken ∧ P L1

def ExSince (n : String) (P : Prop) (e : Entry) (_ : Account) : Prop := e.name = n → P

/-- What the log since some moment shows about an operation in flight for account `n`. -/
def OpSince (E : Env) (S : Static) (ls : LockedState) (n : String) (L : Log) (now : Instant) (i : Nat) : Op → Prop
  | .unix buf => ∃ t, (t, .request buf) ∈ L
  | .exAwait c _ => OnValid ls c.id (ExSince n
      (∃ t1 t2 buf, AsksFor buf n ∧ [(t2, .post i c.tokenUri c.form), (t1, .request buf)].Sublist L))
  | .exDone c b => OnValid ls c.id (ExSince n
      (∃ t1 t2 t3 buf, AsksFor buf n ∧ t3 ≤ now ∧
        [(t3, .resp i c.tokenUri c.form (.body b)), (t2, .post i c.tokenUri c.form), (t1, .request buf)].Sublist L))
  | .rfAwait c => OnValid ls c.id (RfSince E S n L c fun L1 => ∃ t1, (t1, .post i c.tokenUri c.form) ∈ L1)
  | .rfNow c tok x rt => OnValid ls c.id (RfSince E S n L c fun L1 => ∃ t1 t2 b, t2 ≤ now ∧ Issued b tok x ∧
      rt = newRefreshToken b c.refreshToken ∧
      [(t2, .resp i c.tokenUri c.form (.body b)), (t1, .post i c.tokenUri c.form)].Sublist L1)
  | .rfStore c tok x rt t => OnValid ls c.id (RfSince E S n L c fun L1 => ∃ t1 t2 b, t2 ≤ t ∧ Issued b tok x ∧
      rt = newRefreshToken b c.refreshToken ∧
      [(t2, .resp i c.tokenUri c.form (.body b)), (t1, .post i c.tokenUri c.form)].Sublist L1)
  | _ => True

theorem RfSince.sameSec {L : Log} {c : RfCtx} {P : Log → Prop} (e : Entry) (a a' : Account) (hs : SameSec a a')
    (h : RfSince E S n L c P e a) : RfSince E S n L c P e a' := by
  intro hn
  obtain ⟨L1, L0, i, h1, h2, h3⟩ := h hn
  exact ⟨L1, L0, i, h1, h2.sameSec hs, h3⟩

theorem RfSince.weaken {L : Log} {c : RfCtx} {P Q : Log → Prop} {e : Entry} {a : Account}
    (h : RfSince E S n L c P e a) (L' : Log) (hP : ∀ L1, P L1 → Q (L' ++ L1)) :
    RfSince E S n (L' ++ L) c Q e a := by
  intro hn
  obtain ⟨L1, L0, i, h1, h2, h3, h4⟩ := h hn
  exact ⟨L' ++ L1, L0, i, by rw [h1, List.append_assoc], h2, h3, hP _ h4⟩

theorem OpSince.weaken {ls ls' : LockedState} {L : Log} {now now' : Instant} {i : Nat} {op : Op}
    (h : OpSince E S ls n L now i op) (hev : Evolves ls ls') (hop : OpInv E S ls op) (hnow : now ≤ now') (L' : Log) :
    OpSince E S ls' n (L' ++ L) now' i op := by
  cases op <;> try exact trivial
  case unix buf => obtain ⟨t, ht⟩ := h; exact ⟨t, List.mem_append_right _ ht⟩
  case exAwait c k =>
    refine OnValid.evolves hev hop.1 (fun _ _ _ _ h => h) (P := _) ?_
    intro e a he hid hn
    obtain ⟨t1, t2, buf, h1, h2⟩ := h e a he hid hn
    exact ⟨t1, t2, buf, h1, h2.trans (List.sublist_append_right _ _)⟩
  case exDone c b =>
    refine OnValid.evolves hev hop.1 (fun _ _ _ _ h => h) (P := _) ?_
    intro e a he hid hn
    obtain ⟨t1, t2, t3, buf, h1, h2, h3⟩ := h e a he hid hn
    exact ⟨t1, t2, t3, buf, h1, Int.le_trans h2 hnow, h3.trans (List.sublist_append_right _ _)⟩
  case rfAwait c =>
    refine OnValid.evolves hev hop.1 RfSince.sameSec ?_
    intro e a he hid
    refine (h e a he hid).weaken L' ?_
    rintro L1 ⟨t, ht⟩
    exact ⟨t, List.mem_append_right _ ht⟩
  case rfNow c tok x rt =>
    refine OnValid.evolves hev hop.1 RfSince.sameSec ?_
    intro e a he hid
    refine (h e a he hid).weaken L' ?_
    rintro L1 ⟨t1, t2, b, h1, h2, h3, h4⟩
    exact ⟨t1, t2, b, Int.le_trans h1 hnow, h2, h3, h4.trans (List.sublist_append_right _ _)⟩
  case rfStore c tok x rt t =>
    refine OnValid.evolves hev hop.1 RfSince.sameSec ?_
    intro e a he hid
    refine (h e a he hid).weaken L' ?_
    rintro L1 ⟨t1, t2, b, h1, h2, h3, h4⟩
    exact ⟨t1, t2, b, h1, h2, h3, h4.trans (List.sublist_append_right _ _)⟩

section
variable {now : Instant} {wall : SysTime} {ls : LockedState} {tid : Nat} {op : Op} {inp : Input} {f : Eff} {L : Log}

/-- The observations of an operation, as they appear in the log. -/
def Eff.logs (f : Eff) (now : Instant) : Log := (f.obs.map fun o => (now, o)).reverse

theorem has_put {id : Nat} {ts : TokenState} {e' : Entry} {a : Account} (h : (ls.put id ts).Has e' a) :
    (ls.Has e' a ∧ e'.id ≠ id) ∨ ∃ e, ls.Has e a ∧ e.id = id ∧ e'.name = e.name ∧ e'.ts = ts := by
  obtain ⟨h1, h2⟩ := h
  rw [put_config] at h2
  rcases mem_put.mp h1 with ⟨h1, h3⟩ | ⟨e, he, hid, rfl⟩
  · exact Or.inl ⟨⟨h1, h2⟩, h3⟩
  · exact Or.inr ⟨e, ⟨he, h2⟩, hid, rfl, rfl⟩

theorem has_unique (h : ls.WF) {e e' : Entry} {a a' : Account} (h1 : ls.Has e a) (h2 : ls.Has e' a')
    (hid : e.id = e'.id) : e = e' ∧ a = a' := by
  have := h.entry_id_inj h1.1 h2.1 hid
  subst this
  exact ⟨rfl, by have h3 := h1.2; rw [h2.2] at h3; exact (Option.some.inj h3).symm⟩

/-- Entries after an operation. -/
theorem ExecR.entrySince (hx : ExecR E S now wall ls tid op inp f) (h : ls.WF) (hinst : ∀ c, op = .install c → c.Ok E)
    (hop : OpInv E S ls op)
    (hE : ∀ e a, ls.Has e a → e.name = n → EntrySince E S n L e a) (ho : OpSince E S ls n L now tid op) :
    ∀ e a, f.ls.Has e a → e.name = n → EntrySince E S n (f.logs now ++ L) e a := by
  have hput : ∀ (ls1 : LockedState) (e0 : Entry) (a0 : Account) (ts : TokenState) (L' : Log),
      ls1.details = ls.details → ls1.config = ls.config → ls.Has e0 a0 →
      (e0.name = n → EntrySince E S n L { name := e0.name, id := 0, ts := ts } a0) →
      ∀ e a, (ls1.put e0.id ts).Has e a → e.name = n → EntrySince E S n (L' ++ L) e a := by
    intro ls1 e0 a0 ts L' hd hc h0 hts e a he hn
    rcases has_put he with ⟨he, _⟩ | ⟨e1, he1, hid, hn1, ht1⟩
    · refine (hE e a ⟨hd ▸ he.1, hc ▸ he.2⟩ hn).weaken L'
    · have he1' : ls.Has e1 a := ⟨hd ▸ he1.1, hc ▸ he1.2⟩
      obtain ⟨rfl, rfl⟩ := has_unique h he1' h0 hid
      have := (hts (hn1 ▸ hn)).weaken L'
      unfold EntrySince at this ⊢
      rw [ht1]; exact this
  have hsame : f.ls = ls → ∀ e a, f.ls.Has e a → e.name = n → EntrySince E S n (f.logs now ++ L) e a := by
    intro hf e a he hn
    rw [hf] at he
    exact (hE e a he hn).weaken _
  cases hx <;> try exact hsame rfl
  case auth buf u e0 a0 url ha hreq hurl =>
    refine hput ls e0 a0 _ _ rfl rfl ha ?_
    intro hn
    obtain ⟨t, ht⟩ := ho
    refine ⟨t, _, ht, u, ?_⟩
    rcases hreq with ⟨hr, _⟩ | ⟨hr, _⟩
    · exact Or.inl (hn ▸ hr)
    · exact Or.inr (hn ▸ hr)
  case restoreOk hdec hreq hlen hr =>
    rename_i plain ls'
    obtain ⟨d, hd, hv, hR⟩ := restore_ok h hr
    intro e a he hn
    have hcfg := hR.config
    rcases hR.back e he.1 with ⟨hm, _⟩ | ⟨_, e0, hm0, hn0, hres⟩
    · have : ls.Has e a := ⟨hm, by have := he.2; simp only [hcfg] at this; exact this⟩
      exact (hE e a this hn).weaken _
    · obtain ⟨a0, tok, o, x, rt, ha0, _, hl, hts⟩ := hres
      have haa : a0 = a := by
        have h1 := ha0.2; have h2 := he.2
        simp only [hcfg, hn0] at h1 h2
        rw [h1] at h2; exact Option.some.inj h2
      subst haa
      unfold EntrySince
      rw [hts]
      refine Lineage.restored (t := now) (plain := plain) (d := d) (o := o) (x := x) ?_ hd ?_
      · simp [Eff.logs]
      · have := mem_of_lookup hl
        rw [List.mem_reverse, hn0, hn] at this
        exact this
  case revoke ha hreq =>
    exact hput ls _ _ _ _ rfl rfl ha fun _ => trivial
  case install c ls' hu =>
    have hc := hinst c rfl
    obtain ⟨ls'', h1, h2, h3, h4, h5⟩ := h.updateConf hc.nodup hc.names
    rw [hu] at h1
    cases h1
    intro e a he hn
    obtain ⟨a', ha', hk⟩ := h5 e he.1
    have haa : a' = a := by
      have h2 := he.2
      simp only [h4] at h2
      rw [ha'] at h2; exact Option.some.inj h2
    subst haa
    rcases hk with ⟨o, ho, hs⟩ | ⟨_, hts, _⟩
    · exact ((hE e o ho hn).sameSec hs.symm).weaken _
    · unfold EntrySince; rw [hts]; trivial
  case httpError ha _ _ _ _ _ =>
    exact hput ls _ _ _ _ rfl rfl ha fun _ => trivial
  case exDoneOk c b e0 a0 x tok expiry ha hid h1 h2 h3 h4 h5 =>
    refine hput ls e0 a0 _ _ rfl rfl ha ?_
    intro hn
    obtain ⟨t1, t2, t3, buf, g1, g2, g3⟩ := ho e0 a0 ha hid hn
    obtain ⟨p, y, code, k1, k2, k3, k4⟩ := hop.2 e0 a0 ha hid
    rw [k3, k4, exchangePost_eq] at g3
    exact Lineage.code g1 k2 g3 (issued_of h1 h2 h3 h4) g2 (expiresAfter_of h5)
  case failOk ha hid =>
    exact hput ls _ _ _ _ rfl rfl ha fun _ => trivial
  case rfStartOk e0 a0 t r ha hid hts hon hrt =>
    refine hput ls.bump e0 a0 _ _ rfl rfl ha ?_
    intro hn
    have := hE e0 a0 ha hn
    unfold EntrySince at this ⊢
    rw [hts] at this
    exact this
  case rfStartNoRt ha hid hts hon hrt =>
    exact hput ls.bump _ _ _ _ rfl rfl ha fun _ => trivial
  case rfPermOk ha hid =>
    exact hput ls _ _ _ _ rfl rfl ha fun _ => trivial
  case rfStoreNoExpiry ha hid hex =>
    exact hput ls _ _ _ _ rfl rfl ha fun _ => trivial
  case rfStoreOk c tok x rt t e0 a0 expiry ha hid hex =>
    refine hput ls e0 a0 _ _ rfl rfl ha ?_
    intro hn
    obtain ⟨L1, L0, i, g1, g2, g3, t1, t2, b, g4, g5, g6, g7⟩ := ho e0 a0 ha hid hn
    obtain ⟨t', k1, k2, k3, k4, k5, k6⟩ := hop.2 e0 a0 ha hid
    rw [k4, k5, refreshPost_eq] at g7
    subst g6
    rw [g1]
    exact Lineage.refresh g2 g3 g7 g5 g4 (expiresAfter_of hex)
  case rfTransientCmd e0 a0 t cmd ha hid hts hm hc =>
    refine hput ls e0 a0 _ _ rfl rfl ha ?_
    intro hn
    have := hE e0 a0 ha hn
    unfold EntrySince at this ⊢
    rw [hts] at this
    exact this
  case rfTransientKeep e0 a0 t ha hid hts hm =>
    refine hput ls.bump e0 a0 _ _ rfl rfl ha ?_
    intro hn
    have := hE e0 a0 ha hn
    unfold EntrySince at this ⊢
    rw [hts] at this
    exact this
  case rfCmdOkOk e0 a0 t ha hid hts =>
    refine hput ls e0 a0 _ _ rfl rfl ha ?_
    intro hn
    have := hE e0 a0 ha hn
    unfold EntrySince at this ⊢
    rw [hts] at this
    exact this
  case rfCmdErrOk ha hid =>
    exact hput ls _ _ _ _ rfl rfl ha fun _ => trivial

/-- Operations after an operation. -/
theorem ExecR.opSince (hx : ExecR E S now wall ls tid op inp f) (hop : OpInv E S ls op)
    (hE : ∀ e a, ls.Has e a → e.name = n → EntrySince E S n L e a) (ho : OpSince E S ls n L now tid op) :
    ∀ o ∈ f.next, OpSince E S f.ls n (f.logs now ++ L) now tid o := by
  intro o hm
  cases hx <;> simp at hm <;>
    first
    | exact False.elim hm
    | (subst hm; exact trivial)
    | (rcases hm with rfl | rfl <;> exact trivial)
    | (rcases hm with rfl | rfl | rfl <;> exact trivial)
    | (rcases hm with rfl | rfl | rfl | rfl <;> exact trivial)
    | skip
  case exSend c k =>
    subst hm
    intro e a he hid hn
    obtain ⟨p, _, _, hp, _⟩ := hop.2 e a he hid
    have := hE e a he hn
    unfold EntrySince at this
    rw [hp] at this
    obtain ⟨t, buf, h1, h2⟩ := this
    refine ⟨t, now, buf, h2, ?_⟩
    simp only [Eff.logs, List.map_cons, List.map_nil, List.reverse_singleton, List.singleton_append]
    exact (List.singleton_sublist.mpr h1).cons_cons _
  case exAwaitBody c k b hb =>
    subst hm
    intro e a he hid hn
    obtain ⟨t1, t2, buf, h1, h2⟩ := ho e a he hid hn
    refine ⟨t1, t2, now, buf, h1, Int.le_refl _, ?_⟩
    simp only [Eff.logs, List.map_cons, List.map_nil, List.reverse_singleton, List.singleton_append]
    exact h2.cons_cons _
  case failOk =>
    rcases hm with rfl | hm
    · trivial
    · split at hm <;> simp at hm
      rcases hm with rfl | rfl <;> trivial
  case rfSend c =>
    subst hm
    intro e a he hid hn
    obtain ⟨t, hts, _, hrt, _⟩ := hop.2 e a he hid
    have := hE e a he hn
    unfold EntrySince at this
    rw [hts] at this
    refine ⟨[(now, .post tid c.tokenUri c.form)], L, t.info, ?_, this, hrt, now, by simp⟩
    simp [Eff.logs]
  case rfAwaitOk c b tok x hb h1 h2 h3 h4 =>
    subst hm
    intro e a he hid hn
    obtain ⟨L1, L0, i, g1, g2, g3, t1, g4⟩ := ho e a he hid hn
    refine ⟨(now, .resp tid c.tokenUri c.form (.body b)) :: L1, L0, i, ?_, g2, g3, t1, now, b, Int.le_refl _,
      issued_of (by assumption) (by assumption) (by assumption) (by assumption), newRefreshToken_eq _ _, ?_⟩
    · simp [Eff.logs, g1]
    · exact (List.singleton_sublist.mpr g4).cons_cons _
  case rfNow c tok x rt =>
    subst hm
    intro e a he hid hn
    exact ho e a he hid hn

end

/-- What the log since some moment shows about account `n`. -/
structure Since (E : Env) (n : String) (L : Log) (w : World) : Prop where
  entries : ∀ e a, w.ls.Has e a → e.name = n → EntrySince E w.st n L e a
  ops : ∀ i o, o ∈ w.threads i → OpSince E w.st w.ls n L w.now i o

theorem Since.step {w w' : World} {a : Action} {L : Log} (h0 : Inv0 E w) (hops : OpsInv E w)
    (h : Since E n L w) (hs : StepR E w a w') : ∃ l, w'.log = l ++ w.log ∧ Since E n (l ++ L) w' := by
  have hev := hs.evolves h0
  have hnow := hs.now
  have hold : ∀ l i o, w'.st = w.st → o ∈ w.threads i → OpSince E w'.st w'.ls n (l ++ L) w'.now i o := by
    intro l i o hst ho
    rw [hst]
    exact (h.ops i o ho).weaken hev (hops i o ho) hnow l
  cases hs
  case run tid inp op rest f ht hx =>
    have hop : op ∈ w.threads tid := by rw [ht]; simp
    have hinst : ∀ c, op = .install c → c.Ok E := by rintro c rfl; exact h0.inst tid c hop
    refine ⟨f.logs w.now, rfl, hx.entrySince h0.wf hinst (hops tid op hop) h.entries (h.ops tid op hop), ?_⟩
    intro i o ho
    rcases mem_apply_threads ho with ⟨rfl, ho | ho⟩ | ⟨_, ho, _⟩ | ⟨_, ho, _⟩
    · exact hx.opSince (hops i op hop) h.entries (h.ops i op hop) o ho
    · exact hold _ i o rfl (by rw [ht]; exact List.mem_cons_of_mem _ ho)
    · obtain ⟨_, _, rfl, _⟩ := hx.spawn_rfStart ho; trivial
    · exact hold _ i o rfl ho
  case connect buf hb =>
    refine ⟨[(w.now, .request buf)], rfl, fun e a he hn => (h.entries e a he hn).weaken _, ?_⟩
    intro i o ho
    simp only [setThread] at ho
    split at ho
    · simp at ho; rcases ho with rfl | rfl
      · exact ⟨w.now, by simp⟩
      · trivial
    · exact hold _ i o rfl ho
  case http buf sec hb =>
    refine ⟨[(w.now, .httpReq w.nextTid buf sec)], rfl, fun e a he hn => (h.entries e a he hn).weaken _, ?_⟩
    intro i o ho
    simp only [setThread] at ho
    split at ho
    · simp at ho; subst ho; trivial
    · exact hold _ i o rfl ho
  case refScan es hp he =>
    refine ⟨[], rfl, h.entries, ?_⟩
    intro i o ho
    simp only at ho
    rcases spawnAll_cases w.threads w.nextTid i (es.map fun e => .rfStart e.id) with
      ⟨_, h1⟩ | ⟨_, op, hop, h1⟩ | ⟨_, h1⟩
    · rw [h1] at ho; exact hold _ i o rfl ho
    · rw [h1] at ho
      simp at ho
      subst ho
      simp only [List.mem_map] at hop
      obtain ⟨e, hem, rfl⟩ := hop
      trivial
    · rw [h1] at ho; exact hold _ i o rfl ho
  case notScan ls' hp hn =>
    refine ⟨_, rfl, ?_, fun i o ho => hold _ i o rfl ho⟩
    intro e a he hnm
    have hcfg := hn.config
    rcases hn.back e he.1 with ⟨hm, _⟩ | ⟨e0, he0, p, hp0, hn0, hts, _⟩
    · exact (h.entries e a ⟨hm, by have := he.2; simp only [hcfg] at this; exact this⟩ hnm).weaken _
    · have h1 : w.ls.Has e0 a := ⟨he0, by have := he.2; simp only [hcfg] at this; rw [← hn0]; exact this⟩
      have h2 := (h.entries e0 a h1 (hn0 ▸ hnm)).weaken
        ((w.ls.details.flatMap (authCmdFor E w.ls.config w.now)).map fun o => (w.now, o)).reverse
      unfold EntrySince at h2 ⊢
      rw [(dueEntry_some.mp hp0).1] at h2
      rw [hts]
      exact h2
  all_goals
    first
    | exact ⟨[], rfl, h.entries, fun i o ho => hold [] i o rfl ho⟩
    | exact ⟨[_], rfl, fun e a he hn => (h.entries e a he hn).weaken _, fun i o ho => hold _ i o rfl ho⟩

/-- If account `n` has no token (nor a pending authorisation) and no request is being looked at, then everything
that happens to it later is explained by what happens later. -/
theorem since_of_steps {w0 : World} (hr : Reach E w0) (hempty : ∀ e ∈ w0.ls.details, e.name = n → e.ts = .empty)
    (hidle : ∀ buf, .unix buf ∉ w0.threads 0) {w : World} (hs : Steps E w0 w) :
    ∃ L, w.log = L ++ w0.log ∧ Since E n L w := by
  refine Steps.induct hr (P := fun w => ∃ L, w.log = L ++ w0.log ∧ Since E n L w) ⟨[], rfl, ?_, ?_⟩ ?_ w hs
  · intro e a he hn
    unfold EntrySince
    rw [hempty e he.1 hn]
    trivial
  · intro i o ho
    have hop := Reach.opsInv w0 hr i o ho
    cases o <;> try exact trivial
    case unix buf =>
      obtain ⟨rfl, _⟩ := (Reach.shape w0 hr).unix ho
      exact absurd ho (hidle buf)
    case exAwait c k =>
      intro e a he hid hn
      obtain ⟨p, _, _, hp, _⟩ := hop.2 e a he hid
      rw [hempty e he.1 hn] at hp; cases hp
    case exDone c b =>
      intro e a he hid hn
      obtain ⟨p, _, _, hp, _⟩ := hop.2 e a he hid
      rw [hempty e he.1 hn] at hp; cases hp
    case rfAwait c =>
      intro e a he hid hn
      obtain ⟨p, hp, _⟩ := hop.2 e a he hid
      rw [hempty e he.1 hn] at hp; cases hp
    case rfNow c tok x rt =>
      intro e a he hid hn
      obtain ⟨p, hp, _⟩ := hop.2 e a he hid
      rw [hempty e he.1 hn] at hp; cases hp
    case rfStore c tok x rt t =>
      intro e a he hid hn
      obtain ⟨p, hp, _⟩ := hop.2 e a he hid
      rw [hempty e he.1 hn] at hp; cases hp
  · rintro w a w' _ hw h0 _ ⟨L, hl, ih⟩ hs
    obtain ⟨l, h1, h2⟩ := ih.step h0 (Reach.opsInv w hw) hs
    exact ⟨l ++ L, by rw [h1, hl, List.append_assoc], h2⟩

end Pizauth
