import Verif.Spec.Grant
import Verif.Spec.Tokens
import Verif.Proof.Lineage

/-!
# What an account holds is what it held, or was granted since
-/

namespace Pizauth
open LockedState

variable {E : Env} {S : Static} {n : String} {i0 : TokInfo}

theorem GrantedIn.weaken {a : Account} {L : Log} {tok : String} {rt : Option String} (h : GrantedIn E S n a L tok rt)
    (L' : Log) : GrantedIn E S n a (L' ++ L) tok rt := by
  cases h with
  | code h1 h2 h3 h4 => exact .code h1 (List.mem_append_right _ h2) h3 h4
  | refresh h1 h2 h3 => exact .refresh (List.mem_append_right _ h1) h2 h3
  | restored h1 h2 h3 => exact .restored (List.mem_append_right _ h1) h2 h3

theorem GrantedIn.sameSec {a a' : Account} {L : Log} {tok : String} {rt : Option String} (hs : SameSec a a')
    (h : GrantedIn E S n a L tok rt) : GrantedIn E S n a' L tok rt := by
  cases h with
  | code h1 h2 h3 h4 =>
    rw [redirectUrl_sameSec hs] at h1
    rw [← exchangePost_eq, codeForm_sameSec hs, exchangePost_eq, hs.tokenUri] at h2
    exact .code h1 h2 h3 h4
  | refresh h1 h2 h3 =>
    rw [← refreshPost_eq, refreshForm_sameSec hs, refreshPost_eq, hs.tokenUri] at h1
    exact .refresh h1 h2 h3
  | restored h1 h2 h3 =>
    rw [hs.dump] at h3
    exact .restored h1 h2 h3

/-- What account `n` holds, if it held `i0` when the log was `L` shorter. -/
def EntryNew (E : Env) (S : Static) (n : String) (i0 : TokInfo) (L : Log) (e : Entry) (a : Account) : Prop :=
  match e.ts with
  | .empty | .pending _ => True
  | .active t => t.info = i0 ∨ GrantedIn E S n a L t.accessToken t.refreshToken

theorem EntryNew.sameSec {L : Log} {e : Entry} {a a' : Account} (hs : SameSec a a')
    (h : EntryNew E S n i0 L e a) : EntryNew E S n i0 L e a' := by
  unfold EntryNew at h ⊢
  split at h
  · trivial
  · trivial
  · exact h.imp id fun h => h.sameSec hs

theorem EntryNew.weaken {L : Log} {e : Entry} {a : Account}
    (h : EntryNew E S n i0 L e a) (L' : Log) : EntryNew E S n i0 (L' ++ L) e a := by
  unfold EntryNew at h ⊢
  split at h
  · trivial
  · trivial
  · exact h.imp id fun h => h.weaken L'

def NewFor (n : String) (P : Prop) (e : Entry) (_ : Account) : Prop := e.name = n → P

/-- An answer which an operation is about to store is in the log. -/
def OpNew (ls : LockedState) (n : String) (L : Log) : Op → Prop
  | .exDone c b => OnValid ls c.id (NewFor n (∃ t i, (t, .resp i c.tokenUri c.form (.body b)) ∈ L))
  | .rfNow c tok x rt | .rfStore c tok x rt _ => OnValid ls c.id (NewFor n (∃ t i b,
      (t, .resp i c.tokenUri c.form (.body b)) ∈ L ∧ Issued b tok x ∧ rt = newRefreshToken b c.refreshToken))
  | _ => True

theorem OpNew.weaken {ls ls' : LockedState} {L : Log} {op : Op}
    (h : OpNew ls n L op) (hev : Evolves ls ls') (hop : OpInv E S ls op) (L' : Log) : OpNew ls' n (L' ++ L) op := by
  cases op <;> try exact trivial
  case exDone c b =>
    refine OnValid.evolves hev hop.1 (fun _ _ _ _ h => h) (P := _) ?_
    intro e a he hid hn
    obtain ⟨t, i, h1⟩ := h e a he hid hn
    exact ⟨t, i, List.mem_append_right _ h1⟩
  all_goals
    refine OnValid.evolves hev hop.1 (fun _ _ _ _ h => h) (P := _) ?_
    intro e a he hid hn
    obtain ⟨t, i, b, h1, h2⟩ := h e a he hid hn
    exact ⟨t, i, b, List.mem_append_right _ h1, h2⟩

section
variable {now : Instant} {wall : SysTime} {ls : LockedState} {tid : Nat} {op : Op} {inp : Input} {f : Eff} {L : Log}

theorem ExecR.entryNew (hx : ExecR E S now wall ls tid op inp f) (h : ls.WF) (hinst : ∀ c, op = .install c → c.Ok E)
    (hop : OpInv E S ls op)
    (hE : ∀ e a, ls.Has e a → e.name = n → EntryNew E S n i0 L e a) (ho : OpNew ls n L op) :
    ∀ e a, f.ls.Has e a → e.name = n → EntryNew E S n i0 (f.logs now ++ L) e a := by
  have hput : ∀ (ls1 : LockedState) (e0 : Entry) (a0 : Account) (ts : TokenState) (L' : Log),
      ls1.details = ls.details → ls1.config = ls.config → ls.Has e0 a0 →
      (e0.name = n → EntryNew E S n i0 L { name := e0.name, id := 0, ts := ts } a0) →
      ∀ e a, (ls1.put e0.id ts).Has e a → e.name = n → EntryNew E S n i0 (L' ++ L) e a := by
    intro ls1 e0 a0 ts L' hd hc h0 hts e a he hn
    rcases has_put he with ⟨he, _⟩ | ⟨e1, he1, hid, hn1, ht1⟩
    · refine (hE e a ⟨hd ▸ he.1, hc ▸ he.2⟩ hn).weaken L'
    · have he1' : ls.Has e1 a := ⟨hd ▸ he1.1, hc ▸ he1.2⟩
      obtain ⟨rfl, rfl⟩ := has_unique h he1' h0 hid
      have := (hts (hn1 ▸ hn)).weaken L'
      unfold EntryNew at this ⊢
      rw [ht1]; exact this
  have hsame : f.ls = ls → ∀ e a, f.ls.Has e a → e.name = n → EntryNew E S n i0 (f.logs now ++ L) e a := by
    intro hf e a he hn
    rw [hf] at he
    exact (hE e a he hn).weaken _
  cases hx <;> try exact hsame rfl
  case auth ha hreq hurl => exact hput ls _ _ _ _ rfl rfl ha fun _ => trivial
  case restoreOk hdec hreq hlen hr =>
    rename_i plain ls'
    obtain ⟨d, hd, hv, hR⟩ := restore_ok h hr
    intro e a he hn
    have hcfg := hR.config
    rcases hR.back e he.1 with ⟨hm, _⟩ | ⟨_, e0, hm0, hn0, hres⟩
    · have : ls.Has e a := ⟨hm, by have := he.2; simp only [hcfg] at this; exact this⟩
      exact (hE e a this hn).weaken _
    · obtain ⟨a0, tok, o, x, rt, ha0, _, hl, hts⟩ := hres
      have haa : a0 = a := by
        have h1 := ha0.2; have h2 := he.2
        simp only [hcfg, hn0] at h1 h2
        rw [h1] at h2; exact Option.some.inj h2
      subst haa
      unfold EntryNew
      rw [hts]
      refine Or.inr (GrantedIn.restored (t := now) (plain := plain) (d := d) (o := o) (x := x) ?_ hd ?_)
      · simp [Eff.logs]
      · have := mem_of_lookup hl
        rw [List.mem_reverse, hn0, hn] at this
        exact this
  case revoke ha hreq => exact hput ls _ _ _ _ rfl rfl ha fun _ => trivial
  case install c ls' hu =>
    have hc := hinst c rfl
    obtain ⟨ls'', h1, h2, h3, h4, h5⟩ := h.updateConf hc.nodup hc.names
    rw [hu] at h1
    cases h1
    intro e a he hn
    obtain ⟨a', ha', hk⟩ := h5 e he.1
    have haa : a' = a := by
      have h2 := he.2
      simp only [h4] at h2
      rw [ha'] at h2; exact Option.some.inj h2
    subst haa
    rcases hk with ⟨o, ho, hs⟩ | ⟨_, hts, _⟩
    · exact ((hE e o ho hn).sameSec hs.symm).weaken _
    · unfold EntryNew; rw [hts]; trivial
  case httpError ha _ _ _ _ _ => exact hput ls _ _ _ _ rfl rfl ha fun _ => trivial
  case exDoneOk c b e0 a0 x tok expiry ha hid h1 h2 h3 h4 h5 =>
    refine hput ls e0 a0 _ _ rfl rfl ha ?_
    intro hn
    obtain ⟨t, i, g⟩ := ho e0 a0 ha hid hn
    obtain ⟨p, y, code, k1, k2, k3, k4⟩ := hop.2 e0 a0 ha hid
    rw [k3, k4, exchangePost_eq] at g
    exact Or.inr (.code k2 g (issued_of h1 h2 h3 h4) rfl)
  case failOk ha hid => exact hput ls _ _ _ _ rfl rfl ha fun _ => trivial
  case rfStartOk e0 a0 t r ha hid hts hon hrt =>
    refine hput ls.bump e0 a0 _ _ rfl rfl ha ?_
    intro hn
    have := hE e0 a0 ha hn
    unfold EntryNew at this ⊢
    rw [hts] at this
    exact this
  case rfStartNoRt ha hid hts hon hrt => exact hput ls.bump _ _ _ _ rfl rfl ha fun _ => trivial
  case rfPermOk ha hid => exact hput ls _ _ _ _ rfl rfl ha fun _ => trivial
  case rfStoreNoExpiry ha hid hex => exact hput ls _ _ _ _ rfl rfl ha fun _ => trivial
  case rfStoreOk c tok x rt t e0 a0 expiry ha hid hex =>
    refine hput ls e0 a0 _ _ rfl rfl ha ?_
    intro hn
    obtain ⟨t1, i, b, g1, g2, g3⟩ := ho e0 a0 ha hid hn
    obtain ⟨t', k1, k2, k3, k4, k5, k6⟩ := hop.2 e0 a0 ha hid
    rw [k4, k5, refreshPost_eq] at g1
    exact Or.inr (.refresh g1 g2 g3)
  case rfTransientCmd e0 a0 t cmd ha hid hts hm hc =>
    refine hput ls e0 a0 _ _ rfl rfl ha ?_
    intro hn
    have := hE e0 a0 ha hn
    unfold EntryNew at this ⊢
    rw [hts] at this
    exact this
  case rfTransientKeep e0 a0 t ha hid hts hm =>
    refine hput ls.bump e0 a0 _ _ rfl rfl ha ?_
    intro hn
    have := hE e0 a0 ha hn
    unfold EntryNew at this ⊢
    rw [hts] at this
    exact this
  case rfCmdOkOk e0 a0 t ha hid hts =>
    refine hput ls e0 a0 _ _ rfl rfl ha ?_
    intro hn
    have := hE e0 a0 ha hn
    unfold EntryNew at this ⊢
    rw [hts] at this
    exact this
  case rfCmdErrOk ha hid => exact hput ls _ _ _ _ rfl rfl ha fun _ => trivial

theorem ExecR.opNew (hx : ExecR E S now wall ls tid op inp f) (ho : OpNew ls n L op) :
    ∀ o ∈ f.next, OpNew f.ls n (f.logs now ++ L) o := by
  intro o hm
  cases hx <;> simp at hm <;>
    first
    | exact False.elim hm
    | (subst hm; exact trivial)
    | (rcases hm with rfl | rfl <;> exact trivial)
    | (rcases hm with rfl | rfl | rfl <;> exact trivial)
    | (rcases hm with rfl | rfl | rfl | rfl <;> exact trivial)
    | skip
  case exAwaitBody c k b hb =>
    subst hm
    intro e a he hid hn
    exact ⟨now, tid, by simp [Eff.logs]⟩
  case failOk =>
    rcases hm with rfl | hm
    · trivial
    · split at hm <;> simp at hm
      rcases hm with rfl | rfl <;> trivial
  case rfAwaitOk c b tok x hb h1 h2 h3 h4 =>
    subst hm
    intro e a he hid hn
    exact ⟨now, tid, b, by simp [Eff.logs],
      issued_of (by assumption) (by assumption) (by assumption) (by assumption), newRefreshToken_eq _ _⟩
  case rfNow c tok x rt =>
    subst hm
    intro e a he hid hn
    exact ho e a he hid hn

end

/-- What happened to account `n` while the log grew by `L`, if it held `i0` before. -/
structure New (E : Env) (n : String) (i0 : TokInfo) (L : Log) (w : World) : Prop where
  entries : ∀ e a, w.ls.Has e a → e.name = n → EntryNew E w.st n i0 L e a
  ops : ∀ i o, o ∈ w.threads i → OpNew w.ls n L o

theorem New.step {w w' : World} {a : Action} {L : Log} (h0 : Inv0 E w) (hops : OpsInv E w)
    (h : New E n i0 L w) (hs : StepR E w a w') : ∃ l, w'.log = l ++ w.log ∧ New E n i0 (l ++ L) w' := by
  have hev := hs.evolves h0
  have hold : ∀ l i o, o ∈ w.threads i → OpNew w'.ls n (l ++ L) o := by
    intro l i o ho
    exact (h.ops i o ho).weaken hev (hops i o ho) l
  cases hs
  case run tid inp op rest f ht hx =>
    have hop : op ∈ w.threads tid := by rw [ht]; simp
    have hinst : ∀ c, op = .install c → c.Ok E := by rintro c rfl; exact h0.inst tid c hop
    refine ⟨f.logs w.now, rfl, hx.entryNew h0.wf hinst (hops tid op hop) h.entries (h.ops tid op hop), ?_⟩
    intro i o ho
    rcases mem_apply_threads ho with ⟨rfl, ho | ho⟩ | ⟨_, ho, _⟩ | ⟨_, ho, _⟩
    · exact hx.opNew (h.ops i op hop) o ho
    · exact hold _ i o (by rw [ht]; exact List.mem_cons_of_mem _ ho)
    · obtain ⟨_, _, rfl, _⟩ := hx.spawn_rfStart ho; trivial
    · exact hold _ i o ho
  case connect buf hb =>
    refine ⟨[(w.now, .request buf)], rfl, fun e a he hn => (h.entries e a he hn).weaken _, ?_⟩
    intro i o ho
    simp only [setThread] at ho
    split at ho
    · simp at ho; rcases ho with rfl | rfl <;> trivial
    · exact hold _ i o ho
  case http buf sec hb =>
    refine ⟨[(w.now, .httpReq w.nextTid buf sec)], rfl, fun e a he hn => (h.entries e a he hn).weaken _, ?_⟩
    intro i o ho
    simp only [setThread] at ho
    split at ho
    · simp at ho; subst ho; trivial
    · exact hold _ i o ho
  case refScan es hp he =>
    refine ⟨[], rfl, h.entries, ?_⟩
    intro i o ho
    simp only at ho
    rcases spawnAll_cases w.threads w.nextTid i (es.map fun e => .rfStart e.id) with
      ⟨_, h1⟩ | ⟨_, op, hop, h1⟩ | ⟨_, h1⟩
    · rw [h1] at ho; exact hold _ i o ho
    · rw [h1] at ho
      simp at ho
      subst ho
      simp only [List.mem_map] at hop
      obtain ⟨e, hem, rfl⟩ := hop
      trivial
    · rw [h1] at ho; exact hold _ i o ho
  case notScan ls' hp hn =>
    refine ⟨_, rfl, ?_, fun i o ho => hold _ i o ho⟩
    intro e a he hnm
    have hcfg := hn.config
    rcases hn.back e he.1 with ⟨hm, _⟩ | ⟨e0, he0, p, hp0, hn0, hts, _⟩
    · exact (h.entries e a ⟨hm, by have := he.2; simp only [hcfg] at this; exact this⟩ hnm).weaken _
    · unfold EntryNew
      rw [hts]
      trivial
  all_goals
    first
    | exact ⟨[], rfl, h.entries, fun i o ho => hold [] i o ho⟩
    | exact ⟨[_], rfl, fun e a he hn => (h.entries e a he hn).weaken _, fun i o ho => hold _ i o ho⟩

/-- From a moment on at which `n` holds a token which is not being refreshed. -/
theorem new_of_steps {w0 : World} {t0 : ActiveTok} (hr : Reach E w0) (ht : HoldsToken w0.ls n t0)
    (hg : t0.ongoing = false) {w : World} (hs : Steps E w0 w) :
    ∃ L, w.log = L ++ w0.log ∧ New E n t0.info L w := by
  obtain ⟨e0, he0, hn0, hts0⟩ := ht
  have same : ∀ e a, w0.ls.Has e a → e.name = n → e.ts = .active t0 := by
    intro e a he hn
    rw [hr.inv0.wf.entry_name_inj he.1 he0 (hn.trans hn0.symm)]; exact hts0
  refine Steps.induct hr (P := fun w => ∃ L, w.log = L ++ w0.log ∧ New E n t0.info L w) ⟨[], rfl, ?_, ?_⟩ ?_ w hs
  · intro e a he hn
    unfold EntryNew
    rw [same e a he hn]
    exact Or.inl rfl
  · intro i o ho
    have hop := Reach.opsInv w0 hr i o ho
    cases o <;> try exact trivial
    case exDone c b =>
      intro e a he hid hn
      obtain ⟨p, _, _, hp, _⟩ := hop.2 e a he hid
      rw [same e a he hn] at hp; cases hp
    all_goals
      intro e a he hid hn
      obtain ⟨p, hp, hon, _⟩ := hop.2 e a he hid
      rw [same e a he hn] at hp
      cases hp
      rw [hg] at hon; cases hon
  · rintro w a w' _ hw h0 _ ⟨L, hl, ih⟩ hs
    obtain ⟨l, h1, h2⟩ := ih.step h0 (Reach.opsInv w hw) hs
    exact ⟨l ++ L, by rw [h1, hl, List.append_assoc], h2⟩

/-- A step which makes an account hold a token which it did not hold leaves that token not being refreshed. -/
theorem StepR.new_not_ongoing {w w' : World} {a : Action} (h0 : Inv0 E w) (hs : StepR E w a w') {t : ActiveTok}
    (ht : HoldsToken w'.ls n t) (hnew : ∀ t', HoldsToken w.ls n t' → t'.info ≠ t.info) : t.ongoing = false := by
  obtain ⟨e, he, hn, hts⟩ := ht
  have hold : e ∈ w.ls.details → t.ongoing = false := fun h => absurd rfl (hnew t ⟨e, h, hn, hts⟩)
  have hput : ∀ (ls1 : LockedState) (e0 : Entry) (a0 : Account) (ts : TokenState), ls1.details = w.ls.details →
      w.ls.Has e0 a0 → (ts = .active t → e0.name = n → t.ongoing = false) → e ∈ (ls1.put e0.id ts).details →
      t.ongoing = false := by
    intro ls1 e0 a0 ts hd ha hk he
    rcases mem_put.mp he with ⟨h1, _⟩ | ⟨e1, he1, hid, rfl⟩
    · exact hold (hd ▸ h1)
    · have := h0.wf.entry_id_inj (hd ▸ he1) ha.1 hid
      subst this
      exact hk hts hn
  have keep : ∀ (e0 : Entry) (a0 : Account) (t1 t2 : ActiveTok), w.ls.Has e0 a0 → e0.ts = .active t1 → t2.info = t1.info →
      TokenState.active t2 = .active t → e0.name = n → t.ongoing = false := by
    intro e0 a0 t1 t2 ha h1 h2 h3 h4
    cases h3
    exact absurd h2.symm (hnew t1 ⟨e0, ha.1, h4, h1⟩)
  cases hs <;> try exact hold he
  case run tid inp op rest f hth hx =>
    simp only [World.apply] at he
    cases hx <;> try exact hold he
    case auth ha _ _ => exact hput w.ls _ _ _ rfl ha (fun h => by cases h) he
    case restoreOk hr =>
      obtain ⟨d, hd, hv, hR⟩ := restore_ok h0.wf hr
      rcases hR.back e he with ⟨hm, _⟩ | ⟨_, e0, hm0, hn0, hres⟩
      · exact hold hm
      · obtain ⟨a0, tok, o, x, rt, ha0, _, hl, hts'⟩ := hres
        rw [hts] at hts'
        cases hts'
        rfl
    case revoke ha _ => exact hput w.ls _ _ _ rfl ha (fun h => by cases h) he
    case install c ls' hu =>
      have hc := h0.inst tid c (by rw [hth]; simp)
      obtain ⟨ls'', h1, h2, h3, h4, h5⟩ := h0.wf.updateConf hc.nodup hc.names
      rw [hu] at h1
      cases h1
      obtain ⟨a', ha', ⟨o, ho, _⟩ | ⟨_, hts', _⟩⟩ := h5 e he
      · exact hold ho.1
      · rw [hts] at hts'; cases hts'
    case httpError ha _ _ _ _ _ => exact hput w.ls _ _ _ rfl ha (fun h => by cases h) he
    case exDoneOk ha _ _ _ _ _ _ => exact hput w.ls _ _ _ rfl ha (fun h _ => by cases h; rfl) he
    case failOk ha _ => exact hput w.ls _ _ _ rfl ha (fun h => by cases h) he
    case rfStartOk ha _ hts _ _ => exact (fun k => hput w.ls.bump _ _ _ rfl ha k he) fun h => keep _ _ _ _ ha hts (by rfl) h
    case rfStartNoRt ha _ _ _ _ => exact hput w.ls.bump _ _ _ rfl ha (fun h => by cases h) he
    case rfPermOk ha _ => exact hput w.ls _ _ _ rfl ha (fun h => by cases h) he
    case rfStoreNoExpiry ha _ _ => exact hput w.ls _ _ _ rfl ha (fun h => by cases h) he
    case rfStoreOk ha _ _ => exact hput w.ls _ _ _ rfl ha (fun h _ => by cases h; rfl) he
    case rfTransientCmd ha _ hts _ _ => exact (fun k => hput w.ls _ _ _ rfl ha k he) fun h => keep _ _ _ _ ha hts (by rfl) h
    case rfTransientKeep ha _ hts _ => exact (fun k => hput w.ls.bump _ _ _ rfl ha k he) fun h => keep _ _ _ _ ha hts (by rfl) h
    case rfCmdOkOk ha _ hts => exact (fun k => hput w.ls _ _ _ rfl ha k he) fun h => keep _ _ _ _ ha hts (by rfl) h
    case rfCmdErrOk ha _ => exact hput w.ls _ _ _ rfl ha (fun h => by cases h) he
  case notScan ls' hp hn' =>
    rcases hn'.back e he with ⟨hm, _⟩ | ⟨e0, he0, p, hp0, hn0, hts', _⟩
    · exact hold hm
    · rw [hts] at hts'; cases hts'

end Pizauth
