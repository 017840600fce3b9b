import Verif.Spec.Refresh
import Verif.Proof.Ids
import Verif.Proof.Requests

/-!
# Refreshes in flight
-/

namespace Pizauth
open LockedState

variable {E : Env}

theorem Op.accId_of_refreshHandle {o : Op} {h : Nat} (hh : o.refreshHandle = some h) : o.accId = some h := by
  cases o <;> first | exact hh | cases hh

theorem Op.isCore_of_refreshHandle {o : Op} {h : Nat} (hh : o.refreshHandle = some h) : o.isCore = true :=
  Op.isCore_of_accId (Op.accId_of_refreshHandle hh)

/-- A thread that refreshes has nothing else to do. -/
theorem ShapeInv.refreshing {w : World} (hs : ShapeInv w) {i : Nat} {o : Op} {h : Nat} (ho : o ∈ w.threads i)
    (hh : o.refreshHandle = some h) : i ≠ 0 ∧ w.threads i = [o] := by
  obtain ⟨h0, h1 | ⟨b, c, rfl, _⟩⟩ := hs.core (Op.isCore_of_refreshHandle hh) ho
  · exact ⟨h0, h1⟩
  · cases hh

section
variable {S : Static} {now : Instant} {wall : SysTime} {ls : LockedState} {tid : Nat}
  {op : Op} {inp : Input} {f : Eff}

/-- Where a mark comes from. -/
theorem ExecR.marked (hx : ExecR E S now wall ls tid op inp f) (h : ls.WF) (hinst : ∀ c, op = .install c → c.Ok E)
    {e' : Entry} {t : ActiveTok} (he' : e' ∈ f.ls.details) (hts : e'.ts = .active t) (hon : t.ongoing = true) :
    (e' ∈ ls.details ∧ op.refreshHandle ≠ some e'.id) ∨ ∃ o ∈ f.next, o.refreshHandle = some e'.id := by
  have hput : ∀ (ls1 : LockedState) (e0 : Entry) (a0 : Account) (ts : TokenState) (P : Prop), ls1.details = ls.details →
      ls.Has e0 a0 → (op.refreshHandle = some e0.id ∨ op.refreshHandle = none) →
      e' ∈ (ls1.put e0.id ts).details → (ts = .active t → e'.id = ls1.accountCount → P) →
      (e' ∈ ls.details ∧ op.refreshHandle ≠ some e'.id) ∨ P := by
    intro ls1 e0 a0 ts P hd ha hoh hm hP
    rcases mem_put.mp hm with ⟨hm1, hne⟩ | ⟨e1, hm1, hid, rfl⟩
    · refine .inl ⟨hd ▸ hm1, ?_⟩
      rcases hoh with hoh | hoh <;> rw [hoh]
      · intro hc; exact hne (Option.some.inj hc).symm
      · simp
    · exact .inr (hP hts rfl)
  have old : ∀ id, op.refreshHandle = some id → (∀ e ∈ ls.details, e.id ≠ id) → e' ∈ ls.details →
      (e' ∈ ls.details ∧ op.refreshHandle ≠ some e'.id) := by
    intro id hid hn hm
    refine ⟨hm, fun hc => hn e' hm ?_⟩
    rw [hid] at hc; exact (Option.some.inj hc).symm
  have keep : ∀ id, op.refreshHandle = some id → (∃ o ∈ f.next, o.refreshHandle = some id) → e' ∈ ls.details →
      (e' ∈ ls.details ∧ op.refreshHandle ≠ some e'.id) ∨ ∃ o ∈ f.next, o.refreshHandle = some e'.id := by
    intro id hid hn hm
    by_cases hc : e'.id = id
    · exact .inr (hc ▸ hn)
    · exact .inl ⟨hm, fun h => hc (by rw [hid] at h; exact (Option.some.inj h).symm)⟩
  cases hx <;>
    first
    | (refine .inl ⟨he', ?_⟩; intro hc; cases hc; done)
    | exact keep _ rfl ⟨_, List.mem_singleton.mpr rfl, rfl⟩ he'
    | exact .inl (old _ rfl (by assumption) he')
    | skip
  case auth ha _ _ => exact hput ls _ _ _ _ rfl ha (.inr rfl) he' nofun
  case restoreOk d plain ls' h1 h2 h3 h4 =>
    obtain ⟨d, _, _, hr⟩ := restore_ok h h4
    rcases hr.back e' he' with ⟨hm, _⟩ | ⟨_, e, he, hn, a, tok, o, x, rt, _, _, _, hts'⟩
    · exact .inl ⟨hm, nofun⟩
    · rw [hts] at hts'
      cases hts'
      cases hon
  case install c ls' hu =>
    have hc := hinst c rfl
    obtain ⟨ls'', h1, h2, h3, h4, h5⟩ := h.updateConf hc.nodup hc.names
    rw [hu] at h1
    cases h1
    obtain ⟨a, _, ⟨o, ho, _⟩ | ⟨_, hts', _⟩⟩ := h5 e' he'
    · exact .inl ⟨ho.1, nofun⟩
    · rw [hts] at hts'; cases hts'
  case revoke ha _ => exact hput ls _ _ _ _ rfl ha (.inr rfl) he' nofun
  case httpError ha _ _ _ _ _ => exact hput ls _ _ _ _ rfl ha (.inr rfl) he' nofun
  case exDoneOk ha hid h1 h2 h3 h4 h5 =>
    refine hput ls _ _ _ _ rfl ha (.inr rfl) he' (fun hc _ => ?_)
    cases hc; cases hon
  case failOk ha hid => exact hput ls _ _ _ _ rfl ha (.inr rfl) he' nofun
  case rfStartOk ha hid hts' hon' hrt =>
    exact hput ls.bump _ _ _ _ rfl ha (.inr rfl) he' (fun _ hc => ⟨_, List.mem_singleton.mpr rfl, congrArg some hc.symm⟩)
  case rfStartNoRt ha hid hts' hon' hrt => exact hput ls.bump _ _ _ _ rfl ha (.inr rfl) he' nofun
  case rfPermOk ha hid => exact hput ls _ _ _ _ rfl ha (.inl (congrArg some hid.symm)) he' nofun
  case rfStoreNoExpiry ha hid hex => exact hput ls _ _ _ _ rfl ha (.inl (congrArg some hid.symm)) he' nofun
  case rfStoreOk ha hid hex =>
    refine hput ls _ _ _ _ rfl ha (.inl (congrArg some hid.symm)) he' (fun hc _ => ?_)
    cases hc; cases hon
  case rfTransientCmd ha hid hts' hm hc =>
    exact hput ls _ _ _ _ rfl ha (.inl (congrArg some hid.symm))
      he' (fun _ hc => ⟨_, List.mem_singleton.mpr rfl, congrArg some hc.symm⟩)
  case rfTransientKeep ha hid hts' hm =>
    refine hput ls.bump _ _ _ _ rfl ha (.inl (congrArg some hid.symm)) he' (fun hc _ => ?_)
    cases hc; cases hon
  case rfCmdOkOk ha hid hts' =>
    refine hput ls _ _ _ _ rfl ha (.inl (congrArg some hid.symm)) he' (fun hc _ => ?_)
    cases hc; cases hon
  case rfCmdErrOk ha hid => exact hput ls _ _ _ _ rfl ha (.inl (congrArg some hid.symm)) he' nofun

/-- A handle is passed on, or new. -/
theorem ExecR.next_handle (hx : ExecR E S now wall ls tid op inp f) {o : Op} (ho : o ∈ f.next) {j : Nat}
    (hj : o.refreshHandle = some j) : op.refreshHandle = some j ∨ ls.accountCount ≤ j := by
  rcases hx.next_id ho (Op.accId_of_refreshHandle hj) with h | ⟨e, _, _, h, _⟩ | ⟨_, _, _, _, _, _, _, _, _, _, _, _, _, _, _, rfl, _⟩
  · cases hx <;> simp only [List.mem_cons, List.not_mem_nil, or_false] at ho <;>
      first
      | exact .inl h
      | exact ho.elim
      | (subst ho; cases hj; done)
      | (rcases ho with rfl | rfl <;> cases hj; done)
      | (rcases ho with rfl | rfl | rfl <;> cases hj; done)
      | (rcases ho with rfl | rfl | rfl | rfl <;> cases hj; done)
      | skip
    case rfStartOk => subst ho; simp [Op.refreshHandle] at hj; omega
    case failOk =>
      rcases ho with rfl | ho
      · cases hj
      · split at ho <;> simp at ho
        rcases ho with rfl | rfl <;> cases hj
  · exact .inr h
  · cases hj

end

/-- Handles are unique, and every mark has its thread. -/
structure RefInv (w : World) : Prop where
  unique : ∀ i j h, Refreshing w i h → Refreshing w j h → i = j
  marked : ∀ e ∈ w.ls.details, ∀ t, e.ts = .active t → t.ongoing = true → ∃ i, Refreshing w i e.id

theorem Reach.handle_lt {w : World} (hr : Reach E w) {i h : Nat} (hh : Refreshing w i h) : h < w.ls.accountCount := by
  obtain ⟨o, ho, hoh⟩ := hh
  exact (Reach.opsInv w hr i o ho).accId_lt (Op.accId_of_refreshHandle hoh)

theorem spawnAll_refreshing {w w' : World} {ops : List Op} (hw : w'.threads = spawnAll w.threads w.nextTid ops)
    (hops : ∀ o ∈ ops, o.refreshHandle = none) {i h : Nat} (hi : Refreshing w' i h) : Refreshing w i h := by
  obtain ⟨o, ho, hh⟩ := hi
  rw [hw] at ho
  rcases spawnAll_cases w.threads w.nextTid i ops with ⟨_, h1⟩ | ⟨_, op, hop, h1⟩ | ⟨_, h1⟩ <;> rw [h1] at ho
  · exact ⟨o, ho, hh⟩
  · simp at ho; subst ho; rw [hops _ hop] at hh; cases hh
  · exact ⟨o, ho, hh⟩

theorem RefInv.step {w w' : World} {a : Action} (hr : Reach E w) (h : RefInv w) (hs : StepR E w a w') :
    RefInv w' := by
  have h0 := hr.inv0
  have hsh := Reach.shape w hr
  cases hs <;> try exact ⟨h.unique, h.marked⟩
  case connect buf hb =>
    have key : ∀ i k, Refreshing { w with threads := setThread w.threads 0 [.unix buf, .close], log := (w.now, .request buf) :: w.log } i k ↔
        Refreshing w i k := by
      intro i k
      unfold Refreshing
      simp only [setThread]
      by_cases hi : i = 0
      · subst hi; simp [hb, Op.refreshHandle]
      · simp [hi]
    refine ⟨fun i j k h1 h2 => h.unique i j k ((key _ _).mp h1) ((key _ _).mp h2), ?_⟩
    intro e he t h1 h2
    obtain ⟨i, hi⟩ := h.marked e he t h1 h2
    exact ⟨i, (key _ _).mpr hi⟩
  case http buf sec hb =>
    have hn := h0.tids w.nextTid (Nat.le_refl _)
    have key : ∀ i k, Refreshing { w with threads := setThread w.threads w.nextTid [.http buf sec], nextTid := w.nextTid + 1, log := (w.now, .httpReq w.nextTid buf sec) :: w.log } i k ↔
        Refreshing w i k := by
      intro i k
      unfold Refreshing
      simp only [setThread]
      by_cases hi : i = w.nextTid
      · subst hi; simp [hn, Op.refreshHandle]
      · simp [hi]
    refine ⟨fun i j k h1 h2 => h.unique i j k ((key _ _).mp h1) ((key _ _).mp h2), ?_⟩
    intro e he t h1 h2
    obtain ⟨i, hi⟩ := h.marked e he t h1 h2
    exact ⟨i, (key _ _).mpr hi⟩
  case run tid inp op rest f ht hx =>
    have htl := h0.tid_lt ht
    have hmem : op ∈ w.threads tid := by rw [ht]; simp
    -- refreshing threads of the new state
    have back : ∀ i k, Refreshing (w.apply tid rest f) i k →
        (i ≠ tid ∧ Refreshing w i k) ∨ (i = tid ∧ (Refreshing w tid k ∨ w.ls.accountCount ≤ k)) := by
      rintro i k ⟨o, ho, hk⟩
      rcases mem_apply_threads ho with ⟨rfl, ho | ho⟩ | ⟨_, ho, _⟩ | ⟨hne, ho, _⟩
      · rcases hx.next_handle ho hk with h1 | h1
        · exact .inr ⟨rfl, .inl ⟨op, hmem, h1⟩⟩
        · exact .inr ⟨rfl, .inr h1⟩
      · exact .inr ⟨rfl, .inl ⟨o, by rw [ht]; exact List.mem_cons_of_mem _ ho, hk⟩⟩
      · obtain ⟨e, _, rfl, _⟩ := hx.spawn_rfStart ho; cases hk
      · exact .inl ⟨hne, o, ho, hk⟩
    refine ⟨?_, ?_⟩
    · intro i j k h1 h2
      have lt : ∀ i, Refreshing w i k → ¬ w.ls.accountCount ≤ k := fun i hi => by have := hr.handle_lt hi; omega
      rcases back i k h1 with ⟨n1, k1⟩ | ⟨e1, k1⟩ <;> rcases back j k h2 with ⟨n2, k2⟩ | ⟨e2, k2⟩
      · exact h.unique i j k k1 k2
      · rcases k2 with k2 | k2
        · rw [e2]; exact h.unique i _ k k1 k2
        · exact absurd k2 (lt _ k1)
      · rcases k1 with k1 | k1
        · rw [e1]; exact h.unique _ j k k1 k2
        · exact absurd k1 (lt _ k2)
      · rw [e1, e2]
    · intro e he t h1 h2
      rcases hx.marked h0.wf (by rintro c rfl; exact h0.inst tid c hmem) he h1 h2 with ⟨he, hne⟩ | ⟨o, ho, hoh⟩
      · obtain ⟨i, o, ho, hk⟩ := h.marked e he t h1 h2
        by_cases hi : i = tid
        · subst hi
          have := (hsh.refreshing ho hk).2
          rw [ht] at this
          cases this
          exact absurd hk hne
        · refine ⟨i, o, ?_, hk⟩
          have : i < w.nextTid := by
            rcases Nat.lt_or_ge i w.nextTid with h | h
            · exact h
            · rw [h0.tids i h] at ho; simp at ho
          rw [apply_threads_other this hi]; exact ho
      · exact ⟨tid, o, by rw [apply_threads_self htl]; simp [ho], hoh⟩
  case refScan es hp he =>
    refine ⟨fun i j k h1 h2 => h.unique i j k ?_ ?_, ?_⟩
    · exact spawnAll_refreshing rfl (by simp [Op.refreshHandle]) h1
    · exact spawnAll_refreshing rfl (by simp [Op.refreshHandle]) h2
    · intro e he t h1 h2
      obtain ⟨i, o, ho, hk⟩ := h.marked e he t h1 h2
      refine ⟨i, o, ?_, hk⟩
      simp only
      have : i < w.nextTid := by
        rcases Nat.lt_or_ge i w.nextTid with h | h
        · exact h
        · rw [h0.tids i h] at ho; simp at ho
      rw [spawnAll_lt _ _ _ _ this]; exact ho
  case notScan ls' hp hn =>
    refine ⟨h.unique, ?_⟩
    intro e he t h1 h2
    rcases hn.back e he with ⟨hm, _⟩ | ⟨e0, he0, p, hp0, hn0, hts, _⟩
    · exact h.marked e hm t h1 h2
    · rw [h1] at hts; cases hts

/-- A worker thread changes only by its own steps. -/
theorem StepR.threads_other {w w' : World} {a : Action} {i : Nat} (hs : StepR E w a w') (hi : i < w.nextTid)
    (h0 : i ≠ 0) (ha : ∀ inp, a ≠ .run i inp) : w'.threads i = w.threads i := by
  cases hs <;> try rfl
  case connect => simp only; rw [setThread_ne _ h0]
  case http => simp only; rw [setThread_ne _ (by omega)]
  case run tid inp op rest f ht hx =>
    exact apply_threads_other hi (by rintro rfl; exact ha inp rfl) rest f
  case refScan => simp only; rw [spawnAll_lt _ _ _ _ hi]

theorem StepR.nextTid {w w' : World} {a : Action} (hs : StepR E w a w') : w.nextTid ≤ w'.nextTid := by
  cases hs <;> simp [World.apply]

/-- How many more steps a thread which refreshes makes at most until it is done. -/
def Op.refreshLeft : Op → Nat
  | .rfSend _ => 6
  | .rfAwait _ => 5
  | .rfTransient _ => 4
  | .rfCmd _ _ _ => 3
  | .rfCmdWait _ _ | .rfNow _ _ _ _ => 2
  | _ => 1

theorem ExecR.refresh_next {S : Static} {now : Instant} {wall : SysTime} {ls : LockedState} {tid : Nat} {op : Op}
    {inp : Input} {f : Eff} (hx : ExecR E S now wall ls tid op inp f) {h : Nat} (hh : op.refreshHandle = some h) :
    (∃ o h', f.next = [o] ∧ o.refreshHandle = some h' ∧ o.refreshLeft + 1 ≤ op.refreshLeft) ∨
    ∀ o ∈ f.next, o.isTail = true := by
  cases hx <;> simp only [Op.refreshHandle, reduceCtorEq] at hh <;>
    first
    | (right; simp [Op.isTail]; done)
    | (left; refine ⟨_, _, rfl, rfl, ?_⟩; simp [Op.refreshLeft]; done)

theorem StepsOf.steps {i k : Nat} {w0 w : World} (h : StepsOf E i w0 k w) : Steps E w0 w := by
  induction h with
  | refl => exact .refl
  | other a _ hs _ ih => exact .step a ih hs
  | own inp _ hs ih => exact .step _ ih hs

theorem StepsOf.refresh {i k : Nat} {w0 w : World} (hr : Reach E w0) {h : Nat} (hi : Refreshing w0 i h)
    (hs : StepsOf E i w0 k w) :
    i ≠ 0 ∧ i < w.nextTid ∧ ((∃ o h', w.threads i = [o] ∧ o.refreshHandle = some h' ∧ o.refreshLeft + k ≤ 6) ∨
      ∀ o ∈ w.threads i, o.isTail = true) := by
  induction hs with
  | refl =>
    obtain ⟨o, ho, hh⟩ := hi
    obtain ⟨h0, ht⟩ := (Reach.shape _ hr).refreshing ho hh
    refine ⟨h0, hr.inv0.tid_lt ht, .inl ⟨o, h, ht, hh, ?_⟩⟩
    cases o <;> simp [Op.refreshLeft]
  | @other k w w' a hst hstep ha ih =>
    obtain ⟨h0, hlt, ih⟩ := ih
    have hw := hst.steps.reach hr
    have hsr := (stepR_of_step hw.inv0.wf hstep).2
    refine ⟨h0, Nat.lt_of_lt_of_le hlt hsr.nextTid, ?_⟩
    rw [hsr.threads_other hlt h0 ha]
    exact ih
  | @own k w w' inp hst hstep ih =>
    obtain ⟨h0, hlt, ih⟩ := ih
    have hw := hst.steps.reach hr
    have hsr := (stepR_of_step hw.inv0.wf hstep).2
    refine ⟨h0, Nat.lt_of_lt_of_le hlt hsr.nextTid, ?_⟩
    cases hsr with
    | runPanic ht hx =>
      exfalso
      obtain ⟨buf, rfl, _⟩ := hw.panic ht hx
      rcases ih with ⟨o, h', ht', hh, _⟩ | ih
      · rw [ht] at ht'; cases ht'; cases hh
      · have := ih (.unix buf) (by rw [ht]; simp); cases this
    | @run _ _ op rest f ht hx =>
      rw [apply_threads_self hlt]
      rcases ih with ⟨o, h', ht', hh, hk⟩ | ih
      · rw [ht] at ht'
        cases ht'
        rw [List.append_nil]
        rcases hx.refresh_next hh with ⟨o', h2, hn, hh2, hle⟩ | hn
        · exact .inl ⟨o', h2, hn, hh2, by omega⟩
        · exact .inr hn
      · rw [ht] at ih
        rw [(hx.plain (.inl (ih op (by simp)))).1]
        exact .inr fun o ho => ih o (List.mem_cons_of_mem _ ho)

theorem Reach.refInv : ∀ w, Reach E w → RefInv w := by
  intro w hr
  refine Reach.induct (P := RefInv) ?_ ?_ w hr
  · intro w hi
    refine ⟨?_, ?_⟩
    · rintro i j k ⟨o, ho, _⟩; rw [hi.threads] at ho; simp at ho
    · intro e he t h1
      rw [hi.ls] at he
      rw [(newDetails_mem _ _ e he).2.2] at h1; cases h1
  · intro w a w' hw _ _ h hs
    exact h.step hw hs

theorem handleLost_of {w : World} {i : Nat} {o : Op} {h : Nat} (ht : w.threads i = [o]) (ho : o.refreshHandle = some h)
    (hst : ∀ e ∈ w.ls.details, e.id ≠ h) : HandleLost w i := by
  refine ⟨⟨h, o, by rw [ht]; simp, ho⟩, ?_⟩
  rintro n ⟨e, he, _, o', ho', hh⟩
  rw [ht] at ho'
  simp only [List.mem_singleton] at ho'
  subst ho'
  rw [ho] at hh
  exact hst e he (Option.some.inj hh).symm

theorem refreshing_of {w : World} {i : Nat} {o : Op} {e : Entry} (ht : w.threads i = [o]) (ho : o.refreshHandle = some e.id)
    (he : e ∈ w.ls.details) : RefreshingAccount w i e.name :=
  ⟨e, he, rfl, o, by rw [ht]; simp, ho⟩

end Pizauth
