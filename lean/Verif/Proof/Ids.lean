import Verif.Proof.Obs

/-!
# Which account an operation is about
-/

namespace Pizauth
open LockedState

variable {E : Env}

/-- The account id an operation in flight refers to. -/
def Op.accId : Op → Option Nat
  | .exSend c _ | .exAwait c _ | .exSleep c _ _ | .exDone c _ => some c.id
  | .fail id _ => some id
  | .rfStart id => some id
  | .rfSend c | .rfAwait c | .rfPerm c | .rfNow c _ _ _ | .rfStore c _ _ _ _ | .rfTransient c => some c.id
  | .rfCmd id _ _ | .rfCmdWait id _ | .rfCmdErr id _ | .rfCmdOk id => some id
  | _ => none

theorem OpInv.accId_lt {S : Static} {ls : LockedState} {o : Op} {id : Nat} (h : OpInv E S ls o) (hid : o.accId = some id) :
    id < ls.accountCount := by
  cases o <;> simp [Op.accId] at hid <;> subst hid <;> first | exact h.1 | exact h

theorem Op.isCore_of_accId {o : Op} {id : Nat} (h : o.accId = some id) : o.isCore = true := by
  cases o <;> first | rfl | cases h

section
variable {S : Static} {now : Instant} {wall : SysTime} {ls : LockedState} {tid : Nat}
  {op : Op} {inp : Input} {f : Eff}

/-- All entries but those named `m` are the same. -/
def SameBut (ls ls' : LockedState) (m : String) : Prop :=
  ls'.config = ls.config ∧ ∀ e : Entry, e.name ≠ m → (e ∈ ls'.details ↔ e ∈ ls.details)

theorem SameBut.refl (ls : LockedState) (m : String) : SameBut ls ls m := ⟨rfl, fun _ _ => Iff.rfl⟩

theorem sameBut_put {ls1 : LockedState} {e0 : Entry} {a0 : Account} {ts : TokenState}
    (h : ls.WF) (hh : ls.Has e0 a0) (hd : ls1.details = ls.details) (hc : ls1.config = ls.config) :
    SameBut ls (ls1.put e0.id ts) e0.name := by
  refine ⟨by rw [put_config, hc], fun e hne => ⟨?_, ?_⟩⟩
  · intro he
    rcases mem_put.mp he with ⟨h1, _⟩ | ⟨e1, h1, hid, rfl⟩
    · exact hd ▸ h1
    · rw [hd] at h1
      have := h.entry_id_inj h1 hh.1 hid
      subst this
      exact absurd rfl hne
  · intro he
    refine mem_put.mpr (.inl ⟨hd ▸ he, ?_⟩)
    intro hid
    exact hne (by rw [h.entry_id_inj he hh.1 hid])

/-- An operation about an account touches nothing else. -/
theorem ExecR.sameBut (hx : ExecR E S now wall ls tid op inp f) (h : ls.WF) {id : Nat} (hid : op.accId = some id) :
    f.ls = ls ∨ ∃ e ∈ ls.details, e.id = id ∧ SameBut ls f.ls e.name := by
  cases hx <;> simp [Op.accId] at hid <;> try exact .inl rfl
  case exDoneOk ha hid' h1 h2 h3 h4 h5 => exact .inr ⟨_, ha.1, hid' ▸ hid, sameBut_put h ha rfl rfl⟩
  case failOk ha hid' => exact .inr ⟨_, ha.1, hid' ▸ hid, sameBut_put h ha rfl rfl⟩
  case rfStartOk ha hid' hts hon hrt => exact .inr ⟨_, ha.1, hid' ▸ hid, sameBut_put h ha rfl rfl⟩
  case rfStartNoRt ha hid' hts hon hrt => exact .inr ⟨_, ha.1, hid' ▸ hid, sameBut_put h ha rfl rfl⟩
  case rfPermOk ha hid' => exact .inr ⟨_, ha.1, hid' ▸ hid, sameBut_put h ha rfl rfl⟩
  case rfStoreNoExpiry ha hid' hex => exact .inr ⟨_, ha.1, hid' ▸ hid, sameBut_put h ha rfl rfl⟩
  case rfStoreOk ha hid' hex => exact .inr ⟨_, ha.1, hid' ▸ hid, sameBut_put h ha rfl rfl⟩
  case rfTransientCmd ha hid' hts hm hc => exact .inr ⟨_, ha.1, hid' ▸ hid, sameBut_put h ha rfl rfl⟩
  case rfTransientKeep ha hid' hts hm => exact .inr ⟨_, ha.1, hid' ▸ hid, sameBut_put h ha rfl rfl⟩
  case rfCmdOkOk ha hid' hts => exact .inr ⟨_, ha.1, hid' ▸ hid, sameBut_put h ha rfl rfl⟩
  case rfCmdErrOk ha hid' => exact .inr ⟨_, ha.1, hid' ▸ hid, sameBut_put h ha rfl rfl⟩

/-- Operations about no account, other than requests, callbacks and reloads, change nothing. -/
theorem ExecR.same_of_plain (hx : ExecR E S now wall ls tid op inp f) (hid : op.accId = none)
    (h1 : ∀ b, op ≠ .unix b) (h2 : ∀ b s, op ≠ .http b s) (h3 : ∀ c, op ≠ .install c) : f.ls = ls := by
  cases hx <;> simp [Op.accId] at hid <;> first | rfl | exact absurd rfl (h1 _) | exact absurd rfl (h2 _ _) | exact absurd rfl (h3 _)

/-- The id of the operation that follows: the same, or a new one of the same account. -/
theorem ExecR.next_id (hx : ExecR E S now wall ls tid op inp f) {o : Op} (ho : o ∈ f.next) {j : Nat}
    (hj : o.accId = some j) :
    op.accId = some j ∨
    (∃ e ∈ ls.details, op.accId = some e.id ∧ ls.accountCount ≤ j ∧ j < f.ls.accountCount ∧
      ∃ ts, ⟨e.name, j, ts⟩ ∈ f.ls.details) ∨
    (∃ buf sec uri e p code x, op = .http buf sec ∧ parseGet E buf sec = some uri ∧ e ∈ ls.details ∧ e.ts = .pending p ∧
      uri.param "state" = some p.state ∧ uri.param "error" = none ∧ uri.param "code" = some code ∧ f.ls = ls ∧
      o = .exSend x 0 ∧ e.id = j) := by
  cases hx <;> simp only [List.mem_cons, List.not_mem_nil, or_false] at ho <;>
    first
    | exact ho.elim
    | (subst ho; simp only [Op.accId, reduceCtorEq] at hj; done)
    | (rcases ho with rfl | rfl <;> simp only [Op.accId, reduceCtorEq] at hj; done)
    | (rcases ho with rfl | rfl | rfl <;> simp only [Op.accId, reduceCtorEq] at hj; done)
    | (rcases ho with rfl | rfl | rfl | rfl <;> simp only [Op.accId, reduceCtorEq] at hj; done)
    | (subst ho; exact Or.inl hj)
    | skip
  case httpCode uri s e a p x code hg hst ha hts hps hr horg herr hcode =>
    rcases ho with rfl | rfl
    · simp [Op.accId] at hj
    · simp [Op.accId] at hj
      exact .inr (.inr ⟨_, _, uri, e, p, code, _, rfl, hg, ha.1, hts, by rw [hst, hps], herr, hcode, rfl, rfl, hj⟩)
  case failOk ha hid =>
    rcases ho with rfl | ho
    · simp [Op.accId] at hj
    · split at ho <;> simp at ho
      rcases ho with rfl | rfl <;> simp [Op.accId] at hj
  case rfStartOk e a t r ha hid hts hon hrt =>
    subst ho
    simp [Op.accId] at hj
    subst hj
    refine .inr (.inl ⟨e, ha.1, by simp [Op.accId, hid], by omega, by simp [put_count, bump], ?_⟩)
    exact ⟨_, mem_put_new (ls := ls.bump) ha.1 rfl⟩
  case rfTransientCmd e a t cmd ha hid hts hmod hcmd =>
    subst ho
    simp [Op.accId] at hj
    subst hj
    refine .inr (.inl ⟨e, ha.1, by simp [Op.accId, hid], by omega, by simp [put_count], ?_⟩)
    exact ⟨_, mem_put_new ha.1 rfl⟩

end

end Pizauth
