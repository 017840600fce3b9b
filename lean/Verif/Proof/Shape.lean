import Verif.Proof.OpInv

/-!
# What the list of operations of a thread looks like
-/

namespace Pizauth
open LockedState

/-- Waking another thread, queueing an event, reporting an error. -/
def Op.isTail : Op → Bool
  | .wakeRefresher | .wakeNotifier | .pushEvent _ _ | .wakeEventer | .notifyError _ _ => true
  | _ => false

/-- Operations of the main thread. -/
def Op.isMain : Op → Bool
  | .unix _ | .install _ | .reply _ | .close => true
  | _ => false

/-- Operations which are the whole of what a thread has to do (for now). -/
def Op.isCore : Op → Bool
  | .http _ _ | .exSend _ _ | .exAwait _ _ | .exSleep _ _ _ | .exDone _ _ | .fail _ _ | .rfStart _ | .rfSend _
  | .rfAwait _ | .rfPerm _ | .rfNow _ _ _ _ | .rfStore _ _ _ _ _ | .rfTransient _ | .rfCmd _ _ _ | .rfCmdWait _ _
  | .rfCmdOk _ | .rfCmdErr _ _ => true
  | _ => false

def Op.isReply : Op → Bool
  | .reply _ => true
  | _ => false

/-- Main thread. -/
inductive MainShape : List Op → Prop where
  | idle : MainShape []
  | start (buf : Bytes) : MainShape [.unix buf, .close]
  | inst (c : Config) : MainShape [.install c, .wakeNotifier, .wakeRefresher, .reply (utf8 "ok:"), .close]
  | rest {ops : List Op} : (∀ o ∈ ops, o.isTail = true ∨ o.isReply = true) → MainShape (ops ++ [.close])

/-- Any other thread. -/
inductive WorkShape : List Op → Prop where
  | tail {ops : List Op} : (∀ o ∈ ops, o.isTail = true) → WorkShape ops
  | core {o : Op} : o.isCore = true → WorkShape [o]
  | ans {b : Bytes} {ops : List Op} : (∀ o ∈ ops, o.isTail = true) → WorkShape (.httpAnswer b :: ops)
  | ansEx {b : Bytes} {c : ExCtx} : WorkShape [.httpAnswer b, .exSend c 0]

section
variable {E : Env} {S : Static} {now : Instant} {wall : SysTime} {ls : LockedState} {tid : Nat}
  {op : Op} {inp : Input} {f : Eff}

theorem ExecR.unix_next {buf : Bytes} (hx : ExecR E S now wall ls tid (.unix buf) inp f) :
    (∃ c, f.next = [.install c, .wakeNotifier, .wakeRefresher, .reply (utf8 "ok:")]) ∨
    (∀ o ∈ f.next, o.isTail = true ∨ o.isReply = true) := by
  cases hx <;>
    first
    | exact Or.inl ⟨_, rfl⟩
    | (right; simp [Op.isTail, Op.isReply])

/-- Operations with no consequence for what the thread does next. -/
theorem ExecR.plain (hx : ExecR E S now wall ls tid op inp f)
    (ho : op.isTail = true ∨ op.isReply = true ∨ op = .close ∨ ∃ b, op = .httpAnswer b) :
    f.next = [] ∧ f.spawn = [] ∧ f.ls = ls := by
  cases hx <;> simp [Op.isTail, Op.isReply] at ho ⊢

theorem ExecR.install_next {c : Config} (hx : ExecR E S now wall ls tid (.install c) inp f) :
    f.next = [] ∧ f.spawn = [] := by
  cases hx; exact ⟨rfl, rfl⟩

theorem ExecR.core_next (hx : ExecR E S now wall ls tid op inp f) (ho : op.isCore = true) :
    WorkShape f.next := by
  cases hx <;> simp only [Op.isCore, Bool.false_eq_true] at ho <;>
    first
    | exact .core rfl
    | exact .ansEx
    | (refine .ans ?_; simp [Op.isTail]; done)
    | (refine .tail ?_; simp [Op.isTail]; done)
    | skip
  case failOk =>
    refine .tail ?_
    intro o ho
    rcases List.mem_cons.mp ho with rfl | ho
    · rfl
    · split at ho <;> simp at ho
      rcases ho with rfl | rfl <;> rfl

/-- Only refresh threads are started. -/
theorem ExecR.spawn_rfStart (hx : ExecR E S now wall ls tid op inp f) {o : Op} (ho : o ∈ f.spawn) :
    ∃ e ∈ ls.details, o = .rfStart e.id ∧ (∃ buf, op = .unix buf) ∧ ∃ t, e.ts = .active t ∧ f.ls = ls := by
  cases hx <;> simp at ho
  case refreshSched ha hreq hts => exact ⟨_, ha.1, ho, ⟨_, rfl⟩, _, hts, rfl⟩
  case showExpired ha hreq hts _ _ => exact ⟨_, ha.1, ho, ⟨_, rfl⟩, _, hts, rfl⟩

end

structure ShapeInv (w : World) : Prop where
  main : MainShape (w.threads 0)
  work : ∀ i, i ≠ 0 → WorkShape (w.threads i)

theorem MainShape.cons {op : Op} {rest : List Op} (h : MainShape (op :: rest)) :
    (∃ buf, op = .unix buf ∧ rest = [.close]) ∨
    (∃ c, op = .install c ∧ rest = [.wakeNotifier, .wakeRefresher, .reply (utf8 "ok:"), .close]) ∨
    (op = .close ∧ rest = []) ∨
    ((op.isTail = true ∨ op.isReply = true) ∧ ∃ ops, rest = ops ++ [.close] ∧
      ∀ o ∈ ops, o.isTail = true ∨ o.isReply = true) := by
  generalize hl : op :: rest = l at h
  cases h with
  | idle => cases hl
  | start buf => cases hl; exact Or.inl ⟨buf, rfl, rfl⟩
  | inst c => cases hl; exact Or.inr (Or.inl ⟨c, rfl, rfl⟩)
  | @rest ops h =>
    cases ops with
    | nil => simp at hl; exact Or.inr (Or.inr (Or.inl hl))
    | cons o ops =>
      simp only [List.cons_append, List.cons.injEq] at hl
      refine Or.inr (Or.inr (Or.inr ⟨hl.1 ▸ h o (by simp), ops, hl.2, fun o ho => h o (by simp [ho])⟩))

theorem WorkShape.cons {op : Op} {rest : List Op} (h : WorkShape (op :: rest)) :
    (op.isTail = true ∧ ∀ o ∈ rest, o.isTail = true) ∨ (op.isCore = true ∧ rest = []) ∨
    ((∃ b, op = .httpAnswer b) ∧ ((∀ o ∈ rest, o.isTail = true) ∨ ∃ c, rest = [.exSend c 0])) := by
  generalize hl : op :: rest = l at h
  cases h with
  | tail h =>
    subst hl
    exact Or.inl ⟨h op (by simp), fun o ho => h o (by simp [ho])⟩
  | core h => cases hl; exact Or.inr (Or.inl ⟨h, rfl⟩)
  | ans h => cases hl; exact Or.inr (Or.inr ⟨⟨_, rfl⟩, Or.inl h⟩)
  | ansEx => cases hl; exact Or.inr (Or.inr ⟨⟨_, rfl⟩, Or.inr ⟨_, rfl⟩⟩)

theorem ShapeInv.step {E : Env} {w w' : World} {a : Action} (h0 : Inv0 E w) (h : ShapeInv w)
    (hs : StepR E w a w') : ShapeInv w' := by
  cases hs <;> try exact ⟨h.main, h.work⟩
  case connect buf hb =>
    refine ⟨by simp only [setThread_same]; exact .start buf, fun i hi => ?_⟩
    simp only [setThread_ne _ hi]; exact h.work i hi
  case http buf sec hb =>
    have := h0.tid0
    refine ⟨by simp only; rw [setThread_ne _ (by omega)]; exact h.main, fun i hi => ?_⟩
    simp only
    by_cases hc : i = w.nextTid
    · subst hc; rw [setThread_same]; exact .core rfl
    · rw [setThread_ne _ hc]; exact h.work i hi
  case run tid inp op rest f ht hx =>
    have htl := h0.tid_lt ht
    have hspawn : ∀ i, w.nextTid ≤ i → i ≠ 0 → WorkShape ((w.apply tid rest f).threads i) := by
      intro i hi h0i
      simp only [World.apply]
      rcases spawnAll_cases (setThread w.threads tid (f.next ++ rest)) w.nextTid i f.spawn with
        ⟨h1, _⟩ | ⟨_, o, ho, h1⟩ | ⟨_, h1⟩
      · omega
      · rw [h1]
        obtain ⟨e, _, rfl, _⟩ := hx.spawn_rfStart ho
        exact .core rfl
      · rw [h1, setThread_ne _ (by omega)]
        exact h.work i h0i
    by_cases h0t : tid = 0
    · subst h0t
      have hm := h.main
      rw [ht] at hm
      refine ⟨?_, ?_⟩
      · rw [apply_threads_self htl]
        rcases hm.cons with ⟨buf, rfl, rfl⟩ | ⟨c, rfl, rfl⟩ | ⟨rfl, rfl⟩ | ⟨ho, ops, rfl, hops⟩
        · rcases hx.unix_next with ⟨c, hc⟩ | hn
          · rw [hc]; exact .inst c
          · exact .rest hn
        · rw [hx.install_next.1]
          exact .rest (ops := [.wakeNotifier, .wakeRefresher, .reply (utf8 "ok:")]) (by simp [Op.isTail, Op.isReply])
        · rw [(hx.plain (by simp)).1]; exact .idle
        · rw [(hx.plain (by rcases ho with ho | ho <;> simp [ho])).1]; exact .rest hops
      · intro i hi
        rcases Nat.lt_or_ge i w.nextTid with hlt | hge
        · rw [apply_threads_other hlt hi]; exact h.work i hi
        · exact hspawn i hge hi
    · have hm := h.work tid h0t
      rw [ht] at hm
      refine ⟨?_, ?_⟩
      · rw [apply_threads_other h0.tid0 (fun hc => h0t hc.symm)]; exact h.main
      · intro i hi
        rcases Nat.lt_or_ge i w.nextTid with hlt | hge
        · by_cases hc : i = tid
          · subst hc
            rw [apply_threads_self htl]
            rcases hm.cons with ⟨ho, hr⟩ | ⟨ho, rfl⟩ | ⟨ho, hr⟩
            · rw [(hx.plain (by simp [ho])).1]; exact .tail hr
            · rw [List.append_nil]; exact hx.core_next ho
            · rw [(hx.plain (by simp [ho])).1, List.nil_append]
              rcases hr with hr | ⟨c, rfl⟩
              · exact .tail hr
              · exact .core rfl
          · rw [apply_threads_other hlt hc]; exact h.work i hi
        · exact hspawn i hge hi
  case refScan es hp he =>
    have := h0.tid0
    refine ⟨by simp only; rw [spawnAll_lt _ _ _ _ (by omega)]; exact h.main, fun i hi => ?_⟩
    simp only
    rcases spawnAll_cases w.threads w.nextTid i (es.map fun e => .rfStart e.id) with
      ⟨_, h1⟩ | ⟨_, op, hop, h1⟩ | ⟨_, h1⟩
    · rw [h1]; exact h.work i hi
    · rw [h1]
      simp only [List.mem_map] at hop
      obtain ⟨e, _, rfl⟩ := hop
      exact .core rfl
    · rw [h1]; exact h.work i hi

theorem Reach.shape {E : Env} : ∀ w, Reach E w → ShapeInv w := by
  apply Reach.induct
  · intro w hi
    exact ⟨by rw [hi.threads]; exact .idle, fun i _ => by rw [hi.threads]; exact .tail (by simp)⟩
  · intro w a w' _ h0 _ h hs
    exact h.step h0 hs

/-! ## Consequences -/

theorem ShapeInv.unix {w : World} (h : ShapeInv w) {i : Nat} {buf : Bytes} (ho : .unix buf ∈ w.threads i) :
    i = 0 ∧ w.threads 0 = [.unix buf, .close] := by
  by_cases hi : i = 0
  · subst hi
    refine ⟨rfl, ?_⟩
    have hm := h.main
    generalize hl : w.threads 0 = l at hm ho
    cases hm with
    | idle => simp at ho
    | start buf' => simp at ho; subst ho; rfl
    | inst c => simp at ho
    | rest hr =>
      simp only [List.mem_append, List.mem_singleton, reduceCtorEq, or_false] at ho
      have := hr _ ho
      simp [Op.isTail, Op.isReply] at this
  · have hm := h.work i hi
    generalize hl : w.threads i = l at hm ho
    cases hm with
    | tail hr => have := hr _ ho; simp [Op.isTail] at this
    | core hc => simp at ho; subst ho; simp [Op.isCore] at hc
    | ans hr => simp at ho; have := hr _ ho; simp [Op.isTail] at this
    | ansEx => simp at ho

theorem ShapeInv.reply {w : World} (h : ShapeInv w) {i : Nat} {b : Bytes} (ho : .reply b ∈ w.threads i) :
    i = 0 := by
  by_cases hi : i = 0
  · exact hi
  · have hm := h.work i hi
    generalize hl : w.threads i = l at hm ho
    cases hm with
    | tail hr => have := hr _ ho; simp [Op.isTail] at this
    | core hc => simp at ho; subst ho; simp [Op.isCore] at hc
    | ans hr => simp at ho; have := hr _ ho; simp [Op.isTail] at this
    | ansEx => simp at ho

theorem ShapeInv.install {w : World} (h : ShapeInv w) {i : Nat} {c : Config} (ho : .install c ∈ w.threads i) :
    i = 0 ∧ w.threads 0 = [.install c, .wakeNotifier, .wakeRefresher, .reply (utf8 "ok:"), .close] := by
  by_cases hi : i = 0
  · subst hi
    refine ⟨rfl, ?_⟩
    have hm := h.main
    generalize hl : w.threads 0 = l at hm ho
    cases hm with
    | idle => simp at ho
    | start buf' => simp at ho
    | inst c' => simp at ho; subst ho; rfl
    | rest hr =>
      simp only [List.mem_append, List.mem_singleton, reduceCtorEq, or_false] at ho
      have := hr _ ho
      simp [Op.isTail, Op.isReply] at this
  · have hm := h.work i hi
    generalize hl : w.threads i = l at hm ho
    cases hm with
    | tail hr => have := hr _ ho; simp [Op.isTail] at this
    | core hc => simp at ho; subst ho; simp [Op.isCore] at hc
    | ans hr => simp at ho; have := hr _ ho; simp [Op.isTail] at this
    | ansEx => simp at ho

/-- Core operations run on worker threads; the thread has nothing else to do. -/
theorem ShapeInv.core {w : World} (h : ShapeInv w) {i : Nat} {o : Op} (hc : o.isCore = true)
    (ho : o ∈ w.threads i) : i ≠ 0 ∧ (w.threads i = [o] ∨ ∃ b c, o = .exSend c 0 ∧ w.threads i = [.httpAnswer b, o]) := by
  by_cases hi : i = 0
  · subst hi
    have hm := h.main
    generalize hl : w.threads 0 = l at hm ho
    cases hm with
    | idle => simp at ho
    | start buf' => simp at ho; rcases ho with rfl | rfl <;> simp [Op.isCore] at hc
    | inst c' => simp at ho; rcases ho with rfl | rfl | rfl | rfl | rfl <;> simp [Op.isCore] at hc
    | rest hr =>
      simp only [List.mem_append, List.mem_singleton] at ho
      rcases ho with ho | rfl
      · have := hr _ ho
        cases o <;> simp [Op.isTail, Op.isReply, Op.isCore] at this hc
      · simp [Op.isCore] at hc
  · refine ⟨hi, ?_⟩
    have hm := h.work i hi
    generalize hl : w.threads i = l at hm ho
    cases hm with
    | tail hr =>
      have := hr _ ho
      cases o <;> simp [Op.isTail, Op.isCore] at this hc
    | core hc' => simp at ho; subst ho; exact Or.inl rfl
    | ans hr =>
      simp at ho
      rcases ho with rfl | ho
      · simp [Op.isCore] at hc
      · have := hr _ ho
        cases o <;> simp [Op.isTail, Op.isCore] at this hc
    | ansEx =>
      simp at ho
      rcases ho with rfl | rfl
      · simp [Op.isCore] at hc
      · exact Or.inr ⟨_, _, rfl, rfl⟩

end Pizauth
