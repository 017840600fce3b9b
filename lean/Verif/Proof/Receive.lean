import Verif.Spec.Client
import Verif.Proof.Obs

/-!
# At most one answer per request
-/

namespace Pizauth

variable {E : Env}

def Obs.isAnswer : Obs → Bool
  | .request _ | .reply _ => true
  | _ => false

theorem repliesSince_append : ∀ (l L : Log), (∀ p ∈ l, p.2.isAnswer = false) →
    repliesSince (l ++ L) = repliesSince L
  | [], _, _ => rfl
  | (t, o) :: l, L, h => by
    have h1 := h (t, o) (by simp)
    have h2 := repliesSince_append l L fun p hp => h p (by simp [hp])
    cases o <;> simp [Obs.isAnswer] at h1 <;> simpa [repliesSince] using h2

theorem ExecR.obs_not_answer {S : Static} {now : Instant} {wall : SysTime} {ls : LockedState} {tid : Nat} {op : Op}
    {inp : Input} {f : Eff} (hx : ExecR E S now wall ls tid op inp f) (hop : op.isReply = false) :
    ∀ o ∈ f.obs, o.isAnswer = false := by
  intro o ho
  cases hx <;> simp at ho <;> first | (subst ho; rfl) | (simp [Op.isReply] at hop)

theorem ExecR.unix_replies {S : Static} {now : Instant} {wall : SysTime} {ls : LockedState} {tid : Nat} {buf : Bytes}
    {inp : Input} {f : Eff} (hx : ExecR E S now wall ls tid (.unix buf) inp f) : f.next.countP Op.isReply ≤ 1 := by
  cases hx <;> simp [List.countP_cons, Op.isReply]

/-- Only the main thread writes answers. -/
theorem StepR.repliesSince {w w' : World} {a : Action} (hsh : ShapeInv w) (hs : StepR E w a w')
    (h0 : w.threads 0 ≠ []) (ha : ∀ inp, a ≠ .run 0 inp) : repliesSince w'.log = repliesSince w.log := by
  cases hs <;> try rfl
  case connect h => exact absurd h h0
  case run tid inp op rest f ht hx =>
    refine repliesSince_append _ _ ?_
    intro p hp
    simp at hp
    obtain ⟨o, ho, rfl⟩ := hp
    refine hx.obs_not_answer ?_ o ho
    cases hop : op.isReply with
    | false => rfl
    | true =>
      exfalso
      cases op <;> simp [Op.isReply] at hop
      have := hsh.reply (i := tid) (by rw [ht]; exact List.mem_cons_self)
      subst this
      exact ha inp rfl
  case notScan =>
    refine repliesSince_append _ _ ?_
    intro p hp
    simp at hp
    obtain ⟨o, ⟨e, he, ho⟩, rfl⟩ := hp
    obtain ⟨_, _, _, _, rfl⟩ := authCmdFor_mem ho
    rfl

/-- What the client has received so far. -/
def RecInv (E : Env) (w : World) : Prop :=
  w.threads 0 ≠ [] → (repliesSince w.log = [] ∧ (w.threads 0).countP Op.isReply ≤ 1) ∨
    ∃ b w1 buf, repliesSince w.log = [b] ∧ Answers E w1 buf b ∧ Steps E w1 w ∧
      lastRequest w1.log = lastRequest w.log ∧ (w.threads 0).countP Op.isReply = 0 ∧ ∀ q, .unix q ∉ w.threads 0

theorem Reach.recInv {w : World} (hr : Reach E w) : RecInv E w := by
  induction hr with
  | init hi => intro h; exact absurd (hi.threads 0) h
  | @step w w' a hw hstep ih =>
    have h0 := hw.inv0
    obtain ⟨hrun, hs⟩ := stepR_of_step h0.wf hstep
    have hsh := Reach.shape w hw
    intro hne'
    by_cases hne : w.threads 0 = []
    · rcases hs.idle0 h0 hne with h | ⟨buf, _, h1, h2⟩
      · exact absurd h hne'
      · left
        rw [h1, h2]
        exact ⟨rfl, by simp [Op.isReply]⟩
    by_cases ha : ∃ inp, a = .run 0 inp
    · obtain ⟨inp, rfl⟩ := ha
      have hreq := hs.lastRequest hne
      have ih := ih hne
      cases hs with
      | runPanic ht hx =>
        rcases ih with h | ⟨b, w1, buf, h1, h2, h3, h4, h5, h6⟩
        · exact .inl h
        · exact .inr ⟨b, w1, buf, h1, h2, h3.trans (Steps.one hstep), h4, h5, h6⟩
      | @run _ _ op rest f ht hx =>
        have hcnt : (w.threads 0).countP Op.isReply = (if op.isReply then 1 else 0) + rest.countP Op.isReply := by
          rw [ht, List.countP_cons, Nat.add_comm]
        rw [apply_threads_self h0.tid0]
        have hlog : (w.apply 0 rest f).log = (f.obs.map fun o => (w.now, o)).reverse ++ w.log := rfl
        have hobs : op.isReply = false → repliesSince (w.apply 0 rest f).log = repliesSince w.log := by
          intro hop
          rw [hlog]
          refine repliesSince_append _ _ ?_
          intro p hp
          simp at hp
          obtain ⟨o, ho, rfl⟩ := hp
          exact hx.obs_not_answer hop o ho
        have hm := hsh.main
        rw [ht] at hm
        by_cases hop : op.isReply = true
        · cases op <;> simp [Op.isReply] at hop
          rename_i b
          have hn := (hx.plain (.inr (.inl rfl))).1
          have hr0 : Op.isReply (.reply b) = true := rfl
          rw [hr0] at hcnt
          rcases ih with ⟨h1, h2⟩ | ⟨b', w1, buf, h1, h2, h3, h4, h5, h6⟩
          · right
            have hobs' : (w.apply 0 rest f).log = (w.now, .reply b) :: w.log := by
              cases hx; rfl
            rcases hw.mainInv with h | ⟨t, buf, hq, _⟩
            · exact absurd h hne
            · refine ⟨b, w, buf, ?_, ⟨hw, ⟨_, _, _, hstep, hobs'⟩, ⟨t, hq⟩⟩, Steps.one hstep, hreq.symm, ?_, ?_⟩
              · rw [hobs']; simp [Pizauth.repliesSince, h1]
              · rw [hn, List.nil_append]; simp at hcnt; omega
              · rw [hn, List.nil_append]
                rcases hm.cons with ⟨_, h, _⟩ | ⟨_, h, _⟩ | ⟨h, _⟩ | ⟨_, ops, rfl, hops⟩
                · cases h
                · cases h
                · cases h
                · intro q hq
                  simp only [List.mem_append, List.mem_singleton, reduceCtorEq, or_false] at hq
                  have := hops _ hq
                  simp [Op.isTail, Op.isReply] at this
          · simp at hcnt; omega
        · have hop : op.isReply = false := by simpa using hop
          rw [hobs hop]
          rw [hop] at hcnt
          simp only [Bool.false_eq_true, if_false, Nat.zero_add] at hcnt
          rcases ih with ⟨h1, h2⟩ | ⟨b', w1, buf, h1, h2, h3, h4, h5, h6⟩
          · left
            refine ⟨h1, ?_⟩
            rw [List.countP_append]
            rcases hm.cons with ⟨b, rfl, rfl⟩ | ⟨c, rfl, rfl⟩ | ⟨rfl, rfl⟩ | ⟨ho, _⟩
            · have := hx.unix_replies
              have : [Op.close].countP Op.isReply = 0 := rfl
              omega
            · rw [hx.install_next.1, List.countP_nil]; omega
            · rw [(hx.plain (by simp)).1, List.countP_nil]; omega
            · rw [(hx.plain (by rcases ho with ho | ho <;> simp [ho])).1, List.countP_nil]; omega
          · right
            have hn : f.next = [] := by
              rcases hm.cons with ⟨b, rfl, rfl⟩ | ⟨c, rfl, rfl⟩ | ⟨rfl, rfl⟩ | ⟨ho, _⟩
              · exact absurd (by rw [ht]; exact List.mem_cons_self) (h6 b)
              · exact hx.install_next.1
              · exact (hx.plain (by simp)).1
              · exact (hx.plain (by rcases ho with ho | ho <;> simp [ho])).1
            refine ⟨b', w1, buf, h1, h2, h3.trans (Steps.one hstep), h4.trans hreq.symm, ?_, ?_⟩
            · rw [hn, List.nil_append]; omega
            · intro q hq
              rw [hn, List.nil_append] at hq
              exact h6 q (by rw [ht]; exact List.mem_cons_of_mem _ hq)
    · have ht0 := hs.threads0 h0 hne fun inp h => ha ⟨inp, h⟩
      have hrs := hs.repliesSince hsh hne fun inp h => ha ⟨inp, h⟩
      have hreq := hs.lastRequest hne
      rw [hrs, ht0, hreq]
      rcases ih hne with h | ⟨b, w1, buf, h1, h2, h3, h4, h5, h6⟩
      · exact .inl h
      · exact .inr ⟨b, w1, buf, h1, h2, h3.trans (Steps.one hstep), h4, h5, h6⟩

/-- Only the main thread closes connections. -/
theorem ShapeInv.close {w : World} (h : ShapeInv w) {i : Nat} (ho : .close ∈ w.threads i) : i = 0 := by
  by_cases hi : i = 0
  · exact hi
  · have hm := h.work i hi
    generalize hl : w.threads i = l at hm ho
    cases hm with
    | tail h => have := h _ ho; simp [Op.isTail] at this
    | core h => simp at ho; subst ho; simp [Op.isCore] at h
    | ans h => simp at ho; have := h _ ho; simp [Op.isTail] at this
    | ansEx => simp at ho

theorem StepR.closed_obs {w w' : World} {a : Action} {t : Instant} (hs : StepR E w a w')
    (hl : w'.log = (t, .closed) :: w.log) : ∃ tid rest, w.threads tid = .close :: rest := by
  cases hs
  case run tid inp op rest f ht hx =>
    simp only [World.apply] at hl
    have hl' : (f.obs.map fun o => (w.now, o)).reverse = [(t, .closed)] := by
      refine List.append_cancel_right (bs := w.log) ?_
      rw [hl]; rfl
    have hlen := congrArg List.length hl'
    simp at hlen
    obtain ⟨o, ho⟩ := List.length_eq_one_iff.mp hlen
    rw [ho] at hl'
    simp at hl'
    obtain ⟨rfl, rfl⟩ := hl'
    refine ⟨tid, rest, ?_⟩
    rw [ht]
    cases hx <;> simp at ho
    rfl
  case notScan =>
    simp only at hl
    exfalso
    have hl' := List.append_cancel_right (bs := w.log) (cs := [(t, Obs.closed)]) (by rw [hl]; rfl)
    have hm : (t, Obs.closed) ∈ [(t, Obs.closed)] := by simp
    rw [← hl'] at hm
    simp only [List.mem_reverse, List.mem_map, List.mem_flatMap, Prod.mk.injEq] at hm
    obtain ⟨o, ⟨e, he, ho⟩, _, rfl⟩ := hm
    obtain ⟨_, _, _, _, h⟩ := authCmdFor_mem ho
    cases h
  all_goals simp at hl

/-- A client receives nothing, or exactly one answer. -/
theorem Receives.one {w : World} {buf b : Bytes} (h : Receives E w buf b) :
    b = [] ∨ ∃ w1, Answers E w1 buf b ∧ Steps E w1 w ∧ lastRequest w1.log = lastRequest w.log := by
  obtain ⟨hr, ⟨act, w', t, hst, hl⟩, ⟨t', hq⟩, rfl⟩ := h
  have hs := (stepR_of_step hr.inv0.wf hst).2
  have hne : w.threads 0 ≠ [] := by
    obtain ⟨tid, rest, ht⟩ := hs.closed_obs hl
    have := (Reach.shape w hr).close (i := tid) (by rw [ht]; exact List.mem_cons_self)
    subst this
    rw [ht]; nofun
  rcases hr.recInv hne with ⟨h1, _⟩ | ⟨b, w1, buf', h1, h2, h3, h4, _, _⟩
  · left; rw [h1]; rfl
  · right
    have : buf' = buf := by
      obtain ⟨t2, hq2⟩ := h2.request
      rw [h4, hq] at hq2
      cases hq2; rfl
    subst this
    exact ⟨w1, by rw [h1]; simpa using h2, h3, h4⟩

/-- The bytes which an operation writes to the client. -/
def Op.written : Op → Option Bytes
  | .reply b => some b
  | _ => none

/-- The request `buf` was carried out in `wd` with effect `f`; of what then had to be done, `pre` has been done. -/
structure Doing (E : Env) (w : World) (t : Instant) (buf : Bytes) (wd : World) (inp : Input) (f : Eff)
    (pre : List Op) : Prop where
  reach : Reach E wd
  start : wd.threads 0 = [.unix buf, .close]
  req : lastRequest wd.log = some (t, buf)
  exec : ExecR E wd.st wd.now wd.wall wd.ls 0 (.unix buf) inp f
  step : wd.step E (.run 0 inp) = some (wd.apply 0 [.close] f)
  steps : Steps E (wd.apply 0 [.close] f) w
  ops : f.next ++ [.close] = pre ++ w.threads 0
  replies : repliesSince w.log = pre.filterMap Op.written
  reloads : ∀ c, (∃ u, (u, .reloaded c) ∈ sinceRequest w.log) ↔ .install c ∈ pre

def DoingInv (E : Env) (w : World) : Prop :=
  w.threads 0 = [] ∨ ∃ t buf, lastRequest w.log = some (t, buf) ∧
    (w.threads 0 = [.unix buf, .close] ∧ repliesSince w.log = [] ∧ (∀ u c, (u, .reloaded c) ∉ sinceRequest w.log) ∨ ∃ wd inp f pre, Doing E w t buf wd inp f pre)

theorem Reach.doingInv {w : World} (hr : Reach E w) : DoingInv E w := by
  induction hr with
  | init hi => exact .inl (hi.threads 0)
  | @step w w' a hw hstep ih =>
    have h0 := hw.inv0
    obtain ⟨hrun, hs⟩ := stepR_of_step h0.wf hstep
    have hsh := Reach.shape w hw
    by_cases hne : w.threads 0 = []
    · rcases hs.idle0 h0 hne with h | ⟨buf, _, h1, h2⟩
      · exact .inl h
      · exact .inr ⟨w.now, buf, by rw [h2]; rfl, .inl ⟨h1, by rw [h2]; rfl, by rw [h2]; simp [sinceRequest]⟩⟩
    rcases ih with ih | ⟨t, buf, hreq, ih⟩
    · exact absurd ih hne
    have hreq' : lastRequest w'.log = some (t, buf) := by rw [hs.lastRequest hne]; exact hreq
    right
    refine ⟨t, buf, hreq', ?_⟩
    by_cases ha : ∃ inp, a = .run 0 inp
    · obtain ⟨inp, rfl⟩ := ha
      cases hs with
      | runPanic ht hx =>
        rcases ih with h | ⟨wd, inp', f', pre, hd⟩
        · exact .inl h
        · exact .inr ⟨wd, inp', f', pre, hd.reach, hd.start, hd.req, hd.exec, hd.step,
            hd.steps.trans (Steps.one hstep), hd.ops, hd.replies, hd.reloads⟩
      | @run _ _ op rest f ht hx =>
        have hlog : (w.apply 0 rest f).log = (f.obs.map fun o => (w.now, o)).reverse ++ w.log := rfl
        have hobs : op.isReply = false → repliesSince (w.apply 0 rest f).log = repliesSince w.log := by
          intro hop
          rw [hlog]
          refine repliesSince_append _ _ ?_
          intro p hp
          simp at hp
          obtain ⟨o, ho, rfl⟩ := hp
          exact hx.obs_not_answer hop o ho
        have hrel : ∀ c, (∃ u, (u, .reloaded c) ∈ sinceRequest (w.apply 0 rest f).log) ↔
            (∃ u, (u, .reloaded c) ∈ sinceRequest w.log) ∨ op = .install c := by
          intro c
          rw [hlog, sinceRequest_append _ _ fun p hp => by
            simp only [List.mem_reverse, List.mem_map] at hp
            obtain ⟨o, ho, rfl⟩ := hp
            exact hx.obs_not_request o ho]
          rw [← hx.reloaded_iff (c := c)]
          simp only [List.mem_append, List.mem_reverse, List.mem_map, Prod.mk.injEq]
          constructor
          · rintro ⟨u, ⟨o, ho, rfl, rfl⟩ | h⟩
            · exact .inr ho
            · exact .inl ⟨u, h⟩
          · rintro (⟨u, h⟩ | h)
            · exact ⟨u, .inr h⟩
            · exact ⟨w.now, .inl ⟨_, h, rfl, rfl⟩⟩
        right
        rcases ih with ⟨hst, hrs, hnr⟩ | ⟨wd, inp', f', pre, hd⟩
        · rw [hst] at ht
          cases ht
          refine ⟨w, inp, f, [], hw, hst, hreq, hx, hstep, .refl, ?_, ?_, ?_⟩
          · rw [apply_threads_self h0.tid0]; rfl
          · rw [hobs rfl, hrs]; rfl
          · intro c
            rw [hrel]
            simp [hnr]
        · have hm := hsh.main
          rw [ht] at hm
          have hops := hd.ops
          have hn : f.next = [] := by
            rcases hm.cons with ⟨b, rfl, rfl⟩ | ⟨c, rfl, rfl⟩ | ⟨rfl, rfl⟩ | ⟨ho, _⟩
            · exfalso
              have hmem : (Op.unix b) ∈ f'.next ++ [.close] := by rw [hops, ht]; simp
              simp at hmem
              rcases hd.exec.unix_next with ⟨c, hc⟩ | hn
              · rw [hc] at hmem; simp at hmem
              · have := hn _ hmem; simp [Op.isTail, Op.isReply] at this
            · exact hx.install_next.1
            · exact (hx.plain (by simp)).1
            · exact (hx.plain (by rcases ho with ho | ho <;> simp [ho])).1
          refine ⟨wd, inp', f', pre ++ [op], hd.reach, hd.start, hd.req, hd.exec, hd.step,
            hd.steps.trans (Steps.one hstep), ?_, ?_, ?_⟩
          · rw [apply_threads_self h0.tid0, hn, hops, ht]; simp
          · rw [List.filterMap_append, ← hd.replies]
            by_cases hop : op.isReply = true
            · cases op <;> simp [Op.isReply] at hop
              rename_i b
              have hobs' : (w.apply 0 rest f).log = (w.now, .reply b) :: w.log := by
                cases hx; rfl
              rw [hobs']
              simp [Pizauth.repliesSince, Op.written]
            · have hop : op.isReply = false := by simpa using hop
              rw [hobs hop]
              cases op <;> simp [Op.isReply] at hop <;> simp [Op.written]
          · intro c
            rw [hrel, hd.reloads]
            simp [eq_comm]
    · have ht0 := hs.threads0 h0 hne fun inp h => ha ⟨inp, h⟩
      have hrs := hs.repliesSince hsh hne fun inp h => ha ⟨inp, h⟩
      have hrel := hs.reloads hsh hne fun inp h => ha ⟨inp, h⟩
      rcases ih with ⟨h1, h2, h3⟩ | ⟨wd, inp', f', pre, hd⟩
      · exact .inl ⟨by rw [ht0]; exact h1, by rw [hrs]; exact h2, fun u c h => h3 u c ((hrel u c).mp h)⟩
      · exact .inr ⟨wd, inp', f', pre, hd.reach, hd.start, hd.req, hd.exec, hd.step,
          hd.steps.trans (Steps.one hstep), by rw [ht0]; exact hd.ops, by rw [hrs]; exact hd.replies,
          fun c => by simp only [hrel]; exact hd.reloads c⟩

/-- All that a client receives was decided when its request was carried out. -/
theorem Receives.done {w : World} {buf b : Bytes} (h : Receives E w buf b) :
    ∃ t wd inp f, Doing E w t buf wd inp f f.next ∧ b = (f.next.filterMap Op.written).flatten ∧
      lastRequest w.log = some (t, buf) := by
  obtain ⟨hr, ⟨act, w', t, hst, hl⟩, ⟨t', hq⟩, rfl⟩ := h
  have hs := (stepR_of_step hr.inv0.wf hst).2
  obtain ⟨tid, rest, ht⟩ := hs.closed_obs hl
  have := (Reach.shape w hr).close (i := tid) (by rw [ht]; exact List.mem_cons_self)
  subst this
  rcases hr.doingInv with h | ⟨t2, buf2, hq2, h | ⟨wd, inp, f, pre, hd⟩⟩
  · rw [h] at ht; cases ht
  · rw [h.1] at ht; cases ht
  · rw [hq] at hq2
    cases hq2
    have hrest : rest = [] := by
      have hm := (Reach.shape w hr).main
      rw [ht] at hm
      rcases hm.cons with ⟨_, h, _⟩ | ⟨_, h, _⟩ | ⟨_, h⟩ | ⟨h, _⟩
      · cases h
      · cases h
      · exact h
      · simp [Op.isTail, Op.isReply] at h
    subst hrest
    have hpre : pre = f.next := by
      have := hd.ops
      rw [ht] at this
      exact (List.append_cancel_right this).symm
    subst hpre
    exact ⟨t', wd, inp, f, hd, by rw [hd.replies], hq⟩

end Pizauth
