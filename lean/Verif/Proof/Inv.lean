import Verif.Proof.Step

/-!
# The basic invariant of the daemon
-/

namespace Pizauth
open LockedState

/-! ## Threads -/

theorem setThread_same (f : Nat → List Op) (t : Nat) (l : List Op) : setThread f t l t = l := by
  simp [setThread]

theorem setThread_ne (f : Nat → List Op) {t i : Nat} (h : i ≠ t) (l : List Op) : setThread f t l i = f i := by
  simp [setThread, h]

theorem spawnAll_lt : ∀ (ops : List Op) (f : Nat → List Op) (n i : Nat), i < n → spawnAll f n ops i = f i
  | [], _, _, _, _ => rfl
  | op :: r, f, n, i, h => by
    rw [spawnAll, spawnAll_lt r _ _ _ (by omega), setThread_ne _ (by omega)]

theorem spawnAll_ge : ∀ (ops : List Op) (f : Nat → List Op) (n i : Nat), n + ops.length ≤ i →
    spawnAll f n ops i = f i
  | [], _, _, _, _ => rfl
  | op :: r, f, n, i, h => by
    simp only [List.length_cons] at h
    rw [spawnAll, spawnAll_ge r _ _ _ (by omega), setThread_ne _ (by omega)]

theorem spawnAll_get : ∀ (ops : List Op) (f : Nat → List Op) (n k : Nat) (h : k < ops.length),
    spawnAll f n ops (n + k) = [ops[k]]
  | op :: r, f, n, 0, _ => by
    rw [spawnAll, spawnAll_lt r _ _ _ (by omega), Nat.add_zero, setThread_same]
    rfl
  | op :: r, f, n, k + 1, h => by
    have h' : k < r.length := by simpa using h
    rw [spawnAll, show n + (k + 1) = (n + 1) + k by omega, spawnAll_get r _ _ k h']
    rfl

/-- What a thread of the new thread table is. -/
theorem spawnAll_cases (f : Nat → List Op) (n i : Nat) (ops : List Op) :
    (i < n ∧ spawnAll f n ops i = f i) ∨
    (n ≤ i ∧ ∃ op ∈ ops, spawnAll f n ops i = [op]) ∨
    (n + ops.length ≤ i ∧ spawnAll f n ops i = f i) := by
  rcases Nat.lt_or_ge i n with h | h
  · exact Or.inl ⟨h, spawnAll_lt _ _ _ _ h⟩
  · rcases Nat.lt_or_ge i (n + ops.length) with h' | h'
    · refine Or.inr (Or.inl ⟨h, ops[i - n]'(by omega), List.getElem_mem _, ?_⟩)
      have := spawnAll_get ops f n (i - n) (by omega)
      rwa [show n + (i - n) = i by omega] at this
    · exact Or.inr (Or.inr ⟨h', spawnAll_ge _ _ _ _ h'⟩)

/-! ## Effects of operations on the state -/

theorem redirectUrl_not_panic {E : Env} {a : Account} {p q : Option Nat} (h : p.isSome ∨ q.isSome) :
    a.redirectUrl E p q ≠ .panic := by
  unfold Account.redirectUrl
  have : (p.isSome || q.isSome) = true := by simpa using h
  rw [this]
  simp only [if_true]
  split
  · simp
  · split <;> split <;> simp

section
variable {E : Env} {S : Static} {now : Instant} {wall : SysTime} {ls : LockedState} {tid : Nat}
  {op : Op} {inp : Input} {f : Eff}

/-- The restored state, in terms of entries. -/
structure RestoreR (now : Instant) (wall : SysTime) (d : Dump) (ls ls' : LockedState) : Prop where
  wf : ls'.WF
  evolves : Evolves ls ls'
  config : ls'.config = ls.config
  back : ∀ e' ∈ ls'.details,
    (e' ∈ ls.details ∧ ∀ ts, ¬ ls.Restorable now wall d e' ts) ∨
    (ls.accountCount ≤ e'.id ∧ ∃ e ∈ ls.details, e.name = e'.name ∧ ls.Restorable now wall d e e'.ts)
  keep : ∀ e ∈ ls.details, (∀ ts, ¬ ls.Restorable now wall d e ts) → e ∈ ls'.details
  put : ∀ e ∈ ls.details, ∀ ts, ls.Restorable now wall d e ts → ∃ e' ∈ ls'.details, e'.name = e.name ∧ e'.ts = ts

theorem restore_cases (h : ls.WF) {plain : Bytes} {drain : List (String × TokenState)} :
    ls.restore now wall plain drain = .err ∨ ls.restore now wall plain drain = .disabled ∨
    ∃ d ls', decDump plain = some d ∧ d.version = dumpVersion ∧
      ls.restore now wall plain drain = .ok ls' ∧ RestoreR now wall d ls ls' := by
  unfold LockedState.restore
  split
  · exact Or.inl rfl
  · rename_i d hd
    split
    · exact Or.inl rfl
    · rename_i hv
      obtain ⟨l, h1, h2, h3, h4⟩ := h.restoreCollect now wall d ls.details (fun e he => he) h.names_nodup
      rw [h1]
      simp only
      split
      · rename_i hperm
        have hp := List.isPerm_iff.mp hperm
        obtain ⟨ls', a1, a2, a3, a4, a5, a6, a7⟩ := h.restoreApply drain
          ((hp.map Prod.fst).nodup_iff.mpr h2) (fun p hpm => h3 p (hp.mem_iff.mp hpm))
        rw [a1]
        refine Or.inr (Or.inr ⟨d, ls', hd, by simpa using hv, rfl, a2, a3, a4, ?_, ?_, ?_⟩)
        · intro e' he'
          rcases a5 e' he' with ⟨hm, hnot⟩ | ⟨hge, hm⟩
          · refine Or.inl ⟨hm, fun ts hr => hnot ?_⟩
            have := (h4 e' hm ts).mpr hr
            exact List.mem_map.mpr ⟨_, hp.mem_iff.mpr this, rfl⟩
          · have hm' := hp.mem_iff.mp hm
            obtain ⟨e, he, hn⟩ := List.mem_map.mp (h3 _ hm')
            refine Or.inr ⟨hge, e, he, hn, (h4 e he _).mp ?_⟩
            simp only at hn
            rw [hn]; exact hm'
        · intro e he hnr
          refine a6 e he fun hin => ?_
          obtain ⟨p, hpm, hpn⟩ := List.mem_map.mp hin
          refine hnr p.2 ((h4 e he p.2).mp ?_)
          rw [← hpn]; exact hp.mem_iff.mp hpm
        · intro e he ts hr
          exact a7 (e.name, ts) (hp.mem_iff.mpr ((h4 e he ts).mpr hr))
      · exact Or.inr (Or.inl rfl)

theorem restore_ok (h : ls.WF) {plain : Bytes} {drain : List (String × TokenState)} {ls' : LockedState}
    (hr : ls.restore now wall plain drain = .ok ls') :
    ∃ d, decDump plain = some d ∧ d.version = dumpVersion ∧ RestoreR now wall d ls ls' := by
  rcases restore_cases (now := now) (wall := wall) h (plain := plain) (drain := drain) with h1 | h1 | ⟨d, l, h1, h2, h3, h4⟩
  · rw [h1] at hr; cases hr
  · rw [h1] at hr; cases hr
  · rw [h3] at hr; cases hr; exact ⟨d, h1, h2, h4⟩

/-- Every operation keeps the state well-formed, lets it evolve, and only `install` changes the configuration. -/
theorem ExecR.state (hx : ExecR E S now wall ls tid op inp f) (h : ls.WF) (hop : ∀ c, op = .install c → c.Ok E) :
    f.ls.WF ∧ Evolves ls f.ls ∧ (f.ls.config = ls.config ∨ op = .install f.ls.config) := by
  cases hx <;>
    first
    | exact ⟨h, Evolves.refl _, Or.inl rfl⟩
    | exact ⟨h.put _ _, evolves_put _ _, Or.inl rfl⟩
    | exact ⟨h.bump.put _ _, evolves_bump.trans (evolves_put _ _), Or.inl rfl⟩
    | skip
  case restoreOk d plain ls' h1 h2 h3 h4 =>
    obtain ⟨d, _, _, hr⟩ := restore_ok h h4
    exact ⟨hr.wf, hr.evolves, Or.inl hr.config⟩
  case install c ls' hu =>
    have hc := hop c rfl
    obtain ⟨ls'', h1, h2, h3, h4, _⟩ := h.updateConf hc.nodup hc.names
    rw [hu] at h1
    cases h1
    exact ⟨h2, h3, Or.inr (by rw [h4])⟩

/-- `install` operations are only created by a reload, with an accepted configuration. -/
theorem ExecR.next_install (hx : ExecR E S now wall ls tid op inp f) {c : Config}
    (hm : .install c ∈ f.next ∨ .install c ∈ f.spawn) :
    ∃ buf, op = .unix buf ∧ parseReq buf = .reload ∧ inp.conf = .ok c ∧ c.Ok E := by
  cases hx <;> simp at hm
  case reloadOk h1 h2 h3 => subst hm; exact ⟨_, rfl, h1, h3, h2⟩
  case failOk =>
    split at hm <;> simp at hm

end

/-! ## The basic invariant -/

/-- Holds in every reachable state. -/
structure Inv0 (E : Env) (w : World) : Prop where
  wf : w.ls.WF
  conf : w.ls.config.Ok E
  ports : w.st.httpPort.isSome ∨ w.st.httpsPort.isSome
  tids : ∀ i, w.nextTid ≤ i → w.threads i = []
  tid0 : 0 < w.nextTid
  inst : ∀ i c, .install c ∈ w.threads i → c.Ok E

theorem mem_apply_threads {w : World} {tid : Nat} {rest : List Op} {f : Eff} {i : Nat} {o : Op}
    (h : o ∈ (w.apply tid rest f).threads i) :
    (i = tid ∧ (o ∈ f.next ∨ o ∈ rest)) ∨ (w.nextTid ≤ i ∧ o ∈ f.spawn ∧ (w.apply tid rest f).threads i = [o]) ∨
      (i ≠ tid ∧ o ∈ w.threads i ∧ (w.apply tid rest f).threads i = w.threads i) := by
  simp only [World.apply] at h ⊢
  rcases spawnAll_cases (setThread w.threads tid (f.next ++ rest)) w.nextTid i f.spawn with
    ⟨_, h1⟩ | ⟨hi, op, hop, h1⟩ | ⟨_, h1⟩
  · rw [h1] at h ⊢
    by_cases hc : i = tid
    · subst hc; rw [setThread_same] at h; exact Or.inl ⟨rfl, by simpa using h⟩
    · rw [setThread_ne _ hc] at h ⊢; exact Or.inr (Or.inr ⟨hc, h, rfl⟩)
  · rw [h1] at h ⊢
    simp only [List.mem_singleton] at h
    subst h
    exact Or.inr (Or.inl ⟨hi, hop, rfl⟩)
  · rw [h1] at h ⊢
    by_cases hc : i = tid
    · subst hc; rw [setThread_same] at h; exact Or.inl ⟨rfl, by simpa using h⟩
    · rw [setThread_ne _ hc] at h ⊢; exact Or.inr (Or.inr ⟨hc, h, rfl⟩)

theorem Inv0.tid_lt {E : Env} {w : World} (h : Inv0 E w) {i : Nat} {op : Op} {rest : List Op}
    (ht : w.threads i = op :: rest) : i < w.nextTid := by
  rcases Nat.lt_or_ge i w.nextTid with h1 | h1
  · exact h1
  · rw [h.tids i h1] at ht; cases ht

/-- The thread that made the step. -/
theorem apply_threads_self {w : World} {tid : Nat} (ht : tid < w.nextTid) (rest : List Op) (f : Eff) :
    (w.apply tid rest f).threads tid = f.next ++ rest := by
  simp only [World.apply]
  rw [spawnAll_lt _ _ _ _ ht, setThread_same]

/-- The other threads. -/
theorem apply_threads_other {w : World} {tid i : Nat} (hi : i < w.nextTid) (hne : i ≠ tid) (rest : List Op) (f : Eff) :
    (w.apply tid rest f).threads i = w.threads i := by
  simp only [World.apply]
  rw [spawnAll_lt _ _ _ _ hi, setThread_ne _ hne]

theorem Inv0.init {E : Env} {w : World} (h : IsInit E w) : Inv0 E w where
  wf := by rw [h.ls]; exact wf_new h.conf.nodup h.conf.names
  conf := h.conf
  ports := by rw [h.httpPort, h.httpsPort]; exact h.conf.server
  tids := fun i _ => h.threads i
  tid0 := by rw [h.nextTid]; omega
  inst := by intro i c hc; rw [h.threads i] at hc; simp at hc

theorem Inv0.step {E : Env} {w w' : World} {a : Action} (h : Inv0 E w) (hs : StepR E w a w') : Inv0 E w' := by
  cases hs with
  | tick d => exact ⟨h.wf, h.conf, h.ports, h.tids, h.tid0, h.inst⟩
  | setWall t => exact ⟨h.wf, h.conf, h.ports, h.tids, h.tid0, h.inst⟩
  | connect buf hb =>
    refine ⟨h.wf, h.conf, h.ports, ?_, h.tid0, ?_⟩
    · intro i hi
      have := h.tid0
      simp only at hi ⊢
      rw [setThread_ne _ (by omega)]; exact h.tids i hi
    · intro i c hc
      simp only [setThread] at hc
      split at hc
      · simp at hc
      · exact h.inst i c hc
  | http buf sec hb =>
    refine ⟨h.wf, h.conf, h.ports, ?_, Nat.succ_pos _, ?_⟩
    · intro i hi
      simp only at hi ⊢
      rw [setThread_ne _ (by omega)]; exact h.tids i (by omega)
    · intro i c hc
      simp only [setThread] at hc
      split at hc
      · simp at hc
      · exact h.inst i c hc
  | @run tid inp op rest f ht hx =>
    have hop : ∀ c, op = .install c → c.Ok E := by
      rintro c rfl
      exact h.inst tid c (by rw [ht]; simp)
    obtain ⟨h1, h2, h3⟩ := hx.state h.wf hop
    refine ⟨h1, ?_, h.ports, ?_, ?_, ?_⟩
    · rcases h3 with h3 | h3
      · exact h3 ▸ h.conf
      · exact hop _ h3
    · intro i hi
      have htl := h.tid_lt ht
      simp only [World.apply] at hi ⊢
      rw [spawnAll_ge _ _ _ _ hi, setThread_ne _ (by omega)]
      exact h.tids i (by omega)
    · exact Nat.lt_of_lt_of_le h.tid0 (Nat.le_add_right _ _)
    · intro i c hc
      rcases mem_apply_threads hc with ⟨rfl, hc | hc⟩ | ⟨_, hc, _⟩ | ⟨_, hc, _⟩
      · obtain ⟨_, _, _, _, hok⟩ := hx.next_install (Or.inl hc); exact hok
      · exact h.inst i c (by rw [ht]; exact List.mem_cons_of_mem _ hc)
      · obtain ⟨_, _, _, _, hok⟩ := hx.next_install (Or.inr hc); exact hok
      · exact h.inst i c hc
  | runPanic ht hx => exact ⟨h.wf, h.conf, h.ports, h.tids, h.tid0, h.inst⟩
  | refCompute hp => exact ⟨h.wf, h.conf, h.ports, h.tids, h.tid0, h.inst⟩
  | refWait hp hw => exact ⟨h.wf, h.conf, h.ports, h.tids, h.tid0, h.inst⟩
  | @refScan es hp he =>
    refine ⟨h.wf, h.conf, h.ports, ?_, ?_, ?_⟩
    · intro i hi
      simp only at hi ⊢
      rw [spawnAll_ge _ _ _ _ (by simpa using hi)]
      exact h.tids i (by omega)
    · exact Nat.lt_of_lt_of_le h.tid0 (Nat.le_add_right _ _)
    · intro i c hc
      simp only at hc
      rcases spawnAll_cases w.threads w.nextTid i (es.map fun e => .rfStart e.id) with
        ⟨_, h1⟩ | ⟨_, op, hop, h1⟩ | ⟨_, h1⟩
      · rw [h1] at hc; exact h.inst i c hc
      · rw [h1] at hc
        simp at hc
        subst hc
        simp at hop
      · rw [h1] at hc; exact h.inst i c hc
  | notCompute hp => exact ⟨h.wf, h.conf, h.ports, h.tids, h.tid0, h.inst⟩
  | notWait hp hw => exact ⟨h.wf, h.conf, h.ports, h.tids, h.tid0, h.inst⟩
  | notScan hp hn => exact ⟨hn.wf, hn.config ▸ h.conf, h.ports, h.tids, h.tid0, h.inst⟩
  | evWait hp hw => exact ⟨h.wf, h.conf, h.ports, h.tids, h.tid0, h.inst⟩
  | evEmpty hp hw => exact ⟨h.wf, h.conf, h.ports, h.tids, h.tid0, h.inst⟩
  | evPop hp hw => exact ⟨h.wf, h.conf, h.ports, h.tids, h.tid0, h.inst⟩
  | evNoCmd hp hw => exact ⟨h.wf, h.conf, h.ports, h.tids, h.tid0, h.inst⟩
  | evCmd hp hw => exact ⟨h.wf, h.conf, h.ports, h.tids, h.tid0, h.inst⟩
  | evEnd hp => exact ⟨h.wf, h.conf, h.ports, h.tids, h.tid0, h.inst⟩

theorem Reach.inv0 {E : Env} {w : World} (h : Reach E w) : Inv0 E w := by
  induction h with
  | init hi => exact Inv0.init hi
  | step a _ hs ih => exact ih.step (stepR_of_step ih.wf hs).2

/-- Induction over reachable states, with the basic invariant and the relational form of the step. -/
theorem Reach.induct {E : Env} {P : World → Prop} (hi : ∀ w, IsInit E w → P w)
    (hs : ∀ w a w', Reach E w → Inv0 E w → w.proc = .running → P w → StepR E w a w' → P w') :
    ∀ w, Reach E w → P w := by
  intro w h
  induction h with
  | init h => exact hi _ h
  | @step w w' a hr hst ih =>
    have h0 := hr.inv0
    obtain ⟨hp, hr'⟩ := stepR_of_step h0.wf hst
    exact hs w a w' hr h0 hp ih hr'

/-- The later state evolves from the earlier one. -/
theorem StepR.evolves {E : Env} {w w' : World} {a : Action} (h : Inv0 E w) (hs : StepR E w a w') :
    Evolves w.ls w'.ls := by
  cases hs <;> try exact Evolves.refl _
  case run op rest f ht hx =>
    exact (hx.state h.wf (by rintro c rfl; exact h.inst _ c (by rw [ht]; simp))).2.1
  case notScan hp hn => exact hn.evolves

/-- The ports never change. -/
theorem StepR.st {E : Env} {w w' : World} {a : Action} (hs : StepR E w a w') : w'.st = w.st := by
  cases hs <;> rfl

/-- The log only grows. -/
theorem StepR.log {E : Env} {w w' : World} {a : Action} (hs : StepR E w a w') : ∃ l, w'.log = l ++ w.log := by
  cases hs
  case run op rest f ht hx => exact ⟨_, rfl⟩
  case notScan => exact ⟨_, rfl⟩
  all_goals first
    | exact ⟨[], rfl⟩
    | exact ⟨[_], rfl⟩

/-- Time does not go backwards. -/
theorem StepR.now {E : Env} {w w' : World} {a : Action} (hs : StepR E w a w') : w.now ≤ w'.now := by
  cases hs <;> simp [World.apply]
  omega

end Pizauth
