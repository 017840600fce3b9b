import Verif.Spec.Schedule
import Verif.Proof.Shape
import Verif.Proof.Reload
import Verif.Proof.Ids

/-!
# When the refresher and the notifier wake up
-/

namespace Pizauth
open LockedState

variable {E : Env}

theorem setting_eq (x y : Option Dur) (k : Nat) : (x.or y).getD (secs k) = setting x y k := by
  cases x <;> cases y <;> rfl

theorem retry_eq (c : Config) (a : Account) : a.effRefreshRetry c = retrySetting c a := setting_eq _ _ 40
theorem before_eq (c : Config) (a : Account) : a.effRefreshBeforeExpiry c = beforeSetting c a := setting_eq _ _ 90
theorem atLeast_eq (c : Config) (a : Account) : a.effRefreshAtLeast c = atLeastSetting c a := setting_eq _ _ (90 * 60)

theorem refreshDue_eq {c : Config} {a : Account} {now : Instant} {t : ActiveTok} (h : t.ongoing = false) :
    refreshDue c a now (.active t) = some (dueTime c a t now) := by
  have hn : (match checkedAdd t.obtained (a.effRefreshAtLeast c) with
        | some t1 => min ((checkedSub t.expiry (a.effRefreshBeforeExpiry c)).getD (min now t.expiry)) t1
        | none => (checkedSub t.expiry (a.effRefreshBeforeExpiry c)).getD (min now t.expiry)) = normalDue c a t now := by
    unfold normalDue checkedAdd checkedSub
    rw [before_eq, atLeast_eq]
    by_cases h1 : timeMin ≤ t.expiry - (beforeSetting c a : Int) <;>
      by_cases h2 : t.obtained + (atLeastSetting c a : Int) ≤ timeMax <;> simp [h1, h2]
  unfold refreshDue dueTime
  simp only [h, Bool.false_eq_true, if_false]
  cases t.lastAttempt with
  | none => exact congrArg some hn
  | some l =>
    simp only
    rw [retry_eq]
    by_cases h1 : l + (retrySetting c a : Int) ≤ timeMax
    · simp [checkedAdd, h1]
    · have : checkedAdd l (retrySetting c a) = none := by simp [checkedAdd, h1]
      rw [this, if_neg h1]
      exact congrArg some hn

theorem refreshDueE_some {ls : LockedState} (h : ls.WF) {now d : Instant} {e : Entry} (he : e ∈ ls.details) :
    refreshDueE ls now e = some d ↔ RefreshAt ls now e.name d := by
  obtain ⟨a, ha⟩ := h.has he
  unfold refreshDueE
  rw [ha.2]
  simp only
  constructor
  · intro hd
    cases hts : e.ts with
    | empty => rw [hts] at hd; cases hd
    | pending p => rw [hts] at hd; cases hd
    | active t =>
      rw [hts] at hd
      cases hon : t.ongoing with
      | true => simp [refreshDue, hon] at hd
      | false =>
        rw [refreshDue_eq hon] at hd
        exact ⟨t, a, ⟨e, he, rfl, hts⟩, hon, ha.2, (Option.some.inj hd).symm⟩
  · rintro ⟨t, a', ⟨e', he', hn, hts⟩, hon, ha', rfl⟩
    have := h.entry_name_inj he' he hn
    subst this
    rw [ha.2] at ha'
    cases ha'
    rw [hts, refreshDue_eq hon]

theorem notifyDueE_some {ls : LockedState} (h : ls.WF) {now d : Instant} {e : Entry} (he : e ∈ ls.details) :
    notifyDueE ls now e = some d ↔ NotifyAt ls now e.name d := by
  unfold notifyDueE
  constructor
  · intro hd
    cases hts : e.ts with
    | empty => rw [hts] at hd; cases hd
    | active t => rw [hts] at hd; cases hd
    | pending p =>
      rw [hts] at hd
      simp only at hd
      refine ⟨p, ⟨e, he, rfl, hts⟩, ?_⟩
      cases hl : p.lastNotification with
      | none => rw [hl] at hd; exact .inl ⟨rfl, (Option.some.inj hd).symm⟩
      | some l =>
        rw [hl] at hd
        simp only [checkedAdd] at hd
        split at hd
        · rename_i hc
          cases hd
          exact .inr ⟨l, rfl, rfl, hc⟩
        · cases hd
  · rintro ⟨p, ⟨e', he', hn, hts⟩, hp⟩
    have := h.entry_name_inj he' he hn
    subst this
    rw [hts]
    simp only
    rcases hp with ⟨hl, rfl⟩ | ⟨l, hl, rfl, hc⟩
    · rw [hl]
    · rw [hl]; simp [checkedAdd, hc]

theorem minTime_spec : ∀ l : List Instant,
    match minTime l with
    | none => l = []
    | some m => m ∈ l ∧ ∀ x ∈ l, m ≤ x
  | [] => rfl
  | t :: r => by
    have ih := minTime_spec r
    unfold minTime
    cases hm : minTime r with
    | none => rw [hm] at ih; simp only at ih; subst ih; simp
    | some m =>
      rw [hm] at ih
      simp only at ih ⊢
      obtain ⟨h1, h2⟩ := ih
      rcases Int.le_total t m with h | h
      · rw [Int.min_eq_left h]
        refine ⟨by simp, fun x hx => ?_⟩
        rcases List.mem_cons.mp hx with rfl | hx
        · exact Int.le_refl _
        · exact Int.le_trans h (h2 x hx)
      · rw [Int.min_eq_right h]
        refine ⟨by simp [h1], fun x hx => ?_⟩
        rcases List.mem_cons.mp hx with rfl | hx
        · exact h
        · exact h2 x hx

theorem nextWakeup_spec (now : Instant) (ts : List (Option Instant)) :
    SleepUntil now (fun d => some d ∈ ts) (nextWakeup now ts) := by
  have h := minTime_spec (ts.filterMap id)
  unfold nextWakeup SleepUntil
  cases hm : minTime (ts.filterMap id) with
  | none =>
    rw [hm] at h
    simp only at h
    simp only [Option.map_none]
    intro d hd
    have : d ∈ ts.filterMap id := List.mem_filterMap.mpr ⟨_, hd, rfl⟩
    rw [h] at this; cases this
  | some m =>
    rw [hm] at h
    simp only at h
    obtain ⟨h1, h2⟩ := h
    have hin : some m ∈ ts := by
      obtain ⟨x, hx, hx'⟩ := List.mem_filterMap.mp h1
      simp only [id_eq] at hx'
      rw [← hx']; exact hx
    have hle : ∀ d, some d ∈ ts → m ≤ d := fun d hd => h2 d (List.mem_filterMap.mpr ⟨_, hd, rfl⟩)
    have hw : ((maxWait : Nat) : Int) = 37000000000 := rfl
    simp only [Option.map_some, checkedAdd, hw]
    by_cases hc : now + 37000000000 ≤ timeMax
    · simp only [hc, if_true]
      rcases Int.le_total m (now + 37000000000) with h | h
      · rw [Int.min_eq_left h]
        exact ⟨hle, fun _ => h, .inl hin, m, hin⟩
      · rw [Int.min_eq_right h]
        exact ⟨fun d hd => Int.le_trans h (hle d hd), fun _ => Int.le_refl _, .inr rfl, m, hin⟩
    · simp only [hc, if_false]
      exact ⟨hle, fun h => h.elim, .inl hin, m, hin⟩

theorem refresher_due {ls : LockedState} (h : ls.WF) {now d : Instant} :
    some d ∈ ls.details.map (refreshDueE ls now) ↔ ∃ n, RefreshAt ls now n d := by
  rw [List.mem_map]
  constructor
  · rintro ⟨e, he, hd⟩; exact ⟨e.name, (refreshDueE_some h he).mp hd⟩
  · rintro ⟨n, hd⟩
    obtain ⟨t, a, ⟨e, he, hn, _⟩, _⟩ := id hd
    subst hn
    exact ⟨e, he, (refreshDueE_some h he).mpr hd⟩

theorem notifier_due {ls : LockedState} (h : ls.WF) {now d : Instant} :
    some d ∈ ls.details.map (notifyDueE ls now) ↔ ∃ n, NotifyAt ls now n d := by
  rw [List.mem_map]
  constructor
  · rintro ⟨e, he, hd⟩; exact ⟨e.name, (notifyDueE_some h he).mp hd⟩
  · rintro ⟨n, hd⟩
    obtain ⟨p, ⟨e, he, hn, _⟩, _⟩ := id hd
    subst hn
    exact ⟨e, he, (notifyDueE_some h he).mpr hd⟩

/-- Due times do not become earlier by waiting. -/
theorem dueTime_mono {c : Config} {a : Account} {t : ActiveTok} {now now' : Instant} (h : now ≤ now') :
    dueTime c a t now ≤ dueTime c a t now' := by
  have hn : normalDue c a t now ≤ normalDue c a t now' := by
    unfold normalDue
    simp only
    split <;> split <;> omega
  unfold dueTime
  split
  · split
    · exact Int.le_refl _
    · exact hn
  · exact hn

section
variable {S : Static} {now : Instant} {wall : SysTime} {ls : LockedState} {tid : Nat}
  {op : Op} {inp : Input} {f : Eff}

/-- Where an unmarked token comes from. -/
theorem ExecR.unmarked (hx : ExecR E S now wall ls tid op inp f) (hop : OpInv E S ls op)
    {e' : Entry} {t : ActiveTok} (he' : e' ∈ f.ls.details) (hts : e'.ts = .active t) (hon : t.ongoing = false) :
    (e' ∈ ls.details ∧ f.ls.config = ls.config) ∨ .wakeRefresher ∈ f.next ∨ ∃ c, op = .install c := by
  have hput : ∀ (ls1 : LockedState) (id : Nat) (ts : TokenState), ls1.details = ls.details → ls1.config = ls.config →
      f.ls = ls1.put id ts → (∀ t, ts = .active t → t.ongoing = false → .wakeRefresher ∈ f.next) →
      (e' ∈ ls.details ∧ f.ls.config = ls.config) ∨ .wakeRefresher ∈ f.next ∨ ∃ c, op = .install c := by
    intro ls1 id ts hd hc hf hw
    rw [hf] at he' ⊢
    rcases mem_put.mp he' with ⟨hm, _⟩ | ⟨e1, _, _, rfl⟩
    · exact .inl ⟨hd ▸ hm, hc⟩
    · exact .inr (.inl (hw t hts hon))
  cases hx <;>
    first
    | exact .inl ⟨he', rfl⟩
    | exact .inr (.inr ⟨_, rfl⟩)
    | (refine .inr (.inl ?_); simp; done)
    | (refine hput ls _ _ rfl rfl rfl ?_; intro t h hon; cases h <;> cases hon; done)
    | (refine hput ls.bump _ _ rfl rfl rfl ?_; intro t h hon; cases h <;> cases hon; done)
    | skip
  case rfTransientCmd ha h1 h2 h3 h4 =>
    obtain ⟨t1, ht1, hon1, _⟩ := hop.2 _ _ ha h1
    refine hput ls _ _ rfl rfl rfl ?_
    rintro t h hon
    cases h
    rw [h2] at ht1
    cases ht1
    rw [hon1] at hon; cases hon

/-- Where a pending authorisation comes from. -/
theorem ExecR.waiting (hx : ExecR E S now wall ls tid op inp f)
    {e' : Entry} {p : PendingTok} (he' : e' ∈ f.ls.details) (hts : e'.ts = .pending p) :
    (e' ∈ ls.details ∧ f.ls.config = ls.config) ∨ .wakeNotifier ∈ f.next ∨ ∃ c, op = .install c := by
  have hput : ∀ (ls1 : LockedState) (id : Nat) (ts : TokenState), ls1.details = ls.details → ls1.config = ls.config →
      f.ls = ls1.put id ts → (∀ p, ts ≠ .pending p) →
      (e' ∈ ls.details ∧ f.ls.config = ls.config) ∨ .wakeNotifier ∈ f.next ∨ ∃ c, op = .install c := by
    intro ls1 id ts hd hc hf hw
    rw [hf] at he' ⊢
    rcases mem_put.mp he' with ⟨hm, _⟩ | ⟨e1, _, _, rfl⟩
    · exact .inl ⟨hd ▸ hm, hc⟩
    · exact absurd hts (hw p)
  cases hx <;>
    first
    | exact .inl ⟨he', rfl⟩
    | exact .inr (.inr ⟨_, rfl⟩)
    | (refine .inr (.inl ?_); simp; done)
    | (refine hput ls _ _ rfl rfl rfl ?_; intro t h; cases h; done)
    | (refine hput ls.bump _ _ rfl rfl rfl ?_; intro t h; cases h; done)
    | skip

end


theorem Inv0.lt_of_mem' {w : World} (h0 : Inv0 E w) {i : Nat} {o : Op} (h : o ∈ w.threads i) : i < w.nextTid := by
  rcases Nat.lt_or_ge i w.nextTid with hl | hl
  · exact hl
  · rw [h0.tids i hl] at h; cases h

theorem Inv0.lt_of_mem {w : World} (h0 : Inv0 E w) {i : Nat} {o : Op} {r : List Op} (h : w.threads i = o :: r) :
    i < w.nextTid := h0.lt_of_mem' (o := o) (by rw [h]; simp)

/-- An operation is performed, or still to be performed. -/
theorem mem_run {w : World} (h0 : Inv0 E w) {tid : Nat} {op o : Op} {rest : List Op} {f : Eff}
    (ht : w.threads tid = op :: rest) (h : ∃ i, o ∈ w.threads i) :
    o = op ∨ ∃ i, o ∈ (w.apply tid rest f).threads i := by
  obtain ⟨i, hi⟩ := h
  by_cases hit : i = tid
  · subst hit
    rw [ht] at hi
    rcases List.mem_cons.mp hi with h | h
    · exact .inl h
    · refine .inr ⟨i, ?_⟩
      rw [apply_threads_self (h0.lt_of_mem ht)]
      exact List.mem_append_right _ h
  · refine .inr ⟨i, ?_⟩
    rw [apply_threads_other (h0.lt_of_mem' hi) hit]
    exact hi

theorem mem_next {w : World} (h0 : Inv0 E w) {tid : Nat} {op o : Op} {rest : List Op} {f : Eff}
    (ht : w.threads tid = op :: rest) (h : o ∈ f.next ++ rest) : ∃ i, o ∈ (w.apply tid rest f).threads i :=
  ⟨tid, by rw [apply_threads_self (h0.lt_of_mem ht)]; exact h⟩

/-- The refresher does not sleep for too long. -/
def RefSched (w : World) : Prop :=
  ∀ x, w.refPc = .wait x → ∀ n d, RefreshAt w.ls w.now n d → (∃ s, x = some s ∧ s ≤ d) ∨ RefresherWoken w

def NotSched (w : World) : Prop :=
  ∀ x, w.notPc = .wait x → ∀ n d, NotifyAt w.ls w.now n d → (∃ s, x = some s ∧ s ≤ d) ∨ NotifierWoken w

theorem RefresherWoken.step {w w' : World} {a : Action} (h0 : Inv0 E w) (hs : StepR E w a w') (h : RefresherWoken w) :
    RefresherWoken w' ∨ w'.refPc = .scan := by
  cases hs <;> try exact .inl h
  case connect buf hb =>
    refine .inl (h.imp id ?_)
    rintro ⟨i, hi⟩
    refine ⟨i, ?_⟩
    by_cases h : i = 0
    · subst h; rw [hb] at hi; cases hi
    · simpa [setThread, h] using hi
  case http buf sec hb =>
    refine .inl (h.imp id ?_)
    rintro ⟨i, hi⟩
    have := h0.lt_of_mem' hi
    refine ⟨i, ?_⟩
    simpa [setThread, Nat.ne_of_lt this] using hi
  case run tid inp op rest f ht hx =>
    rcases h with h | h
    · exact .inl (.inl (by simp [World.apply, h]))
    · rcases mem_run (f := f) h0 ht h with rfl | h
      · cases hx
        exact .inl (.inl (by simp [World.apply]))
      · exact .inl (.inr h)
  case refWait hp hw => exact .inr rfl
  case refScan es hp he =>
    refine .inl (h.imp id ?_)
    rintro ⟨i, hi⟩
    refine ⟨i, ?_⟩
    dsimp only
    rw [spawnAll_lt _ _ _ _ (h0.lt_of_mem' hi)]
    exact hi

theorem NotifierWoken.step {w w' : World} {a : Action} (h0 : Inv0 E w) (hs : StepR E w a w') (h : NotifierWoken w) :
    NotifierWoken w' ∨ w'.notPc = .scan := by
  cases hs <;> try exact .inl h
  case connect buf hb =>
    refine .inl (h.imp id ?_)
    rintro ⟨i, hi⟩
    refine ⟨i, ?_⟩
    by_cases h : i = 0
    · subst h; rw [hb] at hi; cases hi
    · simpa [setThread, h] using hi
  case http buf sec hb =>
    refine .inl (h.imp id ?_)
    rintro ⟨i, hi⟩
    have := h0.lt_of_mem' hi
    refine ⟨i, ?_⟩
    simpa [setThread, Nat.ne_of_lt this] using hi
  case run tid inp op rest f ht hx =>
    rcases h with h | h
    · exact .inl (.inl (by simp [World.apply, h]))
    · rcases mem_run (f := f) h0 ht h with rfl | h
      · cases hx
        exact .inl (.inl (by simp [World.apply]))
      · exact .inl (.inr h)
  case notWait hp hw => exact .inr rfl
  case refScan es hp he =>
    refine .inl (h.imp id ?_)
    rintro ⟨i, hi⟩
    refine ⟨i, ?_⟩
    dsimp only
    rw [spawnAll_lt _ _ _ _ (h0.lt_of_mem' hi)]
    exact hi

/-- A time which is new is one at which the refresher is woken, or was there, possibly earlier. -/
theorem RefreshAt.step {w w' : World} {a : Action} (hr : Reach E w) (hs : StepR E w a w') {n : String} {d : Instant}
    (h : RefreshAt w'.ls w'.now n d) : (∃ d', RefreshAt w.ls w.now n d' ∧ d' ≤ d) ∨ RefresherWoken w' := by
  have h0 := hr.inv0
  cases hs <;> try exact .inl ⟨d, h, Int.le_refl _⟩
  case tick x =>
    obtain ⟨t, a, h1, h2, h3, rfl⟩ := h
    exact .inl ⟨_, ⟨t, a, h1, h2, h3, rfl⟩, dueTime_mono (by simp only; omega)⟩
  case run tid inp op rest f ht hx =>
    obtain ⟨t, a, ⟨e, he, hn, hts⟩, h2, h3, rfl⟩ := h
    rcases hx.unmarked (Reach.opsInv w hr tid op (by rw [ht]; simp)) he hts h2 with ⟨h, hc⟩ | h | ⟨c, rfl⟩
    · have hc' : (w.apply tid rest f).ls.config = w.ls.config := hc
      rw [hc'] at h3 ⊢
      exact .inl ⟨_, ⟨t, a, ⟨e, h, hn, hts⟩, h2, h3, rfl⟩, Int.le_refl _⟩
    · exact .inr (.inr (mem_next h0 ht (List.mem_append_left _ h)))
    · refine .inr (.inr (mem_next h0 ht (List.mem_append_right _ ?_)))
      obtain ⟨rfl, h⟩ := (Reach.shape w hr).install (i := tid) (c := c) (by rw [ht]; simp)
      rw [ht] at h
      cases h
      simp
  case notScan ls' hp hn =>
    obtain ⟨t, a, ⟨e, he, hn', hts⟩, h2, h3, rfl⟩ := h
    simp only at he h3 ⊢
    rw [hn.config] at h3 ⊢
    rcases hn.back e he with ⟨h, _⟩ | ⟨_, _, p, _, _, hts', _⟩
    · exact .inl ⟨_, ⟨t, a, ⟨e, h, hn', hts⟩, h2, h3, rfl⟩, Int.le_refl _⟩
    · rw [hts] at hts'; cases hts'

theorem NotifyAt.step {w w' : World} {a : Action} (hr : Reach E w) (hs : StepR E w a w') {n : String} {d : Instant}
    (h : NotifyAt w'.ls w'.now n d) :
    (∃ d', NotifyAt w.ls w.now n d' ∧ d' ≤ d) ∨ NotifierWoken w' ∨ w'.notPc = .compute := by
  have h0 := hr.inv0
  cases hs <;> try exact .inl ⟨d, h, Int.le_refl _⟩
  case tick x =>
    obtain ⟨p, h1, ⟨h2, rfl⟩ | h2⟩ := h
    · exact .inl ⟨w.now, ⟨p, h1, .inl ⟨h2, rfl⟩⟩, by simp only; omega⟩
    · exact .inl ⟨_, ⟨p, h1, .inr h2⟩, Int.le_refl _⟩
  case run tid inp op rest f ht hx =>
    obtain ⟨p, ⟨e, he, hn, hts⟩, h2⟩ := h
    rcases hx.waiting he hts with ⟨h, hc⟩ | h | ⟨c, rfl⟩
    · have hc' : (w.apply tid rest f).ls.config = w.ls.config := hc
      rw [hc'] at h2
      exact .inl ⟨_, ⟨p, ⟨e, h, hn, hts⟩, h2⟩, Int.le_refl _⟩
    · exact .inr (.inl (.inr (mem_next h0 ht (List.mem_append_left _ h))))
    · refine .inr (.inl (.inr (mem_next h0 ht (List.mem_append_right _ ?_))))
      obtain ⟨rfl, h⟩ := (Reach.shape w hr).install (i := tid) (c := c) (by rw [ht]; simp)
      rw [ht] at h
      cases h
      simp
  case notScan ls' hp hn => exact .inr (.inr rfl)

theorem StepR.refPc {w w' : World} {a : Action} (hs : StepR E w a w') {x : Option Instant} (h : w'.refPc = .wait x) :
    w.refPc = .wait x ∨ (w.refPc = .compute ∧ w' = { w with refPc := .wait x } ∧
      x = nextWakeup w.now (w.ls.details.map (refreshDueE w.ls w.now))) := by
  cases hs <;> try exact .inl h
  case refCompute hp => cases h; exact .inr ⟨hp, rfl, rfl⟩
  case refWait => cases h
  case refScan => cases h

theorem StepR.notPc {w w' : World} {a : Action} (hs : StepR E w a w') {x : Option Instant} (h : w'.notPc = .wait x) :
    w.notPc = .wait x ∨ (w.notPc = .compute ∧ w' = { w with notPc := .wait x } ∧
      x = nextWakeup w.now (w.ls.details.map (notifyDueE w.ls w.now))) := by
  cases hs <;> try exact .inl h
  case notCompute hp => cases h; exact .inr ⟨hp, rfl, rfl⟩
  case notWait => cases h
  case notScan => cases h

theorem Reach.refSched : ∀ w, Reach E w → RefSched w := by
  apply Reach.induct
  · intro w hi x hx
    rw [hi.refPc] at hx; cases hx
  · intro w a w' hw h0 _ ih hs x hx n d hd
    rcases hs.refPc hx with hx' | ⟨_, rfl, hx'⟩
    · rcases hd.step hw hs with ⟨d', hd', hle⟩ | h
      · rcases ih x hx' n d' hd' with ⟨s, hs1, hs2⟩ | h
        · exact .inl ⟨s, hs1, Int.le_trans hs2 hle⟩
        · rcases h.step h0 hs with h | h
          · exact .inr h
          · rw [hx] at h; cases h
      · exact .inr h
    · have := nextWakeup_spec w.now (w.ls.details.map (refreshDueE w.ls w.now))
      rw [← hx'] at this
      have hin := (refresher_due h0.wf).mpr ⟨n, hd⟩
      cases x with
      | none => exact (this d hin).elim
      | some s => exact .inl ⟨s, rfl, this.1 d hin⟩

theorem Reach.notSched : ∀ w, Reach E w → NotSched w := by
  apply Reach.induct
  · intro w hi x hx
    rw [hi.notPc] at hx; cases hx
  · intro w a w' hw h0 _ ih hs x hx n d hd
    rcases hs.notPc hx with hx' | ⟨_, rfl, hx'⟩
    · rcases hd.step hw hs with ⟨d', hd', hle⟩ | h | h
      · rcases ih x hx' n d' hd' with ⟨s, hs1, hs2⟩ | h
        · exact .inl ⟨s, hs1, Int.le_trans hs2 hle⟩
        · rcases h.step h0 hs with h | h
          · exact .inr h
          · rw [hx] at h; cases h
      · exact .inr h
      · rw [hx] at h; cases h
    · have := nextWakeup_spec w.now (w.ls.details.map (notifyDueE w.ls w.now))
      rw [← hx'] at this
      have hin := (notifier_due h0.wf).mpr ⟨n, hd⟩
      cases x with
      | none => exact (this d hin).elim
      | some s => exact .inl ⟨s, rfl, this.1 d hin⟩

end Pizauth
