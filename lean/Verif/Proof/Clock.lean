import Verif.Model.Clock
import Verif.Proof.Schedule
import Verif.Spec.Clock

/-!
# Several readings instead of one
-/

namespace Pizauth

namespace Clock

theorem dumpInstant_near {δ : Dur} {n m1 m2 : Instant} {w w1 w2 w3 : SysTime} {i : Instant} (hm : m1 ≤ m2)
    (h1 : Near δ m1 n) (h2 : Near δ m2 n) (h3 : Near δ w1 w) (h4 : Near δ w2 w)
    (hlo : timeMin + 2 * δ ≤ w + (i - n)) (hhi : w + (i - n) + 2 * δ ≤ timeMax) :
    Near (2 * δ) (dumpInstant m1 m2 w1 w2 w3 i) (w + (i - n)) := by
  unfold Near at *
  unfold dumpInstant checkedDurationSince checkedAdd checkedSub
  by_cases hle : m1 ≤ i
  · simp only [hle, if_true]
    rw [if_pos (by omega)]
    simp only [Option.getD_some]
    omega
  · have : i ≤ m2 := by omega
    simp only [hle, if_false, this, if_true]
    rw [if_pos (by omega)]
    simp only [Option.getD_some]
    omega

theorem restoreInstant_near {δ : Dur} {n m1 m2 m3 : Instant} {w w1 w2 : SysTime} {t : SysTime}
    (h1 : Near δ w1 w) (h2 : Near δ w2 w) (h3 : Near δ m1 n) (h4 : Near δ m2 n) (h5 : Near δ m3 n)
    (hlo : timeMin + 2 * δ ≤ n + (t - w)) (hhi : n + (t - w) + 2 * δ ≤ timeMax) :
    Near (2 * δ) (restoreInstant w1 w2 m1 m2 m3 t) (n + (t - w)) := by
  unfold Near at *
  unfold restoreInstant checkedDurationSince checkedAdd checkedSub
  by_cases hle : w1 ≤ t
  · simp only [hle, if_true]
    rw [if_pos (by omega)]
    simp only [Option.getD_some]
    omega
  · by_cases h : t ≤ w2
    · simp only [hle, if_false, h, if_true]
      rw [if_pos (by omega)]
      simp only [Option.getD_some]
      omega
    · simp only [hle, h, if_false]
      omega

/-- The time at which a token is to be refreshed does not depend on the clock, if subtracting from its expiry works. -/
theorem refreshAt_const {ls : LockedState} {id : AccountId}
    (h : ∀ t a, ls.tokenstate id = some (.active t) → ls.account id = some a →
      timeMin ≤ t.expiry - (a.effRefreshBeforeExpiry ls.config : Int)) (m m' : Instant) :
    refreshAt ls m id = refreshAt ls m' id := by
  unfold refreshAt
  cases ht : ls.tokenstate id with
  | none => rfl
  | some ts =>
    cases ts with
    | empty => rfl
    | pending p => rfl
    | active t =>
      cases ha : ls.account id with
      | none => rfl
      | some a =>
        have : checkedSub t.expiry (a.effRefreshBeforeExpiry ls.config) = some (t.expiry - (a.effRefreshBeforeExpiry ls.config : Int)) :=
          if_pos (h t a ht ha)
        simp only [this, Option.getD_some]

/-- In any case it gets later with the clock, and by no more. -/
theorem refreshAt_mono {ls : LockedState} {id : AccountId} {m m' : Instant} (hm : m ≤ m') :
    (refreshAt ls m id = none ↔ refreshAt ls m' id = none) ∧
    (refreshAt ls m id = some none ↔ refreshAt ls m' id = some none) ∧
    ∀ t t', refreshAt ls m id = some (some t) → refreshAt ls m' id = some (some t') → t ≤ t' ∧ t' - t ≤ m' - m := by
  unfold refreshAt
  cases ls.tokenstate id with
  | none => simp
  | some ts =>
    cases ts with
    | empty => simp
    | pending p => simp
    | active a =>
      simp only
      by_cases ho : a.ongoing = true
      · simp [ho]
      · rw [if_neg ho, if_neg ho]
        cases ls.account id with
        | none => simp
        | some act =>
          simp only
          have key : ∀ (x y : Instant), (match a.lastAttempt with
              | some lra =>
                match checkedAdd lra (act.effRefreshRetry ls.config) with
                | some t => some (some t)
                | none => some (some x)
              | none => some (some x)) = some (some y) → y = x ∨ ∀ x', (match a.lastAttempt with
              | some lra =>
                match checkedAdd lra (act.effRefreshRetry ls.config) with
                | some t => some (some t)
                | none => some (some x')
              | none => some (some x')) = some (some y) := by
            intro x y h
            cases hl : a.lastAttempt with
            | none => rw [hl] at h; left; simpa using h.symm
            | some lra =>
              rw [hl] at h
              simp only at h ⊢
              cases hc : checkedAdd lra (act.effRefreshRetry ls.config) with
              | none => rw [hc] at h; left; simpa using h.symm
              | some t => rw [hc] at h; right; intro _; exact h
          have some' : ∀ x : Instant, ∃ y, (match a.lastAttempt with
              | some lra =>
                match checkedAdd lra (act.effRefreshRetry ls.config) with
                | some t => some (some t)
                | none => some (some x)
              | none => some (some x)) = some (some y) := by
            intro x
            cases a.lastAttempt with
            | none => exact ⟨_, rfl⟩
            | some lra =>
              simp only
              cases checkedAdd lra (act.effRefreshRetry ls.config) <;> exact ⟨_, rfl⟩
          generalize hA : (match checkedAdd a.obtained (act.effRefreshAtLeast ls.config) with
            | some t => min ((checkedSub a.expiry (act.effRefreshBeforeExpiry ls.config)).getD (min m a.expiry)) t
            | none => (checkedSub a.expiry (act.effRefreshBeforeExpiry ls.config)).getD (min m a.expiry)) = A
          generalize hB : (match checkedAdd a.obtained (act.effRefreshAtLeast ls.config) with
            | some t => min ((checkedSub a.expiry (act.effRefreshBeforeExpiry ls.config)).getD (min m' a.expiry)) t
            | none => (checkedSub a.expiry (act.effRefreshBeforeExpiry ls.config)).getD (min m' a.expiry)) = B
          have hAB : A ≤ B ∧ B - A ≤ m' - m := by
            rw [← hA, ← hB]
            cases checkedSub a.expiry (act.effRefreshBeforeExpiry ls.config) with
            | none => cases checkedAdd a.obtained (act.effRefreshAtLeast ls.config) <;> simp only [Option.getD_none] <;> omega
            | some e => cases checkedAdd a.obtained (act.effRefreshAtLeast ls.config) <;> simp only [Option.getD_some] <;> omega
          obtain ⟨y, hy⟩ := some' A
          obtain ⟨y', hy'⟩ := some' B
          have hyA := hy
          have hyB := hy'
          rw [← hA] at hyA
          rw [← hB] at hyB
          refine ⟨⟨fun h => ?_, fun h => ?_⟩, ⟨fun h => ?_, fun h => ?_⟩, fun t t' h h' => ?_⟩
          · exact absurd (hyA.symm.trans h) (by simp)
          · exact absurd (hyB.symm.trans h) (by simp)
          · exact absurd (hyA.symm.trans h) (by simp)
          · exact absurd (hyB.symm.trans h) (by simp)
          · have e : y = t := by simpa using hyA.symm.trans h
            have e' : y' = t' := by simpa using hyB.symm.trans h'
            subst e e'
            rcases key _ _ hy with r | h1
            · rcases key _ _ hy' with r' | h2
              · rw [r, r']; exact hAB
              · have := (h2 A).symm.trans hy; cases this; omega
            · have := (h1 B).symm.trans hy'; cases this; omega

theorem dueIds_same {ls : LockedState} {now : Instant} {later : AccountId → Instant} : ∀ (ids : List AccountId),
    (∀ id ∈ ids, refreshAt ls (later id) id = refreshAt ls now id) → dueIds ls now later ids = Pizauth.dueIds ls now ids
  | [], _ => rfl
  | id :: r, h => by
    simp only [dueIds, Pizauth.dueIds, h id (by simp), dueIds_same r fun i hi => h i (by simp [hi])]
    rfl

theorem refreshAt_follows {ls : LockedState} {id : AccountId} {m m' : Instant} (hm : m ≤ m') :
    Follows (m' - m) (refreshAt ls m id) (refreshAt ls m' id) := by
  obtain ⟨h1, h2, h3⟩ := refreshAt_mono (ls := ls) (id := id) hm
  cases ha : refreshAt ls m id with
  | none => rw [h1.mp ha]; trivial
  | some o =>
    cases hb : refreshAt ls m' id with
    | none => rw [h1.mpr hb] at ha; cases ha
    | some o' =>
      cases o with
      | none => rw [h2.mp ha] at hb; cases hb; trivial
      | some t =>
        cases o' with
        | none => rw [h2.mpr hb] at ha; cases ha
        | some t' => exact h3 t t' ha hb

theorem notifyAt_follows {ls : LockedState} {id : AccountId} {m m' : Instant} (hm : m ≤ m') :
    Follows (m' - m) (notifyAt ls m id) (notifyAt ls m' id) := by
  unfold notifyAt
  cases ls.tokenstate id with
  | none => trivial
  | some ts =>
    cases ts with
    | empty => trivial
    | active a => trivial
    | pending p =>
      simp only
      cases p.lastNotification with
      | none => exact ⟨hm, Int.le_refl _⟩
      | some t =>
        simp only
        cases checkedAdd t ls.config.authNotifyInterval with
        | none => trivial
        | some x => exact ⟨Int.le_refl _, by omega⟩

theorem Follows.weaken {e e' : Int} (h : e ≤ e') : ∀ {a b}, Follows e a b → Follows e' a b
  | none, none, _ => trivial
  | some none, some none, _ => trivial
  | some (some _), some (some _), ⟨h1, h2⟩ => ⟨h1, Int.le_trans h2 h⟩
  | none, some _, h => h.elim
  | some none, none, h => h.elim
  | some (some _), none, h => h.elim
  | some none, some (some _), h => h.elim
  | some (some _), some none, h => h.elim

theorem optAll_follows {f g : AccountId → Option (Option Instant)} {e : Int} (he : 0 ≤ e) : ∀ {ids : List AccountId},
    (∀ id ∈ ids, Follows e (f id) (g id)) →
    Follows e ((optAll f ids).map fun l => minTime (l.filterMap id)) ((optAll g ids).map fun l => minTime (l.filterMap id))
  | [], _ => trivial
  | i :: r, h => by
    have h1 := h i (by simp)
    have h2 := optAll_follows he (ids := r) fun i hi => h i (by simp [hi])
    simp only [optAll]
    revert h1 h2
    cases f i with
    | none =>
      cases g i with
      | none => intros; trivial
      | some o => intro h; cases h
    | some o =>
      cases g i with
      | none => intro h; cases o <;> cases h
      | some o' =>
        cases optAll f r with
        | none =>
          cases optAll g r with
          | none => intros; trivial
          | some l => intro _ h; cases h
        | some l =>
          cases optAll g r with
          | none => intro _ h; simp only [Option.map_some, Option.map_none] at h; cases hm : minTime (l.filterMap id) <;> rw [hm] at h <;> cases h
          | some l' =>
            simp only [Option.map_some]
            cases o with
            | none =>
              cases o' with
              | none => intro _ h; simpa using h
              | some t => intro h; cases h
            | some t =>
              cases o' with
              | none => intro h; cases h
              | some t' =>
                intro ⟨h1, h1'⟩ h2
                simp only [List.filterMap_cons, id_eq, minTime]
                revert h2
                cases minTime (l.filterMap id) with
                | none =>
                  cases minTime (l'.filterMap id) with
                  | none => intro _; exact ⟨h1, h1'⟩
                  | some m' => intro h; cases h
                | some m =>
                  cases minTime (l'.filterMap id) with
                  | none => intro h; cases h
                  | some m' =>
                    intro ⟨h2, h2'⟩
                    constructor <;> omega

theorem wakeup_follows {f g : AccountId → Option (Option Instant)} {ids : List AccountId} {m m' : Instant} {e : Int}
    (hm : m ≤ m') (he : m' - m ≤ e) (h : ∀ id ∈ ids, Follows e (f id) (g id)) (hfit : m' + (maxWait : Int) ≤ timeMax) :
    Follows e ((optAll f ids).map (nextWakeup m)) ((optAll g ids).map (nextWakeup m')) := by
  have h1 := optAll_follows (by omega : 0 ≤ e) h
  revert h1
  cases optAll f ids with
  | none =>
    cases optAll g ids with
    | none => intro _; trivial
    | some l => intro h; cases h
  | some l =>
    cases optAll g ids with
    | none => intro h; simp only [Option.map_some, Option.map_none] at h; cases hm : minTime (l.filterMap id) <;> rw [hm] at h <;> cases h
    | some l' =>
      simp only [Option.map_some, nextWakeup, checkedAdd]
      rw [if_pos (by omega), if_pos hfit]
      cases minTime (l.filterMap id) with
      | none =>
        cases minTime (l'.filterMap id) with
        | none => intro _; trivial
        | some t => intro h; cases h
      | some t =>
        cases minTime (l'.filterMap id) with
        | none => intro h; cases h
        | some t' =>
          intro ⟨h1, h2⟩
          simp only [Option.map_some]
          constructor <;> omega

end Clock

end Pizauth
