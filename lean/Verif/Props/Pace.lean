import Verif.Props.Schedule

/-!
# C64: how often tokens are refreshed
-/

namespace Pizauth

variable {E : Env}

/-- **C64.** When the refresher starts a refresh of an account, then at least `refresh_retry` has passed since the last
attempt, if that failed; and if it succeeded, at least the lifetime of the token, less `refresh_before_expiry`, or
`refresh_at_least` has passed. (Missing: the former bound after a success, see `C64_not`.) -/
theorem C64_partial {w w' : World} {i : Nat} {n : String} {t : ActiveTok} {a : Account} (hr : Reach E w)
    (hs : w.step E .refresher = some w') (hi : w.nextTid ≤ i) (hst : StartedFor w' i n) (ht : HoldsToken w.ls n t)
    (ha : w.ls.config.get? n = some a)
    {b o r : Nat} (hb : b = a.refreshBeforeExpiry.getD (w.ls.config.refreshBeforeExpiry.getD (90 * 1000000000)))
    (ho' : o = a.refreshAtLeast.getD (w.ls.config.refreshAtLeast.getD (90 * 60 * 1000000000)))
    (hset : r = a.refreshRetry.getD (w.ls.config.refreshRetry.getD (40 * 1000000000)))
    (hc1 : timeMin ≤ t.expiry - (b : Int)) (hc2 : t.obtained + (o : Int) ≤ timeMax)
    (hc3 : ∀ l, t.lastAttempt = some l → l + (r : Int) ≤ timeMax) :
    t.ongoing = false ∧ (∀ l, t.lastAttempt = some l → l + (r : Int) ≤ w.now) ∧
      (t.lastAttempt = none → min (t.expiry - (b : Int)) (t.obtained + (o : Int)) ≤ w.now) := by
  have hfresh : w.threads i = [] := hr.inv0.tids i hi
  have hscan : w.refPc = .scan := by
    obtain ⟨e, _, _, h⟩ := hst
    have hst' := (stepR_of_step hr.inv0.wf hs).2
    cases hst' with
    | refScan h _ => assumption
    | refCompute _ => dsimp only at h; rw [hfresh] at h; cases h
    | refWait _ _ => dsimp only at h; rw [hfresh] at h; cases h
  obtain ⟨d, hd, hle⟩ := ((C14_scan hr hscan hs).2.2.2.1 n).mp ⟨i, hi, hst⟩
  have ho : t.ongoing = false := by
    cases h : t.ongoing with
    | false => rfl
    | true => exact absurd hd ((C14_unique hr ht).2 h d)
  refine ⟨ho, fun l hl => ?_, fun hl => ?_⟩
  · rw [(C14_retry hr ht ho ha hl hset (hc3 l hl)).mp hd] at hle
    exact hle
  · rw [(C14_normal hr ht ho ha hl hb ho' hc1 hc2).mp hd] at hle
    exact hle

/-! ## A token server which grants short-lived tokens -/

namespace Demo

/-- Tokens with a lifetime of a minute, which is less than `refresh_before_expiry`. -/
def shortAnswer : Body :=
  .obj [("token_type", .str "Bearer"), ("access_token", .str "T1"), ("expires_in", .u64 60), ("refresh_token", .str "R1")]

def sShort : List Action := sAsk ++ [.http callback false] ++ n1 3 ++ [.run 1 { net := .body shortAnswer }] ++ n1 4

/-- The refresher starts thread `i`, which refreshes the token. -/
def again (i : Nat) : List Action :=
  [.refresher, .refresher, .refresher, .run i {}, .run i {}, .run i { net := .body shortAnswer }] ++
    List.replicate 5 (.run i {})

def refreshes (l : List (Instant × Obs)) : Nat :=
  (l.filter fun
    | (_, .post _ _ f) => f.contains ("grant_type", "refresh_token")
    | _ => false).length

def unattended : Action → Bool
  | .refresher => true
  | .run (i + 1) _ => decide (2 ≤ i + 1)
  | _ => false

end Demo

open Demo in
/-- C64 is false as stated: without any request from a client, and in no time at all, a token is refreshed three times
(and the daemon would go on like that), if the token server grants tokens with a lifetime shorter than
`refresh_before_expiry`. -/
theorem C64_not : ∃ (w w' : World) (l : List Action), Reach env w ∧ w.run env l = some w' ∧
    (∀ a ∈ l, a = .refresher ∨ ∃ i inp, 2 ≤ i ∧ a = .run i inp) ∧ w'.now = w.now ∧ refreshes w.log = 0 ∧
    refreshes w'.log = 3 := by
  refine ⟨after sShort, andThen (after sShort) (again 2 ++ again 3 ++ again 4), again 2 ++ again 3 ++ again 4,
    after_reach _, ?_, ?_, by decide +kernel, by decide +kernel, by decide +kernel⟩
  · unfold andThen
    cases h : (after sShort).run env (again 2 ++ again 3 ++ again 4) with
    | some w => rfl
    | none =>
      have : ((after sShort).run env (again 2 ++ again 3 ++ again 4)).isSome = true := by decide +kernel
      rw [h] at this; cases this
  · have hall : (again 2 ++ again 3 ++ again 4).all unattended = true := by decide +kernel
    intro a ha
    have := List.all_eq_true.mp hall a ha
    unfold unattended at this
    split at this
    · exact .inl rfl
    · exact .inr ⟨_, _, by simpa using this, rfl⟩
    · cases this

open Demo in
/-- C64: the refresher does start refreshes. -/
example : StartedFor (after (sShort ++ [.refresher, .refresher, .refresher])) 2 "a" ∧
    (after (sShort ++ [.refresher, .refresher])).refPc = .scan :=
  ⟨⟨_, List.mem_cons_self, by decide +kernel, rfl⟩, by decide +kernel⟩

end Pizauth
