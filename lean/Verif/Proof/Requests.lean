import Verif.Proof.Pending

/-!
# The effect of each request
-/

namespace Pizauth
open LockedState

variable {E : Env} {S : Static} {now : Instant} {wall : SysTime} {ls : LockedState} {tid : Nat} {buf : Bytes}
  {inp : Input} {f : Eff}

/-- What `show n` does. -/
inductive ShowR (E : Env) (S : Static) (now : Instant) (ls : LockedState) (u : Bool) (n : String) (inp : Input) :
    Eff → Prop where
  | unknown : (∀ e ∈ ls.details, e.name ≠ n) →
      ShowR E S now ls u n inp { ls := ls, next := [.reply (noAccountReply n)] }
  | auth {e : Entry} {a : Account} {url : Url} : ls.Has e a → e.name = n → e.ts = .empty → AuthUrl E S a inp url →
      ShowR E S now ls u n inp
        { ls := ls.put e.id (freshPending url inp), next := [.wakeNotifier, .reply (pendingReply E u url)] }
  | authErr {e : Entry} {a : Account} : ls.Has e a → e.name = n → e.ts = .empty → (∀ url, ¬ AuthUrl E S a inp url) →
      ShowR E S now ls u n inp { ls := ls }
  | pending {e : Entry} {a : Account} {p : PendingTok} : ls.Has e a → e.name = n → e.ts = .pending p →
      ShowR E S now ls u n inp { ls := ls, next := [.reply (pendingReply E u p.url)] }
  | tok {e : Entry} {a : Account} {t : ActiveTok} : ls.Has e a → e.name = n → e.ts = .active t → t.expiry > now →
      ShowR E S now ls u n inp { ls := ls, next := [.reply (utf8 ("access_token:" ++ t.accessToken))] }
  | ongoing {e : Entry} {a : Account} {t : ActiveTok} : ls.Has e a → e.name = n → e.ts = .active t →
      ¬ t.expiry > now → t.ongoing = true →
      ShowR E S now ls u n inp { ls := ls, next := [.reply (utf8
        "error:Access token has expired. Refreshing is in progress but has not yet succeeded")] }
  | expired {e : Entry} {a : Account} {t : ActiveTok} : ls.Has e a → e.name = n → e.ts = .active t →
      ¬ t.expiry > now → t.ongoing = false →
      ShowR E S now ls u n inp { ls := ls, spawn := [.rfStart e.id], next := [.reply (utf8
          "error:Access token has expired. Refreshing initiated")] }

/-- What `refresh n` does. -/
inductive RefreshR (E : Env) (S : Static) (ls : LockedState) (u : Bool) (n : String) (inp : Input) :
    Eff → Prop where
  | unknown : (∀ e ∈ ls.details, e.name ≠ n) →
      RefreshR E S ls u n inp { ls := ls, next := [.reply (noAccountReply n)] }
  | auth {e : Entry} {a : Account} {url : Url} : ls.Has e a → e.name = n → (∀ t, e.ts ≠ .active t) →
      AuthUrl E S a inp url →
      RefreshR E S ls u n inp
        { ls := ls.put e.id (freshPending url inp), next := [.wakeNotifier, .reply (pendingReply E u url)] }
  | authErr {e : Entry} {a : Account} : ls.Has e a → e.name = n → (∀ t, e.ts ≠ .active t) →
      (∀ url, ¬ AuthUrl E S a inp url) →
      RefreshR E S ls u n inp { ls := ls }
  | sched {e : Entry} {a : Account} {t : ActiveTok} : ls.Has e a → e.name = n → e.ts = .active t →
      RefreshR E S ls u n inp { ls := ls, spawn := [.rfStart e.id], next := [.reply (utf8 "scheduled:")] }

/-- Cases on the effect of a request. -/
theorem ExecR.show {u : Bool} {n : String} (hx : ExecR E S now wall ls tid (.unix buf) inp f)
    (hp : parseReq buf = .showtoken u n) : ShowR E S now ls u n inp f := by
  generalize hop : Op.unix buf = op at hx
  have hp' : ∀ b, op = .unix b → parseReq b = .showtoken u n := by rintro b rfl; cases hop; exact hp
  have hu : ∃ b, op = .unix b := ⟨_, hop.symm⟩
  clear hop hp
  cases hx <;> first | (obtain ⟨b, hb⟩ := hu; cases hb; done) | have hp := hp' _ rfl
  case noAccount h1 h2 =>
    rw [hp] at h1; simp at h1; obtain ⟨_, rfl⟩ := h1; exact .unknown h2
  case auth ha h1 h2 =>
    rw [hp] at h1; simp at h1; obtain ⟨⟨rfl, rfl⟩, h1⟩ := h1; exact .auth ha rfl h1 h2
  case authErr ha h1 h2 =>
    rw [hp] at h1; simp at h1; obtain ⟨⟨rfl, rfl⟩, h1⟩ := h1; exact .authErr ha rfl h1 h2
  case showPending ha h1 h2 => rw [hp] at h1; cases h1; exact .pending ha rfl h2
  case showTok ha h1 h2 h3 => rw [hp] at h1; cases h1; exact .tok ha rfl h2 h3
  case showOngoing ha h1 h2 h3 h4 => rw [hp] at h1; cases h1; exact .ongoing ha rfl h2 h3 h4
  case showExpired ha h1 h2 h3 h4 => rw [hp] at h1; cases h1; exact .expired ha rfl h2 h3 h4
  all_goals (exfalso; simp [hp] at *)

theorem ExecR.refreshReq {u : Bool} {n : String} (hx : ExecR E S now wall ls tid (.unix buf) inp f)
    (hp : parseReq buf = .refresh u n) : RefreshR E S ls u n inp f := by
  have hna : ∀ e : Entry, (e.ts = .empty ∨ ∃ p, e.ts = .pending p) → ∀ t, e.ts ≠ .active t := by
    rintro e (h | ⟨p, h⟩) t <;> rw [h] <;> simp
  generalize hop : Op.unix buf = op at hx
  have hp' : ∀ b, op = .unix b → parseReq b = .refresh u n := by rintro b rfl; cases hop; exact hp
  have hu : ∃ b, op = .unix b := ⟨_, hop.symm⟩
  clear hop hp
  cases hx <;> first | (obtain ⟨b, hb⟩ := hu; cases hb; done) | have hp := hp' _ rfl
  case noAccount h1 h2 =>
    rw [hp] at h1; simp at h1; obtain ⟨_, rfl⟩ := h1; exact .unknown h2
  case auth ha h1 h2 =>
    rw [hp] at h1; simp at h1; obtain ⟨⟨rfl, rfl⟩, h1⟩ := h1; exact .auth ha rfl (hna _ h1) h2
  case authErr ha h1 h2 =>
    rw [hp] at h1; simp at h1; obtain ⟨⟨rfl, rfl⟩, h1⟩ := h1; exact .authErr ha rfl (hna _ h1) h2
  case refreshSched ha h1 h2 => rw [hp] at h1; cases h1; exact .sched ha rfl h2
  all_goals (exfalso; simp [hp] at *)

theorem ExecR.revokeReq {n : String} (hx : ExecR E S now wall ls tid (.unix buf) inp f)
    (hp : parseReq buf = .revoke n) :
    ((∀ e ∈ ls.details, e.name ≠ n) ∧ f = { ls := ls, next := [.reply (noAccountReply n)] }) ∨
    ∃ e a, ls.Has e a ∧ e.name = n ∧ f = { ls := ls.put e.id .empty,
                                           next := [.pushEvent e.name .revoked, .wakeEventer, .reply (utf8 "ok:")] } := by
  generalize hop : Op.unix buf = op at hx
  have hp' : ∀ b, op = .unix b → parseReq b = .revoke n := by rintro b rfl; cases hop; exact hp
  have hu : ∃ b, op = .unix b := ⟨_, hop.symm⟩
  clear hop hp
  cases hx <;> first | (obtain ⟨b, hb⟩ := hu; cases hb; done) | have hp := hp' _ rfl
  case noAccount h1 h2 => rw [hp] at h1; simp at h1; subst h1; exact .inl ⟨h2, rfl⟩
  case revoke ha h1 => rw [hp] at h1; cases h1; exact .inr ⟨_, _, ha, rfl, rfl⟩
  all_goals (exfalso; simp [hp] at *)

/-- Handling a request. -/
theorem Reach.handled {w w' : World} (hr : Reach E w) (ht : w.threads 0 = [.unix buf, .close])
    (hs : w.step E (.run 0 inp) = some w') (hp : parseReq buf ≠ .status) :
    ∃ f, ExecR E w.st w.now w.wall w.ls 0 (.unix buf) inp f ∧ w' = w.apply 0 [.close] f := by
  replace hs := (stepR_of_step hr.inv0.wf hs).2
  cases hs with
  | runPanic ht' hx =>
    rw [ht] at ht'
    cases ht'
    obtain ⟨buf', h1, h2, _⟩ := hr.panic ht hx
    cases h1
    exact absurd h2 hp
  | @run _ _ op rest f ht' hx =>
    rw [ht] at ht'
    cases ht'
    exact ⟨f, hx, rfl⟩

end Pizauth
