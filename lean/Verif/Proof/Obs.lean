import Verif.Proof.Reload

/-!
# What a step adds to the log
-/

namespace Pizauth
open LockedState

variable {E : Env}

/-- How a step can add an observation to the log. -/
inductive NewObs (E : Env) (w : World) : Action → World → Obs → Prop where
  | connect {buf : Bytes} {w' : World} : w.threads 0 = [] → NewObs E w (.connect buf) w' (.request buf)
  | http {buf : Bytes} {sec : Bool} {w' : World} : NewObs E w (.http buf sec) w' (.httpReq w.nextTid buf sec)
  | run {tid : Nat} {inp : Input} {op : Op} {rest : List Op} {f : Eff} {o : Obs} : w.threads tid = op :: rest →
      ExecR E w.st w.now w.wall w.ls tid op inp f → o ∈ f.obs →
      NewObs E w (.run tid inp) (w.apply tid rest f) o
  | auth {w' : World} {e : Entry} {p : PendingTok} {cmd : String} : w.notPc = .scan → e ∈ w.ls.details →
      NotifyR w.now w.ls.details w.ls w'.ls →
      dueEntry w.ls.config.authNotifyInterval w.now e = some p → w.ls.config.authNotifyCmd = some cmd →
      NewObs E w .notifier w' (.authCmd cmd e.name (E.renderUrl p.url))
  | evCmd {w' : World} {act : String} {e : TokenEvent} {cmd : String} : w.evPc = .readCmd act e →
      w.ls.config.tokenEventCmd = some cmd → NewObs E w .eventer w' (.eventCmd cmd act e)
  | evEnd {w' : World} : w.evPc = .running → NewObs E w .eventer w' .eventCmdEnd

theorem StepR.log_new {w w' : World} {a : Action} (hs : StepR E w a w') :
    ∃ l, w'.log = l ++ w.log ∧ ∀ p ∈ l, p.1 = w.now ∧ NewObs E w a w' p.2 := by
  cases hs
  case connect buf h => exact ⟨[_], rfl, by simp; exact .connect h⟩
  case http => exact ⟨[_], rfl, by simp; exact .http⟩
  case run tid inp op rest f ht hx =>
    refine ⟨_, rfl, ?_⟩
    intro p hp
    simp only [List.mem_reverse, List.mem_map] at hp
    obtain ⟨o, ho, rfl⟩ := hp
    exact ⟨rfl, .run ht hx ho⟩
  case notScan ls' hpc hn =>
    refine ⟨_, rfl, ?_⟩
    intro p hp
    simp only [List.mem_reverse, List.mem_map, List.mem_flatMap] at hp
    obtain ⟨o, ⟨e, he, ho⟩, rfl⟩ := hp
    obtain ⟨_, _, h1, h2, h⟩ := authCmdFor_mem ho
    subst h
    exact ⟨rfl, .auth hpc he hn h1 h2⟩
  case evCmd h1 h2 => exact ⟨[_], rfl, by simp; exact .evCmd h1 h2⟩
  case evEnd h => exact ⟨[_], rfl, by simp; exact .evEnd h⟩
  all_goals exact ⟨[], rfl, by simp⟩

theorem NewObs.not_request {w w' : World} {a : Action} {o : Obs} (h : NewObs E w a w' o) (ha : ∀ b, a ≠ .connect b) :
    o.isRequest = false := by
  cases h <;> try rfl
  · exact absurd rfl (ha _)
  · rename_i hx ho; exact hx.obs_not_request _ ho

theorem ExecR.reloaded_obs {S : Static} {now : Instant} {wall : SysTime} {ls : LockedState} {tid : Nat} {op : Op}
    {inp : Input} {f : Eff} {c : Config} (hx : ExecR E S now wall ls tid op inp f) (h : .reloaded c ∈ f.obs) :
    op = .install c := by
  cases hx <;> simp at h
  subst h; rfl

theorem sinceRequest_append : ∀ (l L : Log), (∀ p ∈ l, p.2.isRequest = false) →
    sinceRequest (l ++ L) = l ++ sinceRequest L
  | [], _, _ => rfl
  | (t, o) :: l, L, h => by
    have h1 := h (t, o) (by simp)
    have h2 := sinceRequest_append l L fun p hp => h p (by simp [hp])
    cases o <;> simp_all [sinceRequest, Obs.isRequest]

theorem ExecR.reloaded_iff {S : Static} {now : Instant} {wall : SysTime} {ls : LockedState} {tid : Nat} {op : Op}
    {inp : Input} {f : Eff} {c : Config} (hx : ExecR E S now wall ls tid op inp f) :
    .reloaded c ∈ f.obs ↔ op = .install c := by
  refine ⟨hx.reloaded_obs, ?_⟩
  rintro rfl
  cases hx
  simp

/-- The configuration is replaced by the main thread. -/
theorem StepR.reloads {w w' : World} {a : Action} (hsh : ShapeInv w) (hs : StepR E w a w') (hne : w.threads 0 ≠ [])
    (ha : ∀ inp, a ≠ .run 0 inp) (u : Instant) (c : Config) :
    (u, .reloaded c) ∈ sinceRequest w'.log ↔ (u, .reloaded c) ∈ sinceRequest w.log := by
  have hcon : ∀ b, a ≠ .connect b := by
    rintro b rfl
    cases hs with
    | connect _ h => exact hne h
  obtain ⟨l, hl, hl'⟩ := hs.log_new
  rw [hl, sinceRequest_append _ _ fun p hp => (hl' p hp).2.not_request hcon, List.mem_append]
  refine or_iff_right ?_
  intro hm
  cases (hl' _ hm).2
  rename_i tid inp op rest f ht hx hobs
  have := hx.reloaded_obs hobs
  subst this
  obtain ⟨rfl, _⟩ := hsh.install (i := tid) (by rw [ht]; exact List.mem_cons_self)
  exact ha inp rfl

end Pizauth
