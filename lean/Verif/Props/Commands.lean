import Verif.Model.Commands

/-!
# C84: commands are run as documented
-/

namespace Pizauth
open Commands

/-- These strings can be passed to a process. -/
def Passable (l : List String) : Prop := ∀ s ∈ l, '\x00' ∉ s.toList

theorem hasNul_false {s : String} (h : '\x00' ∉ s.toList) : hasNul s = false := by
  unfold hasNul
  simpa using h

theorem hasNul_true {s : String} (h : '\x00' ∈ s.toList) : hasNul s = true := by
  unfold hasNul
  simpa using h

/-- Which commands the daemon runs, and how: the observation says that the command is run, the process is what is
started. This is what pizauth.conf(5) says. -/
inductive Documented (shell : String) : Obs → Process → Prop where
  | auth {cmd act url : String} : Documented shell (.authCmd cmd act url)
      ⟨shell, ["-c", cmd], [("PIZAUTH_ACCOUNT", act), ("PIZAUTH_URL", url)], false⟩
  | error {tid : Nat} {cmd act msg : String} : Documented shell (.errorCmd tid cmd act msg)
      ⟨shell, ["-c", cmd], [("PIZAUTH_ACCOUNT", act), ("PIZAUTH_MSG", msg)], false⟩
  | invalidated {cmd act : String} : Documented shell (.eventCmd cmd act .invalidated)
      ⟨shell, ["-c", cmd], [("PIZAUTH_ACCOUNT", act), ("PIZAUTH_EVENT", "token_invalidated")], false⟩
  | new {cmd act : String} : Documented shell (.eventCmd cmd act .new)
      ⟨shell, ["-c", cmd], [("PIZAUTH_ACCOUNT", act), ("PIZAUTH_EVENT", "token_new")], false⟩
  | refreshed {cmd act : String} : Documented shell (.eventCmd cmd act .refresh)
      ⟨shell, ["-c", cmd], [("PIZAUTH_ACCOUNT", act), ("PIZAUTH_EVENT", "token_refreshed")], false⟩
  | revoked {cmd act : String} : Documented shell (.eventCmd cmd act .revoked)
      ⟨shell, ["-c", cmd], [("PIZAUTH_ACCOUNT", act), ("PIZAUTH_EVENT", "token_revoked")], false⟩
  | transient {tid : Nat} {cmd act : String} : Documented shell (.transientCmd tid cmd act)
      ⟨shell, ["-c", cmd], [("PIZAUTH_ACCOUNT", act)], true⟩

/-- The process which is started for a command, by the thread which runs it. -/
def processFor (shell : Shell) (fate : Fate) : Obs → Option Process
  | .authCmd cmd act url => (authNotify shell cmd act url).toOption
  | .errorCmd _ cmd act msg => (errorNotify shell cmd act msg).toOption
  | .eventCmd cmd act e => (tokenEvent shell cmd act e fate).process
  | .transientCmd _ cmd act => (transientErrorIf shell cmd act fate).process
  | _ => none

theorem start_ok {shell cmd : String} {env : List (String × String)} {quiet : Bool} (h : Passable (shell :: cmd :: env.map Prod.snd)) :
    start shell cmd env quiet = .ok ⟨shell, ["-c", cmd], env, quiet⟩ := by
  unfold start
  rw [if_neg]
  rw [hasNul_false (h _ (by simp)), hasNul_false (h cmd (by simp))]
  simp only [Bool.false_or, List.any_eq_true, not_exists, not_and]
  intro kv hk
  rw [hasNul_false (h kv.2 (by simp only [List.mem_cons, List.mem_map]; exact .inr (.inr ⟨kv, hk, rfl⟩)))]
  simp

theorem runAndWait_process {t : Nat} {shell cmd : String} {env : List (String × String)} {quiet : Bool} {fate : Fate}
    (h : Passable (shell :: cmd :: env.map Prod.snd)) (hf : ∀ m, fate ≠ .unstartable m) :
    (runAndWait t (some shell) cmd env quiet fate).process = some ⟨shell, ["-c", cmd], env, quiet⟩ := by
  unfold runAndWait
  simp only [start_ok h]
  cases fate with
  | unstartable m => exact absurd rfl (hf m)
  | ends a c => simp only; split <;> rfl
  | endless => rfl
  | unwaitable m => rfl

/-- **C84**, what holds: if `$SHELL` is set, can be started, and the strings contain no NUL, then exactly the documented
process is started for each command. -/
theorem C84_partial {shell : String} {fate : Fate} {o : Obs} {p : Process} (hd : Documented shell o p)
    (hp : Passable (p.prog :: p.args ++ p.env.map Prod.snd)) (hf : ∀ m, fate ≠ .unstartable m) :
    processFor (some shell) fate o = some p := by
  have hsub : ∀ {cmd : String} {env : List (String × String)} {q : Bool},
      p = ⟨shell, ["-c", cmd], env, q⟩ → Passable (shell :: cmd :: env.map Prod.snd) := by
    rintro cmd env q rfl s hs
    refine hp s ?_
    simp only [List.mem_cons, List.cons_append, List.nil_append] at hs ⊢
    rcases hs with h | h | h
    · exact .inl h
    · exact .inr (.inr (.inl h))
    · exact .inr (.inr (.inr h))
  cases hd <;> simp only [processFor, authNotify, errorNotify, tokenEvent, transientErrorIf]
  case auth => rw [start_ok (hsub rfl)]; rfl
  case error => rw [start_ok (hsub rfl)]; rfl
  all_goals exact runAndWait_process (hsub rfl) hf

/-- **C84.** `transient_error_if_cmd` is successful exactly if it was started, and ended with exit code 0 within three
minutes. -/
theorem C84_transient {shell cmd act : String} {fate : Fate} (hp : Passable [shell, cmd, act]) :
    (transientErrorIf (some shell) cmd act fate).result = .ok () ↔ ∃ t, fate = .ends t (some 0) ∧ t ≤ 180 := by
  unfold transientErrorIf runAndWait transientTimeout
  simp only [start_ok (env := [("PIZAUTH_ACCOUNT", act)]) (quiet := true) (hp : Passable (shell :: cmd :: [act]))]
  cases fate with
  | unstartable m => simp
  | endless => simp
  | unwaitable m => simp
  | ends t c =>
    simp only [Fate.ends.injEq]
    split
    · simp only
      split
      · rename_i h1 h2; subst h2; simp; omega
      · rename_i h1 h2
        simp only [reduceCtorEq, false_iff]
        rintro ⟨t', ⟨_, rfl⟩, _⟩
        exact h2 rfl
    · simp only [reduceCtorEq, false_iff]
      rintro ⟨t', ⟨rfl, _⟩, _⟩
      omega

theorem runAndWait_time (t : Nat) (shell : Shell) (cmd : String) (env : List (String × String)) (quiet : Bool) (fate : Fate) :
    (runAndWait t shell cmd env quiet fate).time ≤ t ∧
    ((runAndWait t shell cmd env quiet fate).killed = true →
      fate = .endless ∨ ∃ a c, fate = .ends a c ∧ t < a) := by
  unfold runAndWait
  split
  · simp
  · split
    · simp
    · simp
    · simp
    · simp
    · split
      · simp; assumption
      · simp; omega

/-- **C84.** No thread is held up by a command for longer than the timeout, and commands which take less are not
killed. -/
theorem C84_time (shell : Shell) (cmd act : String) (e : TokenEvent) (fate : Fate) :
    (transientErrorIf shell cmd act fate).time ≤ 180 ∧ (tokenEvent shell cmd act e fate).time ≤ 30 ∧
    ((transientErrorIf shell cmd act fate).killed = true → fate = .endless ∨ ∃ a c, fate = .ends a c ∧ 180 < a) ∧
    ((tokenEvent shell cmd act e fate).killed = true → fate = .endless ∨ ∃ a c, fate = .ends a c ∧ 30 < a) :=
  ⟨(runAndWait_time ..).1, (runAndWait_time ..).1, (runAndWait_time ..).2, (runAndWait_time ..).2⟩

/-- **C84 fails**: a message with a NUL character (it may come from a token server) does not reach `error_notify_cmd`. -/
theorem C84_not_nul (shell cmd act : String) : ∃ msg, processFor (some shell) .endless (.errorCmd 1 cmd act msg) = none := by
  refine ⟨"a\x00b", ?_⟩
  simp only [processFor, errorNotify, start]
  rw [if_pos]
  · rfl
  · have h : hasNul "a\x00b" = true := by decide +kernel
    simp [h]

/-- **C84 fails**: `token_event_cmd` is not subject to a timeout of 10 seconds. -/
theorem C84_not_timeout : ∃ fate, (tokenEvent (some "/bin/sh") "cmd" "a" .new fate).time = 30 ∧
    (tokenEvent (some "/bin/sh") "cmd" "a" .new (.ends 20 (some 0))).killed = false :=
  ⟨.endless, by decide +kernel, by decide +kernel⟩

/-- **C84 fails**: transient errors are treated as permanent though `transient_error_if_cmd` neither returned a non-zero
exit code nor took longer than three minutes: it was not run at all. -/
theorem C84_not_run : (∀ fate, (transientErrorIf none "true" "a" fate).process = none ∧
      (transientErrorIf none "true" "a" fate).result ≠ .ok ()) ∧
    ∃ fate, (transientErrorIf (some "/bin/sh") "true" "a" fate).process = none ∧
      (transientErrorIf (some "/bin/sh") "true" "a" fate).result ≠ .ok () :=
  ⟨fun _ => ⟨rfl, nofun⟩, .unstartable "Resource temporarily unavailable", by decide +kernel, by
    intro h
    have : (transientErrorIf (some "/bin/sh") "true" "a" (.unstartable "Resource temporarily unavailable")).result.isOk = true := by
      rw [h]; rfl
    revert this
    decide +kernel⟩

/-! ## Concrete cases -/

example : processFor (some "/bin/sh") .endless (.eventCmd "notify-send x" "acc" .refresh) =
    some ⟨"/bin/sh", ["-c", "notify-send x"], [("PIZAUTH_ACCOUNT", "acc"), ("PIZAUTH_EVENT", "token_refreshed")], false⟩ := by
  decide +kernel

example : processFor (some "/bin/sh") .endless (.authCmd "xmessage" "acc" "https://x/") =
    some ⟨"/bin/sh", ["-c", "xmessage"], [("PIZAUTH_ACCOUNT", "acc"), ("PIZAUTH_URL", "https://x/")], false⟩ := by
  decide +kernel

example : (transientErrorIf (some "/bin/sh") "ping" "acc" (.ends 180 (some 0))).result.isOk = true ∧
    (transientErrorIf (some "/bin/sh") "ping" "acc" (.ends 181 (some 0))).result.isOk = false ∧
    (transientErrorIf (some "/bin/sh") "ping" "acc" (.ends 1 (some 1))).result.isOk = false ∧
    (transientErrorIf (some "/bin/sh") "ping" "acc" .endless).killed = true := by decide +kernel

end Pizauth
