import Verif.Proof.Manual
import Verif.Props.Prompt

/-!
# C102: the commands do what the manual says
-/

namespace Pizauth
open LockedState

variable {E : Env}

theorem Steps.ended {w w' : World} (h : Steps E w w') (hp : w.proc = .terminated) : w' = w := by
  induction h with
  | refl => rfl
  | step a _ hs ih => subst ih; rw [C70_end hp a] at hs; cases hs

/-- **C102.** Whatever a client command prints, and its exit code, is what it should be, given what the server knew when
it carried out the request, and what it knew afterwards. -/
theorem C102 (hl : HostLaw E) {w : World} {c : Cmd} {b : Bytes} (h : Receives E w c.wire b) (hc : c ≠ .info) :
    ∃ w1 w1', Executes E w1 c.wire w1' ∧ lastRequest w1.log = lastRequest w.log ∧ Steps E w1' w ∧
      Outcome E w1 w1' c (Cli.run c (.answer b)) := by
  have hstep := h.step
  obtain ⟨t, wd, inp, f, hd, rfl, hq⟩ := h.done
  refine ⟨wd, wd.apply 0 [.close] f, ⟨hd.reach, hd.start, inp, hd.step⟩, hd.req.trans hq.symm, hd.steps,
    outcome hl hd.reach hd.start hd.exec hd.step ?_ hc⟩
  cases hf : f.term with
  | false => rfl
  | true =>
    exfalso
    have hp : (wd.apply 0 [.close] f).proc = .terminated := by simp [World.apply, hf]
    obtain ⟨act, w', t', hs, _⟩ := hstep
    rw [hd.steps.ended hp, C70_end hp] at hs
    cases hs

/-- **C102.** `pizauth reload` exits with 0 if a configuration has been installed, and with 1 and a message otherwise. -/
theorem C102_reload {w : World} {b : Bytes} (h : Receives E w (Cmd.wire .reload) b) :
    (∃ conf u, Cli.run .reload (.answer b) = ⟨[], none, 0⟩ ∧ conf.Ok E ∧ (u, .reloaded conf) ∈ sinceRequest w.log) ∨
    (∃ m, Cli.run .reload (.answer b) = ⟨[], some m, 1⟩ ∧ ∀ u conf, (u, .reloaded conf) ∉ sinceRequest w.log) := by
  obtain ⟨t, wd, inp, f, hd, rfl, hq⟩ := h.done
  have hx := hd.exec
  have hrel := hd.reloads
  cases hx
  case reloadOk conf _ _ _ =>
    obtain ⟨u, hu⟩ := (hrel conf).mpr (by simp)
    left
    refine ⟨conf, u, ?_, ‹_›, hu⟩
    rw [show List.filterMap Op.written [.install conf, .wakeNotifier, .wakeRefresher, .reply (utf8 "ok:")] = [utf8 "ok:"] from rfl,
      List.flatten_cons, List.flatten_nil, List.append_nil]
    exact run_ok (.inl rfl)
  case reloadErr m _ _ =>
    right
    refine ⟨m, ?_, fun u conf hu => ?_⟩
    · rw [show List.filterMap Op.written [.reply (utf8 ("error:" ++ m))] = [utf8 ("error:" ++ m)] from rfl,
        List.flatten_cons, List.flatten_nil, List.append_nil]
      exact run_error rfl m
    · have := (hrel conf).mp ⟨u, hu⟩
      simp at this
  all_goals
    have hreq : parseReq (Cmd.wire .reload) = .reload := C47 .reload
    exfalso
    clear hd hrel hq
    simp_all only [reduceCtorEq, exists_false, or_self, false_and]

/-- **C102.** What `pizauth dump` prints, another server can restore: `pizauth restore` exits with 0, and the tokens are
there (unless there were others already), with the lifetime they had. -/
theorem C102_dump_restore (hl : HostLaw E) (hE : CryptLaw E) {w w' : World} {b b' : Bytes}
    (h1 : Receives E w (Cmd.wire .dump) b) (hb : b ≠ [])
    (h2 : Receives E w' (Cmd.wire (.restore (Cli.run .dump (.answer b)).stdout)) b') :
    Cli.run (.restore (Cli.run .dump (.answer b)).stdout) (.answer b') = ⟨[], none, 0⟩ ∧
    ∃ w1 w1' w2 w2', Executes E w1 (Cmd.wire .dump) w1' ∧ Steps E w1' w ∧
      Executes E w2 (Cmd.wire (.restore (Cli.run .dump (.answer b)).stdout)) w2' ∧ lastRequest w2.log = lastRequest w'.log ∧ Steps E w2' w' ∧
      (SysTimeOk w1.wall → ∀ n t a1 a2, HoldsToken w1.ls n t → (∀ t', ¬ HoldsToken w2.ls n t') →
        w1.ls.config.accounts.lookup n = some a1 → w2.ls.config.accounts.lookup n = some a2 → SameSec a1 a2 →
        ∃ t', HoldsToken w2'.ls n t' ∧ Carried w1.now w1.wall w2.now w2.wall t t') := by
  obtain ⟨hrun, w1, w1', hx1, hth, hs1⟩ := C74_dump_partial h1 hb
  have hout : (Cli.run .dump (.answer b)).stdout = b := by rw [hrun]
  rw [hout] at h2 ⊢
  obtain ⟨w2, w2', hx2, hq, hs2, ho⟩ := C102 hl h2 nofun
  refine ⟨?_, w1, w1', w2, w2', hx1, hs1, hx2, hq, hs2, fun hw => (C36_carried hE hx1 (C47 _) hth hx2 (C47 _) hw).1⟩
  generalize Cli.run (.restore b) (.answer b') = x at ho ⊢
  have hlen : 12 ≤ b.length ∧ ∃ plain, E.decrypt (b.take 12) (b.drop 12) = some plain := by
    obtain ⟨inp, f, hx, rfl, hth'⟩ := hx1.exec (by rw [C47]; nofun)
    rw [hth'] at hth
    have hdump : authDump E w1.ls w1.now w1.wall inp.nonce inp.dumpOrder = .ok b := by
      have hreq : parseReq (Cmd.wire .dump) = .dump := C47 .dump
      clear hx1 hs1 hth' h1 hrun
      generalize Cmd.wire .dump = buf at hx hreq
      cases hx <;> simp_all
    unfold authDump at hdump
    split at hdump
    · rename_i plain _
      split at hdump
      · cases hdump
      · rename_i c henc
        cases hdump
        refine ⟨by simp, plain, ?_⟩
        have hlen : inp.nonce.toList.length = 12 := by simp
        rw [List.take_append_of_le_length (by omega), List.drop_append_of_le_length (by omega),
          List.take_of_length_le (by omega), List.drop_of_length_le (by omega)]
        exact hE _ _ _ henc
    · rename_i hno
      exact absurd hdump (hno _)
  cases ho
  case noAccount => simp at *
  case tooShort => omega
  case undecipherable =>
    obtain ⟨p, hp⟩ := hlen.2
    exact nomatch hp.symm.trans ‹E.decrypt (b.take 12) (b.drop 12) = none›
  case notRestored => rfl
  case restored => rfl

/-- **C102.** In time: within six turns the command has its answer. -/
theorem C102_in_time {r : Run E} {δ : Nat} (hf : r.Prompt δ) {k : Nat} {c : Cmd}
    (h : r.action k = some (.connect c.wire)) :
    ∃ m b, k < m ∧ (r.world m).now ≤ (r.world k).now + 6 * (δ : Int) ∧
      lastRequest (r.world m).log = some ((r.world k).now, c.wire) ∧ Receives E (r.world m) c.wire b := by
  obtain ⟨m0, hm0, hb0, _, hidle⟩ := C95_client hf h
  have hstart : (r.world (k + 1)).threads 0 = [.unix c.wire, .close] ∧
      lastRequest (r.world (k + 1)).log = some ((r.world k).now, c.wire) := by
    rcases r.stepR k with ⟨h', _⟩ | ⟨a, h', _, hs⟩
    · rw [h] at h'; cases h'
    · rw [h] at h'
      cases h'
      generalize r.world (k + 1) = w' at hs
      cases hs
      exact ⟨by simp [setThread], rfl⟩
  -- the first time at which it is over
  have key : ∀ d m, m + d = m0 + 1 → k + 1 ≤ m → (r.world m).threads 0 ≠ [] →
      lastRequest (r.world m).log = some ((r.world k).now, c.wire) →
      ∃ m', m ≤ m' ∧ m' ≤ m0 ∧ (r.world m').threads 0 ≠ [] ∧ (r.world (m' + 1)).threads 0 = [] ∧
        lastRequest (r.world m').log = some ((r.world k).now, c.wire) := by
    intro d
    induction d with
    | zero =>
      intro m hm _ hne _
      rw [show m = m0 + 1 by omega] at hne
      exact absurd hidle hne
    | succ d ih =>
      intro m hm hk hne hq
      by_cases hnext : (r.world (m + 1)).threads 0 = []
      · exact ⟨m, Nat.le_refl _, by omega, hne, hnext, hq⟩
      · have hq' : lastRequest (r.world (m + 1)).log = some ((r.world k).now, c.wire) := by
          rcases r.stepR m with ⟨_, hs⟩ | ⟨a, _, _, hs⟩
          · rw [hs]; exact hq
          · rw [hs.lastRequest hne]; exact hq
        obtain ⟨m', h1, h2⟩ := ih (m + 1) (by omega) (by omega) hnext hq'
        exact ⟨m', by omega, h2⟩
  obtain ⟨m, hkm, hmm, hne, hend, hq⟩ := key (m0 - k) (k + 1) (by omega) (Nat.le_refl _) (by rw [hstart.1]; simp) hstart.2
  have hnow := r.now_mono hmm
  refine ⟨m, _, by omega, by omega, hq, r.reach m, ?_, ⟨_, hq⟩, rfl⟩
  rcases r.stepR m with ⟨_, hs⟩ | ⟨a, ha, _, hs⟩
  · rw [hs] at hend; exact absurd hend hne
  · have hst : (r.world m).step E a = some (r.world (m + 1)) := by
      have := r.next m; rw [ha] at this; exact this
    refine ⟨a, _, (r.world m).now, hst, ?_⟩
    have h0 := (r.reach m).inv0
    have hsh := (Reach.shape _ (r.reach m)).main
    clear hst ha
    generalize r.world (m + 1) = w' at hs hend
    by_cases hrun : ∃ inp, a = .run 0 inp
    · obtain ⟨inp, rfl⟩ := hrun
      cases hs with
      | runPanic => exact absurd hend hne
      | @run _ _ op rest f ht hx =>
        rw [apply_threads_self h0.tid0] at hend
        obtain ⟨_, hrest⟩ := List.append_eq_nil_iff.mp hend
        subst hrest
        rw [ht] at hsh
        rcases hsh.cons with ⟨_, _, h⟩ | ⟨_, _, h⟩ | ⟨rfl, _⟩ | ⟨_, _, h, _⟩
        · cases h
        · cases h
        · cases hx; simp [World.apply]
        · simp at h
    · rw [hs.threads0 h0 hne fun inp h => hrun ⟨inp, h⟩] at hend
      exact absurd hend hne

/-! ## Cases -/

namespace Demo

/-- `pizauth show -u a` makes the server start an authorisation. -/
example : Receives env (after (([.connect (Cmd.wire (.show "a" false))] ++ n0 3))) (Cmd.wire (.show "a" false))
    (utf8 "pending:") ∧
    Cli.run (.show "a" false) (.answer (utf8 "pending:")) =
      ⟨[], some "Access token unavailable until authorised with URL ", 1⟩ :=
  ⟨receives_of (t := 0) (t' := 0) (after_reach _) (by decide +kernel) (by decide +kernel) (by decide +kernel),
    by decide +kernel⟩

/-- `pizauth reload` succeeds, and fails. -/
example : Receives env (after (sReload ++ n0 4)) (Cmd.wire .reload) (utf8 "ok:") ∧
    Cli.run .reload (.answer (utf8 "ok:")) = ⟨[], none, 0⟩ :=
  ⟨receives_of (t := 0) (t' := 0) (after_reach _) (by decide +kernel) (by decide +kernel) (by decide +kernel),
    by decide +kernel⟩

example : Receives env (after ([.connect (Cmd.wire .reload), .run 0 { conf := .error "no" }] ++ n0 1)) (Cmd.wire .reload)
      (utf8 "error:no") ∧
    Cli.run .reload (.answer (utf8 "error:no")) = ⟨[], some "no", 1⟩ :=
  ⟨receives_of (t := 0) (t' := 0) (after_reach _) (by decide +kernel) (by decide +kernel) (by decide +kernel),
    by decide +kernel⟩

/-- A server dumps its token, and another one, which has just been started, restores it. -/
def sDumped : List Action := sDump sToken ++ [.run 0 (dumpIn (after (sDump sToken)))] ++ n0 1

def sRestored : List Action := sRestore later (dumpOf sToken) ++ [.run 0 restoreIn] ++ n0 3

example : Receives env (after sDumped) (Cmd.wire .dump) (dumpOf sToken) ∧ dumpOf sToken ≠ [] ∧
    Receives env (after sRestored) (Cmd.wire (.restore (Cli.run .dump (.answer (dumpOf sToken))).stdout)) (utf8 "ok:") ∧
    (holdsTok (after sRestored) "a").map ActiveTok.accessToken = some "T1" :=
  ⟨receives_of (t := 0) (t' := 0) (after_reach _) (by decide +kernel) (by decide +kernel) (by decide +kernel),
    by decide +kernel,
    receives_of (t := 0) (t' := 0) (after_reach _) (by decide +kernel) (by decide +kernel) (by decide +kernel),
    by decide +kernel⟩

end Demo

open Demo in
/-- C102_in_time: `pizauth show a` -/
example : ∃ r : Run env, r.Prompt ten ∧ r.action 0 = some (.connect (Cmd.wire (.show "a" true))) := by
  obtain ⟨r, hf, h0, _, _, h2⟩ := Run.prompt_of (δ := ten) (sAsk ++ eager env ten 8 (after sAsk)) (.init w0_init)
    (by decide +kernel)
  exact ⟨r, hf, h2 0 (by decide +kernel)⟩

end Pizauth
