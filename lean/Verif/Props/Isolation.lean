import Verif.Proof.Ids
import Verif.Props.Demo

/-!
# C06: accounts are isolated from each other
-/

namespace Pizauth
open LockedState

variable {E : Env}

/-- Between `w` and `w'` nothing changes but (possibly) account `m`: not the configuration, and not the record of any
other account. -/
def TouchesOnly (w w' : World) (m : String) : Prop := SameBut w.ls w'.ls m

/-- **C06.** A `show`, `refresh` or `revoke` for `m` touches only `m`. -/
theorem C06_request {w w' : World} {inp : Input} {buf : Bytes} {rest : List Op} {m : String} (hr : Reach E w)
    (ht : w.threads 0 = .unix buf :: rest)
    (hp : (∃ u, parseReq buf = .showtoken u m) ∨ (∃ u, parseReq buf = .refresh u m) ∨ parseReq buf = .revoke m)
    (hs : w.step E (.run 0 inp) = some w') : TouchesOnly w w' m := by
  have h0 := hr.inv0
  replace hs := (stepR_of_step h0.wf hs).2
  cases hs with
  | runPanic _ _ => exact SameBut.refl _ _
  | run ht' hx =>
    rw [ht] at ht'
    cases ht'
    unfold TouchesOnly
    cases hx <;> try exact SameBut.refl _ _
    case auth u e a url ha hreq _ =>
      have : m = e.name := by
        rcases hreq with ⟨h1, _⟩ | ⟨h1, _⟩ <;> rw [h1] at hp <;> simp at hp <;> exact hp.symm
      rw [this]
      exact sameBut_put h0.wf ha rfl rfl
    case restoreOk => rw [‹parseReq buf = _›] at hp; simp at hp
    case revoke ha hreq =>
      rw [hreq] at hp
      simp at hp
      rw [← hp]
      exact sameBut_put h0.wf ha rfl rfl

/-- **C06.** A callback touches only the account which waits for it: the one whose outstanding authorisation has the
callback's state. -/
theorem C06_callback {w w' : World} {inp : Input} {tid : Nat} {buf : Bytes} {sec : Bool} {rest : List Op}
    (hr : Reach E w) (ht : w.threads tid = .http buf sec :: rest) (hs : w.step E (.run tid inp) = some w') :
    w'.ls = w.ls ∨ ∃ uri m p, parseGet E buf sec = some uri ∧ HoldsPending w.ls m p ∧
      uri.param "state" = some p.state ∧ TouchesOnly w w' m := by
  have h0 := hr.inv0
  replace hs := (stepR_of_step h0.wf hs).2
  cases hs with
  | runPanic _ _ => exact .inl rfl
  | run ht' hx =>
    rw [ht] at ht'
    cases ht'
    cases hx <;> try exact .inl rfl
    case httpError uri s e a p x m _ _ _ _ _ _ _ _ =>
      have ha := ‹w.ls.Has e a›
      exact .inr ⟨_, _, p, ‹parseGet E buf sec = some uri›, ⟨e, ha.1, rfl, ‹_›⟩,
        by rw [‹uri.param "state" = _›, ‹p.state = s›], sameBut_put h0.wf ha rfl rfl⟩

/-- Thread `tid` is past the callback (if it was started for one) and works for account `m`. -/
def WorksFor (w : World) (tid : Nat) (m : String) : Prop :=
  ∀ o ∈ w.threads tid, (∀ j, o.accId = some j → ∀ e ∈ w.ls.details, e.id = j → e.name = m) ∧ ∀ b s, o ≠ .http b s

theorem WorksFor.step {w w' : World} {act : Action} {tid : Nat} {m : String} (hw : Reach E w) (hlt : tid < w.nextTid)
    (hne : tid ≠ 0) (h : WorksFor w tid m) (hs : StepR E w act w') : WorksFor w' tid m ∧ tid < w'.nextTid := by
  have h0 := hw.inv0
  have hops := Reach.opsInv w hw
  have hev := hs.evolves h0
  -- an operation which was there before
  have old : ∀ o ∈ w.threads tid, (∀ j, o.accId = some j → ∀ e ∈ w'.ls.details, e.id = j → e.name = m) ∧
      ∀ b s, o ≠ .http b s := by
    intro o ho
    refine ⟨fun j hj e he hid => ?_, (h o ho).2⟩
    have hjlt : j < w.ls.accountCount := (hops tid o ho).accId_lt hj
    have hwf' : w'.ls.WF := (h0.step hs).wf
    obtain ⟨a', ha'⟩ := hwf'.has he
    obtain ⟨a, ha, _⟩ := hev.old ha' (hid ▸ hjlt)
    exact (h o ho).1 j hj e ha.1 hid
  cases hs <;> try exact ⟨old, hlt⟩
  case connect buf hb =>
    refine ⟨?_, hlt⟩
    intro o ho
    simp only [setThread_ne _ hne] at ho
    exact old o ho
  case http buf sec hb =>
    refine ⟨?_, Nat.lt_succ_of_lt hlt⟩
    intro o ho
    simp only [setThread_ne _ (Nat.ne_of_lt hlt)] at ho
    exact old o ho
  case run i inp op rest f ht hx =>
    refine ⟨?_, Nat.lt_of_lt_of_le hlt (Nat.le_add_right _ _)⟩
    intro o ho
    by_cases hi : tid = i
    · subst hi
      rw [apply_threads_self hlt] at ho
      rcases List.mem_append.mp ho with ho1 | ho1
      · have hop : op ∈ w.threads tid := by rw [ht]; simp
        refine ⟨fun j hj e he hid => ?_, ?_⟩
        · rcases hx.next_id ho1 hj with h1 | ⟨e0, he0, h1, h2, h3, ts, hm⟩ | ⟨buf, sec, _, _, _, _, _, h1, _⟩
          · exact (old op hop).1 j h1 e he hid
          · have hwf' : (w.apply tid rest f).ls.WF := (h0.step (.run ht hx)).wf
            have := hwf'.entry_id_inj he hm hid
            rw [this]
            exact (h op hop).1 _ h1 e0 he0 rfl
          · exact absurd h1 ((h op hop).2 buf sec)
        · intro b s hb
          have hsh := (Reach.shape w hw).work tid hne
          rw [ht] at hsh
          subst hb
          cases hx <;> simp at ho1
          split at ho1 <;> simp at ho1
      · exact old o (by rw [ht]; exact List.mem_cons_of_mem _ ho1)
    · rw [apply_threads_other hlt hi] at ho
      exact old o ho
  case refScan es hp he =>
    refine ⟨?_, Nat.lt_of_lt_of_le hlt (Nat.le_add_right _ _)⟩
    intro o ho
    simp only [spawnAll_lt _ _ _ _ hlt] at ho
    exact old o ho

/-- **C06.** A worker thread which is past its callback (or is a refresh thread) works for one account for the rest of
its life: whatever happens in the meantime, none of its steps ever touches any other account. -/
theorem C06_thread {w : World} {tid : Nat} (hr : Reach E w) (hlt : tid < w.nextTid) (hne : tid ≠ 0)
    (hh : ∀ b s, .http b s ∉ w.threads tid) :
    ∃ m, ∀ w1 w2 inp, Steps E w w1 → w1.step E (.run tid inp) = some w2 → TouchesOnly w1 w2 m := by
  have hm : ∃ m, WorksFor w tid m := by
    by_cases hc : ∃ o ∈ w.threads tid, ∃ j, o.accId = some j
    · obtain ⟨o, ho, j, hj⟩ := hc
      have hone : ∀ o' ∈ w.threads tid, ∀ j', o'.accId = some j' → j' = j := by
        intro o' ho' j' hj'
        rcases ((Reach.shape w hr).core (Op.isCore_of_accId hj) ho).2 with h1 | ⟨b, c, _, h1⟩
        · rw [h1] at ho'; simp at ho'; subst ho'; rw [hj] at hj'; exact (Option.some.inj hj').symm
        · rw [h1] at ho'
          simp at ho'
          rcases ho' with rfl | rfl
          · cases hj'
          · rw [hj] at hj'; exact (Option.some.inj hj').symm
      by_cases hv : ∃ e ∈ w.ls.details, e.id = j
      · obtain ⟨e, he, hid⟩ := hv
        refine ⟨e.name, fun o' ho' => ⟨fun j' hj' e' he' hid' => ?_, fun b s h => hh b s (h ▸ ho')⟩⟩
        rw [hone o' ho' j' hj'] at hid'
        rw [hr.inv0.wf.entry_id_inj he' he (hid'.trans hid.symm)]
      · refine ⟨"", fun o' ho' => ⟨fun j' hj' e' he' hid' => ?_, fun b s h => hh b s (h ▸ ho')⟩⟩
        rw [hone o' ho' j' hj'] at hid'
        exact absurd ⟨e', he', hid'⟩ hv
    · refine ⟨"", fun o' ho' => ⟨fun j' hj' => ?_, fun b s h => hh b s (h ▸ ho')⟩⟩
      exact absurd ⟨o', ho', j', hj'⟩ hc
  obtain ⟨m, hm⟩ := hm
  refine ⟨m, fun w1 w2 inp hs h2 => ?_⟩
  have hinv : WorksFor w1 tid m ∧ tid < w1.nextTid := by
    refine Steps.induct hr (P := fun w1 => WorksFor w1 tid m ∧ tid < w1.nextTid) ⟨hm, hlt⟩ ?_ w1 hs
    rintro w a w' _ hw _ _ ⟨h1, h2⟩ hst
    exact h1.step hw h2 hne hst
  obtain ⟨hf, _⟩ := hinv
  have hr1 := hs.reach hr
  have h0 := hr1.inv0
  have hst := (stepR_of_step h0.wf h2).2
  cases hst with
  | runPanic _ _ => exact SameBut.refl _ _
  | @run _ _ op rest f ht hx =>
    have hop : op ∈ w1.threads tid := by rw [ht]; simp
    show SameBut w1.ls f.ls m
    cases hid : op.accId with
    | none =>
      have : f.ls = w1.ls := by
        refine hx.same_of_plain hid ?_ (hf op hop).2 ?_
        · rintro b rfl; exact hne ((Reach.shape w1 hr1).unix hop).1
        · rintro c rfl; exact hne ((Reach.shape w1 hr1).install hop).1
      rw [this]
      exact SameBut.refl _ _
    | some j =>
      rcases hx.sameBut h0.wf hid with h1 | ⟨e, he, hj, h1⟩
      · rw [h1]; exact SameBut.refl _ _
      · have := (hf op hop).1 j hid e he hj
        rw [← this]; exact h1

/-- **C06.** The notifier only records, for outstanding authorisations, when the user was last told. -/
theorem C06_notifier {w w' : World} (hr : Reach E w) (hs : w.step E .notifier = some w') :
    w'.ls.config = w.ls.config ∧ ∀ e' ∈ w'.ls.details, e' ∈ w.ls.details ∨
      ∃ e ∈ w.ls.details, ∃ p, e.name = e'.name ∧ e.ts = .pending p ∧
        e'.ts = .pending { p with lastNotification := some w.now } := by
  have h0 := hr.inv0
  replace hs := (stepR_of_step h0.wf hs).2
  cases hs <;> try exact ⟨rfl, fun e he => .inl he⟩
  case notScan hn =>
    refine ⟨hn.config, fun e' he' => ?_⟩
    rcases hn.back e' he' with ⟨h1, _⟩ | ⟨e, he, p, hd, h1, h2, _⟩
    · exact .inl h1
    · exact .inr ⟨e, he, p, h1.symm, (dueEntry_some.mp hd).1, h2⟩

/-- **C06.** Time, connections, and the refresher and eventer threads change no account. -/
theorem C06_others {w w' : World} {act : Action} (hr : Reach E w) (hs : w.step E act = some w')
    (h1 : act ≠ .notifier) (h2 : ∀ tid inp, act ≠ .run tid inp) : w'.ls = w.ls := by
  replace hs := (stepR_of_step hr.inv0.wf hs).2
  cases hs <;> first | rfl | exact absurd rfl h1 | exact absurd rfl (h2 _ _)

/-! ## Concrete cases -/

namespace Demo

/-- C06: account "b b" has an outstanding authorisation; meanwhile "a" gets a token, refreshes it, is revoked. The
entry of "b b" is the same before and after. -/
def sB : List Action := [.connect (Cmd.wire (.show "b b" true)),
  .run 0 { rndState := Vector.replicate 8 1 }] ++ n0 3
def bEntry (w : World) : Option Entry := w.ls.details.find? (fun e => e.name == "b b")

example : (w0.run env (sB ++ sRefreshed ++ [.connect revokeA] ++ n0 5)).isSome = true ∧
    bEntry (after (sB ++ sRefreshed ++ [.connect revokeA] ++ n0 5)) = bEntry (after sB) ∧
    ((bEntry (after sB)).map fun e => e.ts != .empty) = some true := by decide +kernel

end Demo

end Pizauth
