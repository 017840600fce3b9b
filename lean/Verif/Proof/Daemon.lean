import Verif.Spec.Daemon
import Verif.Proof.Browsers

/-!
# The daemon with its clients, browsers and commands: its parts go on as they would by themselves
-/

namespace Pizauth
variable {E : Env} {shell : Commands.Shell}

/-- Only what clients do. -/
def onlyClients (l : List FrontAct) : List FrontAct := l.filter fun | .other _ => false | _ => true

/-- Only what browsers do. -/
def onlyBrowsers (l : List WebAct) : List WebAct := l.filter fun | .other _ => false | _ => true

theorem clients_only : ∀ l : List FrontAct, clients (onlyClients l) = clients l
  | [] => rfl
  | a :: l => by
    have ih := clients_only l
    unfold clients onlyClients at *
    cases a <;> simp_all

theorem sentBy_only (i : Nat) : ∀ l : List FrontAct, sentBy i (onlyClients l) = sentBy i l
  | [] => rfl
  | a :: l => by
    have ih := sentBy_only i l
    unfold sentBy onlyClients at *
    cases a <;> simp_all

theorem browsers_only : ∀ l : List WebAct, browsers (onlyBrowsers l) = browsers l
  | [] => rfl
  | a :: l => by
    have ih := browsers_only l
    unfold browsers onlyBrowsers at *
    cases a <;> simp_all

theorem webSent_only (i : Nat) : ∀ l : List WebAct, webSent i (onlyBrowsers l) = webSent i l
  | [] => rfl
  | a :: l => by
    have ih := webSent_only i l
    unfold webSent onlyBrowsers at *
    cases a <;> simp_all

theorem Front.step_does {f f' : Front} {a : FrontAct} (hs : f.step E a = some f') (ha : ∀ x, a ≠ .other x) :
    match f.does a with
    | none => f'.world = f.world
    | some x => f.world.step E x = some f'.world := by
  cases a with
  | other x => exact absurd rfl (ha x)
  | connect => simp only [Front.step, Option.some.injEq] at hs; subst hs; rfl
  | send i b =>
    simp only [Front.step] at hs
    split at hs <;> cases hs
    rfl
  | shut i =>
    simp only [Front.step] at hs
    split at hs <;> cases hs
    rfl
  | reset i => simp only [Front.step, Option.some.injEq] at hs; subst hs; rfl
  | accept =>
    simp only [Front.step] at hs
    split at hs
    · split at hs <;> cases hs
      rfl
    · cases hs
  | read k =>
    simp only [Front.step] at hs
    split at hs
    · rename_i c buf _ hc
      simp only [Front.does, hc]
      cases hst : c.state with
      | reset => simp only [hst] at hs; cases hs; rfl
      | «open» =>
        simp only [hst] at hs
        split at hs
        · cases hs
        · split at hs <;> cases hs
          rfl
      | shut =>
        simp only [hst] at hs
        split at hs
        · rename_i he
          obtain ⟨w, hw, rfl⟩ := Option.map_eq_some_iff.mp hs
          simpa [he] using hw
        · rename_i he
          split at hs <;> cases hs
          simp [he]
    · cases hs

theorem Visits.step_does {f f' : Visits} {a : WebAct} (hs : f.step E a = some f') (ha : ∀ x, a ≠ .other x) :
    match f.does a with
    | none => f'.world = f.world
    | some x => f.world.step E x = some f'.world := by
  cases a with
  | other x => exact absurd rfl (ha x)
  | connect sec =>
    simp only [Visits.step] at hs
    split at hs
    · by_cases hport : (if sec then f.world.st.httpsPort else f.world.st.httpPort).isSome = true
      · rw [if_pos hport] at hs; cases hs; rfl
      · rw [if_neg hport] at hs; cases hs
    · cases hs
  | send i b => obtain ⟨p, _, _, _, rfl⟩ := Visits.onPage_eq hs; rfl
  | shut i => obtain ⟨p, _, _, _, rfl⟩ := Visits.onPage_eq hs; rfl
  | reset i => obtain ⟨p, _, _, _, rfl⟩ := Visits.onPage_eq hs; rfl
  | read i =>
    simp only [Visits.step] at hs
    split at hs
    · rename_i p _ hp
      simp only [Visits.does, hp]
      split at hs
      · cases hs
      · split at hs
        · rename_i hg; cases hs; simp [hg]
        · rename_i hg
          split at hs
          · cases hs
          · obtain ⟨w, hw, rfl⟩ := Option.map_eq_some_iff.mp hs
            simpa [hg] using hw
    · cases hs

theorem Visits.step_other {f f' : Visits} {x : Action} (hs : f.step E (.other x) = some f') :
    f.world.step E x = some f'.world ∧ f' = { f with world := f'.world } := by
  simp only [Visits.step] at hs
  split at hs
  · cases hs
  · obtain ⟨w, hw, rfl⟩ := Option.map_eq_some_iff.mp hs
    exact ⟨hw, rfl⟩

theorem Front.step_other {f f' : Front} {x : Action} (hs : f.step E (.other x) = some f') :
    f.world.step E x = some f'.world ∧ f' = { f with world := f'.world } := by
  simp only [Front.step] at hs
  split at hs
  · cases hs
  · obtain ⟨w, hw, rfl⟩ := Option.map_eq_some_iff.mp hs
    exact ⟨hw, rfl⟩

theorem Jobs.step_act {s s' : Jobs} {a : Jobs.Act} (hs : s.step E shell a = some s') :
    match a with
    | .world x => s.world.step E x = some s'.world
    | _ => s'.world = s.world := by
  cases a with
  | world x =>
    simp only [Jobs.step] at hs
    split at hs
    · cases hs
    · obtain ⟨w, hw, rfl⟩ := Option.map_eq_some_iff.mp hs
      exact hw
  | spawn => simp only [Jobs.step] at hs; split at hs <;> cases hs; rfl
  | start i => simp only [Jobs.step] at hs; split at hs <;> cases hs; rfl
  | finish i => simp only [Jobs.step] at hs; split at hs <;> cases hs; rfl

/-- The parts have the same server. -/
structure Daemon.Same (d : Daemon) : Prop where
  web : d.web.world = d.world
  jobs : d.jobs.world = d.world

/-- What the parts do in a step. -/
theorem Daemon.step_parts {d d' : Daemon} {a : DaemonAct} (h : d.Same) (hs : d.step E shell a = some d') :
    d'.Same ∧
    (∃ lf, d.front.run E lf = some d'.front ∧ onlyClients lf = clientActs [a]) ∧
    (∃ lv, d.web.run E lv = some d'.web ∧ onlyBrowsers lv = browserActs [a]) ∧
    ∃ lj, d.jobs.run E shell lj = some d'.jobs := by
  have eqw : ∀ {w w1 w2 : World} {x : Action}, w.step E x = some w1 → w.step E x = some w2 → w1 = w2 :=
    fun h1 h2 => Option.some.inj (h1.symm.trans h2)
  have hw := h.web
  have hj := h.jobs
  unfold Daemon.world at hw hj
  cases a with
  | client a =>
    have ha : ∀ x, a ≠ .other x := by rintro x rfl; simp [Daemon.step] at hs
    have hs : (match d.front.step E a with
      | none => none
      | some f =>
        match d.front.does a with
        | none => some { d with front := f }
        | some x =>
          match d.web.step E (.other x), d.jobs.step E shell (.world x) with
          | some v, some j => some ⟨f, v, j⟩
          | _, _ => none) = some d' := by
      rw [← hs]; cases a <;> first | rfl | exact absurd rfl (ha _)
    have hcl : onlyClients [a] = clientActs [.client a] := by
      cases a <;> first | rfl | exact absurd rfl (ha _)
    split at hs
    · cases hs
    · rename_i f hf
      have hd := Front.step_does hf ha
      split at hs
      · rename_i hx
        cases hs
        rw [hx] at hd
        exact ⟨⟨hw.trans hd.symm, hj.trans hd.symm⟩, ⟨[a], by simp [Front.run, hf], hcl⟩, ⟨[], rfl, rfl⟩, [], rfl⟩
      · rename_i x hx
        rw [hx] at hd
        split at hs
        · rename_i v j hv hjs
          cases hs
          have h1 := (Visits.step_other hv).1
          have h2 := Jobs.step_act hjs
          rw [hw] at h1
          simp only [hj] at h2
          exact ⟨⟨eqw h1 hd, eqw h2 hd⟩, ⟨[a], by simp [Front.run, hf], hcl⟩, ⟨[.other x], by simp [Visits.run, hv], rfl⟩,
            [.world x], by simp [Jobs.run, hjs]⟩
        · cases hs
  | browser a =>
    have ha : ∀ x, a ≠ .other x := by rintro x rfl; simp [Daemon.step] at hs
    have hs : (match d.web.step E a with
      | none => none
      | some v =>
        match d.web.does a with
        | none => some { d with web := v }
        | some x =>
          match d.front.step E (.other x), d.jobs.step E shell (.world x) with
          | some f, some j => some ⟨f, v, j⟩
          | _, _ => none) = some d' := by
      rw [← hs]; cases a <;> first | rfl | exact absurd rfl (ha _)
    have hcl : onlyBrowsers [a] = browserActs [.browser a] := by
      cases a <;> first | rfl | exact absurd rfl (ha _)
    split at hs
    · cases hs
    · rename_i v hv
      have hd := Visits.step_does hv ha
      split at hs
      · rename_i hx
        cases hs
        rw [hx] at hd
        exact ⟨⟨hd.trans hw, hj⟩, ⟨[], rfl, rfl⟩, ⟨[a], by simp [Visits.run, hv], hcl⟩, [], rfl⟩
      · rename_i x hx
        rw [hx] at hd
        split at hs
        · rename_i f j hf hjs
          cases hs
          have h1 := (Front.step_other hf).1
          have h2 := Jobs.step_act hjs
          simp only [hj] at h2
          simp only [hw] at hd
          exact ⟨⟨eqw hd h1, eqw h2 h1⟩, ⟨[.other x], by simp [Front.run, hf], rfl⟩, ⟨[a], by simp [Visits.run, hv], hcl⟩,
            [.world x], by simp [Jobs.run, hjs]⟩
        · cases hs
  | command a =>
    have ha : ∀ x, a ≠ .world x := by rintro x rfl; simp [Daemon.step] at hs
    have hs : (match d.jobs.step E shell a with
      | none => none
      | some j => some { d with jobs := j }) = some d' := by
      rw [← hs]; cases a <;> first | rfl | exact absurd rfl (ha _)
    split at hs
    · cases hs
    · rename_i j hjs
      cases hs
      have h2 := Jobs.step_act hjs
      have h2 : j.world = d.jobs.world := by cases a <;> first | exact h2 | exact absurd rfl (ha _)
      exact ⟨⟨hw, h2.trans hj⟩, ⟨[], rfl, rfl⟩, ⟨[], rfl, rfl⟩, [a], by simp [Jobs.run, hjs]⟩
  | other x =>
    simp only [Daemon.step] at hs
    split at hs
    · rename_i f v j hf hv hjs
      cases hs
      have h0 := (Front.step_other hf).1
      have h1 := (Visits.step_other hv).1
      have h2 := Jobs.step_act hjs
      rw [hw] at h1
      simp only [hj] at h2
      exact ⟨⟨eqw h1 h0, eqw h2 h0⟩, ⟨[.other x], by simp [Front.run, hf], rfl⟩, ⟨[.other x], by simp [Visits.run, hv], rfl⟩,
        [.world x], by simp [Jobs.run, hjs]⟩
    · cases hs

theorem Front.run_app : ∀ (l l' : List FrontAct) {f g h : Front}, f.run E l = some g → g.run E l' = some h →
    f.run E (l ++ l') = some h
  | [], _, _, _, _, h1, h2 => by simp only [Front.run, Option.some.injEq] at h1; subst h1; exact h2
  | a :: l, l', f, g, h, h1, h2 => by
    simp only [Front.run, List.cons_append] at h1 ⊢
    split at h1
    · cases h1
    · exact Front.run_app l l' h1 h2

theorem Visits.run_app : ∀ (l l' : List WebAct) {f g h : Visits}, f.run E l = some g → g.run E l' = some h →
    f.run E (l ++ l') = some h
  | [], _, _, _, _, h1, h2 => by simp only [Visits.run, Option.some.injEq] at h1; subst h1; exact h2
  | a :: l, l', f, g, h, h1, h2 => by
    simp only [Visits.run, List.cons_append] at h1 ⊢
    split at h1
    · cases h1
    · exact Visits.run_app l l' h1 h2

theorem Jobs.run_app : ∀ (l l' : List Jobs.Act) {f g h : Jobs}, f.run E shell l = some g → g.run E shell l' = some h →
    f.run E shell (l ++ l') = some h
  | [], _, _, _, _, h1, h2 => by simp only [Jobs.run, Option.some.injEq] at h1; subst h1; exact h2
  | a :: l, l', f, g, h, h1, h2 => by
    simp only [Jobs.run, List.cons_append] at h1 ⊢
    split at h1
    · cases h1
    · exact Jobs.run_app l l' h1 h2

theorem Daemon.run_parts : ∀ (l : List DaemonAct) {d d' : Daemon}, d.Same → d.run E shell l = some d' →
    d'.Same ∧
    (∃ lf, d.front.run E lf = some d'.front ∧ onlyClients lf = clientActs l) ∧
    (∃ lv, d.web.run E lv = some d'.web ∧ onlyBrowsers lv = browserActs l) ∧
    ∃ lj, d.jobs.run E shell lj = some d'.jobs
  | [], d, d', h, hr => by
    simp only [Daemon.run, Option.some.injEq] at hr
    subst hr
    exact ⟨h, ⟨[], rfl, rfl⟩, ⟨[], rfl, rfl⟩, [], rfl⟩
  | a :: l, d, d', h, hr => by
    simp only [Daemon.run] at hr
    split at hr
    · cases hr
    · rename_i e he
      obtain ⟨s1, ⟨f1, a1, b1⟩, ⟨v1, a2, b2⟩, j1, a3⟩ := Daemon.step_parts h he
      obtain ⟨s2, ⟨f2, c1, d1⟩, ⟨v2, c2, d2⟩, j2, c3⟩ := Daemon.run_parts l s1 hr
      have e1 : clientActs (a :: l) = clientActs [a] ++ clientActs l := by
        rw [← List.singleton_append (l := l)]; exact List.filterMap_append
      have e2 : browserActs (a :: l) = browserActs [a] ++ browserActs l := by
        rw [← List.singleton_append (l := l)]; exact List.filterMap_append
      refine ⟨s2, ⟨f1 ++ f2, Front.run_app _ _ a1 c1, ?_⟩, ⟨v1 ++ v2, Visits.run_app _ _ a2 c2, ?_⟩,
        j1 ++ j2, Jobs.run_app _ _ a3 c3⟩
      · rw [e1, ← b1, ← d1]; exact List.filter_append ..
      · rw [e2, ← b2, ← d2]; exact List.filter_append ..

theorem Daemon.IsInit.same {d : Daemon} (h : d.IsInit E) : d.Same :=
  ⟨by rw [h.web]; rfl, by rw [h.jobs]; rfl⟩

theorem Daemon.IsInit.visits {d : Daemon} (h : d.IsInit E) : d.web.IsInit E := by
  rw [h.web]; exact ⟨h.front.world, rfl, rfl⟩

end Pizauth
