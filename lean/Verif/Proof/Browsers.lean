import Verif.Spec.Browsers
import Verif.Proof.HttpStream
import Verif.Proof.Obs
import Verif.Proof.Accept

/-!
# Browsers: invariant
-/

namespace Pizauth
variable {E : Env}

theorem httpRequests_other {w w' : World} {a : Action} (hr : Reach E w) (hs : w.step E a = some w')
    (ha : ∀ b sec, a ≠ .http b sec) : httpRequests w'.log = httpRequests w.log := by
  obtain ⟨_, hs⟩ := stepR_of_step hr.inv0.wf hs
  obtain ⟨l, hl, hn⟩ := hs.log_new
  rw [hl]
  unfold httpRequests
  rw [List.filterMap_append, List.filterMap_eq_nil_iff.mpr, List.nil_append]
  rintro ⟨t, o⟩ hp
  have := (hn _ hp).2
  simp only at this
  cases this with
  | http => exact absurd rfl (ha _ _)
  | run ht hx ho => cases hx <;> simp at ho <;> subst ho <;> rfl
  | _ => rfl

theorem httpRequests_http {w w' : World} {b : Bytes} {sec : Bool} (hr : Reach E w)
    (hs : w.step E (.http b sec) = some w') : httpRequests w'.log = httpRequests w.log ++ [(b, sec)] := by
  obtain ⟨_, hs⟩ := stepR_of_step hr.inv0.wf hs
  cases hs
  simp [httpRequests]

private theorem get_set {α : Type} {l : List α} {i j : Nat} {p q : α} (h : l[i]? = some p) :
    (l.set i q)[j]? = if j = i then some q else l[j]? := by
  have : i < l.length := (List.getElem?_eq_some_iff.mp h).1
  rw [List.getElem?_set]
  by_cases hij : i = j
  · subst hij; simp [this]
  · simp [hij, Ne.symm hij]

private theorem map_set {α β : Type} {l : List α} {i : Nat} {p q : α} (g : α → β) (h : l[i]? = some p) (hg : g q = g p) :
    (l.set i q).map g = l.map g := by
  apply List.ext_getElem?
  intro j
  rw [List.getElem?_map, List.getElem?_map, get_set h]
  by_cases hj : j = i
  · subst hj; simp [h, hg]
  · simp [hj]

theorem Visits.onPage_eq {f f' : Visits} {i : Nat} {g : Page → Page} (h : f.onPage i g = some f') :
    ∃ p, f.pages[i]? = some p ∧ p.ended = false ∧ p.gone = false ∧ f' = { f with pages := f.pages.set i (g p) } := by
  unfold Visits.onPage at h
  split at h
  · rename_i p hp
    split at h
    · cases h
    · rename_i hc
      cases h
      refine ⟨p, hp, ?_, ?_, rfl⟩ <;> simp_all
  · cases h

/-- The port of a server. -/
def Static.port (S : Static) (sec : Bool) : Option Nat := if sec then S.httpsPort else S.httpPort

/-- What the state says about what happened. -/
structure Visits.Hist (E : Env) (f : Visits) (l : List WebAct) : Prop where
  world : Reach E f.world
  log : httpRequests f.world.log = f.handled.map (·.2)
  secs : f.pages.map Page.isHttps = browsers l
  sent : ∀ i p, f.pages[i]? = some p → p.arrived = webSent i l
  unsent : ∀ i, f.pages.length ≤ i → webSent i l = []
  ended : ∀ i p, f.pages[i]? = some p → p.ended = true → .shut i ∈ l
  nodup : (f.handled.map (·.1)).Nodup
  done : ∀ i b sec, (i, b, sec) ∈ f.handled → ∃ p, f.pages[i]? = some p ∧ p.read = true ∧ p.isHttps = sec ∧
    b <+: p.arrived ∧ (streamGet E b false sec ≠ none ∨ (p.ended = true ∧ b = p.arrived))
  ports : ∀ p ∈ f.pages, (f.world.st.port p.isHttps).isSome = true

theorem webSent_snoc (i : Nat) (l : List WebAct) (a : WebAct) :
    webSent i (l ++ [a]) = webSent i l ++ (match a with | .send j b => if j = i then b else [] | _ => []) := by
  cases a <;> simp [webSent]

theorem browsers_snoc (l : List WebAct) (a : WebAct) :
    browsers (l ++ [a]) = browsers l ++ (match a with | .connect sec => [sec] | _ => []) := by
  unfold browsers
  rw [List.filterMap_append]
  cases a <;> rfl

/-- Changes to one connection which keep what was found out about it. -/
private theorem Visits.Hist.page {f : Visits} {l : List WebAct} {a : WebAct} {i : Nat} {p q : Page} (h : f.Hist E l)
    (hp : f.pages[i]? = some p) (hsec : q.isHttps = p.isHttps) (hread : q.read = p.read)
    (hpre : p.arrived <+: q.arrived) (hend : p.ended = true → q.ended = true ∧ q.arrived = p.arrived)
    (hq : q.arrived = webSent i (l ++ [a])) (hother : ∀ j, j ≠ i → webSent j (l ++ [a]) = webSent j l)
    (hb : browsers (l ++ [a]) = browsers l) (hshut : q.ended = true → .shut i ∈ l ++ [a]) :
    ({ f with pages := f.pages.set i q } : Visits).Hist E (l ++ [a]) := by
  have hi : i < f.pages.length := (List.getElem?_eq_some_iff.mp hp).1
  refine ⟨h.world, h.log, ?_, ?_, ?_, ?_, h.nodup, ?_, ?_⟩
  · simp only; rw [map_set _ hp hsec, hb]; exact h.secs
  · intro j r hr
    simp only at hr
    rw [get_set hp] at hr
    split at hr
    · rename_i hj; subst hj; cases hr; exact hq
    · rename_i hj; rw [hother j hj]; exact h.sent j r hr
  · intro j hj
    simp only [List.length_set] at hj
    rw [hother j (by omega)]; exact h.unsent j hj
  · intro j r hr he
    simp only at hr
    rw [get_set hp] at hr
    split at hr
    · rename_i hj; subst hj; cases hr; exact hshut he
    · exact List.mem_append_left _ (h.ended j r hr he)
  · intro j b sec hm
    obtain ⟨r, h1, h2, h3, h4, h5⟩ := h.done j b sec hm
    simp only
    rw [get_set hp]
    by_cases hj : j = i
    · subst hj
      rw [hp] at h1
      cases h1
      rw [if_pos rfl]
      refine ⟨q, rfl, hread.trans h2, hsec.trans h3, h4.trans hpre, h5.imp_right fun ⟨he, hb⟩ => ?_⟩
      obtain ⟨h6, h7⟩ := hend he
      exact ⟨h6, hb.trans h7.symm⟩
    · rw [if_neg hj]; exact ⟨r, h1, h2, h3, h4, h5⟩
  · intro r hr
    simp only at hr ⊢
    rcases List.mem_or_eq_of_mem_set hr with hr | rfl
    · exact h.ports r hr
    · rw [hsec]; exact h.ports p (List.mem_of_getElem? hp)

/-- Actions which are no browser's. -/
private theorem Visits.Hist.same {f : Visits} {l : List WebAct} {a : WebAct} (h : f.Hist E l)
    (hs : ∀ j, webSent j (l ++ [a]) = webSent j l) (hb : browsers (l ++ [a]) = browsers l) : f.Hist E (l ++ [a]) :=
  ⟨h.world, h.log, hb ▸ h.secs, fun i p hp => hs i ▸ h.sent i p hp, fun i hi => hs i ▸ h.unsent i hi,
    fun i p hp he => List.mem_append_left _ (h.ended i p hp he), h.nodup, h.done, h.ports⟩

theorem Visits.Hist.step {f f' : Visits} {l : List WebAct} {a : WebAct} (h : f.Hist E l) (hs : f.step E a = some f') :
    f'.Hist E (l ++ [a]) := by
  cases a with
  | connect sec =>
    simp only [Visits.step] at hs
    split at hs
    · by_cases hport : (if sec then f.world.st.httpsPort else f.world.st.httpPort).isSome = true
      · rw [if_pos hport] at hs
        cases hs
        have hsent : ∀ j, webSent j (l ++ [.connect sec]) = webSent j l := by intro j; rw [webSent_snoc]; simp
        have old : ∀ i p, (f.pages ++ [⟨sec, [], false, false, false⟩])[i]? = some p →
            f.pages[i]? = some p ∨ (i = f.pages.length ∧ p = ⟨sec, [], false, false, false⟩) := by
          intro i p hp
          by_cases hi : i < f.pages.length
          · left; rwa [List.getElem?_append_left hi] at hp
          · right
            rw [List.getElem?_append_right (by omega)] at hp
            have : i - f.pages.length = 0 := by
              have := (List.getElem?_eq_some_iff.mp hp).1
              simp at this; omega
            rw [this] at hp
            simp only [List.getElem?_cons_zero, Option.some.injEq] at hp
            exact ⟨by omega, hp.symm⟩
        refine ⟨h.world, h.log, ?_, ?_, ?_, ?_, h.nodup, ?_, ?_⟩
        · rw [browsers_snoc, ← h.secs]; simp
        · intro i p hp
          rw [hsent]
          rcases old i p hp with hp | ⟨rfl, rfl⟩
          · exact h.sent i p hp
          · exact (h.unsent _ (Nat.le_refl _)).symm
        · intro i hi
          rw [hsent]
          simp only [List.length_append, List.length_cons, List.length_nil] at hi
          exact h.unsent i (by omega)
        · intro i p hp he
          rcases old i p hp with hp | ⟨rfl, rfl⟩
          · exact List.mem_append_left _ (h.ended i p hp he)
          · cases he
        · intro i b s hm
          obtain ⟨p, h1, h2⟩ := h.done i b s hm
          refine ⟨p, ?_, h2⟩
          simp only
          rw [List.getElem?_append_left (List.getElem?_eq_some_iff.mp h1).1]
          exact h1
        · intro p hp
          simp only [List.mem_append, List.mem_singleton] at hp
          rcases hp with hp | rfl
          · exact h.ports p hp
          · exact hport
      · rw [if_neg hport] at hs
        cases hs
    · cases hs
  | send i b =>
    obtain ⟨p, hp, he, hg, rfl⟩ := Visits.onPage_eq hs
    refine h.page hp rfl rfl (List.prefix_append _ _) (fun h => by rw [he] at h; cases h) ?_ ?_ ?_
      (fun h => by rw [he] at h; cases h)
    · rw [webSent_snoc]; simp [h.sent i p hp]
    · intro j hj; rw [webSent_snoc]; simp [Ne.symm hj]
    · rw [browsers_snoc]; simp
  | shut i =>
    obtain ⟨p, hp, he, hg, rfl⟩ := Visits.onPage_eq hs
    refine h.page hp rfl rfl (List.prefix_refl _) (fun _ => ⟨rfl, rfl⟩) ?_ ?_ ?_ (fun _ => by simp)
    · rw [webSent_snoc]; simp [h.sent i p hp]
    · intro j hj; rw [webSent_snoc]; simp
    · rw [browsers_snoc]; simp
  | reset i =>
    obtain ⟨p, hp, he, hg, rfl⟩ := Visits.onPage_eq hs
    refine h.page hp rfl rfl (List.prefix_refl _) (fun h => by rw [he] at h; cases h) ?_ ?_ ?_
      (fun h => by simp only at h; rw [he] at h; cases h)
    · rw [webSent_snoc]; simp [h.sent i p hp]
    · intro j hj; rw [webSent_snoc]; simp
    · rw [browsers_snoc]; simp
  | read i =>
    have hsent : ∀ j, webSent j (l ++ [.read i]) = webSent j l := by intro j; rw [webSent_snoc]; simp
    have hbr : browsers (l ++ [.read i]) = browsers l := by rw [browsers_snoc]; simp
    simp only [Visits.step] at hs
    split at hs
    · rename_i p hrun hp
      have set_get : ∀ (w : World) (hd : List (Nat × Bytes × Bool)),
          ∀ (j : Nat) (r : Page), ({ world := w, pages := f.pages.set i { p with read := true }, handled := hd } : Visits).pages[j]? = some r →
          ∃ r' : Page, f.pages[j]? = some r' ∧ r.arrived = r'.arrived ∧ r.ended = r'.ended := by
        intro w hd j r hr
        simp only at hr
        rw [get_set hp] at hr
        split at hr
        · rename_i hj; subst hj; cases hr; exact ⟨p, hp, rfl, rfl⟩
        · exact ⟨r, hr, rfl, rfl⟩
      have ports : ∀ r ∈ f.pages.set i { p with read := true }, (f.world.st.port r.isHttps).isSome = true := by
        intro r hr
        rcases List.mem_or_eq_of_mem_set hr with hr | rfl
        · exact h.ports r hr
        · exact h.ports p (List.mem_of_getElem? hp)
      have keep : ∀ j b sec, (j, b, sec) ∈ f.handled → ∃ r, (f.pages.set i { p with read := true })[j]? = some r ∧
          r.read = true ∧ r.isHttps = sec ∧ b <+: r.arrived ∧
          (streamGet E b false sec ≠ none ∨ (r.ended = true ∧ b = r.arrived)) := by
        intro j b sec hm
        obtain ⟨r, h1, h2, h3⟩ := h.done j b sec hm
        rw [get_set hp]
        by_cases hj : j = i
        · subst hj
          rw [hp] at h1; cases h1
          rw [if_pos rfl]
          exact ⟨_, rfl, rfl, h3⟩
        · rw [if_neg hj]; exact ⟨r, h1, h2, h3⟩
      split at hs
      · cases hs
      · rename_i hnr
        split at hs
        · cases hs
          refine ⟨h.world, h.log, ?_, ?_, ?_, ?_, h.nodup, keep, ports⟩
          · simp only; rw [map_set _ hp (by rfl), hbr]; exact h.secs
          · intro j r hr
            obtain ⟨r', h1, h2, _⟩ := set_get f.world f.handled j r hr
            rw [h2, hsent]; exact h.sent j r' h1
          · intro j hj; rw [hsent]; exact h.unsent j (by simpa using hj)
          · intro j r hr he
            obtain ⟨r', h1, _, h3⟩ := set_get f.world f.handled j r hr
            exact List.mem_append_left _ (h.ended j r' h1 (h3 ▸ he))
        · split at hs
          · cases hs
          · rename_i u hu
            obtain ⟨w, hw, rfl⟩ := Option.map_eq_some_iff.mp hs
            have hst : w.st = f.world.st := (stepR_of_step h.world.inv0.wf hw).2.st
            refine ⟨.step _ h.world hw, ?_, ?_, ?_, ?_, ?_, ?_, ?_, ?_⟩
            · simp only; rw [httpRequests_http h.world hw, h.log]; simp
            · simp only; rw [map_set _ hp (by rfl), hbr]; exact h.secs
            · intro j r hr
              obtain ⟨r', h1, h2, _⟩ := set_get w _ j r hr
              rw [h2, hsent]; exact h.sent j r' h1
            · intro j hj; rw [hsent]; exact h.unsent j (by simpa using hj)
            · intro j r hr he
              obtain ⟨r', h1, _, h3⟩ := set_get w _ j r hr
              exact List.mem_append_left _ (h.ended j r' h1 (h3 ▸ he))
            · simp only [List.map_append, List.map_cons, List.map_nil]
              rw [List.nodup_append]
              refine ⟨h.nodup, by simp, ?_⟩
              rintro x hx y hy rfl
              simp only [List.mem_singleton] at hy
              subst hy
              obtain ⟨⟨j, b, sec⟩, hm, rfl⟩ := List.mem_map.mp hx
              obtain ⟨r, h1, h2, _⟩ := h.done j b sec hm
              simp only at hp
              rw [hp] at h1; cases h1
              exact hnr h2
            · intro j b sec hm
              simp only [List.mem_append, List.mem_singleton, Prod.mk.injEq] at hm
              rcases hm with hm | ⟨rfl, rfl, rfl⟩
              · exact keep j b sec hm
              · simp only
                rw [get_set hp, if_pos rfl]
                refine ⟨_, rfl, rfl, rfl, List.prefix_refl _, ?_⟩
                cases he : p.ended with
                | true => exact Or.inr ⟨rfl, rfl⟩
                | false => left; rw [he] at hu; rw [hu]; simp
            · intro r hr
              simp only at hr ⊢
              rw [hst]; exact ports r hr
    · cases hs
  | other a =>
    have hsent : ∀ j, webSent j (l ++ [.other a]) = webSent j l := by intro j; rw [webSent_snoc]; simp
    have hbr : browsers (l ++ [.other a]) = browsers l := by rw [browsers_snoc]; simp
    have key : ∀ w, f.world.step E a = some w → (∀ b sec, a ≠ .http b sec) →
        ({ f with world := w } : Visits).Hist E (l ++ [.other a]) := by
      intro w hw ha
      have h0 := h.same hsent hbr
      have hst : w.st = f.world.st := (stepR_of_step h.world.inv0.wf hw).2.st
      exact ⟨.step a h.world hw, by simp only; rw [httpRequests_other h.world hw ha]; exact h.log, h0.secs, h0.sent,
        h0.unsent, h0.ended, h0.nodup, h0.done, fun p hp => by simp only; rw [hst]; exact h.ports p hp⟩
    simp only [Visits.step] at hs
    split at hs
    · cases hs
    · rename_i hne
      obtain ⟨w, hw, rfl⟩ := Option.map_eq_some_iff.mp hs
      exact key w hw (fun b sec e => hne b sec e)

theorem Visits.run_hist : ∀ (l l₀ : List WebAct) {f f' : Visits}, f.Hist E l₀ → f.run E l = some f' → f'.Hist E (l₀ ++ l)
  | [], l₀, f, f', h, hr => by
    simp only [Visits.run, Option.some.injEq] at hr
    subst hr; rw [List.append_nil]; exact h
  | a :: l, l₀, f, f', h, hr => by
    simp only [Visits.run] at hr
    split at hr
    · cases hr
    · rename_i g hg
      have := Visits.run_hist l (l₀ ++ [a]) (h.step hg) hr
      rwa [List.append_assoc] at this

theorem Visits.IsInit.hist {f : Visits} (hi : f.IsInit E) : f.Hist E [] := by
  refine ⟨.init hi.world, ?_, ?_, ?_, fun _ _ => rfl, ?_, ?_, ?_, ?_⟩
  · rw [hi.world.log, hi.handled]; rfl
  · rw [hi.pages]; rfl
  · intro i p hp; rw [hi.pages] at hp; simp at hp
  · intro i p hp; rw [hi.pages] at hp; simp at hp
  · rw [hi.handled]; simp
  · intro i b s hm; rw [hi.handled] at hm; simp at hm
  · intro p hp; rw [hi.pages] at hp; simp at hp

end Pizauth
