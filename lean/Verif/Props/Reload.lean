import Verif.Proof.Obs
import Verif.Props.Tokens

/-!
# C03, C04, C06: what a reload, and what other operations, leave alone
-/

namespace Pizauth
open LockedState

variable {E : Env}

/-- Once the configuration has been replaced, the request can only be answered with `ok:`. -/
theorem Reach.reloaded_since : ∀ w, Reach E w → ∀ t c, (t, .reloaded c) ∈ sinceRequest w.log →
    ∀ o ∈ w.threads 0, (∀ b, o = .reply b → b = utf8 "ok:") ∧ (∀ b, o ≠ .unix b) := by
  apply Reach.induct
  · intro w hi t c h; rw [hi.log] at h; simp [sinceRequest] at h
  · intro w a w' hw h0 _ ih hs t c hm o ho
    by_cases hne : w.threads 0 = []
    · rcases hs.idle0 h0 hne with h | ⟨b, _, h, hl⟩
      · rw [h] at ho; simp at ho
      · rw [hl] at hm; simp [sinceRequest] at hm
    · have hcon : ∀ b, a ≠ .connect b := by
        rintro b rfl
        cases hs with
        | connect _ h => exact hne h
      obtain ⟨l, hl, hl'⟩ := hs.log_new
      rw [hl, sinceRequest_append _ _ fun p hp => (hl' p hp).2.not_request hcon] at hm
      rcases List.mem_append.mp hm with hm1 | hm1
      · -- it is this step which replaces the configuration
        cases (hl' _ hm1).2
        rename_i tid inp op rest f ht hx hobs
        have := hx.reloaded_obs hobs
        subst this
        have hi : Op.install c ∈ w.threads tid := by rw [ht]; simp
        obtain ⟨rfl, _⟩ := (Reach.shape w hw).install hi
        rw [apply_threads_self h0.tid0, hx.install_next.1] at ho
        have hsh := (Reach.shape w hw).main
        rw [ht] at hsh
        rcases hsh.cons with ⟨_, h, _⟩ | ⟨_, _, rfl⟩ | ⟨h, _⟩ | ⟨h, _⟩
        · cases h
        · simp at ho
          rcases ho with rfl | rfl | rfl | rfl <;> simp
        · cases h
        · simp [Op.isTail, Op.isReply] at h
      · -- it was replaced before
        have old : o ∈ w.threads 0 → _ := ih t c hm1 o
        by_cases ha : ∃ inp, a = .run 0 inp
        · obtain ⟨inp, rfl⟩ := ha
          cases hs with
          | runPanic ht hx => exact old ho
          | @run _ _ op rest f ht hx =>
            rw [apply_threads_self h0.tid0] at ho
            rcases List.mem_append.mp ho with hm2 | hm2
            · have hop := ih t c hm1 op (by rw [ht]; simp)
              have hsh := (Reach.shape w hw).main
              rw [ht] at hsh
              rcases hsh.cons with ⟨b, rfl, rfl⟩ | ⟨c, rfl, rfl⟩ | ⟨rfl, rfl⟩ | ⟨h, _⟩
              · exact absurd rfl (hop.2 b)
              · rw [hx.install_next.1] at hm2; simp at hm2
              · rw [(hx.plain (by simp)).1] at hm2; simp at hm2
              · rw [(hx.plain (by rcases h with h | h <;> simp [h])).1] at hm2; simp at hm2
            · exact old (by rw [ht]; exact List.mem_cons_of_mem _ hm2)
        · exact old (by rw [← hs.threads0 h0 hne fun inp h => ha ⟨inp, h⟩]; exact ho)

/-- **C03.** If the new configuration cannot be read or is invalid, the only effect of handling `reload` is that an
error is going to be answered: no account, token, pending authorisation, operation in flight or setting changes. -/
theorem C03_step {w w' : World} {inp : Input} {buf : Bytes} {rest : List Op} {m : String}
    (ht : w.threads 0 = .unix buf :: rest) (hp : parseReq buf = .reload) (hc : inp.conf = .error m)
    (hs : w.step E (.run 0 inp) = some w') :
    w' = { w with threads := fun i => if i = 0 then .reply (utf8 ("error:" ++ m)) :: rest else w.threads i } := by
  unfold World.step at hs
  split at hs
  · cases hs
  · cases hs
  · rename_i hproc
    simp only [ht, exec, hp, execUnix, hc, Option.some.injEq] at hs
    subst hs
    simp only [World.apply, spawnAll, List.length_nil, Nat.add_zero, Bool.or_false, List.append_nil, List.map_nil,
      List.reverse_nil, List.nil_append, Bool.false_eq_true, if_false]
    rfl

/-- **C03.** A reload which is answered with anything but `ok:` has not replaced the configuration. -/
theorem C03_answer {w : World} {buf b : Bytes} (h : Answers E w buf b) (hb : b ≠ utf8 "ok:") :
    ∀ t c, (t, .reloaded c) ∉ sinceRequest w.log := by
  intro t c hm
  obtain ⟨_, _, _, _, _, _, hm2⟩ := h.decided
  exact hb ((Reach.reloaded_since w h.reach t c hm _ hm2).1 b rfl)

/-- **C03.** The configuration changes only by a step which is observed as a reload. -/
theorem C03_only_reload {w w' : World} {act : Action} (hr : Reach E w) (hs : w.step E act = some w')
    (hc : w'.ls.config ≠ w.ls.config) : ∃ c, Reloads E w c w' ∧ w'.ls.config = c := by
  have h0 := hr.inv0
  have hst := hs
  have hs := (stepR_of_step h0.wf hs).2
  cases hs <;> try exact absurd rfl hc
  case run tid inp op rest f ht hx =>
    rcases (hx.state h0.wf (by rintro c rfl; exact h0.inst tid c (by rw [ht]; simp))).2.2 with h | h
    · exact absurd h hc
    · subst h
      generalize hcc : f.ls.config = c at hx
      cases hx
      exact ⟨c, ⟨hr, ⟨_, hst⟩, ⟨_, rfl⟩⟩, hcc⟩
  case notScan hn => exact absurd hn.config hc

/-- **C04.** After a successful reload the configuration is the new one and there is exactly one entry for each of
its accounts. -/
theorem C04_accounts {w w' : World} {c : Config} (h : Reloads E w c w') :
    w'.ls.config = c ∧ w'.ls.details.map Entry.name = c.accounts.map Prod.fst ∧
    (w'.ls.details.map Entry.name).Nodup := by
  obtain ⟨hr, _, _, _, _, _, _, _, hc⟩ := h.state
  have hw := hr.inv0.wf
  exact ⟨hc, by rw [hw.names, hc], hw.names_nodup⟩

/-- **C04.** An account whose security-relevant configuration is the same keeps its token or pending authorisation,
and operations in flight for it (which know it by its id) remain valid. -/
theorem C04_kept {w w' : World} {c : Config} {n : String} {a a' : Account} (h : Reloads E w c w')
    (ha : w.ls.config.get? n = some a) (ha' : c.get? n = some a') (hsec : SameSec a a') (e : Entry) (hn : e.name = n) :
    e ∈ w'.ls.details ↔ e ∈ w.ls.details := by
  obtain ⟨hr', hu, hok, _, _, _, _, _, hcfg⟩ := h.state
  have hwf := h.reach.inv0.wf
  have hwf' := hr'.inv0.wf
  obtain ⟨ls'', h1, h2, h3, h4, h5⟩ := hwf.updateConf hok.nodup hok.names
  rw [hu] at h1
  cases h1
  have key : ∀ x ∈ w'.ls.details, x.name = n → x ∈ w.ls.details := by
    intro x hx hxn
    obtain ⟨b, hb, ⟨o, ho, _⟩ | ⟨_, _, hno⟩⟩ := h5 x hx
    · exact ho.1
    · rw [hxn] at hb hno
      rw [ha'] at hb
      cases hb
      exact absurd hsec.symm (hno a ha)
  refine ⟨fun he => key e he hn, fun he => ?_⟩
  obtain ⟨x, hx, hxn⟩ := hwf'.entry_of_get? (n := n) (a := a') (by rw [hcfg]; exact ha')
  have := hwf.entry_name_inj (key x hx hxn) he (hxn.trans hn.symm)
  exact this ▸ hx

/-- **C04.** Every other account has no token after a reload. -/
theorem C04_dropped {w w' : World} {c : Config} {n : String} (h : Reloads E w c w')
    (hc : SecChanged w.ls.config c n) : ∀ e ∈ w'.ls.details, e.name = n → e.ts = .empty :=
  h.changed_empty hc

/-- **C04.** Threads at work are not disturbed by a reload. -/
theorem C04_threads {w w' : World} {c : Config} (h : Reloads E w c w') :
    ∀ i, i ≠ 0 → w'.threads i = w.threads i := by
  obtain ⟨_, _, _, _, _, _, _, h, _⟩ := h.state
  exact h

/-- A reload to the very same configuration changes nothing at all. -/
theorem C04_same {w w' : World} (h : Reloads E w w.ls.config w') (e : Entry) :
    e ∈ w'.ls.details ↔ e ∈ w.ls.details := by
  obtain ⟨hr', _, _, _, _, _, _, _, hcfg⟩ := h.state
  constructor
  · intro he
    obtain ⟨a, ha⟩ := hr'.inv0.wf.has he
    have ha2 := ha.2
    rw [hcfg] at ha2
    exact (C04_kept h ha2 ha2 (SameSec.refl _) e rfl).mp he
  · intro he
    obtain ⟨a, ha⟩ := h.reach.inv0.wf.has he
    exact (C04_kept h ha.2 ha.2 (SameSec.refl _) e rfl).mpr he

/-! ## Concrete cases -/

namespace Demo

/-- C03: a client asks for a reload and the file is bad. -/
def sBadReload : List Action := sRefresh ++ [.run 2 {}, .connect (Cmd.wire .reload), .run 0 { conf := .error "oops" }]

example : Answers env (after sBadReload) (Cmd.wire .reload) (utf8 ("error:" ++ "oops")) ∧
    parseReq (Cmd.wire .reload) = .reload ∧ utf8 ("error:" ++ "oops") ≠ utf8 "ok:" ∧
    (after sBadReload).ls = (after sRefresh).ls :=
  ⟨answers_of (t := 0) (t' := 0) (after_reach _) (by decide +kernel) (by decide +kernel), by decide +kernel,
    by decide +kernel, by decide +kernel⟩

/-- C04: a reload which shortens a refresh time of "a" (and removes "b b"), while a refresh of "a" is in flight:
the token stays, and the refresh can still store its result. -/
def sReload3 : List Action := sRefresh ++ [.run 2 {}, .connect (Cmd.wire .reload), .run 0 { conf := .ok conf3 }]
def sReloaded3 : List Action :=
  sReload3 ++ n0 5 ++ [.run 2 { net := .body answer2 }, .run 2 {}, .run 2 {}]

example : Reloads env (after sReload3) conf3 (andThen (after sReload3) [.run 0 {}]) ∧
    SameSec (act "a" "https://ts/token") { act "a" "https://ts/token" with refreshRetry := some (secs 5) } ∧
    (after sReloaded3).ls.config = conf3 ∧
    (after sReloaded3).ls.details.map (fun e => (e.name, match e.ts with
      | .active t => some t.accessToken
      | _ => none)) = [("a", some "T2")] :=
  ⟨⟨after_reach _, ⟨.run 0 {}, andThen_one (by decide +kernel)⟩, ⟨0, by decide +kernel⟩⟩, by decide +kernel,
    by decide +kernel, by decide +kernel⟩

end Demo

end Pizauth
