import Verif.Spec.Manual
import Verif.Props.Cli
import Verif.Props.Requests
import Verif.Props.Status

/-!
# What the commands do
-/

namespace Pizauth
open LockedState

variable {E : Env}

theorem unchanged_apply {w : World} (h0 : 0 < w.nextTid) {rest : List Op} {f : Eff} (h1 : f.ls = w.ls) (h2 : f.spawn = []) :
    Unchanged w (w.apply 0 rest f) := by
  refine ⟨h1, by simp [World.apply, h2], fun i hi => ?_⟩
  simp [World.apply, h2, spawnAll, setThread, hi]

theorem refreshStarted_apply {w : World} (h0 : Inv0 E w) {e : Entry} {a : Account} (ha : w.ls.Has e a) {b : Bytes} :
    RefreshStarted e.name w (w.apply 0 [.close] { ls := w.ls, spawn := [.rfStart e.id], next := [.reply b] }) := by
  obtain ⟨h1, _, h3, h4⟩ := startsRefresh_of h0 ha (b := b)
  exact ⟨by rw [h4], h1, by rw [h4], h3⟩

theorem onlyChanges_put {ls : LockedState} (h : ls.WF) {e : Entry} (he : e ∈ ls.details) (ts : TokenState) :
    OnlyChanges e.name ls (ls.put e.id ts) := by
  refine ⟨rfl, fun m ts' hm => ⟨?_, ?_⟩⟩
  · rintro ⟨e', he', rfl, rfl⟩
    rcases mem_put.mp he' with ⟨h1, _⟩ | ⟨e1, h1, hid, rfl⟩
    · exact ⟨e', h1, rfl, rfl⟩
    · rw [h.entry_id_inj h1 he hid] at hm
      exact absurd rfl hm
  · rintro ⟨e', he', rfl, rfl⟩
    refine ⟨e', mem_put.mpr (.inl ⟨he', fun hid => hm ?_⟩), rfl, rfl⟩
    rw [h.entry_id_inj he' he hid]

theorem run_error {c : Cmd} (hc : c.isText = true) (m : String) :
    Cli.run c (.answer (utf8 ("error:" ++ m))) = ⟨[], some m, 1⟩ := by
  have := C48_error hc m
  cases c <;> simp [Cmd.isText] at hc <;> simp [Cli.run, this, Cli.failWith]

theorem run_ok {c : Cmd} (hc : c = .reload ∨ (∃ d, c = .restore d) ∨ ∃ n, c = .revoke n) :
    Cli.run c (.answer (utf8 "ok:")) = ⟨[], none, 0⟩ := by
  have h : c.readReply (utf8 ("ok" ++ ":" ++ "")) = .ok none := by
    rw [readReply_split (by decide +kernel)]
    rcases hc with rfl | ⟨d, rfl⟩ | ⟨n, rfl⟩ <;> rfl
  have h' : c.readReply (utf8 "ok:") = .ok none := h
  rcases hc with rfl | ⟨d, rfl⟩ | ⟨n, rfl⟩ <;> simp [Cli.run, h']

theorem run_pending {c : Cmd} {n : String} {u : Bool} (hc : c = .show n u ∨ c = .refresh n u) (url : Url) :
    Cli.run c (.answer (pendingReply E u url)) = ⟨[], some (unavailable E u url), 1⟩ := by
  have hb : pendingReply E u url = utf8 ("pending:" ++ if u then E.renderUrl url else "") := by
    cases u
    · show utf8 "pending:" = utf8 ("pending:" ++ "")
      rw [String.append_empty]
    · rfl
  rw [hb]
  generalize hx : (if u then E.renderUrl url else "") = x
  have h := C48_pending n u x
  have hr : Cli.failWith (pendingMsg x) = ⟨[], some (unavailable E u url), 1⟩ := by
    unfold unavailable
    rw [hx]
    rfl
  rcases hc with rfl | rfl
  · simp only [Cli.run, h.1]; exact hr
  · simp only [Cli.run, h.2]; exact hr

theorem run_scheduled (n : String) (u : Bool) : Cli.run (.refresh n u) (.answer (utf8 "scheduled:")) = ⟨[], none, 0⟩ := by
  have h : Cmd.readReply (.refresh n u) (utf8 ("scheduled" ++ ":" ++ "")) = .ok none := by
    rw [readReply_split (by decide +kernel)]
    rfl
  have h' : Cmd.readReply (.refresh n u) (utf8 "scheduled:") = .ok none := h
  simp [Cli.run, h']

theorem run_token (n : String) (u : Bool) (tok : String) :
    Cli.run (.show n u) (.answer (utf8 ("access_token:" ++ tok))) = ⟨utf8 (tok ++ "\n"), none, 0⟩ := by
  have h : Cmd.readReply (.show n u) (utf8 ("access_token:" ++ tok)) = .ok (some tok) := (C48_show ..).mpr ⟨tok, rfl, rfl⟩
  simp [Cli.run, h]

theorem run_status (x : String) : Cli.run .status (.answer (utf8 ("ok:" ++ x))) = ⟨utf8 (x ++ "\n"), none, 0⟩ := by
  have h : Cmd.readReply .status (utf8 ("ok" ++ ":" ++ x)) = .ok (some x) := by
    rw [readReply_split (by decide +kernel)]
    rfl
  have h' : Cmd.readReply .status (utf8 ("ok:" ++ x)) = .ok (some x) := h
  simp [Cli.run, h']

/-- The effect of a request, and what its client makes of the answer. -/
theorem outcome (hl : HostLaw E) {w : World} {c : Cmd} {inp : Input} {f : Eff} (hr : Reach E w)
    (ht : w.threads 0 = [.unix c.wire, .close]) (hx : ExecR E w.st w.now w.wall w.ls 0 (.unix c.wire) inp f)
    (hst : w.step E (.run 0 inp) = some (w.apply 0 [.close] f)) (hterm : f.term = false) (hc : c ≠ .info) :
    Outcome E w (w.apply 0 [.close] f) c (Cli.run c (.answer (f.next.filterMap Op.written).flatten)) := by
  have h0 := hr.inv0
  have hreq := C47 c
  have hex : Executes E w c.wire (w.apply 0 [.close] f) := ⟨hr, ht, inp, hst⟩
  have hth : (w.apply 0 [.close] f).threads 0 = f.next ++ [.close] := apply_threads_self h0.tid0 ..
  have hget : ∀ n, (∀ e ∈ w.ls.details, e.name ≠ n) → w.ls.config.get? n = none := by
    intro n hn
    cases hg : w.ls.config.get? n with
    | none => rfl
    | some a =>
      exfalso
      have : n ∈ w.ls.config.accounts.map Prod.fst := List.mem_map_of_mem (f := Prod.fst) (mem_of_lookup hg)
      rw [← h0.wf.names] at this
      obtain ⟨e, he, hn'⟩ := List.mem_map.mp this
      exact hn e he hn'
  have hwritten : ∀ (b : Bytes) (l : List Op), l.filterMap Op.written = [b] → (l.filterMap Op.written).flatten = b := by
    intro b l h; rw [h]; simp
  cases hx
  case dumpOk b _ _ =>
    have h1 := hreq.symm.trans ‹parseReq c.wire = .dump›
    cases c <;> simp only [Cmd.req, reduceCtorEq] at h1
    rw [hwritten b _ rfl]
    exact .dumped (unchanged_apply h0.tid0 rfl rfl) hth
  case dumpErr _ _ =>
    have h1 := hreq.symm.trans ‹parseReq c.wire = .dump›
    cases c <;> simp only [Cmd.req, reduceCtorEq] at h1
    exact .notDumped (unchanged_apply h0.tid0 rfl rfl) hth
  case info _ =>
    have h1 := hreq.symm.trans ‹parseReq c.wire = .info›
    cases c <;> simp only [Cmd.req, reduceCtorEq] at h1
    exact absurd rfl hc
  case reloadOk conf _ _ _ =>
    have h1 := hreq.symm.trans ‹parseReq c.wire = .reload›
    cases c <;> simp only [Cmd.req, reduceCtorEq] at h1
    rw [hwritten (utf8 "ok:") _ rfl, run_ok (.inl rfl)]
    exact .reloaded ‹_› (unchanged_apply h0.tid0 rfl rfl) hth
  case reloadErr m _ _ =>
    have h1 := hreq.symm.trans ‹parseReq c.wire = .reload›
    cases c <;> simp only [Cmd.req, reduceCtorEq] at h1
    rw [hwritten _ _ rfl, run_error rfl]
    exact .notReloaded (unchanged_apply h0.tid0 rfl rfl) hth
  case noAccount n h2 h1 =>
    rw [hreq] at h1
    rw [hwritten _ _ rfl]
    have h1' : (∃ u, c = .show n u) ∨ (∃ u, c = .refresh n u) ∨ c = .revoke n := by
      cases c <;> simp_all [Cmd.req]
    have htext : c.isText = true := by rcases h1' with ⟨u, rfl⟩ | ⟨u, rfl⟩ | rfl <;> rfl
    have : noAccountReply n = utf8 ("error:" ++ ("No account '" ++ n ++ "'")) := by
      unfold noAccountReply
      congr 1
    rw [this, run_error htext]
    exact .noAccount h1' (hget n h2) (unchanged_apply h0.tid0 rfl rfl)
  case auth u e a url ha h1 hurl =>
    rw [hreq] at h1
    rw [hwritten _ _ rfl]
    have hch := onlyChanges_put h0.wf ha.1 (freshPending url inp)
    have hnew := mem_put_new (ts := freshPending url inp) ha.1 rfl
    rcases h1 with ⟨h1, hts⟩ | ⟨h1, hts⟩
    · cases c <;> simp only [Cmd.req, reduceCtorEq, Req.showtoken.injEq] at h1
      obtain ⟨rfl, rfl⟩ := h1
      rw [run_pending (.inl rfl)]
      exact Outcome.started (p := { url := url, .. }) ⟨e, ha.1, rfl, hts⟩ ⟨_, hnew, rfl, rfl⟩ hch
    · cases c <;> simp only [Cmd.req, reduceCtorEq, Req.refresh.injEq] at h1
      obtain ⟨rfl, rfl⟩ := h1
      rw [run_pending (.inr rfl)]
      refine Outcome.restarted (p := { url := url, .. }) ?_ ⟨_, hnew, rfl, rfl⟩ hch
      rcases hts with hts | ⟨p, hts⟩
      · exact .inl ⟨e, ha.1, rfl, hts⟩
      · exact .inr ⟨p, e, ha.1, rfl, hts⟩
  case authErr u e a ha h1 hurl =>
    obtain ⟨url, hu⟩ := authUrl_ok hl hr ha.2 inp
    exact absurd hu (hurl url)
  case refreshSched u e a t _ _ _ =>
    have ha : w.ls.Has e a := ‹_›
    have hts : e.ts = .active t := ‹_›
    have h1 := hreq.symm.trans ‹parseReq c.wire = .refresh _ _›
    cases c <;> simp only [Cmd.req, reduceCtorEq, Req.refresh.injEq] at h1
    obtain ⟨rfl, rfl⟩ := h1
    rw [hwritten _ _ rfl, run_scheduled]
    exact .scheduled ⟨e, ha.1, rfl, hts⟩ (refreshStarted_apply h0 ha)
  case revoke e a _ _ =>
    have ha : w.ls.Has e a := ‹_›
    have h1 := hreq.symm.trans ‹parseReq c.wire = .revoke _›
    cases c <;> simp only [Cmd.req, reduceCtorEq, Req.revoke.injEq] at h1
    subst h1
    rw [hwritten _ _ rfl, run_ok (.inr (.inr ⟨_, rfl⟩))]
    exact .revoked ⟨_, e, ha.1, rfl, rfl⟩ ⟨_, mem_put_new ha.1 rfl, rfl, rfl⟩ (onlyChanges_put h0.wf ha.1 _)
  case showPending u e a p _ _ _ =>
    have ha : w.ls.Has e a := ‹_›
    have hts : e.ts = .pending p := ‹_›
    have h1 := hreq.symm.trans ‹parseReq c.wire = .showtoken _ _›
    cases c <;> simp only [Cmd.req, reduceCtorEq, Req.showtoken.injEq] at h1
    obtain ⟨rfl, rfl⟩ := h1
    rw [hwritten _ _ rfl, run_pending (.inl rfl)]
    exact .pending ⟨e, ha.1, rfl, hts⟩ (unchanged_apply h0.tid0 rfl rfl)
  case showTok u e a t _ _ _ _ =>
    have ha : w.ls.Has e a := ‹_›
    have hts : e.ts = .active t := ‹_›
    have h1 := hreq.symm.trans ‹parseReq c.wire = .showtoken _ _›
    cases c <;> simp only [Cmd.req, reduceCtorEq, Req.showtoken.injEq] at h1
    obtain ⟨rfl, rfl⟩ := h1
    rw [hwritten _ _ rfl, run_token]
    exact .shown ⟨e, ha.1, rfl, hts⟩ ‹_› (unchanged_apply h0.tid0 rfl rfl)
  case showOngoing u e a t _ _ _ _ _ =>
    have ha : w.ls.Has e a := ‹_›
    have hts : e.ts = .active t := ‹_›
    have h1 := hreq.symm.trans ‹parseReq c.wire = .showtoken _ _›
    cases c <;> simp only [Cmd.req, reduceCtorEq, Req.showtoken.injEq] at h1
    obtain ⟨rfl, rfl⟩ := h1
    rw [hwritten _ _ rfl]
    refine (run_error (c := .show e.name _) rfl
      "Access token has expired. Refreshing is in progress but has not yet succeeded").symm ▸ ?_
    exact .refreshing ⟨e, ha.1, rfl, hts⟩ (by omega) ‹_› (unchanged_apply h0.tid0 rfl rfl)
  case showExpired u e a t _ _ _ _ _ =>
    have ha : w.ls.Has e a := ‹_›
    have hts : e.ts = .active t := ‹_›
    have h1 := hreq.symm.trans ‹parseReq c.wire = .showtoken _ _›
    cases c <;> simp only [Cmd.req, reduceCtorEq, Req.showtoken.injEq] at h1
    obtain ⟨rfl, rfl⟩ := h1
    rw [hwritten _ _ rfl]
    refine (run_error (c := .show e.name _) rfl "Access token has expired. Refreshing initiated").symm ▸ ?_
    exact .expired ⟨e, ha.1, rfl, hts⟩ (by omega) ‹_› (refreshStarted_apply h0 ha)
  case shutdown => cases hterm
  case status b _ _ =>
    have h1' : parseReq c.wire = .status := ‹_›
    have h1 := hreq.symm.trans h1'
    cases c <;> simp only [Cmd.req, reduceCtorEq] at h1
    rw [hwritten _ _ rfl]
    obtain ⟨_, h⟩ := status_lines hex h1' hth
    by_cases hnil : w.ls.config.accounts = []
    · rw [if_pos hnil] at h
      subst h
      refine (run_error (c := .status) rfl "No accounts configured").symm ▸ ?_
      exact .noAccounts hnil (unchanged_apply h0.tid0 rfl rfl)
    · rw [if_neg hnil] at h
      obtain ⟨lines, text, rfl, k2, k3, k4⟩ := h
      rw [run_status]
      exact .status hnil k2 k3 k4 (unchanged_apply h0.tid0 rfl rfl)
  case unknown x h1 => rw [hreq] at h1; cases c <;> simp only [Cmd.req, reduceCtorEq] at h1
  case invalid h1 => rw [hreq] at h1; cases c <;> simp only [Cmd.req, reduceCtorEq] at h1
  all_goals
    have h1 := hreq.symm.trans ‹parseReq c.wire = .restore _›
    cases c <;> simp only [Cmd.req, reduceCtorEq, Req.restore.injEq] at h1
    subst h1
  case restoreShort =>
    rw [hwritten _ _ rfl]
    refine (run_error (c := .restore _) rfl "Input too short").symm ▸ ?_
    exact .tooShort ‹_› (unchanged_apply h0.tid0 rfl rfl)
  case restoreBad =>
    rw [hwritten _ _ rfl]
    refine (run_error (c := .restore _) rfl "Restoring dump failed").symm ▸ ?_
    exact .undecipherable (Nat.le_of_not_lt ‹_›) ‹_› (unchanged_apply h0.tid0 rfl rfl)
  case restoreErr =>
    rw [hwritten _ _ rfl, run_ok (.inr (.inl ⟨_, rfl⟩))]
    rcases restore_exec hex (C47 _) with ⟨h, _⟩ | ⟨_, h, _⟩ | ⟨plain, h1, h2, _, ⟨_, _, h3⟩ | ⟨dmp, drain, h3, h4, h5, h6, h7⟩⟩
    · exact absurd h ‹_›
    · exact nomatch h.symm.trans ‹_ = some _›
    · exact .notRestored h1 h2 h3 (unchanged_apply h0.tid0 rfl rfl)
    · exact absurd (congrArg List.length h6) (by simp [World.apply])
  case restoreOk =>
    rw [hwritten _ _ rfl, run_ok (.inr (.inl ⟨_, rfl⟩))]
    rcases restore_exec hex (C47 _) with ⟨h, _⟩ | ⟨_, h, _⟩ | ⟨plain, h1, h2, _, ⟨_, h, _⟩ | ⟨dmp, drain, h3, h4, h5, h6, h7⟩⟩
    · exact absurd h ‹_›
    · exact nomatch h.symm.trans ‹_ = some _›
    · exact absurd (congrArg List.length h) (by simp [World.apply])
    · obtain ⟨k1, k2⟩ := C34_keeps hex (C47 _)
      refine .restored h1 h2 h3 h4 k1 k2 fun n ts hh => ?_
      by_cases hold : Holds w.ls n ts
      · exact .inl hold
      · obtain ⟨_, plain', dmp', tok, o, x, rt, t, _, g1, g2, _, g3, g4, g5, g6⟩ := C35_only hex (C47 _) hh hold
        rw [h2] at g1; cases g1
        rw [h3] at g2; cases g2
        exact .inr ⟨tok, o, x, rt, t, g3, g4, g5, g6⟩

end Pizauth
