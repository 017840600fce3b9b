import Verif.Spec.Path
import Verif.Spec.Url
import Verif.Proof.Revoke

/-!
# Where outstanding authorisations come from
-/

namespace Pizauth
open LockedState

variable {E : Env}

/-- The request `buf` (re)starts the authorisation of the entry `e`. -/
def Restarts (buf : Bytes) (u : Bool) (e : Entry) : Prop :=
  parseReq buf = .showtoken u e.name ∧ e.ts = .empty ∨
    parseReq buf = .refresh u e.name ∧ (e.ts = .empty ∨ ∃ p, e.ts = .pending p)

/-- An entry which holds a pending authorisation was there before, or is the result of a request. -/
theorem ExecR.pending_back {S : Static} {now : Instant} {wall : SysTime} {ls : LockedState} {tid : Nat} {op : Op}
    {inp : Input} {f : Eff} (hx : ExecR E S now wall ls tid op inp f) (h : ls.WF)
    (hinst : ∀ c, op = .install c → c.Ok E) {e' : Entry} {p' : PendingTok}
    (he' : e' ∈ f.ls.details) (hp : e'.ts = .pending p') :
    e' ∈ ls.details ∨ ∃ buf u e a url, op = .unix buf ∧ ls.Has e a ∧ e.name = e'.name ∧ Restarts buf u e ∧
      AuthUrl E S a inp url ∧ TokenState.pending p' = freshPending url inp ∧ f.ls = ls.put e.id (freshPending url inp) ∧
      f.next = [.wakeNotifier, .reply (pendingReply E u url)] := by
  have hput : ∀ (ls1 : LockedState) (id : Nat) (ts : TokenState), ls1.details = ls.details →
      (∀ p, ts ≠ .pending p) → e' ∈ (ls1.put id ts).details → e' ∈ ls.details := by
    intro ls1 id ts hd hts hm
    rcases mem_put.mp hm with ⟨hm1, _⟩ | ⟨e1, hm1, hid, rfl⟩
    · exact hd ▸ hm1
    · exact absurd hp (hts p')
  cases hx <;>
    first
    | exact .inl he'
    | (refine .inl (hput ls _ _ rfl ?_ he'); simp [freshActive]; done)
    | (refine .inl (hput ls.bump _ _ rfl ?_ he'); simp; done)
    | skip
  case auth u e a url ha hreq hurl =>
    rcases mem_put.mp he' with ⟨hm1, _⟩ | ⟨e1, hm1, hid, rfl⟩
    · exact .inl hm1
    · have := h.entry_id_inj hm1 ha.1 hid
      subst this
      exact .inr ⟨_, u, e1, a, url, rfl, ha, rfl, hreq, hurl, hp.symm, rfl, rfl⟩
  case restoreOk d plain ls' h1 h2 h3 h4 =>
    obtain ⟨d, _, _, hr⟩ := restore_ok h h4
    rcases hr.back e' he' with ⟨hm, _⟩ | ⟨_, e, he, hn, a, tok, o, x, rt, _, _, _, hts⟩
    · exact .inl hm
    · rw [hp] at hts; cases hts
  case install c ls' hu =>
    have hc := hinst c rfl
    obtain ⟨ls'', h1, h2, h3, h4, h5⟩ := h.updateConf hc.nodup hc.names
    rw [hu] at h1
    cases h1
    obtain ⟨a, _, ⟨o, ho, _⟩ | ⟨_, hts, _⟩⟩ := h5 e' he'
    · exact .inl ho.1
    · rw [hp] at hts; cases hts

/-- The same for steps. -/
theorem StepR.pending_back {w w' : World} {act : Action} (hw : Reach E w) (hs : StepR E w act w') {e' : Entry}
    {p' : PendingTok} (he' : e' ∈ w'.ls.details) (hp : e'.ts = .pending p') :
    e' ∈ w.ls.details ∨
    (∃ e ∈ w.ls.details, ∃ p, act = .notifier ∧ e.name = e'.name ∧ e.ts = .pending p ∧
      p' = { p with lastNotification := some w.now }) ∨
    ∃ inp buf u e a url, act = .run 0 inp ∧ w.threads 0 = [.unix buf, .close] ∧ w.ls.Has e a ∧ e.name = e'.name ∧
      Restarts buf u e ∧ AuthUrl E w.st a inp url ∧ TokenState.pending p' = freshPending url inp ∧
      w'.ls = w.ls.put e.id (freshPending url inp) ∧
      w'.threads 0 = [.wakeNotifier, .reply (pendingReply E u url), .close] := by
  have h0 := hw.inv0
  cases hs <;> try exact .inl he'
  case run tid inp op rest f ht hx =>
    have hop : op ∈ w.threads tid := by rw [ht]; simp
    rcases hx.pending_back h0.wf (by rintro c rfl; exact h0.inst tid c hop) he' hp with
      h1 | ⟨buf, u, e, a, url, rfl, h1, h2, h3, h4, h5, h6, h7⟩
    · exact .inl h1
    · obtain ⟨rfl, hth⟩ := (Reach.shape w hw).unix hop
      rw [ht] at hth
      cases hth
      exact .inr (.inr ⟨inp, buf, u, e, a, url, rfl, ht, h1, h2, h3, h4, h5, h6,
        by rw [apply_threads_self h0.tid0, h7]; rfl⟩)
  case notScan ls' hpc hn =>
    rcases hn.back e' he' with ⟨hm, _⟩ | ⟨e0, he0, p, hp0, hn0, hts, _⟩
    · exact .inl hm
    · refine .inr (.inl ⟨e0, he0, p, rfl, hn0.symm, (dueEntry_some.mp hp0).1, ?_⟩)
      rw [hp] at hts
      exact TokenState.pending.inj hts

/-- The authorisation request an account waits for was made from the account's configuration. -/
def PendMade (E : Env) (S : Static) (a : Account) (p : PendingTok) : Prop :=
  ∃ (rs : Vector UInt8 8) (rv : Vector UInt8 64) (redirect : Url),
    p.state = b64 rs.toList ∧ p.codeVerifier = b64 rv.toList ∧
    a.redirectUrl E S.httpPort S.httpsPort = .ok redirect ∧
    E.parseWithParams a.authUri (authParams a (codeChallenge E p.codeVerifier) (E.renderUrl redirect) p.state) = some p.url

theorem PendMade.sameSec {S : Static} {a a' : Account} {p : PendingTok} (hs : SameSec a a') (h : PendMade E S a p) :
    PendMade E S a' p := by
  obtain ⟨rs, rv, redirect, h1, h2, h3, h4⟩ := h
  rw [redirectUrl_sameSec hs] at h3
  rw [authParams_sameSec hs, hs.authUri] at h4
  exact ⟨rs, rv, redirect, h1, h2, h3, h4⟩

theorem pendMade_fresh {S : Static} {a : Account} {inp : Input} {url : Url} {p : PendingTok} (h : AuthUrl E S a inp url)
    (hp : TokenState.pending p = freshPending url inp) : PendMade E S a p := by
  unfold freshPending at hp
  cases hp
  obtain ⟨redirect, h1, h2⟩ := h
  exact ⟨inp.rndState, inp.rndVerifier, redirect, rfl, rfl, h1, h2⟩

/-- Every outstanding authorisation was made from the account's current configuration. -/
theorem Reach.pendMade : ∀ w, Reach E w → ∀ e a p, w.ls.Has e a → e.ts = .pending p → PendMade E w.st a p := by
  apply Reach.induct
  · intro w hi e a p he hp
    have := hi.ls
    have hd : e ∈ (LockedState.new w.ls.config).details := this ▸ he.1
    exfalso
    have key : ∀ (l : List (String × Account)) (c : Nat), ∀ e ∈ newDetails l c, e.ts = .empty := by
      intro l
      induction l with
      | nil => intro c e he; simp [newDetails] at he
      | cons x l ih =>
        intro c e he
        simp only [newDetails, List.mem_cons] at he
        rcases he with rfl | he
        · rfl
        · exact ih _ e he
    rw [key _ _ e hd] at hp; cases hp
  · intro w act w' hw h0 _ ih hs e' a' p' he' hp'
    rw [hs.st]
    have hcount : ∀ e a, w.ls.Has e a → e.id < w.ls.accountCount := fun e a h => h0.wf.lt e h.1
    rcases hs.pending_back hw he'.1 hp' with h1 | ⟨e, he, p, rfl, hn, hts, rfl⟩ |
      ⟨inp, buf, u, e, a, url, _, _, hea, hn, _, hurl, hfr, hls, _⟩
    · obtain ⟨a, ha, hsec⟩ := (hs.evolves h0).old he' (h0.wf.lt e' h1)
      exact (ih e' a p' ha hp').sameSec hsec
    · obtain ⟨a, ha⟩ := h0.wf.has he
      obtain ⟨rs, rv, redirect, k1, k2, k3, k4⟩ := ih e a p ha hts
      have haa : a = a' := by
        have hc : w'.ls.config = w.ls.config := by
          cases hs <;> first | rfl | (exact NotifyR.config ‹_›)
        have := he'.2
        rw [hc, ← hn, ha.2] at this
        exact Option.some.inj this
      subst haa
      exact ⟨rs, rv, redirect, k1, k2, k3, k4⟩
    · have haa : a = a' := by
        have := he'.2
        rw [hls, put_config, ← hn, hea.2] at this
        exact Option.some.inj this
      subst haa
      exact pendMade_fresh hurl hfr

end Pizauth
