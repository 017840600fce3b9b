import Verif.Proof.Events
import Verif.Proof.Refresh
import Verif.Proof.Shown
import Verif.Proof.TraceInv

/-!
# What events are due to, and how tokens are lost
-/

namespace Pizauth
open LockedState

variable {E : Env}

theorem DidStep.step {w w' : World} {i : Nat} {P : World → World → Prop} {a : Action} (h : DidStep E i w P)
    (hs : w.step E a = some w') : DidStep E i w' P := by
  obtain ⟨w1, w2, inp, h1, h2, h3, h4⟩ := h
  exact ⟨w1, w2, inp, h1, h2, .step a h3 hs, h4⟩

theorem EventCause.step {w w' : World} {i : Nat} {n : String} {e : TokenEvent} {a : Action}
    (h : EventCause E w i n e) (hs : w.step E a = some w') : EventCause E w' i n e := by
  cases e with
  | new => exact DidStep.step h hs
  | refresh => exact DidStep.step h hs
  | revoked => exact ⟨h.1, h.2.step hs⟩
  | invalidated => exact DidStep.step h hs

theorem holds_of_put {ls ls' : LockedState} {e : Entry} {n : String} {ts : TokenState} (he : e ∈ ls.details)
    (hn : e.name = n) (hf : ls' = ls.put e.id ts) : ∃ e' ∈ ls'.details, e'.name = n ∧ e'.ts = ts :=
  ⟨{ name := e.name, id := ls.accountCount, ts := ts }, hf ▸ mem_put_new he rfl, hn, rfl⟩

theorem ExecR.next_event {S : Static} {now : Instant} {wall : SysTime} {ls : LockedState} {tid : Nat} {op : Op}
    {inp : Input} {f : Eff} (hx : ExecR E S now wall ls tid op inp f) {n : String} {ev : TokenEvent}
    (h : .pushEvent n ev ∈ f.next ∨ .pushEvent n ev ∈ f.spawn) : .pushEvent n ev ∈ f.next ∧
    ((∃ buf e a, op = .unix buf ∧ ev = .revoked ∧ ls.Has e a ∧ e.name = n ∧ parseReq buf = .revoke n ∧
        f.ls = ls.put e.id .empty) ∨
     (∃ c b e a t, op = .exDone c b ∧ ev = .new ∧ ls.Has e a ∧ e.id = c.id ∧ a.name = n ∧ t.obtained = now ∧
        f.ls = ls.put e.id (.active t)) ∨
     (∃ id m e a t, op = .fail id m ∧ ls.Has e a ∧ e.id = id ∧ e.ts = .active t) ∨
     (∃ o h e a, op = o ∧ o.refreshHandle = some h ∧ ls.Has e a ∧ e.id = h ∧
        (∃ c, (o = .rfPerm c ∨ ∃ tok x rt t, o = .rfStore c tok x rt t) ∧ n = c.name) ∧
        ((ev = .invalidated ∧ f.ls = ls.put e.id .empty) ∨
         ∃ t, ev = .refresh ∧ f.ls = ls.put e.id (.active t) ∧ t.ongoing = false ∧ t.fails = 0 ∧ t.lastAttempt = none)) ∨
     (∃ id e a, op = .rfCmdErr id n ∧ ev = .invalidated ∧ ls.Has e a ∧ e.id = id ∧ f.ls = ls.put e.id .empty) ∨
     (∃ id, op = .rfCmdErr id n ∧ ev = .invalidated ∧ (∀ e ∈ ls.details, e.id ≠ id) ∧ f.ls = ls)) := by
  cases hx <;> simp at h
  case failOk ha hid =>
    split at h
    · rename_i t hts
      simp at h
      refine ⟨by simp [h], .inr (.inr (.inl ⟨_, _, _, _, _, rfl, ha, hid, hts⟩))⟩
    · simp at h
  case revoke ha hp =>
    obtain ⟨rfl, rfl⟩ := h
    exact ⟨by simp, .inl ⟨_, _, _, rfl, rfl, ha, rfl, hp, rfl⟩⟩
  case exDoneOk ha hid h1 h2 h3 h4 h5 =>
    obtain ⟨rfl, rfl⟩ := h
    exact ⟨by simp, .inr (.inl ⟨_, _, _, _, _, rfl, rfl, ha, hid, rfl, rfl, rfl⟩)⟩
  case rfPermOk ha hid =>
    obtain ⟨rfl, rfl⟩ := h
    exact ⟨by simp, .inr (.inr (.inr (.inl ⟨_, _, _, _, rfl, rfl, ha, hid, ⟨_, .inl rfl, rfl⟩, .inl ⟨rfl, rfl⟩⟩)))⟩
  case rfStoreNoExpiry ha hid hex =>
    obtain ⟨rfl, rfl⟩ := h
    exact ⟨by simp, .inr (.inr (.inr (.inl ⟨_, _, _, _, rfl, rfl, ha, hid, ⟨_, .inr ⟨_, _, _, _, rfl⟩, rfl⟩, .inl ⟨rfl, rfl⟩⟩)))⟩
  case rfStoreOk ha hid hex =>
    obtain ⟨rfl, rfl⟩ := h
    exact ⟨by simp, .inr (.inr (.inr (.inl ⟨_, _, _, _, rfl, rfl, ha, hid, ⟨_, .inr ⟨_, _, _, _, rfl⟩, rfl⟩,
      .inr ⟨_, rfl, rfl, rfl, rfl, rfl⟩⟩)))⟩
  case rfCmdErrStale hid =>
    obtain ⟨rfl, rfl⟩ := h
    exact ⟨by simp, .inr (.inr (.inr (.inr (.inr ⟨_, rfl, rfl, hid, rfl⟩))))⟩
  case rfCmdErrOk ha hid =>
    obtain ⟨rfl, rfl⟩ := h
    exact ⟨by simp, .inr (.inr (.inr (.inr (.inl ⟨_, _, _, rfl, rfl, ha, hid, rfl⟩))))⟩

/-- Every event queued or about to be queued has a cause. -/
theorem Reach.eventCause : ∀ w, Reach E w → ∀ i n ev,
    (.pushEvent n ev ∈ w.threads i ∨ ∃ t, (t, Obs.event i n ev) ∈ w.log) → EventCause E w i n ev := by
  intro w hr
  induction hr with
  | init hi =>
    rintro i n ev (h | ⟨t, h⟩)
    · rw [hi.threads] at h; cases h
    · rw [hi.log] at h; cases h
  | @step w w' a hr hs ih =>
    intro i n ev h
    have h0 := hr.inv0
    have hst := (stepR_of_step h0.wf hs).2
    have old : (.pushEvent n ev ∈ w.threads i ∨ ∃ t, (t, Obs.event i n ev) ∈ w.log) → EventCause E w' i n ev :=
      fun h => (ih i n ev h).step hs
    cases hst <;> try exact old h
    case connect buf hb =>
      rcases h with h | ⟨t, h⟩
      · simp only [setThread] at h
        split at h
        · simp at h
        · exact old (.inl h)
      · simp at h; exact old (.inr ⟨t, h⟩)
    case http buf sec hb =>
      rcases h with h | ⟨t, h⟩
      · simp only [setThread] at h
        split at h
        · simp at h
        · exact old (.inl h)
      · simp at h; exact old (.inr ⟨t, h⟩)
    case refScan es hp he =>
      rcases h with h | h
      · simp only at h
        rcases spawnAll_cases w.threads w.nextTid i (es.map fun e => .rfStart e.id) with
          ⟨_, h1⟩ | ⟨_, op, hop, h1⟩ | ⟨_, h1⟩
        · rw [h1] at h; exact old (.inl h)
        · rw [h1] at h
          simp only [List.mem_map] at hop
          obtain ⟨e, _, rfl⟩ := hop
          simp at h
        · rw [h1] at h; exact old (.inl h)
      · exact old (.inr h)
    case notScan ls' hp hn =>
      rcases h with h | ⟨t, h⟩
      · exact old (.inl h)
      · rcases List.mem_append.mp h with h | h
        · obtain ⟨_, _, _, h⟩ := authCmds_mem h
          simp at h
        · exact old (.inr ⟨t, h⟩)
    case evCmd =>
      rcases h with h | ⟨t, h⟩
      · exact old (.inl h)
      · simp at h; exact old (.inr ⟨t, h⟩)
    case evEnd =>
      rcases h with h | ⟨t, h⟩
      · exact old (.inl h)
      · simp at h; exact old (.inr ⟨t, h⟩)
    case run tid inp op rest f ht hx =>
      have hmem : op ∈ w.threads tid := by rw [ht]; simp
      have hop := Reach.opsInv w hr tid op hmem
      rcases h with h | ⟨t, h⟩
      · -- about to be queued
        have new : (.pushEvent n ev ∈ f.next ∨ .pushEvent n ev ∈ f.spawn) → i = tid →
            EventCause E (w.apply tid rest f) i n ev := by
          rintro hnew rfl
          have did : ∀ P : World → World → Prop, P w (w.apply i rest f) → DidStep E i (w.apply i rest f) P :=
            fun P hP => ⟨w, _, inp, hr, hs, .refl, hP⟩
          obtain ⟨_, hc⟩ := hx.next_event hnew
          rcases hc with ⟨buf, e, a, rfl, rfl, ha, hn, hp, hf⟩ | ⟨c, b, e, a, t, rfl, rfl, ha, hid, hn, hob, hf⟩ |
            ⟨id, m, e, a, t, rfl, ha, hid, hts⟩ | ⟨o, k, e, a, rfl, hoh, ha, hid, ⟨c, hoc, hcn⟩, hf⟩ |
            ⟨id, e, a, rfl, rfl, ha, hid, hf⟩ | ⟨id, rfl, rfl, hst, hf⟩
          · obtain ⟨rfl, hth⟩ := (Reach.shape w hr).unix hmem
            obtain ⟨t, hreq⟩ := hr.unix_request hmem
            exact ⟨rfl, did _ ⟨⟨t, buf, hreq, hp⟩, holds_of_put ha.1 hn hf⟩⟩
          · obtain ⟨p, _, _, hp, _⟩ := hop.2 e a ha hid
            have han : e.name = n := by rw [← hn]; exact (h0.wf.get?_name ha.2).symm
            exact did _ ⟨⟨p, e, ha.1, han, hp⟩, t, holds_of_put ha.1 han hf, hob⟩
          · obtain ⟨p, hp⟩ := hop.2 e a ha hid
            rw [hts] at hp; cases hp
          · have hth := ((Reach.shape w hr).refreshing hmem hoh).2
            have hro : ∃ t, e.ts = .active t ∧ n = a.name := by
              rcases hoc with rfl | ⟨_, _, _, _, rfl⟩ <;>
              · cases hoh
                obtain ⟨t, h1, _, _, _, _, h6⟩ := hop.2 e a ha hid
                exact ⟨t, h1, by rw [hcn, h6]⟩
            obtain ⟨t, hts, hna⟩ := hro
            have han : e.name = n := by rw [hna]; exact (h0.wf.get?_name ha.2).symm
            have hra : RefreshingAccount w i n := han ▸ refreshing_of hth (by rw [hoh, hid]) ha.1
            rcases hf with ⟨rfl, hf⟩ | ⟨t', rfl, hf, h1, h2, h3⟩
            · exact did _ (.inl ⟨hra, ⟨t, e, ha.1, han, hts⟩, holds_of_put ha.1 han hf⟩)
            · exact did _ ⟨hra, ⟨t, e, ha.1, han, hts⟩, t', holds_of_put ha.1 han hf, h1, h2, h3⟩
          · have hth := ((Reach.shape w hr).refreshing hmem rfl).2
            obtain ⟨t, hts, _, hna⟩ := hop.2 e a ha hid
            have han : e.name = n := by rw [hna n rfl]; exact (h0.wf.get?_name ha.2).symm
            exact did _ (.inl ⟨han ▸ refreshing_of hth (by rw [hid]; rfl) ha.1, ⟨t, e, ha.1, han, hts⟩, holds_of_put ha.1 han hf⟩)
          · obtain ⟨hi0, hth⟩ := (Reach.shape w hr).refreshing hmem rfl
            refine did _ (.inr ⟨handleLost_of hth rfl hst, hf, ?_⟩)
            rcases hr.trace hi0 with ⟨hle, _⟩ | htr
            · rw [h0.tids i hle] at hth; cases hth
            · rw [hth] at htr
              generalize threadLog i w.log = l at htr ⊢
              cases htr with
              | core hc => cases hc; exact ⟨⟨_, .tail _ (.head _)⟩, .head _⟩
              | tail _ _ h3 h4 => exact absurd (h3 _ (h4.mem _ (.head _))) (by simp [Op.isPlain])
        rcases mem_apply_threads h with ⟨rfl, h | h⟩ | ⟨_, h, _⟩ | ⟨_, h, _⟩
        · exact new (.inl h) rfl
        · exact old (.inl (by rw [ht]; exact List.mem_cons_of_mem _ h))
        · exfalso
          have := hx
          cases hx <;> simp at h
        · exact old (.inl h)
      · rcases List.mem_append.mp h with h | h
        · have ho := run_log_mem h
          have hn : op = .pushEvent n ev ∧ i = tid := by
            cases hx <;> simp at ho
            exact ⟨by rw [ho.2.1, ho.2.2], ho.1⟩
          obtain ⟨rfl, rfl⟩ := hn
          exact old (.inl hmem)
        · exact old (.inr ⟨t, h⟩)

section
variable {S : Static} {now : Instant} {wall : SysTime} {ls : LockedState} {tid : Nat}
  {op : Op} {inp : Input} {f : Eff}

/-- How an operation can take away a token. -/
theorem ExecR.lost (hx : ExecR E S now wall ls tid op inp f) (h : ls.WF) (hop : OpInv E S ls op)
    {n : String} {t : ActiveTok} (ht : HoldsToken ls n t)
    (hl : ∀ t', ¬ HoldsToken f.ls n t') :
    (∃ buf, op = .unix buf ∧ parseReq buf = .revoke n ∧ .pushEvent n .revoked ∈ f.next ∧ HoldsNothing f.ls n) ∨
    (∃ c, op = .install c) ∨
    (∃ e ∈ ls.details, e.name = n ∧ op.refreshHandle = some e.id ∧ .pushEvent n .invalidated ∈ f.next ∧
      HoldsNothing f.ls n) ∨
    (∃ e ∈ ls.details, e.name = n ∧ op = .rfStart e.id ∧ t.refreshToken = none ∧ t.ongoing = false ∧ f.next = [] ∧
      f.obs = [] ∧ HoldsNothing f.ls n) := by
  obtain ⟨e0, he0, hn0, hts0⟩ := ht
  have same : f.ls = ls → False := fun hf => hl t ⟨e0, hf ▸ he0, hn0, hts0⟩
  -- the token of another account stays
  have put : ∀ (ls1 : LockedState) (e : Entry) (ts : TokenState), ls1.details = ls.details → f.ls = ls1.put e.id ts →
      e ∈ ls.details → e = e0 := by
    intro ls1 e ts hd hf he
    by_cases hid : e0.id = e.id
    · exact h.entry_id_inj he he0 hid.symm
    · exact (hl t ⟨e0, by rw [hf]; exact mem_put.mpr (.inl ⟨hd ▸ he0, hid⟩), hn0, hts0⟩).elim
  have gone : ∀ (ls1 : LockedState), ls1.details = ls.details → f.ls = ls1.put e0.id .empty → HoldsNothing f.ls n :=
    fun ls1 hd hf => holds_of_put (hd ▸ he0) hn0 hf
  have act : ∀ (ls1 : LockedState) (e : Entry) (t' : ActiveTok), ls1.details = ls.details →
      f.ls = ls1.put e.id (.active t') → e ∈ ls.details → False := by
    intro ls1 e t' hd hf he
    have := put ls1 e _ hd hf he
    subst this
    exact hl t' (holds_of_put (hd ▸ he) hn0 hf)
  cases hx <;> first | exact (same rfl).elim | skip
  case auth ha hq hu =>
    have := put ls _ _ rfl rfl ha.1
    subst this
    rcases hq with ⟨_, h⟩ | ⟨_, h | ⟨_, h⟩⟩ <;> rw [hts0] at h <;> cases h
  case restoreOk d plain ls' h1 h2 h3 h4 =>
    obtain ⟨d, _, _, hr⟩ := restore_ok h h4
    refine (hl t ⟨e0, hr.keep e0 he0 (fun ts hres => ?_), hn0, hts0⟩).elim
    obtain ⟨_, _, _, _, _, _, h5, _⟩ := hres
    exact h5 t hts0
  case install c ls' hu => exact .inr (.inl ⟨_, rfl⟩)
  case revoke ha hp =>
    have := put ls _ _ rfl rfl ha.1
    subst this
    exact .inl ⟨_, rfl, hn0 ▸ hp, by simp [hn0], gone ls rfl rfl⟩
  case httpError h1 h2 ha hp h3 h4 h5 h6 =>
    have := put ls _ _ rfl rfl ha.1
    subst this
    rw [hts0] at hp; cases hp
  case exDoneOk ha hid h1 h2 h3 h4 h5 => exact (act ls _ _ rfl rfl ha.1).elim
  case failOk ha hid =>
    have := put ls _ _ rfl rfl ha.1
    subst this
    obtain ⟨p, hp⟩ := hop.2 _ _ ha hid
    rw [hts0] at hp; cases hp
  case rfStartOk ha hid hts' hon' hrt => exact (act ls.bump _ _ rfl rfl ha.1).elim
  case rfStartNoRt ha hid hts' hon' hrt =>
    have := put ls.bump _ _ rfl rfl ha.1
    subst this
    rw [hts0] at hts'
    cases hts'
    exact .inr (.inr (.inr ⟨_, he0, hn0, by rw [hid], hrt, hon', rfl, rfl, gone ls.bump rfl rfl⟩))
  case rfPermOk ha hid =>
    have := put ls _ _ rfl rfl ha.1
    subst this
    obtain ⟨_, _, _, _, _, _, h6⟩ := hop.2 _ _ ha hid
    have hcn := h6.trans ((h.get?_name ha.2).trans hn0)
    exact .inr (.inr (.inl ⟨_, he0, hn0, congrArg some hid.symm, by simp [hcn], gone ls rfl rfl⟩))
  case rfStoreNoExpiry ha hid hex =>
    have := put ls _ _ rfl rfl ha.1
    subst this
    obtain ⟨_, _, _, _, _, _, h6⟩ := hop.2 _ _ ha hid
    have hcn := h6.trans ((h.get?_name ha.2).trans hn0)
    exact .inr (.inr (.inl ⟨_, he0, hn0, congrArg some hid.symm, by simp [hcn], gone ls rfl rfl⟩))
  case rfStoreOk ha hid hex => exact (act ls _ _ rfl rfl ha.1).elim
  case rfTransientCmd ha h1 h2 h3 h4 => exact (act ls _ _ rfl rfl ha.1).elim
  case rfTransientKeep ha h1 h2 h3 => exact (act ls.bump _ _ rfl rfl ha.1).elim
  case rfCmdOkOk ha h1 h2 => exact (act ls _ _ rfl rfl ha.1).elim
  case rfCmdErrOk ha hid =>
    have := put ls _ _ rfl rfl ha.1
    subst this
    obtain ⟨_, _, _, h6⟩ := hop.2 _ _ ha hid
    have hcn := (h6 _ rfl).trans ((h.get?_name ha.2).trans hn0)
    exact .inr (.inr (.inl ⟨_, he0, hn0, congrArg some hid.symm, by simp [hcn], gone ls rfl rfl⟩))

/-- How an operation can give an account a token: the same token as before, one from a code exchange, one from a
refresh, or a restored one. -/
theorem ExecR.gained (hx : ExecR E S now wall ls tid op inp f) (h : ls.WF) (hop : OpInv E S ls op)
    (hinst : ∀ c, op = .install c → c.Ok E) {n : String} {t : ActiveTok} (ht : HoldsToken f.ls n t) :
    (∃ t', HoldsToken ls n t' ∧ t'.info = t.info) ∨
    ((∃ p, HoldsPending ls n p) ∧ .pushEvent n .new ∈ f.next) ∨
    ((∃ t', HoldsToken ls n t') ∧ .pushEvent n .refresh ∈ f.next) ∨
    ((∀ t', ¬ HoldsToken ls n t') ∧ ∃ plain, f.obs = [.restored plain]) := by
  obtain ⟨e', he', hn, hts⟩ := ht
  have same : ∀ e ∈ ls.details, e.name = n → ∀ t', e.ts = .active t' → t'.info = t.info →
      ∃ t', HoldsToken ls n t' ∧ t'.info = t.info := fun e he hne t' ht' hi => ⟨t', ⟨e, he, hne, ht'⟩, hi⟩
  have put : ∀ (ls1 : LockedState) (e0 : Entry) (a0 : Account) (ts : TokenState), ls1.details = ls.details →
      ls.Has e0 a0 → e' ∈ (ls1.put e0.id ts).details →
      (∃ t', HoldsToken ls n t' ∧ t'.info = t.info) ∨ (e0.name = n ∧ ts = .active t) := by
    intro ls1 e0 a0 ts hd hh hm
    rcases mem_put.mp hm with ⟨hm1, _⟩ | ⟨e1, hm1, hid, rfl⟩
    · exact .inl (same e' (hd ▸ hm1) hn t hts rfl)
    · rw [hd] at hm1
      have := h.entry_id_inj hm1 hh.1 hid
      subst this
      exact .inr ⟨hn, hts⟩
  cases hx <;> try exact .inl (same e' he' hn t hts rfl)
  case auth ha _ _ =>
    rcases put ls _ _ _ rfl ha he' with h | ⟨_, h⟩
    · exact .inl h
    · cases h
  case restoreOk buf d plain ls' h1 h2 h3 h4 =>
    obtain ⟨d, _, _, hr⟩ := restore_ok h h4
    rcases hr.back e' he' with ⟨hm, _⟩ | ⟨_, e, he, hne, _, _, _, _, _, _, hna, _⟩
    · exact .inl (same e' hm hn t hts rfl)
    · refine .inr (.inr (.inr ⟨?_, _, rfl⟩))
      rintro t' ⟨e1, he1, hn1, hts1⟩
      have := h.entry_name_inj he1 he (hn1.trans (hne.trans hn).symm)
      subst this
      exact hna t' hts1
  case revoke ha _ =>
    rcases put ls _ _ _ rfl ha he' with h | ⟨_, h⟩
    · exact .inl h
    · cases h
  case install c ls' hu =>
    have hc := hinst c rfl
    obtain ⟨ls'', h1, h2, h3, h4, h5⟩ := h.updateConf hc.nodup hc.names
    rw [hu] at h1
    cases h1
    obtain ⟨a, _, ⟨o, ho, _⟩ | ⟨_, hts', _⟩⟩ := h5 e' he'
    · exact .inl (same e' ho.1 hn t hts rfl)
    · rw [hts] at hts'; cases hts'
  case httpError ha _ _ _ _ _ =>
    rcases put ls _ _ _ rfl ha he' with h | ⟨_, h⟩
    · exact .inl h
    · cases h
  case exDoneOk c b e0 a0 x tok expiry ha hid h1 h2 h3 h4 h5 =>
    rcases put ls _ _ _ rfl ha he' with h | ⟨hn0, _⟩
    · exact .inl h
    · obtain ⟨p, _, _, hp, _⟩ := hop.2 _ _ ha hid
      have hcn := (h.get?_name ha.2).trans hn0
      exact .inr (.inl ⟨⟨p, e0, ha.1, hn0, hp⟩, by simp [hcn]⟩)
  case failOk ha hid =>
    rcases put ls _ _ _ rfl ha he' with h | ⟨_, h⟩
    · exact .inl h
    · cases h
  case rfStartOk ha hid hts1 hon hrt =>
    rcases put ls.bump _ _ _ rfl ha he' with h | ⟨hn0, hts0⟩
    · exact .inl h
    · simp only [TokenState.active.injEq] at hts0
      subst hts0
      exact .inl (same _ ha.1 hn0 _ hts1 rfl)
  case rfStartNoRt ha hid hts hon hrt =>
    rcases put ls.bump _ _ _ rfl ha he' with h | ⟨_, h⟩
    · exact .inl h
    · cases h
  case rfPermOk ha hid =>
    rcases put ls _ _ _ rfl ha he' with h | ⟨_, h⟩
    · exact .inl h
    · cases h
  case rfStoreNoExpiry ha hid hex =>
    rcases put ls _ _ _ rfl ha he' with h | ⟨_, h⟩
    · exact .inl h
    · cases h
  case rfStoreOk c tok x rt t0 e0 a0 expiry ha hid hex =>
    rcases put ls _ _ _ rfl ha he' with h | ⟨hn0, _⟩
    · exact .inl h
    · obtain ⟨t1, hts1, _, _, _, _, h6⟩ := hop.2 _ _ ha hid
      have hcn := h6.trans ((h.get?_name ha.2).trans hn0)
      exact .inr (.inr (.inl ⟨⟨t1, e0, ha.1, hn0, hts1⟩, by simp [hcn]⟩))
  case rfTransientCmd ha hid hts1 hm hc =>
    rcases put ls _ _ _ rfl ha he' with h | ⟨hn0, hts0⟩
    · exact .inl h
    · simp only [TokenState.active.injEq] at hts0
      subst hts0
      exact .inl (same _ ha.1 hn0 _ hts1 rfl)
  case rfTransientKeep ha hid hts1 hm =>
    rcases put ls.bump _ _ _ rfl ha he' with h | ⟨hn0, hts0⟩
    · exact .inl h
    · simp only [TokenState.active.injEq] at hts0
      subst hts0
      exact .inl (same _ ha.1 hn0 _ hts1 rfl)
  case rfCmdOkOk ha hid hts1 =>
    rcases put ls _ _ _ rfl ha he' with h | ⟨hn0, hts0⟩
    · exact .inl h
    · simp only [TokenState.active.injEq] at hts0
      subst hts0
      exact .inl (same _ ha.1 hn0 _ hts1 rfl)
  case rfCmdErrOk ha hid =>
    rcases put ls _ _ _ rfl ha he' with h | ⟨_, h⟩
    · exact .inl h
    · cases h

end

end Pizauth
