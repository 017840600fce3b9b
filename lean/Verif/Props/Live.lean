import Verif.Proof.FairRun
import Verif.Props.Schedule
import Verif.Props.Notify

/-!
# C58-C62: what must happen eventually
-/

namespace Pizauth
open LockedState

variable {E : Env} {r : Run E}

/-- **C58.** Every thread which serves a client, exchanges a code or refreshes a token ends. -/
theorem C58_threads (hf : r.Fair) (k i : Nat) : ∃ m, k ≤ m ∧ (r.world m).threads i = [] := hf.thread_ends k i

theorem MainShape.close_mem {l : List Op} (h : MainShape l) (hne : l ≠ []) : .close ∈ l := by
  cases h with
  | idle => exact absurd rfl hne
  | start => simp
  | inst => simp
  | rest => simp

/-- **C58.** Every connection to the Unix socket is eventually closed, and then the next client is served. -/
theorem C58_closed (hf : r.Fair) {k : Nat} {buf : Bytes} (h : r.action k = some (.connect buf)) :
    ∃ m, k < m ∧ (r.world (m + 1)).log = ((r.world m).now, .closed) :: (r.world m).log ∧
      (r.world (m + 1)).threads 0 = [] := by
  have hmem : .close ∈ (r.world (k + 1)).threads 0 := by
    rcases r.stepR k with ⟨h', _⟩ | ⟨a, h', _, hs⟩
    · rw [h] at h'; cases h'
    · rw [h] at h'
      cases h'
      generalize r.world (k + 1) = w' at hs
      cases hs
      simp [setThread]
  obtain ⟨m, inp, rest, hm, ha, ht⟩ := hf.performed hmem
  obtain ⟨op, rest', f, ht', hx, hw⟩ := hf.own ha
  rw [ht] at ht'
  cases ht'
  refine ⟨m, hm, ?_, ?_⟩
  · rw [hw]; cases hx; simp [World.apply]
  · rw [hw, apply_threads_self (r.reach m).inv0.tid0]
    cases hx
    have hsh := (Reach.shape _ (r.reach m)).main
    rw [ht] at hsh
    generalize hl : Op.close :: rest = l at hsh
    cases hsh with
    | idle => cases hl
    | start => cases hl
    | inst => cases hl
    | @rest ops hops =>
      cases ops with
      | nil => simp at hl; exact hl
      | cons o ops =>
        simp at hl
        have := hops o (by simp)
        rw [← hl.1] at this
        simp [Op.isTail, Op.isReply] at this

/-- **C60.** No account is marked as being refreshed forever: every refresh comes to an end. -/
theorem C60 (hf : r.Fair) (k : Nat) (n : String) : ∃ m, k ≤ m ∧ ¬ Marked (r.world m).ls n := by
  by_cases hex : ∃ m, k ≤ m ∧ ¬ Marked (r.world m).ls n
  · exact hex
  exfalso
  have hall : ∀ m, k ≤ m → Marked (r.world m).ls n := fun m hm => Classical.not_not.mp fun hc => hex ⟨m, hm, hc⟩
  obtain ⟨e, he, t, hn, hts, hon⟩ := hall k (Nat.le_refl _)
  obtain ⟨i, hi⟩ := (Reach.refInv _ (r.reach k)).marked e he t hts hon
  have hkeep : ∀ m, k ≤ m → RefreshingAccount (r.world m) i n := by
    refine Run.keep (P := fun m => RefreshingAccount (r.world m) i n) ⟨e, he, hn, hi⟩ fun m hm h => ?_
    rcases r.stepR m with ⟨_, h'⟩ | ⟨a, _, _, hs⟩
    · rw [h']; exact h
    · exact hs.refreshingAccount (r.reach m) h (hall m hm) (hall (m + 1) (by omega))
  obtain ⟨m, hm, hend⟩ := hf.thread_ends k i
  obtain ⟨_, _, _, o, ho, _⟩ := hkeep m hm
  rw [hend] at ho
  cases ho

theorem normalDue_le (c : Config) (a : Account) (t : ActiveTok) (now : Instant) : normalDue c a t now ≤ t.expiry := by
  unfold normalDue
  simp only
  split <;> split <;> omega

/-- **C59.** A token which is not being refreshed is eventually refreshed (its refresh token is sent to the account's
token server), unless the account loses it - whatever the clients do, and however often the configuration is reloaded, as
long as `refresh_retry` is not raised again and again. -/
theorem C59 (hf : r.Fair) {k : Nat} {n : String} {t : ActiveTok} {R : Dur} (h : HoldsToken (r.world k).ls n t)
    (hon : t.ongoing = false)
    (hR : ∀ m, k ≤ m → ∀ a, (r.world m).ls.config.get? n = some a → retrySetting (r.world m).ls.config a ≤ R) :
    ∃ m, k ≤ m ∧ ((∀ t', ¬ HoldsToken (r.world m).ls n t') ∨
      ∃ i j a rt form, k ≤ j ∧ j ≤ m ∧ (r.world j).ls.config.get? n = some a ∧ t.refreshToken = some rt ∧
        ("refresh_token", rt) ∈ form ∧
        (r.world (m + 1)).log = ((r.world m).now, .post i a.tokenUri form) :: (r.world m).log) := by
  obtain ⟨e, he, hn, hts⟩ := h
  subst hn
  by_cases hex : ∃ m, k ≤ m ∧ e ∉ (r.world m).ls.details
  · -- the first moment at which this token is not there any more
    obtain ⟨m, hm, hne, hfirst⟩ := Run.first hex
    have hkm : m ≠ k := by rintro rfl; exact hne he
    obtain ⟨j, rfl⟩ : ∃ j, m = j + 1 := ⟨m - 1, by omega⟩
    have hej : e ∈ (r.world j).ls.details := Classical.not_not.mp (hfirst j (by omega) (by omega))
    by_cases hgone : ∀ t', ¬ HoldsToken (r.world (j + 1)).ls e.name t'
    · exact ⟨j + 1, hm, .inl hgone⟩
    · obtain ⟨t', e', he', hn', hts'⟩ : ∃ t', HoldsToken (r.world (j + 1)).ls e.name t' := by
        refine Classical.byContradiction fun hc => hgone fun t' ht' => hc ⟨t', ht'⟩
      rcases r.stepR j with ⟨_, h'⟩ | ⟨a, _, _, hs⟩
      · rw [h'] at hne; exact absurd hej hne
      · cases hon' : t'.ongoing with
        | false =>
          have := hs.unmarked_stays (r.reach j) hej hts hon he' hts' hon' hn'
          subst this
          exact absurd he' hne
        | true =>
          obtain ⟨i, c, act, rt, hc, hrt, hact, hu, hform⟩ := hs.marked_now (r.reach j) ⟨e, hej, rfl, hts⟩ hon
            ⟨e', he', t', hn', hts', hon'⟩
          obtain ⟨m, inp, rest, hm', ha, ht⟩ := hf.performed hc
          obtain ⟨op, rest', f, ht', hx, hw⟩ := hf.own ha
          rw [ht] at ht'
          cases ht'
          refine ⟨m, by omega, .inr ⟨i, j, act, rt, c.form, by omega, by omega, hact, hrt, ?_, ?_⟩⟩
          · rw [hform]; simp [refreshForm]
          · rw [hw, ← hu]; cases hx; simp [World.apply]
  · -- it stays forever: impossible
    exfalso
    have hall : ∀ m, k ≤ m → e ∈ (r.world m).ls.details := fun m hm => Classical.not_not.mp fun hc => hex ⟨m, hm, hc⟩
    obtain ⟨D, hD⟩ : ∃ D : Instant, ∀ m, k ≤ m → ∃ d, d ≤ D ∧ RefreshAt (r.world m).ls (r.world m).now e.name d := by
      refine ⟨max t.expiry (t.lastAttempt.getD 0 + (R : Int)), fun m hm => ?_⟩
      obtain ⟨a, ha⟩ := (r.reach m).inv0.wf.has (hall m hm)
      refine ⟨_, ?_, t, a, ⟨e, hall m hm, rfl, hts⟩, hon, ha.2, rfl⟩
      have h1 := normalDue_le (r.world m).ls.config a t (r.world m).now
      have h2 := hR m hm a ha.2
      unfold dueTime
      cases hl : t.lastAttempt with
      | none => simp only [Option.getD]; omega
      | some l => simp only [Option.getD]; split <;> omega
    obtain ⟨k', hk', hlate⟩ := hf.later k D
    obtain ⟨m, hm, ha, hpc⟩ := hf.ref_scans (n := k') fun m hm => by
      obtain ⟨d, _, hd⟩ := hD m (by omega)
      exact ⟨_, d, hd⟩
    obtain ⟨d, hd1, hd2⟩ := hD m (by omega)
    have hnow := hlate m hm
    obtain ⟨w', hw', i, e1, he1, hn1, hi⟩ := started_scan (r.reach m) (hf.alive m) hd2 (by omega) hpc
    have hst : (r.world m).step E .refresher = some (r.world (m + 1)) := by
      have := r.next m; rw [ha] at this; exact this
    simp only [World.run, hst, Option.some.injEq] at hw'
    subst hw'
    have : e1 = e := (r.reach (m + 1)).inv0.wf.entry_name_inj he1 (hall (m + 1) (by omega)) hn1
    subst this
    obtain ⟨m2, inp, rest, hm2, ha2, ht2⟩ := hf.performed (i := i) (n := m + 1) (o := .rfStart e1.id) (by rw [hi]; simp)
    obtain ⟨op, rest', f, ht', hx, hw⟩ := hf.own ha2
    rw [ht2] at ht'
    cases ht'
    have hin := hall m2 (by omega)
    have hwf := (r.reach m2).inv0.wf
    have hout : e1 ∈ f.ls.details := by
      have := hall (m2 + 1) (by omega)
      rw [hw] at this; exact this
    cases hx with
    | rfStartStale h => exact h e1 hin rfl
    | rfStartNot ha hid h =>
      have := hwf.entry_id_inj ha.1 hin hid
      subst this
      rcases h with h | ⟨_, h⟩ | ⟨_, h, h'⟩ <;> rw [hts] at h <;> cases h
      rw [hon] at h'; cases h'
    | rfStartOk ha hid h1 h2 h3 =>
      rcases mem_put.mp hout with ⟨_, h⟩ | ⟨e2, _, _, h⟩
      · exact h hid.symm
      · have h4 := hwf.lt e1 hin
        have h5 := congrArg Entry.id h
        simp only [LockedState.bump] at h5
        omega
    | rfStartNoRt ha hid h1 h2 h3 =>
      rcases mem_put.mp hout with ⟨_, h⟩ | ⟨e2, _, _, h⟩
      · exact h hid.symm
      · have h4 := hwf.lt e1 hin
        have h5 := congrArg Entry.id h
        simp only [LockedState.bump] at h5
        omega

/-- **C61.** The user is eventually told (again) of an outstanding authorisation, unless it is not outstanding any more, as
long as `auth_notify_cmd` is set and `auth_notify_interval` stays the same. -/
theorem C61 (hf : r.Fair) {k : Nat} {n : String} {p : PendingTok} {I : Dur} (h : HoldsPending (r.world k).ls n p)
    (hc : ∀ m, k ≤ m → (r.world m).ls.config.authNotifyCmd.isSome = true ∧ (r.world m).ls.config.authNotifyInterval = I)
    (hI : ∀ l, p.lastNotification = some l → l + (I : Int) ≤ timeMax) :
    ∃ m, k ≤ m ∧ ((∀ p', HoldsPending (r.world m).ls n p' → p'.url ≠ p.url) ∨
      ∃ cmd l, (r.world (m + 1)).log = l ++ (r.world m).log ∧
        ((r.world m).now, .authCmd cmd n (E.renderUrl p.url)) ∈ l) := by
  refine Classical.byContradiction fun hno => ?_
  have hpend : ∀ m, k ≤ m → ∃ p', HoldsPending (r.world m).ls n p' ∧ p'.url = p.url := by
    intro m hm
    refine Classical.byContradiction fun hc => hno ⟨m, hm, .inl fun p' h1 h2 => hc ⟨p', h1, h2⟩⟩
  have hscan : ∀ m, k ≤ m → r.action m = some .notifier → (r.world m).notPc = .scan →
      ∀ p', HoldsPending (r.world m).ls n p' → p'.url = p.url →
        notifyDue (r.world m).ls.config.authNotifyInterval (r.world m).now p' = false := by
    intro m hm ha hpc p' hp' hu
    cases hd : notifyDue (r.world m).ls.config.authNotifyInterval (r.world m).now p' with
    | false => rfl
    | true =>
      exfalso
      obtain ⟨cmd, hcmd⟩ := Option.isSome_iff_exists.mp (hc m hm).1
      have hst : (r.world m).step E .notifier = some (r.world (m + 1)) := by
        have := r.next m; rw [ha] at this; exact this
      obtain ⟨l, h1, h2⟩ := (C28_scan_partial (n := n) (url := E.renderUrl p.url) (r.reach m) hpc hst hcmd).mpr
        ⟨p', hp', by rw [hu], notifyDue_iff.mp hd⟩
      exact hno ⟨m, hm, .inr ⟨cmd, l, h1, h2⟩⟩
  have hinv : ∀ m, k ≤ m → ∃ p', HoldsPending (r.world m).ls n p' ∧ p'.url = p.url ∧
      (p'.lastNotification = none ∨ p'.lastNotification = p.lastNotification) := by
    refine Run.keep (P := fun m => ∃ p', HoldsPending (r.world m).ls n p' ∧ p'.url = p.url ∧
      (p'.lastNotification = none ∨ p'.lastNotification = p.lastNotification)) ⟨p, h, rfl, .inr rfl⟩ ?_
    rintro m hm ⟨p1, hp1, hu1, hl1⟩
    obtain ⟨p2, hp2, hu2⟩ := hpend (m + 1) (by omega)
    rcases r.stepR m with ⟨_, h'⟩ | ⟨a, ha, _, hs⟩
    · rw [h']; exact ⟨p1, hp1, hu1, hl1⟩
    · rcases hs.waiting_stays (r.reach m) hp1 hp2 with rfl | h | ⟨rfl, hpc, hd⟩
      · exact ⟨p2, hp2, hu2, hl1⟩
      · exact ⟨p2, hp2, hu2, .inl h⟩
      · rw [hscan m hm ha hpc p1 hp1 hu1] at hd; cases hd
  obtain ⟨k', hk', hlate⟩ := hf.later k (p.lastNotification.getD 0 + (I : Int))
  obtain ⟨m, hm, ha, hpc⟩ := hf.not_scans (n := k') fun m hm => by
    obtain ⟨p', hp', hu, hl⟩ := hinv m (by omega)
    cases hl' : p'.lastNotification with
    | none => exact ⟨n, _, p', hp', .inl ⟨hl', rfl⟩⟩
    | some l =>
      rw [hl'] at hl
      rcases hl with hl | hl
      · cases hl
      · exact ⟨n, _, p', hp', .inr ⟨l, hl', rfl, by rw [(hc m (by omega)).2]; exact hI l hl.symm⟩⟩
  obtain ⟨p', hp', hu, hl⟩ := hinv m (by omega)
  have hd := hscan m (by omega) ha hpc p' hp' hu
  have : notifyDue (r.world m).ls.config.authNotifyInterval (r.world m).now p' = true := by
    refine notifyDue_iff.mpr fun l hl' => ?_
    rw [hl'] at hl
    rcases hl with hl | hl
    · cases hl
    · left
      have := hlate m hm
      rw [← hl] at this
      rw [(hc m (by omega)).2]
      simp only [Option.getD] at this
      omega
  rw [this] at hd; cases hd

/-- **C62.** As long as there is a `token_event_cmd`, it is eventually run for every event which is queued. -/
theorem C62 (hf : r.Fair) {k : Nat} (hst : NotStranded (r.world k))
    (hset : ∀ m, k ≤ m → (r.world m).ls.config.tokenEventCmd.isSome = true) :
    ∃ m x, k ≤ m ∧ executedEvents (r.world m).log = executedEvents (r.world k).log ++ openEvents (r.world k) ++ x := by
  suffices ∀ j, ∃ m x, k ≤ m ∧ Run.EvRel (r.world k) (r.world m) x ∧
      (j ≤ x.length ∨ (openEvents (r.world k)).length ≤ x.length) by
    obtain ⟨m, x, hm, ⟨h1, q, h2⟩, h3⟩ := this (openEvents (r.world k)).length
    have h4 : (openEvents (r.world k)).length ≤ x.length := h3.elim id id
    obtain ⟨y, hy⟩ := List.prefix_of_prefix_length_le (List.prefix_append (openEvents (r.world k)) q)
      (h2 ▸ List.prefix_append x (openEvents (r.world m))) h4
    exact ⟨m, y, hm, by rw [h1, ← hy, List.append_assoc]⟩
  have hall := r.notStranded hst hset
  intro j
  induction j with
  | zero => exact ⟨k, [], Nat.le_refl _, ⟨by simp, [], by simp⟩, .inl (Nat.le_refl _)⟩
  | succ j ih =>
    obtain ⟨m, x, hm, hrel, hx | hx⟩ := ih
    · by_cases hlt : (openEvents (r.world k)).length ≤ x.length
      · exact ⟨m, x, hm, hrel, .inr hlt⟩
      · have hopen : openEvents (r.world m) ≠ [] := by
          intro hc
          obtain ⟨_, q, h⟩ := hrel
          rw [hc] at h
          have := congrArg List.length h
          simp at this
          omega
        obtain ⟨m', y, hm', hy, hrel'⟩ := hf.ev_exec (fun m' h => hall m' (by omega)) (fun m' h => hset m' (by omega)) hopen
        refine ⟨m', x ++ y, by omega, hrel.trans hrel', .inl ?_⟩
        have := List.length_pos_iff.mpr hy
        simp; omega
    · exact ⟨m, x, hm, hrel, .inr hx⟩

/-! ## These are not empty promises -/

open Demo in
/-- A fair execution which starts with account "a" having just obtained a token. No client ever connects; the token server
can never be reached. -/
def Demo.tokenRun : Run env := turnRun (fun _ => {}) (after_reach sToken)

open Demo in
theorem Demo.tokenRun_calm : Calm (after sToken) :=
  calm_of (after_reach _) (by decide +kernel) (by decide +kernel)

open Demo in
theorem Demo.tokenRun_fair : tokenRun.Fair := turnRun_fair _ _ tokenRun_calm

open Demo in
theorem Demo.tokenRun_config (m : Nat) : (tokenRun.world m).ls.config = conf :=
  (turnRun_config _ (after_reach sToken) tokenRun_calm m).1.trans (by decide +kernel)

open Demo in
/-- A fair execution which starts when an authorisation for account "a" has been started. -/
def Demo.askRun : Run env := turnRun (fun _ => {}) (after_reach sAsk)

open Demo in
theorem Demo.askRun_calm : Calm (after sAsk) := calm_of (after_reach _) (by decide +kernel) (by decide +kernel)

open Demo in
theorem Demo.askRun_fair : askRun.Fair := turnRun_fair _ _ askRun_calm

open Demo in
theorem Demo.askRun_config (m : Nat) : (askRun.world m).ls.config = conf :=
  (turnRun_config _ (after_reach sAsk) askRun_calm m).1.trans (by decide +kernel)

open Demo in
/-- C58: a fair execution in which clients connect and are served. -/
example : ∃ r : Run env, r.Fair ∧ r.world 0 = w0 ∧ ∃ k, r.action k = some (.connect showA) := by
  have h : w0.run env sAsk = some (after sAsk) := by
    unfold after
    cases h : w0.run env sAsk with
    | some w => rfl
    | none =>
      have : (w0.run env sAsk).isSome = true := by decide +kernel
      rw [h] at this; cases this
  obtain ⟨r, hf, h0, _, h2⟩ := Run.Fair.prepend sAsk (.init w0_init) h ⟨askRun, askRun_fair, rfl⟩
  exact ⟨r, hf, h0, 0, h2 0 (by decide)⟩

open Demo in
/-- C59: the token of account "a" is eventually refreshed or lost. -/
example : ∃ m, (∀ t', ¬ HoldsToken (tokenRun.world m).ls "a" t') ∨
    ∃ i a form, ("refresh_token", "R1") ∈ form ∧
      (tokenRun.world (m + 1)).log = ((tokenRun.world m).now, .post i a form) :: (tokenRun.world m).log := by
  obtain ⟨t, ht, hon, hrt⟩ : ∃ t, HoldsToken (tokenRun.world 0).ls "a" t ∧ t.ongoing = false ∧
      t.refreshToken = some "R1" := by
    exact ⟨_, ⟨_, List.mem_cons_self, by decide +kernel, rfl⟩, by decide +kernel, by decide +kernel⟩
  obtain ⟨m, _, h | ⟨i, j, a, rt, form, _, _, _, h1, h2, h3⟩⟩ := C59 tokenRun_fair (R := secs 40) ht hon fun m _ a ha => by
    rw [tokenRun_config] at ha ⊢
    have : conf.get? "a" = some (act "a" "https://ts/token") := by decide +kernel
    rw [this] at ha
    cases ha
    decide
  · exact ⟨m, .inl h⟩
  · rw [hrt] at h1; cases h1
    exact ⟨m, .inr ⟨i, _, form, h2, h3⟩⟩

open Demo in
/-- C60: a refresh is in progress at some time, and at its end the account is not marked any more. -/
example : Marked (after sRefresh).ls "a" ∧ ∃ r : Run env, r.Fair ∧ r.world 0 = after sRefresh :=
  ⟨⟨_, List.mem_cons_self, _, by decide +kernel, rfl, by decide +kernel⟩, turnRun (fun _ => {}) (after_reach sRefresh),
    turnRun_fair _ _ (calm_of (after_reach _) (by decide +kernel) (by decide +kernel)), rfl⟩

open Demo in
/-- C61: the user is told of the authorisation, or it ends. -/
example : ∃ p, HoldsPending (after sAsk).ls "a" p ∧
    ∃ m, ((∀ p', HoldsPending (askRun.world m).ls "a" p' → p'.url ≠ p.url) ∨
      ∃ cmd l, (askRun.world (m + 1)).log = l ++ (askRun.world m).log ∧
        ((askRun.world m).now, .authCmd cmd "a" (env.renderUrl p.url)) ∈ l) := by
  obtain ⟨p, hp, hn⟩ : ∃ p, HoldsPending (askRun.world 0).ls "a" p ∧ p.lastNotification = none :=
    ⟨_, ⟨_, List.mem_cons_self, by decide +kernel, rfl⟩, by decide +kernel⟩
  obtain ⟨m, _, h⟩ := C61 askRun_fair hp (fun m _ => by rw [askRun_config]; exact ⟨rfl, rfl⟩)
    (fun l hl => by rw [hn] at hl; cases hl)
  exact ⟨p, hp, m, h⟩

open Demo in
/-- C62: the event that account "a" has a new token is eventually executed. -/
example : ∃ m x, executedEvents (tokenRun.world m).log = ("a", .new) :: x := by
  obtain ⟨m, x, _, h⟩ := C62 tokenRun_fair (k := 0) (by
    intro _
    right; left
    show (after sToken).evPred = true
    decide +kernel) (fun m _ => by rw [tokenRun_config]; rfl)
  refine ⟨m, x, ?_⟩
  rw [h]
  have h1 : executedEvents (tokenRun.world 0).log = [] := by show executedEvents (after sToken).log = []; decide +kernel
  have h2 : openEvents (tokenRun.world 0) = [("a", .new)] := by show openEvents (after sToken) = _; decide +kernel
  rw [h1, h2]; rfl

end Pizauth
