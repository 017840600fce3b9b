import Verif.Proof.Prompt
import Verif.Props.Live
import Verif.Props.Show

/-!
# C93-C95: what must happen in time
-/

namespace Pizauth
open LockedState

variable {E : Env} {r : Run E} {δ : Nat}

theorem Run.Prompt.refreshed (hf : r.Prompt δ) {k : Nat} {n : String} {t : ActiveTok} {D : Instant}
    (h : HoldsToken (r.world k).ls n t) (hon : t.ongoing = false) (hlate : ∃ m, D < (r.world m).now)
    (hD : ∀ m, k ≤ m → (r.world m).now ≤ max (r.world k).now (D + (δ : Int)) + 7 * (δ : Int) → ∀ a,
      (r.world m).ls.config.get? n = some a → dueTime (r.world m).ls.config a t (r.world m).now ≤ D) :
    ∃ m, k ≤ m ∧ (r.world m).now ≤ max (r.world k).now (D + (δ : Int)) + 8 * (δ : Int) ∧
      ((∀ t', ¬ HoldsToken (r.world m).ls n t') ∨
      ∃ i j a rt form, k ≤ j ∧ j ≤ m ∧ (r.world j).ls.config.get? n = some a ∧ t.refreshToken = some rt ∧
        ("refresh_token", rt) ∈ form ∧
        (r.world (m + 1)).log = ((r.world m).now, .post i a.tokenUri form) :: (r.world m).log) := by
  obtain ⟨e, he, hn, hts⟩ := h
  subst hn
  have hex : ∃ m, k ≤ m ∧ (r.world m).now ≤ max (r.world k).now (D + (δ : Int)) + 7 * (δ : Int) ∧
      e ∉ (r.world m).ls.details := by
    refine Classical.byContradiction fun hno => ?_
    have hall : ∀ m, k ≤ m → (r.world m).now ≤ max (r.world k).now (D + (δ : Int)) + 7 * (δ : Int) →
        e ∈ (r.world m).ls.details := fun m hm hb => Classical.not_not.mp fun hc => hno ⟨m, hm, hb, hc⟩
    have hdue : ∀ m, k ≤ m → (r.world m).now ≤ max (r.world k).now (D + (δ : Int)) + 7 * (δ : Int) →
        ∃ d, RefreshAt (r.world m).ls (r.world m).now e.name d ∧ d ≤ D := by
      intro m hm hb
      obtain ⟨a, ha⟩ := (r.reach m).inv0.wf.has (hall m hm hb)
      exact ⟨_, ⟨t, a, ⟨e, hall m hm hb, rfl, hts⟩, hon, ha.2, rfl⟩, hD m hm hb a ha.2⟩
    obtain ⟨k', hk', hlt, hb'⟩ := hf.passes k hlate
    obtain ⟨m, hm, hmb, ha, hpc⟩ := hf.ref_scans (n := k') (a := e.name) fun m hm hb => by
      obtain ⟨d, hd, hle⟩ := hdue m (by omega) (by omega)
      exact ⟨d, hd, by omega⟩
    obtain ⟨d, hd2, hd1⟩ := hdue m (by omega) (by omega)
    have hnow := r.now_mono hm
    obtain ⟨w', hw', i, e1, he1, hn1, hi⟩ := started_scan (r.reach m) (hf.alive m) hd2 (by omega) hpc
    have hst : (r.world m).step E .refresher = some (r.world (m + 1)) := by
      have := r.next m; rw [ha] at this; exact this
    simp only [World.run, hst, Option.some.injEq] at hw'
    have hsame : (r.world (m + 1)).now = (r.world m).now := by
      have hs := (stepR_of_step (r.reach m).inv0.wf hst).2
      generalize r.world (m + 1) = w1 at hs
      cases hs <;> rfl
    subst hw'
    have : e1 = e := (r.reach (m + 1)).inv0.wf.entry_name_inj he1 (hall (m + 1) (by omega) (by omega)) hn1
    subst this
    obtain ⟨m2, inp, f, hm2, hb2, ha2, ht2, hx, hw⟩ := hf.turn hi rfl
    have hin := hall m2 (by omega) (by omega)
    have hwf := (r.reach m2).inv0.wf
    have hout : e1 ∈ f.ls.details := by
      have := hall (m2 + 1) (by omega) (by rw [hw, Run.apply_now]; omega)
      rw [hw] at this; exact this
    cases hx with
    | rfStartStale h => exact h e1 hin rfl
    | rfStartNot ha hid h =>
      have := hwf.entry_id_inj ha.1 hin hid
      subst this
      rcases h with h | ⟨_, h⟩ | ⟨_, h, h'⟩ <;> rw [hts] at h <;> cases h
      rw [hon] at h'; cases h'
    | rfStartOk ha hid h1 h2 h3 =>
      rcases mem_put.mp hout with ⟨_, h⟩ | ⟨e2, _, _, h⟩
      · exact h hid.symm
      · have h4 := hwf.lt e1 hin
        have h5 := congrArg Entry.id h
        simp only [LockedState.bump] at h5
        omega
    | rfStartNoRt ha hid h1 h2 h3 =>
      rcases mem_put.mp hout with ⟨_, h⟩ | ⟨e2, _, _, h⟩
      · exact h hid.symm
      · have h4 := hwf.lt e1 hin
        have h5 := congrArg Entry.id h
        simp only [LockedState.bump] at h5
        omega
  -- the first moment at which this token is not there any more
  obtain ⟨m, hm, ⟨hb, hne⟩, hfirst⟩ := Run.first hex
  have hkm : m ≠ k := by rintro rfl; exact hne he
  obtain ⟨j, rfl⟩ : ∃ j, m = j + 1 := ⟨m - 1, by omega⟩
  have hej : e ∈ (r.world j).ls.details := Classical.not_not.mp fun hc =>
    hfirst j (by omega) (by omega) ⟨Int.le_trans (r.now_le_succ j) hb, hc⟩
  by_cases hgone : ∀ t', ¬ HoldsToken (r.world (j + 1)).ls e.name t'
  · exact ⟨j + 1, hm, by omega, .inl hgone⟩
  · obtain ⟨t', e', he', hn', hts'⟩ : ∃ t', HoldsToken (r.world (j + 1)).ls e.name t' := by
      refine Classical.byContradiction fun hc => hgone fun t' ht' => hc ⟨t', ht'⟩
    rcases r.stepR j with ⟨_, h'⟩ | ⟨a, _, _, hs⟩
    · rw [h'] at hne; exact absurd hej hne
    · cases hon' : t'.ongoing with
      | false =>
        have := hs.unmarked_stays (r.reach j) hej hts hon he' hts' hon' hn'
        subst this
        exact absurd he' hne
      | true =>
        obtain ⟨i, c, act, rt, hc, hrt, hact, hu, hform⟩ := hs.marked_now (r.reach j) ⟨e, hej, rfl, hts⟩ hon
          ⟨e', he', t', hn', hts', hon'⟩
        have ht : (r.world (j + 1)).threads i = [.rfSend c] := by
          rcases ((Reach.shape _ (r.reach (j + 1))).core rfl hc).2 with h | ⟨_, _, h, _⟩
          · exact h
          · cases h
        obtain ⟨m, inp, f, hm', hb', ha, ht', hx, hw⟩ := hf.turn ht rfl
        refine ⟨m, by omega, by omega, .inr ⟨i, j, act, rt, c.form, by omega, by omega, hact, hrt, ?_, ?_⟩⟩
        · rw [hform]; simp [refreshForm]
        · rw [hw, ← hu]; cases hx; simp [World.apply]

/-- **C93.** A token which is not being refreshed, and whose due time stays at or before `D` (whatever is reloaded), is
refreshed (its refresh token is sent to the account's token server) at the latest nine turns after `D`, unless the
account loses it before. -/
theorem C93 (hf : r.Prompt δ) {k : Nat} {n : String} {t : ActiveTok} {D : Instant} (h : HoldsToken (r.world k).ls n t)
    (hon : t.ongoing = false) (hlate : ∃ m, D < (r.world m).now)
    (hD : ∀ m, k ≤ m → (r.world m).now ≤ max (r.world k).now D + 9 * (δ : Int) → ∀ a,
      (r.world m).ls.config.get? n = some a → dueTime (r.world m).ls.config a t (r.world m).now ≤ D) :
    ∃ m, k ≤ m ∧ (r.world m).now ≤ max (r.world k).now D + 9 * (δ : Int) ∧
      ((∀ t', ¬ HoldsToken (r.world m).ls n t') ∨
      ∃ i j a rt form, k ≤ j ∧ j ≤ m ∧ (r.world j).ls.config.get? n = some a ∧ t.refreshToken = some rt ∧
        ("refresh_token", rt) ∈ form ∧
        (r.world (m + 1)).log = ((r.world m).now, .post i a.tokenUri form) :: (r.world m).log) := by
  obtain ⟨m, hm, hb, h⟩ := hf.refreshed h hon hlate fun m hm hb => hD m hm (by omega)
  exact ⟨m, hm, by omega, h⟩

/-- **C93.** So a new token is refreshed before it expires, if `refresh_before_expiry` is at least nine turns. -/
theorem C93_before_expiry (hf : r.Prompt δ) {k b : Nat} {n : String} {t : ActiveTok}
    (h : HoldsToken (r.world k).ls n t) (hon : t.ongoing = false) (hl : t.lastAttempt = none)
    (hb : ∀ m, k ≤ m → ∀ a, (r.world m).ls.config.get? n = some a →
      a.refreshBeforeExpiry.getD ((r.world m).ls.config.refreshBeforeExpiry.getD (90 * 1000000000)) = b)
    (hlong : 9 * δ ≤ b) (hrep : timeMin ≤ t.expiry - (b : Int)) (hnow : (r.world k).now ≤ t.expiry - (b : Int))
    (hlate : ∃ m, t.expiry - (b : Int) < (r.world m).now) :
    ∃ m, k ≤ m ∧ (r.world m).now ≤ t.expiry ∧
      ((∀ t', ¬ HoldsToken (r.world m).ls n t') ∨
      ∃ i j a rt form, k ≤ j ∧ j ≤ m ∧ (r.world j).ls.config.get? n = some a ∧ t.refreshToken = some rt ∧
        ("refresh_token", rt) ∈ form ∧
        (r.world (m + 1)).log = ((r.world m).now, .post i a.tokenUri form) :: (r.world m).log) := by
  obtain ⟨m, hm, hb', h⟩ := C93 hf (D := t.expiry - (b : Int)) h hon hlate fun m hm _ a ha => by
    have hb1 : beforeSetting (r.world m).ls.config a = b := by
      rw [← hb m hm a ha]
      unfold beforeSetting setting
      cases a.refreshBeforeExpiry <;> cases (r.world m).ls.config.refreshBeforeExpiry <;> rfl
    unfold dueTime
    rw [hl]
    simp only [normalDue, hb1, if_pos hrep]
    split <;> omega
  exact ⟨m, hm, by omega, h⟩

/-- **C94.** The user is told (again) of an outstanding authorisation at the latest eight turns after this is due, unless
it is not outstanding any more, as long as `auth_notify_cmd` is set and `auth_notify_interval` stays the same. It is due
at once if they were never told, otherwise `auth_notify_interval` after the last time. -/
theorem C94 (hf : r.Prompt δ) {k : Nat} {n : String} {p : PendingTok} {I : Dur} {D : Instant}
    (h : HoldsPending (r.world k).ls n p)
    (hc : ∀ m, k ≤ m → (r.world m).ls.config.authNotifyCmd.isSome = true ∧ (r.world m).ls.config.authNotifyInterval = I)
    (hI : ∀ l, p.lastNotification = some l → l + (I : Int) ≤ D ∧ l + (I : Int) ≤ timeMax)
    (hlate : ∃ m, max (r.world k).now D + 2 * (δ : Int) < (r.world m).now) :
    ∃ m, k ≤ m ∧ (r.world m).now ≤ max (r.world k).now D + 8 * (δ : Int) ∧
      ((∀ p', HoldsPending (r.world m).ls n p' → p'.url ≠ p.url) ∨
      ∃ cmd l, (r.world (m + 1)).log = l ++ (r.world m).log ∧
        ((r.world m).now, .authCmd cmd n (E.renderUrl p.url)) ∈ l) := by
  refine Classical.byContradiction fun hno => ?_
  have hpend : ∀ m, k ≤ m → (r.world m).now ≤ max (r.world k).now D + 8 * (δ : Int) →
      ∃ p', HoldsPending (r.world m).ls n p' ∧ p'.url = p.url := by
    intro m hm hb
    refine Classical.byContradiction fun hc => hno ⟨m, hm, hb, .inl fun p' h1 h2 => hc ⟨p', h1, h2⟩⟩
  have hscan : ∀ m, k ≤ m → (r.world m).now ≤ max (r.world k).now D + 8 * (δ : Int) →
      r.action m = some .notifier → (r.world m).notPc = .scan →
      ∀ p', HoldsPending (r.world m).ls n p' → p'.url = p.url →
        notifyDue (r.world m).ls.config.authNotifyInterval (r.world m).now p' = false := by
    intro m hm hb ha hpc p' hp' hu
    cases hd : notifyDue (r.world m).ls.config.authNotifyInterval (r.world m).now p' with
    | false => rfl
    | true =>
      exfalso
      obtain ⟨cmd, hcmd⟩ := Option.isSome_iff_exists.mp (hc m hm).1
      have hst : (r.world m).step E .notifier = some (r.world (m + 1)) := by
        have := r.next m; rw [ha] at this; exact this
      obtain ⟨l, h1, h2⟩ := (C28_scan_partial (n := n) (url := E.renderUrl p.url) (r.reach m) hpc hst hcmd).mpr
        ⟨p', hp', by rw [hu], notifyDue_iff.mp hd⟩
      exact hno ⟨m, hm, hb, .inr ⟨cmd, l, h1, h2⟩⟩
  have hinv : ∀ m, k ≤ m → (r.world m).now ≤ max (r.world k).now D + 8 * (δ : Int) →
      ∃ p', HoldsPending (r.world m).ls n p' ∧ p'.url = p.url ∧
      (p'.lastNotification = none ∨ p'.lastNotification = p.lastNotification) := by
    refine Run.keepIn (r := r) (P := fun m => ∃ p', HoldsPending (r.world m).ls n p' ∧ p'.url = p.url ∧
      (p'.lastNotification = none ∨ p'.lastNotification = p.lastNotification)) ⟨p, h, rfl, .inr rfl⟩ ?_
    rintro m hm hb ⟨p1, hp1, hu1, hl1⟩
    have hb1 := r.now_le_succ m
    obtain ⟨p2, hp2, hu2⟩ := hpend (m + 1) (by omega) hb
    rcases r.stepR m with ⟨_, h'⟩ | ⟨a, ha, _, hs⟩
    · rw [h']; exact ⟨p1, hp1, hu1, hl1⟩
    · rcases hs.waiting_stays (r.reach m) hp1 hp2 with rfl | h | ⟨rfl, hpc, hd⟩
      · exact ⟨p2, hp2, hu2, hl1⟩
      · exact ⟨p2, hp2, hu2, .inl h⟩
      · rw [hscan m hm (by omega) ha hpc p1 hp1 hu1] at hd; cases hd
  obtain ⟨l0, hl0⟩ := hlate
  obtain ⟨k', hk', hlt, hb'⟩ := hf.passes k (D := max (r.world k).now D) ⟨l0, by omega⟩
  have hdue : ∀ m, k' ≤ m → (r.world m).now ≤ (r.world k').now + 7 * (δ : Int) →
      ∃ d, NotifyAt (r.world m).ls (r.world m).now n d ∧ d ≤ (r.world m).now := by
    intro m hm hb
    obtain ⟨p', hp', hu, hl⟩ := hinv m (by omega) (by omega)
    have hmono := r.now_mono hm
    cases hl' : p'.lastNotification with
    | none => exact ⟨_, ⟨p', hp', .inl ⟨hl', rfl⟩⟩, Int.le_refl _⟩
    | some l =>
      rw [hl'] at hl
      rcases hl with hl | hl
      · cases hl
      · have h2 := hI l hl.symm
        exact ⟨_, ⟨p', hp', .inr ⟨l, hl', rfl, by rw [(hc m (by omega)).2]; exact h2.2⟩⟩,
          by rw [(hc m (by omega)).2]; omega⟩
  obtain ⟨m, hm, hmb, ha, hpc⟩ := hf.not_scans (n := k') hdue ⟨l0, by omega⟩
  obtain ⟨p', hp', hu, hl⟩ := hinv m (by omega) (by omega)
  have hd := hscan m (by omega) (by omega) ha hpc p' hp' hu
  have : notifyDue (r.world m).ls.config.authNotifyInterval (r.world m).now p' = true := by
    refine notifyDue_iff.mpr fun l hl' => ?_
    rw [hl'] at hl
    rcases hl with hl | hl
    · cases hl
    · left
      have h2 := hI l hl.symm
      have h3 := r.now_mono hm
      rw [(hc m (by omega)).2]
      omega
  rw [this] at hd; cases hd

/-- What is quick is done, one thing in each turn. -/
theorem Run.Prompt.drained (hf : r.Prompt δ) {o : Op} (ho : o.waits = false) {tl : List Op} : ∀ (l : List Op) {n i : Nat},
    (r.world n).threads i = l ++ o :: tl → (∀ x ∈ l, x.quick = true) →
    ∃ m inp f, n ≤ m ∧ (r.world m).now ≤ (r.world n).now + ((l.length + 1 : Nat) : Int) * (δ : Int) ∧
      r.action m = some (.run i inp) ∧ (r.world m).threads i = o :: tl ∧
      ExecR E (r.world m).st (r.world m).now (r.world m).wall (r.world m).ls i o inp f ∧
      r.world (m + 1) = (r.world m).apply i tl f := by
  intro l
  induction l with
  | nil =>
    intro n i ht _
    obtain ⟨m, inp, f, h1, h2, h3⟩ := hf.turn ht ho
    exact ⟨m, inp, f, h1, by simpa using h2, h3⟩
  | cons x l ih =>
    intro n i ht hq
    obtain ⟨m, inp, f, h1, h2, h3, h4, hx, hw⟩ := hf.turn ht (Run.quick_waits (hq x (by simp)))
    obtain ⟨m', inp', f', g1, g2, g3⟩ := ih (n := m + 1) (i := i)
      (by rw [hw, apply_threads_self ((r.reach m).inv0.lt_of_mem h4), hx.quick_next (hq x (by simp))]; rfl)
      (fun y hy => hq y (by simp [hy]))
    refine ⟨m', inp', f', by omega, ?_, g3⟩
    rw [hw, Run.apply_now] at g2
    have hmul : (((x :: l).length + 1 : Nat) : Int) * (δ : Int) = ((l.length + 1 : Nat) : Int) * (δ : Int) + (δ : Int) := by
      rw [List.length_cons, Int.natCast_succ (l.length + 1), Int.add_mul, Int.one_mul]
    omega

/-- **C95.** A client which has sent its request is served, and its connection closed, within six turns - however long
the token servers and the commands take, and whatever else goes on. -/
theorem C95_client (hf : r.Prompt δ) {k : Nat} {buf : Bytes} (h : r.action k = some (.connect buf)) :
    ∃ m, k < m ∧ (r.world m).now ≤ (r.world k).now + 6 * (δ : Int) ∧
      (r.world (m + 1)).log = ((r.world m).now, .closed) :: (r.world m).log ∧ (r.world (m + 1)).threads 0 = [] := by
  have hstart : (r.world (k + 1)).threads 0 = [.unix buf, .close] ∧ (r.world (k + 1)).now = (r.world k).now := by
    rcases r.stepR k with ⟨h', _⟩ | ⟨a, h', _, hs⟩
    · rw [h] at h'; cases h'
    · rw [h] at h'
      cases h'
      generalize r.world (k + 1) = w' at hs
      cases hs
      exact ⟨by simp [setThread], rfl⟩
  obtain ⟨m, inp, f, h1, h2, h3, h4, hx, hw⟩ := hf.turn hstart.1 rfl
  have hnext : (∀ o ∈ f.next, o.quick = true) ∧ f.next.length ≤ 4 := by
    cases hx <;> simp [Op.quick]
  obtain ⟨m', inp', f', g1, g2, g3, g4, gx, gw⟩ := hf.drained (o := .close) (tl := []) rfl f.next (n := m + 1) (i := 0)
    (by rw [hw, apply_threads_self ((r.reach m).inv0.lt_of_mem h4)]) hnext.1
  refine ⟨m', by omega, ?_, ?_, ?_⟩
  · rw [hw, Run.apply_now] at g2
    have : ((f.next.length + 1 : Nat) : Int) * (δ : Int) ≤ 5 * (δ : Int) :=
      Int.mul_le_mul_of_nonneg_right (by have := hnext.2; omega) (by omega)
    omega
  · rw [gw]; cases gx; simp [World.apply]
  · rw [gw, apply_threads_self ((r.reach m').inv0.lt_of_mem g4)]
    cases gx; rfl

/-- **C95.** A browser which has sent its request is answered within two turns. -/
theorem C95_browser (hl : HostLaw E) (hf : r.Prompt δ) {k : Nat} {buf : Bytes} {sec : Bool}
    (h : r.action k = some (.http buf sec)) :
    ∃ m i b, k < m ∧ (r.world m).now ≤ (r.world k).now + 2 * (δ : Int) ∧
      (r.world (k + 1)).log = ((r.world k).now, .httpReq i buf sec) :: (r.world k).log ∧
      (r.world (m + 1)).log = ((r.world m).now, .httpAnswer i b) :: (r.world m).log := by
  have hstart : (r.world (k + 1)).threads (r.world k).nextTid = [.http buf sec] ∧
      (r.world (k + 1)).now = (r.world k).now ∧
      (r.world (k + 1)).log = ((r.world k).now, .httpReq (r.world k).nextTid buf sec) :: (r.world k).log := by
    rcases r.stepR k with ⟨h', _⟩ | ⟨a, h', _, hs⟩
    · rw [h] at h'; cases h'
    · rw [h] at h'
      cases h'
      generalize r.world (k + 1) = w' at hs
      cases hs
      exact ⟨setThread_same .., rfl, rfl⟩
  obtain ⟨m, inp, f, h1, h2, h3, h4, hx, hw⟩ := hf.turn hstart.1 rfl
  obtain ⟨b, rest, hb⟩ : ∃ b rest, f.next = .httpAnswer b :: rest := by
    cases hx <;> try exact ⟨_, _, rfl⟩
    obtain ⟨x, hx⟩ := redirectUrl_ok hl (r.reach m) (‹LockedState.Has _ _ _›).2
    exact nomatch hx.symm.trans ‹_ = Res.err _›
  obtain ⟨m', inp', f', g1, g2, g3, g4, gx, gw⟩ := hf.turn (n := m + 1) (i := (r.world k).nextTid) (op := .httpAnswer b)
    (rest := rest) (by rw [hw, apply_threads_self ((r.reach m).inv0.lt_of_mem h4), hb, List.append_nil]) rfl
  rw [hw, Run.apply_now] at g2
  refine ⟨m', _, b, by omega, by omega, hstart.2.2, ?_⟩
  rw [gw]; cases gx; simp [World.apply]

/-! ## These are not empty promises -/

/-- Nobody can do anything: all threads wait for something outside. -/
structure Idle (E : Env) (w : World) : Prop where
  threads : ∀ i op rest, w.threads i = op :: rest → op.waits = true
  refresher : w.stepRefresher = none
  notifier : w.stepNotifier E = none

def idleB (E : Env) (w : World) : Bool :=
  (List.range w.nextTid).all (fun i => (w.threads i).head?.all Op.waits) && w.stepRefresher.isNone &&
    (w.stepNotifier E).isNone

theorem idle_of {w : World} (hr : Reach E w) (h : idleB E w = true) : Idle E w := by
  simp only [idleB, Bool.and_eq_true, List.all_eq_true, List.mem_range, Option.isNone_iff_eq_none] at h
  refine ⟨fun i op rest ht => ?_, h.1.2, h.2⟩
  have := h.1.1 i (hr.inv0.lt_of_mem ht)
  rw [ht] at this
  simpa using this

/-- If nobody can do anything, nothing need happen. -/
def Run.still {w : World} (hr : Reach E w) : Run E := ⟨fun _ => w, fun _ => none, hr, fun _ => rfl⟩

theorem Run.still_prompt {w : World} (hr : Reach E w) (hp : w.proc = .running) (h : Idle E w) :
    (Run.still hr).Prompt δ where
  alive _ := hp
  clock _ := by show w.now ≤ w.now + (δ : Int); omega
  thread n i op rest ht hw := by rw [h.threads i op rest ht] at hw; cases hw
  refresher n hn := absurd h.refresher (hn n (Nat.le_refl _) (by omega))
  notifier n hn := absurd h.notifier (hn n (Nat.le_refl _) (by omega))

theorem Run.Prompt.cons {r : Run E} (hf : r.Prompt δ) {w : World} {a : Action} (hr : Reach E w)
    (hs : w.step E a = some (r.world 0))
    (h : (r.world 0).now = w.now ∨ ((r.world 0).now ≤ w.now + (δ : Int) ∧ Idle E w)) : (r.cons hr hs).Prompt δ where
  alive
    | 0 => (stepR_of_step hr.inv0.wf hs).1
    | n + 1 => hf.alive n
  clock
    | 0 => by
      show (r.world 0).now ≤ w.now + (δ : Int)
      rcases h with h | h
      · omega
      · exact h.1
    | n + 1 => hf.clock n
  thread
    | 0, i, op, rest, ht, hw => by
      by_cases hown : ∃ inp, (r.cons hr hs).action 0 = some (.run i inp)
      · obtain ⟨inp, ho⟩ := hown
        exact ⟨0, Nat.le_refl _, by omega, inp, ho⟩
      · have hb := (r.cons hr hs).busy (n := 0) (by rw [ht]; simp) fun inp hc => hown ⟨inp, hc⟩
        rcases h with h | h
        · obtain ⟨m, _, hb', inp, hm⟩ := hf.thread 0 i op rest (hb.trans ht) hw
          refine ⟨m + 1, by omega, ?_, inp, hm⟩
          show (r.world m).now ≤ w.now + (δ : Int)
          omega
        · have := h.2.threads i op rest ht
          rw [hw] at this; cases this
    | n + 1, i, op, rest, ht, hw => by
      obtain ⟨m, hm, hb, inp, h'⟩ := hf.thread n i op rest ht hw
      exact ⟨m + 1, by omega, hb, inp, h'⟩
  refresher
    | 0, hn => by
      rcases h with h | h
      · obtain ⟨m, hm, hb, h'⟩ := hf.refresher 0 fun m hm hb => hn (m + 1) (by omega) (by
          show (r.world m).now ≤ w.now + (δ : Int)
          omega)
        refine ⟨m + 1, by omega, ?_, h'⟩
        show (r.world m).now ≤ w.now + (δ : Int)
        omega
      · exact absurd h.2.refresher (hn 0 (Nat.le_refl _) (by omega))
    | n + 1, hn => by
      obtain ⟨m, hm, hb, h'⟩ := hf.refresher n fun m hm hb => hn (m + 1) (by omega) hb
      exact ⟨m + 1, by omega, hb, h'⟩
  notifier
    | 0, hn => by
      rcases h with h | h
      · obtain ⟨m, hm, hb, h'⟩ := hf.notifier 0 fun m hm hb => hn (m + 1) (by omega) (by
          show (r.world m).now ≤ w.now + (δ : Int)
          omega)
        refine ⟨m + 1, by omega, ?_, h'⟩
        show (r.world m).now ≤ w.now + (δ : Int)
        omega
      · exact absurd h.2.notifier (hn 0 (Nat.le_refl _) (by omega))
    | n + 1, hn => by
      obtain ⟨m, hm, hb, h'⟩ := hf.notifier n fun m hm hb => hn (m + 1) (by omega) hb
      exact ⟨m + 1, by omega, hb, h'⟩

/-- A finite execution in which the clock moves only when nobody can do anything, at whose end nobody can. -/
def eagerB (E : Env) (δ : Nat) : World → List Action → Bool
  | w, [] => decide (w.proc = .running) && idleB E w
  | w, a :: l =>
    match w.step E a with
    | some w' => (w'.now == w.now || (decide (w'.now ≤ w.now + (δ : Int)) && idleB E w)) && eagerB E δ w' l
    | none => false

theorem Run.prompt_of_take : ∀ (l : List Action) {w : World}, Reach E w → eagerB E δ w l = true →
    ∃ r : Run E, r.Prompt δ ∧ r.world 0 = w ∧ (∀ m, w.run E (l.take m) = some (r.world m)) ∧
      ∀ k (h : k < l.length), r.action k = some l[k]
  | [], w, hr, h => by
    simp only [eagerB, Bool.and_eq_true, decide_eq_true_eq] at h
    exact ⟨Run.still hr, Run.still_prompt hr h.1 (idle_of hr h.2), rfl, fun m => by rw [List.take_nil]; rfl,
      fun k h => absurd h (by simp)⟩
  | a :: l, w, hr, h => by
    unfold eagerB at h
    cases hs : w.step E a with
    | none => rw [hs] at h; cases h
    | some w1 =>
      rw [hs] at h
      simp only [Bool.and_eq_true, Bool.or_eq_true, beq_iff_eq, decide_eq_true_eq] at h
      have hr1 := Reach.step a hr hs
      obtain ⟨r, hf, h0, h3, h2⟩ := Run.prompt_of_take l hr1 h.2
      have hs' : w.step E a = some (r.world 0) := by rw [h0]; exact hs
      refine ⟨r.cons hr hs', hf.cons hr hs' (by rw [h0]; exact h.1.imp id fun ⟨h1, h2⟩ => ⟨h1, idle_of hr h2⟩), rfl,
        ?_, ?_⟩
      · intro m
        cases m with
        | zero => rfl
        | succ m => simp only [List.take_succ_cons, World.run, hs]; exact h3 m
      · intro k hk
        cases k with
        | zero => rfl
        | succ k => exact h2 k (by simp at hk; omega)

theorem Run.prompt_of (l : List Action) {w : World} (hr : Reach E w) (h : eagerB E δ w l = true) :
    ∃ r : Run E, r.Prompt δ ∧ r.world 0 = w ∧ some (r.world l.length) = w.run E l ∧
      (∀ m, ∃ j, j ≤ l.length ∧ w.run E (l.take j) = some (r.world m)) ∧
      ∀ k (h : k < l.length), r.action k = some l[k] := by
  obtain ⟨r, hf, h0, h3, h2⟩ := Run.prompt_of_take l hr h
  refine ⟨r, hf, h0, by rw [← h3, List.take_length], fun m => ⟨min m l.length, Nat.min_le_right .., ?_⟩, h2⟩
  rw [← h3 m, ← List.take_eq_take_min]

/-- Go on as long as there is something to do, otherwise let the clock move. -/
def eager (E : Env) (δ : Nat) : Nat → World → List Action
  | 0, _ => []
  | k + 1, w =>
    let a : Action :=
      match (List.range w.nextTid).find? (fun i => !(w.threads i).head?.all Op.waits) with
      | some i => .run i {}
      | none => if w.stepRefresher.isSome then .refresher else if (w.stepNotifier E).isSome then .notifier else .tick δ
    match w.step E a with
    | some w' => a :: eager E δ k w'
    | none => []

/-- What holds all along such an execution. -/
theorem Run.prompt_all {l : List Action} {w : World} {r : Run E} {P : World → Bool}
    (h : ∀ m, ∃ j, j ≤ l.length ∧ w.run E (l.take j) = some (r.world m))
    (hP : (List.range (l.length + 1)).all (fun j => (w.run E (l.take j)).all P) = true) (m : Nat) :
    P (r.world m) = true := by
  obtain ⟨j, hj, h⟩ := h m
  have := List.all_eq_true.mp hP j (List.mem_range.mpr (by omega))
  rw [h] at this
  simpa using this

namespace Demo

/-- A token which expires after 200 seconds. -/
def brief : Body :=
  .obj [("token_type", .str "Bearer"), ("access_token", .str "T1"), ("expires_in", .u64 200),
        ("refresh_token", .str "R1")]

def sBrief : List Action := sAsk ++ [.http callback false] ++ n1 3 ++ [.run 1 { net := .body brief }] ++ n1 4

/-- A turn takes ten seconds. -/
def ten : Nat := 10000000000

end Demo

open Demo in
/-- C93: with the default of 90 seconds for `refresh_before_expiry`, if everybody gets a turn within 10 seconds, a token is
refreshed before it expires. (In this execution, the server does not answer; nothing happens afterwards.) -/
example : ∃ r : Run env, r.Prompt ten ∧ (∃ t, HoldsToken (r.world 0).ls "a" t) ∧
    ∃ m i u form, (r.world m).now ≤ 200000000000 ∧ ("refresh_token", "R1") ∈ form ∧
      (r.world (m + 1)).log = ((r.world m).now, .post i u form) :: (r.world m).log := by
  obtain ⟨r, hf, h0, h1, h3, _⟩ := Run.prompt_of (δ := ten) (eager env ten 31 (after sBrief)) (after_reach sBrief)
    (by decide +kernel)
  have hconf : ∀ m, ((r.world m).ls.config.get? "a").all (fun a => a.refreshBeforeExpiry.isNone &&
      (r.world m).ls.config.refreshBeforeExpiry.isNone) = true := Run.prompt_all (P := fun w =>
        (w.ls.config.get? "a").all (fun a => a.refreshBeforeExpiry.isNone && w.ls.config.refreshBeforeExpiry.isNone)) h3
        (by decide +kernel)
  have hhold : ∀ m, (r.world m).ls.details.any (fun e => e.name == "a" && match e.ts with | .active _ => true | _ => false)
      = true := Run.prompt_all (P := fun w =>
        w.ls.details.any (fun e => e.name == "a" && match e.ts with | .active _ => true | _ => false)) h3
        (by decide +kernel)
  obtain ⟨t, ht, hon, hl, hx, hrt⟩ : ∃ t, HoldsToken (r.world 0).ls "a" t ∧ t.ongoing = false ∧ t.lastAttempt = none ∧
      t.expiry = 200000000000 ∧ t.refreshToken = some "R1" := by
    rw [h0]
    exact ⟨_, ⟨_, List.mem_cons_self, by decide +kernel, rfl⟩, by decide +kernel, by decide +kernel, by decide +kernel,
      by decide +kernel⟩
  refine ⟨r, hf, ⟨t, ht⟩, ?_⟩
  obtain ⟨m, _, hm, h | ⟨i, j, a, rt, form, _, _, _, g1, g2, g3⟩⟩ := C93_before_expiry (k := 0) (b := 90000000000) hf ht hon hl
    (fun m _ a ha => by
      have := hconf m
      rw [ha] at this
      simp at this
      rw [this.1, this.2]; rfl)
    (by decide) (by rw [hx]; decide) (by rw [hx, h0]; decide +kernel) ⟨_, by
      rw [hx]
      have : (r.world (eager env ten 31 (after sBrief)).length).now = 120000000000 := by
        have h : ((after sBrief).run env (eager env ten 31 (after sBrief))).map World.now = some 120000000000 := by
          decide +kernel
        rw [← h1] at h
        simpa using h
      rw [this]; decide⟩
  · exfalso
    have := hhold m
    obtain ⟨e, he, h2⟩ := List.any_eq_true.mp this
    simp only [Bool.and_eq_true, beq_iff_eq] at h2
    cases hts : e.ts with
    | active t' => exact h t' ⟨e, he, h2.1, hts⟩
    | empty => rw [hts] at h2; simp at h2
    | pending p => rw [hts] at h2; simp at h2
  · rw [hrt] at g1; cases g1
    exact ⟨m, i, _, form, by omega, g2, g3⟩

open Demo in
/-- C94: the user is told of a new authorisation. -/
example : ∃ r : Run env, r.Prompt ten ∧ ∃ p, HoldsPending (r.world 0).ls "a" p ∧
    ∃ m, (r.world m).now ≤ 80000000000 ∧ ((∀ p', HoldsPending (r.world m).ls "a" p' → p'.url ≠ p.url) ∨
      ∃ cmd l, (r.world (m + 1)).log = l ++ (r.world m).log ∧
        ((r.world m).now, .authCmd cmd "a" (env.renderUrl p.url)) ∈ l) := by
  obtain ⟨r, hf, h0, h1, h3, _⟩ := Run.prompt_of (δ := ten) (eager env ten 8 (after sAsk)) (after_reach sAsk)
    (by decide +kernel)
  have hconf : ∀ m, ((r.world m).ls.config.authNotifyCmd.isSome &&
      (r.world m).ls.config.authNotifyInterval == 900000000000) = true := Run.prompt_all (P := fun w =>
        w.ls.config.authNotifyCmd.isSome && w.ls.config.authNotifyInterval == 900000000000) h3 (by decide +kernel)
  obtain ⟨p, hp, hn⟩ : ∃ p, HoldsPending (r.world 0).ls "a" p ∧ p.lastNotification = none := by
    rw [h0]
    exact ⟨_, ⟨_, List.mem_cons_self, by decide +kernel, rfl⟩, by decide +kernel⟩
  have hnow0 : (r.world 0).now = 0 := by rw [h0]; decide +kernel
  obtain ⟨m, _, hm, h⟩ := C94 (k := 0) (D := 0) (I := 900000000000) hf hp
    (fun m _ => by
      have := hconf m
      simp only [Bool.and_eq_true, beq_iff_eq] at this
      exact this)
    (fun l hl => by rw [hn] at hl; cases hl) ⟨_, by
      have : (r.world (eager env ten 8 (after sAsk)).length).now = 30000000000 := by
        have h : ((after sAsk).run env (eager env ten 8 (after sAsk))).map World.now = some 30000000000 := by
          decide +kernel
        rw [← h1] at h
        simpa using h
      rw [this, hnow0]; decide⟩
  rw [hnow0] at hm
  exact ⟨r, hf, p, hp, m, by simpa [ten] using hm, h⟩

open Demo in
/-- C95: a client and a browser are served. -/
example : ∃ r : Run env, r.Prompt ten ∧ r.world 0 = w0 ∧ r.action 0 = some (.connect showA) ∧
    r.action 5 = some (.http callback false) := by
  obtain ⟨r, hf, h0, _, _, h2⟩ := Run.prompt_of (δ := ten) (sAsk ++ .http callback false :: eager env ten 8
    (after (sAsk ++ [.http callback false]))) (.init w0_init) (by decide +kernel)
  exact ⟨r, hf, h0, h2 0 (by decide +kernel), h2 5 (by decide +kernel)⟩

end Pizauth
