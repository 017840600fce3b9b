import Verif.Proof.Dump
import Verif.Props.Demo

/-!
# C34 to C39: dumping and restoring tokens
-/

namespace Pizauth
open LockedState

variable {E : Env}

/-- What carrying out a `restore` request can do. -/
theorem restore_exec {w w' : World} {buf d : Bytes} (h : Executes E w buf w') (hp : parseReq buf = .restore d) :
    (d.length < 12 ∧ w'.ls = w.ls ∧ w'.threads 0 = [.reply (utf8 "error:Input too short"), .close]) ∨
    (12 ≤ d.length ∧ E.decrypt (d.take 12) (d.drop 12) = none ∧ w'.ls = w.ls ∧
      w'.threads 0 = [.reply (utf8 "error:Restoring dump failed"), .close]) ∨
    (∃ plain, 12 ≤ d.length ∧ E.decrypt (d.take 12) (d.drop 12) = some plain ∧
      w'.threads 0 = [.wakeNotifier, .wakeRefresher, .reply (utf8 "ok:"), .close] ∧
      ((w'.ls = w.ls ∧ w'.log = w.log ∧ ∀ dmp, decDump plain = some dmp → dmp.version ≠ 1) ∨
       ∃ dmp drain, decDump plain = some dmp ∧ dmp.version = 1 ∧ w.ls.restore w.now w.wall plain drain = .ok w'.ls ∧
        w'.log = (w.now, .restored plain) :: w.log ∧ RestoreR w.now w.wall dmp w.ls w'.ls)) := by
  obtain ⟨inp, f, hx, rfl, hth⟩ := h.exec (by rw [hp]; simp)
  have h0 := h.reach.inv0
  rw [hth]
  cases hx <;> simp only [hp, reduceCtorEq] at *
  case restoreShort d' h2 h1 =>
    cases h1
    exact .inl ⟨h2, rfl, rfl⟩
  case restoreBad d' h2 h3 h1 =>
    cases h1
    exact .inr (.inl ⟨by unfold nonceLen at h2; omega, h3, rfl, rfl⟩)
  case restoreErr d' plain h2 h3 h4 h1 =>
    cases h1
    refine .inr (.inr ⟨plain, by unfold nonceLen at h2; omega, h3, rfl, .inl ⟨rfl, rfl, ?_⟩⟩)
    intro dmp hd hv
    rcases restore_cases (now := w.now) (wall := w.wall) h0.wf (plain := plain) (drain := inp.drainOrder) with
      hc | hc | ⟨_, _, _, _, hc, _⟩
    · unfold LockedState.restore at hc
      rw [hd] at hc
      simp only [hv, dumpVersion, ne_eq, not_true, if_false] at hc
      split at hc
      · cases hc
      · split at hc
        · split at hc <;> cases hc
        · cases hc
    · rw [h4] at hc; cases hc
    · rw [h4] at hc; cases hc
  case restoreOk d' plain ls' h2 h3 h4 h1 =>
    cases h1
    obtain ⟨dmp, k1, k2, k3⟩ := restore_ok h0.wf h4
    exact .inr (.inr ⟨plain, by unfold nonceLen at h2; omega, h3, rfl, .inr ⟨dmp, _, k1, k2, h4, by simp [World.apply], k3⟩⟩)
  all_goals simp_all

/-! ## C34 -/

/-- **C34.** Restoring does not change the configuration and replaces no token. -/
theorem C34_keeps {w w' : World} {buf d : Bytes} (h : Executes E w buf w') (hp : parseReq buf = .restore d) :
    w'.ls.config = w.ls.config ∧ ∀ n t, HoldsToken w.ls n t → HoldsToken w'.ls n t := by
  rcases restore_exec h hp with ⟨_, h1, _⟩ | ⟨_, _, h1, _⟩ | ⟨_, _, _, _, ⟨h1, _⟩ | ⟨_, _, _, _, _, _, hr⟩⟩
  · rw [h1]; exact ⟨rfl, fun _ _ h => h⟩
  · rw [h1]; exact ⟨rfl, fun _ _ h => h⟩
  · rw [h1]; exact ⟨rfl, fun _ _ h => h⟩
  · refine ⟨hr.config, fun n t ⟨e, he, hn, hts⟩ => ⟨e, hr.keep e he fun ts hres => ?_, hn, hts⟩⟩
    exact (Restorable.offers.mp hres).2.1 t hts

/-- **C34.** The exact effect of a successful restore on each account: if it has no token and the dump offers one for
it, it gets this one; otherwise it stays as it is. -/
theorem C34_exact {w w' : World} {buf d plain : Bytes} {dmp : Dump} (h : Executes E w buf w')
    (hp : parseReq buf = .restore d) (hd : E.decrypt (d.take 12) (d.drop 12) = some plain) (hl : 12 ≤ d.length)
    (hdec : decDump plain = some dmp) (hv : dmp.version = 1) (n : String) :
    (∀ tok o x rt, dmp.Offers w.ls n tok o x rt → (∀ t, ¬ HoldsToken w.ls n t) → (∃ ts, Holds w.ls n ts) →
      ∃ t, HoldsToken w'.ls n t ∧ t.accessToken = tok ∧ t.refreshToken = rt ∧ t.ongoing = false ∧ t.fails = 0 ∧
        t.lastAttempt = none) ∧
    ((¬ ∃ tok o x rt, dmp.Offers w.ls n tok o x rt) → ∀ ts, Holds w'.ls n ts ↔ Holds w.ls n ts) := by
  have hnd := h.reach.inv0.wf
  rcases restore_exec h hp with ⟨h1, _⟩ | ⟨_, h1, _⟩ | ⟨plain', _, h1, _, ⟨_, _, h2⟩ | ⟨dmp', _, h2, _, _, _, hr⟩⟩
  · omega
  · rw [hd] at h1; cases h1
  · rw [hd] at h1; cases h1; exact absurd hv (h2 dmp hdec)
  · rw [hd] at h1; cases h1
    rw [hdec] at h2; cases h2
    refine ⟨?_, ?_⟩
    · rintro tok o x rt hoff hno ⟨ts, e, he, rfl, rfl⟩
      obtain ⟨e', he', hn', hts'⟩ := hr.put e he _ (Restorable.offers.mpr
        ⟨he, fun t ht => hno t ⟨e, he, rfl, ht⟩, tok, o, x, rt, hoff, rfl⟩)
      exact ⟨_, ⟨e', he', hn', hts'⟩, rfl, rfl, rfl, rfl, rfl⟩
    · rintro hno ts
      constructor
      · rintro ⟨e', he', rfl, rfl⟩
        rcases hr.back e' he' with ⟨hm, _⟩ | ⟨_, e, _, hne, hres⟩
        · exact ⟨e', hm, rfl, rfl⟩
        · obtain ⟨_, _, tok, o, x, rt, hoff, _⟩ := Restorable.offers.mp hres
          exact absurd ⟨tok, o, x, rt, hne ▸ hoff⟩ hno
      · rintro ⟨e, he, rfl, rfl⟩
        refine ⟨e, hr.keep e he fun ts hres => ?_, rfl, rfl⟩
        obtain ⟨_, _, tok, o, x, rt, hoff, _⟩ := Restorable.offers.mp hres
        exact hno ⟨tok, o, x, rt, hoff⟩

/-- **C34.** Restoring the same dump again changes nothing. -/
theorem C34_again {w1 w1' w2 w2' : World} {buf1 buf2 d : Bytes} (h1 : Executes E w1 buf1 w1')
    (h2 : Executes E w2 buf2 w2') (hp1 : parseReq buf1 = .restore d) (hp2 : parseReq buf2 = .restore d)
    (hsame : w2.ls = w1'.ls) : w2'.ls = w2.ls := by
  rcases restore_exec h2 hp2 with ⟨_, k, _⟩ | ⟨_, _, k, _⟩ | ⟨plain, hl, hd, _, ⟨k, _⟩ | ⟨dmp, drain, hdec, hv, hres, _, _⟩⟩
  · exact k
  · exact k
  · exact k
  · refine restore_nop h2.reach.inv0.wf hdec ?_ hres
    intro e he ts hr
    obtain ⟨_, hna, tok, o, x, rt, hoff, _⟩ := Restorable.offers.mp hr
    have hcfg := (C34_keeps h1 hp1).1
    rw [hsame] at he hoff
    rw [Dump.Offers.congr hcfg] at hoff
    have hwf1 := h1.reach.inv0.wf
    have hwf1' : w1'.ls.WF := hsame ▸ h2.reach.inv0.wf
    by_cases hno : ∀ t, ¬ HoldsToken w1.ls e.name t
    · have hex : ∃ ts, Holds w1.ls e.name ts := by
        have hm : e.name ∈ w1'.ls.details.map Entry.name := List.mem_map_of_mem he
        rw [hwf1'.names, hcfg, ← hwf1.names] at hm
        obtain ⟨e0, he0, hn0⟩ := List.mem_map.mp hm
        exact ⟨e0.ts, e0, he0, hn0, rfl⟩
      obtain ⟨t, ⟨e', he', hn', hts'⟩, _⟩ := (C34_exact h1 hp1 hd hl hdec hv e.name).1 tok o x rt hoff hno hex
      have := hwf1'.entry_name_inj he' he hn'
      subst this
      exact hna t hts'
    · simp only [Classical.not_forall, Classical.not_not] at hno
      obtain ⟨t, ht⟩ := hno
      obtain ⟨e', he', hn', hts'⟩ := (C34_keeps h1 hp1).2 _ _ ht
      have := hwf1'.entry_name_inj he' he hn'
      subst this
      exact hna t hts'

/-! ## C35 -/

/-- **C35.** An account changes during a restore only if it has no token and gets the one which the decoded dump
records for this account, under settings which are those it has now. -/
theorem C35_only {w w' : World} {buf d : Bytes} {n : String} {ts : TokenState} (h : Executes E w buf w')
    (hp : parseReq buf = .restore d) (hh : Holds w'.ls n ts) (hne : ¬ Holds w.ls n ts) :
    (∀ t, ¬ HoldsToken w.ls n t) ∧ ∃ plain dmp tok o x rt t, 12 ≤ d.length ∧
      E.decrypt (d.take 12) (d.drop 12) = some plain ∧ decDump plain = some dmp ∧ dmp.version = 1 ∧
      dmp.Offers w.ls n tok o x rt ∧ ts = .active t ∧ t.accessToken = tok ∧ t.refreshToken = rt := by
  rcases restore_exec h hp with ⟨_, h1, _⟩ | ⟨_, _, h1, _⟩ | ⟨plain, hl, hd, _, ⟨h1, _⟩ | ⟨dmp, _, hdec, hv, _, _, hr⟩⟩
  · exact absurd (h1 ▸ hh) hne
  · exact absurd (h1 ▸ hh) hne
  · exact absurd (h1 ▸ hh) hne
  · obtain ⟨e', he', rfl, rfl⟩ := hh
    rcases hr.back e' he' with ⟨hm, _⟩ | ⟨_, e, he, hn, hres⟩
    · exact absurd ⟨e', hm, rfl, rfl⟩ hne
    · obtain ⟨_, hna, tok, o, x, rt, hoff, hts⟩ := Restorable.offers.mp hres
      refine ⟨?_, plain, dmp, tok, o, x, rt, _, hl, hd, hdec, hv, hn ▸ hoff, hts, rfl, rfl⟩
      rintro t ⟨e2, he2, hn2, hts2⟩
      have := h.reach.inv0.wf.entry_name_inj he2 he (hn2.trans hn.symm)
      subst this
      exact hna t hts2

/-- **C35.** Restoring adds and removes no accounts. -/
theorem C35_accounts {w w' : World} {buf d : Bytes} (h : Executes E w buf w') (hp : parseReq buf = .restore d)
    (n : String) : (∃ ts, Holds w'.ls n ts) ↔ ∃ ts, Holds w.ls n ts := by
  have hr' : Reach E w' := by obtain ⟨inp, hs⟩ := h.step; exact .step _ h.reach hs
  have hcfg := (C34_keeps h hp).1
  have key : ∀ ls : LockedState, (∃ ts, Holds ls n ts) ↔ n ∈ ls.details.map Entry.name := by
    intro ls
    constructor
    · rintro ⟨_, e, he, rfl, _⟩; exact List.mem_map_of_mem he
    · intro hm
      obtain ⟨e, he, rfl⟩ := List.mem_map.mp hm
      exact ⟨_, e, he, rfl, rfl⟩
  rw [key, key, hr'.inv0.wf.names, h.reach.inv0.wf.names, hcfg]

/-! ## C36 -/

/-- The dump which answers a request was made from the state while the request was carried out. -/
theorem C36_answer {w : World} {buf b : Bytes} (h : Answers E w buf b) (hp : parseReq buf = .dump) :
    ∃ w1 w1', Executes E w1 buf w1' ∧ w1'.threads 0 = [.reply b, .close] ∧ Steps E w1' w := by
  obtain ⟨t, wd, inp, f, hd, hm, _⟩ := h.decided
  have hex : Executes E wd buf (wd.apply 0 [.close] f) := ⟨hd.reach, hd.start, inp, hd.step⟩
  refine ⟨wd, _, hex, ?_, hd.steps⟩
  have hlt : 0 < wd.nextTid := hd.reach.inv0.lt_of_mem hd.start
  rw [apply_threads_self hlt]
  have hx := hd.exec
  cases hx <;> simp_all

/-- **C36.** An account which has a token when a dump is made, and has the same security-relevant settings but no token
when this dump is restored, gets the same token: same access token, same refresh token, and (if the clocks can
represent the times in question) the same lifetime, less the wall-clock time which has passed. An account which had no
token stays as it is. -/
theorem C36_carried (hE : CryptLaw E) {w1 w1' w2 w2' : World} {buf1 buf2 b : Bytes} (h1 : Executes E w1 buf1 w1')
    (hp1 : parseReq buf1 = .dump) (hb : w1'.threads 0 = [.reply b, .close]) (h2 : Executes E w2 buf2 w2')
    (hp2 : parseReq buf2 = .restore b) (hwall : SysTimeOk w1.wall) :
    (∀ n t a1 a2, HoldsToken w1.ls n t → (∀ t', ¬ HoldsToken w2.ls n t') →
      w1.ls.config.accounts.lookup n = some a1 → w2.ls.config.accounts.lookup n = some a2 → SameSec a1 a2 →
      ∃ t', HoldsToken w2'.ls n t' ∧ Carried w1.now w1.wall w2.now w2.wall t t') ∧
    (∀ n, (∀ t, ¬ HoldsToken w1.ls n t) → ∀ ts, Holds w2'.ls n ts ↔ Holds w2.ls n ts) := by
  have hwf1 := h1.reach.inv0.wf
  have hwf2 := h2.reach.inv0.wf
  obtain ⟨inp, f, hx, rfl, hth⟩ := h1.exec (by rw [hp1]; simp)
  rw [hth] at hb
  have hdump : authDump E w1.ls w1.now w1.wall inp.nonce inp.dumpOrder = .ok b := by
    cases hx <;> simp_all
  obtain ⟨plain, c, rfl, henc, hdec, hent⟩ := dump_ok hwf1 hwall hdump
  have hdecr : E.decrypt ((inp.nonce.toList ++ c).take 12) ((inp.nonce.toList ++ c).drop 12) = some plain := by
    have hlen : inp.nonce.toList.length = 12 := by simp
    rw [List.take_append_of_le_length (by omega), List.drop_append_of_le_length (by omega), List.take_of_length_le (by omega),
      List.drop_of_length_le (by omega)]
    exact hE _ _ _ henc
  have hlen : 12 ≤ (inp.nonce.toList ++ c).length := by simp
  have hex := C34_exact h2 hp2 hdecr hlen hdec rfl
  refine ⟨?_, ?_⟩
  · rintro n t a1 a2 ⟨e, he, rfl, hts⟩ hno hl1 hl2 hsec
    have hoff : (Dump.mk dumpVersion inp.dumpOrder).entry e.name = some (a1.dump, e.ts.dump w1.now w1.wall) :=
      (hent _ _).mpr ⟨e, a1, ⟨he, hl1⟩, rfl, rfl⟩
    rw [hts] at hoff
    obtain ⟨e2, he2, hn2⟩ : ∃ e2 ∈ w2.ls.details, e2.name = e.name := by
      have : e.name ∈ w2.ls.details.map Entry.name := by
        rw [hwf2.names]
        exact List.mem_map.mpr ⟨(e.name, a2), mem_of_lookup hl2, rfl⟩
      obtain ⟨e2, h, hn⟩ := List.mem_map.mp this
      exact ⟨e2, h, hn⟩
    rcases restore_exec h2 hp2 with ⟨k, _⟩ | ⟨_, k, _⟩ | ⟨plain', _, k, _, ⟨_, _, k2⟩ | ⟨dmp', _, k2, _, _, _, hr⟩⟩
    · omega
    · rw [hdecr] at k; cases k
    · rw [hdecr] at k; cases k; exact absurd rfl (k2 _ hdec)
    · rw [hdecr] at k; cases k
      rw [hdec] at k2; cases k2
      obtain ⟨e', he', hn', hts'⟩ := hr.put e2 he2 _ ⟨a2, _, _, _, _, ⟨he2, hn2 ▸ hl2⟩, fun t ht => hno t ⟨e2, he2, hn2, ht⟩,
        by rw [hn2, ← hsec.dump]; exact hoff, rfl⟩
      refine ⟨_, ⟨e', he', hn'.trans hn2, hts'⟩, rfl, rfl, fun hf => carried hf, fun hf => carried hf, rfl, rfl, rfl⟩
  · intro n hno
    refine (hex n).2 ?_
    rintro ⟨tok, o, x, rt, a, s, _, hentry, _⟩
    obtain ⟨e, a', ha, rfl, hv⟩ := (hent _ _).mp hentry
    cases hts : e.ts with
    | active t => exact hno t ⟨e, ha.1, rfl, hts⟩
    | empty => rw [hts] at hv; simp [TokenState.dump] at hv
    | pending p => rw [hts] at hv; simp [TokenState.dump] at hv

/-! ## C37 -/

theorem nodup_of_map {α β : Type} {f : α → β} : ∀ {l : List α}, (l.map f).Nodup → l.Nodup
  | [], _ => .nil
  | a :: l, h => by
    rw [List.map_cons, List.nodup_cons] at h
    exact List.nodup_cons.mpr ⟨fun hm => h.1 (List.mem_map_of_mem hm), nodup_of_map h.2⟩

theorem dumpLoop_perm {ls1 ls2 : LockedState} {now : Instant} {wall : SysTime} (h1 : ls1.WF) (h2 : ls2.WF)
    (h : SameTokens ls1 ls2) {ds1 ds2} (hd1 : ls1.dumpLoop now wall ls1.details = some ds1)
    (hd2 : ls2.dumpLoop now wall ls2.details = some ds2) : ds1.Perm ds2 := by
  obtain ⟨x1, g1, n1, k1⟩ := dumpLoop_spec (now := now) (wall := wall) h1
  obtain ⟨x2, g2, n2, k2⟩ := dumpLoop_spec (now := now) (wall := wall) h2
  rw [hd1] at g1; cases g1
  rw [hd2] at g2; cases g2
  have half : ∀ {lsa lsb : LockedState}, lsa.WF → lsb.WF → SameTokens lsa lsb → ∀ n v,
      (∃ e a, lsa.Has e a ∧ e.name = n ∧ v = (a.dump, e.ts.dump now wall)) →
      ∃ e a, lsb.Has e a ∧ e.name = n ∧ v = (a.dump, e.ts.dump now wall) := by
    rintro lsa lsb ha hb hs n v ⟨e, a, he, rfl, rfl⟩
    have hm : e.name ∈ lsb.details.map Entry.name := by
      rw [hb.names, ← hs.accounts, ← ha.names]; exact List.mem_map_of_mem he.1
    obtain ⟨e', he', hn'⟩ := List.mem_map.mp hm
    refine ⟨e', a, ⟨he', ?_⟩, hn', ?_⟩
    · have := he.2
      unfold Config.get? at this ⊢
      rw [hn', ← hs.accounts]; exact this
    · have hsame : ∀ t, e.ts = .active t ↔ e'.ts = .active t := by
        intro t
        constructor
        · intro ht
          obtain ⟨e2, h2, hn2, ht2⟩ := (hs.tokens e.name t).mp ⟨e, he.1, rfl, ht⟩
          rw [hb.entry_name_inj he' h2 (hn'.trans hn2.symm)]; exact ht2
        · intro ht
          obtain ⟨e2, h2, hn2, ht2⟩ := (hs.tokens e.name t).mpr ⟨e', he', hn', ht⟩
          rw [ha.entry_name_inj he.1 h2 hn2.symm]; exact ht2
      congr 1
      cases hts : e.ts with
      | active t => rw [(hsame t).mp hts]
      | empty =>
        cases hts' : e'.ts with
        | active t => rw [(hsame t).mpr hts'] at hts; cases hts
        | empty => rfl
        | pending p => rfl
      | pending p =>
        cases hts' : e'.ts with
        | active t => rw [(hsame t).mpr hts'] at hts; cases hts
        | empty => rfl
        | pending p => rfl
  have hs' : SameTokens ls2 ls1 := ⟨h.accounts.symm, fun n t => (h.tokens n t).symm⟩
  rw [List.perm_ext_iff_of_nodup (nodup_of_map n1) (nodup_of_map n2)]
  rintro ⟨n, v⟩
  rw [k1, k2]
  exact ⟨half h1 h2 h n v, half h2 h1 hs' n v⟩

/-- **C37.** The answer to a `dump` request depends only on the settings of the accounts, the tokens, the clocks (and
the random nonce and the order of a hash map): states which differ in outstanding authorisations, and which accounts
have one, give the same dumps. -/
theorem C37_no_pending {w1 w2 : World} {buf1 buf2 : Bytes} {inp : Input} {b : Bytes} (hr1 : Reach E w1)
    (hr2 : Reach E w2) (hp1 : parseReq buf1 = .dump) (hp2 : parseReq buf2 = .dump)
    (ht1 : w1.threads 0 = [.unix buf1, .close]) (ht2 : w2.threads 0 = [.unix buf2, .close])
    (hrun : w2.proc = .running) (hnow : w1.now = w2.now) (hwall : w1.wall = w2.wall) (hsame : SameTokens w1.ls w2.ls)
    (h : ∃ w', w1.step E (.run 0 inp) = some w' ∧ w'.threads 0 = [.reply b, .close]) :
    ∃ w', w2.step E (.run 0 inp) = some w' ∧ w'.threads 0 = [.reply b, .close] := by
  obtain ⟨w', hs, hb⟩ := h
  have hwf1 := hr1.inv0.wf
  have hwf2 := hr2.inv0.wf
  have hdump : authDump E w1.ls w1.now w1.wall inp.nonce inp.dumpOrder = .ok b := by
    have hst := (stepR_of_step hwf1 hs).2
    cases hst with
    | run ht hx =>
      have hlt := hr1.inv0.lt_of_mem ht
      rw [apply_threads_self hlt] at hb
      rw [ht1] at ht
      cases ht
      cases hx <;> simp_all
    | runPanic ht hx => rw [ht1] at hb; cases hb
  have hdump2 : authDump E w2.ls w2.now w2.wall inp.nonce inp.dumpOrder = .ok b := by
    rw [← hdump]
    unfold authDump LockedState.dump
    obtain ⟨ds1, g1, _⟩ := dumpLoop_spec (now := w1.now) (wall := w1.wall) hwf1
    obtain ⟨ds2, g2, _⟩ := dumpLoop_spec (now := w2.now) (wall := w2.wall) hwf2
    have hperm := dumpLoop_perm hwf1 hwf2 hsame g1 (by rw [hnow, hwall]; exact g2)
    rw [g1, g2]
    have : inp.dumpOrder.isPerm ds2 = inp.dumpOrder.isPerm ds1 := by
      rw [Bool.eq_iff_iff, List.isPerm_iff, List.isPerm_iff]
      exact ⟨fun h => h.trans hperm.symm, fun h => h.trans hperm⟩
    simp only [this]
  have hlt : 0 < w2.nextTid := hr2.inv0.lt_of_mem ht2
  refine ⟨w2.apply 0 [.close] { ls := w2.ls, next := [.reply b] }, ?_, by rw [apply_threads_self hlt]; rfl⟩
  simp [World.step, hrun, ht2, exec, hp2, execUnix, hdump2]

/-! ## C38 -/

/-- **C38.** Input which is too short or cannot be decrypted is reported as an error and changes nothing; input which
does not decode or has another version changes nothing. (Missing: the latter is not reported as an error, see
`C38_not`.) -/
theorem C38_partial {w w' : World} {buf d : Bytes} (h : Executes E w buf w') (hp : parseReq buf = .restore d) :
    (d.length < 12 → w'.ls = w.ls ∧ w'.threads 0 = [.reply (utf8 "error:Input too short"), .close]) ∧
    (12 ≤ d.length → E.decrypt (d.take 12) (d.drop 12) = none →
      w'.ls = w.ls ∧ w'.threads 0 = [.reply (utf8 "error:Restoring dump failed"), .close]) ∧
    (∀ plain, 12 ≤ d.length → E.decrypt (d.take 12) (d.drop 12) = some plain →
      (∀ dmp, decDump plain = some dmp → dmp.version ≠ 1) → w'.ls = w.ls) := by
  rcases restore_exec h hp with ⟨h1, h2, h3⟩ | ⟨h1, h2, h3, h4⟩ | ⟨plain, h1, h2, h3, h4⟩
  · exact ⟨fun _ => ⟨h2, h3⟩, fun _ => by omega, fun _ _ => by omega⟩
  · exact ⟨fun _ => by omega, fun _ _ => ⟨h3, h4⟩, fun _ _ k => by rw [h2] at k; cases k⟩
  · refine ⟨fun _ => by omega, fun _ k => (by rw [h2] at k; cases k), fun plain' _ k hbad => ?_⟩
    rw [h2] at k
    cases k
    rcases h4 with ⟨h, _⟩ | ⟨dmp, _, h5, h6, _⟩
    · exact h
    · exact absurd h6 (hbad dmp h5)

/-! ## C39 -/

/-- **C39.** Decoding the bytes of a dump gives it back. -/
theorem C39_roundtrip {d : Dump} {b : Bytes} (ht : d.TimesOk) (he : encDump d = some b) : decDump b = some d := by
  simpa using (dump_roundTrip ht he).1 []

/-- **C39.** A strict prefix is rejected. -/
theorem C39_prefix {d : Dump} {b : Bytes} (ht : d.TimesOk) (he : encDump d = some b) {p r : Bytes} (hb : b = p ++ r)
    (hr : r ≠ []) : decDump p = none := by
  have := (dump_roundTrip ht he).2 p.length (by
    rw [hb, List.length_append]
    have := List.length_pos_iff.mpr hr
    omega)
  rw [hb, List.take_left] at this
  exact this

/-! ## Examples -/

open Demo

/-- Everything which is not determined by the state when a dump is made, or restored, in state `w`. -/
def dumpIn (w : World) : Input := { dumpOrder := (w.ls.dumpLoop w.now w.wall w.ls.details).getD [] }

/-- `pizauth dump`, up to (not including) its execution, after `l`. -/
def sDump (l : List Action) : List Action := l ++ [.connect (utf8 "dump:")]

/-- The dump made after `l`. -/
def dumpOf (l : List Action) : Bytes :=
  match authDump env (after (sDump l)).ls (after (sDump l)).now (after (sDump l)).wall (dumpIn (after (sDump l))).nonce
      (dumpIn (after (sDump l))).dumpOrder with
  | .ok b => b
  | _ => []

/-- `pizauth restore` of `d`, up to (not including) its execution, after `l`. -/
def sRestore (l : List Action) (d : Bytes) : List Action := l ++ [.connect (utf8 "restore:" ++ d)]

theorem executes_of {w : World} {buf : Bytes} {inp : Input} (hr : Reach env w)
    (h1 : (match w.threads 0 with | [.unix b, .close] => b == buf | _ => false) = true)
    (h2 : (w.step env (.run 0 inp)).isSome = true) : Executes env w buf (andThen w [.run 0 inp]) := by
  refine ⟨hr, ?_, inp, andThen_one h2⟩
  split at h1
  · rename_i b hb; rw [hb, eq_of_beq h1]
  · cases h1

/-- The token of account "a" when it is restored ten minutes later by a daemon which has just been started. -/
def restoredTok : ActiveTok :=
  { accessToken := "T1", obtained := -600000000000, expiry := 3000000000000, refreshToken := some "R1", ongoing := false,
    fails := 0, lastAttempt := none }

def restoreIn : Input := { drainOrder := [("a", .active restoredTok)] }

/-- A daemon is started ten minutes later. -/
def later : List Action := [.setWall 1700000600000000000]

def holdsTok (w : World) (n : String) : Option ActiveTok :=
  (w.ls.details.find? fun e => e.name == n).bind fun e =>
    match e.ts with
    | .active t => some t
    | _ => none

theorem holdsTok_holds {w : World} {n : String} {t : ActiveTok} (h : holdsTok w n = some t) : HoldsToken w.ls n t := by
  unfold holdsTok at h
  cases hf : w.ls.details.find? (fun e => e.name == n) with
  | none => rw [hf] at h; cases h
  | some e =>
    rw [hf] at h
    refine ⟨e, List.mem_of_find?_eq_some hf, eq_of_beq (List.find?_some (p := fun e : Entry => e.name == n) hf), ?_⟩
    simp only [Option.bind_some] at h
    split at h
    · cases h; assumption
    · cases h

theorem demo_crypt : CryptLaw env := by
  rintro _ p c ⟨⟩
  rfl

/-- The dump is made. -/
theorem demo_dump : Executes env (after (sDump sToken)) (utf8 "dump:")
    (andThen (after (sDump sToken)) [.run 0 (dumpIn (after (sDump sToken)))]) :=
  executes_of (after_reach _) (by decide +kernel) (by decide +kernel)

/-- The dump is restored. -/
theorem demo_restore : Executes env (after (sRestore later (dumpOf sToken))) (utf8 "restore:" ++ dumpOf sToken)
    (andThen (after (sRestore later (dumpOf sToken))) [.run 0 restoreIn]) :=
  executes_of (after_reach _) (by decide +kernel) (by decide +kernel)

/-- C34, C35, C36: the hypotheses hold, and the token is restored with the lifetime which it still has. -/
example : Executes env (after (sDump sToken)) (utf8 "dump:")
      (andThen (after (sDump sToken)) [.run 0 (dumpIn (after (sDump sToken)))]) ∧
    parseReq (utf8 "dump:") = .dump ∧ SysTimeOk (after (sDump sToken)).wall ∧ CryptLaw env ∧
    Executes env (after (sRestore later (dumpOf sToken))) (utf8 "restore:" ++ dumpOf sToken)
      (andThen (after (sRestore later (dumpOf sToken))) [.run 0 restoreIn]) ∧
    parseReq (utf8 "restore:" ++ dumpOf sToken) = .restore (dumpOf sToken) ∧
    holdsTok (after (sRestore later (dumpOf sToken))) "a" = none ∧
    holdsTok (andThen (after (sRestore later (dumpOf sToken))) [.run 0 restoreIn]) "a" = some restoredTok :=
  ⟨demo_dump, by decide +kernel, by show (_ : Int) ≤ _; decide +kernel, demo_crypt, demo_restore, by decide +kernel,
    by decide +kernel, by decide +kernel⟩

/-- C36: the answer is the dump. -/
example : (match (andThen (after (sDump sToken)) [.run 0 (dumpIn (after (sDump sToken)))]).threads 0 with
    | [.reply b, .close] => b == dumpOf sToken
    | _ => false) = true := by decide +kernel

/-- C34: the account keeps the token it has (`sRefreshed`: a newer one than the dump's); restoring twice changes
nothing. -/
example : holdsTok (after (sRestore sRefreshed (dumpOf sToken))) "a" =
      holdsTok (andThen (after (sRestore sRefreshed (dumpOf sToken))) [.run 0 {}]) "a" ∧
    ((after (sRestore sRefreshed (dumpOf sToken))).step env (.run 0 {})).isSome = true ∧
    (holdsTok (after (sRestore sRefreshed (dumpOf sToken))) "a").map (·.accessToken) = some "T2" := by decide +kernel

/-- C35: an account whose token server has changed is left alone. -/
example : let l := sRestore ([.connect (utf8 "reload:")] ++ [.run 0 { conf := .ok conf2 }] ++ n0 5) (dumpOf sToken)
    (w0.run env l).isSome = true ∧ holdsTok (andThen (after l) [.run 0 {}]) "a" = none ∧
    ((after l).step env (.run 0 {})).isSome = true ∧ decDump ((dumpOf sToken).drop 12) ≠ none := by decide +kernel

/-- C37: the dumps of a daemon with an outstanding authorisation and one without are the same. -/
example : dumpOf sAsk = dumpOf [] ∧ (after (sDump sAsk)).ls ≠ (after (sDump [])).ls ∧ (dumpOf sAsk).length = 375 ∧
    (w0.run env (sDump sAsk)).isSome = true ∧ (w0.run env (sDump [])).isSome = true := by decide +kernel

/-- C38: the three kinds of bad input. (Encryption in the examples does nothing.) -/
example : Executes env (after (sRestore [] [1, 2])) (utf8 "restore:" ++ [1, 2])
      (andThen (after (sRestore [] [1, 2])) [.run 0 {}]) ∧ ([1, 2] : Bytes).length < 12 :=
  ⟨executes_of (after_reach _) (by decide +kernel) (by decide +kernel), by decide⟩

/-- Input of which the decoding fails, and of another version. -/
def badInput : Bytes := List.replicate 20 0
def otherVersion : Bytes := List.replicate 12 0 ++ [2, 0, 0, 0, 0, 0, 0, 0, 0, 0, 0, 0, 0, 0, 0, 0]

theorem C38_bad : Executes env (after (sRestore [] badInput)) (utf8 "restore:" ++ badInput)
    (andThen (after (sRestore [] badInput)) [.run 0 {}]) :=
  executes_of (after_reach _) (by decide +kernel) (by decide +kernel)

theorem C38_version : Executes env (after (sRestore [] otherVersion)) (utf8 "restore:" ++ otherVersion)
    (andThen (after (sRestore [] otherVersion)) [.run 0 {}]) :=
  executes_of (after_reach _) (by decide +kernel) (by decide +kernel)

theorem replies_of {w : World} {b : Bytes}
    (h : (match w.threads 0 with
      | [.wakeNotifier, .wakeRefresher, .reply b', .close] => b' == b
      | _ => false) = true) : w.threads 0 = [.wakeNotifier, .wakeRefresher, .reply b, .close] := by
  split at h
  · rename_i b' hb; rw [hb, eq_of_beq h]
  · cases h

/-- C38 is false as stated: input which does not decode, or is of another version, is answered with `ok:`. -/
theorem C38_not :
    (∃ w w' buf d, Executes env w buf w' ∧ parseReq buf = .restore d ∧ 12 ≤ d.length ∧
      decDump (d.drop 12) = none ∧ env.decrypt (d.take 12) (d.drop 12) = some (d.drop 12) ∧
      w'.threads 0 = [.wakeNotifier, .wakeRefresher, .reply (utf8 "ok:"), .close]) ∧
    (∃ w w' buf d dmp, Executes env w buf w' ∧ parseReq buf = .restore d ∧ 12 ≤ d.length ∧
      decDump (d.drop 12) = some dmp ∧ dmp.version = 2 ∧ env.decrypt (d.take 12) (d.drop 12) = some (d.drop 12) ∧
      w'.threads 0 = [.wakeNotifier, .wakeRefresher, .reply (utf8 "ok:"), .close]) :=
  ⟨⟨_, _, _, badInput, C38_bad, by decide +kernel, by decide +kernel, by decide +kernel, rfl, replies_of (by decide +kernel)⟩,
   ⟨_, _, _, otherVersion, ⟨2, []⟩, C38_version, by decide +kernel, by decide +kernel, by decide +kernel, rfl, rfl,
    replies_of (by decide +kernel)⟩⟩

/-- The token server says that the token expires in 2^63 - 1 seconds. -/
def answerLong : Body :=
  .obj [("token_type", .str "Bearer"), ("access_token", .str "T1"), ("expires_in", .u64 9223372036854775807)]

def sLong : List Action := sAsk ++ [.http callback false] ++ n1 3 ++ [.run 1 { net := .body answerLong }] ++ n1 4

/-- What is restored: it expires now. -/
def expiredTok : ActiveTok :=
  { accessToken := "T1", obtained := 0, expiry := 0, refreshToken := none, ongoing := false, fails := 0, lastAttempt := none }

/-- C36: outside of the range of the clocks, a token does lose its lifetime: the wall clock cannot represent the time at
which the token expires, so that it is dumped as one which expires now. -/
theorem C36_out_of_range : ∃ w1 w1' w2 w2' buf1 buf2 b t t', CryptLaw env ∧ Executes env w1 buf1 w1' ∧
    parseReq buf1 = .dump ∧ w1'.threads 0 = [.reply b, .close] ∧ Executes env w2 buf2 w2' ∧
    parseReq buf2 = .restore b ∧ HoldsToken w1.ls "a" t ∧ HoldsToken w2'.ls "a" t' ∧ w1.now = w2.now ∧
    w1.wall = w2.wall ∧ w1.now < t.expiry ∧ t'.expiry = w2.now := by
  refine ⟨after (sDump sLong), andThen (after (sDump sLong)) [.run 0 (dumpIn (after (sDump sLong)))],
    after (sRestore [] (dumpOf sLong)), andThen (after (sRestore [] (dumpOf sLong))) [.run 0 { drainOrder := [("a", .active expiredTok)] }],
    utf8 "dump:", utf8 "restore:" ++ dumpOf sLong, dumpOf sLong, ((holdsTok (after (sDump sLong)) "a").getD expiredTok),
    expiredTok, demo_crypt, executes_of (after_reach _) (by decide +kernel) (by decide +kernel), by decide +kernel, ?_,
    executes_of (after_reach _) (by decide +kernel) (by decide +kernel), by decide +kernel, holdsTok_holds (by decide +kernel),
    holdsTok_holds (by decide +kernel), by decide +kernel, by decide +kernel, by decide +kernel, by decide +kernel⟩
  have h : (match (andThen (after (sDump sLong)) [.run 0 (dumpIn (after (sDump sLong)))]).threads 0 with
    | [.reply b, .close] => b == dumpOf sLong
    | _ => false) = true := by decide +kernel
  split at h
  · rename_i b hb; rw [hb, eq_of_beq h]
  · cases h

/-- C39. -/
example : ∃ b, encDump ⟨1, [("a", ⟨"u", [("k", "v")], "id", none, "r", ["s"], "t"⟩, .active "tok" 5 7 (some "r"))]⟩ = some b ∧
    Dump.TimesOk ⟨1, [("a", ⟨"u", [("k", "v")], "id", none, "r", ["s"], "t"⟩, .active "tok" 5 7 (some "r"))]⟩ ∧
    b.length = 155 := by
  refine ⟨_, rfl, ?_, by decide +kernel⟩
  simp [Dump.TimesOk, TokenStateDump.TimesOk, SysTimeOk, timeMax]

end Pizauth
