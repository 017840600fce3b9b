import Verif.Spec.Dump
import Verif.Spec.Security
import Verif.Proof.Bincode
import Verif.Proof.Schedule

/-!
# Dumping and restoring
-/

namespace Pizauth
open LockedState

variable {E : Env} {now : Instant} {wall : SysTime} {ls : LockedState}

theorem Executes.exec {w w' : World} {buf : Bytes} (h : Executes E w buf w') (hns : parseReq buf ≠ .status) :
    ∃ inp f, ExecR E w.st w.now w.wall w.ls 0 (.unix buf) inp f ∧ w' = w.apply 0 [.close] f ∧
      w'.threads 0 = f.next ++ [.close] := by
  obtain ⟨inp, hs⟩ := h.step
  have h0 := h.reach.inv0
  have hst := (stepR_of_step h0.wf hs).2
  cases hst with
  | run ht hx =>
    have hlt := h0.lt_of_mem ht
    rw [h.serving] at ht
    cases ht
    exact ⟨inp, _, hx, rfl, apply_threads_self hlt _ _⟩
  | runPanic ht hx =>
    obtain ⟨buf', he, hp, _⟩ := h.reach.panic ht hx
    rw [h.serving] at ht
    cases ht
    cases he
    exact absurd hp hns

theorem Restorable.offers {d : Dump} {e : Entry} {ts : TokenState} :
    ls.Restorable now wall d e ts ↔ e ∈ ls.details ∧ (∀ t, e.ts ≠ .active t) ∧
      ∃ tok o x rt, d.Offers ls e.name tok o x rt ∧ ts = TokenState.restore now wall (.active tok o x rt) := by
  constructor
  · rintro ⟨a, tok, o, x, rt, ⟨he, hg⟩, h1, h2, h3⟩
    exact ⟨he, h1, tok, o, x, rt, ⟨a, a.dump, hg, h2, rfl, rfl, rfl, rfl, rfl, rfl, rfl⟩, h3⟩
  · rintro ⟨he, h1, tok, o, x, rt, ⟨a, s, hg, h2, g1, g2, g3, g4, g5, g6, g7⟩, h3⟩
    refine ⟨a, tok, o, x, rt, ⟨he, hg⟩, h1, ?_, h3⟩
    unfold Dump.entry at h2
    rw [h2]
    cases s
    simp only at g1 g2 g3 g4 g5 g6 g7
    simp [Account.dump, g1, g2, g3, g4, g5, g6, g7]

theorem Dump.Offers.congr {d : Dump} {ls' : LockedState} (hc : ls'.config = ls.config) {n tok : String} {o x : SysTime}
    {rt : Option String} : d.Offers ls' n tok o x rt ↔ d.Offers ls n tok o x rt := by
  unfold Dump.Offers; rw [hc]

/-- Nothing to restore: nothing happens. -/
theorem restore_nop (h : ls.WF) {plain : Bytes} {drain : List (String × TokenState)} {ls' : LockedState} {d : Dump}
    (hd : decDump plain = some d) (hno : ∀ e ∈ ls.details, ∀ ts, ¬ ls.Restorable now wall d e ts)
    (hr : ls.restore now wall plain drain = .ok ls') : ls' = ls := by
  obtain ⟨l, h1, h2, h3, h4⟩ := h.restoreCollect now wall d ls.details (fun e he => he) h.names_nodup
  have hl : l = [] := by
    cases l with
    | nil => rfl
    | cons p l =>
      obtain ⟨e, he, hn⟩ := List.mem_map.mp (h3 p (by simp))
      exact absurd ((h4 e he p.2).mp (by rw [hn]; simp)) (hno e he p.2)
  subst hl
  unfold LockedState.restore at hr
  rw [hd] at hr
  simp only at hr
  split at hr
  · cases hr
  · rw [h1] at hr
    simp only at hr
    split at hr
    · rename_i hp
      have : drain = [] := List.perm_nil.mp (List.isPerm_iff.mp hp)
      subst this
      simp only [LockedState.restoreApply] at hr
      cases hr
      rfl
    · cases hr

/-- What a dump says. -/
theorem dumpLoop_spec (h : ls.WF) : ∃ ds, ls.dumpLoop now wall ls.details = some ds ∧
    (ds.map Prod.fst).Nodup ∧ ∀ n v, (n, v) ∈ ds ↔
      ∃ e a, ls.Has e a ∧ e.name = n ∧ v = (a.dump, e.ts.dump now wall) := by
  obtain ⟨ds, h1, h2, h3⟩ := h.dumpLoop now wall ls.details fun e he => he
  have hnd : (ds.map Prod.fst).Nodup := h2 ▸ h.names_nodup
  refine ⟨ds, h1, hnd, fun n v => ⟨fun hm => ?_, ?_⟩⟩
  · have : n ∈ ls.details.map Entry.name := h2 ▸ List.mem_map.mpr ⟨_, hm, rfl⟩
    obtain ⟨e, he, rfl⟩ := List.mem_map.mp this
    obtain ⟨a, ha, hm'⟩ := h3 e he
    have e1 := lookup_of_mem hnd hm
    have e2 := lookup_of_mem hnd hm'
    rw [e1] at e2
    exact ⟨e, a, ha, rfl, Option.some.inj e2⟩
  · rintro ⟨e, a, ha, rfl, rfl⟩
    obtain ⟨a', ha', hm⟩ := h3 e ha.1
    have := ha.2.symm.trans ha'.2
    cases this
    exact hm

theorem dumpInstant_le (hw : SysTimeOk wall) (i : Instant) : SysTimeOk (dumpInstant now wall i) := by
  unfold SysTimeOk at *
  unfold dumpInstant checkedDurationSince checkedAdd checkedSub
  split
  · split <;> simp_all
  · split
    · split <;> simp_all <;> omega
    · exact hw

theorem dumpInstant_fits {i : Instant} (h1 : timeMin ≤ wall + (i - now)) (h2 : wall + (i - now) ≤ timeMax) :
    dumpInstant now wall i = wall + (i - now) := by
  unfold dumpInstant checkedDurationSince checkedAdd checkedSub
  by_cases hle : now ≤ i
  · simp only [hle, if_true]
    rw [if_pos (by omega)]
    simp; omega
  · have : i ≤ now := by omega
    simp only [hle, if_false, this, if_true]
    rw [if_pos (by omega)]
    simp; omega

theorem restoreInstant_eq : restoreInstant now wall t = dumpInstant wall now t := rfl

theorem carried {now' : Instant} {wall' : SysTime} {i : Instant} (h : Fits now wall now' wall' i) :
    restoreInstant now' wall' (dumpInstant now wall i) - now' = (i - now) - (wall' - wall) := by
  obtain ⟨h1, h2, h3, h4⟩ := h
  rw [restoreInstant_eq, dumpInstant_fits h1 h2, dumpInstant_fits (by omega) (by omega)]
  omega

/-- What the plaintext of a dump decodes to. -/
theorem dump_ok (h : ls.WF) (hw : SysTimeOk wall) {nonce : Vector UInt8 12}
    {order : List (String × (AccountDump × TokenStateDump))} {b : Bytes} (hb : authDump E ls now wall nonce order = .ok b) :
    ∃ plain c, b = nonce.toList ++ c ∧ E.encrypt nonce.toList plain = some c ∧
      decDump plain = some ⟨dumpVersion, order⟩ ∧
      ∀ n v, (Dump.mk dumpVersion order).entry n = some v ↔
        ∃ e a, ls.Has e a ∧ e.name = n ∧ v = (a.dump, e.ts.dump now wall) := by
  obtain ⟨ds, h1, h2, h3⟩ := dumpLoop_spec (now := now) (wall := wall) h
  unfold authDump LockedState.dump at hb
  rw [h1] at hb
  simp only at hb
  split at hb
  · rename_i d hd
    split at hd
    · rename_i hp
      have hp := List.isPerm_iff.mp hp
      split at hd
      · cases hd
      · rename_i plain he
        cases hd
        split at hb
        · cases hb
        · rename_i c hc
          cases hb
          refine ⟨d, c, rfl, hc, ?_, ?_⟩
          · have := (dump_roundTrip (d := ⟨dumpVersion, order⟩) ?_ he).1 []
            · simpa using this
            · rintro ⟨n, v⟩ hm
              obtain ⟨e, a, _, _, rfl⟩ := (h3 n v).mp (hp.mem_iff.mp hm)
              cases hts : e.ts with
              | empty => simp [TokenState.dump, TokenStateDump.TimesOk]
              | pending p => simp [TokenState.dump, TokenStateDump.TimesOk]
              | active t =>
                simp only [TokenState.dump, TokenStateDump.TimesOk]
                exact ⟨dumpInstant_le hw _, dumpInstant_le hw _⟩
          · intro n v
            rw [← h3 n v, ← hp.mem_iff]
            have hnd : (order.reverse.map Prod.fst).Nodup := by
              exact (((List.reverse_perm _).trans hp).map Prod.fst).nodup_iff.mpr h2
            constructor
            · intro hl
              have := List.lookup_eq_some_iff.mp hl
              obtain ⟨l1, l2, hl, _⟩ := this
              rw [← List.mem_reverse, hl]
              simp
            · intro hm
              exact lookup_of_mem hnd (List.mem_reverse.mpr hm)
    · cases hd
  · rename_i hne
    exact (hne _ hb).elim

end Pizauth
