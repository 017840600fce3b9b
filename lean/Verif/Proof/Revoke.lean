import Verif.Spec.Tokens
import Verif.Proof.Shown

/-!
# An account without token or pending authorisation stays so until a client asks
-/

namespace Pizauth
open LockedState

variable {E : Env}

/-- Only requests can make something out of an account which holds nothing. -/
theorem ExecR.nonempty_back {S : Static} {now : Instant} {wall : SysTime} {ls : LockedState} {tid : Nat} {op : Op}
    {inp : Input} {f : Eff} (hx : ExecR E S now wall ls tid op inp f) (h : ls.WF)
    (hinst : ∀ c, op = .install c → c.Ok E) (hop : OpInv E S ls op) (hnu : ∀ buf, op ≠ .unix buf) {e' : Entry}
    (he' : e' ∈ f.ls.details) (hne : e'.ts ≠ .empty) : ∃ e ∈ ls.details, e.name = e'.name ∧ e.ts ≠ .empty := by
  have hput : ∀ (ls1 : LockedState) (e0 : Entry) (a0 : Account) (ts : TokenState), ls1.details = ls.details →
      ls.Has e0 a0 → (ts ≠ .empty → e0.ts ≠ .empty) → e' ∈ (ls1.put e0.id ts).details →
      ∃ e ∈ ls.details, e.name = e'.name ∧ e.ts ≠ .empty := by
    intro ls1 e0 a0 ts hd h0 hts hm
    rcases mem_put.mp hm with ⟨hm1, _⟩ | ⟨e1, hm1, hid, rfl⟩
    · exact ⟨e', hd ▸ hm1, rfl, hne⟩
    · rw [hd] at hm1
      have := h.entry_id_inj hm1 h0.1 hid
      subst this
      exact ⟨e1, hm1, rfl, hts hne⟩
  cases hx <;> try exact ⟨e', he', rfl, hne⟩
  case auth => exact absurd rfl (hnu _)
  case restoreOk => exact absurd rfl (hnu _)
  case revoke => exact absurd rfl (hnu _)
  case install c ls' hu =>
    have hc := hinst c rfl
    obtain ⟨ls'', h1, h2, h3, h4, h5⟩ := h.updateConf hc.nodup hc.names
    rw [hu] at h1
    cases h1
    obtain ⟨a, _, ⟨o, ho, _⟩ | ⟨_, hts, _⟩⟩ := h5 e' he'
    · exact ⟨e', ho.1, rfl, hne⟩
    · exact absurd hts hne
  case httpError ha _ _ _ _ _ => exact hput ls _ _ _ rfl ha (fun h => absurd rfl h) he'
  case exDoneOk e0 a0 x tok expiry ha hid h1 h2 h3 h4 h5 =>
    obtain ⟨p, _, _, hp, _⟩ := hop.2 e0 a0 ha hid
    exact hput ls _ _ _ rfl ha (fun _ => by rw [hp]; simp) he'
  case failOk ha hid => exact hput ls _ _ _ rfl ha (fun h => absurd rfl h) he'
  case rfStartOk ha hid hts hon hrt => exact hput ls.bump _ _ _ rfl ha (fun _ => by rw [hts]; simp) he'
  case rfStartNoRt ha hid hts hon hrt => exact hput ls.bump _ _ _ rfl ha (fun h => absurd rfl h) he'
  case rfPermOk ha hid => exact hput ls _ _ _ rfl ha (fun h => absurd rfl h) he'
  case rfStoreNoExpiry ha hid hex => exact hput ls _ _ _ rfl ha (fun h => absurd rfl h) he'
  case rfStoreOk e0 a0 expiry ha hid hex =>
    obtain ⟨p, hp, _⟩ := hop.2 e0 a0 ha hid
    exact hput ls _ _ _ rfl ha (fun _ => by rw [hp]; simp) he'
  case rfTransientCmd ha hid hts hm hc => exact hput ls _ _ _ rfl ha (fun _ => by rw [hts]; simp) he'
  case rfTransientKeep ha hid hts hm => exact hput ls.bump _ _ _ rfl ha (fun _ => by rw [hts]; simp) he'
  case rfCmdOkOk ha hid hts => exact hput ls _ _ _ rfl ha (fun _ => by rw [hts]; simp) he'
  case rfCmdErrOk ha hid => exact hput ls _ _ _ rfl ha (fun h => absurd rfl h) he'

theorem StepR.nonempty_back {w w' : World} {a : Action} (hw : Reach E w) (hs : StepR E w a w')
    (hnu : ∀ buf, .unix buf ∉ w.threads 0) {e' : Entry}
    (he' : e' ∈ w'.ls.details) (hne : e'.ts ≠ .empty) : ∃ e ∈ w.ls.details, e.name = e'.name ∧ e.ts ≠ .empty := by
  have h0 := hw.inv0
  cases hs <;> try exact ⟨e', he', rfl, hne⟩
  case run tid inp op rest f ht hx =>
    have hop : op ∈ w.threads tid := by rw [ht]; simp
    refine hx.nonempty_back h0.wf (by rintro c rfl; exact h0.inst tid c hop) (Reach.opsInv w hw tid op hop) ?_ he' hne
    rintro buf rfl
    obtain ⟨rfl, _⟩ := (Reach.shape w hw).unix hop
    exact hnu buf hop
  case notScan ls' hp hn =>
    rcases hn.back e' he' with ⟨hm, _⟩ | ⟨e0, he0, p, hp0, hn0, hts, _⟩
    · exact ⟨e', hm, rfl, hne⟩
    · exact ⟨e0, he0, hn0.symm, by rw [(dueEntry_some.mp hp0).1]; simp⟩

theorem Reach.no_unix {w : World} (hw : Reach E w) {b : Bytes} (h : .reply b ∈ w.threads 0) :
    ∀ buf, .unix buf ∉ w.threads 0 := by
  intro buf hu
  obtain ⟨_, ht⟩ := (Reach.shape w hw).unix hu
  rw [ht] at h
  simp at h

theorem ExecR.revoke_reply {S : Static} {now : Instant} {wall : SysTime} {ls : LockedState} {tid : Nat} {buf : Bytes}
    {inp : Input} {f : Eff} {n : String} (hx : ExecR E S now wall ls tid (.unix buf) inp f)
    (hp : parseReq buf = .revoke n) (hm : .reply (utf8 "ok:") ∈ f.next) :
    ∃ e a, ls.Has e a ∧ e.name = n ∧ f.ls = ls.put e.id .empty ∧
      f.next = [.pushEvent n .revoked, .wakeEventer, .reply (utf8 "ok:")] := by
  cases hx <;> simp only [hp, reduceCtorEq, false_and, false_or, or_false, List.mem_cons, List.not_mem_nil,
    exists_false, Req.revoke.injEq, Op.reply.injEq] at *
  case noAccount h _ => exact absurd hm.symm (ne_of_head (noAccountReply_head _) (y := 111) (by decide +kernel) (by decide))
  case revoke ha hr =>
    subst hr
    exact ⟨_, _, ha, rfl, rfl, rfl⟩

/-- While a revoke is being answered with success, the account holds nothing. -/
theorem Reach.revoked : ∀ w, Reach E w → ∀ t buf n, lastRequest w.log = some (t, buf) → parseReq buf = .revoke n →
    .reply (utf8 "ok:") ∈ w.threads 0 →
    (∃ a, w.ls.config.get? n = some a) ∧ ∀ e ∈ w.ls.details, e.name = n → e.ts = .empty := by
  intro w hr
  refine Reach.induct (P := fun w => ∀ t buf n, lastRequest w.log = some (t, buf) → parseReq buf = .revoke n →
    .reply (utf8 "ok:") ∈ w.threads 0 →
    (∃ a, w.ls.config.get? n = some a) ∧ ∀ e ∈ w.ls.details, e.name = n → e.ts = .empty) ?_ ?_ w hr
  · intro w hi t buf n _ _ hm
    rw [hi.threads 0] at hm; simp at hm
  · intro w a w' hw h0 _ ih hs t buf n hreq hp hm
    by_cases hne : w.threads 0 = []
    · exfalso
      rcases hs.idle0 h0 hne with h | ⟨b, _, h, _⟩ <;> rw [h] at hm <;> simp at hm
    · rw [hs.lastRequest hne] at hreq
      have old : .reply (utf8 "ok:") ∈ w.threads 0 →
          (∃ a, w'.ls.config.get? n = some a) ∧ ∀ e ∈ w'.ls.details, e.name = n → e.ts = .empty := by
        intro hm
        obtain ⟨h1, h2⟩ := ih t buf n hreq hp hm
        refine ⟨?_, ?_⟩
        · rcases hs.config h0 with hc | ⟨c, tid, rest, ht, _⟩
          · rw [hc]; exact h1
          · exfalso
            have hi : Op.install c ∈ w.threads tid := by rw [ht]; simp
            obtain ⟨rfl, _⟩ := (Reach.shape w hw).install hi
            rcases hw.mainInv with h | ⟨t', buf', hreq', h | ⟨wd, inp, f, hd⟩⟩
            · rw [h] at hi; simp at hi
            · rw [h] at hi; simp at hi
            · rw [hreq] at hreq'; cases hreq'
              have hmem : (Op.install c) ∈ f.next ++ [.close] := hd.suffix.mem hi
              simp at hmem
              obtain ⟨b, hb, hpr, _⟩ := hd.exec.next_install (Or.inl hmem)
              cases hb
              rw [hp] at hpr; cases hpr
        · intro e he hn
          by_cases hc : e.ts = .empty
          · exact hc
          · obtain ⟨e0, he0, hn0, hts0⟩ := hs.nonempty_back hw (hw.no_unix hm) he hc
            exact absurd (h2 e0 he0 (hn0.trans hn)) hts0
      by_cases ha : ∃ inp, a = .run 0 inp
      · obtain ⟨inp, rfl⟩ := ha
        cases hs with
        | runPanic ht hx => exact old hm
        | @run _ _ op rest f ht hx =>
          rw [apply_threads_self h0.tid0] at hm
          rcases List.mem_append.mp hm with hm1 | hm1 <;> clear hm <;> have hm := hm1
          · have hsh := (Reach.shape w hw).main
            rw [ht] at hsh
            rcases hsh.cons with ⟨b, rfl, rfl⟩ | ⟨c, rfl, rfl⟩ | ⟨rfl, rfl⟩ | ⟨ho, _⟩
            · obtain ⟨t', hreq'⟩ := hw.unix_request (b := b) (by rw [ht]; simp)
              rw [hreq] at hreq'
              cases hreq'
              obtain ⟨e0, a0, h1, h2, h3, _⟩ := hx.revoke_reply hp hm
              simp only [World.apply, h3]
              refine ⟨⟨a0, by rw [put_config, ← h2]; exact h1.2⟩, ?_⟩
              intro e he hn
              rcases mem_put.mp he with ⟨he, hid⟩ | ⟨e1, he1, hid, rfl⟩
              · exact absurd (by rw [h0.wf.entry_name_inj he h1.1 (hn.trans h2.symm)]) hid
              · rfl
            · rw [hx.install_next.1] at hm; simp at hm
            · rw [(hx.plain (by simp)).1] at hm; simp at hm
            · rw [(hx.plain (by rcases ho with ho | ho <;> simp [ho])).1] at hm; simp at hm
          · exact old (by rw [ht]; exact List.mem_cons_of_mem _ hm)
      · exact old (by rw [← hs.threads0 h0 hne fun inp h => ha ⟨inp, h⟩]; exact hm)

/-- After a successful revoke, before it is answered, the main thread has nothing else to say. -/
theorem Reach.revoked_threads {w : World} {t : Instant} {buf : Bytes} {n : String} (hr : Reach E w)
    (hreq : lastRequest w.log = some (t, buf)) (hp : parseReq buf = .revoke n)
    (hm : .reply (utf8 "ok:") ∈ w.threads 0) : ∀ b, .reply b ∈ w.threads 0 → b = utf8 "ok:" := by
  intro b hb
  rcases hr.mainInv with h | ⟨t', buf', hreq', h | ⟨wd, inp, f, hd⟩⟩
  · rw [h] at hm; simp at hm
  · rw [h] at hm; simp at hm
  · rw [hreq] at hreq'; cases hreq'
    have h1 : .reply (utf8 "ok:") ∈ f.next := by have := hd.suffix.mem hm; simpa using this
    have h2 : .reply b ∈ f.next := by have := hd.suffix.mem hb; simpa using this
    obtain ⟨_, _, _, _, _, hn⟩ := hd.exec.revoke_reply hp h1
    rw [hn] at h2
    simpa using h2

end Pizauth
