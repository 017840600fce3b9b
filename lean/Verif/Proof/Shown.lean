import Verif.Proof.Main
import Verif.Proof.Utf8

/-!
# Tokens in answers
-/

namespace Pizauth
open LockedState

variable {E : Env}

/-- First byte of a text. -/
theorem utf8_head {s : String} {c : UInt8} (t : String) (h : (utf8 s).head? = some c) :
    (utf8 (s ++ t)).head? = some c := by
  rw [utf8_append]
  cases hs : utf8 s with
  | nil => rw [hs] at h; cases h
  | cons x l => rw [hs] at h; exact h

theorem tokReply_head (tok : String) : (utf8 ("access_token:" ++ tok)).head? = some 97 :=
  utf8_head tok (by decide +kernel)

theorem pendingReply_head (u : Bool) (url : Url) : (pendingReply E u url).head? = some 112 := by
  unfold pendingReply
  split
  · exact utf8_head _ (by decide +kernel)
  · decide +kernel

theorem noAccountReply_head (n : String) : (noAccountReply n).head? = some 101 := by
  unfold noAccountReply
  rw [String.append_assoc]
  exact utf8_head _ (by decide +kernel)

theorem ne_of_head {a b : Bytes} {x y : UInt8} (ha : a.head? = some x) (hb : b.head? = some y) (h : x ≠ y) : a ≠ b := by
  rintro rfl
  rw [ha] at hb
  exact h (Option.some.inj hb)

/-- A request which the main thread is looking at is the last one. -/
theorem Reach.unix_request {w : World} (hr : Reach E w) {b : Bytes} (h : .unix b ∈ w.threads 0) :
    ∃ t, lastRequest w.log = some (t, b) := by
  rcases hr.mainInv with h0 | ⟨t, buf, hreq, h1 | ⟨wd, inp, f, hd⟩⟩
  · rw [h0] at h; simp at h
  · rw [h1] at h; simp at h; subst h; exact ⟨t, hreq⟩
  · exfalso
    have hmem := hd.suffix.mem h
    simp at hmem
    rcases hd.exec.unix_next with ⟨c, hc⟩ | hn
    · rw [hc] at hmem; simp at hmem
    · have := hn _ hmem; simp [Op.isTail, Op.isReply] at this

theorem tokReply_ne {b : Bytes} {tok : String} {x : UInt8} (h : b.head? = some x) (hx : x ≠ 97) :
    utf8 ("access_token:" ++ tok) ≠ b :=
  ne_of_head (tokReply_head tok) h (Ne.symm hx)

theorem ExecR.tok_reply {S : Static} {now : Instant} {wall : SysTime} {ls : LockedState} {tid : Nat} {buf : Bytes}
    {inp : Input} {f : Eff} {u : Bool} {n tok : String} (hx : ExecR E S now wall ls tid (.unix buf) inp f)
    (hp : parseReq buf = .showtoken u n) (hm : .reply (utf8 ("access_token:" ++ tok)) ∈ f.next) :
    ∃ e a t, ls.Has e a ∧ e.name = n ∧ e.ts = .active t ∧ now < t.expiry ∧ t.accessToken = tok ∧ f.ls = ls := by
  cases hx <;> simp only [hp, reduceCtorEq, false_and, false_or, or_false, List.mem_cons, List.not_mem_nil,
    exists_false, Req.showtoken.injEq, Op.reply.injEq] at *
  case noAccount h _ => exact absurd hm (tokReply_ne (noAccountReply_head _) (by decide))
  case auth => exact absurd hm (tokReply_ne (pendingReply_head _ _) (by decide))
  case showPending => exact absurd hm (tokReply_ne (pendingReply_head _ _) (by decide))
  case showTok ha hts hexp hr =>
    refine ⟨_, _, _, ha, hr.2.symm, hts, hexp, ?_, trivial⟩
    rw [utf8_append, utf8_append] at hm
    exact (utf8_inj (List.append_cancel_left hm)).symm
  case showOngoing => exact absurd hm (tokReply_ne (x := 101) (by decide +kernel) (by decide))
  case showExpired => exact absurd hm (tokReply_ne (x := 101) (by decide +kernel) (by decide))

/-- The token `tok` may be shown for account `n`: its history is in `L`, and it was valid at some time since `t`. -/
def ShownOk (E : Env) (n : String) (L : Log) (t : Instant) (w : World) (tok : String) : Prop :=
  ∃ a i td, w.ls.config.get? n = some a ∧ i.tok = tok ∧ Lineage E w.st n a L i ∧ t ≤ td ∧ td ≤ w.now ∧ td < i.expiry

theorem shown_since {n : String} {w0 : World} (hr : Reach E w0)
    (hempty : ∀ e ∈ w0.ls.details, e.name = n → e.ts = .empty)
    (hidle : ∀ buf, .unix buf ∉ w0.threads 0)
    (hrep : ∀ tok, .reply (utf8 ("access_token:" ++ tok)) ∉ w0.threads 0) {w : World} (hs : Steps E w0 w) :
    ∃ L, w.log = L ++ w0.log ∧ Since E n L w ∧
      ∀ t buf u tok, lastRequest w.log = some (t, buf) → parseReq buf = .showtoken u n →
        .reply (utf8 ("access_token:" ++ tok)) ∈ w.threads 0 → ShownOk E n L t w tok := by
  refine Steps.induct hr (P := fun w => ∃ L, w.log = L ++ w0.log ∧ Since E n L w ∧
      ∀ t buf u tok, lastRequest w.log = some (t, buf) → parseReq buf = .showtoken u n →
        .reply (utf8 ("access_token:" ++ tok)) ∈ w.threads 0 → ShownOk E n L t w tok) ?_ ?_ w hs
  · obtain ⟨L, hl, h⟩ := since_of_steps hr hempty hidle (n := n) .refl
    exact ⟨L, hl, h, fun t buf u tok _ _ hm => absurd hm (hrep tok)⟩
  · rintro w a w' hst hw h0 _ ⟨L, hl, hsin, ih⟩ hs
    obtain ⟨l, h1, h2⟩ := hsin.step h0 (Reach.opsInv w hw) hs
    refine ⟨l ++ L, by rw [h1, hl, List.append_assoc], h2, ?_⟩
    intro t buf u tok hreq hp hm
    by_cases hne : w.threads 0 = []
    · exfalso
      rcases hs.idle0 h0 hne with h | ⟨b, _, h, _⟩ <;> rw [h] at hm <;> simp at hm
    · rw [hs.lastRequest hne] at hreq
      -- the reply was already decided
      have old : .reply (utf8 ("access_token:" ++ tok)) ∈ w.threads 0 → ShownOk E n (l ++ L) t w' tok := by
        intro hm
        obtain ⟨a, i, td, g1, g2, g3, g4, g5, g6⟩ := ih t buf u tok hreq hp hm
        refine ⟨a, i, td, ?_, g2, ?_, g4, Int.le_trans g5 hs.now, g6⟩
        · rcases hs.config h0 with hc | ⟨c, tid, rest, ht, _⟩
          · rw [hc]; exact g1
          · exfalso
            have hi : Op.install c ∈ w.threads tid := by rw [ht]; simp
            obtain ⟨rfl, _⟩ := (Reach.shape w hw).install hi
            have hsh := (Reach.shape w hw).main
            rw [ht] at hsh hm
            rcases hsh.cons with ⟨_, h, _⟩ | ⟨_, _, rfl⟩ | ⟨h, _⟩ | ⟨h, _⟩
            · cases h
            · simp at hm
              exact ne_of_head (tokReply_head tok) (y := 111) (by decide +kernel) (by decide) hm
            · cases h
            · simp [Op.isTail, Op.isReply] at h
        · rw [hs.st]; exact g3.weaken l
      by_cases ha : ∃ inp, a = .run 0 inp
      · obtain ⟨inp, rfl⟩ := ha
        cases hs with
        | runPanic ht hx => exact old hm
        | @run _ _ op rest f ht hx =>
          rw [apply_threads_self h0.tid0] at hm
          rcases List.mem_append.mp hm with hm1 | hm1 <;> clear hm <;> have hm := hm1
          · have hsh := (Reach.shape w hw).main
            rw [ht] at hsh
            rcases hsh.cons with ⟨b, rfl, rfl⟩ | ⟨c, rfl, rfl⟩ | ⟨rfl, rfl⟩ | ⟨ho, _⟩
            · obtain ⟨t', hreq'⟩ := hw.unix_request (b := b) (by rw [ht]; simp)
              rw [hreq] at hreq'
              cases hreq'
              have htn : t ≤ w.now := Reach.log_le w hw _ (lastRequest_mem hreq)
              obtain ⟨e, a, tk, he, hn, hts, hexp, htok, hls⟩ := hx.tok_reply hp hm
              refine ⟨a, tk.info, w.now, ?_, htok, ?_, htn, Int.le_refl _, hexp⟩
              · simp only [World.apply, hls]; rw [← hn]; exact he.2
              · have := hsin.entries e a he hn
                unfold EntrySince at this
                rw [hts] at this
                exact this.weaken l
            · rw [hx.install_next.1] at hm; simp at hm
            · rw [(hx.plain (by simp)).1] at hm; simp at hm
            · rw [(hx.plain (by rcases ho with ho | ho <;> simp [ho])).1] at hm; simp at hm
          · exact old (by rw [ht]; exact List.mem_cons_of_mem _ hm)
      · exact old (by rw [← hs.threads0 h0 hne fun inp h => ha ⟨inp, h⟩]; exact hm)

end Pizauth
