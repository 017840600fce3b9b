import Verif.Proof.Reload
import Verif.Props.Demo
import Verif.Spec.Status

/-!
# C07, C08: the daemon does not crash
-/

namespace Pizauth
open LockedState

variable {E : Env}

theorem instantFmt_none {now : Instant} {wall : SysTime} {i : Instant} (h : instantFmt E now wall i = none) :
    E.rfc2822 (wall + (i - now)) = none := by
  unfold instantFmt at h
  split at h
  · rename_i hlt
    unfold checkedDurationSince at h
    simp only [Int.le_of_lt hlt, if_true] at h
    unfold checkedSub at h
    split at h
    · rename_i st hst
      split at hst
      · cases hst
        have : wall - ((now - i).toNat : Int) = wall + (i - now) := by omega
        rw [this] at h; exact h
      · cases hst
    · cases h
  · rename_i hlt
    unfold checkedDurationSince at h
    simp only [Int.not_lt.mp hlt, if_true] at h
    unfold checkedAdd at h
    split at h
    · rename_i st hst
      split at hst
      · cases hst
        have : wall + ((i - now).toNat : Int) = wall + (i - now) := by omega
        rw [this] at h; exact h
      · cases hst
    · cases h

theorem statusText_none {now : Instant} {wall : SysTime} {ts : TokenState} (h : statusText E now wall ts = none) :
    ∃ i ∈ reportedTimes now ts, E.rfc2822 (wall + (i - now)) = none := by
  unfold statusText at h
  split at h
  · cases h
  · rename_i p
    split at h
    · rename_i i hi
      simp only [Option.map_eq_none_iff] at h
      exact ⟨i, by simp [reportedTimes, hi], instantFmt_none h⟩
    · cases h
  · rename_i a
    split at h
    · rename_i hexp
      split at h
      · cases h
      · rename_i hno
        cases h1 : instantFmt E now wall a.obtained with
        | none => exact ⟨a.obtained, by simp [reportedTimes, hexp], instantFmt_none h1⟩
        | some x =>
          cases h2 : instantFmt E now wall a.expiry with
          | none => exact ⟨a.expiry, by simp [reportedTimes, hexp], instantFmt_none h2⟩
          | some y => exact absurd h2 (hno x y h1)
    · rename_i hexp
      split at h
      · rename_i i hi
        simp only [Option.map_eq_none_iff] at h
        exact ⟨i, by simp [reportedTimes, hexp, hi], instantFmt_none h⟩
      · cases h

theorem optAll_none {α β : Type} {f : α → Option β} : ∀ {l : List α}, optAll f l = none → ∃ x ∈ l, f x = none
  | [], h => by cases h
  | a :: r, h => by
    unfold optAll at h
    cases h1 : f a with
    | none => exact ⟨a, by simp, h1⟩
    | some x =>
      cases h2 : optAll f r with
      | none =>
        obtain ⟨y, hy, hn⟩ := optAll_none h2
        exact ⟨y, by simp [hy], hn⟩
      | some l => rw [h1, h2] at h; cases h

theorem statusReply_none {ls : LockedState} {now : Instant} {wall : SysTime} (h : ls.WF)
    (hs : statusReply E now wall ls = none) :
    ∃ e ∈ ls.details, ∃ i ∈ reportedTimes now e.ts, E.rfc2822 (wall + (i - now)) = none := by
  unfold statusReply at hs
  simp only [Option.map_eq_none_iff] at hs
  obtain ⟨id, hid, hn⟩ := optAll_none hs
  obtain ⟨e, he, rfl⟩ := List.mem_map.mp hid
  obtain ⟨a, ha⟩ := h.has he
  unfold statusLine at hn
  rw [h.account ha, h.tokenstate he] at hn
  simp only [Option.map_eq_none_iff] at hn
  obtain ⟨i, hi, hf⟩ := statusText_none hn
  exact ⟨e, he, i, hi, hf⟩

/-- **C07.** The only step which can abort the process is answering `status`, and only if some time about which
`status` reports cannot be printed. -/
theorem C07_abort {w w' : World} {act : Action} (hr : Reach E w) (hs : w.step E act = some w')
    (ha : w'.proc = .aborted) :
    AnswersStatus w act ∧
    ∃ e ∈ w.ls.details, ∃ i ∈ reportedTimes w.now e.ts, E.rfc2822 (w.wall + (i - w.now)) = none := by
  have h0 := hr.inv0
  obtain ⟨hrun, hs⟩ := stepR_of_step h0.wf hs
  cases hs <;> try (simp only [hrun, reduceCtorEq] at ha; done)
  case run tid inp op rest f ht hx =>
    simp only [World.apply, hrun] at ha
    split at ha <;> cases ha
  case runPanic tid inp op rest ht hx =>
    obtain ⟨buf, rfl, hp, hn⟩ := hr.panic ht hx
    obtain ⟨rfl, _⟩ := (Reach.shape w hr).unix (i := tid) (buf := buf) (by rw [ht]; simp)
    exact ⟨⟨inp, buf, rest, rfl, ht, hp⟩, statusReply_none h0.wf hn⟩

/-- **C07.** If nobody asks for `status`, nothing any client, browser, token server or schedule does crashes the
daemon. -/
theorem C07_no_status {w : World} (hr : Reach E w)
    (hn : ∀ t buf, (t, .request buf) ∈ w.log → parseReq buf ≠ .status) : w.proc ≠ .aborted := by
  induction hr with
  | init hi => rw [hi.proc]; simp
  | @step w1 w2 act hr1 hs ih =>
    intro ha
    obtain ⟨⟨inp, buf, rest, _, ht, hp⟩, _⟩ := C07_abort hr1 hs ha
    obtain ⟨t, hreq⟩ := hr1.unix_request (b := buf) (by rw [ht]; simp)
    have hm := lastRequest_mem hreq
    obtain ⟨l, hl⟩ := (stepR_of_step hr1.inv0.wf hs).2.log
    exact hn t buf (by rw [hl]; exact List.mem_append_right _ hm) hp

/-- **C07.** If the time library never panics, nothing crashes the daemon. -/
theorem C07_never {w : World} (hf : ∀ t, (E.rfc2822 t).isSome = true) (hr : Reach E w) : w.proc ≠ .aborted := by
  induction hr with
  | init hi => rw [hi.proc]; simp
  | @step w1 w2 act hr1 hs ih =>
    intro ha
    obtain ⟨_, _, _, _, _, hn⟩ := C07_abort hr1 hs ha
    have := hf (w1.wall + (‹Int› - w1.now))
    simp_all

/-- **C08**, in part: `status` is answered without a crash if every time about which it reports lies in a range
which the time library can print (for chrono's RFC 2822 format: years 0 to 9999). Missing: that reachable states
only contain such times, which is not so (`C08_not`). -/
theorem C08_status_partial {w w' : World} {act : Action} {lo hi : SysTime}
    (hf : ∀ t, lo ≤ t → t ≤ hi → (E.rfc2822 t).isSome = true) (hr : Reach E w)
    (ht : ∀ e ∈ w.ls.details, ∀ i ∈ reportedTimes w.now e.ts, lo ≤ w.wall + (i - w.now) ∧ w.wall + (i - w.now) ≤ hi)
    (hs : w.step E act = some w') : w'.proc ≠ .aborted := by
  intro ha
  obtain ⟨_, e, he, i, hi', hn⟩ := C07_abort hr hs ha
  obtain ⟨h1, h2⟩ := ht e he i hi'
  have := hf _ h1 h2
  rw [hn] at this
  cases this

/-! ## Concrete cases -/

namespace Demo

/-- C07, C08: the daemon answers `status` while it holds a token and while an authorisation is pending. -/
example : ((after (sToken ++ [.connect (Cmd.wire .status)])).step env (.run 0 {})).map World.proc = some .running ∧
    (after (sToken ++ [.connect (Cmd.wire .status)])).ls.details.map (fun e => (reportedTimes 0 e.ts).length) = [2, 0] ∧
    AnswersStatus (after (sToken ++ [.connect (Cmd.wire .status)])) (.run 0 {}) :=
  ⟨by decide +kernel, by decide +kernel, {}, Cmd.wire .status, [.close], rfl, rfl, by decide +kernel⟩

/-- The same, with a time library which refuses years after 9999. -/
def env9999 : Env := { env with rfc2822 := fun t => if t < 253402300800000000000 then some "date" else none }

/-- A token server's answer with an absurd lifetime: 10^12 seconds. -/
def longAnswer : Body :=
  .obj [("token_type", .str "Bearer"), ("access_token", .str "T1"), ("expires_in", .u64 1000000000000)]

/-- The token with the absurd lifetime is stored, then a client asks for `status`. -/
def sStatus : List Action :=
  sAsk ++ [.http callback false] ++ n1 3 ++ [.run 1 { net := .body longAnswer }] ++ n1 4 ++
    [.connect (Cmd.wire .status), .run 0 {}]

/-- Reachability does not depend on the time library as far as the checks at start-up are concerned. -/
theorem w0_init9999 : IsInit env9999 w0 := { w0_init with conf := by decide +kernel }

theorem sStatus_aborts : (w0.run env9999 sStatus).map World.proc = some .aborted := by decide +kernel

end Demo

/-- **C08 does not hold**: with a time library that panics for years after 9999 (as chrono's `to_rfc2822` does), a
token server's answer with a very long `expires_in` makes `status` crash the daemon. -/
theorem C08_not : ¬ ∀ (E : Env), (∀ t, 0 ≤ t → t < 253402300800000000000 → (E.rfc2822 t).isSome = true) →
    ∀ w, Reach E w → w.proc ≠ .aborted := by
  intro h
  have h1 := Demo.sStatus_aborts
  cases h2 : Demo.w0.run Demo.env9999 Demo.sStatus with
  | none => rw [h2] at h1; cases h1
  | some w =>
    rw [h2] at h1
    refine h Demo.env9999 ?_ w (Demo.run_reach _ (.init Demo.w0_init9999) h2) (by simpa using h1)
    intro t _ ht
    simp [Demo.env9999, ht]

end Pizauth
