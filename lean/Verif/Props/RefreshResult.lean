import Verif.Proof.TraceInv
import Verif.Spec.Tokens
import Verif.Props.Demo
import Verif.Props.Tokens

/-!
# C17, C18, C19: what a refresh does, given the token server's answer

The theorems are about a thread which got the answer `net` to its refresh and has nothing left to do (that every such
thread gets there is C13). They say what it did to the account, and everything else it did.
-/

namespace Pizauth
open LockedState

variable {E : Env}

section lemmas
variable {w w1 : World} {i : Nat}

/-- The last thing a refresh thread did to the state. -/
theorem refresh_end (hr : Reach E w) (hi : i ≠ 0) (hd : w.threads i = []) {u : String} {a : Account} {r : String}
    {net : Net} (hm : .resp i u (refreshPost a r) net ∈ threadLog i w.log) :
    ∃ c id l o tail m, StepTo E w i [] (.rfStart id) [.rfSend c] ∧ c.tokenUri = u ∧ c.form = refreshPost a r ∧
      StepTo E w i l o tail ∧ tail ≠ [o] ∧ (∀ o ∈ tail, o.isPlain = true) ∧ SaysAll i tail m ∧
      threadLog i w.log = m ++ l ∧
      ((o = .rfPerm c ∧ net.IsPermanent ∧ l = [.resp i u (refreshPost a r) net, .post i u (refreshPost a r)]) ∨
       (∃ b tok x t, o = .rfStore c tok x (newRefreshToken b c.refreshToken) t ∧ net = .body b ∧ Issued b tok x ∧
          StepTo E w i l (.rfNow c tok x (newRefreshToken b c.refreshToken))
            [.rfStore c tok x (newRefreshToken b c.refreshToken) t] ∧
          l = [.resp i u (refreshPost a r) net, .post i u (refreshPost a r)]) ∨
       (o = .rfTransient c ∧ net.IsTransient ∧
          l = [.resp i u (refreshPost a r) net, .post i u (refreshPost a r)]) ∨
       (∃ id' cmd, net.IsTransient ∧
          StepTo E w i [.resp i u (refreshPost a r) net, .post i u (refreshPost a r)] (.rfTransient c)
            [.rfCmd id' c.name cmd] ∧
          (o = .rfCmdOk id' ∧ l = [.transientCmdEnd i true, .transientCmd i cmd c.name,
              .resp i u (refreshPost a r) net, .post i u (refreshPost a r)] ∨
           o = .rfCmdErr id' c.name ∧ l = [.transientCmdEnd i false, .transientCmd i cmd c.name,
              .resp i u (refreshPost a r) net, .post i u (refreshPost a r)]))) := by
  obtain ⟨l, o, tail, m, h1, h2, h3, h4, h5⟩ := hr.finished hi hd (by intro h; rw [h] at hm; cases hm)
  have hml : .resp i u (refreshPost a r) net ∈ l := by
    rw [h5] at hm
    exact (List.mem_append.mp hm).resolve_left h4.no_resp
  have hsome := h1.refresh hml
  have hne : tail ≠ [o] := by
    rintro rfl
    have := h3 o (by simp)
    rw [Op.not_plain_of_core h1.isCore] at this
    cases this
  obtain ⟨w1, w2, inp, f, _, _, _, _, _, _, hx, hn, _, _⟩ := h2.exec hne
  have nonplain : ∀ o' : Op, o'.isPlain = false → tail ≠ [o'] := by
    rintro o' ho' rfl
    rw [h3 o' (by simp)] at ho'
    cases ho'
  cases h1 with
  | http => cases hsome
  | exSend => cases hsome
  | exAwait => cases hsome
  | exSleep => cases hsome
  | exDone => cases hsome
  | fail => cases hsome
  | rfStart => cases hsome
  | rfSend => cases hml
  | rfAwait => simp at hml
  | rfPerm k1 k2 =>
    simp only [List.mem_cons, Obs.resp.injEq, reduceCtorEq, List.not_mem_nil, or_false] at hml
    obtain ⟨_, rfl, hf, rfl⟩ := hml
    rw [← hf] at h2 h5
    exact ⟨_, _, _, _, _, _, k1, rfl, hf.symm, h2, hne, h3, h4, h5, .inl ⟨rfl, k2, by rw [hf]⟩⟩
  | rfNow => cases hx; exact absurd hn.symm (nonplain _ rfl)
  | rfStore k1 k2 k3 =>
    simp only [List.mem_cons, Obs.resp.injEq, reduceCtorEq, List.not_mem_nil, or_false] at hml
    obtain ⟨_, rfl, hf, rfl⟩ := hml
    rw [← hf] at h2 h5 k3
    exact ⟨_, _, _, _, _, _, k1, rfl, hf.symm, h2, hne, h3, h4, h5, .inr (.inl ⟨_, _, _, _, rfl, rfl, k2, k3, by rw [hf]⟩)⟩
  | rfTransient k1 k2 =>
    simp only [List.mem_cons, Obs.resp.injEq, reduceCtorEq, List.not_mem_nil, or_false] at hml
    obtain ⟨_, rfl, hf, rfl⟩ := hml
    rw [← hf] at h2 h5
    exact ⟨_, _, _, _, _, _, k1, rfl, hf.symm, h2, hne, h3, h4, h5, .inr (.inr (.inl ⟨rfl, k2, by rw [hf]⟩))⟩
  | rfCmd => cases hx; exact absurd hn.symm (nonplain _ rfl)
  | rfCmdWait => cases hx <;> exact absurd hn.symm (nonplain _ rfl)
  | rfCmdOk k1 k2 k3 =>
    simp only [List.mem_cons, Obs.resp.injEq, reduceCtorEq, List.not_mem_nil, or_false, false_or] at hml
    obtain ⟨_, rfl, hf, rfl⟩ := hml
    rw [← hf] at h2 h5 k3
    exact ⟨_, _, _, _, _, _, k1, rfl, hf.symm, h2, hne, h3, h4, h5,
      .inr (.inr (.inr ⟨_, _, k2, k3, .inl ⟨rfl, by rw [hf]⟩⟩))⟩
  | rfCmdErr k1 k2 k3 =>
    simp only [List.mem_cons, Obs.resp.injEq, reduceCtorEq, List.not_mem_nil, or_false, false_or] at hml
    obtain ⟨_, rfl, hf, rfl⟩ := hml
    rw [← hf] at h2 h5 k3
    exact ⟨_, _, _, _, _, _, k1, rfl, hf.symm, h2, hne, h3, h4, h5,
      .inr (.inr (.inr ⟨_, _, k2, k3, .inr ⟨rfl, by rw [hf]⟩⟩))⟩

theorem refreshPost_inj {a a' : Account} {r r' : String} (h : refreshPost a r = refreshPost a' r') : r = r' := by
  unfold refreshPost at h
  simp at h
  exact h.2.1

theorem rfStart_token {id : Nat} {c : RfCtx} (h : StepTo E w i [] (.rfStart id) [.rfSend c]) {a : Account} {r : String}
    (hf : c.form = refreshPost a r) : c.refreshToken = r := by
  obtain ⟨w1, w2, inp, f, _, _, _, _, _, _, hx, hn, _, _⟩ := h.exec (by simp)
  cases hx <;> simp only [reduceCtorEq, List.cons.injEq, Op.rfSend.injEq, and_true, List.nil_eq] at hn
  subst hn
  exact refreshPost_inj hf

/-- What an operation of a refresh thread knows about the account. -/
theorem refresh_op (hr : Reach E w) {o : Op} {h : Nat} (ht : w.threads i = [o]) (ho : o.refreshHandle = some h) {e : Entry}
    {a : Account} (he : w.ls.Has e a) (hid : e.id = h) :
    ∃ t, e.ts = .active t ∧ RefreshingAccount w i e.name ∧ HoldsToken w.ls e.name t ∧ t.ongoing = true := by
  have hop := Reach.opsInv w hr i o (by rw [ht]; simp)
  subst hid
  have hra := refreshing_of ht ho he.1
  cases o <;> simp only [Op.refreshHandle, reduceCtorEq, Option.some.injEq] at ho <;>
    (obtain ⟨t, h1, h2, _⟩ := hop.2 e a he ho.symm; exact ⟨t, h1, hra, ⟨e, he.1, rfl, h1⟩, h2⟩)

theorem refresh_ctx (hr : Reach E w) {o : Op} {c : RfCtx} (ht : w.threads i = [o])
    (ho : o = .rfPerm c ∨ o = .rfTransient c ∨ ∃ tok x rt t, o = .rfStore c tok x rt t) {e : Entry}
    {a : Account} (he : w.ls.Has e a) (hid : e.id = c.id) :
    c.name = e.name ∧ ∃ t, e.ts = .active t ∧ t.refreshToken = some c.refreshToken := by
  have hop := Reach.opsInv w hr i o (by rw [ht]; simp)
  have hn := hr.inv0.wf.get?_name he.2
  rcases ho with rfl | rfl | ⟨_, _, _, _, rfl⟩ <;>
    (obtain ⟨t, h1, _, h3, _, _, h6⟩ := hop.2 e a he hid; exact ⟨h6.trans hn, t, h1, h3⟩)

theorem Tail.plain {tail ops : List Op} {m : List Obs} (h : Tail i tail m ops) (ht : ∀ o ∈ tail, o.isPlain = true) :
    ∀ o ∈ ops, o.isPlain = true := by
  induction h with
  | start => exact ht
  | step _ _ ih => exact fun o ho => ih o (List.mem_cons_of_mem _ ho)

theorem steps_evolves (hr : Reach E w1) : ∀ w, Steps E w1 w → LockedState.Evolves w1.ls w.ls :=
  Steps.induct hr (Evolves.refl _) fun _ _ _ _ _ h0 _ ih hs => ih.trans (hs.evolves h0)

/-- The account of a successful `transient_error_if_cmd`. -/
theorem cmd_name (hr : Reach E w) (hi : i ≠ 0) {id : Nat} (ht : w.threads i = [.rfCmdOk id]) {cmd n : String} {l : List Obs}
    (hl : threadLog i w.log = .transientCmdEnd i true :: .transientCmd i cmd n :: l) {e : Entry} {a : Account}
    (he : w.ls.Has e a) (hid : e.id = id) : e.name = n := by
  rcases hr.trace hi with ⟨_, h⟩ | h
  · rw [h] at hl; cases hl
  rw [ht, hl] at h
  generalize hl' : Obs.transientCmdEnd i true :: Obs.transientCmd i cmd n :: l = L at h
  generalize ht' : [Op.rfCmdOk id] = T at h
  cases h with
  | @core _ o h =>
    cases ht'
    cases h with
    | @rfCmdOk _ _ c net cmd' k1 k2 k3 =>
      cases hl'
      obtain ⟨v1, v2, inp', f', j1, j2, j3, j4, j5, j6, hx', j7, j8, j9⟩ := k3.exec (by simp)
      cases hx' <;> simp only [reduceCtorEq, List.cons.injEq, Op.rfCmd.injEq, and_true, true_and] at j7
      rename_i e1 ac t cmd' he1 hts hmod hcmd hid1
      obtain ⟨hn, _⟩ := refresh_ctx j1 j4 (.inr (.inl rfl)) he1 hid1
      have hm := mem_put_new (ls := v1.ls) (ts := .active { t with lastAttempt := some v1.now, fails := t.fails + 1 })
        he1.1 rfl
      dsimp only at j8
      rw [j8] at hm
      obtain ⟨_, h1, _⟩ := (steps_evolves (Reach.step _ j1 j2) _ j3).old he (by rw [hid, ← j7.1, ← j8]; exact Nat.lt_succ_self _)
      rw [(Reach.step _ j1 j2).inv0.wf.entry_id_inj h1.1 hm (by rw [hid, ← j7.1])]
      exact hn.symm
  | answer => cases ht'
  | tail _ _ h3 h4 =>
    subst ht'
    have := h4.plain h3 _ (List.mem_singleton.mpr rfl)
    cases this

theorem holds_put {ls : LockedState} {e : Entry} {ts : TokenState} (he : e ∈ ls.details) :
    ∃ e' ∈ (ls.put e.id ts).details, e'.name = e.name ∧ e'.ts = ts :=
  ⟨_, mem_put_new he rfl, rfl, rfl⟩

theorem holds_bump_put {ls : LockedState} {e : Entry} {ts : TokenState} (he : e ∈ ls.details) :
    ∃ e' ∈ (ls.bump.put e.id ts).details, e'.name = e.name ∧ e'.ts = ts :=
  ⟨_, mem_put_new (ls := ls.bump) he rfl, rfl, rfl⟩

end lemmas

/-- **C18.** After a permanent failure the token is removed and one event queued, unless the account was changed
meanwhile: then nothing is done. -/
theorem C18_permanent {w : World} {i : Nat} {u : String} {a : Account} {r : String} {net : Net} (hr : Reach E w)
    (hi : i ≠ 0) (hd : w.threads i = []) (hm : .resp i u (refreshPost a r) net ∈ threadLog i w.log)
    (hp : net.IsPermanent) :
    (∃ n, DidStep E i w (fun w1 w2 => RefreshingAccount w1 i n ∧
        (∃ t, HoldsToken w1.ls n t ∧ t.refreshToken = some r) ∧ HoldsNothing w2.ls n) ∧
      threadLog i w.log = [.event i n .invalidated, .resp i u (refreshPost a r) net, .post i u (refreshPost a r)]) ∨
    (DidStep E i w (fun w1 w2 => HandleLost w1 i ∧ w2.ls = w1.ls) ∧
      threadLog i w.log = [.resp i u (refreshPost a r) net, .post i u (refreshPost a r)]) := by
  obtain ⟨c, id, l, o, tail, m, h1, h2, h3, h4, hne, h5, h6, h7, h8⟩ := refresh_end hr hi hd hm
  have hrt := rfStart_token h1 h3
  obtain ⟨w1, w2, inp, f, g1, g2, g3, g4, g5, g6, hx, g7, g8, g9⟩ := h4.exec hne
  rcases h8 with ⟨rfl, _, rfl⟩ | ⟨b, tok, x, t, rfl, rfl, hiss, _, _⟩ | ⟨_, ht, _⟩ | ⟨_, _, ht, _⟩
  · cases hx with
    | rfPermStale hst =>
      right
      subst g7
      cases h6
      exact ⟨⟨w1, w2, inp, g1, g2, g3, handleLost_of g4 rfl hst, g8.symm⟩, h7⟩
    | @rfPermOk _ _ e ac he hid =>
      left
      subst g7
      simp [SaysAll] at h6
      subst h6
      obtain ⟨hn, t, k1, k2⟩ := refresh_ctx g1 g4 (.inl rfl) he hid
      obtain ⟨_, _, k3, _⟩ := refresh_op g1 g4 rfl he hid
      refine ⟨e.name, ⟨w1, w2, inp, g1, g2, g3, k3, ⟨t, ⟨e, he.1, rfl, k1⟩, by rw [k2, hrt]⟩, ?_⟩, ?_⟩
      · rw [← g8]; exact holds_put he.1
      · rw [h7, hn]; rfl
  · exfalso
    rcases hp with ⟨_, _, h⟩ | ⟨_, h⟩ | h | ⟨b', h, hni⟩ <;> cases h
    exact hni ⟨_, _, hiss⟩
  all_goals
    exfalso
    rcases ht with rfl | rfl | rfl | ⟨m', rfl⟩ <;>
      (rcases hp with ⟨_, _, h⟩ | ⟨_, h⟩ | h | ⟨b', h, hni⟩ <;> cases h)

/-- **C19.** After an answer which grants a token, the token is stored with the refresh token given by
`newRefreshToken`, with no failures and no marks, and one event is queued; unless the account was changed meanwhile
(then nothing is done), or the clock cannot represent the token's expiry (then the token is removed). `t` is a moment
after the answer, at which the thread looked at the clock. -/
theorem C19_success {w : World} {i : Nat} {u : String} {a : Account} {r tok : String} {x : Nat} {b : Body}
    (hr : Reach E w) (hi : i ≠ 0) (hd : w.threads i = [])
    (hm : .resp i u (refreshPost a r) (.body b) ∈ threadLog i w.log) (hb : Issued b tok x) :
    ∃ t, DidStep E i w (fun w1 w2 => w1.now = t ∧ w2.ls = w1.ls ∧
      threadLog i w1.log = [.resp i u (refreshPost a r) (.body b), .post i u (refreshPost a r)]) ∧
    ((∃ n x', DidStep E i w (fun w1 w2 => RefreshingAccount w1 i n ∧
        (∃ t, HoldsToken w1.ls n t ∧ t.refreshToken = some r) ∧
        HoldsToken w2.ls n
          { accessToken := tok, obtained := t, expiry := x', refreshToken := newRefreshToken b r, ongoing := false,
            fails := 0, lastAttempt := none } ∧
        ∃ a', w1.ls.config.get? n = some a' ∧ ExpiryRule w1.ls.config a' t x x') ∧
      threadLog i w.log = [.event i n .refresh, .resp i u (refreshPost a r) (.body b), .post i u (refreshPost a r)]) ∨
    (∃ n, DidStep E i w (fun w1 w2 => RefreshingAccount w1 i n ∧ HoldsNothing w2.ls n) ∧
      timeMax < t + x * 1000000000 ∧ threadLog i w.log =
        [.event i n .invalidated, .resp i u (refreshPost a r) (.body b), .post i u (refreshPost a r)]) ∨
    (DidStep E i w (fun w1 w2 => HandleLost w1 i ∧ w2.ls = w1.ls) ∧
      threadLog i w.log = [.resp i u (refreshPost a r) (.body b), .post i u (refreshPost a r)])) := by
  obtain ⟨c, id, l, o, tail, m, h1, h2, h3, h4, hne, h5, h6, h7, h8⟩ := refresh_end hr hi hd hm
  have hrt := rfStart_token h1 h3
  obtain ⟨w1, w2, inp, f, g1, g2, g3, g4, g5, g6, hx, g7, g8, g9⟩ := h4.exec hne
  rcases h8 with ⟨_, hp, _⟩ | ⟨b', tok', x', t, rfl, hb', hiss, hnow, rfl⟩ | ⟨_, ht, _⟩ | ⟨_, _, ht, _⟩
  · exfalso
    rcases hp with ⟨_, _, h⟩ | ⟨_, h⟩ | h | ⟨b', h, hni⟩ <;> cases h
    exact hni ⟨_, _, hb⟩
  · cases hb'
    have etok : tok' = tok := by have := hiss.token.symm.trans hb.token; simpa using this
    have ex : x' = x := by have := hiss.expires.symm.trans hb.expires; simpa using this
    subst etok ex
    obtain ⟨v1, v2, inp', f', j1, j2, j3, j4, j5, j6, hx', j7, j8, j9⟩ := hnow.exec (by simp)
    cases hx'
    simp only [List.cons.injEq, Op.rfStore.injEq, and_true, true_and] at j7
    refine ⟨t, ⟨v1, v2, inp', j1, j2, j3, j7, j8.symm, ?_⟩, ?_⟩
    · exact j6
    cases hx with
    | rfStoreStale hst =>
      right; right
      subst g7
      cases h6
      exact ⟨⟨w1, w2, inp, g1, g2, g3, handleLost_of g4 rfl hst, g8.symm⟩, h7⟩
    | @rfStoreNoExpiry _ _ _ _ _ _ e ac he hid hex =>
      right; left
      subst g7
      simp [SaysAll] at h6
      subst h6
      obtain ⟨hn, _, _, _⟩ := refresh_ctx g1 g4 (.inr (.inr ⟨_, _, _, _, rfl⟩)) he hid
      obtain ⟨_, _, k3, _⟩ := refresh_op g1 g4 rfl he hid
      refine ⟨e.name, ⟨w1, w2, inp, g1, g2, g3, k3, ?_⟩, ?_, ?_⟩
      · rw [← g8]; exact holds_put he.1
      · unfold ExpiryAt checkedAdd at hex
        split at hex
        · cases hex
        · rename_i hc
          split at hc
          · cases hc
          · simp only [secs, nsPerSec] at *; omega
      · rw [h7, hn]; rfl
    | @rfStoreOk _ _ _ _ _ _ e ac expiry he hid hex =>
      left
      subst g7
      simp [SaysAll] at h6
      subst h6
      obtain ⟨hn, t', k1, k2⟩ := refresh_ctx g1 g4 (.inr (.inr ⟨_, _, _, _, rfl⟩)) he hid
      obtain ⟨_, _, k3, _⟩ := refresh_op g1 g4 rfl he hid
      refine ⟨e.name, expiry, ⟨w1, w2, inp, g1, g2, g3, k3, ⟨t', ⟨e, he.1, rfl, k1⟩, by rw [k2, hrt]⟩, ?_,
        ac, g1.inv0.wf.get?_name he.2 ▸ he.2, expiryRule_of hex⟩, ?_⟩
      · rw [← g8, hrt]; exact holds_put he.1
      · rw [h7, hn]; rfl
  all_goals
    exfalso
    rcases ht with h | h | h | ⟨m', h⟩ <;> cases h

/-- The state after a transient failure: the token is as before, the failure is counted, its time recorded. -/
def FailedOnce (t : ActiveTok) (now : Instant) (ongoing : Bool) : ActiveTok :=
  { t with ongoing := ongoing, lastAttempt := some now, fails := t.fails + 1 }

/-- **C17.** After a transient failure, unless the account was changed meanwhile, the token is kept and the failure is
counted and the mark removed. Exactly when the number of failures is a multiple of six and there is a
`transient_error_if_cmd`, that command is run, and its failure removes the token. -/
theorem C17_transient {w : World} {i : Nat} {u : String} {a : Account} {r : String} {net : Net} (hr : Reach E w)
    (hi : i ≠ 0) (hd : w.threads i = []) (hm : .resp i u (refreshPost a r) net ∈ threadLog i w.log)
    (ht : net.IsTransient) :
    (DidStep E i w (fun w1 w2 => HandleLost w1 i ∧ w2.ls = w1.ls) ∧
      threadLog i w.log = [.resp i u (refreshPost a r) net, .post i u (refreshPost a r)]) ∨
    (∃ n, DidStep E i w (fun w1 w2 => RefreshingAccount w1 i n ∧
        ∃ t, HoldsToken w1.ls n t ∧ HoldsToken w2.ls n (FailedOnce t w1.now false) ∧
          ¬ (6 ∣ t.fails + 1 ∧ w1.ls.config.transientErrorIfCmd.isSome)) ∧
      threadLog i w.log = [.resp i u (refreshPost a r) net, .post i u (refreshPost a r)]) ∨
    (∃ n cmd, DidStep E i w (fun w1 w2 => RefreshingAccount w1 i n ∧ w1.ls.config.transientErrorIfCmd = some cmd ∧
        ∃ t, HoldsToken w1.ls n t ∧ HoldsToken w2.ls n (FailedOnce t w1.now true) ∧ 6 ∣ t.fails + 1) ∧
      ((DidStep E i w (fun w1 w2 => HandleLost w1 i ∧ w2.ls = w1.ls ∨ RefreshingAccount w1 i n ∧
          ∃ t, HoldsToken w1.ls n t ∧ HoldsToken w2.ls n { t with ongoing := false }) ∧
        threadLog i w.log = [.transientCmdEnd i true, .transientCmd i cmd n,
          .resp i u (refreshPost a r) net, .post i u (refreshPost a r)]) ∨
       (DidStep E i w (fun w1 w2 => HandleLost w1 i ∧ w2.ls = w1.ls ∨ RefreshingAccount w1 i n ∧
          HoldsNothing w2.ls n) ∧
        threadLog i w.log = [.event i n .invalidated, .transientCmdEnd i false, .transientCmd i cmd n,
          .resp i u (refreshPost a r) net, .post i u (refreshPost a r)]))) := by
  obtain ⟨c, id, l, o, tail, m, h1, h2, h3, h4, hne, h5, h6, h7, h8⟩ := refresh_end hr hi hd hm
  obtain ⟨w1, w2, inp, f, g1, g2, g3, g4, g5, g6, hx, g7, g8, g9⟩ := h4.exec hne
  rcases h8 with ⟨_, hp, _⟩ | ⟨b', tok', x', t, _, hb', _, _, _⟩ | ⟨rfl, _, rfl⟩ | ⟨id', cmd, _, hc, h8⟩
  · exfalso
    rcases ht with rfl | rfl | rfl | ⟨m', rfl⟩ <;>
      (rcases hp with ⟨_, _, h⟩ | ⟨_, h⟩ | h | ⟨b', h, hni⟩ <;> cases h)
  · exfalso
    rcases ht with rfl | rfl | rfl | ⟨m', rfl⟩ <;> cases hb'
  · cases hx with
    | rfTransientStale hst =>
      left
      subst g7
      simp [SaysAll] at h6
      subst h6
      exact ⟨⟨w1, w2, inp, g1, g2, g3, handleLost_of g4 rfl hst, g8.symm⟩, h7⟩
    | rfTransientCmd =>
      exfalso
      have := h5 _ (by rw [← g7]; simp; rfl)
      cases this
    | @rfTransientKeep _ _ e ac t he hid hts hk =>
      right; left
      subst g7
      simp [SaysAll] at h6
      subst h6
      obtain ⟨_, _, k3, _⟩ := refresh_op g1 g4 rfl he hid
      refine ⟨e.name, ⟨w1, w2, inp, g1, g2, g3, k3, t, ⟨e, he.1, rfl, hts⟩, ?_, ?_⟩, h7⟩
      · rw [← g8]; exact holds_bump_put he.1
      · intro ⟨hd6, hsm⟩
        exact hk ⟨Nat.mod_eq_zero_of_dvd hd6, hsm⟩
  · right; right
    obtain ⟨v1, v2, inp', f', j1, j2, j3, j4, j5, j6, hx', j7, j8, j9⟩ := hc.exec (by simp)
    cases hx' <;> simp only [reduceCtorEq, List.cons.injEq, Op.rfCmd.injEq, and_true, true_and] at j7
    rename_i e ac t cmd' he hts hmod hcmd hid
    obtain ⟨j71, j72⟩ := j7
    obtain ⟨hn, _⟩ := refresh_ctx j1 j4 (.inr (.inl rfl)) he hid
    obtain ⟨t', k0, k3, _, kon⟩ := refresh_op j1 j4 rfl he hid
    cases hts.symm.trans k0
    refine ⟨e.name, cmd, ⟨v1, v2, inp', j1, j2, j3, k3, ?_, t, ⟨e, he.1, rfl, hts⟩, ?_, ?_⟩, ?_⟩
    · rw [hcmd, j72]
    · rw [← j8]
      obtain ⟨e', h1, h2, h3⟩ := holds_put (ts := .active { t with lastAttempt := some v1.now, fails := t.fails + 1 }) he.1
      refine ⟨e', h1, h2, ?_⟩
      rw [h3]
      unfold FailedOnce
      rw [kon]
    · exact Nat.dvd_of_mod_eq_zero hmod
    rcases h8 with ⟨rfl, rfl⟩ | ⟨rfl, rfl⟩
    · left
      cases hx with
      | rfCmdOkStale hst =>
        subst g7
        simp [SaysAll] at h6
        subst h6
        exact ⟨⟨w1, w2, inp, g1, g2, g3, .inl ⟨handleLost_of g4 rfl hst, g8.symm⟩⟩, by rw [h7, hn]; rfl⟩
      | @rfCmdOkOk _ _ e' ac' t'' he' hid' hts' =>
        subst g7
        simp [SaysAll] at h6
        subst h6
        obtain ⟨_, _, k3', _⟩ := refresh_op g1 g4 rfl he' hid'
        have hn' := (cmd_name g1 hi g4 g6 he' hid').trans hn
        rw [hn'] at k3'
        refine ⟨⟨w1, w2, inp, g1, g2, g3, .inr ⟨k3', t'', ⟨e', he'.1, hn', hts'⟩, ?_⟩⟩, by rw [h7, hn]; rfl⟩
        rw [← g8, ← hn']; exact holds_put he'.1
    · right
      cases hx with
      | rfCmdErrStale hst =>
        subst g7
        simp [SaysAll] at h6
        subst h6
        exact ⟨⟨w1, w2, inp, g1, g2, g3, .inl ⟨handleLost_of g4 rfl hst, g8.symm⟩⟩, by rw [h7, hn]; rfl⟩
      | @rfCmdErrOk _ _ _ e' ac' he' hid' =>
        subst g7
        simp [SaysAll] at h6
        subst h6
        obtain ⟨_, _, k3', _⟩ := refresh_op g1 g4 rfl he' hid'
        have hop := Reach.opsInv w1 g1 i (.rfCmdErr id' c.name) (by rw [g4]; simp)
        obtain ⟨_, _, _, h9⟩ := hop.2 e' ac' he' hid'
        have hn' : e'.name = e.name := (g1.inv0.wf.get?_name he'.2).symm.trans ((h9 _ rfl).symm.trans hn)
        rw [hn'] at k3'
        refine ⟨⟨w1, w2, inp, g1, g2, g3, .inr ⟨k3', ?_⟩⟩, by rw [h7, hn]; rfl⟩
        rw [← g8, ← hn']; exact holds_put he'.1

section Example
open Demo

/-- Access token, refresh token, mark and failures. -/
def tokOf : TokenState → Option (String × Option String × Bool × Nat)
  | .active t => some (t.accessToken, t.refreshToken, t.ongoing, t.fails)
  | _ => none

/-- The refresh of `sRefresh` fails for good: the token is gone and an event is queued. -/
example : (w0.run env (sRefresh ++ [.run 2 {}, .run 2 { net := .status 400 none }, .run 2 {}, .run 2 {}, .run 2 {}])).isSome = true ∧
    (after (sRefresh ++ [.run 2 {}, .run 2 { net := .status 400 none }, .run 2 {}, .run 2 {}, .run 2 {}])).ls.details.map
      (fun e => (e.name, e.ts)) = [("a", .empty), ("b b", .empty)] ∧
    (threadLog 2 (after (sRefresh ++ [.run 2 {}, .run 2 { net := .status 400 none }, .run 2 {}, .run 2 {}, .run 2 {}])).log).head? =
      some (.event 2 "a" .invalidated) := by
  decide +kernel

/-- It fails transiently, for the first time: the token is kept. -/
example : (w0.run env (sRefresh ++ [.run 2 {}, .run 2 { net := .transport .dns }, .run 2 {}, .run 2 {}])).isSome = true ∧
    (after (sRefresh ++ [.run 2 {}, .run 2 { net := .transport .dns }, .run 2 {}, .run 2 {}])).ls.details.map
      (fun e => tokOf e.ts) =
      [some ("T1", some "R1", false, 1), none] ∧
    ((after (sRefresh ++ [.run 2 {}, .run 2 { net := .transport .dns }, .run 2 {}, .run 2 {}])).threads 2).isEmpty = true := by
  decide +kernel

/-- It succeeds, with a new refresh token or without. -/
example : (w0.run env sRefreshed).isSome = true ∧
    (after sRefreshed).ls.details.map
      (fun e => tokOf e.ts) =
      [some ("T2", some "R1", false, 0), none] ∧ ((after sRefreshed).threads 2).isEmpty = true := by
  decide +kernel

end Example

end Pizauth
