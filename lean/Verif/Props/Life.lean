import Verif.Proof.Life
import Verif.Props.Reload

/-!
# C89: the life of an account
-/

namespace Pizauth
open LockedState

variable {E : Env}

/-- **C89.** Whatever the process does next: if it changes the token state of an account at all, it is one of the changes
of `Change`, for the reason stated there. -/
theorem C89 {w w' : World} {act : Action} {n : String} {s s' : TokenState} (hr : Reach E w)
    (hs : w.step E act = some w') (h : Holds w.ls n s) (h' : Holds w'.ls n s') : s' = s ∨ Change E w act n s s' := by
  have h0 := hr.inv0
  have same : Holds w.ls n s' → s' = s := fun ⟨e, h1, h2, h3⟩ => by rw [← h3]; exact holds_inj h0.wf h1 h2 h
  replace hs := (stepR_of_step h0.wf hs).2
  cases hs <;> try exact .inl (same h')
  case notScan ls' hpc hn =>
    obtain ⟨e', he', hn', rfl⟩ := h'
    rcases hn.back e' he' with ⟨hm, _⟩ | ⟨e0, he0, p, hp0, hn0, hts, _⟩
    · exact .inl (same ⟨e', hm, hn', rfl⟩)
    · rw [hts, ← holds_inj h0.wf he0 (hn0.symm.trans hn') h, (dueEntry_some.mp hp0).1]
      exact .inr .reminded
  case run tid inp op rest f ht hx =>
    have hop : op ∈ w.threads tid := by rw [ht]; simp
    have main : ∀ buf, op = .unix buf → Carries w (.run tid inp) buf := by
      rintro buf rfl
      obtain ⟨rfl, hth⟩ := (Reach.shape w hr).unix hop
      exact ⟨hth, inp, rfl⟩
    have rf : ∀ {c : RfCtx} {e : Entry} {a : Account}, op = .rfPerm c ∨ op = .rfTransient c ∨
        (∃ tok x rt t, op = .rfStore c tok x rt t) → w.threads tid = [op] → w.ls.Has e a → e.id = c.id →
        ∃ t, e.ts = .active t ∧ t.refreshToken = some c.refreshToken ∧ t.ongoing = true := by
      intro c e a hc ht1 he hid
      obtain ⟨_, t, k1, k2⟩ := refresh_ctx hr ht1 hc he hid
      obtain ⟨t', g1, _, _, g2⟩ := refresh_op (h := c.id) hr ht1
        (by rcases hc with rfl | rfl | ⟨_, _, _, _, rfl⟩ <;> rfl) he hid
      rw [k1] at g1
      cases g1
      exact ⟨t, k1, k2, g2⟩
    cases hx <;> try exact .inl (same h')
    case auth buf u e a url he hreq _ =>
      rcases put_change h0.wf rfl he.1 h h' with h | ⟨rfl, rfl, rfl⟩
      · exact .inl h
      · right
        rcases hreq with ⟨h1, h2⟩ | ⟨h1, h2 | ⟨p, h2⟩⟩ <;> rw [h2]
        · exact .asked (main _ rfl) (.inl h1) rfl
        · exact .asked (main _ rfl) (.inr h1) rfl
        · exact .again (main _ rfl) h1 rfl
    case restoreOk buf d plain ls' hreq hd hdec hres =>
      obtain ⟨dmp, k1, k2, k3⟩ := restore_ok h0.wf hres
      obtain ⟨e', he', hn', rfl⟩ := h'
      rcases k3.back e' he' with ⟨hm, _⟩ | ⟨_, e, he, hen, hrs⟩
      · exact .inl (same ⟨e', hm, hn', rfl⟩)
      · obtain ⟨_, g1, tok, o, x, rt, g2, g3⟩ := Restorable.offers.mp hrs
        rw [hen, hn'] at g2
        rw [g3, ← holds_inj h0.wf he (hen.trans hn') h]
        exact .inr (.restored (main _ rfl) hreq hdec k1 k2 g2 g1 rfl rfl rfl)
    case revoke buf e a he hreq =>
      rcases put_change h0.wf rfl he.1 h h' with h | ⟨rfl, rfl, rfl⟩
      · exact .inl h
      · exact .inr (.revoked (main _ rfl) hreq)
    case install c ls' hu =>
      obtain ⟨k1, k2⟩ := h0.inst tid c hop
      obtain ⟨_, g1, _, _, _, g2⟩ := h0.wf.updateConf (c := c) k1 k2
      rw [hu] at g1
      cases g1
      obtain ⟨e', he', hn', rfl⟩ := h'
      obtain ⟨a', g3, ⟨o, g4, _⟩ | ⟨_, g5, g6⟩⟩ := g2 e' he'
      · exact .inl (same ⟨e', g4.1, hn', rfl⟩)
      · obtain ⟨e, he, hn, rfl⟩ := h
        obtain ⟨a, ha⟩ := h0.wf.has he
        obtain ⟨rfl, _⟩ := (Reach.shape w hr).install hop
        rw [g5]
        refine .inr (.reloaded ht (hn ▸ ha.2) (hn' ▸ g3) fun hsec => g6 a ?_ hsec.symm)
        rw [hn', ← hn]; exact ha.2
    case httpError buf sec uri s0 e a p x m hp hst he hts hps hre ho hm =>
      have ht1 := (core_of hr ht rfl).2.1
      rcases put_change h0.wf rfl he.1 h h' with h | ⟨rfl, rfl, rfl⟩
      · exact .inl h
      · right
        rw [hts]
        exact .denied ht1 ⟨‹_›, by rw [‹uri.param "state" = _›, hps], e, he.1, rfl, hts⟩
          ⟨a, x, he.2, hre, sameOrigin_iff.mpr ho⟩ hm
    case exDoneOk c b e a x tok x' he hid g1 g2 g3 g4 hex =>
      rcases put_change h0.wf rfl he.1 h h' with h | ⟨rfl, rfl, rfl⟩
      · exact .inl h
      · right
        obtain ⟨_, _, hc⟩ := core_of hr ht rfl
        generalize hL : threadLog tid w.log = L at hc
        cases hc with
        | exDone k1 k2 k3 =>
          obtain ⟨p, code, j1, j2⟩ := exchange_has k1 he hid
          rw [j1]
          exact .granted j2 hL (issued_of g1 g2 g3 g4) he.2 (expiryRule_of hex)
    case failOk id m e a he hid =>
      rcases put_change h0.wf rfl he.1 h h' with h | ⟨rfl, rfl, rfl⟩
      · exact .inl h
      · right
        obtain ⟨_, _, hc⟩ := core_of hr ht rfl
        generalize hL : threadLog tid w.log = L at hc
        generalize hO : Op.fail id m = O at hc
        cases hc <;> try cases hO
        rename_i c l l0 k0 k1 k2
        have k1 := ‹Exchange E w tid c _›
        have k2 := ‹FailWhy E w tid c _ m _›
        obtain ⟨p, code, j1, j2⟩ := exchange_has k1 he hid
        obtain ⟨⟨u, f, net, l', j3⟩, j4⟩ := fail_log k1 k2
        rw [j1]
        exact .failed j2 (hL.trans j3) (by rw [hL]; exact j4)
    case rfStartOk id e a t r he hid hts hong hrt =>
      rcases put_change (ls1 := w.ls.bump) h0.wf rfl he.1 h h' with h | ⟨rfl, rfl, rfl⟩
      · exact .inl h
      · right
        obtain ⟨hi, _, hc⟩ := core_of hr ht rfl
        rw [hts]
        refine .begun hi ?_ hong (by rw [hrt]; rfl)
        generalize threadLog tid w.log = L at hc
        cases hc
        rfl
    case rfStartNoRt id e a t he hid hts hong hrt =>
      rcases put_change (ls1 := w.ls.bump) h0.wf rfl he.1 h h' with h | ⟨rfl, rfl, rfl⟩
      · exact .inl h
      · right
        obtain ⟨hi, _, hc⟩ := core_of hr ht rfl
        rw [hts]
        refine .unrefreshable hi ?_ hong hrt
        generalize threadLog tid w.log = L at hc
        cases hc
        rfl
    case rfPermOk c e a he hid =>
      rcases put_change h0.wf rfl he.1 h h' with h | ⟨rfl, rfl, rfl⟩
      · exact .inl h
      · right
        obtain ⟨hi, ht1, hc⟩ := core_of hr ht rfl
        obtain ⟨t, j1, j2, j3⟩ := rf (.inl rfl) ht1 he hid
        generalize hL : threadLog tid w.log = L at hc
        cases hc with
        | rfPerm k1 k2 =>
          obtain ⟨a0, hf⟩ := rfStart_form k1
          rw [j1]
          exact .refused ⟨_, a0, by rw [hL, hf]; rfl⟩ j3 j2 k2
    case rfStoreNoExpiry c tok x rt t0 e a he hid hex =>
      rcases put_change h0.wf rfl he.1 h h' with h | ⟨rfl, rfl, rfl⟩
      · exact .inl h
      · right
        obtain ⟨hi, ht1, hc⟩ := core_of hr ht rfl
        obtain ⟨t, j1, j2, j3⟩ := rf (.inr (.inr ⟨_, _, _, _, rfl⟩)) ht1 he hid
        generalize hL : threadLog tid w.log = L at hc
        cases hc with
        | rfStore k1 k2 k3 =>
          obtain ⟨a0, hf⟩ := rfStart_form k1
          obtain ⟨v1, v2, inp', f', q1, q2, q3, _, _, _, hx', q7, _, _⟩ := k3.exec (by simp)
          cases hx'
          simp at q7
          have hle := (Steps.step _ .refl q2).trans q3 |>.now q1
          rw [j1]
          refine .endless ⟨_, a0, by rw [hL, hf]; rfl⟩ j3 j2 k2 ?_
          unfold ExpiryAt checkedAdd at hex
          split at hex
          · cases hex
          · rename_i hc
            split at hc
            · cases hc
            · simp only [secs, nsPerSec] at *; omega
    case rfStoreOk c tok x rt t0 e a x' he hid hex =>
      rcases put_change h0.wf rfl he.1 h h' with h | ⟨rfl, rfl, rfl⟩
      · exact .inl h
      · right
        obtain ⟨hi, ht1, hc⟩ := core_of hr ht rfl
        obtain ⟨t, j1, j2, j3⟩ := rf (.inr (.inr ⟨_, _, _, _, rfl⟩)) ht1 he hid
        generalize hL : threadLog tid w.log = L at hc
        cases hc with
        | rfStore k1 k2 k3 =>
          obtain ⟨a0, hf⟩ := rfStart_form k1
          obtain ⟨v1, v2, inp', f', q1, q2, q3, _, _, _, hx', q7, _, _⟩ := k3.exec (by simp)
          cases hx'
          simp at q7
          have hle := (Steps.step _ .refl q2).trans q3 |>.now q1
          rw [j1]
          exact .refreshed ⟨_, a0, by rw [hL, hf]; rfl⟩ j3 j2 k2 (by omega) he.2 (expiryRule_of hex)
    case rfTransientCmd c e a t cmd he hts hmod hcmd0 hid0 =>
      have hid := ‹e.id = c.id›
      have hcmd := ‹w.ls.config.transientErrorIfCmd = some cmd›
      have hts := ‹e.ts = .active t›
      have hmod := ‹(t.fails + 1) % transientErrorRetries = 0›
      rcases put_change h0.wf rfl he.1 h h' with h | ⟨rfl, rfl, rfl⟩
      · exact .inl h
      · right
        obtain ⟨hi, ht1, hc⟩ := core_of hr ht rfl
        obtain ⟨t', j1, j2, j3⟩ := rf (.inr (.inl rfl)) ht1 he hid
        rw [hts] at j1
        cases j1
        generalize hL : threadLog tid w.log = L at hc
        cases hc with
        | rfTransient k1 k2 =>
          obtain ⟨a0, hf⟩ := rfStart_form k1
          rw [hts]
          have := Change.postponed (E := E) (inp := inp) (n := e.name) (ongoing := true) ⟨_, a0, by rw [hL, hf]; rfl⟩ j3 j2 k2
            (iff_of_true rfl ⟨Nat.dvd_of_mod_eq_zero hmod, by rw [hcmd]; rfl⟩)
          have ht : t = { t with ongoing := true } := by cases t; cases j3; rfl
          rw [ht] at this ⊢
          exact this
    case rfTransientKeep c e a t he hid hts hno =>
      rcases put_change (ls1 := w.ls.bump) h0.wf rfl he.1 h h' with h | ⟨rfl, rfl, rfl⟩
      · exact .inl h
      · right
        obtain ⟨hi, ht1, hc⟩ := core_of hr ht rfl
        obtain ⟨t', j1, j2, j3⟩ := rf (.inr (.inl rfl)) ht1 he hid
        rw [hts] at j1
        cases j1
        generalize hL : threadLog tid w.log = L at hc
        cases hc with
        | rfTransient k1 k2 =>
          obtain ⟨a0, hf⟩ := rfStart_form k1
          rw [hts]
          exact .postponed ⟨_, a0, by rw [hL, hf]; rfl⟩ j3 j2 k2
            (iff_of_false (by simp) fun h => hno ⟨Nat.mod_eq_zero_of_dvd h.1, h.2⟩)
    case rfCmdOkOk id e a t he hid hts =>
      rcases put_change h0.wf rfl he.1 h h' with h | ⟨rfl, rfl, rfl⟩
      · exact .inl h
      · right
        obtain ⟨hi, ht1, hc⟩ := core_of hr ht rfl
        obtain ⟨t', j1, _, _, j3⟩ := refresh_op (h := id) hr ht1 rfl he hid
        rw [hts] at j1
        cases j1
        generalize hL : threadLog tid w.log = L at hc
        cases hc with
        | rfCmdOk k1 k2 k3 =>
          obtain ⟨a0, hf⟩ := rfStart_form k1
          rw [hts, cmd_name hr hi ht1 hL he hid]
          exact .forgiven ⟨_, a0, by rw [hL, hf]; rfl⟩ j3 k2
    case rfCmdErrOk id act e a he hid =>
      rcases put_change h0.wf rfl he.1 h h' with h | ⟨rfl, rfl, rfl⟩
      · exact .inl h
      · right
        obtain ⟨hi, ht1, hc⟩ := core_of hr ht rfl
        obtain ⟨t', j1, _, _, j3⟩ := refresh_op (h := id) hr ht1 rfl he hid
        have hop := Reach.opsInv w hr _ _ hop
        obtain ⟨_, _, _, hn⟩ := hop.2 e a he hid
        generalize hL : threadLog tid w.log = L at hc
        cases hc with
        | rfCmdErr k1 k2 k3 =>
          obtain ⟨a0, hf⟩ := rfStart_form k1
          rw [j1]
          have hn' : e.name = _ := (h0.wf.get?_name he.2).symm.trans (hn _ rfl).symm
          rw [hn']
          exact .givenUp ⟨_, a0, by rw [hL, hf]; rfl⟩ j3 k2

/-- **C89.** A token is never replaced by an authorisation request in one step: an account loses its token first. -/
theorem C89_never {w w' : World} {act : Action} {n : String} {t : ActiveTok} {p : PendingTok} (hr : Reach E w)
    (hs : w.step E act = some w') (h : HoldsToken w.ls n t) : ¬ HoldsPending w'.ls n p := by
  intro h'
  rcases C89 hr hs h h' with h | h <;> cases h

/-- **C89.** An account which had neither a token nor an outstanding authorisation gets a token in one way only: from a
dump. -/
theorem C89_restore {w w' : World} {act : Action} {n : String} {t : ActiveTok} (hr : Reach E w)
    (hs : w.step E act = some w') (h : HoldsNothing w.ls n) (h' : HoldsToken w'.ls n t) :
    ∃ buf d, Carries w act buf ∧ parseReq buf = .restore d := by
  rcases C89 hr hs h h' with h | h
  · cases h
  · cases h with
    | restored h1 h2 => exact ⟨_, _, h1, h2⟩

/-- **C89.** Accounts come and go only when a new configuration is loaded: then there are exactly the accounts it has, and
those which are new have neither a token nor an outstanding authorisation. -/
theorem C89_accounts {w w' : World} {act : Action} (hr : Reach E w) (hs : w.step E act = some w') :
    (∀ n, (∃ s, Holds w'.ls n s) ↔ ∃ s, Holds w.ls n s) ∨
    ∃ c inp rest, act = .run 0 inp ∧ w.threads 0 = .install c :: rest ∧
      (∀ n, (∃ s, Holds w'.ls n s) ↔ ∃ a, c.get? n = some a) ∧
      ∀ n s, (¬ ∃ s, Holds w.ls n s) → Holds w'.ls n s → s = .empty := by
  have hr' : Reach E w' := .step _ hr hs
  have iff : ∀ {w : World}, Reach E w → ∀ n, (∃ s, Holds w.ls n s) ↔ n ∈ w.ls.config.accounts.map Prod.fst := by
    intro w hr n
    rw [← hr.inv0.wf.names, List.mem_map]
    exact ⟨fun ⟨_, e, h1, h2, _⟩ => ⟨e, h1, h2⟩, fun ⟨e, h1, h2⟩ => ⟨_, e, h1, h2, rfl⟩⟩
  have h0 := hr.inv0
  have hs1 := (stepR_of_step h0.wf hs).2
  by_cases hin : ∃ tid inp c rest, act = .run tid inp ∧ w.threads tid = .install c :: rest ∧ w'.ls.config = c ∧
      w.ls.updateConf c = some w'.ls
  · obtain ⟨tid, inp, c, rest, rfl, h1, h2, h3⟩ := hin
    have hop : .install c ∈ w.threads tid := by rw [h1]; simp
    obtain ⟨rfl, _⟩ := (Reach.shape w hr).install hop
    right
    refine ⟨c, inp, rest, rfl, h1, fun n => ?_, fun n s hno hs' => ?_⟩
    · constructor
      · rintro ⟨_, e, g1, rfl, _⟩
        obtain ⟨a, ha⟩ := hr'.inv0.wf.has g1
        exact ⟨a, h2 ▸ ha.2⟩
      · rintro ⟨a, ha⟩
        rw [iff hr' n, h2]
        exact List.mem_map.mpr ⟨_, mem_of_lookup ha, rfl⟩
    · obtain ⟨k1, k2⟩ := h0.inst 0 c hop
      obtain ⟨_, g1, _, _, _, g2⟩ := h0.wf.updateConf (c := c) k1 k2
      rw [h3] at g1
      cases g1
      obtain ⟨e', he', hn', rfl⟩ := hs'
      obtain ⟨a', g3, ⟨o, g4, _⟩ | ⟨_, g5, _⟩⟩ := g2 e' he'
      · exact absurd ⟨_, e', g4.1, hn', rfl⟩ hno
      · exact g5
  · left
    have hc : w'.ls.config = w.ls.config := by
      cases hs1 <;> try rfl
      case notScan hn => exact hn.config
      case run tid inp op rest f ht hx =>
        have hop : op ∈ w.threads tid := by rw [ht]; simp
        rcases (hx.state h0.wf (by rintro c rfl; exact h0.inst tid c hop)).2.2 with h | h
        · exact h
        · rw [h] at ht
          refine absurd ⟨tid, inp, _, rest, rfl, ht, rfl, ?_⟩ hin
          generalize f.ls.config = c at h
          subst h
          cases hx
          assumption
    intro n
    rw [iff hr, iff hr', hc]

/-! ## Examples -/

section Examples
open Demo

/-- What account `a` has, after each of the actions. -/
def lifeOfA (l : List Action) : List TokenState :=
  (List.range (l.length + 1)).flatMap fun k =>
    (after (l.take k)).ls.details.flatMap fun e => if e.name = "a" then [e.ts] else []

/-- Its stages. -/
def stages : List TokenState → List TokenState
  | [] => []
  | [s] => [s]
  | s :: s' :: l => if s = s' then stages (s' :: l) else s :: stages (s' :: l)

def stage : TokenState → String
  | .empty => "nothing"
  | .pending _ => "asked"
  | .active t => if t.ongoing then "refreshing " ++ t.accessToken else t.accessToken

/-- A life: the account is authorised, its token is refreshed, and revoked. -/
example : (w0.run env (sRefreshed ++ [.connect revokeA] ++ n0 5)).isSome = true ∧
    (stages (lifeOfA (sRefreshed ++ [.connect revokeA] ++ n0 5))).map stage =
      ["nothing", "asked", "T1", "refreshing T1", "T2", "nothing"] := by
  decide +kernel

/-- Another one: the authorisation fails. -/
example : (w0.run env (sAsk ++ [.http callbackErr false] ++ n1 3)).isSome = true ∧
    (stages (lifeOfA (sAsk ++ [.http callbackErr false] ++ n1 3))).map stage = ["nothing", "asked", "nothing"] := by
  decide +kernel

/-- What `C89` says about the step in which the first token arrives. -/
example : ∃ p t, Holds (after sCallback).ls "a" (.pending p) ∧
    Holds (andThen (after sCallback) [.run 1 {}]).ls "a" (.active t) ∧ t.accessToken = "T1" ∧
    ∃ code, HasCode env (after sCallback) 1 "a" p code := by
  have h1 : (after sCallback).ls.details.any (fun e => e.name == "a" && (match e.ts with | .pending _ => true | _ => false)) =
      true := by decide +kernel
  have h2 : (andThen (after sCallback) [.run 1 {}]).ls.details.any
      (fun e => e.name == "a" && (match e.ts with | .active t => t.accessToken == "T1" | _ => false)) = true := by
    decide +kernel
  simp only [List.any_eq_true, Bool.and_eq_true, beq_iff_eq] at h1 h2
  obtain ⟨e1, k1, k2, k3⟩ := h1
  obtain ⟨e2, l1, l2, l3⟩ := h2
  cases hs1 : e1.ts <;> rw [hs1] at k3 <;> try cases k3
  cases hs2 : e2.ts <;> rw [hs2] at l3 <;> try cases l3
  rename_i p t
  have a1 : Holds (after sCallback).ls "a" (.pending p) := ⟨e1, k1, k2, hs1⟩
  have a2 : Holds (andThen (after sCallback) [.run 1 {}]).ls "a" (.active t) := ⟨e2, l1, l2, hs2⟩
  refine ⟨p, t, a1, a2, by simpa using l3, ?_⟩
  rcases C89 (after_reach sCallback) (andThen_one (by decide +kernel)) a1 a2 with h | h
  · cases h
  · generalize hp : TokenState.pending p = P at h
    generalize ht : TokenState.active t = T at h
    generalize ha : Action.run 1 {} = A at h
    cases h <;> try cases hp
    all_goals try cases ht
    · obtain ⟨_, _, h1⟩ := ‹Carries _ _ _›
      rw [← ha] at h1
      cases h1
    · cases ha
      exact ⟨_, ‹HasCode _ _ _ _ _ _›⟩

end Examples

end Pizauth
