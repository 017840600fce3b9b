import Verif.Spec.Alone
import Verif.Props.Callback
import Verif.Props.Isolation
import Verif.Proof.Schedule

/-!
# C25: logins which are not disturbed
-/

namespace Pizauth
open LockedState

variable {E : Env}

section lemmas

theorem Op.handle_eq (o : Op) : o.handle = o.accId := by cases o <;> rfl

theorem Op.accId_of_auth {o : Op} {h : Nat} (ho : o.authHandle = some h) : o.accId = some h := by
  cases o <;> first | exact ho | cases ho

theorem Apart.plain {ls : LockedState} {n : String} {p : PendingTok} {o : Op} (h : o.isTail = true ∨ o.isReply = true ∨ o = .close) :
    Apart E ls n p o := by
  refine ⟨?_, ?_, ?_, ?_⟩ <;> cases o <;> simp [Op.isTail, Op.isReply, Op.handle] at h ⊢

/-- What a thread is about to do remains apart, whatever happens. -/
theorem Apart.old {w w' : World} {n : String} {p : PendingTok} {o : Op} {a : Action} {j : Nat} (hr : Reach E w)
    (hs : StepR E w a w') (ho : o ∈ w.threads j) (h : Apart E w.ls n p o) : Apart E w'.ls n p o := by
  refine ⟨h.1, h.2.1, h.2.2.1, fun k hk e he hid => ?_⟩
  have h0 := hr.inv0
  have hlt : k < w.ls.accountCount := (Reach.opsInv w hr j o ho).accId_lt (Op.handle_eq o ▸ hk)
  obtain ⟨a', ha'⟩ := (h0.step hs).wf.has he
  obtain ⟨a, ha, _⟩ := (hs.evolves h0).old ha' (hid ▸ hlt)
  exact h.2.2.2 k hk e ha.1 hid

/-- While thread `i` exchanges its code, entry `e` is untouched. -/
structure Undisturbed (E : Env) (c : Config) (i : Nat) (e : Entry) (p : PendingTok) (w : World) : Prop where
  mem : e ∈ w.ls.details
  hand : ∀ h, Exchanging w i h → h = e.id
  apart : ∀ j, j ≠ i → ∀ o ∈ w.threads j, Apart E w.ls e.name p o
  conf : w.ls.config = c

section
variable {S : Static} {now : Instant} {wall : SysTime} {ls : LockedState} {tid : Nat} {op : Op} {inp : Input} {f : Eff}

theorem ExecR.auth_next (hx : ExecR E S now wall ls tid op inp f) {h h' : Nat} {o : Op} (hop : op.authHandle = some h)
    (ho : o ∈ f.next) (hh : o.authHandle = some h') : f.ls = ls ∧ h' = h ∧ f.spawn = [] := by
  cases hx <;> simp only [Op.authHandle, reduceCtorEq, Option.some.injEq] at hop <;>
    simp only [List.mem_cons, List.not_mem_nil, or_false] at ho <;>
    first
    | exact ho.elim
    | (subst ho; simp only [Op.authHandle, Option.some.injEq] at hh
       first | exact ⟨rfl, by omega, rfl⟩ | done)
    | skip
  case exDoneOk => rcases ho with rfl | rfl | rfl <;> cases hh
  case failOk =>
    rcases ho with rfl | ho
    · cases hh
    · split at ho <;> simp at ho
      rcases ho with rfl | rfl <;> cases hh

theorem ExecR.next_plain (hx : ExecR E S now wall ls tid op inp f) {o : Op} (ho : o ∈ f.next) :
    (∀ b, o ≠ .unix b) ∧ (∀ b s, o ≠ .http b s) ∧ ∀ c, o = .install c → ∃ buf, op = .unix buf ∧ parseReq buf = .reload := by
  cases hx <;> simp only [List.mem_cons, List.not_mem_nil, or_false] at ho <;>
    first
    | exact ho.elim
    | (subst ho; exact ⟨by simp, by simp, by simp⟩)
    | (rcases ho with rfl | rfl <;> exact ⟨by simp, by simp, by simp⟩)
    | (rcases ho with rfl | rfl | rfl <;> exact ⟨by simp, by simp, by simp⟩)
    | skip
  case reloadOk hp _ _ =>
    rcases ho with rfl | rfl | rfl | rfl
    · exact ⟨by simp, by simp, fun _ _ => ⟨_, rfl, hp⟩⟩
    all_goals exact ⟨by simp, by simp, by simp⟩
  case failOk =>
    rcases ho with rfl | ho
    · exact ⟨by simp, by simp, by simp⟩
    · split at ho <;> simp at ho
      rcases ho with rfl | rfl <;> exact ⟨by simp, by simp, by simp⟩

/-- Operations which are apart leave the entry alone. -/
theorem ExecR.keeps (hx : ExecR E S now wall ls tid op inp f) (hwf : ls.WF) {e : Entry} {p : PendingTok} (he : e ∈ ls.details)
    (hts : e.ts = .pending p) (ha : Apart E ls e.name p op) : e ∈ f.ls.details ∧ f.ls.config = ls.config := by
  have same : ∀ {m}, SameBut ls f.ls m → m ≠ e.name → e ∈ f.ls.details ∧ f.ls.config = ls.config :=
    fun h hne => ⟨(h.2 e (Ne.symm hne)).mpr he, h.1⟩
  cases hid : op.accId with
  | some k =>
    rcases hx.sameBut hwf hid with h1 | ⟨e1, he1, hk, h1⟩
    · rw [h1]; exact ⟨he, rfl⟩
    · exact same h1 (ha.2.2.2 k (by rw [Op.handle_eq, hid]) e1 he1 hk)
  | none =>
    cases hx <;> simp only [Op.accId, reduceCtorEq] at hid <;> try exact ⟨he, rfl⟩
    case auth buf u e1 a url hh hreq hu =>
      refine same (sameBut_put hwf hh rfl rfl) fun hn => ?_
      have := hwf.entry_name_inj hh.1 he hn
      subst this
      rcases hreq with ⟨_, h⟩ | ⟨h, _⟩
      · rw [hts] at h; cases h
      · exact (ha.1 _ rfl).2.2.2 _ h
    case restoreOk => exact absurd ‹_› ((ha.1 _ rfl).2.1 _)
    case revoke buf e1 a hh hreq =>
      refine same (sameBut_put hwf hh rfl rfl) fun hn => ?_
      rw [hn] at hreq
      exact (ha.1 _ rfl).2.2.1 hreq
    case install => exact absurd rfl (ha.2.2.1 _)
    case httpError uri s e1 a p1 x m _ _ _ _ _ _ _ _ =>
      have hh := ‹ls.Has e1 a›
      refine same (sameBut_put hwf hh rfl rfl) fun hn => ?_
      have := hwf.entry_name_inj hh.1 he hn
      subst this
      have h1 := ‹e1.ts = .pending p1›
      rw [hts] at h1
      cases h1
      exact ha.2.1 _ _ rfl uri ‹_› (by rw [‹uri.param "state" = _›, ‹p.state = s›])

end

theorem Undisturbed.step {w w' : World} {c : Config} {i : Nat} {e : Entry} {p : PendingTok} {l : Instant} {a : Action}
    (h : Undisturbed E c i e p w) (hr : Reach E w) (hts : e.ts = .pending p) (hl : p.lastNotification = some l)
    (hn : w.now < l + (c.authNotifyInterval : Int)) (hm : l + (c.authNotifyInterval : Int) ≤ timeMax)
    (hx : ∃ h, Exchanging w i h) (hx' : ∃ h, Exchanging w' i h) (hq : Quiet E e.name p a) (hs : StepR E w a w') :
    Undisturbed E c i e p w' := by
  have h0 := hr.inv0
  have old : ∀ j, j ≠ i → ∀ o ∈ w.threads j, Apart E w'.ls e.name p o := fun j hj o ho => (h.apart j hj o ho).old hr hs ho
  obtain ⟨hd, o, ho, hd1⟩ := hx
  have hcore := (Reach.shape w hr).core (Op.isCore_of_accId (Op.accId_of_auth hd1)) ho
  have hi0 : i ≠ 0 := hcore.1
  have hilt : i < w.nextTid := by
    cases hth : w.threads i with
    | nil => rw [hth] at ho; cases ho
    | cons => exact h0.tid_lt hth
  cases hs <;> try exact ⟨h.mem, h.hand, old, h.conf⟩
  case connect buf hb =>
    refine ⟨h.mem, ?_, ?_, h.conf⟩
    · rintro k ⟨o, ho, hk⟩
      simp only [setThread_ne _ hi0] at ho
      exact h.hand k ⟨o, ho, hk⟩
    · intro j hj o ho
      by_cases hj0 : j = 0
      · subst hj0
        simp only [setThread_same, List.mem_cons, List.not_mem_nil, or_false] at ho
        rcases ho with rfl | rfl
        · exact ⟨by rintro _ ⟨⟩; exact hq, by simp, by simp, by simp [Op.handle]⟩
        · exact .plain (.inr (.inr rfl))
      · simp only [setThread_ne _ hj0] at ho
        exact old j hj o ho
  case http buf sec hb =>
    refine ⟨h.mem, ?_, ?_, h.conf⟩
    · rintro k ⟨o, ho, hk⟩
      simp only [setThread_ne _ (Nat.ne_of_lt hilt)] at ho
      exact h.hand k ⟨o, ho, hk⟩
    · intro j hj o ho
      by_cases hj0 : j = w.nextTid
      · subst hj0
        simp only [setThread_same, List.mem_cons, List.not_mem_nil, or_false] at ho
        subst ho
        exact ⟨by simp, by rintro _ _ ⟨⟩; exact hq, by simp, by simp [Op.handle]⟩
      · simp only [setThread_ne _ hj0] at ho
        exact old j hj o ho
  case run j inp op rest f ht hx =>
    by_cases hji : j = i
    · subst hji
      have hold : ∀ k, k ≠ j → (∀ o ∈ f.spawn, False) → ∀ o ∈ (w.apply j rest f).threads k, o ∈ w.threads k := by
        intro k hk hsp o ho
        rcases mem_apply_threads ho with ⟨h1, _⟩ | ⟨_, h1, _⟩ | ⟨_, h1, _⟩
        · exact absurd h1 hk
        · exact (hsp o h1).elim
        · exact h1
      have hself : (w.apply j rest f).threads j = f.next ++ rest := apply_threads_self hilt rest f
      have key : (∀ k, Exchanging (w.apply j rest f) j k → k = e.id) ∧ f.ls = w.ls ∧ ∀ o ∈ f.spawn, False := by
        rcases hcore.2 with h1 | ⟨b, cx, h2, h1⟩
        · rw [ht] at h1
          cases h1
          obtain ⟨k', o', ho', hk'⟩ := hx'
          rw [hself, List.append_nil] at ho'
          obtain ⟨g1, g2, g3⟩ := hx.auth_next hd1 ho' hk'
          refine ⟨?_, g1, by rw [g3]; simp⟩
          rintro k ⟨o2, ho2, hk2⟩
          rw [hself, List.append_nil] at ho2
          obtain ⟨_, g4, _⟩ := hx.auth_next hd1 ho2 hk2
          rw [g4]
          exact h.hand _ ⟨_, ho, hd1⟩
        · rw [ht] at h1
          cases h1
          cases hx
          refine ⟨?_, rfl, by simp⟩
          rintro k ⟨o2, ho2, hk2⟩
          rw [hself] at ho2
          exact h.hand k ⟨o2, by rw [ht]; exact List.mem_cons_of_mem _ (by simpa using ho2), hk2⟩
      refine ⟨?_, key.1, fun k hk o ho => old k hk o (hold k hk key.2.2 o ho), ?_⟩
      · show e ∈ f.ls.details
        rw [key.2.1]; exact h.mem
      · show f.ls.config = c
        rw [key.2.1]; exact h.conf
    · have hop : op ∈ w.threads j := by rw [ht]; simp
      have hap := h.apart j hji op hop
      obtain ⟨k1, k2⟩ := hx.keeps h0.wf h.mem hts hap
      have hwf' : f.ls.WF := (h0.step (.run ht hx)).wf
      refine ⟨k1, ?_, ?_, k2.trans h.conf⟩
      · rintro k ⟨o2, ho2, hk2⟩
        rw [apply_threads_other hilt (Ne.symm hji)] at ho2
        exact h.hand k ⟨o2, ho2, hk2⟩
      · intro k hk o' ho'
        rcases mem_apply_threads ho' with ⟨rfl, h1 | h1⟩ | ⟨_, h1, _⟩ | ⟨_, h1, _⟩
        · have hpl := hx.next_plain h1
          refine ⟨fun b hb => absurd hb (hpl.1 b), fun b s hb => absurd hb (hpl.2.1 b s), ?_, ?_⟩
          · rintro cc rfl
            obtain ⟨buf, rfl, hp⟩ := hpl.2.2 cc rfl
            exact (hap.1 buf rfl).1 hp
          · intro m hm1 e2 he2 hid hname
            rw [Op.handle_eq] at hm1
            rcases hx.next_id h1 hm1 with g | ⟨e3, he3, g1, _, _, ts, g2⟩ |
              ⟨buf, sec, uri, e3, p3, _, _, rfl, g2, g3, g4, g5, _, _, g6, _, g7⟩
            · exact (old _ hk op hop).2.2.2 m (by rw [Op.handle_eq, g]) e2 he2 hid hname
            · have := hwf'.entry_id_inj he2 g2 hid
              rw [this] at hname
              exact hap.2.2.2 _ (by rw [Op.handle_eq, g1]) e3 he3 rfl hname
            · change e2 ∈ f.ls.details at he2
              rw [g6] at he2
              have e1 := h0.wf.entry_id_inj he2 g3 (hid.trans g7.symm)
              subst e1
              have e2 := h0.wf.entry_name_inj g3 h.mem hname
              subst e2
              rw [hts] at g4
              cases g4
              exact hap.2.1 _ _ rfl uri g2 g5
        · exact old _ hk o' (by rw [ht]; exact List.mem_cons_of_mem _ h1)
        · obtain ⟨e3, he3, rfl, _, t, g1, g2⟩ := hx.spawn_rfStart h1
          refine ⟨by simp, by simp, by simp, fun m hm1 e2 he2 hid hname => ?_⟩
          simp only [Op.handle, Option.some.injEq] at hm1
          subst hm1
          change e2 ∈ f.ls.details at he2
          rw [g2] at he2
          have e1 := h0.wf.entry_id_inj he2 he3 hid
          subst e1
          have e2 := h0.wf.entry_name_inj he3 h.mem hname
          subst e2
          rw [hts] at g1
          cases g1
        · exact old k hk o' h1
  case refScan es hp he =>
    refine ⟨h.mem, ?_, ?_, h.conf⟩
    · rintro k ⟨o, ho, hk⟩
      simp only [spawnAll_lt _ _ _ _ hilt] at ho
      exact h.hand k ⟨o, ho, hk⟩
    · intro j hj o ho
      simp only at ho
      rcases spawnAll_cases w.threads w.nextTid j (es.map fun e => .rfStart e.id) with
        ⟨_, h1⟩ | ⟨_, op, hop, h1⟩ | ⟨_, h1⟩ <;> rw [h1] at ho
      · exact old j hj o ho
      · simp only [List.mem_cons, List.not_mem_nil, or_false] at ho
        subst ho
        obtain ⟨e1, he1, rfl⟩ := List.mem_map.mp hop
        rw [he, List.mem_filter] at he1
        refine ⟨by simp, by simp, by simp, fun k hk e2 he2 hid hn => ?_⟩
        simp only [Op.handle, Option.some.injEq] at hk
        subst hk
        have := h0.wf.entry_name_inj he2 h.mem hn
        subst this
        have := h0.wf.entry_id_inj he1.1 h.mem hid.symm
        subst this
        have h2 := he1.2
        cases hd : refreshDueE w.ls w.now e1 with
        | none => rw [hd] at h2; simp at h2
        | some d =>
          obtain ⟨t, _, ⟨e3, he3, hn3, ht3⟩, _⟩ := (refreshDueE_some h0.wf h.mem).mp hd
          rw [h0.wf.entry_name_inj he3 h.mem hn3, hts] at ht3
          cases ht3
      · exact old j hj o ho
  case notScan ls' hp hnr =>
    refine ⟨hnr.keep e h.mem fun _ => ?_, h.hand, old, by rw [← h.conf]; exact hnr.config⟩
    have : notifyDue w.ls.config.authNotifyInterval w.now p = false := by
      unfold notifyDue
      rw [hl, h.conf]
      simp [checkedAdd, hm]
      omega
    simp [dueEntry, hts, this]

end lemmas

/-- **C25**, what holds: a thread which exchanges a code for the authorisation `p` of account `n` does not lose its handle on the
account, and the authorisation remains outstanding until the thread is done, if no reminder of it is due before that
(the last one was at `l`), the clients do not `reload`, `restore`, or `revoke` or `refresh` the account, no other callback
names the authorisation, and none of that was going on already. So, by `C25_partial`, a token which the token
server grants is stored. -/
theorem C25_quiet_partial {w1 w2 : World} {i : Nat} {n : String} {p : PendingTok} {l : Instant} (hr : Reach E w1)
    (hx : ExchangingAccount w1 i n) (hp : HoldsPending w1.ls n p) (ho : ∀ j, j ≠ i → ∀ o ∈ w1.threads j, Apart E w1.ls n p o)
    (hl : p.lastNotification = some l) (hm : l + (w1.ls.config.authNotifyInterval : Int) ≤ timeMax)
    (h : During E (fun w => ∃ h, Exchanging w i h) (fun w a _ => Quiet E n p a ∧
      w.now < l + (w1.ls.config.authNotifyInterval : Int)) w1 w2) :
    ExchangingAccount w2 i n ∧ HoldsPending w2.ls n p := by
  obtain ⟨e, he, rfl, hx1⟩ := hx
  obtain ⟨e', he', hn', hts⟩ := hp
  obtain rfl : e = e' := Eq.symm <| hr.inv0.wf.entry_name_inj he' he hn'
  have hu : Undisturbed E w1.ls.config i e p w2 ∧ Reach E w2 := by
    induction h with
    | refl _ =>
      refine ⟨⟨he, ?_, ho, rfl⟩, hr⟩
      rintro k ⟨o, hoi, hk⟩
      obtain ⟨o1, ho1, hk1⟩ := hx1
      rcases ((Reach.shape w1 hr).core (Op.isCore_of_accId (Op.accId_of_auth hk1)) ho1).2 with h1 | ⟨b, cx, _, h1⟩
      · rw [h1] at hoi; simp at hoi; subst hoi; rw [hk] at hk1; exact Option.some.inj hk1
      · rw [h1] at hoi
        simp at hoi
        rcases hoi with rfl | rfl
        · cases hk
        · rw [hk] at hk1; exact Option.some.inj hk1
    | step a hd hs hq hp' ih =>
      obtain ⟨ih, hr'⟩ := ih
      exact ⟨ih.step hr' hts hl hq.2 hm hd.last hp' hq.1 (stepR_of_step hr'.inv0.wf hs).2, .step _ hr' hs⟩
  obtain ⟨k, hk⟩ := h.last
  refine ⟨⟨e, hu.1.mem, rfl, ?_⟩, ⟨e, hu.1.mem, rfl, hts⟩⟩
  rw [← hu.1.hand k hk]
  exact hk

/-! ## An example -/

namespace Demo

/-- The user has been told of the request; the callback is accepted by thread 1. -/
def sAccepted : List Action := sAsk ++ [.notifier, .notifier, .notifier, .http callback false] ++ n1 1

/-- Meanwhile a client asks for a token, a stranger sends a request, and ten seconds pass; then the token server answers. -/
def sMeanwhile : List Action :=
  n1 1 ++ [.connect showA] ++ n0 3 ++ [.http callbackUnknown false, .run 2 {}, .run 2 {}, .tick (secs 10)] ++
    n1 1 ++ [.run 1 { net := .body answer }]

def exchangingB (w : World) : Bool := (w.threads 1).any fun o => o.authHandle.isSome

def quietB (l : Instant) (w : World) (a : Action) (_ : World) : Bool :=
  decide (w.now < l) &&
  match a with
  | .connect buf => decide (parseReq buf = .showtoken true "a")
  | .http buf sec => match parseGet env buf sec with
    | none => true
    | some uri => uri.param "state" == some "zzz"
  | _ => true

theorem quietB_quiet {l : Instant} {p : PendingTok} (hp : p.state = "AAAAAAAAAAA") (w : World) (a : Action) (w' : World)
    (h : quietB l w a w' = true) : Quiet env "a" p a ∧ w.now < l := by
  unfold quietB at h
  simp only [Bool.and_eq_true, decide_eq_true_eq] at h
  refine ⟨?_, h.1⟩
  cases a <;> try trivial
  · have h2 := of_decide_eq_true h.2
    refine ⟨?_, ?_, ?_, ?_⟩ <;> (intros; rw [h2]; simp)
  · intro uri hu
    have h2 := h.2
    simp only [hu] at h2
    rw [eq_of_beq h2, hp]
    simp

/-- The exchange in `sMeanwhile` is not disturbed: the token is about to be stored. -/
example : ∃ p, HoldsPending (after sAccepted).ls "a" p ∧
    ExchangingAccount (andThen (after sAccepted) sMeanwhile) 1 "a" ∧
    HoldsPending (andThen (after sAccepted) sMeanwhile).ls "a" p := by
  have h1 : (pendA (after sAccepted)).map (fun p => (p.state, p.lastNotification)) = some ("AAAAAAAAAAA", some 0) := by
    decide +kernel
  obtain ⟨p, hp, h1⟩ := Option.map_eq_some_iff.mp h1
  simp only [Prod.mk.injEq] at h1
  refine ⟨p, pendA_holds hp, C25_quiet_partial (after_reach _) ?_ (pendA_holds hp) ?_ h1.2 ?_
    (during_run (p := exchangingB) (fun w hw => ?_) (quietB_quiet h1.1) sMeanwhile ?_)⟩
  · obtain ⟨e, he, h⟩ := List.any_eq_true.mp (by decide +kernel : ((after sAccepted).ls.details.any fun e => e.name == "a" &&
      ((after sAccepted).threads 1).any fun o => o.authHandle == some e.id) = true)
    simp only [Bool.and_eq_true, beq_iff_eq, List.any_eq_true] at h
    exact ⟨e, he, h.1, h.2⟩
  · intro j hj o ho
    exfalso
    obtain ⟨_, _, ht⟩ := List.exists_cons_of_ne_nil (List.ne_nil_of_mem ho)
    have hlt := (after_reach sAccepted).inv0.tid_lt ht
    have h2 : (after sAccepted).nextTid = 2 := by decide +kernel
    have h0 : (after sAccepted).threads 0 = [] := List.isEmpty_iff.mp (by decide +kernel)
    obtain rfl : j = 0 := by omega
    rw [h0] at ho
    cases ho
  · decide +kernel
  · obtain ⟨o, ho, h⟩ := List.any_eq_true.mp hw
    obtain ⟨k, hk⟩ := Option.isSome_iff_exists.mp h
    exact ⟨k, o, ho, hk⟩
  · decide +kernel

end Demo

end Pizauth
