import Verif.Spec.Persist
import Verif.Props.Events
import Verif.Props.Tokens
import Verif.Props.Dump
import Verif.Proof.Fair

/-!
# C109: `token_event_cmd` can keep a dump up to date
-/

namespace Pizauth
open LockedState

variable {E : Env}

/-- What is waiting stays so until the command is started for it (if there always is one). -/
theorem EventDue.step {w w' : World} {a : Action} {n : String} {e : TokenEvent} (hr : Reach E w)
    (hs : w.step E a = some w') (hc : w.ls.config.tokenEventCmd.isSome = true) (h : EventDue w n e) :
    EventDue w' n e ∨ CommandStarts E n e w w' := by
  have h0 := hr.inv0
  have hs' := (stepR_of_step h0.wf hs).2
  rcases h with h | h
  · refine .inl ?_
    cases hs' <;> try exact .inl h
    case connect buf hb =>
      obtain ⟨i, hi⟩ := h
      refine .inl ⟨i, ?_⟩
      by_cases h : i = 0
      · subst h; rw [hb] at hi; cases hi
      · simpa [setThread, h] using hi
    case http buf sec hb =>
      obtain ⟨i, hi⟩ := h
      have := h0.lt_of_mem' hi
      exact .inl ⟨i, by simpa [setThread, Nat.ne_of_lt this] using hi⟩
    case run tid inp op rest f ht hx =>
      rcases mem_run (f := f) h0 ht h with rfl | h
      · cases hx
        exact .inr (by simp [openEvents, World.apply])
      · exact .inl h
    case refScan es hp he =>
      obtain ⟨i, hi⟩ := h
      refine .inl ⟨i, ?_⟩
      dsimp only
      rw [spawnAll_lt _ _ _ _ (h0.lt_of_mem' hi)]
      exact hi
  · cases hs' <;> try exact .inl (.inr h)
    case run tid inp op rest f ht hx =>
      refine .inl (.inr ?_)
      simp only [openEvents, World.apply, List.mem_append] at h ⊢
      exact h.elim .inl (fun h => .inr (.inl h))
    case evWait h1 h2 => exact .inl (.inr (by simpa [openEvents, h1, eventInHand] using h))
    case evEmpty h1 h2 => exact .inl (.inr (by simpa [openEvents, h1, eventInHand] using h))
    case evPop h1 h2 => exact .inl (.inr (by simpa [openEvents, h1, eventInHand, h2] using h))
    case evNoCmd act e h1 h2 => rw [h2] at hc; cases hc
    case evCmd act e' cmd h1 h2 =>
      simp only [openEvents, h1, eventInHand, List.cons_append, List.nil_append, List.mem_cons] at h
      rcases h with h | h
      · cases h
        exact .inr ⟨cmd, h2, hs, rfl, rfl⟩
      · exact .inl (.inr (by simpa [openEvents, eventInHand] using h))
    case evEnd h1 => exact .inl (.inr (by simpa [openEvents, h1, eventInHand] using h))

/-- **C109.** An event which is waiting stays so until `token_event_cmd` is started for it, if there is a
`token_event_cmd` all the time. (`P` is what else is true all the time.) -/
theorem C109 {P : World → Prop} {Q : World → Action → World → Prop} {w0 w : World} {n : String} {e : TokenEvent}
    (hr : Reach E w0) (hP : ∀ w, P w → w.ls.config.tokenEventCmd.isSome = true) (h : During E P Q w0 w)
    (hd : EventDue w0 n e) :
    EventDue w n e ∨
    ∃ w1 w2, During E P Q w0 w1 ∧ CommandStarts E n e w1 w2 ∧ During E P Q w2 w := by
  induction h with
  | refl => exact .inl hd
  | @step w w' a hw hs hq hp ih =>
    rcases ih with h | ⟨w1, w2, h1, h2, h3⟩
    · rcases h.step (hw.steps.reach hr) hs (hP _ hw.last) with h | h
      · exact .inl h
      · exact .inr ⟨w, w', hw, h, .refl hp⟩
    · exact .inr ⟨w1, w2, h1, h2, h3.step a hs hq hp⟩

/-- An event which is waiting in a run stays so until the command is started for it. -/
theorem Run.due {r : Run E} {n : String} {e : TokenEvent} {j k : Nat} (hjk : j ≤ k)
    (hset : ∀ m, j ≤ m → m < k → (r.world m).ls.config.tokenEventCmd.isSome = true) (h : EventDue (r.world j) n e) :
    EventDue (r.world k) n e ∨ ∃ m, j ≤ m ∧ m < k ∧ CommandStarts E n e (r.world m) (r.world (m + 1)) := by
  induction k with
  | zero => cases Nat.le_zero.mp hjk; exact .inl h
  | succ k ih =>
    by_cases hk : j = k + 1
    · subst hk; exact .inl h
    · rcases ih (by omega) (fun m h1 h2 => hset m h1 (by omega)) with h | ⟨m, h1, h2, h3⟩
      · have hn := r.next k
        cases ha : r.action k with
        | none => rw [ha] at hn; exact .inl (by rw [hn]; exact h)
        | some a =>
          rw [ha] at hn
          rcases h.step (r.reach k) hn (hset k (by omega) (by omega)) with h | h
          · exact .inl h
          · exact .inr ⟨k, by omega, by omega, h⟩
      · exact .inr ⟨m, h1, by omega, h3⟩

/-- **C109.** A token which an account holds was there from the beginning, or was restored from a dump; or else
`token_event_cmd` was started for this account since it has this token, or such an event is waiting. -/
theorem C109_token {r : Run E} {k : Nat} {n : String} {t : ActiveTok}
    (hset : ∀ m, m < k → (r.world m).ls.config.tokenEventCmd.isSome = true) (ht : HoldsToken (r.world k).ls n t) :
    ∃ j, j ≤ k ∧ (∀ m, j ≤ m → m ≤ k → HoldsInfo (r.world m) n t.info) ∧
      (j = 0 ∨ (∃ i, i + 1 = j ∧ Restores E (r.world i) (r.world j)) ∨
       ∃ e, (e = .new ∨ e = .refresh) ∧
         (EventDue (r.world k) n e ∨ j < k ∧ CommandStarts E n e (r.world j) (r.world (j + 1)))) := by
  induction k generalizing t with
  | zero => exact ⟨0, Nat.le_refl _, fun m _ h => by cases Nat.le_zero.mp h; exact ⟨t, ht, rfl⟩, .inl rfl⟩
  | succ k ih =>
    have here : ∀ j, (∀ m, j ≤ m → m ≤ k → HoldsInfo (r.world m) n t.info) →
        ∀ m, j ≤ m → m ≤ k + 1 → HoldsInfo (r.world m) n t.info := by
      intro j h m h1 h2
      by_cases hm : m = k + 1
      · subst hm; exact ⟨t, ht, rfl⟩
      · exact h m h1 (by omega)
    by_cases hold : ∃ t', HoldsToken (r.world k).ls n t' ∧ t'.info = t.info
    · obtain ⟨t', ht', hi⟩ := hold
      obtain ⟨j, h1, h2, h3⟩ := ih (fun m hm => hset m (by omega)) ht'
      rw [hi] at h2
      rcases h3 with h | h | ⟨e, he, h | ⟨h, h'⟩⟩
      · exact ⟨j, by omega, here j h2, .inl h⟩
      · exact ⟨j, by omega, here j h2, .inr (.inl h)⟩
      · rcases Run.due (Nat.le_succ k) (fun m h1 h2 => hset m h2) h with h | ⟨m, g1, g2, g3⟩
        · exact ⟨j, by omega, here j h2, .inr (.inr ⟨e, he, .inl h⟩)⟩
        · have : m = k := by omega
          subst this
          exact ⟨m, by omega, here m (fun i g1 g2 => h2 i (by omega) g2), .inr (.inr ⟨e, he, .inr ⟨by omega, g3⟩⟩)⟩
      · exact ⟨j, by omega, here j h2, .inr (.inr ⟨e, he, .inr ⟨by omega, h'⟩⟩)⟩
    · have hn := r.next k
      have only : ∀ m, k + 1 ≤ m → m ≤ k + 1 → HoldsInfo (r.world m) n t.info := here (k + 1) (fun m _ _ => by omega)
      cases ha : r.action k with
      | none => rw [ha] at hn; exact (hold ⟨t, by rw [← hn]; exact ht, rfl⟩).elim
      | some a =>
        rw [ha] at hn
        obtain ⟨i, inp, rfl, ⟨_, h⟩ | ⟨_, h⟩ | ⟨_, plain, h⟩⟩ :=
          C57_gained (r.reach k) hn ht (fun t' h1 h2 => hold ⟨t', h1, h2⟩)
        · exact ⟨k + 1, Nat.le_refl _, only, .inr (.inr ⟨_, .inl rfl, .inl (.inl ⟨i, h⟩)⟩)⟩
        · exact ⟨k + 1, Nat.le_refl _, only, .inr (.inr ⟨_, .inr rfl, .inl (.inl ⟨i, h⟩)⟩)⟩
        · exact ⟨k + 1, Nat.le_refl _, only, .inr (.inl ⟨k, rfl, i, inp, plain, hn, h⟩)⟩

/-- **C109.** So in a server which was started without restoring a dump, and in which no event concerning an account is
waiting, `token_event_cmd` was started since the account has the token it has. -/
theorem C109_saved {r : Run E} {k : Nat} {n : String} {t : ActiveTok} (hi : IsInit E (r.world 0))
    (hset : ∀ m, m < k → (r.world m).ls.config.tokenEventCmd.isSome = true)
    (hres : ∀ m, m < k → ¬ Restores E (r.world m) (r.world (m + 1)))
    (hidle : ∀ e, ¬ EventDue (r.world k) n e) (ht : HoldsToken (r.world k).ls n t) :
    ∃ j e, j < k ∧ CommandStarts E n e (r.world j) (r.world (j + 1)) ∧
      ∀ m, j ≤ m → m ≤ k → HoldsInfo (r.world m) n t.info := by
  obtain ⟨j, h1, h2, h | ⟨i, rfl, h⟩ | ⟨e, _, h | ⟨h, h'⟩⟩⟩ := C109_token hset ht
  · subst h
    obtain ⟨t', ⟨e, he, _, hts⟩, _⟩ := h2 0 (Nat.le_refl _) (by omega)
    rw [hi.ls] at he
    rw [(newDetails_mem _ _ e he).2.2] at hts; cases hts
  · exact (hres i (by omega) h).elim
  · exact (hidle e h).elim
  · exact ⟨j, e, h, h', h2⟩

/-- **C109.** A dump which is made after that carries this token over to another server (see C36 for what is
"representable"). -/
theorem C109_backup (hE : CryptLaw E) {r : Run E} {k : Nat} {n : String} {t : ActiveTok} (hi : IsInit E (r.world 0))
    (hset : ∀ m, m < k → (r.world m).ls.config.tokenEventCmd.isSome = true)
    (hres : ∀ m, m < k → ¬ Restores E (r.world m) (r.world (m + 1)))
    (hidle : ∀ e, ¬ EventDue (r.world k) n e) (ht : HoldsToken (r.world k).ls n t) :
    ∃ j e, j < k ∧ CommandStarts E n e (r.world j) (r.world (j + 1)) ∧
      ∀ m buf b, j ≤ m → m ≤ k → SysTimeOk (r.world m).wall → Executes E (r.world m) buf (r.world (m + 1)) →
        parseReq buf = .dump → (r.world (m + 1)).threads 0 = [.reply b, .close] →
        ∀ w w' buf' a a', Executes E w buf' w' → parseReq buf' = .restore b → (∀ t', ¬ HoldsToken w.ls n t') →
          (r.world m).ls.config.accounts.lookup n = some a → w.ls.config.accounts.lookup n = some a' → SameSec a a' →
          ∃ t', HoldsToken w'.ls n t' ∧ t'.accessToken = t.accessToken ∧ t'.refreshToken = t.refreshToken ∧
            (Fits (r.world m).now (r.world m).wall w.now w.wall t.expiry →
              t'.expiry - w.now = (t.expiry - (r.world m).now) - (w.wall - (r.world m).wall)) := by
  obtain ⟨j, e, h1, h2, h3⟩ := C109_saved hi hset hres hidle ht
  refine ⟨j, e, h1, h2, fun m buf b hm1 hm2 hw hx hp hb w w' buf' a a' hx' hp' hno ha ha' hsec => ?_⟩
  obtain ⟨t1, ht1, hinfo⟩ := h3 m hm1 hm2
  obtain ⟨t', ht', hc⟩ := (C36_carried hE hx hp hb hx' hp' hw).1 n t1 a a' ht1 hno ha ha' hsec
  simp only [ActiveTok.info, TokInfo.mk.injEq] at hinfo
  refine ⟨t', ht', hc.accessToken.trans hinfo.1, hc.refreshToken.trans hinfo.2.1, fun hf => ?_⟩
  rw [← hinfo.2.2.2] at hf ⊢
  exact hc.expiry hf

/-- **C109.** After a token was revoked, `token_event_cmd` is started for the account (or this event is waiting): the dump
which it makes has at most a token which was obtained after the revocation (see C02). -/
theorem C109_revoked {r : Run E} {j k : Nat} {buf : Bytes} {n : String} (hjk : j < k)
    (hx : Executes E (r.world j) buf (r.world (j + 1))) (hp : parseReq buf = .revoke n)
    (ha : ∃ a, (r.world j).ls.config.get? n = some a)
    (hset : ∀ m, j < m → m < k → (r.world m).ls.config.tokenEventCmd.isSome = true) :
    HoldsNothing (r.world (j + 1)).ls n ∧
    (EventDue (r.world k) n .revoked ∨
     ∃ m, j < m ∧ m < k ∧ CommandStarts E n .revoked (r.world m) (r.world (m + 1))) := by
  obtain ⟨inp, f, hex, hw, hth⟩ := hx.exec (by rw [hp]; simp)
  have key : HoldsNothing (r.world (j + 1)).ls n ∧ .pushEvent n .revoked ∈ (r.world (j + 1)).threads 0 := by
    cases hex <;> simp_all
    · obtain ⟨a, ha⟩ := ha
      obtain ⟨e, he, hn⟩ := hx.reach.inv0.wf.entry_of_get? ha
      rename_i h _
      exact h e he hn
    · rename_i e a he _
      refine ⟨_, List.mem_map.mpr ⟨e, he.1, rfl⟩, ?_⟩
      simp [hp]
  refine ⟨key.1, ?_⟩
  rcases Run.due (j := j + 1) (by omega) (fun m h1 h2 => hset m (by omega) h2) (.inl ⟨0, key.2⟩) with h | ⟨m, h1, h2, h3⟩
  · exact .inl h
  · exact .inr ⟨m, by omega, h2, h3⟩

/-! ## Examples -/

namespace Demo

theorem run_snoc : ∀ (l : List Action) {w : World} {a : Action},
    w.run env (l ++ [a]) = (w.run env l).bind fun w' => w'.step env a
  | [], w, a => by simp only [List.nil_append, World.run, Option.bind_some]; cases w.step env a <;> rfl
  | b :: l, w, a => by
    simp only [List.cons_append, World.run]
    cases w.step env b with
    | none => rfl
    | some w' => exact run_snoc l

/-- The execution in which the actions `l` happen first, and then nothing. -/
def runOf (l : List Action) (h : ∀ k, k ≤ l.length → (w0.run env (l.take k)).isSome = true) : Run env where
  world k := after (l.take k)
  action k := l[k]?
  start := after_reach _
  next k := by
    by_cases hk : k < l.length
    · have h1 := h (k + 1) (by omega)
      rw [List.getElem?_eq_getElem hk]
      simp only [after, List.take_add_one, List.getElem?_eq_getElem hk, Option.toList_some, run_snoc] at h1 ⊢
      cases hw : w0.run env (l.take k) with
      | none => rw [hw] at h1; cases h1
      | some w =>
        rw [hw] at h1
        simp only [Option.bind_some, Option.getD_some] at h1 ⊢
        obtain ⟨w', hw'⟩ := Option.isSome_iff_exists.mp h1
        rw [hw']; rfl
    · rw [List.getElem?_eq_none (by omega)]
      simp only [List.take_of_length_le (by omega : l.length ≤ k), List.take_of_length_le (by omega : l.length ≤ k + 1)]

/-- A token is obtained, and the command is started. -/
def savedRun : Run env := runOf (sToken ++ evs 3) (by decide +kernel)

end Demo

open Demo

/-- C109: at the end, the account holds a token, nothing was restored, and no event is waiting. -/
example : IsInit env (savedRun.world 0) ∧
    (∀ m, m < 20 → (savedRun.world m).ls.config.tokenEventCmd.isSome = true) ∧
    (∀ m, m < 20 → ¬ Restores env (savedRun.world m) (savedRun.world (m + 1))) ∧
    (∀ e, ¬ EventDue (savedRun.world 20) "a" e) ∧ ∃ t, HoldsToken (savedRun.world 20).ls "a" t := by
  refine ⟨?_, by decide +kernel, ?_, ?_, ?_⟩
  · exact w0_init
  · rintro m hm ⟨i, inp, plain, _, h⟩
    have := (by decide +kernel : ∀ m, m < 20 → ((savedRun.world (m + 1)).log.all fun p =>
      match p.2 with | .restored _ => false | _ => true) = true) m hm
    rw [h] at this
    simp at this
  · rintro e (⟨i, hi⟩ | h)
    · have h0 := (savedRun.reach 20).inv0.lt_of_mem' hi
      have : (savedRun.world 20).nextTid = 2 := by decide +kernel
      rw [this] at h0
      have := (by decide +kernel : ∀ i, i < 2 → ((savedRun.world 20).threads i = [])) i h0
      rw [this] at hi; cases hi
    · rw [(by decide +kernel : openEvents (savedRun.world 20) = [])] at h; cases h
  · exact ⟨(holdsTok (savedRun.world 20) "a").getD default, holdsTok_holds (by decide +kernel)⟩

/-- C109: a token is revoked, and the command is started for that. -/
example : ∃ r : Run env, ∃ j, Executes env (r.world j) revokeA (r.world (j + 1)) ∧ parseReq revokeA = .revoke "a" ∧
    (∃ a, (r.world j).ls.config.get? "a" = some a) ∧
    ∃ m, j < m ∧ m < 40 ∧ executedEvents (r.world m).log = [("a", .new), ("a", .revoked)] :=
  ⟨runOf (sEvents ++ evs 6) (by decide +kernel), 15,
    ⟨Run.reach _ 15, (executes_of (w := after ((sEvents ++ evs 6).take 15)) (inp := {}) (after_reach _)
      (by decide +kernel) (by decide +kernel)).serving, {}, (runOf (sEvents ++ evs 6) (by decide +kernel)).next 15⟩,
    by decide +kernel, Option.isSome_iff_exists.mp (by decide +kernel), 39, by decide, by decide, by decide +kernel⟩

end Pizauth
