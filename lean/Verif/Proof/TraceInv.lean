import Verif.Proof.Trace

/-!
# Reading the traces of worker threads
-/

namespace Pizauth
open LockedState

variable {E : Env}

/-- What a list of plain operations makes known (newest first). -/
def SaysAll (i : Nat) : List Op → List Obs → Prop
  | [], m => m = []
  | o :: r, m => ∃ os m', Says i o os ∧ SaysAll i r m' ∧ m = m' ++ os

theorem SaysAll.snoc {i : Nat} {o : Op} {os : List Obs} (h : Says i o os) : ∀ {pre : List Op} {m : List Obs},
    SaysAll i pre m → SaysAll i (pre ++ [o]) (os ++ m)
  | [], m, hm => by cases hm; exact ⟨os, [], h, rfl, by simp⟩
  | o' :: r, m, ⟨os', m', h1, h2, h3⟩ => ⟨os', os ++ m', h1, SaysAll.snoc h h2, by rw [h3, List.append_assoc]⟩

theorem Tail.split {i : Nat} {tail : List Op} {m : List Obs} {ops : List Op} (h : Tail i tail m ops) :
    ∃ pre, tail = pre ++ ops ∧ SaysAll i pre m := by
  induction h with
  | start => exact ⟨[], rfl, rfl⟩
  | step _ hs ih =>
    obtain ⟨pre, h1, h2⟩ := ih
    exact ⟨pre ++ [_], by rw [h1]; simp, SaysAll.snoc hs h2⟩

theorem Tail.done {i : Nat} {tail : List Op} {m : List Obs} (h : Tail i tail m []) : SaysAll i tail m := by
  obtain ⟨pre, h1, h2⟩ := h.split
  rw [List.append_nil] at h1
  exact h1 ▸ h2

@[simp] theorem says_wakeRefresher {i : Nat} {os : List Obs} : Says i .wakeRefresher os ↔ os = [] :=
  ⟨fun h => by cases h; rfl, fun h => h ▸ .wakeRefresher⟩
@[simp] theorem says_wakeNotifier {i : Nat} {os : List Obs} : Says i .wakeNotifier os ↔ os = [] :=
  ⟨fun h => by cases h; rfl, fun h => h ▸ .wakeNotifier⟩
@[simp] theorem says_wakeEventer {i : Nat} {os : List Obs} : Says i .wakeEventer os ↔ os = [] :=
  ⟨fun h => by cases h; rfl, fun h => h ▸ .wakeEventer⟩
@[simp] theorem says_event {i : Nat} {n : String} {e : TokenEvent} {os : List Obs} :
    Says i (.pushEvent n e) os ↔ os = [.event i n e] :=
  ⟨fun h => by cases h; rfl, fun h => h ▸ .event⟩
@[simp] theorem says_answer {i : Nat} {b : Bytes} {os : List Obs} :
    Says i (.httpAnswer b) os ↔ os = [.httpAnswer i b] :=
  ⟨fun h => by cases h; rfl, fun h => h ▸ .answer⟩
@[simp] theorem says_error {i : Nat} {n m : String} {os : List Obs} :
    Says i (.notifyError n m) os ↔ ∃ o, o.IsErrorReport i n m ∧ os = [o] :=
  ⟨fun h => by cases h; exact ⟨_, by assumption, rfl⟩, fun ⟨_, h, h'⟩ => h' ▸ .error h⟩

/-- A thread which has nothing left to do. -/
theorem Reach.finished {w : World} (hr : Reach E w) {i : Nat} (hi : i ≠ 0) (hd : w.threads i = [])
    (hl : threadLog i w.log ≠ []) :
    ∃ l o tail m, Core E w i l o ∧ StepTo E w i l o tail ∧ (∀ o ∈ tail, o.isPlain = true) ∧ SaysAll i tail m ∧
      threadLog i w.log = m ++ l := by
  rcases hr.trace hi with ⟨_, h⟩ | h
  · exact absurd h hl
  · rw [hd] at h
    generalize hops : ([] : List Op) = ops at h
    generalize hlg : threadLog i w.log = l at h
    cases h with
    | core => cases hops
    | answer => cases hops
    | tail h1 h2 h3 h4 => subst hops; exact ⟨_, _, _, _, h1, h2, h3, h4.done, rfl⟩

/-- How a code exchange began. -/
theorem Exchange.inv {w : World} {i : Nat} {c : ExCtx} {l : List Obs} (h : Exchange E w i c l) :
    ∃ buf sec w1 w2 inp uri e a p x code, Reach E w1 ∧ w1.step E (.run i inp) = some w2 ∧ Steps E w2 w ∧
      w1.threads i = [.http buf sec] ∧ threadLog i w1.log = [.httpReq i buf sec] ∧
      l = [.httpAnswer i (http200 msgProcessing), .httpReq i buf sec] ∧
      w2.ls = w1.ls ∧
      parseGet E buf sec = some uri ∧ w1.ls.Has e a ∧ e.ts = .pending p ∧ uri.param "state" = some p.state ∧
      a.redirectUrl E w1.st.httpPort w1.st.httpsPort = .ok x ∧
      ¬ (x.scheme ≠ uri.scheme ∨ x.host ≠ uri.host ∨ x.port ≠ uri.port) ∧ uri.param "error" = none ∧
      uri.param "code" = some code ∧
      c = ⟨e.id, a.tokenUri, codeForm a code p.codeVerifier (E.renderUrl x)⟩ := by
  obtain ⟨buf, sec, ans, h1, h2⟩ := h
  obtain ⟨w1, w2, inp, f, g1, g2, g3, g4, g5, g6, hx, g7, g8, g9⟩ := h1.exec (by simp)
  cases hx <;> simp only [List.cons.injEq, reduceCtorEq, and_false, Op.httpAnswer.injEq,
    Op.exSend.injEq, and_true, List.nil_eq, List.ne_cons_self] at g7
  case httpCode uri s e a p x code k2 k3 k4 k5 k6 k7 k8 k9 k1 =>
    obtain ⟨rfl, rfl⟩ := g7
    exact ⟨buf, sec, w1, w2, inp, uri, e, a, p, x, code, g1, g2, g3, g4, g6, h2, g8.symm, k1, k3, k4,
      by rw [k2, k5], k6, k7, k8, k9, rfl⟩

theorem codeForm_ne_refreshPost {a a' : Account} {x y z r : String} : codeForm a x y z ≠ refreshPost a' r := by
  intro h
  unfold codeForm refreshPost at h
  simp at h

theorem Exchange.form {w : World} {i : Nat} {c : ExCtx} {l : List Obs} (h : Exchange E w i c l) {a : Account}
    {r : String} : c.form ≠ refreshPost a r := by
  obtain ⟨_, _, _, _, _, _, _, _, _, _, _, _, _, _, _, _, _, _, _, _, _, _, _, _, _, _, rfl⟩ := h.inv
  exact codeForm_ne_refreshPost

theorem ExFails.mem {i : Nat} {c : ExCtx} {k : Nat} {l : List Obs} (h : ExFails i c k l) {o : Obs} (ho : o ∈ l) :
    o = .post i c.tokenUri c.form ∨ ∃ t, o = .resp i c.tokenUri c.form (.transport t) := by
  induction h with
  | zero => cases ho
  | succ _ ih =>
    rcases List.mem_cons.mp ho with rfl | ho
    · exact .inr ⟨_, rfl⟩
    · rcases List.mem_cons.mp ho with rfl | ho
      · exact .inl rfl
      · exact ih ho

theorem FailWhy.mem {w : World} {i : Nat} {c : ExCtx} {l0 l : List Obs} {msg : String} (h : FailWhy E w i c l0 msg l)
    {o : Obs} (ho : o ∈ l) : o = .post i c.tokenUri c.form ∨ ∃ n, o = .resp i c.tokenUri c.form n := by
  cases h with
  | net h1 _ _ _ _ =>
    simp only [List.mem_cons] at ho
    rcases ho with rfl | rfl | ho
    · exact .inr ⟨_, rfl⟩
    · exact .inl rfl
    · exact (h1.mem ho).imp_right fun ⟨t, h⟩ => ⟨_, h⟩
  | body h1 _ _ =>
    simp only [List.mem_cons] at ho
    rcases ho with rfl | rfl | ho
    · exact .inr ⟨_, rfl⟩
    · exact .inl rfl
    · exact (h1.mem ho).imp_right fun ⟨t, h⟩ => ⟨_, h⟩
  | all h1 _ => exact (h1.mem ho).imp_right fun ⟨t, h⟩ => ⟨_, h⟩

theorem Exchange.mem {w : World} {i : Nat} {c : ExCtx} {l : List Obs} (h : Exchange E w i c l) {o : Obs} (ho : o ∈ l) :
    (∃ b, o = .httpAnswer i b) ∨ ∃ b s, o = .httpReq i b s := by
  obtain ⟨b, s, ans, _, rfl⟩ := h
  simp only [List.mem_cons, List.not_mem_nil, or_false] at ho
  rcases ho with rfl | rfl
  · exact .inl ⟨_, rfl⟩
  · exact .inr ⟨_, _, rfl⟩

/-- POSTs (and answers to them) of a thread which exchanges a code. -/
theorem Core.exchange_mem {w : World} {i : Nat} {l : List Obs} {o : Op} (h : Core E w i l o) :
    (∃ c l0, Exchange E w i c l0 ∧ ∀ ob ∈ l, (∃ b, ob = .httpAnswer i b) ∨ (∃ b s, ob = .httpReq i b s) ∨
      ob = .post i c.tokenUri c.form ∨ ∃ n, ob = .resp i c.tokenUri c.form n) ∨
    (∃ b s, l = [.httpReq i b s]) ∨ (∃ id, o = .rfStart id) ∨ (o.refreshHandle.isSome = true) := by
  have key : ∀ {c l0} (l1 : List Obs), Exchange E w i c l0 →
      (∀ ob ∈ l1, ob = .post i c.tokenUri c.form ∨ ∃ n, ob = .resp i c.tokenUri c.form n) →
      ∀ ob ∈ l1 ++ l0, (∃ b, ob = .httpAnswer i b) ∨ (∃ b s, ob = .httpReq i b s) ∨
      ob = .post i c.tokenUri c.form ∨ ∃ n, ob = .resp i c.tokenUri c.form n := by
    intro c l0 l1 h1 h2 ob hob
    rcases List.mem_append.mp hob with h | h
    · exact .inr (.inr (h2 ob h))
    · rcases h1.mem h with h | h
      · exact .inl h
      · exact .inr (.inl h)
  have hf : ∀ {c k l1}, ExFails i c k l1 → ∀ ob ∈ l1, ob = .post i c.tokenUri c.form ∨ ∃ n, ob = .resp i c.tokenUri c.form n :=
    fun h ob hob => (h.mem hob).imp_right fun ⟨t, h⟩ => ⟨_, h⟩
  cases h with
  | http => exact .inr (.inl ⟨_, _, rfl⟩)
  | exSend h1 h2 _ => exact .inl ⟨_, _, h1, key _ h1 (hf h2)⟩
  | exSleep h1 h2 _ => exact .inl ⟨_, _, h1, key _ h1 (hf h2)⟩
  | @exAwait c k l1 l0 h1 h2 _ =>
    refine .inl ⟨_, _, h1, key (.post i c.tokenUri c.form :: l1) h1 ?_⟩
    intro ob hob
    rcases List.mem_cons.mp hob with rfl | hob
    · exact .inl rfl
    · exact hf h2 ob hob
  | @exDone c k l1 l0 b h1 h2 _ =>
    refine .inl ⟨_, _, h1, key (.resp i c.tokenUri c.form (.body b) :: .post i c.tokenUri c.form :: l1) h1 ?_⟩
    intro ob hob
    simp only [List.mem_cons] at hob
    rcases hob with rfl | rfl | hob
    · exact .inr ⟨_, rfl⟩
    · exact .inl rfl
    · exact hf h2 ob hob
  | fail h1 h2 => exact .inl ⟨_, _, h1, key _ h1 fun ob hob => h2.mem hob⟩
  | rfStart => exact .inr (.inr (.inl ⟨_, rfl⟩))
  | _ => exact .inr (.inr (.inr rfl))

/-- A thread which got an answer to a refresh is a refresh thread. -/
theorem Core.refresh {w : World} {i : Nat} {l : List Obs} {o : Op} (h : Core E w i l o) {u : String} {a : Account}
    {r : String} {net : Net} (hm : .resp i u (refreshPost a r) net ∈ l) : o.refreshHandle.isSome = true := by
  rcases h.exchange_mem with ⟨c, l0, h1, h2⟩ | ⟨b, s, rfl⟩ | ⟨id, rfl⟩ | h1
  · rcases h2 _ hm with ⟨_, h⟩ | ⟨_, _, h⟩ | h | ⟨_, h⟩ <;> simp at h
    exact absurd h.2.1.symm h1.form
  · simp at hm
  · cases h; cases hm
  · exact h1

theorem SaysAll.no_resp {i : Nat} : ∀ {tail : List Op} {m : List Obs}, SaysAll i tail m → ∀ {j u form net},
    .resp j u form net ∉ m
  | [], _, h, _, _, _, _ => by cases h; simp
  | _ :: _, _, ⟨os, m', h1, h2, h3⟩, j, u, form, net => by
    subst h3
    simp only [List.mem_append, not_or]
    refine ⟨h2.no_resp, ?_⟩
    cases h1 <;> simp
    rename_i h
    rcases h with ⟨_, rfl⟩ | rfl <;> simp

theorem SaysAll.no_post {i : Nat} : ∀ {tail : List Op} {m : List Obs}, SaysAll i tail m → ∀ {j u form},
    .post j u form ∉ m
  | [], _, h, _, _, _ => by cases h; simp
  | _ :: _, _, ⟨os, m', h1, h2, h3⟩, j, u, form => by
    subst h3
    simp only [List.mem_append, not_or]
    refine ⟨h2.no_post, ?_⟩
    cases h1 <;> simp
    rename_i h
    rcases h with ⟨_, rfl⟩ | rfl <;> simp

/-- How a refresh began. -/
theorem refreshBegan {w : World} {i id : Nat} {c : RfCtx} (h : StepTo E w i [] (.rfStart id) [.rfSend c]) :
    ∃ w1 w2 inp e a t r, Reach E w1 ∧ w1.step E (.run i inp) = some w2 ∧ Steps E w2 w ∧ w1.threads i = [.rfStart id] ∧
      threadLog i w1.log = [] ∧ w1.ls.Has e a ∧ e.id = id ∧ e.ts = .active t ∧ t.ongoing = false ∧
      t.refreshToken = some r ∧ c = ⟨w1.ls.accountCount + 1, a.name, a.tokenUri, refreshForm a r, r⟩ ∧
      w2.ls = w1.ls.bump.put e.id (.active { t with ongoing := true, lastAttempt := some w1.now }) := by
  obtain ⟨w1, w2, inp, f, g1, g2, g3, g4, g5, g6, hx, g7, g8, g9⟩ := h.exec (by simp)
  cases hx <;> simp only [reduceCtorEq, List.cons.injEq, Op.rfSend.injEq, and_true, List.nil_eq] at g7
  rename_i e a t r k1 k2 k3 k4 k5
  exact ⟨w1, w2, inp, e, a, t, r, g1, g2, g3, g4, g6, k1, k5, k2, k3, k4, g7.symm, g8.symm⟩

/-- The POSTs (and answers to them) of a refresh thread. -/
theorem Core.refresh_mem {w : World} {i : Nat} {l : List Obs} {o : Op} (h : Core E w i l o)
    (ho : o.refreshHandle.isSome = true) :
    ∃ id c, StepTo E w i [] (.rfStart id) [.rfSend c] ∧ ∀ ob ∈ l, ob = .post i c.tokenUri c.form ∨
      (∃ n, ob = .resp i c.tokenUri c.form n) ∨ (∃ cmd, ob = .transientCmd i cmd c.name) ∨
      ∃ b, ob = .transientCmdEnd i b := by
  cases h <;> simp only [Op.refreshHandle, Option.isSome_none, Bool.false_eq_true] at ho <;>
    (refine ⟨_, _, ‹StepTo E w i [] (.rfStart _) [.rfSend _]›, ?_⟩; simp)

end Pizauth
