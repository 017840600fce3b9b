import Verif.Spec.Systemd
import Verif.Props.Cli
import Verif.Props.Dump
import Verif.Proof.Receive

/-!
# C120: the systemd service
-/

namespace Pizauth
open Systemd

variable {E : Env} {c : Config} {S : Static}

section lemmas

/-- The connection of a client is closed when the main thread becomes idle. -/
theorem StepR.closes {w w' : World} {a : Action} (hr : Reach E w) (h : StepR E w a w') (h1 : w.threads 0 ≠ [])
    (h2 : w'.threads 0 = []) : w'.log = (w.now, .closed) :: w.log := by
  have hlt : 0 < w.nextTid := by
    obtain ⟨_, _, ht⟩ := List.exists_cons_of_ne_nil h1
    exact hr.inv0.tid_lt ht
  cases h
  case run tid inp op rest f ht hx =>
    by_cases h0 : tid = 0
    · subst h0
      rw [apply_threads_self hlt] at h2
      obtain ⟨hn, rfl⟩ := List.append_eq_nil_iff.mp h2
      have hm := (Reach.shape w hr).main
      rw [ht] at hm
      rcases hm.cons with ⟨_, _, h⟩ | ⟨_, _, h⟩ | ⟨rfl, _⟩ | ⟨_, _, h, _⟩
      · cases h
      · cases h
      · cases hx
        simp [World.apply]
      · simp at h
    · rw [apply_threads_other hlt (Ne.symm h0)] at h2
      exact absurd h2 h1
  case connect h => exact absurd h h1
  all_goals first
    | exact absurd h2 h1
    | (exfalso; simp only [setThread_ne _ (show 0 ≠ w.nextTid by omega)] at h2; exact h1 h2)
    | (exfalso; simp only [spawnAll_lt _ _ _ _ hlt] at h2; exact h1 h2)

theorem answered_eq : ∀ l : Log, answered l = (repliesSince l).flatten
  | [] => rfl
  | (_, o) :: l => by cases o <;> simp [answered, repliesSince, answered_eq l]

end lemmas

namespace Systemd

/-- A step of a process which is starting. -/
theorem Host.run_cases {h h' : Start.Host} {p : Nat} {ok : Bool} (hs : h.step (.run p ok) = some h') :
    ∃ x y, h.procs[p]? = some x ∧ x.pc ≠ .serving ∧ h'.procs = h.procs.set p y ∧
      (y.pc = .listen ∨ y.pc = .serving → h'.sock = some p ∨ h'.sock = h.sock ∧ x.pc = .listen) := by
  simp only [Start.Host.step] at hs
  split at hs
  · cases hs
  rename_i x hx
  unfold Start.Host.run at hs
  split at hs <;> (try split at hs) <;> first | cases hs | skip
  all_goals
    refine ⟨x, _, hx, by simp_all, rfl, ?_⟩
    intro hy
    simp only [Start.Host.set, Start.Proc.fail] at hy ⊢
    cases hd : x.daemonise <;> simp_all

/-- What is always true of the service. -/
structure Inv (E : Env) (s : Service) : Prop where
  /-- Only the main process is alive. -/
  others : ∀ p x, s.host.procs[p]? = some x → p ≠ s.main → x.pc = .ended
  /-- Clients which can connect to a server reach the main process. -/
  sock : ∀ x, s.host.procs[s.main]? = some x → x.pc = .listen ∨ x.pc = .serving → s.host.sock = some s.main
  live : s.serves = true → Reach E s.world ∧ s.world.proc = .running
  answer : s.job = .answer → s.serves = true ∧ s.world.threads 0 ≠ [] ∧ ∃ t, lastRequest s.world.log = some (t, Cmd.wire .dump)

theorem serves_iff {s : Service} : s.serves = true ↔ ∃ x, s.host.procs[s.main]? = some x ∧ x.pc = .serving := by
  unfold Service.serves
  split <;> simp_all

theorem Inv.accepts {s : Service} (h : Inv E s) : s.host.accepts = s.serves := by
  rw [Bool.eq_iff_iff, serves_iff]
  unfold Start.Host.accepts
  constructor
  · intro ha
    split at ha
    · cases ha
    split at ha
    · cases ha
    rename_i _ p hp _ x hx
    by_cases hm : p = s.main
    · subst hm; exact ⟨x, hx, by simpa using ha⟩
    · have := h.others p x hx hm
      simp [this] at ha
  · rintro ⟨x, hx, hp⟩
    rw [h.sock x hx (.inr hp)]
    simp [hx, hp]

theorem Inv.boot {s : Service} (h1 : s.host = Start.Host.boot) (h2 : s.job = .none) : Inv E s := by
  refine ⟨?_, ?_, ?_, ?_⟩
  · intro p x hx; rw [h1] at hx; simp [Start.Host.boot] at hx
  · intro x hx; rw [h1] at hx; simp [Start.Host.boot] at hx
  · intro hs; obtain ⟨x, hx, _⟩ := serves_iff.mp hs; rw [h1] at hx; simp [Start.Host.boot] at hx
  · intro h; rw [h2] at h; cases h

/-- The end of the main process. -/
theorem Host.kill {h : Start.Host} {p : Nat} : ((h.step (.kill p)).getD h).sock = h.sock ∧
    (∀ q x, ((h.step (.kill p)).getD h).procs[q]? = some x → q ≠ p → h.procs[q]? = some x) ∧
    ∀ x, ((h.step (.kill p)).getD h).procs[p]? = some x → x.pc = .ended := by
  simp only [Start.Host.step]
  cases hp : h.procs[p]? with
  | none => simpa [hp] using fun _ _ h _ => h
  | some x =>
    by_cases he : x.pc = .ended
    · simpa [he, hp] using fun _ _ h _ => h
    · have hlt : p < h.procs.length := by
        obtain ⟨h1, _⟩ := List.getElem?_eq_some_iff.mp hp
        exact h1
      simp only [he, if_false, Option.getD_some, Start.Host.set, true_and]
      refine ⟨fun q y hy hq => by rwa [List.getElem?_set_ne (Ne.symm hq)] at hy, fun y hy => ?_⟩
      rw [List.getElem?_set_self hlt] at hy
      cases hy
      rfl

theorem Inv.main {s : Service} (hF : Fine E c S) (h : Inv E s) {ok : Bool} {h' : Start.Host}
    (hs : s.host.step (.run s.main ok) = some h') :
    Inv E (if ({ s with host := h' } : Service).serves then { s with host := h', world := World.init c S s.world.now s.world.wall }
      else { s with host := h' }) := by
  obtain ⟨x, y, hx, hx1, h1, h2⟩ := Host.run_cases hs
  have hlt : s.main < s.host.procs.length := by
    obtain ⟨h1, _⟩ := List.getElem?_eq_some_iff.mp hx
    exact h1
  have ho : ∀ p x, h'.procs[p]? = some x → p ≠ s.main → x.pc = .ended := by
    intro p x hp hm
    rw [h1, List.getElem?_set_ne (Ne.symm hm)] at hp
    exact h.others p x hp hm
  have hk : ∀ x, h'.procs[s.main]? = some x → x.pc = .listen ∨ x.pc = .serving → h'.sock = some s.main := by
    intro x' hx' hpc
    rw [h1, List.getElem?_set_self hlt] at hx'
    cases hx'
    rcases h2 hpc with h2 | ⟨h2, h3⟩
    · exact h2
    · rw [h2]; exact h.sock x hx (.inl h3)
  have hj : s.job ≠ .answer := by
    intro hj
    obtain ⟨x', hx', hp⟩ := serves_iff.mp (h.answer hj).1
    rw [hx] at hx'
    cases hx'
    exact hx1 hp
  split
  · refine ⟨ho, hk, fun _ => ⟨.init ?_, rfl⟩, fun h => absurd h hj⟩
    exact ⟨hF.conf, rfl, hF.http, hF.https, fun _ => rfl, rfl, rfl, rfl, rfl, rfl, rfl, rfl, rfl, rfl, rfl⟩
  · rename_i hns
    exact ⟨ho, hk, fun h => absurd h hns, fun h => absurd h hj⟩

/-- The service is as before, but for its world. -/
theorem Inv.world {s : Service} (h : Inv E s) {w : World} {a : Action} (hsv : s.serves = true) (hs : s.world.step E a = some w)
    {j : Job} {f : Option Bytes} (hp : w.proc = .running) (hj : j = .answer → w.threads 0 ≠ [] ∧
      ∃ t, lastRequest w.log = some (t, Cmd.wire .dump)) : Inv E { s with world := w, job := j, file := f } :=
  ⟨h.others, h.sock, fun _ => ⟨.step _ (h.live hsv).1 hs, hp⟩, fun hja => ⟨hsv, hj hja⟩⟩

theorem Inv.dead {s : Service} (h : Inv E s) {w : World} {j : Job} {f : Option Bytes} (hj : j ≠ .answer) :
    Inv E { s with world := w, host := (s.host.step (.kill s.main)).getD s.host, job := j, file := f } := by
  obtain ⟨h1, h2, h3⟩ := Host.kill (h := s.host) (p := s.main)
  refine ⟨fun p x hp hm => h.others p x (h2 p x hp hm) hm, fun x hx hpc => ?_, fun hs => ?_, fun h => absurd h hj⟩
  · rw [h3 x hx] at hpc; simp at hpc
  · obtain ⟨x, hx, hpc⟩ := serves_iff.mp hs
    rw [h3 x hx] at hpc; cases hpc

theorem Inv.request {s s' : Service} (h : Inv E s) {cmd : Cmd} {j1 j2 : Job} {f : Option Bytes} (h1 : j1 ≠ .answer)
    (h2 : j2 = .answer → cmd = .dump)
    (hs : s.request E cmd (fun s => { s with job := j1, file := f }) (fun s => { s with job := j2 }) = some s') : Inv E s' := by
  unfold Service.request at hs
  split at hs
  · rename_i ha
    rw [h.accepts] at ha
    obtain ⟨w, hw, rfl⟩ := Option.map_eq_some_iff.mp hs
    obtain ⟨hr, hp⟩ := h.live ha
    have hw' := hw
    simp only [World.step, hp] at hw'
    split at hw'
    · simp only [Option.some.injEq] at hw'
      refine h.world ha hw (by rw [← hw']; simp [World.observe]) fun hj => ?_
      subst hw'
      rw [h2 hj]
      exact ⟨by simp [World.observe, setThread], s.world.now, by simp [World.observe, lastRequest]⟩
    · cases hw'
  · cases hs
    exact ⟨h.others, h.sock, h.live, fun h => absurd h h1⟩

theorem Inv.step {s s' : Service} (hF : Fine E c S) (h : Inv E s) {a : Act} (hs : s.step E c S a = some s') : Inv E s' := by
  cases a with
  | start =>
    have key : (∀ x : Start.Proc, s.host.procs[s.main]? = some x → x.pc = .ended) → s' = { s with
        host := { s.host with procs := s.host.procs ++ [⟨false, .look, none, none⟩] }
        main := s.host.procs.length, job := .restore } → Inv E s' := by
      rintro hend rfl
      have hold : ∀ (p : Nat) (x : Start.Proc), s.host.procs[p]? = some x → x.pc = .ended := by
        intro p x hx
        by_cases hm : p = s.main
        · subst hm; exact hend x hx
        · exact h.others p x hx hm
      have hnew : (s.host.procs ++ [(⟨false, .look, none, none⟩ : Start.Proc)])[s.host.procs.length]? =
          some ⟨false, .look, none, none⟩ := by simp
      refine ⟨fun p x hp hm => ?_, fun x hx hpc => ?_, fun hsv => ?_, fun h => by cases h⟩
      · simp only at hp hm
        have hl : p < s.host.procs.length := by
          obtain ⟨h1, _⟩ := List.getElem?_eq_some_iff.mp hp
          simp at h1
          omega
        rw [List.getElem?_append_left hl] at hp
        exact hold p x hp
      · simp only [hnew, Option.some.injEq] at hx
        subst hx
        simp at hpc
      · obtain ⟨x, hx, hpc⟩ := serves_iff.mp hsv
        simp only [hnew, Option.some.injEq] at hx
        subst hx
        cases hpc
    simp only [Service.step] at hs
    split at hs
    · rename_i hn
      simp only [Start.Host.step, Option.map_some, Option.some.injEq] at hs
      exact key (fun x hx => by rw [hn] at hx; cases hx) hs.symm
    · rename_i x hx
      split at hs
      · rename_i he
        simp only [Start.Host.step, Option.map_some, Option.some.injEq] at hs
        exact key (fun y hy => by rw [hx] at hy; cases hy; exact he) hs.symm
      · cases hs
    · cases hs
  | main ok =>
    simp only [Service.step] at hs
    split at hs
    · cases hs
    · rename_i h' hh
      cases hs
      exact h.main hF hh
  | server a =>
    simp only [Service.step] at hs
    split at hs
    · rename_i hsv
      obtain ⟨w, hw, rfl⟩ := Option.map_eq_some_iff.mp hs
      obtain ⟨hr, hp0⟩ := h.live hsv
      unfold Service.after
      by_cases hp : w.proc = .running
      · by_cases hj : s.job = .answer
        · by_cases ht : w.threads 0 = []
          · simp only [hj, hp, ht, ne_eq, not_true_eq_false, List.isEmpty_nil, or_true, and_self, if_true]
            exact h.world hsv hw hp (by simp)
          · simp only [hj, hp, ne_eq, not_true_eq_false, List.isEmpty_iff, ht, or_self, and_false, if_true, if_false]
            obtain ⟨_, ht0, t, hl⟩ := h.answer hj
            refine h.world hsv hw hp fun _ => ⟨ht, t, ?_⟩
            rw [(stepR_of_step hr.inv0.wf hw).2.lastRequest ht0]
            exact hl
        · simp only [hj, hp, false_and, if_true, if_false]
          exact h.world hsv hw hp (fun h => absurd h hj)
      · by_cases hj : s.job = .answer
        · simp only [hj, hp, ne_eq, not_false_eq_true, true_or, and_self, if_true, if_false]
          exact h.dead (by simp)
        · simp only [hj, hp, false_and, if_false]
          exact h.dead hj
    · cases hs
  | stop =>
    simp only [Service.step] at hs
    split at hs
    · cases hs
      exact ⟨h.others, h.sock, h.live, fun h => by cases h⟩
    · cases hs
  | job =>
    simp only [Service.step] at hs
    cases hj : s.job <;> simp only [hj] at hs
    · cases hs
    · cases hs
    · exact h.request (f := s.file) (by simp) (by simp) hs
    · exact h.request (by simp) (by simp) hs
    · cases hs
    · exact h.request (f := s.file) (by simp) (by simp) hs
    · cases hs
      exact h.dead (by simp)

theorem Reaches.inv {s : Service} (hF : Fine E c S) (h : Reaches E c S s) : Inv E s := by
  induction h with
  | boot h1 h2 => exact .boot h1 h2
  | step a _ hs ih => exact ih.step hF hs

theorem request_file {s s' : Service} {cmd : Cmd} {j1 j2 : Job}
    (hs : s.request E cmd (fun s => { s with job := j1 }) (fun s => { s with job := j2 }) = some s') :
    s'.file = s.file ∧ (s'.job = j1 ∨ s'.job = j2) := by
  unfold Service.request at hs
  split at hs
  · obtain ⟨w, _, rfl⟩ := Option.map_eq_some_iff.mp hs; exact ⟨rfl, .inr rfl⟩
  · cases hs; exact ⟨rfl, .inl rfl⟩

/-- The state file is only written while the service is stopped. -/
theorem step_file {s s' : Service} {a : Act} (hs : s.step E c S a = some s') (ha : a ≠ .stop) (h1 : s.job ≠ .dump)
    (h2 : s.job ≠ .answer) : s'.file = s.file ∧ s'.job ≠ .dump ∧ s'.job ≠ .answer := by
  cases a with
  | stop => exact absurd rfl ha
  | start =>
    simp only [Service.step, Start.Host.step, Option.map_some] at hs
    split at hs
    · cases hs; simp
    · split at hs
      · cases hs; simp
      · cases hs
    · cases hs
  | main ok =>
    simp only [Service.step] at hs
    split at hs
    · cases hs
    · cases hs
      split <;> exact ⟨rfl, h1, h2⟩
  | server a =>
    simp only [Service.step] at hs
    split at hs
    · obtain ⟨w, hw, rfl⟩ := Option.map_eq_some_iff.mp hs
      unfold Service.after
      simp only [h2, false_and, if_false]
      split <;> exact ⟨rfl, h1, h2⟩
    · cases hs
  | job =>
    simp only [Service.step] at hs
    cases hj : s.job <;> simp only [hj] at hs
    · cases hs
    · cases hs
    · obtain ⟨h3, h4⟩ := request_file hs; refine ⟨h3, ?_⟩; rcases h4 with h4 | h4 <;> simp [h4]
    · exact absurd hj h1
    · cases hs
    · obtain ⟨h3, h4⟩ := request_file hs; refine ⟨h3, ?_⟩; rcases h4 with h4 | h4 <;> simp [h4]
    · cases hs; simp

theorem Unstopped.file {s s' : Service} (h : Unstopped E c S s s') (h1 : s.job ≠ .dump) (h2 : s.job ≠ .answer) :
    s'.file = s.file ∧ s'.job ≠ .dump ∧ s'.job ≠ .answer := by
  induction h with
  | refl => exact ⟨rfl, h1, h2⟩
  | step a _ hs ha ih =>
    obtain ⟨i1, i2, i3⟩ := ih
    obtain ⟨j1, j2⟩ := step_file hs ha i2 i3
    exact ⟨j1.trans i1, j2⟩

theorem Unstopped.reaches {s s' : Service} (h : Unstopped E c S s s') (hs : Reaches E c S s) : Reaches E c S s' := by
  induction h with
  | refl => exact hs
  | step a _ hs _ ih => exact .step a ih hs

end Systemd

/-- **C120.** What is saved when the service is stopped is what the server answers to `dump`: nothing, or a dump which it made
while it was carrying out this request. -/
theorem C120_saved {s s' : Service} {a : Action} (hF : Fine E c S) (hs : Reaches E c S s) (hj : s.job = .answer)
    (h : s.step E c S (.server a) = some s') (hj' : s'.job ≠ .answer) (hp : s'.world.proc = .running) :
    ∃ b, s'.file = some b ∧ (b ≠ [] → ∃ w1 w1', Executes E w1 (Cmd.wire .dump) w1' ∧ w1'.threads 0 = [.reply b, .close] ∧
      Steps E w1' s'.world) := by
  have hi := hs.inv hF
  obtain ⟨hsv, ht, t, hl⟩ := hi.answer hj
  obtain ⟨hr, hp0⟩ := hi.live hsv
  simp only [Service.step, hsv, if_true] at h
  obtain ⟨w, hw, rfl⟩ := Option.map_eq_some_iff.mp h
  unfold Service.after at hj' hp ⊢
  have hpw : w.proc = .running := by
    by_cases hpw : w.proc = .running
    · exact hpw
    · simp [hpw, hj] at hp
  by_cases h0 : w.threads 0 = []
  · simp only [hj, hpw, h0, ne_eq, not_true_eq_false, List.isEmpty_nil, or_true, and_self, if_true]
    refine ⟨_, rfl, fun hb => ?_⟩
    have hc := (stepR_of_step hr.inv0.wf hw).2.closes hr ht h0
    have hrec : Receives E s.world (Cmd.wire .dump) (answered w.log) := by
      refine ⟨hr, ⟨a, w, _, hw, hc⟩, ⟨t, hl⟩, ?_⟩
      rw [hc, answered_eq]
      rfl
    obtain ⟨_, w1, w1', h1, h2, h3⟩ := C74_dump_partial hrec hb
    exact ⟨w1, w1', h1, h2, h3.trans (.step _ .refl hw)⟩
  · simp [hj, hpw, h0] at hj'

/-- **C120**, what holds: what was saved when the service was stopped (a dump made in `w1`) is given to the server when it is
started again, if the server serves requests already when `ExecStartPost` connects to it; then every account which had a token
and has none now, with the same settings, gets the same token. -/
theorem C120_partial (hE : CryptLaw E) {s s' s2 s3 : Service} {a : Action} (hF : Fine E c S) (hs : Reaches E c S s)
    (hj : s.job = .answer) (h : s.step E c S (.server a) = some s') (hj' : s'.job = .shutdown) (hp : s'.world.proc = .running)
    (hne : s'.file ≠ some []) (hu : Unstopped E c S s' s2) (hj2 : s2.job = .restore) (hsv : s2.serves = true)
    (h3 : s2.step E c S .job = some s3) :
    ∃ b w1 w1', Executes E w1 (Cmd.wire .dump) w1' ∧ w1'.threads 0 = [.reply b, .close] ∧ Steps E w1' s'.world ∧
      s3.world.threads 0 = [.unix (Cmd.wire (.restore b)), .close] ∧ Reach E s3.world ∧
      (SysTimeOk w1.wall → ∀ w2 w2', Executes E w2 (Cmd.wire (.restore b)) w2' →
        ∀ n t a1 a2, HoldsToken w1.ls n t → (∀ t', ¬ HoldsToken w2.ls n t') →
          w1.ls.config.accounts.lookup n = some a1 → w2.ls.config.accounts.lookup n = some a2 → SameSec a1 a2 →
          ∃ t', HoldsToken w2'.ls n t' ∧ Carried w1.now w1.wall w2.now w2.wall t t') := by
  obtain ⟨b, hb, hex⟩ := C120_saved hF hs hj h (by simp [hj']) hp
  have hb0 : b ≠ [] := fun h0 => hne (by rw [hb, h0])
  obtain ⟨w1, w1', k1, k2, k3⟩ := hex hb0
  have hr2 : Reaches E c S s2 := hu.reaches (.step _ hs h)
  have hf := (hu.file (by simp [hj']) (by simp [hj'])).1
  have hi := hr2.inv hF
  simp only [Service.step, hj2, Service.request, hi.accepts, hsv, if_true, hf, hb, Option.getD_some] at h3
  obtain ⟨w, hw, rfl⟩ := Option.map_eq_some_iff.mp h3
  obtain ⟨hr, hp2⟩ := hi.live hsv
  refine ⟨b, w1, w1', k1, k2, k3, ?_, .step _ hr hw, fun hwall w2 w2' hex2 n t a1 a2 => ?_⟩
  · simp only [World.step, hp2] at hw
    split at hw
    · simp only [Option.some.injEq] at hw
      rw [← hw]
      simp [World.observe, setThread]
    · cases hw
  · exact (C36_carried hE k1 (C47 _) k2 hex2 (C47 _) hwall).1 n t a1 a2

namespace Demo

def svc0 : Service := ⟨Start.Host.boot, 0, w0, .none, none⟩

def svc (s : Service) (l : List Act) : Service := (s.run env conf static l).getD s

theorem svc_steps {s s' : Service} : ∀ {l : List Act}, s.run env conf static l = some s' →
    (∀ a ∈ l, (match a with | .stop => true | _ => false) = false) → Unstopped env conf static s s' := by
  intro l
  suffices key : ∀ s1, Unstopped env conf static s s1 → s1.run env conf static l = some s' →
      (∀ a ∈ l, (match a with | .stop => true | _ => false) = false) → Unstopped env conf static s s' from key s .refl
  induction l with
  | nil => intro s1 h1 h _; cases h; exact h1
  | cons a l ih =>
    intro s1 h1 h hl
    simp only [Service.run] at h
    split at h
    · cases h
    · rename_i s2 h2
      refine ih s2 (.step a h1 h2 fun ha => ?_) h fun b hb => hl b (List.mem_cons_of_mem _ hb)
      have := hl a List.mem_cons_self
      rw [ha] at this
      cases this

theorem svc_reaches {s s' : Service} (hr : Reaches env conf static s) : ∀ {l : List Act},
    s.run env conf static l = some s' → Reaches env conf static s' := by
  intro l
  induction l generalizing s with
  | nil => intro h; cases h; exact hr
  | cons a l ih =>
    intro h
    simp only [Service.run] at h
    split at h
    · cases h
    · rename_i s2 h2
      exact ih (.step a hr h2) h

def mains (k : Nat) : List Act := List.replicate k (.main true)

/-- The service is started; `ExecStartPost` has nothing to restore. The user logs in. -/
def actsLogin : List Act := [.start] ++ mains 6 ++ [.job] ++ (n0 3 ++ sToken).map .server

/-- The service is stopped, and the server about to close the connection of `pizauth dump`. -/
def actsDump : List Act :=
  actsLogin ++ [.stop, .job, .server (.run 0 (dumpIn (after sToken))), .server (.run 0 {})]

/-- The server is shut down, and the service started again. -/
def actsAgain : List Act := [.job, .server (.run 0 {}), .job, .start]

theorem fine : Fine env conf static := ⟨w0_init.conf, rfl, rfl⟩

/-- How a state of the service looks. -/
def looks (s : Service) : Job × Bool × Option String × Option Bool :=
  (s.job, s.serves, (holdsTok s.world "a").map (·.accessToken), s.file.map (·.isEmpty))

theorem svc_run {s : Service} {l : List Act} {x : Job × Bool × Option String × Option Bool}
    (h : (s.run env conf static l).map looks = some x) :
    s.run env conf static l = some (svc s l) ∧ looks (svc s l) = x := by
  obtain ⟨s', h1, h2⟩ := Option.map_eq_some_iff.mp h
  unfold svc
  rw [h1]
  exact ⟨rfl, h2⟩

theorem not_holds {w : World} {n : String} (hw : (w.ls.details.all fun e => e.name != n || match e.ts with
    | .active _ => false | _ => true) = true) (t : ActiveTok) : ¬ HoldsToken w.ls n t := by
  rintro ⟨e, he, hn, ht⟩
  have := List.all_eq_true.mp hw e he
  simp [hn, ht] at this

/-- The state before the server closes the connection of `pizauth dump`, and the one thereafter. -/
def svcAnswer : Service := svc svc0 actsDump
def svcSaved : Service := svc svcAnswer [.server (.run 0 {})]

theorem svcAnswer_looks : svc0.run env conf static actsDump = some svcAnswer ∧
    looks svcAnswer = (.answer, true, some "T1", none) := svc_run (by decide +kernel)

theorem svcSaved_looks : svcAnswer.run env conf static [.server (.run 0 {})] = some svcSaved ∧
    looks svcSaved = (.shutdown, true, some "T1", some false) := svc_run (by decide +kernel)

theorem svcAnswer_reaches : Reaches env conf static svcAnswer := svc_reaches (.boot rfl rfl) svcAnswer_looks.1

theorem svcSaved_step : svcAnswer.step env conf static (.server (.run 0 {})) = some svcSaved := by
  have := svcSaved_looks.1
  simp only [Service.run] at this
  split at this
  · cases this
  · rename_i h; rw [h]; exact this

theorem svcSaved_running : svcSaved.world.proc = .running := by decide +kernel

/-- The service is started again, and serves before `pizauth restore` connects. -/
def svcAgain : Service := svc svcSaved (actsAgain ++ mains 8)

/-- The token of account "a" in the dump. -/
def svcRestoreIn : Input := { drainOrder := [("a", .active { restoredTok with obtained := 0, expiry := 3600000000000 })] }

/-- `pizauth restore` connects too early. -/
def svcEarly : Service := svc svcSaved (actsAgain ++ [.job] ++ mains 8)

/-- The service is stopped before the server listens. -/
def svcHasty : Service := svc svcSaved (actsAgain ++ [.job])

end Demo

open Demo

/-- **C120**, negated: an account which has a token when the service is stopped, and whose token is in the dump which is saved
then, has none after the service has been started again, if `ExecStartPost` is faster than the server; and if the service is
then stopped again at once, the dump is lost, too. -/
theorem C120_not : ∃ (s s' : Service) (t : ActiveTok), Fine env conf static ∧ Reaches env conf static s ∧ s.job = .answer ∧
    s.step env conf static (.server (.run 0 {})) = some s' ∧ s'.job = .shutdown ∧ s'.world.proc = .running ∧
    s'.file ≠ some [] ∧ HoldsToken s'.world.ls "a" t ∧
    (∃ s2, Unstopped env conf static s' s2 ∧ s2.job = .active ∧ s2.serves = true ∧ s2.world.proc = .running ∧
      s2.world.threads 0 = [] ∧ ∀ t', ¬ HoldsToken s2.world.ls "a" t') ∧
    ∃ s2 s3, Unstopped env conf static s' s2 ∧ s2.run env conf static [.stop, .job] = some s3 ∧ s3.file = some [] := by
  have h1 := svcAnswer_looks.2
  have h2 := svcSaved_looks.2
  simp only [looks, Prod.mk.injEq] at h1 h2
  obtain ⟨t, ht, _⟩ := Option.map_eq_some_iff.mp h2.2.2.1
  have h3 : svcSaved.run env conf static (actsAgain ++ [.job] ++ mains 8) = some svcEarly ∧
    looks svcEarly = (.active, true, none, some false) := svc_run (by decide +kernel)
  have h4 : svcSaved.run env conf static (actsAgain ++ [.job]) = some svcHasty ∧
    looks svcHasty = (.active, false, some "T1", some false) := svc_run (by decide +kernel)
  have h5 : (svcHasty.run env conf static [.stop, .job]).map looks = some (.shutdown, false, some "T1", some true) := by
    decide +kernel
  have e3 := h3.2
  simp only [looks, Prod.mk.injEq] at e3
  refine ⟨svcAnswer, svcSaved, t, fine, svcAnswer_reaches, h1.1, svcSaved_step, h2.1, svcSaved_running, ?_,
    holdsTok_holds ht, ⟨svcEarly, svc_steps h3.1 (by decide), e3.1, e3.2.1, by decide +kernel, ?_, not_holds ?_⟩,
    svcHasty, svc svcHasty [.stop, .job], svc_steps h4.1 (by decide), (svc_run h5).1, ?_⟩
  · intro h; rw [h] at h2; simp at h2
  · exact List.isEmpty_iff.mp (by decide +kernel)
  · decide +kernel
  · have := (svc_run h5).2
    simp only [looks, Prod.mk.injEq] at this
    obtain ⟨b, hb, hb'⟩ := Option.map_eq_some_iff.mp this.2.2.2
    rw [hb, List.isEmpty_iff.mp hb']

/-- The server which is started again serves before `pizauth restore` connects, and gets the dump; the token is restored. -/
example : svcAgain.job = .restore ∧ svcAgain.serves = true ∧
    ∃ s3 b, svcAgain.step env conf static .job = some s3 ∧
      s3.world.threads 0 = [.unix (Cmd.wire (.restore b)), .close] ∧
      ∃ w2' t', Executes env s3.world (Cmd.wire (.restore b)) w2' ∧ HoldsToken w2'.ls "a" t' ∧ t'.accessToken = "T1" := by
  have h1 := svcAnswer_looks.2
  have h2 := svcSaved_looks.2
  simp only [looks, Prod.mk.injEq] at h1 h2
  have h3 : svcSaved.run env conf static (actsAgain ++ mains 8) = some svcAgain ∧
    looks svcAgain = (.restore, true, none, some false) := svc_run (by decide +kernel)
  have e3 := h3.2
  simp only [looks, Prod.mk.injEq] at e3
  have h4 : (svcAgain.run env conf static [.job]).map looks = some (.active, true, none, some false) := by decide +kernel
  have h5 := (svc_run h4).1
  have h6 : svcAgain.step env conf static .job = some (svc svcAgain [.job]) := by
    simp only [Service.run] at h5
    split at h5
    · cases h5
    · rename_i h; rw [h]; exact h5
  obtain ⟨b, w1, w1', k1, k2, k3, k4, k5, k6⟩ := C120_partial demo_crypt fine svcAnswer_reaches h1.1 svcSaved_step h2.1
    svcSaved_running (by intro h; rw [h] at h2; simp at h2) (svc_steps h3.1 (by decide)) e3.1 e3.2.1 h6
  obtain ⟨t', ht', ha⟩ := Option.map_eq_some_iff.mp (by decide +kernel :
    (holdsTok (andThen (svc svcAgain [.job]).world [.run 0 svcRestoreIn]) "a").map (·.accessToken) = some "T1")
  exact ⟨e3.1, e3.2.1, _, b, h6, k4, _, t', ⟨k5, k4, svcRestoreIn, andThen_one (by decide +kernel)⟩, holdsTok_holds ht', ha⟩

end Pizauth
