import Verif.Proof.Daemon
import Verif.Props.Accept
import Verif.Props.Browsers
import Verif.Props.Jobs

/-!
# C125: clients, browsers and commands do not hold each other up
-/

namespace Pizauth

variable {E : Env} {shell : Commands.Shell}

theorem mem_only {i : Nat} {lf : List FrontAct} : (.shut i ∈ onlyClients lf ↔ .shut i ∈ lf) ∧
    (.reset i ∈ onlyClients lf ↔ .reset i ∈ lf) := by
  simp [onlyClients, List.mem_filter]

theorem mem_onlyB {i : Nat} {lv : List WebAct} : .shut i ∈ onlyBrowsers lv ↔ .shut i ∈ lv := by
  simp [onlyBrowsers, List.mem_filter]

/-- **C125.** Whatever clients and browsers do, whenever commands start and end, and whatever happens in the server
meanwhile: clients are served in their order, with what they sent (as in C104); browsers are served independently of each
other, with what they sent (as in C124); and every reminder and error is handed over once (as in C123). -/
theorem C125 {d d' : Daemon} {l : List DaemonAct} (hi : d.IsInit E) (hr : d.run E shell l = some d') :
    Reach E d'.world ∧
    (∃ served : List Nat, served.Sublist (List.range (clients (clientActs l))) ∧
      requests d'.world.log = served.map (fun i => sentBy i (clientActs l)) ∧
      ∀ i ∈ served, .shut i ∈ clientActs l ∧ ∀ j, j < i → j ∉ served → .reset j ∈ clientActs l) ∧
    (∃ served : List (Nat × Bytes × Bool), (served.map Prod.fst).Nodup ∧
      httpRequests d'.world.log = served.map Prod.snd ∧
      ∀ i b sec, (i, b, sec) ∈ served → (browsers (browserActs l))[i]? = some sec ∧ b <+: webSent i (browserActs l) ∧
        parseGet E b sec = parseGet E (webSent i (browserActs l)) sec ∧
        ((∀ more, parseGet E (b ++ more) sec = parseGet E b sec) ∨
          (.shut i ∈ browserActs l ∧ b = webSent i (browserActs l)))) ∧
    (d'.jobs.todo ++ d'.jobs.threads ++ d'.jobs.started.map Prod.snd).Perm (jobsOf d'.world.log) := by
  obtain ⟨hs, ⟨lf, h1, e1⟩, ⟨lv, h2, e2⟩, lj, h3⟩ := Daemon.run_parts l hi.same hr
  obtain ⟨hw, served, a1, a2, a3⟩ := C104 hi.front h1
  obtain ⟨-, got, b1, b2, b3⟩ := C124 hi.visits h2
  have hj : Jobs.Reach E shell d.jobs := by rw [hi.jobs]; exact .init hi.front.world
  have hj := C123_once (Jobs.run_reach _ hj h3)
  rw [hs.jobs] at hj
  rw [hs.web] at b2
  refine ⟨hw, ⟨served, ?_, ?_, fun i hm => ?_⟩, ⟨got, b1, b2, fun i b sec hm => ?_⟩, hj⟩
  · rw [← e1, clients_only]; exact a1
  · rw [← e1]; simp only [sentBy_only]; exact a2
  · obtain ⟨c1, c2⟩ := a3 i hm
    rw [← e1]
    exact ⟨mem_only.1.mpr c1, fun j hj hn => mem_only.2.mpr (c2 j hj hn)⟩
  · obtain ⟨c1, c2, c3, c4⟩ := b3 i b sec hm
    rw [← e2, browsers_only, webSent_only, mem_onlyB]
    exact ⟨c1, c2, c3, c4⟩

/-- States which can be reached. -/
private theorem DaemonReach.parts {d : Daemon} (h : DaemonReach E shell d) : d.Same ∧ VisitReach E d.web := by
  obtain ⟨d₀, l, hi, hr⟩ := h
  obtain ⟨hs, _, ⟨lv, h2, _⟩, _⟩ := Daemon.run_parts l hi.same hr
  exact ⟨hs, d₀.web, lv, hi.visits, h2⟩

private theorem jobs_ok {j : Jobs} {a : Action} {w : World} (hs : j.world.step E a = some w)
    (hn : a = .notifier → j.todo = []) : ∃ j', j.step E shell (.world a) = some j' ∧ j'.world = w := by
  have : (Jobs.isNotifier a && !j.todo.isEmpty) = false := by
    cases a <;> simp [Jobs.isNotifier]
    simpa using hn rfl
  simp [Jobs.step, this, hs]

/-- **C125.** A browser is answered as soon as it has sent enough, whatever clients, other browsers and commands do: also
while the main thread waits for a client (C81). -/
theorem C125_browser {d : Daemon} {i : Nat} {p : Page} (hd : DaemonReach E shell d) (hrun : d.world.proc = .running)
    (hp : d.web.pages[i]? = some p) (hr : p.read = false) (hg : p.gone = false)
    (he : p.ended = true ∨ streamGet E p.arrived false p.isHttps ≠ none) :
    ∃ d', d.step E shell (.browser (.read i)) = some d' ∧
      httpRequests d'.world.log = httpRequests d.world.log ++ [(p.arrived, p.isHttps)] := by
  obtain ⟨hs, hv⟩ := hd.parts
  obtain ⟨v, h1, h2⟩ := C124_answered hv (by rw [hs.web]; exact hrun) hp hr hg he
  have h3 := Visits.step_does h1 (by simp)
  have hx : d.web.does (.read i) = some (.http p.arrived p.isHttps) := by simp [Visits.does, hp, hg]
  rw [hx] at h3
  simp only at h3
  rw [hs.web] at h3 h2
  obtain ⟨j, hj, -⟩ := jobs_ok (shell := shell) (j := d.jobs) (by rw [hs.jobs]; exact h3) (by simp)
  have hf : d.front.step E (.other (.http p.arrived p.isHttps)) = some { d.front with world := v.world } := by
    have : d.front.world.step E (.http p.arrived p.isHttps) = some v.world := h3
    simp [Front.step, this]
  exact ⟨⟨{ d.front with world := v.world }, v, j⟩, by simp [Daemon.step, h1, hx, hf, hj], h2⟩

/-- **C125.** Clients are served as if there were no browsers and no commands. -/
theorem C125_client {d : Daemon} {a : FrontAct} {f : Front} (hd : DaemonReach E shell d) (ha : ∀ x, a ≠ .other x)
    (hf : d.front.step E a = some f) : ∃ d', d.step E shell (.client a) = some d' ∧ d'.front = f := by
  obtain ⟨hs, -⟩ := hd.parts
  have h3 := Front.step_does hf ha
  have key : ∃ d', (match d.front.does a with
      | none => some { d with front := f }
      | some x =>
        match d.web.step E (.other x), d.jobs.step E shell (.world x) with
        | some v, some j => some ⟨f, v, j⟩
        | _, _ => none) = some d' ∧ d'.front = f := by
    cases hx : d.front.does a with
    | none => exact ⟨_, rfl, rfl⟩
    | some x =>
      rw [hx] at h3
      obtain ⟨buf, rfl⟩ : ∃ buf, x = .connect buf := by
        unfold Front.does at hx
        split at hx
        · split at hx
          · split at hx
            · split at hx
              · exact ⟨_, (Option.some.inj hx).symm⟩
              · cases hx
            · cases hx
          · cases hx
        · cases hx
      have hw : d.web.world.step E (.connect buf) = some f.world := by rw [hs.web]; exact h3
      have hv := C124_free (by simp) hw
      obtain ⟨j, hj, -⟩ := jobs_ok (shell := shell) (j := d.jobs) (by rw [hs.jobs]; exact h3) (by simp)
      simp only [hv, hj]
      exact ⟨_, rfl, rfl⟩
  obtain ⟨d', h4, h5⟩ := key
  refine ⟨d', ?_, h5⟩
  rw [← h4]
  cases a <;> first | exact absurd rfl (ha _) | (simp only [Daemon.step, hf]; rfl)

/-- **C125.** Whatever else can happen in the server can happen whatever clients, browsers and commands do; for the notifier,
as soon as it has started the threads for its last reminders. -/
theorem C125_other {d : Daemon} {a : Action} {w : World} (hd : DaemonReach E shell d) (h1 : ∀ b, a ≠ .connect b)
    (h2 : ∀ b sec, a ≠ .http b sec) (hn : a = .notifier → d.jobs.todo = []) (hw : d.world.step E a = some w) :
    ∃ d', d.step E shell (.other a) = some d' ∧ d'.world = w := by
  obtain ⟨hs, -⟩ := hd.parts
  have hv := C124_free (f := d.web) h2 (by rw [hs.web]; exact hw)
  obtain ⟨j, hj, -⟩ := jobs_ok (shell := shell) (j := d.jobs) (by rw [hs.jobs]; exact hw) hn
  have hf : d.front.step E (.other a) = some { d.front with world := w } := by
    have hw : d.front.world.step E a = some w := hw
    cases a with
    | connect b => exact absurd rfl (h1 b)
    | _ => simp only [Front.step, hw, Option.map_some]
  exact ⟨⟨{ d.front with world := w }, { d.web with world := w }, j⟩, by simp [Daemon.step, hf, hv, hj], rfl⟩

/-- **C125.** Commands start and end without changing, or waiting for, anything else. -/
theorem C125_command {d : Daemon} {a : Jobs.Act} {j : Jobs} (ha : ∀ x, a ≠ .world x)
    (hj : d.jobs.step E shell a = some j) : d.step E shell (.command a) = some { d with jobs := j } := by
  cases a <;> first | exact absurd rfl (ha _) | simp only [Daemon.step, hj]

/-! ## Examples -/

namespace Demo

def daemon : Daemon := ⟨front, web, { world := w0 }⟩

theorem daemon_init : daemon.IsInit env := ⟨front_init, rfl, rfl⟩

/-- A client asks for a token; the next one connects and says nothing, and the main thread waits for it. The user logs in
meanwhile. -/
def daemonActs : List DaemonAct :=
  [.client .connect, .client (.send 0 (Cmd.wire (.show "a" true))), .client (.shut 0), .client .accept,
    .client (.read (Cmd.wire (.show "a" true)).length), .client (.read 0)] ++ (n0 4).map .other ++
  [.client .connect, .client .accept, .browser (.connect false), .browser (.send 0 callback), .browser (.read 0)]

/-- C125: the browser's request is handled, while the client says nothing. -/
example : (daemon.run env (some "/bin/sh") daemonActs).map (fun d =>
    (requests d.world.log, httpRequests d.world.log, d.front.current.isSome)) =
    some ([Cmd.wire (.show "a" true)], [(callback, false)], true) := by decide +kernel

/-- The reminder is run, too. -/
example : (daemon.run env (some "/bin/sh") (daemonActs ++
    [.other .notifier, .other .notifier, .other .notifier, .command .spawn, .command (.start 0)])).map (fun d =>
    (d.jobs.running.length, d.front.current.isSome)) = some (1, true) := by decide +kernel

/-- The client which says nothing is not served, nor are those after it (C81). -/
example : (daemon.run env (some "/bin/sh") (daemonActs ++ [.client (.read 1)])).isNone = true := by decide +kernel
example : (daemon.run env (some "/bin/sh") (daemonActs ++ [.client .connect, .client .accept])).isNone = true := by
  decide +kernel

end Demo
end Pizauth
