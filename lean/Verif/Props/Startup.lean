import Verif.Proof.Startup

/-!
# C75-C79: starting servers, and where files are
-/

namespace Pizauth
open Start

/-! ## C75: one server -/

/-- **C75** for servers which are started one after the other (a start is over when the server serves or has ended),
and while nobody else removes the socket file: at most one serves, and it is the one which clients reach. -/
theorem C75_partial {h : Host} {l : List Act} {r : Run Host.boot l h} (hc : .clean ∉ l)
    (ha : r.All Host.OneStarting) :
    (∀ p q, h.Serves p → h.Serves q → p = q) ∧ (∀ p, h.Serves p → h.sock = some p ∧ h.accepts = true) := by
  have hi : Serial h := Serial.run (r := r)
    ⟨by intro p x hp; simp [Host.boot] at hp, by intro p x hp; simp [Host.boot] at hp⟩ hc ha
  refine ⟨?_, ?_⟩
  · rintro p q ⟨x, hx, hpx⟩ ⟨y, hy, hpy⟩
    have h1 := hi.owner p x hx (.inr hpx)
    have h2 := hi.owner q y hy (.inr hpy)
    rw [h1] at h2; exact Option.some.inj h2
  · rintro p ⟨x, hx, hpx⟩
    have h1 := hi.owner p x hx (.inr hpx)
    exact ⟨h1, by simp [Host.accepts, h1, hx, hpx]⟩

/-- **C75**: once a server serves, has the socket file, and no other process is about to remove that file or to listen,
then whatever is started in whichever order: nobody else ever begins to serve, the server keeps its file, and every
process which was started afterwards ends with exit status 1, unless it is killed before. -/
theorem C75_running {p : Nat} {h h' : Host} {l : List Act} (hr : Run h l h') (hserves : h.Serves p)
    (hsock : h.sock = some p)
    (hothers : ∀ (q : Nat) (x : Proc), h.procs[q]? = some x → x.pc ≠ .remove ∧ x.pc ≠ .listen)
    (hc : .clean ∉ l) (hk : .kill p ∉ l) :
    h'.Serves p ∧ h'.sock = some p ∧ (∀ q, h'.Serves q → h.Serves q) ∧
      (∀ (q : Nat) (x : Proc), h.procs.length ≤ q → h'.procs[q]? = some x →
        (x.pc = .look ∨ x.pc = .connect ∨ x.pc = .ended) ∧ (x.status = none ∨ x.status = some 1)) := by
  have hi : Settled p h := ⟨hserves, hsock, hothers⟩
  have hi' := Settled.run hr hi hc hk
  refine ⟨hi'.serves, hi'.sock, fun q hq => Settled.nobody_else hr hi hc hk hq, ?_⟩
  intro q x hq hx
  have hl := Settled.late hr hi hc hk h.procs.length
    (by intro q x hq hx; rw [List.getElem?_eq_none hq] at hx; cases hx) q x hq hx (Nat.le_refl _)
  obtain ⟨h1, _⟩ := hl
  rcases h1 with ⟨a, b⟩ | ⟨a, b⟩ | ⟨a, b⟩
  · exact ⟨.inl a, .inl b⟩
  · exact ⟨.inr (.inl a), .inl b⟩
  · exact ⟨.inr (.inr a), b.symm⟩

/-- A process which is run until it serves or ends. -/
theorem C75_refused {h : Host} {p : Nat} {x : Proc} (hx : h.procs[p]? = some x) (hpc : x.pc = .look)
    (hst : x.status = none) (ha : h.accepts = true) (o1 o2 : Bool) :
    ∃ h1 h2 y, h.step (.run p o1) = some h1 ∧ h1.step (.run p o2) = some h2 ∧ h2.procs[p]? = some y ∧ y.pc = .ended ∧
      y.status = some 1 ∧ h2.sock = h.sock := by
  have hs : h.sock.isSome = true := by
    unfold Host.accepts at ha
    split at ha
    · cases ha
    · simp [*]
  let y1 : Proc := { x with pc := .connect }
  have e1 : h.step (.run p o1) = some (h.set p y1) := by simp [Host.step, hx, Host.run, hpc, hs, y1]
  have hx1 : (h.set p y1).procs[p]? = some y1 := by simp [Host.set, set_at hx]
  have hacc : (h.set p y1).accepts = true := by
    unfold Host.accepts at ha ⊢
    simp only [Host.set]
    split at ha
    · cases ha
    · rename_i q hq
      simp only [hq, set_at hx]
      split at ha
      · cases ha
      · rename_i z hz
        have : q ≠ p := by
          intro e; subst e; rw [hx] at hz; cases hz; simp [hpc] at ha
        simp [this, hz, ha]
  have e2 : (h.set p y1).step (.run p o2) = some ((h.set p y1).set p y1.fail) := by
    simp [Host.step, hx1, Host.run, y1, hacc]
  refine ⟨h.set p y1, (h.set p y1).set p y1.fail, y1.fail, e1, e2, ?_, rfl, ?_, rfl⟩
  · have := set_at (y := y1.fail) hx1 p
    simpa [Host.set] using this
  · simp [Proc.fail, y1, hst]

/-- The steps of process `p`, all of them successful. -/
def Demo.runs (p n : Nat) : List Act := List.replicate n (.run p true)

/-- The state after some actions. -/
def Start.Host.after (h : Host) : List Act → Option Host
  | [] => some h
  | a :: l => (h.step a).bind (·.after l)

theorem Start.Run.of_after {h h' : Host} {l : List Act} (e : h.after l = some h') : Run h l h' := by
  induction l generalizing h with
  | nil => cases e; exact .nil _
  | cons a l ih =>
    simp only [Host.after] at e
    cases hs : h.step a with
    | none => simp [hs] at e
    | some h1 => simp [hs] at e; exact .cons hs (ih e)

namespace Demo

/-- A server starts and serves, and another one is started. -/
def sTwo : List Act := [.start true] ++ runs 0 7 ++ [.start true] ++ runs 1 2

/-- The first server leaves its socket file. Two others look, both find that nobody listens; the second one removes the
socket file of the first one. -/
def sRace : List Act :=
  [.start true] ++ runs 0 7 ++ [.kill 0, .start true, .start true] ++ runs 1 2 ++ runs 2 2 ++ runs 1 7 ++ runs 2 7

end Demo

open Demo in
/-- The second server finds that one is running. -/
example : Host.boot.after sTwo = some ⟨[⟨true, .serving, some 0, none⟩, ⟨true, .ended, some 1, none⟩], some 0, 0, 0⟩ := by
  decide

open Demo in
/-- **C75 fails** when two servers are started at the same time and there is the socket file of an earlier one: both
serve, and no client reaches the first one any more. -/
theorem C75_not : ∃ (l : List Act) (h : Host), Run Host.boot l h ∧ .clean ∉ l ∧ h.Serves 1 ∧ h.Serves 2 ∧
    h.sock = some 2 :=
  ⟨sRace, ⟨[⟨true, .ended, some 0, none⟩, ⟨true, .serving, some 0, none⟩, ⟨true, .serving, some 0, none⟩], some 2, 0, 0⟩,
    .of_after (by decide), by decide, ⟨⟨true, .serving, some 0, none⟩, by decide⟩,
    ⟨⟨true, .serving, some 0, none⟩, by decide⟩, rfl⟩

/-! ## C76: the exit status of `pizauth server` -/

/-- Once a process serves, it serves or has ended, with the same status. -/
theorem Start.served {h h' : Host} {l : List Act} (hr : Run h l h') {p : Nat} {x : Proc} (hx : h.procs[p]? = some x)
    (hpc : x.pc = .serving ∨ x.pc = .ended) :
    ∃ y, h'.procs[p]? = some y ∧ (y.pc = x.pc ∨ y.pc = .ended) ∧ y.status = x.status := by
  induction hr generalizing x with
  | nil h => exact ⟨x, hx, .inl rfl, rfl⟩
  | cons hs hr ih =>
    rename_i h h1 h2 a l
    have : ∃ y, h1.procs[p]? = some y ∧ (y.pc = x.pc ∨ y.pc = .ended) ∧ y.status = x.status := by
      cases steps_of_step hs with
      | start d =>
        have hne : p ≠ h.procs.length := by
          have := (List.getElem?_eq_some_iff.mp hx).1; omega
        exact ⟨x, by simp [push_at, hne, hx], .inl rfl, rfl⟩
      | clean => exact ⟨x, hx, .inl rfl, rfl⟩
      | tick d => exact ⟨x, hx, .inl rfl, rfl⟩
      | move hp hm =>
        rename_i q z y s f
        by_cases e : p = q
        · subst e
          rw [hx] at hp; cases hp
          refine ⟨y, by simp [set_at hx], ?_⟩
          cases hm <;> first
            | (simp_all; done)
            | (rcases hpc with hpc | hpc <;> simp_all; done)
        · exact ⟨x, by simp [set_at hp, e, hx], .inl rfl, rfl⟩
    obtain ⟨y, hy, hpy, hsy⟩ := this
    have hpc' : y.pc = .serving ∨ y.pc = .ended := by
      rcases hpy with e | e
      · rw [e]; exact hpc
      · exact .inr e
    obtain ⟨z, hz, hpz, hsz⟩ := ih hy hpc'
    refine ⟨z, hz, ?_, hsz.trans hsy⟩
    rcases hpz with e | e
    · rcases hpy with e' | e'
      · exact .inl (e.trans e')
      · exact .inr (e.trans e')
    · exact .inr e

/-- **C76**: `pizauth server` reports 0 or 1 only. If it reports 1, then it does not serve, has not served and never
will. A server without `-d` never reports 0 (it ends with 1, or by a signal), a daemon which serves has reported 0. -/
theorem C76_partial {l : List Act} {h : Host} (hr : Run Host.boot l h) {p : Nat} {x : Proc}
    (hx : h.procs[p]? = some x) :
    (∀ s, x.status = some s → s = 0 ∧ x.daemonise = true ∨ s = 1) ∧
    (x.pc = .serving → x.status = if x.daemonise then some 0 else none) ∧
    (x.status = some 1 → ∀ l' h', Run h l' h' → ¬ h'.Serves p) ∧
    (x.pc = .serving → ∀ l' h', Run h l' h' → ∀ y, h'.procs[p]? = some y → y.status ≠ some 1) := by
  have hi := StatusInv.run hr .boot
  have h1 := hi.status p x hx
  refine ⟨?_, ?_, ?_, ?_⟩
  · intro s hs
    rcases h1 with e | ⟨e, _⟩ | ⟨e, hd, _⟩ <;> rw [e] at hs <;> cases hs
    · exact .inr rfl
    · exact .inl ⟨rfl, hd⟩
  · intro hpc
    cases hd : x.daemonise with
    | true => simpa using (hi.detached p x hx hd (by simp [hpc])).1
    | false =>
      rcases h1 with e | ⟨_, e⟩ | ⟨_, e, _⟩
      · simpa using e
      · rw [hpc] at e; cases e
      · rw [hd] at e; cases e
  · intro hs l' h' hr' ⟨y, hy, hpy⟩
    have he : x.pc = .ended := by
      rcases h1 with e | ⟨_, e⟩ | ⟨e, _⟩
      · rw [hs] at e; cases e
      · exact e
      · rw [hs] at e; cases e
    obtain ⟨z, hz, hpz, _⟩ := served hr' hx (.inr he)
    rw [hy] at hz; cases hz
    rw [hpy, he] at hpz
    rcases hpz with e | e <;> cases e
  · intro hpc l' h' hr' y hy hs
    obtain ⟨z, hz, _, hsz⟩ := served hr' hx (.inl hpc)
    rw [hy] at hz; cases hz
    rw [hsz] at hs
    rcases h1 with e | ⟨_, e⟩ | ⟨e, _⟩
    · rw [hs] at e; cases e
    · rw [hpc] at e; cases e
    · rw [hs] at e; cases e

/-- **C76**: before the process has become a daemon, whatever fails is reported with status 1. -/
theorem C76_early {l : List Act} {h h' : Host} (hr : Run Host.boot l h) {p : Nat} {x y : Proc} {ok : Bool}
    (hx : h.procs[p]? = some x) (hs : h.step (.run p ok) = some h') (hy : h'.procs[p]? = some y) (he : y.pc = .ended)
    (hd : x.daemonise = true → x.pc = .look ∨ x.pc = .connect ∨ x.pc = .remove ∨ x.pc = .spawn ∨ x.pc = .conf ∨
      x.pc = .detach) : y.status = some 1 := by
  have hi := StatusInv.run hr .boot
  have h1 := hi.status p x hx
  have hf : x.pc ≠ .ended → x.fail.status = some 1 := by
    intro hne
    rcases h1 with e | ⟨e, _⟩ | ⟨e, hd', h2⟩
    · simp [Proc.fail, e]
    · simp [Proc.fail, e]
    · have := hd hd'
      rcases h2 with h2 | h2 | h2 | h2 | h2 <;> simp [h2] at this
  have := steps_of_step hs
  generalize ha : Act.run p ok = a at this
  cases this with
  | start d => cases ha
  | clean => cases ha
  | tick d => cases ha
  | move hp hm =>
    cases hm <;> cases ha <;> (rw [hx] at hp; cases hp; simp only [set_at hx, if_true] at hy; cases hy) <;> first
      | (simp at he; done)
      | (refine hf ?_; simp_all; done)
      | (refine hf ?_; rename_i hx'; rcases hx' with e | e | e | e | e <;> simp [e]; done)

namespace Demo

/-- The daemon cannot bind its HTTP port, for example. -/
def sNoPort : List Act := [.start true] ++ runs 0 4 ++ [.run 0 false]

end Demo

open Demo in
/-- **C76 fails** for daemons: `pizauth server` reports 0, and there is no server, neither then nor before. -/
theorem C76_not : ∃ (l : List Act) (h : Host) (x : Proc), Run Host.boot l h ∧ h.procs = [x] ∧ x.status = some 0 ∧
    x.pc = .ended ∧ ∀ n h', Host.boot.after (l.take n) = some h' → h'.accepts = false := by
  refine ⟨sNoPort, ⟨[⟨true, .ended, some 0, none⟩], none, 0, 0⟩, _, .of_after (by decide), rfl, rfl, rfl, ?_⟩
  intro n h' e
  have hn : ∀ m < 7, (Host.boot.after (sNoPort.take m)).map Host.accepts = some false := by decide
  by_cases hlt : n < 7
  · have := hn n hlt; rw [e] at this; simpa using this
  · have : sNoPort.take n = sNoPort.take 6 := by
      rw [List.take_of_length_le (by simp [sNoPort, runs]; omega), List.take_of_length_le (by simp [sNoPort, runs])]
    rw [this] at e
    have h6 := hn 6 (by omega)
    rw [e] at h6; simpa using h6

/-! ## C77: the socket file is kept fresh -/

/-- **C77** with `-d`: while the server serves at its socket file, the thread is there; it touches the file at the
latest 6 hours after it was created or touched, and it will do so again and again. -/
theorem C77_partial {l : List Act} {h : Host} (hr : Run Host.boot l h) {p : Nat} {x : Proc}
    (hx : h.procs[p]? = some x) (hd : x.daemonise = false) (hpc : x.pc = .serving) (hs : h.sock = some p) :
    ∃ t, x.keep = some t ∧ t ≤ h.fresh + 6 * 3600 ∧
      (t ≤ h.now → ∃ h', h.step (.touch p) = some h' ∧ h'.fresh = h.now ∧ h'.sock = some p) := by
  have hi := StatusInv.run hr .boot
  have hk := hi.keep p x hx hd (by simp [hpc])
  obtain ⟨t, ht⟩ := Option.isSome_iff_exists.mp hk
  refine ⟨t, ht, (hi.due p x t hx ht).2 hs, ?_⟩
  intro hle
  refine ⟨{ h.set p { x with keep := some (h.now + sixHours) } with fresh := h.now }, ?_, rfl, by simp [Host.set, hs]⟩
  simp [Host.step, hx, ht, hle, hs]

/-- **C77 fails** for daemons: nothing ever touches the socket file of a daemon, whatever happens. -/
theorem C77_not {l : List Act} {h : Host} (hr : Run Host.boot l h) {p : Nat} {x : Proc} (hx : h.procs[p]? = some x)
    (hd : x.daemonise = true) (hpc : x.pc = .serving) :
    h.step (.touch p) = none ∧
      ∀ (l' : List Act) (h' : Host), Run h l' h' → h'.step (.touch p) = none := by
  have hk : ∀ {h : Host}, StatusInv h → ∀ {x : Proc}, h.procs[p]? = some x → x.daemonise = true →
      (x.pc = .serving ∨ x.pc = .ended) → h.step (.touch p) = none := by
    intro h hi x hx hd hpc
    have : x.keep = none := by
      rcases hpc with hpc | hpc
      · exact (hi.detached p x hx hd (by simp [hpc])).2
      · exact hi.ended p x hx hpc
    simp [Host.step, hx, this]
  have hi := StatusInv.run hr .boot
  refine ⟨hk hi hx hd (.inl hpc), ?_⟩
  intro l' h' hr'
  have hi' := StatusInv.run hr' hi
  obtain ⟨y, hy, hpy, hsy⟩ := served hr' hx (.inl hpc)
  have hsx := (hi.detached p x hx hd (by simp [hpc])).1
  have hdy : y.daemonise = true := by
    rcases hi'.status p y hy with e | ⟨e, _⟩ | ⟨_, e, _⟩
    · rw [hsy, hsx] at e; cases e
    · rw [hsy, hsx] at e; cases e
    · exact e
  refine hk hi' hy hdy ?_
  rw [hpc] at hpy; exact hpy

namespace Demo
def sDay : List Act := [.start true] ++ runs 0 7 ++ [.tick (24 * 60 * 60)]
def sDayD : List Act := [.start false] ++ runs 0 6 ++ [.tick 21600, .touch 0, .tick 21600, .touch 0]
end Demo

open Demo in
/-- After a day the file of a daemon is a day old; the one of a server with `-d` is not. -/
example : (Host.boot.after sDay).map (fun h => (h.accepts, h.now - h.fresh)) = some (true, 86400) ∧
    (Host.boot.after sDayD).map (fun h => (h.accepts, h.now, h.now - h.fresh)) = some (true, 43200, 0) := by decide

/-! ## C78: the directories are private -/

theorem Start.mkPrivate_ok {f f' : Files} {p : Path} (h : mkPrivate f p = some f') :
    (∃ n, f'.at_ p = some n ∧ n.mine = true ∧ n.mode = 0o700 ∧ (∀ m, f.at_ p = some m → m.mine = true ∧ n.isDir = m.isDir) ∧
      (f.at_ p = none → n.isDir = true)) ∧ ∀ q, q ≠ p → f'.at_ q = f.at_ q := by
  unfold mkPrivate at h
  cases hp : f.at_ p with
  | some m =>
    simp only [hp] at h
    split at h
    · rename_i hm
      cases h
      refine ⟨⟨{ m with mode := 0o700 }, by simp, hm, rfl, ?_, by simp⟩, ?_⟩
      · intro m' e; cases e; exact ⟨hm, rfl⟩
      · intro q hq; simp [hq]
    · cases h
  | none =>
    simp only [hp] at h
    split at h
    · cases h
    · rename_i f1 hf1
      split at hf1
      · cases hf1
        simp at h
        subst h
        refine ⟨⟨⟨true, true, 0o700⟩, by simp, rfl, rfl, by simp, by simp⟩, ?_⟩
        intro q hq; simp [hq]
      · cases hf1

/-- **C78**: a command which gets beyond its preparations has a cache directory, in `$XDG_RUNTIME_DIR`, or else in
`runtime-$USER` in `$TMPDIR` or `/tmp`; both directories then belong to the user and only the user has any
permissions. -/
theorem C78 {v : Vars} {f f' : Files} {p : Path} (h : cachePath v f = some (p, f')) :
    ∃ d n m, (v.xdgRuntimeDir = some d ∨
        v.xdgRuntimeDir = none ∧ d = v.tmpdir.getD ["/", "tmp"] ++ ["runtime-" ++ v.username]) ∧
      p = d ++ ["pizauth"] ∧ f'.at_ d = some n ∧ n.mine = true ∧ n.mode = 0o700 ∧
      f'.at_ p = some m ∧ m.mine = true ∧ m.mode = 0o700 ∧ ∀ q, q ≠ d → q ≠ p → f'.at_ q = f.at_ q := by
  unfold cachePath at h
  split at h
  · cases h
  rename_i f1 h1
  split at h
  · cases h
  rename_i f2 h2
  cases h
  obtain ⟨⟨n, hn, hm, ho, _⟩, hq⟩ := mkPrivate_ok h1
  obtain ⟨⟨n2, hn2, hm2, ho2, _⟩, hq2⟩ := mkPrivate_ok h2
  have hne : runtimeDir v ≠ runtimeDir v ++ ["pizauth"] := by
    intro e
    have := congrArg List.length e
    simp at this
  refine ⟨runtimeDir v, n, n2, ?_, rfl, (hq2 _ hne).trans hn, hm, ho, hn2, hm2, ho2, ?_⟩
  · unfold runtimeDir
    cases v.xdgRuntimeDir with
    | some s => exact .inl rfl
    | none => cases v.tmpdir <;> exact .inr ⟨rfl, rfl⟩
  · intro q h3 h4
    exact (hq2 q h4).trans (hq q h3)

/-- **C78**: if a directory with the name belongs to somebody else, then nothing is done with it. -/
theorem C78_foreign {v : Vars} {f : Files} {n : Node}
    (h : f.at_ (runtimeDir v) = some n ∨ f.at_ (runtimeDir v ++ ["pizauth"]) = some n) (hm : n.mine = false) :
    cachePath v f = none := by
  cases hc : cachePath v f with
  | none => rfl
  | some r =>
    exfalso
    unfold cachePath at hc
    split at hc
    · cases hc
    rename_i f1 h1
    split at hc
    · cases hc
    rename_i f2 h2
    obtain ⟨⟨n1, _, _, _, ho, _⟩, hq⟩ := mkPrivate_ok h1
    obtain ⟨⟨n2, _, _, _, ho2, _⟩, _⟩ := mkPrivate_ok h2
    rcases h with h | h
    · have := (ho n h).1; rw [hm] at this; cases this
    · have hne : runtimeDir v ++ ["pizauth"] ≠ runtimeDir v := by
        intro e
        have := congrArg List.length e
        simp at this
      have := (ho2 n ((hq _ hne).trans h)).1; rw [hm] at this; cases this

namespace Demo
def vars1 : Vars := ⟨none, none, some ["/", "cfg"], some ["/", "home", "u"], "u"⟩
/-- `/tmp` is there; the configuration file is in `/home/u/.config`. -/
def files1 : Files :=
  { at_ := fun p => if p = ["/", "tmp"] then some ⟨true, false, 0o777⟩
      else if p = ["/", "home", "u", ".config", "pizauth.conf"] then some ⟨false, true, 0o600⟩ else none
    writable := fun p => p.take 2 = ["/", "tmp"], newMode := 0o755 }
end Demo

open Demo in
example : (cachePath vars1 files1).map (fun r => (r.1, r.2.at_ ["/", "tmp", "runtime-u"], r.2.at_ r.1)) =
    some (["/", "tmp", "runtime-u", "pizauth"], some ⟨true, true, 0o700⟩, some ⟨true, true, 0o700⟩) := by decide +kernel

/-! ## C79: the configuration file -/

/-- **C79** if `$XDG_CONFIG_HOME` is not set, or has the file, or else the other place has not: the configuration file
is the one which the manual says. -/
theorem C79_partial (v : Vars) (f : Files) (c : Option Path)
    (h : c.isSome ∨ v.xdgConfigHome = none ∨ manualConfPath { v with home := none } f c ≠ none ∨
      manualConfPath { v with xdgConfigHome := none } f c = none) :
    confPath v f c = manualConfPath v f c := by
  unfold confPath manualConfPath at *
  cases c with
  | some p => rfl
  | none =>
    cases hx : v.xdgConfigHome with
    | none =>
      cases hh : v.home with
      | none => simp
      | some s =>
        simp only [Option.map_none, Option.filter_none, Option.none_or, Option.map_some, List.append_assoc,
          List.cons_append, List.nil_append, Option.filter_some]
        cases f.at_ (s ++ [".config", "pizauth.conf"]) with
        | none => simp
        | some n => cases hn : n.isDir <;> simp [hn]
    | some s =>
      simp only [hx, Option.isSome_none, Bool.false_eq_true, reduceCtorEq, false_or, Option.map_some, Option.map_none,
        Option.filter_none, Option.none_or, Option.or_none, Option.filter_some] at h ⊢
      cases hf : f.at_ (s ++ ["pizauth.conf"]) with
      | none =>
        simp only [hf, Bool.false_eq_true, if_false, ne_eq, not_true_eq_false, false_or, Option.none_or] at h ⊢
        exact h.symm
      | some n =>
        by_cases hn : n.isDir = true
        · simp only [hf, hn, Bool.not_true, Bool.false_eq_true, if_false, if_true, ne_eq, not_true_eq_false, false_or,
            Option.none_or] at h ⊢
          exact h.symm
        · simp [hn]

open Demo in
/-- **C79 fails**: with `$XDG_CONFIG_HOME` set, and no file there, the file in `$HOME/.config` is not found. -/
theorem C79_not : ∃ (v : Vars) (f : Files), manualConfPath v f none = some ["/", "home", "u", ".config", "pizauth.conf"] ∧
    confPath v f none = none :=
  ⟨vars1, files1, by decide +kernel, by decide +kernel⟩

open Demo in
example : confPath { vars1 with xdgConfigHome := none } files1 none =
    some ["/", "home", "u", ".config", "pizauth.conf"] := by decide +kernel

end Pizauth
