import Verif.Proof.Accept
import Verif.Props.Demo

/-!
# C104: requests arrive whole and in order
-/

namespace Pizauth

variable {E : Env}

/-- C104: whatever clients do, the requests which the server handles are, in this order, all that certain clients sent
(however it was cut into pieces, and in whatever order the pieces of different clients arrived); those clients had closed
their side, and they are served in the order in which they connected: a client is only passed over if it went away. -/
theorem C104 {f f' : Front} {l : List FrontAct} (hi : f.IsInit E) (hr : f.run E l = some f') :
    Reach E f'.world ∧
    ∃ served : List Nat, served.Sublist (List.range (clients l)) ∧
      requests f'.world.log = served.map (fun i => sentBy i l) ∧
      ∀ i ∈ served, .shut i ∈ l ∧ ∀ j, j < i → j ∉ served → .reset j ∈ l := by
  have h := hi.run hr
  obtain ⟨hd, hle⟩ := h.inv.done_range
  refine ⟨h.inv.world, (f'.done.filter (·.2)).map (·.1), ?_, ?_, ?_⟩
  · refine (List.filter_sublist.map _).trans ?_
    rw [hd, ← h.next]
    exact List.range_sublist.mpr hle
  · rw [h.inv.requests, List.map_map]
    exact List.map_congr_left fun p _ => h.sent p.1
  · intro i hm
    obtain ⟨⟨i', b⟩, hp, rfl⟩ := List.mem_map.mp hm
    obtain ⟨hp, hb⟩ := List.mem_filter.mp hp
    simp only at hb
    subst hb
    refine ⟨h.served _ hp, fun j hj hn => ?_⟩
    have hlt : i' < f'.done.length := by
      have : i' ∈ f'.done.map (·.1) := List.mem_map.mpr ⟨_, hp, rfl⟩
      rw [hd] at this
      exact List.mem_range.mp this
    have hjm : j ∈ f'.done.map (·.1) := by
      rw [hd]; exact List.mem_range.mpr (Nat.lt_trans hj hlt)
    obtain ⟨⟨j', b⟩, hq, rfl⟩ := List.mem_map.mp hjm
    cases b with
    | false => exact h.skipped _ hq
    | true => exact absurd (List.mem_map.mpr ⟨_, List.mem_filter.mpr ⟨hq, rfl⟩, rfl⟩) hn

/-- C104: once a client whose connection is being read has closed its side and does not go away, the server handles the
request after it has read at most once for each byte that is left, and once more. -/
theorem C104_serves {f f' : Front} {l : List FrontAct} {c : Conn} {buf : Bytes} (hf : FrontReach E f)
    (hc : f.current = some (c, buf)) (hs : c.state = .shut) (hr : f.run E l = some f') (hl : .reset c.id ∉ l)
    (hn : c.unread.length < reads l) :
    ∃ r, requests f'.world.log = requests f.world.log ++ (buf ++ c.unread) :: r := by
  have h := Front.run_ind (E := E)
    (P := fun g l => g.Inv E ∧ (.reset c.id ∉ l →
      (∃ r, requests g.world.log = requests f.world.log ++ f.sent c.id :: r) ∨
      (requests g.world.log = requests f.world.log ∧ ∃ c' buf', g.current = some (c', buf') ∧ c'.id = c.id ∧
        g.sent c.id = f.sent c.id ∧ c'.state = .shut ∧ c'.unread.length + reads l ≤ c.unread.length)))
    (fun g g' l a h hg => by
      refine ⟨h.1.step hg, fun hl => ?_⟩
      rw [List.mem_append, not_or] at hl
      rcases h.2 hl.1 with ⟨r, hr⟩ | ⟨he, c', buf', hc', hid, hsent, hst, hu⟩
      · obtain ⟨-, r', hr'⟩ := h.1.requests_step hg
        exact .inl ⟨r ++ r', by rw [hr', hr]; simp⟩
      · rcases h.1.current_step hc' (by rw [hid]; intro ha; exact hl.2 (by simp [ha])) (by simp [hst]) hg with
          ⟨-, -, -, hq⟩ | ⟨-, hq, d, b, hd, hid', hse, -, hsh, hun⟩
        · exact .inl ⟨[], by rw [hq, he, hid, hsent]⟩
        · refine .inr ⟨hq.trans he, d, b, hd, hid'.trans hid, ?_, hsh hst, ?_⟩
          · rw [hid] at hse; rw [hse hst, hsent]
          · have := hun hst
            have hr : reads (l ++ [a]) = reads l + reads [a] := by simp [reads]
            omega)
    l [] f f' ⟨hf.inv, fun _ => .inr ⟨rfl, c, buf, hc, rfl, rfl, hs, by simp [reads]⟩⟩ hr
  rcases h.2 (by simpa using hl) with ⟨r, hr⟩ | ⟨-, c', buf', -, -, -, -, hu⟩
  · exact ⟨r, by rw [hf.inv.current c buf hc]; exact hr⟩
  · simp only [List.nil_append] at hu; omega

/-- C104: reading goes on as long as there is something to read or the client has closed its side or gone away. -/
theorem C104_reads {f : Front} {c : Conn} {buf : Bytes} (hf : FrontReach E f) (hp : f.world.proc = .running)
    (hc : f.current = some (c, buf)) (hs : c.state ≠ .open ∨ c.unread ≠ []) : ∃ k f', f.step E (.read k) = some f' := by
  obtain ⟨f₀, l, hi, hr⟩ := hf
  have ht := (hi.run hr).idle (by rw [hc]; rfl)
  refine ⟨c.unread.length, ?_⟩
  simp only [Front.step, hp, hc]
  cases hst : c.state with
  | reset => exact ⟨_, rfl⟩
  | «open» =>
    have hu : c.unread ≠ [] := by rw [hst] at hs; simpa using hs
    simp [hu, List.length_pos_iff]
  | shut =>
    by_cases hu : c.unread = []
    · simp [hu, World.step, hp, ht]
    · simp [hu, List.length_pos_iff]

/-- C104: when the server has finished with one client, it can go on to the one which has waited longest. -/
theorem C104_accepts {f : Front} {c : Conn} {r : List Conn} (hp : f.world.proc = .running) (hc : f.current = none)
    (ht : f.world.threads 0 = []) (hb : f.backlog = c :: r) :
    ∃ f', f.step E .accept = some f' ∧ f'.current = some (c, []) ∧ f'.backlog = r := by
  simp [Front.step, hp, hc, ht, hb]

/-- C104: as long as the client whose connection is being read neither closes its side nor goes away, no request is
handled, of any client: not even `shutdown`. -/
theorem C104_blocked {f f' : Front} {l : List FrontAct} {c : Conn} {buf : Bytes} (hf : FrontReach E f)
    (hc : f.current = some (c, buf)) (ho : c.state = .open) (hr : f.run E l = some f') (hl : .shut c.id ∉ l)
    (hl' : .reset c.id ∉ l) : requests f'.world.log = requests f.world.log := by
  have h := Front.run_ind (E := E)
    (P := fun g l => g.Inv E ∧ (.shut c.id ∉ l → .reset c.id ∉ l →
      requests g.world.log = requests f.world.log ∧ ∃ c' buf', g.current = some (c', buf') ∧ c'.id = c.id ∧
        c'.state = .open))
    (fun g g' l a h hg => by
      refine ⟨h.1.step hg, fun hl hl' => ?_⟩
      rw [List.mem_append, not_or] at hl hl'
      obtain ⟨he, c', buf', hc', hid, hst⟩ := h.2 hl.1 hl'.1
      rcases h.1.current_step hc' (by rw [hid]; intro ha; exact hl'.2 (by simp [ha])) (by simp [hst]) hg with
        ⟨hsh, -, -, -⟩ | ⟨-, hq, d, b, hd, hid', -, hsame, -, -⟩
      · rw [hst] at hsh; cases hsh
      · exact ⟨hq.trans he, d, b, hd, hid'.trans hid,
          (hsame (by rw [hid]; intro ha; exact hl.2 (by simp [ha]))).trans hst⟩)
    l [] f f' ⟨hf.inv, fun _ _ => ⟨rfl, c, buf, hc, rfl, ho⟩⟩ hr
  exact (h.2 (by simpa using hl) (by simpa using hl')).1

namespace Demo

/-- Nobody has connected. -/
def front : Front := ⟨w0, 0, fun _ => [], [], none, []⟩

theorem front_init : front.IsInit env := ⟨w0_init, rfl, fun _ => rfl, rfl, rfl, rfl⟩

def showB : Bytes := Cmd.wire (.show "b" true)

/-- Three clients; what the first and the third send comes in pieces, mixed up; the second goes away. -/
def sMixed : List FrontAct :=
  [.connect, .connect, .accept, .send 0 (showA.take 3), .connect, .send 2 showB, .read 2, .send 0 (showA.drop 3), .shut 0,
   .send 1 [0], .reset 1, .read 1, .read (showA.length - 3), .read 0] ++
  (n0 4).map .other ++
  [.accept, .read 0, .accept, .read 1, .shut 2, .read (showB.length - 1), .read 0]

example : (front.run env sMixed).map (fun f => requests f.world.log) = some [showA, showB] := by decide +kernel
example : clients sMixed = 3 := by decide +kernel
example : sentBy 0 sMixed = showA ∧ sentBy 1 sMixed = [0] ∧ sentBy 2 sMixed = showB := by decide +kernel

/-- The first client sends a request and waits; the second one asks the daemon to shut down. -/
def sStuck : List FrontAct :=
  [.connect, .accept, .send 0 showA, .read showA.length, .connect, .send 1 (Cmd.wire .shutdown), .shut 1]

example : (front.run env sStuck).map (fun f => (requests f.world.log, f.current.map fun p => (p.1.id, p.1.state == .open),
    f.backlog.map (·.id))) = some ([], some (0, true), [1]) := by decide +kernel

/-- Nothing can be read, nothing can be accepted. -/
example : (front.run env sStuck).map (fun f => ((f.step env (.read 0)).isNone, (f.step env (.read 1)).isNone,
    (f.step env .accept).isNone)) = some (true, true, true) := by decide +kernel

/-- Once the first client closes its side, both are served. -/
example : (front.run env (sStuck ++ [.shut 0, .read 0] ++ (n0 4).map .other ++
    [.accept, .read (Cmd.wire .shutdown).length, .read 0])).map (fun f => requests f.world.log)
    = some [showA, Cmd.wire .shutdown] := by decide +kernel

end Demo

end Pizauth
