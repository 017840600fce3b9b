import Verif.Proof.Browsers
import Verif.Props.HttpStream
import Verif.Props.Demo

/-!
# C124: browsers are served independently of each other
-/

namespace Pizauth

variable {E : Env}

/-- C124: whatever browsers do, each request which is handled is that of one browser, and no browser has more than one.
It is handled as if everything this browser ever sends had arrived at once, however it is cut into pieces; what had
arrived when it was handled was enough to come to the same result whatever follows, or the browser had closed its side
and all it sent had arrived. -/
theorem C124 {f f' : Visits} {l : List WebAct} (hi : f.IsInit E) (hr : f.run E l = some f') :
    Reach E f'.world ∧ ∃ served : List (Nat × Bytes × Bool), (served.map Prod.fst).Nodup ∧
      httpRequests f'.world.log = served.map Prod.snd ∧
      ∀ i b sec, (i, b, sec) ∈ served → (browsers l)[i]? = some sec ∧ b <+: webSent i l ∧
        parseGet E b sec = parseGet E (webSent i l) sec ∧
        ((∀ more, parseGet E (b ++ more) sec = parseGet E b sec) ∨ (.shut i ∈ l ∧ b = webSent i l)) := by
  have h := Visits.run_hist l [] hi.hist hr
  rw [List.nil_append] at h
  refine ⟨h.world, f'.handled, h.nodup, h.log, fun i b sec hm => ?_⟩
  obtain ⟨p, h1, _, h3, h4, h5⟩ := h.done i b sec hm
  have hs := h.sent i p h1
  rw [hs] at h4 h5
  refine ⟨?_, h4, ?_, ?_⟩
  · rw [← h.secs, List.getElem?_map, h1]; simp [h3]
  · rcases h5 with h5 | ⟨_, h5⟩
    · obtain ⟨r, hr⟩ := Option.ne_none_iff_exists'.mp h5
      obtain ⟨more, hmore⟩ := h4
      have h0 := (C105 (x := []) hr).2
      rw [List.append_nil] at h0
      rw [h0, ← hmore, (C105 hr).2]
    · rw [← h5]
  · rcases h5 with h5 | ⟨he, h5⟩
    · left
      intro more
      obtain ⟨r, hr⟩ := Option.ne_none_iff_exists'.mp h5
      have h0 := (C105 (x := []) hr).2
      rw [List.append_nil] at h0
      rw [h0, (C105 hr).2]
    · exact Or.inr ⟨h.ended i p h1 he, h5⟩

/-- C124: nothing else in pizauth waits for browsers: whatever can happen can happen whatever their connections are. -/
theorem C124_free {f : Visits} {a : Action} {w : World} (ha : ∀ b sec, a ≠ .http b sec) (hs : f.world.step E a = some w) :
    f.step E (.other a) = some { f with world := w } := by
  cases a with
  | http b sec => exact absurd rfl (ha b sec)
  | _ => simp only [Visits.step, hs, Option.map_some]

/-- C124: as soon as enough has arrived from a browser, or it has closed its side, its request can be handled, whatever
other browsers do or do not. -/
theorem C124_answered {f : Visits} {i : Nat} {p : Page} (hf : VisitReach E f) (hrun : f.world.proc = .running)
    (hp : f.pages[i]? = some p) (hr : p.read = false) (hg : p.gone = false)
    (he : p.ended = true ∨ streamGet E p.arrived false p.isHttps ≠ none) :
    ∃ f', f.step E (.read i) = some f' ∧
      httpRequests f'.world.log = httpRequests f.world.log ++ [(p.arrived, p.isHttps)] := by
  obtain ⟨f₀, l, hi, hl⟩ := hf
  have h := Visits.run_hist l [] hi.hist hl
  have hport := h.ports p (List.mem_of_getElem? hp)
  unfold Static.port at hport
  have hw : ∃ w, f.world.step E (.http p.arrived p.isHttps) = some w := by
    simp only [World.step, hrun, hport, if_true]
    exact ⟨_, rfl⟩
  obtain ⟨w, hw⟩ := hw
  have hu : ∃ r, streamGet E p.arrived p.ended p.isHttps = some r := by
    cases hend : p.ended with
    | true => exact ⟨_, streamGet_eof _ _⟩
    | false =>
      rw [hend] at he
      exact Option.ne_none_iff_exists'.mp (he.resolve_left (by simp))
  obtain ⟨r, hu⟩ := hu
  refine ⟨{ world := w, pages := f.pages.set i { p with read := true },
            handled := f.handled ++ [(i, p.arrived, p.isHttps)] }, ?_, httpRequests_http h.world hw⟩
  simp [Visits.step, hrun, hp, hr, hg, hu, hw]

/-- C124: the thread of a browser which has not sent a whole line, and has neither closed its side nor gone away, waits. -/
theorem C124_waits {f : Visits} {i : Nat} {p : Page} (hp : f.pages[i]? = some p) (he : p.ended = false) (hg : p.gone = false)
    (hn : 10 ∉ p.arrived) : f.step E (.read i) = none := by
  have hw := C105_waits (E := E) (sec := p.isHttps) hn
  simp only [Visits.step, hp, he, hg, hw]
  split
  · rename_i h; cases h; split <;> simp_all
  · rfl

/-- The connections of `n` browsers to the HTTP server. -/
private theorem connects : ∀ (n : Nat) {f : Visits}, f.world.proc = .running → f.world.st.httpPort.isSome = true →
    f.run E (List.replicate n (.connect false)) =
      some { f with pages := f.pages ++ List.replicate n ⟨false, [], false, false, false⟩ }
  | 0, f, _, _ => by simp [Visits.run]
  | n + 1, f, hp, hh => by
    rw [List.replicate_succ]
    simp only [Visits.run, Visits.step, hp, hh, if_true, Bool.false_eq_true, if_false]
    rw [connects n (f := { f with pages := f.pages ++ [⟨false, [], false, false, false⟩] }) hp hh]
    simp [List.replicate_succ]

/-- C124: there is no limit to the number of threads which wait for browsers. -/
theorem C124_threads {f : Visits} (hi : f.IsInit E) (hrun : f.world.proc = .running)
    (hh : f.world.st.httpPort.isSome = true) (n : Nat) :
    ∃ f', VisitReach E f' ∧ f'.world = f.world ∧ f'.pages.length = n ∧ ∀ i, f'.step E (.read i) = none := by
  refine ⟨_, ⟨f, _, hi, connects n hrun hh⟩, rfl, by simp [hi.pages], fun i => ?_⟩
  simp only [hi.pages, List.nil_append]
  by_cases h : i < n
  · refine C124_waits (p := ⟨false, [], false, false, false⟩) ?_ rfl rfl (by simp)
    simp [List.getElem?_replicate, h]
  · simp [Visits.step, List.getElem?_replicate, h, hrun]

/-! ## Examples -/

namespace Demo

def web : Visits := ⟨w0, [], []⟩

theorem web_init : web.IsInit env := ⟨w0_init, rfl, rfl⟩

/-- Three browsers: the first says nothing, the second goes away, the third sends its request in two pieces, and more
which is not looked at. -/
def webActs : List WebAct :=
  [.connect false, .connect false, .connect false, .send 2 (callback.take 5), .send 1 (callback.take 9),
    .send 2 (callback.drop 5), .reset 1, .read 2, .read 1, .send 2 [65]]

/-- C124: only the third one's request is handled; as it was sent. -/
example : (web.run env webActs).map (fun f => httpRequests f.world.log) = some [(callback, false)] := by decide +kernel
example : webSent 2 webActs = callback ++ [65] := by decide +kernel

/-- It is not handled before all of it has arrived, nor is it handled twice. -/
example : (web.run env (webActs.take 5 ++ [.read 2])).isNone = true := by decide +kernel
example : (web.run env (webActs ++ [.read 2])).isNone = true := by decide +kernel

/-- If the browser closes its side after a part of it, that part is handled. -/
example : (web.run env [.connect false, .send 0 (callback.take 9), .shut 0, .read 0]).map
    (fun f => httpRequests f.world.log) = some [(callback.take 9, false)] := by decide +kernel

/-- Nobody can connect to a server which was not started. -/
example : (web.run env [.connect true]).isNone = true := by decide +kernel

/-- C124_threads: five threads wait. -/
example : ∃ f', VisitReach env f' ∧ f'.world = w0 ∧ f'.pages.length = 5 ∧ ∀ i, f'.step env (.read i) = none :=
  C124_threads web_init rfl rfl 5

end Demo
end Pizauth
