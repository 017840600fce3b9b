import Verif.Proof.Wall
import Verif.Props.Dump

/-!
# C112: Adjusting the system's date disturbs nothing

pizauth.1 says that "clock drift does not affect security". Here the system's date is anything that somebody makes it: it
can be wrong from the beginning, and be adjusted at any time and to anything, forwards or backwards. Whatever is done to
it, the server does the same things at the same moments and answers the same; only the dates in the answer to `status`
are other ones. As long as nothing is dumped or restored, tokens are hence refreshed when they have to be, and are neither
withheld nor given too long. What is restored from a dump is the same too, except for the times of the tokens.
-/

namespace Pizauth
open LockedState

/-- **C112.** The same happens to a server at another date, with the date adjusted at other times and to other dates. Then
it does the same, except perhaps for answers to `status`. (These are written with a library which refuses to write dates of
distant years; then `pizauth` panics, C08 and C103.) -/
theorem C112 {E : Env} {w w' : World} {l l' : List Action} (x : SysTime) (hi : IsInit E w) (hl : SameButDate l l')
    (hd : ∀ a ∈ l, ¬ AsksDumpOrRestore a) (hs : (∀ a ∈ l, ¬ AsksStatus a) ∨ ∀ t, (E.rfc2822 t).isSome = true)
    (hr : w.run E l = some w') :
    ∃ v', { w with wall := x }.run E l' = some v' ∧ v'.proc = w'.proc ∧ v'.now = w'.now ∧ v'.ls = w'.ls ∧
      SameButStatus w'.log v'.log := by
  have hn : NoDumps w := fun t buf hm => by rw [hi.log] at hm; cases hm
  have hdt : Dates E w := .inl fun t buf hm => by rw [hi.log] at hm; cases hm
  have ht : Twin w { w with wall := x } := .mk (fun _ _ => rfl) (.inl rfl) (by rw [hi.log]; exact .nil) rfl
  obtain ⟨v', hv, h⟩ := Twin.run hl ht (.init hi) hn hdt hd
    (fun a ha => hs.elim (fun h => .inl (h a ha)) .inr) hr
  refine ⟨v', hv, ?_⟩
  cases h with
  | mk _ _ h hp => exact ⟨hp, rfl, rfl, h⟩

/-- C112: if nobody asks for the status, there is no difference at all. -/
theorem C112_log {E : Env} {w w' : World} {l l' : List Action} (x : SysTime) (hi : IsInit E w) (hl : SameButDate l l')
    (hd : ∀ a ∈ l, ¬ AsksDumpOrRestore a) (hs : ∀ a ∈ l, ¬ AsksStatus a) (hr : w.run E l = some w') :
    ∃ v', { w with wall := x }.run E l' = some v' ∧ v'.proc = w'.proc ∧ v'.now = w'.now ∧ v'.ls = w'.ls ∧
      v'.log = w'.log := by
  obtain ⟨v', hv, h1, h2, h3, h4⟩ := C112 x hi hl hd (.inl hs) hr
  refine ⟨v', hv, h1, h2, h3, ?_⟩
  have hq : ∀ t buf, (t, .request buf) ∈ w'.log → parseReq buf ≠ .status := 
    NoStatus.run l (.init hi) (fun t buf hm => by rw [hi.log] at hm; cases hm) hs hr
  clear hv hr h1 h2 h3
  generalize w'.log = a at *
  generalize v'.log = b at *
  induction h4 with
  | nil => rfl
  | both o _ ih => rw [ih fun t buf h => hq t buf (List.mem_cons_of_mem _ h)]
  | status t b b' _ hlast hst _ => exact absurd hst (hq _ _ (List.mem_cons_of_mem _ (lastRequest_mem hlast)))

/-- **C112**, for restoring. The same request is carried out at two dates. It gets the same answer, and every account then
holds the same, except perhaps for the times at which its token was obtained and expires. -/
theorem C112_restore {E : Env} {w w1 w2 : World} {x : SysTime} {buf d : Bytes} (h1 : Executes E w buf w1)
    (h2 : Executes E { w with wall := x } buf w2) (hp : parseReq buf = .restore d) :
    w2.threads 0 = w1.threads 0 ∧ w2.ls.config = w1.ls.config ∧
    ∀ n ts, Holds w1.ls n ts → Holds w2.ls n ts ∨
      ∃ t t', ts = .active t ∧ SameButTimes t t' ∧ HoldsToken w2.ls n t' := by
  rcases restore_exec h1 hp with ⟨a1, a2, a3⟩ | ⟨a1, a2, a3, a4⟩ | ⟨plain, a1, a2, a3, a4⟩ <;>
    rcases restore_exec h2 hp with ⟨b1, b2, b3⟩ | ⟨b1, b2, b3, b4⟩ | ⟨plain', b1, b2, b3, b4⟩
  case inl.inl => exact ⟨by rw [a3, b3], by rw [a2, b2], fun n ts h => .inl (by rw [b2]; rw [a2] at h; exact h)⟩
  case inr.inl.inr.inl => exact ⟨by rw [a4, b4], by rw [a3, b3], fun n ts h => .inl (by rw [b3]; rw [a3] at h; exact h)⟩
  case inr.inr.inr.inr =>
    rw [a2] at b2
    cases b2
    refine ⟨by rw [a3, b3], ?_⟩
    rcases a4 with ⟨a4, _, a5⟩ | ⟨d1, _, c1, c2, _, _, c3⟩ <;> rcases b4 with ⟨b4, _, b5⟩ | ⟨d2, _, e1, e2, _, _, e3⟩
    · exact ⟨by rw [a4, b4], fun n ts h => .inl (by rw [b4]; rw [a4] at h; exact h)⟩
    · exact absurd e2 (a5 _ e1)
    · exact absurd c2 (b5 _ c1)
    · rw [c1] at e1
      cases e1
      refine ⟨e3.config.trans c3.config.symm, ?_⟩
      rintro n ts ⟨e', he', rfl, rfl⟩
      rcases c3.back e' he' with ⟨hm, hno⟩ | ⟨_, e, he, hname, hres⟩
      · left
        refine ⟨e', e3.keep e' hm (fun ts hr => ?_), rfl, rfl⟩
        obtain ⟨_, t', _, _, h⟩ := hr.wall (y := w.wall)
        exact hno _ h
      · right
        obtain ⟨t, t', h1, h2, h3⟩ := hres.wall (y := x)
        obtain ⟨e'', he'', hn, hts⟩ := e3.put e he _ h3
        exact ⟨t, t', h1, h2, e'', he'', by rw [hn, hname], hts⟩
  all_goals first | omega | (simp_all; done)

/-! ## Examples -/

namespace Demo.Wall

theorem same_refl : ∀ l : List Action, SameButDate l l
  | [] => .nil
  | a :: l => .both a (same_refl l)

theorem same_append {r r' : List Action} (h : SameButDate r r') : ∀ l : List Action, SameButDate (l ++ r) (l ++ r')
  | [] => h
  | a :: l => .both a (same_append h l)

def status : List Action := [.connect (utf8 "status:"), .run 0 {}, .run 0 {}, .run 0 {}]

/-- A token is obtained, asked about, and refreshed. -/
def story : List Action := sRefreshed ++ status

/-- The same, while the date is set to that of the birth of the universe and then to the end of the century. -/
def story' : List Action := .setWall (-435000000000000000000000000) :: sRefreshed ++ .setWall 4102444800000000000 :: status

theorem story_same : SameButDate story story' :=
  .there _ (by decide +kernel) (same_append (.there _ (by decide +kernel) (same_refl _)) _)

theorem story_asks (a : Action) (ha : a ∈ story) : ¬ AsksDumpOrRestore a := by
  have h : story.all (fun
      | .connect b =>
        match parseReq b with
        | .dump | .restore _ => false
        | _ => true
      | _ => true) = true := by decide +kernel
  intro ⟨b, hb, hd⟩
  have := List.all_eq_true.mp h a ha
  subst hb
  rcases hd with hd | ⟨d, hd⟩ <;> simp [hd] at this

/-- A way of writing dates which shows all of them. -/
def env : Env := { Demo.env with rfc2822 := fun t => some (toString t) }

theorem w0_init : IsInit env w0 := { Demo.w0_init with conf := by decide +kernel }

/-- C112: the hypotheses hold, and the status was told. -/
example : ∃ w', w0.run env story = some w' ∧ w'.log.any (fun
      | (_, .reply b) => (utf8 "ok:a: Active access token (obtained ").isPrefixOf b
      | _ => false) = true ∧
    ∃ v', { w0 with wall := 0 }.run env story' = some v' ∧ v'.proc = w'.proc ∧ v'.now = w'.now ∧ v'.ls = w'.ls ∧
      SameButStatus w'.log v'.log := by
  have h : ((w0.run env story).any fun w => w.log.any fun
      | (_, .reply b) => (utf8 "ok:a: Active access token (obtained ").isPrefixOf b
      | _ => false) = true := by decide +kernel
  cases hr : w0.run env story with
  | none => rw [hr] at h; cases h
  | some w' =>
    rw [hr] at h
    exact ⟨w', rfl, h, C112 0 w0_init story_same story_asks (.inr fun _ => rfl) hr⟩

/-- The answers to `status` are different ones. -/
example : (w0.run env story).map (fun (w : World) => w.log[1]?) ≠ ({ w0 with wall := 0 }.run env story').map (fun (w : World) => w.log[1]?) ∧
    (w0.run env story).map (fun (w : World) => w.log.length) = ({ w0 with wall := 0 }.run env story').map (fun (w : World) => w.log.length) := by decide +kernel

/-- C112_restore: the same dump, restored by a daemon whose date is wrong by an hour; the token lasts an hour longer. -/
example :
    let w := after (sRestore later (dumpOf sToken))
    let v : World := { w with wall := w.wall - 3600000000000 }
    let tok : ActiveTok := { restoredTok with obtained := 3000000000000, expiry := 6600000000000 }
    SameButTimes restoredTok tok ∧ holdsTok (andThen w [.run 0 restoreIn]) "a" = some restoredTok ∧
    Executes Demo.env w (utf8 "restore:" ++ dumpOf sToken) (andThen w [.run 0 restoreIn]) ∧
    Executes Demo.env v (utf8 "restore:" ++ dumpOf sToken) (andThen v [.run 0 { drainOrder := [("a", .active tok)] }]) ∧
    holdsTok (andThen v [.run 0 { drainOrder := [("a", .active tok)] }]) "a" = some tok := by
  refine ⟨⟨_, _, rfl⟩, by decide +kernel, demo_restore, executes_of ?_ (by decide +kernel) (by decide +kernel), by decide +kernel⟩
  exact .step (.setWall _) (after_reach _) (setWall_step _ (by decide +kernel))

end Demo.Wall

end Pizauth
