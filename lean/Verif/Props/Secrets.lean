import Verif.Proof.Secrets
import Verif.Proof.Utf8
import Verif.Props.Demo

/-!
# C65: Tokens go nowhere but to `show` and to token servers

Replace the access tokens and refresh tokens which token servers grant by others, and leave everything else that
happens to the server as it is. Then everything that can be observed of the server stays as it is too, except for the
access token in answers to `show` and the refresh token in refresh requests. So nothing else (commands which are run,
their environment, HTTP answers, URLs, `status`, `info` and error answers, and the timing of it all) gives away anything
about tokens. `dump`, whose purpose is to give tokens away in encrypted form, is left out.
-/

namespace Pizauth

/-- C65. -/
theorem C65 {E : Env} {w w' : World} {l : List Action} (σ τ : String → String) (hi : IsInit E w)
    (hd : ∀ a ∈ l, ¬ AsksDump a) (hr : w.run E l = some w') :
    ∃ v', w.run E (l.map (Action.subst σ τ)) = some v' ∧ LogRepl σ τ w'.log v'.log := by
  have h : WorldRel σ τ w w := by
    refine WorldRel.mk (w := w) (ls' := w.ls) (th' := w.threads) (log' := w.log) (p := w.proc) (.refl _) (fun i => ?_) ?_ rfl
    · rw [hi.threads]; exact .nil
    · rw [hi.log]; exact .nil
  obtain ⟨v', h1, h2⟩ := run_rel l h hd hr
  cases h2 with
  | mk _ _ hl _ => exact ⟨_, h1, hl⟩

/-! The history in which a token is obtained, shown, refreshed and shown again. With other tokens granted, exactly the
answers to `show`, the second form and the two answers of the token server are different. -/

namespace Demo

def story : List Action := sRefreshed ++ [.connect showA, .run 0 {}, .run 0 {}]

def other : List Action := story.map (Action.subst (fun _ => "X") (fun _ => "Y"))

theorem story_no_dump : ∀ a ∈ story, ¬ AsksDump a := by
  have h : story.all (fun
      | .connect b => parseReq b != .dump
      | _ => true) = true := by decide +kernel
  intro a ha ⟨b, hb, hd⟩
  have := List.all_eq_true.mp h a ha
  subst hb
  simp [hd] at this

example : ∃ w', w0.run env story = some w' ∧ w'.log.any (fun o => o.2 = .reply (utf8 "access_token:T2")) = true ∧
    ∃ v', w0.run env other = some v' ∧ LogRepl (fun _ => "X") (fun _ => "Y") w'.log v'.log := by
  have h : ((w0.run env story).any fun w => w.log.any fun o => o.2 = .reply (utf8 "access_token:T2")) = true := by decide +kernel
  cases hr : w0.run env story with
  | none => rw [hr] at h; cases h
  | some w' =>
    rw [hr] at h
    exact ⟨w', rfl, h, C65 _ _ w0_init story_no_dump hr⟩

example : ((w0.run env other).any fun w =>
    w.log.any (fun o => o.2 = .reply (utf8 "access_token:X")) &&
    w.log.any (fun
      | (_, .post _ _ f) => f.lookup "refresh_token" == some "Y"
      | _ => false) &&
    w.log.all (fun
      | (_, .post _ _ f) => f.lookup "refresh_token" != some "R1"
      | (_, .reply b) => b != utf8 "access_token:T2" && b != utf8 "access_token:T1"
      | _ => true)) = true := by decide +kernel

/-- A history which tells a token in another way is not "the same, except for that". -/
example : ¬ LogRepl (fun _ => "X") (fun _ => "Y") [(0, .reply (utf8 "ok:T1"))] [(0, .reply (utf8 "ok:X"))] := by
  intro h
  cases h with
  | cons h _ =>
    generalize ho : Obs.reply (utf8 "ok:T1") = o at h
    generalize ho' : Obs.reply (utf8 "ok:X") = o' at h
    cases h with
    | same => rw [← ho] at ho'; exact absurd ho' (by decide +kernel)
    | @shown x y h =>
      have h1 : utf8 "ok:T1" = utf8 ("access_token:" ++ x) := by injection ho
      have h2 : (utf8 "ok:T1").head? = (utf8 ("access_token:" ++ x)).head? := by rw [h1]
      rw [utf8_append] at h2
      revert h2
      have : (utf8 "access_token:") = 97 :: (utf8 "ccess_token:") := by decide +kernel
      rw [this, show (utf8 "ok:T1").head? = some 111 by decide +kernel]
      simp
    | sent => cases ho
    | granted => cases ho

end Demo

end Pizauth
