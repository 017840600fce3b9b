import Verif.Proof.Messages
import Verif.Props.Leak
import Verif.Props.Secrets

/-!
# C99: The log tells what happens to tokens, and nothing secret

`Logged.Reach` extends histories by the messages which are logged: every history can be extended in this way
(`C99_total`). Then

* messages are true: what is logged as a failed refresh is one, and has the reason that is given for it (`C99_info`);
  warnings are about requests (`C99_warn`), and there is one for every request without a colon (`C99_request`);
* whenever a token is given up because it could not be refreshed, this is logged (`C99_invalidated`);
* whenever a refresh fails in a way which may be transient, this is logged, except for every sixth failure in a row if
  there is a `transient_error_if_cmd` (`C99_transient`);
* without `-v`, nothing of this can be seen: only errors are shown, which are about authorisation requests and are logged
  if and only if there is no `error_notify_cmd` (`C99_errors`, `C99_browser`);
* client secrets, PKCE verifiers, authorisation codes, access tokens and refresh tokens have no influence on what is
  logged (`C99_secrets`, `C99_tokens`).
-/

namespace Pizauth

/-- C99: logging does not get in the way of anything. -/
theorem C99_total {E : Env} {w : World} (h : Reach E w) : ∃ g : Logged, g.w = w ∧ Logged.Reach E g := Logged.lift h

/-- C99: messages about refreshes are true. -/
theorem C99_info {E : Env} {g : Logged} (h : Logged.Reach E g) {tid : Nat} {s : String} (hm : (tid, ⟨.info, s⟩) ∈ g.said) :
    ∃ n, InfoOk g.w tid n s := h.saidInv.msgs _ hm

/-- C99: warnings are about requests. -/
theorem C99_warn {E : Env} {g : Logged} (h : Logged.Reach E g) {tid : Nat} {s : String} (hm : (tid, ⟨.warn, s⟩) ∈ g.said) :
    WarnOk g.w tid s := h.saidInv.msgs _ hm

/-- C99: there is a warning for every request without a colon. -/
theorem C99_request {E : Env} {g g' : Logged} {buf : Bytes} {r : List Op} {inp : Input} {x : Words}
    (ht : g.w.threads 0 = .unix buf :: r) (hc : colon ∉ buf) (hs : g.step E (.run 0 inp) x = some g') :
    g'.said = (0, ⟨.warn, "Syntactically invalid request '" ++ (fromUtf8 buf).getD "<can't represent as UTF-8" ++ "'"⟩) ::
      g.said := by
  rw [(Logged.step_spec hs).2.2]
  simp only [Logged.say, ht, sayOp, sayUnix, parseReq_no_colon hc, takeWhile_colon hc, if_true, List.map_cons, List.map_nil,
    List.reverse_cons, List.reverse_nil, List.nil_append, List.singleton_append]

/-- C99: there is a warning for every other request which is not understood. The words are those of the library if a part of
it is not text. -/
theorem C99_command {E : Env} {g g' : Logged} {a b : Bytes} {r : List Op} {inp : Input} {x : Words}
    (ht : g.w.threads 0 = .unix (a ++ colon :: b) :: r) (hc : colon ∉ a) (hp : parseReq (a ++ colon :: b) = .invalid)
    (hs : g.step E (.run 0 inp) x = some g') :
    g'.said = (0, ⟨.warn, if (fromUtf8 a).isSome ∧ (fromUtf8 b).isSome then "Invalid command" else x.other⟩) :: g.said := by
  rw [(Logged.step_spec hs).2.2]
  have h1 : (a ++ colon :: b).takeWhile (· != colon) = a := by
    rw [List.takeWhile_append_of_pos (fun c h => bne_iff_ne.mpr fun (e : c = colon) => hc (e ▸ h))]
    simp
  have h2 : a.length ≠ (a ++ colon :: b).length := by simp
  have h3 : (a ++ colon :: b).take a.length = a := by simp
  have h4 : (a ++ colon :: b).drop (a.length + 1) = b := by
    rw [← List.drop_drop]; simp
  simp only [Logged.say, ht, sayOp, sayUnix, hp, h1, h3, h4, if_neg h2]
  cases fromUtf8 a <;> cases fromUtf8 b <;> simp

/-- C99: a request causes a warning exactly if it gets no answer. -/
theorem C99_answer {E : Env} {g g' : Logged} {buf : Bytes} {r : List Op} {inp : Input} {x : Words} (hr : Logged.Reach E g)
    (ht : g.w.threads 0 = .unix buf :: r) (hs : g.step E (.run 0 inp) x = some g') :
    (g'.w.proc = .running ∧ g'.w.threads 0 = r ∧ ∃ s, g'.said = (0, ⟨.warn, s⟩) :: g.said) ∨
    (g'.said = g.said ∧ (g'.w.proc ≠ .running ∨ ∃ b l, g'.w.threads 0 = l ++ .reply b :: r)) := by
  obtain ⟨h1, _, h3⟩ := Logged.step_spec hs
  have h0 := hr.world.inv0.tid0
  have hp : g.w.proc = .running := by
    unfold World.step at h1
    cases hq : g.w.proc <;> rw [hq] at h1
    all_goals first | rfl | cases h1
  have hsay : g.say E x (.run 0 inp) = (sayUnix E g.w.st g.w.now g.w.wall g.w.ls buf inp x).map fun m => (0, m) := by
    simp only [Logged.say, ht, sayOp]
  rw [hsay] at h3
  have hth : ∀ e : Eff, (g.w.apply 0 r e).threads 0 = e.next ++ r := fun e => by
    simp only [World.apply]
    rw [spawnAll_lt _ _ _ _ h0, setThread_same]
  have key : ∀ o, exec E g.w.st g.w.now g.w.wall g.w.ls 0 (.unix buf) inp = o →
      (o = .panic ∧ g'.w.proc ≠ .running) ∨ ∃ e, o = .ok e ∧ g'.w = g.w.apply 0 r e := by
    intro o ho
    simp only [World.step, hp, ht] at h1
    rw [ho] at h1
    cases o with
    | panic => injection h1 with h1; exact .inl ⟨rfl, by rw [← h1]; exact nofun⟩
    | disabled => cases h1
    | ok e => injection h1 with h1; exact .inr ⟨e, rfl, h1.symm⟩
  have warn : ∀ m, sayUnix E g.w.st g.w.now g.w.wall g.w.ls buf inp x = [⟨.warn, m⟩] →
      exec E g.w.st g.w.now g.w.wall g.w.ls 0 (.unix buf) inp = .ok { ls := g.w.ls } →
      (g'.w.proc = .running ∧ g'.w.threads 0 = r ∧ ∃ s, g'.said = (0, ⟨.warn, s⟩) :: g.said) := by
    intro m hm he
    rcases key _ he with ⟨h, _⟩ | ⟨e, h, hw⟩
    · cases h
    · cases h
      rw [hw]
      refine ⟨?_, hth _, m, by rw [h3, hm]; rfl⟩
      exact hp
  have quiet : sayUnix E g.w.st g.w.now g.w.wall g.w.ls buf inp x = [] →
      (∀ e, exec E g.w.st g.w.now g.w.wall g.w.ls 0 (.unix buf) inp = .ok e → e.term = true ∨ ∃ b l, e.next = l ++ [.reply b]) →
      (g'.said = g.said ∧ (g'.w.proc ≠ .running ∨ ∃ b l, g'.w.threads 0 = l ++ .reply b :: r)) := by
    intro hm he
    refine ⟨by rw [h3, hm]; rfl, ?_⟩
    rcases key _ rfl with ⟨_, h⟩ | ⟨e, h, hw⟩
    · exact .inl h
    · rcases he e h with h | ⟨b, l, h⟩
      · left
        rw [hw]
        simp [World.apply, h]
      · right
        rw [hw, hth, h]
        exact ⟨b, l, by simp⟩
  have start : ∀ (id : Nat) (u : Bool), sayUnix E g.w.st g.w.now g.w.wall g.w.ls buf inp x = requestTokenErr E g.w.st g.w.ls id inp x →
      exec E g.w.st g.w.now g.w.wall g.w.ls 0 (.unix buf) inp = startAuth E g.w.st g.w.ls id u inp →
      (g'.w.proc = .running ∧ g'.w.threads 0 = r ∧ ∃ s, g'.said = (0, ⟨.warn, s⟩) :: g.said) ∨
      (g'.said = g.said ∧ (g'.w.proc ≠ .running ∨ ∃ b l, g'.w.threads 0 = l ++ .reply b :: r)) := by
    intro id u hm he
    unfold requestTokenErr at hm
    unfold startAuth at he
    split at hm
    · rename_i m hq
      rw [hq] at he
      exact .inl (warn _ hm he)
    · rename_i hq
      refine .inr (quiet hm fun e h => ?_)
      rw [he] at h
      split at h
      · cases h
      · rename_i m h'
        exact absurd h' (hq m)
      · cases h
        exact .inr ⟨_, [_], rfl⟩
  cases hq : parseReq buf with
  | invalid =>
    refine .inl ?_
    have he : exec E g.w.st g.w.now g.w.wall g.w.ls 0 (.unix buf) inp = .ok { ls := g.w.ls } := by
      simp only [exec, hq, execUnix]
    obtain ⟨m, hm⟩ : ∃ m, sayUnix E g.w.st g.w.now g.w.wall g.w.ls buf inp x = [⟨.warn, m⟩] := by
      simp only [sayUnix, hq]
      split
      · exact ⟨_, rfl⟩
      · split <;> exact ⟨_, rfl⟩
    exact warn m hm he
  | dump =>
    cases hd : authDump E g.w.ls g.w.now g.w.wall inp.nonce inp.dumpOrder with
    | err => exact .inl (warn x.other (by simp only [sayUnix, hq, hd]) (by simp only [exec, hq, execUnix, hd]))
    | _ =>
      refine .inr (quiet (by simp only [sayUnix, hq, hd]) fun e h => ?_)
      simp only [exec, hq, execUnix, hd] at h
      first
        | cases h; done
        | (cases h; exact .inr ⟨_, [], rfl⟩)
  | refresh u act =>
    cases hv : g.w.ls.validateActName act with
    | none =>
      refine .inr (quiet (by simp only [sayUnix, hq, hv]) fun e h => ?_)
      simp only [exec, hq, execUnix, hv] at h
      cases h; exact .inr ⟨_, [], rfl⟩
    | some id =>
      cases ht : g.w.ls.tokenstate id with
      | none =>
        refine .inr (quiet (by simp only [sayUnix, hq, hv, ht]) fun e h => ?_)
        simp only [exec, hq, execUnix, hv, ht] at h
        cases h
      | some ts =>
        cases ts with
        | active t =>
          refine .inr (quiet (by simp only [sayUnix, hq, hv, ht]) fun e h => ?_)
          simp only [exec, hq, execUnix, hv, ht] at h
          cases h; exact .inr ⟨_, [], rfl⟩
        | _ => exact start id u (by simp only [sayUnix, hq, hv, ht]) (by simp only [exec, hq, execUnix, hv, ht])
  | showtoken u act =>
    cases hv : g.w.ls.validateActName act with
    | none =>
      refine .inr (quiet (by simp only [sayUnix, hq, hv]) fun e h => ?_)
      simp only [exec, hq, execUnix, hv] at h
      cases h; exact .inr ⟨_, [], rfl⟩
    | some id =>
      cases ht : g.w.ls.tokenstate id with
      | none =>
        refine .inr (quiet (by simp only [sayUnix, hq, hv, ht]) fun e h => ?_)
        simp only [exec, hq, execUnix, hv, ht] at h
        cases h
      | some ts =>
        cases ts with
        | empty => exact start id u (by simp only [sayUnix, hq, hv, ht]) (by simp only [exec, hq, execUnix, hv, ht])
        | _ =>
          refine .inr (quiet (by simp only [sayUnix, hq, hv, ht]) fun e h => ?_)
          simp only [exec, hq, execUnix, hv, ht] at h
          repeat' split at h
          all_goals cases h; exact .inr ⟨_, [], rfl⟩
  | _ =>
    refine .inr (quiet (by simp only [sayUnix, hq]) fun e h => ?_)
    simp only [exec, hq, execUnix] at h
    repeat' split at h
    all_goals first
      | cases h; done
      | (cases h; exact .inl rfl)
      | (cases h; exact .inr ⟨_, [], rfl⟩)
      | (cases h; exact .inr ⟨_, [_, _], rfl⟩)
      | (cases h; exact .inr ⟨_, [_, _, _], rfl⟩)

theorem sayHttp_spec (E : Env) (S : Static) (ls : LockedState) (buf : Bytes) (isHttps : Bool) (x : Words) :
    (sayHttp E S ls buf isHttps x = [] ∧
      (execHttp E S ls buf isHttps = .panic ∨ ∃ ls' b l, execHttp E S ls buf isHttps = .ok { ls := ls', next := .httpAnswer b :: l })) ∨
    ∃ m, sayHttp E S ls buf isHttps x = [⟨.warn, m⟩] ∧ execHttp E S ls buf isHttps = .ok { ls := ls } := by
  unfold sayHttp execHttp
  cases parseGet E buf isHttps with
  | none => exact .inl ⟨rfl, .inr ⟨_, _, _, rfl⟩⟩
  | some uri =>
  simp only
  cases uri.param "state" with
  | none => exact .inl ⟨rfl, .inr ⟨_, _, _, rfl⟩⟩
  | some state =>
  simp only
  cases ls.actIdMatchingTokenState state with
  | none => exact .inl ⟨rfl, .inr ⟨_, _, _, rfl⟩⟩
  | some id =>
  simp only
  cases ls.account id with
  | none => exact .inl ⟨rfl, .inl rfl⟩
  | some act =>
  simp only
  cases act.redirectUrl E S.httpPort S.httpsPort with
  | panic => exact .inl ⟨rfl, .inl rfl⟩
  | err m => exact .inr ⟨_, rfl, rfl⟩
  | ok expected =>
  refine .inl ⟨rfl, ?_⟩
  simp only
  repeat' split
  all_goals first
    | exact .inl rfl
    | exact .inr ⟨_, _, _, rfl⟩

/-- C99: a browser's request causes a warning exactly if it gets no answer. -/
theorem C99_http {E : Env} {g g' : Logged} {tid : Nat} {buf : Bytes} {isHttps : Bool} {r : List Op} {inp : Input} {x : Words}
    (ht : g.w.threads tid = .http buf isHttps :: r) (hs : g.step E (.run tid inp) x = some g') :
    (g'.w.threads tid = r ∧ ∃ s, g'.said = (tid, ⟨.warn, s⟩) :: g.said) ∨
    (g'.said = g.said ∧ (g'.w.proc = .aborted ∨ ∃ b l, g'.w.threads tid = .httpAnswer b :: l)) := by
  obtain ⟨h1, _, h3⟩ := Logged.step_spec hs
  have hsay : g.say E x (.run tid inp) = (sayHttp E g.w.st g.w.ls buf isHttps x).map fun m => (tid, m) := by
    simp only [Logged.say, ht, sayOp]
  rw [hsay] at h3
  cases hp : g.w.proc with
  | aborted => simp only [World.step, hp] at h1; cases h1
  | terminated => simp only [World.step, hp] at h1; cases h1
  | running =>
    simp only [World.step, hp, ht, exec] at h1
    rcases sayHttp_spec E g.w.st g.w.ls buf isHttps x with ⟨h, h' | ⟨ls', b, l, h'⟩⟩ | ⟨m, h, h'⟩ <;> rw [h'] at h1 <;> rw [h] at h3 <;>
      injection h1 with h1 <;> rw [← h1]
    · exact .inr ⟨h3, .inl rfl⟩
    · exact .inr ⟨h3, .inr ⟨b, l ++ r, by simp [World.apply, spawnAll, setThread]⟩⟩
    · exact .inl ⟨by simp [World.apply, spawnAll, setThread], m, h3⟩

/-- C99: after a token server has answered to a code, there is a warning exactly if nothing is done with the answer although the
account is still there; this only happens if a token was granted that expires at a time out of the clock's range. -/
theorem C99_exchange {E : Env} {g g' : Logged} {tid : Nat} {c : ExCtx} {b : Body} {r : List Op} {inp : Input} {x : Words}
    (ht : g.w.threads tid = .exDone c b :: r) (hs : g.step E (.run tid inp) x = some g') :
    (g'.said = (tid, ⟨.warn, "Can't represent expiry"⟩) :: g.said ∧ g'.w.threads tid = r ∧ g'.w.ls = g.w.ls ∧
      (∃ e ∈ g.w.ls.details, e.id = c.id) ∧ ∃ tok y, Issued b tok y ∧ timeMax < g.w.now + y * 1000000000) ∨
    (g'.said = g.said ∧
      (g'.w.proc = .aborted ∨ (∀ e ∈ g.w.ls.details, e.id ≠ c.id) ∨ ∃ o l, g'.w.threads tid = o :: l ++ r)) := by
  obtain ⟨h1, _, h3⟩ := Logged.step_spec hs
  have hsay : g.say E x (.run tid inp) = (sayExDone g.w.now g.w.ls c b).map fun m => (tid, m) := by
    simp only [Logged.say, ht, sayOp]
  rw [hsay] at h3
  have key : (sayExDone g.w.now g.w.ls c b = [] ∧
      (execExDone g.w.now g.w.ls c b = .panic ∨ (∀ e ∈ g.w.ls.details, e.id ≠ c.id) ∧ execExDone g.w.now g.w.ls c b = .ok { ls := g.w.ls } ∨
        ∃ ls' o l, execExDone g.w.now g.w.ls c b = .ok { ls := ls', next := o :: l })) ∨
    (sayExDone g.w.now g.w.ls c b = [⟨.warn, "Can't represent expiry"⟩] ∧ execExDone g.w.now g.w.ls c b = .ok { ls := g.w.ls } ∧
      (∃ e ∈ g.w.ls.details, e.id = c.id) ∧ ∃ tok y, Issued b tok y ∧ timeMax < g.w.now + y * 1000000000) := by
    unfold sayExDone execExDone
    cases hv : g.w.ls.isActIdValid c.id with
    | false => exact .inl ⟨rfl, .inr (.inl ⟨LockedState.isActIdValid_false.mp hv, rfl⟩)⟩
    | true =>
      simp only [Bool.not_true, Bool.false_eq_true, if_false]
      cases he : b.str "error" with
      | some m => exact .inl ⟨rfl, .inr (.inr ⟨_, _, _, rfl⟩)⟩
      | none =>
        simp only
        have other : ∀ {o : Out}, o = .ok { ls := g.w.ls, next := [.fail c.id "invalid response received"] } →
            ∃ ls' o' l, o = .ok { ls := ls', next := o' :: l } := fun h => ⟨_, _, _, h⟩
        cases h1 : b.str "token_type" with
        | none => exact .inl ⟨rfl, .inr (.inr (other rfl))⟩
        | some tt =>
        cases h2 : b.u64 "expires_in" with
        | none => refine .inl ⟨?_, .inr (.inr (other ?_))⟩ <;> simp
        | some y =>
        cases h3 : b.str "access_token" with
        | none => refine .inl ⟨?_, .inr (.inr (other ?_))⟩ <;> simp
        | some tok =>
        by_cases hB : tt = "Bearer"
        · subst hB
          simp only
          cases hx : expiryInstant g.w.ls c.id g.w.now y with
          | none => exact .inl ⟨rfl, .inl rfl⟩
          | some o =>
            cases o with
            | none =>
              refine .inr ⟨rfl, rfl, LockedState.isActIdValid_iff.mp hv, tok, y, issued_of he h1 h2 h3, ?_⟩
              unfold expiryInstant at hx
              split at hx
              · cases hx
              · rename_i hc
                unfold checkedAdd at hc
                split at hc
                · cases hc
                · rename_i hc
                  have : secs y = y * 1000000000 := rfl
                  omega
            | some t =>
              refine .inl ⟨rfl, ?_⟩
              simp only
              repeat' split
              all_goals first
                | exact .inl rfl
                | exact .inr (.inr ⟨_, _, _, rfl⟩)
        · refine .inl ⟨?_, .inr (.inr (other ?_))⟩ <;> simp [hB]
  cases hp : g.w.proc with
  | aborted => simp only [World.step, hp] at h1; cases h1
  | terminated => simp only [World.step, hp] at h1; cases h1
  | running =>
    simp only [World.step, hp, ht, exec] at h1
    rcases key with ⟨h, h' | ⟨h4, h'⟩ | ⟨ls', o, l, h'⟩⟩ | ⟨h, h', h4, h5⟩ <;> rw [h'] at h1 <;> rw [h] at h3 <;>
      injection h1 with h1 <;> rw [← h1]
    · exact .inr ⟨h3, .inl rfl⟩
    · exact .inr ⟨h3, .inr (.inl h4)⟩
    · exact .inr ⟨h3, .inr (.inr ⟨o, l, by simp [World.apply, spawnAll, setThread]⟩)⟩
    · exact .inl ⟨h3, by simp [World.apply, spawnAll, setThread], rfl, h4, h5⟩

/-- C99: there is a message for every token that is given up. -/
theorem C99_invalidated {E : Env} {g : Logged} (h : Logged.Reach E g) {t : Instant} {tid : Nat} {n : String}
    (he : (t, .event tid n .invalidated) ∈ g.w.log) : ∃ s, (tid, ⟨.info, s⟩) ∈ g.said ∧ IsPermanentError n s :=
  h.saidInv.events t tid n he

/-- C99: there is a message for every other failure of a refresh, but for every sixth if there is a
`transient_error_if_cmd`. (Thread 0 is left out because it can restore a token with another number of failures.) -/
theorem C99_transient {E : Env} {g g' : Logged} (h : Logged.Reach E g) {tid : Nat} {inp : Input} {x : Words}
    (hs : g.step E (.run tid inp) x = some g') (h0 : tid ≠ 0) {n : String} {t t' : ActiveTok} (ht : HoldsToken g.w.ls n t)
    (ht' : HoldsToken g'.w.ls n t') (hf : t'.fails = t.fails + 1) :
    ∃ net, Got g.w tid net ∧
      ((∃ r, TransReason net r ∧ g'.said = (tid, ⟨.info, "Transitory refresh error for " ++ n ++ " : " ++ r⟩) :: g.said ∧
          ¬ (t'.fails % 6 = 0 ∧ g.w.ls.config.transientErrorIfCmd.isSome)) ∨
        (g'.said = g.said ∧ t'.fails % 6 = 0 ∧ g.w.ls.config.transientErrorIfCmd.isSome)) :=
  Logged.step_failed h hs h0 ht ht' hf

/-- C99: what is logged if `-v` is not given. -/
theorem C99_errors {E : Env} {g : Logged} (h : Logged.Reach E g) :
    (g.said.filter fun p => p.2.level.logged 0) = g.w.log.filterMap errorMessage := by
  rw [← h.errors]
  congr 1
  funext p
  unfold isError
  cases p.2.level <;> rfl

/-- C99: only threads which deal with a browser's request log errors. -/
theorem C99_browser {E : Env} {g : Logged} (h : Logged.Reach E g) {tid : Nat} {s : String} (hm : (tid, ⟨.error, s⟩) ∈ g.said) :
    ∃ t b isHttps, (t, Obs.httpReq tid b isHttps) ∈ g.w.log := h.saidInv.msgs _ hm

/-- C99: messages are shown if `-v` is given often enough. -/
theorem C99_levels (v : Nat) (m : Msg) :
    m.level.logged v = true ↔ m.level = .error ∨ (m.level = .warn ∧ 1 ≤ v) ∨ (m.level = .info ∧ 2 ≤ v) := by
  cases h : m.level <;> simp [Level.logged]

/-- C99: secrets, verifiers and codes are not logged (see C97). -/
theorem C99_secrets {E E' : Env} {w : World} {why : Nat → Why} {g' : Logged} {l : List (Action × Words)} (s : Swap)
    (hs : s.Ok E E') (hi : IsInit E w) (hd : ∀ p ∈ l, ¬ AsksDumpOrRestore p.1) (hr : Logged.run E ⟨w, why, []⟩ l = some g') :
    ∃ v', Logged.run E' ⟨{ w with ls := LockedState.new (w.ls.config.swap s) }, why, []⟩
      (l.map fun p => (p.1.swap s, p.2)) = some v' ∧ v'.said = g'.said := by
  have h := swap_logged_run hs l (g := ⟨w, why, []⟩) (.init hi) (fun t buf hm => by simp only [hi.log] at hm; cases hm) hd
  have e : Logged.swap s ⟨w, why, []⟩ = ⟨{ w with ls := LockedState.new (w.ls.config.swap s) }, why, []⟩ := by
    unfold Logged.swap World.swap
    simp only
    rw [← swap_new, ← hi.ls, hi.log]
    congr 2
    funext i
    rw [hi.threads]; rfl
  rw [e, hr] at h
  exact ⟨_, h, rfl⟩

/-- C99: tokens are not logged (see C65). -/
theorem C99_tokens {E : Env} {w : World} {why : Nat → Why} {g' : Logged} {l : List (Action × Words)} (σ τ : String → String)
    (hi : IsInit E w) (hd : ∀ p ∈ l, ¬ AsksDump p.1) (hr : Logged.run E ⟨w, why, []⟩ l = some g') :
    ∃ v', Logged.run E ⟨w, why, []⟩ (l.map fun p => (p.1.subst σ τ, p.2)) = some v' ∧ v'.said = g'.said := by
  have h : WorldRel σ τ w w := by
    refine WorldRel.mk (w := w) (ls' := w.ls) (th' := w.threads) (log' := w.log) (p := w.proc) (.refl _) (fun i => ?_) ?_ rfl
    · rw [hi.threads]; exact .nil
    · rw [hi.log]; exact .nil
  exact logged_run_rel l (g := ⟨w, why, []⟩) (h := ⟨w, why, []⟩) h rfl rfl hd hr

namespace Demo.Messages

def words : Words := { http := "connection refused", cmd := "exit status 1" }

def g0 : Logged := ⟨w0, fun _ => .plain "", []⟩

def logged (l : List Action) : List (Nat × Msg) := ((g0.run env (l.map fun a => (a, words))).map Logged.said).getD []

/-- The token server does not accept the refresh token any more. -/
def refused : Net := .body (.obj [("error", .str "invalid_grant")])

/-- A refresh that fails for good: it is logged, but not shown. -/
example : logged (sRefresh ++ [.run 2 {}, .run 2 { net := refused }, .run 2 {}]) =
    [(2, ⟨.info, "Permanent refresh error for a: Refreshing a failed: invalid_grant"⟩)] := by decide +kernel

/-- The token is gone. -/
example : ∃ t, (t, Obs.event 2 "a" .invalidated) ∈
    (after (sRefresh ++ [.run 2 {}, .run 2 { net := refused }, .run 2 {}, .run 2 {}])).log := ⟨0, by decide +kernel⟩

/-- A refresh that fails, but may succeed later. -/
example : logged (sRefresh ++ [.run 2 {}, .run 2 { net := .transport .connectionFailed }, .run 2 {}]) =
    [(2, ⟨.info, "Transitory refresh error for a : connection refused"⟩)] := by decide +kernel

/-- A user who refuses: this is an error. -/
example : logged (sAsk ++ [.http callbackErr false] ++ n1 3) =
    [(1, ⟨.error, "a: Authentication for a failed: denied"⟩)] := by decide +kernel

/-- A request without a colon. -/
example : logged ([.connect (utf8 "show a")] ++ n0 1) = [(0, ⟨.warn, "Syntactically invalid request 'show a'"⟩)] := by
  decide +kernel

/-- What C99_answer is about: the former gets no answer, a request for a token does. -/
example : (after ([.connect (utf8 "show a")] ++ n0 1)).threads 0 = [.close] ∧
    ∃ b, (after ([.connect showA] ++ n0 1)).threads 0 = [.wakeNotifier, .reply b, .close] := ⟨rfl, _, rfl⟩

/-- What C99_http is about: a browser's request that gets an answer, and one that gets none since the account's redirect_uri cannot
be parsed (any more). -/
example : logged (sAsk ++ [.http callback false] ++ n1 1) = [] ∧
    ∃ b l, (after (sAsk ++ [.http callback false] ++ n1 1)).threads 1 = .httpAnswer b :: l := ⟨by decide +kernel, _, _, rfl⟩

example : ((Logged.step { env with parseUrl := fun s => if s = "http://localhost/" then none else env.parseUrl s }
    ⟨after (sAsk ++ [.http callback false]), fun _ => .plain "", []⟩ (.run 1 {}) words).map fun g => (g.said, g.w.threads 1 matches [])) =
    some ([(1, ⟨.warn, ""⟩)], true) := by decide +kernel

/-- What C99_exchange is about: a token that is stored, and one that expires at a time out of the clock's range. -/
example : logged (sCallback ++ n1 1) = [] ∧ ∃ o l, (after (sCallback ++ n1 1)).threads 1 = o :: l := ⟨by decide +kernel, _, _, rfl⟩

example : ((Logged.step env ⟨{ after sCallback with now := timeMax }, fun _ => .plain "", []⟩ (.run 1 {}) words).map
    fun g => (g.said, g.w.threads 1 matches [])) = some ([(1, ⟨.warn, "Can't represent expiry"⟩)], true) := by decide +kernel

/-- A request that is not understood. -/
example : logged ([.connect (utf8 "showtoken:withurl")] ++ n0 1) = [(0, ⟨.warn, "Invalid command"⟩)] := by
  decide +kernel

/-- A request that is no text. -/
example : logged ([.connect (0xFF :: colon :: utf8 "a")] ++ n0 1) = [(0, ⟨.warn, ""⟩)] := by
  decide +kernel

/-- Neither secrets nor tokens are in the log of the whole story. -/
example : logged (sRefreshed ++ [.connect showA, .run 0 {}, .run 0 {}]) = [] := by decide +kernel

end Demo.Messages

end Pizauth
