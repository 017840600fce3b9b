import Verif.Proof.Shown
import Verif.Spec.Tokens
import Verif.Props.Demo

/-!
# C47, C48, C49: the client and the server understand each other
-/

namespace Pizauth
open LockedState

variable {E : Env}

/-! ## C47: requests -/

/-- The command as the server should understand it. -/
def Cmd.req : Cmd → Req
  | .dump => .dump
  | .info => .info
  | .refresh act wu => .refresh wu act
  | .reload => .reload
  | .restore d => .restore d
  | .revoke act => .revoke act
  | .show act wu => .showtoken wu act
  | .shutdown => .shutdown
  | .status => .status

theorem takeWhile_append_stop {α : Type} {p : α → Bool} {l r : List α} {x : α} (hl : l.all p = true)
    (hx : p x = false) : (l ++ x :: r).takeWhile p = l := by
  induction l with
  | nil => simp [hx]
  | cons a l ih =>
    simp only [List.all_cons, Bool.and_eq_true] at hl
    simp [hl.1, ih hl.2]

/-- How a command word and its argument are parsed. -/
theorem parseReq_word {cmd : String} {rest : Bytes} (hc : (utf8 cmd).all (· != colon) = true) :
    parseReq (utf8 cmd ++ colon :: rest) =
      (if cmd = "dump" ∧ rest = [] then .dump
      else if cmd = "info" ∧ rest = [] then .info
      else if cmd = "reload" ∧ rest = [] then .reload
      else if cmd = "refresh" then parseUrlArg .refresh rest
      else if cmd = "restore" then .restore rest
      else if cmd = "revoke" then
        match fromUtf8 rest with
        | none => .invalid
        | some act => .revoke act
      else if cmd = "showtoken" then parseUrlArg .showtoken rest
      else if cmd = "shutdown" ∧ rest = [] then .shutdown
      else if cmd = "status" ∧ rest = [] then .status
      else .unknown cmd) := by
  have h1 : (utf8 cmd ++ colon :: rest).takeWhile (· != colon) = utf8 cmd :=
    takeWhile_append_stop hc (by decide)
  unfold parseReq
  simp only [h1, List.length_append, List.length_cons]
  rw [if_neg (by omega)]
  have h2 : (utf8 cmd ++ colon :: rest).take (utf8 cmd).length = utf8 cmd := by simp
  have h3 : (utf8 cmd ++ colon :: rest).drop ((utf8 cmd).length + 1) = rest := by
    rw [List.drop_append]; simp
  rw [h2, h3, fromUtf8_utf8]
  rfl

theorem splitSpace_append {w s : String} (h : w.toList.all (· != ' ') = true) :
    splitSpace (w ++ " " ++ s) = some (w, s) := by
  unfold splitSpace
  have h0 : (w ++ " " ++ s).toList = w.toList ++ ' ' :: s.toList := by simp
  have h1 : (w.toList ++ ' ' :: s.toList).takeWhile (· != ' ') = w.toList :=
    takeWhile_append_stop h (by decide)
  rw [h0]
  simp only [h1, List.length_append, List.length_cons]
  rw [if_neg (by omega)]
  rw [List.drop_append]
  simp

theorem parseUrlArg_wire (mk : Bool → String → Req) (wu : Bool) (act : String) :
    parseUrlArg mk (utf8 (withUrlWord wu ++ " " ++ act)) = mk wu act := by
  unfold parseUrlArg
  rw [fromUtf8_utf8]
  have h : splitSpace (withUrlWord wu ++ " " ++ act) = some (withUrlWord wu, act) :=
    splitSpace_append (by cases wu <;> decide +kernel)
  simp only [h]
  cases wu <;> rfl

/-- **C47.** Whatever the account name (or the dump), the server understands the command the user gave. -/
theorem C47 (c : Cmd) : parseReq c.wire = c.req := by
  cases c with
  | dump => decide +kernel
  | info => decide +kernel
  | reload => decide +kernel
  | shutdown => decide +kernel
  | status => decide +kernel
  | refresh act wu =>
    have h : Cmd.wire (.refresh act wu) = utf8 "refresh" ++ colon :: utf8 (withUrlWord wu ++ " " ++ act) := by
      simp only [Cmd.wire]
      have : "refresh:" ++ withUrlWord wu ++ " " ++ act = "refresh:" ++ (withUrlWord wu ++ " " ++ act) := by
        simp [String.append_assoc]
      rw [this, utf8_append]
      have h2 : utf8 "refresh:" = utf8 "refresh" ++ [colon] := by decide +kernel
      rw [h2]; simp
    rw [h, parseReq_word (by decide +kernel)]
    simp [parseUrlArg_wire, Cmd.req]
  | «show» act wu =>
    have h : Cmd.wire (.show act wu) = utf8 "showtoken" ++ colon :: utf8 (withUrlWord wu ++ " " ++ act) := by
      simp only [Cmd.wire]
      have : "showtoken:" ++ withUrlWord wu ++ " " ++ act = "showtoken:" ++ (withUrlWord wu ++ " " ++ act) := by
        simp [String.append_assoc]
      rw [this, utf8_append]
      have h2 : utf8 "showtoken:" = utf8 "showtoken" ++ [colon] := by decide +kernel
      rw [h2]; simp
    rw [h, parseReq_word (by decide +kernel)]
    simp [parseUrlArg_wire, Cmd.req]
  | revoke act =>
    have h : Cmd.wire (.revoke act) = utf8 "revoke" ++ colon :: utf8 act := by
      simp only [Cmd.wire]
      rw [utf8_append]
      have h2 : utf8 "revoke:" = utf8 "revoke" ++ [colon] := by decide +kernel
      rw [h2]; simp
    rw [h, parseReq_word (by decide +kernel)]
    simp [fromUtf8_utf8, Cmd.req]
  | restore d =>
    have h : Cmd.wire (.restore d) = utf8 "restore" ++ colon :: d := by
      simp only [Cmd.wire]
      have h2 : utf8 "restore:" = utf8 "restore" ++ [colon] := by decide +kernel
      rw [h2]; simp
    rw [h, parseReq_word (by decide +kernel)]
    simp [Cmd.req]

/-- **C47**, consequence: different commands are never confused. -/
theorem C47_inj {c c' : Cmd} (h : c.wire = c'.wire) : c = c' := by
  have h1 := C47 c
  rw [h, C47] at h1
  cases c <;> cases c' <;> simp [Cmd.req] at h1 <;> simp_all

/-- A case: an account whose name has a space, a colon, quotes and non-ASCII characters. -/
example : parseReq (Cmd.wire (.show "ü \": b" false)) = .showtoken false "ü \": b" := by decide +kernel
example : parseReq (Cmd.wire (.revoke "")) = .revoke "" := by decide +kernel

/-! ## C48: answers -/

theorem splitColon_append {w s : String} (h : w.toList.all (· != ':') = true) :
    splitColon (w ++ ":" ++ s) = some (w, s) := by
  unfold splitColon
  have h0 : (w ++ ":" ++ s).toList = w.toList ++ ':' :: s.toList := by simp
  have h1 : (w.toList ++ ':' :: s.toList).takeWhile (· != ':') = w.toList :=
    takeWhile_append_stop h (by decide)
  rw [h0]
  simp only [h1, List.length_append, List.length_cons]
  rw [if_neg (by omega)]
  rw [List.drop_append]
  simp

theorem splitColon_some {s a b : String} (h : splitColon s = some (a, b)) : s = a ++ ":" ++ b := by
  unfold splitColon at h
  dsimp only at h
  split at h
  · cases h
  · rename_i hne
    simp only [Option.some.injEq, Prod.mk.injEq] at h
    obtain ⟨rfl, rfl⟩ := h
    apply String.toList_inj.mp
    simp only [String.toList_append, String.toList_ofList]
    have hsplit := List.takeWhile_append_dropWhile (p := (· != ':')) (l := s.toList)
    have hdrop : s.toList.drop (s.toList.takeWhile (· != ':')).length = s.toList.dropWhile (· != ':') := by
      conv => lhs; arg 2; rw [← hsplit]
      exact List.drop_left
    cases hd : s.toList.dropWhile (· != ':') with
    | nil =>
      exfalso
      apply hne
      rw [hd, List.append_nil] at hsplit
      exact congrArg List.length hsplit
    | cons c r =>
      have hc : c = ':' := by
        have := List.head?_dropWhile_not (p := (· != ':')) (l := s.toList)
        rw [hd] at this
        simpa using this
      rw [Nat.add_comm, ← List.drop_drop, List.drop_drop, Nat.add_comm, ← List.drop_drop, hdrop, hd]
      subst hc
      conv => lhs; rw [← hsplit, hd]
      simp

/-- **C48.** `pizauth show` succeeds if and only if the server answered with a token, and then prints exactly that
token, whatever characters it consists of. -/
theorem C48_show (act : String) (wu : Bool) (b : Bytes) (o : Option String) :
    Cmd.readReply (.show act wu) b = .ok o ↔ ∃ tok, b = utf8 ("access_token:" ++ tok) ∧ o = some tok := by
  constructor
  · intro h
    unfold Cmd.readReply at h
    split at h
    · cases h
    · rename_i rtn hr
      rw [← utf8_of_fromUtf8 hr]
      split at h <;> simp_all [malformed]
      rename_i hsp
      exact ⟨_, congrArg utf8 (splitColon_some hsp), h.symm⟩
  · rintro ⟨tok, rfl, rfl⟩
    unfold Cmd.readReply
    rw [fromUtf8_utf8]
    have h : splitColon ("access_token" ++ ":" ++ tok) = some ("access_token", tok) :=
      splitColon_append (by decide +kernel)
    have : "access_token:" ++ tok = "access_token" ++ ":" ++ tok := rfl
    simp only [this, h]

/-- The commands whose answer is text (`status`, …; not `dump`, `info` and `shutdown`). -/
def Cmd.isText : Cmd → Bool
  | .refresh _ _ | .reload | .restore _ | .revoke _ | .show _ _ | .status => true
  | _ => false

theorem readReply_split {c : Cmd} {w x : String} (h : w.toList.all (· != ':') = true) :
    c.readReply (utf8 (w ++ ":" ++ x)) =
      (match c, some (w, x) with
        | .refresh _ _, some ("pending", url) => .err (pendingMsg url)
        | .refresh _ _, some ("scheduled", "") => .ok none
        | .refresh _ _, some ("error", cause) => .err cause
        | .show _ _, some ("access_token", x) => .ok (some x)
        | .show _ _, some ("pending", url) => .err (pendingMsg url)
        | .show _ _, some ("error", cause) => .err cause
        | .reload, some ("ok", "") => .ok none
        | .reload, some ("error", cause) => .err cause
        | .restore _, some ("ok", "") => .ok none
        | .restore _, some ("error", cause) => .err cause
        | .revoke _, some ("ok", "") => .ok none
        | .revoke _, some ("error", cause) => .err cause
        | .status, some ("ok", x) => .ok (some x)
        | .status, some ("error", cause) => .err cause
        | _, _ => malformed (w ++ ":" ++ x)) := by
  unfold Cmd.readReply
  rw [fromUtf8_utf8]
  dsimp only
  rw [splitColon_append h]
  rfl

/-- **C48.** An error is passed on verbatim. -/
theorem C48_error {c : Cmd} (hc : c.isText = true) (m : String) :
    c.readReply (utf8 ("error:" ++ m)) = .err m := by
  have h : c.readReply (utf8 ("error" ++ ":" ++ m)) = .err m := by
    rw [readReply_split (by decide +kernel)]
    cases c <;> simp [Cmd.isText] at hc <;> rfl
  exact h

/-- **C48.** The URL of a pending authorisation is passed on verbatim. -/
theorem C48_pending (act : String) (wu : Bool) (url : String) :
    Cmd.readReply (.show act wu) (utf8 ("pending:" ++ url)) =
      .err ("Access token unavailable until authorised with URL " ++ url) ∧
    Cmd.readReply (.refresh act wu) (utf8 ("pending:" ++ url)) =
      .err ("Access token unavailable until authorised with URL " ++ url) := by
  have h : ∀ c : Cmd, c.readReply (utf8 ("pending:" ++ url)) = c.readReply (utf8 ("pending" ++ ":" ++ url)) :=
    fun _ => rfl
  rw [h, h, readReply_split (by decide +kernel), readReply_split (by decide +kernel)]
  exact ⟨rfl, rfl⟩

/-- The forms of answers. -/
theorem ExecR.reply_form {S : Static} {now : Instant} {wall : SysTime} {ls : LockedState} {tid : Nat} {buf b : Bytes}
    {inp : Input} {f : Eff} (hx : ExecR E S now wall ls tid (.unix buf) inp f) (hm : .reply b ∈ f.next) :
    (∃ m, b = utf8 ("error:" ++ m)) ∨
    (∃ u n url, (parseReq buf = .showtoken u n ∨ parseReq buf = .refresh u n) ∧ b = pendingReply E u url) ∨
    (∃ u n tok, parseReq buf = .showtoken u n ∧ b = utf8 ("access_token:" ++ tok)) ∨
    (∃ u n, parseReq buf = .refresh u n ∧ b = utf8 "scheduled:") ∨
    ((parseReq buf = .reload ∨ (∃ d, parseReq buf = .restore d) ∨ ∃ n, parseReq buf = .revoke n) ∧ b = utf8 "ok:") ∨
    (parseReq buf = .status ∧ ∃ x, b = utf8 ("ok:" ++ x)) ∨
    parseReq buf = .dump ∨ parseReq buf = .info := by
  cases hx <;> simp only [List.mem_cons, List.not_mem_nil, or_false, false_or, reduceCtorEq, Op.reply.injEq] at hm
  case dumpOk => exact .inr (.inr (.inr (.inr (.inr (.inr (.inl ‹_›))))))
  case info => exact .inr (.inr (.inr (.inr (.inr (.inr (.inr ‹_›))))))
  case reloadOk => exact .inr (.inr (.inr (.inr (.inl ⟨.inl ‹_›, hm⟩))))
  case reloadErr => exact .inl ⟨_, hm⟩
  case noAccount n _ _ => exact .inl ⟨"No account '" ++ n ++ "'", by
    rw [hm, noAccountReply]
    congr 1⟩
  case auth u e a url _ hreq _ =>
    refine .inr (.inl ⟨u, e.name, url, ?_, hm⟩)
    rcases hreq with ⟨h, _⟩ | ⟨h, _⟩
    · exact .inl h
    · exact .inr h
  case refreshSched => exact .inr (.inr (.inr (.inl ⟨_, _, ‹parseReq buf = _›, hm⟩)))
  case restoreShort => exact .inl ⟨"Input too short", hm⟩
  case restoreBad => exact .inl ⟨"Restoring dump failed", hm⟩
  case restoreErr => exact .inr (.inr (.inr (.inr (.inl ⟨.inr (.inl ⟨_, ‹parseReq buf = _›⟩), hm⟩))))
  case restoreOk => exact .inr (.inr (.inr (.inr (.inl ⟨.inr (.inl ⟨_, ‹parseReq buf = _›⟩), hm⟩))))
  case revoke => exact .inr (.inr (.inr (.inr (.inl ⟨.inr (.inr ⟨_, ‹parseReq buf = _›⟩), hm⟩))))
  case showPending => exact .inr (.inl ⟨_, _, _, .inl ‹parseReq buf = _›, hm⟩)
  case showTok => exact .inr (.inr (.inl ⟨_, _, _, ‹parseReq buf = _›, hm⟩))
  case showOngoing => exact .inl ⟨"Access token has expired. Refreshing is in progress but has not yet succeeded", hm⟩
  case showExpired => exact .inl ⟨"Access token has expired. Refreshing initiated", hm⟩
  case status b' _ _ =>
    subst hm
    have hp := ‹parseReq buf = _›
    have hst := ‹statusReply E now wall ls = _›
    unfold statusReply at hst
    cases ho : optAll (statusLine E now wall ls) ls.actIds with
    | none => rw [ho] at hst; cases hst
    | some acts =>
      rw [ho] at hst
      simp only [Option.map_some, Option.some.injEq] at hst
      split at hst
      · exact .inl ⟨"No accounts configured", hst.symm⟩
      · exact .inr (.inr (.inr (.inr (.inr (.inl ⟨hp, _, hst.symm⟩)))))
  case unknown c _ => exact .inl ⟨"Unknown command '" ++ c ++ "'", by
    rw [hm]
    congr 1⟩

theorem pendingReply_form (u : Bool) (url : Url) : ∃ s, pendingReply E u url = utf8 ("pending:" ++ s) := by
  cases u
  · exact ⟨"", rfl⟩
  · exact ⟨E.renderUrl url, rfl⟩

/-- **C48.** The server never gives the client a (text) answer which it does not understand: an answer is a success,
an error, or (to `show` and `refresh`) a pending authorisation. -/
theorem C48_understood {w : World} {c : Cmd} {b : Bytes} (hc : c.isText = true) (h : Answers E w c.wire b) :
    (∃ o, c.readReply b = .ok o) ∨
    (∃ m, b = utf8 ("error:" ++ m) ∧ c.readReply b = .err m) ∨
    (∃ url, b = utf8 ("pending:" ++ url) ∧ c.readReply b = .err ("Access token unavailable until authorised with URL " ++ url)) := by
  obtain ⟨t, wd, inp, f, hd, hm, _⟩ := h.decided
  have hreq := C47 c
  have hok : ∀ x, (match c with
        | .reload | .restore _ | .revoke _ => x = ""
        | .status => True
        | _ => False) → ∃ o, c.readReply (utf8 ("ok:" ++ x)) = .ok o := by
    intro x hx
    have h : ∃ o, c.readReply (utf8 ("ok" ++ ":" ++ x)) = .ok o := by
      rw [readReply_split (by decide +kernel)]
      cases c <;> simp at hx <;> first | exact ⟨_, rfl⟩ | (subst hx; exact ⟨_, rfl⟩)
    exact h
  rcases hd.exec.reply_form hm with ⟨m, rfl⟩ | ⟨u, n, url, hr, rfl⟩ | ⟨u, n, tok, hr, rfl⟩ | ⟨u, n, hr, rfl⟩ | ⟨hr, rfl⟩ |
    ⟨hr, x, rfl⟩ | hr | hr
  · exact .inr (.inl ⟨m, rfl, C48_error hc m⟩)
  · obtain ⟨s, hs⟩ := pendingReply_form (E := E) u url
    refine .inr (.inr ⟨s, hs, ?_⟩)
    rw [hs]
    rw [hreq] at hr
    cases c <;> simp [Cmd.req] at hr
    · exact (C48_pending _ _ s).2
    · exact (C48_pending _ _ s).1
  · rw [hreq] at hr
    cases c <;> simp [Cmd.req] at hr
    exact .inl ⟨_, (C48_show _ _ _ _).mpr ⟨tok, rfl, rfl⟩⟩
  · rw [hreq] at hr
    cases c <;> simp [Cmd.req] at hr
    refine .inl ⟨none, ?_⟩
    have h : ∀ c : Cmd, c.readReply (utf8 "scheduled:") = c.readReply (utf8 ("scheduled" ++ ":" ++ "")) :=
      fun _ => rfl
    rw [h, readReply_split (by decide +kernel)]
    rfl
  · refine .inl (hok "" ?_)
    rw [hreq] at hr
    cases c <;> simp [Cmd.req] at hr <;> rfl
  · refine .inl (hok x ?_)
    rw [hreq] at hr
    cases c <;> simp [Cmd.req] at hr
    trivial
  · rw [hreq] at hr; cases c <;> simp [Cmd.req, Cmd.isText] at hr hc
  · rw [hreq] at hr; cases c <;> simp [Cmd.req, Cmd.isText] at hr hc

/-- **C48**, all together for `show`: if the client prints something then that is the token which the daemon had for
the account when it looked, after the request was sent; otherwise the client fails. -/
theorem C48_end {w : World} {n : String} {u : Bool} {b : Bytes} (h : Answers E w (Cmd.wire (.show n u)) b) :
    (∃ tok wd t, Cmd.readReply (.show n u) b = .ok (some tok) ∧ Reach E wd ∧ Steps E wd w ∧
      lastRequest wd.log = lastRequest w.log ∧ HoldsToken wd.ls n t ∧ t.accessToken = tok ∧ wd.now < t.expiry) ∨
    ∃ m, Cmd.readReply (.show n u) b = .err m := by
  rcases C48_understood rfl h with ⟨o, ho⟩ | ⟨m, _, hm⟩ | ⟨url, _, hu⟩
  · obtain ⟨tok, rfl, rfl⟩ := (C48_show _ _ _ _).mp ho
    obtain ⟨t, wd, inp, f, hd, hm, _, hreq⟩ := h.decided_at
    obtain ⟨e, a, tk, he, hn, hts, hexp, htok, hls⟩ := hd.exec.tok_reply (C47 _) hm
    refine .inl ⟨tok, wd, tk, ho, hd.reach, (Steps.one hd.step).trans hd.steps, ?_, ⟨e, he.1, hn, hts⟩, htok, hexp⟩
    rw [hreq, hd.req]
  · exact .inr ⟨m, hm⟩
  · exact .inr ⟨_, hu⟩

/-- A case: `pizauth show a` prints the token. -/
example : Answers Demo.env (Demo.after Demo.sShow) (Cmd.wire (.show "a" true)) (utf8 "access_token:T1") ∧
    Cmd.readReply (.show "a" true) (utf8 "access_token:T1") = .ok (some "T1") :=
  ⟨Demo.answers_of (t := 0) (t' := 0) (Demo.after_reach _) (by decide +kernel) (by decide +kernel), by decide +kernel⟩
/-- A case: a token with a colon in it. -/
example : Cmd.readReply (.show "a" true) (utf8 "access_token:a:b:") = .ok (some "a:b:") := by decide +kernel

/-! ## C49: malformed requests -/

/-- The requests there are. -/
inductive WellFormedReq : Bytes → Prop where
  | dump : WellFormedReq (utf8 "dump:")
  | info : WellFormedReq (utf8 "info:")
  | reload : WellFormedReq (utf8 "reload:")
  | shutdown : WellFormedReq (utf8 "shutdown:")
  | status : WellFormedReq (utf8 "status:")
  | restore (d : Bytes) : WellFormedReq (utf8 "restore:" ++ d)
  | revoke (act : String) : WellFormedReq (utf8 ("revoke:" ++ act))
  | refresh (flag act : String) : ' ' ∉ flag.toList → WellFormedReq (utf8 ("refresh:" ++ flag ++ " " ++ act))
  | showtoken (flag act : String) : ' ' ∉ flag.toList → WellFormedReq (utf8 ("showtoken:" ++ flag ++ " " ++ act))

theorem takeWhile_split {α : Type} {p : α → Bool} {l : List α} (h : (l.takeWhile p).length ≠ l.length) :
    ∃ x, p x = false ∧ l = l.takeWhile p ++ x :: l.drop ((l.takeWhile p).length + 1) := by
  induction l with
  | nil => simp at h
  | cons y l ih =>
    by_cases hy : p y = true
    · simp only [List.takeWhile_cons, hy, if_true, List.length_cons, ne_eq, Nat.add_right_cancel_iff] at h ⊢
      obtain ⟨x, h1, h2⟩ := ih h
      refine ⟨x, h1, ?_⟩
      simp only [List.drop_succ_cons, List.cons_append]
      exact congrArg _ h2
    · simp only [Bool.not_eq_true] at hy
      exact ⟨y, hy, by simp [hy]⟩

theorem splitSpace_some {s a b : String} (h : splitSpace s = some (a, b)) : s = a ++ " " ++ b ∧ ' ' ∉ a.toList := by
  unfold splitSpace at h
  dsimp only at h
  split at h
  · cases h
  · rename_i hne
    simp only [Option.some.injEq, Prod.mk.injEq] at h
    obtain ⟨rfl, rfl⟩ := h
    obtain ⟨x, hx, hl⟩ := takeWhile_split hne
    constructor
    · apply String.toList_inj.mp
      simp only [String.toList_append, String.toList_ofList]
      have : x = ' ' := by simpa using hx
      subst this
      conv => lhs; rw [hl]
      simp
    · simp only [String.toList_ofList]
      intro hm
      have := List.all_takeWhile (p := (· != ' ')) (l := s.toList)
      rw [List.all_eq_true] at this
      simpa using this _ hm

/-- What is understood is a request. -/
theorem wellFormed_of_parseReq {buf : Bytes} (h1 : parseReq buf ≠ .invalid) (h2 : ∀ c, parseReq buf ≠ .unknown c) :
    WellFormedReq buf := by
  unfold parseReq at h1 h2
  dsimp only at h1 h2
  split at h1
  · exact absurd rfl h1
  rename_i hne
  rw [if_neg hne] at h2
  obtain ⟨x, hx, hl⟩ := takeWhile_split hne
  have hx : x = colon := by simpa using hx
  subst hx
  have htk : buf.take (buf.takeWhile (· != colon)).length = buf.takeWhile (· != colon) := by
    conv => lhs; arg 2; rw [hl]
    exact List.take_left
  rw [htk] at h1 h2
  generalize buf.drop ((buf.takeWhile (· != colon)).length + 1) = rest at *
  split at h1
  · exact absurd rfl h1
  rename_i cmd hcmd
  rw [hcmd] at h2
  dsimp only at h2
  have hl2 : buf = utf8 cmd ++ colon :: rest := by rw [hl, utf8_of_fromUtf8 hcmd]
  have hurl : ∀ mk, parseUrlArg mk rest ≠ .invalid →
      ∃ flag act, ' ' ∉ flag.toList ∧ rest = utf8 (flag ++ " " ++ act) := by
    intro mk h
    unfold parseUrlArg at h
    split at h
    · exact absurd rfl h
    · rename_i s hs
      split at h
      · exact absurd rfl h
      · rename_i wu act hsp
        obtain ⟨rfl, hno⟩ := splitSpace_some hsp
        exact ⟨wu, act, hno, (utf8_of_fromUtf8 hs).symm⟩
  have word : ∀ (c : String) (r : Bytes), utf8 c ++ colon :: r = utf8 (c ++ ":") ++ r := by
    intro c r
    rw [utf8_append]
    have : utf8 ":" = [colon] := by decide +kernel
    simp [this]
  rw [hl2]
  split at h1
  · rename_i hc; obtain ⟨rfl, rfl⟩ := hc; exact .dump
  split at h1
  · rename_i hc; obtain ⟨rfl, rfl⟩ := hc; exact .info
  split at h1
  · rename_i hc; obtain ⟨rfl, rfl⟩ := hc; exact .reload
  split at h1
  · rename_i hc; subst hc
    obtain ⟨flag, act, hno, rfl⟩ := hurl _ h1
    rw [word, ← utf8_append]
    have : "refresh" ++ ":" ++ (flag ++ " " ++ act) = "refresh:" ++ flag ++ " " ++ act := by
      simp only [← String.append_assoc]; rfl
    rw [this]
    exact .refresh flag act hno
  split at h1
  · rename_i hc; subst hc; rw [word]; exact .restore rest
  split at h1
  · rename_i hc; subst hc
    split at h1
    · exact absurd rfl h1
    · rename_i act hact
      rw [← utf8_of_fromUtf8 hact, word, ← utf8_append]
      exact .revoke act
  split at h1
  · rename_i hc; subst hc
    obtain ⟨flag, act, hno, rfl⟩ := hurl _ h1
    rw [word, ← utf8_append]
    have : "showtoken" ++ ":" ++ (flag ++ " " ++ act) = "showtoken:" ++ flag ++ " " ++ act := by
      simp only [← String.append_assoc]; rfl
    rw [this]
    exact .showtoken flag act hno
  split at h1
  · rename_i hc; obtain ⟨rfl, rfl⟩ := hc; exact .shutdown
  split at h1
  · rename_i hc; obtain ⟨rfl, rfl⟩ := hc; exact .status
  · rename_i c1 c2 c3 c4 c5 c6 c7 c8 c9
    exfalso
    apply h2 cmd
    simp [c1, c2, c3, c4, c5, c6, c7, c8, c9]

/-- **C49.** Bytes which are not a request change nothing at all: no account, no configuration, no thread is started or
woken and no event is queued; the main thread goes on with (possibly an error message and) closing the
connection. -/
theorem C49 {w w' : World} {buf : Bytes} {inp : Input} (hr : Reach E w) (ht : w.threads 0 = [.unix buf, .close])
    (hb : ¬ WellFormedReq buf) (hs : w.step E (.run 0 inp) = some w') :
    (w' = { w with threads := setThread w.threads 0 [.close] }) ∨
    ∃ m, w' = { w with threads := setThread w.threads 0 [.reply (utf8 ("error:" ++ m)), .close] } := by
  have h0 := hr.inv0
  have hp : parseReq buf = .invalid ∨ ∃ c, parseReq buf = .unknown c := by
    by_cases h1 : parseReq buf = .invalid
    · exact .inl h1
    · by_cases h2 : ∃ c, parseReq buf = .unknown c
      · exact .inr h2
      · exact absurd (wellFormed_of_parseReq h1 fun c hc => h2 ⟨c, hc⟩) hb
  have hrun := (stepR_of_step h0.wf hs).1
  unfold World.step at hs
  rw [hrun] at hs
  simp only [ht, exec] at hs
  rcases hp with hp | ⟨c, hp⟩
  · simp only [hp, execUnix, Option.some.injEq] at hs
    left
    rw [← hs]
    simp [World.apply, spawnAll]
  · simp only [hp, execUnix, Option.some.injEq] at hs
    right
    refine ⟨"Unknown command '" ++ c ++ "'", ?_⟩
    rw [← hs]
    have : "error:Unknown command '" ++ c ++ "'" = "error:" ++ ("Unknown command '" ++ c ++ "'") := by
      simp only [← String.append_assoc]; rfl
    simp [World.apply, spawnAll, this]

/-- **C49.** The state after a malformed request was handled. -/
theorem C49_state {w w' : World} {buf : Bytes} {inp : Input} (hr : Reach E w) (ht : w.threads 0 = [.unix buf, .close])
    (hb : ¬ WellFormedReq buf) (hs : w.step E (.run 0 inp) = some w') :
    w'.ls = w.ls ∧ w'.nextTid = w.nextTid ∧ w'.log = w.log ∧ w'.evQueue = w.evQueue := by
  rcases C49 hr ht hb hs with rfl | ⟨m, rfl⟩ <;> exact ⟨rfl, rfl, rfl, rfl⟩

/-- A case: neither of these is a request. -/
example : ((Demo.after [.connect (utf8 "showtoken:a")]).step Demo.env (.run 0 {})).isSome = true ∧
    parseReq (utf8 "showtoken:a") = .invalid ∧ parseReq (utf8 "nonsense") = .invalid ∧
    parseReq (utf8 "status:x") = .unknown "status" ∧ parseReq [58, 255] = .unknown "" ∧ parseReq [255, 58] = .invalid := by
  decide +kernel

end Pizauth
