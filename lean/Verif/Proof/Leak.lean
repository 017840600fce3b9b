import Verif.Spec.Leak
import Verif.Proof.Shown
import Verif.Proof.Shape
import Verif.Proof.Utf8
import Verif.Proof.Obs

/-!
# Replacing client secrets, verifiers and codes changes nothing else
-/

namespace Pizauth

/-! ## States -/

def PendingTok.swap (s : Swap) (p : PendingTok) : PendingTok := { p with codeVerifier := s.verifier p.codeVerifier }

def TokenState.swap (s : Swap) : TokenState → TokenState
  | .pending p => .pending (p.swap s)
  | t => t

def Entry.swap (s : Swap) (e : Entry) : Entry := { e with ts := e.ts.swap s }

def LockedState.swap (s : Swap) (ls : LockedState) : LockedState :=
  { ls with config := ls.config.swap s, details := ls.details.map (Entry.swap s) }

def ExCtx.swap (s : Swap) (c : ExCtx) : ExCtx := { c with form := c.form.map s.field }
def RfCtx.swap (s : Swap) (c : RfCtx) : RfCtx := { c with form := c.form.map s.field }

def Op.swap (s : Swap) : Op → Op
  | .install c => .install (c.swap s)
  | .http buf isHttps => .http (s.page isHttps buf) isHttps
  | .exSend c k => .exSend (c.swap s) k
  | .exAwait c k => .exAwait (c.swap s) k
  | .exSleep c k t => .exSleep (c.swap s) k t
  | .exDone c b => .exDone (c.swap s) b
  | .rfSend c => .rfSend (c.swap s)
  | .rfAwait c => .rfAwait (c.swap s)
  | .rfPerm c => .rfPerm (c.swap s)
  | .rfNow c a b d => .rfNow (c.swap s) a b d
  | .rfStore c a b d t => .rfStore (c.swap s) a b d t
  | .rfTransient c => .rfTransient (c.swap s)
  | o => o

def Input.swap (s : Swap) (inp : Input) : Input :=
  { inp with conf := inp.conf.map (Config.swap s), rndVerifier := s.bytes inp.rndVerifier }

def Eff.swap (s : Swap) (e : Eff) : Eff :=
  { e with ls := e.ls.swap s, next := e.next.map (Op.swap s), spawn := e.spawn.map (Op.swap s), obs := e.obs.map (Obs.swap s) }

def Out.swap (s : Swap) : Out → Out
  | .panic => .panic
  | .disabled => .disabled
  | .ok e => .ok (e.swap s)

def World.swap (s : Swap) (w : World) : World :=
  { w with ls := w.ls.swap s, threads := fun i => (w.threads i).map (Op.swap s), log := w.log.map fun p => (p.1, p.2.swap s) }

section
variable {s : Swap}

theorem lookup_map {α β : Type} (f : α → β) (n : String) : ∀ l : List (String × α),
    (l.map fun p => (p.1, f p.2)).lookup n = (l.lookup n).map f
  | [] => rfl
  | (k, v) :: l => by
    simp only [List.map_cons, List.lookup_cons, lookup_map f n l]
    cases n == k <;> rfl

theorem swap_get (c : Config) (n : String) : (c.swap s).get? n = (c.get? n).map (Account.swap s) := lookup_map _ _ _

theorem swap_find (p : Entry → Bool) (hp : ∀ e, p (e.swap s) = p e) (l : List Entry) :
    (l.map (Entry.swap s)).find? p = (l.find? p).map (Entry.swap s) := by
  induction l with
  | nil => rfl
  | cons e l ih =>
    simp only [List.map_cons, List.find?_cons, hp, ih]
    cases p e <;> rfl

theorem swap_findIdx (p : Entry → Bool) (hp : ∀ e, p (e.swap s) = p e) (l : List Entry) :
    (l.map (Entry.swap s)).findIdx? p = l.findIdx? p := by
  induction l with
  | nil => rfl
  | cons e l ih => simp only [List.map_cons, List.findIdx?_cons, hp, ih]

theorem swap_validate (ls : LockedState) (n : String) : (ls.swap s).validateActName n = ls.validateActName n := by
  simp only [LockedState.validateActName, LockedState.swap]
  rw [swap_find _ fun _ => rfl]
  cases ls.details.find? _ <;> rfl

theorem swap_valid (ls : LockedState) (id : AccountId) : (ls.swap s).isActIdValid id = ls.isActIdValid id := by
  simp only [LockedState.isActIdValid, LockedState.swap, List.any_map]
  rfl

theorem swap_actIds (ls : LockedState) : (ls.swap s).actIds = ls.actIds := by
  simp only [LockedState.actIds, LockedState.swap, List.map_map]
  rfl

theorem swap_matching (ls : LockedState) (x : String) :
    (ls.swap s).actIdMatchingTokenState x = ls.actIdMatchingTokenState x := by
  simp only [LockedState.actIdMatchingTokenState, LockedState.swap]
  rw [swap_find _ fun e => by obtain ⟨n, i, t⟩ := e; cases t <;> rfl]
  cases ls.details.find? _ <;> rfl

theorem swap_account (ls : LockedState) (id : AccountId) : (ls.swap s).account id = (ls.account id).map (Account.swap s) := by
  simp only [LockedState.account, LockedState.swap]
  rw [swap_find _ fun _ => rfl]
  cases ls.details.find? _ with
  | none => rfl
  | some e => exact swap_get _ _

theorem swap_tokenstate (ls : LockedState) (id : AccountId) :
    (ls.swap s).tokenstate id = (ls.tokenstate id).map (TokenState.swap s) := by
  simp only [LockedState.tokenstate, LockedState.swap]
  rw [swap_find _ fun _ => rfl]
  cases ls.details.find? _ <;> rfl

theorem map_modify {α : Type} {f g h : α → α} (hfg : ∀ a, f (g a) = h (f a)) : ∀ (l : List α) (i : Nat),
    (l.modify i g).map f = (l.map f).modify i h
  | [], _ => by simp
  | a :: l, 0 => by simp [hfg]
  | a :: l, i + 1 => by simp [map_modify hfg l i]

theorem swap_replace (ls : LockedState) (id : AccountId) (t : TokenState) :
    (ls.swap s).tokenstateReplace id (t.swap s) = (ls.tokenstateReplace id t).map fun p => (p.1, p.2.swap s) := by
  simp only [LockedState.tokenstateReplace, LockedState.swap]
  rw [swap_findIdx _ fun _ => rfl]
  cases ls.details.findIdx? _ with
  | none => rfl
  | some i =>
    simp only [Option.map_some]
    rw [map_modify (f := Entry.swap s) (h := fun e : Entry => { e with id := ls.accountCount, ts := t.swap s }) fun _ => rfl]

theorem swap_replace_empty (ls : LockedState) (id : AccountId) :
    (ls.swap s).tokenstateReplace id .empty = (ls.tokenstateReplace id .empty).map fun p => (p.1, p.2.swap s) :=
  swap_replace ls id .empty

theorem swap_replace_active (ls : LockedState) (id : AccountId) (a : ActiveTok) :
    (ls.swap s).tokenstateReplace id (.active a) = (ls.tokenstateReplace id (.active a)).map fun p => (p.1, p.2.swap s) :=
  swap_replace ls id (.active a)

theorem swap_ongoing (ls : LockedState) (id : AccountId) (b : Bool) :
    (ls.swap s).tokenstateSetOngoingRefresh id b = (ls.tokenstateSetOngoingRefresh id b).map fun p => (p.1, p.2.swap s) := by
  unfold LockedState.tokenstateSetOngoingRefresh
  rw [swap_tokenstate]
  cases ls.tokenstate id with
  | none => rfl
  | some t => cases t <;> first | rfl | exact swap_replace_active _ _ _

theorem swap_secureEq (hs : ∀ x y, s.secret x = s.secret y → x = y) (a b : Account) :
    (a.swap s).secureEq (b.swap s) = a.secureEq b := by
  have : (a.clientSecret.map s.secret == b.clientSecret.map s.secret) = (a.clientSecret == b.clientSecret) := by
    cases a.clientSecret with
    | none => cases b.clientSecret <;> rfl
    | some x =>
      cases b.clientSecret with
      | none => rfl
      | some y =>
        rw [Bool.eq_iff_iff]
        simp only [Option.map_some, beq_iff_eq, Option.some.injEq]
        exact ⟨hs _ _, fun h => by rw [h]⟩
  simp only [Account.secureEq, Account.swap, this]

theorem swap_updateLoop (hs : ∀ x y, s.secret x = s.secret y → x = y) (ls : LockedState) :
    ∀ (l : List (String × Account)) (c : Nat), (ls.swap s).updateLoop (l.map fun p => (p.1, p.2.swap s)) c =
      (ls.updateLoop l c).map fun p => (p.1.map (Entry.swap s), p.2)
  | [], c => rfl
  | (n, a) :: l, c => by
    have e1 : (ls.swap s).config = ls.config.swap s := rfl
    have e2 : (ls.swap s).details = ls.details.map (Entry.swap s) := rfl
    simp only [List.map_cons, LockedState.updateLoop, e1, e2, swap_get, swap_updateLoop hs ls l]
    rw [swap_find _ fun _ => rfl]
    cases ls.config.get? n with
    | none => cases ls.updateLoop l (c + 1) <;> rfl
    | some old =>
      simp only [Option.map_some, swap_secureEq hs]
      split
      · cases ls.details.find? _ with
        | none => rfl
        | some e => cases ls.updateLoop l c <;> rfl
      · cases ls.updateLoop l (c + 1) <;> rfl

theorem swap_updateConf (hs : ∀ x y, s.secret x = s.secret y → x = y) (ls : LockedState) (c : Config) :
    (ls.swap s).updateConf (c.swap s) = (ls.updateConf c).map (LockedState.swap s) := by
  have := swap_updateLoop hs ls c.accounts ls.accountCount
  simp only [LockedState.updateConf]
  rw [show (c.swap s).accounts = c.accounts.map fun p => (p.1, p.2.swap s) from rfl,
    show (ls.swap s).accountCount = ls.accountCount from rfl, this]
  cases ls.updateLoop c.accounts ls.accountCount <;> rfl

theorem swap_redirect (E : Env) (a : Account) (p q : Option Nat) : (a.swap s).redirectUrl E p q = a.redirectUrl E p q := rfl

theorem swap_expiry (ls : LockedState) (id : AccountId) (t : Instant) (n : Nat) :
    expiryInstant (ls.swap s) id t n = expiryInstant ls id t n := by
  unfold expiryInstant
  rw [swap_account]
  cases ls.account id <;> rfl

theorem swap_refreshAt (ls : LockedState) (now : Instant) (id : AccountId) :
    refreshAt (ls.swap s) now id = refreshAt ls now id := by
  unfold refreshAt
  rw [swap_account, swap_tokenstate]
  cases ls.tokenstate id with
  | none => rfl
  | some t => cases t <;> first | rfl | (cases ls.account id <;> rfl)

theorem swap_notifyAt (ls : LockedState) (now : Instant) (id : AccountId) :
    notifyAt (ls.swap s) now id = notifyAt ls now id := by
  unfold notifyAt
  rw [swap_tokenstate]
  cases ls.tokenstate id with
  | none => rfl
  | some t => cases t <;> rfl

theorem swap_dueIds (ls : LockedState) (now : Instant) : ∀ ids, dueIds (ls.swap s) now ids = dueIds ls now ids
  | [] => rfl
  | id :: r => by simp only [dueIds, swap_refreshAt, swap_dueIds ls now r]

theorem swap_statusLine (E : Env) (now : Instant) (wall : SysTime) (ls : LockedState) (id : AccountId) :
    statusLine E now wall (ls.swap s) id = statusLine E now wall ls id := by
  unfold statusLine
  rw [swap_account, swap_tokenstate]
  cases ls.tokenstate id with
  | none => cases ls.account id <;> rfl
  | some t => cases ls.account id <;> cases t <;> rfl

theorem swap_statusReply (E : Env) (now : Instant) (wall : SysTime) (ls : LockedState) :
    statusReply E now wall (ls.swap s) = statusReply E now wall ls := by
  unfold statusReply
  rw [swap_actIds, show statusLine E now wall (ls.swap s) = statusLine E now wall ls from
    funext fun id => swap_statusLine E now wall ls id]

theorem swap_new (c : Config) : (LockedState.new c).swap s = LockedState.new (c.swap s) := by
  simp only [LockedState.new, LockedState.swap, Config.swap, List.length_map]
  congr 1
  generalize 0 = k
  induction c.accounts generalizing k with
  | nil => rfl
  | cons p l ih => simp only [newDetails, List.map_cons, ih]; rfl

end

/-! ## Operations -/

section
variable {s : Swap} {E E' : Env}

theorem Swap.Ok.parseUrl (h : s.Ok E E') : E'.parseUrl = E.parseUrl := by rw [h.env]
theorem Swap.Ok.renderUrl (h : s.Ok E E') : E'.renderUrl = E.renderUrl := by rw [h.env]
theorem Swap.Ok.rfc (h : s.Ok E E') : E'.rfc2822 = E.rfc2822 := by rw [h.env]

theorem Swap.Ok.isHttp (h : s.Ok E E') : E'.isHttpUri = E.isHttpUri := by
  funext x; unfold Env.isHttpUri; rw [h.parseUrl]

theorem Swap.Ok.parseGet (h : s.Ok E E') (b : Bytes) (sec : Bool) : parseGet E' (s.page sec b) sec = (parseGet E b sec).map (Url.swap s) := by
  rw [← h.page]; unfold Pizauth.parseGet; rw [h.parseUrl]

theorem Swap.Ok.redirect (h : s.Ok E E') (a : Account) (p q : Option Nat) : (a.swap s).redirectUrl E' p q = a.redirectUrl E p q := by
  rw [swap_redirect]; unfold Account.redirectUrl; rw [h.parseUrl]

theorem Swap.Ok.status (h : s.Ok E E') (now : Instant) (wall : SysTime) (ls : LockedState) :
    statusReply E' now wall (ls.swap s) = statusReply E now wall ls := by
  rw [swap_statusReply, h.env]; rfl

theorem Swap.Ok.confOk (h : s.Ok E E') (c : Config) : (c.swap s).Ok E' ↔ c.Ok E := by
  have hm : (c.swap s).accounts.map Prod.fst = c.accounts.map Prod.fst := by
    simp only [Config.swap, List.map_map]; rfl
  constructor
  · intro k
    refine ⟨hm ▸ k.nodup, ?_, ?_, k.server, ?_⟩
    · intro p hp
      exact k.names (p.1, p.2.swap s) (List.mem_map.mpr ⟨p, hp, rfl⟩)
    · intro h0; exact k.nonempty (by simp [Config.swap, h0])
    · intro p hp
      have := k.uris (p.1, p.2.swap s) (List.mem_map.mpr ⟨p, hp, rfl⟩)
      rw [h.isHttp] at this
      exact this
  · intro k
    refine ⟨hm.symm ▸ k.nodup, ?_, ?_, k.server, ?_⟩
    · intro p hp
      obtain ⟨q, hq, rfl⟩ := List.mem_map.mp hp
      exact k.names q hq
    · intro h0; exact k.nonempty (by simpa [Config.swap] using h0)
    · intro p hp
      obtain ⟨q, hq, rfl⟩ := List.mem_map.mp hp
      rw [h.isHttp]
      exact k.uris q hq

theorem swap_param (u : Url) {k : String} (hk : k ≠ "code") : (u.swap s).param k = u.param k := by
  unfold Url.param Url.swap
  dsimp only
  induction u.query with
  | nil => rfl
  | cons p l ih =>
    obtain ⟨a, b⟩ := p
    simp only [List.map_cons, List.lookup_cons, ih]
    by_cases h : k = a
    · subst h; simp [hk]
    · rw [beq_false_of_ne h]

theorem swap_param_code (u : Url) : (u.swap s).param "code" = (u.param "code").map s.code := by
  unfold Url.param Url.swap
  dsimp only
  induction u.query with
  | nil => rfl
  | cons p l ih =>
    obtain ⟨a, b⟩ := p
    simp only [List.map_cons, List.lookup_cons, ih]
    by_cases h : "code" = a
    · subst h; simp
    · rw [beq_false_of_ne h]

theorem swap_codeForm (a : Account) (code ver red : String) :
    codeForm (a.swap s) (s.code code) (s.verifier ver) red = (codeForm a code ver red).map s.field := by
  unfold codeForm
  cases h : a.clientSecret <;> simp [Account.swap, Swap.field, h]

theorem swap_refreshForm (a : Account) (r : String) : refreshForm (a.swap s) r = (refreshForm a r).map s.field := by
  unfold refreshForm
  cases h : a.clientSecret <;> simp [Account.swap, Swap.field, h]

theorem swap_requestToken (h : s.Ok E E') (S : Static) (ls : LockedState) (id : AccountId) (r : Vector UInt8 8)
    (v : Vector UInt8 64) : requestToken E' S (ls.swap s) id r (s.bytes v) =
      match requestToken E S ls id r v with
      | .panic => .panic
      | .err m => .err m
      | .ok (u, ls') => .ok (u, ls'.swap s) := by
  unfold requestToken
  rw [swap_tokenstate]
  have aux : ∀ t : TokenState, (match (some (t.swap s) : Option TokenState) with
      | none | some (.active _) => true | _ => false) = (match some t with | none | some (.active _) => true | _ => false) := by
    intro t; cases t <;> rfl
  have main : (match (ls.swap s).account id with
    | none => (.panic : Res (Url × LockedState))
    | some act =>
      let state := b64 r.toList
      let codeVerifier := b64 (s.bytes v).toList
      match act.redirectUrl E' S.httpPort S.httpsPort with
      | .panic => .panic
      | .err m => .err m
      | .ok redirect =>
        match E'.parseWithParams act.authUri
            (authParams act (codeChallenge E' codeVerifier) (E'.renderUrl redirect) state) with
        | none => .err "url"
        | some url =>
          match (ls.swap s).tokenstateReplace id
              (.pending { codeVerifier := codeVerifier, lastNotification := none, state := state,
                          url := url }) with
          | none => .panic
          | some (_, ls') => .ok (url, ls')) =
      match (match ls.account id with
        | none => (.panic : Res (Url × LockedState))
        | some act =>
          let state := b64 r.toList
          let codeVerifier := b64 v.toList
          match act.redirectUrl E S.httpPort S.httpsPort with
          | .panic => .panic
          | .err m => .err m
          | .ok redirect =>
            match E.parseWithParams act.authUri
                (authParams act (codeChallenge E codeVerifier) (E.renderUrl redirect) state) with
            | none => .err "url"
            | some url =>
              match ls.tokenstateReplace id
                  (.pending { codeVerifier := codeVerifier, lastNotification := none, state := state,
                              url := url }) with
              | none => .panic
              | some (_, ls') => .ok (url, ls')) with
      | .panic => .panic
      | .err m => .err m
      | .ok (u, ls') => .ok (u, ls'.swap s) := by
    rw [swap_account]
    cases ls.account id with
    | none => rfl
    | some act =>
      simp only [Option.map_some, h.redirect]
      cases act.redirectUrl E S.httpPort S.httpsPort with
      | panic => rfl
      | err m => rfl
      | ok red =>
        have e1 : codeChallenge E' (b64 (s.bytes v).toList) = codeChallenge E (b64 v.toList) := by
          unfold codeChallenge; rw [h.hash]
        have e2 : ∀ c x y, authParams (act.swap s) c x y = authParams act c x y := fun _ _ _ => rfl
        have e3 : E'.parseWithParams = E.parseWithParams := by
          funext a b; unfold Env.parseWithParams; rw [h.parseUrl]
        simp only [e1, e2, e3, h.renderUrl]
        rw [show (act.swap s).authUri = act.authUri from rfl]
        cases E.parseWithParams act.authUri _ with
        | none => rfl
        | some url =>
          simp only
          have := swap_replace (s := s) ls id (.pending { codeVerifier := b64 v.toList, lastNotification := none, state := b64 r.toList, url := url })
          simp only [TokenState.swap, PendingTok.swap, h.verifier] at this
          rw [this]
          cases ls.tokenstateReplace id _ <;> rfl
  cases ls.tokenstate id with
  | none => rfl
  | some t =>
    cases t with
    | active => rfl
    | empty => exact main
    | pending p => exact main

theorem swap_startAuth (h : s.Ok E E') (S : Static) (ls : LockedState) (id : AccountId) (u : Bool) (inp : Input) :
    startAuth E' S (ls.swap s) id u (inp.swap s) = (startAuth E S ls id u inp).swap s := by
  unfold startAuth
  rw [show (inp.swap s).rndState = inp.rndState from rfl, show (inp.swap s).rndVerifier = s.bytes inp.rndVerifier from rfl,
    swap_requestToken h]
  cases requestToken E S ls id inp.rndState inp.rndVerifier with
  | panic => rfl
  | err m => rfl
  | ok x =>
    obtain ⟨url, ls'⟩ := x
    simp only [Out.swap, Eff.swap, pendingReply, h.renderUrl]
    rfl

theorem swap_execUnix (h : s.Ok E E') (S : Static) (now : Instant) (wall : SysTime) (ls : LockedState) (r : Req)
    (hd : r ≠ .dump) (hr : ∀ d, r ≠ .restore d) (inp : Input) :
    execUnix E' S now wall (ls.swap s) r (inp.swap s) = (execUnix E S now wall ls r inp).swap s := by
  cases r with
  | dump => exact absurd rfl hd
  | restore d => exact absurd rfl (hr d)
  | info => rfl
  | reload =>
    simp only [execUnix, Input.swap]
    cases inp.conf with
    | error e => rfl
    | ok c =>
      simp only [Except.map, h.confOk]
      split <;> rfl
  | refresh u act =>
    simp only [execUnix, swap_validate, swap_tokenstate]
    cases ls.validateActName act with
    | none => rfl
    | some id =>
      simp only
      cases ls.tokenstate id with
      | none => rfl
      | some t => cases t <;> first | rfl | exact swap_startAuth h ..
  | revoke act =>
    simp only [execUnix, swap_validate, swap_replace_empty]
    cases ls.validateActName act with
    | none => rfl
    | some id =>
      simp only
      cases ls.tokenstateReplace id .empty <;> rfl
  | showtoken u act =>
    simp only [execUnix, swap_validate, swap_tokenstate]
    cases ls.validateActName act with
    | none => rfl
    | some id =>
      simp only
      cases ls.tokenstate id with
      | none => rfl
      | some t =>
        cases t with
        | empty => exact swap_startAuth h ..
        | pending p =>
          simp only [Option.map_some, TokenState.swap, pendingReply, h.renderUrl]
          rfl
        | active a =>
          simp only [Option.map_some, TokenState.swap]
          split
          · rfl
          · split <;> rfl
  | shutdown => rfl
  | status =>
    simp only [execUnix, h.status]
    cases statusReply E now wall ls <;> rfl
  | unknown c => rfl
  | invalid => rfl

theorem swap_execHttp (h : s.Ok E E') (S : Static) (ls : LockedState) (buf : Bytes) (sec : Bool) :
    execHttp E' S (ls.swap s) (s.page sec buf) sec = (execHttp E S ls buf sec).swap s := by
  unfold execHttp
  rw [h.parseGet]
  cases parseGet E buf sec with
  | none => rfl
  | some uri =>
    simp only [Option.map_some]
    rw [swap_param uri (by decide), swap_param uri (by decide), swap_param_code]
    cases uri.param "state" with
    | none => rfl
    | some st =>
      simp only [swap_matching]
      cases ls.actIdMatchingTokenState st with
      | none => rfl
      | some id =>
        simp only [swap_account]
        cases ls.account id with
        | none => rfl
        | some act =>
          simp only [Option.map_some, h.redirect]
          cases act.redirectUrl E S.httpPort S.httpsPort with
          | panic => rfl
          | err m => rfl
          | ok ex =>
            simp only
            rw [show (uri.swap s).scheme = uri.scheme from rfl, show (uri.swap s).host = uri.host from rfl,
              show (uri.swap s).port = uri.port from rfl]
            split
            · rfl
            · cases uri.param "error" with
              | some e =>
                simp only [swap_replace_empty]
                cases ls.tokenstateReplace id .empty with
                | none => rfl
                | some p =>
                  obtain ⟨id', ls'⟩ := p
                  simp only [Option.map_some, swap_account]
                  cases ls'.account id' <;> rfl
              | none =>
                simp only
                cases uri.param "code" with
                | none => rfl
                | some code =>
                  simp only [Option.map_some, swap_tokenstate]
                  cases ls.tokenstate id with
                  | none => rfl
                  | some t =>
                    cases t with
                    | empty => rfl
                    | active => rfl
                    | pending p =>
                      simp only [Option.map_some, TokenState.swap, PendingTok.swap, swap_codeForm, h.renderUrl]
                      rfl

theorem swap_execExDone (now : Instant) (ls : LockedState) (c : ExCtx) (b : Body) :
    execExDone now (ls.swap s) (c.swap s) b = (execExDone now ls c b).swap s := by
  unfold execExDone
  simp only [show (c.swap s).id = c.id from rfl, swap_valid, swap_expiry, swap_account]
  split
  · rfl
  · split
    · rfl
    · split
      · cases expiryInstant ls c.id now _ with
        | none => rfl
        | some o =>
          cases o with
          | none => rfl
          | some e =>
            simp only
            cases ls.account c.id with
            | none => rfl
            | some act =>
              simp only [Option.map_some, swap_replace_active]
              cases ls.tokenstateReplace c.id _ <;> rfl
      · rfl

theorem swap_execFail (ls : LockedState) (id : AccountId) (m : String) :
    execFail (ls.swap s) id m = (execFail ls id m).swap s := by
  unfold execFail
  simp only [swap_valid, swap_tokenstate, swap_replace_empty]
  split
  · cases ls.tokenstate id with
    | none => rfl
    | some t =>
      simp only [Option.map_some]
      cases ls.tokenstateReplace id .empty with
      | none => rfl
      | some p =>
        obtain ⟨id', ls'⟩ := p
        simp only [Option.map_some, swap_account]
        cases ls'.account id' with
        | none => rfl
        | some a => cases t <;> rfl
  · rfl

theorem swap_execNotifyError (ls : LockedState) (tid : Nat) (a m : String) :
    execNotifyError (ls.swap s) tid a m = (execNotifyError ls tid a m).swap s := by
  unfold execNotifyError
  rw [show (ls.swap s).config.errorNotifyCmd = ls.config.errorNotifyCmd from rfl]
  cases ls.config.errorNotifyCmd <;> rfl

theorem swap_execRfStart (now : Instant) (ls : LockedState) (id : AccountId) :
    execRfStart now (ls.swap s) id = (execRfStart now ls id).swap s := by
  unfold execRfStart
  simp only [swap_valid, swap_tokenstate]
  split
  · cases ls.tokenstate id with
    | none => rfl
    | some t =>
      cases t with
      | empty => rfl
      | pending => rfl
      | active a =>
        simp only [Option.map_some, TokenState.swap, swap_replace_active]
        split
        · rfl
        · cases ls.tokenstateReplace id _ with
          | none => rfl
          | some p =>
            obtain ⟨id1, ls1⟩ := p
            simp only [Option.map_some, swap_account, swap_tokenstate]
            cases ls1.account id1 with
            | none => rfl
            | some act1 =>
              cases ls1.tokenstate id1 with
              | none => rfl
              | some t1 =>
                cases t1 with
                | empty => rfl
                | pending => rfl
                | active a1 =>
                  simp only [Option.map_some, TokenState.swap]
                  cases a1.refreshToken with
                  | none =>
                    simp only [swap_replace_empty]
                    cases ls1.tokenstateReplace id1 .empty <;> rfl
                  | some r =>
                    simp only [swap_replace_active]
                    cases ls1.tokenstateReplace id1 _ with
                    | none => rfl
                    | some p =>
                      obtain ⟨id2, ls2⟩ := p
                      simp only [Option.map_some, swap_account]
                      cases ls2.account id2 with
                      | none => rfl
                      | some act =>
                        simp only [Option.map_some, swap_refreshForm]
                        rfl
  · rfl

theorem swap_after (c : RfCtx) (b : Body) : afterRefreshBody (c.swap s) b = (afterRefreshBody c b).swap s := by
  unfold afterRefreshBody
  split
  · rfl
  · split <;> rfl

theorem swap_execRfAwait (ls : LockedState) (tid : Nat) (c : RfCtx) (net : Net) :
    execRfAwait (ls.swap s) tid (c.swap s) net = (execRfAwait ls tid c net).swap s := by
  unfold execRfAwait
  simp only [Out.swap, Eff.swap, List.map_cons, List.map_nil, Obs.swap]
  congr 3
  cases net with
  | body b => simp only [swap_after]
  | transport t => cases t <;> rfl
  | _ => rfl

theorem swap_execRfPerm (ls : LockedState) (c : RfCtx) : execRfPerm (ls.swap s) (c.swap s) = (execRfPerm ls c).swap s := by
  unfold execRfPerm
  simp only [show (c.swap s).id = c.id from rfl, swap_valid, swap_replace_empty]
  split
  · cases ls.tokenstateReplace c.id .empty <;> rfl
  · rfl

theorem swap_execRfStore (ls : LockedState) (c : RfCtx) (tok : String) (n : Nat) (rt : Option String) (t : Instant) :
    execRfStore (ls.swap s) (c.swap s) tok n rt t = (execRfStore ls c tok n rt t).swap s := by
  unfold execRfStore
  simp only [show (c.swap s).id = c.id from rfl, swap_valid, swap_expiry, swap_replace_empty, swap_replace_active]
  split
  · cases expiryInstant ls c.id t n with
    | none => rfl
    | some o =>
      cases o with
      | none => simp only; cases ls.tokenstateReplace c.id _ <;> rfl
      | some e => simp only; cases ls.tokenstateReplace c.id _ <;> rfl
  · rfl

theorem swap_execRfTransient (now : Instant) (ls : LockedState) (c : RfCtx) :
    execRfTransient now (ls.swap s) (c.swap s) = (execRfTransient now ls c).swap s := by
  unfold execRfTransient
  simp only [show (c.swap s).id = c.id from rfl, swap_valid, swap_tokenstate]
  split
  · cases ls.tokenstate c.id with
    | none => rfl
    | some t =>
      cases t with
      | empty => rfl
      | pending => rfl
      | active a =>
        simp only [Option.map_some, TokenState.swap, swap_replace_active]
        cases ls.tokenstateReplace c.id _ with
        | none => rfl
        | some p =>
          obtain ⟨id', ls'⟩ := p
          simp only [Option.map_some, swap_ongoing]
          rw [show (ls'.swap s).config.transientErrorIfCmd = ls'.config.transientErrorIfCmd from rfl]
          cases ls'.tokenstateSetOngoingRefresh id' false with
          | none =>
            simp only [Option.map_none]
            split
            · cases ls'.config.transientErrorIfCmd <;> rfl
            · rfl
          | some q =>
            simp only [Option.map_some]
            split
            · cases ls'.config.transientErrorIfCmd <;> rfl
            · rfl
  · rfl

theorem swap_execRfCmdOk (ls : LockedState) (id : AccountId) : execRfCmdOk (ls.swap s) id = (execRfCmdOk ls id).swap s := by
  unfold execRfCmdOk
  simp only [swap_valid, swap_ongoing]
  split
  · cases ls.tokenstateSetOngoingRefresh id false <;> rfl
  · rfl

theorem swap_execRfCmdErr (ls : LockedState) (id : AccountId) (a : String) :
    execRfCmdErr (ls.swap s) id a = (execRfCmdErr ls id a).swap s := by
  unfold execRfCmdErr
  simp only [swap_valid, swap_replace_empty]
  split
  · cases ls.tokenstateReplace id .empty <;> rfl
  · rfl

/-- The operation is a request for a dump, or for one to be restored. -/
def DumpOp (o : Op) : Prop := ∃ buf, o = .unix buf ∧ (parseReq buf = .dump ∨ ∃ d, parseReq buf = .restore d)

theorem swap_exec (h : s.Ok E E') (S : Static) (now : Instant) (wall : SysTime) (ls : LockedState) (tid : Nat) (op : Op)
    (ho : ¬ DumpOp op) (inp : Input) :
    exec E' S now wall (ls.swap s) tid (op.swap s) (inp.swap s) = (exec E S now wall ls tid op inp).swap s := by
  cases op with
  | unix buf =>
    exact swap_execUnix h _ _ _ _ _ (fun e => ho ⟨_, rfl, .inl e⟩) (fun d e => ho ⟨_, rfl, .inr ⟨d, e⟩⟩) _
  | install c =>
    simp only [exec, Op.swap, swap_updateConf h.secret]
    cases ls.updateConf c <;> rfl
  | http buf sec => exact swap_execHttp h _ _ _ _
  | notifyError a m => exact swap_execNotifyError _ _ _ _
  | exAwait c k =>
    simp only [exec, Op.swap, execExAwait, show (inp.swap s).net = inp.net from rfl]
    cases inp.net <;> rfl
  | exSleep c k t =>
    simp only [exec, Op.swap, execExSleep]
    split
    · rfl
    · split <;> rfl
  | exDone c b => exact swap_execExDone _ _ _ _
  | fail id m => exact swap_execFail _ _ _
  | rfStart id => exact swap_execRfStart _ _ _
  | rfAwait c => exact swap_execRfAwait _ _ _ _
  | rfPerm c => exact swap_execRfPerm _ _
  | rfStore c a b d t => exact swap_execRfStore _ _ _ _ _ _
  | rfTransient c => exact swap_execRfTransient _ _ _
  | rfCmdWait id a =>
    simp only [exec, Op.swap, show (inp.swap s).cmdOk = inp.cmdOk from rfl]
    cases inp.cmdOk <;> rfl
  | rfCmdOk id => exact swap_execRfCmdOk _ _
  | rfCmdErr id a => exact swap_execRfCmdErr _ _ _
  | _ => rfl

/-! ## Worlds -/

theorem swap_setThread (f : Nat → List Op) (t : Nat) (l : List Op) :
    (fun i => (setThread f t l i).map (Op.swap s)) = setThread (fun i => (f i).map (Op.swap s)) t (l.map (Op.swap s)) := by
  funext i; unfold setThread; split <;> rfl

theorem swap_spawnAll : ∀ (l : List Op) (f : Nat → List Op) (n : Nat),
    (fun i => (spawnAll f n l i).map (Op.swap s)) = spawnAll (fun i => (f i).map (Op.swap s)) n (l.map (Op.swap s))
  | [], _, _ => rfl
  | o :: l, f, n => by
    simp only [List.map_cons, spawnAll]
    rw [swap_spawnAll l, swap_setThread]
    rfl

theorem swap_log (t : Instant) (os : List Obs) (l : List (Instant × Obs)) :
    ((os.map fun o => (t, o)).reverse ++ l).map (fun p => (p.1, p.2.swap s)) =
      ((os.map (Obs.swap s)).map fun o => (t, o)).reverse ++ l.map fun p => (p.1, p.2.swap s) := by
  simp [List.map_append, List.map_reverse, List.map_map, Function.comp_def]

theorem swap_apply (w : World) (tid : Nat) (rest : List Op) (e : Eff) :
    (w.swap s).apply tid (rest.map (Op.swap s)) (e.swap s) = (w.apply tid rest e).swap s := by
  simp only [World.apply, World.swap, Eff.swap, swap_spawnAll, swap_setThread, List.map_append, List.length_map]
  simp [List.map_reverse, List.map_map, Function.comp_def]
  rfl

theorem swap_notifyLoop (h : s.Ok E E') (now : Instant) (d : Dur) : ∀ (ids : List AccountId) (ls : LockedState),
    notifyLoop E' now d ids (ls.swap s) = (notifyLoop E now d ids ls).map fun p => (p.1.swap s, p.2)
  | [], _ => rfl
  | id :: r, ls => by
    simp only [notifyLoop, swap_tokenstate, swap_account]
    cases ls.tokenstate id with
    | none => rfl
    | some t =>
      cases t with
      | empty => exact swap_notifyLoop h now d r ls
      | active => exact swap_notifyLoop h now d r ls
      | pending p =>
        simp only [Option.map_some, TokenState.swap]
        rw [show notifyDue d now (p.swap s) = notifyDue d now p from rfl]
        split
        · have := swap_replace (s := s) ls id (.pending { p with lastNotification := some now })
          simp only [TokenState.swap] at this
          rw [show ({ p with lastNotification := some now } : PendingTok).swap s = { p.swap s with lastNotification := some now } from rfl] at this
          rw [this]
          cases ls.account id with
          | none => rfl
          | some act =>
            cases ls.tokenstateReplace id _ with
            | none => rfl
            | some q =>
              obtain ⟨i, ls'⟩ := q
              simp only [Option.map_some, swap_notifyLoop h now d r ls', h.renderUrl]
              cases notifyLoop E now d r ls' <;> rfl
        · exact swap_notifyLoop h now d r ls

theorem swap_observe (w : World) (os : List Obs) : (w.observe os).swap s = (w.swap s).observe (os.map (Obs.swap s)) := by
  simp only [World.observe, World.swap, swap_log]

theorem notifyLoop_same (now : Instant) (d : Dur) : ∀ (ids : List AccountId) {ls ls' : LockedState} {os : List Obs},
    notifyLoop E now d ids ls = some (ls', os) → os.map (Obs.swap s) = os
  | [], _, _, _, h => by cases h; rfl
  | id :: r, ls, ls', os, h => by
    unfold notifyLoop at h
    split at h
    · cases h
    · split at h
      · split at h
        · cases hq : notifyLoop E now d r _ with
          | none => rw [hq] at h; cases h
          | some q =>
            obtain ⟨l1, o1⟩ := q
            rw [hq] at h
            cases h
            rw [List.map_append, notifyLoop_same now d r hq]
            split <;> rfl
        · cases h
      · exact notifyLoop_same now d r h
    · exact notifyLoop_same now d r h

theorem swap_step (h : s.Ok E E') {w : World} {a : Action} (ho : ∀ tid inp, a = .run tid inp → ∀ o ∈ w.threads tid, ¬ DumpOp o) :
    (w.swap s).step E' (a.swap s) = (w.step E a).map (World.swap s) := by
  unfold World.step
  rw [show (w.swap s).proc = w.proc from rfl]
  cases w.proc with
  | aborted => rfl
  | terminated => rfl
  | running =>
    cases a with
    | tick d => rfl
    | setWall t => rfl
    | connect buf =>
      simp only [Action.swap]
      rw [show ((w.swap s).threads 0).isEmpty = (w.threads 0).isEmpty by simp [World.swap]]
      split
      · simp only [Option.map_some, swap_observe]
        simp only [World.swap, swap_setThread]
        rfl
      · rfl
    | http buf sec =>
      simp only [Action.swap]
      rw [show (w.swap s).st = w.st from rfl]
      by_cases hq : (if sec = true then w.st.httpsPort else w.st.httpPort).isSome = true
      · rw [if_pos hq, if_pos hq]
        simp only [Option.map_some, swap_observe]
        simp only [World.swap, swap_setThread]
        rfl
      · rw [if_neg hq, if_neg hq]; rfl
    | run tid inp =>
      simp only [Action.swap]
      rw [show (w.swap s).threads tid = (w.threads tid).map (Op.swap s) from rfl]
      have ho' := ho tid inp rfl
      cases hth : w.threads tid with
      | nil => rfl
      | cons op rest =>
        simp only [List.map_cons]
        have := swap_exec h w.st w.now w.wall w.ls tid op (ho' op (by rw [hth]; simp)) inp
        rw [show (w.swap s).st = w.st from rfl, show (w.swap s).now = w.now from rfl,
          show (w.swap s).wall = w.wall from rfl, show (w.swap s).ls = w.ls.swap s from rfl]
        simp only [Input.swap] at this
        rw [this]
        cases exec E w.st w.now w.wall w.ls tid op inp with
        | panic => rfl
        | disabled => rfl
        | ok e => simp only [Out.swap, Option.map_some, swap_apply]
    | refresher =>
      simp only [Action.swap, World.stepRefresher]
      rw [show (w.swap s).ls = w.ls.swap s from rfl, swap_actIds, swap_dueIds,
        show refreshAt (w.ls.swap s) (w.swap s).now = refreshAt w.ls w.now from funext fun id => swap_refreshAt _ _ id,
        show (w.swap s).refPc = w.refPc from rfl]
      cases w.refPc with
      | compute => simp only; split <;> rfl
      | wait d =>
        simp only
        rw [show (w.swap s).refPred = w.refPred from rfl, show (w.swap s).now = w.now from rfl]
        split <;> rfl
      | scan =>
        simp only
        rw [show (w.swap s).now = w.now from rfl]
        split
        · rfl
        · rename_i ids _
          simp only [Option.map_some, World.swap, swap_spawnAll]
          rw [show (ids.map Op.rfStart).map (Op.swap s) = ids.map Op.rfStart by simp [List.map_map, Function.comp_def, Op.swap]]
    | notifier =>
      simp only [Action.swap, World.stepNotifier]
      rw [show (w.swap s).ls = w.ls.swap s from rfl, swap_actIds,
        show notifyAt (w.ls.swap s) (w.swap s).now = notifyAt w.ls w.now from funext fun id => swap_notifyAt _ _ id,
        show (w.swap s).notPc = w.notPc from rfl]
      cases w.notPc with
      | compute => simp only; split <;> rfl
      | wait d =>
        simp only
        rw [show (w.swap s).notPred = w.notPred from rfl, show (w.swap s).now = w.now from rfl]
        split <;> rfl
      | scan =>
        simp only
        rw [swap_notifyLoop h, show (w.swap s).now = w.now from rfl,
          show (w.ls.swap s).config.authNotifyInterval = w.ls.config.authNotifyInterval from rfl]
        cases hn : notifyLoop E w.now w.ls.config.authNotifyInterval w.ls.actIds w.ls with
        | none => rfl
        | some q =>
          obtain ⟨ls', os⟩ := q
          simp only [Option.map_some, swap_observe, notifyLoop_same _ _ _ hn]
          rfl
    | eventer =>
      simp only [Action.swap, World.stepEventer]
      rw [show (w.swap s).ls.config.tokenEventCmd = w.ls.config.tokenEventCmd from rfl, show (w.swap s).evPc = w.evPc from rfl,
        show (w.swap s).evQueue = w.evQueue from rfl]
      cases w.evPc with
      | wait =>
        simp only
        rw [show (w.swap s).evPred = w.evPred from rfl]
        split <;> rfl
      | drain => simp only; cases w.evQueue <;> rfl
      | readCmd act e => simp only; cases w.ls.config.tokenEventCmd <;> rfl
      | running => rfl

/-- No client has asked for a dump, or for one to be restored. -/
def NoDumps (w : World) : Prop :=
  ∀ t buf, (t, .request buf) ∈ w.log → parseReq buf ≠ .dump ∧ ∀ d, parseReq buf ≠ .restore d

theorem NoDumps.step {w w' : World} {a : Action} (hr : Reach E w) (h : NoDumps w) (ha : ¬ AsksDumpOrRestore a) (hs : w.step E a = some w') :
    NoDumps w' := by
  intro t buf hm
  obtain ⟨l, hl, hn⟩ := (stepR_of_step hr.inv0.wf hs).2.log_new
  rw [hl] at hm
  rcases List.mem_append.mp hm with hm | hm
  · have hnew := (hn _ hm).2
    by_cases hc : ∃ b, a = .connect b
    · obtain ⟨b, rfl⟩ := hc
      cases hnew
      exact ⟨fun e => ha ⟨_, rfl, .inl e⟩, fun d e => ha ⟨_, rfl, .inr ⟨d, e⟩⟩⟩
    · have := hnew.not_request fun b e => hc ⟨b, e⟩
      cases this
  · exact h t buf hm

theorem swap_run (h : s.Ok E E') : ∀ (l : List Action) {w : World}, Reach E w → NoDumps w → (∀ a ∈ l, ¬ AsksDumpOrRestore a) →
    (w.swap s).run E' (l.map (Action.swap s)) = (w.run E l).map (World.swap s)
  | [], _, _, _, _ => rfl
  | a :: l, w, hr, hn, hd => by
    simp only [List.map_cons, World.run]
    rw [swap_step h]
    · cases hs : w.step E a with
      | none => rfl
      | some w1 =>
        exact swap_run h l (.step a hr hs) (hn.step hr (hd a (by simp)) hs) fun b hb => hd b (by simp [hb])
    · intro tid inp _ o ho ⟨buf, hb, hq⟩
      subst hb
      obtain ⟨rfl, _⟩ := (Reach.shape w hr).unix ho
      obtain ⟨t, ht⟩ := hr.unix_request ho
      have := hn t buf (lastRequest_mem ht)
      rcases hq with hq | ⟨d, hq⟩
      · exact this.1 hq
      · exact this.2 d hq

end

end Pizauth
