import Verif.Model.Config

/-!
# The state behind the global lock (src/server/state.rs)

A function which can panic returns an `Option`, `none` being the panic.
-/

namespace Pizauth

/-- `AccountId`, src/server/state.rs:407-415. Simplification: unbounded instead of `u128`. -/
macro "AccountId" : term => `(Nat)

/-- The fields of `TokenState::Pending`, src/server/state.rs:432-437. -/
structure PendingTok where
  codeVerifier : String
  lastNotification : Option Instant
  state : String
  url : Url
deriving DecidableEq, Repr, Inhabited

/-- The fields of `TokenState::Active`, src/server/state.rs:439-456. Simplification:
`consecutive_refresh_fails` is unbounded instead of `u64`. -/
structure ActiveTok where
  accessToken : String
  obtained : Instant
  expiry : Instant
  refreshToken : Option String
  ongoing : Bool
  fails : Nat
  lastAttempt : Option Instant
deriving DecidableEq, Repr, Inhabited

/-- `enum TokenState`, src/server/state.rs:427-457. -/
inductive TokenState where
  | empty
  | pending (p : PendingTok)
  | active (a : ActiveTok)
deriving DecidableEq, Repr, Inhabited

/-- `enum TokenStateDump`, src/server/state.rs:465-473. -/
inductive TokenStateDump where
  | empty
  | active (accessToken : String) (obtained expiry : SysTime) (refreshToken : Option String)
deriving DecidableEq, Repr, Inhabited

/-- One element of `LockedState.details`, src/server/state.rs:154. -/
structure Entry where
  name : String
  id : AccountId
  ts : TokenState
deriving DecidableEq, Repr, Inhabited

/-- `struct LockedState`, src/server/state.rs:151-155. -/
structure LockedState where
  accountCount : Nat
  config : Config
  details : List Entry
deriving DecidableEq, Repr, Inhabited

/-- `Account` lookup in the `HashMap`, src/server/state.rs:293-336. -/
def Config.get? (c : Config) (n : String) : Option Account := c.accounts.lookup n

/-- The loop of `LockedState::new`, src/server/state.rs:161-166. -/
def newDetails : List (String × Account) → Nat → List Entry
  | [], _ => []
  | (n, _) :: r, c => { name := n, id := c, ts := .empty } :: newDetails r (c + 1)

/-- `LockedState::new`, src/server/state.rs:158-173. -/
def LockedState.new (config : Config) : LockedState :=
  { accountCount := config.accounts.length
    config := config
    details := newDetails config.accounts 0 }

namespace LockedState

/-- The loop of `LockedState::update_conf`, src/server/state.rs:178-203, threading
`self.account_count`. The pair `(n, newAct)` is a key of the new `HashMap` and its value. -/
def updateLoop (self : LockedState) : List (String × Account) → Nat → Option (List Entry × Nat)
  | [], c => some ([], c)
  | (n, newAct) :: r, c =>
    match self.config.get? n with
    | some oldAct =>
      if newAct.secureEq oldAct then
        match self.details.find? (fun x => x.name == n) with
        | none => none
        | some e => (self.updateLoop r c).map fun (es, c') => (e :: es, c')
      else
        (self.updateLoop r (c + 1)).map fun (es, c') =>
          ({ name := n, id := c, ts := .empty } :: es, c')
    | none =>
      (self.updateLoop r (c + 1)).map fun (es, c') =>
        ({ name := n, id := c, ts := .empty } :: es, c')

/-- `LockedState::update_conf`, src/server/state.rs:175-207. -/
def updateConf (self : LockedState) (config : Config) : Option LockedState :=
  (self.updateLoop config.accounts self.accountCount).map fun (es, c) =>
    { accountCount := c, config := config, details := es }

/-- `CTGuard::validate_act_name`, src/server/state.rs:293-299. -/
def validateActName (self : LockedState) (n : String) : Option AccountId :=
  (self.details.find? (fun x => x.name == n)).map Entry.id

/-- `CTGuard::is_act_id_valid`, src/server/state.rs:302-304. -/
def isActIdValid (self : LockedState) (id : AccountId) : Bool :=
  self.details.any (fun x => x.id == id)

/-- `CTGuard::act_ids`, src/server/state.rs:307-309. -/
def actIds (self : LockedState) : List AccountId := self.details.map Entry.id

/-- The `matches!` of src/server/state.rs:316. -/
def TokenStateMatches (ts : TokenState) (state : String) : Bool :=
  match ts with
  | .pending p => p.state == state
  | _ => false

/-- `CTGuard::act_id_matching_token_state`, src/server/state.rs:312-318. -/
def actIdMatchingTokenState (self : LockedState) (state : String) : Option AccountId :=
  (self.details.find? (fun x => TokenStateMatches x.ts state)).map Entry.id

/-- `CTGuard::account`, src/server/state.rs:325-334 (`none`: panic). -/
def account (self : LockedState) (id : AccountId) : Option Account :=
  match self.details.find? (fun x => x.id == id) with
  | some e => self.config.get? e.name
  | none => none

/-- `CTGuard::tokenstate`, src/server/state.rs:342-349 (`none`: panic). -/
def tokenstate (self : LockedState) (id : AccountId) : Option TokenState :=
  (self.details.find? (fun x => x.id == id)).map Entry.ts

/-- `CTGuard::tokenstate_replace`, src/server/state.rs:389-404 (`none`: panic). -/
def tokenstateReplace (self : LockedState) (id : AccountId) (ts : TokenState) :
    Option (AccountId × LockedState) :=
  match self.details.findIdx? (fun x => x.id == id) with
  | some i => some (self.accountCount,
      { self with
        accountCount := self.accountCount + 1
        details := self.details.modify i fun e => { e with id := self.accountCount, ts := ts } })
  | none => none

/-- `CTGuard::tokenstate_set_ongoing_refresh`, src/server/state.rs:357-381 (`none`: panic). -/
def tokenstateSetOngoingRefresh (self : LockedState) (id : AccountId) (b : Bool) :
    Option (AccountId × LockedState) :=
  match self.tokenstate id with
  | some (.active a) => self.tokenstateReplace id (.active { a with ongoing := b })
  | _ => none

end LockedState

/-- `dump_instant`, src/server/state.rs:477-489. Simplification: one reading of each clock. -/
def dumpInstant (now : Instant) (wall : SysTime) (i : Instant) : SysTime :=
  match checkedDurationSince i now with
  | some d => (checkedAdd wall d).getD wall
  | none =>
    match checkedDurationSince now i with
    | some d => (checkedSub wall d).getD wall
    | none => wall

/-- `TokenState::dump`, src/server/state.rs:476-509. -/
def TokenState.dump (now : Instant) (wall : SysTime) : TokenState → TokenStateDump
  | .empty => .empty
  | .pending _ => .empty
  | .active a =>
    .active a.accessToken (dumpInstant now wall a.obtained) (dumpInstant now wall a.expiry)
      a.refreshToken

/-- `restore_instant`, src/server/state.rs:512-524. Simplification: one reading of each clock. -/
def restoreInstant (now : Instant) (wall : SysTime) (t : SysTime) : Instant :=
  match checkedDurationSince t wall with
  | some d => (checkedAdd now d).getD now
  | none =>
    match checkedDurationSince wall t with
    | some d => (checkedSub now d).getD now
    | none => now

/-- `TokenState::restore`, src/server/state.rs:511-543. -/
def TokenState.restore (now : Instant) (wall : SysTime) : TokenStateDump → TokenState
  | .empty => .empty
  | .active tok o e r =>
    .active { accessToken := tok
              obtained := restoreInstant now wall o
              expiry := restoreInstant now wall e
              refreshToken := r
              ongoing := false
              fails := 0
              lastAttempt := none }

/-- `struct Dump`, src/server/state.rs:267-271; `accounts` lists the `HashMap` in some iteration order. -/
structure Dump where
  version : Nat
  accounts : List (String × (AccountDump × TokenStateDump))
deriving DecidableEq, Repr, Inhabited

/-- `DUMP_VERSION`, src/server/state.rs:41. -/
def dumpVersion : Nat := 1

namespace LockedState

/-- The loop of `LockedState::dump`, src/server/state.rs:210-216 (`none`: panic). The entries are in the order of
`details`; the caller chooses the `HashMap` order. -/
def dumpLoop (self : LockedState) (now : Instant) (wall : SysTime) :
    List Entry → Option (List (String × (AccountDump × TokenStateDump)))
  | [] => some []
  | e :: r =>
    match self.config.get? e.name with
    | none => none
    | some act =>
      (self.dumpLoop now wall r).map fun ds => (e.name, (act.dump, e.ts.dump now wall)) :: ds

/-- One iteration of the first loop of `LockedState::restore`, src/server/state.rs:231-251: the token state to
restore for an entry, if any. Outer `none`: panic. -/
def restoreOne (self : LockedState) (now : Instant) (wall : SysTime) (d : Dump) (e : Entry) :
    Option (Option TokenState) :=
  match self.config.get? e.name with
  | none => none
  | some act =>
    -- later duplicates overwrite earlier ones when bincode fills the `HashMap`
    match d.accounts.reverse.lookup e.name with
    | none => some none
    | some (actDump, tsDump) =>
      if act.secureRestorable actDump then
        match e.ts, TokenState.restore now wall tsDump with
        | .empty, .active a => some (some (.active a))
        | .pending _, .active a => some (some (.active a))
        | _, _ => some none
      else some none

/-- The first loop of `LockedState::restore`, src/server/state.rs:230-251: the map `restore`. -/
def restoreCollect (self : LockedState) (now : Instant) (wall : SysTime) (d : Dump) :
    List Entry → Option (List (String × TokenState))
  | [] => some []
  | e :: r =>
    match self.restoreOne now wall d e with
    | none => none
    | some ots =>
      (self.restoreCollect now wall d r).map fun l =>
        match ots with
        | some ts => (e.name, ts) :: l
        | none => l

/-- The second loop of `LockedState::restore`, src/server/state.rs:253-261, on the drained `(name, token state)`
pairs (`none`: panic). -/
def restoreApply (self : LockedState) : List (String × TokenState) → Option LockedState
  | [] => some self
  | (n, ts) :: r =>
    match self.details.findIdx? (fun x => x.name == n) with
    | none => none
    | some i =>
      { self with
        accountCount := self.accountCount + 1
        details := self.details.modify i fun e =>
          { e with id := self.accountCount, ts := ts } }.restoreApply r

end LockedState

end Pizauth
