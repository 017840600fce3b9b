import Verif.Model.State

/-!
# The dump's wire format (bincode 1.3.3 + serde, as used at src/server/state.rs:218,225)

`bincode::serialize`/`deserialize`: fixed-width little-endian integers, `u64` lengths, one tag byte for
`Option`, `u32` variant indices, trailing bytes ignored. Structs are their fields in declaration order.
-/

namespace Pizauth

/-- A `k`-byte little-endian integer, src/server/state.rs:218. -/
def encLE : Nat → Nat → Bytes
  | 0, _ => []
  | k + 1, n => UInt8.ofNat (n % 256) :: encLE k (n / 256)

/-- An integer of `k` bytes; `none` if it does not fit (no such Rust value exists), src/server/state.rs:218. -/
def encInt (k n : Nat) : Option Bytes := if n < 256 ^ k then some (encLE k n) else none

/-- `String`: length, then bytes, src/server/state.rs:218. -/
def encStr (s : String) : Option Bytes := (encInt 8 (utf8 s).length).map (· ++ utf8 s)

/-- Concatenation of the encodings of the elements, src/server/state.rs:218. -/
def encAll {α : Type} (enc : α → Option Bytes) : List α → Option Bytes
  | [] => some []
  | a :: r =>
    match enc a, encAll enc r with
    | some x, some y => some (x ++ y)
    | _, _ => none

/-- `Vec<T>` / `HashMap<K, V>`: length, then elements, src/server/state.rs:218. -/
def encVec {α : Type} (enc : α → Option Bytes) (l : List α) : Option Bytes :=
  match encInt 8 l.length, encAll enc l with
  | some x, some y => some (x ++ y)
  | _, _ => none

/-- Pairs, and consecutive fields, src/server/state.rs:218. -/
def encPair {α β : Type} (ea : α → Option Bytes) (eb : β → Option Bytes) (p : α × β) : Option Bytes :=
  match ea p.1, eb p.2 with
  | some x, some y => some (x ++ y)
  | _, _ => none

/-- `Option<T>`, src/server/state.rs:218. -/
def encOption {α : Type} (enc : α → Option Bytes) : Option α → Option Bytes
  | none => some [0]
  | some a => (enc a).map (1 :: ·)

/-- serde's `SystemTime`: seconds (`u64`) and nanoseconds (`u32`) since the epoch; an error before it,
src/server/state.rs:218. -/
def encSysTime (t : SysTime) : Option Bytes :=
  if t < 0 then none
  else encPair (encInt 8) (encInt 4) (t.toNat / nsPerSec, t.toNat % nsPerSec)

/-- `AccountDump`, src/config.rs:583-592. -/
def encAccountDump (a : AccountDump) : Option Bytes :=
  encPair encStr (encPair (encVec (encPair encStr encStr)) (encPair encStr (encPair (encOption encStr)
    (encPair encStr (encPair (encVec encStr) encStr)))))
    (a.authUri, a.authUriFields, a.clientId, a.clientSecret, a.redirectUri, a.scopes, a.tokenUri)

/-- `TokenStateDump`, src/server/state.rs:465-473. -/
def encTokenStateDump : TokenStateDump → Option Bytes
  | .empty => encInt 4 0
  | .active tok o e r =>
    encPair (encInt 4) (encPair encStr (encPair encSysTime (encPair encSysTime (encOption encStr))))
      (1, tok, o, e, r)

/-- `Dump`, src/server/state.rs:267-271. -/
def encDump (d : Dump) : Option Bytes :=
  encPair (encInt 8) (encVec (encPair encStr (encPair encAccountDump encTokenStateDump)))
    (d.version, d.accounts)

/-- A decoder consumes a prefix of its input; `none` is an error, src/server/state.rs:225. -/
abbrev Dec (α : Type) := Bytes → Option (α × Bytes)

/-- Little-endian integer of `k` bytes, src/server/state.rs:225. -/
def decInt : Nat → Dec Nat
  | 0, b => some (0, b)
  | _ + 1, [] => none
  | k + 1, x :: b => (decInt k b).map fun (n, r) => (x.toNat + 256 * n, r)

/-- Take exactly `n` bytes, src/server/state.rs:225. -/
def decBytes (n : Nat) : Dec Bytes := fun b =>
  if n ≤ b.length then some (b.take n, b.drop n) else none

/-- `String`: also validates UTF-8, src/server/state.rs:225. -/
def decStr : Dec String := fun b =>
  match decInt 8 b with
  | none => none
  | some (n, b) =>
    match decBytes n b with
    | none => none
    | some (s, b) => (fromUtf8 s).map fun s => (s, b)

/-- `n` elements, src/server/state.rs:225. -/
def decAll {α : Type} (dec : Dec α) : Nat → Dec (List α)
  | 0, b => some ([], b)
  | n + 1, b =>
    match dec b with
    | none => none
    | some (a, b) => (decAll dec n b).map fun (l, b) => (a :: l, b)

/-- `Vec<T>` / `HashMap<K, V>` (as the list of the pairs read), src/server/state.rs:225. -/
def decVec {α : Type} (dec : Dec α) : Dec (List α) := fun b =>
  match decInt 8 b with
  | none => none
  | some (n, b) => decAll dec n b

/-- Pairs, src/server/state.rs:225. -/
def decPair {α β : Type} (da : Dec α) (db : Dec β) : Dec (α × β) := fun b =>
  match da b with
  | none => none
  | some (x, b) => (db b).map fun (y, b) => ((x, y), b)

/-- `Option<T>`, src/server/state.rs:225. -/
def decOption {α : Type} (dec : Dec α) : Dec (Option α) := fun b =>
  match b with
  | [] => none
  | t :: b => if t = 0 then some (none, b) else if t = 1 then (dec b).map fun (x, b) => (some x, b) else none

/-- serde's `SystemTime`: rejects values whose seconds overflow `u64` or the clock type, src/server/state.rs:225. -/
def decSysTime : Dec SysTime := fun b =>
  match decPair (decInt 8) (decInt 4) b with
  | none => none
  | some ((s, n), b) =>
    if s + n / nsPerSec < u64Size then
      (checkedAdd 0 (s * nsPerSec + n)).map fun t => (t, b)
    else none

/-- `AccountDump`, src/server/state.rs:225, src/config.rs:584-597. -/
def decAccountDump : Dec AccountDump := fun b =>
  (decPair decStr (decPair (decVec (decPair decStr decStr)) (decPair decStr (decPair (decOption decStr)
    (decPair decStr (decPair (decVec decStr) decStr))))) b).map
    fun ((au, aufs, ci, cs, ru, ss, tu), b) =>
      ({ authUri := au, authUriFields := aufs, clientId := ci, clientSecret := cs, redirectUri := ru,
         scopes := ss, tokenUri := tu }, b)

/-- `TokenStateDump`, src/server/state.rs:225, src/server/state.rs:465-473. -/
def decTokenStateDump : Dec TokenStateDump := fun b =>
  match decInt 4 b with
  | none => none
  | some (v, b) =>
    if v = 0 then some (.empty, b)
    else if v = 1 then
      (decPair decStr (decPair decSysTime (decPair decSysTime (decOption decStr))) b).map
        fun ((tok, o, e, r), b) => (.active tok o e r, b)
    else none

/-- `bincode::deserialize::<Dump>`, src/server/state.rs:225, src/server/state.rs:268-276. -/
def decDump (b : Bytes) : Option Dump :=
  (decPair (decInt 8) (decVec (decPair decStr (decPair decAccountDump decTokenStateDump))) b).map
    fun ((v, l), _) => { version := v, accounts := l }

/-! ## `dump` and `restore` under the lock -/

/-- Outcome of `LockedState::dump` / `AuthenticatorState::dump`, src/server/state.rs:106-125,209-222. -/
inductive DumpRes where
  | panic
  | disabled
  | err
  | ok (b : Bytes)
deriving DecidableEq, Repr

/-- `LockedState::dump`, src/server/state.rs:209-222. `order` is the iteration order of the `HashMap` `acts`
(`disabled` when it is not a possible one). -/
def LockedState.dump (self : LockedState) (now : Instant) (wall : SysTime)
    (order : List (String × (AccountDump × TokenStateDump))) : DumpRes :=
  match self.dumpLoop now wall self.details with
  | none => .panic
  | some acts =>
    if order.isPerm acts then
      match encDump { version := dumpVersion, accounts := order } with
      | none => .err
      | some b => .ok b
    else .disabled

/-- Length of the nonce, src/server/state.rs:36. -/
def nonceLen : Nat := 12

/-- `AuthenticatorState::dump`, src/server/state.rs:106-125. -/
def authDump (E : Env) (ls : LockedState) (now : Instant) (wall : SysTime) (nonce : Vector UInt8 12)
    (order : List (String × (AccountDump × TokenStateDump))) : DumpRes :=
  match ls.dump now wall order with
  | .ok d =>
    match E.encrypt nonce.toList d with
    | none => .err
    | some c => .ok (nonce.toList ++ c)
  | r => r

/-- Outcome of `LockedState::restore`, src/server/state.rs:127-147,224-265. -/
inductive RestoreRes where
  | panic
  | disabled
  | err
  | ok (ls : LockedState)
deriving DecidableEq, Repr

/-- `LockedState::restore`, src/server/state.rs:224-264. `drain` is the order in which the map `restore` is
drained (`disabled` when it is not a possible one). -/
def LockedState.restore (self : LockedState) (now : Instant) (wall : SysTime) (b : Bytes)
    (drain : List (String × TokenState)) : RestoreRes :=
  match decDump b with
  | none => .err
  | some d =>
    if d.version ≠ dumpVersion then .err
    else
      match self.restoreCollect now wall d self.details with
      | none => .panic
      | some l =>
        if drain.isPerm l then
          match self.restoreApply drain with
          | none => .panic
          | some ls => .ok ls
        else .disabled

end Pizauth
