import Verif.Model.Bincode
import Verif.Model.World
import Verif.Spec.Tokens
import Verif.Spec.Log

/-!
# Specification: dumping and restoring tokens
-/

namespace Pizauth

/-- A point in wall-clock time which the operating system's clock can represent. -/
def SysTimeOk (t : SysTime) : Prop := t ≤ timeMax

/-- The times in a dumped token state are representable. -/
def TokenStateDump.TimesOk : TokenStateDump → Prop
  | .empty => True
  | .active _ o x _ => SysTimeOk o ∧ SysTimeOk x

/-- The times in a dump are representable. -/
def Dump.TimesOk (d : Dump) : Prop := ∀ p ∈ d.accounts, p.2.2.TimesOk

/-- Decryption undoes encryption. -/
def CryptLaw (E : Env) : Prop := ∀ nonce p c, E.encrypt nonce p = some c → E.decrypt nonce c = some p

/-- What a dump says about account `n` (in a map, the last entry for a key counts). -/
def Dump.entry (d : Dump) (n : String) : Option (AccountDump × TokenStateDump) := d.accounts.reverse.lookup n

/-- The state of account `n`. -/
def Holds (ls : LockedState) (n : String) (ts : TokenState) : Prop := ∃ e ∈ ls.details, e.name = n ∧ e.ts = ts

/-- The dump has a token for account `n` with the same security-relevant settings as it has now. -/
def Dump.Offers (d : Dump) (ls : LockedState) (n : String) (tok : String) (obtained expiry : SysTime)
    (rt : Option String) : Prop :=
  ∃ a s, ls.config.accounts.lookup n = some a ∧ d.entry n = some (s, .active tok obtained expiry rt) ∧
    s.authUri = a.authUri ∧ s.authUriFields = a.authUriFields ∧ s.clientId = a.clientId ∧
    s.clientSecret = a.clientSecret ∧ s.redirectUri = a.redirectUri ∧ s.scopes = a.scopes ∧ s.tokenUri = a.tokenUri

/-- The main thread carries out request `buf`. -/
structure Executes (E : Env) (w : World) (buf : Bytes) (w' : World) : Prop where
  reach : Reach E w
  serving : w.threads 0 = [.unix buf, .close]
  step : ∃ inp, w.step E (.run 0 inp) = some w'

/-- The two states have the same account settings and the same tokens (but maybe not the same authorisations). -/
structure SameTokens (ls1 ls2 : LockedState) : Prop where
  accounts : ls1.config.accounts = ls2.config.accounts
  tokens : ∀ n t, HoldsToken ls1 n t ↔ HoldsToken ls2 n t

/-- The clocks can represent the moment `i` (as seen at monotonic time `now` and wall-clock time `wall`) as a wall-clock
time, and again as a monotonic time when the clocks are at `now'` and `wall'`. -/
def Fits (now : Instant) (wall : SysTime) (now' : Instant) (wall' : SysTime) (i : Instant) : Prop :=
  timeMin ≤ wall + (i - now) ∧ wall + (i - now) ≤ timeMax ∧
  timeMin ≤ now' + (i - now) - (wall' - wall) ∧ now' + (i - now) - (wall' - wall) ≤ timeMax

/-- `t'` is `t`, restored: same secrets, same lifetime; and it is not being refreshed. -/
structure Carried (now : Instant) (wall : SysTime) (now' : Instant) (wall' : SysTime) (t t' : ActiveTok) : Prop where
  accessToken : t'.accessToken = t.accessToken
  refreshToken : t'.refreshToken = t.refreshToken
  expiry : Fits now wall now' wall' t.expiry → t'.expiry - now' = (t.expiry - now) - (wall' - wall)
  obtained : Fits now wall now' wall' t.obtained → t'.obtained - now' = (t.obtained - now) - (wall' - wall)
  idle : t'.ongoing = false ∧ t'.fails = 0 ∧ t'.lastAttempt = none

end Pizauth
