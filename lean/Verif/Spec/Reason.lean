import Verif.Model.Net

/-!
# Specification: the reasons given for a failed authentication
-/

namespace Pizauth

/-- What is said of an attempt to get a token from the token server at `u` which yielded none. -/
inductive FailReason (u : String) : Net → String → Prop where
  | refused {b : Body} {m : String} : b.get "error" = some (.str m) → FailReason u (.body b) m
  | invalid {b : Body} : (∀ m, b.get "error" ≠ some (.str m)) → FailReason u (.body b) "invalid response received"
  | json {e : String} : FailReason u (.badJson e) ("Invalid JSON: " ++ e)
  | read {e : String} : FailReason u (.readErr e) e
  | status {code : Nat} {text : String} : FailReason u (.status code (some text)) (toString code ++ ": " ++ text)
  | statusOnly {code : Nat} : FailReason u (.status code none) (toString code)
  | unreachable {k : TransportKind} : FailReason u (.transport k) ("couldn't connect to " ++ u)

end Pizauth
