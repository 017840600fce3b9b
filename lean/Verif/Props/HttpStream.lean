import Verif.Proof.HttpStream
import Verif.Model.World
import Verif.Props.Demo

/-!
# C105: HTTP requests are handled as soon as they are complete
-/

namespace Pizauth

variable {E : Env}

/-- C105: what the server has found out from a part of a request is what it would have found out from all of it; nothing
that arrives later changes it, and it does not matter whether the client closes its side. -/
theorem C105 {b x : Bytes} {sec : Bool} {r : Option Url} (h : streamGet E b false sec = some r) :
    (∀ eof, streamGet E (b ++ x) eof sec = some r) ∧ parseGet E (b ++ x) sec = r := by
  refine ⟨fun eof => streamGet_append h, ?_⟩
  have := streamGet_append (x := x) (eof := true) h
  rw [streamGet_eof] at this
  exact Option.some.inj this

/-- C105: handling the part is handling the whole. -/
theorem C105_same {b x : Bytes} {sec : Bool} {r : Option Url} (h : streamGet E b false sec = some r) (S : Static)
    (now : Instant) (wall : SysTime) (ls : LockedState) (tid : Nat) (inp : Input) :
    exec E S now wall ls tid (.http (b ++ x) sec) inp = exec E S now wall ls tid (.http b sec) inp := by
  have h1 := (C105 (x := x) h).2
  have h2 := (C105 (x := []) h).2
  rw [List.append_nil] at h2
  simp only [exec, execHttp, h1, h2]

/-- C105: a client need not close its side: once it has sent an empty line, the server goes on, whatever came before. -/
theorem C105_answered {p q : Bytes} {sec : Bool} {nl : Bytes} (hn : nl = [10] ∨ nl = [13, 10]) :
    streamGet E (p ++ [10] ++ nl ++ q) false sec ≠ none := by
  refine streamGet_emptyAhead ⟨p, nl ++ q, by simp, q, ?_⟩
  rcases hn with rfl | rfl <;> simp

/-- C105: if the client closes its side the server goes on, too. -/
theorem C105_closed {b : Bytes} {sec : Bool} : streamGet E b true sec = some (parseGet E b sec) := streamGet_eof b sec

/-- C105: before the end of the first line nothing is decided (however long that line is, see C50). -/
theorem C105_waits {b : Bytes} {sec : Bool} (h : 10 ∉ b) : streamGet E b false sec = none := by
  have : (!lineReady b false) = true := by simpa [lineReady] using h
  simp [streamGet, this]

namespace Demo

/-- The browser's request, when all of it, or all but the last byte, has arrived. -/
example : streamGet env callback false false = some (parseGet env callback false) := by decide +kernel
example : (parseGet env callback false).isSome = true := by decide +kernel
example : streamGet env (callback.take (callback.length - 1)) false false = none := by decide +kernel
example : streamGet env (callback ++ utf8 "GET") false false = some (parseGet env callback false) := by decide +kernel
/-- What is certainly not understood is answered without waiting for more. -/
example : streamGet env (utf8 "POST / HTTP/1.1\r\n") false false = some none := by decide +kernel
example : streamGet env (utf8 "GET / HTTP/1.1\r\n") false false = none := by decide +kernel

end Demo

end Pizauth
