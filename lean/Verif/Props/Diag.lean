import Verif.Proof.Diag
import Verif.Props.Config

/-!
# C96: messages about configuration files
-/

namespace Pizauth

/-! ## C96 -/

/-- **C96**, but for the position of times. A rejected file gets a message which is right: it is the parser's for a
syntax error, and otherwise names something which is wrong with the file, with the line and column where this is, and
the text of that line. -/
theorem C96_partial {T : ErrTexts} {E : Env} {file : String} {m : String}
    (h : Config.fromStrM T E file = .error (some m)) :
    (parseConfigText file = none ∧ m = T.syn file) ∨
    ∃ l, parseConfigText file = some l ∧
      ((∃ k msg off line col code, Fault E T.url file k msg ∧ TokenAt file k off ∧ Located file off line col code ∧
          m = "Line " ++ toString line ++ ", column " ++ toString col ++ ":\n  " ++ code ++ "\n" ++ msg) ∨
        TimeFault file m ∨ WholeFault E l m) := by
  obtain ⟨m', h1, h2 | ⟨l, h2, (h3 | h3) | h3⟩⟩ := fromStrM_error h <;> cases h1
  · exact .inl h2
  · exact .inr ⟨l, h2, .inl h3⟩
  · exact .inr ⟨l, h2, .inr (.inl h3)⟩
  · exact .inr ⟨l, h2, .inr (.inr h3)⟩

/-- **C96.** Every file is accepted or gets a message. -/
theorem C96_total (T : ErrTexts) (E : Env) (file : String) :
    (∃ c, Config.fromStrM T E file = .ok c) ∨ ∃ m, Config.fromStrM T E file = .error (some m) := by
  cases h : Config.fromStrM T E file with
  | ok c => exact .inl ⟨c, rfl⟩
  | error e =>
    obtain ⟨m, rfl, _⟩ := fromStrM_error h
    exact .inr ⟨m, rfl⟩

/-- **C96.** A valid file gets no message, and its configuration is what it says. -/
theorem C96_accepts {T : ErrTexts} {E : Env} {file : String} {l : List TopLevel} (hl : parseConfigText file = some l)
    (hv : ConfigValid E l) : ∃ c, Config.fromStrM T E file = .ok c ∧ ConfigSays l c := by
  obtain ⟨c, hc⟩ := (C56 E file).mpr ⟨l, hl, hv⟩
  obtain ⟨l', h1, h2⟩ := C56_says hc
  rw [hl] at h1
  cases h1
  exact ⟨c, fromStrM_ok.mpr hc, h2⟩

/-- **C96.** A file which is not valid gets a message. -/
theorem C96_rejects {T : ErrTexts} {E : Env} {file : String} (hn : ¬ ∃ l, parseConfigText file = some l ∧ ConfigValid E l) :
    ∃ m, Config.fromStrM T E file = .error (some m) := by
  rcases C96_total T E file with ⟨c, hc⟩ | h
  · exact absurd ((C56 E file).mp ⟨c, fromStrM_ok.mp hc⟩) hn
  · exact h

namespace Demo

/-- The same as `Config.fromStrM`, which the kernel evaluates quicker: it need not decode the text. -/
theorem fromStrM_chars (T : ErrTexts) (E : Env) (cs : List Char) : Config.fromStrM T E (String.ofList cs) =
    (match parsePTops (plexLoop cs.length 0 cs).length (plexLoop cs.length 0 cs) with
      | none => .error (some (T.syn (String.ofList cs)))
      | some opts => Config.fromAstM T E cs opts) := by
  simp only [Config.fromStrM, plex, String.toList_ofList]
  rfl

def texts : ErrTexts := ⟨fun _ => "relative URL without a base", fun _ => "syntax error"⟩

end Demo

open Demo in
set_option maxRecDepth 20000 in
/-- **C96 fails** for times: the message doesn't say where the time is. -/
theorem C96_not : ∃ file m, Config.fromStrM texts envT file = .error (some m) ∧
    ¬ ∃ line col code msg, m = "Line " ++ toString (line : Nat) ++ ", column " ++ toString (col : Nat) ++ ":\n  " ++ code ++ "\n" ++ msg := by
  refine ⟨"refresh_retry = 99999999999999999999s;", "Invalid time: number too large to fit in target type",
    (fromStrM_chars texts envT _).trans (by decide +kernel), ?_⟩
  rintro ⟨line, col, code, msg, h⟩
  have := congrArg (fun s => s.toList.head?) h
  simp [String.toList_append] at this

open Demo in
set_option maxRecDepth 20000 in
/-- A field for the second time, in the third line. -/
example : Config.fromStrM texts envT
    "account \"x\" {\n  client_id = \"a\";\n  client_id =  \"b\"; // again\n}" =
      .error (some "Line 3, column 16:\n  client_id =  \"b\"; // again\nMustn't specify 'client_id' more than once") :=
  (fromStrM_chars texts envT _).trans (by decide +kernel)

open Demo in
set_option maxRecDepth 20000 in
example : Config.fromStrM texts envT "\n account \"x\" {\n  client_id = \"a\"; auth_uri = \"http://a.com\";}" =
    .error (some "Line 2, column 2:\n  account \"x\" {\ntoken_uri not specified") :=
  (fromStrM_chars texts envT _).trans (by decide +kernel)

open Demo in
set_option maxRecDepth 20000 in
example : Config.fromStrM texts envT "account \"x\" { auth_uri = \"blah\"; }" =
    .error (some "Line 1, column 26:\n  account \"x\" { auth_uri = \"blah\"; }\nInvalid URI: relative URL without a base") :=
  (fromStrM_chars texts envT _).trans (by decide +kernel)

open Demo in
example : Config.fromStrM texts envT "http_listen = none; https_listen = none;" =
    .error (some "Cannot set both http_listen and https_listen to 'none'") :=
  (fromStrM_chars texts envT _).trans (by decide +kernel)

open Demo in
set_option maxRecDepth 20000 in
example : Config.fromStrM texts envT fileT = .ok confT := (fromStrM_chars texts envT _).trans (by decide +kernel)

end Pizauth
