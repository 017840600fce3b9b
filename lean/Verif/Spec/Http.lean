import Verif.Model.Prelude

/-!
# Specification: HTTP requests

The requests which the HTTP servers understand, cf. RFC 2616, sections 4 and 5: a request line, headers (which may be
continued on lines that start with a space or a tab), an empty line.
-/

namespace Pizauth

/-- Unicode white space (the characters with the property White_Space). -/
def White (c : Char) : Prop :=
  c.toNat ∈ [9, 10, 11, 12, 13, 0x20, 0x85, 0xA0, 0x1680, 0x2000, 0x2001, 0x2002, 0x2003, 0x2004, 0x2005, 0x2006,
    0x2007, 0x2008, 0x2009, 0x200A, 0x2028, 0x2029, 0x202F, 0x205F, 0x3000]

/-- The bytes `b` are the line `l` (with its newline, which only the last line may lack), followed by `r`. -/
structure FirstLine (b : Bytes) (l : List Char) (r : Bytes) : Prop where
  bytes : b = utf8 (String.ofList l) ++ r
  single : '\n' ∉ l.dropLast
  ended : l.getLast? = some '\n' ∨ r = []

/-- The bytes `b` are the lines `ls`, followed by `r`. -/
inductive FirstLines : Bytes → List (List Char) → Bytes → Prop where
  | nil (b : Bytes) : FirstLines b [] b
  | cons {b b' r : Bytes} {l : List Char} {ls : List (List Char)} : FirstLine b l b' → FirstLines b' ls r →
      FirstLines b (l :: ls) r

/-- `t` is `l` without the white space at its end. -/
def Trimmed (l t : List Char) : Prop :=
  (∃ ws, l = t ++ ws ∧ ∀ c ∈ ws, White c) ∧ ∀ c, t.getLast? = some c → ¬ White c

/-- A line which starts with a space or a tab. -/
def Indented (l : List Char) : Prop := ∃ c r, l = c :: r ∧ (c = ' ' ∨ c = '\t')

/-- A header: its first line, and the lines which continue it. -/
structure Header where
  line : List Char
  conts : List (List Char)

/-- All its lines. -/
def Header.lines (h : Header) : List (List Char) := h.line :: h.conts

structure Header.WF (h : Header) : Prop where
  line : ¬ Indented h.line
  conts : ∀ l ∈ h.conts, Indented l
  visible : ∀ l ∈ h.lines, ∃ c ∈ l, ¬ White c

/-- `t` is the lines `ls` joined, each without the white space at its end. -/
inductive Joined : List (List Char) → List Char → Prop where
  | nil : Joined [] []
  | cons {l t u : List Char} {ls : List (List Char)} : Trimmed l t → Joined ls u → Joined (l :: ls) (t ++ u)

/-- The text of a header. -/
def Header.Text (h : Header) (t : List Char) : Prop := Joined h.lines t

/-- The name `host`, in capital or small letters. -/
def NamesHost (n : List Char) : Prop :=
  ∃ a b c d, n = [a, b, c, d] ∧ (a = 'h' ∨ a = 'H') ∧ (b = 'o' ∨ b = 'O') ∧ (c = 's' ∨ c = 'S') ∧ (d = 't' ∨ d = 'T')

/-- A header with the text `t` is a `host` field with the value `v`. -/
def HostField (t v : List Char) : Prop :=
  ∃ name ws, t = name ++ ':' :: (ws ++ v) ∧ ':' ∉ name ∧ NamesHost name ∧ (∀ c ∈ ws, c = ' ' ∨ c = '\t') ∧ ¬ Indented v

/-- The size of lines in bytes. -/
def linesSize (ls : List (List Char)) : Nat := (ls.map fun l => (utf8 (String.ofList l)).length).sum

/-- The bytes `b` start with a `GET` request for `path` with the header `host: <host>`. -/
def GetRequest (b : Bytes) (path host : List Char) : Prop :=
  ∃ (version : List Char) (pre post : List Header) (hd : Header) (blank : List Char) (b1 b2 rest : Bytes),
    FirstLine b ("GET ".toList ++ path ++ ' ' :: version) b1 ∧ ' ' ∉ path ∧ ' ' ∉ version ∧
    FirstLines b1 ((pre ++ hd :: post).flatMap Header.lines) b2 ∧ (∀ h ∈ pre ++ hd :: post, h.WF) ∧
    FirstLine b2 blank rest ∧ (∀ c ∈ blank, White c) ∧
    linesSize (("GET ".toList ++ path ++ ' ' :: version) :: (pre ++ hd :: post).flatMap Header.lines) < 16384 ∧
    (∃ t, hd.Text t ∧ HostField t host) ∧ ∀ h ∈ pre ++ post, ∀ t v, h.Text t → ¬ HostField t v

end Pizauth
