import Verif.Proof.Ipv4
import Verif.Props.Ipv6

/-!
# C117: IPv4 addresses in URLs
-/

namespace Pizauth
open Ip UrlStd

/-- **C117.** The host of a URL which is an IPv4 address, in whatever notation, is accepted, and written as four decimal
numbers with dots between them. -/
theorem C117 (L : UrlStd.Lib) {t : List Char} {n : Nat} (h : V4 t n) :
    ∃ u a b c d, UrlStd.host L t = some u ∧ Dotted u a b c d ∧ n = a * 16777216 + b * 65536 + c * 256 + d := by
  have hn := Ipv4.numeric_iff.mpr (Ipv4.v4_numeric h)
  refine ⟨_, _, _, _, _, ?_, Ipv4.dotted_text n (Ipv4.v4_lt h), by omega⟩
  rw [Ipv4.host_ascii L (Ipv4.v4_ascii h), if_pos hn, Ipv4.ipv4_iff.mpr h]
  rfl

/-- **C117.** Every other domain which ends in a number is rejected; of those which do not, capital letters are
replaced. -/
theorem C117_domain (L : UrlStd.Lib) {t : List Char} (h : AsciiDomain t) (h4 : ¬ ∃ n, V4 t n) :
    (Numeric t → UrlStd.host L t = none) ∧ (¬ Numeric t → UrlStd.host L t = some (t.map Char.toLower)) := by
  rw [Ipv4.host_ascii L h]
  constructor
  · intro hn
    rw [if_pos (Ipv4.numeric_iff.mpr hn)]
    cases hi : ipv4 t with
    | none => rfl
    | some n => exact (h4 ⟨n, Ipv4.ipv4_iff.mp hi⟩).elim
  · intro hn
    rw [if_neg fun e => hn (Ipv4.numeric_iff.mp e)]

/-- **C117.** A text is the text of one address only, and all addresses end in a number. -/
theorem C117_unique {t : List Char} {n m : Nat} (h : V4 t n) (h' : V4 t m) : n = m ∧ n < 4294967296 ∧ Numeric t ∧ AsciiDomain t := by
  have h1 := Ipv4.ipv4_iff.mpr h
  rw [Ipv4.ipv4_iff.mpr h'] at h1
  exact ⟨(Option.some.inj h1).symm, Ipv4.v4_lt h, Ipv4.v4_numeric h, Ipv4.v4_ascii h⟩

/-- **C117.** Two texts are the same host exactly if they are texts of the same address. -/
theorem C117_same (L : UrlStd.Lib) {t t' : List Char} {n m : Nat} (h : V4 t n) (h' : V4 t' m) :
    UrlStd.host L t = UrlStd.host L t' ↔ n = m := by
  rw [Ipv4.host_ascii L (Ipv4.v4_ascii h), Ipv4.host_ascii L (Ipv4.v4_ascii h'),
    if_pos (Ipv4.numeric_iff.mpr (Ipv4.v4_numeric h)), if_pos (Ipv4.numeric_iff.mpr (Ipv4.v4_numeric h')),
    Ipv4.ipv4_iff.mpr h, Ipv4.ipv4_iff.mpr h']
  constructor
  · intro e
    have h1 := (ipv4_text (n := n) (Ipv4.v4_lt h)).1
    have h2 := (ipv4_text (n := m) (Ipv4.v4_lt h')).1
    rw [Option.some.inj e, h2] at h1
    exact (Option.some.inj h1).symm
  · rintro rfl; rfl

/-- **C117.** Whatever the host of a URL looks like (percent encoding, international domains), the host which is written
ends in a number only if it is an IPv4 address in four decimal numbers. -/
theorem C117_written {L : UrlStd.Lib} {t h : List Char} (hb : t.head? ≠ some '[') (hh : UrlStd.host L t = some h)
    (hn : Numeric h) : ∃ a b c d, Dotted h a b c d := by
  unfold UrlStd.host at hh
  split at hh
  · cases hh
  · exact (hb rfl).elim
  · split at hh
    · cases hh
    · rename_i d _
      split at hh
      · obtain ⟨n, hi, rfl⟩ := Option.map_eq_some_iff.mp hh
        exact ⟨_, _, _, _, Ipv4.dotted_text n (Ipv4.v4_lt (Ipv4.ipv4_iff.mp hi))⟩
      · rename_i hne
        cases hh
        exact (hne (Ipv4.numeric_iff.mpr hn)).elim

/-- C117: notations of one address. -/
example : (["127.0.0.1", "127.1", "0177.0.0.01", "0x7f.0.1", "2130706433", "0X7F000001", "127.0.0.1."].map fun t =>
    UrlStd.host Demo.lib t.toList) = List.replicate 7 (some "127.0.0.1".toList) := by decide +kernel

/-- C117: by the specification. -/
example : V4 "0x7F.1.".toList 2130706433 :=
  ⟨"0x7F.1".toList, [127, 1], .inr rfl,
    .cons (t := "0x7F".toList) (.hex (.inl rfl) (.cons (d := 7) (t := ['F']) (.inl rfl) (by decide)
      (.cons (d := 15) (n := 0) (.inr rfl) (by decide) .nil)))
      (.one (.decimal (by decide) (.cons (d := 1) (n := 0) (.inl rfl) (by decide) .nil))), .two (by decide) (by decide)⟩

/-- C117: what is rejected, and what is not an address. -/
example : (["256.1.1.1", "1.2.3.4.5", "4294967296", "1..2", "a.09", "a.1", "1.2.3.08", "0x1g", "A.1.b", "1.2.3.4..", "a-1", "a.0x"].map fun t =>
    UrlStd.host Demo.lib t.toList) =
    [none, none, none, none, none, none, none, some "0x1g".toList, some "a.1.b".toList, some "1.2.3.4..".toList, some "a-1".toList, none] := by
  decide +kernel

/-- C117: `a.09` has to be an address, and is none. -/
example : Numeric "a.09".toList ∧ AsciiDomain "A.1.b".toList ∧ ¬ Numeric "A.1.b".toList :=
  ⟨⟨"a.".toList, "09".toList, .inr (by decide), .inl (by decide), by decide, .inl (by decide)⟩,
   ⟨by decide, by decide, by
      intro l r _ h he
      have : '-' ∈ r.map Char.toLower := List.mem_of_mem_take (i := 4) (by rw [he]; decide)
      obtain ⟨c, hc, e⟩ := List.mem_map.mp this
      have hm : c ∈ "A.1.b".toList := by rw [h]; exact List.mem_append_right _ hc
      have : ∀ c ∈ "A.1.b".toList, c.toLower ≠ '-' := by decide
      exact this c hm e⟩,
   fun h => by have := Ipv4.numeric_iff.mpr h; revert this; decide +kernel⟩

/-- C117: in URLs. -/
example : (["http://0x7f.1:8080/x", "https://1.65535?y"].map fun t => (Demo.envUrl.parseUrl t).map Demo.envUrl.renderUrl) =
    [some "http://127.0.0.1:8080/x", some "https://1.0.255.255/?y"] ∧ Demo.envUrl.parseUrl "http://example.1/" = none := by
  decide +kernel

end Pizauth
