import Verif.Proof.Ipv6
import Verif.Props.UrlStd

/-!
# C116: IPv6 addresses in URLs
-/

namespace Pizauth
open Ip UrlStd

/-- **C116.** Between brackets, exactly the texts of RFC 4291 are accepted, and mean what they say. -/
theorem C116 (t : List Char) (a : List Nat) : Ipv6.parse t = some a ↔ Text t a := Ipv6.parse_iff

/-- **C116.** A text is the text of one address only. -/
theorem C116_unique {t : List Char} {a b : List Nat} (h : Text t a) (h' : Text t b) : a = b := by
  have h1 := Ipv6.parse_iff.mpr h
  have h2 := Ipv6.parse_iff.mpr h'
  rw [h1] at h2
  exact Option.some.inj h2

/-- **C116.** An address is written as RFC 5952 recommends; there is one such text only, and it is one of the texts of the
address. -/
theorem C116_text (a : List Nat) (t : List Char) : (Ipv6.text a = t ↔ Recommended a t) ∧
    (a.length = 8 → (∀ n ∈ a, n < 65536) → Recommended a t → Text t a) := by
  have h : Ipv6.text a = t ↔ Recommended a t :=
    ⟨fun h => h ▸ Ipv6.text_recommended a, fun h => Ipv6.recommended_unique (Ipv6.text_recommended a) h⟩
  exact ⟨h, fun h1 h2 h3 => h.mpr h3 ▸ Ipv6.text_text h1 h2⟩

/-- **C116.** Two texts are the same host exactly if they are texts of the same address. -/
theorem C116_same {t t' : List Char} {a b : List Nat} (h : Text t a) (h' : Text t' b) :
    (∃ c, Ipv6.canonical t = some c ∧ Ipv6.canonical t' = some c) ↔ a = b := by
  have h1 := Ipv6.parse_iff.mpr h
  have h2 := Ipv6.parse_iff.mpr h'
  unfold Ipv6.canonical
  rw [h1, h2]
  constructor
  · rintro ⟨c, hc, hc'⟩
    obtain ⟨l1, l2⟩ := Ipv6.text_lt h
    obtain ⟨l3, l4⟩ := Ipv6.text_lt h'
    have h3 := Ipv6.text_text l1 l2
    have h4 := Ipv6.text_text l3 l4
    rw [Option.some.inj hc] at h3
    rw [Option.some.inj hc'] at h4
    exact C116_unique h3 h4
  · rintro rfl
    exact ⟨_, rfl, rfl⟩

/-- **C116.** A host in brackets is accepted exactly if there is an address between them, and written in its recommended text. -/
theorem C116_host {L : UrlStd.Lib} (h6 : L.ipv6 = Ipv6.canonical) (t h : List Char) :
    UrlStd.host L ('[' :: t ++ [']']) = some h ↔ ∃ a c, Text t a ∧ Recommended a c ∧ h = '[' :: c ++ [']'] := by
  have h0 : UrlStd.host L ('[' :: t ++ [']']) = (Ipv6.canonical t).map fun a => '[' :: a ++ [']'] := by
    show (if (t ++ [']']).getLast? = some ']' then (L.ipv6 (t ++ [']']).dropLast).map fun a => '[' :: a ++ [']'] else none) = _
    rw [if_pos (by simp), List.dropLast_concat, h6]
  rw [h0]
  constructor
  · intro h1
    obtain ⟨c, hc, rfl⟩ := Option.map_eq_some_iff.mp h1
    obtain ⟨a, ha, rfl⟩ := Option.map_eq_some_iff.mp hc
    exact ⟨a, _, Ipv6.parse_iff.mp ha, Ipv6.text_recommended a, rfl⟩
  · rintro ⟨a, c, h1, h2, rfl⟩
    rw [← (C116_text a c).1.mpr h2]
    unfold Ipv6.canonical
    rw [Ipv6.parse_iff.mpr h1]
    rfl

/-- **C116.** So with this only the treatment of international domains is left open in C108: its hypothesis holds if that
gives ASCII domains in lower case, and leaves them as they are. -/
theorem C116_canonical {L : UrlStd.Lib} (h6 : L.ipv6 = Ipv6.canonical)
    (h1 : ∀ l d, L.toAscii l = some d → ∀ c ∈ d, c.toNat < 128)
    (h2 : ∀ l d, L.toAscii l = some d → if UrlStd.plain d then d.map Char.toLower = d else L.toAscii d = some d) :
    L.Canonical where
  ascii := h1
  again := h2
  ipv6 := fun l a h => by
    rw [h6] at h ⊢
    exact Ipv6.canonical_canonical h

/-- The examples of RFC 4291, section 2.2, and RFC 5952, sections 1, 2 and 4. -/
example :
    (["2001:DB8:0:0:8:800:200C:417A", "FF01:0:0:0:0:0:0:101", "0:0:0:0:0:0:0:1", "::", "0:0:0:0:0:0:13.1.68.3",
      "::FFFF:129.144.52.38", "2001:db8::0:1", "2001:db8:0:0:0:0:2:1", "2001:db8::1:1:1:1:1", "2001:0:0:1:0:0:0:1",
      "2001:db8:0:0:1:0:0:1", "1:2:3:4:5:6:7::", "::2:3:4:5:6:7:8", "1::"].map
      fun t => (Ipv6.canonical t.toList).map String.ofList) =
    ["2001:db8::8:800:200c:417a", "ff01::101", "::1", "::", "::d01:4403",
      "::ffff:8190:3426", "2001:db8::1", "2001:db8::2:1", "2001:db8:0:1:1:1:1:1", "2001:0:0:1::1",
      "2001:db8::1:0:0:1", "1:2:3:4:5:6:7:0", "0:2:3:4:5:6:7:8", "1::"].map some := by decide +kernel

/-- And texts which are none. -/
example :
    (["", ":", "1", ":1::", "1::2::3", "1:2:3:4:5:6:7", "1:2:3:4:5:6:7:8:9", "1:2:3:4:5:6:7:8::", "::1:2:3:4:5:6:7:8", "12345::",
      "g::", "1:", "::1:", "::1.2.3", "::1.2.3.256", "::1.2.3.04", "::1.2.3.4.5", "::1.2.3.4:5", "1:2:3:4:5:6:7:1.2.3.4", "::.2.3.4",
      "::1%eth0", ":::"].map fun t => Ipv6.canonical t.toList) = List.replicate 22 none := by decide +kernel

/-- C116: the relation is not empty: `::1` by the specification. -/
example : Text "::1".toList [0, 0, 0, 0, 0, 0, 0, 1] :=
  ⟨rfl, .inr ⟨[], "1".toList, [], [1], 7, rfl, rfl, by decide, .inl ⟨rfl, rfl⟩,
    .inr (.inl (.one ⟨.cons (d := 1) (n := 0) (.inl rfl) .nil, by decide, by decide⟩))⟩⟩

/-- C116: in URLs. -/
example : (["http://[0:0::1]:99?x", "https://[1:2:3:4:5:6:1.2.3.4]/"].map fun t => (Demo.envUrl.parseUrl t).map Demo.envUrl.renderUrl) =
    [some "http://[::1]:99/?x", some "https://[1:2:3:4:5:6:102:304]/"] ∧ Demo.envUrl.parseUrl "http://[1]/" = none := by
  decide +kernel

end Pizauth
