import Verif.Proof.Query
import Verif.Props.Form

/-!
# C100: Every query is read, in exactly one way

Browsers can be made to send any query to the HTTP server, not only forms. `FormSpec.Query` says what is to be made of
each of them: empty pieces are skipped, names end at the first `=`, `%` without two digits stays, and what is not UTF-8
becomes U+FFFD. Therefore a query which is found to have the `state` of a pending authorisation does have it.
-/

namespace Pizauth
open FormSpec

variable {E : Env}

/-- **C100.** The pairs of a query are those of the specification. -/
theorem C100 (t : Bytes) (ps : List (String × String)) : Form.queryPairs (some t) = ps ↔ Query t ps := Form.query_iff.symm

/-- **C100.** The specification is neither contradictory nor silent. -/
theorem C100_unique (t : Bytes) : ∃ ps, Query t ps ∧ ∀ qs, Query t qs → qs = ps :=
  ⟨_, (C100 t _).mp rfl, fun _ h => ((C100 t _).mpr h).symm⟩

/-- **C100.** A name and a value without U+FFFD have been sent, exactly, between two `&` (or at an end of the query). -/
theorem C100_exact {t : Bytes} {n v : String} (hm : (n, v) ∈ Form.queryPairs (some t)) (hn : '�' ∉ n.toList)
    (hv : '�' ∉ v.toList) :
    ∃ a p b, t = a ++ p ++ b ∧ (a = [] ∨ ∃ a', a = a' ++ [38]) ∧ (b = [] ∨ ∃ b', b = 38 :: b') ∧ 38 ∉ p ∧
      ((∃ tn tv, p = tn ++ 61 :: tv ∧ 61 ∉ tn ∧ Unescaped tn (utf8 n) ∧ Unescaped tv (utf8 v)) ∨
        (61 ∉ p ∧ Unescaped p (utf8 n) ∧ v = "")) := by
  obtain ⟨a, p, b, h1, h2, h3, h4, h5⟩ := Form.query_sent ((C100 t _).mp rfl) hm
  refine ⟨a, p, b, h1, h4, h5, h3, ?_⟩
  cases h2 with
  | both k1 k2 k3 => exact .inl ⟨_, _, rfl, k1, Form.reads_exact k2 hn, Form.reads_exact k3 hv⟩
  | name k1 k2 => exact .inr ⟨k1, Form.reads_exact k2 hn, rfl⟩

/-- **C100.** If a request names a pending authorisation, then `state=` and its state have been sent, with or without
escapes. -/
theorem C100_state {w : World} {buf : Bytes} {sec : Bool} {n : String} {p : PendingTok} {uri : Url} {t : Bytes}
    (hr : Reach E w) (h : Names E w.ls buf sec n p uri) (hq : uri.query = Form.queryPairs (some t)) :
    ∃ a tn tv b, t = a ++ tn ++ 61 :: tv ++ b ∧ (a = [] ∨ ∃ a', a = a' ++ [38]) ∧ (b = [] ∨ ∃ b', b = 38 :: b') ∧
      38 ∉ tn ∧ 61 ∉ tn ∧ 38 ∉ tv ∧ Unescaped tn (utf8 "state") ∧ Unescaped tv (utf8 p.state) := by
  obtain ⟨_, hs, hp⟩ := h
  have h52 := C52 hr hp
  have hv : '�' ∉ p.state.toList := by
    intro hc
    have := h52.2.2.2.2.1 _ hc
    revert this
    decide
  have hm : ("state", p.state) ∈ Form.queryPairs (some t) := by
    rw [← hq]
    exact mem_of_lookup hs
  obtain ⟨a, q, b, h1, h2, h3, h4, h5⟩ := C100_exact hm (by decide) hv
  rcases h5 with ⟨tn, tv, rfl, k1, k2, k3⟩ | ⟨_, _, k3⟩
  · simp only [List.mem_append, List.mem_cons, not_or] at h4
    exact ⟨a, tn, tv, b, by rw [h1]; simp, h2, h3, h4.1, k1, h4.2.2, k2, k3⟩
  · have := h52.2.2.1
    rw [k3] at this
    exact absurd this (by decide)

/-! What is not a form. -/

example : Query (utf8 "&a%FFb=%E2%82&%zz&&x=1=2") [("a�b", "�"), ("%zz", ""), ("x", "1=2")] :=
  (C100 _ _).mp (by decide +kernel)

/-- An encoded surrogate is three errors, an unfinished character is one. -/
example : Query (utf8 "a=%ED%A0%80&b=%F0%9F%98&c=%C0%AF") [("a", "���"), ("b", "�"), ("c", "��")] :=
  (C100 _ _).mp (by decide +kernel)

/-- The callback of the demonstration names a pending authorisation. -/
example : ∃ p uri, Names Demo.env (Demo.after Demo.sAsk).ls Demo.callback false "a" p uri ∧
    uri.query = Form.queryPairs (some (utf8 "code=c&state=AAAAAAAAAAA")) :=
  ⟨_, ⟨"http", some "localhost", some 8080, "/", [("code", "c"), ("state", "AAAAAAAAAAA")]⟩,
    ⟨by decide +kernel, by decide +kernel, ⟨_, List.mem_cons_self, rfl, rfl⟩⟩, by decide +kernel⟩

/-- There are queries with a state, escaped or not. -/
example : Form.queryPairs (some (utf8 "st%61te=s&state=t")) = [("state", "s"), ("state", "t")] := by decide +kernel

end Pizauth
