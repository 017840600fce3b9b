import Verif.Proof.Utf8
import Verif.Props.Demo

/-!
# C50: the size of HTTP requests
-/

namespace Pizauth

variable {E : Env}

/-- A line of white space. -/
def BlankLine (b : Bytes) : Prop :=
  (∃ s, fromUtf8 b = some s ∧ ∀ c ∈ s.toList, isRustWs c = true) ∧ 10 ∉ b.dropLast

theorem splitLine_append : ∀ b : Bytes, (splitLine b).1 ++ (splitLine b).2 = b
  | [] => rfl
  | x :: r => by
    unfold splitLine
    split
    · rfl
    · simp [splitLine_append r]

theorem splitLine_noNl : ∀ b : Bytes, 10 ∉ (splitLine b).1.dropLast
  | [] => by simp [splitLine]
  | x :: r => by
    unfold splitLine
    split
    · simp
    · rename_i hx
      have ih := splitLine_noNl r
      cases h : (splitLine r).1 with
      | nil => simp
      | cons y l =>
        rw [h] at ih
        simp only [List.dropLast_cons_of_ne_nil (l := y :: l) (by simp), List.mem_cons, not_or]
        exact ⟨fun he => hx he.symm, ih⟩

/-- The first line is the same if the rest is cut short. -/
theorem splitLine_cut : ∀ {b x y : Bytes}, (splitLine b).2 = x ++ y → splitLine ((splitLine b).1 ++ x) = ((splitLine b).1, x)
  | [], x, y, h => by
    simp only [splitLine] at h
    obtain ⟨rfl, _⟩ := List.append_eq_nil_iff.mp h.symm
    rfl
  | c :: r, x, y, h => by
    unfold splitLine at h ⊢
    by_cases hc : c = 10
    · subst hc; rfl
    · simp only [hc, if_false] at h ⊢
      have := splitLine_cut (b := r) h
      simp only [List.cons_append, splitLine, hc, if_false, this]

theorem readLine_cut {b x y : Bytes} {l : List Char} {r : Bytes} (h : readLine b = some (l, r)) (hr : r = x ++ y) :
    readLine ((splitLine b).1 ++ x) = some (l, x) := by
  unfold readLine at h ⊢
  obtain ⟨s, hs, he⟩ := Option.map_eq_some_iff.mp h
  cases he
  rw [splitLine_cut hr]
  simp only [hs, Option.map_some]

theorem readLine_rest {b : Bytes} {l : List Char} {r : Bytes} (h : readLine b = some (l, r)) : r = (splitLine b).2 := by
  unfold readLine at h
  obtain ⟨s, hs, he⟩ := Option.map_eq_some_iff.mp h
  cases he; rfl

theorem readLine_nil : readLine [] = some ([], []) := by
  unfold readLine
  simp only [splitLine]
  rw [show ([] : Bytes) = utf8 "" from utf8_empty.symm, fromUtf8_utf8]
  rfl

theorem splitLine_pos {b : Bytes} {l : List Char} {r : Bytes} (h : readLine b = some (l, r)) (hb : isBlank l = false) :
    0 < (splitLine b).1.length := by
  cases hs : (splitLine b).1 with
  | cons _ _ => simp
  | nil =>
    exfalso
    have : b = [] := by
      cases b with
      | nil => rfl
      | cons c r =>
        unfold splitLine at hs
        split at hs <;> simp at hs
    subst this
    rw [readLine_nil] at h
    cases h
    cases hb

/-- The header loop looks only at lines which, together with the request line, are smaller than the limit. -/
theorem headerLoopN_size : ∀ (fuel : Nat) {b : Bytes} {size : Nat} {req r : List (List Char)} {rest : Bytes},
    headerLoopN fuel b size req = some (r, rest) →
    ∃ hd bl, b = hd ++ bl ++ rest ∧ size + hd.length < 16384 ∧ BlankLine bl ∧
      ∀ fuel', hd.length < fuel' → headerLoopN fuel' hd size req = some (r, [])
  | 0, _, _, _, _, _, h => by cases h
  | fuel + 1, b, size, req, r, rest, h => by
    unfold headerLoopN at h
    split at h
    · cases h
    · rename_i hsize
      have hlt : size < 16384 := by unfold maxHttpRequestSize at hsize; omega
      split at h
      · cases h
      · rename_i line b' hl
        have hb' := readLine_rest hl
        split at h
        · rename_i hblank
          cases h
          refine ⟨[], (splitLine b).1, ?_, by simpa using hlt, ⟨?_, splitLine_noNl b⟩, ?_⟩
          · rw [hb']; simp [splitLine_append]
          · unfold readLine at hl
            obtain ⟨s, hs, he⟩ := Option.map_eq_some_iff.mp hl
            cases he
            exact ⟨s, hs, by simpa [isBlank] using hblank⟩
          · intro fuel' hf
            cases fuel' with
            | zero => omega
            | succ f =>
              unfold headerLoopN
              rw [if_neg hsize, readLine_nil]
              rfl
        · rename_i hblank
          have hpos := splitLine_pos hl (by simpa using hblank)
          have key : ∀ req', headerLoopN fuel b' (size + (splitLine b).1.length) req' = some (r, rest) →
              (∀ f hd, (splitLine b).2 = hd ++ (b'.drop hd.length) →
                headerLoopN (f + 1) ((splitLine b).1 ++ hd) size req =
                headerLoopN f hd (size + (splitLine b).1.length) req') →
              ∃ hd bl, b = hd ++ bl ++ rest ∧ size + hd.length < 16384 ∧ BlankLine bl ∧
                ∀ fuel', hd.length < fuel' → headerLoopN fuel' hd size req = some (r, []) := by
            intro req' h1 h2
            obtain ⟨hd, bl, e1, e2, e3, e4⟩ := headerLoopN_size fuel h1
            refine ⟨(splitLine b).1 ++ hd, bl, ?_, ?_, e3, ?_⟩
            · have := splitLine_append b
              rw [← hb', e1] at this
              simpa [List.append_assoc] using this.symm
            · rw [List.length_append]; omega
            · intro fuel' hf
              rw [List.length_append] at hf
              cases fuel' with
              | zero => omega
              | succ f =>
                rw [h2 f hd (by rw [← hb', e1]; simp)]
                exact e4 f (by omega)
          have step : ∀ (_ : Nat) (hd : Bytes), (splitLine b).2 = hd ++ (b'.drop hd.length) →
              readLine ((splitLine b).1 ++ hd) = some (line, hd) ∧ (splitLine ((splitLine b).1 ++ hd)).1 = (splitLine b).1 := by
            intro f hd he
            exact ⟨readLine_cut hl (hb'.trans he), by rw [splitLine_cut he]⟩
          split at h
          · split at h
            · cases h
            · rename_i req' hreq
              refine key req' h fun f hd he => ?_
              obtain ⟨s1, s2⟩ := step f hd he
              rw [headerLoopN, if_neg hsize, s1]
              simp only [hblank, s2, hreq, if_false, Bool.false_eq_true]
          · split at h
            · cases h
            · rename_i req' hreq
              refine key req' h fun f hd he => ?_
              obtain ⟨s1, s2⟩ := step f hd he
              rw [headerLoopN, if_neg hsize, s1]
              simp only [hblank, s2, hreq, if_false, Bool.false_eq_true]
          · rename_i hsp htab
            refine key _ h fun f hd he => ?_
            obtain ⟨s1, s2⟩ := step f hd he
            rw [headerLoopN, if_neg hsize, s1]
            simp only [hblank, s2, if_false, Bool.false_eq_true]

/-- **C50.** The request line and the headers of a request which is accepted are together smaller than 16 KiB, and they
are all that matters. (Missing: they are ended by a line of white space, of which the length is not bounded, see
`C50_not`.) -/
theorem C50_partial {b : Bytes} {sec : Bool} {uri : Url} (h : parseGet E b sec = some uri) :
    ∃ hd bl rest, b = hd ++ bl ++ rest ∧ hd.length < 16384 ∧ BlankLine bl ∧ parseGet E hd sec = some uri := by
  unfold parseGet at h
  split at h
  · cases h
  · rename_i line b' hl
    have hb' := readLine_rest hl
    split at h
    · cases h
    · rename_i path hp
      split at h
      · cases h
      · rename_i req rest hloop
        obtain ⟨hd, bl, e1, e2, e3, e4⟩ := headerLoopN_size _ hloop
        refine ⟨(splitLine b).1 ++ hd, bl, rest, ?_, by rw [List.length_append]; omega, e3, ?_⟩
        · have := splitLine_append b
          rw [← hb', e1] at this
          simpa [List.append_assoc] using this.symm
        · have he : (splitLine b).2 = hd ++ (bl ++ rest) := by rw [← hb', e1, List.append_assoc]
          unfold parseGet
          rw [readLine_cut hl (hb'.trans he)]
          simp only [hp, splitLine_cut he]
          unfold headerLoop
          rw [e4 _ (by omega)]
          exact h

/-! ## Examples -/

open Demo

example : parseGet env callback false =
    some ⟨"http", some "localhost", some 8080, "/", [("code", "c"), ("state", "AAAAAAAAAAA")]⟩ := by decide +kernel

theorem utf8_spaces (n : Nat) : utf8 (String.ofList (List.replicate n ' ')) = List.replicate n 32 := by
  induction n with
  | zero => exact utf8_empty
  | succ n ih =>
    have h : String.ofList (List.replicate (n + 1) ' ') = " " ++ String.ofList (List.replicate n ' ') := by
      apply String.toList_injective; simp [List.replicate_succ]
    rw [h, utf8_append, ih, List.replicate_succ]
    rfl

theorem splitLine_spaces : ∀ n, splitLine (List.replicate n 32) = (List.replicate n 32, [])
  | 0 => rfl
  | n + 1 => by simp [List.replicate_succ, splitLine, splitLine_spaces n]

/-- C50 is false as stated: a request which is accepted can be arbitrarily large. -/
theorem C50_not : ∀ n, ∃ b uri, n ≤ b.length ∧ parseGet env b false = some uri := by
  intro n
  refine ⟨utf8 "GET /?code=c HTTP/1.1\r\nHost: localhost:8080\r\n" ++ List.replicate n 32,
    ⟨"http", some "localhost", some 8080, "/", [("code", "c")]⟩, by simp, ?_⟩
  have h1 : utf8 "GET /?code=c HTTP/1.1\r\nHost: localhost:8080\r\n" =
      utf8 "GET /?code=c HTTP/1.1\r\n" ++ utf8 "Host: localhost:8080\r\n" := by rw [← utf8_append]; rfl
  have cut : ∀ (l rest : Bytes), 10 ∉ l → splitLine (l ++ 10 :: rest) = (l ++ [10], rest) := by
    intro l
    induction l with
    | nil => intro rest _; rfl
    | cons x l ih =>
      intro rest h
      simp only [List.mem_cons, not_or] at h
      have hx : x ≠ 10 := fun he => h.1 he.symm
      simp [splitLine, hx, ih rest h.2]
  have l1 : ∀ rest, splitLine (utf8 "GET /?code=c HTTP/1.1\r\n" ++ rest) = (utf8 "GET /?code=c HTTP/1.1\r\n", rest) := by
    intro rest
    have := cut (utf8 "GET /?code=c HTTP/1.1\r") rest (by decide +kernel)
    have he : utf8 "GET /?code=c HTTP/1.1\r" ++ [10] = utf8 "GET /?code=c HTTP/1.1\r\n" := by decide +kernel
    rw [← he, List.append_assoc]; exact this
  have l2 : ∀ rest, splitLine (utf8 "Host: localhost:8080\r\n" ++ rest) = (utf8 "Host: localhost:8080\r\n", rest) := by
    intro rest
    have := cut (utf8 "Host: localhost:8080\r") rest (by decide +kernel)
    have he : utf8 "Host: localhost:8080\r" ++ [10] = utf8 "Host: localhost:8080\r\n" := by decide +kernel
    rw [← he, List.append_assoc]; exact this
  have r1 : ∀ rest, readLine (utf8 "GET /?code=c HTTP/1.1\r\n" ++ rest) = some ("GET /?code=c HTTP/1.1\r\n".toList, rest) := by
    intro rest; unfold readLine; rw [l1, fromUtf8_utf8]; rfl
  have r2 : ∀ rest, readLine (utf8 "Host: localhost:8080\r\n" ++ rest) = some ("Host: localhost:8080\r\n".toList, rest) := by
    intro rest; unfold readLine; rw [l2, fromUtf8_utf8]; rfl
  have r3 : readLine (List.replicate n 32) = some (List.replicate n ' ', []) := by
    unfold readLine
    rw [splitLine_spaces]
    simp only
    rw [← utf8_spaces, fromUtf8_utf8]
    simp
  have hl : headerLoop (utf8 "Host: localhost:8080\r\n" ++ List.replicate n 32) 23 = some (["Host: localhost:8080".toList], []) := by
    unfold headerLoop
    have hlen : (utf8 "Host: localhost:8080\r\n" ++ List.replicate n (32 : UInt8)).length = 21 + n + 1 := by
      rw [List.length_append, List.length_replicate]
      have : (utf8 "Host: localhost:8080\r\n").length = 22 := by decide +kernel
      omega
    rw [hlen]
    unfold headerLoopN
    rw [if_neg (by decide), r2]
    have hnb : isBlank "Host: localhost:8080\r\n".toList = false := by decide +kernel
    simp only [hnb, if_false, Bool.false_eq_true]
    have hhead : "Host: localhost:8080\r\n".toList.head? = some 'H' := by decide +kernel
    split
    · rename_i h; exact absurd (hhead.symm.trans (congrArg List.head? h)) (by simp)
    · rename_i h; exact absurd (hhead.symm.trans (congrArg List.head? h)) (by simp)
    · rw [l2]
      unfold headerLoopN
      have hsz : ¬ maxHttpRequestSize ≤ 23 + (utf8 "Host: localhost:8080\r\n").length := by decide +kernel
      rw [if_neg hsz, r3]
      have hb : isBlank (List.replicate n ' ') = true := by
        unfold isBlank
        rw [List.all_eq_true]
        intro c hc
        rw [(List.mem_replicate.mp hc).2]
        decide
      simp only [hb, if_true]
      decide +kernel
  unfold parseGet
  rw [h1, List.append_assoc, r1]
  have hp : parseReqLine "GET /?code=c HTTP/1.1\r\n".toList = some "/?code=c".toList := by decide +kernel
  have hs : (splitLine (utf8 "GET /?code=c HTTP/1.1\r\n" ++ (utf8 "Host: localhost:8080\r\n" ++ List.replicate n 32))).1.length = 23 := by
    rw [l1]
    have : (utf8 "GET /?code=c HTTP/1.1\r\n").length = 23 := by decide +kernel
    exact this
  simp only [hp, hs, hl]
  have hf : findHost ["Host: localhost:8080".toList].reverse none = some (some "localhost:8080".toList) := by decide +kernel
  simp only [hf]
  have hu : env.parseUrl ((if false = true then "https" else "http") ++ "://" ++ String.ofList "localhost:8080".toList ++
      String.ofList "/?code=c".toList) = some ⟨"http", some "localhost", some 8080, "/", [("code", "c")]⟩ := by decide +kernel
  exact hu

end Pizauth
