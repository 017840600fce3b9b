import Verif.Proof.Json
import Verif.Model.Info

/-!
# What is printed is JSON
-/

namespace Pizauth.Json
open JsonSpec

/-- The value of which `print` prints the text: the keys of objects are sorted, and occur once. -/
def canon : Json → Json
  | .arr js => .arr (all js)
  | .obj kvs => .obj (sortKeys (members kvs))
  | j => j
where
  all : List Json → List Json
    | [] => []
    | j :: js => canon j :: all js
  members : List (List Char × Json) → List (List Char × Json)
    | [] => []
    | (k, j) :: kvs => (k, canon j) :: members kvs

theorem hexDigit_spec {n : Nat} (h : n < 16) : HexDigit (hexDigit n) n := by
  have key : ∀ v : Fin 16, HexDigit (hexDigit v.val) v.val := by
    intro v
    left
    revert v
    decide
  exact key ⟨n, h⟩

theorem escaped_str {c : Char} {v t : List Char} (h : Str v t) : Str (c :: v) (escaped c ++ t) := by
  unfold escaped
  split
  · rename_i hc; rw [beq_iff_eq] at hc; subst hc; exact .esc (e := ['"']) .quote h
  split
  · rename_i hc; rw [beq_iff_eq] at hc; subst hc; exact .esc (e := ['\\']) .backslash h
  split
  · rename_i hc; obtain rfl := char_of_nat hc; exact .esc (e := ['b']) .b h
  split
  · rename_i hc; obtain rfl := char_of_nat hc; exact .esc (e := ['t']) .t h
  split
  · rename_i hc; obtain rfl := char_of_nat hc; exact .esc (e := ['n']) .n h
  split
  · rename_i hc; obtain rfl := char_of_nat hc; exact .esc (e := ['f']) .f h
  split
  · rename_i hc; obtain rfl := char_of_nat hc; exact .esc (e := ['r']) .r h
  split
  · rename_i hc
    have hu : Esc ('u' :: ['0', '0', hexDigit (c.toNat / 16), hexDigit (c.toNat % 16)]) (Char.ofNat c.toNat) :=
      .u ⟨_, _, _, _, 0, 0, c.toNat / 16, c.toNat % 16, rfl, .inl (by decide), .inl (by decide),
        hexDigit_spec (by omega), hexDigit_spec (by omega), by omega⟩ (.inl (by omega))
    rw [Char.ofNat_toNat] at hu
    exact .esc hu h
  · rename_i h1 h2 _ _ _ _ _ h3
    exact .plain (by omega) (by simpa using h1) (by simpa using h2) h

theorem quoted_str (v : List Char) : Str v (v.flatMap escaped) := by
  induction v with
  | nil => exact .nil
  | cons c v ih => exact escaped_str ih

theorem quoted_text {d : Nat} (v : List Char) : Text d (.val (.str v)) (quoted v) := .str (quoted_str v)

/-- Strings which need no escapes. -/
theorem quoted_plain {v : List Char} (h : ∀ c ∈ v, 32 ≤ c.toNat ∧ c ≠ '"' ∧ c ≠ '\\') : quoted v = '"' :: (v ++ ['"']) := by
  have : v.flatMap escaped = v := by
    induction v with
    | nil => rfl
    | cons c v ih =>
      obtain ⟨h1, h2, h3⟩ := h c (List.mem_cons_self ..)
      rw [List.flatMap_cons, ih fun c hc => h c (List.mem_cons_of_mem _ hc)]
      have : escaped c = [c] := by
        unfold escaped
        rw [if_neg (by simpa using h2), if_neg (by simpa using h3), if_neg (by omega), if_neg (by omega), if_neg (by omega),
          if_neg (by omega), if_neg (by omega), if_neg (by omega)]
      rw [this]
      rfl
  rw [quoted, this]

/-! ## Numbers -/

theorem decimal_snoc (ds : List Char) (c : Char) : decimal (ds ++ [c]) = decimal ds * 10 + (c.toNat - 48) := by
  induction ds with
  | nil => simp [decimal]
  | cons x ds ih =>
    simp only [List.cons_append, decimal, ih, List.length_append, List.length_cons, List.length_nil, Nat.pow_succ]
    rw [Nat.add_mul, Nat.mul_assoc]
    simp
    omega

theorem toString_nat (n : Nat) : Int (toString n).toList ∧ decimal (toString n).toList = n := by
  have hl : (toString n).toList = Nat.toDigits 10 n := by
    rw [Nat.toString_eq_ofList_toDigits]; simp
  rw [hl]
  induction n using Nat.strongRecOn with
  | _ n ih =>
    by_cases hn : n < 10
    · rw [Nat.toDigits_of_lt_base hn]
      have : ∀ v : Fin 10, (v.val = 0 → Nat.digitChar v.val = '0') ∧ (v.val ≠ 0 → Nat.digitChar v.val ≠ '0') ∧
          ('0' ≤ Nat.digitChar v.val ∧ Nat.digitChar v.val ≤ '9') ∧ decimal [Nat.digitChar v.val] = v.val := by decide
      obtain ⟨h1, h2, h3, h4⟩ := this ⟨n, hn⟩
      refine ⟨?_, h4⟩
      by_cases h0 : n = 0
      · exact .inl (by rw [h1 h0])
      · exact .inr ⟨⟨nofun, fun c hc => by rw [List.mem_singleton] at hc; subst hc; exact h3⟩, fun h => h2 h0 (by simpa using h)⟩
    · have hrec : Nat.toDigits 10 n = Nat.toDigits 10 (n / 10) ++ [Nat.digitChar (n % 10)] := by
        rw [Nat.toDigits_of_base_le (by decide) (by omega)]
      have hl' : (toString (n / 10)).toList = Nat.toDigits 10 (n / 10) := by
        rw [Nat.toString_eq_ofList_toDigits]; simp
      obtain ⟨h1, h2⟩ := ih (n / 10) (by omega) hl'
      have : ∀ v : Fin 10, ('0' ≤ Nat.digitChar v.val ∧ Nat.digitChar v.val ≤ '9') ∧
          (Nat.digitChar v.val).toNat - 48 = v.val := by decide
      obtain ⟨h3, h4⟩ := this ⟨n % 10, by omega⟩
      rw [hrec]
      refine ⟨.inr ⟨⟨by simp, ?_⟩, ?_⟩, ?_⟩
      · intro c hc
        rcases List.mem_append.mp hc with hc | hc
        · exact int_digits h1 c hc
        · rw [List.mem_singleton] at hc; subst hc; exact h3
      · rcases h1 with h1 | ⟨h1, h1'⟩
        · rw [h1] at h2
          have : n / 10 = 0 := by rw [← h2]; decide
          omega
        · cases hd : Nat.toDigits 10 (n / 10) with
          | nil => exact absurd hd h1.1
          | cons x l => rw [hd] at h1'; exact h1'
      · rw [decimal_snoc, h2, h4]
        simp only
        omega

/-! ## Lists -/

theorem commas_text {d : Nat} {z : List (Json × List Char)} (hne : z ≠ []) (h : ∀ x ∈ z, Text d (.val x.1) x.2) :
    Text d (.elems (z.map Prod.fst)) (commas (z.map Prod.snd)) := by
  induction z with
  | nil => exact absurd rfl hne
  | cons x z ih =>
    have hx := h x (List.mem_cons_self ..)
    cases z with
    | nil =>
      have := Text.elem (w1 := []) (w2 := []) Ws.nil hx Ws.nil
      simpa [commas] using this
    | cons y z =>
      have := Text.elems (w1 := []) (w2 := []) Ws.nil hx Ws.nil (ih nofun fun x hx => h x (List.mem_cons_of_mem _ hx))
      simpa [commas] using this

/-! ## Objects -/

section Put
variable {α β : Type}

theorem put_map (f : α → β) (k : List Char) (v : α) (m : List (List Char × α)) :
    put k (f v) (m.map fun kv => (kv.1, f kv.2)) = (put k v m).map fun kv => (kv.1, f kv.2) := by
  induction m with
  | nil => rfl
  | cons kv m ih =>
    simp only [put, List.map_cons]
    split
    · rfl
    · split
      · rfl
      · rw [ih, List.map_cons]

theorem sortKeys_map (f : α → β) (m : List (List Char × α)) :
    sortKeys (m.map fun kv => (kv.1, f kv.2)) = (sortKeys m).map fun kv => (kv.1, f kv.2) := by
  unfold sortKeys
  have key : ∀ acc : List (List Char × α), (m.map fun kv => (kv.1, f kv.2)).foldl (fun m kv => put kv.1 kv.2 m)
      (acc.map fun kv => (kv.1, f kv.2)) = (m.foldl (fun m kv => put kv.1 kv.2 m) acc).map fun kv => (kv.1, f kv.2) := by
    induction m with
    | nil => intro acc; rfl
    | cons kv m ih =>
      intro acc
      simp only [List.map_cons, List.foldl_cons, put_map]
      exact ih _
  exact key []

theorem mem_put {k : List Char} {v : α} {m : List (List Char × α)} {x : List Char × α} (h : x ∈ put k v m) :
    x = (k, v) ∨ x ∈ m := by
  induction m with
  | nil => left; simpa [put] using h
  | cons kv m ih =>
    unfold put at h
    split at h
    · rcases List.mem_cons.mp h with h | h
      · exact .inl h
      · exact .inr (List.mem_cons_of_mem _ h)
    · split at h
      · rcases List.mem_cons.mp h with h | h
        · exact .inl h
        · exact .inr h
      · rcases List.mem_cons.mp h with h | h
        · exact .inr (h ▸ List.mem_cons_self ..)
        · rcases ih h with h | h
          · exact .inl h
          · exact .inr (List.mem_cons_of_mem _ h)

theorem put_ne_nil {k : List Char} {v : α} {m : List (List Char × α)} : put k v m ≠ [] := by
  cases m with
  | nil => simp [put]
  | cons kv m =>
    unfold put
    split
    · simp
    · split <;> simp

theorem mem_sortKeys {m : List (List Char × α)} {x : List Char × α} (h : x ∈ sortKeys m) : x ∈ m := by
  unfold sortKeys at h
  have key : ∀ acc : List (List Char × α), x ∈ m.foldl (fun m kv => put kv.1 kv.2 m) acc → x ∈ acc ∨ x ∈ m := by
    clear h
    induction m with
    | nil => exact fun acc h => .inl h
    | cons kv m ih =>
      intro acc h
      rcases ih _ h with h | h
      · rcases mem_put h with h | h
        · exact .inr (h ▸ List.mem_cons_self ..)
        · exact .inl h
      · exact .inr (List.mem_cons_of_mem _ h)
  rcases key [] h with h | h
  · cases h
  · exact h

theorem sortKeys_ne_nil {m : List (List Char × α)} (h : m ≠ []) : sortKeys m ≠ [] := by
  unfold sortKeys
  have key : ∀ (m acc : List (List Char × α)), acc ≠ [] → m.foldl (fun m kv => put kv.1 kv.2 m) acc ≠ [] := by
    intro m
    induction m with
    | nil => exact fun acc h => h
    | cons kv m ih => exact fun acc h => ih _ put_ne_nil
  cases m with
  | nil => exact absurd rfl h
  | cons kv m => exact key m _ put_ne_nil

end Put

/-- Between the brackets of `objText`. -/
theorem objText_text {d : Nat} {z : List (List Char × (Json × List Char))} (hne : z ≠ [])
    (h : ∀ x ∈ z, Text d (.val x.2.1) x.2.2) :
    Text (d + 1) (.val (.obj (z.map fun x => (x.1, x.2.1)))) (objText (z.map fun x => (x.1, x.2.2))) := by
  have key : ∀ (kv : List Char × (Json × List Char)) (z : List (List Char × (Json × List Char))),
      (∀ x ∈ kv :: z, Text d (.val x.2.1) x.2.2) →
      Text d (.members ((kv :: z).map fun x => (x.1, x.2.1)))
        (quoted kv.1 ++ ':' :: kv.2.2 ++ (z.map fun x => (x.1, x.2.2)).flatMap fun kv => ',' :: quoted kv.1 ++ ':' :: kv.2) := by
    intro kv z
    induction z generalizing kv with
    | nil =>
      intro h
      have := Text.member (w1 := []) (w2 := []) (w3 := []) (w4 := []) Ws.nil (quoted_str kv.1) Ws.nil Ws.nil
        (h kv (List.mem_cons_self ..)) Ws.nil
      simpa [quoted] using this
    | cons kv' z ih =>
      intro h
      have := Text.members (w1 := []) (w2 := []) (w3 := []) (w4 := []) Ws.nil (quoted_str kv.1) Ws.nil Ws.nil
        (h kv (List.mem_cons_self ..)) Ws.nil (ih kv' fun x hx => h x (List.mem_cons_of_mem _ hx))
      simpa [quoted] using this
  cases z with
  | nil => exact absurd rfl hne
  | cons kv z =>
    have := Text.obj (key kv z h)
    simpa [objText] using this

/-! ## All values -/

/-- `print` prints texts for these. -/
def Prints (d : Nat) : Item → Prop
  | .val j => Text d (.val (canon j)) (print j)
  | .elems js => ∃ z : List (Json × List Char), z ≠ [] ∧ (∀ x ∈ z, Text d (.val x.1) x.2) ∧
      canon.all js = z.map Prod.fst ∧ print.all js = z.map Prod.snd
  | .members kvs => ∃ z : List (List Char × (Json × List Char)), z ≠ [] ∧ (∀ x ∈ z, Text d (.val x.2.1) x.2.2) ∧
      canon.members kvs = z.map (fun x => (x.1, x.2.1)) ∧ print.members kvs = z.map (fun x => (x.1, x.2.2))

theorem print_text {d : Nat} {it : Item} {t : List Char} (h : Text d it t) : Prints d it := by
  induction h with
  | null => exact .null
  | true => exact .true
  | false => exact .false
  | @nat d t hi hl =>
    have := toString_nat (decimal t)
    have h : Text d (.val (.nat (decimal (toString (decimal t)).toList))) (toString (decimal t)).toList :=
      .nat this.1 (by rw [this.2]; exact hl)
    rw [this.2] at h
    unfold Prints canon print
    exact h
  | num hn hl =>
    unfold Prints canon print
    exact .num hn hl
  | str hs =>
    unfold Prints canon print
    exact quoted_text _
  | arr0 _ =>
    unfold Prints canon print
    exact .arr0 (w := []) Ws.nil
  | obj0 _ =>
    unfold Prints canon print
    exact .obj0 (w := []) Ws.nil
  | @arr d js t _ ih =>
    obtain ⟨z, hne, h, h1, h2⟩ := ih
    show Text _ (.val (.arr (canon.all js))) ('[' :: (commas (print.all js) ++ [']']))
    rw [h1, h2]
    exact .arr (commas_text hne h)
  | @obj d kvs t _ ih =>
    obtain ⟨z, hne, h, h1, h2⟩ := ih
    show Text _ (.val (.obj (sortKeys (canon.members kvs)))) (objText (sortKeys (print.members kvs)))
    rw [h1, h2, sortKeys_map (fun x : Json × List Char => x.1), sortKeys_map (fun x : Json × List Char => x.2)]
    exact objText_text (sortKeys_ne_nil hne) fun x hx => h x (mem_sortKeys hx)
  | @elem d j w1 t w2 _ _ _ ih =>
    refine ⟨[(canon j, print j)], nofun, ?_, rfl, rfl⟩
    intro x hx
    rw [List.mem_singleton] at hx
    subst hx
    exact ih
  | @elems d j js w1 t w2 ts _ _ _ _ ih ih2 =>
    obtain ⟨z, _, h, h1, h2⟩ := ih2
    refine ⟨(canon j, print j) :: z, nofun, ?_, ?_, ?_⟩
    · intro x hx
      rcases List.mem_cons.mp hx with rfl | hx
      · exact ih
      · exact h x hx
    · simp [canon.all, h1]
    · simp [print.all, h2]
  | @member d k kt j w1 w2 w3 t w4 _ _ _ _ _ _ ih =>
    refine ⟨[(k, (canon j, print j))], nofun, ?_, rfl, rfl⟩
    intro x hx
    rw [List.mem_singleton] at hx
    subst hx
    exact ih
  | @members d k kt j kvs w1 w2 w3 t w4 ts _ _ _ _ _ _ _ ih ih2 =>
    obtain ⟨z, _, h, h1, h2⟩ := ih2
    refine ⟨(k, (canon j, print j)) :: z, nofun, ?_, ?_, ?_⟩
    · intro x hx
      rcases List.mem_cons.mp hx with rfl | hx
      · exact ih
      · exact h x hx
    · simp [canon.members, h1]
    · simp [print.members, h2]

end Pizauth.Json
