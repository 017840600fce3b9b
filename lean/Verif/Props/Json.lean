import Verif.Proof.Json
import Verif.Proof.Lineage

/-!
# C85: the answers of token servers are read as JSON
-/

namespace Pizauth
open JsonSpec

/-- The last value of `k` in an object. -/
def LastVal (kvs : List (List Char × Json)) (k : String) (v : Json) : Prop :=
  ∃ before after, kvs = before ++ (k.toList, v) :: after ∧ ∀ v', (k.toList, v') ∉ after

/-- **C85.** Exactly the JSON texts of RFC 8259 are understood, if they are not nested too deep. -/
theorem C85 {s : List Char} {j : Json} : Json.fromStr s = some j ↔ IsText 127 j s :=
  Json.fromStr_iff

/-- A text has only one meaning. -/
theorem C85_unique {s : List Char} {j j' : Json} (h : IsText 127 j s) (h' : IsText 127 j' s) : j = j' := by
  rw [← C85] at h h'
  rw [h] at h'
  exact Option.some.inj h'

theorem lookup_reverse {kvs : List (List Char × Json)} {k : String} {v : JVal} :
    (kvs.reverse.map fun kv => (String.ofList kv.1, kv.2.toJVal)).lookup k = some v ↔ ∃ j, LastVal kvs k j ∧ j.toJVal = v := by
  have key : ∀ l : List (List Char × Json), (l.map fun kv => (String.ofList kv.1, kv.2.toJVal)).lookup k = some v ↔
      ∃ a b j, l = a ++ (k.toList, j) :: b ∧ (∀ v', (k.toList, v') ∉ a) ∧ j.toJVal = v := by
    intro l
    induction l with
    | nil => simp
    | cons x l ih =>
      obtain ⟨y, j⟩ := x
      simp only [List.map_cons, List.lookup_cons]
      by_cases hk : k = String.ofList y
      · subst hk
        simp only [beq_self_eq_true, Option.some.injEq]
        constructor
        · rintro rfl
          exact ⟨[], l, j, by simp, nofun, rfl⟩
        · rintro ⟨a, b, j', he, hn, rfl⟩
          cases a with
          | nil =>
            simp only [List.nil_append, List.cons.injEq, Prod.mk.injEq] at he
            rw [he.1.2]
          | cons z a =>
            injection he with he _
            subst he
            exact (hn j (by simp)).elim
      · have hk' : (k == String.ofList y) = false := by simpa using hk
        have hy : k.toList ≠ y := fun h => hk (by rw [← h]; simp)
        rw [hk', ih]
        constructor
        · rintro ⟨a, b, j', rfl, hn, hv⟩
          refine ⟨(y, j) :: a, b, j', rfl, ?_, hv⟩
          intro v' hm
          rcases List.mem_cons.mp hm with h | h
          · injection h with h; exact hy h
          · exact hn v' h
        · rintro ⟨a, b, j', he, hn, hv⟩
          cases a with
          | nil =>
            injection he with he
            injection he with he
            exact absurd he.symm hy
          | cons z a =>
            injection he with _ he
            exact ⟨a, b, j', he, fun v' hm => hn v' (List.mem_cons_of_mem _ hm), hv⟩
  rw [key]
  constructor
  · rintro ⟨a, b, j, he, hn, hv⟩
    refine ⟨j, ⟨b.reverse, a.reverse, ?_, by simpa using hn⟩, hv⟩
    have := congrArg List.reverse he
    simpa using this
  · rintro ⟨j, ⟨before, after, rfl, hn⟩, hv⟩
    exact ⟨after.reverse, before.reverse, j, by simp, by simpa using hn, hv⟩

theorem toJVal_str {j : Json} {s : String} : j.toJVal = .str s ↔ j = .str s.toList := by
  cases j <;> simp [Json.toJVal]
  exact ⟨fun h => by rw [← h]; simp, fun h => by rw [h]; simp⟩

theorem toJVal_u64 {j : Json} {n : Nat} : j.toJVal = .u64 n ↔ j = .nat n := by
  cases j <;> simp [Json.toJVal]

/-- **C85.** An answer grants a token exactly if its text is an object with these values. If a key occurs several times,
its last value counts. -/
theorem C85_token {s msg tok : String} {x : Nat} :
    (∃ b, Net.ofText s msg = .body b ∧ Issued b tok x) ↔
    ∃ kvs, IsText 127 (.obj kvs) s.toList ∧ LastVal kvs "token_type" (.str "Bearer".toList) ∧
      LastVal kvs "access_token" (.str tok.toList) ∧ LastVal kvs "expires_in" (.nat x) ∧
      ∀ m, ¬ LastVal kvs "error" (.str m) := by
  have hstr : ∀ {kvs : List (List Char × Json)} {k v : String}, (Body.obj (kvs.reverse.map fun kv =>
      (String.ofList kv.1, kv.2.toJVal))).get k = some (.str v) ↔ LastVal kvs k (.str v.toList) := by
    intro kvs k v
    show List.lookup k _ = _ ↔ _
    rw [lookup_reverse]
    constructor
    · rintro ⟨j, h, hj⟩
      rw [toJVal_str] at hj
      rwa [← hj]
    · exact fun h => ⟨_, h, toJVal_str.mpr rfl⟩
  have hnat : ∀ {kvs : List (List Char × Json)} {k : String} {v : Nat}, (Body.obj (kvs.reverse.map fun kv =>
      (String.ofList kv.1, kv.2.toJVal))).get k = some (.u64 v) ↔ LastVal kvs k (.nat v) := by
    intro kvs k v
    show List.lookup k _ = _ ↔ _
    rw [lookup_reverse]
    constructor
    · rintro ⟨j, h, hj⟩
      rw [toJVal_u64] at hj
      rwa [← hj]
    · exact fun h => ⟨_, h, toJVal_u64.mpr rfl⟩
  constructor
  · rintro ⟨b, hb, hi⟩
    unfold Net.ofText at hb
    split at hb
    · rename_i j hj
      injection hb with hb
      subst hb
      cases j with
      | obj kvs =>
        refine ⟨kvs, C85.mp hj, hstr.mp hi.bearer, hstr.mp hi.token, hnat.mp hi.expires, fun m h => ?_⟩
        refine hi.noError (String.ofList m) (hstr.mpr ?_)
        simpa using h
      | _ => exact absurd hi.token nofun
    · cases hb
  · rintro ⟨kvs, hs, h1, h2, h3, h4⟩
    refine ⟨(Json.obj kvs).toBody, ?_, fun m h => h4 _ (hstr.mp h), hstr.mpr h1, hstr.mpr h2, hnat.mpr h3⟩
    unfold Net.ofText
    rw [C85.mpr hs]

/-- **C85.** Any other text is reported as invalid. -/
theorem C85_invalid {s msg : String} : Net.ofText s msg = .badJson msg ↔ ∀ j, ¬ IsText 127 j s.toList := by
  unfold Net.ofText
  split
  · rename_i j hj
    simp only [reduceCtorEq, false_iff]
    exact fun h => h j (C85.mp hj)
  · rename_i hj
    simp only [true_iff]
    intro j h
    rw [← C85, hj] at h
    cases h

/-! ## Concrete cases -/

example : Net.ofText "{ \"access_token\" : \"a\\u00e4\\ud83d\\ude00\\n\", \"x\": [1, -2.5e+3, {}, null],\n
    \"token_type\":\"Bearer\",\"expires_in\":60, \"expires_in\":3600}" "m" =
    .body (.obj [("expires_in", .u64 3600), ("expires_in", .u64 60), ("token_type", .str "Bearer"), ("x", .other),
      ("access_token", .str "aä😀\n")]) := by decide +kernel

/-- Neither is a token granted for a time which is written as a fraction or as a string. -/
example : Net.ofText "{\"expires_in\":3600.0,\"expires_in\":\"3600\"}" "m" =
    .body (.obj [("expires_in", .str "3600"), ("expires_in", .other)]) := by decide +kernel

example : Net.ofText "{\"a\":01}" "m" = .badJson "m" ∧ Net.ofText "{\"a\":1,}" "m" = .badJson "m" ∧
    Net.ofText "{\"a\":1} x" "m" = .badJson "m" ∧ Net.ofText "access_token=a&expires_in=5" "m" = .badJson "m" ∧
    Net.ofText "" "m" = .badJson "m" ∧ Net.ofText "\"\\ud800\"" "m" = .badJson "m" := by decide +kernel

end Pizauth
