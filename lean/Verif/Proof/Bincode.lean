import Verif.Spec.Dump
import Verif.Proof.Utf8

/-!
# The dump format: decoding undoes encoding
-/

namespace Pizauth

/-- `dec` reads back what `enc` writes for values satisfying `P`, leaves what follows, and rejects every strict prefix. -/
def RoundTrip {α : Type} (P : α → Prop) (enc : α → Option Bytes) (dec : Dec α) : Prop :=
  ∀ a b, P a → enc a = some b → (∀ r, dec (b ++ r) = some (a, r)) ∧ ∀ k, k < b.length → dec (b.take k) = none

theorem encLE_length : ∀ k n, (encLE k n).length = k
  | 0, _ => rfl
  | k + 1, n => by simp [encLE, encLE_length k]

theorem decInt_encLE : ∀ k n r, n < 256 ^ k → decInt k (encLE k n ++ r) = some (n, r)
  | 0, n, r, h => by simp at h; simp [decInt, encLE, h]
  | k + 1, n, r, h => by
    have hd : n / 256 < 256 ^ k := by
      rw [Nat.pow_succ, Nat.mul_comm] at h
      exact Nat.div_lt_of_lt_mul h
    have hm : n % 256 < 256 := Nat.mod_lt _ (by decide)
    simp only [encLE, List.cons_append, decInt, decInt_encLE k _ r hd, Option.map_some]
    have : (UInt8.ofNat (n % 256)).toNat = n % 256 := by
      simp
    rw [this]
    have := Nat.mod_add_div n 256
    rw [this]

theorem decInt_short : ∀ k b, b.length < k → decInt k b = none
  | 0, b, h => by omega
  | k + 1, [], _ => rfl
  | k + 1, x :: b, h => by
    simp only [List.length_cons] at h
    simp [decInt, decInt_short k b (by omega)]

theorem rt_int (k : Nat) : RoundTrip (fun _ => True) (encInt k) (decInt k) := by
  intro n b _ h
  unfold encInt at h
  split at h
  · rename_i hn
    cases h
    refine ⟨fun r => decInt_encLE k n r hn, fun j hj => decInt_short _ _ ?_⟩
    rw [encLE_length] at hj
    rw [List.length_take, encLE_length]
    omega
  · cases h

theorem rt_pair {α β : Type} {P : α → Prop} {Q : β → Prop} {ea : α → Option Bytes} {eb : β → Option Bytes} {da : Dec α}
    {db : Dec β} (h1 : RoundTrip P ea da) (h2 : RoundTrip Q eb db) :
    RoundTrip (fun p => P p.1 ∧ Q p.2) (encPair ea eb) (decPair da db) := by
  rintro ⟨x, y⟩ b ⟨hp, hq⟩ h
  unfold encPair at h
  cases hx : ea x with
  | none => simp [hx] at h
  | some bx =>
    cases hy : eb y with
    | none => simp [hx, hy] at h
    | some bY =>
      simp only [hx, hy, Option.some.injEq] at h
      subst h
      obtain ⟨a1, a2⟩ := h1 x bx hp hx
      obtain ⟨b1, b2⟩ := h2 y bY hq hy
      refine ⟨fun r => ?_, fun k hk => ?_⟩
      · simp [decPair, List.append_assoc, a1, b1]
      · by_cases hlt : k < bx.length
        · rw [List.take_append_of_le_length (by omega)]
          simp [decPair, a2 k hlt]
        · simp only [List.length_append] at hk
          rw [List.take_append, List.take_of_length_le (by omega)]
          simp [decPair, a1, b2 (k - bx.length) (by omega)]

theorem rt_option {α : Type} {P : α → Prop} {enc : α → Option Bytes} {dec : Dec α} (h : RoundTrip P enc dec) :
    RoundTrip (fun o => ∀ x, o = some x → P x) (encOption enc) (decOption dec) := by
  intro o b hp he
  cases o with
  | none =>
    cases he
    exact ⟨fun r => by simp [decOption], fun k hk => by simp at hk; subst hk; rfl⟩
  | some x =>
    simp only [encOption, Option.map_eq_some_iff] at he
    obtain ⟨bx, hx, rfl⟩ := he
    obtain ⟨a1, a2⟩ := h x bx (hp x rfl) hx
    refine ⟨fun r => by simp [decOption, a1], fun k hk => ?_⟩
    cases k with
    | zero => rfl
    | succ k =>
      simp only [List.length_cons] at hk
      simp [decOption, a2 k (by omega)]

theorem rt_all {α : Type} {P : α → Prop} {enc : α → Option Bytes} {dec : Dec α} (h : RoundTrip P enc dec) :
    ∀ (l : List α) (b : Bytes), (∀ x ∈ l, P x) → encAll enc l = some b →
      (∀ r, decAll dec l.length (b ++ r) = some (l, r)) ∧ ∀ k, k < b.length → decAll dec l.length (b.take k) = none
  | [], b, _, he => by
    cases he
    exact ⟨fun r => rfl, fun k hk => by simp at hk⟩
  | x :: l, b, hp, he => by
    unfold encAll at he
    cases hx : enc x with
    | none => simp [hx] at he
    | some bx =>
      cases hy : encAll enc l with
      | none => simp [hx, hy] at he
      | some bl =>
        simp only [hx, hy, Option.some.injEq] at he
        subst he
        obtain ⟨a1, a2⟩ := h x bx (hp x (by simp)) hx
        obtain ⟨b1, b2⟩ := rt_all h l bl (fun x hx => hp x (List.mem_cons_of_mem _ hx)) hy
        refine ⟨fun r => ?_, fun k hk => ?_⟩
        · simp [decAll, List.append_assoc, a1, b1]
        · by_cases hlt : k < bx.length
          · rw [List.take_append_of_le_length (by omega)]
            simp [decAll, a2 k hlt]
          · simp only [List.length_append] at hk
            rw [List.take_append, List.take_of_length_le (by omega)]
            simp [decAll, a1, b2 (k - bx.length) (by omega)]

theorem rt_vec {α : Type} {P : α → Prop} {enc : α → Option Bytes} {dec : Dec α} (h : RoundTrip P enc dec) :
    RoundTrip (fun l => ∀ x ∈ l, P x) (encVec enc) (decVec dec) := by
  intro l b hp he
  unfold encVec at he
  cases hx : encInt 8 l.length with
  | none => simp [hx] at he
  | some bx =>
    cases hy : encAll enc l with
    | none => simp [hx, hy] at he
    | some bl =>
      simp only [hx, hy, Option.some.injEq] at he
      subst he
      obtain ⟨a1, a2⟩ := rt_int 8 l.length bx trivial hx
      obtain ⟨b1, b2⟩ := rt_all h l bl hp hy
      refine ⟨fun r => ?_, fun k hk => ?_⟩
      · simp [decVec, List.append_assoc, a1, b1]
      · by_cases hlt : k < bx.length
        · rw [List.take_append_of_le_length (by omega)]
          simp [decVec, a2 k hlt]
        · simp only [List.length_append] at hk
          rw [List.take_append, List.take_of_length_le (by omega)]
          simp [decVec, a1, b2 (k - bx.length) (by omega)]

theorem rt_str : RoundTrip (fun _ => True) encStr decStr := by
  intro s b _ he
  simp only [encStr, Option.map_eq_some_iff] at he
  obtain ⟨bx, hx, rfl⟩ := he
  obtain ⟨a1, a2⟩ := rt_int 8 _ bx trivial hx
  refine ⟨fun r => ?_, fun k hk => ?_⟩
  · simp [decStr, List.append_assoc, a1, decBytes, fromUtf8_utf8]
  · by_cases hlt : k < bx.length
    · rw [List.take_append_of_le_length (by omega)]
      simp [decStr, a2 k hlt]
    · simp only [List.length_append] at hk
      rw [List.take_append, List.take_of_length_le (by omega)]
      have : ¬ (utf8 s).length ≤ ((utf8 s).take (k - bx.length)).length := by rw [List.length_take]; omega
      simp only [decStr, a1, decBytes, if_neg this]

/-- Rust's `SystemTime` cannot represent later times. -/
theorem rt_time : RoundTrip (fun t => t ≤ timeMax) encSysTime decSysTime := by
  intro t b ht he
  unfold encSysTime at he
  split at he
  · cases he
  · rename_i hneg
    obtain ⟨a1, a2⟩ := rt_pair (rt_int 8) (rt_int 4) _ b ⟨trivial, trivial⟩ he
    refine ⟨fun r => ?_, fun k hk => ?_⟩
    · simp only [decSysTime, a1]
      have e1 : t.toNat / nsPerSec * nsPerSec + t.toNat % nsPerSec = t.toNat := by
        rw [Nat.mul_comm]; exact Nat.div_add_mod _ _
      have e2 : t.toNat % nsPerSec / nsPerSec = 0 := Nat.div_eq_of_lt (Nat.mod_lt _ (by decide))
      have e3 : t.toNat / nsPerSec < u64Size := by
        unfold timeMax at ht
        unfold nsPerSec u64Size
        omega
      rw [e1, e2, Nat.add_zero, if_pos e3]
      unfold checkedAdd
      rw [if_pos (by omega)]
      simp
      omega
    · simp [decSysTime, a2 k hk]

/-- Change the representation of a value. -/
theorem rt_map {α β : Type} {P : α → Prop} {enc : α → Option Bytes} {dec : Dec α} (h : RoundTrip P enc dec) (f : β → α)
    (g : α → β) (hgf : ∀ x, g (f x) = x) :
    RoundTrip (fun x => P (f x)) (fun x => enc (f x)) (fun b => (dec b).map fun (x, r) => (g x, r)) := by
  intro x b hp he
  obtain ⟨a1, a2⟩ := h (f x) b hp he
  exact ⟨fun r => by simp [a1, hgf], fun k hk => by simp [a2 k hk]⟩

theorem RoundTrip.weaken {α : Type} {P Q : α → Prop} {enc : α → Option Bytes} {dec : Dec α} (h : RoundTrip P enc dec)
    (hpq : ∀ x, Q x → P x) : RoundTrip Q enc dec := fun x b hq he => h x b (hpq x hq) he

theorem rt_account : RoundTrip (fun _ => True) encAccountDump decAccountDump := by
  have h := rt_map (rt_pair rt_str (rt_pair (rt_vec (rt_pair rt_str rt_str)) (rt_pair rt_str (rt_pair (rt_option rt_str)
    (rt_pair rt_str (rt_pair (rt_vec rt_str) rt_str))))))
    (fun a : AccountDump => (a.authUri, a.authUriFields, a.clientId, a.clientSecret, a.redirectUri, a.scopes, a.tokenUri))
    (fun (au, aufs, ci, cs, ru, ss, tu) =>
      { authUri := au, authUriFields := aufs, clientId := ci, clientSecret := cs, redirectUri := ru, scopes := ss,
        tokenUri := tu }) (fun _ => rfl)
  exact h.weaken fun _ _ => by simp

theorem rt_tokenState : RoundTrip TokenStateDump.TimesOk encTokenStateDump decTokenStateDump := by
  intro ts b hp he
  cases ts with
  | empty =>
    obtain ⟨a1, a2⟩ := rt_int 4 0 b trivial he
    exact ⟨fun r => by simp [decTokenStateDump, a1], fun k hk => by simp [decTokenStateDump, a2 k hk]⟩
  | active tok o x rt =>
    simp only [encTokenStateDump, encPair] at he
    cases h4 : encInt 4 1 with
    | none => simp [encInt] at h4
    | some b4 =>
      rw [h4] at he
      change (match some b4, encPair encStr (encPair encSysTime (encPair encSysTime (encOption encStr))) (tok, o, x, rt) with
        | some x, some y => some (x ++ y)
        | _, _ => none) = some b at he
      cases hy : encPair encStr (encPair encSysTime (encPair encSysTime (encOption encStr))) (tok, o, x, rt) with
      | none => simp [hy] at he
      | some bY =>
        simp only [hy, Option.some.injEq] at he
        subst he
        obtain ⟨a1, a2⟩ := rt_int 4 1 b4 trivial h4
        obtain ⟨b1, b2⟩ := rt_pair rt_str (rt_pair rt_time (rt_pair rt_time (rt_option rt_str))) (tok, o, x, rt) bY
          ⟨trivial, hp.1, hp.2, fun _ _ => trivial⟩ hy
        refine ⟨fun r => ?_, fun k hk => ?_⟩
        · simp [decTokenStateDump, List.append_assoc, a1, b1]
        · by_cases hlt : k < b4.length
          · rw [List.take_append_of_le_length (by omega)]
            simp [decTokenStateDump, a2 k hlt]
          · simp only [List.length_append] at hk
            rw [List.take_append, List.take_of_length_le (by omega)]
            simp [decTokenStateDump, a1, b2 (k - b4.length) (by omega)]

/-- Decoding gives back the dump, whatever follows; a strict prefix is rejected. -/
theorem dump_roundTrip {d : Dump} {b : Bytes} (ht : d.TimesOk) (he : encDump d = some b) :
    (∀ r, decDump (b ++ r) = some d) ∧ ∀ k, k < b.length → decDump (b.take k) = none := by
  obtain ⟨a1, a2⟩ := rt_pair (rt_int 8) (rt_vec (rt_pair rt_str (rt_pair rt_account rt_tokenState))) (d.version, d.accounts)
    b ⟨trivial, fun p hp => ⟨trivial, trivial, ht p hp⟩⟩ he
  exact ⟨fun r => by simp [decDump, a1], fun k hk => by simp [decDump, a2 k hk]⟩

end Pizauth
