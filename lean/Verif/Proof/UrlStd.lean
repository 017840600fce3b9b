import Verif.Spec.UrlStd
import Verif.Proof.Form

/-!
# URLs: normalised URLs are read as what they are
-/

namespace Pizauth
namespace UrlStd

theorem ascii_all (f : Char → Bool) (h : (List.range 128).all (fun n => f (Char.ofNat n)) = true) {c : Char}
    (hc : c.toNat < 128) : f c = true := by
  have := List.all_eq_true.mp h c.toNat (List.mem_range.mpr hc)
  rwa [Char.ofNat_toNat] at this

/-- Visible ASCII characters. -/
def vis (c : Char) : Bool := decide (32 < c.toNat) && decide (c.toNat < 127)

theorem vis_lt {c : Char} (h : vis c = true) : c.toNat < 128 := by
  simp only [vis, Bool.and_eq_true, decide_eq_true_eq] at h; omega

theorem vis_gt {c : Char} (h : vis c = true) : 32 < c.toNat := by
  simp only [vis, Bool.and_eq_true, decide_eq_true_eq] at h; omega

/-! ## Percent-encoding -/

theorem hexChar_all (f : Char → Bool) (h : (List.range 16).all (fun n => f (hexChar n)) = true) {n : Nat} (hn : n < 16) :
    f (hexChar n) = true := List.all_eq_true.mp h n (List.mem_range.mpr hn)

theorem percentEncode_all {set f : Char → Bool} (h1 : (List.range 128).all (fun n => set (Char.ofNat n) || f (Char.ofNat n)) = true)
    (h2 : f '%' = true) (h3 : (List.range 16).all (fun n => f (hexChar n)) = true) (l : List Char) :
    ∀ c ∈ percentEncode set l, f c = true := by
  intro c hc
  obtain ⟨a, _, ha⟩ := List.mem_flatMap.mp hc
  split at ha
  · rename_i hcond
    simp only [Bool.and_eq_true, decide_eq_true_eq, Bool.not_eq_true'] at hcond
    rw [List.mem_singleton] at ha
    subst ha
    have := ascii_all (fun c => set c || f c) h1 hcond.1
    simpa [hcond.2] using this
  · obtain ⟨b, _, hb⟩ := List.mem_flatMap.mp ha
    simp only [percentByte, List.mem_cons, List.not_mem_nil, or_false] at hb
    have hlt := b.toNat_lt
    rcases hb with rfl | rfl | rfl
    · exact h2
    · exact hexChar_all f h3 (by omega)
    · exact hexChar_all f h3 (by omega)

theorem percentEncode_id {set : Char → Bool} {l : List Char} (h : ∀ c ∈ l, c.toNat < 128 ∧ set c = false) :
    percentEncode set l = l := by
  induction l with
  | nil => rfl
  | cons a l ih =>
    have ha := h a (List.mem_cons_self ..)
    have := ih fun c hc => h c (List.mem_cons_of_mem _ hc)
    unfold percentEncode at this ⊢
    rw [List.flatMap_cons, this, if_pos (by simp [ha.1, ha.2])]
    rfl

/-- Visible characters which do not end an authority, and are not `@`. -/
def authChar (c : Char) : Bool := vis c && !ender c && c != '@'

def pathChar (c : Char) : Bool := vis c && c != '?' && c != '#'

def queryChar (c : Char) : Bool := vis c && !inQuery c

theorem userinfo_chars (l : List Char) : ∀ c ∈ percentEncode inUserinfo l, authChar c = true :=
  percentEncode_all (by decide +kernel) (by decide +kernel) (by decide +kernel) l

theorem path_chars (l : List Char) : ∀ c ∈ percentEncode inPath l, pathChar c = true :=
  percentEncode_all (by decide +kernel) (by decide +kernel) (by decide +kernel) l

theorem query_chars (l : List Char) : ∀ c ∈ percentEncode inQuery l, queryChar c = true :=
  percentEncode_all (by decide +kernel) (by decide +kernel) (by decide +kernel) l

theorem fragment_chars (l : List Char) : ∀ c ∈ percentEncode inFragment l, vis c = true :=
  percentEncode_all (by decide +kernel) (by decide +kernel) (by decide +kernel) l

/-! ## Parts -/

theorem userinfo_good (l : List Char) :
    userinfo l = [] ∨ ∃ t, userinfo l = t ++ ['@'] ∧ ∀ c ∈ t, authChar c = true := by
  have h : ∀ c ∈ percentEncode inUserinfo (l.takeWhile (· != ':')) ++
      (if (l.drop ((l.takeWhile (· != ':')).length + 1)).isEmpty then []
        else ':' :: percentEncode inUserinfo (l.drop ((l.takeWhile (· != ':')).length + 1))), authChar c = true := by
    intro c hc
    rcases List.mem_append.mp hc with hc | hc
    · exact userinfo_chars _ c hc
    · split at hc
      · cases hc
      · rcases List.mem_cons.mp hc with rfl | hc
        · decide +kernel
        · exact userinfo_chars _ c hc
  unfold userinfo
  simp only
  generalize percentEncode inUserinfo (l.takeWhile (· != ':')) ++
      (if (l.drop ((l.takeWhile (· != ':')).length + 1)).isEmpty then []
        else ':' :: percentEncode inUserinfo (l.drop ((l.takeWhile (· != ':')).length + 1))) = t at h ⊢
  split
  · exact .inl rfl
  · exact .inr ⟨t, rfl, h⟩

theorem normalise_chars : ∀ (ss acc : List (List Char)), (∀ s ∈ acc, ∀ c ∈ s, pathChar c = true) →
    ∀ s ∈ normalise acc ss, ∀ c ∈ s, pathChar c = true
  | [], acc, h => by simpa [normalise] using h
  | s :: r, acc, h => by
    have ht : ∀ s ∈ acc.tail, ∀ c ∈ s, pathChar c = true := fun x hx => h x (List.mem_of_mem_tail hx)
    have hn : ∀ (a : List (List Char)), (∀ s ∈ a, ∀ c ∈ s, pathChar c = true) →
        ∀ s ∈ [] :: a, ∀ c ∈ s, pathChar c = true := by
      intro a ha x hx c hc
      rcases List.mem_cons.mp hx with rfl | hx
      · cases hc
      · exact ha x hx c hc
    unfold normalise
    split
    · refine normalise_chars r _ ?_
      split
      · exact hn _ h
      · exact h
    · refine normalise_chars r _ ?_
      split
      · exact hn _ ht
      · exact ht
    · refine normalise_chars r _ fun x hx => ?_
      rcases List.mem_cons.mp hx with rfl | hx
      · exact path_chars _
      · exact h x hx

theorem path_good (l : List Char) : (∃ t, path l = '/' :: t) ∧ ∀ c ∈ path l, pathChar c = true := by
  have h := normalise_chars (segments (l.drop 1)) [] (by simp)
  unfold path
  split
  · exact ⟨⟨[], rfl⟩, by decide +kernel⟩
  · rename_i hne
    generalize hn : (normalise [] (segments (l.drop 1))).reverse = ss at hne
    have h : ∀ s ∈ ss, ∀ c ∈ s, pathChar c = true := by
      intro s hs
      rw [← hn] at hs
      exact h s (List.mem_reverse.mp hs)
    refine ⟨?_, fun c hc => ?_⟩
    · cases ss with
      | nil => exact (hne rfl).elim
      | cons s r => exact ⟨_, rfl⟩
    · obtain ⟨s, hs, hc⟩ := List.mem_flatMap.mp hc
      rcases List.mem_cons.mp hc with rfl | hc
      · decide +kernel
      · exact h s hs c hc

/-! ## Hosts -/

/-- Characters of hosts which are not between brackets. -/
def domainChar (c : Char) : Bool := vis c && !forbidden c

theorem labels_ne_nil (l : List Char) : labels l ≠ [] := by
  cases l with
  | nil => simp [labels]
  | cons c r =>
    unfold labels
    split
    · simp
    · split <;> simp

theorem labels_append {a : List Char} (b : List Char) (h : '.' ∉ a) : labels (a ++ '.' :: b) = a :: labels b := by
  induction a with
  | nil => simp [labels]
  | cons c r ih =>
    have hc : c ≠ '.' := fun e => h (by simp [e])
    have := ih fun hm => h (List.mem_cons_of_mem _ hm)
    rw [List.cons_append, labels, if_neg hc, this]

theorem labels_one {a : List Char} (h : '.' ∉ a) : labels a = [a] := by
  induction a with
  | nil => rfl
  | cons c r ih =>
    have hc : c ≠ '.' := fun e => h (by simp [e])
    rw [labels, if_neg hc, ih fun hm => h (List.mem_cons_of_mem _ hm)]

theorem toLower_ascii {c : Char} (h : c.toNat < 128) :
    (c.toLower.toNat < 128 ∧ c.toLower.toLower = c.toLower) ∧ (c.toLower = '.' ↔ c = '.') := by
  have := ascii_all (fun c => decide (c.toLower.toNat < 128 ∧ c.toLower.toLower = c.toLower) &&
    decide (c.toLower = '.' ↔ c = '.')) (by decide +kernel) h
  simpa using this

theorem labels_lower {l : List Char} (h : ∀ c ∈ l, c.toNat < 128) :
    labels (l.map Char.toLower) = (labels l).map (·.map Char.toLower) := by
  induction l with
  | nil => rfl
  | cons c r ih =>
    have ih := ih fun x hx => h x (List.mem_cons_of_mem _ hx)
    have hc := (toLower_ascii (h c (List.mem_cons_self ..))).2
    rw [List.map_cons, labels, labels, ih]
    by_cases hd : c = '.'
    · rw [if_pos hd, if_pos (hc.mpr hd)]; rfl
    · rw [if_neg hd, if_neg (fun e => hd (hc.mp e))]
      cases hl : labels r with
      | nil => exact (labels_ne_nil r hl).elim
      | cons x xs => rfl

theorem map_lower_lower {l : List Char} (h : ∀ c ∈ l, c.toNat < 128) :
    (l.map Char.toLower).map Char.toLower = l.map Char.toLower := by
  rw [List.map_map]
  exact List.map_congr_left fun c hc => (toLower_ascii (h c hc)).1.2

theorem plain_ascii {l : List Char} (h : plain l = true) : ∀ c ∈ l, c.toNat < 128 := by
  simp only [plain, Bool.and_eq_true, List.all_eq_true, decide_eq_true_eq] at h
  exact h.1

theorem mem_labels {l x : List Char} (hx : x ∈ labels l) : ∀ c ∈ x, c ∈ l := by
  induction l generalizing x with
  | nil => simp [labels] at hx; subst hx; simp
  | cons a r ih =>
    unfold labels at hx
    intro c hc
    split at hx
    · rcases List.mem_cons.mp hx with rfl | hx
      · cases hc
      · exact List.mem_cons_of_mem _ (ih hx c hc)
    · split at hx
      · rename_i y ys hl
        rcases List.mem_cons.mp hx with rfl | hx
        · rcases List.mem_cons.mp hc with rfl | hc
          · exact List.mem_cons_self ..
          · exact List.mem_cons_of_mem _ (ih (by rw [hl]; exact List.mem_cons_self ..) c hc)
        · exact List.mem_cons_of_mem _ (ih (by rw [hl]; exact List.mem_cons_of_mem _ hx) c hc)
      · rename_i hl
        exact (labels_ne_nil r hl).elim

theorem plain_lower {l : List Char} (h : plain l = true) : plain (l.map Char.toLower) = true := by
  have ha := plain_ascii h
  simp only [plain, Bool.and_eq_true, List.all_eq_true, decide_eq_true_eq] at h ⊢
  refine ⟨fun c hc => ?_, fun x hx => ?_⟩
  · obtain ⟨d, hd, rfl⟩ := List.mem_map.mp hc
    exact (toLower_ascii (ha d hd)).1.1
  · rw [labels_lower ha] at hx
    obtain ⟨y, hy, rfl⟩ := List.mem_map.mp hx
    rw [map_lower_lower fun c hc => ha c (mem_labels hy c hc)]
    exact h.2 y hy

theorem domain_good {L : Lib} (hL : L.Canonical) {l d : List Char} (h : domain L l = some d) :
    domain L d = some d ∧ d ≠ [] ∧ ∀ c ∈ d, domainChar c = true := by
  unfold domain at h
  split at h
  · cases h
  · rename_i d' hd
    split at h
    · cases h
    · rename_i hcond
      cases h
      simp only [Bool.or_eq_true, not_or, List.isEmpty_iff, Bool.not_eq_true, List.any_eq_false] at hcond
      have hasc : ∀ c ∈ d, c.toNat < 128 := by
        split at hd
        · rename_i hp
          cases hd
          intro c hc
          obtain ⟨x, hx, rfl⟩ := List.mem_map.mp hc
          exact (toLower_ascii (plain_ascii hp x hx)).1.1
        · exact hL.ascii _ _ hd
      refine ⟨?_, hcond.1, fun c hc => ?_⟩
      · have : (if plain d then some (d.map Char.toLower) else L.toAscii d) = some d := by
          split at hd
          · rename_i hp
            cases hd
            rw [if_pos (plain_lower hp), map_lower_lower (plain_ascii hp)]
          · have := hL.again _ _ hd
            by_cases hp : plain d = true
            · rw [if_pos hp] at this ⊢; rw [this]
            · rw [if_neg hp] at this ⊢; exact this
        unfold domain
        rw [this]
        simp only
        rw [if_neg]
        simp only [Bool.or_eq_true, not_or, List.isEmpty_iff, Bool.not_eq_true, List.any_eq_false]
        exact hcond
      · have hf := hcond.2 c hc
        have := ascii_all (fun c => forbidden c || domainChar c) (by decide +kernel) (hasc c hc)
        simp only [Bool.or_eq_true] at this
        exact this.resolve_left (by simpa using hf)

theorem utf8_ascii {l : List Char} (h : ∀ c ∈ l, c.toNat < 128) :
    utf8 (String.ofList l) = l.map fun c => UInt8.ofNat c.toNat := by
  induction l with
  | nil => exact utf8_empty
  | cons c l ih =>
    have hc : String.utf8EncodeChar c = [UInt8.ofNat c.toNat] := by
      have := h c (List.mem_cons_self ..)
      rw [String.utf8EncodeChar_eq_singleton]
      · rfl
      · exact Char.utf8Size_eq_one_iff.mpr (by
          show c.val.toNat ≤ 127
          exact Nat.le_of_lt_succ this)
    have e : utf8 (String.ofList (c :: l)) = String.utf8EncodeChar c ++ utf8 (String.ofList l) := by
      unfold utf8
      rw [String.toByteArray_ofList, String.toByteArray_ofList, List.utf8Encode_cons, List.utf8Encode_singleton]
      simp
    rw [e, hc, ih fun x hx => h x (List.mem_cons_of_mem _ hx)]
    rfl

theorem percentDecode_none {b : Bytes} (h : 37 ∉ b) : Form.percentDecode b = b := by
  induction b with
  | nil => simp [Form.percentDecode]
  | cons x b ih =>
    rw [Form.percentDecode_other (fun e => h (by simp [e])), ih fun hm => h (List.mem_cons_of_mem _ hm)]

/-- Texts without `%` are their own decodings. -/
theorem decoded {l : List Char} (h : ∀ c ∈ l, c.toNat < 128 ∧ c ≠ '%') :
    (Form.lossy (Form.percentDecode (utf8 (String.ofList l)))).toList = l := by
  rw [percentDecode_none, Form.lossy_utf8, String.toList_ofList]
  rw [utf8_ascii fun c hc => (h c hc).1]
  intro hm
  obtain ⟨c, hc, he⟩ := List.mem_map.mp hm
  obtain ⟨h1, h2⟩ := h c hc
  have := ascii_all (fun c => UInt8.ofNat c.toNat != 37 || c == '%') (by decide +kernel) h1
  simp [he, h2] at this

theorem parts_octets {a b c d : List Char} (ha : '.' ∉ a) (hb : '.' ∉ b) (hc : '.' ∉ c) (hd : '.' ∉ d) (hne : d ≠ []) :
    parts (a ++ '.' :: b ++ '.' :: c ++ '.' :: d) = [a, b, c, d] := by
  have : labels (a ++ '.' :: b ++ '.' :: c ++ '.' :: d) = [a, b, c, d] := by
    simp only [List.append_assoc, List.cons_append]
    rw [labels_append _ ha, labels_append _ hb, labels_append _ hc, labels_one hd]
  unfold parts
  simp only [this]
  rw [if_neg]
  simp [hne]

/-- A number in an address. -/
def octetOk (n : Nat) : Bool :=
  ipv4Number (decimal n) == some n && (decimal n).all digit && !(decimal n).isEmpty && !(decimal n).contains '.'

theorem octet {n : Nat} (h : n < 256) : ipv4Number (decimal n) = some n ∧ (∀ c ∈ decimal n, digit c = true) ∧
    decimal n ≠ [] ∧ '.' ∉ decimal n := by
  have : (List.range 256).all octetOk = true := by decide +kernel
  have := List.all_eq_true.mp this n (List.mem_range.mpr h)
  simpa [octetOk, and_assoc] using this

theorem digit_facts {c : Char} (h : digit c = true ∨ c = '.') :
    c.toNat < 128 ∧ domainChar c = true ∧ c.toLower = c ∧ c ≠ 'x' ∧ c ≠ '[' ∧ c ≠ '%' := by
  have hlt : c.toNat < 128 := by
    rcases h with h | rfl
    · simp only [digit, Bool.and_eq_true, decide_eq_true_eq] at h
      have : c.toNat ≤ '9'.toNat := h.2
      have e : '9'.toNat = 57 := rfl
      omega
    · decide
  have := ascii_all (fun c => !(digit c || c == '.') || (domainChar c && c.toLower == c && c != 'x' && c != '[' && c != '%')) (by decide +kernel) hlt
  have hd : (digit c || c == '.') = true := by rcases h with h | h <;> simp [h]
  rw [hd] at this
  simp [and_assoc] at this
  exact ⟨hlt, this⟩

theorem ipv4Text_chars (n : Nat) : ∀ c ∈ ipv4Text n, digit c = true ∨ c = '.' := by
  intro c hc
  have h1 := (octet (n := n / 256 ^ 3 % 256) (by omega)).2.1 c
  have h2 := (octet (n := n / 256 ^ 2 % 256) (by omega)).2.1 c
  have h3 := (octet (n := n / 256 % 256) (by omega)).2.1 c
  have h4 := (octet (n := n % 256) (by omega)).2.1 c
  simp only [ipv4Text, List.mem_append, List.mem_cons] at hc
  rcases hc with ((hc | rfl | hc) | rfl | hc) | rfl | hc
  · exact .inl (h1 hc)
  · exact .inr rfl
  · exact .inl (h2 hc)
  · exact .inr rfl
  · exact .inl (h3 hc)
  · exact .inr rfl
  · exact .inl (h4 hc)

theorem ipv4Text_ne (n : Nat) : ipv4Text n ≠ [] := by simp [ipv4Text]

theorem ipv4Text_head (n : Nat) : ∃ c r, ipv4Text n = c :: r ∧ digit c = true := by
  obtain ⟨_, h2, h3, _⟩ := octet (n := n / 256 ^ 3 % 256) (by omega)
  unfold ipv4Text
  cases hd : decimal (n / 256 ^ 3 % 256) with
  | nil => exact (h3 hd).elim
  | cons c r => exact ⟨c, _, rfl, h2 c (by rw [hd]; exact List.mem_cons_self ..)⟩

theorem ipv4_text {n : Nat} (h : n < 256 ^ 4) : ipv4 (ipv4Text n) = some n ∧ endsInNumber (ipv4Text n) = true := by
  obtain ⟨a1, a2, a3, a4⟩ := octet (n := n / 256 ^ 3 % 256) (by omega)
  obtain ⟨b1, b2, b3, b4⟩ := octet (n := n / 256 ^ 2 % 256) (by omega)
  obtain ⟨c1, c2, c3, c4⟩ := octet (n := n / 256 % 256) (by omega)
  obtain ⟨d1, d2, d3, d4⟩ := octet (n := n % 256) (by omega)
  have hp : parts (ipv4Text n) = [decimal (n / 256 ^ 3 % 256), decimal (n / 256 ^ 2 % 256), decimal (n / 256 % 256),
      decimal (n % 256)] := parts_octets a4 b4 c4 d4 d3
  constructor
  · unfold ipv4
    rw [hp]
    simp only [List.mapM_cons, List.mapM_nil, a1, b1, c1, d1]
    simp [List.zipIdx]
    omega
  · unfold endsInNumber
    rw [hp]
    simp [d1]

theorem plain_digits {l : List Char} (h : ∀ c ∈ l, digit c = true ∨ c = '.') : plain l = true ∧ l.map Char.toLower = l := by
  constructor
  · simp only [plain, Bool.and_eq_true, List.all_eq_true, decide_eq_true_eq]
    refine ⟨fun c hc => (digit_facts (h c hc)).1, fun x hx => ?_⟩
    have hx' : x.map Char.toLower = x := by
      conv => rhs; rw [← List.map_id x]
      exact List.map_congr_left fun c hc => (digit_facts (h c (mem_labels hx c hc))).2.2.1
    rw [hx', bne_iff_ne]
    intro he
    have : 'x' ∈ x := List.mem_of_mem_take (i := 4) (by rw [he]; decide)
    exact (digit_facts (h _ (mem_labels hx _ this))).2.2.2.1 rfl
  · conv => rhs; rw [← List.map_id l]
    exact List.map_congr_left fun c hc => (digit_facts (h c hc)).2.2.1

theorem domain_ipv4 (L : Lib) (n : Nat) : domain L (ipv4Text n) = some (ipv4Text n) := by
  obtain ⟨h1, h2⟩ := plain_digits (ipv4Text_chars n)
  unfold domain
  rw [h1, if_pos rfl, h2]
  simp only
  rw [if_neg]
  simp only [Bool.or_eq_true, not_or, List.isEmpty_iff, Bool.not_eq_true, List.any_eq_false]
  refine ⟨ipv4Text_ne n, fun c hc => ?_⟩
  have := (digit_facts (ipv4Text_chars n c hc)).2.1
  simp only [domainChar, Bool.and_eq_true, Bool.not_eq_true'] at this
  simp [this.2]

theorem ipv4_lt {d : List Char} {n : Nat} (h : ipv4 d = some n) : n < 256 ^ 4 := by
  unfold ipv4 at h
  split at h
  · cases h
  · rename_i ns _
    split at h
    · cases h
    · rename_i h1
      split at h
      · cases h
      · rename_i h2
        split at h
        · cases h
        · rename_i h3
          cases h
          match ns, h1, h2, h3 with
          | [], h1, _, _ => simp at h1
          | [a], _, _, h3 => simp at h3 ⊢; omega
          | [a, b], _, h2, h3 => simp [List.zipIdx] at h2 h3 ⊢; omega
          | [a, b, c], _, h2, h3 => simp [List.zipIdx] at h2 h3 ⊢; omega
          | [a, b, c, d], _, h2, h3 => simp [List.zipIdx] at h2 h3 ⊢; omega
          | _ :: _ :: _ :: _ :: _ :: _, h1, _, _ => simp at h1

theorem hostEnd_domain {h : List Char} (hc : ∀ c ∈ h, c ≠ ':' ∧ c ≠ '[') {r : List Char}
    (hr : r = [] ∨ ∃ r', r = ':' :: r') : hostEnd false (h ++ r) = (h, r) := by
  induction h with
  | nil =>
    rcases hr with rfl | ⟨r', rfl⟩
    · rfl
    · simp [hostEnd]
  | cons c h ih =>
    obtain ⟨h1, h2⟩ := hc c (List.mem_cons_self ..)
    have ih := ih fun x hx => hc x (List.mem_cons_of_mem _ hx)
    rw [List.cons_append, hostEnd, if_neg (fun e => h1 e.1), if_neg h2]
    simp only [ite_self]
    rw [ih]

theorem hostEnd_inside {a r : List Char} (hc : ∀ c ∈ a, c ≠ '[' ∧ c ≠ ']') :
    hostEnd true (a ++ ']' :: r) = (a ++ ']' :: (hostEnd false r).1, (hostEnd false r).2) := by
  induction a with
  | nil => simp [hostEnd]
  | cons c a ih =>
    obtain ⟨h1, h2⟩ := hc c (List.mem_cons_self ..)
    have ih := ih fun x hx => hc x (List.mem_cons_of_mem _ hx)
    rw [List.cons_append, hostEnd, if_neg (by simp), if_neg h1, if_neg h2]
    simp only
    rw [ih]
    rfl

/-- A host in its canonical form. -/
structure HostOk (L : Lib) (h : List Char) : Prop where
  again : host L h = some h
  chars : ∀ c ∈ h, authChar c = true
  ends : ∀ r, (r = [] ∨ ∃ r', r = ':' :: r') → hostEnd false (h ++ r) = (h, r)
  ne : h ≠ []

theorem domainChar_auth {c : Char} (h : domainChar c = true) :
    c.toNat < 128 ∧ authChar c = true ∧ c ≠ ':' ∧ c ≠ '[' ∧ c ≠ '%' := by
  have hlt : c.toNat < 128 := by
    simp only [domainChar, Bool.and_eq_true] at h
    exact vis_lt h.1
  have := ascii_all (fun c => !domainChar c || (authChar c && c != ':' && c != '[' && c != '%')) (by decide +kernel) hlt
  rw [h] at this
  simp [and_assoc] at this
  exact ⟨hlt, this⟩

theorem host_domain {L : Lib} {d : List Char} (hne : d ≠ []) (hb : ∀ c ∈ d, c ≠ '[')
    {e : List Char} (hd : domain L (Form.lossy (Form.percentDecode (utf8 (String.ofList d)))).toList = some e) :
    host L d = if endsInNumber e then (ipv4 e).map ipv4Text else some e := by
  unfold host
  split
  · exact (hne rfl).elim
  · exact (hb _ (List.mem_cons_self ..) rfl).elim
  · rw [hd]

theorem hostOk_of_domain {L : Lib} {d : List Char} (hne : d ≠ []) (hc : ∀ c ∈ d, domainChar c = true)
    (hd : domain L d = some d) (he : endsInNumber d = true → (ipv4 d).map ipv4Text = some d) : HostOk L d := by
  refine ⟨?_, fun c h => (domainChar_auth (hc c h)).2.1,
    fun r hr => hostEnd_domain (fun c h => ⟨(domainChar_auth (hc c h)).2.2.1, (domainChar_auth (hc c h)).2.2.2.1⟩) hr, hne⟩
  rw [host_domain hne (fun c h => (domainChar_auth (hc c h)).2.2.2.1) (e := d)]
  · split
    · rename_i h; exact he h
    · rfl
  · rw [decoded fun c h => ⟨(domainChar_auth (hc c h)).1, (domainChar_auth (hc c h)).2.2.2.2⟩]
    exact hd

theorem host_good {L : Lib} (hL : L.Canonical) {l h : List Char} (hh : host L l = some h) : HostOk L h := by
  unfold host at hh
  split at hh
  · cases hh
  · rename_i r
    split at hh
    · cases ha : L.ipv6 r.dropLast with
      | none => rw [ha] at hh; cases hh
      | some a =>
        rw [ha] at hh
        cases hh
        obtain ⟨h1, h2⟩ := hL.ipv6 _ _ ha
        have hch : ∀ c ∈ a, c.toNat < 128 ∧ authChar c = true ∧ c ≠ '[' ∧ c ≠ ']' := by
          intro c hc
          have h := h2 c hc
          have hlt : c.toNat < 128 := by
            rcases h with h | rfl | rfl
            · simp only [hexDigit, digit, Bool.and_eq_true, Bool.or_eq_true, decide_eq_true_eq] at h
              have e1 : '9'.toNat = 57 := rfl
              have e2 : 'f'.toNat = 102 := rfl
              have e3 : 'F'.toNat = 70 := rfl
              rcases h with (h | h) | h
              · have : c.toNat ≤ '9'.toNat := h.2; omega
              · have : c.toNat ≤ 'f'.toNat := h.2; omega
              · have : c.toNat ≤ 'F'.toNat := h.2; omega
            · decide
            · decide
          have := ascii_all (fun c => !(hexDigit c || c == ':' || c == '.') || (authChar c && c != '[' && c != ']'))
            (by decide +kernel) hlt
          have he : (hexDigit c || c == ':' || c == '.') = true := by rcases h with h | h | h <;> simp [h]
          rw [he] at this
          simp [and_assoc] at this
          exact ⟨hlt, this⟩
        refine ⟨?_, ?_, fun r hr => ?_, by simp⟩
        · show (if (a ++ [']']).getLast? = some ']' then _ else none) = _
          rw [if_pos (by simp), show (a.append [']']).dropLast = a from List.dropLast_concat, h1]
          rfl
        · intro c hc
          simp only [List.cons_append, List.mem_cons, List.mem_append, List.not_mem_nil, or_false] at hc
          rcases hc with rfl | hc | rfl
          · decide +kernel
          · exact (hch c hc).2.1
          · decide +kernel
        · have hr0 := hostEnd_domain (h := []) (by simp) hr
          rw [List.nil_append] at hr0
          simp only [List.cons_append, List.append_assoc, List.nil_append]
          rw [hostEnd, if_neg (by decide)]
          simp only [if_pos]
          rw [hostEnd_inside fun c hc => ⟨(hch c hc).2.2.1, (hch c hc).2.2.2⟩, hr0]
    · cases hh
  · split at hh
    · cases hh
    · rename_i d hd
      obtain ⟨h1, h2, h3⟩ := domain_good hL hd
      split at hh
      · rename_i he
        cases hn : ipv4 d with
        | none => rw [hn] at hh; cases hh
        | some n =>
          rw [hn] at hh
          cases hh
          obtain ⟨k1, k2⟩ := ipv4_text (ipv4_lt hn)
          refine hostOk_of_domain (ipv4Text_ne n) (fun c hc => (digit_facts (ipv4Text_chars n c hc)).2.1) (domain_ipv4 L n)
            fun _ => ?_
          rw [k1]
          rfl
      · rename_i he
        cases hh
        exact hostOk_of_domain h2 h3 h1 fun h => (he h).elim

/-! ## Whole URLs -/

/-- The text of a URL in its parts. -/
def Parts.text (p : Parts) : List Char :=
  p.scheme ++ "://".toList ++ p.userinfo ++ p.host ++ portText p.port ++ p.path ++ marked '?' p.query ++ marked '#' p.fragment

def stdPort (s : List Char) : Nat := if s = "http".toList then 80 else 443

/-- A URL in its canonical form. -/
structure Parts.Good (L : Lib) (p : Parts) : Prop where
  scheme : p.scheme = "http".toList ∨ p.scheme = "https".toList
  userinfo : p.userinfo = [] ∨ ∃ t, p.userinfo = t ++ ['@'] ∧ ∀ c ∈ t, authChar c = true
  host : HostOk L p.host
  port : ∀ n, p.port = some n → n ≤ 65535 ∧ n ≠ stdPort p.scheme
  path : (∃ t, p.path = '/' :: t) ∧ ∀ c ∈ p.path, pathChar c = true
  query : ∀ q, p.query = some q → ∀ c ∈ q, queryChar c = true
  fragment : ∀ q, p.fragment = some q → ∀ c ∈ q, vis c = true

theorem authChar_vis {c : Char} (h : authChar c = true) : vis c = true ∧ ender c = false ∧ c ≠ '@' := by
  simpa [authChar, and_assoc] using h

theorem pathChar_vis {c : Char} (h : pathChar c = true) : vis c = true ∧ c ≠ '?' ∧ c ≠ '#' := by
  simpa [pathChar, and_assoc] using h

theorem queryChar_vis {c : Char} (h : queryChar c = true) : vis c = true ∧ inQuery c = false ∧ c ≠ '#' := by
  simp only [queryChar, Bool.and_eq_true, Bool.not_eq_true'] at h
  refine ⟨h.1, h.2, ?_⟩
  rintro rfl
  exact absurd h.2 (by decide +kernel)

theorem digit_auth {c : Char} (h : digit c = true) : authChar c = true :=
  (domainChar_auth (digit_facts (.inl h)).2.1).2.1

theorem decimal_digits {n : Nat} : ∀ c ∈ decimal n, digit c = true := by
  intro c hc
  have := Nat.isDigit_of_mem_toDigits (by decide) (by decide) hc
  simp only [Char.isDigit, Bool.and_eq_true, decide_eq_true_eq] at this
  simp only [digit, Bool.and_eq_true, decide_eq_true_eq]
  exact this

theorem portText_auth (x : Option Nat) : ∀ c ∈ portText x, authChar c = true := by
  intro c hc
  cases x with
  | none => cases hc
  | some n =>
    rcases List.mem_cons.mp hc with rfl | hc
    · decide +kernel
    · exact digit_auth (decimal_digits c hc)

theorem number_decimal (n : Nat) : number 10 (decimal n) = n := by
  have h : ∀ (l : List Char) (k : Nat), (∀ c ∈ l, digit c = true) →
      l.foldl (fun n c => n * 10 + digitVal c) k = Nat.ofDigitChars 10 l k := by
    intro l
    induction l with
    | nil => intro k _; rfl
    | cons c l ih =>
      intro k h
      have hc := h c (List.mem_cons_self ..)
      rw [List.foldl_cons, ih _ fun x hx => h x (List.mem_cons_of_mem _ hx)]
      simp only [Nat.ofDigitChars_eq_foldl, List.foldl_cons]
      congr 1
      simp only [digitVal, hc, if_true]
      have : '0'.toNat = 48 := rfl
      omega
  exact (h _ _ decimal_digits).trans Nat.ofDigitChars_ten_toDigits

theorem port_text {s : List Char} {x : Option Nat} (h : ∀ n, x = some n → n ≤ 65535 ∧ n ≠ stdPort s) :
    port (if s = "http".toList then 80 else 443) (portText x) = some x := by
  cases x with
  | none => rfl
  | some n =>
    obtain ⟨h1, h2⟩ := h n rfl
    unfold stdPort at h2
    unfold port portText
    simp only
    rw [if_pos (List.all_eq_true.mpr decimal_digits), if_neg (by unfold decimal; simp), number_decimal,
      if_neg (by omega), if_neg h2]

theorem port_le {d : Nat} {l : List Char} {x : Option Nat} (h : port d l = some x) :
    ∀ n, x = some n → n ≤ 65535 ∧ n ≠ d := by
  unfold port at h
  rintro n rfl
  split at h
  · cases h
  · split at h
    · split at h
      · cases h
      · split at h
        · cases h
        · split at h
          · cases h
          · cases h
            exact ⟨by omega, by assumption⟩
    · cases h

theorem port_good {s l : List Char} {x : Option Nat} (h : port (if s = "http".toList then 80 else 443) l = some x) :
    ∀ n, x = some n → n ≤ 65535 ∧ n ≠ stdPort s := port_le h

theorem tail_good (l : List Char) : ((∃ t, (tail l).1 = '/' :: t) ∧ ∀ c ∈ (tail l).1, pathChar c = true) ∧
    (∀ q, (tail l).2.1 = some q → ∀ c ∈ q, queryChar c = true) ∧ ∀ q, (tail l).2.2 = some q → ∀ c ∈ q, vis c = true := by
  refine ⟨path_good _, fun q hq => ?_, fun q hq => ?_⟩
  · simp only [tail] at hq
    split at hq
    · cases hq
    · cases hq; exact query_chars _
  · simp only [tail] at hq
    split at hq
    · cases hq
    · cases hq; exact fragment_chars _

theorem special_good {L : Lib} (hL : L.Canonical) {s l : List Char} {p : Parts}
    (hs : s = "http".toList ∨ s = "https".toList) (h : special L s l = some p) : p.Good L ∧ p.scheme = s := by
  unfold special at h
  simp only at h
  split at h
  · rename_i h1 h2
    cases h
    exact ⟨⟨hs, userinfo_good _, host_good hL h1, port_good h2, (tail_good _).1, (tail_good _).2.1, (tail_good _).2.2⟩, rfl⟩
  · cases h

theorem takeWhile_all {f : Char → Bool} {a b : List Char} (h : ∀ c ∈ a, f c = true)
    (hb : ∀ c, b.head? = some c → f c = false) : (a ++ b).takeWhile f = a := by
  induction a with
  | nil =>
    cases b with
    | nil => rfl
    | cons c b => simp [hb c rfl]
  | cons c a ih =>
    rw [List.cons_append, List.takeWhile_cons, if_pos (h c (List.mem_cons_self ..)),
      ih fun x hx => h x (List.mem_cons_of_mem _ hx)]

theorem dropWhile_none {f : Char → Bool} {l : List Char} (h : ∀ c, l.head? = some c → f c = false) : l.dropWhile f = l := by
  cases l with
  | nil => rfl
  | cons c l => simp [h c rfl]

theorem clean_vis {l : List Char} (h : ∀ c ∈ l, vis c = true) : clean l = l := by
  have ht : ∀ l : List Char, (∀ c ∈ l, vis c = true) → (l.dropWhile fun c => decide (c.toNat ≤ 32)) = l := by
    intro l h
    apply dropWhile_none
    intro c hc
    have := vis_gt (h c (List.mem_of_mem_head? hc))
    simp; omega
  unfold clean
  simp only
  rw [ht l h, ht l.reverse fun c hc => h c (List.mem_reverse.mp hc), List.reverse_reverse, List.filter_eq_self]
  intro c hc
  have := vis_gt (h c hc)
  simp only [Bool.and_eq_true, bne_iff_ne, ne_eq]
  refine ⟨⟨?_, ?_⟩, ?_⟩ <;> rintro rfl <;> simp at this

theorem cutLast_none {c : Char} {l : List Char} (h : c ∉ l) : cutLast c l = (none, l) := by
  unfold cutLast
  have : l.reverse.takeWhile (· != c) = l.reverse := by
    have := takeWhile_all (f := (· != c)) (a := l.reverse) (b := []) (fun x hx => by
      rw [bne_iff_ne]; rintro rfl; exact h (List.mem_reverse.mp hx)) (by simp)
    simpa using this
  simp only [this, List.length_reverse, if_true]

theorem cutLast_some {c : Char} {a b : List Char} (h : c ∉ b) : cutLast c (a ++ c :: b) = (some a, b) := by
  unfold cutLast
  have : (a ++ c :: b).reverse.takeWhile (· != c) = b.reverse := by
    rw [List.reverse_append, List.reverse_cons, List.append_assoc]
    refine takeWhile_all (fun x hx => ?_) (by simp)
    rw [bne_iff_ne]; rintro rfl; exact h (List.mem_reverse.mp hx)
  simp only [this, List.length_reverse, List.reverse_reverse]
  rw [if_neg (by simp; omega)]
  have : (a ++ c :: b).length - b.length - 1 = a.length := by simp; omega
  rw [this, List.take_left]

theorem tail_text {pa : List Char} {q f : Option (List Char)} (hp : ∀ c ∈ pa, pathChar c = true)
    (hq : ∀ x, q = some x → ∀ c ∈ x, queryChar c = true) :
    (tail (pa ++ marked '?' q ++ marked '#' f)).2.1 = q := by
  have h1 : (pa ++ marked '?' q ++ marked '#' f).takeWhile (· != '#') = pa ++ marked '?' q := by
    refine takeWhile_all (fun c hc => ?_) (fun c hc => ?_)
    · rw [bne_iff_ne]
      rcases List.mem_append.mp hc with hc | hc
      · exact (pathChar_vis (hp c hc)).2.2
      · cases q with
        | none => cases hc
        | some x =>
          rcases List.mem_cons.mp hc with rfl | hc
          · decide
          · exact (queryChar_vis (hq x rfl c hc)).2.2
    · cases f with
      | none => cases hc
      | some x => cases hc; rfl
  have h2 : (pa ++ marked '?' q).takeWhile (· != '?') = pa := by
    refine takeWhile_all (fun c hc => ?_) (fun c hc => ?_)
    · rw [bne_iff_ne]
      exact (pathChar_vis (hp c hc)).2.1
    · cases q with
      | none => cases hc
      | some x => cases hc; rfl
  unfold tail
  simp only [h1, h2]
  cases q with
  | none => simp [marked]
  | some x =>
    rw [if_neg (by simp [marked])]
    have : (pa ++ marked '?' (some x)).drop (pa.length + 1) = x := by simp [marked]
    rw [this, percentEncode_id fun c hc => ⟨vis_lt (queryChar_vis (hq x rfl c hc)).1, (queryChar_vis (hq x rfl c hc)).2.1⟩]

theorem scheme_text {s : List Char} (hs : s = "http".toList ∨ s = "https".toList) (r : List Char) :
    scheme (s ++ ':' :: r) = some (s, r) := by
  rcases hs with rfl | rfl <;> rfl

/-- The text of a canonical URL is read as what it is (path, user and fragment aside). -/
theorem special_text {L : Lib} {p : Parts} (h : p.Good L) :
    (scheme (clean p.text) = some (p.scheme, "//".toList ++ p.userinfo ++ p.host ++ portText p.port ++ p.path ++
      marked '?' p.query ++ marked '#' p.fragment)) ∧
    ∃ p', special L p.scheme ("//".toList ++ p.userinfo ++ p.host ++ portText p.port ++ p.path ++
        marked '?' p.query ++ marked '#' p.fragment) = some p' ∧
      p'.scheme = p.scheme ∧ p'.host = p.host ∧ p'.port = p.port ∧ p'.query = p.query := by
  have hui : ∀ c ∈ p.userinfo, vis c = true ∧ ender c = false := by
    intro c hc
    rcases h.userinfo with h0 | ⟨t, h0, ht⟩
    · rw [h0] at hc; cases hc
    · rw [h0] at hc
      rcases List.mem_append.mp hc with hc | hc
      · exact ⟨(authChar_vis (ht c hc)).1, (authChar_vis (ht c hc)).2.1⟩
      · rw [List.mem_singleton] at hc; subst hc; decide +kernel
  have hhp : ∀ c ∈ p.host ++ portText p.port, authChar c = true := by
    intro c hc
    rcases List.mem_append.mp hc with hc | hc
    · exact h.host.chars c hc
    · exact portText_auth _ c hc
  constructor
  · rw [clean_vis]
    · have : p.text = p.scheme ++ ':' :: ("//".toList ++ p.userinfo ++ p.host ++ portText p.port ++ p.path ++
          marked '?' p.query ++ marked '#' p.fragment) := by
        unfold Parts.text
        simp
      rw [this, scheme_text h.scheme]
    · intro c hc
      simp only [Parts.text, List.mem_append] at hc
      rcases hc with ((((((hc | hc) | hc) | hc) | hc) | hc) | hc) | hc
      · rcases h.scheme with e | e <;> rw [e] at hc <;> revert c <;> decide +kernel
      · revert c; decide +kernel
      · exact (hui c hc).1
      · exact (authChar_vis (h.host.chars c hc)).1
      · exact (authChar_vis (portText_auth _ c hc)).1
      · exact (pathChar_vis (h.path.2 c hc)).1
      · cases hq : p.query with
        | none => rw [hq] at hc; cases hc
        | some q =>
          rw [hq] at hc
          rcases List.mem_cons.mp hc with rfl | hc
          · decide +kernel
          · exact (queryChar_vis (h.query q hq c hc)).1
      · cases hq : p.fragment with
        | none => rw [hq] at hc; cases hc
        | some q =>
          rw [hq] at hc
          rcases List.mem_cons.mp hc with rfl | hc
          · decide +kernel
          · exact h.fragment q hq c hc
  · have hauth : ∀ c ∈ p.userinfo ++ (p.host ++ portText p.port), ender c = false := by
      intro c hc
      rcases List.mem_append.mp hc with hc | hc
      · exact (hui c hc).2
      · exact (authChar_vis (hhp c hc)).2.1
    obtain ⟨t, ht⟩ := h.path.1
    have hdrop : ("//".toList ++ p.userinfo ++ p.host ++ portText p.port ++ p.path ++ marked '?' p.query ++
        marked '#' p.fragment).dropWhile slash = (p.userinfo ++ (p.host ++ portText p.port)) ++
          (p.path ++ marked '?' p.query ++ marked '#' p.fragment) := by
      have : "//".toList ++ p.userinfo ++ p.host ++ portText p.port ++ p.path ++ marked '?' p.query ++
          marked '#' p.fragment = '/' :: '/' :: ((p.userinfo ++ (p.host ++ portText p.port)) ++
          (p.path ++ marked '?' p.query ++ marked '#' p.fragment)) := by simp
      rw [this, List.dropWhile_cons_of_pos (by decide), List.dropWhile_cons_of_pos (by decide)]
      apply dropWhile_none
      intro c hc
      have hm : c ∈ p.userinfo ++ (p.host ++ portText p.port) := by
        have hne : p.userinfo ++ (p.host ++ portText p.port) ≠ [] := by simp [h.host.ne]
        cases hl : p.userinfo ++ (p.host ++ portText p.port) with
        | nil => exact (hne hl).elim
        | cons x r => rw [hl] at hc; cases hc; exact List.mem_cons_self ..
      have := hauth c hm
      simp only [ender, Bool.or_eq_false_iff] at this
      exact this.1.1
    have htake : ((p.userinfo ++ (p.host ++ portText p.port)) ++
          (p.path ++ marked '?' p.query ++ marked '#' p.fragment)).takeWhile (!ender ·) =
        p.userinfo ++ (p.host ++ portText p.port) := by
      refine takeWhile_all (fun c hc => by simp [hauth c hc]) (fun c hc => ?_)
      rw [ht] at hc
      cases hc
      decide
    have hcut : (cutLast '@' (p.userinfo ++ (p.host ++ portText p.port))).2 = p.host ++ portText p.port := by
      have hno : '@' ∉ p.host ++ portText p.port := fun hm => (authChar_vis (hhp _ hm)).2.2 rfl
      rcases h.userinfo with h0 | ⟨t, h0, ht⟩
      · rw [h0, List.nil_append, cutLast_none hno]
      · rw [h0, List.append_assoc, List.singleton_append, cutLast_some hno]
    have hend : hostEnd false (p.host ++ portText p.port) = (p.host, portText p.port) := by
      apply h.host.ends
      cases p.port with
      | none => exact .inl rfl
      | some n => exact .inr ⟨_, rfl⟩
    unfold special
    simp only [hdrop, htake, hcut, hend, h.host.again, port_text h.port]
    refine ⟨_, rfl, rfl, rfl, rfl, ?_⟩
    simp only [List.drop_left]
    exact tail_text h.path.2 h.query

/-! ## Writing URLs -/

theorem pieces_append {a : List Char} (b : List Char) (h : '\n' ∉ a) : pieces (a ++ '\n' :: b) = a :: pieces b := by
  induction a with
  | nil => simp [pieces]
  | cons c r ih =>
    have hc : c ≠ '\n' := fun e => h (by simp [e])
    have := ih fun hm => h (List.mem_cons_of_mem _ hm)
    rw [List.cons_append, pieces, if_neg hc, this]

theorem pieces_one {a : List Char} (h : '\n' ∉ a) : pieces a = [a] := by
  induction a with
  | nil => rfl
  | cons c r ih =>
    have hc : c ≠ '\n' := fun e => h (by simp [e])
    rw [pieces, if_neg hc, ih fun hm => h (List.mem_cons_of_mem _ hm)]

/-- The bytes of a query. -/
def bytesOf (q : Option (List Char)) : Option Bytes := q.map fun q => utf8 (String.ofList q)

/-- The query with added pairs. -/
def added (q : Option (List Char)) (ps : List (String × String)) : Option (List Char) :=
  if ps.isEmpty then q else some (ascii (Form.withParams (bytesOf q) ps))

theorem extendPairs_mem {t : Bytes} {ps : List (String × String)} {b : UInt8} (h : b ∈ Form.extendPairs t ps) :
    b ∈ t ∨ FormSpec.Harmless b := by
  induction ps generalizing t with
  | nil => exact .inl h
  | cons p ps ih =>
    rcases ih (t := Form.appendPair t p) h with h | h
    · unfold Form.appendPair at h
      simp only [List.mem_append] at h
      rcases h with (((h | h) | h) | h) | h
      · exact .inl h
      · split at h
        · cases h
        · rw [List.mem_singleton] at h; subst h
          exact .inr (by unfold FormSpec.Harmless; decide +kernel)
      · exact .inr (Form.encode_harmless _ b h)
      · rw [List.mem_singleton] at h; subst h
        exact .inr (by unfold FormSpec.Harmless; decide +kernel)
      · exact .inr (Form.encode_harmless _ b h)
    · exact .inr h

theorem harmless_query {b : UInt8} (h : FormSpec.Harmless b) : b.toNat < 128 ∧ queryChar (Char.ofNat b.toNat) = true := by
  have hlt : b.toNat < 128 := by
    unfold FormSpec.Harmless at h
    rcases h with h | h | h | h
    · omega
    · omega
    · omega
    · revert b; decide +kernel
  refine ⟨hlt, ?_⟩
  have hb : UInt8.ofNat b.toNat = b := UInt8.ofNat_toNat
  have : ∀ n < 128, ((48 ≤ n ∧ n ≤ 57) ∨ (65 ≤ n ∧ n ≤ 90) ∨ (97 ≤ n ∧ n ≤ 122) ∨
      UInt8.ofNat n ∈ "*-._+%=&".toList.map (fun c => UInt8.ofNat c.toNat)) → queryChar (Char.ofNat n) = true := by decide +kernel
  refine this _ hlt ?_
  rw [hb]
  exact h

theorem query_byte {q : List Char} (h : ∀ c ∈ q, queryChar c = true) :
    ∀ b ∈ utf8 (String.ofList q), b.toNat < 128 ∧ queryChar (Char.ofNat b.toNat) = true := by
  intro b hb
  rw [utf8_ascii fun c hc => vis_lt (queryChar_vis (h c hc)).1] at hb
  obtain ⟨c, hc, rfl⟩ := List.mem_map.mp hb
  have hlt := vis_lt (queryChar_vis (h c hc)).1
  have e : (UInt8.ofNat c.toNat).toNat = c.toNat := by simp; omega
  rw [e, Char.ofNat_toNat]
  exact ⟨hlt, h c hc⟩

theorem withParams_byte {q : Option (List Char)} (h : ∀ x, q = some x → ∀ c ∈ x, queryChar c = true)
    (ps : List (String × String)) :
    ∀ b ∈ Form.withParams (bytesOf q) ps, b.toNat < 128 ∧ queryChar (Char.ofNat b.toNat) = true := by
  intro b hb
  rcases extendPairs_mem hb with hb | hb
  · cases q with
    | none => cases hb
    | some x => exact query_byte (h x rfl) b hb
  · exact harmless_query hb

theorem utf8_ofBytes {b : Bytes} (h : ∀ x ∈ b, x.toNat < 128) : utf8 (String.ofList (ascii b)) = b := by
  have hv : ∀ x ∈ b, (Char.ofNat x.toNat).toNat = x.toNat := by
    intro x hx
    have := h x hx
    exact (by decide +kernel : ∀ n < 128, (Char.ofNat n).toNat = n) _ this
  rw [utf8_ascii]
  · unfold ascii
    rw [List.map_map]
    conv => rhs; rw [← List.map_id b]
    refine List.map_congr_left fun x hx => ?_
    simp only [Function.comp, hv x hx, UInt8.ofNat_toNat, id]
  · intro c hc
    obtain ⟨x, hx, rfl⟩ := List.mem_map.mp hc
    rw [hv x hx]
    exact h x hx

theorem added_good {q : Option (List Char)} (h : ∀ x, q = some x → ∀ c ∈ x, queryChar c = true) (ps : List (String × String)) :
    ∀ x, added q ps = some x → ∀ c ∈ x, queryChar c = true := by
  intro x hx c hc
  unfold added at hx
  split at hx
  · exact h x hx c hc
  · cases hx
    obtain ⟨b, hb, rfl⟩ := List.mem_map.mp hc
    exact (withParams_byte h ps b hb).2

theorem added_pairs {q : Option (List Char)} (h : ∀ x, q = some x → ∀ c ∈ x, queryChar c = true) (ps : List (String × String)) :
    Form.queryPairs (bytesOf (added q ps)) = Form.queryPairs (bytesOf q) ++ ps := by
  unfold added
  split
  · rename_i hp
    rw [List.isEmpty_iff.mp hp, List.append_nil]
  · show Form.parse (utf8 (String.ofList _)) = _
    rw [utf8_ofBytes fun b hb => (withParams_byte h ps b hb).1]
    exact Form.parse_withParams _ _

theorem queryText_added (q : Option (List Char)) (ps : List (String × String)) :
    queryText (marked '?' q) (Form.queryPairs (bytesOf q) ++ ps) = marked '?' (added q ps) := by
  cases q with
  | none =>
    show (if (List.drop (Form.queryPairs none).length (Form.queryPairs none ++ ps)).isEmpty then _ else
      '?' :: ascii (Form.withParams none (List.drop (Form.queryPairs none).length (Form.queryPairs none ++ ps)))) = _
    rw [List.drop_left]
    unfold added
    split <;> rfl
  | some x =>
    show (if (List.drop (Form.queryPairs (bytesOf (some x))).length (Form.queryPairs (bytesOf (some x)) ++ ps)).isEmpty then _ else
      '?' :: ascii (Form.withParams (bytesOf (some x))
        (List.drop (Form.queryPairs (bytesOf (some x))).length (Form.queryPairs (bytesOf (some x)) ++ ps)))) = _
    rw [List.drop_left]
    unfold added
    split <;> rfl

theorem Parts.Good.edit {L : Lib} {p : Parts} (h : p.Good L) {x : Option Nat} (hx : ∀ n, x = some n → n ≤ 65535 ∧ n ≠ stdPort p.scheme)
    (ps : List (String × String)) : Parts.Good L { p with port := x, query := added p.query ps } :=
  ⟨h.scheme, h.userinfo, h.host, hx, h.path, added_good h.query ps, h.fragment⟩

theorem vis_nl {l : List Char} (h : ∀ c ∈ l, vis c = true) : '\n' ∉ l := fun hm => absurd (h _ hm) (by decide +kernel)

theorem marked_nl {c : Char} (hc : c ≠ '\n') {q : Option (List Char)} (h : ∀ x, q = some x → ∀ c ∈ x, vis c = true) :
    '\n' ∉ marked c q := by
  cases q with
  | none => simp [marked]
  | some x =>
    simp only [marked, List.mem_cons, not_or]
    exact ⟨fun e => hc e.symm, vis_nl (h x rfl)⟩

theorem render_text {L : Lib} {p : Parts} (h : p.Good L) (x : Option Nat) (ps : List (String × String)) :
    render { p.url with port := x, query := p.url.query ++ ps } =
      String.ofList ({ p with port := x, query := added p.query ps } : Parts).text := by
  have hui : '\n' ∉ p.userinfo := by
    rcases h.userinfo with h0 | ⟨t, h0, ht⟩
    · simp [h0]
    · rw [h0, List.mem_append, not_or]
      exact ⟨vis_nl fun c hc => (authChar_vis (ht c hc)).1, by decide⟩
  have hpieces : pieces p.url.rest.toList = [p.userinfo, p.path, marked '?' p.query, marked '#' p.fragment] := by
    show pieces (String.ofList _).toList = _
    rw [String.toList_ofList]
    simp only [List.append_assoc, List.cons_append]
    rw [pieces_append _ hui, pieces_append _ (vis_nl fun c hc => (pathChar_vis (h.path.2 c hc)).1),
      pieces_append _ (marked_nl (by decide) fun x hx c hc => (queryChar_vis (h.query x hx c hc)).1),
      pieces_one (marked_nl (by decide) h.fragment)]
  unfold render
  simp only [hpieces]
  show String.ofList ((String.ofList p.scheme).toList ++ "://".toList ++ p.userinfo ++ (String.ofList p.host).toList ++ portText x ++
    p.path ++ queryText (marked '?' p.query) (Form.queryPairs (bytesOf p.query) ++ ps) ++ marked '#' p.fragment) = _
  rw [queryText_added, String.toList_ofList (l := p.scheme), String.toList_ofList (l := p.host)]
  rfl

/-- What is written is read again. -/
theorem reread {L : Lib} (hL : L.Canonical) {p : Parts} (h : p.Good L) {x : Option Nat}
    (hx : ∀ n, x = some n → n ≤ 65535 ∧ n ≠ stdPort p.scheme) (ps : List (String × String)) :
    ∃ p' r, scheme (clean (render { p.url with port := x, query := p.url.query ++ ps }).toList) = some (p.scheme, r) ∧
      special L p.scheme r = some p' ∧ p'.Good L ∧ p'.scheme = p.scheme ∧ p'.host = p.host ∧ p'.port = x ∧
      p'.query = added p.query ps := by
  obtain ⟨h1, p', h2, h3, h4, h5, h6⟩ := special_text (h.edit hx ps)
  refine ⟨p', _, ?_, h2, (special_good hL h.scheme h2).1, h3, h4, h5, h6⟩
  rw [render_text h, String.toList_ofList]
  exact h1

theorem parse_special {L : Lib} {s : String} {sch r : List Char} {p : Parts} (h1 : scheme (clean s.toList) = some (sch, r))
    (hs : sch = "http".toList ∨ sch = "https".toList) (h2 : special L sch r = some p) : parse L s = some p.url := by
  unfold parse
  rw [h1]
  simp only
  rw [if_pos hs, h2]
  rfl

theorem parse_http {L : Lib} {s : String} {u : Url} (h : parse L s = some u) (hs : u.scheme = "http" ∨ u.scheme = "https") :
    ∃ sch r p, scheme (clean s.toList) = some (sch, r) ∧ (sch = "http".toList ∨ sch = "https".toList) ∧
      special L sch r = some p ∧ u = p.url := by
  unfold parse at h
  split at h
  · cases h
  · rename_i sch r hsch
    split at h
    · rename_i hh
      cases hp : special L sch r with
      | none => rw [hp] at h; cases h
      | some p => rw [hp] at h; cases h; exact ⟨sch, r, p, hsch, hh, hp, rfl⟩
    · rename_i hh
      exfalso
      cases ho : L.other s with
      | none => rw [ho] at h; cases h
      | some v =>
        rw [ho] at h
        cases h
        apply hh
        rcases hs with hs | hs
        · exact .inl (by rw [← String.toList_ofList (l := sch)]; exact congrArg String.toList hs)
        · exact .inr (by rw [← String.toList_ofList (l := sch)]; exact congrArg String.toList hs)

end UrlStd
end Pizauth
