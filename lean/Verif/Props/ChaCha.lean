import Verif.Spec.ChaCha
import Verif.Props.Manual

/-!
# C107: dumps, with the cipher which is meant
-/

namespace Pizauth
open ChaCha

variable {E : Env}

namespace ChaCha

theorem block_size {key nonce : Bytes} {n : Nat} : (block key n nonce).length = 64 := by simp [block]

theorem flatMap_blocks {f : Nat → Bytes} (h : ∀ i, (f i).length = 64) (l : List Nat) :
    (l.flatMap f).length = 64 * l.length := by
  induction l with
  | nil => rfl
  | cons a l ih => rw [List.flatMap_cons, List.length_append, ih, h, List.length_cons]; omega

theorem stream_length {key nonce : Bytes} {n : Nat} : n ≤ (stream key nonce n).length := by
  unfold stream
  rw [flatMap_blocks (fun _ => block_size), List.length_range]
  omega

theorem cipher_length {key nonce p : Bytes} : (cipher key nonce p).length = p.length := by
  have := @stream_length key nonce p.length
  simp only [cipher, List.length_zipWith]
  omega

theorem zipWith_xor : ∀ {p s : Bytes}, p.length ≤ s.length →
    (p.zipWith (· ^^^ ·) s).zipWith (· ^^^ ·) s = p
  | [], _, _ => by simp
  | _ :: _, [], h => by simp at h
  | a :: p, b :: s, h => by
    simp only [List.zipWith_cons_cons]
    rw [zipWith_xor (by simpa using h), UInt8.xor_assoc, UInt8.xor_self, UInt8.xor_zero]

theorem cipher_cipher {key nonce p : Bytes} : cipher key nonce (cipher key nonce p) = p := by
  have h : cipher key nonce (cipher key nonce p) =
      (cipher key nonce p).zipWith (· ^^^ ·) (stream key nonce p.length) := by
    show (cipher key nonce p).zipWith (· ^^^ ·) (stream key nonce (cipher key nonce p).length) = _
    rw [cipher_length]
  rw [h]
  exact zipWith_xor stream_length

theorem tag_length {key nonce aad c : Bytes} : (tag key nonce aad c).length = 16 := by
  simp [tag, poly1305, bytes]

theorem decrypt_iff {key nonce aad p b : Bytes} :
    decrypt key nonce aad b = some p ↔ encrypt key nonce aad p = some b := by
  unfold decrypt encrypt
  constructor
  · intro h
    split at h
    · cases h
    · rename_i hl
      simp only at h
      split at h
      · cases h
      · rename_i hm
        split at h
        · rename_i ht
          cases h
          rw [cipher_length, if_neg hm]
          simp only
          rw [cipher_cipher, ← ht, List.take_append_drop]
        · cases h
  · intro h
    split at h
    · cases h
    · rename_i hm
      cases h
      have hlen : (cipher key nonce p ++ tag key nonce aad (cipher key nonce p)).length - 16 =
          (cipher key nonce p).length := by rw [List.length_append, tag_length]; omega
      rw [if_neg (by rw [List.length_append, tag_length]; omega)]
      simp only
      rw [hlen, List.take_left, List.drop_left, if_pos rfl, cipher_cipher, if_neg (by rw [cipher_length]; exact hm)]

end ChaCha

/-- **C107.** Decryption succeeds for what encryption gives, and for nothing else. -/
theorem C107 (h : UsesChaCha E) (nonce p c : Bytes) : E.decrypt nonce c = some p ↔ E.encrypt nonce p = some c := by
  rw [h.decrypt, h.encrypt]
  exact decrypt_iff

theorem UsesChaCha.law (h : UsesChaCha E) : CryptLaw E := fun nonce p c => (C107 h nonce p c).mpr

/-- **C107.** Texts of less than 256 GiB are encrypted; the result is 16 bytes longer than the text. -/
theorem C107_length (h : UsesChaCha E) (nonce p : Bytes) :
    (p.length < 274877906880 → ∃ c, E.encrypt nonce p = some c) ∧
    ∀ c, E.encrypt nonce p = some c → c.length = p.length + 16 := by
  rw [h.encrypt]
  unfold ChaCha.encrypt
  constructor
  · intro hp
    rw [if_neg (by unfold maxBlocks; omega)]
    exact ⟨_, rfl⟩
  · intro c hc
    split at hc
    · cases hc
    · cases hc
      rw [List.length_append, tag_length, cipher_length]

/-- **C107.** Different texts have different encryptions, and if only the last 16 bytes are changed, it is noticed. -/
theorem C107_altered (h : UsesChaCha E) {nonce p c : Bytes} (hc : E.encrypt nonce p = some c) :
    (∀ p', E.encrypt nonce p' = some c → p' = p) ∧
    ∀ c', c'.length = c.length → c'.take (c.length - 16) = c.take (c.length - 16) → c' ≠ c → E.decrypt nonce c' = none := by
  refine ⟨fun p' hp => ?_, fun c' hl ht hne => ?_⟩
  · have h1 := (C107 h nonce p c).mpr hc
    rw [(C107 h nonce p' c).mpr hp] at h1
    exact Option.some.inj h1
  · cases hd : E.decrypt nonce c' with
    | none => rfl
    | some q =>
      exfalso
      have h1 := (C107 h nonce q c').mp hd
      have hs := C107_length h nonce
      rw [h.encrypt] at hc h1
      unfold ChaCha.encrypt at hc h1
      split at hc
      · cases hc
      · split at h1
        · cases h1
        · cases hc
          cases h1
          rw [List.length_append, tag_length, Nat.add_sub_cancel, List.take_left, List.take_append_of_le_length] at ht
          · simp only [List.length_append, tag_length, cipher_length] at hl
            rw [cipher_length, List.take_of_length_le (by rw [cipher_length]; omega)] at ht
            rw [ht] at hne
            exact hne rfl
          · simp only [List.length_append, tag_length] at hl
            omega

/-- **C107.** `restore` is answered with `ok:` exactly if its input is 12 bytes followed by the encryption, with these
as the nonce, of some text; the state then changes as this text says, and otherwise not at all. -/
theorem C107_restore (h : UsesChaCha E) {w w' : World} {buf d : Bytes} (hx : Executes E w buf w')
    (hp : parseReq buf = .restore d) :
    ((∃ plain c, d = d.take 12 ++ c ∧ 12 ≤ d.length ∧ E.encrypt (d.take 12) plain = some c) ∧
      w'.threads 0 = [.wakeNotifier, .wakeRefresher, .reply (utf8 "ok:"), .close]) ∨
    ((∀ nonce plain c, nonce.length = 12 → E.encrypt nonce plain = some c → d ≠ nonce ++ c) ∧ w'.ls = w.ls ∧
      ∃ m, w'.threads 0 = [.reply (utf8 "error:" ++ m), .close]) := by
  rcases restore_exec hx hp with ⟨h1, h2, h3⟩ | ⟨h1, h2, h3, h4⟩ | ⟨plain, h1, h2, h3, _⟩
  · refine .inr ⟨fun nonce plain c hn hc he => ?_, h2, utf8 "Input too short", ?_⟩
    · rw [he, List.length_append] at h1; omega
    · rw [h3, show utf8 "error:Input too short" = utf8 "error:" ++ utf8 "Input too short" by decide +kernel]
  · refine .inr ⟨fun nonce plain c hn hc he => ?_, h3, utf8 "Restoring dump failed", ?_⟩
    · rw [he, List.take_append_of_le_length (by omega), List.take_of_length_le (by omega), ← hn, List.drop_left,
        (C107 h nonce plain c).mpr hc] at h2
      cases h2
    · rw [h4, show utf8 "error:Restoring dump failed" = utf8 "error:" ++ utf8 "Restoring dump failed" by decide +kernel]
  · exact .inl ⟨⟨plain, d.drop 12, (List.take_append_drop 12 d).symm, h1, (C107 h _ _ _).mp h2⟩, h3⟩

/-- **C107.** What `dump` prints, `restore` restores. -/
theorem C107_dump_restore (hl : HostLaw E) (h : UsesChaCha E) {w w' : World} {b b' : Bytes}
    (h1 : Receives E w (Cmd.wire .dump) b) (hb : b ≠ [])
    (h2 : Receives E w' (Cmd.wire (.restore (Cli.run .dump (.answer b)).stdout)) b') :
    Cli.run (.restore (Cli.run .dump (.answer b)).stdout) (.answer b') = ⟨[], none, 0⟩ ∧
    ∃ w1 w1' w2 w2', Executes E w1 (Cmd.wire .dump) w1' ∧ Steps E w1' w ∧
      Executes E w2 (Cmd.wire (.restore (Cli.run .dump (.answer b)).stdout)) w2' ∧ lastRequest w2.log = lastRequest w'.log ∧ Steps E w2' w' ∧
      (SysTimeOk w1.wall → ∀ n t a1 a2, HoldsToken w1.ls n t → (∀ t', ¬ HoldsToken w2.ls n t') →
        w1.ls.config.accounts.lookup n = some a1 → w2.ls.config.accounts.lookup n = some a2 → SameSec a1 a2 →
        ∃ t', HoldsToken w2'.ls n t' ∧ Carried w1.now w1.wall w2.now w2.wall t t') :=
  C102_dump_restore hl h.law h1 hb h2

/-! ## The cipher is the one of RFC 8439 -/

/-- **C107.** The examples of RFC 8439, sections 2.1.1, 2.3.2, 2.5.2 and 2.8.2. -/
theorem C107_rfc8439 :
    quarter 0x11111111 0x01020304 0x9b8d6f43 0x01234567 = (0xea2a92f4, 0xcb1cf8ce, 0x4581472e, 0x5881c4bb) ∧
    hexOf (block ((List.range 32).map UInt8.ofNat) 1 [0, 0, 0, 9, 0, 0, 0, 0x4a, 0, 0, 0, 0]) =
    "10f1e7e4d13b5915500fdd1fa32071c4c7d1f4c733c068030422aa9ac3d46c4ed2826446079faa0914c2d705d98b02a2b5129cd1de164eb9cbd083e8a2503c4e".toList ∧
    hexOf (poly1305
    [0x85, 0xd6, 0xbe, 0x78, 0x57, 0x55, 0x6d, 0x33, 0x7f, 0x44, 0x52, 0xfe, 0x42, 0xd5, 0x06, 0xa8,
     0x01, 0x03, 0x80, 0x8a, 0xfb, 0x0d, 0xb2, 0xfd, 0x4a, 0xbf, 0xf6, 0xaf, 0x41, 0x49, 0xf5, 0x1b]
    (utf8 "Cryptographic Forum Research Group")) = "a8061dc1305136c6c22b8baf0c0127a9".toList ∧
    (ChaCha.encrypt ((List.range 32).map fun i => UInt8.ofNat (0x80 + i)) [7, 0, 0, 0, 0x40, 0x41, 0x42, 0x43, 0x44, 0x45, 0x46, 0x47]
    [0x50, 0x51, 0x52, 0x53, 0xc0, 0xc1, 0xc2, 0xc3, 0xc4, 0xc5, 0xc6, 0xc7]
    (utf8 "Ladies and Gentlemen of the class of '99: If I could offer you only one tip for the future, sunscreen would be it.")).map hexOf =
    some ("d31a8d34648e60db7b86afbc53ef7ec2a4aded51296e08fea9e2b5a736ee62d63dbea45e8ca9671282fafb69da92728b1a71de0a9e060b2905d6a5b67ecd3b3692ddbd7f2d778b8c9803aee328091b58fab324e4fad675945585808b4831d7bc3ff4def08e4b7a9de576d26586cec64b6116".toList ++
    "1ae10b594f09e26a7e902ecbd0600691".toList) := by
  decide +kernel

/-- **C107.** The cipher of the model, with the key of the model, is the one which the other theorems are about. -/
theorem C107_key : UsesChaCha E.withChaCha := ⟨fun _ _ => rfl, fun _ _ => rfl⟩

/-- The environment of the examples, with this cipher. -/
example : UsesChaCha Demo.env.withChaCha := C107_key

/-- A text, encrypted with the key of dumps. -/
example : (Demo.env.withChaCha.encrypt (List.replicate 12 1) (utf8 "abc")).bind (Demo.env.withChaCha.decrypt (List.replicate 12 1)) =
    some (utf8 "abc") := by decide +kernel

/-- A flipped bit is noticed. -/
example : Demo.env.withChaCha.decrypt (List.replicate 12 1)
    (((Demo.env.withChaCha.encrypt (List.replicate 12 1) (utf8 "abc")).getD []).modify 0 (· ^^^ 1)) = none := by decide +kernel

end Pizauth
