import Verif.Model.Sha256
import Verif.Props.AuthUrl

/-!
# C46: the challenge, with the hash function which is meant
-/

namespace Pizauth

variable {E : Env}

theorem rounds_length : ∀ (l : List (Nat × Nat)) (s : List Nat), s.length = 8 → (Sha256.rounds l s).length = 8
  | [], s, h => by simpa [Sha256.rounds] using h
  | (k, w) :: r, s, h => by
    match s, h with
    | [a, b, c, d, e, f, g, i], _ => exact rounds_length r _ rfl

theorem block_length {s m : List Nat} (h : s.length = 8) : (Sha256.block s m).length = 8 := by
  simp [Sha256.block, rounds_length _ s h, h]

theorem blocks_length : ∀ (n : Nat) (s m : List Nat), s.length = 8 → (Sha256.blocks n s m).length = 8
  | 0, _, _, h => h
  | n + 1, _, _, h => blocks_length n _ _ (block_length h)

theorem flatMap_length {l : List Nat} : (l.flatMap (Sha256.bytesOf 4)).length = 4 * l.length := by
  induction l with
  | nil => rfl
  | cons a l ih =>
    rw [List.flatMap_cons, List.length_append, ih]
    simp [Sha256.bytesOf]
    omega

theorem sha256_length (m : Bytes) : (Sha256.sha256 m).length = 32 := by
  unfold Sha256.sha256
  rw [flatMap_length, blocks_length _ _ _ rfl]

/-- **C46.** With SHA-256, the challenge in the URL of an outstanding authorisation is what RFC 7636, section 4.2, wants:
43 characters, all of them URL-safe, the encoding of the hash of the characters of the verifier. -/
theorem C46_challenge (h : E.sha256 = Sha256.sha256) {w : World} {n : String} {p : PendingTok} (hr : Reach E w)
    (hp : HoldsPending w.ls n p) :
    ∃ c, ("code_challenge", c) ∈ p.url.query ∧ c = Base64.text (Sha256.sha256 (utf8 p.codeVerifier)) ∧ c.length = 43 ∧
      ∀ x ∈ c.toList, UrlSafe x := by
  obtain ⟨a, base, redirect, _, _, _, hurl⟩ := C46 hr hp
  refine ⟨b64 (Sha256.sha256 (utf8 p.codeVerifier)), ?_, C52_base64 _, ?_, ?_⟩
  · rw [hurl, ← h]
    simp
  · rw [← String.length_toList]
    unfold b64
    rw [String.toList_ofList, b64Enc_length, sha256_length]
  · unfold b64
    rw [String.toList_ofList]
    exact b64Enc_safe _

/-- **C46.** The example of RFC 7636, appendix B. -/
theorem C46_rfc7636 : codeChallenge { Demo.env with sha256 := Sha256.sha256 } "dBjftJeZ4CVP-mB92K27uhbUJU1p1r_wW1gFWFOEjXk" =
    "E9Melhoa2OwvFrEMTJguCHaoeK1t8URWbuGJSstw-cM" := by
  decide +kernel

/-- **C46.** The examples of FIPS 180-4 (with one block and with two). -/
theorem C46_fips180 : Sha256.sha256 (utf8 "abc") =
    [0xba, 0x78, 0x16, 0xbf, 0x8f, 0x01, 0xcf, 0xea, 0x41, 0x41, 0x40, 0xde, 0x5d, 0xae, 0x22, 0x23,
     0xb0, 0x03, 0x61, 0xa3, 0x96, 0x17, 0x7a, 0x9c, 0xb4, 0x10, 0xff, 0x61, 0xf2, 0x00, 0x15, 0xad] ∧
    Sha256.sha256 (utf8 "abcdbcdecdefdefgefghfghighijhijkijkljklmklmnlmnomnopnopq") =
    [0x24, 0x8d, 0x6a, 0x61, 0xd2, 0x06, 0x38, 0xb8, 0xe5, 0xc0, 0x26, 0x93, 0x0c, 0x3e, 0x60, 0x39,
     0xa3, 0x3c, 0xe4, 0x59, 0x64, 0xff, 0x21, 0x67, 0xf6, 0xec, 0xed, 0xd4, 0x19, 0xdb, 0x06, 0xc1] := by
  decide +kernel

end Pizauth
