import Verif.Keys
import Verif.Roundtrip
import Verif.Spec.Sign
/-! # Signatures: C30, C31, C32, C33 -/

namespace Sigtool

theorem prefix_bytes : ascii "sigtool signed message" = "sigtool signed message".toUTF8.toList := by decide +kernel

theorem signDigest_spec (P : Prims) (m : Bytes) : signDigest P m = P.sha512 (Spec.messageInput m) := by
  unfold signDigest Spec.messageInput; rw [prefix_bytes]

theorem be64_spec (n : Nat) : be64 n = (List.range 8).map fun i => UInt8.ofNat (n / 256 ^ (7 - i)) := by
  have h : List.range 8 = [0, 1, 2, 3, 4, 5, 6, 7] := by decide
  rw [h]
  simp only [be64, be32, List.cons_append, List.nil_append, List.map_cons, List.map_nil, List.cons.injEq, and_true]
  refine ⟨?_, ?_, ?_, ?_, ?_, ?_, ?_, ?_⟩ <;> apply UInt8.toNat_inj.mp <;> simp only [UInt8.toNat_ofNat'] <;> omega

theorem fileCksum_spec (P : Prims) (c : Bytes) : fileCksum P c = P.sha512 (Spec.fileInput c) := by
  unfold fileCksum Spec.fileInput; rw [be64_spec]

/-- **C30** (acceptance).  Signing a message with a valid private key succeeds, gives a 64-byte signature, and that signature
verifies for the same message under the public key of the private key and names that key. -/
theorem C30_sign_verify (P : Prims) (L : Laws P) (sk : PrivateKey) (hk : sk.Genuine P) (m : Bytes) :
    ∃ s, signMessage P sk m = .ok s ∧ s.sig.length = 64 ∧ verifyMessage P sk.pub m s = .ok true ∧
      isPKMatch sk.pub s = true := by
  obtain ⟨seed, h1, h2, h3, h4⟩ := hk
  have hl : sk.sk.length = 64 := by rw [h2, List.length_append, h1, L.ed_pub_len _ h1]
  refine ⟨⟨P.edSign sk.sk (signDigest P m), sk.pub.hash⟩, ?_, L.ed_sign_len _ _ hl, ?_, by simp [isPKMatch, ctEq]⟩
  · unfold signMessage; rw [if_neg (by omega)]
  · unfold verifyMessage
    rw [h3, if_neg (by rw [L.ed_pub_len _ h1]; decide), h2, L.ed_verify_sign _ _ h1]

/-- **C30** (exact meaning).  For a 32-byte public key `VerifyMessage` always returns, and returns true exactly if the
signature is a valid Ed25519 signature on SHA-512 of the fixed prefix followed by the message. -/
theorem C30_verify_iff (P : Prims) (pk : PublicKey) (hk : pk.pk.length = 32) (m : Bytes) (s : Signature) :
    (verifyMessage P pk m s = .ok true ↔ P.edVerify pk.pk (P.sha512 (Spec.messageInput m)) s.sig = true) ∧
      ∃ b, verifyMessage P pk m s = .ok b := by
  unfold verifyMessage
  rw [if_neg (by omega), signDigest_spec]
  exact ⟨⟨fun h => by injection h, fun h => by rw [h]⟩, _, rfl⟩

/-- **C30** (binding).  Suppose the owner of a key has signed the messages `ms` and no others.  If `VerifyMessage` accepts a
message that is not among them, then it and one of them are a SHA-512 collision, or the signature is an Ed25519 forgery. -/
theorem C30_binding (P : Prims) (pk : PublicKey) (ms : List Bytes) (m : Bytes) (s : Signature)
    (hm : m ∉ ms) (h : verifyMessage P pk m s = .ok true) :
    (∃ m' ∈ ms, Spec.Collides P (Spec.messageInput m') (Spec.messageInput m)) ∨
      Spec.Forged P pk.pk (ms.map fun m' => P.sha512 (Spec.messageInput m')) (P.sha512 (Spec.messageInput m)) s.sig := by
  by_cases hc : P.sha512 (Spec.messageInput m) ∈ ms.map fun m' => P.sha512 (Spec.messageInput m')
  · obtain ⟨m', hm', he⟩ := List.mem_map.mp hc
    refine .inl ⟨m', hm', ?_, he⟩
    intro heq
    have := List.append_cancel_left heq
    exact hm (this ▸ hm')
  · refine .inr ⟨hc, ?_⟩
    unfold verifyMessage at h
    split at h
    · cases h
    · rw [signDigest_spec] at h; injection h

/-- **C31** (acceptance).  A file signed with a valid private key verifies under its public key as long as the content is the
same, whatever the length, and the signature names that key. -/
theorem C31_file_roundtrip (P : Prims) (L : Laws P) (sk : PrivateKey) (hk : sk.Genuine P) (c : Bytes) :
    ∃ s, signFile P sk c = .ok s ∧ s.sig.length = 64 ∧ verifyFile P sk.pub c s = .ok true ∧ isPKMatch sk.pub s = true :=
  C30_sign_verify P L sk hk _

/-- The hashed encoding of a file is injective. -/
theorem C31_encoding_injective (c c' : Bytes) (h : Spec.fileInput c = Spec.fileInput c') : c = c' := by
  have hl := congrArg List.length h
  simp only [Spec.fileInput, List.length_append, List.length_map, List.length_range] at hl
  exact (List.append_inj h (by omega)).1

/-- **C31** (binding).  Suppose the owner of a key has signed files with the contents `cs` and nothing else.  If `VerifyFile`
accepts a content that is not among them, then there is a SHA-512 collision, between two file encodings or between two
prefixed checksums, or the signature is an Ed25519 forgery. -/
theorem C31_binding (P : Prims) (pk : PublicKey) (cs : List Bytes) (c : Bytes) (s : Signature)
    (hc : c ∉ cs) (h : verifyFile P pk c s = .ok true) :
    (∃ c' ∈ cs, Spec.Collides P (Spec.fileInput c') (Spec.fileInput c)) ∨
    (∃ c' ∈ cs, Spec.Collides P (Spec.messageInput (P.sha512 (Spec.fileInput c')))
      (Spec.messageInput (P.sha512 (Spec.fileInput c)))) ∨
    Spec.Forged P pk.pk (cs.map fun c' => P.sha512 (Spec.messageInput (P.sha512 (Spec.fileInput c'))))
      (P.sha512 (Spec.messageInput (P.sha512 (Spec.fileInput c)))) s.sig := by
  unfold verifyFile at h
  rw [fileCksum_spec] at h
  by_cases hm : P.sha512 (Spec.fileInput c) ∈ cs.map fun c' => P.sha512 (Spec.fileInput c')
  · obtain ⟨c', hc', he⟩ := List.mem_map.mp hm
    refine .inl ⟨c', hc', ?_, he⟩
    intro heq
    exact hc (C31_encoding_injective _ _ heq ▸ hc')
  · right
    rcases C30_binding P pk _ _ s hm h with ⟨m', hm', hcol⟩ | hf
    · obtain ⟨c', hc', rfl⟩ := List.mem_map.mp hm'
      exact .inl ⟨c', hc', hcol⟩
    · right
      rwa [List.map_map] at hf

/-- **C31** (what a file signature is).  It is the message signature on the 64-byte checksum of the file: the two kinds are
interchangeable, so signing a message that happens to be the checksum of a file signs that file. -/
theorem C31_is_message_signature (P : Prims) (sk : PrivateKey) (pk : PublicKey) (c : Bytes) (s : Signature) :
    signFile P sk c = signMessage P sk (P.sha512 (Spec.fileInput c)) ∧
      verifyFile P pk c s = verifyMessage P pk (P.sha512 (Spec.fileInput c)) s := by
  unfold signFile verifyFile
  rw [fileCksum_spec]
  exact ⟨rfl, rfl⟩

/-- **C32** (exact).  `IsPKMatch` holds exactly if the key hash stored in the signature is the hash of the public key. -/
theorem C32_match_iff (pk : PublicKey) (s : Signature) : isPKMatch pk s = true ↔ pk.hash = s.pkhash := by
  simp [isPKMatch, ctEq]

/-- **C32** (which keys match).  A signature made by a valid private key matches a public key of this package exactly if the
first 16 bytes of the SHA-256 hashes of the two public keys agree; so it matches the signer's key, and a different key only
if it is a collision of the truncated hash. -/
theorem C32_which_keys (P : Prims) (L : Laws P) (sk : PrivateKey) (hk : sk.Genuine P) (m : Bytes) (s : Signature)
    (hs : signMessage P sk m = .ok s) (comment b : Bytes) (pk : PublicKey)
    (hp : makePublicKeyFromBytes P comment b = .ok pk) :
    (isPKMatch pk s = true ↔ (P.sha256 b).take 16 = (P.sha256 sk.pub.pk).take 16) ∧
      s.pkhash = (P.sha256 sk.pub.pk).take 16 ∧ s.pkhash.length = 16 := by
  obtain ⟨seed, h1, h2, h3, h4⟩ := hk
  have e : s.pkhash = (P.sha256 sk.pub.pk).take 16 := by
    unfold signMessage at hs
    split at hs
    · cases hs
    · injection hs with hs; rw [← hs, h3]; exact h4
  have e2 : pk.hash = (P.sha256 b).take 16 := by
    unfold makePublicKeyFromBytes at hp
    split at hp
    · cases hp
    · injection hp with hp; rw [← hp]; rfl
  refine ⟨?_, e, by rw [e, List.length_take, L.sha256_len]; rfl⟩
  rw [C32_match_iff, e, e2]

/-- **C33**.  A signature written with any comment that the YAML library can read back is read as the same signature, so
verification and key matching do not change. -/
theorem C33_roundtrip (Y : Yaml) (comment : Bytes) (hY : Y.Reads comment) (s : Signature) :
    unmarshalSig Y (s.marshal Y comment) = .ok s := by
  unfold unmarshalSig Signature.marshal
  rw [hY.sig]
  simp only [orErr, Res.bind_ok, Base64.decode_encode]

/-- **C33** (nothing else is read).  Whatever text is read as a signature, the result is the base64 decoding of its
`signature` and `pkhash` entries; no other part of the text has an influence. -/
theorem C33_reads_only_fields (Y : Yaml) (b : Bytes) (s : Signature) :
    unmarshalSig Y b = .ok s ↔
      ∃ d, Y.readSig b = some d ∧ Base64.decode d.signature = some s.sig ∧ Base64.decode d.pkhash = some s.pkhash := by
  unfold unmarshalSig orErr
  constructor
  · intro h
    match hr : Y.readSig b with
    | none => rw [hr] at h; cases h
    | some d =>
      rw [hr] at h
      dsimp only [Res.bind_ok] at h
      match h1 : Base64.decode d.signature with
      | none => rw [h1] at h; cases h
      | some x =>
        match h2 : Base64.decode d.pkhash with
        | none => rw [h1, h2] at h; cases h
        | some y =>
          rw [h1, h2] at h
          dsimp only [Res.bind_ok] at h
          cases h
          exact ⟨d, rfl, h1, h2⟩
  · rintro ⟨d, h1, h2, h3⟩
    rw [h1]; dsimp only [Res.bind_ok]
    rw [h2, h3]; rfl

/-- **C33** (no crash): reading a signature returns a signature or an error. -/
theorem C33_no_crash (Y : Yaml) (b : Bytes) : ∀ w, unmarshalSig Y b ≠ .panic w := by
  intro w
  unfold unmarshalSig orErr
  split
  · dsimp only [Res.bind_ok]
    split
    · dsimp only [Res.bind_ok]
      split <;> simp
    · simp
  · simp

/-! ### Concrete cases -/

/-- A valid private key. -/
def demoSk : PrivateKey := newPrivateKey toyPrims (List.replicate 32 7)

theorem demoSk_genuine : demoSk.Genuine toyPrims := newPrivateKey_genuine _ _ (by simp)

example : ∃ s, signMessage toyPrims demoSk [1, 2, 3] = .ok s ∧ s.sig.length = 64 ∧
    verifyMessage toyPrims demoSk.pub [1, 2, 3] s = .ok true ∧ isPKMatch demoSk.pub s = true :=
  C30_sign_verify _ toyLaws _ demoSk_genuine _

/-- The signature on one message is rejected for another. -/
example : (signMessage toyPrims demoSk [1, 2, 3]).bind (verifyMessage toyPrims demoSk.pub [1, 2, 4]) = .ok false := by
  decide +kernel

example : (signFile toyPrims demoSk [1, 2, 3]).bind (verifyFile toyPrims demoSk.pub [1, 2, 3]) = .ok true := by
  decide +kernel

example : (signFile toyPrims demoSk [1, 2, 3]).bind (verifyFile toyPrims demoSk.pub [1, 2]) = .ok false := by
  decide +kernel

/-- The hypotheses of the binding theorem can be met: primitives whose verification accepts everything. -/
example : ∃ (P : Prims) (pk : PublicKey) (s : Signature), [9] ∉ ([[1], [2]] : List Bytes) ∧
    verifyMessage P pk [9] s = .ok true :=
  ⟨{ toyPrims with edVerify := fun _ _ _ => true }, ⟨List.replicate 32 0, [], []⟩, ⟨[], []⟩, by decide, by decide +kernel⟩

/-- A signature of another key does not match. -/
example : (signMessage toyPrims demoSk [1]).bind (fun s => .ok (isPKMatch (newPrivateKey toyPrims (List.replicate 32 8)).pub s)) =
    .ok false := by decide +kernel

example (s : Signature) : unmarshalSig toyYaml (s.marshal toyYaml (ascii "a: b\n# \"c\"")) = .ok s :=
  C33_roundtrip _ _ (toyYaml_reads _) s

end Sigtool
