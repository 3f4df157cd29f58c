import Verif.Props.AnyBody
/-!
# C22, C23, C24, C25: the file header
-/

namespace Sigtool
open Spec (headerBytes headerPart sessionKeys)
open Proto (Clean)

/-! ### C22: round trip of the header codec -/

/-- **C22**: for every header as this program builds it (no unknown fields; a 32-bit chunk size; less than `2^63` bytes, the
limit of a Go slice): `Marshal` into a buffer of `Size()` bytes succeeds, fills it exactly with the protobuf encoding,
and `Unmarshal` of these bytes gives the header back. -/
theorem C22_roundtrip (h : Header) (hc : Clean h) (hcs : h.chunkSize < 2 ^ 32) (hl : Proto.Header.size h < 2 ^ 63) :
    ∃ b, Proto.Header.marshal h = .ok b ∧ b = headerBytes h ∧ b.length = Proto.Header.size h ∧
      Proto.Header.unmarshal b = .ok h := by
  have hs := Proto.header_size_eq h hc
  exact ⟨_, Proto.header_marshal_eq h hc, rfl, hs.symm, Proto.header_unmarshal h hc hcs (by omega)⟩

/-- **C22**: the encoding is injective: different headers have different bytes. -/
theorem C22_injective (h h' : Header) (hc : Clean h) (hc' : Clean h') (hcs : h.chunkSize < 2 ^ 32)
    (hcs' : h'.chunkSize < 2 ^ 32) (hl : Proto.Header.size h < 2 ^ 63) (hl' : Proto.Header.size h' < 2 ^ 63)
    (e : Proto.Header.marshal h = Proto.Header.marshal h') : h = h' := by
  obtain ⟨b, h1, _, _, h2⟩ := C22_roundtrip h hc hcs hl
  obtain ⟨b', h3, _, _, h4⟩ := C22_roundtrip h' hc' hcs' hl'
  rw [h1, h3] at e
  cases e
  rw [h2] at h4
  exact Res.ok.inj h4

/-- Non-vacuity: two recipients, every field present. -/
example : Clean { chunkSize := 4194304, salt := [1, 2], pk := [3], sender := [4, 5, 6]
                  keys := [⟨[7, 8], [9], []⟩, ⟨[10], [11, 12], []⟩] } ∧
    Proto.Header.marshal { chunkSize := 300, salt := [1], keys := [⟨[7, 8], [9], []⟩] } =
      .ok [0x08, 0xac, 0x02, 0x12, 1, 1, 0x2a, 7, 0x0a, 2, 7, 8, 0x12, 1, 9] := by
  refine ⟨⟨rfl, ?_⟩, ?_⟩
  · simp
  · exact (Proto.header_marshal_eq _ ⟨rfl, by simp⟩).trans (by decide +kernel)

/-! ### C23: decoding is total -/

namespace Proto

/-- Bytes kept in a decoded wrapped key. -/
def _root_.Sigtool.Spec.wrappedStored (w : WrappedKey) : Nat := w.dkey.length + w.nonce.length + w.unknown.length

/-- Bytes kept in a decoded header. -/
def _root_.Sigtool.Spec.headerStored (h : Header) : Nat :=
  h.salt.length + h.pk.length + h.sender.length + h.unknown.length + (h.keys.map Spec.wrappedStored).sum

theorem goSlice_ok_len {d s : Bytes} {lo hi : Nat} (h : goSlice d lo hi = .ok s) : s.length = hi - lo ∧ hi ≤ d.length := by
  unfold goSlice at h
  split at h
  · cases h; simp; omega
  · cases h

theorem lenDelim_ok_len {d s : Bytes} {i k : Nat} (h : lenDelim d i = .ok (s, k)) : i + 1 + s.length ≤ k ∧ k ≤ d.length := by
  unfold lenDelim at h
  obtain ⟨⟨n, j⟩, h1, h2⟩ := bind_eq_ok h
  have hp := varintLoop_progress _ _ _ _ _ _ _ h1
  simp only at h2
  split at h2
  · cases h2
  · split at h2
    · cases h2
    · split at h2
      · cases h2
      · obtain ⟨s', h3, h4⟩ := bind_eq_ok h2
        cases h4
        have := goSlice_ok_len h3
        omega

theorem unknownField_ok_len {d s : Bytes} {i k : Nat} (h : unknownField d i = .ok (s, k)) :
    i + s.length = k ∧ k ≤ d.length := by
  unfold unknownField at h
  obtain ⟨n, h1, h2⟩ := bind_eq_ok h
  split at h2
  · cases h2
  · split at h2
    · cases h2
    · obtain ⟨s', h3, h4⟩ := bind_eq_ok h2
      cases h4
      have := goSlice_ok_len h3
      omega

theorem varintLoop_width (d : Bytes) (w : Nat) : ∀ (i shift acc : Nat), acc < 2 ^ w → ∀ v k,
    varintLoop d w i shift acc = .ok (v, k) → v < 2 ^ w := by
  intro i shift acc hacc v k h
  fun_induction varintLoop d w i shift acc with
  | case1 => cases h
  | case2 => cases h
  | case3 i shift acc h1 h2 b acc' h3 =>
    simp only [Res.ok.injEq, Prod.mk.injEq] at h
    rw [← h.1]
    exact Nat.or_lt_two_pow hacc (Nat.mod_lt _ (by positivity))
  | case4 i shift acc h1 h2 b acc' h3 ih =>
    exact ih (Nat.or_lt_two_pow hacc (Nat.mod_lt _ (by positivity))) h

theorem wstep_stored (d : Bytes) (m m' : WrappedKey) (i k : Nat) (h : WrappedKey.step d m i = .ok (m', k)) :
    Spec.wrappedStored m' + i ≤ Spec.wrappedStored m + k := by
  unfold WrappedKey.step at h
  obtain ⟨⟨fn, wt, j⟩, h1, h2⟩ := bind_eq_ok h
  have hp := fieldTag_progress _ _ _ _ _ h1
  simp only at h2
  split at h2
  · split at h2
    · cases h2
    · obtain ⟨⟨s, k'⟩, h3, h4⟩ := bind_eq_ok h2
      cases h4
      have := lenDelim_ok_len h3
      simp only [Spec.wrappedStored]; omega
  · split at h2
    · cases h2
    · obtain ⟨⟨s, k'⟩, h3, h4⟩ := bind_eq_ok h2
      cases h4
      have := lenDelim_ok_len h3
      simp only [Spec.wrappedStored]; omega
  · obtain ⟨⟨s, k'⟩, h3, h4⟩ := bind_eq_ok h2
    cases h4
    have := unknownField_ok_len h3
    simp only [Spec.wrappedStored, List.length_append]; omega

theorem wloop_stored (d : Bytes) : ∀ (fuel : Nat) (m m' : WrappedKey) (i : Nat),
    WrappedKey.loop d fuel m i = .ok m' → Spec.wrappedStored m' + i ≤ Spec.wrappedStored m + d.length := by
  intro fuel
  induction fuel with
  | zero => intro m m' i h; cases h
  | succ f ih =>
    intro m m' i h
    unfold WrappedKey.loop at h
    split at h
    · obtain ⟨⟨m1, k⟩, h1, h2⟩ := bind_eq_ok h
      have := wstep_stored _ _ _ _ _ h1
      have := ih _ _ _ h2
      omega
    · split at h
      · cases h
      · cases h; omega

theorem hstep_stored (d : Bytes) (m m' : Header) (i k : Nat) (h : Header.step d m i = .ok (m', k))
    (hcs : m.chunkSize < 2 ^ 32) :
    Spec.headerStored m' + i ≤ Spec.headerStored m + k ∧ 2 * m'.keys.length + i ≤ 2 * m.keys.length + k ∧
      m'.chunkSize < 2 ^ 32 := by
  unfold Header.step at h
  obtain ⟨⟨fn, wt, j⟩, h1, h2⟩ := bind_eq_ok h
  have hp := fieldTag_progress _ _ _ _ _ h1
  simp only at h2
  split at h2
  · split at h2
    · cases h2
    · obtain ⟨⟨s, k'⟩, h3, h4⟩ := bind_eq_ok h2
      cases h4
      have := varintLoop_progress _ _ _ _ _ _ _ h3
      have := varintLoop_width _ _ _ _ _ (by decide) _ _ h3
      simp only [Spec.headerStored]; omega
  · split at h2
    · cases h2
    · obtain ⟨⟨s, k'⟩, h3, h4⟩ := bind_eq_ok h2
      cases h4
      have := lenDelim_ok_len h3
      simp only [Spec.headerStored]; omega
  · split at h2
    · cases h2
    · obtain ⟨⟨s, k'⟩, h3, h4⟩ := bind_eq_ok h2
      cases h4
      have := lenDelim_ok_len h3
      simp only [Spec.headerStored]; omega
  · split at h2
    · cases h2
    · obtain ⟨⟨s, k'⟩, h3, h4⟩ := bind_eq_ok h2
      cases h4
      have := lenDelim_ok_len h3
      simp only [Spec.headerStored]; omega
  · split at h2
    · cases h2
    · obtain ⟨⟨s, k'⟩, h3, h4⟩ := bind_eq_ok h2
      obtain ⟨w, h5, h6⟩ := bind_eq_ok h4
      cases h6
      have := lenDelim_ok_len h3
      have hw := wloop_stored _ _ _ _ _ h5
      have h0 : Spec.wrappedStored {} = 0 := rfl
      rw [h0] at hw
      dsimp only at hw
      simp only [Spec.headerStored, List.map_append, List.map_cons, List.map_nil, List.sum_append, List.sum_cons,
        List.sum_nil, List.length_append, List.length_cons, List.length_nil]
      omega
  · obtain ⟨⟨s, k'⟩, h3, h4⟩ := bind_eq_ok h2
    cases h4
    have := unknownField_ok_len h3
    simp only [Spec.headerStored, List.length_append]; omega

theorem hloop_stored (d : Bytes) : ∀ (fuel : Nat) (m m' : Header) (i : Nat), m.chunkSize < 2 ^ 32 →
    Header.loop d fuel m i = .ok m' → Spec.headerStored m' + i ≤ Spec.headerStored m + d.length ∧
      2 * m'.keys.length + i ≤ 2 * m.keys.length + d.length ∧ m'.chunkSize < 2 ^ 32 := by
  intro fuel
  induction fuel with
  | zero => intro m m' i _ h; cases h
  | succ f ih =>
    intro m m' i hcs h
    unfold Header.loop at h
    split at h
    · obtain ⟨⟨m1, k⟩, h1, h2⟩ := bind_eq_ok h
      have := hstep_stored _ _ _ _ _ h1 hcs
      have := ih _ _ _ this.2.2 h2
      omega
    · split at h
      · cases h
      · cases h; omega

end Proto

/-- **C23**: on every byte string `Unmarshal` returns a header or an error: no index out of range, no endless loop (the
model's loops have fuel and running out of it would be a `panic`). -/
theorem C23_total (d : Bytes) : (∃ h, Proto.Header.unmarshal d = .ok h) ∨ (∃ e, Proto.Header.unmarshal d = .err e) := by
  have := Proto.header_unmarshal_noPanic d
  cases h : Proto.Header.unmarshal d with
  | ok a => exact Or.inl ⟨a, rfl⟩
  | err e => exact Or.inr ⟨e, rfl⟩
  | panic w => rw [h] at this; cases this

/-- **C23**: and what it keeps is bounded by the input: all byte fields together are no longer than the input, there are at
most half as many wrapped keys as input bytes, and the chunk size is a 32-bit number. -/
theorem C23_no_amplification (d : Bytes) (h : Header) (hu : Proto.Header.unmarshal d = .ok h) :
    Spec.headerStored h ≤ d.length ∧ 2 * h.keys.length ≤ d.length ∧ h.chunkSize < 2 ^ 32 := by
  have := Proto.hloop_stored d _ _ _ _ (by decide) hu
  have h0 : Spec.headerStored {} = 0 := rfl
  simp only [List.length_nil, h0] at this
  omega

/-- Non-vacuity: an input with an unknown field (number 6), a repeated field (the last one counts) and one recipient is
accepted; a length that runs past the end and a nested group are errors, not crashes. -/
example : Proto.Header.unmarshal [0x12, 1, 1, 0x12, 2, 5, 6, 0x32, 1, 9, 0x2a, 4, 0x0a, 2, 7, 8] =
      .ok { salt := [5, 6], unknown := [0x32, 1, 9], keys := [⟨[7, 8], [], []⟩] } ∧
    Proto.Header.unmarshal [0x12, 0xff, 0xff, 0xff, 0xff, 0xff, 0xff, 0xff, 0xff, 0x7f] = .err .invalidLength ∧
    Proto.Header.unmarshal [0x33, 0x33, 0x33] = .err .unexpectedEOF := by
  refine ⟨?_, ?_, ?_⟩ <;> decide +kernel

/-! ### C24: what NewDecryptor accepts -/

/-- A well-formed header part at the start of `content`: `hb` are the protobuf bytes, `h` what they decode to, `rest` what
follows the checksum. -/
structure Spec.HeaderAt (P : Prims) (content hb : Bytes) (h : Header) (rest : Bytes) : Prop where
  layout : content = ascii "SigTool" ++ [3] ++ be32 hb.length ++ hb ++
    P.sha256 (ascii "SigTool" ++ [3] ++ be32 hb.length ++ hb) ++ rest
  size : 32 ≤ hb.length ∧ hb.length ≤ 1048576
  decodes : Proto.Header.unmarshal hb = .ok h
  chunk : 1 ≤ h.chunkSize ∧ h.chunkSize ≤ 2 ^ 30 - 1
  salt : h.salt.length = 32
  keys : h.keys ≠ []
  wrapped : ∀ w ∈ h.keys, 32 < w.dkey.length

theorem checkHeader_iff (h : Header) : checkHeader h = none ↔
    (1 ≤ h.chunkSize ∧ h.chunkSize ≤ 2 ^ 30 - 1) ∧ h.salt.length = 32 ∧ h.keys ≠ [] ∧ ∀ w ∈ h.keys, 32 < w.dkey.length := by
  unfold checkHeader
  rw [maxChunk_eq]
  constructor
  · intro hh
    split at hh
    · cases hh
    · split at hh
      · cases hh
      · split at hh
        · cases hh
        · split at hh
          · cases hh
          · rename_i h1 h2 h3 h4
            refine ⟨by omega, by omega, fun e => h3 (by rw [e]; rfl), ?_⟩
            intro w hw
            simp only [List.any_eq_true, decide_eq_true_eq, not_exists, not_and, Nat.not_le] at h4
            exact h4 w hw
  · rintro ⟨h1, h2, h3, h4⟩
    rw [if_neg (by omega), if_neg (by omega), if_neg (by simpa using h3), if_neg]
    simp only [List.any_eq_true, decide_eq_true_eq, not_exists, not_and, Nat.not_le]
    exact h4

/-- How `NewDecryptor` proceeds, in terms of the input bytes only. -/
theorem newDecryptor_long (P : Prims) (rd : Reader) (b v rest : Bytes) (hb : b.length = 12)
    (hv : v.length = be32dec (b.drop 8) + 32) (hm : b.take 7 = magic) (h7 : b[7]? = some version)
    (hlo : 32 ≤ be32dec (b.drop 8)) (hhi : be32dec (b.drop 8) ≤ 1048576)
    (hc : rd.content = b ++ v ++ rest) : ∃ rd' : Reader, rd'.content = rest ∧ rd'.last = rd.last ∧
      newDecryptor P rd =
        (if v.drop (be32dec (b.drop 8)) ≠ P.sha256 (b ++ v.take (be32dec (b.drop 8))) then .err .badHeader
         else match Proto.Header.unmarshal (v.take (be32dec (b.drop 8))) with
          | .err x => .err (.wrap "decrypt: decode error" x)
          | .panic x => .panic x
          | .ok h => match checkHeader h with
            | some x => .err x
            | none => .ok { hdr := h, rd := rd', hdrsum := P.sha256 (b ++ v.take (be32dec (b.drop 8))) }, rd') := by
  obtain ⟨rd1, h1, h2, h3⟩ := readFull_enough rd 12 (by rw [hc]; simp; omega)
  have e1 : rd.content.take 12 = b := by
    rw [hc, List.append_assoc, ← hb, List.take_left]
  have e2 : rd.content.drop 12 = v ++ rest := by
    rw [hc, List.append_assoc, ← hb, List.drop_left]
  rw [e1] at h1
  rw [e2] at h2
  obtain ⟨rd2, k1, k2, k3⟩ := readFull_enough rd1 (be32dec (b.drop 8) + 32) (by rw [h2]; simp; omega)
  rw [h2, ← hv, List.take_left] at k1
  rw [h2, ← hv, List.drop_left] at k2
  refine ⟨rd2, k2, by rw [k3, h3], ?_⟩
  unfold newDecryptor
  rw [h1]
  dsimp only
  rw [if_neg (by simp [hm]), if_neg (by simp [h7]), if_neg (by omega), if_neg (by omega), ← hv, k1]
  dsimp only
  by_cases hck : v.drop (be32dec (b.drop 8)) = P.sha256 (b ++ v.take (be32dec (b.drop 8)))
  · rw [if_neg (by simp [ctEq, hck]), if_neg (by simp [hck])]
    cases Proto.Header.unmarshal (v.take (be32dec (b.drop 8))) with
    | err x => rfl
    | panic x => rfl
    | ok h =>
      dsimp only
      cases checkHeader h <;> rfl
  · rw [if_pos (by simp [ctEq, hck]), if_pos hck]

theorem prefix_parts (n : Nat) (hn : n < 2 ^ 32) : (ascii "SigTool" ++ [3] ++ be32 n).length = 12 ∧
    (ascii "SigTool" ++ [3] ++ be32 n).take 7 = magic ∧ (ascii "SigTool" ++ [3] ++ be32 n)[7]? = some version ∧
    be32dec ((ascii "SigTool" ++ [3] ++ be32 n).drop 8) = n := by
  refine ⟨rfl, rfl, rfl, ?_⟩
  have : (ascii "SigTool" ++ [3] ++ be32 n).drop 8 = be32 n ++ [] := rfl
  rw [this, be32dec_be32, Nat.mod_eq_of_lt hn]

/-- **C24**: `NewDecryptor` returns a decryptor exactly for an input that starts with a well-formed header part; the
decryptor then holds that header, and the reader is left right behind the checksum. -/
theorem C24_accepts_iff (P : Prims) (L : Laws P) (rd : Reader) :
    (∀ d rd', newDecryptor P rd = (.ok d, rd') → ∃ hb, Spec.HeaderAt P rd.content hb d.hdr rd'.content) ∧
    (∀ hb h rest, Spec.HeaderAt P rd.content hb h rest →
      ∃ (d : Decryptor) (rd' : Reader), newDecryptor P rd = (.ok d, rd') ∧ d.hdr = h ∧ rd'.content = rest) := by
  constructor
  · intro d rd' h
    obtain ⟨hb, ha⟩ := newDecryptor_ok P rd d rd' h
    obtain ⟨c1, c2, c3, c4⟩ := (checkHeader_iff _).mp ha.checked
    exact ⟨hb, ha.content, ⟨ha.lo, ha.hi⟩, ha.decoded, c1, c2, c3, c4⟩
  · intro hb h rest hh
    obtain ⟨p1, p2, p3, p4⟩ := prefix_parts hb.length (by have := hh.size; omega)
    have hlen := L.sha256_len (ascii "SigTool" ++ [3] ++ be32 hb.length ++ hb)
    obtain ⟨rd', r1, _, r2⟩ := newDecryptor_long P rd (ascii "SigTool" ++ [3] ++ be32 hb.length)
      (hb ++ P.sha256 (ascii "SigTool" ++ [3] ++ be32 hb.length ++ hb)) rest p1
      (by rw [p4, List.length_append, hlen]) p2 p3 (by rw [p4]; exact hh.size.1) (by rw [p4]; exact hh.size.2)
      (by rw [hh.layout]; simp)
    rw [p4, List.take_left, List.drop_left, if_neg (by simp), hh.decodes] at r2
    have hck := (checkHeader_iff h).mpr ⟨hh.chunk, hh.salt, hh.keys, hh.wrapped⟩
    dsimp only at r2
    rw [hck] at r2
    exact ⟨_, rd', r2, rfl, r1⟩

/-- **C24**: `NewDecryptor` never crashes, reads the input from the front, and no more of it than the fixed part plus (when
the declared length is admissible) the declared length and 32 checksum bytes. -/
theorem C24_total (P : Prims) (rd : Reader) :
    (∀ why, (newDecryptor P rd).1 ≠ .panic why) ∧
    ∃ used, rd.content = used ++ (newDecryptor P rd).2.content ∧
      used.length ≤ 12 + (if be32dec (rd.content.drop 8) ≤ 1048576 then be32dec (rd.content.drop 8) + 32 else 0) :=
  ⟨newDecryptor_noPanic P rd, newDecryptor_consumes P rd⟩

/-- **C24**: the error for each violation, in the order in which they are looked for.  `c` is the input, `n` the declared
length (bytes 8 to 11, big-endian). -/
theorem C24_errors (P : Prims) (rd : Reader) (c : Bytes) (hc : rd.content = c) (n : Nat) (hn : n = be32dec (c.drop 8)) :
    -- too short for the fixed part
    (c.length < 12 → ∃ x, (newDecryptor P rd).1 = .err (.wrap "decrypt: err while reading header" x)) ∧
    -- wrong magic
    (12 ≤ c.length → c.take 7 ≠ ascii "SigTool" → (newDecryptor P rd).1 = .err .notSigTool) ∧
    (12 ≤ c.length → c.take 7 = ascii "SigTool" →
      -- wrong version
      (c[7]? ≠ some 3 → (newDecryptor P rd).1 = .err (.msg "decrypt: Unsupported version")) ∧
      (c[7]? = some 3 →
        -- declared length out of bounds
        (1048576 < n → (newDecryptor P rd).1 = .err .headerTooBig) ∧
        (n < 32 → (newDecryptor P rd).1 = .err .headerTooSmall) ∧
        (32 ≤ n → n ≤ 1048576 →
          -- cut off
          (c.length < 12 + n + 32 → ∃ x, (newDecryptor P rd).1 = .err (.wrap "decrypt: error while reading header" x)) ∧
          (12 + n + 32 ≤ c.length →
            -- wrong checksum
            ((c.drop (12 + n)).take 32 ≠ P.sha256 (c.take (12 + n)) → (newDecryptor P rd).1 = .err .badHeader) ∧
            ((c.drop (12 + n)).take 32 = P.sha256 (c.take (12 + n)) →
              -- undecodable
              (∀ x, Proto.Header.unmarshal ((c.drop 12).take n) = .err x →
                (newDecryptor P rd).1 = .err (.wrap "decrypt: decode error" x)) ∧
              (∀ h, Proto.Header.unmarshal ((c.drop 12).take n) = .ok h →
                -- bad chunk size, bad salt, no recipients, short wrapped key
                (h.chunkSize = 0 ∨ 2 ^ 30 ≤ h.chunkSize →
                  (newDecryptor P rd).1 = .err (.msg "decrypt: invalid chunkSize")) ∧
                (1 ≤ h.chunkSize → h.chunkSize < 2 ^ 30 →
                  (h.salt.length ≠ 32 → (newDecryptor P rd).1 = .err (.msg "decrypt: invalid nonce length")) ∧
                  (h.salt.length = 32 →
                    (h.keys = [] → (newDecryptor P rd).1 = .err .noWrappedKeys) ∧
                    (h.keys ≠ [] → (∃ w ∈ h.keys, w.dkey.length ≤ 32) →
                      (newDecryptor P rd).1 = .err (.msg "decrypt: wrapped key: wrong-size encrypted key")))))))))) := by
  have hshort : c.length < 12 → ∃ x, (newDecryptor P rd).1 = .err (.wrap "decrypt: err while reading header" x) := by
    intro h
    obtain ⟨r', h1, _⟩ := readFull_short rd 12 (by rw [hc]; omega)
    unfold newDecryptor
    rw [h1]
    exact ⟨_, rfl⟩
  refine ⟨hshort, ?_⟩
  by_cases hlen : c.length < 12
  · exact ⟨fun h => absurd hlen (by omega), fun h => absurd hlen (by omega)⟩
  have hlen : 12 ≤ c.length := by omega
  obtain ⟨rd1, h1, h2, h3⟩ := readFull_enough rd 12 (by rw [hc]; omega)
  rw [hc] at h1 h2
  have t7 : (c.take 12).take 7 = c.take 7 := by rw [List.take_take]; rfl
  have g7 : (c.take 12)[7]? = c[7]? := by rw [List.getElem?_take]; rfl
  have hd8 : be32dec ((c.take 12).drop 8) = n := by
    rw [hn]
    have h8 : ((c.take 12).drop 8).length = 4 := by simp; omega
    have e : c.drop 8 = (c.take 12).drop 8 ++ c.drop 12 := by
      conv_lhs => rw [← List.take_append_drop 12 c]
      rw [List.drop_append_of_le_length (by simp; omega)]
    rw [e]
    match hb : (c.take 12).drop 8, h8 with
    | [p, q, r, s], _ => rfl
  have hlong := newDecryptor_long P rd (c.take 12) ((c.drop 12).take (n + 32)) ((c.drop 12).drop (n + 32))
    (by simp; omega)
  rw [hd8, t7, g7, hc] at hlong
  generalize hN : newDecryptor P rd = N at hlong ⊢
  unfold newDecryptor at hN
  rw [h1] at hN
  dsimp only at hN
  rw [t7, g7, hd8] at hN
  refine ⟨?_, ?_⟩
  · intro _ hm
    rw [if_pos (by simpa [magic] using hm)] at hN
    rw [← hN]
  intro _ hm
  rw [if_neg (by simp [magic, hm])] at hN
  refine ⟨?_, ?_⟩
  · intro hv
    rw [if_pos (by simpa [version] using hv)] at hN
    rw [← hN]
  intro hv
  rw [if_neg (by simp [version, hv])] at hN
  refine ⟨?_, ?_, ?_⟩
  · intro hbig
    rw [if_pos hbig] at hN
    rw [← hN]
  · intro hsm
    rw [if_neg (by omega), if_pos hsm] at hN
    rw [← hN]
  intro hlo hhi
  rw [if_neg (by omega), if_neg (by omega)] at hN
  refine ⟨?_, ?_⟩
  · intro hcut
    obtain ⟨r', k1, _⟩ := readFull_short rd1 (n + 32) (by rw [h2]; simp; omega)
    rw [k1] at hN
    rw [← hN]
    exact ⟨_, rfl⟩
  intro hfull
  obtain ⟨rd', _, _, hres⟩ := hlong (by simp; omega) (by simpa [magic] using hm) (by simpa [version] using hv) hlo hhi
    (by rw [List.append_assoc, List.take_append_drop, List.take_append_drop])
  have e1 : ((c.drop 12).take (n + 32)).drop n = (c.drop (12 + n)).take 32 := by
    rw [List.drop_take, List.drop_drop]; congr 1; omega
  have e2 : ((c.drop 12).take (n + 32)).take n = (c.drop 12).take n := by
    rw [List.take_take]; congr 1; omega
  have e3 : c.take 12 ++ (c.drop 12).take n = c.take (12 + n) := (List.take_add).symm
  rw [e1, e2, e3] at hres
  refine ⟨?_, ?_⟩
  · intro hck
    rw [if_pos hck] at hres
    rw [hres]
  intro hck
  rw [if_neg (by simp [hck])] at hres
  refine ⟨?_, ?_⟩
  · intro x hx
    rw [hx] at hres
    rw [hres]
  intro h hh
  rw [hh] at hres
  dsimp only at hres
  refine ⟨?_, ?_⟩
  · intro hcs
    rw [show checkHeader h = some (.msg "decrypt: invalid chunkSize") from by
      unfold checkHeader; rw [maxChunk_eq, if_pos (by omega)]] at hres
    rw [hres]
  intro hcs1 hcs2
  refine ⟨?_, ?_⟩
  · intro hs
    rw [show checkHeader h = some (.msg "decrypt: invalid nonce length") from by
      unfold checkHeader; rw [maxChunk_eq, if_neg (by omega), if_pos hs]] at hres
    rw [hres]
  intro hs
  refine ⟨?_, ?_⟩
  · intro hk
    rw [show checkHeader h = some .noWrappedKeys from by
      unfold checkHeader; rw [maxChunk_eq, if_neg (by omega), if_neg (by omega), if_pos (by simp [hk])]] at hres
    rw [hres]
  · rintro hk ⟨w, hw1, hw2⟩
    rw [show checkHeader h = some (.msg "decrypt: wrapped key: wrong-size encrypted key") from by
      unfold checkHeader
      rw [maxChunk_eq, if_neg (by omega), if_neg (by omega), if_neg (by simpa using hk), if_pos]
      simp only [List.any_eq_true, decide_eq_true_eq]
      exact ⟨w, hw1, hw2⟩] at hres
    rw [hres]

/-! ### C25: the header is bound to the keys -/

/-- **C25**: two inputs that `NewDecryptor` accepts and whose header bytes (magic, version, length, protobuf) differ have
different checksums in the decryptors, or those very header bytes are a SHA-256 collision. -/
theorem C25_checksum (P : Prims) (L : Laws P) (rd rd2 : Reader) (d d2 : Decryptor) (rd' rd2' : Reader)
    (h : newDecryptor P rd = (.ok d, rd')) (h2 : newDecryptor P rd2 = (.ok d2, rd2')) :
    ∃ hb hb2, Spec.HeaderAt P rd.content hb d.hdr rd'.content ∧ Spec.HeaderAt P rd2.content hb2 d2.hdr rd2'.content ∧
      d.hdrsum = P.sha256 (ascii "SigTool" ++ [3] ++ be32 hb.length ++ hb) ∧
      d2.hdrsum = P.sha256 (ascii "SigTool" ++ [3] ++ be32 hb2.length ++ hb2) ∧
      (hb ≠ hb2 → d.hdrsum ≠ d2.hdrsum ∨
        (P.sha256 (ascii "SigTool" ++ [3] ++ be32 hb.length ++ hb) =
            P.sha256 (ascii "SigTool" ++ [3] ++ be32 hb2.length ++ hb2) ∧
          ascii "SigTool" ++ [3] ++ be32 hb.length ++ hb ≠ ascii "SigTool" ++ [3] ++ be32 hb2.length ++ hb2)) := by
  obtain ⟨hb, ha⟩ := newDecryptor_ok P rd d rd' h
  obtain ⟨hb2, ha2⟩ := newDecryptor_ok P rd2 d2 rd2' h2
  have s1 : d.hdrsum = P.sha256 (ascii "SigTool" ++ [3] ++ be32 hb.length ++ hb) := by rw [ha.state]
  have s2 : d2.hdrsum = P.sha256 (ascii "SigTool" ++ [3] ++ be32 hb2.length ++ hb2) := by rw [ha2.state]
  obtain ⟨c1, c2, c3, c4⟩ := (checkHeader_iff _).mp ha.checked
  obtain ⟨e1, e2, e3, e4⟩ := (checkHeader_iff _).mp ha2.checked
  refine ⟨hb, hb2, ⟨ha.content, ⟨ha.lo, ha.hi⟩, ha.decoded, c1, c2, c3, c4⟩,
    ⟨ha2.content, ⟨ha2.lo, ha2.hi⟩, ha2.decoded, e1, e2, e3, e4⟩, s1, s2, ?_⟩
  intro hne
  by_cases heq : d.hdrsum = d2.hdrsum
  · right
    refine ⟨by rw [← s1, ← s2, heq], ?_⟩
    intro hh
    exact hne (List.append_inj hh (by simp)).2
  · exact Or.inl heq

/-- **C25**: the session nonce, data key and HMAC key that a successful `SetPrivateKey` installs are the three parts of an
HKDF-SHA512 output of the unwrapped root key, salted with SHA-256 of the header bytes that were read. -/
theorem C25_keys (P : Prims) (L : Laws P) (rd : Reader) (sk : PrivateKey) (spk : Option PublicKey) (d : Decryptor)
    (h : setupDecryptor P rd sk spk = .ok d) :
    ∃ hb rest root, Spec.HeaderAt P rd.content hb d.hdr rest ∧ d.key = some root ∧
      (let okm := P.hkdf512 root (P.sha256 (ascii "SigTool" ++ [3] ++ be32 hb.length ++ hb)) (ascii "Data Key Expansion") 76
       d.nonce = okm.take 12 ∧ d.ae = some ((okm.drop 12).take 32) ∧ d.hmac = some (okm.drop 44, [])) := by
  obtain ⟨d0, rd', hb, key, ha, hk, hr, h1, h2, h3, h4, h5, h6, h7, h8⟩ := setupDecryptor_ok P L rd sk spk d h
  obtain ⟨c1, c2, c3, c4⟩ := (checkHeader_iff _).mp ha.checked
  have s1 : d0.hdrsum = P.sha256 (ascii "SigTool" ++ [3] ++ be32 hb.length ++ hb) := by rw [ha.state]
  refine ⟨hb, rd'.content, key, ?_, h4, ?_⟩
  · rw [h5]; exact ⟨ha.content, ⟨ha.lo, ha.hi⟩, ha.decoded, c1, c2, c3, c4⟩
  · rw [← s1]
    refine ⟨h8, ?_, ?_⟩
    · rw [hk.state]; rfl
    · rw [hk.state]; rfl

/-- Non-vacuity of C24 and C25: the header of the demo container is accepted, by Carol, with the sender's key. -/
example : ∃ e d, setupEncryptor toyPrims (some Demo.alice) 4 Demo.coins Demo.rcpts = .ok e ∧
    setupDecryptor toyPrims ⟨[headerPart e.hdr ++ toyPrims.sha256 (headerPart e.hdr) ++ [1, 2, 3]], .eof, false⟩ Demo.carol
      (some Demo.alice.pub) = .ok d ∧ d.rd.content = [1, 2, 3] := by
  obtain ⟨e, d, h1, h2, _, h3⟩ := Demo.carol_ready [1, 2, 3]
  exact ⟨e, d, h1, h2, h3⟩

end Sigtool
