import Verif.Base
/-!
# Base64: Go's `base64.StdEncoding` as used by `sign/keys.go`, `sign/sign.go`, `sign/ssh.go`

Modelled from the documented behaviour of Go's `encoding/base64` (a dependency, not in `/repo`): the decoder skips `\r` and
`\n` anywhere, requires `=` padding, rejects everything after the padding and ignores the unused low bits of the last
character before the padding.
-/

namespace Sigtool.Base64

/-- The standard alphabet. -/
def char (n : Nat) : UInt8 :=
  if n < 26 then UInt8.ofNat (65 + n)
  else if n < 52 then UInt8.ofNat (97 + (n - 26))
  else if n < 62 then UInt8.ofNat (48 + (n - 52))
  else if n = 62 then 43 else 47

def pad : UInt8 := 61

/-- The decoding table. -/
def val (c : UInt8) : Option Nat :=
  let n := c.toNat
  if 65 ≤ n ∧ n ≤ 90 then some (n - 65)
  else if 97 ≤ n ∧ n ≤ 122 then some (n - 97 + 26)
  else if 48 ≤ n ∧ n ≤ 57 then some (n - 48 + 52)
  else if n = 43 then some 62
  else if n = 47 then some 63
  else none

/-- `base64.StdEncoding.EncodeToString`, called at `sign/keys.go:250-255,474-478`, `sign/sign.go:123-124`. -/
def encode : Bytes → Bytes
  | [] => []
  | [a] => [char (a.toNat / 4), char (a.toNat % 4 * 16), pad, pad]
  | [a, b] => [char (a.toNat / 4), char (a.toNat % 4 * 16 + b.toNat / 16), char (b.toNat % 16 * 4), pad]
  | a :: b :: c :: t =>
    char (a.toNat / 4) :: char (a.toNat % 4 * 16 + b.toNat / 16) :: char (b.toNat % 16 * 4 + c.toNat / 64) ::
      char (c.toNat % 64) :: encode t

/-- The decoder after line breaks have been dropped. -/
def decodeQ : Bytes → Option Bytes
  | [] => some []
  | c1 :: c2 :: c3 :: c4 :: t =>
    match val c1, val c2 with
    | some v1, some v2 =>
      let b1 := UInt8.ofNat (v1 * 4 + v2 / 16)
      if c3 = pad then
        if c4 = pad ∧ t = [] then some [b1] else none
      else
        match val c3 with
        | none => none
        | some v3 =>
          let b2 := UInt8.ofNat (v2 % 16 * 16 + v3 / 4)
          if c4 = pad then
            if t = [] then some [b1, b2] else none
          else
            match val c4, decodeQ t with
            | some v4, some bs => some (b1 :: b2 :: UInt8.ofNat (v3 % 4 * 64 + v4) :: bs)
            | _, _ => none
    | _, _ => none
  | _ => none

/-- A character the decoder skips. -/
def isBreak (c : UInt8) : Bool := c == 10 || c == 13

/-- `base64.StdEncoding.DecodeString`, called at `sign/keys.go:306-316,380-382,508-511`, `sign/sign.go:103-110`,
`sign/ssh.go:71`. -/
def decode (s : Bytes) : Option Bytes := decodeQ (s.filter fun c => !isBreak c)

/-- `base64.StdEncoding.DecodedLen`: the capacity of the slice that `DecodeString` returns. -/
def decodedLen (s : Bytes) : Nat := s.length / 4 * 3

/-! ### Lemmas -/

theorem val_char : ∀ n < 64, val (char n) = some n := by decide

theorem char_ne_pad : ∀ n < 64, char n ≠ pad := by decide

theorem char_not_break : ∀ n < 64, isBreak (char n) = false := by decide

/-- Characters of the alphabet, and padding. -/
def isB64 (c : UInt8) : Bool := (val c).isSome || c == pad

theorem isB64_char : ∀ n < 64, isB64 (char n) = true := by decide

theorem encode_alphabet : ∀ (x : Bytes), ∀ c ∈ encode x, isB64 c = true := by
  intro x
  induction x using encode.induct with
  | case1 => simp [encode]
  | case2 a =>
    have := a.toNat_lt
    intro c hc
    simp only [encode, List.mem_cons, List.not_mem_nil, or_false] at hc
    rcases hc with rfl | rfl | rfl | rfl
    · exact isB64_char _ (by omega)
    · exact isB64_char _ (by omega)
    · decide
    · decide
  | case3 a b =>
    have := a.toNat_lt
    have := b.toNat_lt
    intro c hc
    simp only [encode, List.mem_cons, List.not_mem_nil, or_false] at hc
    rcases hc with rfl | rfl | rfl | rfl
    · exact isB64_char _ (by omega)
    · exact isB64_char _ (by omega)
    · exact isB64_char _ (by omega)
    · decide
  | case4 a b d t ih =>
    have := a.toNat_lt
    have := b.toNat_lt
    have := d.toNat_lt
    intro c hc
    simp only [encode, List.mem_cons] at hc
    rcases hc with rfl | rfl | rfl | rfl | hc
    · exact isB64_char _ (by omega)
    · exact isB64_char _ (by omega)
    · exact isB64_char _ (by omega)
    · exact isB64_char _ (by omega)
    · exact ih c hc

/-- A statement about a byte holds if it holds for the 256 values. -/
theorem forall_byte {p : UInt8 → Prop} (h : ∀ n < 256, p (UInt8.ofNat n)) (c : UInt8) : p c := by
  have := h c.toNat c.toNat_lt
  rwa [UInt8.ofNat_toNat] at this

theorem isB64_not_break (c : UInt8) (h : isB64 c = true) : isBreak c = false := by
  revert h
  exact forall_byte (p := fun c => isB64 c = true → isBreak c = false) (by decide +kernel) c

theorem filter_b64 (x : Bytes) (h : ∀ c ∈ x, isB64 c = true) : x.filter (fun c => !isBreak c) = x := by
  rw [List.filter_eq_self]
  intro c hc
  simp [isB64_not_break c (h c hc)]

theorem decodeQ_encode : ∀ x : Bytes, decodeQ (encode x) = some x := by
  intro x
  induction x using encode.induct with
  | case1 => rfl
  | case2 a =>
    have := a.toNat_lt
    simp only [encode, decodeQ]
    rw [val_char _ (by omega), val_char _ (by omega)]
    simp only [if_true, and_self]
    congr 2
    apply UInt8.toNat_inj.mp; rw [UInt8.toNat_ofNat']; omega
  | case3 a b =>
    have := a.toNat_lt
    have := b.toNat_lt
    simp only [encode, decodeQ]
    rw [val_char _ (by omega), val_char _ (by omega), val_char _ (by omega)]
    simp only [if_neg (char_ne_pad (b.toNat % 16 * 4) (by omega)), if_true]
    congr 2
    · apply UInt8.toNat_inj.mp; rw [UInt8.toNat_ofNat']; omega
    · congr 1; apply UInt8.toNat_inj.mp; rw [UInt8.toNat_ofNat']; omega
  | case4 a b c t ih =>
    have := a.toNat_lt
    have := b.toNat_lt
    have := c.toNat_lt
    simp only [encode, decodeQ]
    rw [val_char _ (by omega), val_char _ (by omega), val_char _ (by omega), val_char _ (by omega), ih]
    simp only [if_neg (char_ne_pad (b.toNat % 16 * 4 + c.toNat / 64) (by omega)),
      if_neg (char_ne_pad (c.toNat % 64) (by omega))]
    congr 2
    · apply UInt8.toNat_inj.mp; rw [UInt8.toNat_ofNat']; omega
    · congr 1
      · apply UInt8.toNat_inj.mp; rw [UInt8.toNat_ofNat']; omega
      · congr 1; apply UInt8.toNat_inj.mp; rw [UInt8.toNat_ofNat']; omega

theorem decode_encode (x : Bytes) : decode (encode x) = some x := by
  rw [decode, filter_b64 _ (encode_alphabet x), decodeQ_encode]

theorem encode_length : ∀ x : Bytes, (encode x).length = (x.length + 2) / 3 * 4 := by
  intro x
  induction x using encode.induct with
  | case1 => rfl
  | case2 a => simp [encode]
  | case3 a b => simp [encode]
  | case4 a b c t ih => simp only [encode, List.length_cons, ih]; omega

/-- Decoding never yields more than the capacity of the returned slice. -/
theorem decodeQ_length : ∀ (s x : Bytes), decodeQ s = some x → x.length ≤ s.length / 4 * 3
  | [], x, h => by cases h; simp
  | [_], x, h => by cases h
  | [_, _], x, h => by cases h
  | [_, _, _], x, h => by cases h
  | c1 :: c2 :: c3 :: c4 :: t, x, h => by
    have ih := decodeQ_length t
    simp only [decodeQ] at h
    split at h
    · split at h
      · split at h
        · cases h; simp only [List.length_cons, List.length_nil]; omega
        · cases h
      · split at h
        · cases h
        · split at h
          · split at h
            · cases h; simp only [List.length_cons, List.length_nil]; omega
            · cases h
          · split at h
            · rename_i hb
              cases h
              have := ih _ hb
              simp only [List.length_cons]; omega
            · cases h
    · cases h

theorem decode_length (s x : Bytes) (h : decode s = some x) : x.length ≤ decodedLen s := by
  have := decodeQ_length _ _ h
  have h2 := List.length_filter_le (fun c => !isBreak c) s
  unfold decodedLen
  omega

end Sigtool.Base64
