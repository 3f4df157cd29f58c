import Verif.Spec.Gcm
/-!
# Spec.Aes: AES-256 (FIPS 197), its counter mode and the decryption of its CBC mode (SP 800-38A)

Nothing here refers to the code.
-/

namespace Sigtool.Spec

/-- Multiplication by `x` in `GF(2^8)` modulo `x^8 + x^4 + x^3 + x + 1` (section 4.2.1). -/
def xtime (b : UInt8) : UInt8 := (b <<< 1) ^^^ (if b ≥ 128 then 0x1b else 0)

/-- Multiplication in `GF(2^8)` (section 4.2): `n` is the number of bits of the first factor that are looked at. -/
def gmulBits : Nat → UInt8 → UInt8 → UInt8
  | 0, _, _ => 0
  | n + 1, a, b => if a = 0 then 0 else (if a % 2 = 1 then b else 0) ^^^ gmulBits n (a / 2) (xtime b)

def gmul (a b : UInt8) : UInt8 := gmulBits 8 a b

/-- `a^254`: the inverse of `a`, and 0 for 0. -/
def ginv (a : UInt8) : UInt8 :=
  let a2 := gmul a a
  let a4 := gmul a2 a2
  let a8 := gmul a4 a4
  let a16 := gmul a8 a8
  let a32 := gmul a16 a16
  let a64 := gmul a32 a32
  let a128 := gmul a64 a64
  gmul a2 (gmul a4 (gmul a8 (gmul a16 (gmul a32 (gmul a64 a128)))))

/-- Rotation of a byte to the left. -/
def rotl8 (b : UInt8) (n : UInt8) : UInt8 := (b <<< n) ||| (b >>> (8 - n))

/-- The S-box (section 5.1.1): the inverse, then the affine transformation. -/
def sboxDef (a : UInt8) : UInt8 :=
  let b := ginv a
  b ^^^ rotl8 b 1 ^^^ rotl8 b 2 ^^^ rotl8 b 3 ^^^ rotl8 b 4 ^^^ 0x63

/-- Its table, packed in a number, the entry for 0 lowest. -/
def sboxTable : Nat :=
  0x16bb54b00f2d99416842e6bf0d89a18cdf2855cee9871e9b948ed9691198f8e19e1dc186b95735610ef6034866b53e708a8bbd4b1f74dde8c6b4a61c2e2578ba08ae7a65eaf4566ca94ed58d6d37c8e779e4959162acd3c25c2406490a3a32e0db0b5ede14b8ee4688902a22dc4f816073195d643d7ea7c41744975fec130ccdd2f3ff1021dab6bcf5389d928f40a351a89f3c507f02f94585334d43fbaaefd0cf584c4a39becb6a5bb1fc20ed00d153842fe329b3d63b52a05a6e1b1a2c830975b227ebe28012079a059618c323c7041531d871f1e5a534ccf73f362693fdb7c072a49cafa2d4adf04759fa7dc982ca76abd7fe2b670130c56f6bf27b777c63

/-- The table of the inverse (section 5.3.2). -/
def invSboxTable : Nat :=
  0x7d0c2155631469e126d677ba7e042b17619953833cbbebc8b0f52aae4d3be0a0ef9cc9939f7ae52d0d4ab519a97f51605fec8027591012b131c7078833a8dd1ff45acd78fec0db9a2079d2c64b3e56fc1bbe18aa0e62b76f89c5291d711af1476edf751ce837f9e28535ade72274ac9673e6b4f0cecff297eadc674f4111913a6b8a130103bdafc1020f3fca8f1e2cd00645b3b80558e4f70ad3bc8c00abd890849d8da75746155edab9edfd5048706c92b6655dcc5ca4d41698688664f6f87225d18b6d49a25b76b224d92866a12e084ec3fa420b954cee3d23c2a632947b54cbe9dec444438e3487ff2f9b8239e37cfbd7f3819ea340bf38a53630d56a0952

def sbox (a : UInt8) : UInt8 := UInt8.ofNat (sboxTable >>> (8 * a.toNat) % 256)

def invSbox (a : UInt8) : UInt8 := UInt8.ofNat (invSboxTable >>> (8 * a.toNat) % 256)

/-- Byte `i` of a state; the state is a list of 16 bytes, row `r` of column `c` at `r + 4c` (section 3.4). -/
def byteAt (s : Bytes) (i : Nat) : UInt8 := s.getD i 0

/-- `AddRoundKey` (section 5.1.4). -/
def addRoundKey (k s : Bytes) : Bytes := (List.range 16).map fun i => byteAt k i ^^^ byteAt s i

/-- `ShiftRows` (section 5.1.2): row `r` is rotated by `r` to the left. -/
def shiftRows (s : Bytes) : Bytes := (List.range 16).map fun i => byteAt s (i % 4 + 4 * ((i / 4 + i % 4) % 4))

def invShiftRows (s : Bytes) : Bytes := (List.range 16).map fun i => byteAt s (i % 4 + 4 * ((i / 4 + 4 - i % 4) % 4))

/-- A column times the polynomial `a3 x^3 + a2 x^2 + a1 x + a0` modulo `x^4 + 1` (section 4.3): row `r` of the product is the sum of
`a_(r-j) * s_j`. -/
def mixWith (a0 a1 a2 a3 : UInt8) (s : Bytes) : Bytes :=
  (List.range 16).map fun i =>
    let c := 4 * (i / 4)
    let r := i % 4
    gmul a0 (byteAt s (c + r)) ^^^ gmul a1 (byteAt s (c + (r + 3) % 4)) ^^^ gmul a2 (byteAt s (c + (r + 2) % 4)) ^^^
      gmul a3 (byteAt s (c + (r + 1) % 4))

/-- `MixColumns` (section 5.1.3): `a(x) = 3 x^3 + x^2 + x + 2`. -/
def mixColumns : Bytes → Bytes := mixWith 2 1 1 3

/-- `InvMixColumns` (section 5.3.3): `11 x^3 + 13 x^2 + 9 x + 14`. -/
def invMixColumns : Bytes → Bytes := mixWith 14 9 13 11

/-- `x^(n-1)` in `GF(2^8)`: the constants `Rcon[n]` (section 5.2). -/
def rcon : Nat → UInt8
  | 0 => 0
  | 1 => 1
  | n + 2 => xtime (rcon (n + 1))

/-- The key expansion for keys of eight words (section 5.2): word `i` from the words before it, the latest first in `ws`. -/
def nextWord (i : Nat) (ws : List Bytes) : Bytes :=
  let t := ws.getD 0 []
  let t :=
    if i % 8 = 0 then
      let u := (t.drop 1 ++ t.take 1).map sbox
      u.modify 0 (· ^^^ rcon (i / 8))
    else if i % 8 = 4 then t.map sbox
    else t
  xorBytes (ws.getD 7 []) t

/-- `n` more words, the next being word `i`. -/
def expandKey : Nat → Nat → List Bytes → List Bytes
  | 0, _, ws => ws
  | n + 1, i, ws => expandKey n (i + 1) (nextWord i ws :: ws)

/-- Pieces of `k` bytes. -/
def pieces (k : Nat) : Nat → Bytes → List Bytes
  | 0, _ => []
  | n + 1, b => b.take k :: pieces k n (b.drop k)

/-- The fifteen round keys of a key of 32 bytes. -/
def roundKeys (key : Bytes) : List Bytes := pieces 16 15 (expandKey 52 8 (pieces 4 8 key).reverse).reverse.flatten

/-- The cipher (section 5.1) with fourteen rounds. -/
def aesRounds : Bytes → List Bytes → Bytes
  | s, [] => s
  | s, [k] => addRoundKey k (shiftRows (s.map sbox))
  | s, k :: ks => aesRounds (addRoundKey k (mixColumns (shiftRows (s.map sbox)))) ks

def aes256 (key block : Bytes) : Bytes :=
  match roundKeys key with
  | [] => []
  | k :: ks => aesRounds (addRoundKey k block) ks

/-- The inverse cipher (section 5.3), with the round keys in reverse order. -/
def invRounds : Bytes → List Bytes → Bytes
  | s, [] => s
  | s, [k] => addRoundKey k ((invShiftRows s).map invSbox)
  | s, k :: ks => invRounds (invMixColumns (addRoundKey k ((invShiftRows s).map invSbox))) ks

def invAes256 (key block : Bytes) : Bytes :=
  match (roundKeys key).reverse with
  | [] => []
  | k :: ks => invRounds (addRoundKey k block) ks

/-- The key stream of the counter mode (SP 800-38A, section 6.5): the whole block is the counter. -/
def ctrStream (key : Bytes) : Nat → Nat → Bytes
  | 0, _ => []
  | n + 1, c => aes256 key (beOut 16 c) ++ ctrStream key n ((c + 1) % 2^128)

def ctr256 (key iv data : Bytes) : Bytes := xorBytes data (ctrStream key ((data.length + 15) / 16) (beVal iv))

/-- CBC decryption (SP 800-38A, section 6.2) of `n` blocks. -/
def cbcDecBlocks (key : Bytes) : Nat → Bytes → Bytes → Bytes
  | 0, _, _ => []
  | n + 1, prev, data => xorBytes (invAes256 key (data.take 16)) prev ++ cbcDecBlocks key n (data.take 16) (data.drop 16)

def cbcDec256 (key iv data : Bytes) : Bytes := cbcDecBlocks key (data.length / 16) iv data

/-! ### Lengths -/

theorem pieces_length (k n : Nat) (b : Bytes) : (pieces k n b).length = n := by
  induction n generalizing b with
  | zero => rfl
  | succ n ih => simp [pieces, ih]

theorem aesRounds_length (s : Bytes) (ks : List Bytes) (h : s.length = 16) : (aesRounds s ks).length = 16 := by
  induction ks generalizing s with
  | nil => simpa [aesRounds] using h
  | cons k ks ih =>
    cases ks with
    | nil => simp [aesRounds, addRoundKey]
    | cons k' ks' => rw [aesRounds]; exact ih _ (by simp [addRoundKey]); simp

theorem aes256_length (key block : Bytes) : (aes256 key block).length = 16 := by
  unfold aes256
  have h := pieces_length 16 15 (expandKey 52 8 (pieces 4 8 key).reverse).reverse.flatten
  rw [show pieces 16 15 (expandKey 52 8 (pieces 4 8 key).reverse).reverse.flatten = roundKeys key from rfl] at h
  cases e : roundKeys key with
  | nil => rw [e] at h; cases h
  | cons k ks => exact aesRounds_length _ _ (by simp [addRoundKey])

/-! ### Checks -/

/-- Inverse in the field, inverse S-box: the whole domain. -/
theorem ginv_mul : ∀ n < 256, n ≠ 0 → gmul (UInt8.ofNat n) (ginv (UInt8.ofNat n)) = 1 := by decide +kernel
theorem sbox_table : ∀ n < 256, sbox (UInt8.ofNat n) = sboxDef (UInt8.ofNat n) := by decide +kernel
theorem invSbox_sbox : ∀ n < 256, invSbox (sbox (UInt8.ofNat n)) = UInt8.ofNat n := by decide +kernel

/-- FIPS 197, appendix C.3. -/
example : aes256 (beOut 32 0x000102030405060708090a0b0c0d0e0f101112131415161718191a1b1c1d1e1f) (beOut 16 0x00112233445566778899aabbccddeeff) =
    beOut 16 0x8ea2b7ca516745bfeafc49904b496089 := by decide +kernel
example : invAes256 (beOut 32 0x000102030405060708090a0b0c0d0e0f101112131415161718191a1b1c1d1e1f) (beOut 16 0x8ea2b7ca516745bfeafc49904b496089) =
    beOut 16 0x00112233445566778899aabbccddeeff := by decide +kernel

/-- AES-256-GCM, test cases 13, 14 and 16 of the GCM submission. -/
example : gcmSeal aes256 (List.replicate 32 0) (List.replicate 12 0) [] [] = beOut 16 0x530f8afbc74536b9a963b4f1c4cb738b := by decide +kernel
example : gcmSeal aes256 (List.replicate 32 0) (List.replicate 12 0) (List.replicate 16 0) [] =
    beOut 32 0xcea7403d4d606b6e074ec5d3baf39d18d0d1c8a799996bf0265b98b5d48ab919 := by decide +kernel
example : gcmSeal aes256 (beOut 32 0xfeffe9928665731c6d6a8f9467308308feffe9928665731c6d6a8f9467308308) (beOut 12 0xcafebabefacedbaddecaf888)
    (beOut 60 0xd9313225f88406e5a55909c5aff5269a86a7a9531534f7da2e4c303d8a318a721c3c0c95956809532fcf0e2449a6b525b16aedf5aa0de657ba637b39)
    (beOut 20 0xfeedfacedeadbeeffeedfacedeadbeefabaddad2) =
    beOut 60 0x522dc1f099567d07f47f37a32a84427d643a8cdcbfe5c0c97598a2bd2555d1aa8cb08e48590dbb3da7b08b1056828838c5f61e6393ba7a0abcc9f662 ++
      beOut 16 0x76fc6ece0f4e1768cddf8853bb2d551b := by decide +kernel

end Sigtool.Spec
