import Verif.Spec.Gcm
import Mathlib.Data.Nat.Prime.Defs
/-!
# Spec.Sha2: SHA-256 and SHA-512 (FIPS 180-4)

Words are numbers below `2^w`. Nothing here refers to the code.
-/

namespace Sigtool.Spec

/-- The eight working variables `a` ... `h`, or the intermediate hash value. -/
structure ShaState where
  a : Nat
  b : Nat
  c : Nat
  d : Nat
  e : Nat
  f : Nat
  g : Nat
  h : Nat
deriving DecidableEq, Repr

/-- What distinguishes SHA-256 and SHA-512: the word size in bits, the constants of the functions `Σ0`, `Σ1` (three rotations),
`σ0`, `σ1` (two rotations and a shift), the round constants, the initial hash value. -/
structure ShaParams where
  w : Nat
  bigSigma0 : Nat × Nat × Nat
  bigSigma1 : Nat × Nat × Nat
  sigma0 : Nat × Nat × Nat
  sigma1 : Nat × Nat × Nat
  k : List Nat
  init : ShaState

/-- Rotation to the right (section 3.2). -/
def rotr (w n x : Nat) : Nat := (x >>> n) ||| ((x <<< (w - n)) % 2^w)

/-- `Ch(x, y, z) = (x ∧ y) ⊕ (¬x ∧ z)` (section 4.1). -/
def shaCh (w x y z : Nat) : Nat := (x &&& y) ^^^ ((x ^^^ (2^w - 1)) &&& z)

/-- `Maj(x, y, z) = (x ∧ y) ⊕ (x ∧ z) ⊕ (y ∧ z)`. -/
def shaMaj (x y z : Nat) : Nat := (x &&& y) ^^^ (x &&& z) ^^^ (y &&& z)

/-- `Σ0`, `Σ1`. -/
def shaBig (w : Nat) (r : Nat × Nat × Nat) (x : Nat) : Nat := rotr w r.1 x ^^^ rotr w r.2.1 x ^^^ rotr w r.2.2 x

/-- `σ0`, `σ1`. -/
def shaSmall (w : Nat) (r : Nat × Nat × Nat) (x : Nat) : Nat := rotr w r.1 x ^^^ rotr w r.2.1 x ^^^ (x >>> r.2.2)

/-- The message schedule (section 6.2.2, step 1): `n` words after those in `ws`, which are in reverse order, the latest first. -/
def shaSchedule (p : ShaParams) : Nat → List Nat → List Nat
  | 0, ws => ws
  | n + 1, ws =>
    shaSchedule p n (((shaSmall p.w p.sigma1 (ws.getD 1 0) + ws.getD 6 0 + shaSmall p.w p.sigma0 (ws.getD 14 0) + ws.getD 15 0) % 2^p.w) :: ws)

/-- One round (section 6.2.2, step 3) with the constant and the word of the schedule. -/
def shaRound (p : ShaParams) (s : ShaState) (kw : Nat × Nat) : ShaState :=
  let t1 := s.h + shaBig p.w p.bigSigma1 s.e + shaCh p.w s.e s.f s.g + kw.1 + kw.2
  let t2 := shaBig p.w p.bigSigma0 s.a + shaMaj s.a s.b s.c
  ⟨(t1 + t2) % 2^p.w, s.a, s.b, s.c, (s.d + t1) % 2^p.w, s.e, s.f, s.g⟩

/-- `n` words of `k` bytes each. -/
def beWords (k : Nat) : Nat → Bytes → List Nat
  | 0, _ => []
  | n + 1, b => beVal (b.take k) :: beWords k n (b.drop k)

/-- The hash value after one more block (section 6.2.2). -/
def shaBlock (p : ShaParams) (s : ShaState) (block : Bytes) : ShaState :=
  let ws := (shaSchedule p (p.k.length - 16) (beWords (p.w / 8) 16 block).reverse).reverse
  let t := (p.k.zip ws).foldl (shaRound p) s
  ⟨(s.a + t.a) % 2^p.w, (s.b + t.b) % 2^p.w, (s.c + t.c) % 2^p.w, (s.d + t.d) % 2^p.w,
   (s.e + t.e) % 2^p.w, (s.f + t.f) % 2^p.w, (s.g + t.g) % 2^p.w, (s.h + t.h) % 2^p.w⟩

/-- The message with its padding (section 5.1): a bit 1, zeros up to two words less than a block, the length in bits in two words. -/
def shaPad (p : ShaParams) (m : Bytes) : Bytes :=
  let block := 2 * p.w
  m ++ [0x80] ++ List.replicate ((2 * block - (m.length + 1 + p.w / 4) % block) % block) 0 ++ beOut (p.w / 4) (8 * m.length)

/-- The hash value after `n` blocks. -/
def shaBlocks (p : ShaParams) : Nat → ShaState → Bytes → ShaState
  | 0, s, _ => s
  | n + 1, s, b => shaBlocks p n (shaBlock p s (b.take (2 * p.w))) (b.drop (2 * p.w))

/-- The digest (section 6.2). -/
def sha2 (p : ShaParams) (m : Bytes) : Bytes :=
  let b := shaPad p m
  let s := shaBlocks p (b.length / (2 * p.w)) p.init b
  [s.a, s.b, s.c, s.d, s.e, s.f, s.g, s.h].flatMap (beOut (p.w / 8))

/-- Sections 4.1.2, 4.2.2, 5.3.3. -/
def sha256Params : ShaParams where
  w := 32
  bigSigma0 := (2, 13, 22)
  bigSigma1 := (6, 11, 25)
  sigma0 := (7, 18, 3)
  sigma1 := (17, 19, 10)
  k :=
    [0x428a2f98, 0x71374491, 0xb5c0fbcf, 0xe9b5dba5, 0x3956c25b, 0x59f111f1, 0x923f82a4, 0xab1c5ed5, 0xd807aa98, 0x12835b01,
     0x243185be, 0x550c7dc3, 0x72be5d74, 0x80deb1fe, 0x9bdc06a7, 0xc19bf174, 0xe49b69c1, 0xefbe4786, 0x0fc19dc6, 0x240ca1cc,
     0x2de92c6f, 0x4a7484aa, 0x5cb0a9dc, 0x76f988da, 0x983e5152, 0xa831c66d, 0xb00327c8, 0xbf597fc7, 0xc6e00bf3, 0xd5a79147,
     0x06ca6351, 0x14292967, 0x27b70a85, 0x2e1b2138, 0x4d2c6dfc, 0x53380d13, 0x650a7354, 0x766a0abb, 0x81c2c92e, 0x92722c85,
     0xa2bfe8a1, 0xa81a664b, 0xc24b8b70, 0xc76c51a3, 0xd192e819, 0xd6990624, 0xf40e3585, 0x106aa070, 0x19a4c116, 0x1e376c08,
     0x2748774c, 0x34b0bcb5, 0x391c0cb3, 0x4ed8aa4a, 0x5b9cca4f, 0x682e6ff3, 0x748f82ee, 0x78a5636f, 0x84c87814, 0x8cc70208,
     0x90befffa, 0xa4506ceb, 0xbef9a3f7, 0xc67178f2]
  init := ⟨0x6a09e667, 0xbb67ae85, 0x3c6ef372, 0xa54ff53a, 0x510e527f, 0x9b05688c, 0x1f83d9ab, 0x5be0cd19⟩

/-- Sections 4.1.3, 4.2.3, 5.3.5. -/
def sha512Params : ShaParams where
  w := 64
  bigSigma0 := (28, 34, 39)
  bigSigma1 := (14, 18, 41)
  sigma0 := (1, 8, 7)
  sigma1 := (19, 61, 6)
  k :=
    [0x428a2f98d728ae22, 0x7137449123ef65cd, 0xb5c0fbcfec4d3b2f, 0xe9b5dba58189dbbc, 0x3956c25bf348b538, 0x59f111f1b605d019,
     0x923f82a4af194f9b, 0xab1c5ed5da6d8118, 0xd807aa98a3030242, 0x12835b0145706fbe, 0x243185be4ee4b28c, 0x550c7dc3d5ffb4e2,
     0x72be5d74f27b896f, 0x80deb1fe3b1696b1, 0x9bdc06a725c71235, 0xc19bf174cf692694, 0xe49b69c19ef14ad2, 0xefbe4786384f25e3,
     0x0fc19dc68b8cd5b5, 0x240ca1cc77ac9c65, 0x2de92c6f592b0275, 0x4a7484aa6ea6e483, 0x5cb0a9dcbd41fbd4, 0x76f988da831153b5,
     0x983e5152ee66dfab, 0xa831c66d2db43210, 0xb00327c898fb213f, 0xbf597fc7beef0ee4, 0xc6e00bf33da88fc2, 0xd5a79147930aa725,
     0x06ca6351e003826f, 0x142929670a0e6e70, 0x27b70a8546d22ffc, 0x2e1b21385c26c926, 0x4d2c6dfc5ac42aed, 0x53380d139d95b3df,
     0x650a73548baf63de, 0x766a0abb3c77b2a8, 0x81c2c92e47edaee6, 0x92722c851482353b, 0xa2bfe8a14cf10364, 0xa81a664bbc423001,
     0xc24b8b70d0f89791, 0xc76c51a30654be30, 0xd192e819d6ef5218, 0xd69906245565a910, 0xf40e35855771202a, 0x106aa07032bbd1b8,
     0x19a4c116b8d2d0c8, 0x1e376c085141ab53, 0x2748774cdf8eeb99, 0x34b0bcb5e19b48a8, 0x391c0cb3c5c95a63, 0x4ed8aa4ae3418acb,
     0x5b9cca4f7763e373, 0x682e6ff3d6b2b8a3, 0x748f82ee5defb2fc, 0x78a5636f43172f60, 0x84c87814a1f0ab72, 0x8cc702081a6439ec,
     0x90befffa23631e28, 0xa4506cebde82bde9, 0xbef9a3f7b2c67915, 0xc67178f2e372532b, 0xca273eceea26619c, 0xd186b8c721c0c207,
     0xeada7dd6cde0eb1e, 0xf57d4f7fee6ed178, 0x06f067aa72176fba, 0x0a637dc5a2c898a6, 0x113f9804bef90dae, 0x1b710b35131c471b,
     0x28db77f523047d84, 0x32caab7b40c72493, 0x3c9ebe0a15c9bebc, 0x431d67c49c100d4c, 0x4cc5d4becb3e42b6, 0x597f299cfc657e2a,
     0x5fcb6fab3ad6faec, 0x6c44198c4a475817]
  init := ⟨0x6a09e667f3bcc908, 0xbb67ae8584caa73b, 0x3c6ef372fe94f82b, 0xa54ff53a5f1d36f1, 0x510e527fade682d1, 0x9b05688c2b3e6c1f,
    0x1f83d9abfb41bd6b, 0x5be0cd19137e2179⟩

def sha256 : Bytes → Bytes := sha2 sha256Params

def sha512 : Bytes → Bytes := sha2 sha512Params

/-! ### The constants are what section 4.2.2 says: "the first thirty-two bits of the fractional parts of the cube roots of the
first sixty-four prime numbers", and likewise the others -/

/-- `x` is the first `w` bits of the fractional part of the `k`-th root of `p`; the integer part is at most 20. -/
def FracRoot (k w p x : Nat) : Prop := x < 2^w ∧ ∃ a < 21, (a * 2^w + x)^k ≤ p * 2^(k * w) ∧ p * 2^(k * w) < (a * 2^w + x + 1)^k

instance (k w p x : Nat) : Decidable (FracRoot k w p x) := by unfold FracRoot; infer_instance

/-- The first `n` primes. -/
def somePrimes (n : Nat) : List Nat := ((List.range 410).filter fun p => decide p.Prime).take n

def ShaState.toList (s : ShaState) : List Nat := [s.a, s.b, s.c, s.d, s.e, s.f, s.g, s.h]

/-- As many constants as primes, each the root of its prime. -/
def AreRoots (k w : Nat) (ps xs : List Nat) : Prop := xs.length = ps.length ∧ ∀ px ∈ ps.zip xs, FracRoot k w px.1 px.2

instance (k w : Nat) (ps xs : List Nat) : Decidable (AreRoots k w ps xs) := by unfold AreRoots; infer_instance

theorem sha256_constants : AreRoots 3 32 (somePrimes 64) sha256Params.k ∧ (somePrimes 64).length = 64 ∧
    AreRoots 2 32 (somePrimes 8) sha256Params.init.toList := by decide +kernel

theorem sha512_constants : AreRoots 3 64 (somePrimes 80) sha512Params.k ∧ (somePrimes 80).length = 80 ∧
    AreRoots 2 64 (somePrimes 8) sha512Params.init.toList := by decide +kernel

/-! ### Lengths -/

theorem beOut_len (k n : Nat) : (beOut k n).length = k := by
  induction k generalizing n with
  | zero => rfl
  | succ k ih => simp [beOut, ih]

theorem sha256_length (m : Bytes) : (sha256 m).length = 32 := by simp [sha256, sha2, sha256Params, beOut_len]

theorem sha512_length (m : Bytes) : (sha512 m).length = 64 := by simp [sha512, sha2, sha512Params, beOut_len]

/-! ### Test vectors (FIPS 180-4 examples) -/

example : sha256 "abc".toUTF8.toList = beOut 32 0xba7816bf8f01cfea414140de5dae2223b00361a396177a9cb410ff61f20015ad := by decide +kernel
example : sha256 [] = beOut 32 0xe3b0c44298fc1c149afbf4c8996fb92427ae41e4649b934ca495991b7852b855 := by decide +kernel
example : sha256 "abcdbcdecdefdefgefghfghighijhijkijkljklmklmnlmnomnopnopq".toUTF8.toList =
    beOut 32 0x248d6a61d20638b8e5c026930c3e6039a33ce45964ff2167f6ecedd419db06c1 := by decide +kernel
example : sha512 "abc".toUTF8.toList = beOut 64
    0xddaf35a193617abacc417349ae20413112e6fa4e89a97ea20a9eeee64b55d39a2192992a274fc1a836ba3c23a3feebbd454d4423643ce80e2a9ac94fa54ca49f := by
  decide +kernel

end Sigtool.Spec
