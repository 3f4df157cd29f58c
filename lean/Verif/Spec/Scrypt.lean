import Verif.Spec.Sha2
import Verif.Base
/-!
# Spec.Scrypt: scrypt (RFC 7914)

`golang.org/x/crypto/scrypt.Key`: the checks of its parameters (from memory), then the function of the RFC.
-/

namespace Sigtool.Spec

/-- PBKDF2-HMAC-SHA-256 with one iteration (RFC 8018, section 5.2): `n` blocks, the next being number `i`. -/
def pbkdf2Blocks (pass salt : Bytes) : Nat → Nat → Bytes
  | 0, _ => []
  | n + 1, i => hmac sha256 64 pass (salt ++ beOut 4 i) ++ pbkdf2Blocks pass salt n (i + 1)

def pbkdf2 (pass salt : Bytes) (len : Nat) : Bytes := (pbkdf2Blocks pass salt ((len + 31) / 32) 1).take len

/-- One step of Salsa20: `x[dst] ^= R(x[a] + x[b], n)` (RFC 7914, section 3). -/
def salsaStep (x : List Nat) (s : Nat × Nat × Nat × Nat) : List Nat :=
  let sum := (x.getD s.2.1 0 + x.getD s.2.2.1 0) % 2^32
  x.set s.1 (x.getD s.1 0 ^^^ rotr 32 (32 - s.2.2.2) sum)

/-- The 32 steps of a double round, in the order of the RFC. -/
def salsaSteps : List (Nat × Nat × Nat × Nat) :=
  [(4, 0, 12, 7), (8, 4, 0, 9), (12, 8, 4, 13), (0, 12, 8, 18), (9, 5, 1, 7), (13, 9, 5, 9), (1, 13, 9, 13), (5, 1, 13, 18),
   (14, 10, 6, 7), (2, 14, 10, 9), (6, 2, 14, 13), (10, 6, 2, 18), (3, 15, 11, 7), (7, 3, 15, 9), (11, 7, 3, 13), (15, 11, 7, 18),
   (1, 0, 3, 7), (2, 1, 0, 9), (3, 2, 1, 13), (0, 3, 2, 18), (6, 5, 4, 7), (7, 6, 5, 9), (4, 7, 6, 13), (5, 4, 7, 18),
   (11, 10, 9, 7), (8, 11, 10, 9), (9, 8, 11, 13), (10, 9, 8, 18), (12, 15, 14, 7), (13, 12, 15, 9), (14, 13, 12, 13), (15, 14, 13, 18)]

/-- Salsa20/8 (section 3), on 16 words. -/
def salsa208 (b : List Nat) : List Nat :=
  let x := (List.range 4).foldl (fun x _ => salsaSteps.foldl salsaStep x) b
  List.zipWith (fun u v => (u + v) % 2^32) x b

def xorWords (a b : List Nat) : List Nat := List.zipWith (· ^^^ ·) a b

/-- `scryptBlockMix` (section 4): the blocks `Y[0]`, `Y[1]`, ..., before they are put in order. -/
def mixChain : List Nat → List (List Nat) → List (List Nat)
  | _, [] => []
  | x, b :: bs =>
    let t := salsa208 (xorWords x b)
    t :: mixChain t bs

/-- The elements with even positions. -/
def evens {α : Type} : List α → List α
  | [] => []
  | [a] => [a]
  | a :: _ :: l => a :: evens l

def blockMix (b : List (List Nat)) : List (List Nat) :=
  let y := mixChain (b.getLastD []) b
  evens y ++ evens y.tail

/-- `scryptROMix` (section 5), step 2: `V[0]`, ..., `V[n-1]` (the latest first) and `X`. -/
def romFill : Nat → List (List (List Nat)) → List (List Nat) → List (List (List Nat)) × List (List Nat)
  | 0, v, x => (v, x)
  | n + 1, v, x => romFill n (x :: v) (blockMix x)

/-- `Integerify` (section 5): the last 64 bytes as a little-endian number. -/
def integerify (x : List (List Nat)) : Nat := (x.getLastD []).foldr (fun w a => w + 2^32 * a) 0

/-- Step 3. -/
def romMix (v : List (List (List Nat))) (n : Nat) : Nat → List (List Nat) → List (List Nat)
  | 0, x => x
  | k + 1, x =>
    let j := integerify x % n
    romMix v n k (blockMix (List.zipWith xorWords x (v.getD j [])))

def leWord (b : Bytes) : Nat := beVal b.reverse

def leWordOut (w : Nat) : Bytes := (beOut 4 w).reverse

/-- Bytes in pieces of `k`. -/
def cutBytes (k : Nat) : Nat → Bytes → List Bytes
  | 0, _ => []
  | n + 1, b => b.take k :: cutBytes k n (b.drop k)

def roMix (n r : Nat) (b : Bytes) : Bytes :=
  let x := (cutBytes 64 (2 * r) b).map fun c => (cutBytes 4 16 c).map leWord
  let vx := romFill n [] x
  (romMix vx.1.reverse n n vx.2).flatMap fun c => c.flatMap leWordOut

/-- scrypt (section 6). -/
def scryptRfc (pass salt : Bytes) (n r p len : Nat) : Bytes :=
  let b := pbkdf2 pass salt (p * 128 * r)
  let b' := (cutBytes (128 * r) p b).flatMap (roMix n r)
  pbkdf2 pass b' len

/-- `scrypt.Key(pass, salt, N, r, p, 32)`. The parameters are `int`s: the largest is `2^63 - 1`, division truncates and crashes for 0,
conversion to `uint64` is modulo `2^64`. Allocating more than `2^48` bytes crashes. -/
def scryptKey (pass salt : Bytes) (n r p : Int) : Res Bytes :=
  let maxInt : Int := 2^63 - 1
  if n ≤ 1 ∨ n.toNat &&& (n.toNat - 1) ≠ 0 then .err (.msg "scrypt: N must be > 1 and a power of 2")
  else if (r % 2^64) * (p % 2^64) % 2^64 ≥ 2^30 then .err (.msg "scrypt: parameters are too large")
  else if p = 0 then .panic "integer divide by zero"
  else if r > (maxInt.tdiv 128).tdiv p ∨ r > maxInt.tdiv 256 then .err (.msg "scrypt: parameters are too large")
  else if r = 0 then .panic "integer divide by zero"
  else if n > (maxInt.tdiv 128).tdiv r then .err (.msg "scrypt: parameters are too large")
  else if 128 * n * r > 2^48 then .panic "makeslice: len out of range"
  else .ok (scryptRfc pass salt n.toNat r.toNat p.toNat 32)

/-! ### Lengths -/

theorem pbkdf2Blocks_length (pass salt : Bytes) (n i : Nat) : (pbkdf2Blocks pass salt n i).length = 32 * n := by
  induction n generalizing i with
  | zero => rfl
  | succ n ih =>
    have h : ∀ x, (hmac sha256 64 pass x).length = 32 := fun x => sha256_length _
    rw [pbkdf2Blocks, List.length_append, ih, h]
    omega

theorem pbkdf2_length (pass salt : Bytes) (len : Nat) : (pbkdf2 pass salt len).length = len := by
  rw [pbkdf2, List.length_take, pbkdf2Blocks_length]
  omega

theorem scryptKey_length (pass salt : Bytes) (n r p : Int) (k : Bytes) (h : scryptKey pass salt n r p = .ok k) : k.length = 32 := by
  simp only [scryptKey] at h
  repeat (split at h; · cases h)
  cases h
  exact pbkdf2_length _ _ _

theorem scryptKey_ok (pass salt : Bytes) : ∃ k, scryptKey pass salt 524288 8 1 = .ok k := by
  refine ⟨scryptRfc pass salt 524288 8 1 32, ?_⟩
  simp only [scryptKey]
  rw [if_neg (by decide +kernel), if_neg (by decide +kernel), if_neg (by decide), if_neg (by decide +kernel), if_neg (by decide),
    if_neg (by decide +kernel), if_neg (by decide +kernel)]
  rfl

/-! ### Test vectors -/

/-- RFC 4231, test case 2. -/
example : hmac sha256 64 "Jefe".toUTF8.toList "what do ya want for nothing?".toUTF8.toList =
    beOut 32 0x5bdcc146bf60754e6a042426089575c75a003f089d2739839dec58b964ec3843 := by decide +kernel

/-- RFC 7914, section 8. -/
example : (salsa208 ((cutBytes 4 16 (beOut 64
    0x7e879a214f3ec9867ca940e641718f26baee555b8c61c1b50df846116dcd3b1dee24f319df9b3d8514121e4b5ac5aa3276021d2909c74829edebc68db8b8c25e)).map
      leWord)).flatMap leWordOut = beOut 64
    0xa41f859c6608cc993b81cacb020cef05044b2181a2fd337dfd7b1c6396682f29b4393168e3c9e6bcfe6bc5b7a06d96bae424cc102c91745c24ad673dc7618f81 := by
  decide +kernel

/-- From another implementation (OpenSSL). -/
example : scryptRfc "pass phrase".toUTF8.toList "NaCl".toUTF8.toList 2 1 1 32 = beOut 32
    0x29a57c120d48936dbd55eb8e8480b61948c1d973da6191c2a50deb8784631e36 := by decide +kernel

end Sigtool.Spec
