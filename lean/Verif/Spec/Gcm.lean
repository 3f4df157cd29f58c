import Verif.Prims
/-!
# Spec.Gcm: AES-256-GCM, HMAC and HKDF as their standards define them

NIST SP 800-38D, RFC 2104 and RFC 5869, from a block cipher and hash functions that stay parameters. Nothing here refers to the
code.
-/

namespace Sigtool.Spec

/-- Big-endian value. -/
def beVal (b : Bytes) : Nat := b.foldl (fun a x => a * 256 + x.toNat) 0

/-- `k` bytes, most significant first. -/
def beOut : Nat → Nat → Bytes
  | 0, _ => []
  | k + 1, n => beOut k (n / 256) ++ [UInt8.ofNat (n % 256)]

/-- Bytewise exclusive or; the result is as long as the first argument if the second is at least as long. -/
def xorBytes (a b : Bytes) : Bytes := List.zipWith (· ^^^ ·) a b

/-- `inc_32`: the last four bytes of a block, as a number, plus one modulo `2^32` (SP 800-38D, section 6.2). -/
def inc32 (b : Bytes) : Bytes := b.take 12 ++ beOut 4 ((beVal (b.drop 12) + 1) % 2^32)

/-- The key stream of `n` blocks that starts with counter block `cb` (section 6.5). -/
def gctrStream (aes : Bytes → Bytes → Bytes) (key : Bytes) : Nat → Bytes → Bytes
  | 0, _ => []
  | n + 1, cb => aes key cb ++ gctrStream aes key n (inc32 cb)

/-- `GCTR` (section 6.5). -/
def gctr (aes : Bytes → Bytes → Bytes) (key icb data : Bytes) : Bytes :=
  xorBytes data (gctrStream aes key ((data.length + 15) / 16) icb)

/-- Multiplication in `GF(2^128)` (section 6.3): bit 0 is the most significant bit. -/
def gfMul (x y : BitVec 128) : BitVec 128 :=
  ((List.range 128).foldl (fun (zv : BitVec 128 × BitVec 128) i =>
    (if x.getMsbD i then zv.1 ^^^ zv.2 else zv.1,
      if zv.2.getLsbD 0 then (zv.2 >>> 1) ^^^ (0xe1#128 <<< 120) else zv.2 >>> 1)) (0, y)).1

/-- `GHASH` (section 6.4) of data split into blocks of 16 bytes. -/
def ghash (h : BitVec 128) (y : BitVec 128) : Nat → Bytes → BitVec 128
  | 0, _ => y
  | n + 1, data => ghash h (gfMul (y ^^^ BitVec.ofNat 128 (beVal (data.take 16))) h) n (data.drop 16)

/-- Zeros up to a multiple of 16. -/
def pad16 (b : Bytes) : Bytes := b ++ List.replicate ((16 - b.length % 16) % 16) 0

/-- The first counter block for a 12-byte nonce (section 7.1, step 2). -/
def j0 (nonce : Bytes) : Bytes := nonce ++ [0, 0, 0, 1]

/-- The tag of a ciphertext and associated data (section 7.1, steps 4 to 6). -/
def gcmTag (aes : Bytes → Bytes → Bytes) (key nonce ct ad : Bytes) : Bytes :=
  let data := pad16 ad ++ pad16 ct ++ beOut 8 (8 * ad.length) ++ beOut 8 (8 * ct.length)
  let h := BitVec.ofNat 128 (beVal (aes key (List.replicate 16 0)))
  let s := ghash h 0 (data.length / 16) data
  xorBytes (beOut 16 s.toNat) (aes key (j0 nonce))

/-- Authenticated encryption (section 7.1): ciphertext and tag. -/
def gcmSeal (aes : Bytes → Bytes → Bytes) (key nonce pt ad : Bytes) : Bytes :=
  let ct := gctr aes key (inc32 (j0 nonce)) pt
  ct ++ gcmTag aes key nonce ct ad

/-- Authenticated decryption (section 7.2). -/
def gcmOpen (aes : Bytes → Bytes → Bytes) (key nonce data ad : Bytes) : Option Bytes :=
  if data.length < 16 then none
  else
    let ct := data.take (data.length - 16)
    if gcmTag aes key nonce ct ad = data.drop (data.length - 16) then some (gctr aes key (inc32 (j0 nonce)) ct) else none

/-- HMAC (RFC 2104) with a hash function of block length `b`. -/
def hmac (hash : Bytes → Bytes) (b : Nat) (key data : Bytes) : Bytes :=
  let k0 := if key.length > b then hash key else key
  let k := k0 ++ List.replicate (b - k0.length) 0
  hash (k.map (· ^^^ 0x5c) ++ hash (k.map (· ^^^ 0x36) ++ data))

/-- `T(i) ‖ T(i+1) ‖ ...`, `n` of them, after `prev = T(i-1)` (RFC 5869, section 2.3). -/
def hkdfBlocks (mac : Bytes → Bytes → Bytes) (prk info : Bytes) : Nat → Bytes → Nat → Bytes
  | _, _, 0 => []
  | i, prev, n + 1 =>
    let t := mac prk (prev ++ info ++ [UInt8.ofNat i])
    t ++ hkdfBlocks mac prk info (i + 1) t n

/-- HKDF (RFC 5869): the first `len` bytes, with a MAC of `h` bytes; at most 255 blocks. -/
def hkdf (mac : Bytes → Bytes → Bytes) (h : Nat) (ikm salt info : Bytes) (len : Nat) : Bytes :=
  let prk := mac (if salt = [] then List.replicate h 0 else salt) ikm
  (hkdfBlocks mac prk info 1 [] ((len + h - 1) / h)).take len

/-- `P`'s authenticated encryption is GCM with some 16-byte block cipher, its HMAC and HKDF are those of the RFCs. -/
structure RealSymmetric (P : Prims) : Prop where
  gcm : ∃ aes : Bytes → Bytes → Bytes, (∀ k b, (aes k b).length = 16) ∧
    (∀ k n p a, P.aeadSeal k n p a = gcmSeal aes k n p a) ∧ ∀ k n c a, P.aeadOpen k n c a = gcmOpen aes k n c a
  hmac256 : ∀ k x, P.hmac256 k x = hmac P.sha256 64 k x
  hkdf512 : ∀ a b c n, n ≤ 255 * 64 → P.hkdf512 a b c n = hkdf (hmac P.sha512 128) 64 a b c n

end Sigtool.Spec
