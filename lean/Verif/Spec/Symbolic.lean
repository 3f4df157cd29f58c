import Verif.Spec.Session
import Verif.Spec.Curve
/-!
# Spec.Symbolic: encrypted files and key files as terms, and an attacker who computes with them

The terms say how the bytes of a file are made from secrets: the random root key and ephemeral key of each file, the seeds and pass
phrases of the people, and the pieces of the plaintexts. `Term.eval` gives the bytes. The attacker (of Dolev and Yao) knows a set of
terms and gets new ones by computing: every function can be applied to terms he knows, sealed boxes open with their key, and secrets
agree as in `Eqv`. What he can never compute this way he can only guess, or get by breaking a primitive; this is not a statement
about computational hardness.
-/

namespace Sigtool.Spec.Symbolic

/-- The secrets. Files are numbered, and so are people. -/
inductive Secret
  | root (file : Nat)
  | ephemeral (file : Nat)
  | chunk (file i : Nat)
  | seed (person : Nat)
  | pass (person : Nat)
  /-- Of a made-up plaintext, which is in no file (for C116). -/
  | decoy (file i : Nat)
deriving DecidableEq

/-- How a byte string is made. -/
inductive Term
  /-- Bytes that everyone knows. -/
  | bytes (b : Bytes)
  | secret (s : Secret)
  | cat (a b : Term)
  | take (n : Nat) (t : Term)
  | drop (n : Nat) (t : Term)
  | sha256 (t : Term)
  | sha512 (t : Term)
  | hmac (key t : Term)
  | hkdf (ikm salt : Term) (info : Bytes) (n : Nat)
  | scrypt (pass salt : Term)
  | box (key nonce t ad : Term)
  | edPub (seed : Term)
  | edSign (sk t : Term)
  | clamp (t : Term)
  /-- The base point of X25519. -/
  | base
  /-- X25519. -/
  | mul (scalar point : Term)
  /-- The point of X25519 that belongs to an Ed25519 public key. -/
  | mont (pk : Term)

def seed (i : Nat) : Term := .secret (.seed i)

/-- The bytes, given the secrets. -/
def Term.eval (P : Prims) (env : Secret → Bytes) : Term → Bytes
  | .bytes b => b
  | .secret s => env s
  | .cat a b => a.eval P env ++ b.eval P env
  | .take n t => (t.eval P env).take n
  | .drop n t => (t.eval P env).drop n
  | .sha256 t => P.sha256 (t.eval P env)
  | .sha512 t => P.sha512 (t.eval P env)
  | .hmac k t => P.hmac256 (k.eval P env) (t.eval P env)
  | .hkdf a b i n => P.hkdf512 (a.eval P env) (b.eval P env) i n
  | .scrypt a b => match P.scrypt (a.eval P env) (b.eval P env) 524288 8 1 with | .ok k => k | _ => []
  | .box k n t ad => P.aeadSeal (k.eval P env) (n.eval P env) (t.eval P env) (ad.eval P env)
  | .edPub s => P.edPub (s.eval P env)
  | .edSign s t => P.edSign (s.eval P env) (t.eval P env)
  | .clamp t => Sigtool.clamp (t.eval P env)
  | .base => basepoint
  | .mul s p => (P.x25519 (s.eval P env) (p.eval P env)).getD []
  | .mont p => toMontgomery (p.eval P env)

/-- Terms that are the same although they are written differently: bytes put together or cut; the order of multiplications does not
matter; the point of an Ed25519 public key is a multiple of the base point; clamping again changes nothing. -/
inductive Eqv : Term → Term → Prop
  | refl (t) : Eqv t t
  | symm {t u} : Eqv t u → Eqv u t
  | trans {t u v} : Eqv t u → Eqv u v → Eqv t v
  | bytes_cat (a b) : Eqv (.cat (.bytes a) (.bytes b)) (.bytes (a ++ b))
  | bytes_take (n b) : Eqv (.take n (.bytes b)) (.bytes (b.take n))
  | bytes_drop (n b) : Eqv (.drop n (.bytes b)) (.bytes (b.drop n))
  | assoc (a b c) : Eqv (.cat (.cat a b) c) (.cat a (.cat b c))
  | swap (s t p) : Eqv (.mul s (.mul t p)) (.mul t (.mul s p))
  | mont (s) : Eqv (.mont (.edPub s)) (.mul (.clamp (.take 32 (.sha512 s))) .base)
  | clamp_clamp (t) : Eqv (.clamp (.clamp t)) (.clamp t)
  | cat {a a' b b'} : Eqv a a' → Eqv b b' → Eqv (.cat a b) (.cat a' b')
  | take {n t t'} : Eqv t t' → Eqv (.take n t) (.take n t')
  | drop {n t t'} : Eqv t t' → Eqv (.drop n t) (.drop n t')
  | sha256 {t t'} : Eqv t t' → Eqv (.sha256 t) (.sha256 t')
  | sha512 {t t'} : Eqv t t' → Eqv (.sha512 t) (.sha512 t')
  | hmac {k k' t t'} : Eqv k k' → Eqv t t' → Eqv (.hmac k t) (.hmac k' t')
  | hkdf {a a' b b' i n} : Eqv a a' → Eqv b b' → Eqv (.hkdf a b i n) (.hkdf a' b' i n)
  | scrypt {a a' b b'} : Eqv a a' → Eqv b b' → Eqv (.scrypt a b) (.scrypt a' b')
  | box {k k' n n' t t' a a'} : Eqv k k' → Eqv n n' → Eqv t t' → Eqv a a' → Eqv (.box k n t a) (.box k' n' t' a')
  | edPub {s s'} : Eqv s s' → Eqv (.edPub s) (.edPub s')
  | edSign {s s' t t'} : Eqv s s' → Eqv t t' → Eqv (.edSign s t) (.edSign s' t')
  | clamp {t t'} : Eqv t t' → Eqv (.clamp t) (.clamp t')
  | mul {s s' p p'} : Eqv s s' → Eqv p p' → Eqv (.mul s p) (.mul s' p')
  | montc {p p'} : Eqv p p' → Eqv (.mont p) (.mont p')

/-- What an attacker can compute who knows the terms in `K`. -/
inductive Knows (K : Term → Prop) : Term → Prop
  | known {t} : K t → Knows K t
  | eqv {t u} : Eqv t u → Knows K t → Knows K u
  | bytes (b) : Knows K (.bytes b)
  | cat {a b} : Knows K a → Knows K b → Knows K (.cat a b)
  | left {a b} : Knows K (.cat a b) → Knows K a
  | right {a b} : Knows K (.cat a b) → Knows K b
  | take {n t} : Knows K t → Knows K (.take n t)
  | drop {n t} : Knows K t → Knows K (.drop n t)
  | join {n t} : Knows K (.take n t) → Knows K (.drop n t) → Knows K t
  | sha256 {t} : Knows K t → Knows K (.sha256 t)
  | sha512 {t} : Knows K t → Knows K (.sha512 t)
  | hmac {k t} : Knows K k → Knows K t → Knows K (.hmac k t)
  | hkdf {a b i n} : Knows K a → Knows K b → Knows K (.hkdf a b i n)
  | scrypt {a b} : Knows K a → Knows K b → Knows K (.scrypt a b)
  | box {k n t ad} : Knows K k → Knows K n → Knows K t → Knows K ad → Knows K (.box k n t ad)
  | opened {k n t ad} : Knows K (.box k n t ad) → Knows K k → Knows K t
  | edPub {s} : Knows K s → Knows K (.edPub s)
  | edSign {s t} : Knows K s → Knows K t → Knows K (.edSign s t)
  | clamp {t} : Knows K t → Knows K (.clamp t)
  | base : Knows K .base
  | mul {s p} : Knows K s → Knows K p → Knows K (.mul s p)
  | mont {p} : Knows K p → Knows K (.mont p)

/-! ### The files -/

/-- What everyone may know of an encrypted file: block size, salt, recipients (with the random bytes for each), the sender if there is
one, the lengths of the chunks, and the random bytes that stand in the place of a signature. -/
structure File where
  blk : Nat
  salt : Bytes
  rcpts : List (Nat × Bytes)
  sender : Option Nat
  sizes : List Nat
  coin : Bytes

def cats (ts : List Term) : Term := ts.foldr .cat (.bytes [])

/-- The secret key of a person: seed and public key. -/
def secretKey (i : Nat) : Term := .cat (seed i) (.edPub (seed i))

/-- A signature of `m` by a person. -/
def signed (i : Nat) (m : Term) : Term := .edSign (secretKey i) (.sha512 (.cat (.bytes (ascii "sigtool signed message")) m))

/-- The root key, wrapped for a recipient. -/
def wrapped (n : Nat) (f : File) (r : Nat × Bytes) : Term :=
  let okm := Term.hkdf (.mul (.clamp (.secret (.ephemeral n))) (.mont (.edPub (seed r.1))))
    (.sha256 (.cat (.bytes f.salt) (.bytes r.2))) (ascii "Receiver Key") 44
  .box (.take 32 okm) (.drop 32 okm) (.secret (.root n)) (.edPub (seed r.1))

/-- The ephemeral public key. -/
def ephemeralPk (n : Nat) : Term := .mul (.clamp (.secret (.ephemeral n))) .base

/-- The sender's signature in the header. -/
def headerSignature (n : Nat) (f : File) (i : Nat) : Term :=
  signed i (.sha256 (.cat (.bytes (ascii "SigTool" ++ [3])) (.cat (ephemeralPk n) (.cat (.bytes f.salt) (.secret (.root n))))))

/-- The header's sender field. -/
def senderField (n : Nat) (f : File) : Term :=
  let okm := Term.hkdf (.secret (.root n)) (.bytes f.salt) (ascii "Sender Sig") 44
  .box (.take 32 okm) (.drop 32 okm)
    (match f.sender with | none => .bytes unsigned | some i => headerSignature n f i) (.bytes [])

/-- Fixed and variable header. -/
def header (n : Nat) (f : File) : Term :=
  .cat (.bytes (ascii "SigTool" ++ [3] ++ be32 ((varint f.blk).length + 151 + 66 * f.rcpts.length) ++ 0x08 :: varint f.blk ++
      [0x12, 32] ++ f.salt ++ [0x1a, 32]))
    (.cat (ephemeralPk n) (.cat (.bytes [0x22, 80]) (.cat (senderField n f)
      (cats (f.rcpts.map fun r => .cat (.bytes [0x2a, 64, 0x0a, 48]) (.cat (wrapped n f r) (.bytes ([0x12, 12] ++ r.2))))))))

/-- What the keys of the body are cut from. -/
def bodyKeys (n : Nat) (f : File) : Term :=
  .hkdf (.secret (.root n)) (.sha256 (header n f)) (ascii "Data Key Expansion") 76

/-- The chunks from number `i`. -/
def body (n : Nat) (f : File) : Nat → List Nat → Term
  | _, [] => .bytes []
  | i, k :: ks =>
    .cat (.bytes (lengthWord k ks.isEmpty))
      (.cat (.box (.take 32 (.drop 12 (bodyKeys n f))) (.cat (.bytes (be32 i)) (.drop 4 (.take 12 (bodyKeys n f))))
        (.secret (.chunk n i)) (.bytes (lengthWord k ks.isEmpty)))
      (body n f (i + 1) ks))

/-- All chunks with their lengths, which the sender's HMAC covers. -/
def macked (n : Nat) : Nat → List Nat → Term
  | _, [] => .bytes []
  | i, k :: ks => .cat (.bytes (lengthWord k ks.isEmpty)) (.cat (.secret (.chunk n i)) (macked n (i + 1) ks))

def trailer (n : Nat) (f : File) : Term :=
  match f.sender with
  | none => .bytes f.coin
  | some i => signed i (.hmac (.drop 44 (bodyKeys n f)) (macked n 0 f.sizes))

/-- An encrypted file. -/
def encrypted (n : Nat) (f : File) : Term :=
  .cat (header n f) (.cat (.sha256 (header n f)) (.cat (body n f 0 f.sizes) (trailer n f)))

/-- The sealed key in the key file of a person (the file has its base64 text). -/
def sealedKey (i : Nat) (salt : Bytes) : Term :=
  .box (.scrypt (.sha512 (.secret (.pass i))) (.bytes salt)) (.bytes (salt.take 12)) (secretKey i) (.bytes [])

/-- The file `f` with number `n` describes what is written for a plaintext cut into `chunks` of size `bs`, with the random bytes `coin`,
if the secrets are `env`. -/
structure Describes (env : Secret → Bytes) (n : Nat) (f : File) (bs : Nat) (chunks : List Bytes) (coin : Bytes) : Prop where
  blk : f.blk = bs
  salt : f.salt.length = 32
  nonces : ∀ r ∈ f.rcpts, r.2.length = 12
  coin : f.coin = coin
  sizes : f.sizes = chunks.map List.length
  pieces : ∀ i, env (.chunk n i) = chunks.getD i []
  root : (env (.root n)).length = 32
  ephemeral : (env (.ephemeral n)).length = 32
  seeds : ∀ i, (env (.seed i)).length = 32

/-- What the attacker starts with: all encrypted files, all public keys, all sealed keys, signatures of everyone on messages of his
choice, the seeds and pass phrases of the people in `corrupt`, and the plaintexts of the files in `told`. -/
inductive Start (files : Nat → File) (corrupt told : Nat → Prop) : Term → Prop
  | file (n) : Start files corrupt told (encrypted n (files n))
  | publicKey (i) : Start files corrupt told (.edPub (seed i))
  | keyFile (i salt) : Start files corrupt told (sealedKey i salt)
  | signature (i m) : Start files corrupt told (signed i (.bytes m))
  | seed (i) : corrupt i → Start files corrupt told (seed i)
  | pass (i) : corrupt i → Start files corrupt told (.secret (.pass i))
  | plaintext (n i) : told n → Start files corrupt told (.secret (.chunk n i))

/-- The messages a person has signed: in headers and trailers of files, and those the attacker has chosen. -/
inductive HasSigned (files : Nat → File) (i : Nat) : Term → Prop
  | header (n) : (files n).sender = some i → HasSigned files i
      (.sha256 (.cat (.bytes (ascii "SigTool" ++ [3])) (.cat (ephemeralPk n) (.cat (.bytes (files n).salt) (.secret (.root n))))))
  | trailer (n) : (files n).sender = some i → HasSigned files i
      (.hmac (.drop 44 (bodyKeys n (files n))) (macked n 0 (files n).sizes))
  | message (m) : HasSigned files i (.bytes m)

end Sigtool.Spec.Symbolic
