import Verif.Spec.Game
/-!
# Spec.Outsider: what it means that nobody but a recipient can change a file, independent of the code

Key pairs are drawn for `n` recipients.  A tamperer sees the public keys and picks a plaintext; it is encrypted with fresh
random bytes; he sees the file, picks a recipient and gives him a changed file with the same header.  He wins if the recipient
gets something that is no initial part of the plaintext, or, without an error, something else than its first chunks.

As in `Spec/Game.lean` he is turned, by explicit constructions, into players against the primitives.
-/

namespace Sigtool.Spec

structure Tamperer (n : Nat) where
  Tape : Type
  [fin : Fintype Tape]
  plain : Tape → (pks : Fin n → Bytes) → Bytes
  change : Tape → (pks : Fin n → Bytes) → (file : Bytes) → Fin n × Bytes

attribute [instance] Tamperer.fin

/-- Magic, version, length word, the header it announces, and the checksum of all that. -/
def front (file : Bytes) : Bytes :=
  file.take (12 + ((file.drop 8).take 4).foldl (fun a b => a * 256 + b.toNat) 0 + 32)

/-- What the recipient gets - `out`, with or without an error - is not what it should be. -/
def wrong (cut : Bytes → List Bytes) (plain out : Bytes) (noError : Bool) : Bool :=
  !out.isPrefixOf plain ||
    (noError && !(List.range ((cut plain).length + 1)).any fun k => ((cut plain).take k).flatten == out)

/-- The probability that the tamperer wins, if files are written by `enc` and read by `read`, which is given the seed of the
recipient's private key and says what was written and whether there was no error. -/
def Tamperer.odds {n : Nat} (P : Prims) (enc : Job n → Bytes) (read : (seed file : Bytes) → Bytes × Bool)
    (cut : Bytes → List Bytes) (A : Tamperer n) : ℚ :=
  mean fun t : A.Tape => mean fun coin : Coins 64 => mean fun key : Coins 32 =>
  mean fun seeds : Fin n → Coins 32 => mean fun csk : Coins 32 => mean fun salt : Coins 32 =>
  mean fun nonces : Fin n → Coins 12 =>
    let pks := fun i => P.edPub (seeds i).bytes
    let file := enc
      { csk := csk.bytes, key := key.bytes, salt := salt.bytes, pks, nonces := fun i => (nonces i).bytes
        coin := coin.bytes, plain := A.plain t pks }
    let changed := A.change t pks file
    let got := read (seeds changed.1).bytes changed.2
    yes (decide (front changed.2 = front file) && wrong cut (A.plain t pks) got.1 got.2)

/-! ### The game about forgeries, and an event without any adversary -/

/-- One who has messages sealed under a random key, and then names triples of nonce, additional data and ciphertext. -/
structure AeadForger where
  Tape : Type
  [fin : Fintype Tape]
  ask : Tape → List (Bytes × Bytes × Bytes)
  forge : Tape → List Bytes → List (Bytes × Bytes × Bytes)

attribute [instance] AeadForger.fin

/-- No nonce twice, nonces of 12 bytes, messages up to 2^30 bytes. -/
def AeadForger.Valid (B : AeadForger) : Prop :=
  ∀ t, ((B.ask t).map (·.1)).Nodup ∧ ∀ q ∈ B.ask t, q.1.length = 12 ∧ q.2.2.length ≤ 2^30

/-- One of the triples `cands` opens under `key` and is none of those that came about by sealing `asked`. -/
def newOpens (P : Prims) (key : Bytes) (asked cands : List (Bytes × Bytes × Bytes)) : Bool :=
  cands.any fun c => (P.aeadOpen key c.1 c.2.2 c.2.1).isSome &&
    !(asked.map fun q => (q.1, q.2.1, P.aeadSeal key q.1 q.2.2 q.2.1)).contains c

/-- Nonce, additional data, message; nonce, additional data, ciphertext. -/
def AeadForger.odds (P : Prims) (B : AeadForger) : ℚ :=
  mean fun t : B.Tape => mean fun key : Coins 32 =>
    yes (newOpens P key.bytes (B.ask t)
      (B.forge t ((B.ask t).map fun q => P.aeadSeal key.bytes q.1 q.2.2 q.2.1)))

open Classical in
/-- The probability that one of `n` people can open what was wrapped for the different public key of another. -/
noncomputable def crossing (P : Prims) (n : Nat) : ℚ :=
  mean fun key : Coins 32 => mean fun seeds : Fin n → Coins 32 => mean fun csk : Coins 32 => mean fun salt : Coins 32 =>
  mean fun nonces : Fin n → Coins 12 =>
    yes (decide (∃ i j, WrapForgery P (clamp csk.bytes) salt.bytes key.bytes (P.edPub (seeds j).bytes) (nonces j).bytes
      (seeds i).bytes))

/-! ### From a tamperer to players -/

/-- The chunks of a file as they are sealed: nonce, length word, chunk. -/
def chunkSeals (nonce : Bytes) : Nat → List Bytes → List (Bytes × Bytes × Bytes)
  | _, [] => []
  | i, c :: cs => (be32 i ++ nonce.drop 4, lengthWord c.length cs.isEmpty, c) :: chunkSeals nonce (i + 1) cs

/-- What the length words make of some data: nonces, length words, ciphertexts. -/
def bodyTriples (nonce : Bytes) : Nat → Nat → Bytes → List (Bytes × Bytes × Bytes)
  | 0, _, _ => []
  | fuel + 1, i, body =>
    if body = [] then [] else
    let w := body.take 4
    let n := w.foldl (fun a b => a * 256 + b.toNat) 0 % 2^31
    (be32 i ++ nonce.drop 4, w, (body.drop 4).take (n + 16)) :: bodyTriples nonce fuel (i + 1) (body.drop (4 + n + 16))

/-- The data of the changed file contains a chunk that opens and is none of those that were sealed. -/
def strangeChunk (P : Prims) (dkey nonce : Bytes) (chunks : List Bytes) (body : Bytes) : Bool :=
  newOpens P dkey (chunkSeals nonce 0 chunks) (bodyTriples nonce body.length 0 body)

variable {n : Nat} (P : Prims) (S : Setting) (A : Tamperer n)

/-- Plays against the key agreement: draws a root key, wraps it with the keys shown, does the rest himself, and looks whether
the changed file contains a strange chunk. -/
def Tamperer.kdf : KdfSpy n :=
  { Tape := A.Tape × Coins 64 × Coins 32
    guess := fun (t, coin, key) pks epk salt nonces keys =>
      let key := key.bytes
      let chunks := S.cut (A.plain t pks)
      let h := head P S.sender S.block epk salt (senderSeal P key salt) (senderStatement P epk salt key) nonces
        fun i => P.aeadSeal (keys i).1 (keys i).2 key (pks i)
      let k := sessionKeys P key (P.sha256 h)
      let changed := A.change t pks
        (file P S.sender coin.bytes h (sealedBody P k.2.1 k.1 0 chunks) (P.hmac256 k.2.2 (macInput chunks)))
      strangeChunk P k.2.1 k.1 chunks (changed.2.drop (h.length + 32)) }

/-- Plays against the AEAD with the wrapping keys: is the root key wrapped, or 32 zero bytes? -/
def Tamperer.wrap : AeadSpy n :=
  { Tape := A.Tape × Coins 64 × Coins 32 × (Fin n → Coins 32) × Coins 32 × Coins 32 × (Fin n → Coins 12) × (Fin n → Coins 12)
    ask := fun (_, _, key, seeds, _, _, _, ns) i =>
      [{ nonce := (ns i).bytes, ad := P.edPub (seeds i).bytes, msg := fun side => if side then blank else key.bytes }]
    guess := fun (t, coin, key, seeds, csk, salt, nonces, _) cts =>
      let key := key.bytes
      let pks := fun i => P.edPub (seeds i).bytes
      let epk := (P.x25519 (clamp csk.bytes) basepoint).getD []
      let chunks := S.cut (A.plain t pks)
      let h := head P S.sender S.block epk salt.bytes (senderSeal P key salt.bytes) (senderStatement P epk salt.bytes key)
        (fun i => (nonces i).bytes) fun i => (cts i).headD []
      let k := sessionKeys P key (P.sha256 h)
      let changed := A.change t pks
        (file P S.sender coin.bytes h (sealedBody P k.2.1 k.1 0 chunks) (P.hmac256 k.2.2 (macInput chunks)))
      strangeChunk P k.2.1 k.1 chunks (changed.2.drop (h.length + 32)) }

/-- Plays against the derivations from the root key. -/
def Tamperer.root : RootSpy :=
  { Tape := A.Tape × Coins 64 × (Fin n → Coins 32) × Coins 32 × Coins 32 × (Fin n → Coins 12) × (Fin n → Coins 12) ×
      (Fin n → Coins 32)
    epk := fun (_, _, _, csk, _, _, _, _) => (P.x25519 (clamp csk.bytes) basepoint).getD []
    salt := fun (_, _, _, _, salt, _, _, _) => salt.bytes
    ask := fun (_, _, seeds, csk, salt, nonces, ns, ks) s d => P.sha256 (blankHead P S seeds csk salt nonces ns ks s d)
    guess := fun (t, coin, seeds, csk, salt, nonces, ns, ks) s d k =>
      let pks := fun i => P.edPub (seeds i).bytes
      let chunks := S.cut (A.plain t pks)
      let h := blankHead P S seeds csk salt nonces ns ks s d
      let changed := A.change t pks
        (file P S.sender coin.bytes h (sealedBody P k.2.1 k.1 0 chunks) (P.hmac256 k.2.2 (macInput chunks)))
      strangeChunk P k.2.1 k.1 chunks (changed.2.drop (h.length + 32)) }

/-- Forges under the data key: the chunks are sealed for him, everything else is his own, and he names what the length words
of the changed file make of its data. -/
def Tamperer.forger : AeadForger :=
  let seals (t : A.Tape) (seeds : Fin n → Coins 32) (nonce : Coins 12) :=
    chunkSeals nonce.bytes 0 (S.cut (A.plain t fun i => P.edPub (seeds i).bytes))
  { Tape := (A.Tape × Coins 64 × (Fin n → Coins 32) × Coins 32 × Coins 32 × (Fin n → Coins 12) × (Fin n → Coins 12) ×
      (Fin n → Coins 32)) × Coins 32 × Coins 12 × Coins 32 × Coins 12 × Coins 32
    ask := fun ((t, _, seeds, _), _, _, _, nonce, _) => seals t seeds nonce
    forge := fun ((t, coin, seeds, csk, salt, nonces, ns, ks), sk, sn, d, nonce, hkey) cts =>
      let pks := fun i => P.edPub (seeds i).bytes
      let h := blankHead P S seeds csk salt nonces ns ks (sk.bytes, sn.bytes) d.bytes
      let changed := A.change t pks (file P S.sender coin.bytes h
        (List.zipWith (fun q ct => q.2.1 ++ ct) (seals t seeds nonce) cts).flatten
        (P.hmac256 hkey.bytes (macInput (S.cut (A.plain t pks)))))
      let body := changed.2.drop (h.length + 32)
      bodyTriples nonce.bytes body.length 0 body }

noncomputable def Tamperer.bound : ℚ :=
  crossing P n + (A.kdf P S).advantage P + (A.wrap P S).advantage P + (A.root P S).advantage P + (A.forger P S).odds P

end Sigtool.Spec
