import Verif.Spec.Game
import Verif.Spec.Sign
/-!
# Spec.Forge: what it means that nobody can forge signatures, independent of the code

Existential forgery under chosen messages, as in the textbooks, but the key is used for everything a secret key is used for
when it acts: it signs files, and it is the sender of encrypted files.  The forger sees the public key, asks for such uses one
after the other - each may depend on the answers so far - and at the end presents a file and a signature.
-/

namespace Sigtool.Spec

/-- A dialogue: questions, each depending on the answers before it, and a result. -/
inductive Play (Q A R : Type) where
  | done (r : R)
  | ask (q : Q) (k : A → Play Q A R)

/-- The questions and the result, if questions are answered by `o`. -/
def Play.run {Q A R : Type} (o : Q → A) : Play Q A R → List Q × R
  | .done r => ([], r)
  | .ask q k => let (qs, r) := (k (o q)).run o; (q :: qs, r)

/-- Continue with the result. -/
def Play.andThen {Q A R R' : Type} : Play Q A R → (R → Play Q A R') → Play Q A R'
  | .done r, f => f r
  | .ask q k, f => .ask q fun a => (k a).andThen f

/-- Replace each question by a dialogue that finds the answer. -/
def Play.through {Q A Q' A' R : Type} (f : Q → Play Q' A' A) : Play Q A R → Play Q' A' R
  | .done r => .done r
  | .ask q k => (f q).andThen fun a => (k a).through f

/-- A use of the key: sign a file with the given contents, or send an encrypted file - with the given random bytes, to public
keys (each with 12 bytes for the wrapping), the plaintext in the given pieces, with `Encrypt` or with a stream writer. -/
inductive Use where
  | sign (contents : Bytes)
  | send (stream : Bool) (block : Nat) (csk key salt : Coins 32) (coin : Coins 64) (rcpts : List (Bytes × Bytes))
      (pieces : List Bytes)

/-- Which files were signed. -/
def Use.contents : Use → Option Bytes
  | .sign c => some c
  | .send .. => none

/-- A forger: his own random bytes; for a public key, a dialogue that ends with contents of a file and a signature. -/
structure Forger where
  Tape : Type
  [fin : Fintype Tape]
  play : Tape → (pk : Bytes) → Play Use Bytes (Bytes × Bytes)

attribute [instance] Forger.fin

/-- The probability that he succeeds: the program accepts, and nobody signed these contents.  `use` and `accepts` are the
program, for a seed and a public key. -/
def Forger.odds (P : Prims) (use : Bytes → Use → Bytes) (accepts : Bytes → (contents sig : Bytes) → Bool) (F : Forger) : ℚ :=
  mean fun t : F.Tape => mean fun seed : Coins 32 =>
    let pk := P.edPub seed.bytes
    let (uses, c, sig) := (F.play t pk).run (use seed.bytes)
    yes (accepts pk c sig && decide (c ∉ uses.filterMap Use.contents))

/-- One who tries to forge an Ed25519 signature: asks for signatures of byte strings, presents a byte string and a
signature. -/
structure EdForger where
  Tape : Type
  [fin : Fintype Tape]
  play : Tape → (pk : Bytes) → Play Bytes Bytes (Bytes × Bytes)

attribute [instance] EdForger.fin

def EdForger.odds (P : Prims) (B : EdForger) : ℚ :=
  mean fun t : B.Tape => mean fun seed : Coins 32 =>
    let pk := P.edPub seed.bytes
    let (ms, m, sig) := (B.play t pk).run fun m => P.edSign (seed.bytes ++ pk) m
    yes (P.edVerify pk m sig && decide (m ∉ ms))

/-- One of `xs` collides with `y` under SHA-512. -/
def clash (P : Prims) (xs : List Bytes) (y : Bytes) : Bool := xs.any fun x => decide (x ≠ y ∧ P.sha512 x = P.sha512 y)

/-! ### From a forger of file signatures to one of Ed25519 signatures -/

/-- What is signed for a message. -/
def digest (P : Prims) (m : Bytes) : Bytes := P.sha512 (messageInput m)

/-- What wrapping for all recipients gives; none if a public key cannot be used. -/
def wraps (P : Prims) (esk salt key : Bytes) : List (Bytes × Bytes) → Option (List WrappedKey)
  | [] => some []
  | r :: rs =>
    match (if r.1.length ≤ 32 then wrapFor P esk salt key r.1 r.2 else none), wraps P esk salt key rs with
    | some w, some ws => some (w :: ws)
    | _, _ => none

/-- The block size that is used if `block` is asked for. -/
def usedBlock (block : Nat) : Nat := if block = 0 then 4 * 1048576 else min block (2^30)

/-- How a use is answered by one who has no secret key but may ask for signatures of messages. -/
def Use.answer (P : Prims) : Use → Play Bytes Bytes Bytes
  | .sign c => .ask (P.sha512 (fileInput c)) fun s => .done s
  | .send stream block csk key salt coin rcpts pieces =>
    let chunks := (if stream then streamChunks (usedBlock block) else encryptChunks (usedBlock block)) pieces.flatten
    let epk := (P.x25519 (clamp csk.bytes) basepoint).getD []
    match wraps P (clamp csk.bytes) salt.bytes key.bytes rcpts with
    | none => .done []
    | some ws =>
      .ask (senderStatement P epk salt.bytes key.bytes) fun s =>
        let h := headerPart
          { chunkSize := usedBlock block, salt := salt.bytes, pk := epk
            sender := P.aeadSeal (senderSeal P key.bytes salt.bytes).1 (senderSeal P key.bytes salt.bytes).2 s []
            keys := ws }
        let k := sessionKeys P key.bytes (P.sha256 h)
        .ask (P.hmac256 k.2.2 (macInput chunks)) fun tr =>
          .done (h ++ P.sha256 h ++ sealedBody P k.2.1 k.1 0 chunks ++ tr)

/-- The forger, with his uses answered that way: he now asks for signatures of messages. -/
def Forger.messages (P : Prims) (F : Forger) (t : F.Tape) (pk : Bytes) : Play Bytes Bytes (Bytes × Bytes) :=
  (F.play t pk).through (Use.answer P)

/-- ... of their digests: a forger of Ed25519 signatures. -/
def Forger.ed (P : Prims) (F : Forger) : EdForger :=
  { Tape := F.Tape
    play := fun t pk => ((F.messages P t pk).through fun m => .ask (digest P m) .done).andThen fun (c, sig) =>
      .done (digest P (P.sha512 (fileInput c)), sig) }

/-- The probability that his contents collide with contents he had signed. -/
def Forger.sameFile (P : Prims) (use : Bytes → Use → Bytes) (F : Forger) : ℚ :=
  mean fun t : F.Tape => mean fun seed : Coins 32 =>
    let (uses, c, _) := (F.play t (P.edPub seed.bytes)).run (use seed.bytes)
    yes (clash P ((uses.filterMap Use.contents).map fileInput) (fileInput c))

/-- The probability that the message under his signature collides with one that was signed. -/
def Forger.sameMessage (P : Prims) (F : Forger) : ℚ :=
  mean fun t : F.Tape => mean fun seed : Coins 32 =>
    let pk := P.edPub seed.bytes
    let (ms, c, _) := (F.messages P t pk).run fun m => P.edSign (seed.bytes ++ pk) (digest P m)
    yes (clash P (ms.map messageInput) (messageInput (P.sha512 (fileInput c))))

end Sigtool.Spec
