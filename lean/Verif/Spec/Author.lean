import Verif.Spec.Forge
/-!
# Spec.Author: what it means that a file shown as somebody's was sent by him, independent of the code

An impostor sees a public key and has the key used as in `Spec/Forge.lean`: files are signed with it, encrypted files are sent,
to recipients and even with random bytes of his choice - so he may be one of the recipients.  At the end he presents a file and
the seed of the private key that is to read it, which may be his own.  The reader names the public key as the sender.
-/

namespace Sigtool.Spec

structure Impostor where
  Tape : Type
  [fin : Fintype Tape]
  play : Tape → (pk : Bytes) → Play Use Bytes (Bytes × Coins 32)

attribute [instance] Impostor.fin

/-- The probability that `wins`, which is shown the public key, the uses with their results, the file and the seed of the
reader. -/
def Impostor.odds (P : Prims) (use : Bytes → Use → Bytes) (wins : Bytes → List (Use × Bytes) → Bytes → Bytes → Bool)
    (F : Impostor) : ℚ :=
  mean fun t : F.Tape => mean fun seed : Coins 32 =>
    let pk := P.edPub seed.bytes
    let (uses, file, reader) := (F.play t pk).run (use seed.bytes)
    yes (wins pk (uses.map fun u => (u, use seed.bytes u)) file reader.bytes)

/-! ### Three ways to win -/

/-- What identifies the session of a file that was sent: ephemeral public key, salt, root key. -/
def Use.session (P : Prims) : Use → Option (Bytes × Bytes × Bytes)
  | .sign _ => none
  | .send _ _ csk key salt _ _ _ => some ((P.x25519 (clamp csk.bytes) basepoint).getD [], salt.bytes, key.bytes)

def Use.plain : Use → Option Bytes
  | .sign _ => none
  | .send _ _ _ _ _ _ _ pieces => some pieces.flatten

/-- The file is shown as the sender's, but belongs to no session of his.  `session` is what the reader finds in it; nothing
if the file is not shown as the sender's. -/
def strangeSession (P : Prims) (session : (pk seed file : Bytes) → Option (Bytes × Bytes × Bytes)) (pk : Bytes)
    (sent : List (Use × Bytes)) (file reader : Bytes) : Bool :=
  (session pk reader file).any fun s => sent.all fun u => decide (u.1.session P ≠ some s)

/-- The file is shown as the sender's and decrypts to something he did not send.  `read` gives what it decrypts to, and the
bytes that are left unread. -/
def strangeContents (read : (pk seed file : Bytes) → Option (Bytes × Bytes)) (pk : Bytes)
    (sent : List (Use × Bytes)) (file reader : Bytes) : Bool :=
  (read pk reader file).any fun r => sent.all fun u => decide (u.1.plain ≠ some r.1)

/-- The file, apart from what is left unread, does not end in the bare marker 80 00 00 00, and apart from its last 64 bytes it
is not a file with these contents that was sent. -/
def strangeFile (read : (pk seed file : Bytes) → Option (Bytes × Bytes)) (pk : Bytes)
    (sent : List (Use × Bytes)) (file reader : Bytes) : Bool :=
  (read pk reader file).any fun r =>
    let body := file.take (file.length - r.2.length)
    decide (¬ [0x80, 0, 0, 0] <:+ body) &&
      sent.all fun u => !(decide (u.1.plain = some r.1) && decide (u.2.take (u.2.length - 64) = body.take (body.length - 64)))

/-! ### The forger of Ed25519 signatures made from an impostor, and the other event that bounds his success -/

/-- `shown` says which message is signed in the file, by which signature. -/
def Impostor.ed (P : Prims) (shown : (pk seed file : Bytes) → Option (Bytes × Bytes)) (F : Impostor) : EdForger :=
  { Tape := F.Tape
    play := fun t pk => (((F.play t pk).through (Use.answer P)).through fun m => .ask (digest P m) .done).andThen
      fun (file, reader) =>
        match shown pk reader.bytes file with
        | some (m, sig) => .done (digest P m, sig)
        | none => .done ([], []) }

/-- Something that is hashed: with SHA-256 or SHA-512, with HMAC under a key, or by deriving the HMAC key from a root key and
a checksum. -/
inductive Hashed where
  | sha256 (x : Bytes)
  | sha512 (x : Bytes)
  | hmac (k x : Bytes)
  | macKey (root cksum : Bytes)
deriving DecidableEq

def Hashed.value (P : Prims) : Hashed → Bytes
  | .sha256 x => P.sha256 x
  | .sha512 x => P.sha512 x
  | .hmac k x => P.hmac256 k x
  | .macKey root cksum => (sessionKeys P root cksum).2.2

/-- What the sender states about a session. -/
def statementInput (epk salt key : Bytes) : Bytes := ascii "SigTool" ++ [3] ++ epk ++ salt ++ key

/-- What is hashed in a use of the key, if messages are signed by `sign`. -/
def Use.hashes (P : Prims) (sign : Bytes → Bytes) : Use → List Hashed
  | .sign c => [.sha512 (fileInput c), .sha512 (messageInput (P.sha512 (fileInput c)))]
  | .send stream block csk key salt _ rcpts pieces =>
    let chunks := (if stream then streamChunks (usedBlock block) else encryptChunks (usedBlock block)) pieces.flatten
    let epk := (P.x25519 (clamp csk.bytes) basepoint).getD []
    match wraps P (clamp csk.bytes) salt.bytes key.bytes rcpts with
    | none => []
    | some ws =>
      let st := senderStatement P epk salt.bytes key.bytes
      let h := headerPart
        { chunkSize := usedBlock block, salt := salt.bytes, pk := epk
          sender := P.aeadSeal (senderSeal P key.bytes salt.bytes).1 (senderSeal P key.bytes salt.bytes).2 (sign st) []
          keys := ws }
      let k := (sessionKeys P key.bytes (P.sha256 h)).2.2
      let tag := P.hmac256 k (macInput chunks)
      [.sha256 (statementInput epk salt.bytes key.bytes), .sha512 (messageInput st), .sha256 h, .macKey key.bytes (P.sha256 h),
        .hmac k (macInput chunks), .sha512 (messageInput tag)]

/-- The probability that two different things hashed in the game - one when the key was used, the other when the file that is
presented is read - have the same hash.  `hashed` says what is hashed when it is read. -/
def Impostor.coincidence (P : Prims) (use : Bytes → Use → Bytes) (hashed : (pk seed file : Bytes) → List Hashed)
    (F : Impostor) : ℚ :=
  mean fun t : F.Tape => mean fun seed : Coins 32 =>
    let pk := P.edPub seed.bytes
    let (uses, file, reader) := (F.play t pk).run (use seed.bytes)
    yes (uses.any fun u => (u.hashes P fun m => P.edSign (seed.bytes ++ pk) (digest P m)).any fun a =>
      (hashed pk reader.bytes file).any fun b => decide (a ≠ b ∧ a.value P = b.value P))

/-! ### Taking a file apart -/

/-- The chunks of a body with the given contents, by its length words. -/
def chunksOf : Nat → (body plain : Bytes) → List Bytes
  | 0, _, _ => []
  | fuel + 1, body, plain =>
    let w := body.take 4
    let n := w.foldl (fun a b => a * 256 + b.toNat) 0
    if 2^31 ≤ n then [plain]
    else plain.take n :: chunksOf fuel (body.drop (4 + n + 16)) (plain.drop n)

end Sigtool.Spec
