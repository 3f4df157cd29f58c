import Verif.Spec.Forge
import Verif.DecHistory
/-!
# Spec.Whole: forgery, if one key is used for signing, for sending and for receiving

As in `Spec/Forge.lean`, but the owner of the key also decrypts files that others make, and shows what comes out.  A secret key
for Ed25519 is turned into one for X25519 then, so the other side of the comparison is a forger of Ed25519 signatures who may
also have points multiplied by the X25519 scalar that belongs to the key (as in the literature on using one key pair for both).
-/

namespace Sigtool.Spec

/-- A call on a `Decryptor`, as in `DecOp` but without the secret key, which is the owner's: `SetPrivateKey` (with or without the
public key of a sender), `Decrypt` to a destination, `NewStreamReader`, `Read` on the `k`th of the readers, or the input goes
on after an error. -/
inductive Call where
  | setKey (sender : Option PublicKey)
  | decrypt (wr : Writer)
  | openReader
  | read (k : Nat) (cap : Nat)
  | more (rd : Reader)
deriving DecidableEq, Repr

/-- The call with a private key. -/
def Call.op (sk : PrivateKey) : Call → DecOp
  | .setKey sender => .setKey sk sender
  | .decrypt wr => .decrypt wr
  | .openReader => .openReader
  | .read k cap => .read k cap
  | .more rd => .more rd

/-- A use of the key: as in `Use`, or decrypting what a reader delivers, by any sequence of calls. -/
inductive Deed where
  | act (u : Use)
  | receive (rd : Reader) (calls : List Call)

/-- What a call shows: its result, the bytes it delivered, and whether the sender is said to be authenticated then. -/
structure Reply where
  res : Res Unit
  delivered : Bytes
  auth : Bool
deriving DecidableEq, Repr

/-- What others get to see of it: the signature or the file, or how `NewDecryptor` ended and what each call showed. -/
inductive Sight where
  | made (b : Bytes)
  | seen (opened : Res Unit) (replies : List Reply)

/-- One call. -/
def Call.on (P : Prims) (sk : PrivateKey) (s : DecState) (c : Call) : Option (Reply × DecState) :=
  (s.step P (c.op sk)).map fun x => (⟨x.1.res, x.1.delivered, x.1.auth⟩, x.2)

/-- What the calls show one after another, if a call does `step` (there is no call on a stream reader that does not exist, and
a crash is the end). -/
def replies (step : DecState → Call → Option (Reply × DecState)) : DecState → List Call → List Reply
  | _, [] => []
  | s, c :: cs =>
    match step s c with
    | none => replies step s cs
    | some (r, s) => r :: if r.res.isPanic then [] else replies step s cs

/-- Which files were signed. -/
def Deed.contents : Deed → Option Bytes
  | .act u => u.contents
  | .receive .. => none

/-- Own random bytes; for a public key, a dialogue that ends with contents of a file and a signature. -/
structure Insider where
  Tape : Type
  [fin : Fintype Tape]
  play : Tape → (pk : Bytes) → Play Deed Sight (Bytes × Bytes)

attribute [instance] Insider.fin

/-- The probability that the program accepts his signature on contents that nobody signed. -/
def Insider.odds (P : Prims) (does : Bytes → Deed → Sight) (accepts : Bytes → (contents sig : Bytes) → Bool) (F : Insider) : ℚ :=
  mean fun t : F.Tape => mean fun seed : Coins 32 =>
    let pk := P.edPub seed.bytes
    let (deeds, c, sig) := (F.play t pk).run (does seed.bytes)
    yes (accepts pk c sig && decide (c ∉ deeds.filterMap Deed.contents))

/-- A signature of a byte string, or a point times the scalar. -/
inductive Wish where
  | sign (m : Bytes)
  | times (point : Bytes)

def Wish.message : Wish → Option Bytes
  | .sign m => some m
  | .times _ => none

/-- The X25519 scalar that belongs to an Ed25519 seed. -/
def scalarOfSeed (P : Prims) (seed : Bytes) : Bytes := clamp ((P.sha512 seed).take 32)

/-- One who tries to forge an Ed25519 signature, with both wishes. -/
structure DhForger where
  Tape : Type
  [fin : Fintype Tape]
  play : Tape → (pk : Bytes) → Play Wish (Option Bytes) (Bytes × Bytes)

attribute [instance] DhForger.fin

def Wish.granted (P : Prims) (seed : Bytes) : Wish → Option Bytes
  | .sign m => some (P.edSign (seed ++ P.edPub seed) m)
  | .times q => P.x25519 (scalarOfSeed P seed) q

def DhForger.odds (P : Prims) (B : DhForger) : ℚ :=
  mean fun t : B.Tape => mean fun seed : Coins 32 =>
    let (ws, m, sig) := (B.play t (P.edPub seed.bytes)).run (Wish.granted P seed.bytes)
    yes (P.edVerify (P.edPub seed.bytes) m sig && decide (m ∉ ws.filterMap Wish.message))

/-! ### From an insider to a forger of Ed25519 signatures -/

/-- The call by one who has the public key and, instead of the secret key, the product of the point in the header with the
scalar: he runs the program on a private key of zero bytes, in a world where every multiplication gives that product. -/
def stepWith (P : Prims) (pk : Bytes) (product : Option Bytes) (s : DecState) (c : Call) : Option (Reply × DecState) :=
  c.on { P with x25519 := fun _ _ => product } ⟨List.replicate 64 0, ⟨pk, [], []⟩⟩ s

/-- How a use is answered by one who has no secret key but may ask for signatures of messages and for products. -/
def Deed.answer (P : Prims) (pk : Bytes) : Deed → Play Wish (Option Bytes) Sight
  | .act u => ((u.answer P).through fun m => .ask (.sign m) fun s => .done (s.getD [])).andThen fun b => .done (.made b)
  | .receive rd calls =>
    match (newDecryptor P rd).1 with
    | .ok d => .ask (.times d.hdr.pk) fun product => .done (.seen (.ok ()) (replies (stepWith P pk product) { dec := d } calls))
    | .err x => .done (.seen (.err x) [])
    | .panic x => .done (.seen (.panic x) [])

/-- The insider, with his uses answered that way: he asks for signatures of messages. -/
def Insider.messages (P : Prims) (F : Insider) (t : F.Tape) (pk : Bytes) : Play Wish (Option Bytes) (Bytes × Bytes) :=
  (F.play t pk).through (Deed.answer P pk)

/-- The digest of the message instead of the message. -/
def Wish.digested (P : Prims) : Wish → Wish
  | .sign m => .sign (digest P m)
  | .times q => .times q

/-- ... of their digests: a forger of Ed25519 signatures. -/
def Insider.ed (P : Prims) (F : Insider) : DhForger :=
  { Tape := F.Tape
    play := fun t pk => ((F.messages P t pk).through fun w => .ask (w.digested P) .done).andThen fun (c, sig) =>
      .done (digest P (P.sha512 (fileInput c)), sig) }

/-- The probability that his contents collide with contents he had signed. -/
def Insider.sameFile (P : Prims) (does : Bytes → Deed → Sight) (F : Insider) : ℚ :=
  mean fun t : F.Tape => mean fun seed : Coins 32 =>
    let (deeds, c, _) := (F.play t (P.edPub seed.bytes)).run (does seed.bytes)
    yes (clash P ((deeds.filterMap Deed.contents).map fileInput) (fileInput c))

/-- The probability that the message under his signature collides with one that was signed. -/
def Insider.sameMessage (P : Prims) (F : Insider) : ℚ :=
  mean fun t : F.Tape => mean fun seed : Coins 32 =>
    let (ws, c, _) := (F.messages P t (P.edPub seed.bytes)).run fun w => (w.digested P).granted P seed.bytes
    yes (clash P ((ws.filterMap Wish.message).map messageInput) (messageInput (P.sha512 (fileInput c))))

end Sigtool.Spec
