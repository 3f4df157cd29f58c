import Verif.Spec.Recipient
import Verif.Spec.Sender
import Verif.Encrypt
/-!
# Spec.Session: the header of a session, independent of the code

`SessionHeader` says what the header of a container must hold, given who sends (`sender`), the requested block size, the
random bytes of `NewEncryptor` and the recipients in order.
-/

namespace Sigtool.Spec

/-- The signature (or 64 zero bytes) a sender puts into the header. -/
def senderMark (P : Prims) (sender : Option PrivateKey) (epk : Bytes) (c : EncCoins) : Bytes :=
  match sender with
  | none => unsigned
  | some s => P.edSign s.sk (P.sha512 (ascii "sigtool signed message" ++ senderStatement P epk c.salt c.key))

/-- `h` is the header for the recipients `rs`. -/
structure SessionHeader (P : Prims) (sender : Option PrivateKey) (blk : Nat) (c : EncCoins)
    (rs : List (PublicKey × Bytes)) (h : Header) : Prop where
  chunkSize : h.chunkSize = if blk = 0 then 4 * 1048576 else min blk (2^30)
  salt : h.salt = c.salt
  pk : P.x25519 (clamp c.csk) basepoint = some h.pk
  sender : h.sender = P.aeadSeal (senderSeal P c.key c.salt).1 (senderSeal P c.key c.salt).2 (senderMark P sender h.pk c) []
  keys : List.Forall₂ (fun r w => wrapFor P (clamp c.csk) c.salt c.key r.1.pk r.2 = some w) rs h.keys
  plain : h.unknown = []

/-- The header bytes on the wire, with their checksum. -/
def headerWithSum (P : Prims) (h : Header) : Bytes := headerPart h ++ P.sha256 (headerPart h)

/-- The header is a function of sender, block size, random bytes and recipients. -/
theorem SessionHeader.unique {P : Prims} {sender : Option PrivateKey} {blk : Nat} {c : EncCoins}
    {rs : List (PublicKey × Bytes)} {h1 h2 : Header} (g1 : SessionHeader P sender blk c rs h1)
    (g2 : SessionHeader P sender blk c rs h2) : h1 = h2 := by
  have hpk : h1.pk = h2.pk := Option.some.inj (g1.pk.symm.trans g2.pk)
  have hk : ∀ (rs : List (PublicKey × Bytes)) (a b : List WrappedKey),
      List.Forall₂ (fun r w => wrapFor P (clamp c.csk) c.salt c.key r.1.pk r.2 = some w) rs a →
      List.Forall₂ (fun r w => wrapFor P (clamp c.csk) c.salt c.key r.1.pk r.2 = some w) rs b → a = b := by
    intro rs
    induction rs with
    | nil => intro a b ha hb; cases ha; cases hb; rfl
    | cons r rs ih =>
      intro a b ha hb
      cases ha with
      | cons a1 a2 =>
        cases hb with
        | cons b1 b2 => rw [ih _ _ a2 b2, Option.some.inj (a1.symm.trans b1)]
  cases h1; cases h2
  have := hk _ _ _ g1.keys g2.keys
  have a1 := g1.chunkSize; have a2 := g2.chunkSize
  have b1 := g1.salt; have b2 := g2.salt
  have c1 := g1.sender; have c2 := g2.sender
  have d1 := g1.plain; have d2 := g2.plain
  simp only at *
  subst this hpk
  simp_all

end Sigtool.Spec
