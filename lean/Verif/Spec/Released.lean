import Verif.Spec.Accepts
import Verif.Spec.Session
import Verif.Spec.Success
/-!
# Spec.Released: which bytes may leave a decryption, finished or not; independent of the code
-/

namespace Sigtool.Spec

/-- A chunk as it stands in the input, and what it opens to. -/
structure Piece where
  word : Bytes
  cipher : Bytes
  plain : Bytes

/-- The piece at position `j` opens under the data key, with its position in the nonce and its length word as additional data, to
a chunk of admissible size. -/
def Piece.Genuine (P : Prims) (dkey nonce : Bytes) (size j : Nat) (f : Piece) : Prop :=
  f.word.length = 4 ∧ P.aeadOpen dkey (be32 j ++ nonce.drop 4) f.cipher f.word = some f.plain ∧
    1 ≤ f.plain.length ∧ f.plain.length ≤ size

/-- `b` is a beginning of what genuine pieces at the start of the body of `input` open to, and the header of `input` can be opened
by `sk` and is acceptable to someone who names `spk` as the sender. -/
def Released (P : Prims) (input : Bytes) (sk : PrivateKey) (spk : Option PublicKey) (b : Bytes) : Prop :=
  ∃ (hb : Bytes) (h : Header) (key : Bytes) (auth : Bool) (body : Bytes) (pieces : List Piece) (rest : Bytes),
    Opening P input sk spk hb h key auth body ∧
    body = (pieces.map fun f => f.word ++ f.cipher).flatten ++ rest ∧
    (∀ (j : Nat) (f : Piece), pieces[j]? = some f → f.Genuine P (sessionKeys P key (P.sha256 (framed hb))).2.1
      (sessionKeys P key (P.sha256 (framed hb))).1 h.chunkSize j) ∧
    b <+: (pieces.map Piece.plain).flatten

/-- The last 64 bytes of a container: the random bytes, or the sender's signature of all chunks. -/
def trailerFor (P : Prims) (sender : Option PrivateKey) (c : EncCoins) (h : Header) (chunks : List Bytes) (coin : Bytes) : Bytes :=
  match sender with
  | none => coin
  | some s => P.edSign s.sk (P.sha512 (ascii "sigtool signed message" ++
      P.hmac256 (sessionKeys P c.key (P.sha256 (headerPart h))).2.2 (macInput chunks)))

/-- The run has written nothing: standard output is empty and the bytes of every file are as before, or (in the case of the new
temporary file) there are none. -/
def Silent (fs : FS) (o : Outcome) : Prop :=
  o.stdout = [] ∧ ∀ pre : List Sys, pre <+: o.sys → ∀ i, (fs.run pre).data i = fs.data i ∨ (fs.run pre).data i = []

/-- At every moment of the run, the bytes that it has put to standard output or into a file obey `ok`. -/
def WritesOnly (fs : FS) (o : Outcome) (ok : Bytes → Prop) : Prop :=
  (o.stdout = [] ∨ ok o.stdout) ∧ ∀ pre : List Sys, pre <+: o.sys → ∀ i, (fs.run pre).data i = fs.data i ∨ ok ((fs.run pre).data i)

/-- `b` is a beginning of the container of `content` for the keys that the recipient arguments `names` stand for, in their order, with
the given block size and sender. -/
def PartOf (W : World) (blk : Nat) (users : Bytes) (sender : Option PrivateKey) (names : List Bytes) (content b : Bytes) : Prop :=
  ∃ pks hdr, List.Forall₂ (fun a pk => RecipientKey W users a pk.pk) names pks ∧
    SessionHeader W.D.P sender blk W.coins (pks.zip ((List.range names.length).map W.rbuf)) hdr ∧
    b <+: container W.D.P hdr W.coins.key (encryptChunks (hdr.chunkSize) content)
      (trailerFor W.D.P sender W.coins hdr (encryptChunks (hdr.chunkSize) content) W.coin)

/-- The text of the new private key file: base64 of the 64 secret bytes, sealed under a key that scrypt makes of the pass phrase. -/
def NewKeyText (W : World) (o : GenOpts) (text : Bytes) : Prop :=
  ∃ phrase key, W.genpw o.nopw o.envpw = .ok phrase ∧ W.D.P.scrypt (W.D.P.sha512 phrase) W.salt 524288 8 1 = .ok key ∧
    text = W.D.Y.privText o.comment (Base64.encode (W.D.P.aeadSeal key (W.salt.take 12) (W.seed ++ W.D.P.edPub W.seed) []))
      (Base64.encode W.salt)

/-- The text of the new public key file. -/
def newPubText (W : World) (o : GenOpts) : Bytes :=
  W.D.Y.pubText ⟨o.comment, Base64.encode (W.D.P.edPub W.seed), Base64.encode ((W.D.P.sha256 (W.D.P.edPub W.seed)).take 16)⟩

/-- The text of a signature of `content`, the contents of the file `fn`, with the private key `secret`. -/
def sigTextOf (D : Deps) (secret : Bytes) (fn : Path) (content : Bytes) : Bytes :=
  D.Y.sigText ⟨ascii "input=" ++ fn, Base64.encode ((D.P.sha256 (secret.drop 32)).take 16),
    Base64.encode (D.P.edSign secret (D.P.sha512 (messageInput (D.P.sha512 (fileInput content)))))⟩

end Sigtool.Spec
