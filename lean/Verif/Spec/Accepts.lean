import Verif.Spec.Grammar
import Verif.Spec.Opening
/-!
# Spec.Accepts: which byte strings are a container for a private key, and what they contain; independent of the code

A declarative description of the whole input: layout, header grammar, wrapped key, sender field, sealed chunks, end.
-/

namespace Sigtool.Spec

/-- The variable header with its fixed part. -/
def framed (hb : Bytes) : Bytes := ascii "SigTool" ++ [3] ++ be32 hb.length ++ hb

/-- The rules a decoded header has to obey. -/
structure HeaderRules (h : Header) : Prop where
  chunk : 1 ≤ h.chunkSize ∧ h.chunkSize < 2^30
  salt : h.salt.length = 32
  keys : h.keys ≠ []
  wrapped : ∀ w ∈ h.keys, 32 < w.dkey.length

/-- `key` is the root key that `sk` gets out of the header: the first wrapped key that opens. All wrapped keys up to this one
must have the proper size, 48 bytes. -/
def FirstOpened (P : Prims) (h : Header) (sk : PrivateKey) (key : Bytes) : Prop :=
  ∃ before w after, h.keys = before ++ w :: after ∧ (∀ v ∈ before ++ [w], v.dkey.length = 48) ∧
    (∀ v ∈ before, unwrapAs P (sk.sk.take 32) sk.pub.pk h.pk h.salt v = none) ∧
    unwrapAs P (sk.sk.take 32) sk.pub.pk h.pk h.salt w = some key

/-- The sender field is acceptable to someone who names `spk` (or nobody) as the sender, and `auth` says whether it
identifies him: it holds 64 zero bytes, or a signature by the named sender. -/
def SenderAccepted (P : Prims) (h : Header) (key : Bytes) (spk : Option PublicKey) (auth : Bool) : Prop :=
  ∃ sig, P.aeadOpen (senderSeal P key h.salt).1 (senderSeal P key h.salt).2 h.sender [] = some sig ∧
    ((sig = unsigned ∧ auth = false) ∨
     (sig ≠ unsigned ∧ auth = true ∧ ∃ pk, spk = some pk ∧ pk.pk.length = 32 ∧
        ValidSignature P pk.pk (senderStatement P h.pk h.salt key) sig))

/-- How the chunks end, after the chunks `mid`: with an empty marker, or with a last chunk `fin` and 64 bytes of trailer
which, if the sender is identified, are his signature of all chunks. -/
def Ending (P : Prims) (dkey nonce hk : Bytes) (size : Nat) (spk : Option PublicKey) (auth : Bool) (mid : List Bytes)
    (fin e : Bytes) : Prop :=
  (fin = [] ∧ e = [0x80, 0, 0, 0]) ∨
  (1 ≤ fin.length ∧ fin.length ≤ size ∧ ∃ tr, tr.length = 64 ∧ e = sealedChunk P dkey nonce mid.length true fin ++ tr ∧
    (auth = true → ∃ pk, spk = some pk ∧ ValidSignature P pk.pk (P.hmac256 hk (macInput (mid ++ [fin]))) tr))

/-- What follows the header: sealed chunks `mid`, an ending, and then `rest`, which does not belong to the container. -/
def Body (P : Prims) (dkey nonce hk : Bytes) (size : Nat) (spk : Option PublicKey) (auth : Bool) (body plain rest : Bytes) :
    Prop :=
  ∃ (mid : List Bytes) (fin e : Bytes), body = sealedMid P dkey nonce 0 mid ++ e ++ rest ∧
    (∀ c ∈ mid, 1 ≤ c.length ∧ c.length ≤ size) ∧ Ending P dkey nonce hk size spk auth mid fin e ∧
    plain = mid.flatten ++ fin

/-- The start of `input` up to `body` is a header `h`, encoded as `hb`, that `sk` can open and that is acceptable to someone
who names `spk` as the sender. -/
structure Opening (P : Prims) (input : Bytes) (sk : PrivateKey) (spk : Option PublicKey) (hb : Bytes) (h : Header) (key : Bytes)
    (auth : Bool) (body : Bytes) : Prop where
  layout : input = framed hb ++ P.sha256 (framed hb) ++ body
  size : 32 ≤ hb.length ∧ hb.length ≤ 1048576
  decodes : Decodes hb h
  rules : HeaderRules h
  opened : FirstOpened P h sk key
  sender : SenderAccepted P h key spk auth

/-- `input` starts with a container that `sk` can open and that is acceptable to someone who names `spk` as the sender; its
contents are `plain`, `auth` says whether the sender is identified, and `rest` follows. -/
def Contains (P : Prims) (input : Bytes) (sk : PrivateKey) (spk : Option PublicKey) (auth : Bool) (plain rest : Bytes) : Prop :=
  ∃ (hb : Bytes) (h : Header) (key body : Bytes), Opening P input sk spk hb h key auth body ∧
    Body P (sessionKeys P key (P.sha256 (framed hb))).2.1 (sessionKeys P key (P.sha256 (framed hb))).1
      (sessionKeys P key (P.sha256 (framed hb))).2.2 h.chunkSize spk auth body plain rest

end Sigtool.Spec
