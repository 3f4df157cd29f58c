import Verif.Sign
import Verif.Ssh
import Verif.Yaml
/-!
# Keys: serialisation of keys and signatures (`sign/keys.go`, `sign/sign.go`)
-/

namespace Sigtool

/-- `x`, else an error. -/
def orErr {α : Type} (o : Option α) (e : Err) : Res α :=
  match o with
  | some a => .ok a
  | none => .err e

/-! ### Signatures -/

/-- `Signature.MarshalBinary` (`sign/sign.go:122-128`). -/
def Signature.marshal (Y : Yaml) (s : Signature) (comment : Bytes) : Bytes :=
  Y.sigText ⟨comment, Base64.encode s.pkhash, Base64.encode s.sig⟩

/-- `makeSignature`, that is `Signature.UnmarshalBinary` (`sign/sign.go:96-118,132-135`). -/
def unmarshalSig (Y : Yaml) (b : Bytes) : Res Signature :=
  (orErr (Y.readSig b) (.msg "can't parse YAML signature")).bind fun ss =>
    (orErr (Base64.decode ss.signature) (.msg "can't decode Base64:Signature")).bind fun s =>
      (orErr (Base64.decode ss.pkhash) (.msg "can't decode Base64:Pkhash")).bind fun p => .ok { sig := s, pkhash := p }

/-! ### Public keys -/

/-- `PublicKey.MarshalBinary` (`sign/keys.go:473-482`). -/
def PublicKey.marshal (Y : Yaml) (pk : PublicKey) (comment : Bytes) : Bytes :=
  Y.pubText ⟨comment, Base64.encode pk.pk, Base64.encode pk.hash⟩

/-- The YAML branch of `PublicKey.UnmarshalBinary` (`sign/keys.go:495-515`).  The comment in the file is not kept. -/
def unmarshalPubYaml (P : Prims) (Y : Yaml) (b : Bytes) : Res PublicKey :=
  (orErr (Y.readPub b) (.msg "can't parse YAML")).bind fun spk =>
    if spk.pk = [] then .err (.msg "sign: not a YAML public key")
    else (orErr (Base64.decode spk.pk) (.msg "can't decode YAML:Pk")).bind fun pkb => makePublicKeyFromBytes P [] pkb

/-- `PublicKey.UnmarshalBinary`, that is `MakePublicKey` (`sign/keys.go:364-370,487-516`): try the SSH format, then YAML.  If
the SSH parser returns no key and no error, `*pk = *xk` dereferences nil. -/
def makePublicKey (P : Prims) (Y : Yaml) (b : Bytes) : Res PublicKey :=
  match parseSSHPublicKey P b with
  | .ok (some pk) => .ok pk
  | .ok none => .panic "nil pointer dereference"
  | .panic w => .panic w
  | .err _ => unmarshalPubYaml P Y b

/-- `MakePublicKeyFromString` (`sign/keys.go:373-393`).  `.ok none` is Go's nil key with nil error. -/
def makePublicKeyFromString (P : Prims) (s : Bytes) : Res (Option PublicKey) :=
  match parseEncPubKey P s (ascii "command-line-pk") with
  | .ok o => .ok o
  | .panic w => .panic w
  | .err _ =>
    (orErr (Base64.decode s) (.msg "illegal base64 data")).bind fun pkb =>
      (makePublicKeyFromBytes P [] pkb).bind fun pk => .ok (some pk)

/-! ### Private keys -/

/-- `PrivateKey.MarshalBinary` (`sign/keys.go:223-267`), `salt` being the 32 bytes drawn. -/
def PrivateKey.marshal (P : Prims) (Y : Yaml) (sk : PrivateKey) (comment pw salt : Bytes) : Res Bytes :=
  match P.scrypt (P.sha512 pw) salt 524288 8 1 with
  | .err e => .err (.wrap "marshal: can't derive scrypt key" e)
  | .panic w => .panic w
  | .ok key =>
    let esk := P.aeadSeal key (salt.take 12) sk.sk []
    .ok (Y.privText comment (Base64.encode esk) (Base64.encode salt))

/-- `bytes.Index(b, pat)`. -/
def indexOf (pat : Bytes) : Bytes → Option Nat
  | [] => if pat = [] then some 0 else none
  | c :: t => if pat.isPrefixOf (c :: t) then some 0 else (indexOf pat t).map (· + 1)

/-- The test that selects the OpenSSH parser: `bytes.Index(b, []byte("OPENSSH PRIVATE KEY-")) > 0` (`sign/keys.go:274`). -/
def looksOpenSSH (b : Bytes) : Bool :=
  match indexOf (ascii "OPENSSH PRIVATE KEY-") b with
  | some n => n > 0
  | none => false

/-- The password, if a callback is given (`sign/keys.go:283-290`). -/
def optPw : GetPw → Res Bytes
  | none => .ok []
  | some (.error e) => .err e
  | some (.ok pw) => .ok pw

/-- The YAML branch of `PrivateKey.UnmarshalBinary` (`sign/keys.go:292-340`).  `salt[:12]` may reach into the spare capacity
of the decoded slice; beyond the capacity it panics. -/
def unmarshalPrivYaml (P : Prims) (Y : Yaml) (b pw : Bytes) : Res PrivateKey :=
  (orErr (Y.readPriv b) (.msg "unmarshal priv key: can't parse YAML")).bind fun ssk =>
    if ssk.salt = [] ∨ ssk.esk = [] then .err (.msg "unmarshal priv key: not YAML format")
    else
      (orErr (Base64.decode ssk.salt) (.msg "unmarshal priv key: can't decode salt")).bind fun salt =>
      (orErr (Base64.decode ssk.esk) (.msg "unmarshal priv key: can't decode key")).bind fun esk =>
        match P.scrypt (P.sha512 pw) salt ssk.n ssk.r ssk.p with
        | .err e => .err (.wrap "unmarshal priv key: can't derive key" e)
        | .panic w => .panic w
        | .ok key =>
          (reslice salt (Base64.decodedLen ssk.salt - salt.length) 12).bind fun nonce =>
            match P.aeadOpen key nonce esk [] with
            | none => .err (.msg "unmarshal priv key: wrong password")
            | some skb => makePrivateKeyFromBytes P skb

/-- `PrivateKey.UnmarshalBinary`, that is `MakePrivateKey` (`sign/keys.go:151-159,273-341`). -/
def makePrivateKey (P : Prims) (Y : Yaml) (pem : Bytes → Option PemBlock) (b : Bytes) (getpw : GetPw) : Res PrivateKey :=
  if looksOpenSSH b then parseSSHPrivateKey P pem b getpw
  else (optPw getpw).bind fun pw => unmarshalPrivYaml P Y b pw

end Sigtool
