import Verif.Curve
import Verif.Base64
/-!
# Ssh: reading OpenSSH public keys, authorized_keys and private keys (`sign/ssh.go`)

`golang.org/x/crypto/ssh.Unmarshal`, `strings.TrimSpace`, `regexp.Split`, `pem.Decode` and `bcrypt_pbkdf` are dependencies;
the first three are modelled from their documented behaviour, the last two are parameters.
-/

namespace Sigtool

/-! ### White space (`strings.TrimSpace`, `bytes.TrimSpace`) -/

/-- The UTF-8 encodings of the characters for which `unicode.IsSpace` holds. -/
def spaces : List Bytes :=
  [[9], [10], [11], [12], [13], [32], [0xC2, 0x85], [0xC2, 0xA0], [0xE1, 0x9A, 0x80],
   [0xE2, 0x80, 0x80], [0xE2, 0x80, 0x81], [0xE2, 0x80, 0x82], [0xE2, 0x80, 0x83], [0xE2, 0x80, 0x84], [0xE2, 0x80, 0x85],
   [0xE2, 0x80, 0x86], [0xE2, 0x80, 0x87], [0xE2, 0x80, 0x88], [0xE2, 0x80, 0x89], [0xE2, 0x80, 0x8A],
   [0xE2, 0x80, 0xA8], [0xE2, 0x80, 0xA9], [0xE2, 0x80, 0xAF], [0xE2, 0x81, 0x9F], [0xE3, 0x80, 0x80]]

/-- Strip leading members of `sp`; `n` bounds the number of rounds (the length suffices). -/
def stripLeading (sp : List Bytes) : Nat → Bytes → Bytes
  | 0, b => b
  | n + 1, b =>
    match sp.find? (·.isPrefixOf b) with
    | none => b
    | some s => stripLeading sp n (b.drop s.length)

/-- `strings.TrimSpace` / `bytes.TrimSpace` (Go standard library), used at `sign/ssh.go:101,125,159`. -/
def trimSpace (b : Bytes) : Bytes :=
  let l := stripLeading spaces b.length b
  (stripLeading (spaces.map List.reverse) l.length l.reverse).reverse

/-- Blank or tab, the separators inside a line. -/
def isBlank (c : UInt8) : Bool := c == 32 || c == 9

/-! ### Wire format -/

/-- `parseString` (`sign/ssh.go:107-120`); also the one inside `ssh.Unmarshal`.  `uint32(len(in))` is truncated to 32 bits. -/
def parseString (b : Bytes) : Option (Bytes × Bytes) :=
  if b.length < 4 then none
  else
    let n := be32dec b
    let t := b.drop 4
    if t.length % 2^32 < n then none else some (t.take n, t.drop n)

/-- `parseUint32` of `golang.org/x/crypto/ssh`. -/
def parseUint32 (b : Bytes) : Option (Nat × Bytes) :=
  if b.length < 4 then none else some (be32dec b, b.drop 4)

/-- `ssh.KeyAlgoED25519`. -/
def algoEd25519 : Bytes := ascii "ssh-ed25519"

/-- `parseEncPubKey` (`sign/ssh.go:70-105`).  `.ok none` is Go's `return nil, nil`.  `ssh.Unmarshal` fails on empty input and
on a malformed string. -/
def parseEncPubKey (P : Prims) (b comment : Bytes) : Res (Option PublicKey) :=
  match Base64.decode b with
  | none => .err (.msg "illegal base64 data")
  | some raw =>
    match parseString raw with
    | none => .err .keyTooShort
    | some (algo, r) =>
      if algo ≠ algoEd25519 then .ok none
      else if r = [] then .err (.msg "ssh: parse error")
      else
        match parseString r with
        | none => .err (.msg "ssh: short read")
        | some (key, rest) =>
          if rest.length > 0 then .err .badTrailers
          else
            match makePublicKeyFromBytes P (trimSpace comment) key with
            | .ok pk => .ok (some pk)
            | .err e => .err e
            | .panic w => .panic w

/-- `regexp.MustCompile("[ \\t]+").Split(s, -1)` (`sign/ssh.go:60-61`): the maximal blank-free pieces of `s` in order, where
a leading or trailing run of blanks contributes an empty piece and the empty string is one empty piece. -/
def splitBlanks : Bytes → List Bytes
  | [] => [[]]
  | c :: t =>
    if isBlank c then
      match t with
      | [] => [[], []]
      | d :: _ => if isBlank d then splitBlanks t else [] :: splitBlanks t
    else
      match splitBlanks t with
      | [] => [[c]]
      | p :: ps => (c :: p) :: ps

/-- `parseSSHPublicKey` (`sign/ssh.go:59-67`).  The first field is not looked at. -/
def parseSSHPublicKey (P : Prims) (b : Bytes) : Res (Option PublicKey) :=
  match splitBlanks b with
  | [_, k, c] => parseEncPubKey P k c
  | _ => .err .badPublicKey

/-! ### authorized_keys -/

/-- Index of the first blank or tab (`bytes.IndexAny(in, " \t")`), `none` for -1. -/
def indexBlank (b : Bytes) : Option Nat := b.findIdx? isBlank

/-- `parseAuthorizedKey` (`sign/ssh.go:124-137`). -/
def parseAuthorizedKey (P : Prims) (b : Bytes) : Res (Option PublicKey) :=
  let s := trimSpace b
  let i := (indexBlank s).getD s.length
  parseEncPubKey P (s.take i) (s.drop i)

/-- The scan over the options field (`sign/ssh.go:181-199`): `i` is the index reached, `prev` the byte before it, `q` whether
a quote is open.  The result is the final value of the loop variable: where the first unquoted blank is, else the last index.
`candidateOptions` is collected but never used, so it is left out. -/
def optScan : (b : Bytes) → (i : Nat) → (prev : Option UInt8) → (q : Bool) → Nat
  | [], i, _, _ => i - 1
  | c :: t, i, prev, q =>
    if !q && isBlank c then i
    else optScan t (i + 1) (some c) (if c = 34 ∧ prev ≠ some 92 then !q else q)

/-- Whether a parse result is a key to append (`if err == nil { if pk != nil { append } }`). -/
def keyOf : Res (Option PublicKey) → Option PublicKey
  | .ok o => o
  | _ => none

/-- One line after trimming (`sign/ssh.go:160-223`). -/
def authLine (P : Prims) (ln : Bytes) : Option PublicKey :=
  if ln = [] ∨ ln.head? = some 35 then none
  else
    match indexBlank ln with
    | none => none
    | some i =>
      match parseAuthorizedKey P (ln.drop i) with
      | .ok o => o
      | _ =>
        let j := optScan ln 0 none false
        let t := (ln.drop j).dropWhile isBlank
        if t = [] then none
        else
          match indexBlank t with
          | none => none
          | some k => keyOf (parseAuthorizedKey P (t.drop k))

/-- `ParseAuthorizedKeys` (`sign/ssh.go:141-227`): cut off the first line, cut it at a carriage return, trim, look at it, go
on with the rest.  The rest is shorter, so `n` = length rounds suffice. The function never returns an error. -/
def parseAuthorizedKeysLoop (P : Prims) : Nat → Bytes → List PublicKey
  | 0, _ => []
  | n + 1, b =>
    if b = [] then []
    else
      let line := b.takeWhile (· ≠ 10)
      let rest := b.drop (line.length + 1)
      (authLine P (trimSpace (line.takeWhile (· ≠ 13)))).toList ++ parseAuthorizedKeysLoop P n rest

def parseAuthorizedKeys (P : Prims) (b : Bytes) : List PublicKey := parseAuthorizedKeysLoop P b.length b

/-! ### OpenSSH private keys -/

/-- What `pem.Decode` returns: block type, whether it has a `DEK-Info` header, the decoded bytes, and the zero bytes between
length and capacity of that slice (the decoder allocates for the undecoded text). -/
structure PemBlock where
  typ : Bytes
  legacyEncrypted : Bool := false
  bytes : Bytes
  slack : Nat := 0
deriving DecidableEq, Repr

/-- `x[lo:hi]` on a slice of length `x.length` whose capacity is `slack` larger, the extra bytes being zero. -/
def reslice (x : Bytes) (slack hi : Nat) : Res Bytes :=
  if hi ≤ x.length + slack then .ok ((x ++ List.replicate slack 0).take hi) else .panic "slice bounds out of range"

/-- `opensshHeader` (`sign/ssh.go:231-238`). -/
structure SshHeader where
  cipher : Bytes
  kdf : Bytes
  kdfOpts : Bytes
  numKeys : Nat
  pub : Bytes
  priv : Bytes
deriving DecidableEq, Repr

/-- `ssh.Unmarshal(remaining, &w)` (`sign/ssh.go:263`): empty input and left-over bytes are errors. -/
def unmarshalHeader (b : Bytes) : Option SshHeader :=
  if b = [] then none else do
  let (cipher, b) ← parseString b
  let (kdf, b) ← parseString b
  let (kdfOpts, b) ← parseString b
  let (n, b) ← parseUint32 b
  let (pub, b) ← parseString b
  let (priv, b) ← parseString b
  if b = [] then some ⟨cipher, kdf, kdfOpts, n, pub, priv⟩ else none

/-- `opensshKey` (`sign/ssh.go:240-245`): check words, key type, rest. -/
def unmarshalKey (b : Bytes) : Option (Nat × Nat × Bytes × Bytes) :=
  if b = [] then none else do
  let (c1, b) ← parseUint32 b
  let (c2, b) ← parseUint32 b
  let (kt, b) ← parseString b
  some (c1, c2, kt, b)

/-- `opensshED25519` (`sign/ssh.go:247-252`): public key, secret key, comment, padding. -/
def unmarshalEd (b : Bytes) : Option (Bytes × Bytes × Bytes × Bytes) :=
  if b = [] then none else do
  let (pub, b) ← parseString b
  let (priv, b) ← parseString b
  let (comment, b) ← parseString b
  some (pub, priv, comment, b)

/-- The KDF options (`sign/ssh.go:362-369`): salt and rounds. -/
def unmarshalOpts (b : Bytes) : Option (Bytes × Nat) :=
  if b = [] then none else do
  let (salt, b) ← parseString b
  let (rounds, b) ← parseUint32 b
  if b = [] then some (salt, rounds) else none

/-- The padding check (`sign/ssh.go:342-346`): `int(b) != i+1`. -/
def padOk : Bytes → (i : Nat) → Bool
  | [], _ => true
  | b :: t, i => b.toNat == i + 1 && padOk t (i + 1)

/-- The password callback: `none` is a nil function, otherwise what it returns. -/
abbrev GetPw := Option (Except Err Bytes)

/-- Calling the callback; calling a nil function crashes. -/
def callPw : GetPw → Res Bytes
  | none => .panic "nil function call"
  | some (.error e) => .err e
  | some (.ok pw) => .ok pw

/-- `extractBcryptIvBlock` (`sign/ssh.go:358-384`): key and IV. -/
def bcryptIvKey (P : Prims) (pw opts : Bytes) : Res (Bytes × Bytes) :=
  match unmarshalOpts opts with
  | none => .err (.msg "ssh: unmarshal error")
  | some (salt, rounds) =>
    match P.bcryptPbkdf pw salt rounds 48 with
    | none => .err (.msg "bcrypt_pbkdf error")
    | some k => .ok (k.take 32, k.drop 32)

/-- The bytes of the private section (`sign/ssh.go:271-313`), and whether they were encrypted.  `CryptBlocks` panics on a
partial block. -/
def privateSection (P : Prims) (w : SshHeader) (getpw : GetPw) : Res (Bytes × Bool) :=
  if w.kdf = ascii "bcrypt" ∧ w.cipher = ascii "aes256-cbc" then
    (callPw getpw).bind fun pw => (bcryptIvKey P pw w.kdfOpts).bind fun (key, iv) =>
      if w.priv.length % 16 ≠ 0 then .panic "crypto/cipher: input not full blocks"
      else .ok (P.aesCbcDec key iv w.priv, true)
  else if w.kdf = ascii "bcrypt" ∧ w.cipher = ascii "aes256-ctr" then
    (callPw getpw).bind fun pw => (bcryptIvKey P pw w.kdfOpts).bind fun (key, iv) =>
      .ok (P.aesCtr key iv w.priv, true)
  else if w.kdf = ascii "none" ∧ w.cipher = ascii "none" then .ok (w.priv, false)
  else .err (.msg "ssh: unknown Cipher/KDF")

/-- What follows decryption (`sign/ssh.go:315-355`). -/
def openSection (P : Prims) (b : Bytes) (encrypted : Bool) : Res PrivateKey :=
  match unmarshalKey b with
  | none => .err (if encrypted then .incorrectPassword else .msg "ssh: unmarshal error")
  | some (c1, c2, kt, rest) =>
    if c1 ≠ c2 then .err .incorrectPassword
    else if kt = algoEd25519 then
      match unmarshalEd rest with
      | none => .err (.msg "ssh: unmarshal error")
      | some (_, priv, _, pad) =>
        if priv.length ≠ 64 then .err .badLength
        else if !padOk pad 0 then .err .badPadding
        else makePrivateKeyFromBytes P priv
    else .err (.msg "ssh: unhandled key type")

/-- `append([]byte(opensshv1Magic), 0)` (`sign/ssh.go:229,255`). -/
def sshMagic : Bytes := ascii "openssh-key-v1" ++ [0]

/-- `parseOpenSSHPrivateKey` (`sign/ssh.go:254-356`) on a slice with `slack` zero bytes of spare capacity. -/
def parseOpenSSHPrivateKey (P : Prims) (data : Bytes) (slack : Nat) (getpw : GetPw) : Res PrivateKey :=
  (reslice data slack sshMagic.length).bind fun m =>
    if m ≠ sshMagic then .err .badFormat
    else if data.length < sshMagic.length then .panic "slice bounds out of range"
    else
      match unmarshalHeader (data.drop sshMagic.length) with
      | none => .err (.msg "ssh: unmarshal error")
      | some w =>
        if w.numKeys ≠ 1 then .err (.msg "ssh: NumKeys must be 1")
        else (privateSection P w getpw).bind fun (b, enc) => openSection P b enc

/-- `parseSSHPrivateKey` (`sign/ssh.go:41-57`); `pem` is `pem.Decode`. -/
def parseSSHPrivateKey (P : Prims) (pem : Bytes → Option PemBlock) (data : Bytes) (getpw : GetPw) : Res PrivateKey :=
  match pem data with
  | none => .err .noPEM
  | some blk =>
    if blk.legacyEncrypted then .err (.msg "ssh: no support for legacy PEM encrypted keys")
    else if blk.typ = ascii "OPENSSH PRIVATE KEY" then parseOpenSSHPrivateKey P blk.bytes blk.slack getpw
    else .err (.msg "ssh: unsupported key type")

end Sigtool
