import Verif.Cli
/-!
# Store: saving keys and signatures with the library

The three `Serialize` methods and the file versions of signing and verifying, as a program that uses the package calls them.
-/

namespace Sigtool

/-- `PublicKey.Serialize` (`sign/keys.go:418-425`): the outcome and the file system calls.  `MarshalBinary` fails only if the YAML
library does, which it does not for a struct of strings. -/
def PublicKey.serialize (D : Deps) (fs : FS) (env : SafeEnv) (pk : PublicKey) (fn comment : Bytes) (ovwrite : Bool) :
    Res Unit × List Sys :=
  writeFile fs env 0o644 fn (pk.marshal D.Y comment) ovwrite

/-- `PrivateKey.Serialize` (`sign/keys.go:213-219`); `salt` are the random bytes the call draws. -/
def PrivateKey.serialize (D : Deps) (fs : FS) (env : SafeEnv) (sk : PrivateKey) (fn comment : Bytes) (ovwrite : Bool)
    (pw salt : Bytes) : Res Unit × List Sys :=
  match sk.marshal D.P D.Y comment pw salt with
  | .ok b => writeFile fs env 0o600 fn b ovwrite
  | .err e => (.err e, [])
  | .panic w => (.panic w, [])

/-- `Signature.Serialize` (`sign/sign.go:138-144`). -/
def Signature.serialize (D : Deps) (fs : FS) (env : SafeEnv) (s : Signature) (fn comment : Bytes) (ovwrite : Bool) :
    Res Unit × List Sys :=
  writeFile fs env 0o644 fn (s.marshal D.Y comment) ovwrite

/-- `SignFile` (`sign/sign.go:70-78`, `sign/iomisc.go:46-67`) on a named file; `mapErr` is a failure to map it into memory. -/
def signNamed (D : Deps) (fs : FS) (mapErr : Option Err) (sk : PrivateKey) (fn : Path) : Res Signature :=
  (readFile fs fn).bind fun content =>
    match mapErr with
    | some e => .err e
    | none => signFile D.P sk content

/-- `VerifyFile` (`sign/sign.go:155-162`, `sign/iomisc.go:46-67`) on a named file. -/
def verifyNamed (D : Deps) (fs : FS) (mapErr : Option Err) (pk : PublicKey) (fn : Path) (s : Signature) : Res Bool :=
  (readFile fs fn).bind fun content =>
    match mapErr with
    | some e => .err e
    | none => verifyFile D.P pk content s

/-- What can be saved: a public key, a private key under a pass phrase, a signature. -/
inductive Saved where
  | pub (pk : PublicKey)
  | priv (sk : PrivateKey) (pw : Bytes)
  | sig (s : Signature)

/-- A call of `Serialize`, with the random bytes it draws and what the operating system does. -/
structure SaveCall where
  what : Saved
  name : Path
  comment : Bytes
  ovwrite : Bool
  salt : Bytes
  env : SafeEnv

/-- The call. -/
def SaveCall.run (D : Deps) (fs : FS) (c : SaveCall) : Res Unit × List Sys :=
  match c.what with
  | .pub pk => pk.serialize D fs c.env c.name c.comment c.ovwrite
  | .priv sk pw => sk.serialize D fs c.env c.name c.comment c.ovwrite pw c.salt
  | .sig s => s.serialize D fs c.env c.name c.comment c.ovwrite

end Sigtool
