import Verif.Decrypt
/-!
# Specification for C119: a program that tries one key after another on one `Decryptor`
-/

namespace Sigtool.Spec
open Sigtool

/-- `d` is what `d0` has become after any number of calls `SetPrivateKey(sk, spk)`, with any keys, none of which returned
nil (each returned an error, or panicked and the program recovered). -/
inductive Refused (P : Prims) (d0 : Decryptor) : Decryptor → Prop where
  | start : Refused P d0 d0
  | call {d d' : Decryptor} {r : Res Unit} (sk : PrivateKey) (spk : Option PublicKey) (h : Refused P d0 d)
      (hcall : d.setPrivateKey P sk spk = (r, d')) (hno : r ≠ .ok ()) : Refused P d0 d'

/-- `d` is what `d0` has become after any number of calls `SetPrivateKey(sk, spk)`, with any keys, whatever they
returned. -/
inductive Tried (P : Prims) (d0 : Decryptor) : Decryptor → Prop where
  | start : Tried P d0 d0
  | call {d d' : Decryptor} {r : Res Unit} (sk : PrivateKey) (spk : Option PublicKey) (h : Tried P d0 d)
      (hcall : d.setPrivateKey P sk spk = (r, d')) : Tried P d0 d'

end Sigtool.Spec
