import Verif.Spec.Symbolic
/-!
# Spec.SymbolicHelp: an attacker for whom recipients decrypt
-/

namespace Sigtool.Spec.Symbolic

/-- What person `i` cuts key and nonce from that open a wrapped root key in a header with the ephemeral key `epk` and the salt `salt`;
`nonce` are the random bytes beside the wrapped key. -/
def unwrapKeys (i : Nat) (epk salt nonce : Term) : Term :=
  .hkdf (.mul (.clamp (.take 32 (.sha512 (seed i)))) epk) (.sha256 (.cat salt nonce)) (ascii "Receiver Key") 44

/-- `m` is what person `i` gets out of a chunk of a file with the header `h`, ephemeral key `epk` and salt `salt`. The file is made of
terms in `K`: the root key `r`, whatever it is, is wrapped for `i`, and a chunk is sealed with the data key that belongs to `r` and `h`.
Neither the rest of the file nor the sender must be in order. Nobody decrypts a file with a header in `refused`. -/
inductive Decrypted (K refused : Term → Prop) : Term → Prop
  | chunk (i : Nat) (h epk salt nonce r n m ad : Term) : ¬ refused h → K h → K epk → K salt → K nonce →
      K (.box (.take 32 (unwrapKeys i epk salt nonce)) (.drop 32 (unwrapKeys i epk salt nonce)) r (.edPub (seed i))) →
      K (.box (.take 32 (.drop 12 (.hkdf r (.sha256 h) (ascii "Data Key Expansion") 76))) n m ad) → Decrypted K refused m

/-- The attacker of `Start`, after `k` rounds in which everyone has decrypted for him all files he could compute - except that nobody
decrypts anything with the header of a file not in `asked`. -/
def After (files : Nat → File) (corrupt told asked : Nat → Prop) : Nat → Term → Prop
  | 0 => Start files corrupt told
  | k + 1 => fun t => After files corrupt told asked k t ∨
      Decrypted (Knows (After files corrupt told asked k)) (fun h => ∃ n, ¬ asked n ∧ Eqv h (header n (files n))) t

end Sigtool.Spec.Symbolic
