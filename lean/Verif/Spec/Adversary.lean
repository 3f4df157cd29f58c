import Verif.Spec.Container
/-!
# Spec.Adversary: what counts as breaking the AEAD, independent of the code
-/

namespace Sigtool.Spec

/-- An AEAD forgery inside `body`: a four-byte length word `w` and directly after it a ciphertext `ct` that opens under
`key` with block number `i` in the nonce and `w` as additional data, although chunk number `i` that the sender sealed
(`chunks`, the final one marked as last) is not that plaintext with that length word. -/
def ChunkForgery (P : Prims) (key nonce : Bytes) (chunks : List Bytes) (body : Bytes) : Prop :=
  ∃ (i : Nat) (w ct pt : Bytes), i < 2^32 ∧ w.length = 4 ∧ w ++ ct <:+: body ∧
    P.aeadOpen key (be32 i ++ nonce.drop 4) ct w = some pt ∧
    ¬ (chunks[i]? = some pt ∧ w = lengthWord pt.length (decide (i + 1 = chunks.length)))

end Sigtool.Spec
