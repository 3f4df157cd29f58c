import Verif.Spec.Store
/-! # Spec: files of one kind given to the reader of another -/

namespace Sigtool.Spec

/-- How the YAML library reads a document written for one struct into another: the entry that both have, the comment, is taken,
entries without a field are skipped, fields without an entry stay empty. -/
structure SkipsEntries (Y : Yaml) (comment : Bytes) : Prop where
  privPub : ∀ a b : Bytes, Y.readPriv (Y.pubText ⟨comment, Base64.encode a, Base64.encode b⟩) = some { comment := comment }
  privSig : ∀ a b : Bytes, Y.readPriv (Y.sigText ⟨comment, Base64.encode a, Base64.encode b⟩) = some { comment := comment }
  pubPriv : ∀ a b : Bytes, Y.readPub (Y.privText comment (Base64.encode a) (Base64.encode b)) = some { comment := comment }
  pubSig : ∀ a b : Bytes, Y.readPub (Y.sigText ⟨comment, Base64.encode a, Base64.encode b⟩) = some { comment := comment }
  sigPriv : ∀ a b : Bytes, Y.readSig (Y.privText comment (Base64.encode a) (Base64.encode b)) = some { comment := comment }
  sigPub : ∀ a b : Bytes, Y.readSig (Y.pubText ⟨comment, Base64.encode a, Base64.encode b⟩) = some { comment := comment }

/-- The kinds of files. -/
inductive Kind where
  | pub
  | priv
  | sig
deriving DecidableEq

/-- The kind of what was saved. -/
def Saved.kind : Saved → Kind
  | .pub _ => .pub
  | .priv _ _ => .priv
  | .sig _ => .sig

/-- A signature as this package makes them: 64 bytes, with a 16-byte key hash. -/
def Proportioned : Saved → Prop
  | .sig s => s.sig.length = 64 ∧ s.pkhash.length = 16
  | _ => True

end Sigtool.Spec
