import Verif.Spec.Program
import Verif.Spec.Sign
/-!
# Spec.Perm: who may read the files a run creates
-/

namespace Sigtool.Spec

/-- The group or others have some permission on the file. -/
def Exposed (fs : FS) (i : Nat) : Prop := fs.mode i % 64 ≠ 0

/-- What a run may show to everybody: the text of the new public key (`generate`), the text of the new signature (`sign`). -/
inductive PublicText (W : World) (argv : List Bytes) : Bytes → Prop
  | pub (rest o bn more) : Runs W argv "generate" rest → W.flags.gen rest = .ok o (bn :: more) →
      PublicText W argv ((newPrivateKey W.D.P W.seed).pub.marshal W.D.Y o.comment)
  | sig (rest o kn fn more b sk content) : Runs W argv "sign" rest → W.flags.sign rest = .ok o (kn :: fn :: more) →
      W.fs.read kn = some b → makePrivateKey W.D.P W.D.Y W.D.pem b (W.getpw o.nopw o.envpw) = .ok sk → W.fs.read fn = some content →
      PublicText W argv (Signature.marshal W.D.Y
        ⟨W.D.P.edSign sk.sk (W.D.P.sha512 (messageInput (W.D.P.sha512 (fileInput content)))), sk.pub.hash⟩ (ascii "input=" ++ fn))

end Sigtool.Spec
