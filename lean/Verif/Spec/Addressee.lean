import Verif.Spec.Edwards
/-!
# Specification for C121: a recipient who does not exist
-/

namespace Sigtool.Spec

/-- The encoding of the point `(-x, -y)` where `(x, y)` is the base point, that is, the base point plus the
point of order two.  It is a point of the curve but no multiple of the base point, so that no seed has it as its public key. -/
def nobodysKey : Bytes := 0x95 :: List.replicate 31 0x99

end Sigtool.Spec
