import Verif.Props.Perm
import Verif.Props.MainDemo
/-! # C83 on a concrete run -/

namespace Sigtool.MainDemo
open Sigtool Spec CliDemo

/-- C83: `generate` in the small world.  When it is done, the file of the public key is exposed and holds its text; the file of the
private key is not; nor is the temporary file in the middle of the run, when it holds a part of the private key. -/
example : Exposed (fs0.run (G.main gv).sys) 2 ∧ ¬ Exposed (fs0.run (G.main gv).sys) 1 ∧ (fs0.run (G.main gv).sys).data 1 ≠ [] ∧
    ¬ Exposed (fs0.run ((G.main gv).sys.take 20)) 1 ∧ ((fs0.run ((G.main gv).sys.take 20)).data 1).length = 19 := by
  unfold Exposed
  decide +kernel

example (pre : List Sys) (hpre : pre <+: (G.main gv).sys) (h : Exposed (fs0.run pre) 2) :
    (fs0.run pre).data 2 = [] ∨ ∃ t, PublicText G gv t ∧ (fs0.run pre).data 2 <+: t := by
  rcases C83_private G gv gNormal pre hpre 2 h with ⟨h, _⟩ | h | h
  · exact absurd rfl h
  · exact .inl h
  · exact .inr h

/-- An existing `.key` file that everybody may read is replaced by one that only its owner may read. -/
def fsOld : FS where
  dir := fun p => if p = keyName k then some (.file 0) else none
  data := fun _ => [1, 2, 3]
  mode := fun _ => 0o644

example : Exposed fsOld 0 ∧ (genCmd D fsOld (env "t1" 1) (env "t2" 2) true k [] (.ok pw) seed salt).exit = 0 ∧
    (fsOld.run (genCmd D fsOld (env "t1" 1) (env "t2" 2) true k [] (.ok pw) seed salt).sys).dir (keyName k) = some (.file 1) ∧
    (fsOld.run (genCmd D fsOld (env "t1" 1) (env "t2" 2) true k [] (.ok pw) seed salt).sys).mode 1 = 0o600 := by
  unfold Exposed
  decide +kernel

/-- C83: the output of `decrypt` and `encrypt`. -/
example : (fs4.run (X.main xv).sys).dir (ascii "plain") = some (.file 7) ∧ (fs4.run (X.main xv).sys).data 7 = plain ∧
    ¬ Exposed (fs4.run (X.main xv).sys) 7 := by
  unfold Exposed
  decide +kernel

end Sigtool.MainDemo
