import Verif.Props.GenNames
import Verif.Props.TestScriptDemo
/-!
# A concrete run for C114: `sigtool g -E FOO ./x/../k/`
-/

namespace Sigtool.GenNamesDemo
open Sigtool Spec CliDemo CommandLinesDemo TestScriptDemo

def W : World := { TestScriptDemo.W 0 with clean := GoPath.clean }
def name : Bytes := ascii "./x/../k/"
def argv : List Bytes := [word "g", word "-E", word "FOO", name]

theorem runs : Runs W argv "generate" [word "-E", word "FOO", name] :=
  runs_letter (W := W) rfl (fun _ _ => rfl) "g" _ (by decide) _

theorem line : W.flags.gen [word "-E", word "FOO", name] = .ok { envpw := word "FOO" } [name] :=
  gen_script name (by unfold Plain; decide +kernel)

theorem normal : Normal W argv where
  fresh1 := fresh_at 0 (by decide) _ _ (unused1 0)
  fresh2 := fresh_at 0 (by decide) _ _ (unused2 0)
  tmp := (tmp_ne 0 0).symm
  inode := by decide
  out := by
    intro p hp
    have hp := out_gen runs line hp
    have e : W.clean name = ascii "k" := by show GoPath.clean name = _; decide +kernel
    rw [e] at hp
    rcases hp with rfl | rfl <;> exact ⟨by show _ ≠ tmp1 0; decide +kernel, by show _ ≠ tmp2 0; decide +kernel⟩
  order := by exact commands.reverse_perm
  coins := ⟨rfl, rfl, rfl⟩
  coin := rfl

/-- The program exits with 0 and writes `k.key` and `k.pub`. -/
example : (W.main argv).exit = 0 ∧ (∃ b, (W.fs.run (W.main argv).sys).read (ascii "k.pub") = some b) ∧
    (∀ q, q = ascii "k" ↔ Direct q ∧ SamePlace q name) := by
  refine ⟨by decide +kernel, ?_, ?_⟩
  · obtain ⟨B, h1, h2, _⟩ := C114_generate W rfl argv _ _ _ name normal runs line
    have hB : B = ascii "k" := by
      have := (C114_clean name B).mpr ((h1 B).mp rfl)
      rw [this]; decide +kernel
    obtain ⟨_, _, _, _, _, h, _⟩ := h2 (by decide +kernel)
    rw [hB, show ascii "k" ++ ascii ".pub" = ascii "k.pub" by decide +kernel] at h
    exact ⟨_, h⟩
  · have := C114_clean name
    rwa [show GoPath.clean name = ascii "k" by decide +kernel] at this

end Sigtool.GenNamesDemo
