import Verif.Props.PrivTexts
import Verif.Props.SshDemo
/-! # Concrete cases for C91 -/

namespace Sigtool.SshDemo
open Sigtool Spec CliDemo MainDemo

/-- Both files of the session with OpenSSH keys are private key texts, the second only with its pass phrase. -/
example : SshPrivate toyPrims plainBlock none (seed ++ pub) ∧ SshPrivate toyPrims lockedBlock (some (.ok pw)) (seed ++ pub) ∧
    ¬ SshPrivate toyPrims lockedBlock (some (.ok (pw ++ [1]))) (seed ++ pub) := by
  have key : ∀ (blk : Bytes) (ask : Option (Except Err Bytes)),
      parseOpenSSHPrivateKey toyPrims blk 2 ask = .ok { sk := seed ++ pub, pub := { pk := (seed ++ pub).drop 32, hash := (toyPrims.sha256 ((seed ++ pub).drop 32)).take 16 } } ↔
        SshPrivate toyPrims blk ask (seed ++ pub) := by
    intro blk ask
    rw [openSSH_iff]
    constructor
    · rintro ⟨s, h1, h2⟩
      simp only [PrivateKey.mk.injEq] at h2
      rw [h2.1]
      exact h1
    · intro h
      exact ⟨_, h, rfl⟩
  rw [← key, ← key, ← key]
  decide +kernel

/-- The file of the session is taken for an OpenSSH key. -/
example : SaysOpenSSH exampleText := exampleText_marker

end Sigtool.SshDemo
