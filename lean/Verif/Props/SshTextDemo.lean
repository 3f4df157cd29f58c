import Verif.Props.SshText
import Verif.Props.StandardsDemo
/-!
# Concrete key files for C110
-/

namespace Sigtool
open Spec

namespace StandardDemo

/-- Every seed has key files, without and with a pass phrase, in both modes. -/
example (seed pw : Bytes) (hs : seed.length = 32) (hpw : pw ≠ []) (c : SshCipher) :
    (∃ text, SshKeyFile stdPrims seed none text) ∧ ∃ text, SshKeyFile stdPrims seed (some pw) text := by
  have hp := (C105_laws stdPrims standard).ed_pub_len seed hs
  have hk : ("ssh-ed25519".toUTF8.toList).length = 11 := by decide +kernel
  have hb : ("bcrypt".toUTF8.toList).length = 6 := by decide +kernel
  have hn : ("none".toUTF8.toList).length = 4 := by decide +kernel
  have hc : c.name.length = 10 := by cases c <;> decide +kernel
  have hl : (sshPrivateSection 77 77 "ssh-ed25519".toUTF8.toList (stdPrims.edPub seed) (seed ++ stdPrims.edPub seed) (ascii "me")
      [1, 2, 3, 4, 5, 6, 7, 8, 9, 10, 11]).length = 144 := by
    rw [sshPrivateSection_length, List.length_append, hp, hs, hk]; rfl
  have ht : ∀ raw, ∃ text, SshKeyText raw text := fun raw => ⟨_, [Base64.encode raw], by simp, by simp, rfl⟩
  have hg : GoodPadding [1, 2, 3, 4, 5, 6, 7, 8, 9, 10, 11] := by unfold GoodPadding; decide
  obtain ⟨text, h⟩ := ht (sshPrivateFile "none".toUTF8.toList "none".toUTF8.toList [] 1 (sshPublicBlob (stdPrims.edPub seed))
    (sshPrivateSection 77 77 "ssh-ed25519".toUTF8.toList (stdPrims.edPub seed) (seed ++ stdPrims.edPub seed) (ascii "me")
      [1, 2, 3, 4, 5, 6, 7, 8, 9, 10, 11]))
  obtain ⟨text', h'⟩ := ht (sshPrivateFile c.name "bcrypt".toUTF8.toList (kdfOptions (List.replicate 16 5) 16) 1 (sshPublicBlob (stdPrims.edPub seed))
    (sshEncrypt c ((toyHash 48 (pw ++ List.replicate 16 5)).take 32) ((toyHash 48 (pw ++ List.replicate 16 5)).drop 32)
    (sshPrivateSection 77 77 "ssh-ed25519".toUTF8.toList (stdPrims.edPub seed) (seed ++ stdPrims.edPub seed) (ascii "me")
      [1, 2, 3, 4, 5, 6, 7, 8, 9, 10, 11])))
  have hbl : (sshPublicBlob (stdPrims.edPub seed)).length < 1000 := by
    simp only [sshPublicBlob, List.length_append, sshString_length, hp, hk]; omega
  have ho : (kdfOptions (List.replicate 16 5) 16).length = 24 := by decide +kernel
  refine ⟨⟨text, .plain text _ _ _ _ 77 (by decide) hg ?_ h⟩, text', .locked text' pw c _ 16 _ _ _ _ _ 77 (by decide) hg (by decide) ?_ ?_ ?_ h'⟩
  · rw [sshPrivateFile_length, hl, hn, List.length_nil]; omega
  · show (if 16 < 1 ∨ pw = [] ∨ List.replicate 16 (5 : UInt8) = [] then _ else _) = _
    rw [if_neg (by simp [hpw])]
  · rw [hl]
  · rw [sshPrivateFile_length, hl, hc, hb, ho]; omega

end StandardDemo
end Sigtool
