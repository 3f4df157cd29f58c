import Verif.Props.Tampered
import Verif.Props.StandardsDemo
/-!
# A concrete key file for C122
-/

namespace Sigtool
open Spec

namespace StandardDemo

/-- Every seed, pass phrase and change: a file of `ssh-keygen`, the changed file, and what C122 says about them. -/
example (Y : Yaml) (seed pw delta : Bytes) (hs : seed.length = 32) (hpw : pw ≠ []) (hd : delta.length = 32) (hd0 : ∃ x ∈ delta, x ≠ 0) :
    ∃ text text' sk sk', makePrivateKey stdPrims Y Pem.decode text (some (.ok pw)) = .ok sk ∧ sk.sk = seed ++ stdPrims.edPub seed ∧
      makePrivateKey stdPrims Y Pem.decode text' (some (.ok pw)) = .ok sk' ∧ sk'.sk ≠ sk.sk := by
  have hp := (C105_laws stdPrims standard).ed_pub_len seed hs
  have hk : ("ssh-ed25519".toUTF8.toList).length = 11 := by decide +kernel
  have hb : ("bcrypt".toUTF8.toList).length = 6 := by decide +kernel
  have hc : SshCipher.ctr.name.length = 10 := by decide +kernel
  have hl : (sshPrivateSection 77 77 "ssh-ed25519".toUTF8.toList (stdPrims.edPub seed) (seed ++ stdPrims.edPub seed) (ascii "me")
      [1, 2, 3, 4, 5, 6, 7, 8, 9, 10, 11]).length = 144 := by
    rw [sshPrivateSection_length, List.length_append, hp, hs, hk]; rfl
  have ht : ∀ raw, ∃ text, SshKeyText raw text := fun raw => ⟨_, [Base64.encode raw], by simp, by simp, rfl⟩
  have hg : GoodPadding [1, 2, 3, 4, 5, 6, 7, 8, 9, 10, 11] := by unfold GoodPadding; decide
  have ho : (kdfOptions (List.replicate 16 5) 16).length = 24 := by decide +kernel
  have hbl : (sshPublicBlob (stdPrims.edPub seed)).length < 1000 := by
    simp only [sshPublicBlob, List.length_append, sshString_length, hp, hk]; omega
  generalize hct : sshEncrypt .ctr ((toyHash 48 (pw ++ List.replicate 16 5)).take 32) ((toyHash 48 (pw ++ List.replicate 16 5)).drop 32)
    (sshPrivateSection 77 77 "ssh-ed25519".toUTF8.toList (stdPrims.edPub seed) (seed ++ stdPrims.edPub seed) (ascii "me")
      [1, 2, 3, 4, 5, 6, 7, 8, 9, 10, 11]) = ct
  obtain ⟨text, h⟩ := ht (sshPrivateFile SshCipher.ctr.name "bcrypt".toUTF8.toList (kdfOptions (List.replicate 16 5) 16) 1 (sshPublicBlob (stdPrims.edPub seed)) ct)
  obtain ⟨text', h'⟩ := ht (sshPrivateFile SshCipher.ctr.name "bcrypt".toUTF8.toList (kdfOptions (List.replicate 16 5) 16) 1 (sshPublicBlob (stdPrims.edPub seed))
    (flipAt publicHalf delta ct))
  have hbc : stdPrims.bcryptPbkdf pw (List.replicate 16 5) 16 48 = some (toyHash 48 (pw ++ List.replicate 16 5)) := by
    show (if 16 < 1 ∨ pw = [] ∨ List.replicate 16 (5 : UInt8) = [] then _ else _) = _
    rw [if_neg (by simp [hpw])]
  obtain ⟨sk, sk', g1, g2, g3, g4, g5⟩ := C122_tampered_refuted ⟨stdPrims, Y, Pem.decode⟩ standard rfl seed pw (List.replicate 16 5)
    (sshPublicBlob (stdPrims.edPub seed)) (stdPrims.edPub seed) _ (ascii "me") [1, 2, 3, 4, 5, 6, 7, 8, 9, 10, 11] text 16 77 hs hp (by decide) hg
    (by decide) hbc (by rw [hl]) (by rw [sshPrivateFile_length, hl, hc, hb, ho]; omega) ct hct.symm h delta text' hd h'
  refine ⟨text, text', sk, sk', g1, g2, g3, ?_⟩
  rw [g2, g4]
  intro e
  replace e := List.append_cancel_left e
  obtain ⟨x, hx, h0⟩ := hd0
  dsimp only at e
  generalize stdPrims.edPub seed = q at *
  clear g1 g2 g3 g4 g5 h h' hct hl hbl hbc hg ho hb hc hk ht hs hpw
  have hlen : delta.length ≤ q.length := by omega
  clear hp hd
  induction q generalizing delta with
  | nil => cases delta with
    | nil => cases hx
    | cons => simp at hlen
  | cons a q ih => cases delta with
    | nil => cases hx
    | cons d delta =>
      have e' : (a ^^^ d) :: xorBytes q delta = a :: q := e
      injection e' with e1 e2
      rcases List.mem_cons.mp hx with rfl | hx
      · apply h0
        have := congrArg (a ^^^ ·) e1
        simpa [← UInt8.xor_assoc] using this
      · exact ih delta hx e2 (by simpa using hlen)

end StandardDemo
end Sigtool
