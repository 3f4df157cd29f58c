import Verif.Props.Crash
import Verif.Props.SuccessDemo
/-!
# C93: exit codes; concrete crashes
-/

namespace Sigtool
open Spec

theorem exitOf_le (r : Res Nat) (h : ∀ n, r = .ok n → n = 0) : exitOf r ≤ 2 := by
  cases r with
  | ok n => rw [h n rfl]; simp [exitOf]
  | err x => simp [exitOf]
  | panic x => simp [exitOf]

theorem withOutput_le (fs : FS) (env : SafeEnv) (perm : Nat) (stdout : Writer) (outfile : Path) (force : Bool)
    (body : Writer → Res Nat × Writer) (h : ∀ w, exitOf (body w).1 ≤ 2) : (withOutput fs env perm stdout outfile force body).exit ≤ 2 := by
  unfold withOutput
  split
  · exact h stdout
  · split
    · simp
    · simp
    · exact h _

theorem decryptBody_le (P : Prims) (rd : Reader) (sk : PrivateKey) (pk : Option PublicKey) (w : Writer) :
    exitOf (decryptBody P rd sk pk w).1 ≤ 2 := by
  unfold decryptBody
  repeat' split
  all_goals simp [exitOf]

theorem encryptBody_le (D : Deps) (fs : FS) (pka : List PublicKey) (sk : Option PrivateKey) (blk : Nat) (c : EncCoins)
    (rcpts : List (Bytes × Bytes)) (rd : Reader) (coin : Bytes) (w : Writer) :
    exitOf (encryptBody D fs pka sk blk c rcpts rd coin w).1 ≤ 2 := by
  unfold encryptBody
  repeat' split
  all_goals simp [exitOf]

/-- **C93** (exit codes).  The exit code is 0, 1 or 2; it is 2 if the options of the program do not parse. -/
theorem C93_codes (W : World) (argv : List Bytes) : (W.main argv).exit ≤ 2 ∧ (W.flags.top argv = .bad → (W.main argv).exit = 2) := by
  refine ⟨?_, fun h => by unfold World.main; rw [h]⟩
  have g : ∀ a, (W.gen a).exit ≤ 2 := by
    intro a
    unfold World.gen genCmd
    repeat' (first | split | dsimp only)
    all_goals simp
  have s : ∀ a, (W.sign a).exit ≤ 2 := by
    intro a
    unfold World.sign signCmd
    repeat' (first | split | dsimp only)
    all_goals simp
  have v : ∀ a, (W.verify a).exit ≤ 2 := by
    intro a
    unfold World.verify
    split
    · simp
    · simp
    · exact (C48_crash_iff W.D W.fs W.mapErr _).1
  have e : ∀ a, (W.encrypt a).exit ≤ 2 := by
    intro a
    unfold World.encrypt encryptCmd
    repeat' (first | split | dsimp only)
    all_goals first | exact withOutput_le _ _ _ _ _ _ _ (fun w => encryptBody_le _ _ _ _ _ _ _ _ _ _) | simp
  have d : ∀ a, (W.decrypt a).exit ≤ 2 := by
    intro a
    unfold World.decrypt decryptCmd
    repeat' (first | split | dsimp only)
    all_goals first | exact withOutput_le _ _ _ _ _ _ _ (fun w => decryptBody_le _ _ _ _ _) | exact decryptBody_le _ _ _ _ _ | simp
  unfold World.main
  split
  · simp
  · simp
  · split
    · simp
    · split
      · simp
      · split
        · simp
        · split
          · simp
          · split
            · simp
            · rename_i f hf
              unfold World.dispatch at hf
              repeat' (first | split at hf)
              all_goals cases hf
              all_goals first | exact g _ | exact s _ | exact v _ | exact e _ | exact d _ | simp

end Sigtool

namespace Sigtool.CrashDemo
open Sigtool Spec CliDemo MainDemo

/-- An RSA key line of OpenSSH: type, key, comment. -/
def rsa : Bytes := ascii "ssh-rsa " ++ Base64.encode (sshString (ascii "ssh-rsa") ++ [0, 0, 0, 1, 3]) ++ ascii " bob@x"

/-- A sigtool key file without `p: 1`. -/
def noP : Bytes := ascii "esk: AAAA\nsalt: AAAAAAAAAAAAAAAAAAAA\nalgo: scrypt-sha256\nZ: 524288\nr: 8\n"

def fs : FS where
  dir := fun p => if p = ascii "in" then some (.file 0) else if p = ascii "rsa.pub" then some (.file 10)
    else if p = ascii "bad.key" then some (.file 11) else if p = ascii "in.sig" then some (.file 12) else none
  data := fun i => if i = 10 then rsa else if i = 11 then noP else if i = 12 then (fs2.read (ascii "in.sig")).getD [] else []

def W : World := { world fs "t5" "t6" 5 6 ⟨[], .eof, false⟩ with flags := flags2 }

/-- C93: `verify rsa.pub in.sig in` and `verify <RSA key as text> in.sig in` crash; so do `sign bad.key rsa.pub`,
`encrypt -s bad.key rsa.pub in`, `encrypt rsa.pub in` and `decrypt bad.key`. -/
example : (W.main [ascii "v", ascii "rsa.pub", ascii "in.sig", ascii "in"]).exit = 2 ∧
    (W.main [ascii "v", Base64.encode (sshString (ascii "ssh-rsa") ++ [0, 0, 0, 1, 3]), ascii "in.sig", ascii "in"]).exit = 2 ∧
    (World.main { W with askpass := .ok pw } [ascii "s", ascii "bad.key", ascii "rsa.pub"]).exit = 2 ∧
    (W.main [ascii "e", ascii "-s", ascii "bad.key", ascii "rsa.pub", ascii "in"]).exit = 2 ∧
    (W.main [ascii "e", ascii "-s", [], ascii "rsa.pub", ascii "in"]).exit = 2 ∧
    (W.main [ascii "d", ascii "-v", ascii "rsa.pub", ascii "bad.key"]).exit = 2 := by decide +kernel

/-- The hypotheses of `C93_decrypt` are met by the last of these, and its characterisation says why. -/
example : PrivateCrash W false (ascii "PW") (ascii "bad.key") := by
  obtain ⟨key, more, h, h1⟩ := (C93_decrypt W toyLaws commands.reverse_perm [ascii "d", ascii "-v", ascii "rsa.pub", ascii "bad.key"]
    [ascii "-v", ascii "rsa.pub", ascii "bad.key"] [ascii "bad.key"]
    ⟨{}, ascii "d", rfl, rfl, rfl, by decide +kernel, by decide +kernel, by decide +kernel⟩ { sender := ascii "rsa.pub", envpw := ascii "PW" } rfl).mp
    (by decide +kernel)
  cases h
  rcases h1 with h1 | ⟨⟨s, hs⟩, _⟩
  · exact h1
  · obtain ⟨b, hb1, hb2⟩ := (privateFile_iff W false (ascii "PW") (ascii "bad.key") _).mpr ⟨s, hs, rfl⟩
    have h2 := (readPrivateKey_ok _ _ _ _ _).mpr ⟨b, hb1, hb2⟩
    have h3 : (readPrivateKey W.D W.fs (ascii "bad.key") (W.getpw false (ascii "PW"))).isPanic = true := by decide +kernel
    rw [h2] at h3; cases h3

/-- The same for `verify`. -/
example : PublicCrash W (ascii "rsa.pub") := by
  obtain ⟨pn, sn, fn, more, h, h1⟩ := (C93_verify W commands.reverse_perm [ascii "v", ascii "rsa.pub", ascii "in.sig", ascii "in"] _ _
    ⟨{}, ascii "v", rfl, rfl, rfl, by decide +kernel, by decide +kernel, by decide +kernel⟩ rfl).mp (by decide +kernel)
  cases h
  rcases h1 with ⟨h1, _⟩ | ⟨_, _, h1⟩
  · have h2 := (C90_public_string W.D.P (ascii "rsa.pub")).2.1.mpr h1
    have h3 : ¬ makePublicKeyFromString W.D.P (ascii "rsa.pub") = .ok none := by
      intro h
      have : (match makePublicKeyFromString W.D.P (ascii "rsa.pub") with | .ok none => true | _ => false) = false := by decide +kernel
      rw [h] at this; cases this
    exact absurd h2 h3
  · exact h1

end Sigtool.CrashDemo
