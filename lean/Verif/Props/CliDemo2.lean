import Verif.Props.CliDemo
import Verif.Props.CliComplete
/-!
# The concrete session again: C78 and C79
-/

namespace Sigtool.CliDemo
open Sigtool Spec

theorem env_noFault (name : String) (i : Nat) : NoFault (env name i) := ⟨by simp [env], rfl, rfl, rfl⟩

/-- C79: the hypotheses of `C79_generate_succeeds` are met by the run of the session. -/
example : (genCmd D fs0 (env "t1" 1) (env "t2" 2) false k [] (.ok pw) seed salt).exit = 0 :=
  C79_generate_succeeds D toyLaws fs0 _ _ false k [] pw seed salt gen_env ⟨rfl, .inl (by decide +kernel)⟩
    ⟨rfl, .inl (by decide +kernel)⟩ (env_noFault _ _) (env_noFault _ _)

/-- C79: `sign` in the session meets the right side of `C79_sign_iff`. -/
example : (sigTarget [] (ascii "in") = ascii "-" ∨ CanCreate fs1 (env "t3" 3) (sigTarget [] (ascii "in")) false) ∧
      (∃ b sk, fs1.read (keyName k) = some b ∧ makePrivateKey D.P D.Y D.pem b (some (.ok pw)) = .ok sk) ∧
      (∃ content, fs1.read (ascii "in") = some content) ∧ (none : Option Err) = none :=
  (C79_sign_iff D fs1 (env "t3" 3) {} [] false (some (.ok pw)) none (keyName k) (ascii "in")).mp (by decide +kernel)

/-- C79: without a sender, for the generated key. -/
example : (encryptCmd D fs1 (env "t5" 5) {} (ascii "out") false [] none (some 4) (some (ascii "auth"))
    [(pubName k, List.replicate 12 5)] (ascii "in") ⟨[plain], .eof, true⟩ coins coin).exit = 0 := by
  obtain ⟨pw', sk, pk, _, _, h3, _, _, h6, _, _⟩ := C49_pair_loads D toyLaws toyYaml_laws fs0 (env "t1" 1) (env "t2" 2) false k []
    (toyYaml_reads _) (.inl rfl) (.ok pw) seed salt (by decide) (by decide) gen_env gen_exit
  refine C79_encrypt_succeeds D toyLaws fs1 (env "t5" 5) {} (ascii "out") false [] none 4 (ascii "auth") _ (ascii "in") _ coins coin
    none (.inl ⟨rfl, rfl⟩) (by intro s h; cases h) (by simp) ?_ (.inr (by decide +kernel)) (.inr ⟨authText, by decide +kernel⟩) rfl
    (by constructor <;> rfl) (.inr ⟨by decide +kernel, rfl, by simp [env], .inl (by decide +kernel)⟩) ?_
  · intro r hr
    simp only [List.mem_singleton] at hr
    subst hr
    refine ⟨pk, ?_, seed, by decide, h6⟩
    refine .inr ⟨fun h => absurd h.1 (by decide +kernel), ?_⟩
    exact (readPublicKey_ok _ _ _ _).mp h3
  · rw [if_neg (by decide +kernel)]
    exact ⟨rfl, rfl, rfl⟩

/-- C78: the hypothesis for the decryption of the session; so `--test` exits with 0 as `decrypt` does. -/
example : GoodOutput fs3 (env "t6" 6) {} (ascii "out2") false :=
  .inr ⟨by decide +kernel, rfl, by simp [env], .inl (by decide +kernel)⟩

/-- C78: a file that is there: `decrypt` refuses, `--test` does not. -/
example : (decryptCmd D fs3 (env "t6" 6) {} (ascii "out") false true (keyName k) (some (.ok pw)) (pubName k) (ascii "out")
    ⟨[(fs3.read (ascii "out")).getD []], .eof, false⟩).exit = 0 ∧ (dec false none (ascii "out")).exit = 1 := by decide +kernel

end Sigtool.CliDemo
