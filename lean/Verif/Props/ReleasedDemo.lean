import Verif.Props.Released
import Verif.Props.SuccessDemo
/-!
# C138: concrete cases
-/

namespace Sigtool.ReleasedDemo
open Sigtool Spec CliDemo MainDemo SuccessDemo

/-- A run that has put something to standard output is not silent. -/
theorem loud {fs : FS} {o : Outcome} (h : o.stdout ≠ []) : ¬ Silent fs o := fun k => h k.1

/-- The container that reaches `decrypt` has lost its last ten bytes. -/
def X : World := { SshDemo.X with stdin := ⟨[(SshDemo.X.stdin.content).take (SshDemo.X.stdin.content.length - 10)], .eof, false⟩ }

theorem xRuns' : Runs X SshDemo.xv "decrypt" [ascii "-v", ascii "id.pub", ascii "id"] :=
  ⟨{}, ascii "dec", rfl, rfl, rfl, by decide +kernel, by decide +kernel, by decide +kernel⟩

/-- `decrypt` fails, but part of the plaintext has left it. -/
theorem xHalf : (X.main SshDemo.xv).exit = 1 ∧ (X.main SshDemo.xv).stdout ≠ [] ∧ (X.main SshDemo.xv).sys = [] := by decide +kernel

/-- C138 `decrypt`, a failed run. -/
example : ∃ secret spk, PrivateFile X false (ascii "PW") (ascii "id") secret ∧ NamedSender X (ascii "id.pub") spk ∧
    Released X.D.P X.stdin.content (privateOf X.D.P secret) spk (X.main SshDemo.xv).stdout := by
  rcases C138_decrypt X toyLaws (by exact commands.reverse_perm) SshDemo.xv _ [ascii "id"] xRuns'
    { sender := ascii "id.pub", envpw := ascii "PW" } rfl rfl with h | ⟨key, rd, secret, spk, h1, h2, h3, h4, _⟩
  · exact absurd h (loud xHalf.2.1)
  · cases h1
    exact ⟨secret, spk, h2, h3, h4.resolve_left xHalf.2.1⟩

/-- C138 `encrypt`. -/
example : ∃ names infile rd blk users sender, [ascii "bob@x", ascii "-"] = names ++ [infile] ∧ Input SshDemo.E infile rd ∧
    PartOf SshDemo.E blk users sender names rd.content (SshDemo.E.main SshDemo.ev).stdout := by
  have hne : (SshDemo.E.main SshDemo.ev).stdout ≠ [] := by decide +kernel
  rcases C138_encrypt SshDemo.E toyLaws SshDemo.ev _ _ eNormal eRuns { sign := ascii "locked", envpw := ascii "PW" } rfl rfl with
    h | ⟨names, infile, rd, blk, home, sender, h1, _, h2, _, _, _, h3, _⟩
  · exact absurd h (loud hne)
  · exact ⟨names, infile, rd, blk, _, sender, h1, h2, h3.resolve_left hne⟩

/-- C138 `sign`, to standard output, which takes five bytes. -/
def S' : World := { S with stdout := { script := [.fail 5 .eof] }, flags := { flags with sign := fun a => .ok { envpw := ascii "PW", output := ascii "-" } a } }
def sv' : List Bytes := [ascii "s", keyName k, ascii "in"]

theorem sRuns : Runs S' sv' "sign" [keyName k, ascii "in"] :=
  ⟨{}, ascii "s", rfl, rfl, rfl, by decide +kernel, by decide +kernel, by decide +kernel⟩

example : ∃ secret content, PrivateFile S' false (ascii "PW") (keyName k) secret ∧ (S'.main sv').stdout <+: sigTextOf S'.D secret (ascii "in") content ∧
    (S'.main sv').stdout.length = 5 := by
  have hne : (S'.main sv').stdout ≠ [] := by decide +kernel
  rcases C138_sign S' (by exact commands.reverse_perm) sv' _ _ sRuns { envpw := ascii "PW", output := ascii "-" } rfl rfl with
    h | ⟨kn, fn, more, secret, content, h1, h2, _, h3, _⟩
  · exact absurd h (loud hne)
  · cases h1
    exact ⟨secret, content, h2, h3.resolve_left hne, by decide +kernel⟩

/-- C138 `generate`: a run that writes both files. -/
example : (G.main gv).exit = 0 ∧ ∃ text, NewKeyText G { envpw := ascii "PW" } text ∧
    WritesOnly G.fs (G.main gv) (fun b => b <+: text ∨ b <+: newPubText G { envpw := ascii "PW" }) := by
  refine ⟨by decide +kernel, ?_⟩
  rcases (C138_generate G gv _ _ gNormal gRuns { envpw := ascii "PW" } rfl).2 with h | h
  · exfalso
    have h1 := h.2 _ (List.prefix_refl _) 1
    revert h1
    decide +kernel
  · exact h

/-- C138, the others. -/
example : (V.main vv).stdout = [] ∧ (V.main vv).sys = [] :=
  C138_others V (by exact commands.reverse_perm) vv _ "verify"
    ⟨{}, ascii "v", rfl, rfl, rfl, by decide +kernel, by decide +kernel, by decide +kernel⟩ (.inl rfl)

end Sigtool.ReleasedDemo
