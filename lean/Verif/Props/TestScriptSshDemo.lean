import Verif.Props.TestScriptSsh
import Verif.Props.TestScriptDemo
import Verif.Props.SshDemo
/-!
# A concrete machine for the ssh part of C113

Five runs of the program that meet the hypotheses of `C113_tests_sh_ssh`.
-/

namespace Sigtool.TestScriptSshDemo
open Sigtool Spec CliDemo CommandLinesDemo TestScriptDemo

def spks : Bytes := Base64.encode (sshPublicBlob SshDemo.pub)

def script : List (List Bytes) :=
  sshScript (ascii "i") (ascii "j") (ascii "in") (ascii "s1") (ascii "e1") (ascii "d1") spks

def names : List Path := [ascii "in", ascii "i", ascii "i.pub", ascii "j", ascii "j.pub"]

def fs0 : FS where
  dir := fun p => if p = ascii "in" then some (.file 0) else if p = ascii "i" ∨ p = ascii "j" then some (.file 10)
    else if p = ascii "i.pub" ∨ p = ascii "j.pub" then some (.file 11) else none
  data := fun i => if i = 0 then plain else if i = 10 then exampleText else if i = 11 then SshDemo.pubText else []

def world (i : Nat) (fs : FS) : World := { TestScriptDemo.world i fs with D := SshDemo.D }

def fsAt : Nat → FS
  | 0 => fs0
  | i + 1 => (fsAt i).run ((world i (fsAt i)).main (script[i]?.getD [])).sys

def W (i : Nat) : World := world i (fsAt i)

theorem lower_all (i : Nat) : ∀ s : Bytes, (∀ b ∈ s, b < 128) → (W i).lower s = s.map lowerByte := fun _ _ => rfl

def outputs : List Path := [ascii "s1", ascii "e1", ascii "d1"]

theorem outputs_of (X : World) (hfl : X.flags = realFlags) (hlo : ∀ s : Bytes, (∀ b ∈ s, b < 128) → X.lower s = s.map lowerByte)
    (i : Nat) (hi : i < 5) (p : Path) (h : Output X (script[i]?.getD []) p) : p ∈ outputs := by
  have es : sigTarget (ascii "s1") (ascii "in") = ascii "s1" := by decide +kernel
  have pi : Plain (ascii "i") := by unfold Plain; decide +kernel
  have pj : Plain (ascii "j") := by unfold Plain; decide +kernel
  have pin : Plain (ascii "in") := by unfold Plain; decide +kernel
  have pe : Plain (ascii "e1") := by unfold Plain; decide +kernel
  have pjp : Plain (ascii "j" ++ word ".pub") := by unfold Plain; decide +kernel
  match i, hi with
  | 0, _ =>
    have := out_sign (runs_letter hfl hlo "s" _ (by decide) _) (by rw [hfl]; exact sign_script_ssh _ _ _ pi pin) h
    rw [this]; show sigTarget (ascii "s1") (ascii "in") ∈ _; rw [es]; simp [outputs]
  | 1, _ => exact (out_verify (runs_letter hfl hlo "v" _ (by decide) _) h).elim
  | 2, _ => exact (out_verify (runs_letter hfl hlo "v" _ (by decide) _) h).elim
  | 3, _ =>
    rw [out_enc (runs_letter hfl hlo "e" _ (by decide) _) (by rw [hfl]; exact enc_script_ssh _ _ (by simp [pjp, pin])) h]; simp [outputs]
  | 4, _ =>
    rw [out_dec (runs_letter hfl hlo "d" _ (by decide) _) (by rw [hfl]; exact dec_script_ssh _ _ (by simp [pj, pe])) h]; simp [outputs]

theorem outputs_only (i : Nat) (hi : i < 5) (p : Path) (h : Output (W i) (script[i]?.getD []) p) : p ∈ outputs :=
  outputs_of (W i) rfl (lower_all i) i hi p h

theorem not_tmp (i : Nat) : (∀ p ∈ names ++ outputs, tmp1 i ≠ p) ∧ ∀ p ∈ names ++ outputs, tmp2 i ≠ p := by
  have key : ∀ p ∈ names ++ outputs, ∃ b ∈ p, b ≠ 116 ∧ b ≠ 117 := by unfold names outputs; decide +kernel
  constructor
  · rintro p hp rfl
    obtain ⟨b, hb, h1, _⟩ := key _ hp
    exact h1 (List.eq_of_mem_replicate hb)
  · rintro p hp rfl
    obtain ⟨b, hb, _, h1⟩ := key _ hp
    exact h1 (List.eq_of_mem_replicate hb)

/-- What no run up to `i` uses. -/
def Unused (i : Nat) (t : Path) (n : Nat) : Prop :=
  t ∉ names ++ outputs ∧ n ≠ 0 ∧ n ≠ 10 ∧ n ≠ 11 ∧ ∀ j < i, t ≠ tmp1 j ∧ t ≠ tmp2 j ∧ n ≠ 20 + 2 * j ∧ n ≠ 21 + 2 * j

theorem unused1 (i : Nat) : Unused i (tmp1 i) (20 + 2 * i) := by
  refine ⟨fun h => (not_tmp i).1 _ h rfl, by omega, by omega, by omega, fun j hj => ⟨fun h => ?_, tmp_ne _ _, by omega, by omega⟩⟩
  have := tmp1_inj _ _ h; omega

theorem unused2 (i : Nat) : Unused i (tmp2 i) (21 + 2 * i) := by
  refine ⟨fun h => (not_tmp i).2 _ h rfl, by omega, by omega, by omega, fun j hj => ⟨(tmp_ne _ _).symm, fun h => ?_, by omega, by omega⟩⟩
  have := tmp2_inj _ _ h; omega

theorem normal_of (i : Nat) (hi : i < 5) (f : ∀ t n, Unused i t n → Fresh (fsAt i) t n) : Normal (W i) (script[i]?.getD []) where
  fresh1 := f _ _ (unused1 i)
  fresh2 := f _ _ (unused2 i)
  tmp := (tmp_ne i i).symm
  inode := by show 21 + 2 * i ≠ 20 + 2 * i; omega
  out := fun p hp =>
    have hm : p ∈ names ++ outputs := List.mem_append_right _ (outputs_only i hi p hp)
    ⟨fun (e : p = tmp1 i) => (not_tmp i).1 _ hm e.symm, fun (e : p = tmp2 i) => (not_tmp i).2 _ hm e.symm⟩
  order := by exact commands.reverse_perm
  coins := ⟨rfl, rfl, rfl⟩
  coin := rfl

theorem fresh_at : ∀ i ≤ 5, ∀ t n, Unused i t n → Fresh (fsAt i) t n
  | 0, _, t, n, h => by
    obtain ⟨h1, h2, h3, h4, _⟩ := h
    simp only [names, List.mem_append, List.mem_cons, List.not_mem_nil, or_false, not_or] at h1
    obtain ⟨⟨a1, a2, a3, a4, a5⟩, _⟩ := h1
    constructor
    · intro d hd
      simp only [fsAt, fs0, List.mem_singleton] at hd
      subst hd
      simp [a1, a2, a3, a4, a5]
    · intro d hd q
      simp only [fsAt, fs0, List.mem_singleton] at hd
      subst hd
      dsimp only
      split
      · intro e; cases e; exact h2 rfl
      · split
        · intro e; cases e; exact h3 rfl
        · split
          · intro e; cases e; exact h4 rfl
          · simp
  | i + 1, hi, t, n, h => by
    obtain ⟨h1, h2, h3, h4, h6⟩ := h
    have hn := h6 i (by omega)
    have f : ∀ t n, Unused i t n → Fresh (fsAt i) t n := fresh_at i (by omega)
    exact still_fresh (W i) toyLaws _ (normal_of i (by omega) f) t n (f t n ⟨h1, h2, h3, h4, fun j hj => h6 j (by omega)⟩) ⟨hn.1, hn.2.1⟩
      ⟨hn.2.2.1, hn.2.2.2⟩ (fun p hp e => h1 (List.mem_append_right _ (e ▸ outputs_only i (by omega) p hp)))

theorem works (i : Nat) (hi : i < 5) : Works (W i) (script[i]?.getD []) pw where
  normal := normal_of i hi (fresh_at i (by omega))
  flags := rfl
  lower := lower_names
  file1 := ⟨rfl, (fun _ _ h => by cases h), rfl, rfl, rfl⟩
  file2 := ⟨rfl, (fun _ _ h => by cases h), rfl, rfl, rfl⟩
  maps := rfl
  opened := by
    intro p b h
    have e : (fsAt i).read p = some b := h
    constructor
    · simp [W, world, TestScriptDemo.world, mach, Reader.content, e]
    · rfl
  home := by
    refine ⟨ascii "h", rfl, .inl ?_⟩
    rw [show ascii "h" ++ ascii "/.ssh/authorized_keys" = ascii "h/.ssh/authorized_keys" by decide +kernel]
    have key : ∃ b ∈ ascii "h/.ssh/authorized_keys", b ≠ 116 ∧ b ≠ 117 := by decide +kernel
    refine (fresh_at i (by omega) (ascii "h/.ssh/authorized_keys") 1 ⟨by unfold names outputs; decide +kernel, by decide, by decide, by decide,
      fun j _ => ⟨?_, ?_, by omega, by omega⟩⟩).name _ (List.mem_cons_self ..)
    · intro h
      rw [h] at key
      obtain ⟨b, hb, h1, _⟩ := key
      exact h1 (List.eq_of_mem_replicate hb)
    · intro h
      rw [h] at key
      obtain ⟨b, hb, _, h1⟩ := key
      exact h1 (List.eq_of_mem_replicate hb)
  size := by show (if word "128k" = ascii "128k" then some 131072 else none) = some 131072; decide +kernel
  askpass := rfl
  stdout := rfl
  seed := by show (seedAt i).length = 32; simp [seedAt]
  salt := rfl
  rbuf := by intro j; show (List.replicate 12 _).length = 12; simp

theorem runs : RunsScript W script [] where
  works i h := ⟨pw, by
    have hl : i < 5 := h
    have := works i hl
    rwa [List.getElem?_eq_getElem h] at this⟩
  foo _ _ := rfl
  lower i _ := lower_all i
  next i h := by
    refine ⟨rfl, ?_⟩
    show fsAt (i + 1) = _
    rw [fsAt, List.getElem?_eq_getElem h]
    rfl

/-- C113 (keys of `ssh-keygen`) on this machine. -/
example : statuses W script = [0, 0, 0, 0, 0] ∧ (W 5).fs.read (ascii "d1") = some plain := by
  have h := C113_tests_sh_ssh W toyLaws (ascii "i") (ascii "j") (ascii "in") (ascii "s1") (ascii "e1") (ascii "d1") spks [] runs
    (by unfold FileName; decide +kernel) (by unfold FileName; decide +kernel) (by unfold FileName; decide +kernel)
    (by unfold FileName; decide +kernel) (by unfold FileName; decide +kernel) (by unfold FileName; decide +kernel)
    (by unfold NamesUser; decide +kernel) (toyYaml_reads _) CliDemo.seed CliDemo.seed exampleText exampleText SshDemo.pubText SshDemo.pubText
    rfl rfl (by decide +kernel) (by decide +kernel) (by decide +kernel) (by decide +kernel) SshDemo.identity SshDemo.identity
    SshDemo.pubFile SshDemo.pubFile rfl plain (by decide +kernel) (by decide +kernel) (by decide +kernel)
  exact ⟨h.1, h.2.1⟩

end Sigtool.TestScriptSshDemo
