import Verif.Props.CliCrypt
/-! # `decrypt --test` says whether `decrypt` would succeed: C78 -/

namespace Sigtool
open Spec

/-- The output of `decrypt` can be created and none of its writes fails: standard output, or a file that does not exist yet or may
be overwritten. (`Close` may still fail; `decrypt` does not look.) -/
def Spec.GoodOutput (fs : FS) (env : SafeEnv) (stdout : Writer) (outfile : Path) (force : Bool) : Prop :=
  ((outfile = [] ∨ outfile = ascii "-") ∧ ∀ k e, WEv.fail k e ∉ stdout.script) ∨
  ((outfile ≠ [] ∧ outfile ≠ ascii "-") ∧ env.openErr = none ∧ (∀ k e, WEv.fail k e ∉ env.writes) ∧
    (fs.dir outfile = none ∨ (force = true ∧ ∃ i, fs.dir outfile = some (.file i))))

/-- Two destinations that accept everything: `Decrypt` gives the same result. -/
theorem decryptLoop_noFail (P : Prims) : ∀ (fuel : Nat) (d : Decryptor) (w1 w2 : Writer) (i : Nat), w1.NoFail → w2.NoFail →
    (Decryptor.decryptLoop P fuel d w1 i).1 = (Decryptor.decryptLoop P fuel d w2 i).1 := by
  intro fuel
  induction fuel with
  | zero => intros; rfl
  | succ fuel ih =>
    intro d w1 w2 i h1 h2
    unfold Decryptor.decryptLoop
    match d.decryptBlock P i with
    | (.err x, d1) => rfl
    | (.panic x, d1) => rfl
    | (.ok (c, eof), d1) =>
      dsimp only
      have put : ∀ w : Writer, w.NoFail → ∃ w', (if c.length > 0 then fullwrite c w else (none, w)) = (none, w') ∧ w'.NoFail := by
        intro w hw
        split
        · obtain ⟨w3, b1, _, b3, _⟩ := fullwrite_noFail c w hw
          exact ⟨w3, b1, b3⟩
        · exact ⟨w, rfl, hw⟩
      obtain ⟨v1, a1, a2⟩ := put w1 h1
      obtain ⟨v2, b1, b2⟩ := put w2 h2
      rw [a1, b1]
      dsimp only
      split
      · rfl
      · exact ih _ _ _ _ a2 b2

theorem decrypt_noFail (P : Prims) (d : Decryptor) (w1 w2 : Writer) (h1 : w1.NoFail) (h2 : w2.NoFail) :
    (d.decrypt P w1).1 = (d.decrypt P w2).1 := by
  unfold Decryptor.decrypt
  split
  · rfl
  · split
    · rfl
    · split
      · rfl
      · exact decryptLoop_noFail P _ _ _ _ _ h1 h2

theorem decryptBody_noFail (P : Prims) (rd : Reader) (sk : PrivateKey) (pk : Option PublicKey) (w1 w2 : Writer)
    (h1 : w1.NoFail) (h2 : w2.NoFail) : (decryptBody P rd sk pk w1).1 = (decryptBody P rd sk pk w2).1 := by
  unfold decryptBody
  split
  · rfl
  · rfl
  · rename_i d _
    have := decrypt_noFail P d w1 w2 h1 h2
    generalize d.decrypt P w1 = x1 at this ⊢
    generalize d.decrypt P w2 = x2 at this ⊢
    obtain ⟨r1, d1, v1⟩ := x1
    obtain ⟨r2, d2, v2⟩ := x2
    dsimp only at this
    subst this
    cases r1 <;> rfl

/-- **C78** (equal).  With an output that can be created and written, `decrypt` exits with the same status as `decrypt --test` does
on the same key, options and input. -/
theorem C78_test_equals_decrypt (D : Deps) (fs : FS) (env : SafeEnv) (stdout : Writer) (outfile : Path) (force : Bool)
    (keyfile : Path) (getpw : GetPw) (pubkey infile : Path) (rd : Reader) (hgood : GoodOutput fs env stdout outfile force) :
    (decryptCmd D fs env stdout outfile force true keyfile getpw pubkey infile rd).exit =
      (decryptCmd D fs env stdout outfile force false keyfile getpw pubkey infile rd).exit := by
  unfold decryptCmd
  split
  · rfl
  · rfl
  · dsimp only
    split
    · rfl
    · rfl
    · split
      · rfl
      · simp only [if_true, Bool.false_eq_true, if_false]
        unfold withOutput
        rcases hgood with ⟨h1, h2⟩ | ⟨h1, h2, h3, h4⟩
        · rw [if_pos h1]
          dsimp only
          rw [decryptBody_noFail D.P rd _ _ {} stdout (by intro k e; simp) h2]
        · rw [if_neg (by rintro (h | h); exacts [h1.1 h, h1.2 h])]
          have hn : ∃ c, newSafeFile fs env 0o600 outfile force = .ok c := by
            unfold newSafeFile
            rcases h4 with h4 | ⟨h4, i, h5⟩
            · rw [h4, h2]; exact ⟨_, rfl⟩
            · rw [h5, h4, h2]; exact ⟨_, rfl⟩
          obtain ⟨c, hc⟩ := hn
          rw [hc]
          dsimp only
          rw [decryptBody_noFail D.P rd _ _ {} (env.writer outfile) (by intro k e; simp) h3]

/-- **C78** (necessary).  Whatever the output, `decrypt` exits with 0 only if `decrypt --test` does. -/
theorem C78_test_necessary (D : Deps) (fs : FS) (env : SafeEnv) (stdout : Writer) (outfile : Path) (force : Bool)
    (keyfile : Path) (getpw : GetPw) (pubkey infile : Path) (rd : Reader)
    (h : (decryptCmd D fs env stdout outfile force false keyfile getpw pubkey infile rd).exit = 0) :
    (decryptCmd D fs env stdout outfile force true keyfile getpw pubkey infile rd).exit = 0 := by
  have key : ∀ (sk : PrivateKey) (pk : Option PublicKey) (w : Writer), exitOf (decryptBody D.P rd sk pk w).1 = 0 →
      exitOf (decryptBody D.P rd sk pk {}).1 = 0 := by
    intro sk pk w
    unfold decryptBody
    split
    · intro h; exact h
    · intro h; exact h
    · rename_i d _
      intro h
      rcases hd : d.decrypt D.P w with ⟨r, d', w'⟩
      rw [hd] at h
      cases r with
      | err x => cases h
      | panic x => cases h
      | ok u =>
        obtain ⟨p, _, h2⟩ := decrypt_indep D.P d d' w w' hd
        obtain ⟨w2, h3, _⟩ := h2 {} (by intro k e; simp)
        rw [h3]
        rfl
  unfold decryptCmd at h ⊢
  split at h
  · exact h
  · exact h
  · dsimp only at h ⊢
    split at h
    · exact h
    · exact h
    · split at h
      · cases h
      · rename_i hc
        rw [if_neg hc]
        simp only [Bool.false_eq_true, if_false, if_true] at h ⊢
        unfold withOutput at h
        split at h
        · exact key _ _ _ h
        · split at h
          · cases h
          · cases h
          · exact key _ _ _ h

/-- A fresh output file is a good output, one that exists without `--overwrite` is not. -/
example (fs : FS) (env : SafeEnv) (h : env.openErr = none) (hw : env.writes = []) (hd : fs.dir (ascii "out") = none) :
    GoodOutput fs env {} (ascii "out") false ∧ ∀ i, fs.dir (ascii "x") = some (.file i) → ¬ GoodOutput fs env {} (ascii "x") false := by
  refine ⟨.inr ⟨by decide, h, by simp [hw], .inl hd⟩, fun i hi hg => ?_⟩
  rcases hg with ⟨hg, _⟩ | ⟨_, _, _, hg | ⟨hg, _⟩⟩
  · exact absurd hg (by decide)
  · rw [hi] at hg; cases hg
  · cases hg

end Sigtool
