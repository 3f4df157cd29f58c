import Verif.Props.TestScript
import Verif.Props.SshEnd
/-!
# C113: the part of the test script with the keys of `ssh-keygen`
-/

namespace Sigtool
open Spec

theorem sign_script_ssh (kn fn out : Bytes) (h1 : Plain kn) (h2 : Plain fn) :
    realFlags.sign [word "--no-password", kn, word "-o", out, fn] = .ok { nopw := true, output := out } [kn, fn] := by
  have hb : Begins signOptions [word "--no-password", kn, word "-o", out, fn]
      ([("no-password", word "true")] ++ ([] ++ ("output", out) :: [])) [kn, fn] [] :=
    .opt _ _ _ _ _ _ (flag_word signOptions ⟨"no-password", none, false⟩ _ (by decide) (by simp [signOptions]) rfl)
    (.arg _ _ _ _ _ h1 (.optNext (word "-o") [] "output" _ _ _ _ []
      (next_word signOptions ⟨"output", some 'o', true⟩ 'o' _ (by decide) (by simp [signOptions]) rfl rfl) (begins_args _ _ (by simpa using h2))))
  refine ((C102_sign _).1 _ _).mpr ⟨_, .inl hb, ?_, ?_, ?_⟩
  · intro x hx o ho hn ht
    simp only [List.nil_append, List.cons_append, List.mem_cons, List.not_mem_nil, or_false] at hx
    simp only [signOptions, List.mem_cons, List.not_mem_nil, or_false] at ho
    rcases hx with rfl | rfl <;> rcases ho with rfl | rfl | rfl | rfl | rfl <;> simp at hn ht ⊢
    decide +kernel
  · simp [text, on, trues]
    decide +kernel
  · simp [text, on, trues]
    decide +kernel

theorem enc_script_ssh (out : Bytes) (args : List Bytes) (h : ∀ w ∈ args, Plain w) :
    realFlags.enc (word "--no-password" :: word "-o" :: out :: args) = .ok { nopw := true, outfile := out } args := by
  have hb : Begins encOptions (word "--no-password" :: word "-o" :: out :: args)
      ([("no-password", word "true")] ++ ([] ++ ("outfile", out) :: [])) args [] :=
    .opt _ _ _ _ _ _ (flag_word encOptions ⟨"no-password", none, false⟩ _ (by decide) (by simp [encOptions]) rfl)
    (.optNext (word "-o") [] "outfile" out args [] args []
      (next_word encOptions ⟨"outfile", some 'o', true⟩ 'o' _ (by decide) (by simp [encOptions]) rfl rfl) (begins_args _ _ h))
  refine ((C102_encrypt _).1 _ _).mpr ⟨_, .inl hb, ?_, ?_⟩
  · intro x hx o ho hn ht
    simp only [List.nil_append, List.cons_append, List.mem_cons, List.not_mem_nil, or_false] at hx
    simp only [encOptions, List.mem_cons, List.not_mem_nil, or_false] at ho
    rcases hx with rfl | rfl <;> rcases ho with rfl | rfl | rfl | rfl | rfl | rfl <;> simp at hn ht ⊢
    decide +kernel
  · simp [text, on, trues]
    decide +kernel

theorem dec_script_ssh (out : Bytes) (args : List Bytes) (h : ∀ w ∈ args, Plain w) :
    realFlags.dec (word "--no-password" :: word "-o" :: out :: args) = .ok { nopw := true, outfile := out } args := by
  have hb : Begins decOptions (word "--no-password" :: word "-o" :: out :: args)
      ([("no-password", word "true")] ++ ([] ++ ("outfile", out) :: [])) args [] :=
    .opt _ _ _ _ _ _ (flag_word decOptions ⟨"no-password", none, false⟩ _ (by decide) (by simp [decOptions]) rfl)
    (.optNext (word "-o") [] "outfile" out args [] args []
      (next_word decOptions ⟨"outfile", some 'o', true⟩ 'o' _ (by decide) (by simp [decOptions]) rfl rfl) (begins_args _ _ h))
  refine ((C102_decrypt _).1 _ _).mpr ⟨_, .inl hb, ?_, ?_⟩
  · intro x hx o ho hn ht
    simp only [List.nil_append, List.cons_append, List.mem_cons, List.not_mem_nil, or_false] at hx
    simp only [decOptions, List.mem_cons, List.not_mem_nil, or_false] at ho
    rcases hx with rfl | rfl <;> rcases ho with rfl | rfl | rfl | rfl | rfl | rfl <;> simp at hn ht ⊢
    decide +kernel
  · simp [text, on, trues]
    decide +kernel

/-- The two files `ssh-keygen` has written are a key pair. -/
theorem ssh_pair (D : Deps) (L : Laws D.P) (fs : FS) (kf pf : Path) (seed pw text ptext : Bytes) (lock : Option Bytes) (hs : seed.length = 32)
    (h1 : fs.read kf = some text) (h2 : SshIdentity D seed text lock) (hpw : ∀ p, lock = some p → p = pw)
    (h3 : fs.read pf = some ptext) (h4 : SshPubFile ptext (D.P.edPub seed)) : HasPair D fs kf pf seed pw := by
  obtain ⟨pk, g1, g2, g3⟩ := sshPubFile_read D.P D.Y ptext _ (L.ed_pub_len seed hs) h4
  exact ⟨⟨pk, (readPublicKey_ok _ _ _ _).mpr ⟨ptext, h3, g1⟩, g2, g3⟩,
    ⟨_, (readPrivateKey_ok _ _ _ _ _).mpr ⟨text, h1, sshIdentity_read D L seed text hs lock h2 _ (fun p hp => by rw [hpw p hp])⟩,
      ⟨seed, hs, rfl, rfl, rfl⟩, rfl, rfl⟩⟩

/-- **C113** (keys of `ssh-keygen`).  The commands of the project's test script that use keys made by `ssh-keygen` without a pass phrase, for
all keys, files and names: on a machine where nothing goes wrong they all exit with 0, the decrypted file equals the original, and
besides the three new files nothing has changed.  Files that `ssh-keygen` writes meet `SshIdentity` by C110. -/
theorem C113_tests_sh_ssh (W : Nat → World) (L : Laws (W 0).D.P) (ssk1 ssk2 file sig enc dec spks pw : Bytes)
    (hrun : RunsScript W (sshScript ssk1 ssk2 file sig enc dec spks) pw)
    -- the names
    (hk : FileName ssk1) (hk2 : FileName ssk2) (hf : FileName file) (hs : FileName sig) (he : FileName enc) (hd : FileName dec)
    (hname : ¬ NamesUser (ssk2 ++ word ".pub")) (hYf : (W 0).D.Y.Reads (word "input=" ++ file))
    -- the keys
    (seed1 seed2 text1 text2 ptext1 ptext2 : Bytes) (hl1 : seed1.length = 32) (hl2 : seed2.length = 32)
    (hr1 : (W 0).fs.read ssk1 = some text1) (hr2 : (W 0).fs.read ssk2 = some text2)
    (hp1 : (W 0).fs.read (ssk1 ++ word ".pub") = some ptext1) (hp2 : (W 0).fs.read (ssk2 ++ word ".pub") = some ptext2)
    (hid1 : SshIdentity (W 0).D seed1 text1 none) (hid2 : SshIdentity (W 0).D seed2 text2 none)
    (hpub1 : SshPubFile ptext1 ((W 0).D.P.edPub seed1)) (hpub2 : SshPubFile ptext2 ((W 0).D.P.edPub seed2))
    (hspks : spks = Base64.encode (sshPublicBlob ((W 0).D.P.edPub seed1)))
    -- the file is there, the other names are unused and different
    (content : Bytes) (hfile : (W 0).fs.read file = some content)
    (hun : ∀ p ∈ [sig, enc, dec], (W 0).fs.dir p = none) (hdi : [sig, enc, dec].Nodup) :
    statuses W (sshScript ssk1 ssk2 file sig enc dec spks) = [0, 0, 0, 0, 0] ∧
    (W 5).fs.read dec = some content ∧ SameBut (W 0).fs (W 5).fs [sig, enc, dec] := by
  have hlen : (sshScript ssk1 ssk2 file sig enc dec spks).length = 5 := rfl
  obtain ⟨works, foo, lower, next⟩ := hrun
  rw [hlen] at foo lower
  simp only [List.nodup_cons, List.mem_cons, List.not_mem_nil, or_false, not_or] at hdi
  obtain ⟨⟨a1, a2⟩, b1, _⟩ := hdi
  simp only [List.mem_cons, List.not_mem_nil, or_false, forall_eq_or_imp, forall_eq] at hun
  obtain ⟨u1, u2, u3⟩ := hun
  have pp : ∀ i, PassPhrase (W i) true [] [] := fun i => .none rfl
  obtain ⟨t0, M0⟩ := works 0 (by rw [hlen]; decide)
  obtain ⟨t1, M1⟩ := works 1 (by rw [hlen]; decide)
  obtain ⟨t2, M2⟩ := works 2 (by rw [hlen]; decide)
  obtain ⟨t3, M3⟩ := works 3 (by rw [hlen]; decide)
  obtain ⟨t4, M4⟩ := works 4 (by rw [hlen]; decide)
  obtain ⟨D1, F1⟩ := next 0 (by rw [hlen]; decide)
  obtain ⟨D2, F2⟩ := next 1 (by rw [hlen]; decide)
  obtain ⟨D3, F3⟩ := next 2 (by rw [hlen]; decide)
  have N3 := next 3 (by rw [hlen]; decide)
  obtain ⟨D5, F5⟩ := next 4 (by rw [hlen]; decide)
  simp only [sshScript, List.getElem_cons_zero, List.getElem_cons_succ] at M0 M1 M2 M3 M4
  simp only [sshScript, List.getElem_cons_zero, List.getElem_cons_succ, Nat.zero_add, Nat.reduceAdd] at D1 D2 D3 D5 F1 F2 F3 F5 N3
  have D2 := D2.trans D1
  have D3 := D3.trans D2
  have P1 := ssh_pair (W 0).D L (W 0).fs ssk1 (ssk1 ++ word ".pub") seed1 [] text1 ptext1 none hl1 hr1 hid1 (by simp) hp1 hpub1
  have P2 := ssh_pair (W 0).D L (W 0).fs ssk2 (ssk2 ++ word ".pub") seed2 [] text2 ptext2 none hl2 hr2 hid2 (by simp) hp2 hpub2
  -- 0: sign
  obtain ⟨s0, x0, sg, y1, y2, y3⟩ := sign_runs (W 0) L ssk1 (ssk1 ++ word ".pub") file sig content seed1 [] t0 _ _ { nopw := true, output := sig } M0
    (runs_letter M0.flags (lower 0 (by decide)) "s" _ (by decide) _)
    (by rw [M0.flags]; exact sign_script_ssh _ _ _ hk.plain hf.plain) rfl (pp 0) hYf P1 hfile hs ⟨M0.file1.1, .inl u1⟩
  rw [← F1] at x0 y1
  rw [← D1] at y1 y2 y3
  have P1' : HasPair (W 1).D (W 1).fs ssk1 (ssk1 ++ word ".pub") seed1 [] := by
    rw [D1]
    exact P1.same x0 (by simpa using ne_of_read hr1 u1) (by simpa using ne_of_read hp1 u1)
  have hin1 : (W 1).fs.read file = some content := by
    rw [(x0 file (by simpa using ne_of_read hfile u1)).1]; exact hfile
  -- 1, 2: verify
  have hplain : Plain spks := by rw [hspks]; exact ((C34_exact _ _).mp (Base64.decode_encode _)).plain
  have v1 := verify_main (W 1) t1 _ _ (ssk1 ++ word ".pub") sig file M1 (runs_letter M1.flags (lower 1 (by decide)) "v" _ (by decide) _)
    (by rw [M1.flags]; exact verify_script _ _ _ (hk.append _).plain hs.plain hf.plain)
  have v2 := verify_main (W 2) t2 _ _ spks sig file M2 (runs_letter M2.flags (lower 2 (by decide)) "v" _ (by decide) _)
    (by rw [M2.flags]; exact verify_script _ _ _ hplain hs.plain hf.plain)
  have G2 : (W 2).fs = (W 1).fs := by rw [F2]; rw [v1]; rfl
  have G3 : (W 3).fs = (W 1).fs := by rw [F3]; rw [v2]; rw [G2]; rfl
  have s1 : ((W 1).main [word "v", word "-q", ssk1 ++ word ".pub", sig, file]).exit = 0 := by
    rw [v1]
    obtain ⟨pk, k1, k2, k3⟩ := pair_arg' P1' (pubName_dot ssk1)
    exact (C48_exit_zero_iff _ _ _ _).mpr ⟨_, _, _, [], rfl, rfl, pk, sg, content, k1, y1, by rw [k3, y2], hin1, by rw [k2]; exact y3⟩
  have s2 : ((W 2).main [word "v", word "-q", spks, sig, file]).exit = 0 := by
    rw [v2, G2, D2, ← D1]
    obtain ⟨pk, g1, g2, g3⟩ := C39_ssh_string (W 1).D.P ((W 1).D.P.edPub seed1) (by rw [D1]; exact L.ed_pub_len _ hl1)
    exact (C48_exit_zero_iff _ _ _ _).mpr ⟨_, _, _, [], rfl, rfl, pk, sg, content, .inl (by rw [hspks, ← D1]; exact g1), y1, by rw [g3, y2], hin1,
      by rw [g2]; exact y3⟩
  -- 3, 4: encrypt and decrypt
  rw [← G3] at x0
  have P2' : HasPair (W 3).D (W 3).fs ssk2 (ssk2 ++ word ".pub") seed2 [] := by
    rw [D3]
    exact P2.same x0 (by simpa using ne_of_read hr2 u1) (by simpa using ne_of_read hp2 u1)
  have l3 : (W 3).flags.enc [word "--no-password", word "-o", enc, ssk2 ++ word ".pub", file] =
      .ok { nopw := true, outfile := enc } [ssk2 ++ word ".pub", file] := by
    rw [M3.flags]; exact enc_script_ssh _ _ (by simp [(hk2.append _).plain, hf.plain])
  have l4 : (W 4).flags.dec [word "--no-password", word "-o", dec, ssk2, enc] = .ok { nopw := true, outfile := dec } [ssk2, enc] := by
    rw [M4.flags]; exact dec_script_ssh _ _ (by simp [hk2.plain, he.plain])
  have o3 : (W 3).fs.dir enc = none := by rw [(x0 enc (by simpa using Ne.symm a1)).2]; exact u2
  have o3' : (W 3).fs.dir dec = none := by rw [(x0 dec (by simpa using Ne.symm a2)).2]; exact u3
  obtain ⟨s3, x3, s4, _, x4, r5⟩ := enc_dec_runs (W 3) (W 4) (by rw [D3]; exact L) ssk2 (ssk2 ++ word ".pub") file enc dec content seed2 [] [] t3 t4 _ _ _ _
    { nopw := true, outfile := enc } { nopw := true, outfile := dec } M3 M4 N3 (runs_letter M3.flags (lower 3 (by decide)) "e" _ (by decide) _) l3
    (runs_letter M4.flags (lower 4 (by decide)) "d" _ (by decide) _) l4 rfl rfl rfl rfl
    hname hf.dash he hd (by rw [G3]; exact hin1) P2' hl2 (pp 3) (pp 4) ⟨(ne_of_read hr2 u2).symm, (ne_of_read hp2 u2).symm⟩ (.inl ⟨rfl, rfl⟩)
    ⟨M3.file1.1, .inl o3⟩ (Ne.symm b1) ⟨M4.file1.1, .inl o3'⟩
  rw [← F5] at x4 r5
  refine ⟨?_, r5, ?_⟩
  · simp only [statuses, sshScript, List.zipIdx_cons, List.zipIdx_nil, List.map_cons, List.map_nil, Nat.zero_add, Nat.reduceAdd]
    rw [s0, s1, s2, s3, s4]
  · intro p hp
    simp only [List.mem_cons, List.not_mem_nil, or_false, not_or] at hp
    exact ((x0.trans x3).trans x4) p (by simp [hp])

end Sigtool
