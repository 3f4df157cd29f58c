import Verif.Spec.Perm
import Verif.Props.Main
/-! # Permissions of the files a run creates: C83 -/

namespace Sigtool
open Spec

/-- A call on an existing file: it creates none, and writes only to `i`. -/
def Sys.On (i : Nat) : Sys → Prop
  | .create _ _ _ => False
  | .write j _ => j = i
  | _ => True

/-- What a call writes. -/
def Sys.bytes : Sys → Bytes
  | .write _ b => b
  | _ => []

theorem run_on (i : Nat) (cs : List Sys) : ∀ fs : FS, (∀ c ∈ cs, c.On i) →
    (fs.run cs).mode = fs.mode ∧ (∀ j, j ≠ i → (fs.run cs).data j = fs.data j) ∧ (fs.run cs).data i = fs.data i ++ cs.flatMap Sys.bytes := by
  induction cs with
  | nil => intro fs _; exact ⟨rfl, fun _ _ => rfl, by simp [FS.run]⟩
  | cons c cs ih =>
    intro fs h
    have hc := h c (by simp)
    obtain ⟨h1, h2, h3⟩ := ih (fs.step c) (fun x hx => h x (by simp [hx]))
    have hs : (fs.step c).mode = fs.mode ∧ (∀ j, j ≠ i → (fs.step c).data j = fs.data j) ∧ (fs.step c).data i = fs.data i ++ c.bytes := by
      cases c with
      | create p j m => cases hc
      | write j b =>
        have : j = i := hc
        subst this
        exact ⟨rfl, fun k hk => setAt_ne _ _ _ _ hk, setAt_eq _ _ _⟩
      | sync j => exact ⟨rfl, fun _ _ => rfl, by simp [FS.step, Sys.bytes]⟩
      | rename a b => exact ⟨rfl, fun _ _ => rfl, by simp [FS.step, Sys.bytes]⟩
      | remove p => exact ⟨rfl, fun _ _ => rfl, by simp [FS.step, Sys.bytes]⟩
    refine ⟨h1.trans hs.1, fun j hj => (h2 j hj).trans (hs.2.1 j hj), ?_⟩
    show ((fs.step c).run cs).data i = _
    rw [h3, hs.2.2, List.flatMap_cons, List.append_assoc]

/-- The calls on at most one new file, which gets the permissions `perm` and of which at most `out` is written. -/
def OneFile (tmp : Path) (i perm : Nat) (out : Bytes) (cs : List Sys) : Prop :=
  cs = [] ∨ ∃ rest, cs = .create tmp i perm :: rest ∧ (∀ c ∈ rest, c.On i) ∧ rest.flatMap Sys.bytes <+: out

theorem OneFile.pre {tmp : Path} {i perm : Nat} {out : Bytes} {cs pre : List Sys} (h : OneFile tmp i perm out cs) (hp : pre <+: cs) :
    OneFile tmp i perm out pre := by
  rcases h with rfl | ⟨rest, rfl, h1, h2⟩
  · exact .inl (List.prefix_nil.mp hp)
  · cases pre with
    | nil => exact .inl rfl
    | cons c pre =>
      obtain ⟨hc, hq⟩ := List.cons_prefix_cons.mp hp
      subst hc
      clear hp
      obtain ⟨post, rfl⟩ := hq
      refine .inr ⟨pre, rfl, fun c hc => h1 c (by simp [hc]), ?_⟩
      rw [List.flatMap_append] at h2
      exact (List.prefix_append _ _).trans h2

theorem OneFile.run {tmp : Path} {i perm : Nat} {out : Bytes} {cs : List Sys} (h : OneFile tmp i perm out cs) (fs : FS) :
    (∀ j, j ≠ i → (fs.run cs).mode j = fs.mode j ∧ (fs.run cs).data j = fs.data j) ∧
    (((fs.run cs).mode i = fs.mode i ∧ (fs.run cs).data i = fs.data i) ∨ ((fs.run cs).mode i = perm ∧ (fs.run cs).data i <+: out)) := by
  rcases h with rfl | ⟨rest, rfl, h1, h2⟩
  · exact ⟨fun _ _ => ⟨rfl, rfl⟩, .inl ⟨rfl, rfl⟩⟩
  · obtain ⟨a, b, c⟩ := run_on i rest (fs.step (.create tmp i perm)) h1
    have e : fs.run (.create tmp i perm :: rest) = (fs.step (.create tmp i perm)).run rest := rfl
    rw [e]
    refine ⟨fun j hj => ⟨?_, ?_⟩, .inr ⟨?_, ?_⟩⟩
    · rw [a]; exact setAt_ne _ _ _ _ hj
    · rw [b j hj]; exact setAt_ne _ _ _ _ hj
    · rw [a]; exact setAt_eq _ _ _
    · rw [c]
      have : (fs.step (.create tmp i perm)).data i = [] := setAt_eq _ _ _
      rw [this]
      exact h2

theorem writeCalls_bytes (i : Nat) (out : Bytes) : (writeCalls i out).flatMap Sys.bytes = out := by
  unfold writeCalls
  induction out with
  | nil => rfl
  | cons b bs ih => rw [List.map_cons, List.flatMap_cons, ih]; rfl

theorem writeCalls_on (i : Nat) (out : Bytes) : ∀ c ∈ writeCalls i out, c.On i := by
  intro c hc
  obtain ⟨b, _, rfl⟩ := List.mem_map.mp hc
  rfl

/-- A call that neither creates nor writes. -/
def Sys.Quiet : Sys → Prop
  | .create _ _ _ => False
  | .write _ _ => False
  | _ => True

theorem oneFile_of (tmp : Path) (i perm : Nat) (out full : Bytes) (h : out <+: full) (more : List Sys) (hm : ∀ c ∈ more, c.Quiet) :
    OneFile tmp i perm full (preCalls tmp i perm out ++ more) := by
  refine .inr ⟨writeCalls i out ++ more, rfl, ?_, ?_⟩
  · intro c hc
    rcases List.mem_append.mp hc with hc | hc
    · exact writeCalls_on i out c hc
    · have := hm c hc
      cases c <;> first | trivial | exact this.elim
  · rw [List.flatMap_append, writeCalls_bytes]
    have : more.flatMap Sys.bytes = [] := by
      rw [List.flatMap_eq_nil_iff]
      intro c hc
      have := hm c hc
      cases c <;> first | rfl | exact this.elim
    rw [this, List.append_nil]
    exact h

theorem abortCalls_quiet (env : SafeEnv) : ∀ c ∈ abortCalls env, c.Quiet := by
  unfold abortCalls
  split <;> simp [Sys.Quiet]

theorem closeCalls_quiet (env : SafeEnv) (target : Path) : ∀ c ∈ (closeCalls env target).2, c.Quiet := by
  rcases closeCalls_cases env target with h | ⟨e, h | h⟩ <;> rw [h] <;> simp [Sys.Quiet]

theorem safeCalls_oneFile (env : SafeEnv) (perm : Nat) (target : Path) (w : Writer) (bad : Bool) (full : Bytes) (h : w.out <+: full) :
    OneFile env.tmp env.inode perm full (safeCalls env perm target w bad) := by
  unfold safeCalls
  refine oneFile_of _ _ _ _ _ h _ ?_
  intro c hc
  split at hc
  · exact abortCalls_quiet env c hc
  · have hq := closeCalls_quiet env target
    generalize closeCalls env target = x at hq hc
    obtain ⟨e, cl⟩ := x
    cases e with
    | none => exact hq c hc
    | some e =>
      rcases List.mem_append.mp hc with hc | hc
      · exact hq c hc
      · exact abortCalls_quiet env c hc

theorem writeFile_oneFile (fs : FS) (env : SafeEnv) (perm : Nat) (target : Path) (content : Bytes) (ov : Bool) :
    OneFile env.tmp env.inode perm content (writeFile fs env perm target content ov).2 := by
  unfold writeFile
  match hn : newSafeFile fs env perm target ov with
  | .err e => exact .inl rfl
  | .panic w => exact .inl rfl
  | .ok cs =>
    obtain ⟨rfl, _⟩ := newSafeFile_ok hn
    dsimp only
    have hq := closeCalls_quiet env target
    have key : ∀ (out : Bytes) (more : List Sys), out <+: content → (∀ c ∈ more, c.Quiet) →
        OneFile env.tmp env.inode perm content ([.create env.tmp env.inode perm] ++ writeCalls env.inode out ++ more) :=
      fun out more h1 h2 => oneFile_of env.tmp env.inode perm out content h1 more h2
    obtain ⟨w', _, _, h3, _⟩ := fullwrite_spec content { script := env.writes }
    rcases h3 with ⟨h5, h6⟩ | ⟨e, k, h5, h6, _⟩
    · rw [h5]
      dsimp only
      have ho : w'.out <+: content := by rw [h6]; exact List.prefix_refl _
      generalize closeCalls env target = x at hq
      obtain ⟨e, cl⟩ := x
      cases e with
      | none => exact key _ _ ho hq
      | some e =>
        dsimp only
        rw [List.append_assoc _ cl]
        refine key _ _ ho (fun c hc => ?_)
        rcases List.mem_append.mp hc with hc | hc
        · exact hq c hc
        · exact abortCalls_quiet env c hc
    · rw [h5]
      exact key _ _ (by rw [h6]; exact List.take_prefix _ _) (abortCalls_quiet env)

theorem withOutput_oneFile (fs : FS) (env : SafeEnv) (perm : Nat) (stdout : Writer) (outfile : Path) (force : Bool)
    (body : Writer → Res Nat × Writer) : ∃ out, OneFile env.tmp env.inode perm out (withOutput fs env perm stdout outfile force body).sys := by
  unfold withOutput
  split
  · exact ⟨[], .inl rfl⟩
  · split
    · exact ⟨[], .inl rfl⟩
    · exact ⟨[], .inl rfl⟩
    · exact ⟨_, safeCalls_oneFile env perm outfile _ false _ (List.prefix_refl _)⟩

/-- Every run: it creates at most one file, with mode 0600; or it is `sign`, and creates at most one file, in which it writes the
signature; or it is `generate`. -/
theorem main_oneFile (W : World) (argv : List Bytes) (N : Normal W argv) :
    (∃ out, OneFile W.env1.tmp W.env1.inode 0o600 out (W.main argv).sys) ∨
    (∃ perm out, OneFile W.env1.tmp W.env1.inode perm out (W.main argv).sys ∧ (out = [] ∨ PublicText W argv out)) ∨
    (∃ rest o bn more, Runs W argv "generate" rest ∧ W.flags.gen rest = .ok o (bn :: more) ∧
      W.main argv = genCmd W.D W.fs W.env1 W.env2 o.force (W.clean bn) o.comment (W.genpw o.nopw o.envpw) W.seed W.salt) := by
  have quiet : (W.main argv).sys = [] → (∃ out, OneFile W.env1.tmp W.env1.inode 0o600 out (W.main argv).sys) :=
    fun h => ⟨[], .inl h⟩
  by_cases hr : ∃ w rest, Runs W argv w rest
  · obtain ⟨w, rest, hr⟩ := hr
    have hw : w ∈ commandNames := by obtain ⟨_, _, _, _, _, h⟩ := hr; exact h.1
    obtain ⟨d1, d2, d3, d4, d5, d6⟩ := C66_dispatch W N.order argv rest w hr
    simp only [commandNames, List.mem_cons, List.not_mem_nil, or_false] at hw
    rcases hw with rfl | rfl | rfl | rfl | rfl | rfl
    · rw [d1 rfl] at quiet ⊢
      unfold World.gen at quiet ⊢
      match hp : W.flags.gen rest with
      | .help => rw [hp] at quiet; exact .inl (quiet rfl)
      | .bad => rw [hp] at quiet; exact .inl (quiet rfl)
      | .ok o [] => rw [hp] at quiet; exact .inl (quiet rfl)
      | .ok o (bn :: more) => exact .inr (.inr ⟨rest, o, bn, more, hr, hp, rfl⟩)
    · rw [d2 rfl] at quiet ⊢
      unfold World.sign at quiet ⊢
      match hp : W.flags.sign rest with
      | .help => rw [hp] at quiet; exact .inl (quiet rfl)
      | .bad => rw [hp] at quiet; exact .inl (quiet rfl)
      | .ok o [] => rw [hp] at quiet; exact .inl (quiet rfl)
      | .ok o [_] => rw [hp] at quiet; exact .inl (quiet rfl)
      | .ok o (kn :: fn :: more) =>
        rw [hp] at quiet
        dsimp only at quiet ⊢
        right; left
        rw [signCmd_eq]
        by_cases hd : sigTarget o.output fn = ascii "-"
        · rw [if_pos hd]
          exact ⟨0, [], .inl (by split <;> rfl), .inl rfl⟩
        · rw [if_neg hd]
          split
          · exact ⟨0, [], .inl rfl, .inl rfl⟩
          · exact ⟨0, [], .inl rfl, .inl rfl⟩
          · match hT : sigText W.D W.fs (W.getpw o.nopw o.envpw) W.mapErr kn fn with
            | .err _ => exact ⟨_, [], safeCalls_oneFile _ _ _ _ _ _ (List.prefix_refl _), .inl rfl⟩
            | .panic _ => exact ⟨_, [], safeCalls_oneFile _ _ _ _ _ _ (List.prefix_refl _), .inl rfl⟩
            | .ok t =>
              obtain ⟨_, sk, content, ⟨b, hb1, hb2⟩, hc, ht⟩ := (sigText_ok _ _ _ _ _ _ _).mp hT
              refine ⟨0o644, t, ?_, .inr (ht ▸ .sig rest o kn fn more b sk content hr hp hb1 hb2 hc)⟩
              dsimp only
              refine safeCalls_oneFile _ _ _ _ _ _ ?_
              show (fullwrite t (W.env1.writer (sigTarget o.output fn))).2.out <+: t
              obtain ⟨w', _, _, h3, _⟩ := fullwrite_spec t (W.env1.writer (sigTarget o.output fn))
              rcases h3 with ⟨h5, h6⟩ | ⟨e, k, h5, h6, _⟩
              · rw [h5, h6]; exact List.prefix_refl _
              · rw [h5, h6]; exact List.take_prefix _ _
    · rw [d3 rfl] at quiet ⊢
      left
      refine quiet ?_
      unfold World.verify
      split <;> rfl
    · rw [d4 rfl] at quiet ⊢
      left
      unfold World.encrypt at quiet ⊢
      match hp : W.flags.enc rest with
      | .help => rw [hp] at quiet; exact quiet rfl
      | .bad => rw [hp] at quiet; exact quiet rfl
      | .ok o args =>
        rw [hp] at quiet
        dsimp only at quiet ⊢
        rcases encryptCmd_cases W.D W.fs W.env1 W.stdout o.outfile o.force o.sign (W.getpw o.nopw o.envpw) (W.parseSize o.blocksize)
          (W.home.map fun h => h ++ ascii "/.ssh/authorized_keys") (args.dropLast.zipIdx.map fun a => (a.1, W.rbuf a.2))
          (args.getLastD []) (W.input (args.getLastD [])) W.coins W.coin with ⟨n, hn, h1⟩ | ⟨blk, sk, auth, h1, h2, h3, h4, h5⟩
        · refine quiet ?_
          rw [h1]
        · rw [h5]
          exact withOutput_oneFile _ _ _ _ _ _ _
    · rw [d5 rfl] at quiet ⊢
      left
      have main : ∀ (o : DecOpts) (key infile : Path) (rd : Reader), ∃ out, OneFile W.env1.tmp W.env1.inode 0o600 out
            (decryptCmd W.D W.fs W.env1 W.stdout o.outfile o.force o.test key (W.getpw o.nopw o.envpw) o.sender infile rd).sys := by
        intro o key infile rd
        rcases decryptCmd_cases W.D W.fs W.env1 W.stdout o.outfile o.force o.test key (W.getpw o.nopw o.envpw) o.sender infile rd with
          ⟨n, hn, h1⟩ | ⟨sk, pk, _, _, h1⟩
        · rw [h1]; exact ⟨[], .inl rfl⟩
        · rw [h1]
          split
          · exact ⟨[], .inl rfl⟩
          · exact withOutput_oneFile _ _ _ _ _ _ _
      unfold World.decrypt at quiet ⊢
      match hp : W.flags.dec rest with
      | .help => rw [hp] at quiet; exact quiet rfl
      | .bad => rw [hp] at quiet; exact quiet rfl
      | .ok o [] => rw [hp] at quiet; exact quiet rfl
      | .ok o [key] => exact main o key _ _
      | .ok o (key :: infile :: more) =>
        rw [hp] at quiet
        dsimp only at quiet ⊢
        by_cases hi : infile = []
        · rw [if_pos hi] at quiet ⊢
          refine quiet ?_
          split
          · rfl
          · rfl
          · split
            · rfl
            · split <;> rfl
        · rw [if_neg hi]
          exact main o key _ _
    · rw [d6 rfl] at quiet ⊢
      exact .inl (quiet rfl)
  · left
    refine quiet (C66_nothing W N.order argv ?_).1
    intro w rest h
    exact hr ⟨w, rest, h⟩

/-- **C83** At every moment of every run, whatever the command line: a file on which the group or others have any permission is either
one that was there before and is unchanged, or it holds nothing but (a beginning of) the text of the new public key or the new
signature.  In particular, private keys, plaintexts and encrypted files are never put in a file that others may read, not even
in a temporary one, and not even when a file that others may read is overwritten. -/
theorem C83_private (W : World) (argv : List Bytes) (N : Normal W argv) (pre : List Sys) (hpre : pre <+: (W.main argv).sys) (i : Nat)
    (h : Exposed (W.fs.run pre) i) :
    (Exposed W.fs i ∧ (W.fs.run pre).data i = W.fs.data i) ∨ (W.fs.run pre).data i = [] ∨
      ∃ t, PublicText W argv t ∧ (W.fs.run pre).data i <+: t := by
  have one : ∀ (env : SafeEnv) (perm : Nat) (out : Bytes) (cs : List Sys) (fs : FS), OneFile env.tmp env.inode perm out cs →
      ∀ i, ((fs.run cs).mode i = fs.mode i ∧ (fs.run cs).data i = fs.data i) ∨ ((fs.run cs).mode i = perm ∧ (fs.run cs).data i <+: out) := by
    intro env perm out cs fs h i
    obtain ⟨a, b⟩ := h.run fs
    by_cases hi : i = env.inode
    · subst hi; exact b
    · exact .inl (a i hi)
  unfold Exposed at h ⊢
  rcases main_oneFile W argv N with ⟨out, g⟩ | ⟨perm, out, g, hout⟩ | ⟨rest, o, bn, more, hr, hf, hm⟩
  · rcases one _ _ _ _ W.fs (g.pre hpre) i with ⟨a, b⟩ | ⟨a, b⟩
    · rw [a] at h; exact .inl ⟨h, b⟩
    · rw [a] at h; exact absurd rfl h
  · rcases one _ _ _ _ W.fs (g.pre hpre) i with ⟨a, b⟩ | ⟨a, b⟩
    · rw [a] at h; exact .inl ⟨h, b⟩
    · right
      rcases hout with rfl | hout
      · exact .inl (List.prefix_nil.mp b)
      · exact .inr ⟨out, hout, b⟩
  · rw [hm] at hpre
    have first : ∀ text pre, pre <+: (writeFile W.fs W.env1 0o600 (keyName (W.clean bn)) text o.force).2 →
        (W.fs.run pre).mode i % 64 ≠ 0 → W.fs.mode i % 64 ≠ 0 ∧ (W.fs.run pre).data i = W.fs.data i := by
      intro text pre hp h
      rcases one _ _ _ _ W.fs ((writeFile_oneFile W.fs W.env1 0o600 (keyName (W.clean bn)) text o.force).pre hp) i with ⟨a, b⟩ | ⟨a, b⟩
      · rw [a] at h; exact ⟨h, b⟩
      · rw [a] at h; exact absurd rfl h
    rcases genCmd_cases W.D W.fs W.env1 W.env2 o.force (W.clean bn) o.comment (W.genpw o.nopw o.envpw) W.seed W.salt with
      ⟨_, h1⟩ | ⟨pw', text, h1, h2, h3, h4⟩
    · rw [h1] at hpre
      rw [List.prefix_nil.mp hpre] at h ⊢
      exact .inl ⟨h, rfl⟩
    · dsimp only at h4
      rcases h4 with ⟨_, _, h6⟩ | ⟨_, h6, _⟩
      · rw [h6] at hpre
        exact .inl (first text pre hpre h)
      · rw [h6] at hpre
        rcases prefix_append_cases hpre with hpre | ⟨pre2, rfl, hpre2⟩
        · exact .inl (first text pre hpre h)
        · rw [run_append] at h ⊢
          rcases one _ _ _ _ (W.fs.run _) ((writeFile_oneFile _ W.env2 0o644 (pubName (W.clean bn)) _ o.force).pre hpre2) i with ⟨a, b⟩ | ⟨a, b⟩
          · rw [a] at h
            rw [b]
            exact .inl (first text _ (List.prefix_refl _) h)
          · exact .inr (.inr ⟨_, .pub rest o bn more hr hf, b⟩)

/-- A successful write: the calls. -/
theorem writeFile_calls (fs : FS) (env : SafeEnv) (perm : Nat) (target : Path) (content : Bytes) (ov : Bool)
    (h : (writeFile fs env perm target content ov).1 = .ok ()) : (writeFile fs env perm target content ov).2 =
      preCalls env.tmp env.inode perm content ++ [.sync env.inode] ++ [.rename env.tmp target] := by
  unfold writeFile at h ⊢
  match hn : newSafeFile fs env perm target ov with
  | .err e => rw [hn] at h; cases h
  | .panic w => rw [hn] at h; cases h
  | .ok cs =>
    rw [hn] at h
    obtain ⟨rfl, _⟩ := newSafeFile_ok hn
    dsimp only at h ⊢
    obtain ⟨w', _, _, h3, _⟩ := fullwrite_spec content { script := env.writes }
    rcases h3 with ⟨h5, h6⟩ | ⟨e, k, h5, h6, _⟩
    · rw [h5] at h ⊢
      dsimp only at h ⊢
      rcases closeCalls_cases env target with hc | ⟨e, hc | hc⟩
      · rw [hc]
        dsimp only
        rw [h6]
        simp [preCalls]
      · rw [hc] at h; cases h
      · rw [hc] at h; cases h
    · rw [h5] at h; cases h

/-- **C83** (the pair).  After a successful `generate` the `.key` file is one that only its owner may read and write, whatever the
permissions of the file it replaced; the `.pub` file is one that everybody may read and only its owner may write. -/
theorem C83_pair (D : Deps) (fs : FS) (env1 env2 : SafeEnv) (force : Bool) (clean comment : Bytes) (pw : Except Err Bytes)
    (seed salt : Bytes) (he : GenEnv fs env1 env2 clean)
    (h : (genCmd D fs env1 env2 force clean comment pw seed salt).exit = 0) :
    let fs' := fs.run (genCmd D fs env1 env2 force clean comment pw seed salt).sys
    (∃ i, fs'.dir (clean ++ ascii ".key") = some (.file i) ∧ fs'.mode i = 0o600) ∧
      ∃ i, fs'.dir (clean ++ ascii ".pub") = some (.file i) ∧ fs'.mode i = 0o644 := by
  intro fs'
  rcases genCmd_cases D fs env1 env2 force clean comment pw seed salt with ⟨h1, _⟩ | ⟨pw', text, h1, h2, h3, h4⟩
  · exact absurd h h1
  · dsimp only at h4
    rcases h4 with ⟨_, h5, _⟩ | ⟨h5, h6, ⟨h7, _⟩ | ⟨_, h8⟩⟩
    · omega
    · have hfs : fs' = (fs.run (writeFile fs env1 0o600 (keyName clean) text force).2).run
          (writeFile (fs.run (writeFile fs env1 0o600 (keyName clean) text force).2) env2 0o644 (pubName clean)
            ((newPrivateKey D.P seed).pub.marshal D.Y comment) force).2 := by
        simp only [fs']; rw [h6, run_append]
      obtain ⟨ok, hr, k1, _⟩ := writeFile_run fs env1 (keyName clean) text force
      have := k1.mpr h5
      subst this
      have hf2 := hr.fresh fs he.fresh1 he.key1 env2.tmp env2.inode he.fresh2 he.tmp he.inode (Ne.symm he.key2)
      have c1 := writeFile_calls _ _ _ _ _ _ h5
      have o1 := (writeFile_oneFile fs env1 0o600 (keyName clean) text force).run fs
      have c2 := writeFile_calls _ _ _ _ _ _ h7
      have o2 := (writeFile_oneFile (fs.run (writeFile fs env1 0o600 (keyName clean) text force).2) env2 0o644 (pubName clean)
        ((newPrivateKey D.P seed).pub.marshal D.Y comment) force).run (fs.run (writeFile fs env1 0o600 (keyName clean) text force).2)
      have md : ∀ (s : FS) (env : SafeEnv) (perm : Nat) (target : Path) (content : Bytes),
          (s.run (preCalls env.tmp env.inode perm content ++ [.sync env.inode] ++ [.rename env.tmp target])).mode env.inode = perm := by
        intro s env perm target content
        obtain ⟨a, _, _⟩ := run_on env.inode (writeCalls env.inode content ++ [.sync env.inode] ++ [.rename env.tmp target])
          (s.step (.create env.tmp env.inode perm)) (by
            intro c hc
            rw [List.append_assoc] at hc
            rcases List.mem_append.mp hc with hc | hc
            · exact writeCalls_on _ _ c hc
            · simp only [List.singleton_append, List.mem_cons, List.not_mem_nil, or_false] at hc
              rcases hc with rfl | rfl <;> trivial)
        have e : s.run (preCalls env.tmp env.inode perm content ++ [.sync env.inode] ++ [.rename env.tmp target]) =
            (s.step (.create env.tmp env.inode perm)).run (writeCalls env.inode content ++ [.sync env.inode] ++ [.rename env.tmp target]) := rfl
        rw [e, a]
        exact setAt_eq _ _ _
      have d1 := done_state (perm := 0o600) fs env1 (keyName clean) text he.key1 he.fresh1
      have d2 := done_state (perm := 0o644) _ env2 (pubName clean) ((newPrivateKey D.P seed).pub.marshal D.Y comment) he.pub2 hf2
      dsimp only at d1 d2
      rw [← c1] at d1
      rw [← c2] at d2
      rw [hfs]
      refine ⟨⟨env1.inode, ?_, ?_⟩, env2.inode, d2.1, ?_⟩
      · rw [show clean ++ ascii ".key" = keyName clean from rfl, d2.2.2.2.2.1 _ (keyName_ne_pubName clean) he.key2]
        exact d1.1
      · rw [(o2.1 _ (Ne.symm he.inode)).1, c1]
        exact md _ _ _ _ _
      · rw [c2]
        exact md _ _ _ _ _
    · omega

end Sigtool
