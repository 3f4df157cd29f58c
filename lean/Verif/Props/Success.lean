import Verif.Spec.Success
import Verif.Props.PrivTexts
import Verif.Props.Accepts
import Verif.Props.CliComplete
import Verif.Props.CliVerify
import Verif.Props.Main
/-!
# C92: exactly when each command succeeds
-/

namespace Sigtool
open Spec

theorem public_ok {P : Prims} {Y : Yaml} {b : Bytes} {pk : PublicKey} (h : makePublicKey P Y b = .ok pk) :
    PublicKeyText Y b pk.pk ∧ PublicIs P pk.pk pk := by
  rcases (C90_public_file P Y b pk).mp h with ⟨f, c, key, c', h1, h2, _, rfl⟩ | ⟨h1, d, key, h2, h3, h4, rfl⟩
  · exact ⟨.inl ⟨f, c, h1, h2⟩, rfl, rfl⟩
  · exact ⟨.inr ⟨h1, d, h2, h3, h4⟩, rfl, rfl⟩

theorem public_make {P : Prims} {Y : Yaml} {b key : Bytes} (h : PublicKeyText Y b key) :
    ∃ pk, makePublicKey P Y b = .ok pk ∧ PublicIs P key pk := by
  rcases h with ⟨f, c, h1, h2⟩ | ⟨h1, d, h2, h3, h4⟩
  · exact ⟨_, (C90_public_file P Y b _).mpr (.inl ⟨f, c, key, trimSpace c, h1, h2, (trimSpace_iff c _).mp rfl, rfl⟩), rfl, rfl⟩
  · exact ⟨_, (C90_public_file P Y b _).mpr (.inr ⟨h1, d, key, h2, h3, h4, rfl⟩), rfl, rfl⟩

theorem getpw_cases (W : World) (nopw : Bool) (envpw pw : Bytes) :
    W.getpw nopw envpw = some (.ok pw) ↔ PassPhrase W nopw envpw pw := by
  unfold World.getpw
  constructor
  · intro h
    cases nopw with
    | true => simp at h; subst h; exact .none rfl
    | false =>
      simp only [Bool.false_eq_true, if_false, Option.some.injEq] at h
      split at h
      · rename_i he; cases h; exact .env rfl he
      · rename_i he; exact .typed pw rfl (by simpa using he) h
  · intro h
    cases h with
    | none h => simp [h]
    | env h1 h2 => simp [h1, h2]
    | typed _ h1 h2 h3 => simp [h1, h2, h3]

theorem sshPrivate_none {P : Prims} {raw secret : Bytes} {ask : Option (Except Err Bytes)} (h : SshPrivate P raw none secret) :
    SshPrivate P raw ask secret := by
  cases h with
  | plain opts priv h1 h2 => exact .plain opts priv h1 h2
  | locked c pw opts ct salt k rounds h => cases h

theorem private_iff (W : World) (nopw : Bool) (envpw b : Bytes) (sk : PrivateKey) :
    makePrivateKey W.D.P W.D.Y W.D.pem b (W.getpw nopw envpw) = .ok sk ↔
      ∃ secret, PrivateText W.D (PassPhrase W nopw envpw) b secret ∧ sk = privateOf W.D.P secret := by
  rw [C91_private]
  have hn : W.getpw nopw envpw ≠ none := by unfold World.getpw; simp
  constructor
  · rintro ⟨secret, h, rfl⟩
    refine ⟨secret, ?_, rfl⟩
    rcases h with ⟨h1, blk, h2, h3, h4, h5⟩ | ⟨h1, pw, d, h2, h3, h4⟩
    · refine .inl ⟨h1, blk, h2, h3, h4, ?_⟩
      cases h5 with
      | plain opts priv k1 k2 => exact .inl (.plain opts priv k1 k2)
      | locked c pw opts ct salt k rounds k1 k2 k3 k4 k5 k6 k7 =>
        exact .inr ⟨pw, (getpw_cases W nopw envpw pw).mp k1, .locked c pw opts ct salt k rounds rfl k2 k3 k4 k5 k6 k7⟩
    · rcases h2 with ⟨h2, _⟩ | h2
      · exact absurd h2 hn
      · exact .inr ⟨h1, pw, d, (getpw_cases W nopw envpw pw).mp h2, h3, h4⟩
  · rintro ⟨secret, h, rfl⟩
    refine ⟨secret, ?_, rfl⟩
    rcases h with ⟨h1, blk, h2, h3, h4, h5⟩ | ⟨h1, pw, d, h2, h3, h4⟩
    · refine .inl ⟨h1, blk, h2, h3, h4, ?_⟩
      rcases h5 with h5 | ⟨pw, hp, h5⟩
      · exact sshPrivate_none h5
      · rw [(getpw_cases W nopw envpw pw).mpr hp]; exact h5
    · exact .inr ⟨h1, pw, d, .inr ((getpw_cases W nopw envpw pw).mpr h2), h3, h4⟩

theorem privateFile_iff (W : World) (nopw : Bool) (envpw : Bytes) (kn : Path) (sk : PrivateKey) :
    (∃ b, W.fs.read kn = some b ∧ makePrivateKey W.D.P W.D.Y W.D.pem b (W.getpw nopw envpw) = .ok sk) ↔
      ∃ secret, PrivateFile W nopw envpw kn secret ∧ sk = privateOf W.D.P secret := by
  simp only [private_iff]
  constructor
  · rintro ⟨b, h1, s, h2, h3⟩; exact ⟨s, ⟨b, h1, h2⟩, h3⟩
  · rintro ⟨s, ⟨b, h1, h2⟩, h3⟩; exact ⟨b, h1, s, h2, h3⟩

theorem privateText_length {D : Deps} {phrase : Bytes → Prop} {b secret : Bytes} (h : PrivateText D phrase b secret) : secret.length = 64 := by
  have sec : ∀ s, SshSection s secret → secret.length = 64 := by
    rintro s ⟨_, _, _, _, _, _, _, _, _, _, _, _, _, _, h, _⟩; exact h
  have ssh : ∀ ask blk, SshPrivate D.P blk ask secret → secret.length = 64 := by
    intro ask blk h
    cases h with
    | plain _ _ _ h => exact sec _ h
    | locked _ _ _ _ _ _ _ _ _ _ _ _ _ h => exact sec _ h
  rcases h with ⟨_, blk, _, _, _, h | ⟨_, _, h⟩⟩ | ⟨_, _, _, _, _, h⟩
  · exact ssh _ _ h
  · exact ssh _ _ h
  · obtain ⟨_, _, _, _, _, _, _, _, _, _, h⟩ := h
    exact h

/-! ### verify -/

theorem keyArg_err (P : Prims) (arg : Bytes) :
    (∃ e, makePublicKeyFromString P arg = .err e) ↔ (¬ ∃ k, PublicArg arg k) ∧ ¬ ForeignField arg := by
  obtain ⟨hs, hn, hp⟩ := C90_public_string P arg
  match h : makePublicKeyFromString P arg with
  | .ok (some pk) =>
    refine ⟨fun ⟨e, h⟩ => (by cases h), fun ⟨h1, _⟩ => absurd ?_ h1⟩
    rcases (hs pk).mp h with ⟨k, h, _⟩ | ⟨h1, k, h2, h3, _⟩
    · exact ⟨k, .inl h⟩
    · exact ⟨k, .inr ⟨h1, h2, h3⟩⟩
  | .ok none => exact ⟨fun ⟨e, h⟩ => (by cases h), fun ⟨_, h1⟩ => absurd (hn.mp h) h1⟩
  | .panic w => exact absurd h (hp w)
  | .err e =>
    refine ⟨fun _ => ⟨?_, ?_⟩, fun _ => ⟨e, rfl⟩⟩
    · rintro ⟨k, hk | ⟨h1, h2, h3⟩⟩
      · rw [(hs _).mpr (.inl ⟨k, hk, rfl⟩)] at h; cases h
      · rw [(hs _).mpr (.inr ⟨h1, k, h2, h3, rfl⟩)] at h; cases h
    · intro hf; rw [hn.mpr hf] at h; cases h

theorem keyArg_iff (W : World) (arg : Bytes) (key : Bytes) :
    (∃ pk, KeyArg W.D W.fs arg pk ∧ PublicIs W.D.P key pk) ↔ VerifyKey W arg key := by
  obtain ⟨hs, hn, hp⟩ := C90_public_string W.D.P arg
  have herr := keyArg_err W.D.P arg
  constructor
  · rintro ⟨pk, h | ⟨h, b, h1, h2⟩, h3, h4⟩
    · refine .inl ?_
      rcases (hs pk).mp h with ⟨k, hk, rfl⟩ | ⟨h1, k, h2, h5, rfl⟩
      · cases h3; exact .inl hk
      · cases h3; exact .inr ⟨h1, h2, h5⟩
    · obtain ⟨a1, a2⟩ := herr.mp h
      subst h3
      exact .inr ⟨a1, a2, b, h1, (public_ok h2).1⟩
  · rintro (hk | ⟨h1, h2, b, h3, h4⟩)
    · rcases hk with hk | ⟨h1, h2, h3⟩
      · exact ⟨_, .inl ((hs _).mpr (.inl ⟨key, hk, rfl⟩)), rfl, rfl⟩
      · exact ⟨_, .inl ((hs _).mpr (.inr ⟨h1, key, h2, h3, rfl⟩)), rfl, rfl⟩
    · obtain ⟨pk, h5, h6⟩ := public_make (P := W.D.P) h4
      exact ⟨pk, .inr ⟨herr.mpr ⟨h1, h2⟩, b, h3, h5⟩, h6⟩

theorem keyArg_is {D : Deps} {fs : FS} {arg : Bytes} {pk : PublicKey} (h : KeyArg D fs arg pk) : PublicIs D.P pk.pk pk := by
  rcases h with h | ⟨_, b, _, h⟩
  · rcases ((C90_public_string D.P arg).1 pk).mp h with ⟨k, _, rfl⟩ | ⟨_, k, _, _, rfl⟩ <;> exact ⟨rfl, rfl⟩
  · exact (public_ok h).2

/-- **C92** (`verify`).  With options that parse, `verify` exits with 0 exactly if there are (at least) three arguments; the first is
the text of a public key or names a public key file, the second names a signature file that carries the hash of this key; the third
can be read (and mapped), and the signature is valid for it. -/
theorem C92_verify (W : World) (ho : W.order.Perm commands) (argv rest args : List Bytes) (hr : Runs W argv "verify" rest)
    (hf : W.flags.verify rest = .ok () args) :
    (W.main argv).exit = 0 ↔ ∃ pn sn fn more key sig content, args = pn :: sn :: fn :: more ∧ VerifyKey W pn key ∧
      SignatureFile W sn sig ((W.D.P.sha256 key).take 16) ∧ W.fs.read fn = some content ∧ W.mapErr = none ∧
      ValidFileSig W.D.P key content sig := by
  rw [(C66_dispatch W ho argv rest "verify" hr).2.2.1 rfl]
  unfold World.verify
  rw [hf]
  dsimp only
  rw [C48_exit_zero_iff]
  constructor
  · rintro ⟨pn, sn, fn, more, h1, h2, pk, sig, content, h3, h4, h5, h6, h7⟩
    obtain ⟨b, h8, h9⟩ := h4
    obtain ⟨d, k1, k2, k3⟩ := (C90_signature _ _ _).mp h9
    have hi := keyArg_is h3
    refine ⟨pn, sn, fn, more, pk.pk, sig.sig, content, h1, (keyArg_iff W pn pk.pk).mp ⟨pk, h3, hi⟩, ⟨b, d, h8, k1, k2, ?_⟩, h6, h2, h7⟩
    rw [← hi.2, h5]
    exact k3
  · rintro ⟨pn, sn, fn, more, key, sig, content, h1, h3, ⟨b, d, h8, k1, k2, k3⟩, h6, h2, h7⟩
    obtain ⟨pk, g1, g2⟩ := (keyArg_iff W pn key).mpr h3
    refine ⟨pn, sn, fn, more, h1, h2, pk, ⟨sig, (W.D.P.sha256 key).take 16⟩, content, g1, ⟨b, h8, ?_⟩, g2.2, h6, ?_⟩
    · exact (C90_signature _ _ _).mpr ⟨d, k1, k2, k3⟩
    · rw [g2.1]; exact h7

/-! ### sign -/

/-- **C92** (`sign`).  With options that parse, `sign` exits with 0 exactly if there are (at least) two arguments; the output is `-` or
can be created; the first argument names a private key file that opens; the second can be read (and mapped).  Failing writes do not
count: see C58. -/
theorem C92_sign (W : World) (ho : W.order.Perm commands) (argv rest args : List Bytes) (hr : Runs W argv "sign" rest)
    (o : SignOpts) (hf : W.flags.sign rest = .ok o args) :
    (W.main argv).exit = 0 ↔ ∃ kn fn more secret content, args = kn :: fn :: more ∧
      (sigTarget o.output fn = "-".toUTF8.toList ∨ Creatable W.fs W.env1 (sigTarget o.output fn) o.force) ∧
      PrivateFile W o.nopw o.envpw kn secret ∧ W.fs.read fn = some content ∧ W.mapErr = none := by
  have hd : "-".toUTF8.toList = ascii "-" := by decide +kernel
  rw [(C66_dispatch W ho argv rest "sign" hr).2.1 rfl, hd]
  unfold World.sign
  rw [hf]
  dsimp only
  match args with
  | [] => simp
  | [_] => simp
  | kn :: fn :: more =>
    dsimp only
    rw [C79_sign_iff]
    constructor
    · rintro ⟨h1, ⟨b, sk, h2, h3⟩, ⟨content, h4⟩, h5⟩
      obtain ⟨secret, h6, _⟩ := (privateFile_iff W o.nopw o.envpw kn sk).mp ⟨b, h2, h3⟩
      exact ⟨kn, fn, more, secret, content, rfl, h1, h6, h4, h5⟩
    · rintro ⟨kn', fn', more', secret, content, h0, h1, h2, h3, h4⟩
      cases h0
      obtain ⟨b, k1, k2⟩ := (privateFile_iff W o.nopw o.envpw kn _).mpr ⟨secret, h2, rfl⟩
      exact ⟨h1, ⟨b, _, k1, k2⟩, ⟨content, h3⟩, h4⟩

/-! ### generate -/

theorem writeFile_ok_iff {perm : Nat} (fs : FS) (env : SafeEnv) (target : Path) (content : Bytes) (force : Bool) (hw : Writes env) :
    (writeFile fs env perm target content force).1 = .ok () ↔ Creatable fs env target force ∧ Closes env := by
  have hcan := newSafeFile_ok_iff (perm := perm) fs env target force
  have hcl := closeCalls_ok_iff env target
  unfold writeFile
  match hn : newSafeFile fs env perm target force with
  | .panic w => exact absurd hn (newSafeFile_no_panic _ _ _ _ _)
  | .err e =>
    dsimp only
    constructor
    · intro h; cases h
    · rintro ⟨h, _⟩
      obtain ⟨c, hc⟩ := hcan.mpr h
      rw [hn] at hc; cases hc
  | .ok c =>
    have h1 : Creatable fs env target force := hcan.mp ⟨c, hn⟩
    dsimp only
    obtain ⟨w, h2, _⟩ := fullwrite_noFail content { script := env.writes } hw
    rw [h2]
    dsimp only
    match hm : closeCalls env target with
    | (some e, cl) =>
      rw [hm] at hcl
      dsimp only
      constructor
      · intro h; cases h
      · rintro ⟨_, h⟩
        have := hcl.mpr h
        cases this
    | (none, cl) =>
      rw [hm] at hcl
      exact ⟨fun _ => ⟨h1, hcl.mp rfl⟩, fun _ => rfl⟩

theorem genpw_iff (W : World) (nopw : Bool) (envpw pw : Bytes) : W.genpw nopw envpw = .ok pw ↔ PassPhrase W nopw envpw pw := by
  rw [← getpw_cases]
  unfold World.genpw World.getpw
  simp

/-- **C92** (`generate`).  With options that parse and files whose writes do not fail, `generate` exits with 0 exactly if there is an
argument, a pass phrase can be had, both files can be created, and fsync, close and rename succeed for both. -/
theorem C92_generate (W : World) (L : Laws W.D.P) (argv rest args : List Bytes) (hn : Normal W argv)
    (hr : Runs W argv "generate" rest) (o : GenOpts) (hf : W.flags.gen rest = .ok o args) (hw1 : Writes W.env1) (hw2 : Writes W.env2) :
    (W.main argv).exit = 0 ↔ ∃ bn more pw, args = bn :: more ∧ PassPhrase W o.nopw o.envpw pw ∧
      Creatable W.fs W.env1 (W.clean bn ++ ".key".toUTF8.toList) o.force ∧ Closes W.env1 ∧
      Creatable W.fs W.env2 (W.clean bn ++ ".pub".toUTF8.toList) o.force ∧ Closes W.env2 := by
  have e1 : ".key".toUTF8.toList = ascii ".key" := by decide +kernel
  have e2 : ".pub".toUTF8.toList = ascii ".pub" := by decide +kernel
  rw [(C66_dispatch W hn.order argv rest "generate" hr).1 rfl, e1, e2]
  unfold World.gen
  rw [hf]
  dsimp only
  match args, hf with
  | [], _ => simp
  | bn :: more, hf =>
    dsimp only
    have hm : ∀ pw, ∃ text, (newPrivateKey W.D.P W.seed).marshal W.D.P W.D.Y o.comment pw W.salt = .ok text := by
      intro pw
      unfold PrivateKey.marshal
      obtain ⟨k, hk⟩ := L.scrypt_ok (W.D.P.sha512 pw) W.salt
      rw [hk]
      exact ⟨_, rfl⟩
    have k1 := hn.out _ (Output.key rest o bn more hr hf)
    have p1 := hn.out _ (Output.pub rest o bn more hr hf)
    have hne : pubName (W.clean bn) ≠ keyName (W.clean bn) := by
      unfold pubName keyName
      intro h
      exact absurd (List.append_cancel_left h) (by decide)
    unfold genCmd
    by_cases hg : (!o.force && (W.fs.exists (pubName (W.clean bn)) || W.fs.exists (keyName (W.clean bn)))) = true
    · rw [if_pos hg]
      constructor
      · intro h; cases h
      · rintro ⟨bn', more', pw, h0, _, h1, _, h2, _⟩
        cases h0
        exfalso
        simp only [Bool.and_eq_true, Bool.not_eq_true', Bool.or_eq_true] at hg
        obtain ⟨g1, g2⟩ := hg
        unfold FS.exists pubName keyName at g2
        rcases g2 with g2 | g2
        · rcases h2.2 with h | ⟨h, _⟩
          · rw [h] at g2; cases g2
          · rw [g1] at h; cases h
        · rcases h1.2 with h | ⟨h, _⟩
          · rw [h] at g2; cases g2
          · rw [g1] at h; cases h
    · rw [if_neg hg]
      match hp : W.genpw o.nopw o.envpw with
      | .error e =>
        dsimp only
        constructor
        · intro h; cases h
        · rintro ⟨_, _, pw, _, h, _⟩
          rw [← genpw_iff, hp] at h; cases h
      | .ok pw =>
        dsimp only
        obtain ⟨text, ht⟩ := hm pw
        rw [ht]
        dsimp only
        have hw1' := writeFile_ok_iff (perm := 0o600) W.fs W.env1 (keyName (W.clean bn)) text o.force hw1
        obtain ⟨ok, hr1, hr2, _⟩ := writeFile_run (perm := 0o600) W.fs W.env1 (keyName (W.clean bn)) text o.force
        rcases hw : writeFile W.fs W.env1 0o600 (keyName (W.clean bn)) text o.force with ⟨r, cs⟩
        rw [hw] at hw1' hr1 hr2
        dsimp only at hw1' hr1 hr2
        have bad : r ≠ .ok () → ¬ ∃ bn' more' pw', bn :: more = bn' :: more' ∧ PassPhrase W o.nopw o.envpw pw' ∧
            Creatable W.fs W.env1 (W.clean bn' ++ ascii ".key") o.force ∧ Closes W.env1 ∧
            Creatable W.fs W.env2 (W.clean bn' ++ ascii ".pub") o.force ∧ Closes W.env2 := by
          rintro hr ⟨bn', more', pw', h0, _, h1, h2, _⟩
          cases h0
          exact hr (hw1'.mpr ⟨h1, h2⟩)
        cases r with
        | err x => exact ⟨fun h => (by cases h), fun h => absurd h (bad (by simp))⟩
        | panic x => exact ⟨fun h => (by cases h), fun h => absurd h (bad (by simp))⟩
        | ok u =>
          obtain ⟨c1, c2⟩ := hw1'.mp rfl
          have hok := hr2.mpr rfl
          subst hok
          dsimp only
          have hdir : (W.fs.run cs).dir (pubName (W.clean bn)) = W.fs.dir (pubName (W.clean bn)) := by
            rcases hr1 with ⟨⟩ | ⟨⟩ | ⟨⟩
            · exact (done_state W.fs W.env1 (keyName (W.clean bn)) text k1.1 hn.fresh1).2.2.2.2.1 _ hne p1.1
          have hw2' := writeFile_ok_iff (perm := 0o644) (W.fs.run cs) W.env2 (pubName (W.clean bn))
            ((newPrivateKey W.D.P W.seed).pub.marshal W.D.Y o.comment) o.force hw2
          have hcr : Creatable (W.fs.run cs) W.env2 (pubName (W.clean bn)) o.force ↔
              Creatable W.fs W.env2 (W.clean bn ++ ascii ".pub") o.force := by
            unfold Creatable
            rw [hdir]
            rfl
          rw [hcr] at hw2'
          rcases hw' : writeFile (W.fs.run cs) W.env2 0o644 (pubName (W.clean bn))
            ((newPrivateKey W.D.P W.seed).pub.marshal W.D.Y o.comment) o.force with ⟨r, cs2⟩
          rw [hw'] at hw2'
          dsimp only at hw2'
          have bad : r ≠ .ok () → ¬ ∃ bn' more' pw', bn :: more = bn' :: more' ∧ PassPhrase W o.nopw o.envpw pw' ∧
              Creatable W.fs W.env1 (W.clean bn' ++ ascii ".key") o.force ∧ Closes W.env1 ∧
              Creatable W.fs W.env2 (W.clean bn' ++ ascii ".pub") o.force ∧ Closes W.env2 := by
            rintro hr ⟨bn', more', pw', h0, _, _, _, h1, h2⟩
            cases h0
            exact hr (hw2'.mpr ⟨h1, h2⟩)
          cases r with
          | err x => exact ⟨fun h => (by cases h), fun h => absurd h (bad (by simp))⟩
          | panic x => exact ⟨fun h => (by cases h), fun h => absurd h (bad (by simp))⟩
          | ok u =>
            obtain ⟨d1, d2⟩ := hw2'.mp rfl
            exact ⟨fun _ => ⟨bn, more, pw, rfl, (genpw_iff _ _ _ _).mp hp, c1, c2, d1, d2⟩, fun _ => rfl⟩

/-! ### decrypt -/

theorem contains_congr {P : Prims} {input : Bytes} {sk : PrivateKey} {s1 s2 : Option PublicKey} {auth : Bool} {plain rest : Bytes}
    (h : ∀ k, (∃ pk, s1 = some pk ∧ pk.pk = k) → ∃ pk, s2 = some pk ∧ pk.pk = k)
    (hc : Contains P input sk s1 auth plain rest) : Contains P input sk s2 auth plain rest := by
  obtain ⟨hb, hd, key, body, ⟨a1, a2, a3, a4, a5, a6⟩, mid, fin, e, b1, b2, b3, b4⟩ := hc
  refine ⟨hb, hd, key, body, ⟨a1, a2, a3, a4, a5, ?_⟩, mid, fin, e, b1, b2, ?_, b4⟩
  · obtain ⟨sig, c1, c2⟩ := a6
    refine ⟨sig, c1, c2.imp id ?_⟩
    rintro ⟨d1, d2, pk, d3, d4, d5⟩
    obtain ⟨pk', e1, e2⟩ := h pk.pk ⟨pk, d3, rfl⟩
    exact ⟨d1, d2, pk', e1, by rw [e2]; exact d4, by rw [e2]; exact d5⟩
  · refine b3.imp id ?_
    rintro ⟨d1, d2, tr, d3, d4, d5⟩
    refine ⟨d1, d2, tr, d3, d4, fun ha => ?_⟩
    obtain ⟨pk, e1, e2⟩ := d5 ha
    obtain ⟨pk', e3, e4⟩ := h pk.pk ⟨pk, e1, rfl⟩
    exact ⟨pk', e3, by rw [e4]; exact e2⟩

theorem senderArg_named {W : World} {fn : Path} {spk : Option PublicKey} (h : SenderArg W.D W.fs fn spk) : NamedSender W fn spk := by
  rcases h with h | ⟨h1, b, p, h2, h3, h4⟩
  · exact .inl h
  · exact .inr ⟨h1, p.pk, p, ⟨b, h2, (public_ok h3).1⟩, (public_ok h3).2, h4⟩

theorem senderArg_of_named {W : World} {fn : Path} {spk : Option PublicKey} (h : NamedSender W fn spk) :
    ∃ spk', SenderArg W.D W.fs fn spk' ∧ ∀ k, (∃ pk, spk = some pk ∧ pk.pk = k) → ∃ pk, spk' = some pk ∧ pk.pk = k := by
  rcases h with ⟨h1, h2⟩ | ⟨h1, key, pk, ⟨b, h2, h3⟩, h4, h5⟩
  · exact ⟨none, .inl ⟨h1, rfl⟩, by rw [h2]; simp⟩
  · obtain ⟨p, h6, h7⟩ := public_make (P := W.D.P) h3
    refine ⟨some p, .inr ⟨h1, b, p, h2, h6, rfl⟩, ?_⟩
    rintro k ⟨q, hq, rfl⟩
    rw [h5] at hq; cases hq
    exact ⟨p, rfl, by rw [h7.1, h4.1]⟩

theorem decryptBody_iff (P : Prims) (L : Laws P) (rd : Reader) (sk : PrivateKey) (hl : 32 ≤ sk.sk.length) (spk : Option PublicKey)
    (w : Writer) (hw : w.NoFail) :
    exitOf (decryptBody P rd sk spk w).1 = 0 ↔ ∃ auth plain rest, Contains P rd.content sk spk auth plain rest := by
  constructor
  · intro h
    unfold decryptBody at h
    match hs : setupDecryptor P rd sk spk with
    | .err x => rw [hs] at h; cases h
    | .panic x => rw [hs] at h; cases h
    | .ok d =>
      rw [hs] at h
      dsimp only at h
      match he : d.decrypt P w with
      | (.err x, d1, w1) => rw [he] at h; cases h
      | (.panic x, d1, w1) => rw [he] at h; cases h
      | (.ok (), d1, w1) =>
        obtain ⟨p, h1, _⟩ := decrypt_indep P d d1 w w1 he
        exact ⟨d.auth, p, d1.rd.content, (C87_exact P L rd sk hl spk w hw _ _ _).mp ⟨d, d1, w1, hs, rfl, he, h1, rfl⟩⟩
  · rintro ⟨auth, plain, rest, h⟩
    obtain ⟨d, d1, w1, h1, _, h2, _⟩ := (C87_exact P L rd sk hl spk w hw _ _ _).mpr h
    unfold decryptBody
    rw [h1]
    dsimp only
    rw [h2]
    rfl

/-- **C92** (`decrypt`).  With options that parse and an output whose writes do not fail, `decrypt` exits with 0 exactly if the first
argument names a private key file that opens, the sender file (if named) holds a public key, the input is a container for these keys
(followed by anything), and there is `--test`, or the output is standard output or can be created.  (What is written then: C51.) -/
theorem C92_decrypt (W : World) (L : Laws W.D.P) (ho : W.order.Perm commands) (argv rest args : List Bytes)
    (hr : Runs W argv "decrypt" rest) (o : DecOpts) (hf : W.flags.dec rest = .ok o args) (hout : OutputWorks W o.outfile) :
    (W.main argv).exit = 0 ↔ (∃ plain, DecryptsTo W o args plain) ∧
      (o.test = true ∨ ToStdout o.outfile ∨ Creatable W.fs W.env1 o.outfile o.force) := by
  have hd : "-".toUTF8.toList = ascii "-" := by decide +kernel
  have hst : ToStdout o.outfile ↔ o.outfile = [] ∨ o.outfile = ascii "-" := by unfold ToStdout; rw [hd]
  rw [(C66_dispatch W ho argv rest "decrypt" hr).2.2.2.2.1 rfl]
  -- one call of the command
  have cmd : ∀ (key : Path) (infile : Path) (rd : Reader),
      (infile = [] ∨ infile = ascii "-" ∨ W.fs.exists infile = true) →
      ((decryptCmd W.D W.fs W.env1 W.stdout o.outfile o.force o.test key (W.getpw o.nopw o.envpw) o.sender infile rd).exit = 0 ↔
        (∃ plain secret spk auth rst, PrivateFile W o.nopw o.envpw key secret ∧ NamedSender W o.sender spk ∧
          Contains W.D.P rd.content (privateOf W.D.P secret) spk auth plain rst) ∧
        (o.test = true ∨ ToStdout o.outfile ∨ Creatable W.fs W.env1 o.outfile o.force)) := by
    intro key infile rd hex
    -- the body, given key and sender
    have body : ∀ sk spk, 32 ≤ sk.sk.length →
        ((if o.test then { exit := exitOf (decryptBody W.D.P rd sk spk {}).1 }
          else withOutput W.fs W.env1 0o600 W.stdout o.outfile o.force (decryptBody W.D.P rd sk spk) : Outcome).exit = 0 ↔
        (∃ auth plain rst, Contains W.D.P rd.content sk spk auth plain rst) ∧
        (o.test = true ∨ ToStdout o.outfile ∨ Creatable W.fs W.env1 o.outfile o.force)) := by
      intro sk spk hl
      cases ht : o.test with
      | true =>
        simp only [if_true, true_or, and_true]
        exact decryptBody_iff W.D.P L rd sk hl spk {} (by intro k e; simp)
      | false =>
        simp only [Bool.false_eq_true, if_false, false_or]
        unfold withOutput
        by_cases hso : ToStdout o.outfile
        · rw [if_pos (hst.mp hso)]
          dsimp only
          rw [decryptBody_iff W.D.P L rd sk hl spk W.stdout (hout.1 hso)]
          simp [hso]
        · rw [if_neg (fun h => hso (hst.mpr h))]
          have hcan := newSafeFile_ok_iff (perm := 0o600) W.fs W.env1 o.outfile o.force
          match hn : newSafeFile W.fs W.env1 0o600 o.outfile o.force with
          | .panic w => exact absurd hn (newSafeFile_no_panic _ _ _ _ _)
          | .err e =>
            dsimp only
            constructor
            · intro h; cases h
            · rintro ⟨_, h | h⟩
              · exact absurd h hso
              · obtain ⟨c, hc⟩ := hcan.mpr h
                rw [hn] at hc; cases hc
          | .ok c =>
            dsimp only
            rw [decryptBody_iff W.D.P L rd sk hl spk (W.env1.writer o.outfile) (hout.2 hso)]
            have : Creatable W.fs W.env1 o.outfile o.force := hcan.mp ⟨c, hn⟩
            simp [this]
    constructor
    · intro h
      rcases decryptCmd_cases W.D W.fs W.env1 W.stdout o.outfile o.force o.test key (W.getpw o.nopw o.envpw) o.sender infile rd with
        ⟨n, hn, h1⟩ | ⟨sk, spk, h1, h2, h3⟩
      · rw [h1] at h; exact absurd h hn
      · rw [h3] at h
        obtain ⟨secret, h4, rfl⟩ := (privateFile_iff W o.nopw o.envpw key sk).mp h1
        have hl : secret.length = 64 := by obtain ⟨b, _, h5⟩ := h4; exact privateText_length h5
        obtain ⟨⟨auth, plain, rst, k1⟩, k2⟩ := (body _ spk (by unfold privateOf; dsimp only; omega)).mp h
        exact ⟨⟨plain, secret, spk, auth, rst, h4, senderArg_named h2, k1⟩, k2⟩
    · rintro ⟨⟨plain, secret, spk, auth, rst, h1, h2, h3⟩, h4⟩
      obtain ⟨spk', g1, g2⟩ := senderArg_of_named h2
      have hl : secret.length = 64 := by obtain ⟨b, _, h5⟩ := h1; exact privateText_length h5
      have hb := (body (privateOf W.D.P secret) spk' (by unfold privateOf; dsimp only; omega)).mpr
        ⟨⟨auth, plain, rst, contains_congr g2 h3⟩, h4⟩
      obtain ⟨b, k1, k2⟩ := (privateFile_iff W o.nopw o.envpw key _).mpr ⟨secret, h1, rfl⟩
      have hkey : readPrivateKey W.D W.fs key (W.getpw o.nopw o.envpw) = .ok (privateOf W.D.P secret) :=
        (readPrivateKey_ok _ _ _ _ _).mpr ⟨b, k1, k2⟩
      have hpk : (if o.sender = [] then (.ok none : Res (Option PublicKey)) else
          (readPublicKey W.D W.fs o.sender).bind fun pk => .ok (some pk)) = .ok spk' := by
        rcases g1 with ⟨a, rfl⟩ | ⟨a, b, p, c1, c2, rfl⟩
        · rw [if_pos a]
        · rw [if_neg a, (readPublicKey_ok _ _ _ _).mpr ⟨b, c1, c2⟩, Res.bind_ok]
      unfold decryptCmd
      rw [hkey]
      dsimp only
      rw [hpk]
      dsimp only
      rw [if_neg (by
        rintro ⟨a, b, c⟩
        rcases hex with h | h | h
        · exact a h
        · exact b h
        · rw [h] at c; cases c)]
      exact hb
  unfold World.decrypt
  rw [hf]
  dsimp only
  match args with
  | [] =>
    dsimp only
    constructor
    · intro h; cases h
    · rintro ⟨⟨p, _, _, _, _, _, _, h, _⟩, _⟩; cases h
  | [key] =>
    dsimp only
    rw [cmd key (ascii "-") W.stdin (.inr (.inl rfl))]
    refine and_congr_left fun _ => ⟨?_, ?_⟩
    · rintro ⟨plain, secret, spk, auth, rst, h⟩
      exact ⟨plain, key, _, secret, spk, auth, rst, .stdin key, h⟩
    · rintro ⟨plain, key', rd, secret, spk, auth, rst, h0, h⟩
      cases h0
      exact ⟨plain, secret, spk, auth, rst, h⟩
  | key :: infile :: more =>
    dsimp only
    by_cases hi : infile = []
    · rw [if_pos hi]
      subst hi
      have : ¬ ∃ plain, DecryptsTo W o (key :: [] :: more) plain := by
        rintro ⟨plain, key', rd, secret, spk, auth, rst, h0, h⟩
        cases h0 with
        | file _ _ _ h' => exact h' rfl
      constructor
      · intro h
        split at h
        · cases h
        · cases h
        · split at h
          · cases h
          · split at h <;> cases h
      · rintro ⟨h, _⟩; exact absurd h this
    · rw [if_neg hi]
      unfold World.input
      by_cases hdash : infile = ascii "-"
      · rw [if_pos hdash, cmd key infile W.stdin (.inr (.inl hdash))]
        subst hdash
        refine and_congr_left fun _ => ⟨?_, ?_⟩
        · rintro ⟨plain, secret, spk, auth, rst, h⟩
          exact ⟨plain, key, _, secret, spk, auth, rst, .dash key more, h⟩
        · rintro ⟨plain, key', rd, secret, spk, auth, rst, h0, h⟩
          cases h0 with
          | dash => exact ⟨plain, secret, spk, auth, rst, h⟩
          | file _ _ _ _ h' => exact absurd rfl h'
      · rw [if_neg hdash]
        by_cases hex : W.fs.exists infile = true
        · rw [cmd key infile _ (.inr (.inr hex))]
          refine and_congr_left fun _ => ⟨?_, ?_⟩
          · rintro ⟨plain, secret, spk, auth, rst, h⟩
            exact ⟨plain, key, _, secret, spk, auth, rst, .file key infile more hi hdash hex, h⟩
          · rintro ⟨plain, key', rd, secret, spk, auth, rst, h0, h⟩
            cases h0 with
            | dash => exact absurd rfl hdash
            | file => exact ⟨plain, secret, spk, auth, rst, h⟩
        · have hnx : W.fs.exists infile = false := by cases h : W.fs.exists infile <;> simp_all
          constructor
          · intro h
            exfalso
            unfold decryptCmd at h
            split at h
            · cases h
            · cases h
            · dsimp only at h
              split at h
              · cases h
              · cases h
              · rw [if_pos ⟨hi, hdash, hnx⟩] at h; cases h
          · rintro ⟨⟨plain, key', rd, secret, spk, auth, rst, h0, h⟩, _⟩
            exfalso
            cases h0 with
            | dash => exact absurd rfl hdash
            | file _ _ _ _ _ h' => exact hex h'

end Sigtool
