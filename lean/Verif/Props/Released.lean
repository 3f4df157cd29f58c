import Verif.Spec.Released
import Verif.Props.Accepts
import Verif.Props.Perm
import Verif.Props.SuccessEnc
import Verif.Props.Main
/-!
# C138: what leaves `sigtool decrypt`, finished or not
-/

namespace Sigtool
open Spec

theorem decryptBody_released (P : Prims) (L : Laws P) (rd : Reader) (sk : PrivateKey) (hl : 32 ≤ sk.sk.length)
    (spk : Option PublicKey) (w w' : Writer) (r : Res Nat) (h : decryptBody P rd sk spk w = (r, w')) :
    w'.out = w.out ∨ ∃ p, w'.out = w.out ++ p ∧ Released P rd.content sk spk p := by
  unfold decryptBody at h
  match hs : setupDecryptor P rd sk spk with
  | .err x => rw [hs] at h; cases h; exact .inl rfl
  | .panic x => rw [hs] at h; cases h; exact .inl rfl
  | .ok d =>
    rw [hs] at h
    dsimp only at h
    match hdec : d.decrypt P w with
    | (res, d1, w1) =>
      obtain ⟨key, k1, frames, rest, p, k2, k3, k4, k5, _⟩ := C54_only_authenticated P L rd sk spk d hs w res d1 w1 hdec
      obtain ⟨hb, ho, hsum⟩ := (setup_iff P L rd sk hl spk d.hdr key d.auth d.rd.content d.hdrsum).mp
        ⟨d, hs, rfl, k1, rfl, rfl, rfl⟩
      have hw : w'.out = w1.out := by
        rw [hdec] at h
        cases res <;> cases h
        · rfl
        · rfl
        · rfl
      right
      refine ⟨p, by rw [hw, k4], hb, d.hdr, key, d.auth, d.rd.content, frames.map (fun f => ⟨f.word, f.ct, f.pt⟩), rest, ho, ?_, ?_, ?_⟩
      · rw [k2, List.flatMap_def, List.map_map]; rfl
      · intro j f hf
        rw [List.getElem?_map, Option.map_eq_some_iff] at hf
        obtain ⟨g, hg, rfl⟩ := hf
        obtain ⟨a, b, c, e⟩ := k3 j g hg
        rw [hsum] at b
        exact ⟨a, b, c, e⟩
      · rw [List.map_map]; exact k5

/-- A body that writes only what `ok` allows, over an output. -/
theorem withOutput_writes (fs : FS) (env : SafeEnv) (perm : Nat) (stdout : Writer) (hstd : stdout.out = []) (outfile : Path) (force : Bool)
    (body : Writer → Res Nat × Writer) (ok : Bytes → Prop) (shrink : ∀ a b, ok b → a <+: b → ok a)
    (hb : ∀ w r w', body w = (r, w') → w'.out = w.out ∨ ∃ p, w'.out = w.out ++ p ∧ ok p) :
    Silent fs (withOutput fs env perm stdout outfile force body) ∨
    WritesOnly fs (withOutput fs env perm stdout outfile force body) ok := by
  have quiet : ∀ n, Silent fs { exit := n } := by
    intro n
    refine ⟨rfl, fun pre hp i => .inl ?_⟩
    have : pre = [] := List.prefix_nil.mp hp
    rw [this]; rfl
  unfold withOutput
  split
  · match hbody : body stdout with
    | (r, w) =>
      dsimp only
      right
      constructor
      · rcases hb _ _ _ hbody with k | ⟨p, k, k2⟩
        · left; show w.out = []; rw [k, hstd]
        · right; show ok w.out; rw [k, hstd]; exact k2
      · intro pre hp i
        left
        have : pre = [] := List.prefix_nil.mp hp
        rw [this]; rfl
  · split
    · exact .inl (quiet _)
    · exact .inl (quiet _)
    · match hbody : body (env.writer outfile) with
      | (r, w) =>
        dsimp only
        have hone : ∀ pre, pre <+: safeCalls env perm outfile w false → OneFile env.tmp env.inode perm w.out pre :=
          fun pre hp => (safeCalls_oneFile env perm outfile w false w.out (List.prefix_refl _)).pre hp
        have hwr : (env.writer outfile).out = [] := rfl
        rcases hb _ _ _ hbody with k | ⟨p, k, k2⟩
        · left
          refine ⟨rfl, fun pre hp i => ?_⟩
          obtain ⟨a, b⟩ := (hone pre hp).run fs
          by_cases hi : i = env.inode
          · subst hi
            rcases b with b | b
            · exact .inl b.2
            · right
              rw [k, hwr] at b
              exact List.prefix_nil.mp b.2
          · exact .inl (a i hi).2
        · right
          refine ⟨.inl rfl, fun pre hp i => ?_⟩
          obtain ⟨a, b⟩ := (hone pre hp).run fs
          by_cases hi : i = env.inode
          · subst hi
            rcases b with b | b
            · exact .inl b.2
            · right
              rw [k, hwr, List.nil_append] at b
              exact shrink _ _ k2 b.2
          · exact .inl (a i hi).2

theorem Silent.exit (fs : FS) (n : Nat) : Silent fs { exit := n } := by
  refine ⟨rfl, fun pre hp i => .inl ?_⟩
  have : pre = [] := List.prefix_nil.mp hp
  rw [this]; rfl

/-- The same for the command. -/
theorem decryptCmd_released (D : Deps) (L : Laws D.P) (fs : FS) (env : SafeEnv) (stdout : Writer) (hstd : stdout.out = [])
    (outfile : Path) (force test : Bool) (keyfile : Path) (getpw : GetPw) (pubkey infile : Path) (rd : Reader) :
    Silent fs (decryptCmd D fs env stdout outfile force test keyfile getpw pubkey infile rd) ∨
    ∃ sk spk, (∃ b, fs.read keyfile = some b ∧ makePrivateKey D.P D.Y D.pem b getpw = .ok sk) ∧ SenderArg D fs pubkey spk ∧
      WritesOnly fs (decryptCmd D fs env stdout outfile force test keyfile getpw pubkey infile rd) (Released D.P rd.content sk spk) := by
  rcases decryptCmd_cases D fs env stdout outfile force test keyfile getpw pubkey infile rd with ⟨n, _, h⟩ | ⟨sk, spk, h1, h2, h⟩
  · rw [h]; exact .inl (Silent.exit fs n)
  · rw [h]
    split
    · exact .inl (Silent.exit fs _)
    · have hl : 32 ≤ sk.sk.length := by
        obtain ⟨b, _, hb⟩ := h1
        have := (C37_private _ _ _ _ _ _ hb).1
        omega
      have shrink : ∀ a b, Released D.P rd.content sk spk b → a <+: b → Released D.P rd.content sk spk a := by
        rintro a b ⟨hb, h, key, auth, body, pieces, rest, k1, k2, k3, k4⟩ hab
        exact ⟨hb, h, key, auth, body, pieces, rest, k1, k2, k3, hab.trans k4⟩
      rcases withOutput_writes fs env 0o600 stdout hstd outfile force _ _ shrink
        (fun w r w' hb => decryptBody_released D.P L rd sk hl spk w w' r hb) with k | k
      · exact .inl k
      · exact .inr ⟨sk, spk, h1, h2, k⟩

/-- **C138** (`decrypt`).  Whatever `decrypt` does and however it ends — success, a wrong key, a container damaged anywhere, a
failing destination, a crash, the power going out — either it has written nothing; or its first argument names a private key
file that opens, `-v` (if given) names a public key, the header of the input opens for that private key and is acceptable for that
sender, and all that ever was in standard output or in a file written by it is a beginning of what genuine chunks at the start of the
input, each in its place, decrypt to.  It never writes a byte that is not authenticated, and no byte twice or out of order. -/
theorem C138_decrypt (W : World) (L : Laws W.D.P) (ho : W.order.Perm commands) (argv rest args : List Bytes)
    (hr : Runs W argv "decrypt" rest) (o : DecOpts) (hf : W.flags.dec rest = .ok o args) (hstd : W.stdout.out = []) :
    Silent W.fs (W.main argv) ∨
    ∃ key rd secret spk, DecArgs W args key rd ∧ PrivateFile W o.nopw o.envpw key secret ∧ NamedSender W o.sender spk ∧
      WritesOnly W.fs (W.main argv) (Released W.D.P rd.content (privateOf W.D.P secret) spk) := by
  rw [(C66_dispatch W ho argv rest "decrypt" hr).2.2.2.2.1 rfl]
  have cmd : ∀ key infile rd, DecArgs W args key rd →
      (Silent W.fs (decryptCmd W.D W.fs W.env1 W.stdout o.outfile o.force o.test key (W.getpw o.nopw o.envpw) o.sender infile rd) ∨
      ∃ kf rd' secret spk, DecArgs W args kf rd' ∧ PrivateFile W o.nopw o.envpw kf secret ∧ NamedSender W o.sender spk ∧
        WritesOnly W.fs (decryptCmd W.D W.fs W.env1 W.stdout o.outfile o.force o.test key (W.getpw o.nopw o.envpw) o.sender infile rd)
          (Released W.D.P rd'.content (privateOf W.D.P secret) spk)) := by
    intro key infile rd hargs
    rcases decryptCmd_released W.D L W.fs W.env1 W.stdout hstd o.outfile o.force o.test key (W.getpw o.nopw o.envpw) o.sender infile rd
      with h | ⟨sk, spk, h1, h2, h3⟩
    · exact .inl h
    · obtain ⟨secret, h4, rfl⟩ := (privateFile_iff W o.nopw o.envpw key sk).mp h1
      exact .inr ⟨key, rd, secret, spk, hargs, h4, senderArg_named h2, h3⟩
  unfold World.decrypt
  rw [hf]
  dsimp only
  match args with
  | [] => exact .inl (Silent.exit _ _)
  | [key] => exact cmd key (ascii "-") W.stdin (.stdin key)
  | key :: infile :: more =>
    dsimp only
    by_cases hi : infile = []
    · rw [if_pos hi]
      left
      split
      · exact Silent.exit _ _
      · exact Silent.exit _ _
      · split
        · exact Silent.exit _ _
        · split <;> exact Silent.exit _ _
    · rw [if_neg hi]
      by_cases hdash : infile = ascii "-"
      · subst hdash
        have : W.input (ascii "-") = W.stdin := by unfold World.input; rw [if_pos rfl]
        rw [this]
        exact cmd key (ascii "-") W.stdin (.dash key more)
      · have hin : W.input infile = W.opened infile := by unfold World.input; rw [if_neg hdash]
        rw [hin]
        cases hex : W.fs.exists infile with
        | true => exact cmd key infile _ (.file key infile more hi hdash hex)
        | false =>
          left
          unfold decryptCmd
          split
          · exact Silent.exit _ _
          · exact Silent.exit _ _
          · dsimp only
            split
            · exact Silent.exit _ _
            · exact Silent.exit _ _
            · rw [if_pos ⟨hi, hdash, hex⟩]; exact Silent.exit _ _

/-! ### encrypt -/

theorem encryptBody_part (D : Deps) (L : Laws D.P) (fs : FS) (keys : List PublicKey) (sk : Option PrivateKey) (blk : Nat)
    (c : EncCoins) (hc : c.WF) (rcpts : List (Bytes × Bytes)) (rd : Reader) (coin : Bytes)
    (w w' : Writer) (r : Res Nat) (h : encryptBody D fs keys sk blk c rcpts rd coin w = (r, w')) :
    w'.out = w.out ∨ ∃ p, w'.out = w.out ++ p ∧ ∃ pks hdr, List.Forall₂ (fun r pk => Denotes D fs keys r.1 pk) rcpts pks ∧
      SessionHeader D.P sk blk c (pks.zip (rcpts.map (·.2))) hdr ∧
      p <+: container D.P hdr c.key (encryptChunks (effectiveBlock blk) rd.content)
        (trailerFor D.P sk c hdr (encryptChunks (effectiveBlock blk) rd.content) coin) := by
  unfold encryptBody at h
  match hs : ((newEncryptor D.P sk blk c).bind fun e => addAll D fs keys e 0 rcpts) with
  | .err x => rw [hs] at h; cases h; exact .inl rfl
  | .panic x => rw [hs] at h; cases h; exact .inl rfl
  | .ok (e, m) =>
    rw [hs] at h
    dsimp only at h
    split at h
    · cases h; exact .inl rfl
    · rename_i hn
      have hn0 : m = 0 := by omega
      subst hn0
      obtain ⟨pks, hden, hset⟩ := setup_addAll D fs keys sk blk c rcpts e hs
      obtain ⟨epk, ws, hok⟩ := setupEncryptor_ok D.P L sk blk c _ e hc hset
      have hf := hok.fresh L
      have e4 : e.key = c.key := by rw [hok.enc]
      have e5 : e.hdr.chunkSize = effectiveBlock blk := by rw [hok.enc, ← chooseBlock_eq]
      have etr : e.trailerOf D.P (e.keys D.P).2.2 (macInput (encryptChunks (effectiveBlock blk) rd.content)) coin =
          trailerFor D.P sk c e.hdr (encryptChunks (effectiveBlock blk) rd.content) coin := by
        cases sk with
        | none =>
          have : e.auth = false := by rw [hok.enc]; rfl
          simp [Encryptor.trailerOf, trailerFor, this]
        | some s =>
          have h2 : e.auth = true := by rw [hok.enc]; rfl
          have h3 : e.sender = some s := by rw [hok.enc]
          simp only [Encryptor.trailerOf, trailerFor, h2, h3, Encryptor.keys, e4]
          rfl
      have hfull : e.fullContainer D.P (encryptChunks (effectiveBlock blk) rd.content) coin =
          container D.P e.hdr c.key (encryptChunks (effectiveBlock blk) rd.content)
            (trailerFor D.P sk c e.hdr (encryptChunks (effectiveBlock blk) rd.content) coin) := by
        rw [← etr, ← e4]
      obtain ⟨r1, e1, rd1, w1, k1, k2, _⟩ := encrypt_outcome D.P L e rd w coin hf
      rw [k1] at h
      have hw : w'.out = w1.out := by
        cases r1 <;> cases h
        · rfl
        · rfl
        · rfl
      right
      rw [hw]
      cases k2 with
      | complete h1 h2 h3 h4 =>
        rw [e5] at h3
        exact ⟨_, h3, pks, e.hdr, hden, hok.session, by rw [hfull]⟩
      | writeFailed h1 x h2 h3 p h4 h5 h6 =>
        rw [e5] at h5
        exact ⟨p, h4, pks, e.hdr, hden, hok.session, by rw [← hfull]; exact h5⟩
      | readFailed h1 x h2 h3 p h4 h5 h6 =>
        refine ⟨p, h4, pks, e.hdr, hden, hok.session, h5.trans ?_⟩
        rw [e4, e5]
        exact openContainer_prefix D.P _ _ _ (encryptChunks_ne_nil _ _) _

theorem zipIdx_fst (names : List Bytes) (f : Nat → Bytes) : (names.zipIdx.map fun a => (a.1, f a.2)).map (·.1) = names := by
  rw [List.map_map]
  exact List.zipIdx_map_fst 0 names

theorem zipIdx_snd (names : List Bytes) (f : Nat → Bytes) :
    (names.zipIdx.map fun a => (a.1, f a.2)).map (·.2) = (List.range names.length).map f := by
  rw [List.map_map]
  have : ((fun x : Bytes × Bytes => x.2) ∘ fun a : Bytes × Nat => (a.1, f a.2)) = f ∘ Prod.snd := rfl
  rw [this, ← List.map_map, List.zipIdx_map_snd]
  simp [List.range_eq_range']

/-- **C138** (`encrypt`).  Whatever `encrypt` does and however it ends, either it has written nothing; or its options and arguments are
in order — the block size parses, the key of `-s` opens, every recipient argument stands for a key — and all that ever was in
standard output or in a file written by it is a beginning of the one container of the input for these recipients, signed by that key or
by nobody.  In particular no byte of the input, of a private key or of a random number is ever written except as that container says. -/
theorem C138_encrypt (W : World) (L : Laws W.D.P) (argv rest args : List Bytes) (hn : Normal W argv)
    (hr : Runs W argv "encrypt" rest) (o : EncOpts) (hf : W.flags.enc rest = .ok o args) (hstd : W.stdout.out = []) :
    Silent W.fs (W.main argv) ∨
    ∃ names infile rd blk home sender, args = names ++ [infile] ∧ names ≠ [] ∧ Input W infile rd ∧
      W.parseSize o.blocksize = some blk ∧ W.home = some home ∧
      ((o.sign = [] ∧ sender = none) ∨
        (o.sign ≠ [] ∧ ∃ secret, PrivateFile W o.nopw o.envpw o.sign secret ∧ sender = some (privateOf W.D.P secret))) ∧
      WritesOnly W.fs (W.main argv)
        (PartOf W blk ((W.fs.read (home ++ "/.ssh/authorized_keys".toUTF8.toList)).getD []) sender names rd.content) := by
  have ha : "/.ssh/authorized_keys".toUTF8.toList = ascii "/.ssh/authorized_keys" := by decide +kernel
  have hc : W.coins.WF := ⟨hn.coins.1, hn.coins.2.1, hn.coins.2.2⟩
  rw [(C66_dispatch W hn.order argv rest "encrypt" hr).2.2.2.1 rfl, ha]
  unfold World.encrypt
  rw [hf]
  dsimp only
  rcases encryptCmd_cases W.D W.fs W.env1 W.stdout o.outfile o.force o.sign (W.getpw o.nopw o.envpw) (W.parseSize o.blocksize)
    (W.home.map fun h => h ++ ascii "/.ssh/authorized_keys") (args.dropLast.zipIdx.map fun a => (a.1, W.rbuf a.2)) (args.getLastD [])
    (W.input (args.getLastD [])) W.coins W.coin with ⟨n, _, h1⟩ | ⟨blk, sk, auth, h1, h2, h3, h4, h5⟩
  · rw [h1]; exact .inl (Silent.exit _ _)
  · rw [h5]
    obtain ⟨home, hh, rfl⟩ := Option.map_eq_some_iff.mp h2
    have hne : args.dropLast ≠ [] := by
      intro h; rw [h] at h3; exact h3 rfl
    have hargs : args = args.dropLast ++ [args.getLastD []] := by
      have hne' : args ≠ [] := by rintro rfl; exact hne rfl
      rw [List.getLastD_eq_getLast?, List.getLast?_eq_some_getLast hne']
      exact (List.dropLast_append_getLast hne').symm
    generalize hrd : W.input (args.getLastD []) = rd
    have hin : Input W (args.getLastD []) rd := by
      rw [← hrd]
      unfold World.input
      split
      · rename_i h; rw [h]; exact .stdin
      · rename_i h; exact .file _ h
    rcases withOutput_writes W.fs W.env1 0o600 W.stdout hstd o.outfile o.force _
      (PartOf W blk ((W.fs.read (home ++ ascii "/.ssh/authorized_keys")).getD []) sk args.dropLast rd.content)
      (fun a b ⟨pks, hdr, k1, k2, k3⟩ hab => ⟨pks, hdr, k1, k2, hab.trans k3⟩)
      (fun w r w' hb => by
        rcases encryptBody_part W.D L W.fs _ sk blk W.coins hc _ rd W.coin w w' r hb with k | ⟨p, k, pks, hdr, k1, k2, k3⟩
        · exact .inl k
        · refine .inr ⟨p, k, pks, hdr, ?_, ?_, by rw [show hdr.chunkSize = effectiveBlock blk from k2.chunkSize]; exact k3⟩
          · have : List.Forall₂ (fun a pk => Denotes W.D W.fs (parseAuthorizedKeys W.D.P ((W.fs.read (home ++ ascii "/.ssh/authorized_keys")).getD [])) a pk)
                ((args.dropLast.zipIdx.map fun a => (a.1, W.rbuf a.2)).map (·.1)) pks := List.forall₂_map_left_iff.mpr k1
            rw [zipIdx_fst] at this
            exact this.imp fun a pk hd => (denotes_recipient W _ a pk hd).1
          · rw [zipIdx_snd] at k2; exact k2) with k | k
    · exact .inl k
    · refine .inr ⟨args.dropLast, args.getLastD [], rd, blk, home, sk, hargs, hne, hin, h1, hh, ?_, k⟩
      rcases h4 with h4 | ⟨h6, s, h7, h8⟩
      · exact .inl h4
      · obtain ⟨secret, h9, h10⟩ := (privateFile_iff W o.nopw o.envpw o.sign s).mp ((readPrivateKey_ok _ _ _ _ _).mp h8)
        exact .inr ⟨h6, secret, h9, by rw [h7, h10]⟩

/-! ### sign, generate, and the others -/

theorem oneFile_writes (fs : FS) (o : Outcome) (hs : o.stdout = []) {tmp : Path} {i perm : Nat} {out : Bytes} (h : OneFile tmp i perm out o.sys)
    (ok : Bytes → Prop) (hok : ∀ b, b <+: out → ok b) : WritesOnly fs o ok := by
  refine ⟨.inl hs, fun pre hp j => ?_⟩
  obtain ⟨a, b⟩ := (h.pre hp).run fs
  by_cases hj : j = i
  · subst hj
    rcases b with b | b
    · exact .inl b.2
    · exact .inr (hok _ b.2)
  · exact .inl (a j hj).2

theorem oneFile_silent (fs : FS) (o : Outcome) (hs : o.stdout = []) {tmp : Path} {i perm : Nat} (h : OneFile tmp i perm [] o.sys) :
    Silent fs o := by
  refine ⟨hs, fun pre hp j => ?_⟩
  obtain ⟨a, b⟩ := (h.pre hp).run fs
  by_cases hj : j = i
  · subst hj
    rcases b with b | b
    · exact .inl b.2
    · exact .inr (List.prefix_nil.mp b.2)
  · exact .inl (a j hj).2

theorem prefix_cases {α : Type} {p a b : List α} (h : p <+: a ++ b) : p <+: a ∨ ∃ q, p = a ++ q ∧ q <+: b := by
  obtain ⟨t, ht⟩ := h
  rcases List.append_eq_append_iff.mp ht with ⟨c, h1, h2⟩ | ⟨c, h1, h2⟩
  · exact .inl ⟨c, h1.symm⟩
  · exact .inr ⟨c, h1, ⟨t, h2.symm⟩⟩

theorem write_prefix (w : Writer) (b : Bytes) : ∃ p, (w.write b).2.2.out = w.out ++ p ∧ p <+: b := by
  unfold Writer.write
  split
  · exact ⟨b, rfl, List.prefix_refl _⟩
  · exact ⟨b, rfl, List.prefix_refl _⟩
  · exact ⟨_, rfl, List.take_prefix _ _⟩
  · exact ⟨_, rfl, List.take_prefix _ _⟩

/-- **C138** (`sign`).  However `sign` ends, either it has written nothing; or its arguments name a private key file that opens and a
readable file, and all that ever was in standard output or in a file written by it is a beginning of the text of the signature. -/
theorem C138_sign (W : World) (ho : W.order.Perm commands) (argv rest args : List Bytes)
    (hr : Runs W argv "sign" rest) (o : SignOpts) (hf : W.flags.sign rest = .ok o args) (hstd : W.stdout.out = []) :
    Silent W.fs (W.main argv) ∨
    ∃ kn fn more secret content, args = kn :: fn :: more ∧ PrivateFile W o.nopw o.envpw kn secret ∧ W.fs.read fn = some content ∧
      WritesOnly W.fs (W.main argv) (· <+: sigTextOf W.D secret fn content) := by
  rw [(C66_dispatch W ho argv rest "sign" hr).2.1 rfl]
  unfold World.sign
  rw [hf]
  match args with
  | [] => exact .inl (Silent.exit _ _)
  | [_] => exact .inl (Silent.exit _ _)
  | kn :: fn :: more =>
    dsimp only
    have text : ∀ t, sigText W.D W.fs (W.getpw o.nopw o.envpw) W.mapErr kn fn = .ok t → ∃ secret content,
        PrivateFile W o.nopw o.envpw kn secret ∧ W.fs.read fn = some content ∧ t = sigTextOf W.D secret fn content := by
      intro t hT
      obtain ⟨_, sk, content, h1, hc, ht⟩ := (sigText_ok _ _ _ _ _ _ _).mp hT
      obtain ⟨secret, h4, rfl⟩ := (privateFile_iff W o.nopw o.envpw kn sk).mp h1
      exact ⟨secret, content, h4, hc, ht⟩
    rw [signCmd_eq]
    by_cases hd : sigTarget o.output fn = ascii "-"
    · rw [if_pos hd]
      match hT : sigText W.D W.fs (W.getpw o.nopw o.envpw) W.mapErr kn fn with
      | .err _ => exact .inl (Silent.exit _ _)
      | .panic _ => exact .inl (Silent.exit _ _)
      | .ok t =>
        obtain ⟨secret, content, h1, h2, h3⟩ := text t hT
        refine .inr ⟨kn, fn, more, secret, content, rfl, h1, h2, .inr ?_, fun pre hp i => .inl ?_⟩
        · obtain ⟨p, k1, k2⟩ := write_prefix W.stdout t
          show (W.stdout.write t).2.2.out <+: _
          rw [k1, hstd, ← h3]
          exact k2
        · have : pre = [] := List.prefix_nil.mp hp
          rw [this]; rfl
    · rw [if_neg hd]
      split
      · exact .inl (Silent.exit _ _)
      · exact .inl (Silent.exit _ _)
      · match hT : sigText W.D W.fs (W.getpw o.nopw o.envpw) W.mapErr kn fn with
        | .err _ => exact .inl (oneFile_silent _ _ rfl (safeCalls_oneFile _ _ _ _ _ _ (List.prefix_refl _)))
        | .panic _ => exact .inl (oneFile_silent _ _ rfl (safeCalls_oneFile _ _ _ _ _ _ (List.prefix_refl _)))
        | .ok t =>
          obtain ⟨secret, content, h1, h2, h3⟩ := text t hT
          refine .inr ⟨kn, fn, more, secret, content, rfl, h1, h2, oneFile_writes W.fs _ rfl (out := t)
            (safeCalls_oneFile _ _ _ _ _ _ ?_) _ (fun b hb => h3 ▸ hb)⟩
          show (fullwrite t (W.env1.writer (sigTarget o.output fn))).2.out <+: t
          obtain ⟨w', _, _, h3, _⟩ := fullwrite_spec t (W.env1.writer (sigTarget o.output fn))
          rcases h3 with ⟨h5, h6⟩ | ⟨e, k, h5, h6, _⟩
          · rw [h5, h6]; exact List.prefix_refl _
          · rw [h5, h6]; exact List.take_prefix _ _

/-- **C138** (`generate`).  However `generate` ends, nothing ever was in standard output, and all that ever was in a file written
by it is a beginning of the text of the new private key file — in which the secret bytes occur only sealed — or of the text of the new
public key file. -/
theorem C138_generate (W : World) (argv rest args : List Bytes) (hn : Normal W argv)
    (hr : Runs W argv "generate" rest) (o : GenOpts) (hf : W.flags.gen rest = .ok o args) :
    (W.main argv).stdout = [] ∧
    (Silent W.fs (W.main argv) ∨ ∃ text, NewKeyText W o text ∧ WritesOnly W.fs (W.main argv) (fun b => b <+: text ∨ b <+: newPubText W o)) := by
  rw [(C66_dispatch W hn.order argv rest "generate" hr).1 rfl]
  unfold World.gen
  rw [hf]
  match args with
  | [] => exact ⟨rfl, .inl (Silent.exit _ _)⟩
  | bn :: more =>
    dsimp only
    unfold genCmd
    split
    · exact ⟨rfl, .inl (Silent.exit _ _)⟩
    · match hp : W.genpw o.nopw o.envpw with
      | .error _ => exact ⟨rfl, .inl (Silent.exit _ _)⟩
      | .ok pw =>
        dsimp only
        match hm : (newPrivateKey W.D.P W.seed).marshal W.D.P W.D.Y o.comment pw W.salt with
        | .err _ => exact ⟨rfl, .inl (Silent.exit _ _)⟩
        | .panic _ => exact ⟨rfl, .inl (Silent.exit _ _)⟩
        | .ok text =>
          have hk : NewKeyText W o text := by
            unfold PrivateKey.marshal at hm
            match hs : W.D.P.scrypt (W.D.P.sha512 pw) W.salt 524288 8 1 with
            | .err _ => rw [hs] at hm; cases hm
            | .panic _ => rw [hs] at hm; cases hm
            | .ok key =>
              rw [hs] at hm
              cases hm
              exact ⟨pw, key, hp, hs, rfl⟩
          have one := writeFile_oneFile W.fs W.env1 0o600 (keyName (W.clean bn)) text o.force
          dsimp only
          match hw : writeFile W.fs W.env1 0o600 (keyName (W.clean bn)) text o.force with
          | (r, cs) =>
            rw [hw] at one
            have first : ∀ n, WritesOnly W.fs { exit := n, sys := cs } (fun b => b <+: text ∨ b <+: newPubText W o) :=
              fun n => oneFile_writes W.fs _ rfl (out := text) one _ (fun b hb => .inl hb)
            match r with
            | .err _ => exact ⟨rfl, .inr ⟨text, hk, first 1⟩⟩
            | .panic _ => exact ⟨rfl, .inr ⟨text, hk, first 2⟩⟩
            | .ok () =>
              have two := writeFile_oneFile (W.fs.run cs) W.env2 0o644 (pubName (W.clean bn))
                ((newPrivateKey W.D.P W.seed).pub.marshal W.D.Y o.comment) o.force
              dsimp only
              match hw2 : writeFile (W.fs.run cs) W.env2 0o644 (pubName (W.clean bn))
                ((newPrivateKey W.D.P W.seed).pub.marshal W.D.Y o.comment) o.force with
              | (r2, cs2) =>
                rw [hw2] at two
                have both : ∀ n, WritesOnly W.fs { exit := n, sys := cs ++ cs2 } (fun b => b <+: text ∨ b <+: newPubText W o) := by
                  intro n
                  refine ⟨.inl rfl, fun pre hp j => ?_⟩
                  rcases prefix_cases hp with h1 | ⟨pre2, rfl, h1⟩
                  · exact (first 0).2 pre h1 j
                  · rw [run_append]
                    obtain ⟨a, b⟩ := one.run W.fs
                    obtain ⟨a2, b2⟩ := (two.pre h1).run (W.fs.run cs)
                    by_cases hj2 : j = W.env2.inode
                    · subst hj2
                      rcases b2 with b2 | b2
                      · left; rw [b2.2, (a _ hn.inode).2]
                      · exact .inr (.inr b2.2)
                    · rw [(a2 j hj2).2]
                      by_cases hj : j = W.env1.inode
                      · subst hj
                        rcases b with b | b
                        · exact .inl b.2
                        · exact .inr (.inl b.2)
                      · exact .inl (a j hj).2
                match r2 with
                | .err _ => exact ⟨rfl, .inr ⟨text, hk, both 1⟩⟩
                | .panic _ => exact ⟨rfl, .inr ⟨text, hk, both 2⟩⟩
                | .ok () => exact ⟨rfl, .inr ⟨text, hk, both 0⟩⟩

/-- **C138** (the others).  `verify` and `help` write no result, change no file, and neither does a command whose options do not
parse. -/
theorem C138_others (W : World) (ho : W.order.Perm commands) (argv rest : List Bytes) (w : String) (hr : Runs W argv w rest)
    (h : w = "verify" ∨ w = "help" ∨ (w = "encrypt" ∧ ∀ o args, W.flags.enc rest ≠ .ok o args) ∨
      (w = "decrypt" ∧ ∀ o args, W.flags.dec rest ≠ .ok o args) ∨ (w = "sign" ∧ ∀ o args, W.flags.sign rest ≠ .ok o args) ∨
      (w = "generate" ∧ ∀ o args, W.flags.gen rest ≠ .ok o args)) : (W.main argv).stdout = [] ∧ (W.main argv).sys = [] := by
  obtain ⟨d1, d2, d3, d4, d5, d6⟩ := C66_dispatch W ho argv rest w hr
  rcases h with rfl | rfl | ⟨rfl, h⟩ | ⟨rfl, h⟩ | ⟨rfl, h⟩ | ⟨rfl, h⟩
  · rw [d3 rfl]; unfold World.verify; split <;> exact ⟨rfl, rfl⟩
  · rw [d6 rfl]; exact ⟨rfl, rfl⟩
  · rw [d4 rfl]; unfold World.encrypt; split
    · exact ⟨rfl, rfl⟩
    · exact ⟨rfl, rfl⟩
    · exact absurd (by assumption) (h _ _)
  · rw [d5 rfl]; unfold World.decrypt; split
    · exact ⟨rfl, rfl⟩
    · exact ⟨rfl, rfl⟩
    · exact absurd (by assumption) (h _ _)
  · rw [d2 rfl]; unfold World.sign; split
    · exact ⟨rfl, rfl⟩
    · exact ⟨rfl, rfl⟩
    · exact absurd (by assumption) (h _ _)
  · rw [d1 rfl]; unfold World.gen; split
    · exact ⟨rfl, rfl⟩
    · exact ⟨rfl, rfl⟩
    · exact absurd (by assumption) (h _ _)

end Sigtool
