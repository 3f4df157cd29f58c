import Verif.Props.CliOutput
/-! # The encrypt and decrypt commands: C50, C51, C52 -/

namespace Sigtool
open Spec

/-- The `encrypt` command either stops before it opens its output, or runs its body. -/
theorem encryptCmd_cases (D : Deps) (fs : FS) (env : SafeEnv) (stdout : Writer) (outfile : Path) (force : Bool) (keyfile : Path)
    (getpw : GetPw) (blksize : Option Nat) (authkeys : Option Path) (rcpts : List (Bytes × Bytes)) (infile : Path)
    (rd : Reader) (c : EncCoins) (coin : Bytes) :
    (∃ n, n ≠ 0 ∧ encryptCmd D fs env stdout outfile force keyfile getpw blksize authkeys rcpts infile rd c coin = { exit := n }) ∨
    ∃ blk sk auth, blksize = some blk ∧ authkeys = some auth ∧ rcpts ≠ [] ∧
      (keyfile = [] ∧ sk = none ∨ keyfile ≠ [] ∧ ∃ s, sk = some s ∧ readPrivateKey D fs keyfile getpw = .ok s) ∧
      encryptCmd D fs env stdout outfile force keyfile getpw blksize authkeys rcpts infile rd c coin =
        withOutput fs env 0o600 stdout outfile force
          (encryptBody D fs (parseAuthorizedKeys D.P ((fs.read auth).getD [])) sk blk c rcpts rd coin) := by
  unfold encryptCmd
  match blksize with
  | none => exact .inl ⟨1, by decide, rfl⟩
  | some blk =>
    dsimp only
    have hkey : ∀ r : Res (Option PrivateKey),
        (if keyfile = [] then (.ok none : Res (Option PrivateKey)) else (readPrivateKey D fs keyfile getpw).bind fun sk => .ok (some sk)) = r →
        ∀ sk, r = .ok sk →
        (keyfile = [] ∧ sk = none ∨ keyfile ≠ [] ∧ ∃ s, sk = some s ∧ readPrivateKey D fs keyfile getpw = .ok s) := by
      intro r hr sk hsk
      subst hsk
      split at hr
      · cases hr; exact .inl ⟨by assumption, rfl⟩
      · rename_i hk
        obtain ⟨s, h1, h2⟩ := (bind_ok_iff _ _ _).mp hr
        cases h2
        exact .inr ⟨hk, s, rfl, h1⟩
    match hr : (if keyfile = [] then (.ok none : Res (Option PrivateKey)) else (readPrivateKey D fs keyfile getpw).bind fun sk => .ok (some sk)) with
    | .err _ => exact .inl ⟨1, by decide, rfl⟩
    | .panic _ => exact .inl ⟨2, by decide, rfl⟩
    | .ok sk =>
      dsimp only
      split
      · exact .inl ⟨1, by decide, rfl⟩
      · rename_i hne
        split
        · exact .inl ⟨1, by decide, rfl⟩
        · match authkeys with
          | none => exact .inl ⟨1, by decide, rfl⟩
          | some auth =>
            dsimp only
            split
            · exact .inl ⟨1, by decide, rfl⟩
            · exact .inr ⟨blk, sk, auth, rfl, rfl, hne, hkey _ hr sk rfl, rfl⟩

theorem readFile_some {fs : FS} {fn : Path} {b : Bytes} (h : readFile fs fn = .ok b) : fs.read fn = some b := by
  unfold readFile orErr at h
  split at h
  · rename_i v hv; cases h; exact hv
  · cases h

/-- A successful body: every argument denotes a key and the container addressed to them was written. -/
theorem encryptBody_success (D : Deps) (L : Laws D.P) (fs : FS) (keys : List PublicKey) (sk : Option PrivateKey) (blk : Nat)
    (c : EncCoins) (hc : c.WF) (rcpts : List (Bytes × Bytes)) (rd : Reader) (coin : Bytes) (hcoin : coin.length = 64)
    (w w' : Writer) (n : Nat) (h : encryptBody D fs keys sk blk c rcpts rd coin w = (.ok n, w')) :
    w.closeErr = none ∧ ∃ pks hdr trailer, List.Forall₂ (fun r pk => Spec.Denotes D fs keys r.1 pk) rcpts pks ∧
      SessionHeader D.P sk blk c (pks.zip (rcpts.map (·.2))) hdr ∧
      trailer.length = 64 ∧ w'.out = w.out ++ container D.P hdr c.key (encryptChunks (effectiveBlock blk) rd.content) trailer := by
  unfold encryptBody at h
  match hs : ((newEncryptor D.P sk blk c).bind fun e => addAll D fs keys e 0 rcpts) with
  | .err x => rw [hs] at h; cases h
  | .panic x => rw [hs] at h; cases h
  | .ok (e, m) =>
    rw [hs] at h
    dsimp only at h
    split at h
    · cases h
    · rename_i hn
      have hn0 : m = 0 := by omega
      subst hn0
      obtain ⟨pks, hden, hset⟩ := setup_addAll D fs keys sk blk c rcpts e hs
      match he : e.encrypt D.P rd w coin with
      | (.err x, e1, rd1, w1) => rw [he] at h; cases h
      | (.panic x, e1, rd1, w1) => rw [he] at h; cases h
      | (.ok (), e1, rd1, w1) =>
        rw [he] at h
        cases h
        obtain ⟨hdr, trailer, k1, k2, _, _, k3, _⟩ :=
          C05_encrypt_layout D.P L sk blk c hc _ e hset rd w coin hcoin e1 rd1 w1 he
        refine ⟨?_, pks, hdr, trailer, hden, k2, k3, k1⟩
        rcases C29_close_once D.P L sk blk c hc _ e hset rd w coin hcoin _ e1 rd1 w1 he with ⟨_, g, _⟩ | ⟨_, x, g⟩
        · match hce : w.closeErr with
          | none => rfl
          | some x => rw [hce] at g; cases g
        · cases g

/-- **C50** (exit status 0).  If `encrypt` exits with 0, every recipient argument denotes a public key (a user of the
`authorized_keys` file or a key file), and the output — the named file, else standard output — is a container whose header
is the documented one (`Spec.SessionHeader`) for the requested block size, signed with the key of the `-s` option (else not
signed), with exactly one wrapped key per argument, in their order, each wrapped for that key; its chunks are the input.  No
other file has changed. -/
theorem C50_exit_zero (D : Deps) (L : Laws D.P) (fs : FS) (env : SafeEnv) (stdout : Writer) (outfile : Path) (force : Bool)
    (keyfile : Path) (getpw : GetPw) (blksize : Option Nat) (authkeys : Option Path) (rcpts : List (Bytes × Bytes)) (infile : Path)
    (rd : Reader) (c : EncCoins) (hc : c.WF) (coin : Bytes) (hcoin : coin.length = 64)
    (hf : Spec.Fresh fs env.tmp env.inode) (ht : outfile ≠ env.tmp)
    (o : Outcome) (ho : o = encryptCmd D fs env stdout outfile force keyfile getpw blksize authkeys rcpts infile rd c coin)
    (h : o.exit = 0) :
    rcpts ≠ [] ∧ ∃ blk auth sk pks hdr trailer, blksize = some blk ∧ authkeys = some auth ∧ Spec.IdentityArg D fs keyfile getpw sk ∧
      List.Forall₂ (fun r pk => Spec.Denotes D fs (parseAuthorizedKeys D.P ((fs.read auth).getD [])) r.1 pk) rcpts pks ∧
      SessionHeader D.P sk blk c (pks.zip (rcpts.map (·.2))) hdr ∧
      trailer.length = 64 ∧
      ((outfile = [] ∨ outfile = ascii "-") →
        o.stdout = stdout.out ++ container D.P hdr c.key (encryptChunks (effectiveBlock blk) rd.content) trailer ∧ o.sys = []) ∧
      (¬ (outfile = [] ∨ outfile = ascii "-") →
        (fs.run o.sys).read outfile = some (container D.P hdr c.key (encryptChunks (effectiveBlock blk) rd.content) trailer) ∧
        Spec.SameBut fs (fs.run o.sys) [outfile]) := by
  subst ho
  rcases encryptCmd_cases D fs env stdout outfile force keyfile getpw blksize authkeys rcpts infile rd c coin with
    ⟨n, hn, h1⟩ | ⟨blk, sk, auth, h1, h2, h3, h4, h5⟩
  · rw [h1] at h; exact absurd h hn
  · rw [h5] at h ⊢
    have hid : Spec.IdentityArg D fs keyfile getpw sk := by
      rcases h4 with h4 | ⟨h4, s, h6, h7⟩
      · exact .inl h4
      · obtain ⟨b, h8, h9⟩ := (bind_ok_iff _ _ _).mp h7
        exact .inr ⟨h4, b, s, readFile_some h8, h9, h6⟩
    refine ⟨h3, blk, auth, sk, ?_⟩
    have hb := encryptBody_ok D L fs (parseAuthorizedKeys D.P ((fs.read auth).getD [])) sk blk c hc rcpts rd coin hcoin
    by_cases hof : outfile = [] ∨ outfile = ascii "-"
    · unfold withOutput at h ⊢
      rw [if_pos hof] at h ⊢
      match hbody : encryptBody D fs (parseAuthorizedKeys D.P ((fs.read auth).getD [])) sk blk c rcpts rd coin stdout with
      | (.err _, w) => rw [hbody] at h; cases h
      | (.panic _, w) => rw [hbody] at h; cases h
      | (.ok n, w) =>
        obtain ⟨_, pks, hdr, trailer, k1, k2, k3, k4⟩ := encryptBody_success D L fs _ sk blk c hc rcpts rd coin hcoin _ _ _ hbody
        exact ⟨pks, hdr, trailer, h1, h2, hid, k1, k2, k3, fun _ => ⟨k4, rfl⟩, fun hn => absurd hof hn⟩
    · have hof' : outfile ≠ [] ∧ outfile ≠ ascii "-" := ⟨fun h => hof (.inl h), fun h => hof (.inr h)⟩
      obtain ⟨_, w, g1, _, g3⟩ := withOutput_success fs env stdout outfile force _ hb hof' h
      obtain ⟨k0, pks, hdr, trailer, k1, k2, k3, k4⟩ := encryptBody_success D L fs _ sk blk c hc rcpts rd coin hcoin _ _ _ g1
      have hcl : (closeCalls env outfile).1.isNone = true := by
        have : (closeCalls env outfile).1 = none := k0
        rw [this]; rfl
      rw [hcl] at g3
      obtain ⟨a1, a2, a3⟩ := g3.success fs hf ht
      refine ⟨pks, hdr, trailer, h1, h2, hid, k1, k2, k3, fun hn => absurd hn hof, fun _ => ⟨?_, ?_⟩⟩
      · rw [a1, k4]; rfl
      · exact g3.same fs hf ht

/-- **C50** (failure).  If `encrypt` with an output file exits with another status — an unknown user, an unreadable key file, a
read or write error, a crash of the Go runtime — no file has changed, and the temporary file is gone unless removing it fails. -/
theorem C50_failure (D : Deps) (L : Laws D.P) (fs : FS) (env : SafeEnv) (stdout : Writer) (outfile : Path) (force : Bool)
    (keyfile : Path) (getpw : GetPw) (blksize : Option Nat) (authkeys : Option Path) (rcpts : List (Bytes × Bytes)) (infile : Path)
    (rd : Reader) (c : EncCoins) (hc : c.WF) (coin : Bytes) (hcoin : coin.length = 64)
    (hf : Spec.Fresh fs env.tmp env.inode)
    (o : Outcome) (ho : o = encryptCmd D fs env stdout outfile force keyfile getpw blksize authkeys rcpts infile rd c coin)
    (h : o.exit ≠ 0) :
    Spec.SameBut fs (fs.run o.sys) [env.tmp] ∧ (env.removeErr = none → (fs.run o.sys).dir env.tmp = none) := by
  subst ho
  have triv : Spec.SameBut fs (fs.run []) [env.tmp] ∧ (env.removeErr = none → (fs.run []).dir env.tmp = none) :=
    ⟨fun _ _ => ⟨rfl, rfl⟩, fun _ => hf.name fs.dir (by simp)⟩
  rcases encryptCmd_cases D fs env stdout outfile force keyfile getpw blksize authkeys rcpts infile rd c coin with
    ⟨n, hn, h1⟩ | ⟨blk, sk, auth, h1, h2, h3, h4, h5⟩
  · rw [h1]; exact triv
  · rw [h5] at h ⊢
    have hb := encryptBody_ok D L fs (parseAuthorizedKeys D.P ((fs.read auth).getD [])) sk blk c hc rcpts rd coin hcoin
    by_cases hof : outfile = [] ∨ outfile = ascii "-"
    · unfold withOutput
      rw [if_pos hof]
      exact triv
    · obtain ⟨content, g⟩ := withOutput_failure fs env stdout outfile force _ hb ⟨fun h => hof (.inl h), fun h => hof (.inr h)⟩ h
      obtain ⟨a, b⟩ := g.failure fs hf
      exact ⟨fun p hp => a p (by simpa using hp), b⟩

/-- **C50** (all or none).  If some recipient argument denotes no key, `encrypt` fails, whatever the other arguments: no file
changes and nothing goes to standard output. -/
theorem C50_all_or_none (D : Deps) (L : Laws D.P) (fs : FS) (env : SafeEnv) (stdout : Writer) (hstd : stdout.out = [])
    (outfile : Path) (force : Bool)
    (keyfile : Path) (getpw : GetPw) (blksize : Option Nat) (authkeys : Option Path) (rcpts : List (Bytes × Bytes)) (infile : Path)
    (rd : Reader) (c : EncCoins) (hc : c.WF) (coin : Bytes) (hcoin : coin.length = 64)
    (hf : Spec.Fresh fs env.tmp env.inode)
    (o : Outcome) (ho : o = encryptCmd D fs env stdout outfile force keyfile getpw blksize authkeys rcpts infile rd c coin)
    (hbad : ∃ r ∈ rcpts, ∀ auth, authkeys = some auth → ∀ pk,
      ¬ Spec.Denotes D fs (parseAuthorizedKeys D.P ((fs.read auth).getD [])) r.1 pk) :
    o.exit ≠ 0 ∧ o.stdout = [] ∧ Spec.SameBut fs (fs.run o.sys) [env.tmp] ∧
      (env.removeErr = none → (fs.run o.sys).dir env.tmp = none) := by
  have key : o.exit ≠ 0 ∧ o.stdout = [] := by
    subst ho
    rcases encryptCmd_cases D fs env stdout outfile force keyfile getpw blksize authkeys rcpts infile rd c coin with
      ⟨n, hn, h1⟩ | ⟨blk, sk, auth, h1, h2, h3, h4, h5⟩
    · rw [h1]; exact ⟨hn, rfl⟩
    · rw [h5]
      obtain ⟨r, hr, hbad⟩ := hbad
      have hbad := hbad auth h2
      have hno : ∀ w, ∃ x, encryptBody D fs (parseAuthorizedKeys D.P ((fs.read auth).getD [])) sk blk c rcpts rd coin w = (x, w) ∧
          exitOf x ≠ 0 := by
        intro w
        unfold encryptBody
        match hs : ((newEncryptor D.P sk blk c).bind fun e => addAll D fs (parseAuthorizedKeys D.P ((fs.read auth).getD [])) e 0 rcpts) with
        | .err x => exact ⟨_, rfl, by simp [exitOf]⟩
        | .panic x => exact ⟨_, rfl, by simp [exitOf]⟩
        | .ok (e, m) =>
          dsimp only
          by_cases hm : m > 0
          · rw [if_pos hm]; exact ⟨_, rfl, by simp [exitOf]⟩
          · have hm0 : m = 0 := by omega
            subst hm0
            obtain ⟨pks, hden, _⟩ := setup_addAll D fs _ sk blk c rcpts e hs
            exfalso
            have : ∀ (l : List (Bytes × Bytes)) (pks : List PublicKey),
                List.Forall₂ (fun r pk => Spec.Denotes D fs (parseAuthorizedKeys D.P ((fs.read auth).getD [])) r.1 pk) l pks →
                r ∈ l → False := by
              intro l pks hl
              induction hl with
              | nil => intro h; cases h
              | cons h1 _ ih =>
                intro h
                rcases List.mem_cons.mp h with rfl | h
                · exact hbad _ h1
                · exact ih h
            exact this _ _ hden hr
      unfold withOutput
      split
      · obtain ⟨x, g1, g2⟩ := hno stdout
        rw [g1]
        exact ⟨g2, hstd⟩
      · split
        · exact ⟨by simp, rfl⟩
        · exact ⟨by simp, rfl⟩
        · obtain ⟨x, g1, g2⟩ := hno (env.writer outfile)
          rw [g1]
          exact ⟨g2, rfl⟩
  exact ⟨key.1, key.2, C50_failure D L fs env stdout outfile force keyfile getpw blksize authkeys rcpts infile rd c hc coin hcoin hf o ho key.1⟩

/-- **C50** (crash).  Wherever `encrypt` is interrupted, by a kill or a power loss, the output file is as before or holds a whole
container, and every other file is as before. -/
theorem C50_crash (D : Deps) (L : Laws D.P) (fs : FS) (env : SafeEnv) (stdout : Writer) (outfile : Path) (force : Bool)
    (keyfile : Path) (getpw : GetPw) (blksize : Option Nat) (authkeys : Option Path) (rcpts : List (Bytes × Bytes)) (infile : Path)
    (rd : Reader) (c : EncCoins) (hc : c.WF) (coin : Bytes) (hcoin : coin.length = 64)
    (hf : Spec.Fresh fs env.tmp env.inode) (ht : outfile ≠ env.tmp)
    (o : Outcome) (ho : o = encryptCmd D fs env stdout outfile force keyfile getpw blksize authkeys rcpts infile rd c coin)
    (pre : List Sys) (hpre : pre <+: o.sys) (dir : Dir) (data : Nat → Bytes) (hi : Spec.CrashImage (fs.run pre) dir data)
    (p : Path) (hpt : p ≠ env.tmp) (hd : Spec.OnDisk fs p) :
    readIn dir data p = fs.read p ∨ (p = outfile ∧ o.exit = 0 ∧ ∃ blk hdr trailer, blksize = some blk ∧
      hdr.keys.length = rcpts.length ∧ trailer.length = 64 ∧
      readIn dir data p = some (container D.P hdr c.key (encryptChunks (effectiveBlock blk) rd.content) trailer)) := by
  subst ho
  rcases encryptCmd_cases D fs env stdout outfile force keyfile getpw blksize authkeys rcpts infile rd c coin with
    ⟨n, hn, h1⟩ | ⟨blk, sk, auth, h1, h2, h3, h4, h5⟩
  · rw [h1, List.prefix_nil] at hpre
    subst hpre
    exact .inl (OnDisk_image hd hi)
  · rw [h5] at hpre ⊢
    have hb := encryptBody_ok D L fs (parseAuthorizedKeys D.P ((fs.read auth).getD [])) sk blk c hc rcpts rd coin hcoin
    by_cases hof : outfile = [] ∨ outfile = ascii "-"
    · unfold withOutput at hpre
      rw [if_pos hof] at hpre
      rw [List.prefix_nil] at hpre
      subst hpre
      exact .inl (OnDisk_image hd hi)
    · obtain ⟨content, ok, g1, g2⟩ := withOutput_run fs env stdout outfile force _ hb ⟨fun h => hof (.inl h), fun h => hof (.inr h)⟩
      rcases g1.crash fs hf ht pre hpre dir data hi p hpt hd with g | ⟨gok, gp, g⟩
      · exact .inl g
      · obtain ⟨g3, w, g4, g5⟩ := g2 gok
        obtain ⟨k0, pks, hdr, trailer, k1, k2, k3, k4⟩ := encryptBody_success D L fs _ sk blk c hc rcpts rd coin hcoin _ _ _ g4
        refine .inr ⟨gp, g3, blk, hdr, trailer, h1, ?_, k3, ?_⟩
        · have := k2.keys.length_eq
          have h' := k1.length_eq
          simp only [List.length_zip, List.length_map] at this
          omega
        · rw [g, g5, k4]; rfl

/-! ### decrypt -/

theorem decryptCmd_cases (D : Deps) (fs : FS) (env : SafeEnv) (stdout : Writer) (outfile : Path) (force test : Bool) (keyfile : Path)
    (getpw : GetPw) (pubkey : Path) (infile : Path) (rd : Reader) :
    (∃ n, n ≠ 0 ∧ decryptCmd D fs env stdout outfile force test keyfile getpw pubkey infile rd = { exit := n }) ∨
    ∃ sk pk, (∃ b, fs.read keyfile = some b ∧ makePrivateKey D.P D.Y D.pem b getpw = .ok sk) ∧ SenderArg D fs pubkey pk ∧
      decryptCmd D fs env stdout outfile force test keyfile getpw pubkey infile rd =
        if test then { exit := exitOf (decryptBody D.P rd sk pk {}).1 }
        else withOutput fs env 0o600 stdout outfile force (decryptBody D.P rd sk pk) := by
  unfold decryptCmd
  match hk : readPrivateKey D fs keyfile getpw with
  | .err _ => exact .inl ⟨1, by decide, rfl⟩
  | .panic _ => exact .inl ⟨2, by decide, rfl⟩
  | .ok sk =>
    dsimp only
    match hr : (if pubkey = [] then (.ok none : Res (Option PublicKey)) else (readPublicKey D fs pubkey).bind fun pk => .ok (some pk)) with
    | .err _ => exact .inl ⟨1, by decide, rfl⟩
    | .panic _ => exact .inl ⟨2, by decide, rfl⟩
    | .ok pk =>
      dsimp only
      split
      · exact .inl ⟨1, by decide, rfl⟩
      · refine .inr ⟨sk, pk, (readPrivateKey_ok _ _ _ _ _).mp hk, ?_, rfl⟩
        split at hr
        · cases hr; exact .inl ⟨by assumption, rfl⟩
        · rename_i hne
          obtain ⟨p, h1, h2⟩ := (bind_ok_iff _ _ _).mp hr
          cases h2
          obtain ⟨b, h3, h4⟩ := (readPublicKey_ok _ _ _ _).mp h1
          exact .inr ⟨hne, b, p, h3, h4, rfl⟩

theorem decryptBody_success (P : Prims) (rd : Reader) (sk : PrivateKey) (pk : Option PublicKey) (w w' : Writer) (n : Nat)
    (h : decryptBody P rd sk pk w = (.ok n, w')) : ∃ plain, Decrypts P rd sk pk plain ∧ w'.out = w.out ++ plain := by
  unfold decryptBody at h
  match hs : setupDecryptor P rd sk pk with
  | .err x => rw [hs] at h; cases h
  | .panic x => rw [hs] at h; cases h
  | .ok d =>
    rw [hs] at h
    dsimp only at h
    match he : d.decrypt P w with
    | (.err x, d1, w1) => rw [he] at h; cases h
    | (.panic x, d1, w1) => rw [he] at h; cases h
    | (.ok (), d1, w1) =>
      rw [he] at h
      cases h
      obtain ⟨p, h1, h2⟩ := decrypt_indep P d d1 w w1 he
      obtain ⟨w2, g1, g2⟩ := h2 {} (by intro k e; simp)
      exact ⟨p, ⟨d, d1, w2, hs, g1, g2⟩, h1⟩

/-- **C51** (failure).  If `decrypt` exits with a status other than 0 — wrong key, damaged container, read or write error, a crash
of the Go runtime — no file has changed, and the temporary file is gone unless removing it fails. -/
theorem C51_failure (D : Deps) (fs : FS) (env : SafeEnv) (stdout : Writer) (outfile : Path) (force test : Bool)
    (keyfile : Path) (getpw : GetPw) (pubkey infile : Path) (rd : Reader) (hf : Spec.Fresh fs env.tmp env.inode)
    (o : Outcome) (ho : o = decryptCmd D fs env stdout outfile force test keyfile getpw pubkey infile rd) (h : o.exit ≠ 0) :
    Spec.SameBut fs (fs.run o.sys) [env.tmp] ∧ (env.removeErr = none → (fs.run o.sys).dir env.tmp = none) := by
  subst ho
  have triv : Spec.SameBut fs (fs.run []) [env.tmp] ∧ (env.removeErr = none → (fs.run []).dir env.tmp = none) :=
    ⟨fun _ _ => ⟨rfl, rfl⟩, fun _ => hf.name fs.dir (by simp)⟩
  rcases decryptCmd_cases D fs env stdout outfile force test keyfile getpw pubkey infile rd with ⟨n, hn, h1⟩ | ⟨sk, pk, _, _, h1⟩
  · rw [h1]; exact triv
  · rw [h1] at h ⊢
    split
    · exact triv
    · rename_i htest
      rw [if_neg htest] at h
      by_cases hof : outfile = [] ∨ outfile = ascii "-"
      · unfold withOutput
        rw [if_pos hof]
        exact triv
      · obtain ⟨content, g⟩ := withOutput_failure fs env stdout outfile force _ (decryptBody_ok D.P rd sk pk)
          ⟨fun h => hof (.inl h), fun h => hof (.inr h)⟩ h
        obtain ⟨a, b⟩ := g.failure fs hf
        exact ⟨fun p hp => a p (by simpa using hp), b⟩

/-- **C51** (exit status 0; partial).  If `decrypt` exits with 0, the container decrypted without error for the private key in the
key file and the sender key of `-v`; standard output has exactly the plaintext, or — provided fsync, close and rename of the
output file succeed — the output file holds exactly the plaintext and no other file has changed.  The proviso is needed: see
`C51_close_error_refuted`. -/
theorem C51_exit_zero_partial (D : Deps) (fs : FS) (env : SafeEnv) (stdout : Writer) (outfile : Path) (force : Bool)
    (keyfile : Path) (getpw : GetPw) (pubkey infile : Path) (rd : Reader)
    (hf : Spec.Fresh fs env.tmp env.inode) (ht : outfile ≠ env.tmp)
    (hs : env.syncErr = none) (hc : env.closeErr = none) (hr : env.renameErr = none)
    (o : Outcome) (ho : o = decryptCmd D fs env stdout outfile force false keyfile getpw pubkey infile rd) (h : o.exit = 0) :
    ∃ sk pk plain, (∃ b, fs.read keyfile = some b ∧ makePrivateKey D.P D.Y D.pem b getpw = .ok sk) ∧ SenderArg D fs pubkey pk ∧
      Decrypts D.P rd sk pk plain ∧
      ((outfile = [] ∨ outfile = ascii "-") → o.stdout = stdout.out ++ plain ∧ o.sys = []) ∧
      (¬ (outfile = [] ∨ outfile = ascii "-") →
        (fs.run o.sys).read outfile = some plain ∧ Spec.SameBut fs (fs.run o.sys) [outfile]) := by
  subst ho
  rcases decryptCmd_cases D fs env stdout outfile force false keyfile getpw pubkey infile rd with ⟨n, hn, h1⟩ | ⟨sk, pk, h2, h3, h1⟩
  · rw [h1] at h; exact absurd h hn
  · rw [h1] at h ⊢
    simp only [Bool.false_eq_true, if_false] at h ⊢
    by_cases hof : outfile = [] ∨ outfile = ascii "-"
    · unfold withOutput at h ⊢
      rw [if_pos hof] at h ⊢
      match hbody : decryptBody D.P rd sk pk stdout with
      | (.err _, w) => rw [hbody] at h; cases h
      | (.panic _, w) => rw [hbody] at h; cases h
      | (.ok n, w) =>
        obtain ⟨plain, k1, k2⟩ := decryptBody_success _ _ _ _ _ _ _ hbody
        exact ⟨sk, pk, plain, h2, h3, k1, fun _ => ⟨k2, rfl⟩, fun hn => absurd hof hn⟩
    · obtain ⟨_, w, g1, _, g3⟩ := withOutput_success fs env stdout outfile force _ (decryptBody_ok D.P rd sk pk)
        ⟨fun h => hof (.inl h), fun h => hof (.inr h)⟩ h
      obtain ⟨plain, k1, k2⟩ := decryptBody_success _ _ _ _ _ _ _ g1
      have hcl : (closeCalls env outfile).1.isNone = true := by unfold closeCalls; rw [hs, hc, hr]; rfl
      rw [hcl] at g3
      obtain ⟨a1, a2, a3⟩ := g3.success fs hf ht
      refine ⟨sk, pk, plain, h2, h3, k1, fun hn => absurd hn hof, fun _ => ⟨?_, ?_⟩⟩
      · rw [a1, k2]; rfl
      · exact g3.same fs hf ht

/-- **C51** (refuted part).  If fsync, close or rename of the output file fails, `decrypt` still exits with 0 on everything it can
decrypt, although no file has changed: the output file is missing or old. -/
theorem C51_close_error_refuted (D : Deps) (fs : FS) (env : SafeEnv) (stdout : Writer) (outfile : Path) (force : Bool)
    (keyfile : Path) (getpw : GetPw) (pubkey infile : Path) (rd : Reader)
    (hf : Spec.Fresh fs env.tmp env.inode)
    (hbad : env.syncErr ≠ none ∨ env.closeErr ≠ none ∨ env.renameErr ≠ none)
    (hout : outfile ≠ [] ∧ outfile ≠ ascii "-") (hopen : ∃ cs, newSafeFile fs env 0o600 outfile force = .ok cs)
    (hw : ∀ k e, WEv.fail k e ∉ env.writes)
    (sk : PrivateKey) (hk : readPrivateKey D fs keyfile getpw = .ok sk) (hp : pubkey = [])
    (hin : infile = [] ∨ infile = ascii "-" ∨ fs.exists infile = true)
    (plain : Bytes) (hd : Decrypts D.P rd sk none plain)
    (o : Outcome) (ho : o = decryptCmd D fs env stdout outfile force false keyfile getpw pubkey infile rd) :
    o.exit = 0 ∧ Spec.SameBut fs (fs.run o.sys) [env.tmp] := by
  obtain ⟨d, d', w, hset, hdec, _⟩ := hd
  obtain ⟨cs, hopen⟩ := hopen
  obtain ⟨_, _, hind⟩ := decrypt_indep D.P d d' _ _ hdec
  obtain ⟨w2, hd2, _⟩ := hind (env.writer outfile) hw
  have hbody : decryptBody D.P rd sk none (env.writer outfile) = (.ok 0, w2.close.2) := by
    unfold decryptBody
    rw [hset]
    dsimp only
    rw [hd2]
  have heq : o = { exit := 0, sys := safeCalls env 0o600 outfile w2.close.2 false } := by
    subst ho
    unfold decryptCmd
    rw [hk]
    dsimp only
    rw [if_pos hp]
    dsimp only
    have hcond : ¬ (infile ≠ [] ∧ infile ≠ ascii "-" ∧ fs.exists infile = false) := by
      rintro ⟨a, b, c⟩
      rcases hin with h | h | h
      · exact a h
      · exact b h
      · rw [h] at c; cases c
    rw [if_neg hcond]
    simp only [Bool.false_eq_true, if_false]
    unfold withOutput
    rw [if_neg (by rintro (h | h); exacts [hout.1 h, hout.2 h]), hopen]
    dsimp only
    rw [hbody]
    rfl
  have hcl : (closeCalls env outfile).1.isNone = false := by
    unfold closeCalls
    cases h1 : env.syncErr with
    | some _ => rfl
    | none =>
      cases h2 : env.closeErr with
      | some _ => rfl
      | none =>
        cases h3 : env.renameErr with
        | some _ => rfl
        | none => simp [h1, h2, h3] at hbad
  have hrun := safeCalls_closed (perm := 0o600) env outfile w2.close.2 (by simp [Writer.close])
  rw [hcl] at hrun
  rw [heq]
  exact ⟨rfl, fun p hp => (hrun.failure fs hf).1 p (by simpa using hp)⟩

/-- **C51** (crash).  Wherever `decrypt` is interrupted, the output file is as before or holds the whole plaintext of a container
that decrypted without error, and every other file is as before. -/
theorem C51_crash (D : Deps) (fs : FS) (env : SafeEnv) (stdout : Writer) (outfile : Path) (force test : Bool)
    (keyfile : Path) (getpw : GetPw) (pubkey infile : Path) (rd : Reader)
    (hf : Spec.Fresh fs env.tmp env.inode) (ht : outfile ≠ env.tmp)
    (o : Outcome) (ho : o = decryptCmd D fs env stdout outfile force test keyfile getpw pubkey infile rd)
    (pre : List Sys) (hpre : pre <+: o.sys) (dir : Dir) (data : Nat → Bytes) (hi : Spec.CrashImage (fs.run pre) dir data)
    (p : Path) (hpt : p ≠ env.tmp) (hd : Spec.OnDisk fs p) :
    readIn dir data p = fs.read p ∨ (p = outfile ∧ o.exit = 0 ∧ ∃ sk pk plain,
      (∃ b, fs.read keyfile = some b ∧ makePrivateKey D.P D.Y D.pem b getpw = .ok sk) ∧ SenderArg D fs pubkey pk ∧
      Decrypts D.P rd sk pk plain ∧ readIn dir data p = some plain) := by
  subst ho
  rcases decryptCmd_cases D fs env stdout outfile force test keyfile getpw pubkey infile rd with ⟨n, hn, h1⟩ | ⟨sk, pk, h2, h3, h1⟩
  · rw [h1, List.prefix_nil] at hpre
    subst hpre
    exact .inl (OnDisk_image hd hi)
  · rw [h1] at hpre ⊢
    split at hpre
    · rw [List.prefix_nil] at hpre
      subst hpre
      exact .inl (OnDisk_image hd hi)
    · rename_i htest
      rw [if_neg htest]
      by_cases hof : outfile = [] ∨ outfile = ascii "-"
      · unfold withOutput at hpre
        rw [if_pos hof, List.prefix_nil] at hpre
        subst hpre
        exact .inl (OnDisk_image hd hi)
      · obtain ⟨content, ok, g1, g2⟩ := withOutput_run fs env stdout outfile force _ (decryptBody_ok D.P rd sk pk)
          ⟨fun h => hof (.inl h), fun h => hof (.inr h)⟩
        rcases g1.crash fs hf ht pre hpre dir data hi p hpt hd with g | ⟨gok, gp, g⟩
        · exact .inl g
        · obtain ⟨g3, w, g4, g5⟩ := g2 gok
          obtain ⟨plain, k1, k2⟩ := decryptBody_success _ _ _ _ _ _ _ g4
          exact .inr ⟨gp, g3, sk, pk, plain, h2, h3, k1, by rw [g, g5, k2]; rfl⟩

/-- **C51** (`-t`).  With `--test` no file is touched, and the status is 0 exactly if key files are readable and the container
decrypts without error. -/
theorem C51_test (D : Deps) (fs : FS) (env : SafeEnv) (stdout : Writer) (outfile : Path) (force : Bool)
    (keyfile : Path) (getpw : GetPw) (pubkey infile : Path) (rd : Reader)
    (o : Outcome) (ho : o = decryptCmd D fs env stdout outfile force true keyfile getpw pubkey infile rd) :
    o.sys = [] ∧ o.stdout = [] ∧ (o.exit = 0 → ∃ sk pk plain,
      (∃ b, fs.read keyfile = some b ∧ makePrivateKey D.P D.Y D.pem b getpw = .ok sk) ∧ SenderArg D fs pubkey pk ∧
      Decrypts D.P rd sk pk plain) := by
  subst ho
  rcases decryptCmd_cases D fs env stdout outfile force true keyfile getpw pubkey infile rd with ⟨n, hn, h1⟩ | ⟨sk, pk, h2, h3, h1⟩
  · rw [h1]; exact ⟨rfl, rfl, fun h => absurd h hn⟩
  · rw [h1]
    simp only [if_true]
    refine ⟨trivial, trivial, fun h => ?_⟩
    match hb : decryptBody D.P rd sk pk {} with
    | (.err _, w) => rw [hb] at h; cases h
    | (.panic _, w) => rw [hb] at h; cases h
    | (.ok n, w) =>
      obtain ⟨plain, k1, _⟩ := decryptBody_success _ _ _ _ _ _ _ hb
      exact ⟨sk, pk, plain, h2, h3, k1⟩

/-! ### Output onto the input -/

/-- **C52** (partial).  Without `--overwrite`, `encrypt` and `decrypt` with an output file that exists — the input file in
particular, under whatever name — fail and make no file system call at all. -/
theorem C52_own_input_partial (D : Deps) (fs : FS) (env : SafeEnv) (stdout : Writer) (outfile : Path) (keyfile infile : Path)
    (getpw : GetPw) (ho : outfile ≠ [] ∧ outfile ≠ ascii "-") (hex : fs.exists outfile = true) :
    (∀ blksize authkeys rcpts rd c coin,
      (encryptCmd D fs env stdout outfile false keyfile getpw blksize authkeys rcpts infile rd c coin).exit ≠ 0 ∧
      (encryptCmd D fs env stdout outfile false keyfile getpw blksize authkeys rcpts infile rd c coin).sys = []) ∧
    (∀ pubkey rd, (decryptCmd D fs env stdout outfile false false keyfile getpw pubkey infile rd).exit ≠ 0 ∧
      (decryptCmd D fs env stdout outfile false false keyfile getpw pubkey infile rd).sys = []) := by
  constructor
  · intro blksize authkeys rcpts rd c coin
    rcases encryptCmd_cases D fs env stdout outfile false keyfile getpw blksize authkeys rcpts infile rd c coin with
      ⟨n, hn, h1⟩ | ⟨blk, sk, auth, h1, h2, h3, h4, h5⟩
    · rw [h1]; exact ⟨hn, rfl⟩
    · rw [h5, withOutput_exists _ _ _ _ _ ho hex]; exact ⟨by simp, rfl⟩
  · intro pubkey rd
    rcases decryptCmd_cases D fs env stdout outfile false false keyfile getpw pubkey infile rd with ⟨n, hn, h1⟩ | ⟨sk, pk, _, _, h1⟩
    · rw [h1]; exact ⟨hn, rfl⟩
    · rw [h1]
      simp only [Bool.false_eq_true, if_false]
      rw [withOutput_exists _ _ _ _ _ ho hex]
      exact ⟨by simp, rfl⟩

/-- **C52** (refuted part).  With `--overwrite`, `decrypt -o F key F` replaces its own input `F` by the plaintext and exits with
0: nothing refuses. -/
theorem C52_overwrite_refuted (D : Deps) (fs : FS) (env : SafeEnv) (stdout : Writer) (file : Path) (keyfile : Path) (getpw : GetPw)
    (hfile : file ≠ [] ∧ file ≠ ascii "-") (i : Nat) (hreg : fs.dir file = some (.file i))
    (hf : Spec.Fresh fs env.tmp env.inode) (ht : file ≠ env.tmp)
    (he : env.openErr = none ∧ env.syncErr = none ∧ env.closeErr = none ∧ env.renameErr = none)
    (hw : ∀ k e, WEv.fail k e ∉ env.writes)
    (sk : PrivateKey) (hk : readPrivateKey D fs keyfile getpw = .ok sk)
    (rd : Reader) (_hrd : fs.read file = some rd.content) (plain : Bytes) (hd : Decrypts D.P rd sk none plain)
    (o : Outcome) (ho : o = decryptCmd D fs env stdout file true false keyfile getpw [] file rd) :
    o.exit = 0 ∧ (fs.run o.sys).read file = some plain := by
  have hopen : newSafeFile fs env 0o600 file true = .ok [.create env.tmp env.inode 0o600] := by
    unfold newSafeFile
    rw [hreg]
    simp [he.1]
  obtain ⟨d, d', w, hset, hdec, hplain⟩ := hd
  obtain ⟨p, hp, hind⟩ := decrypt_indep D.P d d' _ _ hdec
  have hpp : p = plain := by rw [← hplain, hp]; rfl
  subst hpp
  obtain ⟨w2, hd2, hw2⟩ := hind (env.writer file) hw
  have hbody : decryptBody D.P rd sk none (env.writer file) = (.ok 0, w2.close.2) := by
    unfold decryptBody
    rw [hset]
    dsimp only
    rw [hd2]
  have heq : o = { exit := 0, sys := safeCalls env 0o600 file w2.close.2 false } := by
    subst ho
    unfold decryptCmd
    rw [hk]
    dsimp only
    rw [if_pos rfl]
    dsimp only
    have hcond : ¬ (file ≠ [] ∧ file ≠ ascii "-" ∧ fs.exists file = false) := by
      rintro ⟨a, b, c⟩
      unfold FS.exists at c
      rw [hreg] at c
      cases c
    rw [if_neg hcond]
    simp only [Bool.false_eq_true, if_false]
    unfold withOutput
    rw [if_neg (by rintro (h | h); exacts [hfile.1 h, hfile.2 h]), hopen]
    dsimp only
    rw [hbody]
    rfl
  have hcl : (closeCalls env file).1.isNone = true := by unfold closeCalls; rw [he.2.1, he.2.2.1, he.2.2.2]; rfl
  have hrun := safeCalls_closed (perm := 0o600) env file w2.close.2 (by simp [Writer.close])
  rw [hcl] at hrun
  rw [heq]
  refine ⟨rfl, ?_⟩
  rw [(hrun.success fs hf ht).1]
  show some w2.out = _
  rw [hw2]
  rfl

end Sigtool
