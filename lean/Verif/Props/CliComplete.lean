import Verif.Props.CliTest
import Verif.Props.CliGen
import Verif.Props.CliSign
import Verif.Props.CliEnd
/-! # The commands do not fail without cause: C79 -/

namespace Sigtool

variable {perm : Nat}
open Spec

/-- The file can be created: nothing is in the way, or a regular file that may be overwritten, and creating succeeds. -/
def Spec.CanCreate (fs : FS) (env : SafeEnv) (target : Path) (force : Bool) : Prop :=
  env.openErr = none ∧ (fs.dir target = none ∨ (force = true ∧ ∃ i, fs.dir target = some (.file i)))

/-- No write, sync, close or rename of this file fails. -/
def Spec.NoFault (env : SafeEnv) : Prop :=
  (∀ k e, WEv.fail k e ∉ env.writes) ∧ env.syncErr = none ∧ env.closeErr = none ∧ env.renameErr = none

theorem newSafeFile_ok_iff (fs : FS) (env : SafeEnv) (target : Path) (force : Bool) :
    (∃ c, newSafeFile fs env perm target force = .ok c) ↔ CanCreate fs env target force := by
  unfold newSafeFile CanCreate
  cases hd : fs.dir target with
  | none =>
    cases he : env.openErr with
    | none => simp
    | some e => simp
  | some n =>
    cases force with
    | false => simp
    | true =>
      cases n with
      | other => simp
      | file i =>
        cases he : env.openErr with
        | none => simp
        | some e => simp

theorem closeCalls_ok_iff (env : SafeEnv) (target : Path) :
    (closeCalls env target).1 = none ↔ env.syncErr = none ∧ env.closeErr = none ∧ env.renameErr = none := by
  unfold closeCalls
  cases env.syncErr <;> cases env.closeErr <;> cases env.renameErr <;> simp

theorem writeFile_succeeds (fs : FS) (env : SafeEnv) (target : Path) (content : Bytes) (force : Bool)
    (h1 : CanCreate fs env target force) (h2 : NoFault env) : (writeFile fs env perm target content force).1 = .ok () := by
  obtain ⟨c, hc⟩ := (newSafeFile_ok_iff fs env target force).mpr h1
  unfold writeFile
  rw [hc]
  dsimp only
  obtain ⟨w, hw, _⟩ := fullwrite_noFail content { script := env.writes } h2.1
  rw [hw]
  dsimp only
  have hcl := (closeCalls_ok_iff env target).mpr h2.2
  match hm : closeCalls env target with
  | (some e, _) => rw [hm] at hcl; cases hcl
  | (none, _) => rfl

/-- **C79** (`generate`).  `generate` exits with 0 if there is a pass phrase (possibly empty), neither key file exists or
`--overwrite` is given and they are regular files, and no system call on the two files fails. -/
theorem C79_generate_succeeds (D : Deps) (L : Laws D.P) (fs : FS) (env1 env2 : SafeEnv) (force : Bool) (clean comment : Bytes)
    (pw : Bytes) (seed salt : Bytes) (he : GenEnv fs env1 env2 clean)
    (hk : CanCreate fs env1 (clean ++ ascii ".key") force) (hp : CanCreate fs env2 (clean ++ ascii ".pub") force)
    (h1 : NoFault env1) (h2 : NoFault env2) :
    (genCmd D fs env1 env2 force clean comment (.ok pw) seed salt).exit = 0 := by
  have hm : ∃ text, (newPrivateKey D.P seed).marshal D.P D.Y comment pw salt = .ok text := by
    unfold PrivateKey.marshal
    obtain ⟨k, hk⟩ := L.scrypt_ok (D.P.sha512 pw) salt
    rw [hk]
    exact ⟨_, rfl⟩
  obtain ⟨text, ht⟩ := hm
  have hg : ¬ ((!force && (fs.exists (pubName clean) || fs.exists (keyName clean))) = true) := by
    cases force with
    | true => simp
    | false =>
      rcases hk.2 with hk | ⟨hk, _⟩
      · rcases hp.2 with hp | ⟨hp, _⟩
        · unfold FS.exists pubName keyName
          rw [hk, hp]; decide
        · cases hp
      · cases hk
  unfold genCmd
  rw [if_neg hg]
  dsimp only
  rw [ht]
  dsimp only
  obtain ⟨ok, hr1, hr2, _⟩ := writeFile_run (perm := 0o600) fs env1 (keyName clean) text force
  have hw1 := writeFile_succeeds (perm := 0o600) fs env1 (keyName clean) text force hk h1
  rcases hw : writeFile fs env1 0o600 (keyName clean) text force with ⟨r, cs⟩
  rw [hw] at hw1 hr1 hr2
  dsimp only at hw1 hr1 hr2
  subst hw1
  have hok := hr2.mpr rfl
  subst hok
  dsimp only
  have hne : pubName clean ≠ keyName clean := by
    unfold pubName keyName
    intro h
    exact absurd (List.append_cancel_left h) (by decide)
  have hdir : (fs.run cs).dir (pubName clean) = fs.dir (pubName clean) := by
    rcases hr1 with ⟨⟩ | ⟨⟩ | ⟨⟩
    · exact (done_state fs env1 (keyName clean) text he.key1 he.fresh1).2.2.2.2.1 _ hne he.pub1
  have hp' : CanCreate (fs.run cs) env2 (pubName clean) force := by
    refine ⟨hp.1, ?_⟩
    rw [hdir]
    exact hp.2
  have hw2 := writeFile_succeeds (perm := 0o644) (fs.run cs) env2 (pubName clean) ((newPrivateKey D.P seed).pub.marshal D.Y comment) force hp' h2
  rcases hw' : writeFile (fs.run cs) env2 0o644 (pubName clean) ((newPrivateKey D.P seed).pub.marshal D.Y comment) force with ⟨r, cs2⟩
  rw [hw'] at hw2
  dsimp only at hw2
  subst hw2
  rfl

/-- **C79** (`sign`).  `sign` exits with 0 exactly if the signature file can be created (or is standard output), the private key
loads and the file can be read. -/
theorem C79_sign_iff (D : Deps) (fs : FS) (env : SafeEnv) (stdout : Writer) (output : Path) (force : Bool) (getpw : GetPw)
    (mapErr : Option Err) (kn fn : Path) :
    (signCmd D fs env stdout output force getpw mapErr kn fn).exit = 0 ↔
      (sigTarget output fn = ascii "-" ∨ CanCreate fs env (sigTarget output fn) force) ∧
      (∃ b sk, fs.read kn = some b ∧ makePrivateKey D.P D.Y D.pem b getpw = .ok sk) ∧
      (∃ content, fs.read fn = some content) ∧ mapErr = none := by
  have htgt : (if output = [] then fn ++ ascii ".sig" else output) = sigTarget output fn := by
    have e1 : ascii ".sig" = ".sig".toUTF8.toList := by decide +kernel
    unfold sigTarget; rw [e1]
  have htext : ∀ T : Res Bytes, T = ((readPrivateKey D fs kn getpw).bind fun sk =>
    (readFile fs fn).bind fun content =>
    match mapErr with
    | some e => .err e
    | none => (signFile D.P sk content).bind fun sig => .ok (sig.marshal D.Y (ascii "input=" ++ fn))) →
      ((∃ t, T = .ok t) ↔ (∃ b sk, fs.read kn = some b ∧ makePrivateKey D.P D.Y D.pem b getpw = .ok sk) ∧
      (∃ content, fs.read fn = some content) ∧ mapErr = none) := by
    rintro T rfl
    constructor
    · rintro ⟨t, h⟩
      obtain ⟨sk, h1, h2⟩ := (bind_ok_iff _ _ _).mp h
      obtain ⟨content, h3, h4⟩ := (bind_ok_iff _ _ _).mp h2
      obtain ⟨b, g1, g2⟩ := (readPrivateKey_ok _ _ _ _ _).mp h1
      refine ⟨⟨b, sk, g1, g2⟩, ⟨content, readFile_some h3⟩, ?_⟩
      cases mapErr with
      | none => rfl
      | some e => cases h4
    · rintro ⟨⟨b, sk, h1, h2⟩, ⟨content, h3⟩, rfl⟩
      rw [(readPrivateKey_ok _ _ _ _ _).mpr ⟨b, h1, h2⟩, Res.bind_ok]
      have : readFile fs fn = .ok content := by unfold readFile orErr; rw [h3]
      rw [this, Res.bind_ok]
      dsimp only
      unfold signFile signMessage
      rw [if_neg (by rw [(C37_private _ _ _ _ _ _ h2).1]; simp), Res.bind_ok]
      exact ⟨_, rfl⟩
  unfold signCmd
  dsimp only
  rw [htgt]
  generalize hT : (readPrivateKey D fs kn getpw).bind _ = T
  have hT' := htext T hT.symm
  by_cases hd : sigTarget output fn = ascii "-"
  · rw [if_pos hd]
    simp only [hd, true_or, true_and]
    rw [← hT']
    cases T <;> simp
  · rw [if_neg hd]
    simp only [hd, false_or]
    rw [← hT', ← newSafeFile_ok_iff (perm := 0o644)]
    match hn : newSafeFile fs env 0o644 (sigTarget output fn) force with
    | .err e => simp
    | .panic w => exact absurd hn (newSafeFile_no_panic _ _ _ _ _)
    | .ok c => cases T <;> simp

theorem addAll_progress (D : Deps) (fs : FS) (keys : List PublicKey) : ∀ (rcpts : List (Bytes × Bytes)) (pks : List PublicKey)
    (e e' : Encryptor) (n : Nat), List.Forall₂ (fun r pk => Spec.Denotes D fs keys r.1 pk) rcpts pks →
    e.addRecipients D.P (pks.zip (rcpts.map (·.2))) = (.ok (), e') → addAll D fs keys e n rcpts = .ok (e', n) := by
  intro rcpts pks e e' n h
  induction h generalizing e with
  | nil => intro h; cases h; rfl
  | @cons r pk rs pks h1 _ ih =>
    intro h
    obtain ⟨fn, rbuf⟩ := r
    unfold addAll
    rw [(resolveRecipient_some _ _ _ _ _).mpr h1]
    dsimp only
    simp only [List.map_cons, List.zip_cons_cons, Encryptor.addRecipients] at h
    match ha : e.addRecipient D.P pk rbuf with
    | (.err x, _) => rw [ha] at h; cases h
    | (.panic x, _) => rw [ha] at h; cases h
    | (.ok (), e1) =>
      rw [ha] at h
      exact ih e1 h

/-- **C79** (`encrypt`).  `encrypt` exits with 0 if the block size parses, the sender's key (if any) loads and is a genuine key,
there is at least one recipient, every recipient argument denotes a genuine public key, the input exists and is read to its end
without error, the `authorized_keys` file is readable or missing, and the output can be created and takes all writes. -/
theorem C79_encrypt_succeeds (D : Deps) (L : Laws D.P) (fs : FS) (env : SafeEnv) (stdout : Writer) (outfile : Path) (force : Bool)
    (keyfile : Path) (getpw : GetPw) (blk : Nat) (auth : Path) (rcpts : List (Bytes × Bytes)) (infile : Path) (rd : Reader)
    (c : EncCoins) (coin : Bytes)
    (sk : Option PrivateKey) (hsk : IdentityArg D fs keyfile getpw sk) (hgen : ∀ s, sk = some s → s.Genuine D.P)
    (hr : rcpts ≠ []) (hden : ∀ r ∈ rcpts, ∃ pk, Denotes D fs (parseAuthorizedKeys D.P ((fs.read auth).getD [])) r.1 pk ∧
      ∃ seed, seed.length = 32 ∧ pk.pk = D.P.edPub seed)
    (hin : infile = ascii "-" ∨ fs.exists infile = true) (hauth : fs.dir auth = none ∨ ∃ b, fs.read auth = some b)
    (hrd : rd.last = .eof) (hc : c.WF) (hout : GoodOutput fs env stdout outfile force)
    (hclose : if outfile = [] ∨ outfile = ascii "-" then stdout.closeErr = none
      else env.syncErr = none ∧ env.closeErr = none ∧ env.renameErr = none) :
    (encryptCmd D fs env stdout outfile force keyfile getpw (some blk) (some auth) rcpts infile rd c coin).exit = 0 := by
  have hkey : (if keyfile = [] then (.ok none : Res (Option PrivateKey)) else
      (readPrivateKey D fs keyfile getpw).bind fun sk => .ok (some sk)) = .ok sk := by
    rcases hsk with ⟨h1, rfl⟩ | ⟨h1, b, s, h2, h3, rfl⟩
    · rw [if_pos h1]
    · rw [if_neg h1, (readPrivateKey_ok _ _ _ _ _).mpr ⟨b, h2, h3⟩, Res.bind_ok]
  have hpks : ∀ rs : List (Bytes × Bytes), (∀ r ∈ rs, ∃ pk, Denotes D fs (parseAuthorizedKeys D.P ((fs.read auth).getD [])) r.1 pk ∧
      ∃ seed, seed.length = 32 ∧ pk.pk = D.P.edPub seed) → ∃ pks : List PublicKey,
      List.Forall₂ (fun r pk => Spec.Denotes D fs (parseAuthorizedKeys D.P ((fs.read auth).getD [])) r.1 pk) rs pks ∧
      ∀ pk ∈ pks, RealPK D.P pk.pk := by
    intro rs
    induction rs with
    | nil => intro _; exact ⟨[], .nil, by simp⟩
    | cons r rs ih =>
      intro h
      obtain ⟨pks, h1, h2⟩ := ih fun x hx => h x (List.mem_cons_of_mem _ hx)
      obtain ⟨pk, h3, h4⟩ := h r (by simp)
      exact ⟨pk :: pks, .cons h3 h1, by
        intro x hx
        rcases List.mem_cons.mp hx with rfl | hx
        · exact h4
        · exact h2 x hx⟩
  obtain ⟨pks, hp1, hp2⟩ := hpks rcpts hden
  have hreal : ∀ r ∈ pks.zip (rcpts.map (·.2)), RealPK D.P r.1.pk := fun r hr => hp2 _ (List.of_mem_zip hr).1
  have body : ∀ w : Writer, w.NoFail → w.closeErr = none →
      (encryptBody D fs (parseAuthorizedKeys D.P ((fs.read auth).getD [])) sk blk c rcpts rd coin w).1 = .ok 0 := by
    intro w hw hcl
    obtain ⟨e, e', rd', wr', h1, h2⟩ := C01_encrypt_succeeds D.P L sk hgen blk c hc _ hreal rd hrd w hw hcl coin
    have hs : ((newEncryptor D.P sk blk c).bind fun e => addAll D fs (parseAuthorizedKeys D.P ((fs.read auth).getD [])) e 0 rcpts) =
        .ok (e, 0) := by
      unfold setupEncryptor at h1
      obtain ⟨e0, h3, h4⟩ := (bind_ok_iff _ _ _).mp h1
      rw [h3, Res.bind_ok]
      split at h4
      · cases h4
        exact addAll_progress D fs _ rcpts pks e0 _ 0 hp1 (by assumption)
      · cases h4
      · cases h4
    unfold encryptBody
    rw [hs]
    dsimp only
    rw [if_neg (by omega), h2]
  unfold encryptCmd
  dsimp only
  rw [hkey]
  dsimp only
  rw [if_neg hr, if_neg (by
    rintro ⟨h1, h2⟩
    rcases hin with h | h
    · exact h1 h
    · rw [h] at h2; cases h2)]
  rw [if_neg (by
    rintro ⟨h1, h2⟩
    rcases hauth with h | ⟨b, h⟩
    · unfold FS.exists at h1; rw [h] at h1; cases h1
    · rw [h] at h2; cases h2)]
  unfold withOutput
  rcases hout with ⟨h1, h2⟩ | ⟨h1, h2, h3, h4⟩
  · rw [if_pos h1] at hclose ⊢
    have := body stdout h2 hclose
    dsimp only
    rw [this]
    rfl
  · have hn : ¬ (outfile = [] ∨ outfile = ascii "-") := by rintro (h | h); exacts [h1.1 h, h1.2 h]
    rw [if_neg hn] at hclose ⊢
    obtain ⟨cs, hcs⟩ := (newSafeFile_ok_iff (perm := 0o600) fs env outfile force).mpr ⟨h2, h4⟩
    rw [hcs]
    have := body (env.writer outfile) h3 ((closeCalls_ok_iff env outfile).mpr hclose)
    dsimp only
    rw [this]
    rfl

/-- **C79** (names with `@`).  A recipient argument with an `@` after its first character is looked up in `authorized_keys` only: even
if a file of that name holds a public key, `encrypt` fails unless some line there has this comment. -/
theorem C79_at_sign (D : Deps) (fs : FS) (env : SafeEnv) (stdout : Writer) (outfile : Path) (force : Bool)
    (keyfile : Path) (getpw : GetPw) (blk : Option Nat) (auth : Option Path) (rcpts : List (Bytes × Bytes)) (infile : Path) (rd : Reader)
    (c : EncCoins) (coin : Bytes) (r : Bytes × Bytes) (hr : r ∈ rcpts) (hat : NamesUser r.1)
    (hno : ∀ a, auth = some a → ∀ pk ∈ parseAuthorizedKeys D.P ((fs.read a).getD []), pk.comment ≠ r.1) :
    (encryptCmd D fs env stdout outfile force keyfile getpw blk auth rcpts infile rd c coin).exit ≠ 0 := by
  have body : ∀ (a : Path) (sk : Option PrivateKey) (blk : Nat) (w : Writer), auth = some a →
      exitOf (encryptBody D fs (parseAuthorizedKeys D.P ((fs.read a).getD [])) sk blk c rcpts rd coin w).1 ≠ 0 := by
    intro a sk blk w ha h
    unfold encryptBody at h
    match hs : ((newEncryptor D.P sk blk c).bind fun e => addAll D fs (parseAuthorizedKeys D.P ((fs.read a).getD [])) e 0 rcpts) with
    | .err x => rw [hs] at h; cases h
    | .panic x => rw [hs] at h; cases h
    | .ok (e, n) =>
      rw [hs] at h
      dsimp only at h
      split at h
      · cases h
      · rename_i hn
        have hn0 : n = 0 := by omega
        subst hn0
        obtain ⟨pks, h1, hset⟩ := setup_addAll D fs _ sk blk c rcpts e hs
        have : ∃ pk, Denotes D fs (parseAuthorizedKeys D.P ((fs.read a).getD [])) r.1 pk := by
          clear hs h hset
          induction h1 with
          | nil => cases hr
          | cons g1 _ ih =>
            rcases List.mem_cons.mp hr with rfl | hr
            · exact ⟨_, g1⟩
            · exact ih hr
        obtain ⟨pk, hd⟩ := this
        rcases hd with ⟨_, before, after, h2, h3, _⟩ | ⟨h2, _⟩
        · exact hno a ha pk (by rw [h2]; simp) h3
        · exact h2 hat
  intro h
  unfold encryptCmd at h
  split at h
  · cases h
  · dsimp only at h
    split at h
    · cases h
    · cases h
    · split at h
      · cases h
      · split at h
        · cases h
        · split at h
          · cases h
          · split at h
            · cases h
            · unfold withOutput at h
              split at h
              · exact body _ _ _ _ rfl h
              · split at h
                · cases h
                · cases h
                · exact body _ _ _ _ rfl h

end Sigtool
