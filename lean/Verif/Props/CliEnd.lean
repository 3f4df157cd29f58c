import Verif.Props.CliCrypt
import Verif.Props.CliSign
/-! # Whole workflows of the program: C59, C60 -/

namespace Sigtool
open Spec

/-! ### A file name with a dot is never taken for a key -/

theorem decodeQ_alphabet : ∀ (s x : Bytes), Base64.decodeQ s = some x → ∀ c ∈ s, Base64.isB64 c = true
  | [], x, _ => by simp
  | [_], x, h => by cases h
  | [_, _], x, h => by cases h
  | [_, _, _], x, h => by cases h
  | c1 :: c2 :: c3 :: c4 :: t, x, h => by
    have ih := decodeQ_alphabet t
    have hpad : ∀ c, c = Base64.pad → Base64.isB64 c = true := by rintro c rfl; decide
    have hval : ∀ c v, Base64.val c = some v → Base64.isB64 c = true := by intro c v hv; simp [Base64.isB64, hv]
    simp only [Base64.decodeQ] at h
    intro c hc
    simp only [List.mem_cons] at hc
    split at h
    · rename_i v1 v2 e1 e2
      have k1 := hval _ _ e1
      have k2 := hval _ _ e2
      split at h
      · rename_i h3
        split at h
        · rename_i h4
          obtain ⟨h4, rfl⟩ := h4
          rcases hc with rfl | rfl | rfl | rfl | hc
          · exact k1
          · exact k2
          · exact hpad _ h3
          · exact hpad _ h4
          · cases hc
        · cases h
      · split at h
        · cases h
        · rename_i v3 e3
          have k3 := hval _ _ e3
          split at h
          · rename_i h4
            split at h
            · rename_i ht
              subst ht
              rcases hc with rfl | rfl | rfl | rfl | hc
              · exact k1
              · exact k2
              · exact k3
              · exact hpad _ h4
              · cases hc
            · cases h
          · split at h
            · rename_i v4 bs e4 hb
              rcases hc with rfl | rfl | rfl | rfl | hc
              · exact k1
              · exact k2
              · exact k3
              · exact hval _ _ e4
              · exact ih _ hb _ hc
            · cases h
    · cases h

theorem decode_dot (s : Bytes) (h : 46 ∈ s) : Base64.decode s = none := by
  match hd : Base64.decode s with
  | none => rfl
  | some x =>
    unfold Base64.decode at hd
    have := decodeQ_alphabet _ _ hd 46 (by rw [List.mem_filter]; exact ⟨h, by decide⟩)
    exact absurd this (by decide)

theorem fromString_dot (P : Prims) (s : Bytes) (h : 46 ∈ s) : ∃ e, makePublicKeyFromString P s = .err e := by
  have hd := decode_dot s h
  unfold makePublicKeyFromString parseEncPubKey
  rw [hd]
  exact ⟨_, rfl⟩

theorem pubName_dot (clean : Bytes) : 46 ∈ pubName clean := by
  unfold pubName
  rw [List.mem_append]
  right
  decide +kernel

/-! ### generate, sign, verify -/

/-- **C59** (accepted).  Generate a key pair, sign a file with the private key file and verify it with the public key file: `verify`
exits with 0.  Between the commands anything may happen to other files (`fs1` and `fs2` are any states that agree with the
previous command's result on the files in question). -/
theorem C59_gen_sign_verify (D : Deps) (L : Laws D.P) (YL : D.Y.Laws)
    (fs0 : FS) (env1 env2 : SafeEnv) (forceG : Bool) (clean comment : Bytes) (hY : D.Y.Reads comment)
    (hc : comment = [] ∨ ¬ Spec.marker <:+: D.Y.scalar comment)
    (pw seed salt : Bytes) (hseed : seed.length = 32) (hsalt : salt.length = 32) (he : GenEnv fs0 env1 env2 clean)
    (g : Outcome) (hg : g = genCmd D fs0 env1 env2 forceG clean comment (.ok pw) seed salt) (hg0 : g.exit = 0)
    (fs1 : FS) (hk1 : fs1.read (keyName clean) = (fs0.run g.sys).read (keyName clean))
    (hp1 : fs1.read (pubName clean) = (fs0.run g.sys).read (pubName clean))
    (env3 : SafeEnv) (stdout : Writer) (output fn : Path) (forceS : Bool) (hYf : D.Y.Reads (ascii "input=" ++ fn))
    (hf : Fresh fs1 env3.tmp env3.inode) (ht : sigTarget output fn ≠ env3.tmp) (hd : sigTarget output fn ≠ ascii "-")
    (hne : sigTarget output fn ≠ fn ∧ sigTarget output fn ≠ pubName clean)
    (hw : ∀ k e, WEv.fail k e ∉ env3.writes) (hsy : env3.syncErr = none) (hcl : env3.closeErr = none) (hrn : env3.renameErr = none)
    (s : Outcome) (hs : s = signCmd D fs1 env3 stdout output forceS (some (.ok pw)) none (keyName clean) fn) (hs0 : s.exit = 0)
    (fs2 : FS) (h2 : ∀ p, p = pubName clean ∨ p = sigTarget output fn ∨ p = fn → fs2.read p = (fs1.run s.sys).read p) :
    verifyCmd D fs2 none [pubName clean, sigTarget output fn, fn] = 0 := by
  have hgen := C49_pair_loads D L YL fs0 env1 env2 forceG clean comment hY hc (.ok pw) seed salt hseed hsalt he (by rw [← hg]; exact hg0)
  rw [← hg] at hgen
  dsimp only at hgen
  obtain ⟨pw', sk, pk, q1, q2, q3, q4, q5, q6, q7, q8⟩ := hgen
  cases q1
  obtain ⟨b, sk1, content, sig, r1, r2, r3, r4, r5, r6, r7⟩ :=
    C58_signature_partial D L fs1 env3 stdout output forceS (some (.ok pw)) none (keyName clean) fn hYf hf ht hd hw hsy hcl hrn s hs hs0
  have hskeq : sk1 = sk := by
    obtain ⟨b', t1, t2⟩ := (readPrivateKey_ok _ _ _ _ _).mp q2
    rw [hk1, t1] at r1
    cases r1
    rw [t2] at r2
    cases r2
    rfl
  subst hskeq
  obtain ⟨bp, u1, u2⟩ := (readPublicKey_ok _ _ _ _).mp q3
  have hpub : fs2.read (pubName clean) = some bp := by
    rw [h2 _ (.inl rfl), (r7 (pubName clean) (by simpa using hne.2.symm)).1, hp1, u1]
  have hfile : fs2.read fn = some content := by
    rw [h2 _ (.inr (.inr rfl)), (r7 fn (by simpa using hne.1.symm)).1, r3]
  refine (C48_exit_zero_iff D fs2 none _).mpr ⟨_, _, _, [], rfl, rfl, pk, sig, content, ?_, ?_, ?_, hfile, ?_⟩
  · exact .inr ⟨fromString_dot D.P _ (pubName_dot clean), bp, hpub, u2⟩
  · obtain ⟨tb, v1, v2⟩ := r4
    exact ⟨tb, by rw [h2 _ (.inr (.inl rfl)), v1], v2⟩
  · rw [r5]; exact q7.symm
  · have := r6 q8
    rw [q6]
    rw [q5] at this
    exact this

/-- **C59** (rejected).  If the file is changed after it was signed — the owner of the key has signed nothing else — `verify` with
the same public key and any signature file exits with a status other than 0, unless there is a SHA-512 collision or an
Ed25519 forgery. -/
theorem C59_changed_file (D : Deps) (fs2 : FS) (mapErr : Option Err) (pn sn fn : Path) (more : List Bytes)
    (pk : PublicKey) (hpk : KeyArg D fs2 pn pk) (content content' : Bytes) (hne : content' ≠ content)
    (hfile : fs2.read fn = some content') (h0 : verifyCmd D fs2 mapErr (pn :: sn :: fn :: more) = 0) :
    ∃ sig, SigFile D fs2 sn sig ∧
      (Collides D.P (fileInput content) (fileInput content') ∨
       Collides D.P (messageInput (D.P.sha512 (fileInput content))) (messageInput (D.P.sha512 (fileInput content'))) ∨
       Forged D.P pk.pk [D.P.sha512 (messageInput (D.P.sha512 (fileInput content)))]
         (D.P.sha512 (messageInput (D.P.sha512 (fileInput content')))) sig.sig) := by
  obtain ⟨pn', sn', fn', more', h1, _, pk', sig, c, h2, h3, _, h5, h6⟩ := (C48_exit_zero_iff D fs2 mapErr _).mp h0
  cases h1
  have hpkeq : pk' = pk := by
    have a := (verifyKey_some D fs2 pn pk').mpr h2
    have b := (verifyKey_some D fs2 pn pk).mpr hpk
    rw [a] at b
    cases b
    rfl
  subst hpkeq
  rw [hfile] at h5
  cases h5
  refine ⟨sig, h3, ?_⟩
  have hv : verifyFile D.P pk' content' sig = .ok true := by
    rw [(C31_is_message_signature D.P ⟨[], ⟨[], [], []⟩⟩ pk' content' sig).2, (C30_verify_iff D.P pk' (KeyArg_len D fs2 pn pk' h2) _ sig).1]
    exact h6
  rcases C31_binding D.P pk' [content] content' sig (by simpa using hne) hv with ⟨c', hc', h⟩ | ⟨c', hc', h⟩ | h
  · simp only [List.mem_singleton] at hc'; subst hc'; exact .inl h
  · simp only [List.mem_singleton] at hc'; subst hc'; exact .inr (.inl h)
  · exact .inr (.inr h)

/-! ### encrypt, decrypt -/

theorem Denotes_unique (D : Deps) (fs : FS) (keys : List PublicKey) (arg : Bytes) (a b : PublicKey)
    (h1 : Denotes D fs keys arg a) (h2 : Denotes D fs keys arg b) : a = b := by
  have := ((resolveRecipient_some D fs keys arg a).mpr h1).symm.trans ((resolveRecipient_some D fs keys arg b).mpr h2)
  cases this
  rfl

/-- A successful body is a session of the library. -/
theorem encryptBody_session (D : Deps) (fs : FS) (keys : List PublicKey) (sk : Option PrivateKey) (blk : Nat)
    (c : EncCoins) (rcpts : List (Bytes × Bytes)) (rd : Reader) (coin : Bytes)
    (w w' : Writer) (n : Nat) (h : encryptBody D fs keys sk blk c rcpts rd coin w = (.ok n, w')) :
    ∃ pks e e' rd' w1, List.Forall₂ (fun r pk => Denotes D fs keys r.1 pk) rcpts pks ∧
      setupEncryptor D.P sk blk c (pks.zip (rcpts.map (·.2))) = .ok e ∧ e.encrypt D.P rd w coin = (.ok (), e', rd', w1) ∧
      w'.out = w1.out := by
  unfold encryptBody at h
  match hs : ((newEncryptor D.P sk blk c).bind fun e => addAll D fs keys e 0 rcpts) with
  | .err x => rw [hs] at h; cases h
  | .panic x => rw [hs] at h; cases h
  | .ok (e, m) =>
    rw [hs] at h
    dsimp only at h
    split at h
    · cases h
    · have hn0 : m = 0 := by omega
      subst hn0
      obtain ⟨pks, hden, hset⟩ := setup_addAll D fs keys sk blk c rcpts e hs
      match he : e.encrypt D.P rd w coin with
      | (.err x, e1, rd1, w1) => rw [he] at h; cases h
      | (.panic x, e1, rd1, w1) => rw [he] at h; cases h
      | (.ok (), e1, rd1, w1) =>
        rw [he] at h
        cases h
        exact ⟨pks, e, e1, rd1, w1, hden, hset, he, rfl⟩

theorem forall2_zip_mem {α β γ : Type} {R : α → β → Prop} : ∀ {l : List (α × γ)} {m : List β},
    List.Forall₂ (fun r b => R r.1 b) l m → ∀ r ∈ l, ∃ b, R r.1 b ∧ (b, r.2) ∈ m.zip (l.map (·.2)) := by
  intro l m h
  induction h with
  | nil => intro r hr; cases hr
  | cons h1 _ ih =>
    intro r hr
    rcases List.mem_cons.mp hr with rfl | hr
    · exact ⟨_, h1, by simp⟩
    · obtain ⟨b, h2, h3⟩ := ih r hr
      exact ⟨b, h2, by simp only [List.map_cons, List.zip_cons_cons]; exact List.mem_cons_of_mem _ h3⟩

theorem zip_mem_forall2 {α β γ : Type} {R : α → β → Prop} : ∀ {l : List (α × γ)} {m : List β},
    List.Forall₂ (fun r b => R r.1 b) l m → ∀ x ∈ m.zip (l.map (·.2)), ∃ r ∈ l, R r.1 x.1 ∧ x.2 = r.2 := by
  intro l m h
  induction h with
  | nil => intro r hr; simp at hr
  | @cons r0 b0 l0 m0 h1 _ ih =>
    intro x hx
    simp only [List.map_cons, List.zip_cons_cons] at hx
    rcases List.mem_cons.mp hx with rfl | hx
    · exact ⟨r0, by simp, h1, rfl⟩
    · obtain ⟨r, h2, h3⟩ := ih x hx
      exact ⟨r, List.mem_cons_of_mem _ h2, h3⟩

/-- **C60** (round trip).  `encrypt` a file (delivered in any pieces) for any recipients, with or without a sender key; then
`decrypt` the result with the private key file of any recipient, and with `-v` naming the sender's public key if there was a
sender: `decrypt` exits with 0 and its output file holds exactly the original — or some wrapped key is an AEAD forgery for
that recipient. Between the commands anything may happen to other files. -/
theorem C60_encrypt_decrypt (D : Deps) (L : Laws D.P)
    (fs1 : FS) (env1 : SafeEnv) (stdout1 : Writer) (out1 : Path) (force1 : Bool) (skfile : Path) (getpw1 : GetPw)
    (blk : Nat) (hblk : blk < 2^30) (auth : Path) (rcpts : List (Bytes × Bytes)) (hrl : ∀ r ∈ rcpts, r.2.length = 12)
    (hcount : rcpts.length ≤ 15885) (infile : Path)
    (rd : Reader) (c : EncCoins) (hc : c.WF) (coin : Bytes) (hcoin : coin.length = 64)
    (hf1 : Fresh fs1 env1.tmp env1.inode) (ht1 : out1 ≠ env1.tmp) (ho1 : out1 ≠ [] ∧ out1 ≠ ascii "-")
    (a : Outcome)
    (ha : a = encryptCmd D fs1 env1 stdout1 out1 force1 skfile getpw1 (some blk) (some auth) rcpts infile rd c coin) (ha0 : a.exit = 0)
    -- the decrypting side
    (fs2 : FS) (h2 : fs2.read out1 = (fs1.run a.sys).read out1)
    (rd2 : Reader) (hrd2 : fs2.read out1 = some rd2.content)
    (keyfile : Path) (getpw2 : GetPw) (sk : PrivateKey) (hsk : readPrivateKey D fs2 keyfile getpw2 = .ok sk) (hgen : sk.Genuine D.P)
    (hrcpt : ∃ r ∈ rcpts, ∃ pk, Denotes D fs1 (parseAuthorizedKeys D.P ((fs1.read auth).getD [])) r.1 pk ∧ pk.pk = sk.pub.pk)
    (pubkey : Path) (hnone : skfile = [] → pubkey = [])
    (hsender : skfile ≠ [] → ∃ s p, readPrivateKey D fs1 skfile getpw1 = .ok s ∧ s.Genuine D.P ∧ pubkey ≠ [] ∧
      readPublicKey D fs2 pubkey = .ok p ∧ p.pk = s.pub.pk)
    (env2 : SafeEnv) (stdout2 : Writer) (out2 : Path) (force2 : Bool) (ho2 : out2 ≠ [] ∧ out2 ≠ ascii "-")
    (hf2 : Fresh fs2 env2.tmp env2.inode) (ht2 : out2 ≠ env2.tmp) (hopen : ∃ cs, newSafeFile fs2 env2 0o600 out2 force2 = .ok cs)
    (hw : ∀ k e, WEv.fail k e ∉ env2.writes) (hsy : env2.syncErr = none) (hcl : env2.closeErr = none) (hrn : env2.renameErr = none)
    (b : Outcome) (hb : b = decryptCmd D fs2 env2 stdout2 out2 force2 false keyfile getpw2 pubkey out1 rd2) :
    (∃ r ∈ rcpts, ∃ pk seed, Denotes D fs1 (parseAuthorizedKeys D.P ((fs1.read auth).getD [])) r.1 pk ∧
      seed.length = 32 ∧ sk.sk = seed ++ D.P.edPub seed ∧ WrapForgery D.P (clamp c.csk) c.salt c.key pk.pk r.2 seed) ∨
    (b.exit = 0 ∧ (fs2.run b.sys).read out2 = some rd.content ∧ SameBut fs2 (fs2.run b.sys) [out2]) := by
  rcases encryptCmd_cases D fs1 env1 stdout1 out1 force1 skfile getpw1 (some blk) (some auth) rcpts infile rd c coin with
    ⟨n, hn, h1⟩ | ⟨blk', sks, auth', e1, e2, _, e4, e5⟩
  · rw [ha, h1] at ha0; exact absurd ha0 hn
  cases e1
  cases e2
  rw [e5] at ha
  rw [ha] at ha0 h2
  obtain ⟨_, w, g1, _, g3⟩ := withOutput_success fs1 env1 stdout1 out1 force1 _
    (encryptBody_ok D L fs1 (parseAuthorizedKeys D.P ((fs1.read auth).getD [])) sks blk c hc rcpts rd coin hcoin) ho1 ha0
  have hclose := (encryptBody_success D L fs1 _ sks blk c hc rcpts rd coin hcoin _ _ _ g1).1
  have hcl1 : (closeCalls env1 out1).1.isNone = true := by
    have : (closeCalls env1 out1).1 = none := hclose
    rw [this]; rfl
  rw [hcl1] at g3
  rw [(g3.success fs1 hf1 ht1).1, hrd2, Option.some.injEq] at h2
  obtain ⟨pks, e, e', rd', w1, k1, k2, k3, k4⟩ := encryptBody_session D fs1 _ sks blk c rcpts rd coin _ _ _ g1
  -- the recipient
  obtain ⟨r, hr, pk, hden, hpk⟩ := hrcpt
  obtain ⟨pk', hden', hmem⟩ := forall2_zip_mem (R := fun (a : Bytes) b => Denotes D fs1 _ a b) k1 r hr
  have := Denotes_unique D fs1 _ r.1 pk pk' hden hden'
  subst this
  obtain ⟨seed, s1, s2, s3, _⟩ := hgen
  -- the sender
  have hsend : ∃ spk, (∀ s, sks = some s → s.Genuine D.P) ∧ (∀ s, sks = some s → ∃ p, spk = some p ∧ p.pk = s.pub.pk) ∧
      (if pubkey = [] then (.ok none : Res (Option PublicKey)) else (readPublicKey D fs2 pubkey).bind fun pk => .ok (some pk)) = .ok spk := by
    rcases e4 with ⟨hk, rfl⟩ | ⟨hk, s, rfl, hs⟩
    · exact ⟨none, by simp, by simp, by rw [if_pos (hnone hk)]⟩
    · obtain ⟨s', p, t1, t2, t3, t4, t5⟩ := hsender hk
      rw [hs] at t1
      cases t1
      refine ⟨some p, ?_, ?_, ?_⟩
      · intro x hx; cases hx; exact t2
      · intro x hx; cases hx; exact ⟨p, rfl, t5⟩
      · rw [if_neg t3, t4, Res.bind_ok]
  obtain ⟨spk, m1, m2, m3⟩ := hsend
  have hlen : (pks.zip (rcpts.map (·.2))).length = rcpts.length := by
    have := k1.length_eq
    simp only [List.length_zip, List.length_map]
    omega
  rcases C01_encrypt_decrypt D.P L sks m1 blk hblk c hc (pks.zip (rcpts.map (·.2)))
    (by
      intro x hx
      have := (List.of_mem_zip (a := x.1) (b := x.2) hx).2
      obtain ⟨y, hy, hyx⟩ := List.mem_map.mp this
      rw [← hyx]; exact hrl y hy)
    (by omega) e k2 rd (env1.writer out1) rfl coin hcoin e' rd' w1 k3 sk seed s1 s2 s3 ⟨(pk, r.2), hmem, hpk⟩ spk m2
    rd2 [] (by rw [List.append_nil, ← k4]; exact h2) (env2.writer out2) hw with ⟨x, hxm, hx⟩ | ⟨d, d', wo, n1, n2, n3⟩
  · obtain ⟨y, hy, hy1, hy2⟩ := zip_mem_forall2 (R := fun (a : Bytes) b => Denotes D fs1 _ a b) k1 x hxm
    rw [hy2] at hx
    exact .inl ⟨y, hy, x.1, seed, hy1, s1, s2, hx⟩
  · right
    have hbody : decryptBody D.P rd2 sk spk (env2.writer out2) = (.ok 0, wo.close.2) := by
      unfold decryptBody
      rw [n1]
      dsimp only
      rw [n2]
    obtain ⟨cs, hopen⟩ := hopen
    have heq : b = { exit := 0, sys := safeCalls env2 0o600 out2 wo.close.2 false } := by
      subst hb
      unfold decryptCmd
      rw [hsk]
      dsimp only
      rw [m3]
      dsimp only
      have hex : fs2.exists out1 = true := by
        unfold FS.read readIn at hrd2
        unfold FS.exists
        match hdir : fs2.dir out1 with
        | none => rw [hdir] at hrd2; cases hrd2
        | some _ => rfl
      rw [if_neg (by rintro ⟨_, _, h⟩; rw [hex] at h; cases h)]
      simp only [Bool.false_eq_true, if_false]
      unfold withOutput
      rw [if_neg (by rintro (h | h); exacts [ho2.1 h, ho2.2 h]), hopen]
      dsimp only
      rw [hbody]
      rfl
    have hcl2 : (closeCalls env2 out2).1.isNone = true := by unfold closeCalls; rw [hsy, hcl, hrn]; rfl
    have hrun := safeCalls_closed (perm := 0o600) env2 out2 wo.close.2 (by simp [Writer.close])
    rw [hcl2] at hrun
    rw [heq]
    refine ⟨rfl, ?_, hrun.same fs2 hf2 ht2⟩
    rw [(hrun.success fs2 hf2 ht2).1]
    show some wo.out = _
    rw [n3]
    rfl

end Sigtool
