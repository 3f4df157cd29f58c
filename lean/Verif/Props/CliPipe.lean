import Verif.Props.CliEnd
import Verif.Props.CliComplete
/-!
# From `encrypt` to `decrypt`, through files or pipes

The command-level part of C82: like C60, but input and output of both commands may be files or standard input and output.
-/

namespace Sigtool
open Spec

/-- A command left `content` at its output: on standard output for `""` and `"-"`, else in the file. -/
def Spec.Produced (fs : FS) (outfile : Path) (o : Outcome) (content : Bytes) : Prop :=
  ((outfile = [] ∨ outfile = ascii "-") ∧ o.stdout = content) ∨
  ((outfile ≠ [] ∧ outfile ≠ ascii "-") ∧ (fs.run o.sys).read outfile = some content)

/-- What the body of `encrypt` wrote is what the command produced. -/
theorem encrypt_produced (D : Deps) (L : Laws D.P) (fs1 : FS) (env1 : SafeEnv) (stdout1 : Writer) (out1 : Path) (force1 : Bool)
    (skfile : Path) (getpw1 : GetPw) (blk : Nat) (auth : Path) (rcpts : List (Bytes × Bytes)) (infile : Path)
    (rd : Reader) (c : EncCoins) (hc : c.WF) (coin : Bytes) (hcoin : coin.length = 64)
    (hf1 : Fresh fs1 env1.tmp env1.inode) (ht1 : out1 ≠ env1.tmp) (hstd : stdout1.out = []) (a : Outcome)
    (ha : a = encryptCmd D fs1 env1 stdout1 out1 force1 skfile getpw1 (some blk) (some auth) rcpts infile rd c coin) (ha0 : a.exit = 0)
    (cont : Bytes) (hp : Produced fs1 out1 a cont) :
    ∃ sks w w', w.out = [] ∧ (skfile = [] ∧ sks = none ∨ skfile ≠ [] ∧ ∃ s, sks = some s ∧ readPrivateKey D fs1 skfile getpw1 = .ok s) ∧
      encryptBody D fs1 (parseAuthorizedKeys D.P ((fs1.read auth).getD [])) sks blk c rcpts rd coin w = (.ok 0, w') ∧ w'.out = cont := by
  rcases encryptCmd_cases D fs1 env1 stdout1 out1 force1 skfile getpw1 (some blk) (some auth) rcpts infile rd c coin with
    ⟨n, hn, h1⟩ | ⟨blk', sks, auth', e1, e2, _, e4, e5⟩
  · rw [ha, h1] at ha0; exact absurd ha0 hn
  cases e1
  cases e2
  rw [e5] at ha
  rcases hp with ⟨ho, hp⟩ | ⟨ho, hp⟩
  · unfold withOutput at ha
    rw [if_pos ho] at ha
    match hb : encryptBody D fs1 (parseAuthorizedKeys D.P ((fs1.read auth).getD [])) sks blk c rcpts rd coin stdout1 with
    | (r, w') =>
      rw [hb] at ha
      dsimp only at ha
      subst ha
      have : r = .ok 0 := by
        cases r with
        | ok n =>
          have : n = 0 := ha0
          rw [this]
        | err _ => cases ha0
        | panic _ => cases ha0
      subst this
      exact ⟨sks, stdout1, w', hstd, e4, hb, hp⟩
  · rw [ha] at ha0 hp
    obtain ⟨_, w, g1, _, g3⟩ := withOutput_success fs1 env1 stdout1 out1 force1 _
      (encryptBody_ok D L fs1 (parseAuthorizedKeys D.P ((fs1.read auth).getD [])) sks blk c hc rcpts rd coin hcoin) ho ha0
    have hclose := (encryptBody_success D L fs1 _ sks blk c hc rcpts rd coin hcoin _ _ _ g1).1
    have hcl1 : (closeCalls env1 out1).1.isNone = true := by
      have : (closeCalls env1 out1).1 = none := hclose
      rw [this]; rfl
    rw [hcl1] at g3
    rw [(g3.success fs1 hf1 ht1).1, Option.some.injEq] at hp
    exact ⟨sks, env1.writer out1, w, rfl, e4, g1, hp⟩

/-- What the body of `decrypt` writes is what the command produces. -/
theorem decrypt_produced (D : Deps) (fs2 : FS) (env2 : SafeEnv) (stdout2 : Writer) (hstd : stdout2.out = []) (out2 : Path) (force2 : Bool)
    (hf2 : Fresh fs2 env2.tmp env2.inode) (ht2 : out2 ≠ env2.tmp) (hgood : GoodOutput fs2 env2 stdout2 out2 force2)
    (hcl : env2.syncErr = none ∧ env2.closeErr = none ∧ env2.renameErr = none)
    (keyfile : Path) (getpw2 : GetPw) (sk : PrivateKey) (hsk : readPrivateKey D fs2 keyfile getpw2 = .ok sk)
    (pubkey : Path) (spk : Option PublicKey)
    (hspk : (if pubkey = [] then (.ok none : Res (Option PublicKey)) else (readPublicKey D fs2 pubkey).bind fun pk => .ok (some pk)) = .ok spk)
    (infile2 : Path) (hin : infile2 = [] ∨ infile2 = ascii "-" ∨ fs2.exists infile2 = true) (rd2 : Reader) (plain : Bytes)
    (hbody : ∀ out : Writer, out.NoFail → ∃ d d' out', setupDecryptor D.P rd2 sk spk = .ok d ∧ d.decrypt D.P out = (.ok (), d', out') ∧
      out'.out = out.out ++ plain)
    (b : Outcome) (hb : b = decryptCmd D fs2 env2 stdout2 out2 force2 false keyfile getpw2 pubkey infile2 rd2) :
    b.exit = 0 ∧ Produced fs2 out2 b plain ∧ SameBut fs2 (fs2.run b.sys) [out2] := by
  have key : ∀ w : Writer, w.NoFail → ∃ w' : Writer, decryptBody D.P rd2 sk spk w = (.ok 0, w'.close.2) ∧ w'.out = w.out ++ plain := by
    intro w hw
    obtain ⟨d, d', wo, n1, n2, n3⟩ := hbody w hw
    refine ⟨wo, ?_, n3⟩
    unfold decryptBody
    rw [n1]
    dsimp only
    rw [n2]
  have hcmd : b = withOutput fs2 env2 0o600 stdout2 out2 force2 (decryptBody D.P rd2 sk spk) := by
    subst hb
    unfold decryptCmd
    rw [hsk]
    dsimp only
    rw [hspk]
    dsimp only
    rw [if_neg (by
      rintro ⟨h1, h2, h3⟩
      rcases hin with h | h | h
      · exact h1 h
      · exact h2 h
      · rw [h] at h3; cases h3)]
    rfl
  unfold withOutput at hcmd
  rcases hgood with ⟨h1, h2⟩ | ⟨h1, h2, h3, h4⟩
  · rw [if_pos h1] at hcmd
    obtain ⟨w', k1, k2⟩ := key stdout2 h2
    rw [k1] at hcmd
    dsimp only at hcmd
    subst hcmd
    refine ⟨rfl, .inl ⟨h1, ?_⟩, fun p _ => ⟨rfl, rfl⟩⟩
    show w'.out = plain
    rw [k2, hstd, List.nil_append]
  · rw [if_neg (by rintro (h | h); exacts [h1.1 h, h1.2 h])] at hcmd
    obtain ⟨cs, hcs⟩ := (newSafeFile_ok_iff (perm := 0o600) fs2 env2 out2 force2).mpr ⟨h2, h4⟩
    rw [hcs] at hcmd
    dsimp only at hcmd
    obtain ⟨w', k1, k2⟩ := key (env2.writer out2) h3
    rw [k1] at hcmd
    dsimp only at hcmd
    have hrun := safeCalls_closed (perm := 0o600) env2 out2 w'.close.2 (by simp [Writer.close])
    have hc : (closeCalls env2 out2).1.isNone = true := by rw [(closeCalls_ok_iff env2 out2).mpr hcl]; rfl
    rw [hc] at hrun
    subst hcmd
    refine ⟨rfl, .inr ⟨h1, ?_⟩, hrun.same fs2 hf2 ht2⟩
    show (fs2.run (safeCalls env2 0o600 out2 w'.close.2 false)).read out2 = _
    rw [(hrun.success fs2 hf2 ht2).1]
    show some w'.out = _
    rw [k2]
    rfl

/-- `encrypt` then `decrypt`, through files or pipes, at command level. -/
theorem encrypt_decrypt_pipe (D : Deps) (L : Laws D.P)
    (fs1 : FS) (env1 : SafeEnv) (stdout1 : Writer) (hstd1 : stdout1.out = []) (out1 : Path) (force1 : Bool) (skfile : Path) (getpw1 : GetPw)
    (blk : Nat) (hblk : blk < 2^30) (auth : Path) (rcpts : List (Bytes × Bytes)) (hrl : ∀ r ∈ rcpts, r.2.length = 12)
    (hcount : rcpts.length ≤ 15885) (infile : Path)
    (rd : Reader) (c : EncCoins) (hc : c.WF) (coin : Bytes) (hcoin : coin.length = 64)
    (hf1 : Fresh fs1 env1.tmp env1.inode) (ht1 : out1 ≠ env1.tmp)
    (a : Outcome)
    (ha : a = encryptCmd D fs1 env1 stdout1 out1 force1 skfile getpw1 (some blk) (some auth) rcpts infile rd c coin) (ha0 : a.exit = 0)
    (cont : Bytes) (hprod : Produced fs1 out1 a cont)
    -- the decrypting side
    (fs2 : FS) (rd2 : Reader) (hrd2 : rd2.content = cont)
    (infile2 : Path) (hin : infile2 = [] ∨ infile2 = ascii "-" ∨ fs2.exists infile2 = true)
    (keyfile : Path) (getpw2 : GetPw) (sk : PrivateKey) (hsk : readPrivateKey D fs2 keyfile getpw2 = .ok sk) (seed : Bytes)
    (hseed : seed.length = 32) (hsks : sk.sk = seed ++ D.P.edPub seed) (hskp : sk.pub.pk = D.P.edPub seed)
    (hrcpt : ∃ r ∈ rcpts, ∃ pk, Denotes D fs1 (parseAuthorizedKeys D.P ((fs1.read auth).getD [])) r.1 pk ∧ pk.pk = sk.pub.pk)
    (pubkey : Path) (hnone : skfile = [] → pubkey = [])
    (hsender : skfile ≠ [] → ∃ s p, readPrivateKey D fs1 skfile getpw1 = .ok s ∧ s.Genuine D.P ∧ pubkey ≠ [] ∧
      readPublicKey D fs2 pubkey = .ok p ∧ p.pk = s.pub.pk)
    (env2 : SafeEnv) (stdout2 : Writer) (hstd2 : stdout2.out = []) (out2 : Path) (force2 : Bool)
    (hf2 : Fresh fs2 env2.tmp env2.inode) (ht2 : out2 ≠ env2.tmp) (hgood : GoodOutput fs2 env2 stdout2 out2 force2)
    (hcl : env2.syncErr = none ∧ env2.closeErr = none ∧ env2.renameErr = none)
    (b : Outcome) (hb : b = decryptCmd D fs2 env2 stdout2 out2 force2 false keyfile getpw2 pubkey infile2 rd2) :
    (∃ r ∈ rcpts, ∃ pk, Denotes D fs1 (parseAuthorizedKeys D.P ((fs1.read auth).getD [])) r.1 pk ∧
      WrapForgery D.P (clamp c.csk) c.salt c.key pk.pk r.2 seed) ∨
    (b.exit = 0 ∧ Produced fs2 out2 b rd.content ∧ SameBut fs2 (fs2.run b.sys) [out2]) := by
  obtain ⟨sks, w, w', q1, e4, g1, q2⟩ := encrypt_produced D L fs1 env1 stdout1 out1 force1 skfile getpw1 blk auth rcpts infile rd c hc coin
    hcoin hf1 ht1 hstd1 a ha ha0 cont hprod
  obtain ⟨pks, e, e', rd', w1, k1, k2, k3, k4⟩ := encryptBody_session D fs1 _ sks blk c rcpts rd coin _ _ _ g1
  obtain ⟨r, hr, pk, hden, hpk⟩ := hrcpt
  obtain ⟨pk', hden', hmem⟩ := forall2_zip_mem (R := fun (a : Bytes) b => Denotes D fs1 _ a b) k1 r hr
  have := Denotes_unique D fs1 _ r.1 pk pk' hden hden'
  subst this
  have hsend : ∃ spk, (∀ s, sks = some s → s.Genuine D.P) ∧ (∀ s, sks = some s → ∃ p, spk = some p ∧ p.pk = s.pub.pk) ∧
      (if pubkey = [] then (.ok none : Res (Option PublicKey)) else (readPublicKey D fs2 pubkey).bind fun pk => .ok (some pk)) = .ok spk := by
    rcases e4 with ⟨hk, rfl⟩ | ⟨hk, s, rfl, hs⟩
    · exact ⟨none, by simp, by simp, by rw [if_pos (hnone hk)]⟩
    · obtain ⟨s', p, t1, t2, t3, t4, t5⟩ := hsender hk
      rw [hs] at t1
      cases t1
      refine ⟨some p, ?_, ?_, ?_⟩
      · intro x hx; cases hx; exact t2
      · intro x hx; cases hx; exact ⟨p, rfl, t5⟩
      · rw [if_neg t3, t4, Res.bind_ok]
  obtain ⟨spk, m1, m2, m3⟩ := hsend
  have hlen : (pks.zip (rcpts.map (·.2))).length = rcpts.length := by
    have := k1.length_eq
    simp only [List.length_zip, List.length_map]
    omega
  by_cases hforge : ∃ r ∈ pks.zip (rcpts.map (·.2)), WrapForgery D.P (clamp c.csk) c.salt c.key r.1.pk r.2 seed
  · obtain ⟨x, hxm, hx⟩ := hforge
    obtain ⟨y, hy, hy1, hy2⟩ := zip_mem_forall2 (R := fun (a : Bytes) b => Denotes D fs1 _ a b) k1 x hxm
    rw [hy2] at hx
    exact .inl ⟨y, hy, x.1, hy1, hx⟩
  · right
    refine decrypt_produced D fs2 env2 stdout2 hstd2 out2 force2 hf2 ht2 hgood hcl keyfile getpw2 sk hsk pubkey spk m3 infile2 hin rd2
      rd.content (fun out hout => ?_) b hb
    rcases C01_encrypt_decrypt D.P L sks m1 blk hblk c hc (pks.zip (rcpts.map (·.2)))
      (by
        intro x hx
        have := (List.of_mem_zip (a := x.1) (b := x.2) hx).2
        obtain ⟨y, hy, hyx⟩ := List.mem_map.mp this
        rw [← hyx]; exact hrl y hy)
      (by omega) e k2 rd w q1 coin hcoin e' rd' w1 k3 sk seed hseed hsks hskp ⟨(pk, r.2), hmem, hpk⟩ spk m2
      rd2 [] (by rw [List.append_nil, ← k4, q2]; exact hrd2) out hout with h | h
    · exact absurd h hforge
    · exact h

end Sigtool
