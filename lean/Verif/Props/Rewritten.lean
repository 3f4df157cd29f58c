import Verif.Spec.Rewritten
import Verif.Props.SuccessDemo
import Verif.Props.Auth
/-!
# C139: a recipient can change what the others read, and `-v` does not notice
-/

namespace Sigtool
open Spec

theorem framed_parts (hb : Bytes) : (framed hb).drop 12 = hb ∧ (framed hb).take 12 = ascii "SigTool" ++ [3] ++ be32 hb.length := by
  have h : (ascii "SigTool" ++ [3] ++ be32 hb.length).length = 12 := by
    simp [be32, ascii]
  unfold framed
  exact ⟨List.drop_left' h, List.take_left' h⟩

/-- The header part of an input can be read in one way. -/
theorem framed_unique (P : Prims) (L : Laws P) {a b x y : Bytes} (ha : a.length < 2^32) (hb : b.length < 2^32)
    (h : framed a ++ P.sha256 (framed a) ++ x = framed b ++ P.sha256 (framed b) ++ y) : a = b ∧ x = y := by
  have l12 : ∀ c : Bytes, 12 ≤ (framed c).length := by
    intro c
    have := (framed_parts c).2
    have h2 := congrArg List.length this
    rw [List.length_take] at h2
    simp [be32, ascii] at h2
    omega
  have h12 := congrArg (List.take 12) h
  rw [List.append_assoc, List.append_assoc, List.take_append_of_le_length (l12 a), List.take_append_of_le_length (l12 b),
    (framed_parts a).2, (framed_parts b).2] at h12
  have hlen : a.length = b.length := by
    have := List.append_cancel_left h12
    have h3 := congrArg be32dec this
    have k1 := be32dec_be32 a.length []
    have k2 := be32dec_be32 b.length []
    rw [List.append_nil] at k1 k2
    rw [k1, k2] at h3
    omega
  rw [List.append_assoc, List.append_assoc] at h
  have hfl : (framed a).length = (framed b).length := by simp [framed, be32, hlen]
  obtain ⟨h1, h2⟩ := List.append_inj h hfl
  have : a = b := by rw [← (framed_parts a).1, h1, (framed_parts b).1]
  subst this
  exact ⟨rfl, List.append_cancel_left h2⟩

theorem decodes_unique {hb : Bytes} (hl : hb.length < 2^63) {h h' : Header} (h1 : Decodes hb h) (h2 : Decodes hb h') : h = h' := by
  have k1 := (C86_header hb (by omega) h).mpr h1
  have k2 := (C86_header hb (by omega) h').mpr h2
  rw [k1] at k2
  cases k2
  rfl

theorem firstOpened_unique {P : Prims} {h : Header} {sk : PrivateKey} {k k' : Bytes} (h1 : FirstOpened P h sk k)
    (h2 : FirstOpened P h sk k') : k = k' := by
  obtain ⟨b, w, a, e1, _, n1, o1⟩ := h1
  obtain ⟨b', w', a', e2, _, n2, o2⟩ := h2
  rw [e1] at e2
  have key : ∀ (b b' : List WrappedKey) (w w' : WrappedKey) (a a' : List WrappedKey), b ++ w :: a = b' ++ w' :: a' →
      (∀ v ∈ b, unwrapAs P (sk.sk.take 32) sk.pub.pk h.pk h.salt v = none) →
      (∀ v ∈ b', unwrapAs P (sk.sk.take 32) sk.pub.pk h.pk h.salt v = none) →
      unwrapAs P (sk.sk.take 32) sk.pub.pk h.pk h.salt w = some k → unwrapAs P (sk.sk.take 32) sk.pub.pk h.pk h.salt w' = some k' →
      k = k' := by
    intro b
    induction b with
    | nil =>
      intro b' w w' a a' e _ n2 o1 o2
      cases b' with
      | nil => cases e; rw [o1] at o2; exact Option.some.inj o2
      | cons v b' => cases e; rw [n2 _ (by simp)] at o1; cases o1
    | cons v b ih =>
      intro b' w w' a a' e n1 n2 o1 o2
      cases b' with
      | nil => cases e; rw [n1 _ (by simp)] at o2; cases o2
      | cons v' b' =>
        simp only [List.cons_append, List.cons.injEq] at e
        exact ih b' w w' a a' e.2 (fun v hv => n1 v (by simp [hv])) (fun v hv => n2 v (by simp [hv])) o1 o2
  exact key b b' w w' a a' e2 n1 n2 o1 o2

/-- What the meddler makes is a container with his contents, for everybody who gets the same root key as he. -/
theorem rewritten_contains (P : Prims) (L : Laws P) {input file evil : Bytes} {skM sk : PrivateKey} (hs : SameRoot P input skM sk)
    (hm : Meddled P input skM evil file) {spk : Option PublicKey} {hb : Bytes} {h : Header} {key : Bytes} {auth : Bool} {body : Bytes}
    (ho : Opening P input sk spk hb h key auth body) : Contains P file sk spk auth evil [] := by
  obtain ⟨hb1, h1, key1, body1, s1, i1, d1, o1, o1'⟩ := hs
  obtain ⟨hb2, h2, key2, body2, s2, i2, d2, o2, rfl⟩ := hm
  have hsize := ho.size.2
  obtain ⟨rfl, rfl⟩ := framed_unique P L (by omega) (by omega) (ho.layout.symm.trans i1)
  obtain ⟨rfl, rfl⟩ := framed_unique P L (by omega) (by omega) (i1.symm.trans i2)
  cases decodes_unique (by omega) ho.decodes d1
  cases decodes_unique (by omega) d1 d2
  cases firstOpened_unique ho.opened o1'
  cases firstOpened_unique o1 o2
  have hc := ho.rules.chunk.1
  refine ⟨hb, h, key, _, ⟨rfl, ho.size, ho.decodes, ho.rules, ho.opened, ho.sender⟩, evil.map fun b => [b], [],
    [0x80, 0, 0, 0], by simp, ?_, .inl ⟨rfl, rfl⟩, ?_⟩
  · intro c hcm
    obtain ⟨x, _, rfl⟩ := List.mem_map.mp hcm
    exact ⟨by simp, by simpa using hc⟩
  · induction evil with
    | nil => rfl
    | cons x l ih =>
      show x :: l = [x] ++ (l.map fun b => [b]).flatten ++ []
      rw [List.append_nil]
      simp only [List.append_nil] at ih
      rw [← ih]
      rfl

/-- **C139** (the library).  For every container that two private keys get the same root key out of (as the recipients of a
genuine one do, `C139_sent`), all contents `evil`, and the file the owner of the first key can make of it: whoever uses the
second key and names any sender or none, and for whom `NewDecryptor` and `SetPrivateKey` return nil on the container, finds
that they do on the changed file, that `AuthenticatedSender()` says the same, that `Decrypt` returns nil, and that the
destination holds `evil`. -/
theorem C139_rewrite_refuted (P : Prims) (L : Laws P) (input file evil : Bytes) (skM sk : PrivateKey) (hl : 32 ≤ sk.sk.length)
    (hs : SameRoot P input skM sk) (hm : Meddled P input skM evil file) (spk : Option PublicKey)
    (rd : Reader) (hrd : rd.content = input) (d : Decryptor) (hd : setupDecryptor P rd sk spk = .ok d)
    (rd2 : Reader) (hrd2 : rd2.content = file) (wr : Writer) (hw : wr.NoFail) :
    ∃ d2 d2' wr', setupDecryptor P rd2 sk spk = .ok d2 ∧ d2.auth = d.auth ∧ d2.decrypt P wr = (.ok (), d2', wr') ∧
      wr'.out = wr.out ++ evil := by
  obtain ⟨d0, rd', hb', key', ha, hk, hr, e1, e2, e3, e4, e5, e6, e7, e8⟩ := setupDecryptor_ok P L rd sk spk d hd
  obtain ⟨hb, ho, _⟩ := (setup_iff P L rd sk hl spk d.hdr key' d.auth d.rd.content d.hdrsum).mp
    ⟨d, hd, rfl, e4, rfl, rfl, rfl⟩
  rw [hrd] at ho
  have hc := rewritten_contains P L hs hm ho
  rw [← hrd2] at hc
  obtain ⟨d2, d2', wr', g1, g2, g3, g4, _⟩ := (C87_exact P L rd2 sk hl spk wr hw d.auth evil []).mpr hc
  exact ⟨d2, d2', wr', g1, g2, g3, g4⟩

/-- **C139** (whom it concerns).  For every sending session with a signing key (any block size, recipients, input) and any two of
its recipients, each of whom knows the sender's public key: both get the same root key out of what was written, the first can make
a file with any contents of it, and the second finds the container acceptable and its sender authenticated — so
`C139_rewrite_refuted` applies to him — unless a key wrapped in it is an AEAD forgery for one of the two. -/
theorem C139_sent (P : Prims) (L : Laws P) (s : PrivateKey) (blk : Nat) (c : EncCoins)
    (rcpts : List (PublicKey × Bytes)) (e : Encryptor) (plain : Bytes) (chunks : List Bytes) (bytes : Bytes)
    (h : Sending P (some s) blk c rcpts e plain chunks bytes)
    (skM sk : PrivateKey) (seedM seed : Bytes) (spkM spk : Option PublicKey) (hM : Receiving P (some s) rcpts skM seedM spkM)
    (hr : Receiving P (some s) rcpts sk seed spk) (rd : Reader) (hrd : rd.content = bytes) :
    (∃ r ∈ rcpts, WrapForgery P (clamp c.csk) c.salt c.key r.1.pk r.2 seedM ∨
      WrapForgery P (clamp c.csk) c.salt c.key r.1.pk r.2 seed) ∨
    (SameRoot P bytes skM sk ∧ (∀ evil, ∃ file, Meddled P bytes skM evil file) ∧
      ∃ d, setupDecryptor P rd sk spk = .ok d ∧ d.auth = true) := by
  obtain ⟨epk, ws, coin, hs, hf, e4, e5, hcoin, hbytes, hck, hfl, hne⟩ := h.facts L
  have len : ∀ {sk : PrivateKey} {seed : Bytes} {spk : Option PublicKey}, Receiving P (some s) rcpts sk seed spk →
      32 ≤ sk.sk.length := by
    intro sk seed spk hr
    rw [hr.hsk, List.length_append, hr.hseed]
    omega
  rcases h.opens L hM rd _ (hrd.trans hbytes) with g | ⟨dM, m1, m2⟩
  · obtain ⟨r, g1, g2⟩ := g; exact .inl ⟨r, g1, .inl g2⟩
  rcases h.opens L hr rd _ (hrd.trans hbytes) with g | ⟨d, g1, g2⟩
  · obtain ⟨r, g1, g2⟩ := g; exact .inl ⟨r, g1, .inr g2⟩
  right
  obtain ⟨hbM, oM, _⟩ := (setup_iff P L rd skM (len hM) spkM e.hdr e.key dM.auth dM.rd.content dM.hdrsum).mp
    ⟨dM, m1, m2.hdr, m2.key, rfl, rfl, rfl⟩
  obtain ⟨hb, o, _⟩ := (setup_iff P L rd sk (len hr) spk e.hdr e.key d.auth d.rd.content d.hdrsum).mp
    ⟨d, g1, g2.hdr, g2.key, rfl, rfl, rfl⟩
  have hz := oM.size.2
  have hz' := o.size.2
  obtain ⟨rfl, hbody⟩ := framed_unique P L (by omega) (by omega) (oM.layout.symm.trans o.layout)
  rw [hrd] at o oM
  exact ⟨⟨hbM, e.hdr, e.key, _, hz, o.layout, o.decodes, oM.opened, o.opened⟩,
    fun evil => ⟨_, hbM, e.hdr, e.key, _, hz, o.layout, o.decodes, oM.opened, rfl⟩, d, g1, by rw [g2.auth]; rfl⟩

/-- **C139** (the command).  `sigtool decrypt`, with or without `-v`: if the input is a file that a meddler made of a container that
the command would have taken for its private key and sender, as far as its header goes, then it exits with 0, and writes what
the meddler wants: to standard output, or — if fsync, close and rename succeed — to the output file. -/
theorem C139_command_refuted (W : World) (L : Laws W.D.P) (argv rest args : List Bytes) (hn : Normal W argv)
    (hr : Runs W argv "decrypt" rest) (o : DecOpts) (hf : W.flags.dec rest = .ok o args)
    (keyfile : Path) (rd : Reader) (secret : Bytes) (spk : Option PublicKey) (hargs : DecArgs W args keyfile rd)
    (hkey : PrivateFile W o.nopw o.envpw keyfile secret) (hspk : NamedSender W o.sender spk)
    (input evil : Bytes) (skM : PrivateKey) (hs : SameRoot W.D.P input skM (privateOf W.D.P secret))
    (hm : Meddled W.D.P input skM evil rd.content)
    (rd0 : Reader) (hrd0 : rd0.content = input) (d : Decryptor) (hd : setupDecryptor W.D.P rd0 (privateOf W.D.P secret) spk = .ok d)
    (ht : o.test = false) (hout : OutputWorks W o.outfile)
    (hcr : ToStdout o.outfile ∨ (Creatable W.fs W.env1 o.outfile o.force ∧ Closes W.env1)) :
    (W.main argv).exit = 0 ∧
    (ToStdout o.outfile → (W.main argv).stdout = W.stdout.out ++ evil ∧ (W.main argv).sys = []) ∧
    (¬ ToStdout o.outfile → (W.fs.run (W.main argv).sys).read o.outfile = some evil ∧
      SameBut W.fs (W.fs.run (W.main argv).sys) [o.outfile]) := by
  have hlen : secret.length = 64 := by obtain ⟨b, _, h5⟩ := hkey; exact privateText_length h5
  have hl : 32 ≤ (privateOf W.D.P secret).sk.length := by unfold privateOf; dsimp only; omega
  obtain ⟨d0, rd', hb', key', ha, hk, hr', e1, e2, e3, e4, e5, e6, e7, e8⟩ := setupDecryptor_ok W.D.P L rd0 _ spk d hd
  obtain ⟨hb, ho, _⟩ := (setup_iff W.D.P L rd0 _ hl spk d.hdr key' d.auth d.rd.content d.hdrsum).mp
    ⟨d, hd, rfl, e4, rfl, rfl, rfl⟩
  rw [hrd0] at ho
  have hc := rewritten_contains W.D.P L hs hm ho
  have hexit : (W.main argv).exit = 0 := by
    refine (C92_decrypt W L hn.order argv rest args hr o hf hout).mpr
      ⟨⟨evil, keyfile, rd, secret, spk, d.auth, [], hargs, hkey, hspk, hc⟩, ?_⟩
    rcases hcr with h | h
    · exact .inr (.inl h)
    · exact .inr (.inr h.1)
  refine ⟨hexit, ?_⟩
  obtain ⟨plain, hp, h1, h2⟩ := C92_decrypt_output W L argv rest args hn hr o hf ht (fun h => (hcr.resolve_left h).2) hexit
  obtain ⟨keyfile', rd'', secret', spk', auth', rest', a1, a2, a3, a4⟩ := hp
  have hsec : secret' = secret := by
    obtain ⟨b, k1, k2⟩ := (privateFile_iff W o.nopw o.envpw keyfile _).mpr ⟨secret, hkey, rfl⟩
    have hkf : keyfile' = keyfile ∧ rd'' = rd := by
      cases hargs <;> cases a1 <;> first | exact ⟨rfl, rfl⟩ | (exfalso; contradiction)
    obtain ⟨rfl, rfl⟩ := hkf
    obtain ⟨b', k3, k4⟩ := (privateFile_iff W o.nopw o.envpw keyfile' _).mpr ⟨secret', a2, rfl⟩
    rw [k1] at k3; cases k3
    rw [k2] at k4
    exact congrArg PrivateKey.sk (Res.ok.inj k4).symm
  have hrd : rd'' = rd := by
    cases hargs <;> cases a1 <;> first | rfl | (exfalso; contradiction)
  subst hsec
  subst hrd
  have hsame : ∀ k, (∃ pk, spk' = some pk ∧ pk.pk = k) → ∃ pk, spk = some pk ∧ pk.pk = k := by
    rintro k ⟨pk, rfl, rfl⟩
    rcases a3 with ⟨_, h⟩ | ⟨hne, key1, pk1, ⟨b1, f1, t1⟩, i1, h⟩
    · cases h
    · cases h
      rcases hspk with ⟨h, _⟩ | ⟨_, key2, pk2, ⟨b2, f2, t2⟩, i2, h⟩
      · exact absurd h hne
      · rw [f1] at f2; cases f2
        obtain ⟨p1, m1, q1⟩ := public_make (P := W.D.P) t1
        obtain ⟨p2, m2, q2⟩ := public_make (P := W.D.P) t2
        rw [m1] at m2; cases m2
        exact ⟨pk2, h, by rw [i2.1, i1.1, ← q1.1, ← q2.1]⟩
  have a5 := contains_congr hsame a4
  obtain ⟨_, rfl, _⟩ := C87_unique W.D.P L _ _ hl spk _ _ _ _ _ _ a5 hc
  exact ⟨h1, h2⟩

end Sigtool
