import Verif.Props.Main
import Verif.Props.CliEnd
/-!
# C71, C72: whole command lines working together
-/

namespace Sigtool
open Spec

/-- **C71** Three runs of the program: `generate` a key pair; `encrypt` an input for any recipients among which is the generated
public key file; `decrypt` the result with the generated private key file and the same pass phrase, wherever it comes from
(environment, terminal, none).  If `generate` and `encrypt` exit with 0 and the output of `decrypt` may be created and written,
`decrypt` exits with 0 and its output file holds exactly the input of `encrypt` — or the key wrapped for some recipient is an
AEAD forgery for the generated key.
The public key file name must not look like a user name (`a@b`); between the runs anything may happen to other files. -/
theorem C71_generate_encrypt_decrypt (D : Deps) (L : Laws D.P) (YL : D.Y.Laws)
    -- generate
    (G : World) (hGD : G.D = D) (gv grest gmore : List Bytes) (NG : Normal G gv) (go : GenOpts) (bn pw : Bytes)
    (hg : Runs G gv "generate" grest) (hgf : G.flags.gen grest = .ok go (bn :: gmore))
    (hY : D.Y.Reads go.comment) (hc : go.comment = [] ∨ ¬ Spec.marker <:+: D.Y.scalar go.comment)
    (hseed : G.seed.length = 32) (hsalt : G.salt.length = 32) (hpw : PassPhrase G go.nopw go.envpw pw)
    (hg0 : (G.main gv).exit = 0)
    -- encrypt
    (E : World) (hED : E.D = D) (ev erest rcpts : List Bytes) (infile : Bytes) (NE : Normal E ev) (eo : EncOpts) (blk : Nat)
    (he : Runs E ev "encrypt" erest) (hef : E.flags.enc erest = .ok eo (rcpts ++ [infile]))
    (rin : Reader) (hrin : Input E infile rin)
    (hmem : G.clean bn ++ ascii ".pub" ∈ rcpts) (hname : ¬ NamesUser (G.clean bn ++ ascii ".pub"))
    (hpub : E.fs.read (G.clean bn ++ ascii ".pub") = (G.fs.run (G.main gv).sys).read (G.clean bn ++ ascii ".pub"))
    (hcount : rcpts.length ≤ 15885) (hrb : ∀ i, (E.rbuf i).length = 12)
    (hbs : E.parseSize eo.blocksize = some blk) (hblk : blk < 2^30) (hns : eo.sign = [])
    (heo : eo.outfile ≠ [] ∧ eo.outfile ≠ ascii "-") (he0 : (E.main ev).exit = 0)
    -- decrypt
    (X : World) (hXD : X.D = D) (xv xrest : List Bytes) (NX : Normal X xv) (xo : DecOpts)
    (hx : Runs X xv "decrypt" xrest) (hxf : X.flags.dec xrest = .ok xo [G.clean bn ++ ascii ".key", eo.outfile])
    (hkey : X.fs.read (G.clean bn ++ ascii ".key") = (G.fs.run (G.main gv).sys).read (G.clean bn ++ ascii ".key"))
    (hcont : X.fs.read eo.outfile = (E.fs.run (E.main ev).sys).read eo.outfile)
    (hopened : X.fs.read eo.outfile = some (X.opened eo.outfile).content)
    (hxpw : PassPhrase X xo.nopw xo.envpw pw) (hnv : xo.sender = []) (hnt : xo.test = false)
    (hxo : xo.outfile ≠ [] ∧ xo.outfile ≠ ascii "-") (hcreate : ∃ cs, newSafeFile X.fs X.env1 0o600 xo.outfile xo.force = .ok cs)
    (hw : ∀ k e, WEv.fail k e ∉ X.env1.writes) (hsy : X.env1.syncErr = none) (hcl : X.env1.closeErr = none)
    (hrn : X.env1.renameErr = none) :
    (∃ home i arg pk, E.home = some home ∧ rcpts[i]? = some arg ∧
      Denotes D E.fs (parseAuthorizedKeys D.P ((E.fs.read (home ++ ascii "/.ssh/authorized_keys")).getD [])) arg pk ∧
      WrapForgery D.P (clamp E.coins.csk) E.coins.salt E.coins.key pk.pk (E.rbuf i) G.seed) ∨
    ((X.main xv).exit = 0 ∧ (X.fs.run (X.main xv).sys).read xo.outfile = some rin.content ∧
      SameBut X.fs (X.fs.run (X.main xv).sys) [xo.outfile]) := by
  subst hGD
  -- generate
  have hG := (C66_dispatch G NG.order gv grest _ hg).1 rfl
  have hG' : G.main gv = genCmd G.D G.fs G.env1 G.env2 go.force (G.clean bn) go.comment (.ok pw) G.seed G.salt := by
    rw [hG]; unfold World.gen; rw [hgf]; dsimp only; rw [hpw.genpw]
  rw [hG'] at hg0 hpub hkey
  obtain ⟨pw', sk, pk, p1, p2, p3, p4, p5, p6, p7, p8⟩ := C49_pair_loads G.D L YL G.fs G.env1 G.env2 go.force (G.clean bn) go.comment hY hc
    (.ok pw) G.seed G.salt hseed hsalt (NG.genEnv hg hgf) hg0
  cases p1
  -- encrypt
  have hin' : E.input infile = rin := by
    unfold World.input
    cases hrin with
    | stdin => rw [if_pos rfl]
    | file _ h => rw [if_neg h]
  have hE := (C66_dispatch E NE.order ev erest _ he).2.2.2.1 rfl
  unfold World.encrypt at hE
  rw [hef] at hE
  dsimp only at hE
  have e1 : (rcpts ++ [infile]).dropLast = rcpts := by simp
  have e2 : (rcpts ++ [infile]).getLastD [] = infile := by simp [List.getLastD_eq_getLast?]
  rw [e1, e2, hns, hbs, hin'] at hE
  -- decrypt
  have hX := (C66_dispatch X NX.order xv xrest _ hx).2.2.2.2.1 rfl
  unfold World.decrypt at hX
  rw [hxf] at hX
  dsimp only at hX
  rw [if_neg heo.1, hnt, hnv, hxpw.getpw, hXD] at hX
  have hin : X.input eo.outfile = X.opened eo.outfile := by unfold World.input; rw [if_neg heo.2]
  rw [hin] at hX
  cases hh : E.home with
  | none =>
    rw [hh] at hE
    have : (E.main ev).exit ≠ 0 := by
      rw [hE]
      unfold encryptCmd
      simp only [Option.map_none]
      split
      · simp
      · simp
      · split
        · simp
        · split <;> simp
    exact absurd he0 this
  | some home =>
    rw [hh] at hE
    simp only [Option.map_some] at hE
    rw [hED] at hE
    have hlen : ∀ r ∈ rcpts.zipIdx.map (fun a => (a.1, E.rbuf a.2)), r.2.length = 12 := by
      intro r hr
      obtain ⟨a, _, rfl⟩ := List.mem_map.mp hr
      exact hrb _
    have hsk : readPrivateKey G.D X.fs (keyName (G.clean bn)) (some (.ok pw)) = .ok sk := by
      unfold readPrivateKey readFile at p2 ⊢
      have : X.fs.read (keyName (G.clean bn)) = _ := hkey
      rw [this]; exact p2
    have hpk : readPublicKey G.D E.fs (pubName (G.clean bn)) = .ok pk := by
      unfold readPublicKey readFile at p3 ⊢
      have : E.fs.read (pubName (G.clean bn)) = _ := hpub
      rw [this]; exact p3
    obtain ⟨b, hb1, hb2⟩ := (readPublicKey_ok _ _ _ _).mp hpk
    obtain ⟨i, hi⟩ := List.getElem?_of_mem hmem
    have hr : ((G.clean bn ++ ascii ".pub", E.rbuf i) : Bytes × Bytes) ∈ rcpts.zipIdx.map (fun a => (a.1, E.rbuf a.2)) := by
      refine List.mem_map.mpr ⟨(G.clean bn ++ ascii ".pub", i), ?_, rfl⟩
      rw [List.mem_zipIdx_iff_getElem?]
      exact hi
    rcases C60_encrypt_decrypt G.D L E.fs E.env1 E.stdout eo.outfile eo.force [] (E.getpw eo.nopw eo.envpw) blk hblk
      (home ++ ascii "/.ssh/authorized_keys") (rcpts.zipIdx.map fun a => (a.1, E.rbuf a.2)) hlen (by simpa using hcount) infile
      rin E.coins ⟨NE.coins.1, NE.coins.2.1, NE.coins.2.2⟩ E.coin NE.coin NE.fresh1
      (NE.out _ (.enc erest eo _ he hef)).1 heo (E.main ev) hE he0 X.fs hcont (X.opened eo.outfile) hopened
      (keyName (G.clean bn)) (some (.ok pw)) sk hsk p8
      ⟨_, hr, pk, .inr ⟨hname, b, hb1, hb2⟩, by rw [p6, p5]⟩
      [] (fun _ => rfl) (fun h => absurd rfl h) X.env1 X.stdout xo.outfile xo.force hxo NX.fresh1
      (NX.out _ (.dec xrest xo _ hx hxf hnt)).1 hcreate hw hsy hcl hrn (X.main xv) hX with h | h
    · obtain ⟨r, hr, q, seed, hq, k1, k2, k3⟩ := h
      left
      rw [p4] at k2
      have hs : G.seed = seed := by
        have := congrArg (List.take 32) k2
        rw [List.take_left' hseed, List.take_left' k1] at this
        exact this
      obtain ⟨a, ha, rfl⟩ := List.mem_map.mp hr
      rw [List.mem_zipIdx_iff_getElem?] at ha
      rw [hs]
      exact ⟨home, a.2, a.1, q, rfl, ha, hq, k3⟩
    · exact .inr h

/-- **C72** Three runs of the program: `generate` a key pair, `sign` a file with the generated private key file and the same pass
phrase, `verify` it with the generated public key file.  If the first two exit with 0 and no call on the signature file
fails, `verify` exits with 0. -/
theorem C72_generate_sign_verify (D : Deps) (L : Laws D.P) (YL : D.Y.Laws)
    -- generate
    (G : World) (hGD : G.D = D) (gv grest gmore : List Bytes) (NG : Normal G gv) (go : GenOpts) (bn pw : Bytes)
    (hg : Runs G gv "generate" grest) (hgf : G.flags.gen grest = .ok go (bn :: gmore))
    (hY : D.Y.Reads go.comment) (hc : go.comment = [] ∨ ¬ Spec.marker <:+: D.Y.scalar go.comment)
    (hseed : G.seed.length = 32) (hsalt : G.salt.length = 32) (hpw : PassPhrase G go.nopw go.envpw pw)
    (hg0 : (G.main gv).exit = 0)
    -- sign
    (S : World) (hSD : S.D = D) (sv srest smore : List Bytes) (NS : Normal S sv) (so : SignOpts) (fn : Bytes)
    (hs : Runs S sv "sign" srest) (hsf : S.flags.sign srest = .ok so ((G.clean bn ++ ascii ".key") :: fn :: smore))
    (hkey : S.fs.read (G.clean bn ++ ascii ".key") = (G.fs.run (G.main gv).sys).read (G.clean bn ++ ascii ".key"))
    (hpub : S.fs.read (G.clean bn ++ ascii ".pub") = (G.fs.run (G.main gv).sys).read (G.clean bn ++ ascii ".pub"))
    (hspw : PassPhrase S so.nopw so.envpw pw) (hmap : S.mapErr = none) (hYf : D.Y.Reads (ascii "input=" ++ fn))
    (hd : sigTarget so.output fn ≠ ascii "-") (hne : sigTarget so.output fn ≠ fn ∧ sigTarget so.output fn ≠ G.clean bn ++ ascii ".pub")
    (hw : ∀ k e, WEv.fail k e ∉ S.env1.writes) (hsy : S.env1.syncErr = none) (hcl : S.env1.closeErr = none)
    (hrn : S.env1.renameErr = none) (hs0 : (S.main sv).exit = 0)
    -- verify
    (V : World) (hVD : V.D = D) (vv vrest vmore : List Bytes) (ho : V.order.Perm commands) (hv : Runs V vv "verify" vrest)
    (hvf : V.flags.verify vrest = .ok () ((G.clean bn ++ ascii ".pub") :: sigTarget so.output fn :: fn :: vmore))
    (hmapV : V.mapErr = none)
    (hfs : ∀ p, p = G.clean bn ++ ascii ".pub" ∨ p = sigTarget so.output fn ∨ p = fn → V.fs.read p = (S.fs.run (S.main sv).sys).read p) :
    (V.main vv).exit = 0 ∧ (V.main vv).sys = [] := by
  subst hGD
  have hG' : G.main gv = genCmd G.D G.fs G.env1 G.env2 go.force (G.clean bn) go.comment (.ok pw) G.seed G.salt := by
    rw [(C66_dispatch G NG.order gv grest _ hg).1 rfl]; unfold World.gen; rw [hgf]; dsimp only; rw [hpw.genpw]
  have hS' : S.main sv = signCmd G.D S.fs S.env1 S.stdout so.output so.force (some (.ok pw)) none (keyName (G.clean bn)) fn := by
    rw [(C66_dispatch S NS.order sv srest _ hs).2.1 rfl]; unfold World.sign; rw [hsf]; dsimp only; rw [hspw.getpw, hmap, hSD]; rfl
  have hV' : V.main vv = { exit := verifyCmd G.D V.fs none (pubName (G.clean bn) :: sigTarget so.output fn :: fn :: vmore) } := by
    rw [(C66_dispatch V ho vv vrest _ hv).2.2.1 rfl]; unfold World.verify; rw [hvf]; dsimp only; rw [hmapV, hVD]; rfl
  have hmore : verifyCmd G.D V.fs none (pubName (G.clean bn) :: sigTarget so.output fn :: fn :: vmore) =
      verifyCmd G.D V.fs none [pubName (G.clean bn), sigTarget so.output fn, fn] := rfl
  rw [hG'] at hkey hpub hg0
  rw [hV', hmore]
  refine ⟨?_, rfl⟩
  exact C59_gen_sign_verify G.D L YL G.fs G.env1 G.env2 go.force (G.clean bn) go.comment hY hc pw G.seed G.salt hseed hsalt
    (NG.genEnv hg hgf) _ rfl hg0 S.fs hkey hpub S.env1 S.stdout so.output fn so.force hYf NS.fresh1
    (NS.out _ (.sig srest so _ fn smore hs hsf)).1 hd hne hw hsy hcl hrn (S.main sv) hS' hs0 V.fs hfs

end Sigtool
