import Verif.Props.MainEnd
import Verif.Props.CliPipe
/-!
# C80: a signed message from one generated key pair to another, through files or pipes
-/

namespace Sigtool
open Spec

theorem gen_main {W : World} {argv rest more : List Bytes} (N : Normal W argv) {o : GenOpts} {bn pw : Bytes}
    (hr : Runs W argv "generate" rest) (hf : W.flags.gen rest = .ok o (bn :: more)) (hpw : PassPhrase W o.nopw o.envpw pw) :
    W.main argv = genCmd W.D W.fs W.env1 W.env2 o.force (W.clean bn) o.comment (.ok pw) W.seed W.salt := by
  rw [(C66_dispatch W N.order argv rest _ hr).1 rfl]
  unfold World.gen
  rw [hf]
  dsimp only
  rw [hpw.genpw]

/-- **C80** Four runs of the program. Two key pairs are generated, one for the sender (`S`), one for a recipient (`G`). `encrypt` with
`--sign` naming the sender's private key file, for any recipients among which is the recipient's public key file, from a file
or standard input, to a file or standard output. `decrypt` with the recipient's private key file and `--verify-sender` naming
the sender's public key file; it reads what `encrypt` produced, from a file or standard input, and writes to a file or standard
output.  If the first three exit with 0 and the output of `decrypt` may be created and written, `decrypt` exits with 0, has
produced exactly the input of `encrypt`, and changed nothing else — or the key wrapped for some recipient is an AEAD forgery
for the generated key.  Pass phrases may come from anywhere; between the runs anything may happen to other files. -/
theorem C80_signed_pipeline (D : Deps) (L : Laws D.P) (YL : D.Y.Laws)
    -- generate, for the sender
    (S : World) (hSD : S.D = D) (sv srest smore : List Bytes) (NS : Normal S sv) (so : GenOpts) (sbn spw : Bytes)
    (hs : Runs S sv "generate" srest) (hsf : S.flags.gen srest = .ok so (sbn :: smore))
    (hsY : D.Y.Reads so.comment) (hsc : so.comment = [] ∨ ¬ Spec.marker <:+: D.Y.scalar so.comment)
    (hsseed : S.seed.length = 32) (hssalt : S.salt.length = 32) (hspw : PassPhrase S so.nopw so.envpw spw)
    (hs0 : (S.main sv).exit = 0)
    -- generate, for the recipient
    (G : World) (hGD : G.D = D) (gv grest gmore : List Bytes) (NG : Normal G gv) (go : GenOpts) (bn pw : Bytes)
    (hg : Runs G gv "generate" grest) (hgf : G.flags.gen grest = .ok go (bn :: gmore))
    (hY : D.Y.Reads go.comment) (hc : go.comment = [] ∨ ¬ Spec.marker <:+: D.Y.scalar go.comment)
    (hseed : G.seed.length = 32) (hsalt : G.salt.length = 32) (hpw : PassPhrase G go.nopw go.envpw pw)
    (hg0 : (G.main gv).exit = 0)
    -- encrypt
    (E : World) (hED : E.D = D) (ev erest rcpts : List Bytes) (infile : Bytes) (NE : Normal E ev) (eo : EncOpts) (blk : Nat)
    (he : Runs E ev "encrypt" erest) (hef : E.flags.enc erest = .ok eo (rcpts ++ [infile]))
    (rin : Reader) (hrin : Input E infile rin)
    (hmem : G.clean bn ++ ascii ".pub" ∈ rcpts) (hname : ¬ NamesUser (G.clean bn ++ ascii ".pub"))
    (hpub : E.fs.read (G.clean bn ++ ascii ".pub") = (G.fs.run (G.main gv).sys).read (G.clean bn ++ ascii ".pub"))
    (hcount : rcpts.length ≤ 15885) (hrb : ∀ i, (E.rbuf i).length = 12)
    (hbs : E.parseSize eo.blocksize = some blk) (hblk : blk < 2^30)
    (hsign : eo.sign = S.clean sbn ++ ascii ".key") (hepw : PassPhrase E eo.nopw eo.envpw spw)
    (hskey : E.fs.read (S.clean sbn ++ ascii ".key") = (S.fs.run (S.main sv).sys).read (S.clean sbn ++ ascii ".key"))
    (hestd : E.stdout.out = []) (he0 : (E.main ev).exit = 0)
    (cont : Bytes) (hprod : Produced E.fs eo.outfile (E.main ev) cont)
    -- decrypt
    (X : World) (hXD : X.D = D) (xv xrest xargs : List Bytes) (NX : Normal X xv) (xo : DecOpts)
    (hx : Runs X xv "decrypt" xrest) (hxf : X.flags.dec xrest = .ok xo xargs)
    (xin : Reader) (hxa : DecArgs X xargs (G.clean bn ++ ascii ".key") xin) (hcont : xin.content = cont)
    (hkey : X.fs.read (G.clean bn ++ ascii ".key") = (G.fs.run (G.main gv).sys).read (G.clean bn ++ ascii ".key"))
    (hver : xo.sender = S.clean sbn ++ ascii ".pub")
    (hspub : X.fs.read (S.clean sbn ++ ascii ".pub") = (S.fs.run (S.main sv).sys).read (S.clean sbn ++ ascii ".pub"))
    (hxpw : PassPhrase X xo.nopw xo.envpw pw) (hnt : xo.test = false) (hxstd : X.stdout.out = [])
    (hgood : GoodOutput X.fs X.env1 X.stdout xo.outfile xo.force)
    (hcl : X.env1.syncErr = none ∧ X.env1.closeErr = none ∧ X.env1.renameErr = none) :
    (∃ home i arg pk, E.home = some home ∧ rcpts[i]? = some arg ∧
      Denotes D E.fs (parseAuthorizedKeys D.P ((E.fs.read (home ++ ascii "/.ssh/authorized_keys")).getD [])) arg pk ∧
      WrapForgery D.P (clamp E.coins.csk) E.coins.salt E.coins.key pk.pk (E.rbuf i) G.seed) ∨
    ((X.main xv).exit = 0 ∧ Produced X.fs xo.outfile (X.main xv) rin.content ∧
      SameBut X.fs (X.fs.run (X.main xv).sys) [xo.outfile]) := by
  subst hGD
  -- the key pairs
  rw [gen_main NG hg hgf hpw] at hg0 hpub hkey
  obtain ⟨pw', sk, pk, p1, p2, p3, p4, p5, p6, p7, p8⟩ := C49_pair_loads G.D L YL G.fs G.env1 G.env2 go.force (G.clean bn) go.comment hY hc
    (.ok pw) G.seed G.salt hseed hsalt (NG.genEnv hg hgf) hg0
  cases p1
  rw [gen_main NS hs hsf hspw, hSD] at hs0 hskey hspub
  obtain ⟨spw', ssk, spk, s1, s2, s3, s4, s5, s6, s7, s8⟩ := C49_pair_loads G.D L YL S.fs S.env1 S.env2 so.force (S.clean sbn) so.comment hsY
    hsc (.ok spw) S.seed S.salt hsseed hssalt (NS.genEnv hs hsf) hs0
  cases s1
  have load : ∀ {f f' : FS} {p q : Path} {g : GetPw} {k : PrivateKey}, f.read p = f'.read q → readPrivateKey G.D f' q g = .ok k →
      readPrivateKey G.D f p g = .ok k := by
    intro f f' p q g k h hk
    unfold readPrivateKey readFile at hk ⊢
    rw [h]; exact hk
  have loadP : ∀ {f f' : FS} {p q : Path} {k : PublicKey}, f.read p = f'.read q → readPublicKey G.D f' q = .ok k →
      readPublicKey G.D f p = .ok k := by
    intro f f' p q k h hk
    unfold readPublicKey readFile at hk ⊢
    rw [h]; exact hk
  -- encrypt
  have hin' : E.input infile = rin := by
    unfold World.input
    cases hrin with
    | stdin => rw [if_pos rfl]
    | file _ h => rw [if_neg h]
  have hE := (C66_dispatch E NE.order ev erest _ he).2.2.2.1 rfl
  unfold World.encrypt at hE
  rw [hef] at hE
  dsimp only at hE
  have e1 : (rcpts ++ [infile]).dropLast = rcpts := by simp
  have e2 : (rcpts ++ [infile]).getLastD [] = infile := by simp [List.getLastD_eq_getLast?]
  rw [e1, e2, hsign, hbs, hin', hepw.getpw] at hE
  -- decrypt
  have hX : ∃ inf, (inf = [] ∨ inf = ascii "-" ∨ X.fs.exists inf = true) ∧ X.main xv = decryptCmd G.D X.fs X.env1 X.stdout xo.outfile
      xo.force false (G.clean bn ++ ascii ".key") (some (.ok pw)) (S.clean sbn ++ ascii ".pub") inf xin := by
    rw [(C66_dispatch X NX.order xv xrest _ hx).2.2.2.2.1 rfl]
    unfold World.decrypt
    rw [hxf]
    dsimp only
    cases hxa with
    | stdin =>
      refine ⟨ascii "-", .inr (.inl rfl), ?_⟩
      dsimp only
      rw [hnt, hver, hxpw.getpw, hXD]
    | dash _ more =>
      refine ⟨ascii "-", .inr (.inl rfl), ?_⟩
      dsimp only
      rw [if_neg (by decide), hnt, hver, hxpw.getpw, hXD]
      unfold World.input
      rw [if_pos rfl]
    | file _ f more h1 h2 h3 =>
      refine ⟨f, .inr (.inr h3), ?_⟩
      dsimp only
      rw [if_neg h1, hnt, hver, hxpw.getpw, hXD]
      unfold World.input
      rw [if_neg h2]
  obtain ⟨inf, hinf, hX⟩ := hX
  cases hh : E.home with
  | none =>
    rw [hh] at hE
    have : (E.main ev).exit ≠ 0 := by
      rw [hE]
      unfold encryptCmd
      simp only [Option.map_none]
      split
      · simp
      · simp
      · split
        · simp
        · split <;> simp
    exact absurd he0 this
  | some home =>
    rw [hh] at hE
    simp only [Option.map_some] at hE
    rw [hED] at hE
    have hlen : ∀ r ∈ rcpts.zipIdx.map (fun a => (a.1, E.rbuf a.2)), r.2.length = 12 := by
      intro r hr
      obtain ⟨a, _, rfl⟩ := List.mem_map.mp hr
      exact hrb _
    obtain ⟨b, hb1, hb2⟩ := (readPublicKey_ok _ _ _ _).mp (loadP (f := E.fs) hpub p3)
    obtain ⟨i, hi⟩ := List.getElem?_of_mem hmem
    have hr : ((G.clean bn ++ ascii ".pub", E.rbuf i) : Bytes × Bytes) ∈ rcpts.zipIdx.map (fun a => (a.1, E.rbuf a.2)) := by
      refine List.mem_map.mpr ⟨(G.clean bn ++ ascii ".pub", i), ?_, rfl⟩
      rw [List.mem_zipIdx_iff_getElem?]
      exact hi
    have hne : ∀ (x : Bytes) (w : String), ascii w ≠ [] → x ++ ascii w ≠ [] := by
      intro x w h h'
      exact h (List.append_eq_nil_iff.mp h').2
    rcases encrypt_decrypt_pipe G.D L E.fs E.env1 E.stdout hestd eo.outfile eo.force (S.clean sbn ++ ascii ".key") (some (.ok spw)) blk hblk
      (home ++ ascii "/.ssh/authorized_keys") (rcpts.zipIdx.map fun a => (a.1, E.rbuf a.2)) hlen (by simpa using hcount) infile
      rin E.coins ⟨NE.coins.1, NE.coins.2.1, NE.coins.2.2⟩ E.coin NE.coin NE.fresh1
      (NE.out _ (.enc erest eo _ he hef)).1 (E.main ev) hE he0 cont hprod X.fs xin hcont inf hinf
      (G.clean bn ++ ascii ".key") (some (.ok pw)) sk (load hkey p2) G.seed hseed p4 p5
      ⟨_, hr, pk, .inr ⟨hname, b, hb1, hb2⟩, by rw [p6, p5]⟩
      (S.clean sbn ++ ascii ".pub") (fun h => absurd h (hne _ _ (by decide)))
      (fun _ => ⟨ssk, spk, load hskey s2, s8, hne _ _ (by decide), loadP hspub s3, by rw [s6, s5]⟩)
      X.env1 X.stdout hxstd xo.outfile xo.force NX.fresh1
      (NX.out _ (.dec xrest xo _ hx hxf hnt)).1 hgood hcl (X.main xv) hX with h | h
    · obtain ⟨r, hr, q, hq, k3⟩ := h
      left
      obtain ⟨a, ha, rfl⟩ := List.mem_map.mp hr
      rw [List.mem_zipIdx_iff_getElem?] at ha
      exact ⟨home, a.2, a.1, q, rfl, ha, hq, k3⟩
    · exact .inr h

end Sigtool
