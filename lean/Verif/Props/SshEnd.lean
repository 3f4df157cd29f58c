import Verif.Spec.SshKeys
import Verif.Props.SshPriv
import Verif.Props.AuthKeys
import Verif.Props.PublicKeys
import Verif.Props.MainPipe
import Verif.Props.CliEnd
/-!
# C88: OpenSSH keys and users of `authorized_keys` at the level of the program
-/

namespace Sigtool
open Spec

theorem trimSpace_infix (x : Bytes) : trimSpace x <:+: x := by
  obtain ⟨bs, as, _, _, hx, _⟩ := trimSpace_trims x
  exact ⟨bs.flatten, as.flatten, hx.symm⟩

theorem parseEncPubKey_comment (P : Prims) (b comment : Bytes) (pk : PublicKey) (h : parseEncPubKey P b comment = .ok (some pk)) :
    pk.comment = trimSpace comment :=
  (parseEncPubKey_ok P _ _ _ h).2.2

theorem parseAuthorizedKey_comment (P : Prims) (b : Bytes) (pk : PublicKey) (h : parseAuthorizedKey P b = .ok (some pk)) :
    pk.comment <:+: b := by
  unfold parseAuthorizedKey at h
  dsimp only at h
  rw [parseEncPubKey_comment P _ _ pk h]
  exact (trimSpace_infix _).trans ((List.drop_suffix _ _).isInfix.trans (trimSpace_infix _))

theorem authLine_comment (P : Prims) (ln : Bytes) (pk : PublicKey) (h : authLine P ln = some pk) : pk.comment <:+: ln := by
  unfold authLine at h
  split at h
  · cases h
  · split at h
    · cases h
    · split at h
      · rename_i o ho
        subst h
        exact (parseAuthorizedKey_comment P _ pk ho).trans (List.drop_suffix _ _).isInfix
      · dsimp only at h
        split at h
        · cases h
        · split at h
          · cases h
          · unfold keyOf at h
            split at h
            · rename_i ho
              subst h
              exact (parseAuthorizedKey_comment P _ pk ho).trans ((List.drop_suffix _ _).isInfix.trans
                ((List.dropWhile_suffix _).isInfix.trans (List.drop_suffix _ _).isInfix))
            · cases h

/-- A comment in the result stands somewhere in the file. -/
theorem parseAuthorizedKeys_comment (P : Prims) (b : Bytes) : ∀ pk ∈ parseAuthorizedKeys P b, pk.comment <:+: b := by
  unfold parseAuthorizedKeys
  generalize b.length = n
  induction n generalizing b with
  | zero => simp [parseAuthorizedKeysLoop]
  | succ n ih =>
    intro pk hpk
    unfold parseAuthorizedKeysLoop at hpk
    split at hpk
    · cases hpk
    · rcases List.mem_append.mp hpk with h | h
      · rw [Option.mem_toList] at h
        exact (authLine_comment P _ pk h).trans ((trimSpace_infix _).trans
          ((List.takeWhile_prefix _).isInfix.trans (List.takeWhile_prefix _).isInfix))
      · exact (ih _ pk h).trans (List.drop_suffix _ _).isInfix

/-- A user of `authorized_keys` is found. -/
theorem sshUser_found (P : Prims) (auth user key : Bytes) (hk : key.length = 32) (h : SshUser auth user key) :
    ∃ before after, parseAuthorizedKeys P auth = before ++ { pk := key, comment := user, hash := (P.sha256 key).take 16 } :: after ∧
      ∀ k ∈ after, k.comment ≠ user := by
  obtain ⟨before, after, comment, rfl, hb, ha, hc, ht, hn⟩ := h
  obtain ⟨c, h1, h2⟩ := C42_plain_line P key comment hk hc
  have : c = user := by rw [← trimSpace_eq _ _ h1, trimSpace_eq _ _ ht]
  subst this
  have hrest : ∃ bs, parseAuthorizedKeys P (before ++ keyLine (Base64.encode (sshPublicBlob key)) comment ++ after) =
      bs ++ parseAuthorizedKeys P (keyLine (Base64.encode (sshPublicBlob key)) comment ++ after) := by
    rcases hb with rfl | ⟨x, rfl⟩
    · exact ⟨[], by simp⟩
    · refine ⟨parseAuthorizedKeys P x, ?_⟩
      rw [List.append_assoc, C42_concat]
  obtain ⟨bs, hbs⟩ := hrest
  rw [hbs]
  rcases ha with rfl | ⟨x, rfl⟩
  · refine ⟨bs, [], ?_, by simp⟩
    rw [List.append_nil, h2]
  · refine ⟨bs, parseAuthorizedKeys P x, ?_, ?_⟩
    · have := C42_concat P (keyLine (Base64.encode (sshPublicBlob key)) comment) x
      rw [h2] at this
      rw [show keyLine (Base64.encode (sshPublicBlob key)) comment ++ 10 :: x =
        keyLine (Base64.encode (sshPublicBlob key)) comment ++ [10] ++ x by simp, this]
      simp
    · intro k hk' he
      have := parseAuthorizedKeys_comment P x k hk'
      rw [he] at this
      exact hn (this.trans ⟨[10], [], by simp⟩)

/-- An OpenSSH public key file is read. -/
theorem sshPubFile_read (P : Prims) (Y : Yaml) (text key : Bytes) (hk : key.length = 32) (h : SshPubFile text key) :
    ∃ pk, makePublicKey P Y text = .ok pk ∧ pk.pk = key ∧ pk.hash = (P.sha256 key).take 16 := by
  obtain ⟨comment, rfl, hc, hb⟩ := h
  obtain ⟨pk, h1, h2, h3, _⟩ := C41_read_partial P Y (ascii "ssh-ed25519") key comment hk (by decide +kernel)
    ⟨hc, fun c hc => by have := hb c hc; simp [isBlank, this.1, this.2]⟩
  refine ⟨pk, ?_, h2, h3⟩
  rw [← h1]
  congr 1
  unfold keyLine
  rw [show "ssh-ed25519 ".toUTF8.toList = ascii "ssh-ed25519" ++ ascii " " by decide +kernel,
    show " ".toUTF8.toList = ascii " " by decide +kernel, show ascii "\n" = [10] by decide +kernel]

/-- An OpenSSH private key file is read. -/
theorem sshIdentity_read (D : Deps) (L : Laws D.P) (seed text : Bytes) (hs : seed.length = 32) (lock : Option Bytes)
    (h : SshIdentity D seed text lock) (getpw : GetPw) (hpw : ∀ pw, lock = some pw → getpw = some (.ok pw)) :
    makePrivateKey D.P D.Y D.pem text getpw = .ok { sk := seed ++ D.P.edPub seed, pub := { pk := D.P.edPub seed, hash := (D.P.sha256 (D.P.edPub seed)).take 16 } } := by
  have hlen : (seed ++ D.P.edPub seed).length = 64 := by rw [List.length_append, hs, L.ed_pub_len seed hs]
  have hdrop : (seed ++ D.P.edPub seed).drop 32 = D.P.edPub seed := List.drop_left' hs
  cases h with
  | plain slack opts pub pub2 comment pad check h1 h2 h3 h4 h5 h6 =>
    rw [C43_plain D.P D.Y D.pem text getpw slack h1 h2 opts 1 pub check check _ pub2 _ comment pad (by omega) h3 h3 h5 h6]
    exact ⟨rfl, rfl, rfl, hlen, h4, by rw [hdrop]⟩
  | locked slack c salt rounds pub ct k pub2 comment pad check pw h1 h2 h3 h4 h5 h6 h7 h8 h9 h10 h11 =>
    rw [hpw pw rfl, C43_encrypted D.P D.Y D.pem text slack pw k h1 h2 c salt rounds 1 pub ct (by omega) h5 h6 h7 h8 h9 check check _ pub2 _
      comment pad h3 h3 h10 h11]
    exact ⟨rfl, rfl, rfl, hlen, h4, by rw [hdrop]⟩

/-- Two runs, `encrypt` then `decrypt`, for keys however they were loaded. -/
theorem main_pipe (D : Deps) (L : Laws D.P)
    (E : World) (hED : E.D = D) (ev erest rcpts : List Bytes) (infile : Bytes) (NE : Normal E ev) (eo : EncOpts) (blk : Nat)
    (he : Runs E ev "encrypt" erest) (hef : E.flags.enc erest = .ok eo (rcpts ++ [infile]))
    (rin : Reader) (hrin : Input E infile rin) (home : Path) (hh : E.home = some home)
    (hcount : rcpts.length ≤ 15885) (hrb : ∀ i, (E.rbuf i).length = 12)
    (hbs : E.parseSize eo.blocksize = some blk) (hblk : blk < 2^30)
    (hestd : E.stdout.out = []) (he0 : (E.main ev).exit = 0)
    (cont : Bytes) (hprod : Produced E.fs eo.outfile (E.main ev) cont)
    (X : World) (hXD : X.D = D) (xv xrest xargs : List Bytes) (NX : Normal X xv) (xo : DecOpts) (keyfile : Path)
    (hx : Runs X xv "decrypt" xrest) (hxf : X.flags.dec xrest = .ok xo xargs)
    (xin : Reader) (hxa : DecArgs X xargs keyfile xin) (hcont : xin.content = cont)
    (sk : PrivateKey) (hsk : readPrivateKey D X.fs keyfile (X.getpw xo.nopw xo.envpw) = .ok sk) (seed : Bytes)
    (hseed : seed.length = 32) (hsks : sk.sk = seed ++ D.P.edPub seed) (hskp : sk.pub.pk = D.P.edPub seed)
    (hrcpt : ∃ r ∈ rcpts, ∃ pk, Denotes D E.fs (parseAuthorizedKeys D.P ((E.fs.read (home ++ ascii "/.ssh/authorized_keys")).getD [])) r pk ∧
      pk.pk = sk.pub.pk)
    (hnone : eo.sign = [] → xo.sender = [])
    (hsender : eo.sign ≠ [] → ∃ s p, readPrivateKey D E.fs eo.sign (E.getpw eo.nopw eo.envpw) = .ok s ∧ s.Genuine D.P ∧ xo.sender ≠ [] ∧
      readPublicKey D X.fs xo.sender = .ok p ∧ p.pk = s.pub.pk)
    (hnt : xo.test = false) (hxstd : X.stdout.out = [])
    (hgood : GoodOutput X.fs X.env1 X.stdout xo.outfile xo.force)
    (hcl : X.env1.syncErr = none ∧ X.env1.closeErr = none ∧ X.env1.renameErr = none) :
    (∃ i arg pk, rcpts[i]? = some arg ∧
      Denotes D E.fs (parseAuthorizedKeys D.P ((E.fs.read (home ++ ascii "/.ssh/authorized_keys")).getD [])) arg pk ∧
      WrapForgery D.P (clamp E.coins.csk) E.coins.salt E.coins.key pk.pk (E.rbuf i) seed) ∨
    ((X.main xv).exit = 0 ∧ Produced X.fs xo.outfile (X.main xv) rin.content ∧
      SameBut X.fs (X.fs.run (X.main xv).sys) [xo.outfile]) := by
  have hin' : E.input infile = rin := by
    unfold World.input
    cases hrin with
    | stdin => rw [if_pos rfl]
    | file _ h => rw [if_neg h]
  have hE := (C66_dispatch E NE.order ev erest _ he).2.2.2.1 rfl
  unfold World.encrypt at hE
  rw [hef] at hE
  dsimp only at hE
  have e1 : (rcpts ++ [infile]).dropLast = rcpts := by simp
  have e2 : (rcpts ++ [infile]).getLastD [] = infile := by simp [List.getLastD_eq_getLast?]
  rw [e1, e2, hbs, hin', hh, hED] at hE
  simp only [Option.map_some] at hE
  have hX : ∃ inf, (inf = [] ∨ inf = ascii "-" ∨ X.fs.exists inf = true) ∧ X.main xv = decryptCmd D X.fs X.env1 X.stdout xo.outfile
      xo.force false keyfile (X.getpw xo.nopw xo.envpw) xo.sender inf xin := by
    rw [(C66_dispatch X NX.order xv xrest _ hx).2.2.2.2.1 rfl]
    unfold World.decrypt
    rw [hxf]
    dsimp only
    cases hxa with
    | stdin =>
      refine ⟨ascii "-", .inr (.inl rfl), ?_⟩
      dsimp only
      rw [hnt, hXD]
    | dash _ more =>
      refine ⟨ascii "-", .inr (.inl rfl), ?_⟩
      dsimp only
      rw [if_neg (by decide), hnt, hXD]
      unfold World.input
      rw [if_pos rfl]
    | file _ f more h1 h2 h3 =>
      refine ⟨f, .inr (.inr h3), ?_⟩
      dsimp only
      rw [if_neg h1, hnt, hXD]
      unfold World.input
      rw [if_neg h2]
  obtain ⟨inf, hinf, hX⟩ := hX
  have hlen : ∀ r ∈ rcpts.zipIdx.map (fun a => (a.1, E.rbuf a.2)), r.2.length = 12 := by
    intro r hr
    obtain ⟨a, _, rfl⟩ := List.mem_map.mp hr
    exact hrb _
  obtain ⟨r, hmem, pk, hden, hpk⟩ := hrcpt
  obtain ⟨i, hi⟩ := List.getElem?_of_mem hmem
  have hr : ((r, E.rbuf i) : Bytes × Bytes) ∈ rcpts.zipIdx.map (fun a => (a.1, E.rbuf a.2)) := by
    refine List.mem_map.mpr ⟨(r, i), ?_, rfl⟩
    rw [List.mem_zipIdx_iff_getElem?]
    exact hi
  rcases encrypt_decrypt_pipe D L E.fs E.env1 E.stdout hestd eo.outfile eo.force eo.sign (E.getpw eo.nopw eo.envpw) blk hblk
    (home ++ ascii "/.ssh/authorized_keys") (rcpts.zipIdx.map fun a => (a.1, E.rbuf a.2)) hlen (by simpa using hcount) infile
    rin E.coins ⟨NE.coins.1, NE.coins.2.1, NE.coins.2.2⟩ E.coin NE.coin NE.fresh1
    (NE.out _ (.enc erest eo _ he hef)).1 (E.main ev) hE he0 cont hprod X.fs xin hcont inf hinf
    keyfile (X.getpw xo.nopw xo.envpw) sk hsk seed hseed hsks hskp
    ⟨_, hr, pk, hden, hpk⟩ xo.sender hnone hsender
    X.env1 X.stdout hxstd xo.outfile xo.force NX.fresh1
    (NX.out _ (.dec xrest xo _ hx hxf hnt)).1 hgood hcl (X.main xv) hX with h | h
  · obtain ⟨r, hr, q, hq, k3⟩ := h
    left
    obtain ⟨a, ha, rfl⟩ := List.mem_map.mp hr
    rw [List.mem_zipIdx_iff_getElem?] at ha
    exact ⟨a.2, a.1, q, ha, hq, k3⟩
  · exact .inr h

/-- A recipient given by OpenSSH's files denotes its key. -/
theorem sshRecipient_denotes (D : Deps) (fs : FS) (auth : Path) (arg key : Bytes) (hk : key.length = 32)
    (h : SshRecipient fs auth arg key) :
    ∃ pk, Denotes D fs (parseAuthorizedKeys D.P ((fs.read auth).getD [])) arg pk ∧ pk.pk = key := by
  cases h with
  | user text h1 h2 h3 =>
    obtain ⟨before, after, g1, g2⟩ := sshUser_found D.P text arg key hk h3
    refine ⟨{ pk := key, comment := arg, hash := (D.P.sha256 key).take 16 }, .inl ⟨h1, before, after, ?_, rfl, g2⟩, rfl⟩
    rw [h2]; exact g1
  | file text h1 h2 h3 =>
    obtain ⟨pk, g1, g2, _⟩ := sshPubFile_read D.P D.Y text key hk h3
    exact ⟨pk, .inr ⟨h1, text, h2, g1⟩, g2⟩

/-- What a private key file in OpenSSH's format is loaded as, by a command with these options. -/
theorem sshIdentity_load (D : Deps) (L : Laws D.P) (W : World) (nopw : Bool) (envpw : Bytes) (file : Path) (seed text : Bytes)
    (hs : seed.length = 32) (lock : Option Bytes) (hfile : W.fs.read file = some text) (h : SshIdentity D seed text lock)
    (hpw : ∀ pw, lock = some pw → PassPhrase W nopw envpw pw) :
    readPrivateKey D W.fs file (W.getpw nopw envpw) = .ok { sk := seed ++ D.P.edPub seed, pub := { pk := D.P.edPub seed, hash := (D.P.sha256 (D.P.edPub seed)).take 16 } } :=
  (readPrivateKey_ok _ _ _ _ _).mpr ⟨text, hfile, sshIdentity_read D L seed text hs lock h _ fun pw h => (hpw pw h).getpw⟩

/-- **C88** (encrypt, decrypt).  Two runs of the program with keys made by `ssh-keygen`.  `encrypt` for any recipients, one of which
is a user whose Ed25519 key stands in `~/.ssh/authorized_keys`, or a public key file of OpenSSH; without `--sign`, or with
`--sign` naming an OpenSSH private key file.  `decrypt` with the recipient's OpenSSH private key file (encrypted or not) and, if
the message was signed, `--verify-sender` naming the sender's OpenSSH public key file.  Input and output may be files or
standard input and output.  If `encrypt` exits with 0 and the output of `decrypt` may be created and written, `decrypt` exits
with 0, has produced exactly the input of `encrypt` and changed nothing else — or the key wrapped for some recipient is an AEAD
forgery for the recipient's key. -/
theorem C88_ssh_pipeline (D : Deps) (L : Laws D.P)
    -- the recipient's key
    (seed text : Bytes) (hseed : seed.length = 32) (lock : Option Bytes) (hid : SshIdentity D seed text lock)
    -- encrypt
    (E : World) (hED : E.D = D) (ev erest rcpts : List Bytes) (infile : Bytes) (NE : Normal E ev) (eo : EncOpts) (blk : Nat)
    (he : Runs E ev "encrypt" erest) (hef : E.flags.enc erest = .ok eo (rcpts ++ [infile]))
    (rin : Reader) (hrin : Input E infile rin) (home : Path) (hh : E.home = some home)
    (hmem : ∃ r ∈ rcpts, SshRecipient E.fs (home ++ ascii "/.ssh/authorized_keys") r (D.P.edPub seed))
    (hcount : rcpts.length ≤ 15885) (hrb : ∀ i, (E.rbuf i).length = 12)
    (hbs : E.parseSize eo.blocksize = some blk) (hblk : blk < 2^30)
    (hestd : E.stdout.out = []) (he0 : (E.main ev).exit = 0)
    (cont : Bytes) (hprod : Produced E.fs eo.outfile (E.main ev) cont)
    -- decrypt
    (X : World) (hXD : X.D = D) (xv xrest xargs : List Bytes) (NX : Normal X xv) (xo : DecOpts) (keyfile : Path)
    (hx : Runs X xv "decrypt" xrest) (hxf : X.flags.dec xrest = .ok xo xargs)
    (xin : Reader) (hxa : DecArgs X xargs keyfile xin) (hcont : xin.content = cont)
    (hkey : X.fs.read keyfile = some text) (hxpw : ∀ pw, lock = some pw → PassPhrase X xo.nopw xo.envpw pw)
    -- the sender's key, if the message is signed
    (hsender : (eo.sign = [] ∧ xo.sender = []) ∨
      (eo.sign ≠ [] ∧ xo.sender ≠ [] ∧ ∃ sseed stext slock ptext, sseed.length = 32 ∧ SshIdentity D sseed stext slock ∧
        E.fs.read eo.sign = some stext ∧ (∀ pw, slock = some pw → PassPhrase E eo.nopw eo.envpw pw) ∧
        X.fs.read xo.sender = some ptext ∧ SshPubFile ptext (D.P.edPub sseed)))
    (hnt : xo.test = false) (hxstd : X.stdout.out = [])
    (hgood : GoodOutput X.fs X.env1 X.stdout xo.outfile xo.force)
    (hcl : X.env1.syncErr = none ∧ X.env1.closeErr = none ∧ X.env1.renameErr = none) :
    (∃ i arg pk, rcpts[i]? = some arg ∧
      Denotes D E.fs (parseAuthorizedKeys D.P ((E.fs.read (home ++ ascii "/.ssh/authorized_keys")).getD [])) arg pk ∧
      WrapForgery D.P (clamp E.coins.csk) E.coins.salt E.coins.key pk.pk (E.rbuf i) seed) ∨
    ((X.main xv).exit = 0 ∧ Produced X.fs xo.outfile (X.main xv) rin.content ∧
      SameBut X.fs (X.fs.run (X.main xv).sys) [xo.outfile]) := by
  obtain ⟨r, hr, hrec⟩ := hmem
  obtain ⟨pk, hden, hpk⟩ := sshRecipient_denotes D E.fs _ r _ (L.ed_pub_len seed hseed) hrec
  refine main_pipe D L E hED ev erest rcpts infile NE eo blk he hef rin hrin home hh hcount hrb hbs hblk hestd he0 cont hprod
    X hXD xv xrest xargs NX xo keyfile hx hxf xin hxa hcont _
    (sshIdentity_load D L X xo.nopw xo.envpw keyfile seed text hseed lock hkey hid hxpw) seed hseed rfl rfl ⟨r, hr, pk, hden, hpk⟩ ?_ ?_
    hnt hxstd hgood hcl
  · intro h
    rcases hsender with h' | h'
    · exact h'.2
    · exact absurd h h'.1
  · intro h
    rcases hsender with h' | ⟨_, h2, ss, st, sl, pt, k1, k2, k3, k4, k5, k6⟩
    · exact absurd h'.1 h
    · obtain ⟨p, g1, g2, _⟩ := sshPubFile_read D.P D.Y pt _ (L.ed_pub_len ss k1) k6
      exact ⟨_, p, sshIdentity_load D L E eo.nopw eo.envpw eo.sign ss st k1 sl k3 k2 k4, ⟨ss, k1, rfl, rfl, rfl⟩, h2,
        (readPublicKey_ok _ _ _ _).mpr ⟨pt, k5, g1⟩, g2⟩

/-- **C88** (sign, verify).  Two runs of the program with a key made by `ssh-keygen`: `sign` a file with the OpenSSH private key
file, `verify` it with the OpenSSH public key file (its name contains a dot, as in `id_ed25519.pub`), or with the base64 field of
that file as the argument.  If `sign` exits with 0 and no call on the signature file fails, `verify` exits with 0. -/
theorem C88_ssh_sign_verify (D : Deps) (L : Laws D.P) (seed text : Bytes) (hseed : seed.length = 32) (lock : Option Bytes)
    (hid : SshIdentity D seed text lock)
    -- sign
    (S : World) (hSD : S.D = D) (sv srest smore : List Bytes) (NS : Normal S sv) (so : SignOpts) (kn fn : Bytes)
    (hs : Runs S sv "sign" srest) (hsf : S.flags.sign srest = .ok so (kn :: fn :: smore))
    (hkey : S.fs.read kn = some text) (hspw : ∀ pw, lock = some pw → PassPhrase S so.nopw so.envpw pw)
    (hYf : D.Y.Reads (ascii "input=" ++ fn)) (hd : sigTarget so.output fn ≠ ascii "-") (hne : sigTarget so.output fn ≠ fn)
    (hw : ∀ k e, WEv.fail k e ∉ S.env1.writes) (hsy : S.env1.syncErr = none) (hcl : S.env1.closeErr = none)
    (hrn : S.env1.renameErr = none) (hs0 : (S.main sv).exit = 0)
    -- verify
    (V : World) (hVD : V.D = D) (vv vrest vmore : List Bytes) (ho : V.order.Perm commands) (hv : Runs V vv "verify" vrest)
    (pn : Bytes) (hvf : V.flags.verify vrest = .ok () (pn :: sigTarget so.output fn :: fn :: vmore)) (hmapV : V.mapErr = none)
    (hpn : (46 ∈ pn ∧ ∃ ptext, V.fs.read pn = some ptext ∧ SshPubFile ptext (D.P.edPub seed)) ∨
      pn = Base64.encode (sshPublicBlob (D.P.edPub seed)))
    (hfs : ∀ p, p = sigTarget so.output fn ∨ p = fn → V.fs.read p = (S.fs.run (S.main sv).sys).read p) :
    (V.main vv).exit = 0 ∧ (V.main vv).sys = [] := by
  have hS' : S.main sv = signCmd D S.fs S.env1 S.stdout so.output so.force (S.getpw so.nopw so.envpw) S.mapErr kn fn := by
    rw [(C66_dispatch S NS.order sv srest _ hs).2.1 rfl]; unfold World.sign; rw [hsf]; dsimp only; rw [hSD]
  have hV' : V.main vv = { exit := verifyCmd D V.fs none (pn :: sigTarget so.output fn :: fn :: vmore) } := by
    rw [(C66_dispatch V ho vv vrest _ hv).2.2.1 rfl]; unfold World.verify; rw [hvf]; dsimp only; rw [hmapV, hVD]
  obtain ⟨b, sk, content, sig, k1, k2, k3, k4, k5, k6, k7⟩ := C58_signature_partial D L S.fs S.env1 S.stdout so.output so.force
    (S.getpw so.nopw so.envpw) S.mapErr kn fn hYf NS.fresh1 (NS.out _ (.sig srest so _ fn smore hs hsf)).1 hd hw hsy hcl hrn (S.main sv) hS' hs0
  rw [hkey] at k1
  cases k1
  rw [sshIdentity_read D L seed text hseed lock hid _ fun pw h => (hspw pw h).getpw] at k2
  cases k2
  have hlen := L.ed_pub_len seed hseed
  have harg : ∃ pk, KeyArg D V.fs pn pk ∧ pk.pk = D.P.edPub seed ∧ pk.hash = (D.P.sha256 (D.P.edPub seed)).take 16 := by
    rcases hpn with ⟨h1, pt, h2, h3⟩ | rfl
    · obtain ⟨pk, g1, g2, g3⟩ := sshPubFile_read D.P D.Y pt _ hlen h3
      exact ⟨pk, .inr ⟨fromString_dot D.P pn h1, pt, h2, g1⟩, g2, g3⟩
    · obtain ⟨pk, g1, g2, g3⟩ := C39_ssh_string D.P (D.P.edPub seed) hlen
      exact ⟨pk, .inl g1, g2, g3⟩
  obtain ⟨pk, g1, g2, g3⟩ := harg
  rw [hV']
  refine ⟨(C48_exit_zero_iff D V.fs none _).mpr ⟨pn, _, fn, vmore, rfl, rfl, pk, sig, content, g1, ?_, ?_, ?_, ?_⟩, rfl⟩
  · obtain ⟨sb, hsb, hu⟩ := k4
    exact ⟨sb, by rw [hfs _ (.inl rfl)]; exact hsb, hu⟩
  · rw [g3, k5]
  · rw [hfs _ (.inr rfl), (k7 fn (by simpa using Ne.symm hne)).1]; exact k3
  · rw [g2]; exact k6 ⟨seed, hseed, rfl, rfl, rfl⟩

end Sigtool
