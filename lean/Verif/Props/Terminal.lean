import Verif.Terminal
import Verif.Props.CliVerify
import Verif.Props.DecAttack
import Verif.Props.CliDemo
/-! # What `verify` and `decrypt` print: C96, C97 -/

namespace Sigtool
open Spec

/-- The arguments can be checked: they denote a key, a signature made with the key of this hash, and a readable file. -/
def Spec.Checkable (D : Deps) (fs : FS) (mapErr : Option Err) (pn sn fn : Bytes) (pk : PublicKey) (sig : Signature) (content : Bytes) :
    Prop :=
  mapErr = none ∧ KeyArg D fs pn pk ∧ SigFile D fs sn sig ∧ pk.hash = sig.pkhash ∧ fs.read fn = some content

theorem verifyCmd_check (D : Deps) (fs : FS) (mapErr : Option Err) (pn sn fn : Bytes) (more : List Bytes) :
    verifyCmd D fs mapErr (pn :: sn :: fn :: more) =
      exitOf ((verifyCheck D fs mapErr pn sn fn).bind fun ok => .ok (if ok then 0 else 1)) := by
  unfold verifyCmd verifyCheck
  dsimp only
  cases verifyKey D fs pn with
  | err x => rfl
  | panic x => rfl
  | ok k =>
    dsimp only [Res.bind_ok]
    cases readSignature D fs sn with
    | err x => rfl
    | panic x => rfl
    | ok s =>
      dsimp only [Res.bind_ok]
      cases k with
      | none => rfl
      | some pk =>
        dsimp only
        cases isPKMatch pk s with
        | false => rfl
        | true =>
          simp only [Bool.not_true, Bool.false_eq_true, if_false]
          cases readFile fs fn with
          | err x => rfl
          | panic x => rfl
          | ok c =>
            dsimp only [Res.bind_ok]
            cases mapErr with
            | some e => rfl
            | none => rfl

theorem verifyCheck_ok (D : Deps) (fs : FS) (mapErr : Option Err) (pn sn fn : Bytes) (ok : Bool) :
    verifyCheck D fs mapErr pn sn fn = .ok ok ↔ ∃ pk sig content, Checkable D fs mapErr pn sn fn pk sig content ∧
      (ok = true ↔ ValidFileSig D.P pk.pk content sig.sig) := by
  have valid : ∀ (pk : PublicKey) c (s : Signature), pk.pk.length = 32 →
      (verifyFile D.P pk c s = .ok ok ↔ (ok = true ↔ ValidFileSig D.P pk.pk c s.sig)) := by
    intro pk c s hl
    have h1 : verifyFile D.P pk c s = .ok true ↔ ValidFileSig D.P pk.pk c s.sig := by
      rw [(C31_is_message_signature D.P ⟨[], ⟨[], [], []⟩⟩ pk c s).2, (C30_verify_iff D.P pk hl _ s).1]
      rfl
    obtain ⟨b, hb⟩ := (C30_verify_iff D.P pk hl (fileCksum D.P c) s).2
    have hb' : verifyFile D.P pk c s = .ok b := hb
    rw [hb'] at h1 ⊢
    cases b <;> cases ok <;> simp at h1 ⊢ <;> exact h1
  unfold verifyCheck Checkable
  constructor
  · intro h
    obtain ⟨k, h1, h⟩ := (bind_ok_iff _ _ _).mp h
    obtain ⟨s, h2, h⟩ := (bind_ok_iff _ _ _).mp h
    cases k with
    | none => cases h
    | some pk =>
      dsimp only at h
      cases hm : isPKMatch pk s with
      | false => rw [hm] at h; cases h
      | true =>
        rw [hm] at h
        simp only [Bool.not_true, Bool.false_eq_true, if_false] at h
        obtain ⟨c, h3, h⟩ := (bind_ok_iff _ _ _).mp h
        cases mapErr with
        | some e => cases h
        | none =>
          have hk := (verifyKey_some D fs pn pk).mp h1
          exact ⟨pk, s, c, ⟨rfl, hk, (readSignature_ok D fs sn s).mp h2, (C32_match_iff pk s).mp hm, (readFile_ok fs fn c).mp h3⟩,
            (valid pk c s (KeyArg_len D fs pn pk hk)).mp h⟩
  · rintro ⟨pk, s, c, ⟨rfl, hk, hs, hm, hr⟩, hv⟩
    refine (bind_ok_iff _ _ _).mpr ⟨some pk, (verifyKey_some D fs pn pk).mpr hk, (bind_ok_iff _ _ _).mpr
      ⟨s, (readSignature_ok D fs sn s).mpr hs, ?_⟩⟩
    dsimp only
    rw [(C32_match_iff pk s).mpr hm]
    simp only [Bool.not_true, Bool.false_eq_true, if_false]
    exact (bind_ok_iff _ _ _).mpr ⟨c, (readFile_ok fs fn c).mpr hr, (valid pk c s (KeyArg_len D fs pn pk hk)).mpr hv⟩

/-- Whatever is printed, the exit status is that of `verifyCmd` (C48, C92). -/
theorem C96_exit (D : Deps) (fs : FS) (mapErr : Option Err) (quiet : Bool) (args : List Bytes) :
    (verifySays D fs mapErr quiet args).exit = verifyCmd D fs mapErr args := by
  match args with
  | [] => rfl
  | [_] => rfl
  | [_, _] => rfl
  | pn :: sn :: fn :: more =>
    rw [verifyCmd_check]
    unfold verifySays
    dsimp only
    cases verifyCheck D fs mapErr pn sn fn with
    | err x => rfl
    | panic x => rfl
    | ok b => rfl

theorem resultLine_ne (fn sn : Bytes) : resultLine fn sn true ≠ resultLine fn sn false := by
  unfold resultLine
  intro h
  have := List.append_cancel_left h
  revert this
  decide +kernel

theorem resultLine_ne_nil (fn sn : Bytes) (b : Bool) : resultLine fn sn b ≠ [] := by
  unfold resultLine
  intro h
  have := (List.append_eq_nil_iff.mp h).2
  cases b <;> revert this <;> decide +kernel

/-- **C96**  What `verify` prints on standard output, without `--quiet`: the line "FILE: Signature SIG verified" exactly if the
arguments can be checked and the signature is valid, which is exactly when it exits with 0; the line "FILE: Signature SIG verification
failure" exactly if they can be checked and the signature is not valid; and else nothing, but a message on standard error. -/
theorem C96_verify_line (D : Deps) (fs : FS) (mapErr : Option Err) (pn sn fn : Bytes) (more : List Bytes) (s : Said)
    (hs : verifySays D fs mapErr false (pn :: sn :: fn :: more) = s) :
    (s.stdout = fn ++ ascii ": Signature " ++ sn ++ ascii " verified\n" ↔
      ∃ pk sig content, Checkable D fs mapErr pn sn fn pk sig content ∧ ValidFileSig D.P pk.pk content sig.sig) ∧
    (s.stdout = fn ++ ascii ": Signature " ++ sn ++ ascii " verification failure\n" ↔
      ∃ pk sig content, Checkable D fs mapErr pn sn fn pk sig content ∧ ¬ ValidFileSig D.P pk.pk content sig.sig) ∧
    (s.stdout = [] ↔ ¬ ∃ pk sig content, Checkable D fs mapErr pn sn fn pk sig content) ∧
    (s.stdout = [] ↔ s.notices ≠ []) ∧
    (s.exit = 0 ↔ s.stdout = fn ++ ascii ": Signature " ++ sn ++ ascii " verified\n") := by
  have e1 : fn ++ ascii ": Signature " ++ sn ++ ascii " verified\n" = resultLine fn sn true := rfl
  have e2 : fn ++ ascii ": Signature " ++ sn ++ ascii " verification failure\n" = resultLine fn sn false := rfl
  rw [e1, e2]
  have k1 := resultLine_ne fn sn
  have k2 := fun b => resultLine_ne_nil fn sn b
  have hcheck := verifyCheck_ok D fs mapErr pn sn fn
  have none_ : (∀ b, verifyCheck D fs mapErr pn sn fn ≠ .ok b) → ¬ ∃ pk sig content, Checkable D fs mapErr pn sn fn pk sig content := by
    rintro hn ⟨pk, sig, content, h⟩
    haveI := Classical.propDecidable (ValidFileSig D.P pk.pk content sig.sig)
    refine hn (decide (ValidFileSig D.P pk.pk content sig.sig)) ((hcheck _).mpr ⟨pk, sig, content, h, by simp⟩)
  have failed : (∀ b, verifyCheck D fs mapErr pn sn fn ≠ .ok b) → ∀ s : Said, s.stdout = [] → s.notices ≠ [] → s.exit ≠ 0 →
      (s.stdout = resultLine fn sn true ↔
        ∃ pk sig content, Checkable D fs mapErr pn sn fn pk sig content ∧ ValidFileSig D.P pk.pk content sig.sig) ∧
      (s.stdout = resultLine fn sn false ↔
        ∃ pk sig content, Checkable D fs mapErr pn sn fn pk sig content ∧ ¬ ValidFileSig D.P pk.pk content sig.sig) ∧
      (s.stdout = [] ↔ ¬ ∃ pk sig content, Checkable D fs mapErr pn sn fn pk sig content) ∧
      (s.stdout = [] ↔ s.notices ≠ []) ∧ (s.exit = 0 ↔ s.stdout = resultLine fn sn true) := by
    intro hn s h1 h2 h3
    have hno := none_ hn
    rw [h1]
    refine ⟨⟨fun h => absurd h.symm (k2 _), ?_⟩, ⟨fun h => absurd h.symm (k2 _), ?_⟩, ⟨fun _ => hno, fun _ => rfl⟩,
      ⟨fun _ => h2, fun _ => rfl⟩, ⟨fun h => absurd h h3, fun h => absurd h.symm (k2 _)⟩⟩
    · rintro ⟨pk, sig, c, h, _⟩; exact absurd ⟨pk, sig, c, h⟩ hno
    · rintro ⟨pk, sig, c, h, _⟩; exact absurd ⟨pk, sig, c, h⟩ hno
  unfold verifySays at hs
  dsimp only at hs
  cases hc : verifyCheck D fs mapErr pn sn fn with
  | err x =>
    rw [hc] at hs; subst hs
    exact failed (by rw [hc]; simp) _ rfl (by simp) (by simp)
  | panic x =>
    rw [hc] at hs; subst hs
    exact failed (by rw [hc]; simp) _ rfl (by simp) (by simp)
  | ok b =>
    rw [hc] at hs; subst hs
    obtain ⟨pk, sig, c, h1, h2⟩ := (hcheck b).mp hc
    -- the answer does not depend on how the arguments are read
    have huniq : ∀ b', (∃ pk sig content, Checkable D fs mapErr pn sn fn pk sig content ∧
        (b' = true ↔ ValidFileSig D.P pk.pk content sig.sig)) → b' = b := by
      intro b' h
      have := (hcheck b').mpr h
      rw [hc] at this
      cases this; rfl
    simp only [Bool.false_eq_true, if_false]
    refine ⟨?_, ?_, ⟨fun h => absurd h (k2 _), fun h => absurd ⟨pk, sig, c, h1⟩ h⟩, ⟨fun h => absurd h (k2 _), fun h => absurd rfl h⟩, ?_⟩
    · constructor
      · intro h
        cases b with
        | true => exact ⟨pk, sig, c, h1, h2.mp rfl⟩
        | false => exact absurd h.symm k1
      · rintro ⟨pk', sig', c', g1, g2⟩
        rw [← huniq true ⟨pk', sig', c', g1, by simp [g2]⟩]
    · constructor
      · intro h
        cases b with
        | true => exact absurd h k1
        | false => exact ⟨pk, sig, c, h1, fun hv => by cases h2.mpr hv⟩
      · rintro ⟨pk', sig', c', g1, g2⟩
        rw [← huniq false ⟨pk', sig', c', g1, by simp [g2]⟩]
    · cases b with
      | true => simp
      | false => simp only [Bool.false_eq_true, if_false, Nat.one_ne_zero, false_iff]; exact fun h => k1 h.symm

/-- **C96** (`--quiet`, partial).  With `--quiet`, `verify` prints nothing if the arguments can be checked, whatever the answer; and never
anything on standard output.  Missing, and false of the code: that nothing is printed at all (`C96_quiet_refuted`). -/
theorem C96_quiet_partial (D : Deps) (fs : FS) (mapErr : Option Err) (args : List Bytes) :
    (verifySays D fs mapErr true args).stdout = [] ∧
    ∀ pn sn fn more, args = pn :: sn :: fn :: more → (∃ pk sig content, Checkable D fs mapErr pn sn fn pk sig content) →
      (verifySays D fs mapErr true args).notices = [] := by
  constructor
  · unfold verifySays
    split
    · split <;> rfl
    · rfl
  · rintro pn sn fn more rfl ⟨pk, sig, c, h⟩
    haveI := Classical.propDecidable (ValidFileSig D.P pk.pk c sig.sig)
    have hc := (verifyCheck_ok D fs mapErr pn sn fn (decide (ValidFileSig D.P pk.pk c sig.sig))).mpr ⟨pk, sig, c, h, by simp⟩
    unfold verifySays
    dsimp only
    rw [hc]

/-- **C96** is false of the code for `--quiet`: whenever the arguments cannot be checked (a signature made with another key, a missing
file) there is a message, although the option is documented as "Don't show any output; exit with status code only". -/
theorem C96_quiet_refuted (D : Deps) (fs : FS) (mapErr : Option Err) (pn sn fn : Bytes) (more : List Bytes)
    (h : ¬ ∃ pk sig content, Checkable D fs mapErr pn sn fn pk sig content) :
    (verifySays D fs mapErr true (pn :: sn :: fn :: more)).notices ≠ [] := by
  unfold verifySays
  dsimp only
  cases hc : verifyCheck D fs mapErr pn sn fn with
  | err x => simp
  | panic x => simp
  | ok b =>
    obtain ⟨pk, sig, c, h1, _⟩ := (verifyCheck_ok D fs mapErr pn sn fn b).mp hc
    exact absurd ⟨pk, sig, c, h1⟩ h

/-- **C96** is false of the code for names that contain line breaks: whoever can choose the name of the file to be verified can have
the line "X: Signature Y verified" printed, for any X and Y, although nothing was verified. -/
theorem C96_spoof_refuted (D : Deps) (fs : FS) (mapErr : Option Err) (pn sn x y rest : Bytes) (more : List Bytes)
    (hbad : ∃ pk sig content, Checkable D fs mapErr pn sn (x ++ ascii ": Signature " ++ y ++ ascii " verified\n" ++ rest) pk sig content ∧
      ¬ ValidFileSig D.P pk.pk content sig.sig) :
    let s := verifySays D fs mapErr false (pn :: sn :: (x ++ ascii ": Signature " ++ y ++ ascii " verified\n" ++ rest) :: more)
    s.exit = 1 ∧ (x ++ ascii ": Signature " ++ y ++ ascii " verified\n") <+: s.stdout := by
  intro s
  obtain ⟨pk, sig, c, h1, h2⟩ := hbad
  have hc := (verifyCheck_ok D fs mapErr pn sn _ false).mpr ⟨pk, sig, c, h1, by simp [h2]⟩
  have hs : s = { exit := 1, stdout := resultLine (x ++ ascii ": Signature " ++ y ++ ascii " verified\n" ++ rest) sn false } := by
    show verifySays _ _ _ _ _ = _
    unfold verifySays
    dsimp only
    rw [hc]; rfl
  rw [hs]
  refine ⟨rfl, ?_⟩
  unfold resultLine
  dsimp only
  refine ⟨rest ++ ascii ": Signature " ++ sn ++ ascii " verification failure\n", ?_⟩
  simp

/-! ## decrypt -/

theorem setup_auth {P : Prims} {rd : Reader} {sk : PrivateKey} {d : Decryptor} (h : setupDecryptor P rd sk none = .ok d) :
    d.auth = false := by
  obtain ⟨d0, rd', h1, h2⟩ := setup_split h
  have hf := (newDecryptor_fresh P rd rd' d0 h1).2.1
  obtain ⟨key, hk⟩ := setPrivateKey_ok P d0 d sk _ h2
  rcases setPrivateKey_cases P d0 sk none with ⟨x, _, g⟩ | ⟨x, _, g⟩ | ⟨_, g⟩ | ⟨key, _, g⟩
  · rw [h2] at g; cases g
  · rw [h2] at g; cases g
  · rw [h2] at g; cases g
  · rw [h2] at g
    cases hv : ({ d0 with key := some key, sender := none } : Decryptor).verifySender P key none with
    | err x => rw [hv] at g; cases g
    | panic x => rw [hv] at g; cases g
    | ok a =>
      rw [hv] at g
      cases g
      obtain ⟨sig, _, h⟩ := verifySender_ok P _ _ _ _ hv
      rcases h with ⟨_, h⟩ | ⟨_, _, pk, h, _⟩
      · dsimp only; rw [h]; exact hf
      · cases h

/-- **C97** is false of the code: the message "Missing sender Public Key; can't authenticate sender", meant for a signed container that
is decrypted without `-v`, is never printed, whatever the files, options and input.  (Such a container is refused instead: C70.) -/
theorem C97_warning_refuted (D : Deps) (fs : FS) (env : SafeEnv) (stdout : Writer) (outfile : Path) (force test : Bool)
    (keyfile : Path) (getpw : GetPw) (pubkey infile : Path) (rd : Reader) :
    Notice.missingSender ∉ decryptNotices D fs env stdout outfile force test keyfile getpw pubkey infile rd := by
  have body : ∀ (sk : PrivateKey) (pk : Option PublicKey) (wr : Writer),
      Notice.missingSender ∉ decryptBodyNotices D.P rd sk pk test wr := by
    intro sk pk wr
    unfold decryptBodyNotices
    cases hs : setupDecryptor D.P rd sk pk with
    | err x => simp
    | panic x => simp
    | ok d =>
      dsimp only
      have hw : ¬ (pk = none ∧ d.auth = true) := by
        rintro ⟨rfl, ha⟩
        rw [setup_auth hs] at ha; cases ha
      rw [if_neg hw]
      rcases d.decrypt D.P wr with ⟨r, d', wr'⟩
      cases r with
      | ok u => cases test <;> simp
      | err x => simp
      | panic x => simp
  unfold decryptNotices
  repeat' (first | split | (dsimp only; split))
  all_goals first | exact body _ _ _ | simp

/-- **C97** (partial).  `decrypt` prints "Enc file OK" exactly if `-t` is given and it exits with 0; if it does not exit with 0, there is a
message that it failed, and if it does there is none.  Missing, and false of the code: the message about unverified senders
(`C97_warning_refuted`). -/
theorem C97_notices_partial (D : Deps) (fs : FS) (env : SafeEnv) (stdout : Writer) (outfile : Path) (force test : Bool)
    (keyfile : Path) (getpw : GetPw) (pubkey infile : Path) (rd : Reader) :
    let n := decryptNotices D fs env stdout outfile force test keyfile getpw pubkey infile rd
    let exit := (decryptCmd D fs env stdout outfile force test keyfile getpw pubkey infile rd).exit
    (exit = 0 ∧ n = if test then [.encFileOK] else []) ∨ (exit = 1 ∧ n = [.died]) ∨ (exit = 2 ∧ n = [.crashed]) := by
  intro n exit
  have body : ∀ (sk : PrivateKey) (pk : Option PublicKey) (wr : Writer),
      let e := exitOf (decryptBody D.P rd sk pk wr).1
      let n := decryptBodyNotices D.P rd sk pk test wr
      (e = 0 ∧ n = if test then [.encFileOK] else []) ∨ (e = 1 ∧ n = [.died]) ∨ (e = 2 ∧ n = [.crashed]) := by
    intro sk pk wr
    unfold decryptBodyNotices decryptBody
    cases hs : setupDecryptor D.P rd sk pk with
    | err x => simp [exitOf]
    | panic x => simp [exitOf]
    | ok d =>
      dsimp only
      have hw : ¬ (pk = none ∧ d.auth = true) := by
        rintro ⟨rfl, ha⟩
        rw [setup_auth hs] at ha; cases ha
      rw [if_neg hw]
      rcases d.decrypt D.P wr with ⟨r, d', wr'⟩
      cases r with
      | ok u => simp [exitOf]
      | err x => simp [exitOf]
      | panic x => simp [exitOf]
  show _ ∨ _ ∨ _
  dsimp only [n, exit]
  unfold decryptNotices decryptCmd
  cases readPrivateKey D fs keyfile getpw with
  | err x => simp
  | panic x => simp
  | ok sk =>
    dsimp only
    generalize (if pubkey = [] then Res.ok none else (readPublicKey D fs pubkey).bind fun pk => .ok (some pk)) = pk
    cases pk with
    | err x => simp
    | panic x => simp
    | ok pk =>
      dsimp only
      by_cases h1 : infile ≠ [] ∧ infile ≠ ascii "-" ∧ fs.exists infile = false
      · rw [if_pos h1, if_pos h1]; simp
      · rw [if_neg h1, if_neg h1]
        cases test with
        | true => simpa using body sk pk {}
        | false =>
          simp only [Bool.false_eq_true, if_false]
          unfold withOutput
          by_cases h2 : outfile = [] ∨ outfile = ascii "-"
          · rw [if_pos h2, if_pos h2]
            simpa using body sk pk stdout
          · rw [if_neg h2, if_neg h2]
            cases newSafeFile fs env 0o600 outfile force with
            | err x => simp
            | panic x => simp
            | ok cs => simpa using body sk pk (env.writer outfile)

/-! ## Concrete runs -/

namespace CliDemo

/-- C96: the four kinds of output: verified; failed (the signature of another file); a file that is no signature; and the same with
`--quiet`. -/
example : verifySays D fs2 none false [pubName k, ascii "in.sig", ascii "in"] =
      { exit := 0, stdout := ascii "in: Signature in.sig verified\n" } ∧
    verifySays D fs2 none false [pubName k, ascii "in.sig", ascii "auth"] =
      { exit := 1, stdout := ascii "auth: Signature in.sig verification failure\n" } ∧
    verifySays D fs2 none false [pubName k, ascii "in", ascii "in"] = { exit := 1, notices := [.died] } ∧
    verifySays D fs2 none true [pubName k, ascii "in.sig", ascii "auth"] = { exit := 1 } ∧
    verifySays D fs2 none true [pubName k, ascii "in", ascii "in"] = { exit := 1, notices := [.died] } := by decide +kernel

/-- C96 (refuted part): a file whose name contains a whole line. -/
def fsSpoof : FS where
  dir := fun p => if p = ascii "x: Signature y verified\nz" then some (.file 10) else fs2.dir p
  data := fs2.data

theorem spoof : verifySays D fsSpoof none false [pubName k, ascii "in.sig", ascii "x: Signature y verified\nz"] =
    { exit := 1, stdout := ascii "x: Signature y verified\nz: Signature in.sig verification failure\n" } := by decide +kernel

/-- The hypothesis of `C96_spoof_refuted` is met there. -/
example : ∃ pk sig content, Checkable D fsSpoof none (pubName k) (ascii "in.sig") (ascii "x: Signature y verified\nz") pk sig content ∧
    ¬ ValidFileSig D.P pk.pk content sig.sig :=
  ((C96_verify_line D fsSpoof none (pubName k) (ascii "in.sig") (ascii "x: Signature y verified\nz") [] _ spoof).2.1).mp
    (by decide +kernel)

/-- C97: `decrypt -t`, of the demo container and of a truncated one. -/
def tested (c : Bytes) : List Notice :=
  decryptNotices D fs3 (env "t6" 6) {} [] false true (keyName k) (some (.ok pw)) (pubName k) (ascii "out") ⟨[c], .eof, false⟩

example : tested ((fs3.read (ascii "out")).getD []) = [.encFileOK] ∧ tested ((fs3.read (ascii "out")).getD []).dropLast = [.died] := by
  decide +kernel

/-- C97: the signed container without `-v`: no warning, but a failure. -/
example : decryptNotices D fs3 (env "t6" 6) {} [] false false (keyName k) (some (.ok pw)) [] (ascii "out")
      ⟨[(fs3.read (ascii "out")).getD []], .eof, false⟩ = [.died] := by decide +kernel

end CliDemo

end Sigtool
