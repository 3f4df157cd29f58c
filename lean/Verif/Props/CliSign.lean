import Verif.Props.CliOutput
/-! # The sign command: C58 -/

namespace Sigtool
open Spec

theorem sig_suffix : ascii ".sig" = ".sig".toUTF8.toList := by decide +kernel

/-- The text that `sign` writes. -/
def sigText (D : Deps) (fs : FS) (getpw : GetPw) (mapErr : Option Err) (kn fn : Path) : Res Bytes :=
  (readPrivateKey D fs kn getpw).bind fun sk =>
  (readFile fs fn).bind fun content =>
  match mapErr with
  | some e => .err e
  | none => (signFile D.P sk content).bind fun sig => .ok (sig.marshal D.Y (ascii "input=" ++ fn))

theorem signCmd_eq (D : Deps) (fs : FS) (env : SafeEnv) (stdout : Writer) (output : Path) (force : Bool) (getpw : GetPw)
    (mapErr : Option Err) (kn fn : Path) :
    signCmd D fs env stdout output force getpw mapErr kn fn =
      if sigTarget output fn = ascii "-" then
        match sigText D fs getpw mapErr kn fn with
        | .ok t => { exit := 0, stdout := (stdout.write t).2.2.out }
        | .err _ => { exit := 1 }
        | .panic _ => { exit := 2 }
      else
        match newSafeFile fs env 0o644 (sigTarget output fn) force with
        | .err _ => { exit := 1 }
        | .panic _ => { exit := 2 }
        | .ok _ =>
          match sigText D fs getpw mapErr kn fn with
          | .ok t =>
            let r := fullwrite t (env.writer (sigTarget output fn))
            { exit := 0, sys := safeCalls env 0o644 (sigTarget output fn) r.2.close.2 r.1.isSome }
          | .err _ => { exit := 1, sys := safeCalls env 0o644 (sigTarget output fn) (env.writer (sigTarget output fn)) false }
          | .panic _ => { exit := 2, sys := safeCalls env 0o644 (sigTarget output fn) (env.writer (sigTarget output fn)) false } := by
  unfold signCmd sigTarget
  rw [← sig_suffix]
  rfl

/-- When there is a text, and what it is. -/
theorem sigText_ok (D : Deps) (fs : FS) (getpw : GetPw) (mapErr : Option Err) (kn fn : Path) (t : Bytes) :
    sigText D fs getpw mapErr kn fn = .ok t ↔ mapErr = none ∧ ∃ sk content,
      (∃ b, fs.read kn = some b ∧ makePrivateKey D.P D.Y D.pem b getpw = .ok sk) ∧ fs.read fn = some content ∧
      t = Signature.marshal D.Y ⟨D.P.edSign sk.sk (D.P.sha512 (messageInput (D.P.sha512 (fileInput content)))), sk.pub.hash⟩
        (ascii "input=" ++ fn) := by
  have hsign : ∀ sk content b, makePrivateKey D.P D.Y D.pem b getpw = .ok sk → signFile D.P sk content =
      .ok ⟨D.P.edSign sk.sk (D.P.sha512 (messageInput (D.P.sha512 (fileInput content)))), sk.pub.hash⟩ := by
    intro sk content b h
    rw [(C31_is_message_signature D.P sk ⟨[], [], []⟩ content ⟨[], []⟩).1]
    unfold signMessage
    rw [if_neg (by have := (C37_private D.P D.Y D.pem b getpw sk h).1; omega), signDigest_spec]
  unfold sigText
  constructor
  · intro h
    obtain ⟨sk, h1, h⟩ := (bind_ok_iff _ _ _).mp h
    obtain ⟨content, h2, h⟩ := (bind_ok_iff _ _ _).mp h
    obtain ⟨b, h3, h4⟩ := (readPrivateKey_ok _ _ _ _ _).mp h1
    match mapErr with
    | some e => cases h
    | none =>
      dsimp only at h
      rw [hsign sk content b h4, Res.bind_ok] at h
      cases h
      exact ⟨rfl, sk, content, ⟨b, h3, h4⟩, (readFile_ok _ _ _).mp h2, rfl⟩
  · rintro ⟨rfl, sk, content, ⟨b, h3, h4⟩, h2, rfl⟩
    rw [(readPrivateKey_ok _ _ _ _ _).mpr ⟨b, h3, h4⟩, Res.bind_ok, (readFile_ok _ _ _).mpr h2, Res.bind_ok]
    dsimp only
    rw [hsign sk content b h4, Res.bind_ok]

/-- **C58** (exit status).  `sign` exits with 0 exactly if the private key and the file are readable and the output may be created;
nothing that goes wrong in writing the output has an influence. -/
theorem C58_exit_zero_iff (D : Deps) (fs : FS) (env : SafeEnv) (stdout : Writer) (output : Path) (force : Bool) (getpw : GetPw)
    (mapErr : Option Err) (kn fn : Path) :
    (signCmd D fs env stdout output force getpw mapErr kn fn).exit = 0 ↔
      mapErr = none ∧ (∃ b sk, fs.read kn = some b ∧ makePrivateKey D.P D.Y D.pem b getpw = .ok sk) ∧ (∃ c, fs.read fn = some c) ∧
      (sigTarget output fn = ascii "-" ∨ ∃ cs, newSafeFile fs env 0o644 (sigTarget output fn) force = .ok cs) := by
  rw [signCmd_eq]
  have hs : (∃ t, sigText D fs getpw mapErr kn fn = .ok t) ↔ mapErr = none ∧
      (∃ b sk, fs.read kn = some b ∧ makePrivateKey D.P D.Y D.pem b getpw = .ok sk) ∧ (∃ c, fs.read fn = some c) := by
    constructor
    · rintro ⟨t, h⟩
      obtain ⟨h1, sk, c, ⟨b, h2⟩, h3, _⟩ := (sigText_ok _ _ _ _ _ _ _).mp h
      exact ⟨h1, ⟨b, sk, h2⟩, c, h3⟩
    · rintro ⟨h1, ⟨b, sk, h2⟩, c, h3⟩
      exact ⟨_, (sigText_ok _ _ _ _ _ _ _).mpr ⟨h1, sk, c, ⟨b, h2⟩, h3, rfl⟩⟩
  rw [← and_assoc, ← and_assoc, and_assoc (a := mapErr = none), ← hs]
  by_cases hd : sigTarget output fn = ascii "-"
  · rw [if_pos hd]
    match hT : sigText D fs getpw mapErr kn fn with
    | .ok t => simp [hd]
    | .err _ => simp
    | .panic _ => simp
  · rw [if_neg hd]
    match hn : newSafeFile fs env 0o644 (sigTarget output fn) force with
    | .err _ => simp [hd]
    | .panic _ => simp [hd]
    | .ok cs =>
      match hT : sigText D fs getpw mapErr kn fn with
      | .ok t => simp
      | .err _ => simp
      | .panic _ => simp

/-- Every run of `sign` with an output file. -/
theorem signCmd_run (D : Deps) (fs : FS) (env : SafeEnv) (stdout : Writer) (output : Path) (force : Bool) (getpw : GetPw)
    (mapErr : Option Err) (kn fn : Path) (hd : sigTarget output fn ≠ ascii "-") :
    ∃ t ok, SafeRun env (sigTarget output fn) t ok (signCmd D fs env stdout output force getpw mapErr kn fn).sys ∧
      ((signCmd D fs env stdout output force getpw mapErr kn fn).exit = 0 → sigText D fs getpw mapErr kn fn = .ok t) ∧
      (ok = true → (signCmd D fs env stdout output force getpw mapErr kn fn).exit = 0) ∧
      ((signCmd D fs env stdout output force getpw mapErr kn fn).exit = 0 →
        (ok = true ↔ (fullwrite t (env.writer (sigTarget output fn))).1 = none ∧ (closeCalls env (sigTarget output fn)).1 = none)) := by
  rw [signCmd_eq, if_neg hd]
  match hn : newSafeFile fs env 0o644 (sigTarget output fn) force with
  | .err _ => exact ⟨[], false, .nothing, by simp, by simp, by simp⟩
  | .panic _ => exact absurd hn (newSafeFile_no_panic _ _ _ _ _)
  | .ok cs =>
    dsimp only
    match hT : sigText D fs getpw mapErr kn fn with
    | .err _ => exact ⟨[], false, safeCalls_open _ _ _ rfl _, by simp, by simp, by simp⟩
    | .panic _ => exact ⟨[], false, safeCalls_open _ _ _ rfl _, by simp, by simp, by simp⟩
    | .ok t =>
      dsimp only
      obtain ⟨w', a1, a2, a3, _⟩ := fullwrite_spec t (env.writer (sigTarget output fn))
      rcases a3 with ⟨a3, a4⟩ | ⟨e, k, a3, a4, _⟩
      · rw [a3]
        have hr := safeCalls_closed (perm := 0o644) env (sigTarget output fn) w'.close.2 (by simp [Writer.close])
        have ho : w'.close.2.out = t := by show w'.out = t; rw [a4]; rfl
        rw [ho] at hr
        exact ⟨t, _, hr, fun _ => rfl, fun _ => rfl, fun _ => by simp [a3]⟩
      · rw [a3]
        have : SafeRun env (sigTarget output fn) t false (safeCalls env 0o644 (sigTarget output fn) w'.close.2 true) := by
          unfold safeCalls
          simpa using SafeRun.failed (env := env) (target := sigTarget output fn) (content := t) w'.close.2.out [] (.inl rfl)
        exact ⟨t, false, this, fun _ => rfl, by simp, fun _ => by simp [a3]⟩

/-- **C58** (exit status 0; partial).  If `sign` exits with 0 and no call on the output file fails, that file holds the text of a
signature that names the key and is valid for the signed file under the public key of the private key, and no other file has
changed. The proviso is needed: see `C58_write_error_refuted`. -/
theorem C58_signature_partial (D : Deps) (L : Laws D.P) (fs : FS) (env : SafeEnv) (stdout : Writer) (output : Path) (force : Bool)
    (getpw : GetPw) (mapErr : Option Err) (kn fn : Path) (hY : D.Y.Reads (ascii "input=" ++ fn))
    (hf : Fresh fs env.tmp env.inode) (ht : sigTarget output fn ≠ env.tmp) (hd : sigTarget output fn ≠ ascii "-")
    (hw : ∀ k e, WEv.fail k e ∉ env.writes) (hs : env.syncErr = none) (hc : env.closeErr = none) (hr : env.renameErr = none)
    (o : Outcome) (ho : o = signCmd D fs env stdout output force getpw mapErr kn fn) (h : o.exit = 0) :
    ∃ b sk content sig, fs.read kn = some b ∧ makePrivateKey D.P D.Y D.pem b getpw = .ok sk ∧ fs.read fn = some content ∧
      SigFile D (fs.run o.sys) (sigTarget output fn) sig ∧ sig.pkhash = sk.pub.hash ∧
      (sk.Genuine D.P → ValidFileSig D.P sk.pub.pk content sig.sig) ∧ SameBut fs (fs.run o.sys) [sigTarget output fn] := by
  subst ho
  obtain ⟨t, ok, g1, g2, g3, g4⟩ := signCmd_run D fs env stdout output force getpw mapErr kn fn hd
  have hok : ok = true := by
    refine (g4 h).mpr ⟨?_, ?_⟩
    · obtain ⟨w', hw', _⟩ := fullwrite_noFail t (env.writer (sigTarget output fn)) hw
      rw [hw']
    · unfold closeCalls; rw [hs, hc, hr]
  subst hok
  obtain ⟨_, sk, content, ⟨b, h1, h2⟩, h3, h4⟩ := (sigText_ok _ _ _ _ _ _ _).mp (g2 h)
  refine ⟨b, sk, content, ⟨D.P.edSign sk.sk (D.P.sha512 (messageInput (D.P.sha512 (fileInput content)))), sk.pub.hash⟩, h1, h2, h3,
    ⟨t, (g1.success fs hf ht).1, ?_⟩, rfl, ?_, g1.same fs hf ht⟩
  · rw [h4]; exact C33_roundtrip D.Y _ hY _
  · rintro ⟨seed, q1, q2, q3, _⟩
    unfold ValidFileSig
    dsimp only
    rw [q3, q2]
    exact L.ed_verify_sign _ _ q1

/-- **C58** (standard output; partial).  If `sign -o -` exits with 0 and the write succeeds, standard output has received the text of
a signature that names the key and is valid for the signed file under the public key of the private key, and no file system call
has been made. -/
theorem C58_stdout_partial (D : Deps) (L : Laws D.P) (fs : FS) (env : SafeEnv) (stdout : Writer) (output : Path) (force : Bool)
    (getpw : GetPw) (mapErr : Option Err) (kn fn : Path) (hY : D.Y.Reads (ascii "input=" ++ fn))
    (hd : sigTarget output fn = ascii "-") (hw : ∀ w ∈ stdout.script, w = WEv.full)
    (o : Outcome) (ho : o = signCmd D fs env stdout output force getpw mapErr kn fn) (h : o.exit = 0) :
    o.sys = [] ∧ ∃ b sk content text sig, fs.read kn = some b ∧ makePrivateKey D.P D.Y D.pem b getpw = .ok sk ∧
      fs.read fn = some content ∧ o.stdout = stdout.out ++ text ∧ unmarshalSig D.Y text = .ok sig ∧ sig.pkhash = sk.pub.hash ∧
      (sk.Genuine D.P → ValidFileSig D.P sk.pub.pk content sig.sig) := by
  subst ho
  rw [signCmd_eq, if_pos hd] at h ⊢
  match hT : sigText D fs getpw mapErr kn fn with
  | .err _ => rw [hT] at h; exact absurd h (by simp)
  | .panic _ => rw [hT] at h; exact absurd h (by simp)
  | .ok t =>
    obtain ⟨_, sk, content, ⟨b, h1, h2⟩, h3, h4⟩ := (sigText_ok _ _ _ _ _ _ _).mp hT
    refine ⟨rfl, b, sk, content, t,
      ⟨D.P.edSign sk.sk (D.P.sha512 (messageInput (D.P.sha512 (fileInput content)))), sk.pub.hash⟩, h1, h2, h3, ?_, ?_, rfl, ?_⟩
    · dsimp only
      unfold Writer.write
      match hs : stdout.script with
      | [] => rfl
      | .full :: _ => rfl
      | .short k :: _ => rw [hs] at hw; exact absurd (hw _ (List.mem_cons_self ..)) (by simp)
      | .fail k e :: _ => rw [hs] at hw; exact absurd (hw _ (List.mem_cons_self ..)) (by simp)
    · rw [h4]; exact C33_roundtrip D.Y _ hY _
    · rintro ⟨seed, q1, q2, q3, _⟩
      unfold ValidFileSig
      dsimp only
      rw [q3, q2]
      exact L.ed_verify_sign _ _ q1

/-- **C58** (failure).  If `sign` exits with another status, no file has changed and the temporary file is gone unless removing it
fails. -/
theorem C58_failure (D : Deps) (fs : FS) (env : SafeEnv) (stdout : Writer) (output : Path) (force : Bool)
    (getpw : GetPw) (mapErr : Option Err) (kn fn : Path) (hf : Fresh fs env.tmp env.inode)
    (o : Outcome) (ho : o = signCmd D fs env stdout output force getpw mapErr kn fn) (h : o.exit ≠ 0) :
    SameBut fs (fs.run o.sys) [env.tmp] ∧ (env.removeErr = none → (fs.run o.sys).dir env.tmp = none) ∧ o.stdout = [] := by
  subst ho
  by_cases hd : sigTarget output fn = ascii "-"
  · rw [signCmd_eq, if_pos hd] at h ⊢
    have triv : SameBut fs (fs.run []) [env.tmp] ∧ (env.removeErr = none → (fs.run []).dir env.tmp = none) :=
      ⟨fun _ _ => ⟨rfl, rfl⟩, fun _ => hf.name fs.dir (by simp)⟩
    match hT : sigText D fs getpw mapErr kn fn with
    | .ok t => rw [hT] at h; exact absurd rfl h
    | .err _ => exact ⟨triv.1, triv.2, rfl⟩
    | .panic _ => exact ⟨triv.1, triv.2, rfl⟩
  · obtain ⟨t, ok, g1, g2, g3, _⟩ := signCmd_run D fs env stdout output force getpw mapErr kn fn hd
    have : ok = false := by
      cases ok with
      | true => exact absurd (g3 rfl) h
      | false => rfl
    subst this
    obtain ⟨a, b⟩ := g1.failure fs hf
    refine ⟨fun p hp => a p (by simpa using hp), b, ?_⟩
    rw [signCmd_eq, if_neg hd]
    split
    · rfl
    · rfl
    · split <;> rfl

/-- **C58** (refuted part).  `sign` ignores the results of `Write` and `Close`: if one of them fails the status is still 0 on every
readable key and file, and no file has changed. -/
theorem C58_write_error_refuted (D : Deps) (fs : FS) (env : SafeEnv) (stdout : Writer) (output : Path) (force : Bool)
    (getpw : GetPw) (kn fn : Path) (hf : Fresh fs env.tmp env.inode) (hd : sigTarget output fn ≠ ascii "-")
    (hbad : env.syncErr ≠ none ∨ env.closeErr ≠ none ∨ env.renameErr ≠ none ∨ ∃ k e rest, env.writes = .fail k e :: rest)
    (hopen : ∃ cs, newSafeFile fs env 0o644 (sigTarget output fn) force = .ok cs)
    (hk : ∃ b sk, fs.read kn = some b ∧ makePrivateKey D.P D.Y D.pem b getpw = .ok sk) (hc : ∃ c, fs.read fn = some c)
    (o : Outcome) (ho : o = signCmd D fs env stdout output force getpw none kn fn) :
    o.exit = 0 ∧ SameBut fs (fs.run o.sys) [env.tmp] := by
  subst ho
  have h0 := (C58_exit_zero_iff D fs env stdout output force getpw none kn fn).mpr ⟨rfl, hk, hc, .inr hopen⟩
  obtain ⟨t, ok, g1, g2, _, g4⟩ := signCmd_run D fs env stdout output force getpw none kn fn hd
  have : ok = false := by
    cases ok with
    | false => rfl
    | true =>
      exfalso
      obtain ⟨hwr, this⟩ := (g4 h0).mp rfl
      unfold closeCalls at this
      cases h1 : env.syncErr with
      | some _ => rw [h1] at this; cases this
      | none =>
        cases h2 : env.closeErr with
        | some _ => rw [h1, h2] at this; cases this
        | none =>
          cases h3 : env.renameErr with
          | some _ => rw [h1, h2, h3] at this; cases this
          | none =>
            simp only [h1, h2, h3, ne_eq, not_true_eq_false, false_or] at hbad
            obtain ⟨k, e, rest, hwe⟩ := hbad
            obtain ⟨_, sk, content, _, _, h4⟩ := (sigText_ok _ _ _ _ _ _ _).mp (g2 h0)
            have hne : t.length ≠ 0 := by
              rw [h4]
              unfold Signature.marshal Yaml.sigText
              have : (D.Y.line "signature" (Base64.encode (D.P.edSign sk.sk (D.P.sha512 (messageInput (D.P.sha512 (fileInput content)))))) false).length ≠ 0 := by
                unfold Yaml.line
                rw [if_neg (by simp)]
                have : (ascii ": ").length = 2 := by decide +kernel
                simp only [List.length_append, this]
                omega
              simp only [List.length_append]
              omega
            unfold fullwrite fullwriteLoop SafeEnv.writer Writer.write at hwr
            simp [hwe, hne] at hwr
  subst this
  exact ⟨h0, fun p hp => (g1.failure fs hf).1 p (by simpa using hp)⟩

/-- **C58** (crash).  Wherever `sign` is interrupted, the signature file is as before or holds the whole signature, and every other
file is as before. -/
theorem C58_crash (D : Deps) (fs : FS) (env : SafeEnv) (stdout : Writer) (output : Path) (force : Bool)
    (getpw : GetPw) (mapErr : Option Err) (kn fn : Path) (hY : D.Y.Reads (ascii "input=" ++ fn))
    (hf : Fresh fs env.tmp env.inode) (ht : sigTarget output fn ≠ env.tmp)
    (o : Outcome) (ho : o = signCmd D fs env stdout output force getpw mapErr kn fn)
    (pre : List Sys) (hpre : pre <+: o.sys) (dir : Dir) (data : Nat → Bytes) (hi : CrashImage (fs.run pre) dir data)
    (p : Path) (hpt : p ≠ env.tmp) (hd : OnDisk fs p) :
    readIn dir data p = fs.read p ∨ (p = sigTarget output fn ∧ ∃ t sk content, readIn dir data p = some t ∧
      (∃ b, fs.read kn = some b ∧ makePrivateKey D.P D.Y D.pem b getpw = .ok sk) ∧ fs.read fn = some content ∧
      unmarshalSig D.Y t = .ok ⟨D.P.edSign sk.sk (D.P.sha512 (messageInput (D.P.sha512 (fileInput content)))), sk.pub.hash⟩) := by
  subst ho
  by_cases hdash : sigTarget output fn = ascii "-"
  · have : (signCmd D fs env stdout output force getpw mapErr kn fn).sys = [] := by
      rw [signCmd_eq, if_pos hdash]
      split <;> rfl
    rw [this, List.prefix_nil] at hpre
    subst hpre
    exact .inl (OnDisk_image hd hi)
  · obtain ⟨t, ok, g1, g2, g3, _⟩ := signCmd_run D fs env stdout output force getpw mapErr kn fn hdash
    rcases g1.crash fs hf ht pre hpre dir data hi p hpt hd with g | ⟨gok, gp, g⟩
    · exact .inl g
    · obtain ⟨_, sk, content, h1, h3, h4⟩ := (sigText_ok _ _ _ _ _ _ _).mp (g2 (g3 gok))
      exact .inr ⟨gp, t, sk, content, g, h1, h3, by rw [h4]; exact C33_roundtrip D.Y _ hY _⟩

/-- **C58** (no overwriting).  Without `--overwrite` an existing signature file stays as it is and `sign` fails. -/
theorem C58_no_overwrite (D : Deps) (fs : FS) (env : SafeEnv) (stdout : Writer) (output : Path)
    (getpw : GetPw) (mapErr : Option Err) (kn fn : Path) (hd : sigTarget output fn ≠ ascii "-")
    (h : fs.exists (sigTarget output fn) = true) :
    signCmd D fs env stdout output false getpw mapErr kn fn = { exit := 1 } := by
  rw [signCmd_eq, if_neg hd, newSafeFile_exists fs env _ h]

end Sigtool
