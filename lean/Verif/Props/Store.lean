import Verif.Spec.Store
import Verif.Props.Perm
import Verif.Props.PublicKeys
import Verif.Props.Sign
/-! # A directory of keys and signatures: C117 -/

namespace Sigtool
open Spec

/-- What a call of `Serialize` would write. -/
def SaveCall.text (D : Deps) (c : SaveCall) : Res Bytes :=
  match c.what with
  | .pub pk => .ok (pk.marshal D.Y c.comment)
  | .priv sk pw => sk.marshal D.P D.Y c.comment pw c.salt
  | .sig s => .ok (s.marshal D.Y c.comment)

theorem SaveCall.run_eq (D : Deps) (fs : FS) (c : SaveCall) :
    c.run D fs = match c.text D with
      | .ok b => writeFile fs c.env (wantedMode c.what) c.name b c.ovwrite
      | .err e => (.err e, [])
      | .panic w => (.panic w, []) := by
  obtain ⟨what, name, comment, ov, salt, env⟩ := c
  cases what with
  | pub pk => rfl
  | priv sk pw =>
    simp only [SaveCall.run, SaveCall.text, PrivateKey.serialize, wantedMode]
    cases sk.marshal D.P D.Y comment pw salt <;> rfl
  | sig s => rfl

theorem modeOf_same {fs s : FS} {p : Path} (hd : s.dir p = fs.dir p) (hm : ∀ i, fs.dir p = some (.file i) → s.mode i = fs.mode i) :
    modeOf s p = modeOf fs p := by
  unfold modeOf
  rw [hd]
  split
  · rename_i i h; rw [hm i h]
  · rfl

/-- What one call does to a name that is not its temporary file's. -/
theorem SaveCall.step (D : Deps) (s : FS) (c : SaveCall) (hf : Fresh s c.env.tmp c.env.inode) (ht : c.name ≠ c.env.tmp)
    (p : Path) (hp : p ≠ c.env.tmp) :
    (((c.run D s).1 = .ok () ∧ p = c.name) →
      ∃ b, c.text D = .ok b ∧ (s.run (c.run D s).2).read p = some b ∧ modeOf (s.run (c.run D s).2) p = some (wantedMode c.what)) ∧
    (¬ ((c.run D s).1 = .ok () ∧ p = c.name) →
      (s.run (c.run D s).2).read p = s.read p ∧ (s.run (c.run D s).2).dir p = s.dir p ∧
        modeOf (s.run (c.run D s).2) p = modeOf s p) := by
  rw [SaveCall.run_eq]
  match htx : c.text D with
  | .err e => exact ⟨fun h => (by cases h.1), fun _ => ⟨rfl, rfl, rfl⟩⟩
  | .panic w => exact ⟨fun h => (by cases h.1), fun _ => ⟨rfl, rfl, rfl⟩⟩
  | .ok b =>
    dsimp only
    have hmode : ∀ q i, s.dir q = some (.file i) →
        (s.run (writeFile s c.env (wantedMode c.what) c.name b c.ovwrite).2).mode i = s.mode i := by
      intro q i hi
      have hne : i ≠ c.env.inode := fun e => hf.inode s.dir (by simp) q (by rw [hi, e])
      exact (((writeFile_oneFile s c.env (wantedMode c.what) c.name b c.ovwrite).run s).1 i hne).1
    obtain ⟨ok, hr, h1, h2⟩ := writeFile_run (perm := wantedMode c.what) s c.env c.name b c.ovwrite
    cases ok with
    | true =>
      have hok := h1.mp rfl
      obtain ⟨a1, a2, a3⟩ := hr.success s hf ht
      refine ⟨fun h => ⟨b, rfl, by rw [h.2]; exact a1, ?_⟩, fun h => ?_⟩
      · rw [h.2, writeFile_calls _ _ _ _ _ _ hok]
        have hd := (done_state (perm := wantedMode c.what) s c.env c.name b ht hf).1
        unfold modeOf
        rw [hd]
        dsimp only
        have e := writeFile_oneFile s c.env (wantedMode c.what) c.name b c.ovwrite
        rw [writeFile_calls _ _ _ _ _ _ hok] at e
        congr 1
        have : s.run (preCalls c.env.tmp c.env.inode (wantedMode c.what) b ++ [.sync c.env.inode] ++ [.rename c.env.tmp c.name]) =
          (s.step (.create c.env.tmp c.env.inode (wantedMode c.what))).run
            (writeCalls c.env.inode b ++ [.sync c.env.inode] ++ [.rename c.env.tmp c.name]) := rfl
        rw [this]
        have hon : ∀ x ∈ writeCalls c.env.inode b ++ [.sync c.env.inode] ++ [.rename c.env.tmp c.name], x.On c.env.inode := by
          intro x hx
          simp only [List.mem_append, List.mem_singleton] at hx
          rcases hx with (hx | rfl) | rfl
          · exact writeCalls_on _ _ x hx
          · trivial
          · trivial
        rw [(run_on c.env.inode _ _ hon).1]
        exact setAt_eq _ _ _
      · have hpn : p ≠ c.name := fun e => h ⟨hok, e⟩
        obtain ⟨b1, b2⟩ := a3 p hpn hp
        exact ⟨b1, b2, modeOf_same b2 (hmode p)⟩
    | false =>
      obtain ⟨e, he⟩ := h2.mp rfl
      refine ⟨fun h => (by rw [he] at h; cases h.1), fun _ => ?_⟩
      obtain ⟨b1, b2⟩ := (hr.failure s hf).1 p hp
      exact ⟨b1, b2, modeOf_same b2 (hmode p)⟩

/-- What is known about a name is so. -/
def KnownHolds (D : Deps) (fs s : FS) (p : Path) : Known → Prop
  | .untouched => s.read p = fs.read p ∧ s.dir p = fs.dir p ∧ modeOf s p = modeOf fs p
  | .holds c => ∃ b, c.text D = .ok b ∧ s.read p = some b ∧ modeOf s p = some (wantedMode c.what)
  | .raw b => s.read p = b

theorem KnownHolds.keep {D : Deps} {fs s s' : FS} {p : Path} {k : Known} (h : KnownHolds D fs s p k) (h1 : s'.read p = s.read p)
    (h2 : s'.dir p = s.dir p) (h3 : modeOf s' p = modeOf s p) : KnownHolds D fs s' p k := by
  cases k with
  | untouched => exact ⟨h1.trans h.1, h2.trans h.2.1, h3.trans h.2.2⟩
  | holds c => obtain ⟨b, a1, a2, a3⟩ := h; exact ⟨b, a1, h1.trans a2, h3.trans a3⟩
  | raw b => exact h1.trans h

theorem known_append (h : List StoreEvent) (e : StoreEvent) (p : Path) : known (h ++ [e]) p = (known h p).next p e := by
  simp [known]

theorem Spec.StoreHistory.known {D : Deps} {fs s : FS} {h : List StoreEvent} (H : StoreHistory D fs h s) (p : Path)
    (hp : NotTemp p h) : KnownHolds D fs s p (Spec.known h p) := by
  induction H with
  | start => exact ⟨rfl, rfl, rfl⟩
  | @save h s c past fresh name ih =>
    have ih := ih (fun c' r hm => hp c' r (by simp [hm]))
    have hpc : p ≠ c.env.tmp := fun e => hp c (c.run D s).1 (by simp) e.symm
    obtain ⟨s1, s2⟩ := SaveCall.step D s c fresh name p hpc
    rw [known_append]
    by_cases hc : (c.run D s).1 = .ok () ∧ p = c.name
    · have : (Spec.known h p).next p (.saved c (c.run D s).1) = .holds c := by
        rw [hc.1]; simp [Known.next, hc.2]
      rw [this]
      exact s1 hc
    · obtain ⟨b1, b2, b3⟩ := s2 hc
      have : (Spec.known h p).next p (.saved c (c.run D s).1) = Spec.known h p := by
        match hr : (c.run D s).1 with
        | .ok () =>
          have : c.name ≠ p := fun e => hc ⟨hr, e.symm⟩
          simp [Known.next, this]
        | .err e => rfl
        | .panic w => rfl
      rw [this]
      exact ih.keep b1 b2 b3
  | @change h s s' q b past now ih =>
    have ih := ih (fun c' r hm => hp c' r (by simp [hm]))
    rw [known_append]
    by_cases hq : q = p
    · subst hq
      have : (Spec.known h q).next q (.changed q b) = .raw b := by simp [Known.next]
      rw [this]
      exact now.here
    · have : (Spec.known h p).next p (.changed q b) = Spec.known h p := by simp [Known.next, hq]
      rw [this]
      have hne : p ≠ q := fun e => hq e.symm
      have hd := now.dir p hne
      refine ih.keep ?_ hd (modeOf_same hd (fun i hi => (now.data p i hne hi).2))
      unfold FS.read readIn
      rw [hd]
      match hm : s.dir p with
      | none => rfl
      | some .other => rfl
      | some (.file i) => dsimp only; rw [(now.data p i hne hm).1]

/-- A file that holds the text a proper call writes is read as what the call saved. -/
theorem loads_of_text (D : Deps) (L : Laws D.P) (YL : D.Y.Laws) (s : FS) (p : Path) (c : SaveCall) (hc : Proper D c) (b : Bytes)
    (hb : c.text D = .ok b) (hr : s.read p = some b) : Loads D s p c := by
  obtain ⟨what, name, comment, ov, salt, env⟩ := c
  obtain ⟨hY, hc⟩ := hc
  cases what with
  | pub pk =>
    obtain ⟨x, k, hk⟩ := hc
    obtain ⟨pk', h1, h2, h3⟩ := C38_roundtrip D.P L D.Y YL comment x hY k pk hk
    simp only [SaveCall.text, Res.ok.injEq] at hb
    refine ⟨pk', ?_, h2, h3⟩
    unfold readPublicKey readFile
    rw [hr, ← hb]
    exact h1
  | priv sk pw =>
    obtain ⟨hk, hm, hs⟩ := hc
    simp only [SaveCall.text] at hb
    have rd : ∀ g, readPrivateKey D s p g = makePrivateKey D.P D.Y D.pem b g := by
      intro g
      unfold readPrivateKey readFile
      rw [hr]
      rfl
    refine ⟨?_, ?_⟩
    · obtain ⟨t, sk', h1, h2, h3, h4, h5⟩ := C35_roundtrip_partial D.P L D.Y YL D.pem comment hY hm sk hk pw salt hs
        (some (.ok pw)) (.inl rfl)
      rw [hb] at h1
      injection h1 with h1
      subst h1
      exact ⟨sk', (rd _).trans h2, h3, h4, h5⟩
    · intro pw' sk' hne ho
      rw [rd] at ho
      obtain ⟨key, key', h1, h2, h3⟩ := C36_wrong_passphrase D.P L D.Y YL D.pem comment hY hm sk hk pw salt b hs hb pw' hne sk' ho
      refine ⟨key, key', h1, h2, ?_⟩
      rcases h3 with h | h | h
      · exact .inl h.1
      · exact .inr (.inl ⟨h.1, h.2.1⟩)
      · exact .inr (.inr ⟨h.1, by rw [h.2]; rfl⟩)
  | sig sg =>
    simp only [SaveCall.text, Res.ok.injEq] at hb
    show readSignature D s p = .ok sg
    unfold readSignature readFile
    rw [hr, ← hb]
    exact C33_roundtrip D.Y comment hY sg

/-- **C117** (what is found).  After any history of saves, failed saves and changes by other programs, if the last thing that
happened to a name was a save that returned nil, then the readers of the package return what that call saved: the same public
key; the same private key with the pass phrase, and with another one only if a primitive is broken; the same signature.  And
the file has the permissions for its kind, 0600 for a private key. -/
theorem C117_last_save (D : Deps) (L : Laws D.P) (YL : D.Y.Laws) (fs s : FS) (h : List StoreEvent) (H : StoreHistory D fs h s)
    (p : Path) (hp : NotTemp p h) (c : SaveCall) (hk : known h p = .holds c) (hc : Proper D c) :
    Loads D s p c ∧ modeOf s p = some (wantedMode c.what) := by
  have := H.known p hp
  rw [hk] at this
  obtain ⟨b, h1, h2, h3⟩ := this
  exact ⟨loads_of_text D L YL s p c hc b h1 h2, h3⟩

/-- **C117** (nothing else).  Saves that fail and saves of other names have no effect on a name: if no save of it has returned nil
and no other program has changed it, it is as it was in the beginning, with its permissions; and if another program was the
last to change it, it is as that program left it. -/
theorem C117_untouched (D : Deps) (fs s : FS) (h : List StoreEvent) (H : StoreHistory D fs h s) (p : Path) (hp : NotTemp p h) :
    (known h p = .untouched → s.read p = fs.read p ∧ s.dir p = fs.dir p ∧ modeOf s p = modeOf fs p) ∧
    ∀ b, known h p = .raw b → s.read p = b := by
  have := H.known p hp
  exact ⟨fun hk => by rw [hk] at this; exact this, fun b hk => by rw [hk] at this; exact this⟩

/-- **C117** (no overwriting).  Without the overwrite flag, saving under a name that holds a saved key or signature returns an
error and makes no file system call. -/
theorem C117_refuses (D : Deps) (fs s : FS) (h : List StoreEvent) (H : StoreHistory D fs h s)
    (p : Path) (hp : NotTemp p h) (c : SaveCall) (hk : known h p = .holds c)
    (c' : SaveCall) (hn : c'.name = p) (ho : c'.ovwrite = false) :
    (∀ u, (c'.run D s).1 ≠ .ok u) ∧ (c'.run D s).2 = [] := by
  have := H.known p hp
  rw [hk] at this
  obtain ⟨b, h1, h2, h3⟩ := this
  have hx : s.exists c'.name = true := by
    rw [hn]
    unfold FS.read readIn at h2
    unfold FS.exists
    match hm : s.dir p with
    | none => rw [hm] at h2; cases h2
    | some _ => rfl
  rw [SaveCall.run_eq]
  match htx : c'.text D with
  | .err e => exact ⟨fun u hu => (by cases hu), rfl⟩
  | .panic w => exact ⟨fun u hu => (by cases hu), rfl⟩
  | .ok b' =>
    dsimp only
    rw [ho]
    obtain ⟨⟨e, he⟩, h4⟩ := C47_no_overwrite (perm := wantedMode c'.what) s c'.env c'.name b' hx
    exact ⟨fun u hu => (by rw [he] at hu; cases hu), h4⟩

/-- **C117** (saves do not fail by themselves).  A save of a proper object under a name that is unused, or that is a file and the
overwrite flag is given, returns nil if no operating system call fails. -/
theorem C117_saves (D : Deps) (L : Laws D.P) (s : FS) (c : SaveCall)
    (hx : s.exists c.name = false ∨ (c.ovwrite = true ∧ ∃ i, s.dir c.name = some (.file i)))
    (h1 : c.env.openErr = none) (h2 : ∀ k e, WEv.fail k e ∉ c.env.writes) (h3 : c.env.syncErr = none) (h4 : c.env.closeErr = none)
    (h5 : c.env.renameErr = none) : (c.run D s).1 = .ok () := by
  have ht : ∃ b, c.text D = .ok b := by
    obtain ⟨what, name, comment, ov, salt, env⟩ := c
    cases what with
    | pub pk => exact ⟨_, rfl⟩
    | priv sk pw =>
      obtain ⟨k, hk⟩ := L.scrypt_ok (D.P.sha512 pw) salt
      simp only [SaveCall.text, PrivateKey.marshal]
      rw [hk]
      exact ⟨_, rfl⟩
    | sig sg => exact ⟨_, rfl⟩
  obtain ⟨b, hb⟩ := ht
  rw [SaveCall.run_eq, hb]
  exact C47_succeeds s c.env c.name b c.ovwrite hx h1 h2 h3 h4 h5

/-- At every crash point in a history of saves, a name holds what it may have held after a crash in the beginning, or the full
text of a call that saved under this name. -/
theorem Spec.StoreHistory.image {D : Deps} {fs s : FS} {h : List StoreEvent} (H : StoreHistory D fs h s)
    (ho : ∀ q b, StoreEvent.changed q b ∉ h) (p : Path) (hp : NotTemp p h)
    (dir : Dir) (data : Nat → Bytes) (hi : CrashImage s dir data) :
    (∃ dir0 data0, CrashImage fs dir0 data0 ∧ readIn dir data p = readIn dir0 data0 p) ∨
    ∃ c r b, StoreEvent.saved c r ∈ h ∧ c.name = p ∧ c.text D = .ok b ∧ readIn dir data p = some b := by
  induction H generalizing dir data with
  | start => exact .inl ⟨dir, data, hi, rfl⟩
  | @change h s s' q b past now ih => exact absurd (by simp) (ho q b)
  | @save h s c past fresh name ih =>
    have hpc : p ≠ c.env.tmp := fun e => hp c (c.run D s).1 (by simp) e.symm
    have back : (∃ dir0 data0, CrashImage s dir0 data0 ∧ readIn dir data p = readIn dir0 data0 p) →
        (∃ dir0 data0, CrashImage fs dir0 data0 ∧ readIn dir data p = readIn dir0 data0 p) ∨
        ∃ c' r b, StoreEvent.saved c' r ∈ h ++ [.saved c (c.run D s).1] ∧ c'.name = p ∧ c'.text D = .ok b ∧
          readIn dir data p = some b := by
      rintro ⟨d1, t1, hi1, e1⟩
      rcases ih (fun q b hm => ho q b (by simp [hm])) (fun c' r hm => hp c' r (by simp [hm])) d1 t1 hi1 with
        ⟨d0, t0, a, b⟩ | ⟨c', r, b, a1, a2, a3, a4⟩
      · exact .inl ⟨d0, t0, a, e1.trans b⟩
      · exact .inr ⟨c', r, b, by simp [a1], a2, a3, e1.trans a4⟩
    rw [SaveCall.run_eq] at hi
    match htx : c.text D with
    | .err e => rw [htx] at hi; exact back ⟨dir, data, hi, rfl⟩
    | .panic w => rw [htx] at hi; exact back ⟨dir, data, hi, rfl⟩
    | .ok b =>
      rw [htx] at hi
      dsimp only at hi
      rcases C47_atomic_relative s c.env c.name b c.ovwrite fresh name _ (List.prefix_refl _) dir data hi p hpc with h1 | ⟨h1, h2⟩
      · exact back h1
      · exact .inr ⟨c, (c.run D s).1, b, by simp, h1.symm, htx, h2⟩

/-- **C117** (crash).  Whenever the machine or the program stops, after any history of saves and at any point of one more save,
under every name that is not a temporary file's there is what may have been there after a crash in the beginning, or something
that one of the calls saved under that name, complete: the readers return it.  A key file is never torn. -/
theorem C117_crash (D : Deps) (L : Laws D.P) (YL : D.Y.Laws) (fs s : FS) (h : List StoreEvent) (H : StoreHistory D fs h s)
    (ho : ∀ q b, StoreEvent.changed q b ∉ h) (hproper : ∀ c r, StoreEvent.saved c r ∈ h → Proper D c)
    (c : SaveCall) (hc : Proper D c) (hf : Fresh s c.env.tmp c.env.inode) (hn : c.name ≠ c.env.tmp)
    (pre : List Sys) (hpre : pre <+: (c.run D s).2) (dir : Dir) (data : Nat → Bytes) (hi : CrashImage (s.run pre) dir data)
    (p : Path) (hp : NotTemp p h) (hpc : c.env.tmp ≠ p) :
    (∃ dir0 data0, CrashImage fs dir0 data0 ∧ readIn dir data p = readIn dir0 data0 p) ∨
    ∃ c', (c' = c ∨ ∃ r, StoreEvent.saved c' r ∈ h) ∧ c'.name = p ∧ Loads D { s with dir := dir, data := data } p c' := by
  have old : (∃ dir0 data0, CrashImage s dir0 data0 ∧ readIn dir data p = readIn dir0 data0 p) →
      (∃ dir0 data0, CrashImage fs dir0 data0 ∧ readIn dir data p = readIn dir0 data0 p) ∨
      ∃ c', (c' = c ∨ ∃ r, StoreEvent.saved c' r ∈ h) ∧ c'.name = p ∧ Loads D { s with dir := dir, data := data } p c' := by
    rintro ⟨d1, t1, hi1, e1⟩
    rcases H.image ho p hp d1 t1 hi1 with ⟨d0, t0, a, b⟩ | ⟨c', r, b, a1, a2, a3, a4⟩
    · exact .inl ⟨d0, t0, a, e1.trans b⟩
    · exact .inr ⟨c', .inr ⟨r, a1⟩, a2, loads_of_text D L YL _ p c' (hproper c' r a1) b a3 (e1.trans a4)⟩
  rw [SaveCall.run_eq] at hpre
  match htx : c.text D with
  | .err e =>
    rw [htx] at hpre
    rw [List.prefix_nil.mp hpre] at hi
    exact old ⟨dir, data, hi, rfl⟩
  | .panic w =>
    rw [htx] at hpre
    rw [List.prefix_nil.mp hpre] at hi
    exact old ⟨dir, data, hi, rfl⟩
  | .ok b =>
    rw [htx] at hpre
    rcases C47_atomic_relative s c.env c.name b c.ovwrite hf hn pre hpre dir data hi p (fun e => hpc e.symm) with h1 | ⟨h1, h2⟩
    · exact old h1
    · exact .inr ⟨c, .inl rfl, h1.symm, loads_of_text D L YL _ p c hc b htx h2⟩

/-- **C117** (signing through files).  Suppose the last save under the name `kp` was the public key of a valid private key, the last
save under `sp` the signature that `SignFile` returned for a file with the content `c`, and the owner of the key has signed
nothing but files with the contents `cs`.  Then a program that loads both finds that the signature matches the key, and
`VerifyFile` returns true for a file that holds `c` and an answer for every other readable file, true only if its content is
one of `cs` too or there is a SHA-512 collision or an Ed25519 forgery. -/
theorem C117_sign_flow (D : Deps) (L : Laws D.P) (YL : D.Y.Laws) (fs s : FS) (h : List StoreEvent) (H : StoreHistory D fs h s)
    (sk : PrivateKey) (hk : sk.Genuine D.P) (f0 : FS) (file0 : Path) (sg : Signature)
    (hsign : signNamed D f0 none sk file0 = .ok sg)
    (kp sp : Path) (hkt : NotTemp kp h) (hst : NotTemp sp h) (ck cs : SaveCall)
    (hkk : known h kp = .holds ck) (hck : ck.what = .pub sk.pub) (hpk : Proper D ck)
    (hks : known h sp = .holds cs) (hcs : cs.what = .sig sg) (hps : Proper D cs) (contents : List Bytes) :
    ∃ pk', readPublicKey D s kp = .ok pk' ∧ readSignature D s sp = .ok sg ∧ isPKMatch pk' sg = true ∧
      (∀ file, s.read file = f0.read file0 → verifyNamed D s none pk' file sg = .ok true) ∧
      (∀ file c', s.read file = some c' → ∃ a, verifyNamed D s none pk' file sg = .ok a) ∧
      (∀ file c', s.read file = some c' → c' ∉ contents → verifyNamed D s none pk' file sg = .ok true →
        (∃ c ∈ contents, Collides D.P (fileInput c) (fileInput c')) ∨
        (∃ c ∈ contents, Collides D.P (messageInput (D.P.sha512 (fileInput c))) (messageInput (D.P.sha512 (fileInput c')))) ∨
        Forged D.P sk.pub.pk (contents.map fun c => D.P.sha512 (messageInput (D.P.sha512 (fileInput c))))
          (D.P.sha512 (messageInput (D.P.sha512 (fileInput c')))) sg.sig) := by
  obtain ⟨l1, _⟩ := C117_last_save D L YL fs s h H kp hkt ck hkk hpk
  obtain ⟨l2, _⟩ := C117_last_save D L YL fs s h H sp hst cs hks hps
  unfold Loads at l1 l2
  rw [hck] at l1
  rw [hcs] at l2
  dsimp only at l1 l2
  obtain ⟨pk', r1, r2, r3⟩ := l1
  have hver : ∀ c, verifyFile D.P pk' c sg = verifyFile D.P sk.pub c sg := by
    intro c
    unfold verifyFile verifyMessage
    rw [r2]
  have hlen : pk'.pk.length = 32 := by
    obtain ⟨seed, h1, h2, h3, h4⟩ := hk
    rw [r2, h3, L.ed_pub_len _ h1]
  unfold signNamed readFile at hsign
  match hf0 : f0.read file0 with
  | none => rw [hf0] at hsign; cases hsign
  | some c =>
    rw [hf0] at hsign
    simp only [orErr, Res.bind_ok] at hsign
    obtain ⟨sg', g1, g2, g3, g4⟩ := C31_file_roundtrip D.P L sk hk c
    rw [hsign] at g1
    injection g1 with g1
    subst g1
    refine ⟨pk', r1, l2, ?_, ?_, ?_, ?_⟩
    · rw [(C32_match_iff pk' sg)]
      rw [r3]
      exact (C32_match_iff _ _).mp g4
    · intro file hfile
      unfold verifyNamed readFile
      rw [hfile]
      show verifyFile D.P pk' c sg = _
      rw [hver, g3]
    · intro file c' hfile
      unfold verifyNamed readFile
      rw [hfile]
      show ∃ a, verifyFile D.P pk' c' sg = .ok a
      exact (C30_verify_iff D.P pk' hlen _ sg).2
    · intro file c' hfile hmem hv
      unfold verifyNamed readFile at hv
      rw [hfile] at hv
      have hv : verifyFile D.P pk' c' sg = .ok true := hv
      rw [hver] at hv
      exact C31_binding D.P sk.pub contents c' sg hmem hv

end Sigtool
