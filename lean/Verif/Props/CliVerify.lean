import Verif.Spec.Cli
import Verif.Props.Sign
import Verif.Props.PublicKeys
/-! # The verify command: C48 -/

namespace Sigtool

theorem readFile_ok (fs : FS) (fn : Path) (b : Bytes) : readFile fs fn = .ok b ↔ fs.read fn = some b := by
  unfold readFile orErr
  cases fs.read fn <;> simp

theorem readFile_no_panic (fs : FS) (fn : Path) (w : String) : readFile fs fn ≠ .panic w := by
  unfold readFile orErr
  cases fs.read fn <;> simp

theorem readPublicKey_ok (D : Deps) (fs : FS) (fn : Path) (pk : PublicKey) :
    readPublicKey D fs fn = .ok pk ↔ ∃ b, fs.read fn = some b ∧ makePublicKey D.P D.Y b = .ok pk := by
  unfold readPublicKey
  rw [bind_ok_iff]
  simp only [readFile_ok]

theorem readPrivateKey_ok (D : Deps) (fs : FS) (fn : Path) (getpw : GetPw) (sk : PrivateKey) :
    readPrivateKey D fs fn getpw = .ok sk ↔ ∃ b, fs.read fn = some b ∧ makePrivateKey D.P D.Y D.pem b getpw = .ok sk := by
  unfold readPrivateKey
  rw [bind_ok_iff]
  simp only [readFile_ok]

theorem readSignature_ok (D : Deps) (fs : FS) (fn : Path) (s : Signature) :
    readSignature D fs fn = .ok s ↔ Spec.SigFile D fs fn s := by
  unfold readSignature Spec.SigFile
  rw [bind_ok_iff]
  simp only [readFile_ok]

theorem readSignature_no_panic (D : Deps) (fs : FS) (fn : Path) (w : String) : readSignature D fs fn ≠ .panic w := by
  unfold readSignature
  intro h
  rcases (bind_panic_iff _ _ _).mp h with h | ⟨b, _, h⟩
  · exact readFile_no_panic _ _ _ h
  · exact C33_no_crash _ _ _ h

theorem makePublicKeyFromString_no_panic (P : Prims) (s : Bytes) (w : String) : makePublicKeyFromString P s ≠ .panic w := by
  unfold makePublicKeyFromString
  split
  · simp
  · rename_i h; exact absurd h (parseEncPubKey_no_panic _ _ _ _)
  · intro h
    rcases (bind_panic_iff _ _ _).mp h with h | ⟨b, _, h⟩
    · unfold orErr at h; split at h <;> cases h
    · rcases (bind_panic_iff _ _ _).mp h with h | ⟨b, _, h⟩
      · unfold makePublicKeyFromBytes at h; split at h <;> cases h
      · cases h

theorem verifyKey_some (D : Deps) (fs : FS) (pn : Bytes) (pk : PublicKey) :
    verifyKey D fs pn = .ok (some pk) ↔ Spec.KeyArg D fs pn pk := by
  unfold verifyKey Spec.KeyArg
  match h : makePublicKeyFromString D.P pn with
  | .ok (some x) => simp
  | .ok none => simp
  | .panic w => exact absurd h (makePublicKeyFromString_no_panic _ _ _)
  | .err e =>
    dsimp only
    rw [bind_ok_iff]
    simp only [readPublicKey_ok]
    constructor
    · rintro ⟨a, h1, h2⟩; cases h2; exact .inr ⟨⟨e, rfl⟩, h1⟩
    · rintro (h | ⟨_, h⟩)
      · cases h
      · exact ⟨pk, h, rfl⟩

theorem verifyKey_none (D : Deps) (fs : FS) (pn : Bytes) :
    verifyKey D fs pn = .ok none ↔ makePublicKeyFromString D.P pn = .ok none := by
  unfold verifyKey
  match h : makePublicKeyFromString D.P pn with
  | .ok (some x) => simp
  | .ok none => simp
  | .panic w => exact absurd h (makePublicKeyFromString_no_panic _ _ _)
  | .err e =>
    dsimp only
    rw [bind_ok_iff]
    constructor
    · rintro ⟨a, _, h2⟩; cases h2
    · intro h; cases h

theorem KeyArg_len (D : Deps) (fs : FS) (pn : Bytes) (pk : PublicKey) (h : Spec.KeyArg D fs pn pk) : pk.pk.length = 32 := by
  rcases h with h | ⟨_, b, _, h⟩
  · exact (C37_public D.P D.Y pn pk (.inr h)).1
  · exact (C37_public D.P D.Y b pk (.inl h)).1

/-- Every outcome of the verify command with three arguments. -/
theorem verifyCmd_eq (D : Deps) (fs : FS) (mapErr : Option Err) (pn sn fn : Bytes) (more : List Bytes) :
    (∃ w, verifyKey D fs pn = .panic w) ∧ verifyCmd D fs mapErr (pn :: sn :: fn :: more) = 2 ∨
    (∃ e, verifyKey D fs pn = .err e) ∧ verifyCmd D fs mapErr (pn :: sn :: fn :: more) = 1 ∨
    (∃ k, verifyKey D fs pn = .ok k) ∧ (∃ e, readSignature D fs sn = .err e) ∧
      verifyCmd D fs mapErr (pn :: sn :: fn :: more) = 1 ∨
    verifyKey D fs pn = .ok none ∧ (∃ s, readSignature D fs sn = .ok s) ∧
      verifyCmd D fs mapErr (pn :: sn :: fn :: more) = 2 ∨
    ∃ pk s, verifyKey D fs pn = .ok (some pk) ∧ readSignature D fs sn = .ok s ∧
      ((pk.hash ≠ s.pkhash ∨ fs.read fn = none ∨ mapErr.isSome) ∧ verifyCmd D fs mapErr (pn :: sn :: fn :: more) = 1 ∨
       pk.hash = s.pkhash ∧ mapErr = none ∧ ∃ c, fs.read fn = some c ∧ ∃ ok, verifyFile D.P pk c s = .ok ok ∧
         verifyCmd D fs mapErr (pn :: sn :: fn :: more) = if ok then 0 else 1) := by
  unfold verifyCmd
  dsimp only
  match hk : verifyKey D fs pn with
  | .panic w => exact .inl ⟨⟨w, rfl⟩, rfl⟩
  | .err e => exact .inr (.inl ⟨⟨e, rfl⟩, rfl⟩)
  | .ok k =>
    dsimp only [Res.bind_ok]
    match hs : readSignature D fs sn with
    | .panic w => exact absurd hs (readSignature_no_panic _ _ _ _)
    | .err e => exact .inr (.inr (.inl ⟨⟨k, rfl⟩, ⟨e, rfl⟩, rfl⟩))
    | .ok s =>
      dsimp only [Res.bind_ok]
      match k with
      | none => exact .inr (.inr (.inr (.inl ⟨rfl, ⟨s, rfl⟩, rfl⟩)))
      | some pk =>
        refine .inr (.inr (.inr (.inr ⟨pk, s, rfl, rfl, ?_⟩)))
        dsimp only
        by_cases hm : pk.hash = s.pkhash
        · rw [(C32_match_iff pk s).mpr hm]
          simp only [Bool.not_true, Bool.false_eq_true, if_false]
          unfold readFile orErr
          match hr : fs.read fn with
          | none => exact .inl ⟨.inr (.inl rfl), rfl⟩
          | some c =>
            dsimp only [Res.bind_ok]
            match mapErr with
            | some e => exact .inl ⟨.inr (.inr rfl), rfl⟩
            | none =>
              refine .inr ⟨hm, rfl, c, rfl, ?_⟩
              have hl := KeyArg_len D fs pn pk ((verifyKey_some D fs pn pk).mp hk)
              obtain ⟨ok, hok⟩ := (C30_verify_iff D.P pk hl (fileCksum D.P c) s).2
              refine ⟨ok, hok, ?_⟩
              unfold verifyFile
              rw [hok]
              cases ok <;> rfl
        · have : isPKMatch pk s = false := by
            rw [← Bool.not_eq_true, C32_match_iff]; exact hm
          rw [this]
          exact .inl ⟨.inl hm, rfl⟩

/-- **C48** (exit status 0).  `verify` exits with 0 exactly if there are three arguments, the first denotes a public key, the
second names a signature file whose key hash is that of the key, the third can be read, and the signature is a valid Ed25519
signature on its content. -/
theorem C48_exit_zero_iff (D : Deps) (fs : FS) (mapErr : Option Err) (args : List Bytes) :
    verifyCmd D fs mapErr args = 0 ↔
      ∃ pn sn fn more, args = pn :: sn :: fn :: more ∧ mapErr = none ∧ ∃ pk sig content,
        Spec.KeyArg D fs pn pk ∧ Spec.SigFile D fs sn sig ∧ pk.hash = sig.pkhash ∧ fs.read fn = some content ∧
        Spec.ValidFileSig D.P pk.pk content sig.sig := by
  have valid : ∀ pk c s, pk.pk.length = 32 → (verifyFile D.P pk c s = .ok true ↔ Spec.ValidFileSig D.P pk.pk c s.sig) := by
    intro pk c s hl
    rw [(C31_is_message_signature D.P ⟨[], ⟨[], [], []⟩⟩ pk c s).2, (C30_verify_iff D.P pk hl _ s).1]
    rfl
  constructor
  · intro h
    match args with
    | [] => cases h
    | [_] => cases h
    | [_, _] => cases h
    | pn :: sn :: fn :: more =>
      refine ⟨pn, sn, fn, more, rfl, ?_⟩
      rcases verifyCmd_eq D fs mapErr pn sn fn more with ⟨_, h1⟩ | ⟨_, h1⟩ | ⟨_, _, h1⟩ | ⟨_, _, h1⟩ |
        ⟨pk, s, hk, hs, ⟨_, h1⟩ | ⟨h2, h3, c, h4, ok, h5, h1⟩⟩
      · rw [h1] at h; cases h
      · rw [h1] at h; cases h
      · rw [h1] at h; cases h
      · rw [h1] at h; cases h
      · rw [h1] at h; cases h
      · cases ok with
        | false => rw [h1] at h; cases h
        | true =>
          have hka := (verifyKey_some D fs pn pk).mp hk
          exact ⟨h3, pk, s, c, hka, (readSignature_ok D fs sn s).mp hs, h2, h4,
            (valid pk c s (KeyArg_len D fs pn pk hka)).mp h5⟩
  · rintro ⟨pn, sn, fn, more, rfl, hm, pk, sig, c, h1, h2, h3, h4, h5⟩
    have hk := (verifyKey_some D fs pn pk).mpr h1
    have hs := (readSignature_ok D fs sn sig).mpr h2
    rcases verifyCmd_eq D fs mapErr pn sn fn more with ⟨⟨w, g⟩, _⟩ | ⟨⟨w, g⟩, _⟩ | ⟨_, ⟨w, g⟩, _⟩ | ⟨g, _, _⟩ |
        ⟨pk', s', hk', hs', ⟨g, _⟩ | ⟨g2, g3, c', g4, ok, g5, g1⟩⟩
    · rw [hk] at g; cases g
    · rw [hk] at g; cases g
    · rw [hs] at g; cases g
    · rw [hk] at g; cases g
    · rw [hk] at hk'; rw [hs] at hs'
      cases hk'; cases hs'
      rcases g with g | g | g
      · exact absurd h3 g
      · rw [h4] at g; cases g
      · rw [hm] at g; cases g
    · rw [hk] at hk'; rw [hs] at hs'; rw [h4] at g4
      cases hk'; cases hs'; cases g4
      rw [(valid pk c sig (KeyArg_len D fs pn pk h1)).mpr h5] at g5
      cases g5
      exact g1

/-- **C48** (exit status).  The exit status is 0, 1 or 2, and it is 2 exactly if the program crashes: the key argument is a
base64 text that is taken for an SSH key of another type (nil key) and the signature can be read, or it is not a key text and
names a file on which the public key parser crashes (C40). -/
theorem C48_crash_iff (D : Deps) (fs : FS) (mapErr : Option Err) (args : List Bytes) :
    verifyCmd D fs mapErr args ≤ 2 ∧
    (verifyCmd D fs mapErr args = 2 ↔ ∃ pn sn fn more, args = pn :: sn :: fn :: more ∧
      ((makePublicKeyFromString D.P pn = .ok none ∧ ∃ s, Spec.SigFile D fs sn s) ∨
       ((∃ e, makePublicKeyFromString D.P pn = .err e) ∧ ∃ b w, fs.read pn = some b ∧ makePublicKey D.P D.Y b = .panic w))) := by
  match args with
  | [] => exact ⟨by simp [verifyCmd], by simp [verifyCmd]⟩
  | [_] => exact ⟨by simp [verifyCmd], by simp [verifyCmd]⟩
  | [_, _] => exact ⟨by simp [verifyCmd], by simp [verifyCmd]⟩
  | pn :: sn :: fn :: more =>
    have hp : (∃ w, verifyKey D fs pn = .panic w) ↔
        ((∃ e, makePublicKeyFromString D.P pn = .err e) ∧ ∃ b w, fs.read pn = some b ∧ makePublicKey D.P D.Y b = .panic w) := by
      unfold verifyKey
      match h : makePublicKeyFromString D.P pn with
      | .ok o => simp
      | .panic w => exact absurd h (makePublicKeyFromString_no_panic _ _ _)
      | .err e =>
        dsimp only
        constructor
        · rintro ⟨w, h⟩
          rcases (bind_panic_iff _ _ _).mp h with h | ⟨b, _, h⟩
          · unfold readPublicKey at h
            rcases (bind_panic_iff _ _ _).mp h with h | ⟨b, h1, h⟩
            · exact absurd h (readFile_no_panic _ _ _)
            · exact ⟨⟨e, rfl⟩, b, w, (readFile_ok _ _ _).mp h1, h⟩
          · cases h
        · rintro ⟨_, b, w, h1, h2⟩
          refine ⟨w, (bind_panic_iff _ _ _).mpr (.inl ?_)⟩
          unfold readPublicKey
          exact (bind_panic_iff _ _ _).mpr (.inr ⟨b, (readFile_ok _ _ _).mpr h1, h2⟩)
    have args_inj : ∀ Q : Bytes → Bytes → Prop, (∃ pn' sn' fn' more', pn :: sn :: fn :: more = pn' :: sn' :: fn' :: more' ∧ Q pn' sn') ↔
        Q pn sn := by
      intro Q
      constructor
      · rintro ⟨a, b, c, d, h, hq⟩; cases h; exact hq
      · intro h; exact ⟨pn, sn, fn, more, rfl, h⟩
    rw [args_inj (fun pn sn => (makePublicKeyFromString D.P pn = .ok none ∧ ∃ s, Spec.SigFile D fs sn s) ∨
       ((∃ e, makePublicKeyFromString D.P pn = .err e) ∧ ∃ b w, fs.read pn = some b ∧ makePublicKey D.P D.Y b = .panic w)),
      ← hp, ← verifyKey_none D fs pn]
    simp only [← readSignature_ok]
    rcases verifyCmd_eq D fs mapErr pn sn fn more with ⟨g, h1⟩ | ⟨⟨e, g⟩, h1⟩ | ⟨⟨k, g⟩, ⟨e, g2⟩, h1⟩ | ⟨g, g2, h1⟩ |
        ⟨pk, s, hk, hs, ⟨_, h1⟩ | ⟨_, _, c, _, ok, _, h1⟩⟩
    · exact ⟨by omega, by simp [h1, g]⟩
    · exact ⟨by omega, by simp [h1, g]⟩
    · exact ⟨by omega, by simp [h1, g, g2]⟩
    · exact ⟨by omega, by simp [h1, g, g2]⟩
    · exact ⟨by omega, by simp [h1, hk]⟩
    · exact ⟨by rw [h1]; split <;> omega, by rw [h1]; cases ok <;> simp [hk]⟩

/-- **C48** (failure, partial).  If the key argument denotes a key, or nothing at all, the exit status is 0 or 1.  The full
statement, exit status 1 whenever it is not 0, fails by `C48_crash_refuted`. -/
theorem C48_failure_partial (D : Deps) (fs : FS) (mapErr : Option Err) (pn sn fn : Bytes) (more : List Bytes)
    (h : (∃ pk, Spec.KeyArg D fs pn pk) ∨ ((∃ e, makePublicKeyFromString D.P pn = .err e) ∧ fs.read pn = none)) :
    verifyCmd D fs mapErr (pn :: sn :: fn :: more) ≤ 1 := by
  obtain ⟨h1, h2⟩ := C48_crash_iff D fs mapErr (pn :: sn :: fn :: more)
  rcases Nat.lt_or_ge 1 (verifyCmd D fs mapErr (pn :: sn :: fn :: more)) with hgt | hle
  · obtain ⟨pn', sn', fn', more', heq, hc⟩ := h2.mp (by omega)
    cases heq
    exfalso
    rcases h with ⟨pk, hk | ⟨⟨e, hk⟩, b, hb, hk2⟩⟩ | ⟨⟨e, hk⟩, hb⟩
    · rcases hc with ⟨hc, _⟩ | ⟨⟨e, hc⟩, _⟩ <;> rw [hk] at hc <;> cases hc
    · rcases hc with ⟨hc, _⟩ | ⟨_, b', w, hb', hc⟩
      · rw [hk] at hc; cases hc
      · rw [hb] at hb'; cases hb'; rw [hk2] at hc; cases hc
    · rcases hc with ⟨hc, _⟩ | ⟨_, b', w, hb', hc⟩
      · rw [hk] at hc; cases hc
      · rw [hb] at hb'; cases hb'
  · omega

/-- **C48** (crash).  The base64 text of 32 zero bytes as the key makes `verify` crash with exit status 2 on every readable
signature and every file. -/
theorem C48_crash_refuted (D : Deps) (fs : FS) (mapErr : Option Err) (sn fn : Bytes) (s : Signature)
    (hs : Spec.SigFile D fs sn s) : verifyCmd D fs mapErr [Base64.encode (List.replicate 32 0), sn, fn] = 2 := by
  refine (C48_crash_iff D fs mapErr _).2.mpr ⟨_, sn, fn, [], rfl, .inl ⟨?_, s, hs⟩⟩
  exact (C39_from_string_exact D.P _ (by simp)).mpr ⟨by decide, by decide +kernel⟩

end Sigtool
