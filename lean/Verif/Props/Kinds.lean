import Verif.Spec.Kinds
import Verif.Props.Store
import Verif.Props.CliVerify
/-! # One kind of file given to the reader of another: C118 -/

namespace Sigtool
open Spec

theorem encode_ne_of (x : Bytes) (hx : x.length % 3 ≠ 0) : Base64.encode x ≠ [] :=
  encode_ne x (by intro h; rw [h] at hx; simp at hx)

/-- Two lines after a comment line or nothing, when the first value is base64 text with padding, are not an SSH public key. -/
theorem twoLines_not_ssh (P : Prims) (a k1 k2 x y : Bytes) (hx : x.length % 3 ≠ 0) (ha : a = [] ∨ ∃ c ∈ a, isBlank c = true)
    (h1 : ∀ c ∈ k1, isBlank c = false) (h2 : ∀ c ∈ k2, isBlank c = false) :
    ∃ e, parseSSHPublicKey P ((a ++ k1) ++ [58] ++ 32 :: (Base64.encode x ++ (10 :: k2) ++ [58] ++
      32 :: (Base64.encode y ++ [10]))) = .err e := by
  have nb : ∀ x : Bytes, (∀ c ∈ Base64.encode x, isBlank c = false) := b64_not_blank
  have p3 : splitBlanks (Base64.encode y ++ [10]) = [Base64.encode y ++ [10]] := by
    apply splitBlanks_solid
    intro c hcm
    rcases List.mem_append.mp hcm with h | h
    · exact nb y c h
    · simp only [List.mem_singleton] at h; subst h; decide
  have p2' : splitBlanks (Base64.encode x ++ (10 :: k2) ++ [58]) = [Base64.encode x ++ (10 :: k2) ++ [58]] := by
    apply splitBlanks_solid
    intro c hcm
    simp only [List.mem_append, List.mem_cons, List.not_mem_nil, or_false] at hcm
    rcases hcm with (h | rfl | h) | rfl
    · exact nb x c h
    · decide
    · exact h2 c h
    · decide
  obtain ⟨d, t, hd⟩ : ∃ d t, Base64.encode y ++ [10] = d :: t := by
    match h : Base64.encode y ++ [10] with
    | [] => simp at h
    | d :: t => exact ⟨d, t, rfl⟩
  have hdn : isBlank d = false := by
    have : d ∈ Base64.encode y ++ [10] := by rw [hd]; simp
    rcases List.mem_append.mp this with h | h
    · exact nb y d h
    · simp only [List.mem_singleton] at h; subst h; decide
  have p2 : splitBlanks (Base64.encode x ++ (10 :: k2) ++ [58] ++ 32 :: (Base64.encode y ++ [10])) =
      [Base64.encode x ++ (10 :: k2) ++ [58], Base64.encode y ++ [10]] := by
    rw [hd, splitBlanks_append _ 58 32 d t (by decide) (by decide) hdn, p2', ← hd, p3]
    rfl
  obtain ⟨f, u, hf⟩ : ∃ f u, Base64.encode x ++ (10 :: k2) ++ [58] ++ 32 :: (Base64.encode y ++ [10]) = f :: u := by
    match h : Base64.encode x ++ (10 :: k2) ++ [58] ++ 32 :: (Base64.encode y ++ [10]) with
    | [] => simp at h
    | f :: u => exact ⟨f, u, rfl⟩
  have hfn : isBlank f = false := by
    match hpk : Base64.encode x with
    | [] => exact absurd hpk (encode_ne_of x hx)
    | g :: gs =>
      rw [hpk] at hf
      simp only [List.cons_append, List.cons.injEq] at hf
      rw [← hf.1]
      exact nb x g (by rw [hpk]; simp)
  have p1 : splitBlanks ((a ++ k1) ++ [58] ++ 32 :: (Base64.encode x ++ (10 :: k2) ++ [58] ++ 32 :: (Base64.encode y ++ [10]))) =
      splitBlanks ((a ++ k1) ++ [58]) ++ [Base64.encode x ++ (10 :: k2) ++ [58], Base64.encode y ++ [10]] := by
    rw [hf, splitBlanks_append _ 58 32 f u (by decide) (by decide) hfn, ← hf, p2]
  unfold parseSSHPublicKey
  rw [p1]
  rcases ha with rfl | ⟨c, hcm, hcb⟩
  · have : splitBlanks (([] ++ k1) ++ [58]) = [k1 ++ [58]] := by
      rw [List.nil_append]
      apply splitBlanks_solid
      intro c hc
      rcases List.mem_append.mp hc with h | h
      · exact h1 c h
      · simp only [List.mem_singleton] at h; subst h; decide
    rw [this]
    simp only [List.cons_append, List.nil_append]
    unfold parseEncPubKey
    rw [List.append_assoc, decode_padded_junk x _ hx (by
      intro h
      have : (58 : UInt8) ∈ List.filter (fun c => !Base64.isBreak c) (10 :: k2 ++ [58]) := by
        rw [List.mem_filter]; exact ⟨by simp, by decide⟩
      rw [h] at this; cases this)]
    exact ⟨_, rfl⟩
  · have h2 : 2 ≤ (splitBlanks ((a ++ k1) ++ [58])).length := splitBlanks_two _ ⟨c, by simp [hcm], hcb⟩
    match hs : splitBlanks ((a ++ k1) ++ [58]), h2 with
    | x :: y :: zs, _ =>
      cases zs with
      | nil => exact ⟨_, rfl⟩
      | cons z zs =>
        cases zs with
        | nil => exact ⟨_, rfl⟩
        | cons z' zs => exact ⟨_, rfl⟩

theorem comment_line_blank (Y : Yaml) (comment : Bytes) :
    Y.line "comment" comment true = [] ∨ ∃ c ∈ Y.line "comment" comment true, isBlank c = true := by
  have c1 : ascii ": " = [58, 32] := by decide +kernel
  unfold Yaml.line
  split
  · exact .inl rfl
  · refine .inr ⟨32, ?_, by decide⟩
    rw [c1]; simp

/-- The text of a signature is not an SSH public key. -/
theorem sigText_not_ssh (P : Prims) (Y : Yaml) (YL : Y.Laws) (comment h s : Bytes) (hh : h.length % 3 ≠ 0) (hs : s.length % 3 ≠ 0) :
    ∃ e, parseSSHPublicKey P (Y.sigText ⟨comment, Base64.encode h, Base64.encode s⟩) = .err e := by
  have c1 : ascii ": " = [58, 32] := by decide +kernel
  have c2 : ascii "\n" = [10] := by decide +kernel
  have e : Y.sigText ⟨comment, Base64.encode h, Base64.encode s⟩ =
      ((Y.line "comment" comment true ++ ascii "pkhash") ++ [58] ++ 32 :: (Base64.encode h ++ (10 :: ascii "signature") ++ [58] ++
        32 :: (Base64.encode s ++ [10]))) := by
    unfold Yaml.sigText
    dsimp only
    rw [Yaml.line.eq_def Y "pkhash", Yaml.line.eq_def Y "signature", if_neg (fun x => encode_ne_of h hh x.2), if_neg (by simp),
      YL.plain _ hh, YL.plain _ hs, c1, c2]
    simp
  rw [e]
  exact twoLines_not_ssh P _ _ _ h s hh (comment_line_blank Y comment) (by decide +kernel) (by decide +kernel)

/-- The text of a private key is not an SSH public key. -/
theorem privText_not_ssh (P : Prims) (Y : Yaml) (comment x y : Bytes) :
    ∃ e, parseSSHPublicKey P (Y.privText comment x y) = .err e := by
  have e : ∃ a, Y.privText comment x y = (a ++ [58]) ++ 32 :: (ascii "scrypt-sha256\nZ: 524288\nr: 8\np: 1\n") := by
    refine ⟨Y.line "comment" comment true ++ Y.line "esk" x false ++ Y.line "salt" y true ++ ascii "algo", ?_⟩
    have : ascii "algo: scrypt-sha256\nZ: 524288\nr: 8\np: 1\n" =
      ascii "algo" ++ [58] ++ 32 :: (ascii "scrypt-sha256\nZ: 524288\nr: 8\np: 1\n") := by decide +kernel
    unfold Yaml.privText
    rw [this]
    simp only [List.append_assoc]
  obtain ⟨a, e⟩ := e
  have e2 : ascii "scrypt-sha256\nZ: 524288\nr: 8\np: 1\n" = 115 :: (ascii "scrypt-sha256\nZ: 524288\nr: 8\np: 1\n").tail := by
    decide +kernel
  have e3 : splitBlanks (115 :: (ascii "scrypt-sha256\nZ: 524288\nr: 8\np: 1\n").tail) =
      [ascii "scrypt-sha256\nZ:", ascii "524288\nr:", ascii "8\np:", ascii "1\n"] := by decide +kernel
  unfold parseSSHPublicKey
  rw [e, e2, splitBlanks_append a 58 32 115 _ (by decide) (by decide) (by decide), e3]
  match hs : splitBlanks (a ++ [58]) with
  | [] => exact ⟨_, rfl⟩
  | [u] => exact ⟨_, rfl⟩
  | [u, v] => exact ⟨_, rfl⟩
  | u :: v :: w :: [] => exact ⟨_, rfl⟩
  | u :: v :: w :: z :: zs => exact ⟨_, rfl⟩

/-- Neither contains the marker of an OpenSSH private key unless the comment does. -/
theorem lines_marker (Y : Yaml) (YL : Y.Laws) (comment x y : Bytes) (k1 k2 : String) (om : Bool) (hx : x.length % 3 ≠ 0) (hy : y.length % 3 ≠ 0)
    (h1 : ¬ marker <:+: ascii k1) (h2 : ¬ marker <:+: ascii k2)
    (hc : comment = [] ∨ ¬ marker <:+: Y.scalar comment) :
    ¬ marker <:+: Y.line "comment" comment true ++ Y.line k1 (Base64.encode x) om ++ Y.line k2 (Base64.encode y) false := by
  have a1 : ¬ marker <:+: Y.line k2 (Base64.encode y) false := by
    rw [Yaml.line, if_neg (by simp), YL.plain y hy]
    have := marker_line (ascii k2) (Base64.encode y) [] h2 (marker_not_b64 y) (by decide +kernel)
    simpa using this
  have a2 : ¬ marker <:+: Y.line k1 (Base64.encode x) om ++ Y.line k2 (Base64.encode y) false := by
    rw [Yaml.line.eq_def Y k1, if_neg (fun h => encode_ne_of x hx h.2), YL.plain x hx]
    exact marker_line _ _ _ h1 (marker_not_b64 x) a1
  rw [List.append_assoc, Yaml.line.eq_def Y "comment"]
  split
  · simpa using a2
  · rename_i hne
    have hc' : ¬ marker <:+: Y.scalar comment := by
      rcases hc with hc | hc
      · exact absurd ⟨rfl, hc⟩ hne
      · exact hc
    have := marker_line (ascii "comment") (Y.scalar comment) _ (by decide +kernel) hc' a2
    simpa only [List.append_assoc] using this

/-- The lengths of what is written. -/
theorem proper_lengths (D : Deps) (L : Laws D.P) (c : SaveCall) (hc : Proper D c) (pk : PublicKey) (hw : c.what = .pub pk) :
    pk.pk.length = 32 ∧ pk.hash.length = 16 := by
  obtain ⟨what, name, comment, ov, salt, env⟩ := c
  simp only at hw
  subst hw
  obtain ⟨_, x, b, hb⟩ := hc
  obtain ⟨h1, h2, h3, h4⟩ := makePublicKeyFromBytes_ok D.P x b pk hb
  exact ⟨by omega, by rw [h3, List.length_take, L.sha256_len]; rfl⟩

/-- **C118** (keys).  A file to which a public key or a signature was saved is never read as a private key, whatever the pass
phrase, and a file to which a private key or a signature was saved is never read as a public key: the readers return an
error. -/
theorem C118_keys (D : Deps) (L : Laws D.P) (YL : D.Y.Laws) (fs s : FS) (h : List StoreEvent) (H : StoreHistory D fs h s)
    (p : Path) (hp : NotTemp p h) (c : SaveCall) (hk : known h p = .holds c) (hc : Proper D c) (hsz : Proportioned c.what)
    (hm : c.comment = [] ∨ ¬ marker <:+: D.Y.scalar c.comment) (hY : SkipsEntries D.Y c.comment) :
    (Saved.kind c.what ≠ .priv → ∀ getpw, ∃ e, readPrivateKey D s p getpw = .err e) ∧
    (Saved.kind c.what ≠ .pub → ∃ e, readPublicKey D s p = .err e) := by
  have hkn := H.known p hp
  rw [hk] at hkn
  obtain ⟨b, h1, h2, _⟩ := hkn
  have rdk : ∀ g, readPrivateKey D s p g = makePrivateKey D.P D.Y D.pem b g := by
    intro g; unfold readPrivateKey readFile; rw [h2]; rfl
  have rdp : readPublicKey D s p = makePublicKey D.P D.Y b := by
    unfold readPublicKey readFile; rw [h2]; rfl
  have noPriv : ¬ marker <:+: b → D.Y.readPriv b = some { comment := c.comment } → ∀ g, ∃ e, makePrivateKey D.P D.Y D.pem b g = .err e := by
    intro hmk hr g
    unfold makePrivateKey
    rw [looksOpenSSH_false _ hmk, if_neg (by simp)]
    match hg : optPw g with
    | .err e => exact ⟨e, rfl⟩
    | .panic w => exfalso; unfold optPw at hg; split at hg <;> cases hg
    | .ok pw =>
      dsimp only [Res.bind_ok]
      unfold unmarshalPrivYaml
      rw [hr]
      exact ⟨_, rfl⟩
  have noPub : (∃ e, parseSSHPublicKey D.P b = .err e) → D.Y.readPub b = some { comment := c.comment } → ∃ e, makePublicKey D.P D.Y b = .err e := by
    rintro ⟨e, he⟩ hr
    unfold makePublicKey
    rw [he]
    dsimp only
    unfold unmarshalPubYaml
    rw [hr]
    exact ⟨_, rfl⟩
  refine ⟨fun hkind getpw => ?_, fun hkind => ?_⟩
  · rw [rdk]
    match hw : c.what with
    | .priv sk pw => rw [hw] at hkind; exact absurd rfl hkind
    | .pub pk =>
      obtain ⟨l1, l2⟩ := proper_lengths D L c hc pk hw
      unfold SaveCall.text at h1
      rw [hw] at h1
      injection h1 with h1
      refine noPriv ?_ ?_ getpw
      · rw [← h1]
        exact lines_marker D.Y YL c.comment pk.pk pk.hash "pk" "hash" false (by omega) (by omega) (by decide +kernel)
          (by decide +kernel) hm
      · rw [← h1]; exact hY.privPub _ _
    | .sig sg =>
      rw [hw] at hsz
      obtain ⟨l1, l2⟩ := hsz
      unfold SaveCall.text at h1
      rw [hw] at h1
      injection h1 with h1
      refine noPriv ?_ ?_ getpw
      · rw [← h1]
        exact lines_marker D.Y YL c.comment sg.pkhash sg.sig "pkhash" "signature" true (by omega) (by omega) (by decide +kernel)
          (by decide +kernel) hm
      · rw [← h1]; exact hY.privSig _ _
  · rw [rdp]
    match hw : c.what with
    | .pub pk => rw [hw] at hkind; exact absurd rfl hkind
    | .priv sk pw =>
      unfold SaveCall.text at h1
      rw [hw] at h1
      simp only [PrivateKey.marshal] at h1
      split at h1
      · cases h1
      · cases h1
      · injection h1 with h1
        refine noPub ?_ ?_
        · rw [← h1]; exact privText_not_ssh _ _ _ _ _
        · rw [← h1]; exact hY.pubPriv _ _
    | .sig sg =>
      rw [hw] at hsz
      obtain ⟨l1, l2⟩ := hsz
      unfold SaveCall.text at h1
      rw [hw] at h1
      injection h1 with h1
      refine noPub ?_ ?_
      · rw [← h1]; exact sigText_not_ssh D.P D.Y YL c.comment sg.pkhash sg.sig (by omega) (by omega)
      · rw [← h1]; exact hY.pubSig _ _

/-- **C118** (signatures): refuted.  `ReadSignature` does not refuse a key file.  Every file to which a public or private key was
saved is read without error, as a signature of no bytes with a key hash of no bytes. -/
theorem C118_signatures_refuted (D : Deps) (fs s : FS) (h : List StoreEvent) (H : StoreHistory D fs h s)
    (p : Path) (hp : NotTemp p h) (c : SaveCall) (hk : known h p = .holds c) (hY : SkipsEntries D.Y c.comment)
    (hkind : Saved.kind c.what ≠ .sig) : readSignature D s p = .ok ⟨[], []⟩ := by
  have hkn := H.known p hp
  rw [hk] at hkn
  obtain ⟨b, h1, h2, _⟩ := hkn
  have rd : readSignature D s p = unmarshalSig D.Y b := by
    unfold readSignature readFile; rw [h2]; rfl
  have hr : D.Y.readSig b = some { comment := c.comment } := by
    match hw : c.what with
    | .sig sg => rw [hw] at hkind; exact absurd rfl hkind
    | .pub pk =>
      unfold SaveCall.text at h1
      rw [hw] at h1
      injection h1 with h1
      rw [← h1]; exact hY.sigPub _ _
    | .priv sk pw =>
      unfold SaveCall.text at h1
      rw [hw] at h1
      simp only [PrivateKey.marshal] at h1
      split at h1
      · cases h1
      · cases h1
      · injection h1 with h1
        rw [← h1]; exact hY.sigPriv _ _
  rw [rd]
  unfold unmarshalSig
  rw [hr]
  rfl

/-- **C118** (what saves the user).  The empty signature matches no public key that the readers return, so a program that asks
`IsPKMatch` first refuses it; in particular `verify` with a key file in the place of the signature exits with a failure or a
crash, whatever the key and the file. -/
theorem C118_signatures_partial (D : Deps) (L : Laws D.P) (fs s : FS) (h : List StoreEvent) (H : StoreHistory D fs h s)
    (p : Path) (hp : NotTemp p h) (c : SaveCall) (hk : known h p = .holds c) (hY : SkipsEntries D.Y c.comment)
    (hkind : Saved.kind c.what ≠ .sig) :
    (∀ b pk sg, (makePublicKey D.P D.Y b = .ok pk ∨ makePublicKeyFromString D.P b = .ok (some pk)) → readSignature D s p = .ok sg →
      isPKMatch pk sg = false) ∧
    ∀ mapErr pn fn more, verifyCmd D s mapErr (pn :: p :: fn :: more) ≠ 0 := by
  have e := C118_signatures_refuted D fs s h H p hp c hk hY hkind
  have key : ∀ b pk sg, (makePublicKey D.P D.Y b = .ok pk ∨ makePublicKeyFromString D.P b = .ok (some pk)) → readSignature D s p = .ok sg →
      isPKMatch pk sg = false := by
    intro b pk sg hb hs
    rw [e] at hs
    injection hs with hs
    subst hs
    have hh := (C37_public D.P D.Y b pk hb).2
    match hx : isPKMatch pk ⟨[], []⟩ with
    | false => rfl
    | true =>
      have := (C32_match_iff _ _).mp hx
      rw [hh] at this
      have := congrArg List.length this
      rw [List.length_take, L.sha256_len] at this
      cases this
  refine ⟨key, ?_⟩
  intro mapErr pn fn more
  unfold verifyCmd
  dsimp only
  match hv : verifyKey D s pn with
  | .err e => simp [exitOf]
  | .panic w => simp [exitOf]
  | .ok none => rw [e]; simp [exitOf]
  | .ok (some pk) =>
    rw [e]
    dsimp only [Res.bind_ok]
    have : ∃ b, makePublicKey D.P D.Y b = .ok pk ∨ makePublicKeyFromString D.P b = .ok (some pk) := by
      unfold verifyKey at hv
      split at hv
      · rename_i o ho; injection hv with hv; subst hv; exact ⟨pn, .inr ho⟩
      · cases hv
      · rw [bind_ok_iff] at hv
        obtain ⟨pk', hv, h2⟩ := hv
        injection h2 with h2; injection h2 with h2; subst h2
        unfold readPublicKey at hv
        rw [bind_ok_iff] at hv
        obtain ⟨b, _, hb⟩ := hv
        exact ⟨b, .inl hb⟩
    obtain ⟨b, hb⟩ := this
    rw [key b pk _ hb e]
    simp [exitOf]

end Sigtool
