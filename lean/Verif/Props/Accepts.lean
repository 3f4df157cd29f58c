import Verif.Props.Auth
import Verif.Props.Header
import Verif.Props.Grammar
import Verif.Spec.Accepts
import Verif.DecHistoryLemmas
import Verif.Props.StreamReader
/-!
# C87: exactly which inputs are decrypted, and to what
-/

namespace Sigtool
open Spec

/-! ## SetPrivateKey, exactly -/

theorem unwrapKey_exact (P : Prims) (d : Decryptor) (w : WrappedKey) (sk : PrivateKey) (hl : 32 ≤ sk.sk.length) :
    d.unwrapKey P w sk =
      match P.x25519 (clamp ((P.sha512 (sk.sk.take 32)).take 32)) d.hdr.pk with
      | none => .err (.wrap "unwrap" (.msg "bad input point"))
      | some _ => if w.dkey.length ≠ 48 then .err (.msg "unwrap: incorrect decrypt bytes")
        else .ok (unwrapAs P (sk.sk.take 32) sk.pub.pk d.hdr.pk d.hdr.salt w) := by
  unfold Decryptor.unwrapKey toCurve25519SK unwrapAs
  rw [if_neg (by omega)]
  simp only [Res.bind_ok]
  cases P.x25519 (clamp ((P.sha512 (sk.sk.take 32)).take 32)) d.hdr.pk with
  | none => rfl
  | some s => rfl

theorem findKey_iff (P : Prims) (d : Decryptor) (sk : PrivateKey) (hl : 32 ≤ sk.sk.length) (key : Bytes) :
    ∀ ws : List WrappedKey, d.findKey P sk ws = .ok (some key) ↔
      ∃ before w after, ws = before ++ w :: after ∧ (∀ v ∈ before ++ [w], v.dkey.length = 48) ∧
        (∀ v ∈ before, unwrapAs P (sk.sk.take 32) sk.pub.pk d.hdr.pk d.hdr.salt v = none) ∧
        unwrapAs P (sk.sk.take 32) sk.pub.pk d.hdr.pk d.hdr.salt w = some key := by
  intro ws
  induction ws with
  | nil =>
    constructor
    · intro h; cases h
    · rintro ⟨b, w, a, h, _⟩; simp at h
  | cons w ws ih =>
    rw [Decryptor.findKey, unwrapKey_exact P d w sk hl]
    cases hx : P.x25519 (clamp ((P.sha512 (sk.sk.take 32)).take 32)) d.hdr.pk with
    | none =>
      constructor
      · intro h; cases h
      · rintro ⟨b, v, a, h1, h2, h3, h4⟩
        unfold unwrapAs at h4; rw [hx] at h4; cases h4
    | some s =>
      dsimp only
      by_cases hw : w.dkey.length = 48
      · rw [if_neg (by omega)]
        cases hu : unwrapAs P (sk.sk.take 32) sk.pub.pk d.hdr.pk d.hdr.salt w with
        | some k =>
          dsimp only
          constructor
          · intro h; cases h
            exact ⟨[], w, ws, rfl, by simpa using hw, by simp, hu⟩
          · rintro ⟨b, v, a, h1, h2, h3, h4⟩
            cases b with
            | nil => simp at h1; obtain ⟨rfl, rfl⟩ := h1; rw [hu] at h4; cases h4; rfl
            | cons b bs =>
              simp at h1; obtain ⟨rfl, _⟩ := h1
              have := h3 w (by simp); rw [hu] at this; cases this
        | none =>
          dsimp only
          rw [ih]
          constructor
          · rintro ⟨b, v, a, h1, h2, h3, h4⟩
            refine ⟨w :: b, v, a, by rw [h1]; rfl, ?_, ?_, h4⟩
            · intro x hx
              rcases List.mem_cons.mp hx with rfl | hx
              · exact hw
              · exact h2 x hx
            · intro x hx
              rcases List.mem_cons.mp hx with rfl | hx
              · exact hu
              · exact h3 x hx
          · rintro ⟨b, v, a, h1, h2, h3, h4⟩
            cases b with
            | nil => simp at h1; obtain ⟨rfl, rfl⟩ := h1; rw [hu] at h4; cases h4
            | cons b bs =>
              simp at h1; obtain ⟨rfl, h1⟩ := h1
              exact ⟨bs, v, a, h1, fun x hx => h2 x (by simp at hx ⊢; tauto), fun x hx => h3 x (by simp [hx]), h4⟩
      · rw [if_pos hw]
        constructor
        · intro h; cases h
        · rintro ⟨b, v, a, h1, h2, h3, h4⟩
          cases b with
          | nil => simp at h1; obtain ⟨rfl, rfl⟩ := h1; exact absurd (h2 w (by simp)) hw
          | cons b bs =>
            simp at h1; obtain ⟨rfl, h1⟩ := h1
            exact absurd (h2 w (by simp)) hw

theorem verifySender_iff (P : Prims) (d : Decryptor) (hd : d.auth = false) (key : Bytes) (spk : Option PublicKey) (a : Bool) :
    d.verifySender P key spk = .ok a ↔ SenderAccepted P d.hdr key spk a := by
  constructor
  · intro h
    obtain ⟨sig, h1, h2⟩ := verifySender_ok P d key spk a h
    refine ⟨sig, h1, ?_⟩
    rcases h2 with ⟨h3, h4⟩ | ⟨h3, h4, pk, h5, h6, h7⟩
    · exact .inl ⟨h3, by rw [h4, hd]⟩
    · refine .inr ⟨h3, h4, pk, h5, h6, ?_⟩
      rw [senderDigest_eq] at h7; exact h7
  · rintro ⟨sig, h1, h2⟩
    unfold Decryptor.verifySender
    dsimp only
    rw [senderKey_eq, h1]
    dsimp only
    rcases h2 with ⟨h3, h4⟩ | ⟨h3, h4, pk, h5, h6, h7⟩
    · subst h3; subst h4
      rw [show (List.replicate 64 0 : Bytes) = unsigned from rfl, ctEq_self]
      simp [hd]
    · subst h4; subst h5
      have : ctEq (List.replicate 64 0) sig = false := by
        unfold ctEq; exact beq_false_of_ne (fun h => h3 h.symm)
      rw [this]
      simp only [Bool.not_false, if_true, verifyMessage]
      rw [if_neg (by omega), senderDigest_eq]
      have h7' : P.edVerify pk.pk (signDigest P (senderStatement P d.hdr.pk d.hdr.salt key)) sig = true := h7
      simp [h7']

/-- `SetPrivateKey` on a new decryptor, exactly. -/
theorem setPrivateKey_iff (P : Prims) (d0 : Decryptor) (hd : d0.auth = false) (sk : PrivateKey) (hl : 32 ≤ sk.sk.length)
    (spk : Option PublicKey) (d : Decryptor) :
    d0.setPrivateKey P sk spk = (.ok (), d) ↔
      ∃ key a, FirstOpened P d0.hdr sk key ∧ SenderAccepted P d0.hdr key spk a ∧
        d = { d0 with key := some key, sender := spk, auth := a
                      nonce := (sessionKeys P key d0.hdrsum).1, ae := some (sessionKeys P key d0.hdrsum).2.1
                      hmac := some ((sessionKeys P key d0.hdrsum).2.2, []), bufLen := d0.hdr.chunkSize + 16 } := by
  constructor
  · intro h
    obtain ⟨key, hk⟩ := setPrivateKey_ok P d0 d sk spk h
    refine ⟨key, d.auth, (findKey_iff P d0 sk hl key _).mp hk.found, ?_, hk.state⟩
    have := (verifySender_iff P { d0 with key := some key, sender := spk } hd key spk d.auth).mp hk.verified
    exact this
  · rintro ⟨key, a, h1, h2, h3⟩
    unfold Decryptor.setPrivateKey
    rw [(findKey_iff P d0 sk hl key _).mpr h1]
    dsimp only
    rw [(verifySender_iff P { d0 with key := some key, sender := spk } hd key spk a).mpr h2]
    dsimp only
    rw [h3, dataKeys_eq]

/-! ## The body, exactly -/

theorem decryptLoop_complete (P : Prims) (L : Laws P) : ∀ (mid : List Bytes) (fuel : Nat) (d : Decryptor)
    (wr : Writer) (i : Nat) (dkey hk hd fin e rest : Bytes),
    d.Ready dkey hk hd → wr.NoFail → mid.length < fuel → (∀ c ∈ mid, 0 < c.length ∧ c.length ≤ d.hdr.chunkSize) →
    ((fin = [] ∧ e = lengthWord 0 true) ∨ (0 < fin.length ∧ fin.length ≤ d.hdr.chunkSize ∧ ∃ tr, tr.length = 64 ∧
      e = sealedChunk P dkey d.nonce (i + mid.length) true fin ++ tr ∧
      d.TrailerOk P hk (hd ++ macInput (mid ++ [fin])) tr)) →
    d.rd.content = sealedMid P dkey d.nonce i mid ++ (e ++ rest) →
    ∃ d' wr', Decryptor.decryptLoop P fuel d wr i = (.ok (), d', wr') ∧ d'.rd.content = rest ∧ d'.auth = d.auth ∧
      wr'.out = wr.out ++ (mid.flatten ++ fin) ∧ wr'.NoFail := by
  intro mid
  induction mid with
  | nil =>
    intro fuel d wr i dkey hk hd fin e rest hr hw hf hmid he hrd
    cases fuel with
    | zero => simp at hf
    | succ fuel =>
    unfold Decryptor.decryptLoop
    rw [sealedMid, List.nil_append] at hrd
    rcases he with ⟨rfl, rfl⟩ | ⟨h0, h1, tr, h2, rfl, h4⟩
    · obtain ⟨rd', g1, g2⟩ := decryptBlock_empty P d dkey rest i hr.ae hrd
      rw [g1]
      exact ⟨_, _, rfl, g2, rfl, by simp, hw⟩
    · rw [List.append_assoc] at hrd
      simp only [List.length_nil, Nat.add_zero] at hrd
      obtain ⟨rd', g1, g2⟩ := decryptBlock_last P L d dkey hk hd fin tr rest i hr h0 h1 h2
        (by rw [List.append_assoc]; exact h4) hrd
      rw [g1]
      obtain ⟨wr', k1, k2, k3, _⟩ := fullwrite_noFail fin wr hw
      have : fin.length > 0 := h0
      simp only [this, if_true, k1]
      exact ⟨_, _, rfl, g2, rfl, by simp [k2], k3⟩
  | cons c mid ih =>
    intro fuel d wr i dkey hk hd fin e rest hr hw hf hmid he hrd
    cases fuel with
    | zero => simp at hf
    | succ fuel =>
    unfold Decryptor.decryptLoop
    rw [sealedMid, List.append_assoc] at hrd
    have hc := hmid c (by simp)
    obtain ⟨rd', g1, g2⟩ := decryptBlock_mid P L d dkey hk hd c _ i hr hc.1 hc.2 hrd
    rw [g1]
    obtain ⟨wr', k1, k2, k3, _⟩ := fullwrite_noFail c wr hw
    have : c.length > 0 := hc.1
    simp only [this, if_true, k1, Bool.false_eq_true, if_false]
    have hmod : ((i+1) % 2^32) % 2^32 = (i+1) % 2^32 := by omega
    have hmod2 : ((i+1) % 2^32 + mid.length) % 2^32 = (i + (c :: mid).length) % 2^32 := by
      simp only [List.length_cons]; omega
    obtain ⟨d2, wr2, m1, m2, m3, m4, m5⟩ := ih fuel
      { d with rd := rd', hmac := some (hk, hd ++ lengthWord c.length false ++ c) } wr' ((i + 1) % 2^32)
      dkey hk (hd ++ lengthWord c.length false ++ c) fin e rest
      ⟨hr.ae, rfl, hr.buf, hr.chunk, hr.key, hr.nonce, hr.sender⟩ k3 (by simpa using hf)
      (fun x hx => hmid x (by simp [hx]))
      (by
        rcases he with he | ⟨h0, h1, tr, h2, h3, h4⟩
        · exact .inl he
        · refine .inr ⟨h0, h1, tr, h2, ?_, ?_⟩
          · rw [h3, sealedChunk_mod P dkey d.nonce _ _ true fin hmod2]
          · intro ha
            obtain ⟨pk, p1, p2⟩ := h4 ha
            refine ⟨pk, p1, ?_⟩
            rw [List.cons_append, macInput_cons _ _ (by simp)] at p2
            simpa using p2)
      (by rw [g2]; dsimp only; rw [sealedMid_mod P dkey d.nonce mid _ _ hmod])
    exact ⟨d2, wr2, m1, m2, m3, by rw [m4, k2]; simp, m5⟩

theorem sealedMid_ge (P : Prims) (dkey nonce : Bytes) : ∀ (mid : List Bytes) (i : Nat), mid.length ≤ (sealedMid P dkey nonce i mid).length := by
  intro mid
  induction mid with
  | nil => intro i; simp [sealedMid]
  | cons c mid ih =>
    intro i
    have := ih (i + 1)
    rw [sealedMid]
    simp [sealedChunk]
    omega

theorem lengthWord_marker : lengthWord 0 true = [0x80, 0, 0, 0] := by decide

/-- `NewDecryptor` then `SetPrivateKey`, exactly. -/
theorem setup_iff (P : Prims) (L : Laws P) (rd : Reader) (sk : PrivateKey) (hl : 32 ≤ sk.sk.length) (spk : Option PublicKey)
    (h : Header) (key : Bytes) (auth : Bool) (body sum : Bytes) :
    (∃ d, setupDecryptor P rd sk spk = .ok d ∧ d.hdr = h ∧ d.key = some key ∧ d.auth = auth ∧ d.rd.content = body ∧
      d.hdrsum = sum) ↔
    ∃ hb, Opening P rd.content sk spk hb h key auth body ∧ sum = P.sha256 (framed hb) := by
  constructor
  · rintro ⟨d, h1, rfl, h3, rfl, rfl, rfl⟩
    obtain ⟨d0, rd', hb, key', ha, hk, hr, e1, e2, e3, e4, e5, e6, e7, e8⟩ := setupDecryptor_ok P L rd sk spk d h1
    rw [e4] at h3
    cases h3
    have hsum : d.hdrsum = P.sha256 (framed hb) := by rw [e6, ha.state]; rfl
    obtain ⟨c1, c2, c3, c4⟩ := (checkHeader_iff _).mp ha.checked
    have hauth0 : d0.auth = false := by rw [ha.state]
    refine ⟨hb, ⟨?_, ⟨ha.lo, ha.hi⟩, ?_, ?_, ?_, ?_⟩, hsum⟩
    · rw [e1]; exact ha.content
    · rw [e5]; exact (C86_header hb (by have := ha.hi; omega) _).mp ha.decoded
    · rw [e5]; exact ⟨⟨c1.1, by omega⟩, c2, c3, c4⟩
    · rw [e5]; exact (findKey_iff P d0 sk hl key _).mp hk.found
    · rw [e5]; exact (verifySender_iff P { d0 with key := some key, sender := spk } hauth0 key spk d.auth).mp hk.verified
  · rintro ⟨hb, ho, rfl⟩
    have hha : HeaderAt P rd.content hb h body :=
      ⟨ho.layout, ho.size, (C86_header hb (by have := ho.size; omega) h).mpr ho.decodes,
        ⟨ho.rules.chunk.1, by have := ho.rules.chunk.2; omega⟩, ho.rules.salt, ho.rules.keys, ho.rules.wrapped⟩
    obtain ⟨d0, rd', n1, n2, n3⟩ := (C24_accepts_iff P L rd).2 _ _ _ hha
    obtain ⟨hb', ha⟩ := newDecryptor_ok P rd d0 rd' n1
    have hbb : framed hb' = framed hb := by
      have g1 := ha.content
      rw [n3] at g1
      have g2 := ho.layout
      rw [g1] at g2
      have g3 := List.append_cancel_right g2
      exact (List.append_inj_left' g3 (by rw [L.sha256_len, L.sha256_len]))
    have hs : d0.hdrsum = P.sha256 (framed hb) := by rw [← hbb, ha.state]; rfl
    subst n2
    have := (setPrivateKey_iff P d0 (by rw [ha.state]) sk hl spk _).mpr ⟨key, auth, ho.opened, ho.sender, rfl⟩
    refine ⟨{ d0 with key := some key, sender := spk, auth := auth
                      nonce := (sessionKeys P key d0.hdrsum).1, ae := some (sessionKeys P key d0.hdrsum).2.1
                      hmac := some ((sessionKeys P key d0.hdrsum).2.2, []), bufLen := d0.hdr.chunkSize + 16 },
      by unfold setupDecryptor; rw [n1, Res.bind_ok, this], rfl, rfl, rfl, ?_, hs⟩
    dsimp only; rw [ha.state]; exact n3

/-- **C87**. For every input (however it is delivered), private key, sender key or none, and destination that does not fail:
`NewDecryptor`, `SetPrivateKey` and `Decrypt` all return nil, `AuthenticatedSender()` is `auth`, the destination received
`plain` and the input is left in front of `rest` IF AND ONLY IF the input consists of a container with these contents followed
by `rest`, as described by `Spec.Contains`. -/
theorem C87_exact (P : Prims) (L : Laws P) (rd : Reader) (sk : PrivateKey) (hl : 32 ≤ sk.sk.length) (spk : Option PublicKey)
    (wr : Writer) (hw : wr.NoFail) (auth : Bool) (plain rest : Bytes) :
    (∃ d d' wr', setupDecryptor P rd sk spk = .ok d ∧ d.auth = auth ∧ d.decrypt P wr = (.ok (), d', wr') ∧
      wr'.out = wr.out ++ plain ∧ d'.rd.content = rest) ↔ Contains P rd.content sk spk auth plain rest := by
  constructor
  · rintro ⟨d, d', wr', h1, rfl, h3, h4, rfl⟩
    obtain ⟨key, r, d'', wr'', g1, g2, g3, g4⟩ := decrypt_any P L rd sk spk d h1 wr
    obtain ⟨hb, ho, hsum⟩ := (setup_iff P L rd sk hl spk d.hdr key d.auth d.rd.content d.hdrsum).mp
      ⟨d, h1, rfl, g1, rfl, rfl, rfl⟩
    have hspk : d.sender = spk := by
      obtain ⟨d0, rd', hb, key, ha, hk, hr, e1, e2, e3, e4, e5, e6, e7, e8⟩ := setupDecryptor_ok P L rd sk spk d h1
      exact e7
    refine ⟨hb, d.hdr, key, d.rd.content, ho, ?_⟩
    rw [← hsum]
    rw [h3] at g2
    simp only [Prod.mk.injEq] at g2
    obtain ⟨rfl, rfl, rfl⟩ := g2
    cases g3 with
    | endedEmpty mid rest' _ _ hmid hopen hrd hstep heof hau hrest =>
      refine ⟨mid, [], [0x80, 0, 0, 0], ?_, hmid, .inl ⟨rfl, rfl⟩, ?_⟩
      · rw [hrd, g4, lengthWord_marker, hrest, List.append_assoc]
      · have := hstep.out
        rw [h4] at this
        simpa using List.append_cancel_left this
    | endedFull mid fin tr rest' _ _ hmid hopen hf0 hf htr hofin hver hrd hstep heof hau hrest =>
      refine ⟨mid, fin, sealedChunk P (sessionKeys P key d.hdrsum).2.1 (sessionKeys P key d.hdrsum).1 mid.length true fin ++ tr,
        ?_, hmid, .inr ⟨hf0, hf, tr, htr, rfl, ?_⟩, ?_⟩
      · rw [hrd, g4, hrest, Nat.zero_add]; simp
      · intro ha
        obtain ⟨pk, p1, p2⟩ := hver ha
        exact ⟨pk, by rw [← hspk]; exact p1, p2⟩
      · have := hstep.out
        rw [h4] at this
        exact List.append_cancel_left this
  · rintro ⟨hb, h, key, body, ho, mid, fin, e, hbody, hmid, hend, hplain⟩
    obtain ⟨d, h1, h2, h3, h4, h5, h6⟩ := (setup_iff P L rd sk hl spk h key auth body _).mpr ⟨hb, ho, rfl⟩
    obtain ⟨d0, rd', hb', key', ha, hk, hr, e1, e2, e3, e4, e5, e6, e7, e8⟩ := setupDecryptor_ok P L rd sk spk d h1
    rw [e4] at h3
    cases h3
    rw [← e6, h6] at hr e8
    subst h2; subst h4
    have hfuel : mid.length < d.rd.content.length + 1 := by
      rw [h5, hbody]
      have := sealedMid_ge P (sessionKeys P key (P.sha256 (framed hb))).2.1 (sessionKeys P key (P.sha256 (framed hb))).1 mid 0
      simp; omega
    obtain ⟨d', wr', k1, k2, k3, k4, k5⟩ := decryptLoop_complete P L mid (d.rd.content.length + 1) d wr 0
      (sessionKeys P key (P.sha256 (framed hb))).2.1 (sessionKeys P key (P.sha256 (framed hb))).2.2 [] fin e rest hr hw hfuel hmid
      (by
        rcases hend with ⟨f1, f2⟩ | ⟨f1, f2, tr, f3, f4, f5⟩
        · exact .inl ⟨f1, by rw [f2, lengthWord_marker]⟩
        · refine .inr ⟨f1, f2, tr, f3, by rw [f4, e8, Nat.zero_add], fun ha => ?_⟩
          obtain ⟨pk, p1, p2⟩ := f5 ha
          exact ⟨pk, by rw [e7]; exact p1, p2⟩)
      (by rw [h5, hbody, e8, List.append_assoc])
    refine ⟨d, d', wr', h1, rfl, ?_, by rw [k4, hplain], k2⟩
    unfold Decryptor.decrypt
    rw [e4]
    simp only [e2, e3, Bool.false_eq_true, if_false]
    exact k1

/-- An input has at most one reading: contents, sender flag and remainder are determined by input and keys. -/
theorem C87_unique (P : Prims) (L : Laws P) (input : Bytes) (sk : PrivateKey) (hl : 32 ≤ sk.sk.length) (spk : Option PublicKey)
    (a1 a2 : Bool) (p1 p2 r1 r2 : Bytes) (h1 : Contains P input sk spk a1 p1 r1) (h2 : Contains P input sk spk a2 p2 r2) :
    a1 = a2 ∧ p1 = p2 ∧ r1 = r2 := by
  have hw : ({} : Writer).NoFail := by intro k e h; cases h
  obtain ⟨d, d', wr', g1, g2, g3, g4, g5⟩ := (C87_exact P L ⟨[input], .eof, false⟩ sk hl spk {} hw a1 p1 r1).mpr
    (by simpa [Reader.content] using h1)
  obtain ⟨e, e', wr'', k1, k2, k3, k4, k5⟩ := (C87_exact P L ⟨[input], .eof, false⟩ sk hl spk {} hw a2 p2 r2).mpr
    (by simpa [Reader.content] using h2)
  rw [g1] at k1; cases k1
  rw [g3] at k3; cases k3
  refine ⟨by rw [← g2, k2], ?_, by rw [← g5, k5]⟩
  rw [g4] at k4
  simpa using k4

/-- Every other input is refused: with an error, by one of the three calls, never with a crash. -/
theorem C87_refused (P : Prims) (L : Laws P) (rd : Reader) (sk : PrivateKey) (hl : 32 ≤ sk.sk.length) (spk : Option PublicKey)
    (hspk : ∀ pk, spk = some pk → pk.pk.length = 32) (wr : Writer) (hw : wr.NoFail)
    (hno : ∀ auth plain rest, ¬ Contains P rd.content sk spk auth plain rest) :
    (∃ x, setupDecryptor P rd sk spk = .err x) ∨
    ∃ d x d' wr', setupDecryptor P rd sk spk = .ok d ∧ d.decrypt P wr = (.err x, d', wr') := by
  cases hs : setupDecryptor P rd sk spk with
  | err x => exact .inl ⟨x, rfl⟩
  | panic x =>
    exfalso
    unfold setupDecryptor at hs
    cases hn : newDecryptor P rd with
    | mk r rd' =>
      rw [hn] at hs
      dsimp only at hs
      cases r with
      | err y => cases hs
      | panic y => exact newDecryptor_noPanic P rd y (by rw [hn])
      | ok d0 =>
        rw [Res.bind_ok] at hs
        rcases setPrivateKey_cases P d0 sk spk with ⟨y, j1, j2⟩ | ⟨y, j1, j2⟩ | ⟨j1, j2⟩ | ⟨key, j1, j2⟩
        · rw [j2] at hs; cases hs
        · exact findKey_no_panic P _ sk hl y _ j1
        · rw [j2] at hs; cases hs
        · cases hv : ({ d0 with key := some key, sender := spk } : Decryptor).verifySender P key spk with
          | err z => rw [hv] at j2; rw [j2] at hs; cases hs
          | panic z => exact verifySender_no_panic P _ _ _ hspk z hv
          | ok a => rw [hv] at j2; rw [j2] at hs; cases hs
  | ok d =>
    refine .inr ?_
    rcases C26_decrypt_total P L rd sk spk d hs wr with ⟨d', wr', g⟩ | ⟨x, d', wr', g⟩
    · exfalso
      obtain ⟨key, r, d'', wr'', g1, g2, g3, g4⟩ := decrypt_any P L rd sk spk d hs wr
      rw [g] at g2
      simp only [Prod.mk.injEq] at g2
      obtain ⟨rfl, rfl, rfl⟩ := g2
      have : ∃ p, wr'.out = wr.out ++ p := by
        cases g3 with
        | endedEmpty mid rest' _ _ hmid hopen hrd hstep heof hau hrest => exact ⟨_, hstep.out⟩
        | endedFull mid fin tr rest' _ _ hmid hopen hf0 hf htr hofin hver hrd hstep heof hau hrest => exact ⟨_, hstep.out⟩
      obtain ⟨p, hp⟩ := this
      exact hno d.auth p d'.rd.content ((C87_exact P L rd sk hl spk wr hw _ _ _).mp ⟨d, d', wr', hs, rfl, g, hp, rfl⟩)
    · exact ⟨d, x, d', wr', rfl, g⟩

/-! ## The stream reader -/

theorem verifyMessage_ne_err (P : Prims) (pk : PublicKey) (m : Bytes) (s : Signature) (x : Err) : verifyMessage P pk m s ≠ .err x := by
  unfold verifyMessage
  split
  · intro h; cases h
  · intro h; cases h

theorem decryptBlock_ne_eof (P : Prims) (d d1 : Decryptor) (i : Nat) : d.decryptBlock P i ≠ (.err .eof, d1) := by
  intro h
  unfold Decryptor.decryptBlock Decryptor.processTrailer at h
  dsimp only at h
  repeat' split at h
  all_goals first | (cases h; done) | (rename_i hv; exact verifyMessage_ne_err _ _ _ _ _ hv)

theorem decryptLoop_ne_eof (P : Prims) : ∀ (fuel : Nat) (d : Decryptor) (wr : Writer) (i : Nat),
    (Decryptor.decryptLoop P fuel d wr i).1 ≠ .err .eof := by
  intro fuel
  induction fuel with
  | zero => intro d wr i h; cases h
  | succ fuel ih =>
    intro d wr i h
    unfold Decryptor.decryptLoop at h
    rcases hb : d.decryptBlock P i with ⟨r, d1⟩
    rw [hb] at h
    match r, h with
    | .err x, h => dsimp only at h; cases h; exact decryptBlock_ne_eof P d d1 i hb
    | .panic x, h => cases h
    | .ok (c, eof), h =>
      dsimp only at h
      generalize (if c.length > 0 then fullwrite c wr else (none, wr)) = q at h
      obtain ⟨_ | x, wr1⟩ := q
      · dsimp only at h
        split at h
        · cases h
        · exact ih _ _ _ h
      · cases h

/-- **C87** for the stream reader. If the input is a container with contents `plain`, every sequence of more than
`plain.length` reads delivers `plain` and then io.EOF; and if any sequence of reads comes to io.EOF, then the input is a
container whose contents are exactly what was read before. -/
theorem C87_reader (P : Prims) (L : Laws P) (rd : Reader) (sk : PrivateKey) (hl : 32 ≤ sk.sk.length) (spk : Option PublicKey)
    (d : Decryptor) (hs : setupDecryptor P rd sk spk = .ok d) (r : EncReader) (d1 : Decryptor)
    (hr : d.newStreamReader = (.ok r, d1)) (caps : List Nat) (hcaps : ∀ c ∈ caps, 0 < c) :
    (∀ plain rest, Contains P rd.content sk spk d.auth plain rest → plain.length < caps.length →
      ∃ (pieces : List Bytes) (k : Nat), (r.readAll P d1 caps).1 = pieces.map .ok ++ List.replicate (k + 1) (.err .eof) ∧ pieces.flatten = plain) ∧
    (∀ (pieces : List Bytes) (k : Nat), (r.readAll P d1 caps).1 = pieces.map .ok ++ List.replicate (k + 1) (.err .eof) →
      ∃ rest, Contains P rd.content sk spk d.auth pieces.flatten rest) := by
  have hw : ({} : Writer).NoFail := by intro k e h; cases h
  obtain ⟨d0, rd', hb', key', ha, hk, hrdy, e1, e2, e3, e4, e5, e6, e7, e8⟩ := setupDecryptor_ok P L rd sk spk d hs
  rcases hdec : d.decrypt P {} with ⟨res, d', wr'⟩
  have hp : ∀ why, res ≠ .panic why := by
    intro why h
    rcases C26_decrypt_total P L rd sk spk d hs {} with ⟨a, b, g⟩ | ⟨x, a, b, g⟩ <;> rw [hdec] at g <;> cases g <;> cases h
  obtain ⟨r', d1', T, g1, g2, g3⟩ := C04_reader_matches_decrypt P d key' e4 e2 e3 {} hw res d' wr' hdec hp
  rw [hr] at g1
  cases g1
  obtain ⟨pieces, k, E, k1, k2, k3, k4, k5, k6, k7, k8⟩ := g3 caps hcaps
  constructor
  · intro plain rest hc hlen
    obtain ⟨dd, dd', ww, j1, j2, j3, j4, j5⟩ := (C87_exact P L rd sk hl spk {} hw d.auth plain rest).mpr hc
    rw [hs] at j1; cases j1
    rw [hdec] at j3; cases j3
    have hT : T = plain := by rw [j4] at g2; simpa using g2.symm
    subst hT
    have hkpos := k5 hlen
    obtain ⟨k', rfl⟩ := Nat.exists_eq_succ_of_ne_zero (n := k) (by omega)
    exact ⟨pieces, k', by rw [k1, k7 rfl], k4 hkpos⟩
  · intro pieces' k' hre
    rw [hre] at k1
    have hlast : (pieces'.map Res.ok ++ List.replicate (k' + 1) (.err .eof) : List (Res Bytes)).getLast? = some (.err .eof) := by
      rw [List.replicate_succ']; simp
    rw [k1] at hlast
    have hkpos : 0 < k := by
      rcases Nat.eq_zero_or_pos k with rfl | h
      · exfalso
        simp only [List.replicate_zero, List.append_nil] at hlast
        have := List.mem_of_getLast? hlast
        simp at this
      · exact h
    obtain ⟨k, rfl⟩ := Nat.exists_eq_succ_of_ne_zero (n := k) (by omega)
    have hE : E = .eof := by
      rw [List.replicate_succ'] at hlast
      simpa using hlast
    subst hE
    have hok : res = .ok () := by
      match res, hp, k8, hdec with
      | .ok (), _, _, _ => rfl
      | .panic w, hp, _, _ => exact absurd rfl (hp w)
      | .err x, _, k8, hdec =>
        exfalso
        have hx := k8 x rfl
        subst hx
        unfold Decryptor.decrypt at hdec
        rw [e4] at hdec
        simp only [e2, e3, Bool.false_eq_true, if_false] at hdec
        exact decryptLoop_ne_eof P _ _ _ _ (by rw [hdec])
    subst hok
    have hpp : pieces'.flatten = T := by
      have hf : ∀ (ps : List Bytes) (n : Nat), ((ps.map Res.ok ++ List.replicate n (.err .eof) : List (Res Bytes)).filterMap
          (fun r => match r with | .ok b => some b | _ => none)) = ps := by
        intro ps n
        rw [List.filterMap_append, List.filterMap_map]
        have : (List.replicate n (Res.err Err.eof : Res Bytes)).filterMap (fun r => match r with | .ok b => some b | _ => none) = [] := by
          rw [List.filterMap_eq_nil_iff]; intro x hx; rw [List.eq_of_mem_replicate hx]
        rw [this, List.append_nil]
        exact List.filterMap_some
      have h1 := hf pieces' (k' + 1)
      rw [k1] at h1
      have h2 := hf pieces k.succ
      rw [h2] at h1
      rw [← h1]; exact k4 hkpos
    refine ⟨d'.rd.content, (C87_exact P L rd sk hl spk {} hw d.auth _ _).mp ⟨d, d', wr', hs, rfl, hdec, ?_, rfl⟩⟩
    rw [g2, hpp]

/-- What follows the container plays no role. -/
theorem Contains.tail (P : Prims) (input : Bytes) (sk : PrivateKey) (spk : Option PublicKey) (auth : Bool) (plain rest x : Bytes)
    (h : Contains P input sk spk auth plain rest) : Contains P (input ++ x) sk spk auth plain (rest ++ x) := by
  obtain ⟨hb, hd, key, body, ho, mid, fin, e, h1, h2, h3, h4⟩ := h
  exact ⟨hb, hd, key, body ++ x, ⟨by rw [ho.layout, List.append_assoc], ho.size, ho.decodes, ho.rules, ho.opened, ho.sender⟩,
    mid, fin, e, by rw [h1]; simp, h2, h3, h4⟩

/-- **C87** (what follows).  What follows the container plays no role: if an input is decrypted, then so is, to the same plaintext and
with the same sender flag, that input with anything behind it, however it is delivered; what follows is left unread. -/
theorem C87_tail (P : Prims) (L : Laws P) (rd rd2 : Reader) (x : Bytes) (hrd2 : rd2.content = rd.content ++ x)
    (sk : PrivateKey) (hl : 32 ≤ sk.sk.length) (spk : Option PublicKey) (wr : Writer) (hw : wr.NoFail) (d d' : Decryptor) (wr' : Writer)
    (h1 : setupDecryptor P rd sk spk = .ok d) (h2 : d.decrypt P wr = (.ok (), d', wr')) :
    ∃ d2 d2' wr2', setupDecryptor P rd2 sk spk = .ok d2 ∧ d2.auth = d.auth ∧ d2.decrypt P wr = (.ok (), d2', wr2') ∧
      wr2'.out = wr'.out ∧ d2'.rd.content = d'.rd.content ++ x := by
  obtain ⟨T, hT⟩ : ∃ T, wr'.out = wr.out ++ T := by
    have := decryptLoop_appends P (d.rd.content.length + 1) d wr 0
    unfold Decryptor.decrypt at h2
    split at h2
    · cases h2
    · split at h2
      · cases h2
      · split at h2
        · cases h2
        · rw [h2] at this
          obtain ⟨T, hT⟩ := this
          exact ⟨T, hT⟩
  have hc := (C87_exact P L rd sk hl spk wr hw d.auth T d'.rd.content).mp ⟨d, d', wr', h1, rfl, h2, hT, rfl⟩
  have hc2 := Contains.tail P _ sk spk _ _ _ x hc
  rw [← hrd2] at hc2
  obtain ⟨d2, d2', wr2', g1, g2, g3, g4, g5⟩ := (C87_exact P L rd2 sk hl spk wr hw d.auth T _).mpr hc2
  exact ⟨d2, d2', wr2', g1, g2, g3, by rw [g4, hT], g5⟩

/-- Non-vacuity: a container for Carol that names Alice as its sender - Carol made it herself out of one from Alice (C14) - with
other bytes behind it. -/
example : ∃ input rest, rest ≠ [] ∧ Contains toyPrims input Demo.carol (some Demo.alice.pub) true [9, 9, 9] rest := by
  obtain ⟨e, bytes, hs⟩ := Demo.sending_stream
  have hrd : ∀ b : Bytes, (⟨[b], .eof, false⟩ : Reader).content = b := by intro b; simp [Reader.content]
  rcases C14_replace_refuted toyPrims toyLaws _ _ _ _ e _ _ bytes hs _ _ _ Demo.receiving [[9, 9, 9]] (by decide)
    ⟨[headerPart e.hdr ++ toyPrims.sha256 (headerPart e.hdr) ++
      (sealedMid toyPrims (sessionKeys toyPrims Demo.coins.key (toyPrims.sha256 (headerPart e.hdr))).2.1
        (sessionKeys toyPrims Demo.coins.key (toyPrims.sha256 (headerPart e.hdr))).1 0 [[9, 9, 9]] ++ [0x80, 0, 0, 0])], .eof,
      false⟩ (by simp [Reader.content]) {} (by intro k e h; cases h) with g | ⟨d, d', out', g1, g2, g3, g4⟩
  · exact absurd g Demo.no_forgery
  · have hauth : d.auth = true := by
      obtain ⟨key, r, d'', wr'', j1, j2, j3, j4⟩ := decrypt_any _ toyLaws _ _ _ d g1 {}
      rw [g2] at j2
      cases j2
      cases j3 with
      | endedEmpty mid rest' _ _ hmid hopen hrd hstep heof hau hrest => rw [← hau, g4]
      | endedFull mid fin tr rest' _ _ hmid hopen hf0 hf htr hofin hver hrd hstep heof hau hrest => rw [← hau, g4]
    have := (C87_exact _ toyLaws _ Demo.carol (by decide) _ {} (by intro k e h; cases h) true [9, 9, 9] d'.rd.content).mp
      ⟨d, d', out', g1, hauth, g2, by rw [g3]; rfl, rfl⟩
    exact ⟨_, _, by simp, Contains.tail _ _ _ _ _ _ _ [1, 2, 3] this⟩

end Sigtool
