import Verif.Props.Auth
/-!
# C15, C16, C19, C20, C55, C56: setting up a decryptor
-/

namespace Sigtool
open Spec (encryptChunks streamChunks lengthWord sealedChunk sealedBody macInput headerPart sessionKeys container
  headerBytes wrappingKey wrapFor unwrapAs WrapForgery ChunkForgery senderSeal senderStatement ValidSignature unsigned
  TrailerForgery)

/-- One chunk changes only the input position and the running HMAC. -/
theorem decryptBlock_keeps (P : Prims) (d : Decryptor) (i : Nat) :
    (d.decryptBlock P i).2.key = d.key ∧ (d.decryptBlock P i).2.stream = d.stream ∧ (d.decryptBlock P i).2.eof = d.eof ∧
      (d.decryptBlock P i).2.auth = d.auth := by
  obtain ⟨hdr, rd, hdrsum, ae, hmac, sender, bufLen, nonce, key, auth, eof, stream⟩ := d
  unfold Decryptor.decryptBlock Decryptor.processTrailer
  dsimp only
  cases ae with
  | none => exact ⟨rfl, rfl, rfl, rfl⟩
  | some k =>
    dsimp only
    generalize readFull rd 4 = r
    obtain ⟨b, o, rd1⟩ := r
    cases o with
    | some x => exact ⟨rfl, rfl, rfl, rfl⟩
    | none =>
      dsimp only
      split
      · exact ⟨rfl, rfl, rfl, rfl⟩
      · split
        · split <;> exact ⟨rfl, rfl, rfl, rfl⟩
        · split
          · exact ⟨rfl, rfl, rfl, rfl⟩
          · generalize readFull rd1 _ = r
            obtain ⟨ct, o, rd2⟩ := r
            cases o with
            | some x => exact ⟨rfl, rfl, rfl, rfl⟩
            | none =>
              dsimp only
              split
              · exact ⟨rfl, rfl, rfl, rfl⟩
              · split
                · exact ⟨rfl, rfl, rfl, rfl⟩
                · cases hmac with
                  | none => exact ⟨rfl, rfl, rfl, rfl⟩
                  | some hm =>
                    dsimp only
                    split
                    · generalize readFull rd2 64 = r
                      obtain ⟨tr, o, rd3⟩ := r
                      cases o with
                      | some x => exact ⟨rfl, rfl, rfl, rfl⟩
                      | none =>
                        dsimp only
                        split
                        · exact ⟨rfl, rfl, rfl, rfl⟩
                        · cases sender with
                          | none => exact ⟨rfl, rfl, rfl, rfl⟩
                          | some pk => dsimp only; split <;> exact ⟨rfl, rfl, rfl, rfl⟩
                    · exact ⟨rfl, rfl, rfl, rfl⟩

/-- What `NewDecryptor` returns has no key yet. -/
theorem newDecryptor_fresh (P : Prims) (rd rd' : Reader) (d0 : Decryptor) (h : newDecryptor P rd = (.ok d0, rd')) :
    d0.key = none ∧ d0.auth = false ∧ d0.eof = false ∧ d0.stream = false ∧ d0.ae = none ∧ d0.hmac = none ∧
      d0.sender = none := by
  obtain ⟨hb, ha⟩ := newDecryptor_ok P rd d0 rd' h
  rw [ha.state]
  exact ⟨rfl, rfl, rfl, rfl, rfl, rfl, rfl⟩

/-- `SetPrivateKey` in one formula. -/
theorem setPrivateKey_cases (P : Prims) (d0 : Decryptor) (sk : PrivateKey) (spk : Option PublicKey) :
    (∃ x, d0.findKey P sk d0.hdr.keys = .err x ∧ d0.setPrivateKey P sk spk = (.err x, d0)) ∨
    (∃ x, d0.findKey P sk d0.hdr.keys = .panic x ∧ d0.setPrivateKey P sk spk = (.panic x, d0)) ∨
    (d0.findKey P sk d0.hdr.keys = .ok none ∧ d0.setPrivateKey P sk spk = (.err .badKey, d0)) ∨
    (∃ key, d0.findKey P sk d0.hdr.keys = .ok (some key) ∧ d0.setPrivateKey P sk spk =
      (match ({ d0 with key := some key, sender := spk } : Decryptor).verifySender P key spk with
       | .err x => (.err (.wrap "decrypt" x), { d0 with key := some key, sender := spk })
       | .panic x => (.panic x, { d0 with key := some key, sender := spk })
       | .ok auth => (.ok (), { d0 with key := some key, sender := spk, auth := auth
                                        nonce := (sessionKeys P key d0.hdrsum).1, ae := some (sessionKeys P key d0.hdrsum).2.1
                                        hmac := some ((sessionKeys P key d0.hdrsum).2.2, [])
                                        bufLen := d0.hdr.chunkSize + 16 }))) := by
  unfold Decryptor.setPrivateKey
  cases d0.findKey P sk d0.hdr.keys with
  | err x => left; exact ⟨x, rfl, rfl⟩
  | panic x => right; left; exact ⟨x, rfl, rfl⟩
  | ok o =>
    right; right
    cases o with
    | none => left; exact ⟨rfl, rfl⟩
    | some key =>
      right
      refine ⟨key, rfl, ?_⟩
      dsimp only
      cases ({ d0 with key := some key, sender := spk } : Decryptor).verifySender P key spk with
      | err x => rfl
      | panic x => rfl
      | ok a => simp only [dataKeys_eq]

/-- **C16** For every input that `NewDecryptor` accepted, every private key and sender key: if `SetPrivateKey` found a root
key `key`, then what it returns and what `AuthenticatedSender()` says afterwards is decided by the header's sender field
as follows: it does not open: error, not authenticated; it opens to 64 zero bytes: nil, not authenticated; it opens to a
signature and no sender key is given: ErrNoSenderPK; it opens to a signature that is not by the given key: ErrBadSender; it
opens to a signature by the given key over SHA-256(magic, version, ephemeral key, salt, root key): nil, authenticated. -/
theorem C16_authenticated (P : Prims) (rd rd' : Reader) (d0 : Decryptor) (h : newDecryptor P rd = (.ok d0, rd'))
    (sk : PrivateKey) (spk : Option PublicKey) (hspk : ∀ pk, spk = some pk → pk.pk.length = 32)
    (res : Res Unit) (d : Decryptor) (hset : d0.setPrivateKey P sk spk = (res, d)) (key : Bytes) (hkey : d.key = some key) :
    let opened := P.aeadOpen (senderSeal P key d0.hdr.salt).1 (senderSeal P key d0.hdr.salt).2 d0.hdr.sender []
    (opened = none → (∃ x, res = .err x) ∧ d.auth = false) ∧
    (opened = some unsigned → res = .ok () ∧ d.auth = false) ∧
    (∀ sig, opened = some sig → sig ≠ unsigned →
      (spk = none → res = .err (.wrap "decrypt" .noSenderPK) ∧ d.auth = false) ∧
      (∀ pk, spk = some pk →
        (ValidSignature P pk.pk (senderStatement P d0.hdr.pk d0.hdr.salt key) sig → res = .ok () ∧ d.auth = true) ∧
        (¬ ValidSignature P pk.pk (senderStatement P d0.hdr.pk d0.hdr.salt key) sig →
          res = .err (.wrap "decrypt" .badSender) ∧ d.auth = false))) := by
  obtain ⟨hk0, ha0, _⟩ := newDecryptor_fresh P rd rd' d0 h
  rcases setPrivateKey_cases P d0 sk spk with ⟨x, h1, h2⟩ | ⟨x, h1, h2⟩ | ⟨h1, h2⟩ | ⟨key', h1, h2⟩
  · rw [hset] at h2; cases h2; rw [hk0] at hkey; cases hkey
  · rw [hset] at h2; cases h2; rw [hk0] at hkey; cases hkey
  · rw [hset] at h2; cases h2; rw [hk0] at hkey; cases hkey
  · have hkk : key' = key := by
      rw [hset] at h2
      revert h2
      cases ({ d0 with key := some key', sender := spk } : Decryptor).verifySender P key' spk with
      | err x => intro h2; cases h2; exact Option.some.inj hkey
      | panic x => intro h2; cases h2; exact Option.some.inj hkey
      | ok a => intro h2; cases h2; exact Option.some.inj hkey
    subst hkk
    rw [hset] at h2
    unfold Decryptor.verifySender at h2
    dsimp only at h2 ⊢
    rw [senderKey_eq] at h2
    cases ho : P.aeadOpen (senderSeal P key' d0.hdr.salt).1 (senderSeal P key' d0.hdr.salt).2 d0.hdr.sender [] with
    | none =>
      rw [ho] at h2
      cases h2
      exact ⟨fun _ => ⟨⟨_, rfl⟩, ha0⟩, by simp, by simp⟩
    | some sig =>
      rw [ho] at h2
      dsimp only at h2
      by_cases hz : sig = unsigned
      · subst hz
        have hc : ctEq (List.replicate 64 0) unsigned = true := ctEq_self _
        rw [hc] at h2
        simp only [Bool.not_true, Bool.false_eq_true, if_false] at h2
        cases h2
        refine ⟨by simp, fun _ => ⟨rfl, ha0⟩, ?_⟩
        intro sig hs hne
        cases hs
        exact absurd rfl hne
      · have hc : ctEq (List.replicate 64 0) sig = false := by
          unfold ctEq; exact beq_false_of_ne (fun hh => hz hh.symm)
        rw [hc] at h2
        simp only [Bool.not_false, if_true] at h2
        refine ⟨by simp, by simp [hz], ?_⟩
        intro sig' hs hne
        cases hs
        refine ⟨?_, ?_⟩
        · rintro rfl
          cases h2
          exact ⟨rfl, ha0⟩
        · rintro pk rfl
          simp only [verifyMessage, hspk pk rfl, ne_eq, not_true_eq_false, if_false, Res.bind_ok] at h2
          unfold ValidSignature
          unfold signDigest senderDigest at h2
          unfold senderStatement
          have e1 : magic = ascii "SigTool" := rfl
          have e2 : version = 3 := rfl
          rw [e1, e2] at h2
          cases hv : P.edVerify pk.pk (P.sha512 (ascii "sigtool signed message" ++ P.sha256 (ascii "SigTool" ++ [3] ++ d0.hdr.pk ++
              d0.hdr.salt ++ key'))) sig with
          | true =>
            rw [hv] at h2
            simp only [if_true] at h2
            cases h2
            exact ⟨fun _ => ⟨rfl, rfl⟩, fun hn => absurd rfl hn⟩
          | false =>
            rw [hv] at h2
            simp only [Bool.false_eq_true, if_false] at h2
            cases h2
            exact ⟨fun hn => (by cases hn), fun _ => ⟨rfl, ha0⟩⟩

/-- **C15**, the part that holds: if `SetPrivateKey(sk, pk)` with a sender key returns nil, then the header carries a
signature that verifies under `pk` and `AuthenticatedSender()` is true, or the header is unsigned and
`AuthenticatedSender()` is false.  Missing: an error in the second case (`C15_unsigned_refuted`). -/
theorem C15_sender_partial (P : Prims) (rd rd' : Reader) (d0 : Decryptor) (h : newDecryptor P rd = (.ok d0, rd'))
    (sk : PrivateKey) (pk : PublicKey) (d : Decryptor) (hset : d0.setPrivateKey P sk (some pk) = (.ok (), d)) :
    ∃ key sig, d.key = some key ∧
      P.aeadOpen (senderSeal P key d0.hdr.salt).1 (senderSeal P key d0.hdr.salt).2 d0.hdr.sender [] = some sig ∧
      ((d.auth = true ∧ ValidSignature P pk.pk (senderStatement P d0.hdr.pk d0.hdr.salt key) sig) ∨
       (d.auth = false ∧ sig = unsigned)) := by
  obtain ⟨hk0, ha0, _⟩ := newDecryptor_fresh P rd rd' d0 h
  obtain ⟨key, hk⟩ := setPrivateKey_ok P d0 d sk (some pk) hset
  obtain ⟨sig, h1, h2⟩ := verifySender_ok P _ _ _ _ hk.verified
  refine ⟨key, sig, by rw [hk.state], h1, ?_⟩
  rcases h2 with ⟨h3, h4⟩ | ⟨h3, h4, pk', h5, _, h7⟩
  · right; exact ⟨by rw [h4]; exact ha0, h3⟩
  · left
    cases h5
    refine ⟨h4, h7⟩

/-- **C15** is false of the code: for every *unsigned* sending session and every listed recipient, `SetPrivateKey` with any
sender key at all returns nil (with `AuthenticatedSender()` false), and `Decrypt` then delivers the content. -/
theorem C15_unsigned_refuted (P : Prims) (L : Laws P) (blk : Nat) (c : EncCoins)
    (rcpts : List (PublicKey × Bytes)) (e : Encryptor)
    (plain : Bytes) (chunks : List Bytes) (bytes : Bytes) (h : Sending P none blk c rcpts e plain chunks bytes)
    (sk : PrivateKey) (seed : Bytes) (pk : PublicKey) (hr : Receiving P none rcpts sk seed (some pk))
    (rd2 : Reader) (hrd2 : rd2.content = bytes) (out : Writer) (hout : out.NoFail) :
    (∃ r ∈ rcpts, WrapForgery P (clamp c.csk) c.salt c.key r.1.pk r.2 seed) ∨
    ∃ d d' out', setupDecryptor P rd2 sk (some pk) = .ok d ∧ d.auth = false ∧
      d.decrypt P out = (.ok (), d', out') ∧ out'.out = out.out ++ plain := by
  obtain ⟨epk, ws, coin, hs, hf, e4, e5, hcoin, hbytes, hck, hfl, hne⟩ := h.facts L
  rcases h.opens L hr rd2 _ (by rw [hrd2]; exact hbytes) with g | ⟨d, g1, g2⟩
  · exact Or.inl g
  · right
    rw [← List.append_nil (e.trailerOf P (e.keys P).2.2 (macInput chunks) coin)] at g2
    obtain ⟨d', out', m1, m2, _⟩ := opened_decrypts L hs h.hsender hr.named _ coin [] hcoin hck g2 out hout
    exact ⟨d, d', out', g1, g2.auth, m1, by rw [m2, hfl]⟩

/-- **C19** Usage-order guards, for every decryptor state reachable or not: without a key, `Decrypt` and `NewStreamReader`
return ErrNoKey; after `NewStreamReader`, `Decrypt` returns ErrDecStarted; after the end was reached, `NewStreamReader`
returns io.EOF, and so does `Decrypt` unless a stream reader was made.  In each case nothing is read, nothing is written,
and the decryptor is unchanged.  A decryptor fresh from `NewDecryptor` has no key; a successful `NewStreamReader` marks it
as a stream; a successful `Decrypt` marks the end. -/
theorem C19_guards (P : Prims) (d : Decryptor) (wr : Writer) :
    (d.key = none → d.decrypt P wr = (.err .noKey, d, wr) ∧ d.newStreamReader = (.err .noKey, d)) ∧
    (d.key ≠ none → d.stream = true → d.decrypt P wr = (.err .decStarted, d, wr)) ∧
    (d.key ≠ none → d.stream = false → d.eof = true → d.decrypt P wr = (.err .eof, d, wr)) ∧
    (d.key ≠ none → d.eof = true → d.newStreamReader = (.err .eof, d)) ∧
    (∀ rd rd', newDecryptor P rd = (.ok d, rd') → d.key = none) ∧
    (∀ r d', d.newStreamReader = (.ok r, d') → d'.key = d.key ∧ d'.stream = true ∧ d'.rd = d.rd ∧ d.key ≠ none) := by
  refine ⟨?_, ?_, ?_, ?_, ?_, ?_⟩
  · intro h
    unfold Decryptor.decrypt Decryptor.newStreamReader
    rw [h]; exact ⟨rfl, rfl⟩
  · intro h hs
    unfold Decryptor.decrypt
    cases hk : d.key with
    | none => exact absurd hk h
    | some k => simp [hs]
  · intro h hs he
    unfold Decryptor.decrypt
    cases hk : d.key with
    | none => exact absurd hk h
    | some k => simp [hs, he]
  · intro h he
    unfold Decryptor.newStreamReader
    cases hk : d.key with
    | none => exact absurd hk h
    | some k => simp [he]
  · intro rd rd' h; exact (newDecryptor_fresh P rd rd' d h).1
  · intro r d' h
    unfold Decryptor.newStreamReader at h
    cases hk : d.key with
    | none => rw [hk] at h; cases h
    | some k =>
      rw [hk] at h
      dsimp only at h
      split at h
      · cases h
      · cases h; exact ⟨rfl, rfl, rfl, by simp⟩

/-- **C19**, histories: for every input and keys, after `NewDecryptor`, `SetPrivateKey`, `Decrypt` returned nil, each
further `Decrypt` and `NewStreamReader` returns io.EOF and does nothing; after `NewStreamReader` returned a reader, and any
number of reads, `Decrypt` returns ErrDecStarted and does nothing. -/
theorem C19_after_success (P : Prims) (L : Laws P) (rd : Reader) (sk : PrivateKey) (spk : Option PublicKey) (d : Decryptor)
    (h : setupDecryptor P rd sk spk = .ok d) (wr : Writer) :
    (∀ d' wr', d.decrypt P wr = (.ok (), d', wr') →
      (∀ wr2, d'.decrypt P wr2 = (.err .eof, d', wr2)) ∧ d'.newStreamReader = (.err .eof, d')) ∧
    (∀ r d1, d.newStreamReader = (.ok r, d1) → ∀ caps : List Nat, ∀ wr2,
      (r.readAll P d1 caps).2.1.decrypt P wr2 = (.err .decStarted, (r.readAll P d1 caps).2.1, wr2)) := by
  obtain ⟨d0, rd', hb, key, ha, hk, hr, h1, h2, h3, h4, h5, h6, h7, h8⟩ := setupDecryptor_ok P L rd sk spk d h
  refine ⟨?_, ?_⟩
  · intro d' wr' hdec
    have key_stream : d'.key = d.key ∧ d'.stream = d.stream ∧ d'.eof = true := by
      unfold Decryptor.decrypt at hdec
      rw [h4] at hdec
      simp only [h2, h3, Bool.false_eq_true, if_false] at hdec
      have gen : ∀ (fuel : Nat) (d : Decryptor) (wr : Writer) (i : Nat) (d' : Decryptor) (wr' : Writer),
          Decryptor.decryptLoop P fuel d wr i = (.ok (), d', wr') →
          d'.key = d.key ∧ d'.stream = d.stream ∧ d'.eof = true := by
        intro fuel
        induction fuel with
        | zero => intro d wr i d' wr' h; unfold Decryptor.decryptLoop at h; cases h
        | succ fuel ih =>
          intro d wr i d' wr' h
          unfold Decryptor.decryptLoop at h
          have hf := decryptBlock_keeps P d i
          cases hb : d.decryptBlock P i with
          | mk r d1 =>
            rw [hb] at h hf
            dsimp only at hf
            cases r with
            | err x => cases h
            | panic x => cases h
            | ok ce =>
              obtain ⟨c, eof⟩ := ce
              dsimp only at h
              generalize (if c.length > 0 then fullwrite c wr else (none, wr)) = q at h
              obtain ⟨o, wr1⟩ := q
              cases o with
              | some x => cases h
              | none =>
                dsimp only at h
                split at h
                · cases h
                  exact ⟨hf.1, hf.2.1, rfl⟩
                · obtain ⟨k1, k2, k3⟩ := ih _ _ _ _ _ h
                  exact ⟨k1.trans hf.1, k2.trans hf.2.1, k3⟩
      obtain ⟨g1, g2, g3⟩ := gen _ _ _ _ _ _ hdec
      exact ⟨by rw [g1], by rw [g2], g3⟩
    obtain ⟨g1, g2, g3⟩ := key_stream
    have hkn : d'.key ≠ none := by rw [g1, h4]; simp
    have hs : d'.stream = false := by rw [g2, h2]
    exact ⟨fun wr2 => (C19_guards P d' wr2).2.2.1 hkn hs g3, (C19_guards P d' wr).2.2.2.1 hkn g3⟩
  · intro r d1 hn caps wr2
    have g := (C19_guards P d wr).2.2.2.2.2 r d1 hn
    have gen : ∀ (caps : List Nat) (r : EncReader) (d1 : Decryptor), d1.key ≠ none → d1.stream = true →
        (r.readAll P d1 caps).2.1.key ≠ none ∧ (r.readAll P d1 caps).2.1.stream = true := by
      intro caps
      induction caps with
      | nil => intro r d1 a b; exact ⟨a, b⟩
      | cons cap caps ih =>
        intro r d1 a b
        have step : (r.read P d1 cap).2.1.key ≠ none ∧ (r.read P d1 cap).2.1.stream = true := by
          unfold EncReader.read
          have hf := decryptBlock_keeps P d1 r.blk
          cases r.err with
          | some x => exact ⟨a, b⟩
          | none =>
            dsimp only
            split
            · split
              · exact ⟨a, b⟩
              · cases hb : d1.decryptBlock P r.blk with
                | mk q d2 =>
                  rw [hb] at hf
                  dsimp only at hf
                  have a' : d2.key ≠ none := by rw [hf.1]; exact a
                  have b' : d2.stream = true := by rw [hf.2.1]; exact b
                  cases q with
                  | err x => exact ⟨a', b'⟩
                  | panic x => exact ⟨a', b'⟩
                  | ok ce => dsimp only; split <;> exact ⟨a', b'⟩
            · split <;> exact ⟨a, b⟩
        have := ih (r.read P d1 cap).2.2 (r.read P d1 cap).2.1 step.1 step.2
        unfold EncReader.readAll
        exact this
    obtain ⟨k1, k2⟩ := gen caps r d1 (by rw [g.1]; exact g.2.2.2) g.2.1
    exact (C19_guards P _ wr2).2.1 k1 k2

/-- **C20**, the part that holds: if `SetPrivateKey` on a new decryptor failed because no wrapped key opens (ErrBadKey, or
an error while unwrapping), `Decrypt` returns ErrNoKey and writes nothing, `NewStreamReader` too.  If it failed after a
wrapped key had opened (the error is then the wrapped sender check error), see `C20_failed_sender_refuted`. -/
theorem C20_failed_key_partial (P : Prims) (rd rd' : Reader) (d0 : Decryptor) (h : newDecryptor P rd = (.ok d0, rd'))
    (sk : PrivateKey) (spk : Option PublicKey) (x : Err) (d : Decryptor) (hset : d0.setPrivateKey P sk spk = (.err x, d))
    (hx : ∀ y, x ≠ .wrap "decrypt" y) (out : Writer) :
    d.decrypt P out = (.err .noKey, d, out) ∧ d.newStreamReader = (.err .noKey, d) := by
  obtain ⟨hk0, _⟩ := newDecryptor_fresh P rd rd' d0 h
  have hk : d.key = none := by
    rcases setPrivateKey_cases P d0 sk spk with ⟨x', h1, h2⟩ | ⟨x', h1, h2⟩ | ⟨h1, h2⟩ | ⟨key', h1, h2⟩
    · rw [hset] at h2; cases h2; exact hk0
    · rw [hset] at h2; cases h2
    · rw [hset] at h2; cases h2; exact hk0
    · rw [hset] at h2
      revert h2
      cases ({ d0 with key := some key', sender := spk } : Decryptor).verifySender P key' spk with
      | err y => intro h2; cases h2; exact absurd rfl (hx y)
      | panic y => intro h2; cases h2
      | ok a => intro h2; cases h2
  exact (C19_guards P d out).1 hk

/-- **C20** is false of the code: whenever `SetPrivateKey` on a new decryptor fails in the sender check, i.e. with an error
of the form `decrypt: ...`, the decryptor keeps the root key but has no cipher, and `Decrypt` crashes (nil pointer). -/
theorem C20_failed_sender_refuted (P : Prims) (rd rd' : Reader) (d0 : Decryptor) (h : newDecryptor P rd = (.ok d0, rd'))
    (sk : PrivateKey) (spk : Option PublicKey) (y : Err) (d : Decryptor)
    (hset : d0.setPrivateKey P sk spk = (.err (.wrap "decrypt" y), d))
    (hy : d0.findKey P sk d0.hdr.keys ≠ .err (.wrap "decrypt" y)) (out : Writer) :
    d.decrypt P out = (.panic "nil pointer dereference", d, out) := by
  obtain ⟨hk0, ha0, he0, hs0, hae0, _, _⟩ := newDecryptor_fresh P rd rd' d0 h
  rcases setPrivateKey_cases P d0 sk spk with ⟨x', h1, h2⟩ | ⟨x', h1, h2⟩ | ⟨h1, h2⟩ | ⟨key', h1, h2⟩
  · rw [hset] at h2; cases h2; exact absurd h1 hy
  · rw [hset] at h2; cases h2
  · rw [hset] at h2; cases h2
  · rw [hset] at h2
    have hd : d = { d0 with key := some key', sender := spk } := by
      revert h2
      cases ({ d0 with key := some key', sender := spk } : Decryptor).verifySender P key' spk with
      | err y => intro h2; cases h2; rfl
      | panic y => intro h2; cases h2
      | ok a => intro h2; cases h2
    subst hd
    unfold Decryptor.decrypt
    simp only [hs0, he0, Bool.false_eq_true, if_false]
    unfold Decryptor.decryptLoop Decryptor.decryptBlock
    simp only [hae0]

/-- The crash happens for every signed container opened by a listed recipient without naming a sender. -/
theorem C20_crash_reachable (P : Prims) (L : Laws P) (s : PrivateKey) (blk : Nat) (c : EncCoins)
    (rcpts : List (PublicKey × Bytes)) (e : Encryptor)
    (plain : Bytes) (chunks : List Bytes) (bytes : Bytes) (h : Sending P (some s) blk c rcpts e plain chunks bytes)
    (sk : PrivateKey) (seed : Bytes) (hseed : seed.length = 32) (hsk : sk.sk = seed ++ P.edPub seed)
    (hpk : sk.pub.pk = P.edPub seed) (hmem : ∃ r ∈ rcpts, r.1.pk = sk.pub.pk)
    (rd2 : Reader) (hrd2 : rd2.content = bytes) :
    (∃ r ∈ rcpts, WrapForgery P (clamp c.csk) c.salt c.key r.1.pk r.2 seed) ∨
    ∃ d0 rd' d, newDecryptor P rd2 = (.ok d0, rd') ∧
      d0.setPrivateKey P sk none = (.err (.wrap "decrypt" .noSenderPK), d) ∧
      ∀ out, d.decrypt P out = (.panic "nil pointer dereference", d, out) := by
  obtain ⟨epk, ws, coin, hs, hf, e4, e5, hcoin, hbytes, hck, hfl, hne⟩ := h.facts L
  obtain ⟨v, hv1, hv2, hv3⟩ := headerBytes_len P L (some s) blk c rcpts e epk ws h.coins h.nonces hs
  have hcount := h.count
  have hrne : rcpts ≠ [] := by rintro rfl; obtain ⟨r, hr, _⟩ := hmem; simp at hr
  obtain ⟨rd1, h1, h2, h3⟩ := newDecryptor_accepts P L e.hdr _ rd2 hf.clean
    (by have := hf.chunkMax; omega) (by omega) (by omega)
    (checkHeader_setup P L (some s) blk c rcpts e epk ws h.coins hs (chooseBlock_lt blk h.hblk) hrne)
    (by rw [hrd2]; exact hbytes)
  have q1 : e.hdr.pk = epk := by rw [hs.enc]
  have q2 : e.hdr.salt = c.salt := by rw [hs.enc]
  have q3 : e.hdr.keys = ws := by rw [hs.enc]
  rcases findKey_own P L c h.coins sk seed epk hseed hsk hpk hs.hepk
    { hdr := e.hdr, rd := rd1, hdrsum := P.sha256 (headerPart e.hdr) } q1 q2 rcpts ws hs.wrapped with
    g | ⟨_, g⟩ | ⟨g, _⟩
  · exact Or.inl g
  · right
    have hset : ({ hdr := e.hdr, rd := rd1, hdrsum := P.sha256 (headerPart e.hdr) } : Decryptor).setPrivateKey P sk none =
        (.err (.wrap "decrypt" .noSenderPK),
          { hdr := e.hdr, rd := rd1, hdrsum := P.sha256 (headerPart e.hdr), key := some c.key, sender := none }) := by
      have hl := senderKey_len P L c.key c.salt
      have hsl := senderSig_len P L (some s) epk c (SenderGenuine.sized L h.hsender)
      have ho := L.open_seal (senderKey P c.key c.salt).1 (senderKey P c.key c.salt).2 (senderSig P (some s) epk c) []
        hl.1 hl.2 (by omega)
      have hz : ctEq (List.replicate 64 0) (senderSig P (some s) epk c) = false := by
        rw [ctEq, beq_eq_false_iff_ne]
        intro hh
        exact L.ed_sign_ne_zero s.sk _ (Genuine_sk_len P L s (h.hsender s rfl)) (by simpa [senderSig] using hh.symm)
      have hsf : e.hdr.sender = P.aeadSeal (senderKey P c.key c.salt).1 (senderKey P c.key c.salt).2
        (senderSig P (some s) epk c) [] := by rw [hs.enc]
      unfold Decryptor.setPrivateKey
      dsimp only
      rw [q3, g]
      dsimp only
      unfold Decryptor.verifySender
      simp only [q2, hsf, ho, hz, Bool.not_false, if_true]
    refine ⟨_, rd1, _, h1, hset, ?_⟩
    intro out
    refine C20_failed_sender_refuted P rd2 rd1 _ h1 sk none _ _ hset ?_ out
    dsimp only
    rw [q3, g]; simp
  · obtain ⟨r, hr1, hr2⟩ := hmem
    rw [hpk] at hr2
    exact absurd hr2 (g r hr1)

/-- **C56** For every sending session with at least one recipient, a key pair that is not among the recipients is refused by
`SetPrivateKey` with ErrBadKey, whatever sender key is named - or some wrapped key is a forgery.  Afterwards `Decrypt`
returns ErrNoKey. -/
theorem C56_only_recipients (P : Prims) (L : Laws P) (sender : Option PrivateKey) (blk : Nat) (c : EncCoins)
    (rcpts : List (PublicKey × Bytes)) (hrne : rcpts ≠ []) (e : Encryptor)
    (plain : Bytes) (chunks : List Bytes) (bytes : Bytes) (h : Sending P sender blk c rcpts e plain chunks bytes)
    (sk : PrivateKey) (seed : Bytes) (hseed : seed.length = 32) (hsk : sk.sk = seed ++ P.edPub seed)
    (hpk : sk.pub.pk = P.edPub seed) (hmem : ∀ r ∈ rcpts, r.1.pk ≠ sk.pub.pk) (spk : Option PublicKey)
    (rd2 : Reader) (hrd2 : rd2.content = bytes) :
    (∃ r ∈ rcpts, WrapForgery P (clamp c.csk) c.salt c.key r.1.pk r.2 seed) ∨
    ∃ d0 rd', newDecryptor P rd2 = (.ok d0, rd') ∧ d0.setPrivateKey P sk spk = (.err .badKey, d0) ∧
      ∀ out, d0.decrypt P out = (.err .noKey, d0, out) := by
  obtain ⟨epk, ws, coin, hs, hf, e4, e5, hcoin, hbytes, hck, hfl, hne⟩ := h.facts L
  obtain ⟨v, hv1, hv2, hv3⟩ := headerBytes_len P L sender blk c rcpts e epk ws h.coins h.nonces hs
  have hcount := h.count
  obtain ⟨rd1, h1, h2, h3⟩ := newDecryptor_accepts P L e.hdr _ rd2 hf.clean
    (by have := hf.chunkMax; omega) (by omega) (by omega)
    (checkHeader_setup P L sender blk c rcpts e epk ws h.coins hs (chooseBlock_lt blk h.hblk) hrne)
    (by rw [hrd2]; exact hbytes)
  have q1 : e.hdr.pk = epk := by rw [hs.enc]
  have q2 : e.hdr.salt = c.salt := by rw [hs.enc]
  have q3 : e.hdr.keys = ws := by rw [hs.enc]
  rcases findKey_own P L c h.coins sk seed epk hseed hsk hpk hs.hepk
    { hdr := e.hdr, rd := rd1, hdrsum := P.sha256 (headerPart e.hdr) } q1 q2 rcpts ws hs.wrapped with
    g | ⟨⟨r, g1, g2⟩, _⟩ | ⟨_, g⟩
  · exact Or.inl g
  · exact absurd (g2.trans hpk.symm) (hmem r g1)
  · right
    refine ⟨_, rd1, h1, ?_, fun out => ((C19_guards P _ out).1 rfl).1⟩
    unfold Decryptor.setPrivateKey
    dsimp only
    rw [q3, g]

/-- **C55**, the part that holds: for every sending session whose last chunk is not empty, every listed recipient and any
bytes `junk` after the container: a successful `Decrypt` has consumed exactly the container, and `junk` is what is left in
the reader.  Missing, and false of the code: an empty last chunk (every
`Encrypt` of a multiple of the block size, also of empty input); then the last 80 bytes of the container are left unread. -/
theorem C55_consumes_partial (P : Prims) (L : Laws P)
    (sender : Option PrivateKey) (blk : Nat) (c : EncCoins) (rcpts : List (PublicKey × Bytes)) (e : Encryptor)
    (plain : Bytes) (chunks : List Bytes) (bytes : Bytes) (h : Sending P sender blk c rcpts e plain chunks bytes)
    (sk : PrivateKey) (seed : Bytes) (spk : Option PublicKey) (hr : Receiving P sender rcpts sk seed spk)
    (rd2 : Reader) (junk : Bytes) (hrd2 : rd2.content = bytes ++ junk)
    (d : Decryptor) (hd : setupDecryptor P rd2 sk spk = .ok d) (out : Writer) (d' : Decryptor) (out' : Writer)
    (hdec : d.decrypt P out = (.ok (), d', out')) :
    (∃ r ∈ rcpts, WrapForgery P (clamp c.csk) c.salt c.key r.1.pk r.2 seed) ∨
    (chunks.getLast? ≠ some [] ∧ d'.rd.content = junk) ∨
    (chunks.getLast? = some [] ∧ ∃ left, left.length = 80 ∧ d'.rd.content = left ++ junk ∧ left <:+ bytes) := by
  obtain ⟨epk, ws, coin, hs, hf, e4, e5, hcoin, hbytes, hck, hfl, hne⟩ := h.facts L
  rcases h.opens L hr rd2 (sealedBody P (e.keys P).2.1 (e.keys P).1 0 chunks ++
      (e.trailerOf P (e.keys P).2.2 (macInput chunks) coin ++ junk))
    (by rw [hrd2, hbytes]; simp) with g | ⟨d1, g1, g2⟩
  · exact Or.inl g
  right
  rw [hd] at g1
  cases g1
  obtain ⟨r, d2, wr2, k1, k2⟩ := opened_any P L d _ _ _ g2.ready g2.key g2.stream g2.eof out
  rw [hdec] at k1
  simp only [Prod.mk.injEq] at k1
  obtain ⟨rfl, rfl, rfl⟩ := k1
  have hcs := g2.ready.chunk
  have hkl := g2.ready.key
  have hnl := g2.ready.nonce
  have htl := trailerOf_len P L e hf.sender (e.keys P).2.2 (macInput chunks) coin hcoin
  have hcap : d.hdr.chunkSize = e.hdr.chunkSize := by rw [g2.hdr]
  have hbody := g2.body
  rw [← g2.nonce] at hbody
  cases k2 with
  | endedEmpty mid rest _ _ hm ho hrd hw _ _ hrest =>
    right
    rw [hbody] at hrd
    obtain ⟨t, t1, t2, t3, u, t4⟩ := parse_prefix P L _ _ hkl hnl e.hdr.chunkSize (by omega) mid chunks 0 _ _ hck
      (by rw [← hcap]; exact hm) (by rw [← hrd] <;> try exact List.prefix_refl _)
    have hu : u = [] := by
      have e1 := congrArg List.length hrd
      have e2 := congrArg List.length t4
      have hlen : (sealedBody P (e.keys P).2.1 d.nonce 0 chunks).length =
          (sealedMid P (e.keys P).2.1 d.nonce 0 mid).length + (sealedBody P (e.keys P).2.1 d.nonce (0 + mid.length) t).length := by
        rw [t1, sealedBody_append _ _ _ mid t t2, List.length_append]
      simp only [List.length_append] at e1 e2
      exact List.length_eq_zero_iff.mp (by omega)
    subst hu
    rw [List.append_nil] at t4
    have ht : t = [[]] := by
      cases t with
      | nil => exact absurd rfl t2
      | cons y ys =>
        have hy : y.length ≤ e.hdr.chunkSize := by
          cases ys with
          | nil => exact t3
          | cons => exact t3.2.1
        have hword : ∃ (b : Bool) (z : Bytes), sealedBody P (e.keys P).2.1 d.nonce (0 + mid.length) (y :: ys) =
            lengthWord y.length b ++ z ∧ (b = true → ys = []) := by
          cases ys with
          | nil => exact ⟨true, _, rfl, fun _ => rfl⟩
          | cons q qs =>
            exact ⟨false, _, (sealedBody_cons P _ _ _ y (q :: qs) (by simp)).trans (List.append_assoc _ _ _), by simp⟩
        obtain ⟨b, z, z1, z2⟩ := hword
        rw [z1, List.append_assoc] at t4
        have w1 := (List.append_inj t4 (by rw [lengthWord_length, lengthWord_length])).1
        obtain ⟨w2, w3⟩ := lengthWord_inj _ _ _ _ (by omega) (by omega) w1
        have hy0 : y = [] := List.length_eq_zero_iff.mp w2.symm
        rw [hy0, z2 w3.symm]
    refine ⟨by rw [t1, ht]; simp, ?_⟩
    subst ht
    simp only [sealedBody, sealedChunk, List.length_nil, List.append_assoc] at t4
    have w := (List.append_inj t4 (by simp [lengthWord_length])).2
    refine ⟨P.aeadSeal (e.keys P).2.1 (be32 (0 + mid.length) ++ d.nonce.drop 4) [] (lengthWord 0 true) ++
      e.trailerOf P (e.keys P).2.2 (macInput chunks) coin, ?_, ?_, ?_⟩
    · rw [List.length_append, htl, L.seal_len _ _ _ _ hkl (by simp; omega) (by simp)]; rfl
    · rw [hrest, w]; simp
    · have hbod : sealedBody P (e.keys P).2.1 d.nonce 0 chunks = sealedMid P (e.keys P).2.1 d.nonce 0 mid ++
          sealedChunk P (e.keys P).2.1 d.nonce (0 + mid.length) true [] := by
        rw [t1, sealedBody_snoc]
      rw [hbytes, ← g2.nonce, hbod]
      exact ⟨headerPart e.hdr ++ P.sha256 (headerPart e.hdr) ++ (sealedMid P (e.keys P).2.1 d.nonce 0 mid ++ lengthWord 0 true),
        by simp [sealedChunk]⟩
  | endedFull mid fin tr rest _ _ hm ho hf0 hfi htr hof hver hrd hw _ _ hrest =>
    left
    rw [hbody] at hrd
    obtain ⟨t, t1, t2, t3, u, t4⟩ := parse_prefix P L _ _ hkl hnl e.hdr.chunkSize (by omega) mid chunks 0 _ _ hck
      (by rw [← hcap]; exact hm) (by rw [← hrd] <;> try exact List.prefix_refl _)
    have hu : u = [] := by
      have e1 := congrArg List.length hrd
      have e2 := congrArg List.length t4
      have hlen : (sealedBody P (e.keys P).2.1 d.nonce 0 chunks).length =
          (sealedMid P (e.keys P).2.1 d.nonce 0 mid).length + (sealedBody P (e.keys P).2.1 d.nonce (0 + mid.length) t).length := by
        rw [t1, sealedBody_append _ _ _ mid t t2, List.length_append]
      simp only [List.length_append] at e1 e2
      exact List.length_eq_zero_iff.mp (by omega)
    subst hu
    rw [List.append_nil] at t4
    cases t with
    | nil => exact absurd rfl t2
    | cons y ys =>
      cases ys with
      | nil =>
        simp only [sealedBody] at t4
        have hy : y.length ≤ e.hdr.chunkSize := t3
        obtain ⟨w1, _, w3⟩ := sealedChunk_prefix P L _ _ _ _ _ fin y (tr ++ rest)
          (e.trailerOf P (e.keys P).2.2 (macInput chunks) coin ++ junk) hkl hnl (by omega) (by omega)
          (by rw [t4] <;> try exact List.prefix_refl _)
        subst w1
        have w4 := List.append_cancel_left t4
        have w5 := (List.append_inj w4 (by rw [htr, htl])).2
        refine ⟨?_, by rw [hrest, w5]⟩
        rw [t1]
        simp only [List.getLast?_concat, ne_eq, Option.some.injEq]
        intro hh; rw [hh] at hf0; simp at hf0
      | cons q qs =>
        rw [sealedBody_cons _ _ _ _ _ _ (by simp), List.append_assoc] at t4
        have hy : y.length ≤ e.hdr.chunkSize := t3.2.1
        obtain ⟨_, w2, _⟩ := sealedChunk_prefix P L _ _ _ _ _ fin y _ _ hkl hnl (by omega) (by omega)
          (by rw [t4] <;> try exact List.prefix_refl _)
        cases w2

/-- **C55** is false of the code when the sender's last chunk is empty: `Decrypt` of the container followed by `junk` returns
nil, but the last 80 bytes of the container are still in the reader, so whoever reads on does not find `junk`. -/
theorem C55_consumes_refuted (P : Prims) (L : Laws P)
    (sender : Option PrivateKey) (blk : Nat) (c : EncCoins) (rcpts : List (PublicKey × Bytes)) (e : Encryptor)
    (plain : Bytes) (chunks : List Bytes) (bytes : Bytes) (h : Sending P sender blk c rcpts e plain chunks bytes)
    (hlast : chunks.getLast? = some [])
    (sk : PrivateKey) (seed : Bytes) (spk : Option PublicKey) (hr : Receiving P sender rcpts sk seed spk)
    (rd2 : Reader) (junk : Bytes) (hrd2 : rd2.content = bytes ++ junk) (out : Writer) (hout : out.NoFail) :
    (∃ r ∈ rcpts, WrapForgery P (clamp c.csk) c.salt c.key r.1.pk r.2 seed) ∨
    ∃ d d' out', setupDecryptor P rd2 sk spk = .ok d ∧ d.decrypt P out = (.ok (), d', out') ∧
      out'.out = out.out ++ plain ∧ d'.rd.content ≠ junk ∧ d'.rd.content.length = 80 + junk.length := by
  rcases h.emptyLast L hr hlast rd2 (by
    rw [hrd2]; exact (List.take_prefix _ _).trans (List.prefix_append _ _)) out hout with g | ⟨d, d', out', g1, g2, g3, _⟩
  · exact .inl g
  · rcases C55_consumes_partial P L sender blk c rcpts e plain chunks bytes h sk seed spk hr rd2 junk hrd2 d g1 out d' out' g2 with
      k | ⟨k, _⟩ | ⟨_, left, k1, k2, _⟩
    · exact .inl k
    · exact absurd hlast k
    · refine .inr ⟨d, d', out', g1, g2, g3, ?_, by rw [k2]; simp [k1]⟩
      intro hh
      have := congrArg List.length (hh.symm.trans k2)
      simp [k1] at this

/-- The demo container (eight bytes, block size 4) ends in an empty chunk. -/
example : ∃ e bytes d d' out', Sending toyPrims (some Demo.alice) 4 Demo.coins Demo.rcpts e [1, 2, 3, 4, 5, 6, 7, 8]
    [[1, 2, 3, 4], [5, 6, 7, 8], []] bytes ∧
    setupDecryptor toyPrims ⟨[bytes, [9, 9]], .eof, false⟩ Demo.carol (some Demo.alice.pub) = .ok d ∧
    d.decrypt toyPrims Demo.dest = (.ok (), d', out') ∧ d'.rd.content.length = 82 := by
  obtain ⟨e, bytes, hs⟩ := Demo.sending
  rcases C55_consumes_refuted toyPrims toyLaws _ _ _ _ e _ _ bytes hs rfl Demo.carol _ _ Demo.receiving
    ⟨[bytes, [9, 9]], .eof, false⟩ [9, 9] (by simp [Reader.content]) Demo.dest Demo.dest_noFail with
    g | ⟨d, d', out', g1, g2, _, _, g3⟩
  · exact absurd g Demo.no_forgery
  · exact ⟨e, bytes, d, d', out', hs, g1, g2, g3⟩

/-- Carol, without naming Alice, gets an error from `SetPrivateKey`, and then `Decrypt` crashes. -/
example : ∃ e bytes d0 rd' d, Sending toyPrims (some Demo.alice) 4 Demo.coins Demo.rcpts e [1, 2, 3, 4, 5, 6]
    [[1, 2, 3, 4], [5, 6]] bytes ∧ newDecryptor toyPrims ⟨[bytes], .eof, false⟩ = (.ok d0, rd') ∧
    d0.setPrivateKey toyPrims Demo.carol none = (.err (.wrap "decrypt" .noSenderPK), d) ∧
    d.decrypt toyPrims Demo.dest = (.panic "nil pointer dereference", d, Demo.dest) := by
  obtain ⟨e, bytes, hs⟩ := Demo.sending_stream
  rcases C20_crash_reachable toyPrims toyLaws _ _ _ _ e _ _ bytes hs Demo.carol _ Demo.receiving.hseed Demo.receiving.hsk
    Demo.receiving.hpk Demo.receiving.listed ⟨[bytes], .eof, false⟩ (by simp [Reader.content]) with g | ⟨d0, rd', d, g1, g2, g3⟩
  · exact absurd g Demo.no_forgery
  · exact ⟨e, bytes, d0, rd', d, hs, g1, g2, g3 _⟩

end Sigtool
