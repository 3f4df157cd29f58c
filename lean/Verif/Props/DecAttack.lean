import Verif.Props.DecHistory
import Verif.Props.Truncate
/-!
# C61, C62 (refutations): what an attacker or a careless program gets out of one `Decryptor`
-/

namespace Sigtool
open Spec (encryptChunks streamChunks lengthWord sealedChunk sealedBody macInput headerPart sessionKeys container
  headerBytes wrappingKey wrapFor unwrapAs WrapForgery ChunkForgery)

theorem setup_split {P : Prims} {rd : Reader} {sk : PrivateKey} {spk : Option PublicKey} {d : Decryptor}
    (h : setupDecryptor P rd sk spk = .ok d) :
    ∃ d0 rd', newDecryptor P rd = (.ok d0, rd') ∧ d0.setPrivateKey P sk spk = (.ok (), d) := by
  unfold setupDecryptor at h
  rcases hn : newDecryptor P rd with ⟨r, rd'⟩
  rw [hn] at h
  cases r with
  | err x => cases h
  | panic x => cases h
  | ok d0 =>
    rw [Res.bind_ok] at h
    rcases hs : d0.setPrivateKey P sk spk with ⟨q, d1⟩
    rw [hs] at h
    cases q with
    | err x => cases h
    | panic x => cases h
    | ok u => cases h; exact ⟨d0, rd', rfl, hs⟩

/-- A chunk whose bytes end too early: the block fails, but what did arrive is in the chunk buffer. -/
theorem decryptBlock_short (P : Prims) (d : Decryptor) (dkey junk : Bytes) (i m : Nat) (hae : d.ae = some dkey)
    (hbuf : d.bufLen = d.hdr.chunkSize + 16) (hm0 : 0 < m) (hm : m ≤ d.hdr.chunkSize) (hc : d.hdr.chunkSize < 2^30)
    (hj : junk.length < m + 16) (hrd : d.rd.content = lengthWord m false ++ junk) :
    ∃ x d', d.decryptBlock P i = (.err x, d') ∧ d.Same d' ∧ ∀ buf, d.bufAfter P i buf = overwrite buf junk := by
  obtain ⟨rd1, h1, h2, h3⟩ := readFull_append d.rd (lengthWord m false) junk 4 rfl hrd
  have e1 := wordLen_lengthWord m false (by omega)
  have hz : (m + 16) % 2^32 = m + 16 := Nat.mod_eq_of_lt (by omega)
  obtain ⟨rd2, k1, k2, k3⟩ := readFull_short rd1 (m + 16) (by rw [h2]; exact hj)
  rw [h2] at k1
  have hsame := (decryptBlock_only P d i).1
  have hb : ∃ x d', d.decryptBlock P i = (.err x, d') := by
    unfold Decryptor.decryptBlock
    rw [hae]; dsimp only; rw [h1]; dsimp only
    rw [e1, if_neg (by omega), if_neg (by omega), hz, if_neg (by omega), k1]
    exact ⟨_, _, rfl⟩
  obtain ⟨x, d', hb⟩ := hb
  rw [hb] at hsame
  refine ⟨x, d', hb, hsame, ?_⟩
  intro buf
  unfold Decryptor.bufAfter
  rw [hae]; dsimp only; rw [h1]; dsimp only
  rw [e1, if_neg (by omega), if_neg (by omega), hz, if_neg (by omega), k1]

theorem open_ok (P : Prims) (s : DecState) (hk : s.dec.key ≠ none) (he : s.dec.eof = false) :
    s.step P .openReader = some (⟨.openReader, .ok (), [], s.dec.auth⟩,
      { s with dec := { s.dec with stream := true }, readers := s.readers ++ [{}] }) := by
  have : ∃ ev s', s.step P .openReader = some (ev, s') := by
    unfold DecState.step; dsimp only; exact ⟨_, _, rfl⟩
  obtain ⟨ev, s', h⟩ := this
  rcases step_open h with ⟨a, _⟩ | ⟨_, a, _⟩ | ⟨_, _, a, b⟩
  · exact absurd a hk
  · rw [he] at a; cases a
  · rw [h, a, b]

/-- **C61** is false of the code once a program makes two stream readers.  For every sending session of at least two chunks,
the first at least two bytes long, and every listed recipient: keep the container up to the end of the first sealed chunk
and continue with the same length word and any `junk` that is too short for a sealed chunk but as long as the plaintext.  A
program that makes two readers, reads one byte from the first, then reads from the second - and gets an error - and then goes
on with the first, is handed bytes of `junk` by a `Read` that returns nil. No key is needed for the attack. -/
theorem C61_two_readers_refuted (P : Prims) (L : Laws P)
    (sender : Option PrivateKey) (blk : Nat) (c : EncCoins) (rcpts : List (PublicKey × Bytes)) (e : Encryptor)
    (plain c0 c1 : Bytes) (cs : List Bytes) (bytes : Bytes)
    (h : Sending P sender blk c rcpts e plain (c0 :: c1 :: cs) bytes) (hc0 : 2 ≤ c0.length)
    (sk : PrivateKey) (seed : Bytes) (spk : Option PublicKey) (hr : Receiving P sender rcpts sk seed spk)
    (junk : Bytes) (hj : c0.length ≤ junk.length) (hj2 : junk.length < c0.length + 16) :
    (∃ r ∈ rcpts, WrapForgery P (clamp c.csk) c.salt c.key r.1.pk r.2 seed) ∨
    ∃ n, ∀ rd2 : Reader, rd2.content = bytes.take n ++ (lengthWord c0.length false ++ junk) →
      ∃ d0 rd' evs s x, newDecryptor P rd2 = (.ok d0, rd') ∧ DecHistory P d0 evs s ∧
        evs.map (fun v => (v.op, v.res, v.delivered)) =
          [(.setKey sk spk, .ok (), []), (.openReader, .ok (), []), (.openReader, .ok (), []),
           (.read 0 1, .ok (), c0.take 1), (.read 1 1, .err x, []),
           (.read 0 c0.length, .ok (), (junk.take c0.length).drop 1)] := by
  obtain ⟨epk, ws, coin, hs, hf, e4, e5, hcoin, hbytes, hck, hfl, hne⟩ := h.facts L
  by_cases hwf : ∃ r ∈ rcpts, WrapForgery P (clamp c.csk) c.salt c.key r.1.pk r.2 seed
  · exact Or.inl hwf
  right
  refine ⟨(headerPart e.hdr ++ P.sha256 (headerPart e.hdr) ++ sealedChunk P (e.keys P).2.1 (e.keys P).1 0 false c0).length, ?_⟩
  intro rd2 hrd2
  rw [hbytes, sealedBody_cons _ _ _ _ _ _ (by simp)] at hrd2
  have hsplit : ∀ (a b u v : Bytes), (a ++ (b ++ u ++ v)).take (a ++ b).length = a ++ b := by
    intro a b u v
    have : a ++ (b ++ u ++ v) = (a ++ b) ++ (u ++ v) := by simp
    rw [this, List.take_left']
    rfl
  rw [hsplit] at hrd2
  rcases h.opens L hr rd2 (sealedChunk P (e.keys P).2.1 (e.keys P).1 0 false c0 ++ (lengthWord c0.length false ++ junk))
      (by rw [hrd2, List.append_assoc]) with g | ⟨d, g1, g2⟩
  · exact absurd g hwf
  obtain ⟨d0, rd', a1, a2⟩ := setup_split g1
  rw [ChunksOk_cons _ _ _ (by simp)] at hck
  have hmax : c0.length ≤ d.hdr.chunkSize := by rw [g2.hdr]; exact hck.2.1
  have rdy := g2.ready
  -- the states
  obtain ⟨rd3, b1, b2⟩ := decryptBlock_mid P L { d with stream := true } _ _ [] c0 (lengthWord c0.length false ++ junk) 0
    ⟨rdy.ae, rdy.hmac, rdy.buf, rdy.chunk, rdy.key, rdy.nonce, rdy.sender⟩ (by omega) hmax
    (by show d.rd.content = _; rw [g2.body, g2.nonce])
  generalize hd3 : ({ d with stream := true, rd := rd3, hmac := some ((e.keys P).2.2, [] ++ lengthWord c0.length false ++ c0) } :
    Decryptor) = d3 at b1
  have b1' : ({ d with stream := true } : Decryptor).decryptBlock P 0 = (.ok (c0, false), d3) := by
    rw [b1, ← hd3]
  obtain ⟨x, d4, f1, f2, f3⟩ := decryptBlock_short P { d3 with eof := false } (e.keys P).2.1 junk 0 c0.length
    (by rw [← hd3]; exact rdy.ae) (by rw [← hd3]; exact rdy.buf) (by omega) (by rw [← hd3]; exact hmax)
    (by rw [← hd3]; exact rdy.chunk) hj2 (by rw [← hd3]; exact b2)
  generalize hbuf0 : List.replicate d.bufLen (0 : UInt8) = buf0
  generalize hbuf1 : ({ d with stream := true } : Decryptor).bufAfter P 0 buf0 = buf1
  have hb1 : buf1.take c0.length = c0 := by
    obtain ⟨_, _, q⟩ := decryptBlock_accepted P L _ _ _ _ _ b1'
    rcases q with ⟨q, _⟩ | ⟨w, ct, rest, _, _, _, _, _, _, _, q⟩
    · rw [q] at hc0; simp at hc0
    · rw [← hbuf1]; exact q _
  have t1 : ({ dec := d0 } : DecState).step P (.setKey sk spk) =
      some (⟨.setKey sk spk, .ok (), [], d.auth⟩, ⟨d, [buf0], 0, []⟩) := by
    unfold DecState.step; dsimp only; rw [a2, ← hbuf0]; rfl
  have t2 := open_ok P ⟨d, [buf0], 0, []⟩ (by show d.key ≠ none; rw [g2.key]; simp) g2.eof
  have t3 := open_ok P ⟨{ d with stream := true }, [buf0], 0, [{}]⟩ (by show d.key ≠ none; rw [g2.key]; simp) g2.eof
  have t4 : (⟨{ d with stream := true }, [buf0], 0, [{}, {}]⟩ : DecState).step P (.read 0 1) =
      some (⟨.read 0 1, .ok (), c0.take 1, d3.auth⟩,
        ⟨{ d3 with eof := false }, [buf1], 0, [⟨⟨0, 1, c0.length - 1⟩, 1, none⟩, {}]⟩) := by
    unfold DecState.step DecState.read
    dsimp only [List.getElem?_cons_zero]
    rw [b1', if_pos rfl, if_neg (by rw [g2.eof]; simp)]
    simp only [if_true, Bool.false_eq_true, if_false, DecState.buf, List.getElem?_cons_zero, Option.getD_some, hbuf1,
      List.set_cons_zero, Slice.bytes, List.drop_zero, hb1, Res.unit]
    rw [if_pos (by omega), Nat.min_eq_left (by omega : 1 ≤ c0.length)]
    rfl
  have t5 : (⟨{ d3 with eof := false }, [buf1], 0, [⟨⟨0, 1, c0.length - 1⟩, 1, none⟩, {}]⟩ : DecState).step P (.read 1 1) =
      some (⟨.read 1 1, .err x, [], d4.auth⟩,
        ⟨d4, [overwrite buf1 junk], 0, [⟨⟨0, 1, c0.length - 1⟩, 1, none⟩, { err := some x }]⟩) := by
    unfold DecState.step DecState.read
    dsimp only [List.getElem?_cons_succ, List.getElem?_cons_zero]
    rw [f1]
    simp only [if_true, Bool.false_eq_true, if_false, DecState.buf, List.getElem?_cons_zero, Option.getD_some, f3,
      List.set_cons_zero, List.set_cons_succ, Res.unit]
  have t6 : ∃ s', (⟨d4, [overwrite buf1 junk], 0, [⟨⟨0, 1, c0.length - 1⟩, 1, none⟩, { err := some x }]⟩ : DecState).step P
      (.read 0 c0.length) = some (⟨.read 0 c0.length, .ok (), (junk.take c0.length).drop 1, d4.auth⟩, s') := by
    have hq : ((⟨0, 1, c0.length - 1⟩ : Slice).bytes [overwrite buf1 junk]).take c0.length =
        (junk.take c0.length).drop 1 := by
      simp only [Slice.bytes, List.getElem?_cons_zero, Option.getD_some, overwrite]
      rw [List.take_take, List.drop_append_of_le_length (by omega), List.drop_take,
        Nat.min_eq_right (by omega), List.take_append_of_le_length (by simp; omega)]
    unfold DecState.step DecState.read
    dsimp only [List.getElem?_cons_zero]
    rw [if_neg (by omega), if_pos (by omega), hq]
    exact ⟨_, rfl⟩
  obtain ⟨s6, t6⟩ := t6
  have H0 : DecHistory P d0 [] { dec := d0 } := .start
  have H1 := H0.call (by simp) t1
  have H2 := H1.call (by simp [Res.isPanic]) t2
  have H3 := H2.call (by simp [Res.isPanic]) t3
  have H4 := H3.call (by simp [Res.isPanic]) t4
  have H5 := H4.call (by simp [Res.isPanic]) t5
  have H6 := H5.call (by simp [Res.isPanic]) t6
  exact ⟨d0, rd', _, _, x, a1, H6, rfl⟩

/-- **C62**: that the latest `SetPrivateKey` named the sender is false of the code.  For every signed sending session and
every listed recipient: after `SetPrivateKey` with the right sender returned nil, a second `SetPrivateKey` without a sender
fails with ErrNoSenderPK, yet `AuthenticatedSender()` still says true. -/
theorem C62_stale_refuted (P : Prims) (L : Laws P) (sd : PrivateKey) (blk : Nat) (c : EncCoins)
    (rcpts : List (PublicKey × Bytes)) (e : Encryptor)
    (plain : Bytes) (chunks : List Bytes) (bytes : Bytes) (h : Sending P (some sd) blk c rcpts e plain chunks bytes)
    (sk : PrivateKey) (seed : Bytes) (spk : PublicKey) (hr : Receiving P (some sd) rcpts sk seed (some spk))
    (rd2 : Reader) (hrd2 : rd2.content = bytes) :
    (∃ r ∈ rcpts, WrapForgery P (clamp c.csk) c.salt c.key r.1.pk r.2 seed) ∨
    ∃ d0 rd' s, newDecryptor P rd2 = (.ok d0, rd') ∧
      DecHistory P d0 [⟨.setKey sk (some spk), .ok (), [], true⟩,
        ⟨.setKey sk none, .err (.wrap "decrypt" .noSenderPK), [], true⟩] s := by
  rcases C20_crash_reachable P L sd blk c rcpts e plain chunks bytes h sk seed hr.hseed hr.hsk hr.hpk hr.listed rd2 hrd2 with
    g | ⟨d0, rd', d, g1, g2, g3⟩
  · exact Or.inl g
  obtain ⟨epk, ws, coin, hs, hf, e4, e5, hcoin, hbytes, hck, hfl, hne⟩ := h.facts L
  rcases h.opens L hr rd2 _ (by rw [hrd2]; exact hbytes) with g | ⟨d1, k1, k2⟩
  · exact Or.inl g
  right
  obtain ⟨d0', rd1, a1, a2⟩ := setup_split k1
  rw [g1] at a1; cases a1
  have hauth : d1.auth = true := k2.auth
  -- the second call finds the same key and fails the same way
  have second : ∃ d2, d1.setPrivateKey P sk none = (.err (.wrap "decrypt" .noSenderPK), d2) ∧ d2.auth = true := by
    have hd1 : d1.hdr = d0.hdr := by
      obtain ⟨key, hk⟩ := setPrivateKey_ok P d0 d1 sk _ a2
      rw [hk.state]
    have hfind : ∀ ks, d1.findKey P sk ks = d0.findKey P sk ks := by
      intro ks
      induction ks with
      | nil => rfl
      | cons w ks ih =>
        unfold Decryptor.findKey
        have : d1.unwrapKey P w sk = d0.unwrapKey P w sk := by
          unfold Decryptor.unwrapKey; rw [hd1]
        rw [this, ih]
    have hver : ∀ key, ({ d1 with key := some key, sender := none } : Decryptor).verifySender P key none =
        .err .noSenderPK ↔ ({ d0 with key := some key, sender := none } : Decryptor).verifySender P key none =
        .err .noSenderPK := by
      intro key
      unfold Decryptor.verifySender
      dsimp only
      rw [hd1]
      cases P.aeadOpen (senderKey P key d0.hdr.salt).1 (senderKey P key d0.hdr.salt).2 d0.hdr.sender [] with
      | none => simp
      | some sig => dsimp only; split <;> simp
    rcases setPrivateKey_cases P d0 sk none with ⟨x, h1, h2⟩ | ⟨x, h1, h2⟩ | ⟨h1, h2⟩ | ⟨key, h1, h2⟩
    · rcases setPrivateKey_cases P d0 sk (some spk) with ⟨y, j1, j2⟩ | ⟨y, j1, j2⟩ | ⟨j1, j2⟩ | ⟨key, j1, j2⟩
      · rw [a2] at j2; cases j2
      · rw [a2] at j2; cases j2
      · rw [a2] at j2; cases j2
      · rw [h1] at j1; cases j1
    · rw [g2] at h2; cases h2
    · rw [g2] at h2; cases h2
    · have hv : ({ d0 with key := some key, sender := none } : Decryptor).verifySender P key none = .err .noSenderPK := by
        rw [g2] at h2
        revert h2
        cases ({ d0 with key := some key, sender := none } : Decryptor).verifySender P key none with
        | err x => intro h2; cases h2; rfl
        | panic x => intro h2; cases h2
        | ok a => intro h2; cases h2
      refine ⟨{ d1 with key := some key, sender := none }, ?_, hauth⟩
      unfold Decryptor.setPrivateKey
      have hfk : d1.findKey P sk d1.hdr.keys = .ok (some key) := by rw [hfind, hd1, h1]
      rw [hfk]
      dsimp only
      rw [(hver key).mpr hv]
  obtain ⟨d2, s1, s2⟩ := second
  have t1 : ({ dec := d0 } : DecState).step P (.setKey sk (some spk)) =
      some (⟨.setKey sk (some spk), .ok (), [], true⟩, ⟨d1, [List.replicate d1.bufLen 0], 0, []⟩) := by
    unfold DecState.step; dsimp only; rw [a2, ← hauth]; rfl
  have t2 : (⟨d1, [List.replicate d1.bufLen 0], 0, []⟩ : DecState).step P (.setKey sk none) =
      some (⟨.setKey sk none, .err (.wrap "decrypt" .noSenderPK), [], true⟩, ⟨d2, [List.replicate d1.bufLen 0], 0, []⟩) := by
    unfold DecState.step; dsimp only; rw [s1, ← s2]
  have H0 : DecHistory P d0 [] { dec := d0 } := .start
  have H1 := H0.call (by simp) t1
  have H2 := H1.call (by simp [Res.isPanic]) t2
  exact ⟨d0, rd', _, g1, H2⟩

end Sigtool
