import Verif.Spec.Sender
import Verif.Props.Truncate
/-!
# C13, C14, C15, C16, C20, C55, C56: who sent it and who can read it
-/

namespace Sigtool
open Spec (encryptChunks streamChunks lengthWord sealedChunk sealedBody macInput headerPart sessionKeys container
  headerBytes wrappingKey wrapFor unwrapAs WrapForgery ChunkForgery senderSeal senderStatement ValidSignature unsigned
  TrailerForgery)

theorem senderKey_eq (P : Prims) (key salt : Bytes) : senderKey P key salt = senderSeal P key salt := rfl
theorem senderDigest_eq (P : Prims) (pk salt key : Bytes) : senderDigest P pk salt key = senderStatement P pk salt key := by
  rfl

/-- The HMAC input determines the chunks: their contents, lengths, order and which is the last. -/
theorem C13_macInput_injective : ∀ (a b : List Bytes), (∀ c ∈ a, c.length < 2^31) → (∀ c ∈ b, c.length < 2^31) →
    a ≠ [] → b ≠ [] → macInput a = macInput b → a = b := by
  intro a
  induction a with
  | nil => intro b _ _ h; exact absurd rfl h
  | cons x xs ih =>
    intro b ha hb _ hbn h
    cases b with
    | nil => exact absurd rfl hbn
    | cons y ys =>
      have hx := ha x (by simp)
      have hy := hb y (by simp)
      by_cases hxs : xs = []
      · subst hxs
        by_cases hys : ys = []
        · subst hys
          simp only [macInput] at h
          rw [(List.append_inj h (by rw [lengthWord_length, lengthWord_length])).2]
        · rw [macInput_cons _ _ hys] at h
          simp only [macInput] at h
          rw [List.append_assoc] at h
          have := (List.append_inj h (by rw [lengthWord_length, lengthWord_length])).1
          exact absurd (lengthWord_inj _ _ _ _ hx hy this).2 (by simp)
      · by_cases hys : ys = []
        · subst hys
          rw [macInput_cons _ _ hxs] at h
          simp only [macInput] at h
          rw [List.append_assoc] at h
          have := (List.append_inj h (by rw [lengthWord_length, lengthWord_length])).1
          exact absurd (lengthWord_inj _ _ _ _ hx hy this).2 (by simp)
        · rw [macInput_cons _ _ hxs, macInput_cons _ _ hys, List.append_assoc, List.append_assoc] at h
          obtain ⟨h1, h2⟩ := List.append_inj h (by rw [lengthWord_length, lengthWord_length])
          obtain ⟨h3, h4⟩ := List.append_inj h2 (lengthWord_inj _ _ _ _ hx hy h1).1
          rw [h3, ih ys (fun c hc => ha c (List.mem_cons_of_mem _ hc)) (fun c hc => hb c (List.mem_cons_of_mem _ hc)) hxs hys h4]

/-- **C13** For every input whatsoever, private key, sender key and destination: if `NewDecryptor`, `SetPrivateKey` and
`Decrypt` returned nil and `AuthenticatedSender()` is true, then what was written is the concatenation of chunks such that
either the input ended in the end marker `80 00 00 00` without data, or those chunks (the last non-empty, each shorter than
2^30) are followed in the input by 64 bytes that are a signature by the given sender key over the HMAC of exactly those
chunk lengths and contents.  (`C13_macInput_injective`: the HMAC input determines the chunks.) -/
theorem C13_trailer_verified (P : Prims) (L : Laws P) (rd : Reader) (sk : PrivateKey) (spk : Option PublicKey)
    (d : Decryptor) (h : setupDecryptor P rd sk spk = .ok d) (hauth : d.auth = true)
    (wr : Writer) (d' : Decryptor) (wr' : Writer) (hdec : d.decrypt P wr = (.ok (), d', wr')) :
    ∃ key pk, d.key = some key ∧ spk = some pk ∧ ∃ chunks : List Bytes,
      wr'.out = wr.out ++ chunks.flatten ∧ (∀ c ∈ chunks, 0 < c.length ∧ c.length < 2^30) ∧
      ((∃ rest, d.rd.content = sealedMid P (sessionKeys P key d.hdrsum).2.1 (sessionKeys P key d.hdrsum).1 0 chunks ++
          [0x80, 0, 0, 0] ++ rest) ∨
       (∃ trailer rest, trailer.length = 64 ∧ chunks ≠ [] ∧
          d.rd.content = sealedBody P (sessionKeys P key d.hdrsum).2.1 (sessionKeys P key d.hdrsum).1 0 chunks ++
            trailer ++ rest ∧
          ValidSignature P pk.pk (P.hmac256 (sessionKeys P key d.hdrsum).2.2 (macInput chunks)) trailer)) := by
  obtain ⟨d0, rd', hb, key, ha, hk, hr, h1, h2, h3, h4, h5, h6, h7, h8⟩ := setupDecryptor_ok P L rd sk spk d h
  obtain ⟨key', r, d2, wr2, k1, k2, k3, k4⟩ := decrypt_any P L rd sk spk d h wr
  rw [hdec] at k2
  simp only [Prod.mk.injEq] at k2
  obtain ⟨rfl, rfl, rfl⟩ := k2
  obtain ⟨pk, p1, p2⟩ := hr.sender hauth
  have hcs := hr.chunk
  refine ⟨key', pk, k1, by rw [← h7]; exact p1, ?_⟩
  cases k3 with
  | endedEmpty mid rest _ _ hm ho hrd hw _ _ _ =>
    refine ⟨mid, hw.out, fun c hc => ⟨(hm c hc).1, by have := (hm c hc).2; omega⟩, Or.inl ⟨rest, ?_⟩⟩
    rw [hrd, k4]
    have hw : lengthWord 0 true = [0x80, 0, 0, 0] := by decide
    rw [hw, List.append_assoc]
  | endedFull mid fin tr rest _ _ hm ho hf0 hf htr hof hver hrd hw _ _ _ =>
    refine ⟨mid ++ [fin], by rw [hw.out]; simp, ?_, Or.inr ⟨tr, rest, htr, by simp, ?_, ?_⟩⟩
    · intro c hc
      rw [List.mem_append, List.mem_singleton] at hc
      rcases hc with hc | rfl
      · exact ⟨(hm c hc).1, by have := (hm c hc).2; omega⟩
      · exact ⟨hf0, by omega⟩
    · rw [hrd, k4, sealedBody_snoc]; simp
    · obtain ⟨pk', q1, q2⟩ := hver hauth
      rw [p1] at q1
      cases q1
      simpa [ValidSignature, signDigest] using q2

/-- **C14**, the part that holds: for every signed sending session and listed recipient, and every input that begins with
the genuine header and continues with any `body` (made by someone who may know the root key and all derived keys): if
`Decrypt` returns nil, then it wrote the sender's plaintext, or the body ends in the unauthenticated end marker
`80 00 00 00`, or the body consists of chunks and a 64-byte trailer that is a forgery: a signature valid for a message the
sender did not sign in this session, or a collision of the HMAC.  Missing: excluding the end marker (`C14_replace_refuted`). -/
theorem C14_replace_partial (P : Prims) (L : Laws P) (s : PrivateKey) (blk : Nat) (c : EncCoins)
    (rcpts : List (PublicKey × Bytes)) (e : Encryptor)
    (plain : Bytes) (chunks : List Bytes) (bytes : Bytes) (h : Sending P (some s) blk c rcpts e plain chunks bytes)
    (sk : PrivateKey) (seed : Bytes) (spk : Option PublicKey) (hr : Receiving P (some s) rcpts sk seed spk)
    (rd2 : Reader) (body : Bytes) (hrd2 : rd2.content = headerPart e.hdr ++ P.sha256 (headerPart e.hdr) ++ body)
    (d : Decryptor) (hd : setupDecryptor P rd2 sk spk = .ok d) (out : Writer) (d' : Decryptor) (out' : Writer)
    (hdec : d.decrypt P out = (.ok (), d', out')) :
    (∃ r ∈ rcpts, WrapForgery P (clamp c.csk) c.salt c.key r.1.pk r.2 seed) ∨
    (∃ (other : List Bytes) (trailer rest : Bytes), trailer.length = 64 ∧ out'.out = out.out ++ other.flatten ∧
      body = sealedBody P (sessionKeys P c.key (P.sha256 (headerPart e.hdr))).2.1
        (sessionKeys P c.key (P.sha256 (headerPart e.hdr))).1 0 other ++ trailer ++ rest ∧
      TrailerForgery P s.pub.pk (sessionKeys P c.key (P.sha256 (headerPart e.hdr))).2.2
        (senderStatement P e.hdr.pk c.salt c.key) chunks other trailer) ∨
    (d.auth = true ∧ out'.out = out.out ++ plain) ∨
    (∃ pre rest : Bytes, body = pre ++ [0x80, 0, 0, 0] ++ rest) := by
  obtain ⟨epk, ws, coin, hs, hf, e4, e5, hcoin, hbytes, hck, hfl, hne⟩ := h.facts L
  rcases h.opens L hr rd2 body hrd2 with g | ⟨d1, g1, g2⟩
  · exact Or.inl g
  right
  rw [hd] at g1
  cases g1
  obtain ⟨key, pk, k1, k2, cs, k3, k4, k5⟩ := C13_trailer_verified P L rd2 sk spk d hd (by rw [g2.auth]; rfl) out d' out' hdec
  have hkey : key = c.key := by
    have := g2.key
    rw [k1] at this
    rw [Option.some.inj this, e4]
  obtain ⟨p, q1, q2⟩ := hr.named s rfl
  have hpk : pk = p := by rw [k2] at q1; exact Option.some.inj q1
  rcases k5 with ⟨rest, k5⟩ | ⟨tr, rest, t1, t2, t3, t4⟩
  · right; right
    rw [← g2.body, k5]
    exact ⟨_, rest, rfl⟩
  · by_cases hsame : cs = chunks
    · right; left
      exact ⟨by rw [g2.auth]; rfl, by rw [k3, hsame, hfl]⟩
    · left
      have hmac : macInput cs ≠ macInput chunks := by
        intro heq
        apply hsame
        refine C13_macInput_injective cs chunks (fun x hx => by have := (k4 x hx).2; omega) ?_ t2 hne heq
        have hmax := hf.chunkMax
        have hall : ∀ (l : List Bytes), ChunksOk e.hdr.chunkSize l → ∀ x ∈ l, x.length ≤ e.hdr.chunkSize := by
          intro l
          induction l with
          | nil => intro hl; exact absurd hl (by simp [ChunksOk])
          | cons y ys ih =>
            intro hl x hx
            by_cases hys : ys = []
            · subst hys
              rw [List.mem_singleton] at hx
              subst hx; exact hl
            · rw [ChunksOk_cons _ _ _ hys] at hl
              rcases List.mem_cons.mp hx with rfl | hx
              · exact hl.2.1
              · exact ih hl.2.2 x hx
        intro x hx
        have := hall chunks hck x hx
        omega
      rw [hpk, q2, hkey, g2.sum] at t4
      rw [hkey, g2.sum, g2.body] at t3
      refine ⟨cs, tr, rest, t1, k3, t3, hsame, ?_⟩
      by_cases hm1 : P.hmac256 (sessionKeys P c.key (P.sha256 (headerPart e.hdr))).2.2 (macInput cs) =
          P.hmac256 (sessionKeys P c.key (P.sha256 (headerPart e.hdr))).2.2 (macInput chunks)
      · exact Or.inr (Or.inl ⟨hmac, hm1⟩)
      · by_cases hm2 : P.hmac256 (sessionKeys P c.key (P.sha256 (headerPart e.hdr))).2.2 (macInput cs) =
            senderStatement P e.hdr.pk c.salt c.key
        · exact Or.inr (Or.inr hm2)
        · exact Or.inl ⟨t4, hm1, hm2⟩

/-- **C14** is false of the code: for every signed sending session, someone who knows the root key (any co-recipient) can
send each listed recipient any content `evil` (cut into non-empty chunks of at most the block size): seal it under the
derived data key, append `80 00 00 00`, put the genuine header in front. `Decrypt` returns nil and writes `evil`;
`AuthenticatedSender` says true. -/
theorem C14_replace_refuted (P : Prims) (L : Laws P) (s : PrivateKey) (blk : Nat) (c : EncCoins)
    (rcpts : List (PublicKey × Bytes)) (e : Encryptor)
    (plain : Bytes) (chunks : List Bytes) (bytes : Bytes) (h : Sending P (some s) blk c rcpts e plain chunks bytes)
    (sk : PrivateKey) (seed : Bytes) (spk : Option PublicKey) (hr : Receiving P (some s) rcpts sk seed spk)
    (evil : List Bytes) (hevil : ∀ x ∈ evil, 0 < x.length ∧ x.length ≤ effectiveBlock blk)
    (rd2 : Reader) (hrd2 : rd2.content = headerPart e.hdr ++ P.sha256 (headerPart e.hdr) ++
      (sealedMid P (sessionKeys P c.key (P.sha256 (headerPart e.hdr))).2.1
        (sessionKeys P c.key (P.sha256 (headerPart e.hdr))).1 0 evil ++ [0x80, 0, 0, 0]))
    (out : Writer) (hout : out.NoFail) :
    (∃ r ∈ rcpts, WrapForgery P (clamp c.csk) c.salt c.key r.1.pk r.2 seed) ∨
    ∃ d d' out', setupDecryptor P rd2 sk spk = .ok d ∧ d.decrypt P out = (.ok (), d', out') ∧
      out'.out = out.out ++ evil.flatten ∧ d'.auth = true := by
  obtain ⟨epk, ws, coin, hs, hf, e4, e5, hcoin, hbytes, hck, hfl, hne⟩ := h.facts L
  rw [← e4, ← Encryptor.keys_eq] at hrd2
  rcases h.opens L hr rd2 (sealedMid P (e.keys P).2.1 (e.keys P).1 0 evil ++ (lengthWord 0 true ++ []))
      (by rw [hrd2, List.append_nil]; rfl) with g | ⟨d, g1, g2⟩
  · exact Or.inl g
  · right
    obtain ⟨d', out', m1, m2, m3⟩ := opened_cut P L d _ _ _ g2.ready g2.key g2.stream g2.eof out hout evil []
      (by rw [g2.hdr, e5]; exact hevil) (by rw [g2.body, g2.nonce])
    exact ⟨d, d', out', g1, m1, m2, by rw [m3, g2.auth]; rfl⟩

/-- Bob makes Carol believe that Alice wrote `[9, 9, 9]`. -/
example : ∃ e bytes rd2 d d' out', Sending toyPrims (some Demo.alice) 4 Demo.coins Demo.rcpts e [1, 2, 3, 4, 5, 6]
    [[1, 2, 3, 4], [5, 6]] bytes ∧ setupDecryptor toyPrims rd2 Demo.carol (some Demo.alice.pub) = .ok d ∧
    d.decrypt toyPrims Demo.dest = (.ok (), d', out') ∧ out'.out = [9, 9, 9] ∧ d'.auth = true := by
  obtain ⟨e, bytes, hs⟩ := Demo.sending_stream
  rcases C14_replace_refuted toyPrims toyLaws _ _ _ _ e _ _ bytes hs _ _ _ Demo.receiving [[9, 9, 9]] (by decide)
    ⟨[headerPart e.hdr ++ toyPrims.sha256 (headerPart e.hdr) ++
      (sealedMid toyPrims (sessionKeys toyPrims Demo.coins.key (toyPrims.sha256 (headerPart e.hdr))).2.1
        (sessionKeys toyPrims Demo.coins.key (toyPrims.sha256 (headerPart e.hdr))).1 0 [[9, 9, 9]] ++ [0x80, 0, 0, 0])], .eof,
      false⟩ (by simp [Reader.content]) Demo.dest Demo.dest_noFail with g | ⟨d, d', out', g1, g2, g3, g4⟩
  · exact absurd g Demo.no_forgery
  · exact ⟨e, bytes, _, d, d', out', hs, g1, g2, g3, g4⟩

end Sigtool
