import Verif.Props.Sender
import Verif.Props.Header
import Verif.DecHistoryLemmas
/-!
# C73: a signed header that was changed on the way

The sender signs his ephemeral key, the salt and the root key, but neither the block size nor the list of wrapped keys; the
header checksum is unkeyed.  A changed header changes the derived data keys, so the sender's own chunks no longer open; but
the end marker `80 00 00 00` needs no key.
-/

namespace Sigtool
open Spec (lengthWord sealedBody macInput headerPart sessionKeys headerBytes wrapFor WrapForgery senderStatement
  ValidSignature SenderProof unwrapAs)

/-- Entries taken from a list of wrapped keys belong to recipients of the list. -/
theorem WrappedFor.choose {P : Prims} {esk salt key : Bytes} {rs : List (PublicKey × Bytes)} {ws : List WrappedKey}
    (h : WrappedFor P esk salt key rs ws) : ∀ ks : List WrappedKey, (∀ w ∈ ks, w ∈ ws) →
    ∃ rs', (∀ r ∈ rs', r ∈ rs) ∧ WrappedFor P esk salt key rs' ks := by
  have one : ∀ w ∈ ws, ∃ r ∈ rs, wrapFor P esk salt key r.1.pk r.2 = some w := by
    clear * - h
    induction h with
    | nil => intro w hw; cases hw
    | cons h1 _ ih =>
      intro w hw
      rcases List.mem_cons.mp hw with rfl | hw
      · exact ⟨_, by simp, h1⟩
      · obtain ⟨r, k1, k2⟩ := ih w hw
        exact ⟨r, by simp [k1], k2⟩
  intro ks
  induction ks with
  | nil => intro _; exact ⟨[], by simp, .nil⟩
  | cons w ks ih =>
    intro hk
    obtain ⟨rs', k1, k2⟩ := ih fun x hx => hk x (by simp [hx])
    obtain ⟨r, k3, k4⟩ := one w (hk w (by simp))
    refine ⟨r :: rs', ?_, .cons k4 k2⟩
    intro x hx
    rcases List.mem_cons.mp hx with rfl | hx
    · exact k3
    · exact k1 x hx

/-- The set-up calls on a header whose block size was replaced and whose wrapped keys were dropped, repeated or reordered,
as long as the recipient's own is still there. -/
theorem changed_opens (P : Prims) (L : Laws P) (s : PrivateKey) (blk : Nat) (c : EncCoins)
    (rcpts : List (PublicKey × Bytes)) (e : Encryptor) (epk : Bytes) (ws : List WrappedKey) (hc : c.WF)
    (hg : SenderGenuine P (some s)) (hnl : ∀ r ∈ rcpts, r.2.length = 12) (hs : SetupOk P (some s) blk c rcpts e epk ws)
    (sk : PrivateKey) (seed : Bytes) (spk : Option PublicKey) (hr : Receiving P (some s) rcpts sk seed spk)
    (n : Nat) (hn : 0 < n ∧ n < 2^30) (ks : List WrappedKey) (hks : ∀ w ∈ ks, w ∈ e.hdr.keys)
    (hown : ∃ r ∈ rcpts, r.1.pk = sk.pub.pk ∧ ∃ w ∈ ks, wrapFor P (clamp c.csk) c.salt c.key r.1.pk r.2 = some w)
    (hfit : ks.length ≤ 15884) (rd2 : Reader) (body : Bytes)
    (hrd2 : rd2.content = headerPart { e.hdr with chunkSize := n, keys := ks } ++
      P.sha256 (headerPart { e.hdr with chunkSize := n, keys := ks }) ++ body) :
    (∃ r ∈ rcpts, WrapForgery P (clamp c.csk) c.salt c.key r.1.pk r.2 seed) ∨
    ∃ d, setupDecryptor P rd2 sk spk = .ok d ∧
      Opened P { e with hdr := { e.hdr with chunkSize := n, keys := ks } } (some s) spk body rd2.last d := by
  have hkeys : e.hdr.keys = ws := by rw [hs.enc]
  rw [hkeys] at hks
  obtain ⟨r0, hr0, hp0, w0, hw0, hwr0⟩ := hown
  -- put the recipient's own entry at its place
  obtain ⟨a, b, rfl⟩ := List.append_of_mem hw0
  obtain ⟨ra, ha1, ha2⟩ := hs.wrapped.choose a fun w hw => hks w (by simp [hw])
  obtain ⟨rb, hb1, hb2⟩ := hs.wrapped.choose b fun w hw => hks w (by simp [hw])
  have hall : WrappedFor P (clamp c.csk) c.salt c.key (ra ++ r0 :: rb) (a ++ w0 :: b) :=
    List.rel_append ha2 (.cons hwr0 hb2)
  have hsub : ∀ r ∈ ra ++ r0 :: rb, r ∈ rcpts := by
    intro r h
    rw [List.mem_append, List.mem_cons] at h
    rcases h with h | rfl | h
    · exact ha1 r h
    · exact hr0
    · exact hb1 r h
  have hcb : chooseBlock n = n := by
    unfold chooseBlock
    rw [maxChunk_eq, if_neg (by omega), if_neg (by omega)]
  have hs' : SetupOk P (some s) n c (ra ++ r0 :: rb) { e with hdr := { e.hdr with chunkSize := n, keys := a ++ w0 :: b } }
      epk (a ++ w0 :: b) :=
    ⟨hs.sized, hs.hepk, hs.epkLen, hall, by rw [hcb, hs.enc]⟩
  have hnl' : ∀ r ∈ ra ++ r0 :: rb, r.2.length = 12 := fun r h => hnl r (hsub r h)
  have hlen : (ra ++ r0 :: rb).length = (a ++ w0 :: b).length := hall.length_eq
  obtain ⟨v, v1, v2, v3⟩ := headerBytes_len P L _ _ _ _ _ _ _ hc hnl' hs'
  rcases setup_opens P L (some s) n c _ _ epk _ hc hg hnl' hs' (by rw [hcb]; exact hn.2)
    (by rw [v3, hlen]; omega) sk seed hr.hseed hr.hsk hr.hpk ⟨r0, by simp, by rw [hp0, hr.hpk]⟩ spk hr.named rd2 body hrd2
    with ⟨r, g1, g2⟩ | g
  · exact Or.inl ⟨r, hsub r g1, g2⟩
  · exact Or.inr g

/-- **C73** is false of the code.  For every signed sending session and listed recipient: replace the block size in the
header by any other valid one, drop, repeat or reorder wrapped keys at will (leaving the recipient's), recompute the
unkeyed checksum, and let `80 00 00 00` follow.  No key is needed for this.  The recipient, who names the sender, gets nil
from `NewDecryptor`, `SetPrivateKey` and `Decrypt`, an empty plaintext, and `AuthenticatedSender()` says true. -/
theorem C73_header_refuted (P : Prims) (L : Laws P) (s : PrivateKey) (blk : Nat) (c : EncCoins)
    (rcpts : List (PublicKey × Bytes)) (e : Encryptor)
    (plain : Bytes) (chunks : List Bytes) (bytes : Bytes) (h : Sending P (some s) blk c rcpts e plain chunks bytes)
    (sk : PrivateKey) (seed : Bytes) (spk : Option PublicKey) (hr : Receiving P (some s) rcpts sk seed spk)
    (n : Nat) (hn : 0 < n ∧ n < 2^30) (ks : List WrappedKey) (hks : ∀ w ∈ ks, w ∈ e.hdr.keys)
    (hown : ∃ r ∈ rcpts, r.1.pk = sk.pub.pk ∧ ∃ w ∈ ks, wrapFor P (clamp c.csk) c.salt c.key r.1.pk r.2 = some w)
    (hfit : ks.length ≤ 15884) (rd2 : Reader)
    (hrd2 : rd2.content = headerPart { e.hdr with chunkSize := n, keys := ks } ++
      P.sha256 (headerPart { e.hdr with chunkSize := n, keys := ks }) ++ [0x80, 0, 0, 0])
    (out : Writer) (hout : out.NoFail) :
    (∃ r ∈ rcpts, WrapForgery P (clamp c.csk) c.salt c.key r.1.pk r.2 seed) ∨
    ∃ d d' out', setupDecryptor P rd2 sk spk = .ok d ∧ d.decrypt P out = (.ok (), d', out') ∧
      out'.out = out.out ∧ d'.auth = true := by
  obtain ⟨epk, ws, coin, hs, hf, e4, e5, hcoin, hbytes, hck, hfl, hne⟩ := h.facts L
  rcases changed_opens P L s blk c rcpts e epk ws h.coins h.hsender h.nonces hs sk seed spk hr n hn ks hks hown hfit rd2 _ hrd2
    with g | ⟨d, g1, g2⟩
  · exact Or.inl g
  · right
    obtain ⟨d', out', m1, m2, m3⟩ := opened_cut P L d _ _ _ g2.ready g2.key g2.stream g2.eof out hout [] []
      (by intro x hx; cases hx) (by rw [g2.body]; rfl)
    exact ⟨d, d', out', g1, m1, by simpa using m2, by rw [m3, g2.auth]; rfl⟩

/-- **C73** is false of the code for co-recipients with any content: whoever knows the root key of a signed session can
also choose the content, under a header of his making (other block size, other selection of recipients). -/
theorem C73_header_replace_refuted (P : Prims) (L : Laws P) (s : PrivateKey) (blk : Nat) (c : EncCoins)
    (rcpts : List (PublicKey × Bytes)) (e : Encryptor)
    (plain : Bytes) (chunks : List Bytes) (bytes : Bytes) (h : Sending P (some s) blk c rcpts e plain chunks bytes)
    (sk : PrivateKey) (seed : Bytes) (spk : Option PublicKey) (hr : Receiving P (some s) rcpts sk seed spk)
    (n : Nat) (hn : 0 < n ∧ n < 2^30) (ks : List WrappedKey) (hks : ∀ w ∈ ks, w ∈ e.hdr.keys)
    (hown : ∃ r ∈ rcpts, r.1.pk = sk.pub.pk ∧ ∃ w ∈ ks, wrapFor P (clamp c.csk) c.salt c.key r.1.pk r.2 = some w)
    (hfit : ks.length ≤ 15884) (h' : Header) (hh' : h' = { e.hdr with chunkSize := n, keys := ks })
    (evil : List Bytes) (hevil : ∀ x ∈ evil, 0 < x.length ∧ x.length ≤ n) (rd2 : Reader)
    (hrd2 : rd2.content = headerPart h' ++ P.sha256 (headerPart h') ++
      (sealedMid P (sessionKeys P c.key (P.sha256 (headerPart h'))).2.1
        (sessionKeys P c.key (P.sha256 (headerPart h'))).1 0 evil ++ [0x80, 0, 0, 0]))
    (out : Writer) (hout : out.NoFail) :
    (∃ r ∈ rcpts, WrapForgery P (clamp c.csk) c.salt c.key r.1.pk r.2 seed) ∨
    ∃ d d' out', setupDecryptor P rd2 sk spk = .ok d ∧ d.decrypt P out = (.ok (), d', out') ∧
      out'.out = out.out ++ evil.flatten ∧ d'.auth = true := by
  obtain ⟨epk, ws, coin, hs, hf, e4, e5, hcoin, hbytes, hck, hfl, hne⟩ := h.facts L
  subst hh'
  rcases changed_opens P L s blk c rcpts e epk ws h.coins h.hsender h.nonces hs sk seed spk hr n hn ks hks hown hfit rd2 _ hrd2
    with g | ⟨d, g1, g2⟩
  · exact Or.inl g
  · right
    have hk : Encryptor.keys P { e with hdr := { e.hdr with chunkSize := n, keys := ks } } =
        sessionKeys P c.key (P.sha256 (headerPart { e.hdr with chunkSize := n, keys := ks })) := by
      rw [Encryptor.keys_eq, ← e4]
    obtain ⟨d', out', m1, m2, m3⟩ := opened_cut P L d _ _ _ g2.ready g2.key g2.stream g2.eof out hout evil []
      (by rw [g2.hdr]; exact hevil) (by rw [g2.body, g2.nonce, hk, List.append_nil]; rfl)
    exact ⟨d, d', out', g1, m1, m2, by rw [m3, g2.auth]; rfl⟩

/-- **C73**, the part that holds.  For every signed sending session, every input at all, every private key and every
destination, with the sender named: if `NewDecryptor`, `SetPrivateKey` and `Decrypt` returned nil and
`AuthenticatedSender()` is true, then
* the header is the sender's, byte for byte; or
* the header carries a signature by the sender over a statement he did not make in this session (it belongs to another
  session of his, or is forged), or two different statements of the same SHA-256; or
* ephemeral key, salt and root key are the sender's but other parts of the header differ, and then either the input ends
  in the unauthenticated marker and everything delivered before it is sealed under the data key derived from the *changed*
  header, or the trailer is a signature by the sender over an HMAC under the HMAC key derived from the changed header.
Missing: excluding the marker (`C73_header_refuted`). -/
theorem C73_header_partial (P : Prims) (L : Laws P) (s : PrivateKey) (blk : Nat) (c : EncCoins)
    (rcpts : List (PublicKey × Bytes)) (e : Encryptor)
    (plain : Bytes) (chunks : List Bytes) (bytes : Bytes) (h : Sending P (some s) blk c rcpts e plain chunks bytes)
    (rd2 : Reader) (sk : PrivateKey) (p : PublicKey) (hp : p.pk = s.pub.pk)
    (d : Decryptor) (hd : setupDecryptor P rd2 sk (some p) = .ok d) (hauth : d.auth = true)
    (out : Writer) (d' : Decryptor) (out' : Writer) (hdec : d.decrypt P out = (.ok (), d', out')) :
    ∃ key hb body, d.key = some key ∧ Spec.HeaderAt P rd2.content hb d.hdr body ∧
      (hb = headerBytes e.hdr ∨
       (SenderProof P d.hdr key p ∧ senderStatement P d.hdr.pk d.hdr.salt key ≠ senderStatement P e.hdr.pk c.salt c.key) ∨
       (senderStatement P d.hdr.pk d.hdr.salt key = senderStatement P e.hdr.pk c.salt c.key ∧
          d.hdr.pk ++ d.hdr.salt ++ key ≠ e.hdr.pk ++ c.salt ++ c.key) ∨
       (d.hdr.pk = e.hdr.pk ∧ d.hdr.salt = c.salt ∧ key = c.key ∧ hb ≠ headerBytes e.hdr ∧ ∃ other : List Bytes,
          out'.out = out.out ++ other.flatten ∧
          let keys := sessionKeys P c.key (P.sha256 (ascii "SigTool" ++ [3] ++ be32 hb.length ++ hb))
          ((∃ rest, body = sealedMid P keys.2.1 keys.1 0 other ++ [0x80, 0, 0, 0] ++ rest) ∨
           (∃ trailer rest, body = sealedBody P keys.2.1 keys.1 0 other ++ trailer ++ rest ∧ trailer.length = 64 ∧
              ValidSignature P s.pub.pk (P.hmac256 keys.2.2 (macInput other)) trailer)))) := by
  obtain ⟨epk, ws, coin, hs, hf, e4, e5, hcoin, hbytes, hck, hfl, hne⟩ := h.facts L
  obtain ⟨d0, rd', hb, key, ha, hk, hr, h1, h2, h3, h4, h5, h6, h7, h8⟩ := setupDecryptor_ok P L rd2 sk (some p) d hd
  obtain ⟨hc1, hc2, hc3, hc4⟩ := (checkHeader_iff _).mp ha.checked
  refine ⟨key, hb, d.rd.content, h4, ⟨by rw [h1]; exact ha.content, ⟨ha.lo, ha.hi⟩, by rw [h5]; exact ha.decoded,
    by rw [h5]; exact hc1, by rw [h5]; exact hc2, by rw [h5]; exact hc3, by rw [h5]; exact hc4⟩, ?_⟩
  by_cases hhb : hb = headerBytes e.hdr
  · exact Or.inl hhb
  right
  have hepk : e.hdr.pk = epk := by rw [hs.enc]
  by_cases hst : senderStatement P d.hdr.pk d.hdr.salt key = senderStatement P e.hdr.pk c.salt c.key
  · right
    by_cases hcat : d.hdr.pk ++ d.hdr.salt ++ key = e.hdr.pk ++ c.salt ++ c.key
    · right
      have hpl : d.hdr.pk.length = 32 := by
        obtain ⟨w, _, hw⟩ := findKey_opens P d0 sk key _ hk.found
        unfold unwrapAs at hw
        rw [h5]
        cases hx : P.x25519 (clamp ((P.sha512 (sk.sk.take 32)).take 32)) d0.hdr.pk with
        | none => rw [hx] at hw; cases hw
        | some k => exact L.x25519_point _ _ _ hx
      rw [List.append_assoc, List.append_assoc] at hcat
      obtain ⟨q1, q2⟩ := List.append_inj hcat (by rw [hpl, hepk, hs.epkLen])
      obtain ⟨q3, q4⟩ := List.append_inj q2 (by rw [h5, hc2, h.coins.salt])
      refine ⟨q1, q3, q4, hhb, ?_⟩
      obtain ⟨key', pk, k1, k2, cs, k3, k4, k5⟩ := C13_trailer_verified P L rd2 sk (some p) d hd hauth out d' out' hdec
      rw [h4] at k1
      cases k1
      cases k2
      have hsum : d.hdrsum = P.sha256 (ascii "SigTool" ++ [3] ++ be32 hb.length ++ hb) := by rw [h6, ha.state]
      rw [q4, hsum] at k5
      refine ⟨cs, k3, ?_⟩
      rcases k5 with ⟨rest, k5⟩ | ⟨tr, rest, t1, t2, t3, t4⟩
      · exact Or.inl ⟨rest, k5⟩
      · exact Or.inr ⟨tr, rest, t3, t1, by rw [← hp]; exact t4⟩
    · exact Or.inl ⟨hst, hcat⟩
  · left
    refine ⟨?_, hst⟩
    obtain ⟨sig, v1, v2⟩ := verifySender_ok P _ _ _ _ hk.verified
    rcases v2 with ⟨_, v4⟩ | ⟨v3, v4, pk', v5, _, v7⟩
    · have h0 : d0.auth = false := by rw [ha.state]
      dsimp only at v4
      rw [v4, h0] at hauth
      cases hauth
    · cases v5
      rw [SenderProof, h5]
      exact ⟨sig, v1, v3, v7⟩

/-- In the demo: Bob's wrapped key is dropped and the block size becomes 1000; Carol accepts the empty message as
Alice's. -/
example : ∃ e bytes w rd2 d d' out', Sending toyPrims (some Demo.alice) 4 Demo.coins Demo.rcpts e [1, 2, 3, 4, 5, 6]
    [[1, 2, 3, 4], [5, 6]] bytes ∧
    rd2.content = headerPart { e.hdr with chunkSize := 1000, keys := [w] } ++
      toyPrims.sha256 (headerPart { e.hdr with chunkSize := 1000, keys := [w] }) ++ [0x80, 0, 0, 0] ∧
    setupDecryptor toyPrims rd2 Demo.carol (some Demo.alice.pub) = .ok d ∧
    d.decrypt toyPrims Demo.dest = (.ok (), d', out') ∧ out'.out = [] ∧ d'.auth = true := by
  obtain ⟨e, bytes, hs⟩ := Demo.sending_stream
  obtain ⟨epk, ws, coin, hs1, _⟩ := hs.facts toyLaws
  have hw := hs1.wrapped
  have hkeys : e.hdr.keys = ws := by rw [hs1.enc]
  cases hw with
  | cons _ hw =>
  rename_i w1 ws1 _
  cases hw with
  | cons h2 hw =>
  rename_i w2 ws2
  rcases C73_header_refuted toyPrims toyLaws _ _ _ _ e _ _ bytes hs _ _ _ Demo.receiving 1000 (by decide) [w2]
    (by rw [hkeys]; simp) ⟨_, by simp [Demo.rcpts], rfl, w2, by simp, h2⟩ (by simp)
    ⟨[headerPart { e.hdr with chunkSize := 1000, keys := [w2] } ++
      toyPrims.sha256 (headerPart { e.hdr with chunkSize := 1000, keys := [w2] }) ++ [0x80, 0, 0, 0]], .eof, false⟩
    (by simp [Reader.content]) Demo.dest Demo.dest_noFail with g | ⟨d, d', out', g1, g2, g3, g4⟩
  · exact absurd g Demo.no_forgery
  · exact ⟨e, bytes, w2, _, d, d', out', hs, by simp [Reader.content], g1, g2, g3, g4⟩

/-- The hypotheses of `C73_header_partial` are met by the same attack and by the genuine container (`Demo`). -/
example : ∃ e bytes d d' out', Sending toyPrims (some Demo.alice) 4 Demo.coins Demo.rcpts e [1, 2, 3, 4, 5, 6]
    [[1, 2, 3, 4], [5, 6]] bytes ∧ setupDecryptor toyPrims ⟨[bytes], .eof, false⟩ Demo.carol (some Demo.alice.pub) = .ok d ∧
    d.auth = true ∧ d.decrypt toyPrims Demo.dest = (.ok (), d', out') ∧ out'.out = [1, 2, 3, 4, 5, 6] := by
  obtain ⟨e, bytes, hs⟩ := Demo.sending_stream
  rcases hs.decrypts toyLaws Demo.receiving ⟨[bytes], .eof, false⟩ [] (by simp [Reader.content]) Demo.dest Demo.dest_noFail
    with g | ⟨d, d', out', g1, g2, g3, g4⟩
  · exact absurd g Demo.no_forgery
  · exact ⟨e, bytes, d, d', out', hs, g1, g2, g3, g4⟩

end Sigtool
