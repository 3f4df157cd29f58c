import Verif.Props.Sender
import Verif.Props.Keys
/-!
# Concrete cases that meet the hypotheses of C10, C11, C13, C14, C15, C16, C19 and C56

The demo session: Alice sends six bytes through the stream writer with block size 4 to Bob and Carol.
-/

namespace Sigtool
open Spec (headerPart sealedMid sealedBody sessionKeys WrapForgery ChunkForgery)

/-- C13, C14, C19: Carol opens the demo container, delivered in two pieces, naming Alice; `Decrypt` succeeds and the sender is
authenticated. -/
theorem Demo.opened : ∃ e bytes d d' out', Sending toyPrims (some Demo.alice) 4 Demo.coins Demo.rcpts e [1, 2, 3, 4, 5, 6]
    [[1, 2, 3, 4], [5, 6]] bytes ∧
    setupDecryptor toyPrims ⟨[bytes.take 3, bytes.drop 3], .eof, false⟩ Demo.carol (some Demo.alice.pub) = .ok d ∧ d.auth = true ∧
    d.decrypt toyPrims Demo.dest = (.ok (), d', out') ∧ out'.out = [1, 2, 3, 4, 5, 6] := by
  obtain ⟨e, bytes, hs⟩ := Demo.sending_stream
  rcases hs.decrypts toyLaws Demo.receiving ⟨[bytes.take 3, bytes.drop 3], .eof, false⟩ [] (by simp [Reader.content])
    Demo.dest Demo.dest_noFail with g | ⟨d, d', out', g1, g2, g3, g4⟩
  · exact absurd g Demo.no_forgery
  · exact ⟨e, bytes, d, d', out', hs, g1, g2, g3, g4⟩

/-- C10, C11: a body in which the two chunks of the demo container have changed places is one of those quantified over; there is
no forgery in the keys, so what the theorem says is about the body. -/
example : ∃ e bytes, Sending toyPrims (some Demo.alice) 4 Demo.coins Demo.rcpts e [1, 2, 3, 4, 5, 6]
    [[1, 2, 3, 4], [5, 6]] bytes ∧ Receiving toyPrims (some Demo.alice) Demo.rcpts Demo.carol (List.replicate 32 3)
      (some Demo.alice.pub) ∧ ¬ (∃ r ∈ Demo.rcpts, WrapForgery toyPrims (clamp Demo.coins.csk) Demo.coins.salt Demo.coins.key
        r.1.pk r.2 (List.replicate 32 3)) ∧
    ∃ rd2 : Reader, rd2.content = headerPart e.hdr ++ toyPrims.sha256 (headerPart e.hdr) ++
      (bytes.drop 22 ++ bytes.take 22) := by
  obtain ⟨e, bytes, hs⟩ := Demo.sending_stream
  exact ⟨e, bytes, hs, Demo.receiving, Demo.no_forgery, ⟨[headerPart e.hdr ++ toyPrims.sha256 (headerPart e.hdr) ++
    (bytes.drop 22 ++ bytes.take 22)], .eof, false⟩, by simp [Reader.content]⟩

/-- C15, C16: on the demo container `SetPrivateKey` with Alice's key succeeds, finds the root key, and says authenticated. -/
example : ∃ (rd rd' : Reader) (d0 d : Decryptor) (key : Bytes), newDecryptor toyPrims rd = (.ok d0, rd') ∧
    d0.setPrivateKey toyPrims Demo.carol (some Demo.alice.pub) = (.ok (), d) ∧ d.key = some key ∧ d.auth = true := by
  obtain ⟨e, bytes, d, d', out', hs, h1, h2, h3, h4⟩ := Demo.opened
  have h0 := h1
  unfold setupDecryptor at h1
  obtain ⟨d0, k1, k2⟩ := (bind_ok_iff _ _ _).mp h1
  obtain ⟨key, _, hk, _⟩ := C13_trailer_verified toyPrims toyLaws _ _ _ d h0 h2 _ _ _ h3
  match hn : newDecryptor toyPrims ⟨[bytes.take 3, bytes.drop 3], .eof, false⟩, hset : d0.setPrivateKey toyPrims Demo.carol (some Demo.alice.pub) with
  | (r, rd'), (.ok (), d1) =>
    rw [hn] at k1
    rw [hset] at k2
    cases k1
    cases k2
    exact ⟨_, rd', d0, d, key, hn, hset, hk, h2⟩
  | (r, rd'), (.err x, d1) => rw [hset] at k2; cases k2
  | (r, rd'), (.panic x, d1) => rw [hset] at k2; cases k2

/-- Dave is not a recipient. -/
def Demo.dave : PrivateKey := newPrivateKey toyPrims (List.replicate 32 11)

/-- C56: the demo container, and Dave. -/
example : ∃ e bytes, Sending toyPrims (some Demo.alice) 4 Demo.coins Demo.rcpts e [1, 2, 3, 4, 5, 6]
      [[1, 2, 3, 4], [5, 6]] bytes ∧ Demo.rcpts ≠ [] ∧
    Demo.dave.sk = List.replicate 32 11 ++ toyPrims.edPub (List.replicate 32 11) ∧
    Demo.dave.pub.pk = toyPrims.edPub (List.replicate 32 11) ∧ ∀ r ∈ Demo.rcpts, r.1.pk ≠ Demo.dave.pub.pk := by
  obtain ⟨e, bytes, hs⟩ := Demo.sending_stream
  exact ⟨e, bytes, hs, by simp [Demo.rcpts], rfl, rfl, by decide +kernel⟩

end Sigtool
