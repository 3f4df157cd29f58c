import Verif.StreamRead
import Verif.Props.StreamWrite
/-!
# C04: the stream reader returns the same plaintext as `Decrypt`
-/

namespace Sigtool
open Spec (encryptChunks streamChunks lengthWord sealedChunk sealedBody macInput headerPart sessionKeys container
  headerBytes wrappingKey wrapFor unwrapAs WrapForgery)

/-- **C04** Take any decryptor in which a key was set and which has not been read from - whatever its input holds, genuine
or not.  Let `res` be what `Decrypt` returns on it (not a crash) and `T` the bytes that `Decrypt` writes to a destination
without failing writes.  Then `NewStreamReader` succeeds and any sequence of `Read` calls with positive buffer sizes
returns pieces of `T` in order, the `i`-th non-empty and not longer than the `i`-th buffer, followed by one and the same
error on every later call: `io.EOF` if `Decrypt` returned nil, otherwise the very error `Decrypt` returned.  The error
comes only after all of `T`, and it does come if there are more calls than bytes in `T`. -/
theorem C04_reader_matches_decrypt (P : Prims) (d : Decryptor) (key : Bytes) (hkey : d.key = some key)
    (hstream : d.stream = false) (heof : d.eof = false)
    (wr : Writer) (hwr : wr.NoFail) (res : Res Unit) (d' : Decryptor) (wr' : Writer)
    (hdec : d.decrypt P wr = (res, d', wr')) (hp : ∀ why, res ≠ .panic why) :
    ∃ r d1 T, d.newStreamReader = (.ok r, d1) ∧ wr'.out = wr.out ++ T ∧
      ∀ caps : List Nat, (∀ c ∈ caps, 0 < c) →
        ∃ (pieces : List Bytes) (k : Nat) (E : Err),
          (r.readAll P d1 caps).1 = pieces.map .ok ++ List.replicate k (.err E) ∧
          pieces.length + k = caps.length ∧
          pieces.flatten <+: T ∧ (0 < k → pieces.flatten = T) ∧ (T.length < caps.length → 0 < k) ∧
          List.Forall₂ (fun p c => 0 < p.length ∧ p.length ≤ c) pieces (caps.take pieces.length) ∧
          (res = .ok () → E = .eof) ∧ (∀ x, res = .err x → E = x) := by
  have hdec' : Decryptor.decryptLoop P (d.rd.content.length + 1) d wr 0 = (res, d', wr') := by
    unfold Decryptor.decrypt at hdec
    rw [hkey] at hdec
    simpa [hstream, heof] using hdec
  have hpan : res.isPanic = false := by
    cases res with
    | panic w => exact absurd rfl (hp w)
    | _ => rfl
  -- the same loop, with the stream flag set
  have hloop := decryptLoop_stream P true (d.rd.content.length + 1) d wr 0
  rw [hdec'] at hloop
  obtain ⟨T, hT⟩ : ∃ T, wr'.out = wr.out ++ T := by
    obtain ⟨T, h⟩ := decryptLoop_appends P (d.rd.content.length + 1) d wr 0
    rw [hdec'] at h
    exact ⟨T, h⟩
  refine ⟨{}, { d with stream := true }, T, ?_, hT, ?_⟩
  · simp [Decryptor.newStreamReader, hkey, heof]
  · intro caps hcaps
    obtain ⟨pieces, k, g1, g2, g3, g4, g5⟩ := read_loop P (d.rd.content.length + 1) { d with stream := true } _ wr wr' 0 res T
      hwr heof hloop hpan hT caps hcaps
    refine ⟨pieces, k, endErr res, g1, g2, g3, g4, ?_, g5, ?_, ?_⟩
    · intro hlong
      by_contra hk
      have hk0 : k = 0 := by omega
      have h1 : pieces.length ≤ pieces.flatten.length := by
        clear g1 g2 g3 g4 hlong
        generalize caps.take pieces.length = cc at g5
        induction g5 with
        | nil => simp
        | cons h _ ih => rw [List.flatten_cons, List.length_append, List.length_cons]; omega
      have h2 := g3.length_le
      omega
    · rintro rfl; rfl
    · rintro x rfl; rfl

/-- Carol reads the demo container through a stream reader, one to three bytes at a time. -/
example : ∃ e e' rd' wr' d r d1,
    setupEncryptor toyPrims (some Demo.alice) 4 Demo.coins Demo.rcpts = .ok e ∧
    e.encrypt toyPrims Demo.input Demo.dest Demo.coin = (.ok (), e', rd', wr') ∧
    setupDecryptor toyPrims ⟨[wr'.out], .eof, false⟩ Demo.carol (some Demo.alice.pub) = .ok d ∧
    d.newStreamReader = (.ok r, d1) ∧
    ∃ (pieces : List Bytes) (k : Nat), (r.readAll toyPrims d1 [1, 3, 2, 3, 1, 1, 3, 2, 3, 1, 1, 1]).1 =
        pieces.map .ok ++ List.replicate k (.err .eof) ∧ pieces.flatten = [1, 2, 3, 4, 5, 6, 7, 8, 9, 10] := by
  obtain ⟨e, e', rd', wr', h1, h2⟩ := Demo.encrypts
  obtain ⟨epk, ws, hs⟩ := setupEncryptor_ok _ toyLaws _ _ _ _ _ Demo.coins_wf h1
  rcases C01_encrypt_decrypt toyPrims toyLaws (some Demo.alice) Demo.sender_genuine 4 (by decide) Demo.coins Demo.coins_wf
    Demo.rcpts Demo.rcpts_len (by decide) e h1 Demo.input Demo.dest rfl Demo.coin Demo.coin_len e' rd' wr' h2
    Demo.carol (List.replicate 32 3) (by simp) rfl rfl ⟨(Demo.carol.pub, List.replicate 12 5), by simp [Demo.rcpts], rfl⟩
    (some Demo.alice.pub) (by intro s hs; cases hs; exact ⟨_, rfl, rfl⟩) ⟨[wr'.out], .eof, false⟩ []
    (by simp [Reader.content]) Demo.dest Demo.dest_noFail with g | ⟨d, d', out', g1, g2, g3⟩
  · exact absurd g Demo.no_forgery
  · obtain ⟨key, hk⟩ : ∃ key, d.key = some key := by
      unfold Decryptor.decrypt at g2
      cases hk : d.key with
      | none => rw [hk] at g2; cases g2
      | some k => exact ⟨k, rfl⟩
    have hst : d.stream = false := by
      unfold Decryptor.decrypt at g2
      rw [hk] at g2
      cases hs : d.stream with
      | true => simp [hs] at g2
      | false => rfl
    have heo : d.eof = false := by
      unfold Decryptor.decrypt at g2
      rw [hk] at g2
      cases hs : d.eof with
      | true => simp [hs, hst] at g2
      | false => rfl
    obtain ⟨r, d1, T, k1, k2, k3⟩ := C04_reader_matches_decrypt toyPrims d key hk hst heo Demo.dest Demo.dest_noFail _ _ _ g2
      (by simp)
    have hT : T = [1, 2, 3, 4, 5, 6, 7, 8, 9, 10] := by
      rw [g3] at k2; exact (List.append_cancel_left k2).symm
    obtain ⟨pieces, k, E, m1, _, _, m4, m5, _, m7, _⟩ := k3 [1, 3, 2, 3, 1, 1, 3, 2, 3, 1, 1, 1] (by decide)
    rw [m7 rfl] at m1
    exact ⟨e, e', rd', wr', d, r, d1, h1, h2, g1, k1, pieces, k, m1, by rw [m4 (m5 (by rw [hT]; decide)), hT]⟩

end Sigtool
