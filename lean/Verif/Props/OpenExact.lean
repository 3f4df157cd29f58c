import Verif.Props.RoundTrip
import Verif.Demo
/-! # Exactly which of its own containers the library opens (C06, C07) -/

namespace Sigtool
open Spec

/-- **C06, C07** (exact).  For up to 60 million recipients: what `Encrypt` wrote is opened by `NewDecryptor` if and only if the block
size asked for is below 1 GiB and there are between 1 and 15885 recipients. -/
theorem C07_exact (P : Prims) (L : Laws P) (sender : Option PrivateKey) (blk : Nat) (c : EncCoins) (hc : c.WF)
    (rcpts : List (PublicKey × Bytes)) (hr : ∀ r ∈ rcpts, r.2.length = 12) (hcount : rcpts.length ≤ 60000000)
    (e : Encryptor) (he : setupEncryptor P sender blk c rcpts = .ok e)
    (rd : Reader) (wr : Writer) (hwr : wr.out = []) (coin : Bytes)
    (e' : Encryptor) (rd' : Reader) (wr' : Writer) (henc : e.encrypt P rd wr coin = (.ok (), e', rd', wr'))
    (rd2 : Reader) (hrd2 : rd2.content = wr'.out) :
    (∃ d rd3, newDecryptor P rd2 = (.ok d, rd3)) ↔ blk < 2^30 ∧ 1 ≤ rcpts.length ∧ rcpts.length ≤ 15885 := by
  constructor
  · rintro ⟨d, rd3, h⟩
    by_cases hb : blk < 2^30
    · obtain ⟨h1, h2⟩ := C07_recipients_refuted P L sender blk hb c hc rcpts hr e he rd wr hwr coin e' rd' wr' henc rd2 hrd2
      refine ⟨hb, ?_, ?_⟩
      · rcases Nat.eq_zero_or_pos rcpts.length with h0 | h0
        · obtain ⟨rd3', g⟩ := h1 (List.length_eq_zero_iff.mp h0)
          rw [g] at h; cases h
        · exact h0
      · by_contra hlt
        obtain ⟨rd3', g⟩ := h2 (by omega) hcount
        rw [g] at h; cases h
    · exfalso
      by_cases hlt : rcpts.length ≤ 15885
      · obtain ⟨rd3', g⟩ := C06_large_block_refuted P L sender blk (by omega) c hc rcpts hr hlt e he rd wr hwr coin e' rd' wr' henc rd2 hrd2
        rw [g] at h; cases h
      · obtain ⟨epk, ws, hs⟩ := setupEncryptor_ok P L sender blk c rcpts e hc he
        have hf := hs.fresh L
        obtain ⟨h1, _, _⟩ := encrypt_ok P L e rd wr coin hf e' rd' wr' henc
        obtain ⟨v, hv1, hv2, hv3⟩ := headerBytes_len P L sender blk c rcpts e epk ws hc hr hs
        obtain ⟨rd3', g⟩ := newDecryptor_tooBig P e.hdr _ rd2 (by omega) (by omega)
          (by rw [hrd2, h1, hwr, Encryptor.fullContainer, container_eq, List.nil_append, List.append_assoc])
        rw [g] at h; cases h
  · rintro ⟨h1, h2, h3⟩
    obtain ⟨d, rd3, h, _⟩ := C06_small_block_partial P L sender blk h1 c hc rcpts hr h3 (by rintro rfl; simp at h2) e he rd wr hwr coin
      e' rd' wr' henc rd2 hrd2
    exact ⟨d, rd3, h⟩

/-- The demo container (two recipients, block size 4) meets the hypotheses, and is opened. -/
example : ∃ (bytes : Bytes) (d : Decryptor) (rd3 : Reader), newDecryptor toyPrims ⟨[bytes], .eof, true⟩ = (.ok d, rd3) := by
  obtain ⟨e, e', rd', wr', he, henc⟩ := Demo.encrypts
  obtain ⟨d, rd3, h⟩ := (C07_exact toyPrims toyLaws (some Demo.alice) 4 Demo.coins Demo.coins_wf Demo.rcpts Demo.rcpts_len
    (by decide) e he Demo.input Demo.dest rfl Demo.coin e' rd' wr' henc ⟨[wr'.out], .eof, true⟩ (by simp [Reader.content])).mpr
    ⟨by decide, by decide, by decide⟩
  exact ⟨_, d, rd3, h⟩

end Sigtool
