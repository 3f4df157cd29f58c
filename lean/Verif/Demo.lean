import Verif.Roundtrip
/-!
# Demo: one concrete, non-trivial situation

Used beside the theorems to show that their hypotheses can be met: a signed container with two recipients, block
size 4, ten bytes of input delivered in two pieces, and destinations that take short writes.
-/

namespace Sigtool.Demo

def alice : PrivateKey := newPrivateKey toyPrims (List.replicate 32 1)
def bob : PrivateKey := newPrivateKey toyPrims (List.replicate 32 2)
def carol : PrivateKey := newPrivateKey toyPrims (List.replicate 32 3)

theorem alice_genuine : alice.Genuine toyPrims := newPrivateKey_genuine _ _ (by simp)
theorem bob_genuine : bob.Genuine toyPrims := newPrivateKey_genuine _ _ (by simp)
theorem carol_genuine : carol.Genuine toyPrims := newPrivateKey_genuine _ _ (by simp)

def coins : EncCoins := ⟨List.replicate 32 7, List.replicate 32 8, List.replicate 32 9⟩
theorem coins_wf : coins.WF := ⟨by simp [coins], by simp [coins], by simp [coins]⟩

/-- Bob first, then Carol. -/
def rcpts : List (PublicKey × Bytes) := [(bob.pub, List.replicate 12 4), (carol.pub, List.replicate 12 5)]

theorem rcpts_len : ∀ r ∈ rcpts, r.2.length = 12 := by simp [rcpts]
theorem rcpts_real : ∀ r ∈ rcpts, RealPK toyPrims r.1.pk := by
  intro r hr
  simp only [rcpts, List.mem_cons, List.not_mem_nil, or_false] at hr
  rcases hr with rfl | rfl
  · exact ⟨List.replicate 32 2, by simp, rfl⟩
  · exact ⟨List.replicate 32 3, by simp, rfl⟩

def input : Reader := ⟨[[1, 2, 3, 4, 5, 6, 7], [8, 9, 10]], .eof, true⟩
def dest : Writer := { script := [.short 3, .full, .short 0] }
def coin : Bytes := List.replicate 64 6
theorem coin_len : coin.length = 64 := by simp [coin]
theorem dest_noFail : dest.NoFail := by intro k e; simp [dest]

theorem sender_genuine : SenderGenuine toyPrims (some alice) := by
  intro s hs; cases hs; exact alice_genuine

theorem setup : ∃ e, setupEncryptor toyPrims (some alice) 4 coins rcpts = .ok e :=
  setupEncryptor_progress _ toyLaws _ _ _ _ coins_wf (sender_genuine.sized toyLaws) rcpts_real

theorem encrypts : ∃ e e' rd' wr', setupEncryptor toyPrims (some alice) 4 coins rcpts = .ok e ∧
    e.encrypt toyPrims input dest coin = (.ok (), e', rd', wr') := by
  obtain ⟨e, he⟩ := setup
  obtain ⟨epk, ws, hs⟩ := setupEncryptor_ok _ toyLaws _ _ _ _ _ coins_wf he
  obtain ⟨e', rd', wr', h1, _⟩ := encrypt_fresh toyPrims toyLaws e input dest coin (hs.fresh toyLaws)
    dest_noFail rfl
  exact ⟨e, e', rd', wr', he, h1⟩

end Sigtool.Demo
