import Verif.Props.SymbolicAuth
import Verif.Props.Witness
/-!
# Concrete cases for C107 and C108
-/

namespace Sigtool
open Spec
open Spec.Symbolic

namespace Demo

/-- The secrets of the demo session: file 0 is the one that Alice (person 1) sends to Bob (2) and Carol (3). -/
def env : Secret → Bytes
  | .root _ => List.replicate 32 8
  | .ephemeral _ => List.replicate 32 7
  | .chunk _ i => [[1, 2, 3, 4], [5, 6]].getD i []
  | .seed i => List.replicate 32 (UInt8.ofNat i)
  | .pass _ => ascii "secret"
  | .decoy _ _ => []

def file : File := ⟨4, List.replicate 32 9, [(2, List.replicate 12 4), (3, List.replicate 12 5)], some 1, [4, 2], coin⟩

theorem describes : Describes env 0 file 4 [[1, 2, 3, 4], [5, 6]] coin where
  blk := rfl
  salt := rfl
  nonces := by decide
  coin := rfl
  sizes := rfl
  pieces _ := rfl
  root := rfl
  ephemeral := rfl
  seeds _ := List.length_replicate

end Demo

/-- C107_file, C107_stream: the demo session meets the hypotheses, and its file is what the term evaluates to. -/
example : ∃ e wr', setupEncryptor toyPrims (Demo.file.sender.map fun i => newPrivateKey toyPrims (Demo.env (.seed i))) 4
      ⟨Demo.env (.ephemeral 0), Demo.env (.root 0), Demo.file.salt⟩
      (Demo.file.rcpts.map fun r => ((newPrivateKey toyPrims (Demo.env (.seed r.1))).pub, r.2)) = .ok e ∧
    streamEncrypt toyPrims e Demo.dest Demo.coin [[1, 2, 3], [4, 5, 6]] = (.ok (), wr') ∧
    wr'.out = (encrypted 0 Demo.file).eval toyPrims Demo.env := by
  obtain ⟨e, wr', h1, h2⟩ := C02_stream_succeeds toyPrims toyLaws (some Demo.alice) Demo.sender_genuine 4 Demo.coins
    Demo.coins_wf Demo.rcpts Demo.rcpts_real [[1, 2, 3], [4, 5, 6]] Demo.dest Demo.dest_noFail rfl Demo.coin
  have hc : streamChunks (effectiveBlock 4) [[1, 2, 3], [4, 5, 6]].flatten = [[1, 2, 3, 4], [5, 6]] := by
    rw [streamChunks_big _ _ (by decide) (by decide), streamChunks_small _ _ (by decide)]; rfl
  exact ⟨e, wr', h1, h2, C107_stream toyPrims toyLaws Demo.env 0 Demo.file 4 [[1, 2, 3], [4, 5, 6]] Demo.coin (by decide)
    (hc ▸ Demo.describes) e h1 Demo.dest rfl wr' h2⟩

/-- C107_secrecy: everyone but Bob and Carol (Alice, the sender, too) conspires, and the plaintexts of all later files are known: they
cannot compute the plaintext.  C107_recipient: if Carol takes part, they can. -/
example : (¬ ∃ i, Knows (Start (fun _ => Demo.file) (fun i => i ≠ 2 ∧ i ≠ 3) (fun n => n ≠ 0)) (.secret (.chunk 0 i))) ∧
    Knows (Start (fun _ => Demo.file) (fun i => i ≠ 2) (fun n => n ≠ 0)) (.secret (.chunk 0 1)) := by
  constructor
  · rintro ⟨i, h⟩
    exact ((C107_secrecy (fun _ => Demo.file) (fun i => i ≠ 2 ∧ i ≠ 3) (fun n => n ≠ 0)).1 0 (by decide)).2.1 (by decide) i h
  · exact (C107_recipient (fun _ => Demo.file) (fun i => i ≠ 2) (fun n => n ≠ 0) 0 (3, List.replicate 12 5) (by decide) (by decide)).2 1
      (by decide)

/-- C108: the recipient Carol does get to know Alice's signatures of this file, and they are the ones the theorems speak of; she cannot
make a signature of Alice for another root key, or for other contents. -/
example : Knows (Start (fun _ => Demo.file) (fun i => i = 3) (fun _ => False)) (headerSignature 0 Demo.file 1) ∧
    Knows (Start (fun _ => Demo.file) (fun i => i = 3) (fun _ => False))
      (Symbolic.signed 1 (.hmac (.drop 44 (bodyKeys 0 Demo.file)) (macked 0 0 [4, 2]))) ∧
    (∀ k x, ¬ Knows (Start (fun _ => Demo.file) (fun i => i = 3) (fun _ => False)) (Symbolic.signed 2 (.hmac k x))) ∧
    ∀ t, ¬ Knows (Start (fun _ => Demo.file) (fun i => i = 3) (fun _ => False)) (Symbolic.signed 2 (.sha256 t)) := by
  have kf := Knows.known (Start.file (corrupt := fun i => i = 3) (told := fun _ => False) (files := fun _ => Demo.file) 0)
  have kr := (C107_recipient (fun _ => Demo.file) (fun i => i = 3) (fun _ => False) 0 (3, List.replicate 12 5) (by decide) rfl).1
  refine ⟨.opened kf.left.right.right.right.left (.take (.hkdf kr (.bytes _))), kf.right.right.right, fun k x h => ?_, fun t h => ?_⟩
  · obtain ⟨n, h, _⟩ := C108_trailer _ _ _ 2 (by decide) k x h
    cases h
  · obtain ⟨n, h, _⟩ := C108_header _ _ _ 2 (by decide) t h
    cases h

end Sigtool
