import Verif.Spec.Anon
import Verif.Props.Game
/-!
# C127: a file does not say whom it is for

The game of `Spec/Anon.lean`, played with the files that sigtool writes.
-/

namespace Sigtool
open Spec (Coins mean yes Job KdfSpy Setting Watcher BoxSpy encryptChunks streamChunks sealedBody macInput headerPart
  sessionKeys senderSeal senderStatement wrappingKey)

section
variable {n m : Nat} (P : Prims) (S : Setting) (A : Watcher n m)

theorem watch_is_kdf (L : Laws P) (hA : A.Fair) (enc : Job (n + m) → Bytes) (henc : Documented P S enc) (b : Bool) :
    A.odds P enc b = (A.kdf P S b).real P := by
  -- the same draws, the hidden group last
  have swap : A.odds P enc b = mean fun t : A.Tape => mean fun coin : Coins 64 => mean fun key : Coins 32 =>
      mean fun mine : Fin m → Coins 12 => mean fun others : Fin n → Coins 32 => mean fun seeds : Fin n → Coins 32 =>
      mean fun csk : Coins 32 => mean fun salt : Coins 32 => mean fun nonces : Fin n → Coins 12 =>
        yes (A.guess t (Spec.twoGroups P b (fun i => P.edPub (seeds i).bytes) others) (enc
          { csk := csk.bytes, key := key.bytes, salt := salt.bytes
            pks := Fin.append (fun i => P.edPub (seeds i).bytes) fun j =>
              P.edPub (A.known t (Spec.twoGroups P b (fun i => P.edPub (seeds i).bytes) others) j)
            nonces := Fin.append (fun i => (nonces i).bytes) fun j => (mine j).bytes
            coin := coin.bytes, plain := A.plain t (Spec.twoGroups P b (fun i => P.edPub (seeds i).bytes) others) })) := by
    unfold Watcher.odds
    refine mean_congr fun t => mean_congr fun coin => mean_congr fun key => mean_congr fun mine => ?_
    cases b
    · refine (mean_comm _).trans ?_
      refine mean_congr fun others => mean_congr fun seeds => mean_congr fun csk => mean_congr fun salt =>
        mean_congr fun nonces => ?_
      have : Spec.twoGroups P false (fun i => P.edPub (seeds i).bytes) others =
          fun c i => P.edPub ((if c then others else seeds) i).bytes := by
        funext c i; cases c <;> rfl
      rw [this]
      rfl
    · refine mean_congr fun others => mean_congr fun seeds => mean_congr fun csk => mean_congr fun salt =>
        mean_congr fun nonces => ?_
      have : Spec.twoGroups P true (fun i => P.edPub (seeds i).bytes) others =
          fun c i => P.edPub ((if c then seeds else others) i).bytes := by
        funext c i; cases c <;> rfl
      rw [this]
      rfl
  rw [swap]
  unfold KdfSpy.real
  refine Eq.trans ?_ (mean_prod _).symm
  refine mean_congr fun t => ?_
  refine Eq.trans ?_ (mean_prod _).symm
  refine mean_congr fun coin => ?_
  refine Eq.trans ?_ (mean_prod _).symm
  refine mean_congr fun key => ?_
  refine Eq.trans ?_ (mean_prod _).symm
  refine mean_congr fun mine => mean_congr fun others => mean_congr fun seeds => mean_congr fun csk => mean_congr fun salt =>
    mean_congr fun nonces => ?_
  simp only [Watcher.kdf]
  generalize hp : Spec.twoGroups P b (fun i => P.edPub (seeds i).bytes) others = pks
  rw [henc _ (Fin.append (fun i => (seeds i).bytes) fun j => A.known t pks j) csk.length key.length salt.length
    (by intro i; refine Fin.addCases (fun i => ?_) (fun j => ?_) i <;> simp [Spec.Coins.length])
    (by
      intro i
      refine Fin.addCases (fun i => ?_) (fun j => ?_) i
      · simp [Spec.Coins.length]
      · simp [hA t pks j])]
  have hd : (fun i : Fin (n + m) => P.aeadSeal
        (wrappingKey P ((P.x25519 (clamp csk.bytes) (Spec.toMontgomery
            (Fin.append (fun i => P.edPub (seeds i).bytes) (fun j => P.edPub (A.known t pks j)) i))).getD [])
          salt.bytes (Fin.append (fun i => (nonces i).bytes) (fun j => (mine j).bytes) i)).1
        (wrappingKey P ((P.x25519 (clamp csk.bytes) (Spec.toMontgomery
            (Fin.append (fun i => P.edPub (seeds i).bytes) (fun j => P.edPub (A.known t pks j)) i))).getD [])
          salt.bytes (Fin.append (fun i => (nonces i).bytes) (fun j => (mine j).bytes) i)).2
        key.bytes (Fin.append (fun i => P.edPub (seeds i).bytes) (fun j => P.edPub (A.known t pks j)) i)) =
      Fin.append
        (fun i => P.aeadSeal
          (wrappingKey P ((P.x25519 (clamp csk.bytes) (Spec.toMontgomery (P.edPub (seeds i).bytes))).getD []) salt.bytes
            (nonces i).bytes).1
          (wrappingKey P ((P.x25519 (clamp csk.bytes) (Spec.toMontgomery (P.edPub (seeds i).bytes))).getD []) salt.bytes
            (nonces i).bytes).2 key.bytes (P.edPub (seeds i).bytes))
        (fun j => P.aeadSeal
          (wrappingKey P ((P.x25519 (clamp ((P.sha512 (A.known t pks j)).take 32))
            ((P.x25519 (clamp csk.bytes) basepoint).getD [])).getD []) salt.bytes (mine j).bytes).1
          (wrappingKey P ((P.x25519 (clamp ((P.sha512 (A.known t pks j)).take 32))
            ((P.x25519 (clamp csk.bytes) basepoint).getD [])).getD []) salt.bytes (mine j).bytes).2
          key.bytes (P.edPub (A.known t pks j))) := by
    funext i
    refine Fin.addCases (fun i => ?_) (fun j => ?_) i
    · simp only [Fin.append_left]
    · simp only [Fin.append_right]
      obtain ⟨epk, k, h1, _, _, h4, h5⟩ := L.dh csk.bytes (A.known t pks j) csk.length (hA t pks j)
      simp only [h4, h1, Option.getD_some, h5]
  dsimp only
  rw [hd]
  rfl

theorem kdf_is_box (b : Bool) : (A.kdf P S b).ideal P = (A.box P S b).real P := by
  unfold KdfSpy.ideal BoxSpy.real
  refine (mean_prod _).trans (Eq.trans ?_ (mean_prod _).symm)
  refine mean_congr fun t => ?_
  refine (mean_prod _).trans (Eq.trans ?_ (mean_prod _).symm)
  refine mean_congr fun coin => ?_
  refine (mean_prod _).trans (Eq.trans ?_ (mean_prod _).symm)
  refine mean_congr fun key => ?_
  refine (mean_prod _).trans (Eq.trans ?_ (mean_prod _).symm)
  refine mean_congr fun mine => ?_
  refine Eq.trans ?_ (mean_prod _).symm
  refine mean_congr fun others => ?_
  refine Eq.trans ?_ (mean_prod _).symm
  refine mean_congr fun seeds => ?_
  refine Eq.trans ?_ (mean_prod _).symm
  refine mean_congr fun csk => ?_
  refine Eq.trans ?_ (mean_prod _).symm
  refine mean_congr fun salt => ?_
  refine Eq.trans ?_ (mean_prod _).symm
  exact mean_congr fun nonces => mean_congr fun ns => mean_congr fun ks => rfl

/-- Once the boxes are random bytes the groups only trade places. -/
theorem box_symmetric : (A.box P S false).ideal = (A.box P S true).ideal := by
  unfold BoxSpy.ideal
  refine (mean_prod _).trans (Eq.trans ?_ (mean_prod _).symm)
  refine mean_congr fun t => ?_
  refine (mean_prod _).trans (Eq.trans ?_ (mean_prod _).symm)
  refine mean_congr fun coin => ?_
  refine (mean_prod _).trans (Eq.trans ?_ (mean_prod _).symm)
  refine mean_congr fun key => ?_
  refine (mean_prod _).trans (Eq.trans ?_ (mean_prod _).symm)
  refine mean_congr fun mine => ?_
  refine (mean_prod _).trans (Eq.trans ?_ (mean_prod _).symm)
  refine Eq.trans (mean_congr fun others => mean_prod _) (Eq.trans ?_ (mean_congr fun others => mean_prod _).symm)
  refine (mean_comm _).trans ?_
  refine mean_congr fun seeds => mean_congr fun others => ?_
  refine mean_congr fun rest => mean_congr fun boxes => ?_
  obtain ⟨csk, salt, nonces, ns⟩ := rest
  have : Spec.twoGroups P false (fun i => P.edPub (seeds i).bytes) others =
      Spec.twoGroups P true (fun i => P.edPub (others i).bytes) seeds := by
    funext c i; cases c <;> rfl
  simp only [Watcher.box]
  rw [this]

theorem box_valid (b : Bool) : (A.box P S b).Valid := by
  intro t i
  obtain ⟨t, coin, key, mine, others, seeds, csk, salt, nonces, ns⟩ := t
  exact ⟨(ns i).length, key.length⟩

/-- Anonymity for any program that writes the documented files. -/
theorem anonymity (L : Laws P) (hA : A.Fair) (enc : Job (n + m) → Bytes) (henc : Documented P S enc) :
    A.advantage P enc ≤ ((A.kdf P S false).advantage P + (A.box P S false).advantage P) +
      ((A.kdf P S true).advantage P + (A.box P S true).advantage P) := by
  have step : ∀ b, |A.odds P enc b - (A.box P S b).ideal| ≤ (A.kdf P S b).advantage P + (A.box P S b).advantage P := by
    intro b
    rw [watch_is_kdf P S A L hA enc henc b]
    unfold KdfSpy.advantage BoxSpy.advantage
    rw [← kdf_is_box P S A b]
    have e : (A.kdf P S b).real P - (A.box P S b).ideal =
        ((A.kdf P S b).real P - (A.kdf P S b).ideal P) + ((A.kdf P S b).ideal P - (A.box P S b).ideal) := by ring
    rw [e]
    exact abs_add_le _ _
  have h0 := step false
  have h1 := step true
  rw [← box_symmetric P S A] at h1
  unfold Watcher.advantage
  have e : A.odds P enc false - A.odds P enc true =
      (A.odds P enc false - (A.box P S false).ideal) + ((A.box P S false).ideal - A.odds P enc true) := by ring
  rw [e]
  refine (abs_add_le _ _).trans (add_le_add h0 ?_)
  rw [abs_sub_comm]; exact h1

end

/-- **C127.** For every size of the groups, every sender (whose secret key the watcher may know) or none, every block size,
every way the input arrives, and every watcher, who picks the plaintext and any number of further recipients whose keys are
his: he tells for which of two groups of fresh key pairs `Encrypt` made a file no better than the explicit players made from
him tell the key agreement, and one AES-GCM box for each random key, from random bytes. -/
theorem C127_encrypt {n m : Nat} (P : Prims) (L : Laws P) (sender : Option PrivateKey) (hs : SenderSized sender) (blk : Nat)
    (reader : Bytes → Reader) (hr : ∀ p, (reader p).content = p ∧ isEndOfInput (reader p).last = true)
    (A : Watcher n m) (hA : A.Fair) :
    let S : Setting :=
      { sender := sender.map (·.sk), block := effectiveBlock blk, cut := encryptChunks (effectiveBlock blk) }
    A.advantage P (encrypted P sender blk reader) ≤ ((A.kdf P S false).advantage P + (A.box P S false).advantage P) +
      ((A.kdf P S true).advantage P + (A.box P S true).advantage P) ∧ ∀ b, (A.box P S b).Valid :=
  ⟨anonymity P _ A L hA _ (encrypted_documented P L sender hs blk reader hr), box_valid P _ A⟩

/-- **C127**, the stream writer. -/
theorem C127_stream {n m : Nat} (P : Prims) (L : Laws P) (sender : Option PrivateKey) (hs : SenderSized sender) (blk : Nat)
    (buffers : Bytes → List Bytes) (hr : ∀ p, (buffers p).flatten = p)
    (A : Watcher n m) (hA : A.Fair) :
    let S : Setting :=
      { sender := sender.map (·.sk), block := effectiveBlock blk, cut := streamChunks (effectiveBlock blk) }
    A.advantage P (streamed P sender blk buffers) ≤ ((A.kdf P S false).advantage P + (A.box P S false).advantage P) +
      ((A.kdf P S true).advantage P + (A.box P S true).advantage P) ∧ ∀ b, (A.box P S b).Valid :=
  ⟨anonymity P _ A L hA _ (streamed_documented P L sender hs blk buffers hr), box_valid P _ A⟩

/-! ### A concrete case -/

namespace AnonDemo

/-- Draws a key pair for himself, has two of the public keys encrypted, and compares the file with a third one. -/
def watcher : Watcher 2 1 where
  Tape := Coins 32
  known t _ _ := t.bytes
  plain _ pks := pks true 0 ++ pks false 1
  guess _ pks file := file.take 4 == (pks true 1).take 4

/-- The hypotheses of `C127_encrypt` are met. -/
example : watcher.Fair ∧ ∀ p, (GameDemo.input p).content = p ∧ isEndOfInput (GameDemo.input p).last = true :=
  ⟨fun t _ _ => t.length, GameDemo.input_ok⟩

end AnonDemo

end Sigtool
