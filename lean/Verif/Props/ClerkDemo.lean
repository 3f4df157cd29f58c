import Verif.Props.Clerk
import Verif.Props.SiteDemo
/-!
# The hypotheses of C136 are met

The clerk's key is a file without pass phrase, as `generate` makes it.  The toy signatures can be made from the public key
alone; so a swindler who has one file signed and then makes a signature file for another always wins: the bound is an
obligation.
-/

namespace Sigtool
open Spec

namespace ClerkDemo

def D : Deps := SiteDemo.D

def clerk : Clerk where
  keyfile := [107]
  inode := 9
  text := SiteDemo.privFile
  getpw := none

theorem holds : clerk.Holds D := by
  intro seed hs
  obtain ⟨text, sk', h1, h2, h3, h4, h5⟩ := C35_roundtrip_partial toyPrims toyLaws toyYaml toyYaml_laws (fun _ => none) []
    (toyYaml_reads _) (.inl rfl) (newPrivateKey toyPrims seed) (newPrivateKey_genuine _ seed hs) [] (List.replicate 32 1) (by simp)
    none (.inr ⟨rfl, rfl⟩)
  have ht : clerk.text seed = text := by
    show SiteDemo.privFile seed = text
    unfold SiteDemo.privFile
    rw [h1]
  show makePrivateKey toyPrims toyYaml (fun _ => none) (clerk.text seed) none = .ok (newPrivateKey toyPrims seed)
  rw [ht, h2, makePrivateKey_fields _ _ _ _ _ _ h2, h3]
  have hd : (newPrivateKey toyPrims seed).sk.drop 32 = toyPrims.edPub seed := List.drop_left' hs
  rw [hd]
  rfl

/-- A file `m` to be signed. -/
def order (content : Bytes) : Order where
  fs := { dir := fun p => if p = [109] then some (.file 0) else none, data := fun _ => content }
  env := { tmp := [116], inode := 7 }
  output := [45]
  file := [109]

theorem order_legal (content : Bytes) : (order content).legal clerk :=
  ⟨by simp [order, clerk], by simp [order, clerk]⟩

def forgedSig (pk content : Bytes) : Signature :=
  ⟨1 :: toyHash 63 (pk ++ Spec.digest toyPrims (toyPrims.sha512 (Spec.fileInput content))), pkhash toyPrims pk⟩

/-- The files `p`, `s` and `f` that are presented: a public key, a signature, a content. -/
def presentedFs (pk content : Bytes) : FS :=
  { dir := fun p => if p = [112] then some (.file 0) else if p = [115] then some (.file 1) else if p = [102] then some (.file 2)
      else none
    data := fun i => if i = 0 then SiteDemo.pubFile pk else if i = 1 then (forgedSig pk content).marshal toyYaml [] else content }

def swindler : Swindler where
  Tape := Unit
  play _ pk :=
    .ask (.sign (order [1, 2])) fun o =>
    .done (presentedFs pk (o.stdout ++ [1, 2, 3]), [[112], [115], [102]])

theorem deceives (seed : Bytes) (hs : seed.length = 32) (content : Bytes) (signed : List Bytes) (hn : content ∉ signed) :
    Deceived D (toyPrims.edPub seed) signed (presentedFs (toyPrims.edPub seed) content) [[112], [115], [102]] := by
  have hl : (toyPrims.edPub seed).length = 32 := toyLaws.ed_pub_len seed hs
  obtain ⟨pk, h1, h2, h3⟩ := C38_roundtrip toyPrims toyLaws toyYaml toyYaml_laws [] [] (toyYaml_reads _) (toyPrims.edPub seed)
    ⟨toyPrims.edPub seed, [], pkhash toyPrims (toyPrims.edPub seed)⟩ (by unfold makePublicKeyFromBytes; rw [if_neg (by omega)])
  have hk : KeyArg D (presentedFs (toyPrims.edPub seed) content) [112] pk := by
    refine .inr ⟨?_, SiteDemo.pubFile (toyPrims.edPub seed), rfl, h1⟩
    have : ∃ e, makePublicKeyFromString toyPrims [112] = .err e := ⟨_, rfl⟩
    exact this
  refine ⟨?_, [112], [115], [102], [], rfl, ⟨pk, hk, h2⟩, content, rfl, hn⟩
  refine (C48_exit_zero_iff _ _ _ _).mpr ⟨[112], [115], [102], [], rfl, rfl, pk, forgedSig (toyPrims.edPub seed) content, content,
    hk, ⟨_, rfl, C33_roundtrip toyYaml [] (toyYaml_reads _) _⟩, h3, rfl, ?_⟩
  rw [h2]
  show toyPrims.edVerify _ _ _ = true
  simp [toyPrims, forgedSig, Spec.digest, D, SiteDemo.D]

open Classical in
theorem odds_eq : swindler.odds D clerk (useKey D.P) = 1 := by
  unfold Swindler.odds
  have hne : Nonempty swindler.Tape := inferInstanceAs (Nonempty Unit)
  refine Eq.trans (mean_congr fun t => mean_congr fun seed => ?_) (b := mean fun t => mean fun seed => 1) ?_
  · simp only [swindler, Play.run]
    have := deceives seed.bytes seed.length
      ((clerk.does D (useKey D.P) seed.bytes (.sign (order [1, 2]))).stdout ++ [1, 2, 3])
      (List.filterMap Demand.contents [.sign (order [1, 2])]) (by
        have : List.filterMap Demand.contents [.sign (order [1, 2])] = [[1, 2]] := rfl
        rw [this, List.mem_singleton]
        intro h
        have := congrArg List.length h
        simp at this)
    rw [show D.P = toyPrims from rfl] at this ⊢
    rw [decide_eq_true this]
    rfl
  · simp only [mean_const]

/-- What the swindler sees is not empty: the clerk's run succeeds. -/
example (seed : Bytes) (hs : seed.length = 32) : (clerk.does D (useKey D.P) seed (.sign (order [1, 2]))).exit = 0 := by
  rw [does_answer D toyLaws clerk holds seed hs]
  unfold Demand.answer
  dsimp only
  rw [if_pos (order_legal _)]
  rfl

end ClerkDemo

example : 1 ≤ ((ClerkDemo.swindler.forger ClerkDemo.D ClerkDemo.clerk).ed toyPrims).odds toyPrims +
    ((ClerkDemo.swindler.forger ClerkDemo.D ClerkDemo.clerk).sameFile toyPrims (useKey toyPrims) +
      (ClerkDemo.swindler.forger ClerkDemo.D ClerkDemo.clerk).sameMessage toyPrims) :=
  ClerkDemo.odds_eq ▸ C136_commands ClerkDemo.D toyLaws ClerkDemo.clerk ClerkDemo.holds ClerkDemo.swindler

end Sigtool
