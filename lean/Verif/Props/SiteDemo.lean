import Verif.Props.Site
import Verif.Props.Keys
import Verif.Props.PublicKeys
/-!
# The hypotheses of C134 and C135 are met

Alice's and Bob's public keys lie in files; the message is encrypted into the file `out`; the one who gets it decrypts it into
the file `msg`, with a private key without pass phrase in the file `key`.
-/

namespace Sigtool
open Spec

/-- A private key that was loaded is determined by its secret bytes. -/
theorem makePrivateKey_fields (P : Prims) (Y : Yaml) (pem : Bytes → Option PemBlock) (b : Bytes) (getpw : GetPw) (sk : PrivateKey)
    (h : makePrivateKey P Y pem b getpw = .ok sk) : sk = ⟨sk.sk, ⟨sk.sk.drop 32, [], pkhash P (sk.sk.drop 32)⟩⟩ := by
  have key : ∃ x, makePrivateKeyFromBytes P x = .ok sk := by
    unfold makePrivateKey at h
    split at h
    · unfold parseSSHPrivateKey at h
      split at h
      · cases h
      · split at h
        · cases h
        · split at h
          · unfold parseOpenSSHPrivateKey at h
            rw [bind_ok_iff] at h
            obtain ⟨m, _, h⟩ := h
            split at h
            · cases h
            · split at h
              · cases h
              · split at h
                · cases h
                · split at h
                  · cases h
                  · rw [bind_ok_iff] at h
                    obtain ⟨⟨s, e⟩, _, h⟩ := h
                    exact openSection_ok P s e sk h
          · cases h
    · rw [bind_ok_iff] at h
      obtain ⟨pw, _, h⟩ := h
      unfold unmarshalPrivYaml at h
      rw [bind_ok_iff] at h
      obtain ⟨d, _, h⟩ := h
      split at h
      · cases h
      · rw [bind_ok_iff] at h
        obtain ⟨salt, _, h⟩ := h
        rw [bind_ok_iff] at h
        obtain ⟨esk, _, h⟩ := h
        split at h
        · cases h
        · cases h
        · rw [bind_ok_iff] at h
          obtain ⟨nonce, _, h⟩ := h
          split at h
          · cases h
          · exact ⟨_, h⟩
  obtain ⟨x, hx⟩ := key
  unfold makePrivateKeyFromBytes at hx
  split at hx
  · cases hx
  · cases hx; rfl

namespace SiteDemo

def D : Deps := ⟨toyPrims, toyYaml, fun _ => none⟩

def pubFile (pk : Bytes) : Bytes := (⟨pk, [], pkhash toyPrims pk⟩ : PublicKey).marshal toyYaml []

theorem pubFile_reads (seed : Bytes) (hs : seed.length = 32) :
    ∃ pk, makePublicKey toyPrims toyYaml (pubFile (toyPrims.edPub seed)) = .ok pk ∧ pk.pk = toyPrims.edPub seed := by
  have hl : (toyPrims.edPub seed).length = 32 := toyLaws.ed_pub_len seed hs
  obtain ⟨pk, h1, h2, _⟩ := C38_roundtrip toyPrims toyLaws toyYaml toyYaml_laws [] [] (toyYaml_reads _) (toyPrims.edPub seed)
    ⟨toyPrims.edPub seed, [], pkhash toyPrims (toyPrims.edPub seed)⟩ (by unfold makePublicKeyFromBytes; rw [if_neg (by omega)])
  exact ⟨pk, h1, h2⟩

def senderFs (pks : Fin 2 → Bytes) (plain : Bytes) : FS :=
  { dir := fun p => if p = [97] then some (.file 0) else if p = [98] then some (.file 1) else if p = [99] then some (.file 2)
      else none
    data := fun i => if i = 0 then pubFile (pks 0) else if i = 1 then pubFile (pks 1) else plain }

/-- `sigtool encrypt -o out a b c`. -/
def site : Site 2 where
  fs := senderFs
  env := { tmp := [116], inode := 7 }
  outfile := [111]
  auth := [107]
  args i := if i = 0 then [97] else [98]
  infile := [99]
  input := OutsiderDemo.input

theorem ready : site.Ready D none where
  people := by decide
  input p := ⟨(OutsiderDemo.input_ok p).1, rfl⟩
  ident _ _ := .inl ⟨rfl, rfl⟩
  denotes seeds plain hs i := by
    obtain ⟨pk, h1, h2⟩ := pubFile_reads (seeds i) (hs i)
    refine ⟨pk, .inr ⟨?_, pubFile (toyPrims.edPub (seeds i)), ?_, h1⟩, h2⟩
    · fin_cases i <;> exact fun h => absurd h.1 (by decide)
    · fin_cases i <;> rfl
  exists_ _ _ := .inr rfl
  auth _ _ := .inl rfl
  output := by
    rw [if_neg (by decide)]
    refine ⟨⟨by simp [site], rfl, rfl, rfl⟩, by decide, fun pks plain => ⟨⟨rfl, .inl rfl⟩, ?_, ?_⟩⟩
    · intro d hd
      simp only [site, senderFs, List.mem_singleton] at hd
      subst hd; rfl
    · intro d hd p
      simp only [site, senderFs, List.mem_singleton] at hd
      subst hd
      dsimp only [site]
      split
      · simp
      · split
        · simp
        · split <;> simp

def privFile (seed : Bytes) : Bytes :=
  match (newPrivateKey toyPrims seed).marshal toyPrims toyYaml [] [] (List.replicate 32 1) with
  | .ok t => t
  | _ => []

def recipientFs (seed file : Bytes) : FS :=
  { dir := fun p => if p = [107] then some (.file 0) else if p = [111] then some (.file 1) else none
    data := fun i => if i = 0 then privFile seed else file }

/-- `sigtool decrypt -o msg key out`. -/
def desk : Desk where
  fs := recipientFs
  env := { tmp := [116], inode := 7 }
  outfile := [109]
  keyfile := [107]
  infile := [111]
  input := OutsiderDemo.input

theorem desk_set : desk.Set D none where
  input file := (OutsiderDemo.input_ok file).1
  key seed file b sk hs hb hk := by
    obtain ⟨text, sk', h1, h2, h3, h4, h5⟩ := C35_roundtrip_partial toyPrims toyLaws toyYaml toyYaml_laws (fun _ => none) []
      (toyYaml_reads _) (.inl rfl) (newPrivateKey toyPrims seed) (newPrivateKey_genuine _ seed hs) [] (List.replicate 32 1) (by simp)
      none (.inr ⟨rfl, rfl⟩)
    have hb' : b = text := by
      have e : some (privFile seed) = some b := hb
      unfold privFile at e
      rw [h1] at e
      cases e; rfl
    subst hb'
    have hk' : makePrivateKey toyPrims toyYaml (fun _ => none) b none = .ok sk := hk
    rw [h2] at hk'
    cases hk'
    have hf := makePrivateKey_fields _ _ _ _ _ _ h2
    rw [hf, h3]
    have hd : (newPrivateKey toyPrims seed).sk.drop 32 = toyPrims.edPub seed := List.drop_left' hs
    rw [hd]
    rfl
  sender seed file pk h := by
    rcases h with ⟨_, h⟩ | ⟨h, _⟩
    · exact h
    · exact absurd rfl h
  output _ := by
    refine ⟨by decide, fun seed file => ⟨?_, ?_⟩⟩
    · intro d hd
      simp only [desk, recipientFs, List.mem_singleton] at hd
      subst hd; rfl
    · intro d hd p
      simp only [desk, recipientFs, List.mem_singleton] at hd
      subst hd
      dsimp only [desk]
      split
      · simp
      · split <;> simp

/-- C134: a spy on the output of the command. -/
example : GameDemo.reader.advantage toyPrims (site.file D) ≤ GameDemo.reader.bound toyPrims
    { sender := none, block := effectiveBlock 0, cut := encryptChunks (effectiveBlock 0) } :=
  (C134_secrecy D toyLaws site none (by simp) ready GameDemo.reader GameDemo.fair).1

/-- C135: a tamperer between the two commands. -/
example : let A : Tamperer 2 := { Tape := Unit, plain := fun _ _ => [7, 7], change := fun _ _ file => (1, file.dropLast) }
    A.fools D site (fun _ => desk) (encryptChunks (effectiveBlock 0)) ≤ A.bound toyPrims
      { sender := none, block := effectiveBlock 0, cut := encryptChunks (effectiveBlock 0) } := by
  intro A
  exact (C135_commands D toyLaws site none (by simp) ready (by decide) (by decide) (fun _ => desk) none (fun _ => desk_set) (by simp) A
    (fun _ _ => by simp only [A, List.length_cons, List.length_nil]; decide)).1

end SiteDemo

end Sigtool
