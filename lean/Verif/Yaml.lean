import Verif.Base64
/-!
# Yaml: what sigtool needs from `gopkg.in/yaml.v2`

The YAML library is a dependency. The model fixes the shape of the text that `yaml.Marshal` writes for the three structs of
`sign/keys.go:76-108` (one `key: value` line per field in order, empty `omitempty` fields left out, plain scalars for base64
text) and leaves open how a comment value is written and everything about the parser. What is assumed of the library is
`Yaml.Laws` and, for the comment in question, `Yaml.Reads`; both are hypotheses of the theorems.
-/

namespace Sigtool

/-- `signature` (`sign/keys.go:103-108`). -/
structure SigDoc where
  comment : Bytes := []
  pkhash : Bytes := []
  signature : Bytes := []
deriving DecidableEq, Repr

/-- `serializedPubKey` (`sign/keys.go:96-101`). -/
structure PubDoc where
  comment : Bytes := []
  pk : Bytes := []
  hash : Bytes := []
deriving DecidableEq, Repr

/-- `serializedPrivKey` (`sign/keys.go:76-94`). -/
structure PrivDoc where
  comment : Bytes := []
  esk : Bytes := []
  salt : Bytes := []
  algo : Bytes := []
  n : Int := 0
  r : Int := 0
  p : Int := 0
deriving DecidableEq, Repr

/-- The library: how it writes a non-empty string value, and how it reads documents (`none`: it returns an error). -/
structure Yaml where
  scalar : Bytes → Bytes
  readSig : Bytes → Option SigDoc
  readPub : Bytes → Option PubDoc
  readPriv : Bytes → Option PrivDoc

/-- One `key: value` line; `omitempty` fields vanish when empty. -/
def Yaml.line (Y : Yaml) (key : String) (v : Bytes) (om : Bool) : Bytes :=
  if om ∧ v = [] then [] else ascii key ++ ascii ": " ++ Y.scalar v ++ ascii "\n"

/-- `yaml.Marshal(ss)` (`sign/sign.go:127`). -/
def Yaml.sigText (Y : Yaml) (d : SigDoc) : Bytes :=
  Y.line "comment" d.comment true ++ Y.line "pkhash" d.pkhash true ++ Y.line "signature" d.signature false

/-- `yaml.Marshal(spk)` (`sign/keys.go:481`). -/
def Yaml.pubText (Y : Yaml) (d : PubDoc) : Bytes :=
  Y.line "comment" d.comment true ++ Y.line "pk" d.pk false ++ Y.line "hash" d.hash false

/-- `yaml.Marshal(&ssk)` (`sign/keys.go:266`) with the constants `N`, `r`, `p` (`sign/keys.go:67-69`) in decimal. -/
def Yaml.privText (Y : Yaml) (comment esk salt : Bytes) : Bytes :=
  Y.line "comment" comment true ++ Y.line "esk" esk false ++ Y.line "salt" salt true ++
    ascii "algo: scrypt-sha256\nZ: 524288\nr: 8\np: 1\n"

/-- Base64 text that ends in `=` is written as a plain scalar: it cannot be mistaken for another type. -/
structure Yaml.Laws (Y : Yaml) : Prop where
  plain : ∀ x : Bytes, x.length % 3 ≠ 0 → Y.scalar (Base64.encode x) = Base64.encode x

/-- The library reads back what it wrote, for documents with this comment. -/
structure Yaml.Reads (Y : Yaml) (comment : Bytes) : Prop where
  sig : ∀ pkhash sig : Bytes, Y.readSig (Y.sigText ⟨comment, Base64.encode pkhash, Base64.encode sig⟩) =
    some ⟨comment, Base64.encode pkhash, Base64.encode sig⟩
  pub : ∀ pk hash : Bytes, Y.readPub (Y.pubText ⟨comment, Base64.encode pk, Base64.encode hash⟩) =
    some ⟨comment, Base64.encode pk, Base64.encode hash⟩
  priv : ∀ esk salt : Bytes, Y.readPriv (Y.privText comment (Base64.encode esk) (Base64.encode salt)) =
    some ⟨comment, Base64.encode esk, Base64.encode salt, ascii "scrypt-sha256", 524288, 8, 1⟩

/-! ### A concrete instance -/

/-- Cut a text at line feeds. -/
def cutLines : Bytes → List Bytes
  | [] => [[]]
  | c :: t =>
    if c = 10 then [] :: cutLines t
    else
      match cutLines t with
      | [] => [[c]]
      | l :: ls => (c :: l) :: ls

theorem cutLines_append (a b : Bytes) (h : ∀ c ∈ a, c ≠ 10) : cutLines (a ++ 10 :: b) = a :: cutLines b := by
  induction a with
  | nil => simp [cutLines]
  | cons c a ih =>
    simp only [List.cons_append, cutLines]
    rw [if_neg (h c (by simp)), ih (fun d hd => h d (by simp [hd]))]

/-- The value of the first line that begins with `key: `. -/
def fieldOf (key : Bytes) (ls : List Bytes) : Option Bytes :=
  (ls.find? fun l => (key ++ ascii ": ").isPrefixOf l).map fun l => l.drop (key.length + 2)

/-- A text without line feeds that does not begin with a quote is written as it is; anything else as `"` and two letters per
byte. -/
def toyScalar (v : Bytes) : Bytes :=
  if v.head? ≠ some 34 ∧ v.all (· ≠ 10) then v
  else 34 :: v.flatMap fun b => [65 + b / 16, 65 + b % 16]

def toyUnhex : Bytes → Bytes
  | a :: b :: t => ((a - 65) * 16 + (b - 65)) :: toyUnhex t
  | _ => []

def toyUnscalar : Bytes → Bytes
  | 34 :: t => toyUnhex t
  | v => v

def toyField (key : String) (b : Bytes) : Bytes := ((fieldOf (ascii key) (cutLines b)).map toyUnscalar).getD []

def toyInt (key : String) (b : Bytes) : Int :=
  match fieldOf (ascii key) (cutLines b) with
  | none => 0
  | some t => if t = ascii "524288" then 524288 else if t = ascii "8" then 8 else if t = ascii "1" then 1 else 0

/-- An instance that reads back every comment. -/
def toyYaml : Yaml where
  scalar := toyScalar
  readSig b := some ⟨toyField "comment" b, toyField "pkhash" b, toyField "signature" b⟩
  readPub b := some ⟨toyField "comment" b, toyField "pk" b, toyField "hash" b⟩
  readPriv b := some ⟨toyField "comment" b, toyField "esk" b, toyField "salt" b,
    (fieldOf (ascii "algo") (cutLines b)).getD [], toyInt "Z" b, toyInt "r" b, toyInt "p" b⟩

theorem toyUnhex_hex (v : Bytes) : toyUnhex (v.flatMap fun b => [65 + b / 16, 65 + b % 16]) = v := by
  induction v with
  | nil => rfl
  | cons b v ih =>
    simp only [List.flatMap_cons, List.cons_append, List.nil_append, toyUnhex, ih]
    congr 1
    exact Base64.forall_byte (p := fun b => (65 + b / 16 - 65) * 16 + (65 + b % 16 - 65) = b) (by decide +kernel) b

theorem toyUnscalar_scalar (v : Bytes) : toyUnscalar (toyScalar v) = v := by
  unfold toyScalar
  split
  · rename_i h
    unfold toyUnscalar
    split
    · exact absurd rfl h.1
    · rfl
  · simp [toyUnscalar, toyUnhex_hex]

theorem toyScalar_noLF (v : Bytes) : ∀ c ∈ toyScalar v, c ≠ 10 := by
  unfold toyScalar
  split
  · rename_i h
    intro c hc
    simpa using List.all_eq_true.mp h.2 c hc
  · intro c hc
    simp only [List.mem_cons, List.mem_flatMap, List.not_mem_nil, or_false] at hc
    rcases hc with rfl | ⟨b, _, rfl | rfl⟩
    · decide
    · exact Base64.forall_byte (p := fun b => 65 + b / 16 ≠ 10) (by decide +kernel) b
    · exact Base64.forall_byte (p := fun b => 65 + b % 16 ≠ 10) (by decide +kernel) b

theorem toyYaml_laws : toyYaml.Laws := by
  refine ⟨?_⟩
  intro x hx
  show toyScalar _ = _
  unfold toyScalar
  rw [if_pos]
  have h34 : ∀ c, Base64.isB64 c = true → c ≠ 34 ∧ c ≠ 10 := by
    intro c
    exact Base64.forall_byte (p := fun c => Base64.isB64 c = true → c ≠ 34 ∧ c ≠ 10) (by decide +kernel) c
  refine ⟨?_, ?_⟩
  · intro h
    exact (h34 34 (Base64.encode_alphabet x 34 (List.mem_of_mem_head? h))).1 rfl
  · rw [List.all_eq_true]
    intro c hc
    simpa using (h34 c (Base64.encode_alphabet x c hc)).2

/-- Cutting a text made of lines. -/
theorem cut_line (key : String) (v : Bytes) (om : Bool) (t : Bytes) (hk : ∀ c ∈ ascii key ++ ascii ": ", c ≠ 10) :
    cutLines (toyYaml.line key v om ++ t) =
      (if om ∧ v = [] then [] else [ascii key ++ ascii ": " ++ toyScalar v]) ++ cutLines t := by
  unfold Yaml.line
  split
  · simp
  · have : ascii key ++ ascii ": " ++ toyYaml.scalar v ++ ascii "\n" ++ t = (ascii key ++ ascii ": " ++ toyScalar v) ++ 10 :: t := by
      simp [toyYaml]; rfl
    rw [this, cutLines_append]
    · rfl
    · intro c hc
      rcases List.mem_append.mp hc with hc | hc
      · exact hk c hc
      · exact toyScalar_noLF v c hc

theorem fieldOf_hit (key v : Bytes) (ls : List Bytes) : fieldOf key ((key ++ ascii ": " ++ v) :: ls) = some v := by
  unfold fieldOf
  have h1 : (key ++ ascii ": ").isPrefixOf (key ++ ascii ": " ++ v) = true := by
    rw [List.isPrefixOf_iff_prefix]; exact List.prefix_append _ _
  have h2 : key.length + 2 = (key ++ ascii ": ").length := by simp; rfl
  rw [List.find?_cons, h1]
  simp only [Option.map_some, h2, List.drop_left]

theorem fieldOf_miss (key l : Bytes) (ls : List Bytes) (h : (key ++ ascii ": ").isPrefixOf l = false) :
    fieldOf key (l :: ls) = fieldOf key ls := by
  unfold fieldOf
  rw [List.find?_cons, h]

theorem fieldOf_line_hit (key : String) (v : Bytes) (om : Bool) (t : Bytes) (hk : ∀ c ∈ ascii key ++ ascii ": ", c ≠ 10) :
    fieldOf (ascii key) (cutLines (toyYaml.line key v om ++ t)) =
      if om ∧ v = [] then fieldOf (ascii key) (cutLines t) else some (toyScalar v) := by
  rw [cut_line key v om t hk]
  split
  · simp
  · rw [List.cons_append, fieldOf_hit]

theorem fieldOf_line_miss (key key' : String) (v : Bytes) (om : Bool) (t : Bytes)
    (hk : ∀ c ∈ ascii key' ++ ascii ": ", c ≠ 10)
    (hm : ∀ v, (ascii key ++ ascii ": ").isPrefixOf (ascii key' ++ ascii ": " ++ v) = false) :
    fieldOf (ascii key) (cutLines (toyYaml.line key' v om ++ t)) = fieldOf (ascii key) (cutLines t) := by
  rw [cut_line key' v om t hk]
  split
  · simp
  · rw [List.cons_append, List.nil_append, fieldOf_miss _ _ _ (hm _)]

theorem toyYaml_reads (comment : Bytes) : toyYaml.Reads comment := by
  refine ⟨?_, ?_, ?_⟩
  · intro ph sg
    generalize Base64.encode ph = a
    generalize Base64.encode sg = b
    have e : toyYaml.sigText ⟨comment, a, b⟩ = toyYaml.line "comment" comment true ++ (toyYaml.line "pkhash" a true ++
        (toyYaml.line "signature" b false ++ [])) := by simp [Yaml.sigText]
    rw [e]
    simp only [toyYaml]
    have c1 : toyField "comment" (toyYaml.line "comment" comment true ++ (toyYaml.line "pkhash" a true ++
        (toyYaml.line "signature" b false ++ []))) = comment := by
      unfold toyField
      rw [fieldOf_line_hit _ _ _ _ (by decide), fieldOf_line_miss _ _ _ _ _ (by decide) (fun _ => rfl),
        fieldOf_line_miss _ _ _ _ _ (by decide) (fun _ => rfl)]
      split
      · rename_i h; rw [h.2]; rfl
      · simp [toyUnscalar_scalar]
    have c2 : toyField "pkhash" (toyYaml.line "comment" comment true ++ (toyYaml.line "pkhash" a true ++
        (toyYaml.line "signature" b false ++ []))) = a := by
      unfold toyField
      rw [fieldOf_line_miss _ _ _ _ _ (by decide) (fun _ => rfl), fieldOf_line_hit _ _ _ _ (by decide),
        fieldOf_line_miss _ _ _ _ _ (by decide) (fun _ => rfl)]
      split
      · rename_i h; rw [h.2]; rfl
      · simp [toyUnscalar_scalar]
    have c3 : toyField "signature" (toyYaml.line "comment" comment true ++ (toyYaml.line "pkhash" a true ++
        (toyYaml.line "signature" b false ++ []))) = b := by
      unfold toyField
      rw [fieldOf_line_miss _ _ _ _ _ (by decide) (fun _ => rfl), fieldOf_line_miss _ _ _ _ _ (by decide) (fun _ => rfl),
        fieldOf_line_hit _ _ _ _ (by decide)]
      simp [toyUnscalar_scalar]
    simp only [toyYaml] at c1 c2 c3
    rw [c1, c2, c3]
  · intro ph sg
    generalize Base64.encode ph = a
    generalize Base64.encode sg = b
    have e : toyYaml.pubText ⟨comment, a, b⟩ = toyYaml.line "comment" comment true ++ (toyYaml.line "pk" a false ++
        (toyYaml.line "hash" b false ++ [])) := by simp [Yaml.pubText]
    rw [e]
    simp only [toyYaml]
    have c1 : toyField "comment" (toyYaml.line "comment" comment true ++ (toyYaml.line "pk" a false ++
        (toyYaml.line "hash" b false ++ []))) = comment := by
      unfold toyField
      rw [fieldOf_line_hit _ _ _ _ (by decide), fieldOf_line_miss _ _ _ _ _ (by decide) (fun _ => rfl),
        fieldOf_line_miss _ _ _ _ _ (by decide) (fun _ => rfl)]
      split
      · rename_i h; rw [h.2]; rfl
      · simp [toyUnscalar_scalar]
    have c2 : toyField "pk" (toyYaml.line "comment" comment true ++ (toyYaml.line "pk" a false ++
        (toyYaml.line "hash" b false ++ []))) = a := by
      unfold toyField
      rw [fieldOf_line_miss _ _ _ _ _ (by decide) (fun _ => rfl), fieldOf_line_hit _ _ _ _ (by decide)]
      simp [toyUnscalar_scalar]
    have c3 : toyField "hash" (toyYaml.line "comment" comment true ++ (toyYaml.line "pk" a false ++
        (toyYaml.line "hash" b false ++ []))) = b := by
      unfold toyField
      rw [fieldOf_line_miss _ _ _ _ _ (by decide) (fun _ => rfl), fieldOf_line_miss _ _ _ _ _ (by decide) (fun _ => rfl),
        fieldOf_line_hit _ _ _ _ (by decide)]
      simp [toyUnscalar_scalar]
    simp only [toyYaml] at c1 c2 c3
    rw [c1, c2, c3]
  · intro ph sg
    generalize Base64.encode ph = a
    generalize Base64.encode sg = b
    have e : toyYaml.privText comment a b = toyYaml.line "comment" comment true ++ (toyYaml.line "esk" a false ++
        (toyYaml.line "salt" b true ++ ascii "algo: scrypt-sha256\nZ: 524288\nr: 8\np: 1\n")) := by
      simp [Yaml.privText]
    rw [e]
    generalize htl : ascii "algo: scrypt-sha256\nZ: 524288\nr: 8\np: 1\n" = tl
    have tail : ∀ key : String, fieldOf (ascii key) (cutLines tl) =
        fieldOf (ascii key) (cutLines (ascii "algo: scrypt-sha256\nZ: 524288\nr: 8\np: 1\n")) := by intro key; rw [htl]
    simp only [toyYaml]
    have c1 : toyField "comment" (toyYaml.line "comment" comment true ++ (toyYaml.line "esk" a false ++
        (toyYaml.line "salt" b true ++ tl))) = comment := by
      unfold toyField
      rw [fieldOf_line_hit _ _ _ _ (by decide), fieldOf_line_miss _ _ _ _ _ (by decide) (fun _ => rfl),
        fieldOf_line_miss _ _ _ _ _ (by decide) (fun _ => rfl), tail]
      split
      · rename_i h; rw [h.2]; decide +kernel
      · simp [toyUnscalar_scalar]
    have c2 : toyField "esk" (toyYaml.line "comment" comment true ++ (toyYaml.line "esk" a false ++
        (toyYaml.line "salt" b true ++ tl))) = a := by
      unfold toyField
      rw [fieldOf_line_miss _ _ _ _ _ (by decide) (fun _ => rfl), fieldOf_line_hit _ _ _ _ (by decide)]
      simp [toyUnscalar_scalar]
    have c3 : toyField "salt" (toyYaml.line "comment" comment true ++ (toyYaml.line "esk" a false ++
        (toyYaml.line "salt" b true ++ tl))) = b := by
      unfold toyField
      rw [fieldOf_line_miss _ _ _ _ _ (by decide) (fun _ => rfl), fieldOf_line_miss _ _ _ _ _ (by decide) (fun _ => rfl),
        fieldOf_line_hit _ _ _ _ (by decide), tail]
      split
      · rename_i h; rw [h.2]; decide +kernel
      · simp [toyUnscalar_scalar]
    have c4 : fieldOf (ascii "algo") (cutLines (toyYaml.line "comment" comment true ++ (toyYaml.line "esk" a false ++
        (toyYaml.line "salt" b true ++ tl)))) = some (ascii "scrypt-sha256") := by
      rw [fieldOf_line_miss _ _ _ _ _ (by decide) (fun _ => rfl), fieldOf_line_miss _ _ _ _ _ (by decide) (fun _ => rfl),
        fieldOf_line_miss _ _ _ _ _ (by decide) (fun _ => rfl), tail]
      decide +kernel
    have c5 : ∀ key : String, (∀ v, (ascii key ++ ascii ": ").isPrefixOf (ascii "comment" ++ ascii ": " ++ v) = false) →
        (∀ v, (ascii key ++ ascii ": ").isPrefixOf (ascii "esk" ++ ascii ": " ++ v) = false) →
        (∀ v, (ascii key ++ ascii ": ").isPrefixOf (ascii "salt" ++ ascii ": " ++ v) = false) →
        toyInt key (toyYaml.line "comment" comment true ++ (toyYaml.line "esk" a false ++
        (toyYaml.line "salt" b true ++ tl))) = toyInt key (ascii "algo: scrypt-sha256\nZ: 524288\nr: 8\np: 1\n") := by
      intro key h1 h2 h3
      unfold toyInt
      rw [fieldOf_line_miss _ _ _ _ _ (by decide) h1, fieldOf_line_miss _ _ _ _ _ (by decide) h2,
        fieldOf_line_miss _ _ _ _ _ (by decide) h3, tail]
    have c6 := c5 "Z" (fun _ => rfl) (fun _ => rfl) (fun _ => rfl)
    have c7 := c5 "r" (fun _ => rfl) (fun _ => rfl) (fun _ => rfl)
    have c8 := c5 "p" (fun _ => rfl) (fun _ => rfl) (fun _ => rfl)
    have d6 : toyInt "Z" (ascii "algo: scrypt-sha256\nZ: 524288\nr: 8\np: 1\n") = 524288 := by decide +kernel
    have d7 : toyInt "r" (ascii "algo: scrypt-sha256\nZ: 524288\nr: 8\np: 1\n") = 8 := by decide +kernel
    have d8 : toyInt "p" (ascii "algo: scrypt-sha256\nZ: 524288\nr: 8\np: 1\n") = 1 := by decide +kernel
    rw [d6] at c6; rw [d7] at c7; rw [d8] at c8
    simp only [toyYaml] at c1 c2 c3 c4 c6 c7 c8
    rw [c1, c2, c3, c4, c6, c7, c8]
    rfl

end Sigtool
