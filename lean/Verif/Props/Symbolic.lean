import Verif.Spec.Symbolic
import Verif.Props.RoundTrip
import Verif.Props.StreamWrite
import Verif.Keys
import Verif.Sign
/-!
# C107: only the recipients' private keys open an encrypted file (attacker who computes with terms)
-/

namespace Sigtool
open Spec
open Spec.Symbolic

/-! ### The bytes written are those of the term -/

theorem eval_cats (P : Prims) (env : Secret → Bytes) (ts : List Term) : (cats ts).eval P env = ts.flatMap (·.eval P env) := by
  induction ts with
  | nil => rfl
  | cons t ts ih =>
    show t.eval P env ++ (cats ts).eval P env = _
    rw [ih]; rfl

theorem field_some (t : UInt8) (x : Bytes) (n : Nat) (h : x.length = n) (h0 : 0 < n) (h1 : n < 128) :
    field t x = [t, UInt8.ofNat n] ++ x := by
  have : x ≠ [] := by rintro rfl; simp at h; omega
  rw [field, if_neg this, delimited, h, varint, if_pos h1]
  rfl

theorem eval_body (P : Prims) (env : Secret → Bytes) (n : Nat) (f : File) (key nonce : Bytes)
    (hk : key = (Term.take 32 (.drop 12 (bodyKeys n f))).eval P env) (hn : nonce = (Term.take 12 (bodyKeys n f)).eval P env) :
    ∀ (cs : List Bytes) (i : Nat), (∀ j, env (.chunk n (i + j)) = cs.getD j []) →
      (body n f i (cs.map List.length)).eval P env = sealedBody P key nonce i cs := by
  intro cs
  induction cs with
  | nil => intro i _; rfl
  | cons c cs ih =>
    intro i h
    have h0 : env (.chunk n i) = c := h 0
    have h1 := ih (i + 1) (fun j => by
      have := h (j + 1)
      rw [show i + (j + 1) = i + 1 + j by omega] at this
      exact this)
    cases cs with
    | nil =>
      simp only [List.map, body, List.isEmpty, Term.eval, sealedBody, sealedChunk, List.append_nil]
      rw [h0, hk, hn]
      rfl
    | cons d ds =>
      simp only [List.map_cons] at h1 ⊢
      rw [body, sealedBody, sealedChunk, ← h1]
      simp only [List.isEmpty, Term.eval, List.append_assoc]
      rw [h0, hk, hn]
      rfl
      simp

theorem eval_macked (P : Prims) (env : Secret → Bytes) (n : Nat) :
    ∀ (cs : List Bytes) (i : Nat), (∀ j, env (.chunk n (i + j)) = cs.getD j []) →
      (macked n i (cs.map List.length)).eval P env = macInput cs := by
  intro cs
  induction cs with
  | nil => intro i _; rfl
  | cons c cs ih =>
    intro i h
    have h0 : env (.chunk n i) = c := h 0
    have h1 := ih (i + 1) (fun j => by
      have := h (j + 1)
      rw [show i + (j + 1) = i + 1 + j by omega] at this
      exact this)
    cases cs with
    | nil =>
      simp only [List.map, macked, List.isEmpty, Term.eval, macInput, List.append_nil]
      rw [h0]
    | cons d ds =>
      simp only [List.map_cons] at h1 ⊢
      rw [macked, macInput, ← h1]
      simp only [List.isEmpty, Term.eval, List.append_assoc]
      rw [h0]
      simp

/-- The people's keys. -/
def personKey (P : Prims) (env : Secret → Bytes) (i : Nat) : PrivateKey := newPrivateKey P (env (.seed i))

theorem eval_header (P : Prims) (L : Laws P) (env : Secret → Bytes) (n : Nat) (f : File) (blk : Nat) (chunks : List Bytes) (coin : Bytes)
    (D : Describes env n f (effectiveBlock blk) chunks coin) (h : Header)
    (S : SessionHeader P (f.sender.map (personKey P env)) blk ⟨env (.ephemeral n), env (.root n), f.salt⟩
      (f.rcpts.map fun r => ((personKey P env r.1).pub, r.2)) h) (hpk : h.pk.length = 32) (hs : h.sender.length = 80) :
    headerPart h = (header n f).eval P env := by
  have epk : (ephemeralPk n).eval P env = h.pk := by
    have := S.pk
    simp only [ephemeralPk, Term.eval] at this ⊢
    rw [this]; rfl
  have snd : (Symbolic.senderField n f).eval P env = h.sender := by
    rw [S.sender]
    have : (match f.sender with | none => Term.bytes unsigned | some i => headerSignature n f i).eval P env =
        senderMark P (f.sender.map (personKey P env)) h.pk ⟨env (.ephemeral n), env (.root n), f.salt⟩ := by
      cases f.sender with
      | none => rfl
      | some i =>
        simp only [headerSignature, Symbolic.signed, Term.eval, epk, Option.map_some, senderMark, senderStatement, secretKey, Symbolic.seed,
          List.append_assoc]
        rfl
    rw [← this]
    rfl
  have keys : ∀ (rs : List (Nat × Bytes)) (ws : List WrappedKey), (∀ r ∈ rs, r.2.length = 12) →
      List.Forall₂ (fun r w => wrapFor P (clamp (env (.ephemeral n))) f.salt (env (.root n)) r.1.pk r.2 = some w)
        (rs.map fun r => ((personKey P env r.1).pub, r.2)) ws →
      (cats (rs.map fun r => .cat (.bytes [0x2a, 64, 0x0a, 48]) (.cat (wrapped n f r) (.bytes ([0x12, 12] ++ r.2))))).eval P env =
        ws.flatMap (fun k => delimited 0x2a (wrappedKeyBytes k)) ∧
      (ws.flatMap (fun k => delimited 0x2a (wrappedKeyBytes k))).length = 66 * rs.length := by
    intro rs
    induction rs with
    | nil => intro ws _ hw; cases hw; exact ⟨rfl, rfl⟩
    | cons r rs ih =>
      intro ws h12 hw
      cases hw with
      | @cons _ w _ ws h1 h2 =>
        obtain ⟨ih1, ih2⟩ := ih ws (fun r hr => h12 r (List.mem_cons_of_mem _ hr)) h2
        unfold wrapFor at h1
        simp only [Option.map_eq_some_iff] at h1
        obtain ⟨k, hk, hw⟩ := h1
        have hr12 := h12 r (by simp)
        have ew : (wrapped n f r).eval P env = w.dkey := by
          have hk' : (Term.mul (.clamp (.secret (.ephemeral n))) (.mont (.edPub (Symbolic.seed r.1)))).eval P env = k := by
            simp only [Term.eval, Symbolic.seed]
            have : (personKey P env r.1).pub.pk = P.edPub (env (.seed r.1)) := rfl
            rw [this] at hk
            rw [hk]; rfl
          rw [← hw]
          simp only [wrapped]
          rw [Term.eval, Term.eval, Term.eval, Term.eval, Term.eval, hk']
          rfl
        have lw : w.dkey.length = 48 := by
          rw [← hw]
          have hl := L.hkdf_len k (P.sha256 (f.salt ++ r.2)) (ascii "Receiver Key") 44 (by decide)
          show (P.aeadSeal _ _ _ _).length = 48
          rw [L.seal_len _ _ _ _ (by simp [wrappingKey, hl]) (by simp [wrappingKey, hl]) (by rw [D.root]; decide), D.root]
        have nw : w.nonce = r.2 := by rw [← hw]
        have wb : wrappedKeyBytes w = [0x0a, 48] ++ w.dkey ++ ([0x12, 12] ++ r.2) := by
          rw [wrappedKeyBytes, nw, field_some _ _ 48 lw (by decide) (by decide), field_some _ _ 12 hr12 (by decide) (by decide)]
          rfl
        have wl : (wrappedKeyBytes w).length = 64 := by rw [wb]; simp [lw, hr12]
        have dl : delimited 0x2a (wrappedKeyBytes w) = [0x2a, 64, 0x0a, 48] ++ (w.dkey ++ ([0x12, 12] ++ r.2)) := by
          rw [delimited, wl, varint, if_pos (by decide), wb]
          simp
        constructor
        · rw [List.map_cons, List.flatMap_cons, ← ih1, dl]
          show ([0x2a, 64, 0x0a, 48] ++ ((wrapped n f r).eval P env ++ ([0x12, 12] ++ r.2))) ++ _ = _
          rw [ew]
          rfl
        · rw [List.flatMap_cons, List.length_append, ih2, dl]
          simp [lw, hr12]
          omega
  obtain ⟨k1, k2⟩ := keys f.rcpts h.keys D.nonces S.keys
  have cs : h.chunkSize = f.blk := by
    rw [D.blk]; rw [S.chunkSize]; rfl
  have cs0 : h.chunkSize ≠ 0 := by
    rw [cs, D.blk]; unfold effectiveBlock; split <;> omega
  have hb : headerBytes h = (0x08 :: varint f.blk) ++ ([0x12, 32] ++ f.salt) ++ ([0x1a, 32] ++ h.pk) ++ ([0x22, 80] ++ h.sender) ++
      h.keys.flatMap fun k => delimited 0x2a (wrappedKeyBytes k) := by
    rw [headerBytes, if_neg cs0, S.salt, cs, field_some _ _ 32 D.salt (by decide) (by decide),
      field_some _ _ 32 hpk (by decide) (by decide), field_some _ _ 80 hs (by decide) (by decide)]
    rfl
  have hl : (headerBytes h).length = (varint f.blk).length + 151 + 66 * f.rcpts.length := by
    rw [hb]
    simp only [List.length_append, List.length_cons, List.length_nil, D.salt, hpk, hs, k2]
  rw [headerPart, hl, hb, header]
  simp only [Term.eval, epk, snd, k1]
  simp

theorem eval_file (P : Prims) (L : Laws P) (env : Secret → Bytes) (n : Nat) (f : File) (blk : Nat) (chunks : List Bytes) (coin : Bytes)
    (D : Describes env n f (effectiveBlock blk) chunks coin) (h : Header) (tr : Bytes)
    (h2 : SessionHeader P (f.sender.map (personKey P env)) blk ⟨env (.ephemeral n), env (.root n), f.salt⟩
      (f.rcpts.map fun r => ((personKey P env r.1).pub, r.2)) h) (h3 : h.pk.length = 32) (h4 : h.sender.length = 80)
    (h6 : f.sender.map (personKey P env) = none → tr = coin)
    (h7 : ∀ s, f.sender.map (personKey P env) = some s → tr = P.edSign s.sk (P.sha512 (ascii "sigtool signed message" ++
        P.hmac256 (sessionKeys P (env (.root n)) (P.sha256 (headerPart h))).2.2 (macInput chunks)))) :
    container P h (env (.root n)) chunks tr = (encrypted n f).eval P env := by
  have hh := eval_header P L env n f blk chunks coin D h h2 h3 h4
  have hck : P.sha256 (headerPart h) = (Term.sha256 (header n f)).eval P env := by rw [hh]; rfl
  have hkeys : sessionKeys P (env (.root n)) (P.sha256 (headerPart h)) =
      ((Term.take 12 (bodyKeys n f)).eval P env, (Term.take 32 (.drop 12 (bodyKeys n f))).eval P env,
        (Term.drop 44 (bodyKeys n f)).eval P env) := by
    rw [hck]; rfl
  have hb := eval_body P env n f _ _ rfl rfl chunks 0 (fun j => by rw [Nat.zero_add]; exact D.pieces j)
  have hm := eval_macked P env n chunks 0 (fun j => by rw [Nat.zero_add]; exact D.pieces j)
  rw [← D.sizes] at hb hm
  have ht : (trailer n f).eval P env = tr := by
    rw [trailer]
    cases hsnd : f.sender with
    | none => rw [h6 (by rw [hsnd]; rfl)]; exact D.coin
    | some i =>
      rw [h7 (newPrivateKey P (env (.seed i))) (by rw [hsnd]; rfl)]
      dsimp only
      rw [hkeys]
      simp only [Symbolic.signed, Term.eval, hm, secretKey, Symbolic.seed]
      rfl
  rw [container]
  dsimp only
  rw [hkeys]
  dsimp only
  rw [← hb, ← ht, hck, hh]
  simp only [encrypted, Term.eval, List.append_assoc]

/-- **C107** (the terms are the files: `Encrypt`).  If the set-up calls and `Encrypt` return nil, the bytes written are those of the term
`Spec.Symbolic.encrypted`, for the secrets of this run: the seeds of sender and recipients, the random root key and ephemeral key, and
the plaintext cut into chunks. -/
theorem C107_file (P : Prims) (L : Laws P) (env : Secret → Bytes) (n : Nat) (f : File) (blk : Nat) (rd : Reader) (coin : Bytes)
    (hcoin : coin.length = 64) (D : Describes env n f (effectiveBlock blk) (encryptChunks (effectiveBlock blk) rd.content) coin)
    (e : Encryptor) (he : setupEncryptor P (f.sender.map fun i => newPrivateKey P (env (.seed i))) blk
      ⟨env (.ephemeral n), env (.root n), f.salt⟩ (f.rcpts.map fun r => ((newPrivateKey P (env (.seed r.1))).pub, r.2)) = .ok e)
    (wr : Writer) (hwr : wr.out = []) (e' : Encryptor) (rd' : Reader) (wr' : Writer) (henc : e.encrypt P rd wr coin = (.ok (), e', rd', wr')) :
    wr'.out = (encrypted n f).eval P env := by
  obtain ⟨h, tr, h1, h2, h3, h4, h5, h6, h7⟩ := C05_encrypt_layout P L _ blk ⟨env (.ephemeral n), env (.root n), f.salt⟩
    ⟨D.ephemeral, D.root, D.salt⟩ _ e he rd wr coin hcoin e' rd' wr' henc
  rw [h1, hwr, List.nil_append]
  exact eval_file P L env n f blk _ coin D h tr h2 h3 h4 h6 h7

/-- **C107** (the terms are the files: stream writer). -/
theorem C107_stream (P : Prims) (L : Laws P) (env : Secret → Bytes) (n : Nat) (f : File) (blk : Nat) (bufs : List Bytes) (coin : Bytes)
    (hcoin : coin.length = 64) (D : Describes env n f (effectiveBlock blk) (streamChunks (effectiveBlock blk) bufs.flatten) coin)
    (e : Encryptor) (he : setupEncryptor P (f.sender.map fun i => newPrivateKey P (env (.seed i))) blk
      ⟨env (.ephemeral n), env (.root n), f.salt⟩ (f.rcpts.map fun r => ((newPrivateKey P (env (.seed r.1))).pub, r.2)) = .ok e)
    (wr : Writer) (hwr : wr.out = []) (wr' : Writer) (henc : streamEncrypt P e wr coin bufs = (.ok (), wr')) :
    wr'.out = (encrypted n f).eval P env := by
  obtain ⟨h, tr, h1, h2, h3, h4, h5, h6, h7⟩ := C05_stream_layout P L _ blk ⟨env (.ephemeral n), env (.root n), f.salt⟩
    ⟨D.ephemeral, D.root, D.salt⟩ _ e he bufs wr coin hcoin wr' henc
  rw [h1, hwr, List.nil_append]
  exact eval_file P L env n f blk _ coin D h tr h2 h3 h4 h6 h7

/-- **C107** (the terms are the files: key files and signatures).  A private key file holds the text of the term
`Spec.Symbolic.sealedKey`, and `SignMessage` returns that of `Spec.Symbolic.signed`. -/
theorem C107_key_file (P : Prims) (L : Laws P) (Y : Yaml) (env : Secret → Bytes) (i : Nat) (hs : (env (.seed i)).length = 32)
    (comment salt m : Bytes) :
    (newPrivateKey P (env (.seed i))).marshal P Y comment (env (.pass i)) salt =
      .ok (Y.privText comment (Base64.encode ((sealedKey i salt).eval P env)) (Base64.encode salt)) ∧
    ∃ s, signMessage P (newPrivateKey P (env (.seed i))) m = .ok s ∧ s.sig = (Symbolic.signed i (.bytes m)).eval P env := by
  constructor
  · obtain ⟨key, hkey⟩ := L.scrypt_ok (P.sha512 (env (.pass i))) salt
    have e : (sealedKey i salt).eval P env = P.aeadSeal key (salt.take 12) (newPrivateKey P (env (.seed i))).sk [] := by
      simp only [sealedKey, Term.eval, hkey]
      rfl
    rw [e]
    unfold PrivateKey.marshal
    rw [hkey]
  · have hl : (newPrivateKey P (env (.seed i))).sk.length = 64 := by
      show (env (.seed i) ++ P.edPub (env (.seed i))).length = 64
      rw [List.length_append, hs, L.ed_pub_len _ hs]
    refine ⟨⟨P.edSign (newPrivateKey P (env (.seed i))).sk (signDigest P m), (newPrivateKey P (env (.seed i))).pub.hash⟩, ?_, rfl⟩
    unfold signMessage
    rw [if_neg (by omega)]

/-! ### What the attacker can know -/

/-- What matters of a term: whether the attacker may know it; if it is a point, the number of secret scalars in it; if it is an Ed25519
public key, that of its point; and whether it contains an HMAC. -/
structure Look where
  pub : Bool
  sec : Nat
  ed : Nat
  mac : Bool

def Look.plain (pub mac : Bool) : Look := ⟨pub, bif pub then 0 else 2, bif pub then 0 else 2, mac⟩

def hidden (pub : Bool) : Nat := bif pub then 0 else 1

/-- A point with `k` secret scalars. -/
def Look.point (k : Nat) : Look := ⟨k.ble 1, k, bif k.ble 1 then 0 else 2, false⟩

section
variable (corrupt lost known : Nat → Bool)

def lookSecret : Secret → Bool
  | .root n => lost n
  | .ephemeral _ => false
  | .chunk n _ => lost n || known n
  | .seed i => corrupt i
  | .pass i => corrupt i
  | .decoy _ _ => true

def look : Term → Look
  | .bytes _ => .plain true false
  | .secret s => .plain (lookSecret corrupt lost known s) false
  | .cat a b => .plain ((look a).pub && (look b).pub) ((look a).mac || (look b).mac)
  | .take _ t => .plain (look t).pub false
  | .drop _ t => .plain (look t).pub false
  | .sha256 t => .plain (look t).pub false
  | .sha512 t => .plain (look t).pub (look t).mac
  | .hmac k t => .plain ((look k).pub && (look t).pub) true
  | .hkdf a b _ _ => .plain ((look a).pub && (look b).pub) false
  | .scrypt a b => .plain ((look a).pub && (look b).pub) false
  | .box k _ t _ => .plain (!(look k).pub || (look t).pub) false
  | .edPub s => { pub := true, sec := 0, ed := hidden (look s).pub, mac := false }
  | .edSign _ t => .plain ((look t).pub || (look t).mac) false
  | .clamp t => .plain (look t).pub false
  | .base => .plain true false
  | .mul s p => .point (hidden (look s).pub + (look p).sec)
  | .mont p => { pub := (look p).pub, sec := (look p).ed, ed := bif (look p).pub then 0 else 2, mac := false }

theorem look_eqv {t u : Term} (h : Eqv t u) : look corrupt lost known t = look corrupt lost known u := by
  induction h with
  | refl => rfl
  | symm _ ih => exact ih.symm
  | trans _ _ ih1 ih2 => exact ih1.trans ih2
  | bytes_cat | bytes_take | bytes_drop => rfl
  | assoc => simp [look, Look.plain, Bool.and_assoc, Bool.or_assoc]
  | swap s t p =>
    show Look.point (_ + (_ + _)) = Look.point (_ + (_ + _))
    rw [Nat.add_left_comm]
  | mont s =>
    simp only [look, Look.plain, Look.point]
    cases (look corrupt lost known s).pub <;> rfl
  | clamp_clamp => rfl
  | cat _ _ h1 h2 | hmac _ _ h1 h2 | hkdf _ _ h1 h2 | scrypt _ _ h1 h2 | edSign _ _ h1 h2 | mul _ _ h1 h2 => simp only [look, h1, h2]
  | box _ _ _ _ h1 h2 h3 h4 => simp only [look, h1, h3]
  | take _ h | drop _ h | sha256 _ h | sha512 _ h | edPub _ h | clamp _ h | montc _ h => simp only [look, h]

theorem look_sec (t : Term) : (look corrupt lost known t).pub = true → (look corrupt lost known t).sec ≤ 1 ∧ (look corrupt lost known t).ed ≤ 1 := by
  induction t with
  | mul s p => intro h; simp only [look, Look.point] at h ⊢; rw [h]; exact ⟨Nat.le_of_ble_eq_true h, by simp⟩
  | mont p ih => intro h; simp only [look] at h ⊢; rw [h]; exact ⟨(ih h).2, by simp⟩
  | edPub s => intro _; simp only [look, hidden]; exact ⟨by omega, by cases (look corrupt lost known s).pub <;> simp⟩
  | _ => intro h; simp only [look, Look.plain] at h ⊢; simp [h]

theorem knows_pub {K : Term → Prop} (hK : ∀ t, K t → (look corrupt lost known t).pub = true) {t : Term} (h : Knows K t) :
    (look corrupt lost known t).pub = true := by
  induction h with
  | known h => exact hK _ h
  | eqv e _ ih => rw [← look_eqv corrupt lost known e]; exact ih
  | bytes | base => rfl
  | cat _ _ h1 h2 | hmac _ _ h1 h2 | hkdf _ _ h1 h2 | scrypt _ _ h1 h2 => simp [look, Look.plain, h1, h2]
  | left _ h | right _ h => simp only [look, Look.plain, Bool.and_eq_true] at h; first | exact h.1 | exact h.2
  | take _ h | drop _ h | sha256 _ h | sha512 _ h | clamp _ h | mont _ h => simpa only [look, Look.plain] using h
  | join _ _ h _ => exact h
  | box _ _ _ _ _ _ h _ => simp [look, Look.plain, h]
  | opened _ _ h1 h2 => simp only [look, Look.plain, h2] at h1; simpa using h1
  | edPub => rfl
  | edSign _ _ _ h => simp [look, Look.plain, h]
  | mul _ _ h1 h2 =>
    have := (look_sec corrupt lost known _ h2).1
    simp only [look, Look.point, h1, hidden, cond_true, Nat.zero_add]
    exact Nat.ble_eq_true_of_le this

theorem look_cats (ts : List Term) : (look corrupt lost known (cats ts)).pub = ts.all fun t => (look corrupt lost known t).pub := by
  induction ts with
  | nil => rfl
  | cons t ts ih =>
    show ((look corrupt lost known t).pub && (look corrupt lost known (cats ts)).pub) = _
    rw [ih]; rfl

theorem look_body (n : Nat) (f : File) (h : (look corrupt lost known (bodyKeys n f)).pub = false ∨ lost n = true) :
    ∀ (ks : List Nat) (i : Nat), (look corrupt lost known (body n f i ks)).pub = true := by
  intro ks
  induction ks with
  | nil => intro i; rfl
  | cons k ks ih =>
    intro i
    simp only [body]
    rw [look, look, look, look]
    simp only [Look.plain, ih, Bool.and_true]
    simp only [look, Look.plain, lookSecret]
    rcases h with h | h <;> simp [h]

/-- The public part of a file. -/
theorem look_header (n : Nat) (f : File) (hl : (∃ r ∈ f.rcpts, corrupt r.1 = true) → lost n = true) :
    (look corrupt lost known (header n f)).pub = true := by
  have e : (look corrupt lost known (ephemeralPk n)).pub = true := by simp [ephemeralPk, look, Look.plain, Look.point, hidden, lookSecret]
  have s : (look corrupt lost known (Symbolic.senderField n f)).pub = true := by
    simp only [Symbolic.senderField]
    cases f.sender with
    | none => simp [look, Look.plain]
    | some i =>
      simp only [headerSignature, Symbolic.signed, look, Look.plain, lookSecret, e]
      cases lost n <;> simp
  have w : ∀ r ∈ f.rcpts, (look corrupt lost known (wrapped n f r)).pub = true := by
    intro r hr
    simp only [wrapped, Symbolic.seed, look, Look.plain, Look.point, hidden, lookSecret]
    cases hc : corrupt r.1 with
    | false => rfl
    | true => simp [hl ⟨r, hr, hc⟩]
  simp only [header, look, Look.plain, e, s, look_cats, Bool.true_and, List.all_map, List.all_eq_true]
  intro r hr
  simp only [Function.comp, look, Look.plain, w r hr, Bool.and_true]

theorem look_start (files : Nat → File) (bad told : Nat → Prop) (hc : ∀ i, corrupt i = true ↔ bad i)
    (hl : ∀ n, lost n = true ↔ ∃ r ∈ (files n).rcpts, bad r.1) (hk : ∀ n, known n = true ↔ told n) (t : Term) (h : Start files bad told t) : (look corrupt lost known t).pub = true := by
  cases h with
  | file n =>
    have hh := look_header corrupt lost known n (files n) (fun ⟨r, hr, h⟩ => (hl n).mpr ⟨r, hr, (hc _).mp h⟩)
    have hb : (look corrupt lost known (body n (files n) 0 (files n).sizes)).pub = true := by
      refine look_body corrupt lost known n (files n) ?_ _ _
      cases h : lost n with
      | true => exact .inr rfl
      | false => left; simp [bodyKeys, look, Look.plain, lookSecret, h]
    have ht : (look corrupt lost known (trailer n (files n))).pub = true := by
      rw [trailer]
      cases (files n).sender with
      | none => rfl
      | some i => simp [Symbolic.signed, look, Look.plain]
    simp only [encrypted, look, Look.plain, hh, hb, ht, Bool.and_true]
  | publicKey i => rfl
  | keyFile i salt =>
    simp only [sealedKey, secretKey, Symbolic.seed, look, Look.plain, lookSecret]
    cases corrupt i <;> rfl
  | signature i m => rfl
  | seed i h => exact (hc i).mpr h
  | pass i h => exact (hc i).mpr h
  | plaintext n i h => simp [look, Look.plain, lookSecret, (hk n).mpr h]

end

open Classical in
/-- **C107** (secrecy).  An attacker has any number of encrypted files, everyone's public key and key file, signatures of everyone on
messages of his choice, the seeds and pass phrases of the people in `bad`, and the plaintexts of the files in `told`.  He can compute
neither the root key nor (unless he was told) any chunk of the plaintext of a file none of whose recipients is in `bad` (the sender may
be), nor the signature by which its sender identifies himself, whoever he is; nor the seed or pass phrase of anyone not in `bad`. -/
theorem C107_secrecy (files : Nat → File) (bad told : Nat → Prop) :
    (∀ n, (∀ r ∈ (files n).rcpts, ¬ bad r.1) →
      ¬ Knows (Start files bad told) (.secret (.root n)) ∧ (¬ told n → ∀ i, ¬ Knows (Start files bad told) (.secret (.chunk n i))) ∧
      ∀ i, ¬ Knows (Start files bad told) (headerSignature n (files n) i)) ∧
    ∀ i, ¬ bad i → ¬ Knows (Start files bad told) (Symbolic.seed i) ∧ ¬ Knows (Start files bad told) (.secret (.pass i)) := by
  have key := fun t => knows_pub (fun i => decide (bad i)) (fun n => decide (∃ r ∈ (files n).rcpts, bad r.1)) (fun n => decide (told n)) (K := Start files bad told)
    (look_start _ _ _ files bad told (fun i => by simp) (fun n => by simp) (fun n => by simp)) (t := t)
  refine ⟨fun n hn => ?_, fun i hi => ⟨fun h => ?_, fun h => ?_⟩⟩
  · have hlost : decide (∃ r ∈ (files n).rcpts, bad r.1) = false := by
      rw [decide_eq_false_iff_not]; rintro ⟨r, hr, h⟩; exact hn r hr h
    refine ⟨fun h => ?_, fun ht i h => ?_, fun i h => ?_⟩
    · have := key _ h; simp only [look, Look.plain, lookSecret, hlost] at this; cases this
    · have := key _ h; simp only [look, Look.plain, lookSecret, hlost] at this; exact ht (by simpa using this)
    · have := key _ h
      simp only [headerSignature, Symbolic.signed, look, Look.plain, lookSecret, hlost] at this
      simp [ephemeralPk, look, Look.plain, Look.point, hidden] at this
  · have := key _ h; simp only [Symbolic.seed, look, Look.plain, lookSecret] at this; exact hi (by simpa using this)
  · have := key _ h; simp only [look, Look.plain, lookSecret] at this; exact hi (by simpa using this)

/-- **C107** (the attacker is not too weak).  A recipient can compute the root key and every chunk of the plaintext. -/
theorem C107_recipient (files : Nat → File) (bad told : Nat → Prop) (n : Nat) (r : Nat × Bytes) (hr : r ∈ (files n).rcpts) (hb : bad r.1) :
    Knows (Start files bad told) (.secret (.root n)) ∧
    ∀ i, i < (files n).sizes.length → Knows (Start files bad told) (.secret (.chunk n i)) := by
  have kf := Knows.known (Start.file (corrupt := bad) (told := told) (files := files) n)
  have kh := kf.left
  have ke : Knows (Start files bad told) (ephemeralPk n) := kh.right.left
  have kw : Knows (Start files bad told) (wrapped n (files n) r) := by
    have : ∀ (ts : List Term), Knows (Start files bad told) (cats ts) → ∀ t ∈ ts, Knows (Start files bad told) t := by
      intro ts
      induction ts with
      | nil => intro _ t h; cases h
      | cons u ts ih =>
        intro h t ht
        rcases List.mem_cons.mp ht with rfl | ht
        · exact Knows.left h
        · exact ih (Knows.right h) t ht
    exact (this _ kh.right.right.right.right _ (List.mem_map.mpr ⟨r, hr, rfl⟩)).right.left
  have ks : Knows (Start files bad told) (Symbolic.seed r.1) := .known (.seed _ hb)
  have kd : Knows (Start files bad told) (.mul (.clamp (.secret (.ephemeral n))) (.mont (.edPub (Symbolic.seed r.1)))) := by
    refine .eqv (.trans (.swap _ _ _) (.mul (.refl _) (.symm (.mont _)))) ?_
    exact .mul (.clamp (.take (.sha512 ks))) ke
  have kr : Knows (Start files bad told) (.secret (.root n)) :=
    .opened kw (.take (.hkdf kd (.sha256 (.cat (.bytes _) (.bytes _)))))
  refine ⟨kr, ?_⟩
  have kb : Knows (Start files bad told) (bodyKeys n (files n)) := .hkdf kr (.sha256 kh)
  have : ∀ (ls : List Nat) (j : Nat), Knows (Start files bad told) (body n (files n) j ls) →
      ∀ i, i < ls.length → Knows (Start files bad told) (.secret (.chunk n (j + i))) := by
    intro ls
    induction ls with
    | nil => intro j _ i hi; simp at hi
    | cons l ls ih =>
      intro j h i hi
      cases i with
      | zero => exact .opened h.right.left (.take (.drop kb))
      | succ i =>
        have := ih (j + 1) h.right.right i (by simpa using hi)
        rw [show j + (i + 1) = j + 1 + i by omega]
        exact this
  intro i hi
  have := this _ 0 kf.right.right.left i hi
  rwa [Nat.zero_add] at this

end Sigtool
