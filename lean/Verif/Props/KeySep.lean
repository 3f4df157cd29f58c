import Verif.Props.History
import Verif.Props.Tamper
/-!
# C74: data keys of different encryptors are different

Nonces repeat from file to file, so what keeps two files apart is the data key: it is bound to the root key and to the
header. `History` ranges over every sequence of calls on an encryptor, so both histories may contain failed, repeated and
interleaved calls.
-/

namespace Sigtool
open Spec (SessionHeader headerWithSum headerPart sessionKeys)

/-- All data sealed in a history are sealed under the data key of the header that was written. -/
theorem History.dataKey {P : Prims} (L : Laws P) {sender : Option PrivateKey} {blk : Nat} {c : EncCoins} (hc : c.WF)
    {e0 : Encryptor} (he : newEncryptor P sender blk c = .ok e0) {evs : List EncEvent} {s : EncState}
    (h : History P e0 evs s) {ev : EncEvent} (hev : ev ∈ evs) {a : SealRec} (ha : a ∈ ev.sealed) :
    ∃ v ∈ evs, ∃ hdr, SessionHeader P sender blk c (addedIn evs) hdr ∧ headerWithSum P hdr <+: v.wrote ∧
      a.key = (sessionKeys P c.key (P.sha256 (headerPart hdr))).2.1 := by
  obtain ⟨h0, h1⟩ := newEncryptor_unstarted he
  have inv := h.inv L hc he
  have ninv := h.nonceInv h0 h1
  have hst : s.enc.started = true := by
    cases hst : s.enc.started with
    | true => rfl
    | false => rw [ninv.idle hst ev hev] at ha; cases ha
  obtain ⟨hd, hr⟩ := inv.ready hst
  obtain ⟨v, hv, _, hout⟩ := inv.out hst
  have hk : s.enc.keys P = sessionKeys P c.key (P.sha256 (headerPart s.enc.hdr)) := by rw [Encryptor.keys_eq, inv.key]
  have hcons : ∃ recs, a ∈ recs ∧ Consecutive (s.enc.keys P).2.1 s.enc.nonce 0 recs := by
    rcases ninv.only ev hev (by intro h; rw [h] at ha; cases ha) with ho | ⟨k, ho⟩
    · exact ⟨_, ha, ninv.encs _ hr.ae hst ev hev ho⟩
    · refine ⟨sealedBy k evs, ?_, ninv.recs _ hr.ae hst k⟩
      simp only [sealedBy, List.mem_flatMap, List.mem_filter]
      exact ⟨ev, ⟨hev, ho⟩, ha⟩
  obtain ⟨recs, hm, hcs⟩ := hcons
  obtain ⟨i, hi⟩ := List.mem_iff_getElem?.mp hm
  obtain ⟨g1, g2⟩ := hcs i a hi
  exact ⟨v, hv, s.enc.hdr, inv.hdr, hout, by rw [g1, hk]⟩

/-- **C74.** Take any two encryptors, each with its own sender, block size and random bytes, and any history of calls on
each. If some chunk sealed in the first and some chunk sealed in the second are sealed under the same AEAD key, then
* both drew the same root key and wrote the very same header (so both files have the same salt, ephemeral key, sender
  field, block size and wrapped keys, byte for byte); or
* the two headers they wrote are different and have the same SHA-256; or
* two different pairs (root key, header checksum) have the same HKDF-SHA512 data key.
So chunks of different files are never sealed under the same key, unless the random number generator repeated itself or one
of the hash functions was broken. -/
theorem C74_files_apart (P : Prims) (L : Laws P)
    (snd1 snd2 : Option PrivateKey) (blk1 blk2 : Nat) (c1 c2 : EncCoins) (hc1 : c1.WF) (hc2 : c2.WF)
    (e1 e2 : Encryptor) (he1 : newEncryptor P snd1 blk1 c1 = .ok e1) (he2 : newEncryptor P snd2 blk2 c2 = .ok e2)
    (evs1 evs2 : List EncEvent) (s1 s2 : EncState) (h1 : History P e1 evs1 s1) (h2 : History P e2 evs2 s2)
    (ev1 ev2 : EncEvent) (hev1 : ev1 ∈ evs1) (hev2 : ev2 ∈ evs2) (a b : SealRec) (ha : a ∈ ev1.sealed)
    (hb : b ∈ ev2.sealed) (hk : a.key = b.key) :
    ∃ v1 ∈ evs1, ∃ v2 ∈ evs2, ∃ hdr1 hdr2 : Header,
      SessionHeader P snd1 blk1 c1 (addedIn evs1) hdr1 ∧ headerWithSum P hdr1 <+: v1.wrote ∧
      SessionHeader P snd2 blk2 c2 (addedIn evs2) hdr2 ∧ headerWithSum P hdr2 <+: v2.wrote ∧
      ((c1.key = c2.key ∧ headerWithSum P hdr1 = headerWithSum P hdr2) ∨
       (headerPart hdr1 ≠ headerPart hdr2 ∧ P.sha256 (headerPart hdr1) = P.sha256 (headerPart hdr2)) ∨
       ((c1.key, P.sha256 (headerPart hdr1)) ≠ (c2.key, P.sha256 (headerPart hdr2)) ∧
        ((P.hkdf512 c1.key (P.sha256 (headerPart hdr1)) (ascii "Data Key Expansion") 76).drop 12).take 32 =
        ((P.hkdf512 c2.key (P.sha256 (headerPart hdr2)) (ascii "Data Key Expansion") 76).drop 12).take 32)) := by
  obtain ⟨v1, hv1, hdr1, g1, w1, k1⟩ := h1.dataKey L hc1 he1 hev1 ha
  obtain ⟨v2, hv2, hdr2, g2, w2, k2⟩ := h2.dataKey L hc2 he2 hev2 hb
  refine ⟨v1, hv1, v2, hv2, hdr1, hdr2, g1, w1, g2, w2, ?_⟩
  by_cases hp : (c1.key, P.sha256 (headerPart hdr1)) = (c2.key, P.sha256 (headerPart hdr2))
  · simp only [Prod.mk.injEq] at hp
    by_cases hh : headerPart hdr1 = headerPart hdr2
    · exact Or.inl ⟨hp.1, by unfold headerWithSum; rw [hh]⟩
    · exact Or.inr (Or.inl ⟨hh, hp.2⟩)
  · refine Or.inr (Or.inr ⟨hp, ?_⟩)
    rw [k1, k2] at hk
    exact hk

/-- The hypotheses are met: two different histories on encryptors that drew the same random bytes (the first disjunct). -/
example : ∃ evs2 s2, History toyPrims Demo.newEnc evs2 s2 ∧ evs2 ≠ Demo.evs ∧
    ∃ ev1 ∈ Demo.evs, ∃ ev2 ∈ evs2, ∃ a ∈ ev1.sealed, ∃ b ∈ ev2.sealed, a.key = b.key := by
  have := History.run [.add Demo.bob.pub (List.replicate 12 4), .add Demo.carol.pub (List.replicate 12 5),
    .encrypt Demo.input Demo.dest Demo.coin] [] { enc := Demo.newEnc } (.start (P := toyPrims) (e0 := Demo.newEnc)) (by simp)
  exact ⟨_, _, this, by decide +kernel⟩

namespace Demo

/-- A second encryptor: no sender, another root key. -/
def freshCoins : EncCoins := ⟨List.replicate 32 7, List.replicate 32 77, List.replicate 32 9⟩

def freshEnc : Encryptor :=
  match newEncryptor toyPrims none 4 freshCoins with
  | .ok e => e
  | _ => ⟨{}, [], [], none, false, [], none, none, 0, false, false, []⟩

end Demo

/-- And with a different root key the toy primitives do give a different data key. -/
example : Demo.freshCoins.WF ∧ newEncryptor toyPrims none 4 Demo.freshCoins = .ok Demo.freshEnc ∧
    ∃ evs2 s2, History toyPrims Demo.freshEnc evs2 s2 ∧
    ∃ ev1 ∈ Demo.evs, ∃ ev2 ∈ evs2, ∃ a ∈ ev1.sealed, ∃ b ∈ ev2.sealed, a.key ≠ b.key := by
  refine ⟨⟨by decide, by decide, by decide⟩, ?_, ?_⟩
  · obtain ⟨epk, _, _, h⟩ := newEncryptor_eq toyPrims toyLaws none 4 Demo.freshCoins ⟨by decide, by decide, by decide⟩
      (by intro sk h; cases h)
    unfold Demo.freshEnc
    rw [h]
  · have := History.run [.add Demo.bob.pub (List.replicate 12 4), .encrypt Demo.input Demo.dest Demo.coin] []
      { enc := Demo.freshEnc } (.start (P := toyPrims) (e0 := Demo.freshEnc)) (by simp)
    exact ⟨_, _, this, by decide +kernel⟩

end Sigtool
