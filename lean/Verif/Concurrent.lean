import Verif.KeyObj
/-!
# Concurrent: one key used by several goroutines at a time (`sign/keys.go:197-209,432-465`)

`ToCurve25519PK` and `ToCurve25519SK` fill the cache field `ck` without a lock. A slice is several words in memory; its pointer and
its length are read and written separately, in an order that the Go memory model leaves to compiler and hardware. Here the
order is a parameter, and a schedule interleaves the single accesses of any number of goroutines. (The third word, the capacity,
is never used. The contents of the buffer are complete before the pointer is stored.) Simplification: an access takes effect at
once for all goroutines, in program order up to the parameter `Order`.
-/

namespace Sigtool

/-- The field `ck`: a pointer to a buffer, or nil, and a length. -/
structure Words where
  ptr : Option Bytes := none
  len : Nat := 0
deriving DecidableEq, Repr

/-- What compiler and hardware make of the accesses to `ck`: the length is stored before the pointer; the length that is returned is
loaded after the pointer was compared with nil. -/
structure Order where
  lenFirst : Bool
  lateLoad : Bool
deriving DecidableEq, Repr

/-- Which of the two functions: `ToCurve25519PK` returns the slice it computed (`keys.go:463-464`), `ToCurve25519SK` reads the
field again (`keys.go:208`). -/
inductive Conv where
  | pub
  | priv
deriving DecidableEq, Repr

/-- Where a goroutine is in the call. -/
inductive Pc where
  | start
  /-- it has loaded the length, before comparing the pointer with nil -/
  | early (n : Nat)
  /-- the pointer was not nil -/
  | hit (p : Bytes)
  /-- the pointer was nil; the conversion is computed -/
  | miss
  /-- one of the two words is stored -/
  | half
  /-- both are -/
  | stored
  /-- the pointer has been read again -/
  | again (p : Option Bytes)
deriving DecidableEq, Repr

/-- A goroutine that converts the key again and again, and what the calls returned, the last one first. -/
structure Thread where
  pc : Pc := .start
  got : List Bytes := []
deriving DecidableEq, Repr

/-- The slice with this pointer and length. -/
def sliceOf (p : Option Bytes) (n : Nat) : Bytes := (p.getD []).take n

/-- One access to `ck` by a goroutine; `v` is the value of the conversion, which depends on the key only. -/
def Thread.step (o : Order) (c : Conv) (v : Bytes) (m : Words) (t : Thread) : Words × Thread :=
  match t.pc with
  | .start =>
    if o.lateLoad then (m, { t with pc := match m.ptr with | none => .miss | some p => .hit p })
    else (m, { t with pc := .early m.len })
  | .early n =>
    match m.ptr with
    | none => (m, { t with pc := .miss })
    | some p => (m, { pc := .start, got := sliceOf (some p) n :: t.got })
  | .hit p => (m, { pc := .start, got := sliceOf (some p) m.len :: t.got })
  | .miss => (if o.lenFirst then { m with len := v.length } else { m with ptr := some v }, { t with pc := .half })
  | .half => (if o.lenFirst then { m with ptr := some v } else { m with len := v.length }, { t with pc := .stored })
  | .stored =>
    match c with
    | .pub => (m, { pc := .start, got := v :: t.got })
    | .priv => (m, { t with pc := .again m.ptr })
  | .again p => (m, { pc := .start, got := sliceOf p m.len :: t.got })

/-- The key's field and the goroutines that use the key. -/
structure Sys2 where
  mem : Words := {}
  threads : List Thread
deriving DecidableEq, Repr

/-- Goroutine `i` makes its next access (nothing happens if there is no such goroutine). -/
def Sys2.step (o : Order) (c : Conv) (v : Bytes) (s : Sys2) (i : Nat) : Sys2 :=
  match s.threads[i]? with
  | none => s
  | some t => let (m, t') := t.step o c v s.mem; { mem := m, threads := s.threads.set i t' }

/-- A schedule: which goroutine makes the next access. -/
def Sys2.run (o : Order) (c : Conv) (v : Bytes) (s : Sys2) (sched : List Nat) : Sys2 := sched.foldl (Sys2.step o c v) s

/-- `n` goroutines that get hold of a key that has not been converted yet. -/
def fresh (n : Nat) : Sys2 := { threads := List.replicate n {} }

/-- `AddRecipient` (`sign/encrypt.go:170-181`, `wrapKey` `:758-796`), the call of `ToCurve25519PK` in it having returned `point`. -/
def Encryptor.addRecipientWith (P : Prims) (e : Encryptor) (pk : PublicKey) (point rbuf : Bytes) : Res Unit × Encryptor :=
  if e.started then (.err .encStarted, e)
  else
    match P.x25519 e.encSK point with
    | none => (.err (.wrap "wrap" (.msg "bad input point: low order point")), e)
    | some sekrit =>
      let (kek, nonce) := kekOf P sekrit e.hdr.salt rbuf
      (.ok (), { e with hdr := { e.hdr with keys := e.hdr.keys ++ [{ dkey := P.aeadSeal kek nonce e.key pk.pk, nonce := rbuf }] } })

/-- The loop of `SetPrivateKey` (`sign/encrypt.go:469-481`), the calls of `ToCurve25519SK` in it having returned `ours`, one after the
other. -/
def Decryptor.findKeyWith (P : Prims) (d : Decryptor) (pub : Bytes) : List WrappedKey → List Bytes → Res (Option Bytes)
  | w :: ws, ourSK :: more =>
    match P.x25519 ourSK d.hdr.pk with
    | none => .err (.wrap "decrypt: can't unwrap key" (.wrap "unwrap" (.msg "bad input point")))
    | some sekrit =>
      let (kek, nonce) := kekOf P sekrit d.hdr.salt w.nonce
      if w.dkey.length ≠ 32 + 16 then .err (.wrap "decrypt: can't unwrap key" (.msg "unwrap: incorrect decrypt bytes"))
      else
        match P.aeadOpen kek nonce w.dkey pub with
        | some k => .ok (some k)
        | none => d.findKeyWith P pub ws more
  | _, _ => .ok none

/-- `SetPrivateKey` (`sign/encrypt.go:465-517`) with these results of `ToCurve25519SK`. -/
def Decryptor.setPrivateKeyWith (P : Prims) (d : Decryptor) (sk : PrivateKey) (ours : List Bytes) (senderPk : Option PublicKey) :
    Res Unit × Decryptor :=
  match d.findKeyWith P sk.pub.pk d.hdr.keys ours with
  | .err x => (.err x, d)
  | .panic x => (.panic x, d)
  | .ok none => (.err .badKey, d)
  | .ok (some key) =>
    let d := { d with key := some key, sender := senderPk }
    match d.verifySender P key senderPk with
    | .err x => (.err (.wrap "decrypt" x), d)
    | .panic x => (.panic x, d)
    | .ok auth =>
      let (nonce, dkey, hmackey) := dataKeys P key d.hdrsum
      (.ok (), { d with auth := auth, nonce := nonce, hmac := some (hmackey, []), ae := some dkey,
                        bufLen := d.hdr.chunkSize + 16 })

end Sigtool
