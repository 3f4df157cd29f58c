import Verif.StreamRead
import Verif.History
/-!
# DecHistory: arbitrary sequences of API calls on one `Decryptor`, with the shared chunk buffer as memory

Everything a program can do with one `Decryptor`: call `SetPrivateKey`, `Decrypt`, `NewStreamReader` on it and `Read` on the
stream readers it handed out, in any order and with any arguments; and an input that came to an error may later yield more (a
timeout, a pipe that is written to again). `Read` keeps a *slice* of the decryptor's chunk buffer
between calls, so here the buffers are memory cells that later calls may overwrite.
-/

namespace Sigtool

/-- A Go slice of one of the chunk buffers: buffer number, offset, length. The nil slice has length 0. -/
structure Slice where
  buf : Nat := 0
  off : Nat := 0
  len : Nat := 0
deriving DecidableEq, Repr

/-- The bytes a slice refers to, in the present state of memory. -/
def Slice.bytes (s : Slice) (heap : List Bytes) : Bytes :=
  (((heap[s.buf]?).getD []).drop s.off).take s.len

/-- What `io.ReadFull(rd, buf[:z])` leaves in `buf` if `got` was read: a partly successful read overwrites a prefix. -/
def overwrite (buf got : Bytes) : Bytes := got ++ buf.drop got.length

/-- The content of `d.buf` after `d.decrypt(i)` (`sign/encrypt.go:560-615`), if it was `buf` before: nothing happens to it
until `io.ReadFull(d.rd, d.buf[:z])` (`:593`); `Open` works in place (`:598`, `dst` is `d.buf[:0]`) and puts the plaintext
at the start, or, when authentication fails, clears the place where the plaintext would have gone (Go `crypto/cipher` GCM). -/
def Decryptor.bufAfter (P : Prims) (d : Decryptor) (i : Nat) (buf : Bytes) : Bytes :=
  match d.ae with
  | none => buf
  | some dkey =>
    match readFull d.rd 4 with
    | (_, some _, _) => buf
    | (b, none, rd) =>
      let m := wordLen (be32dec b)
      if m > d.hdr.chunkSize then buf
      else if m = 0 then buf
      else
        let z := (m + 16) % 2^32
        if z > d.bufLen then buf
        else
          match readFull rd z with
          | (got, some _, _) => overwrite buf got
          | (ct, none, _) =>
            match P.aeadOpen dkey (chunkNonce d.nonce i) ct b with
            | none => overwrite (overwrite buf ct) (List.replicate (ct.length - 16) 0)
            | some pt => overwrite (overwrite buf ct) pt

/-- The content of `d.buf` after the loop of `Decrypt` (`sign/encrypt.go:539-556`). -/
def Decryptor.bufAfterLoop (P : Prims) : Nat → Decryptor → Writer → Nat → Bytes → Bytes
  | 0, _, _, _, buf => buf
  | fuel + 1, d, wr, i, buf =>
    let buf' := d.bufAfter P i buf
    match d.decryptBlock P i with
    | (.err _, _) => buf'
    | (.panic _, _) => buf'
    | (.ok (c, eof), d) =>
      match (if c.length > 0 then fullwrite c wr else (none, wr)) with
      | (some _, _) => buf'
      | (none, wr) => if eof then buf' else Decryptor.bufAfterLoop P fuel d wr ((i + 1) % 2^32) buf'

/-- `encReader` (`sign/stream.go:106-112`), with `unread` as a slice of a chunk buffer. -/
structure MemReader where
  unread : Slice := {}
  blk : Nat := 0
  err : Option Err := none
deriving DecidableEq, Repr

/-- The decryptor, the chunk buffers that were ever allocated, which of them is `d.buf`, and the stream readers. -/
structure DecState where
  dec : Decryptor
  heap : List Bytes := []
  cur : Nat := 0
  readers : List MemReader := []
deriving DecidableEq, Repr

/-- One call with its arguments. Stream readers are numbered in order of creation.  `more` is not a call: the input, of which
nothing was left to read but its error, has become readable again, and goes on as `rd`. -/
inductive DecOp where
  | setKey (sk : PrivateKey) (sender : Option PublicKey)
  | decrypt (wr : Writer)
  | openReader
  | read (k : Nat) (cap : Nat)
  | more (rd : Reader)
deriving DecidableEq, Repr

/-- What can be observed of one call: its result, the bytes it delivered (to the destination of `Decrypt`, or to the caller
of `Read`) and what `AuthenticatedSender()` says afterwards. -/
structure DecEvent where
  op : DecOp
  res : Res Unit
  delivered : Bytes := []
  auth : Bool
deriving DecidableEq, Repr

/-- `d.buf` at present. -/
def DecState.buf (s : DecState) : Bytes := (s.heap[s.cur]?).getD []

/-- `Read` (`sign/stream.go:134-163`) from reader `k` into a buffer of `cap` bytes. -/
def DecState.read (P : Prims) (s : DecState) (k : Nat) (r : MemReader) (cap : Nat) : Res Bytes × DecState :=
  match r.err with
  | some x => (.err x, s)
  | none =>
    let put (s : DecState) (r : MemReader) : DecState := { s with readers := s.readers.set k r }
    let deliver (s : DecState) (r : MemReader) : Res Bytes × DecState :=
      if r.unread.len > 0 then
        (.ok ((r.unread.bytes s.heap).take cap),
          put s { r with unread := { r.unread with off := r.unread.off + min cap r.unread.len
                                                   len := r.unread.len - min cap r.unread.len } })
      else (.err .eof, put s { r with err := some .eof })
    if r.unread.len = 0 then
      if s.dec.eof then (.err .eof, put s { r with err := some .eof })
      else
        let heap := s.heap.set s.cur (s.dec.bufAfter P r.blk s.buf)
        match s.dec.decryptBlock P r.blk with
        | (.err x, d) => (.err x, put { s with dec := d, heap := heap } { r with err := some x })
        | (.panic x, d) => (.panic x, { s with dec := d, heap := heap })
        | (.ok (pt, eof), d) =>
          deliver { s with dec := { d with eof := eof }, heap := heap }
            { r with unread := { buf := s.cur, off := 0, len := pt.length }, blk := (r.blk + 1) % 2^32 }
    else deliver s r

/-- One call (`none`: there is no such stream reader, so no such call can be made).  The underlying `io.Reader` of a
`Decryptor` is never looked at except by `io.ReadFull` (`sign/encrypt.go:565,593,620`), and each error of `io.ReadFull` ends the call,
so an error that goes away is the end of one `Reader` script and the start of another (`more`).  `SetPrivateKey` allocates a new chunk
buffer when it succeeds (`sign/encrypt.go:515`). -/
def DecState.step (P : Prims) (s : DecState) (op : DecOp) : Option (DecEvent × DecState) :=
  match op with
  | .setKey sk spk =>
    match s.dec.setPrivateKey P sk spk with
    | (.ok (), d) => some ({ op := op, res := .ok (), auth := d.auth },
        { s with dec := d, heap := s.heap ++ [List.replicate d.bufLen 0], cur := s.heap.length })
    | (r, d) => some ({ op := op, res := r, auth := d.auth }, { s with dec := d })
  | .decrypt wr =>
    match s.dec.decrypt P wr with
    | (r, d, wr') =>
      let runs : Bool := s.dec.key.isSome && !s.dec.stream && !s.dec.eof
      let buf := if runs then Decryptor.bufAfterLoop P (s.dec.rd.content.length + 1) s.dec wr 0 s.buf else s.buf
      some ({ op := op, res := r, delivered := wr'.out.drop wr.out.length, auth := d.auth },
        { s with dec := d, heap := s.heap.set s.cur buf })
  | .openReader =>
    match s.dec.newStreamReader with
    | (r, d) => some ({ op := op, res := r.unit, auth := d.auth },
        { s with dec := d, readers := match r with | .ok _ => s.readers ++ [{}] | _ => s.readers })
  | .read k cap =>
    match s.readers[k]? with
    | none => none
    | some r =>
      match s.read P k r cap with
      | (res, s') => some ({ op := op, res := res.unit, delivered := (match res with | .ok b => b | _ => [])
                             auth := s'.dec.auth }, s')
  | .more rd =>
    if s.dec.rd.content = [] then
      some ({ op := op, res := .ok (), auth := s.dec.auth }, { s with dec := { s.dec with rd := rd } })
    else none

/-- All bytes of the input, after the header: what the reader `rd` held, and what became readable later. -/
def inputOf (rd : Reader) (evs : List DecEvent) : Bytes :=
  rd.content ++ evs.flatMap fun v => match v.op with
    | .more r => r.content
    | _ => []

theorem inputOf_snoc (rd : Reader) (evs : List DecEvent) (ev : DecEvent) : inputOf rd (evs ++ [ev]) =
    inputOf rd evs ++ (match ev.op with | .more r => r.content | _ => []) := by
  simp [inputOf]

theorem inputOf_call (rd : Reader) (evs : List DecEvent) (ev : DecEvent) (h : ∀ r, ev.op ≠ .more r) :
    inputOf rd (evs ++ [ev]) = inputOf rd evs := by
  rw [inputOf_snoc]
  cases ho : ev.op <;> simp
  exact absurd ho (h _)

/-- `DecHistory P d0 evs s`: starting with the decryptor `d0`, the calls recorded in `evs` were made one after another, and
lead to `s`. A crash ends the history. -/
inductive DecHistory (P : Prims) (d0 : Decryptor) : List DecEvent → DecState → Prop
  | start : DecHistory P d0 [] { dec := d0 }
  | call {evs : List DecEvent} {s s' : DecState} {op : DecOp} {ev : DecEvent} (h : DecHistory P d0 evs s)
      (live : ∀ v ∈ evs, v.res.isPanic = false) (hstep : s.step P op = some (ev, s')) : DecHistory P d0 (evs ++ [ev]) s'

/-- Run a list of calls (calls on stream readers that do not exist are skipped). -/
def DecState.run (P : Prims) : DecState → List DecOp → List DecEvent × DecState
  | s, [] => ([], s)
  | s, o :: os =>
    match s.step P o with
    | none => DecState.run P s os
    | some (ev, s') =>
      if ev.res.isPanic then ([ev], s')
      else let (evs, s'') := DecState.run P s' os; (ev :: evs, s'')

theorem DecHistory.run {P : Prims} {d0 : Decryptor} : ∀ (ops : List DecOp) (pre : List DecEvent) (s : DecState),
    DecHistory P d0 pre s → (∀ v ∈ pre, v.res.isPanic = false) →
    DecHistory P d0 (pre ++ (s.run P ops).1) (s.run P ops).2 := by
  intro ops
  induction ops with
  | nil => intro pre s h _; simpa [DecState.run] using h
  | cons o os ih =>
    intro pre s h hp
    unfold DecState.run
    cases hs : s.step P o with
    | none => exact ih pre s h hp
    | some x =>
      obtain ⟨ev, s'⟩ := x
      dsimp only
      have h' := DecHistory.call h hp hs
      split
      · exact h'
      · rename_i hnp
        have := ih (pre ++ [ev]) s' h' (by
          intro v hv
          rcases List.mem_append.mp hv with hv | hv
          · exact hp v hv
          · simp only [List.mem_singleton] at hv; subst hv; simpa using hnp)
        simpa using this

theorem DecHistory.split {P : Prims} {d0 : Decryptor} {evs : List DecEvent} {s : DecState} (h : DecHistory P d0 evs s) :
    ∀ (pre : List DecEvent) (ev : DecEvent) (post : List DecEvent), evs = pre ++ ev :: post →
    ∃ s1 s2 op, DecHistory P d0 pre s1 ∧ (∀ v ∈ pre, v.res.isPanic = false) ∧ s1.step P op = some (ev, s2) ∧
      DecHistory P d0 (pre ++ [ev]) s2 := by
  induction h with
  | start => intro pre ev post h; simp at h
  | @call evs s s' op ev0 h live hstep ih =>
    intro pre ev post he
    rcases List.eq_nil_or_concat post with rfl | ⟨post', last, rfl⟩
    · obtain ⟨h1, h2⟩ := List.append_inj' he rfl
      cases h2
      subst h1
      exact ⟨s, s', op, h, live, hstep, .call h live hstep⟩
    · have he' : evs ++ [ev0] = (pre ++ ev :: post') ++ [last] := by rw [he]; simp
      obtain ⟨h1, _⟩ := List.append_inj' he' rfl
      exact ih pre ev post' h1

theorem decStep_op {P : Prims} {s s' : DecState} {op : DecOp} {ev : DecEvent} (h : s.step P op = some (ev, s')) :
    ev.op = op := by
  unfold DecState.step at h
  split at h
  · split at h <;> cases h <;> rfl
  · split at h; cases h; rfl
  · split at h; cases h; rfl
  · split at h
    · cases h
    · split at h; cases h; rfl
  · split at h <;> cases h; rfl

theorem step_more {P : Prims} {s s' : DecState} {ev : DecEvent} {rd : Reader} (h : s.step P (.more rd) = some (ev, s')) :
    s.dec.rd.content = [] ∧ ev = { op := .more rd, res := .ok (), auth := s.dec.auth } ∧
      s' = { s with dec := { s.dec with rd := rd } } := by
  unfold DecState.step at h
  dsimp only at h
  split at h <;> cases h
  exact ⟨by assumption, rfl, rfl⟩

end Sigtool
