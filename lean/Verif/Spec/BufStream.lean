import Verif.Model.BufStream

/-! What one expects of a buffered stream. -/

namespace Verif

/-- What the user of a buffered stream knows: the bytes that `fill_buf` showed and that were not consumed since, the bytes taken out so far,
and the bytes that were accepted for writing. -/
structure StreamView where
  avail : Bytes
  taken : Bytes
  written : Bytes

namespace StreamView

/-- After one more use. -/
def step (v : StreamView) : StreamOp → StreamRes → StreamView
  | .fillBuf, .bytes (.ok b) => { v with avail := b }
  | .consume n, _ => { v with taken := v.taken ++ v.avail.take n, avail := v.avail.drop n }
  | .read _, .bytes (.ok b) => { v with taken := v.taken ++ b, avail := v.avail.drop b.length }
  | .write b, .count (.ok n) => { v with written := v.written ++ b.take n }
  | _, _ => v

/-- After more uses. -/
def steps (v : StreamView) : List StreamOp → List StreamRes → StreamView
  | o :: os, r :: rs => (v.step o r).steps os rs
  | _, _ => v

/-- `consume` is called only for bytes that `fill_buf` has shown, as the standard library demands. -/
def Proper (v : StreamView) : List StreamOp → List StreamRes → Prop
  | o :: os, r :: rs => (∀ n, o = .consume n → n ≤ v.avail.length) ∧ (v.step o r).Proper os rs
  | _, _ => True

end StreamView

/-- A use that failed to write. -/
def StreamRes.WriteFailed : StreamRes → Prop
  | .count (.error _) => True
  | .done (.error _) => True
  | .never => True
  | _ => False

/-- The bytes that a `read` brings. -/
def Ev.bytes : Ev → Bytes
  | .data b => b
  | .err _ => []

/-- A raw stream that, for statements only, records what its reads returned and what its writes took. -/
structure Traced (T : Type) where
  raw : T
  log : List Ev
  put : Bytes

/-- The bytes that were read. -/
def Traced.got {T : Type} (t : Traced T) : Bytes := t.log.flatMap Ev.bytes

instance {T : Type} [RawIO T] : RawIO (Traced T) where
  write f t b := (Wr.write f t.raw b).map fun
    | (.ok n, raw) => (.ok n, { t with raw, put := t.put ++ b.take n })
    | (.error e, raw) => (.error e, { t with raw })
  flush f t := (Wr.flush f t.raw).map fun x => (x.1, { t with raw := x.2 })
  read t n :=
    match RawIO.read t.raw n with
    | (.ok b, raw) => (.ok b, { t with raw, log := t.log ++ [.data b] })
    | (.error e, raw) => (.error e, { t with raw, log := t.log ++ [.err e] })
  dropped t := { t with raw := RawIO.dropped t.raw }

/-- What every raw stream promises (standard library): `write` takes no more than it is given. -/
def RawIO.Honest (T : Type) [RawIO T] : Prop :=
  ∀ (f : Nat) (t t' : T) (b : Bytes) (n : Nat), Wr.write f t b = some (.ok n, t') → n ≤ b.length

/-- A raw stream whose two directions are independent of each other: what reads find, and the writing side. -/
structure Tcp where
  input : List Ev
  out : Sock

instance : RawIO Tcp where
  write _ t b := some ((t.out.write b).1, { t with out := (t.out.write b).2 })
  flush _ t := some (t.out.flush.1, { t with out := t.out.flush.2 })
  read t n := ((rawRead n t.input).1, { t with input := (rawRead n t.input).2 })

/-- The two directions of a buffered stream kept apart, as in the rest of the model. -/
structure Halves (W : Type) where
  rd : Src
  wr : W

instance {W : Type} : BufRead (Halves W) where
  fillBuf s := (s.rd.fillBuf.1, { s with rd := s.rd.fillBuf.2 })
  consume s n := { s with rd := s.rd.consume n }
  read s n := ((s.rd.read n).1, { s with rd := (s.rd.read n).2 })

instance {W : Type} [Write W] : Wr (Halves W) where
  write _ s b := some ((Write.write s.wr b).1, { s with wr := (Write.write s.wr b).2 })
  flush _ s := some ((Write.flush s.wr).1, { s with wr := (Write.flush s.wr).2 })

/-- A buffered stream of the server over independent directions, and the two directions kept apart, in the same state. -/
structure ServerStack.Same (s : ServerStack Tcp) (h : Halves Nbw) : Prop where
  rcap : s.val.inner.val.cap = h.rd.cap
  rbuf : s.val.inner.val.buf = h.rd.buf
  input : s.val.inner.val.inner.input = h.rd.evs
  wbuf : s.val.buf = h.wr.buf
  pos : s.val.pos = h.wr.pos
  wcap : s.val.cap = h.wr.cap
  grow : s.val.grow = h.wr.grow
  out : s.val.inner.val.inner.out = h.wr.sock

/-- A buffered stream of the client over independent directions, and the two directions kept apart, in the same state. -/
structure ClientStack.Same (s : ClientStack Tcp) (h : Halves BufW) : Prop where
  rcap : s.val.inner.val.cap = h.rd.cap
  rbuf : s.val.inner.val.buf = h.rd.buf
  input : s.val.inner.val.inner.input = h.rd.evs
  wbuf : s.val.buf = h.wr.buf
  wcap : s.val.cap = h.wr.cap
  out : s.val.inner.val.inner.out = h.wr.sock

end Verif
