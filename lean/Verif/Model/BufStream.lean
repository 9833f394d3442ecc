import Verif.Model.Writer

/-!
`src/util/stream.rs`: one raw stream with a buffered reader and a buffered writer around it, as the server (server.rs 69-79) and
the client (client.rs 127) build it. Elsewhere in the model the two directions of a stream are kept apart (`Conn`, `ClientStream`); here
they share the raw stream, as in the program.

The raw stream is arbitrary: a type with `read`, `write` and `flush`. A loop that calls `write` until something happens gets a
number of rounds; `none` means that it did not return within them.
-/

namespace Verif

/-- `std::io::Write`. The number bounds the rounds of a loop; `none`: it did not return within them. -/
class Wr (W : Type) where
  write : Nat → W → Bytes → Option (Except IoError Nat × W)
  flush : Nat → W → Option (Except IoError Unit × W)

/-- `Stream`, stream.rs 7-9: `Read + Write`. Used for raw streams. -/
class RawIO (T : Type) extends Wr T where
  /-- `read` into a destination of the given size. -/
  read : T → Nat → Except IoError Bytes × T
  /-- What becomes of the stream when it is dropped. -/
  dropped : T → T := id

/-- `std::io::BufRead` and `Read`. -/
class BufRead (R : Type) where
  fillBuf : R → Except IoError Bytes × R
  consume : R → Nat → R
  read : R → Nat → Except IoError Bytes × R

/-- `InnerMut`, stream.rs 30-36: a mutable reference as a pair of functions. -/
class InnerMut (T : Type) (I : outParam Type) where
  inner : T → I
  put : T → I → T

/-- `BufReader<T>`, standard library; `buf` is the unread part of the buffer. -/
structure BufR (T : Type) where
  cap : Nat
  buf : Bytes
  inner : T

namespace BufR

variable {T : Type} [RawIO T]

/-- `BufReader::fill_buf`, standard library. -/
def fillBuf (s : BufR T) : Except IoError Bytes × BufR T :=
  if s.buf = [] then
    match RawIO.read s.inner s.cap with
    | (.ok b, t) => (.ok b, { s with buf := b, inner := t })
    | (.error e, t) => (.error e, { s with inner := t })
  else (.ok s.buf, s)

/-- `BufReader::consume`, standard library. -/
def consume (s : BufR T) (n : Nat) : BufR T := { s with buf := s.buf.drop n }

/-- `BufReader::read`, standard library. -/
def read (s : BufR T) (n : Nat) : Except IoError Bytes × BufR T :=
  if s.buf = [] ∧ s.cap ≤ n then
    match RawIO.read s.inner n with
    | (r, t) => (r, { s with inner := t })
  else
    match s.fillBuf with
    | (.ok b, s) => (.ok (b.take n), s.consume (b.take n).length)
    | (.error e, s) => (.error e, s)

end BufR

instance {T : Type} [RawIO T] : BufRead (BufR T) := ⟨BufR.fillBuf, BufR.consume, BufR.read⟩

/-- `InnerMut for BufReader<R>`, stream.rs 97-103. -/
instance {T : Type} : InnerMut (BufR T) T := ⟨BufR.inner, fun s t => { s with inner := t }⟩

/-- `WriteableReader`, stream.rs 42. -/
structure WriteableReader (R : Type) where
  val : R

/-- `Read`, `BufRead for WriteableReader`, stream.rs 70-74 and 86-94. -/
instance {R : Type} [BufRead R] : BufRead (WriteableReader R) where
  fillBuf s := ((BufRead.fillBuf s.val).1, ⟨(BufRead.fillBuf s.val).2⟩)
  consume s n := ⟨BufRead.consume s.val n⟩
  read s n := ((BufRead.read s.val n).1, ⟨(BufRead.read s.val n).2⟩)

/-- `Write for WriteableReader`, stream.rs 76-84. -/
instance {R W : Type} [Wr W] [InnerMut R W] : Wr (WriteableReader R) where
  write f s b := (Wr.write f (InnerMut.inner s.val) b).map fun x => (x.1, ⟨InnerMut.put s.val x.2⟩)
  flush f s := (Wr.flush f (InnerMut.inner s.val)).map fun x => (x.1, ⟨InnerMut.put s.val x.2⟩)

/-- `ReadableWriter`, stream.rs 39. -/
structure ReadableWriter (W : Type) where
  val : W

/-- `Read`, `BufRead for ReadableWriter`, stream.rs 44-48 and 60-68. -/
instance {W R : Type} [BufRead R] [InnerMut W R] : BufRead (ReadableWriter W) where
  fillBuf s := ((BufRead.fillBuf (InnerMut.inner s.val)).1, ⟨InnerMut.put s.val (BufRead.fillBuf (InnerMut.inner s.val)).2⟩)
  consume s n := ⟨InnerMut.put s.val (BufRead.consume (InnerMut.inner s.val) n)⟩
  read s n := ((BufRead.read (InnerMut.inner s.val) n).1, ⟨InnerMut.put s.val (BufRead.read (InnerMut.inner s.val) n).2⟩)

/-- `Write for ReadableWriter`, stream.rs 50-58. -/
instance {W : Type} [Wr W] : Wr (ReadableWriter W) where
  write f s b := (Wr.write f s.val b).map fun x => (x.1, ⟨x.2⟩)
  flush f s := (Wr.flush f s.val).map fun x => (x.1, ⟨x.2⟩)

/-- `NonBlockingBufWriter<T>`, nonblocking_buf_writer.rs 8-12, over any writer (`Nbw` is the one over a scripted socket). -/
structure NbWriter (W : Type) where
  buf : Bytes
  pos : Nat
  cap : Nat
  grow : Nat → Nat → Nat
  inner : W

/-- The loop of `write_until_blocked`, nonblocking_buf_writer.rs 66-77; `pos` bytes were written before. -/
def writeUntilBlocked {W : Type} [Wr W] (f : Nat) : Nat → W → Bytes → Nat → Option (Except IoError Nat × W)
  | 0, w, b, pos => if b = [] then some (.ok pos, w) else none
  | r + 1, w, b, pos =>
    if b = [] then some (.ok pos, w)
    else match Wr.write f w b with
      | none => none
      | some (.ok n, w) => writeUntilBlocked f r w (b.drop n) (pos + n)
      | some (.error e, w) => some (if e = .wouldBlock then .ok pos else .error e, w)

namespace NbWriter

variable {W : Type} [Wr W]

/-- `flush_buf`, nonblocking_buf_writer.rs 22-33. -/
def flushBuf (f : Nat) (w : NbWriter W) : Option (Except IoError Unit × NbWriter W) :=
  (writeUntilBlocked f f w.inner (w.buf.drop w.pos) 0).map fun
    | (.error e, t) => (.error e, { w with inner := t })
    | (.ok amount, t) =>
      if w.pos + amount ≥ w.buf.length then (.ok (), { w with inner := t, pos := 0, buf := [] })
      else (.ok (), { w with inner := t, pos := w.pos + amount })

/-- `flush_inner`, nonblocking_buf_writer.rs 37-42. -/
def flushInner (f : Nat) (w : NbWriter W) : Option (Except IoError Unit × NbWriter W) :=
  (Wr.flush f w.inner).map fun
    | (.error .wouldBlock, t) => (.ok (), { w with inner := t })
    | (x, t) => (x, { w with inner := t })

/-- `Vec::write`, standard library. -/
def push (w : NbWriter W) (b : Bytes) : NbWriter W :=
  { w with buf := w.buf ++ b, cap := if (w.buf ++ b).length ≤ w.cap then w.cap else w.grow w.cap (w.buf ++ b).length }

/-- `Write::write`, nonblocking_buf_writer.rs 46-58. -/
def write (f : Nat) (w : NbWriter W) (data : Bytes) : Option (Except IoError Nat × NbWriter W) :=
  if w.buf.length + data.length > w.cap then
    match w.flushBuf f with
    | none => none
    | some (.error e, w) => some (.error e, w)
    | some (.ok (), w) =>
      if w.pos = 0 ∧ data.length > w.cap then
        (writeUntilBlocked f f w.inner data 0).map fun
          | (.error e, t) => (.error e, { w with inner := t })
          | (.ok amount, t) => (.ok data.length, { w with inner := t }.push (data.drop amount))
      else some (.ok data.length, w.push data)
  else some (.ok data.length, w.push data)

/-- `Write::flush`, nonblocking_buf_writer.rs 60-63. -/
def flush (f : Nat) (w : NbWriter W) : Option (Except IoError Unit × NbWriter W) :=
  match w.flushBuf f with
  | none => none
  | some (.error e, w) => some (.error e, w)
  | some (.ok (), w) => w.flushInner f

end NbWriter

instance {W : Type} [Wr W] : Wr (NbWriter W) := ⟨NbWriter.write, NbWriter.flush⟩

/-- `InnerMut for NonBlockingBufWriter<W>`, nonblocking_buf_writer.rs 79-85. -/
instance {W : Type} : InnerMut (NbWriter W) W := ⟨NbWriter.inner, fun s t => { s with inner := t }⟩

/-- `BufWriter<W>`, standard library, over any writer (`BufW` is the one over a scripted socket). -/
structure StdWriter (W : Type) where
  buf : Bytes
  cap : Nat
  inner : W

namespace StdWriter

variable {W : Type} [Wr W]

/-- `BufWriter::flush_buf`, standard library. -/
def flushBuf (f : Nat) : Nat → StdWriter W → Option (Except IoError Unit × StdWriter W)
  | 0, w => if w.buf = [] then some (.ok (), w) else none
  | r + 1, w =>
    if w.buf = [] then some (.ok (), w)
    else match Wr.write f w.inner w.buf with
      | none => none
      | some (.ok n, t) =>
        if n = 0 then some (.error .writeZero, { w with inner := t })
        else flushBuf f r { w with inner := t, buf := w.buf.drop n }
      | some (.error e, t) =>
        if e = .interrupted then flushBuf f r { w with inner := t } else some (.error e, { w with inner := t })

/-- `BufWriter::write`, standard library. -/
def write (f : Nat) (w : StdWriter W) (data : Bytes) : Option (Except IoError Nat × StdWriter W) :=
  if w.buf.length + data.length < w.cap then some (.ok data.length, { w with buf := w.buf ++ data })
  else
    match (if w.buf.length + data.length > w.cap then w.flushBuf f f else some (.ok (), w)) with
    | none => none
    | some (.error e, w) => some (.error e, w)
    | some (.ok (), w) =>
      if data.length ≥ w.cap then (Wr.write f w.inner data).map fun x => (x.1, { w with inner := x.2 })
      else some (.ok data.length, { w with buf := w.buf ++ data })

/-- `BufWriter::flush`, standard library. -/
def flush (f : Nat) (w : StdWriter W) : Option (Except IoError Unit × StdWriter W) :=
  match w.flushBuf f f with
  | none => none
  | some (.error e, w) => some (.error e, w)
  | some (.ok (), w) => (Wr.flush f w.inner).map fun x => (x.1, { w with inner := x.2 })

end StdWriter

instance {W : Type} [Wr W] : Wr (StdWriter W) := ⟨StdWriter.write, StdWriter.flush⟩

/-- `InnerMut for BufWriter<W>`, stream.rs 105-111. -/
instance {W : Type} : InnerMut (StdWriter W) W := ⟨StdWriter.inner, fun s t => { s with inner := t }⟩

/-- The stream of a connection of the server, server.rs 69-79. -/
abbrev ServerStack (T : Type) := ReadableWriter (NbWriter (WriteableReader (BufR T)))

/-- `StdBufStream<T>`, stream.rs 4: the stream of a connection of the client. -/
abbrev ClientStack (T : Type) := ReadableWriter (StdWriter (WriteableReader (BufR T)))

/-- `new_buffered_stream`, server.rs 69-79: `with_buf_reader_and_writer`, stream.rs 18-28, with 4096 bytes for each direction. -/
def ServerStack.new {T : Type} (grow : Nat → Nat → Nat) (t : T) : ServerStack T := ⟨⟨[], 0, 4096, grow, ⟨⟨4096, [], t⟩⟩⟩⟩

/-- `with_buf_reader_and_writer(new_stream, BufReader::new, BufWriter::new)`, client.rs 127: 8 KiB for each direction. -/
def ClientStack.new {T : Type} (t : T) : ClientStack T := ⟨⟨[], 8192, ⟨⟨8192, [], t⟩⟩⟩⟩

/-- A use of a buffered stream. -/
inductive StreamOp
  | fillBuf
  | consume (n : Nat)
  | read (n : Nat)
  | write (b : Bytes)
  | flush

/-- What a use of a buffered stream returns. -/
inductive StreamRes
  | bytes (r : Except IoError Bytes)
  | count (r : Except IoError Nat)
  | done (r : Except IoError Unit)
  | unit
  /-- It did not return. -/
  | never

/-- One use of a buffered stream. -/
def StreamOp.run {S : Type} [BufRead S] [Wr S] (f : Nat) (s : S) : StreamOp → StreamRes × S
  | .fillBuf => (.bytes (BufRead.fillBuf s).1, (BufRead.fillBuf s).2)
  | .consume n => (.unit, BufRead.consume s n)
  | .read n => (.bytes (BufRead.read s n).1, (BufRead.read s n).2)
  | .write b =>
    match Wr.write f s b with
    | none => (.never, s)
    | some (r, s) => (.count r, s)
  | .flush =>
    match Wr.flush f s with
    | none => (.never, s)
    | some (r, s) => (.done r, s)

/-- Uses of a buffered stream one after the other. -/
def StreamOp.runAll {S : Type} [BufRead S] [Wr S] (f : Nat) : List StreamOp → S → List StreamRes × S
  | [], s => ([], s)
  | o :: os, s => ((o.run f s).1 :: (runAll f os (o.run f s).2).1, (runAll f os (o.run f s).2).2)

end Verif
