import Verif.Std.Utf8

/-!
`std::io` reading: a raw stream under a `BufReader`, `Take`-like limits, and the loops of
`read_line` and `read_to_end`.

The raw stream is a script of what successive `read` calls find. Once the script is used up every
further `read` finds nothing available (`WouldBlock`), which is how a non-blocking socket with no new
data behaves. A script entry `data []` is a `read` returning `Ok(0)`, i.e. end of stream.
-/

namespace Verif

/-- `std::io::Error`, as far as the code looks at it: the kind, with the one error built by
`error_take.rs` (kind `Other`, message "read limit reached") kept apart from other errors. -/
inductive IoError
  | wouldBlock
  | interrupted
  | unexpectedEof
  | connectionAborted
  | invalidData
  | writeZero
  | limitReached
  | other
  deriving DecidableEq, Repr

/-- What a raw `read` finds: some bytes (a shorter destination takes a prefix and leaves the rest;
`data []` is end of stream) or an error. -/
inductive Ev
  | data (b : Bytes)
  | err (e : IoError)
  deriving DecidableEq, Repr

/-- Result of an I/O operation whose value is tracked separately. `diverge` is the outcome of a model
loop that ran out of fuel; it is proved never to happen. -/
inductive IoRes
  | ok
  | err (e : IoError)
  | diverge
  deriving DecidableEq, Repr

/-- One raw `read` into a destination of `n` bytes. -/
def rawRead (n : Nat) : List Ev → Except IoError Bytes × List Ev
  | [] => (.error .wouldBlock, [])
  | .err e :: es => (.error e, es)
  | .data b :: es =>
    if b.length ≤ n then (.ok b, es) else (.ok (b.take n), .data (b.drop n) :: es)

/-- `BufReader` with a buffer of `cap` bytes over a scripted stream; `buf` is the unread part of the
buffer. `offer` gives the size (minus one) of the spare space that `read_to_end` offers to `read`
when it has collected a given number of bytes: the growth policy of `Vec` is not specified, so it is
left arbitrary. -/
structure Src where
  cap : Nat
  capPos : 0 < cap
  offer : Nat → Nat
  buf : Bytes
  evs : List Ev

namespace Src

/-- `BufReader::fill_buf`: refill from the stream only when the buffer is empty. -/
def fillBuf (s : Src) : Except IoError Bytes × Src :=
  if s.buf = [] then
    match rawRead s.cap s.evs with
    | (.ok b, evs) => (.ok b, { s with buf := b, evs })
    | (.error e, evs) => (.error e, { s with evs })
  else (.ok s.buf, s)

/-- `BufReader::consume`. -/
def consume (s : Src) (n : Nat) : Src := { s with buf := s.buf.drop n }

/-- `BufReader::read`: bypass the buffer if it is empty and the destination is at least as large. -/
def read (s : Src) (n : Nat) : Except IoError Bytes × Src :=
  if s.buf = [] ∧ s.cap ≤ n then
    match rawRead n s.evs with
    | (.ok b, evs) => (.ok b, { s with evs })
    | (.error e, evs) => (.error e, { s with evs })
  else
    match s.fillBuf with
    | (.ok b, s) => (.ok (b.take n), s.consume (b.take n).length)
    | (.error e, s) => (.error e, s)

end Src

/-- A `BufReader` under a stack of `ErrorTake` wrappers with the given remaining limits, the outermost
(most recently added) first: `src/parse/error_take.rs`. -/
structure Rd where
  lims : List Nat
  src : Src

namespace Rd

/-- `fill_buf` through the wrappers: `ErrorTake::fill_buf`, error_take.rs 42-45, fails at limit 0 and
otherwise is `Take::fill_buf`, which shortens what the inner reader offers to the limit. -/
def fillBufL : List Nat → Src → Except IoError Bytes × Src
  | [], s => s.fillBuf
  | l :: ls, s =>
    if l = 0 then (.error .limitReached, s)
    else match fillBufL ls s with
      | (.ok b, s) => (.ok (b.take l), s)
      | (.error e, s) => (.error e, s)

/-- `consume` through the wrappers: `ErrorTake::consume`, error_take.rs 47-49, is `Take::consume`,
which never consumes beyond the limit. -/
def consumeL : List Nat → Src → Nat → List Nat × Src
  | [], s, n => ([], s.consume n)
  | l :: ls, s, n =>
    let amt := min n l
    let (ls', s') := consumeL ls s amt
    ((l - amt) :: ls', s')

/-- `read` through the wrappers: `ErrorTake::read`, error_take.rs 35-38, fails at limit 0 and otherwise
is `Take::read`, which shortens the destination to the limit. -/
def readL : List Nat → Src → Nat → Except IoError Bytes × List Nat × Src
  | [], s, n => let (r, s) := s.read n; (r, [], s)
  | l :: ls, s, n =>
    if l = 0 then (.error .limitReached, l :: ls, s)
    else match readL ls s (min n l) with
      | (.ok b, ls, s) => (.ok b, (l - b.length) :: ls, s)
      | (.error e, ls, s) => (.error e, l :: ls, s)

/-- `memchr`: index of the first occurrence of `d`. -/
def memchr (d : UInt8) : Bytes → Option Nat
  | [] => none
  | b :: t => if b = d then some 0 else (memchr d t).map (· + 1)

/-- The loop of `BufRead::read_until(b'\n')`: `Interrupted` is retried, the loop stops after the
delimiter or at end of stream. Returns the bytes it took even when it fails. -/
def readUntil (d : UInt8) : Nat → Bytes → List Nat → Src → IoRes × Bytes × List Nat × Src
  | 0, acc, ls, s => (.diverge, acc, ls, s)
  | f + 1, acc, ls, s =>
    match fillBufL ls s with
    | (.error .interrupted, s) => readUntil d f acc ls s
    | (.error e, s) => (.err e, acc, ls, s)
    | (.ok av, s) =>
      match memchr d av with
      | some i =>
        let (ls, s) := consumeL ls s (i + 1)
        (.ok, acc ++ av.take (i + 1), ls, s)
      | none =>
        let (ls, s) := consumeL ls s av.length
        if av.length = 0 then (.ok, acc ++ av, ls, s)
        else readUntil d f (acc ++ av) ls s

/-- The loop of `Read::read_to_end`: `Interrupted` is retried, the loop stops at end of stream. The
bytes read so far are kept when it fails. -/
def readToEndLoop : Nat → Bytes → List Nat → Src → IoRes × Bytes × List Nat × Src
  | 0, acc, ls, s => (.diverge, acc, ls, s)
  | f + 1, acc, ls, s =>
    match readL ls s (s.offer acc.length + 1) with
    | (.error .interrupted, ls, s) => readToEndLoop f acc ls s
    | (.error e, ls, s) => (.err e, acc, ls, s)
    | (.ok b, ls, s) =>
      if b.length = 0 then (.ok, acc, ls, s) else readToEndLoop f (acc ++ b) ls s

/-- The loop of `BytesDeframer::read`, `src/parse/deframe/bytes.rs` 19-33: read until `size` bytes are
there; `Ok(0)` is an unexpected end of stream and every error (also `Interrupted`) stops the loop.
`data` is the filled part `self.data[..self.pos]`. -/
def readIntoLoop (size : Nat) : Nat → Bytes → List Nat → Src → IoRes × Bytes × List Nat × Src
  | 0, acc, ls, s => (.diverge, acc, ls, s)
  | f + 1, acc, ls, s =>
    if acc.length < size then
      match readL ls s (size - acc.length) with
      | (.error e, ls, s) => (.err e, acc, ls, s)
      | (.ok b, ls, s) =>
        if b.length = 0 then (.err .unexpectedEof, acc, ls, s)
        else readIntoLoop size f (acc ++ b) ls s
    else (.ok, acc, ls, s)

end Rd

/-! ### The same stream, byte by byte -/

/-- The atoms of a stream: single bytes, ends of stream, errors. -/
inductive Atom
  | byte (b : UInt8)
  | eof
  | err (e : IoError)
  deriving DecidableEq, Repr

/-- The atoms of one script entry. -/
def Ev.atoms : Ev → List Atom
  | .data [] => [.eof]
  | .data (b :: bs) => .byte b :: bs.map .byte
  | .err e => [.err e]

/-- Everything still to be read: the buffered bytes, then the script. -/
def Src.atoms (s : Src) : List Atom := s.buf.map .byte ++ s.evs.flatMap Ev.atoms

/-- What a parser can do with its reader. The parsers are generic over this class, as the Rust ones are
generic over `impl BufRead`; the operations are the ones they use. There are two instances: `Rd`, a
`BufReader` over a chunked stream, and `AR`, the same stream byte by byte. -/
class Reader (R : Type) where
  /-- wrap in an `ErrorTake` -/
  push : Nat → R → R
  /-- leave the scope of the outermost `ErrorTake` -/
  pop : R → R
  /-- `read_until(b'\n')` starting from an empty buffer: the bytes taken -/
  readUntilLf : R → IoRes × Bytes × R
  /-- `BytesDeframer::read` with the bytes already there -/
  readInto : Nat → Bytes → R → IoRes × Bytes × R
  /-- `read_to_end` with the bytes already there -/
  readToEnd : Bytes → R → IoRes × Bytes × R
  /-- a bound on the iterations of a parser loop -/
  fuel : R → Nat

instance : Reader Rd where
  push l r := { r with lims := l :: r.lims }
  pop r := { r with lims := r.lims.tail }
  readUntilLf r :=
    let (o, b, ls, s) := Rd.readUntil LF (r.src.atoms.length + 1) [] r.lims r.src
    (o, b, ⟨ls, s⟩)
  readInto size d r :=
    let (o, b, ls, s) := Rd.readIntoLoop size (r.src.atoms.length + 1) d r.lims r.src
    (o, b, ⟨ls, s⟩)
  readToEnd d r :=
    let (o, b, ls, s) := Rd.readToEndLoop (r.src.atoms.length + 1) d r.lims r.src
    (o, b, ⟨ls, s⟩)
  fuel r := 3 * r.src.atoms.length + 8

/-- Reader that sees the stream byte by byte. -/
structure AR where
  lims : List Nat
  atoms : List Atom
  deriving DecidableEq, Repr

namespace AR

/-- Count one byte against every limit. -/
def dec (ls : List Nat) : List Nat := ls.map (· - 1)

/-- `read_until(d)`, byte by byte. -/
def scan (d : UInt8) : List Nat → List Atom → IoRes × Bytes × List Nat × List Atom
  | ls, [] => if 0 ∈ ls then (.err .limitReached, [], ls, []) else (.err .wouldBlock, [], ls, [])
  | ls, a :: as =>
    if 0 ∈ ls then (.err .limitReached, [], ls, a :: as)
    else match a with
      | .byte b =>
        if b = d then (.ok, [b], dec ls, as)
        else
          let (o, bs, ls, as) := scan d (dec ls) as
          (o, b :: bs, ls, as)
      | .eof => (.ok, [], ls, as)
      | .err .interrupted => scan d ls as
      | .err e => (.err e, [], ls, as)

/-- Reading exactly `n` bytes, byte by byte. -/
def takeN : Nat → List Nat → List Atom → IoRes × Bytes × List Nat × List Atom
  | 0, ls, as => (.ok, [], ls, as)
  | n + 1, ls, as =>
    if 0 ∈ ls then (.err .limitReached, [], ls, as)
    else match as with
      | [] => (.err .wouldBlock, [], ls, [])
      | .byte b :: as =>
        let (o, bs, ls, as) := takeN n (dec ls) as
        (o, b :: bs, ls, as)
      | .eof :: as => (.err .unexpectedEof, [], ls, as)
      | .err e :: as => (.err e, [], ls, as)

/-- `read_to_end`, byte by byte. -/
def drain : List Nat → List Atom → IoRes × Bytes × List Nat × List Atom
  | ls, [] => if 0 ∈ ls then (.err .limitReached, [], ls, []) else (.err .wouldBlock, [], ls, [])
  | ls, a :: as =>
    if 0 ∈ ls then (.err .limitReached, [], ls, a :: as)
    else match a with
      | .byte b =>
        let (o, bs, ls, as) := drain (dec ls) as
        (o, b :: bs, ls, as)
      | .eof => (.ok, [], ls, as)
      | .err .interrupted => drain ls as
      | .err e => (.err e, [], ls, as)

end AR

instance : Reader AR where
  push l r := { r with lims := l :: r.lims }
  pop r := { r with lims := r.lims.tail }
  readUntilLf r :=
    let (o, b, ls, as) := AR.scan LF r.lims r.atoms
    (o, b, ⟨ls, as⟩)
  readInto size d r :=
    let (o, b, ls, as) := AR.takeN (size - d.length) r.lims r.atoms
    (o, d ++ b, ⟨ls, as⟩)
  readToEnd d r :=
    let (o, b, ls, as) := AR.drain r.lims r.atoms
    (o, d ++ b, ⟨ls, as⟩)
  fuel r := 3 * r.atoms.length + 8

/-- The byte by byte view of a reader. -/
def Rd.abs (r : Rd) : AR := ⟨r.lims, r.src.atoms⟩

end Verif
