import Verif.Spec.BufStream
import Verif.Spec.Grammar
import Verif.Spec.Input

/-! Where the input of a server may pause without loss. -/

namespace Verif

/-- A pause after the bytes `p` of a connection loses nothing: it cuts no character; or `p` is the beginning of a request that goes on with the beginning of a character; or it is such a place after some complete requests. -/
inductive Harmless : Bytes → Prop
  | line {p : Bytes} : SafeCut (p.map .byte) → Harmless p
  | next {p x : Bytes} {c : UInt8} {q : Request} : FittingRequest (p ++ c :: x) q → isCont c = false → Harmless p
  | after {w p : Bytes} {q : Request} : FittingRequest w q → Harmless p → Harmless (w ++ p)

/-- `w` is the request `q`, within the limits of one parse call, and its request line and header fields are ASCII. -/
def PlainRequest (w : Bytes) (q : Request) : Prop :=
  ∃ line fs f bw, RequestLine q.method q.uri line ∧ MessageText line fs false f bw q.body w ∧ q.headers = HeaderMap.fromPairs (fieldMap fs) ∧ Fits fs f bw ∧ ∀ c ∈ line ++ fieldLines fs, c < 128

/-- The text may be cut anywhere. -/
def AnyCut (w : Bytes) : Prop := ∀ p, p <+: w → Harmless p

/-- Pauses after each of these pieces, one after the other, lose nothing. -/
def PausesWell (ps : List Bytes) : Prop := ∀ l a m, ps = l ++ a :: m → Harmless (l.flatten ++ a)

/-- These reads, one after the other, end where nothing is lost. -/
def CutWell (log : List Ev) : Prop := ∀ l, l <+: log → Harmless (l.flatMap Ev.bytes)

/-- What has arrived on a connection are pieces, none of them empty, that end where nothing is lost. -/
structure Pieces (arrived : List Ev) : Prop where
  data : ∀ ev ∈ arrived, ∃ b, ev = .data b ∧ b ≠ []
  cuts : CutWell arrived

end Verif
