import Verif.Model.Parse

/-!
Independent notions about the input of a connection.
-/

namespace Verif

/-- `Regroup s t`: the scripts deliver the same bytes, ends of stream and errors in the same order,
but may group bytes into reads differently. Generated by cutting one read of at least two bytes into
two non-empty reads. -/
inductive Regroup : List Ev → List Ev → Prop
  | refl (s : List Ev) : Regroup s s
  | symm {s t : List Ev} : Regroup s t → Regroup t s
  | trans {s t u : List Ev} : Regroup s t → Regroup t u → Regroup s u
  | cut (s t : List Ev) (a b : Bytes) (ha : a ≠ []) (hb : b ≠ []) :
      Regroup (s ++ .data (a ++ b) :: t) (s ++ .data a :: .data b :: t)

/-- What a reader has still to deliver: its buffered bytes, then its script. -/
def Rd.pending (r : Rd) : List Ev :=
  if r.src.buf = [] then r.src.evs else .data r.src.buf :: r.src.evs

/-- Two readers, with buffers of any size and any fill, that have the same input before them. -/
def SameInput (r₁ r₂ : Rd) : Prop := r₁.lims = r₂.lims ∧ Regroup r₁.pending r₂.pending

/-- The reader of a new connection on which `evs` will be received. -/
def Rd.fresh (cap : Nat) (hcap : 0 < cap) (offer : Nat → Nat) (evs : List Ev) : Rd :=
  ⟨[], ⟨cap, hcap, offer, [], evs⟩⟩

/-- The bytes among some atoms. -/
def bytesOf : List Atom → Bytes
  | [] => []
  | .byte b :: as => b :: bytesOf as
  | _ :: as => bytesOf as

/-- Only bytes and retried interruptions. -/
def Quiet (as : List Atom) : Prop := ∀ a ∈ as, (∃ b, a = .byte b) ∨ a = .err .interrupted

/-- Nothing is limited and `as` is what will be received: bytes, ends of stream and errors, and after
these silence (every read would block). -/
def Rd.Ahead (r : Rd) (as : List Atom) : Prop := r.lims = [] ∧ r.src.atoms = as

/-- Successive parse calls on one stream, each but the last stopped by `WouldBlock` and the next
resuming with the parser it kept. -/
inductive Calls {σ τ : Type} (step : σ → Rd → Out σ τ × Rd) : σ → Rd → Out σ τ → Rd → Prop
  | last {p : σ} {r r' : Rd} {o : Out σ τ} : step p r = (o, r') → Calls step p r o r'
  | pause {p p' : σ} {r r' r'' : Rd} {o : Out σ τ} :
      step p r = (.io p' .wouldBlock, r') → Calls step p' r' o r'' → Calls step p r o r''

/-- What one call made of the bytes it took: all of them count, or those after the last line end are
lost because they are not UTF-8 (a character cut in two, or no text). -/
structure Part where
  taken : List Atom
  kept : Bytes
  lost : Bytes
  split : bytesOf taken = kept ++ lost
  reason : lost = [] ∨ utf8Valid lost = false
  noLf : LF ∉ lost

/-- Successive parse calls, each resuming with the parser kept by the one before, after whatever I/O
error. -/
inductive Resumed {σ τ : Type} (step : σ → Rd → Out σ τ × Rd) : σ → Rd → σ → Rd → Prop
  | refl (p : σ) (r : Rd) : Resumed step p r p r
  | call {p p' p'' : σ} {r r' r'' : Rd} {e : IoError} :
      step p r = (.io p' e, r') → Resumed step p' r' p'' r'' → Resumed step p r p'' r''

/-- The unfinished line kept in a parser. -/
def heldLine {T : Type} : MsgState T → Bytes
  | .firstLine line => line
  | .headers _ p => p.inner
  | .body _ _ (.chunked ⟨_, .size line⟩) => line
  | .body _ _ (.chunked ⟨_, .tailingCrlf line _⟩) => line
  | _ => []

/-- The bytes after the last line feed. -/
def afterLf (b : Bytes) : Bytes := (b.reverse.takeWhile (· != LF)).reverse

/-- A call that received `as` and kept the parser `st` was not stopped inside a character: if it
stopped inside a line, the part of the line received is text. (A line of a chunked body may begin
anywhere after a line feed, so there every such part must be text.) -/
def CleanStop {T : Type} (st : MsgState T) (as : List Atom) : Prop :=
  match st with
  | .firstLine _ => utf8Valid (afterLf (bytesOf as)) = true
  | .headers _ _ => utf8Valid (afterLf (bytesOf as)) = true
  | .body _ _ (.chunked ⟨_, .size _⟩) => ∀ bs, bs <:+ bytesOf as → LF ∉ bs → utf8Valid bs = true
  | .body _ _ (.chunked ⟨_, .tailingCrlf _ _⟩) => ∀ bs, bs <:+ bytesOf as → LF ∉ bs → utf8Valid bs = true
  | _ => True

/-- Successive parse calls as in `Calls`, none of them stopped inside a character. `w` is what the calls
before the last received, the pauses left out, and `r₁` the stream before the last call. -/
inductive CleanCalls {T τ : Type} (step : MsgState T → Rd → Out (MsgState T) τ × Rd) :
    MsgState T → Rd → List Atom → Rd → Out (MsgState T) τ → Rd → Prop
  | last {p : MsgState T} {r r' : Rd} {o : Out (MsgState T) τ} : step p r = (o, r') → CleanCalls step p r [] r o r'
  | pause {p p' : MsgState T} {r r₁ r' r'' : Rd} {o : Out (MsgState T) τ} {pre w rest : List Atom} :
      r.Ahead (pre ++ .err .wouldBlock :: rest) → .err .wouldBlock ∉ pre →
      step p r = (.io p' .wouldBlock, r') → CleanStop p' pre →
      CleanCalls step p' r' w r₁ o r'' → CleanCalls step p r (pre ++ w) r₁ o r''

/-- Pausing after `as` cannot cut a character: all that could be a part of a line is text. -/
def SafeCut (as : List Atom) : Prop := ∀ bs, bs <:+ bytesOf as → LF ∉ bs → utf8Valid bs = true

/-- Some input with pauses, then the rest. -/
def spaced : List (List Atom) → List Atom → List Atom
  | [], X => X
  | a :: as, X => a ++ .err .wouldBlock :: spaced as X

end Verif
