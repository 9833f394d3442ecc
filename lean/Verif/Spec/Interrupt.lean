import Verif.Model.Server

/-!
Reads that a signal interrupts.
-/

namespace Verif

/-- What is received, without the interruptions. -/
def calmAtoms (as : List Atom) : List Atom := as.filter (· != .err .interrupted)

/-- The same input without the interruptions: same buffer, same size of buffer, same reads but for those that a signal interrupts. -/
def Rd.uninterrupted (r : Rd) : Rd :=
  { r with src := { r.src with evs := r.src.evs.filter (· != .err .interrupted) } }

/-- The same connection without the interruptions. -/
def Conn.uninterrupted {W : Type} (c : Conn Rd W) : Conn Rd W := { c with reader := c.reader.uninterrupted }

/-- The parser is in a part of the body whose length it knows: one announced by Content-Length, or a chunk. -/
def InSizedPart {T : Type} : MsgState T → Prop
  | .body _ _ (.withSize _) => True
  | .body _ _ (.chunked ⟨_, .data _⟩) => True
  | _ => False

/-- In the loop that answers requests one comes to be read whose reading is interrupted within a part of known length. -/
inductive CutShort {σ : Type} (prof : Profile) (rt : Router σ) : Conn Rd Nbw → σ → Prop
  | here {c : Conn Rd Nbw} {s : σ} {p : RequestParser} : (RequestParser.parse prof (c.parser.getD .new) c.reader).1 = .io p .interrupted → InSizedPart p →
      CutShort prof rt c s
  | later {c c' : Conn Rd Nbw} {s s' : σ} {q : Request} {w : Nbw} : c.readRequest prof = (.ready q, c') →
      writeResponseFromRouter rt c'.writer q s = (some .ok, w, s') → CutShort prof rt { c' with writer := w } s' → CutShort prof rt c s

end Verif
