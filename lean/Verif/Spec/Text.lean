import Verif.Std.Bytes

/-!
Declarative notions about text.
-/

namespace Verif

/-- The same ASCII letter up to case, or the same byte. -/
def SameLetter (a b : UInt8) : Prop :=
  a = b ∨ (65 ≤ a.toNat ∧ a.toNat ≤ 90 ∧ b.toNat = a.toNat + 32) ∨
    (65 ≤ b.toNat ∧ b.toNat ≤ 90 ∧ a.toNat = b.toNat + 32)

/-- The same text up to the case of ASCII letters. -/
inductive SameText : Bytes → Bytes → Prop
  | nil : SameText [] []
  | cons {a b : UInt8} {s t : Bytes} : SameLetter a b → SameText s t → SameText (a :: s) (b :: t)

/-- No upper case ASCII letter. -/
def NoUpper (s : Bytes) : Prop := ∀ c ∈ s, ¬ (65 ≤ c.toNat ∧ c.toNat ≤ 90)

/-- `fields` are the parts of `line` between its spaces. -/
inductive Fields : Bytes → List Bytes → Prop
  | last {w : Bytes} : (32 : UInt8) ∉ w → Fields w [w]
  | more {w rest : Bytes} {ws : List Bytes} : (32 : UInt8) ∉ w → Fields rest ws →
      Fields (w ++ 32 :: rest) (w :: ws)

/-- `sub` occurs in `s`. -/
def Occurs (sub s : Bytes) : Prop := ∃ a b, s = a ++ sub ++ b

end Verif
