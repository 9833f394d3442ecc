import Verif.Std.Bytes

/-!
Numerals, declaratively.
-/

namespace Verif

/-- The byte `c` is a digit of value `d` in the given radix; letters of either case. -/
def IsDigit (radix : Nat) (c : UInt8) (d : Nat) : Prop :=
  d < radix ∧
    ((d < 10 ∧ c.toNat = 48 + d) ∨ (10 ≤ d ∧ d < 36 ∧ (c.toNat = 87 + d ∨ c.toNat = 55 + d)))

/-- `s` is a non-empty sequence of digits with value `n`. -/
inductive Numeral (radix : Nat) : Bytes → Nat → Prop
  | digit {c : UInt8} {d : Nat} : IsDigit radix c d → Numeral radix [c] d
  | snoc {s : Bytes} {n : Nat} {c : UInt8} {d : Nat} :
      Numeral radix s n → IsDigit radix c d → Numeral radix (s ++ [c]) (n * radix + d)

/-- A numeral, possibly preceded by one `+`. -/
def UnsignedText (radix : Nat) (s : Bytes) (n : Nat) : Prop :=
  Numeral radix s n ∨ ∃ t, s = 43 :: t ∧ Numeral radix t n

end Verif
