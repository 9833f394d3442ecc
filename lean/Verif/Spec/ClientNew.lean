import Verif.Std.Bytes

/-!
Names of hosts. Nothing here refers to the program.
-/

namespace Verif

/-- A digit. -/
def DecDigit (b : UInt8) : Prop := 48 ≤ b ∧ b ≤ 57

/-- A part of the name of a host: up to 63 letters, digits, hyphens and underscores, with no hyphen at the ends. -/
structure HostLabel (l : Bytes) : Prop where
  size : l ≠ [] ∧ l.length ≤ 63
  bytes : ∀ b ∈ l, DecDigit b ∨ (97 ≤ b ∧ b ≤ 122) ∨ (65 ≤ b ∧ b ≤ 90) ∨ b = 95 ∨ b = 45
  first : l.head? ≠ some 45
  last : l.getLast? ≠ some 45

/-- The name of a host: labels with dots between, perhaps one at the end; up to 253 bytes. The last label is not a number. -/
def HostName (h : Bytes) : Prop :=
  h.length ≤ 253 ∧ ∃ (ls : List Bytes) (l dot : Bytes), (∀ x ∈ ls, HostLabel x) ∧ HostLabel l ∧ (∃ b ∈ l, ¬ DecDigit b) ∧ (dot = [] ∨ dot = [46]) ∧
    h = ls.flatMap (fun x => x ++ [46]) ++ l ++ dot

/-- A number, as it occurs in an IPv4 address. -/
def DecNumber (t : Bytes) : Prop := t ≠ [] ∧ ∀ b ∈ t, DecDigit b

end Verif
