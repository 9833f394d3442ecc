import Verif.Std.Bytes

/-!
The `str` methods and integer conversions of the Rust standard library that the code uses.
All needles used by the code are ASCII, so searching bytes and searching characters agree.
-/

namespace Verif

/-- `s.starts_with(pat)`. -/
def startsWith (s pat : Bytes) : Bool := pat.isPrefixOf s

/-- `s.ends_with(pat)`. -/
def endsWith (s pat : Bytes) : Bool := pat.isSuffixOf s

/-- `s.splitn(2, pat)` for a non-empty `pat`: the text before and after the first occurrence of
`pat`, or `none` if `pat` does not occur (then `splitn` yields a single piece). -/
def splitOnce (pat : Bytes) : Bytes → Option (Bytes × Bytes)
  | [] => if pat.isPrefixOf ([] : Bytes) then some ([], []) else none
  | c :: t =>
    if pat.isPrefixOf (c :: t) then some ([], (c :: t).drop pat.length)
    else (splitOnce pat t).map fun (a, b) => (c :: a, b)

/-- `s.contains(pat)`. -/
def containsStr (s pat : Bytes) : Bool := (splitOnce pat s).isSome

/-- `s.split(sep)` for a one-byte separator; never the empty list. -/
def splitByte (sep : UInt8) : Bytes → List Bytes
  | [] => [[]]
  | c :: t =>
    match splitByte sep t with
    | [] => [[c]]            -- not reachable
    | w :: ws => if c = sep then [] :: w :: ws else (c :: w) :: ws

/-- `u8::make_ascii_lowercase` on one byte. -/
def lowerByte (b : UInt8) : UInt8 := if 65 ≤ b && b ≤ 90 then b + 32 else b

/-- `String::make_ascii_lowercase`. -/
def lower (s : Bytes) : Bytes := s.map lowerByte

/-- `char::to_digit(radix)` on an ASCII byte. -/
def digitVal (radix : Nat) (b : UInt8) : Option Nat :=
  let v :=
    if 48 ≤ b && b ≤ 57 then b.toNat - 48
    else if 97 ≤ b && b ≤ 122 then b.toNat - 87
    else if 65 ≤ b && b ≤ 90 then b.toNat - 55
    else radix
  if v < radix then some v else none

/-- The digits of a number, most significant first. -/
def digitsVal (radix : Nat) : Bytes → Nat → Option Nat
  | [], acc => some acc
  | b :: t, acc =>
    match digitVal radix b with
    | none => none
    | some d => digitsVal radix t (acc * radix + d)

/-- `from_str_radix` of an unsigned integer type with `bound` values: an optional leading `+`, then
at least one digit, nothing else, and the value must fit.

Rust checks for overflow at every digit; since the accumulated value never decreases this is the
same as checking the final value. -/
def parseUnsigned (radix bound : Nat) (s : Bytes) : Option Nat :=
  let digits := match s with
    | 43 :: t => t           -- '+'
    | t => t
  if digits = [] then none
  else match digitsVal radix digits 0 with
    | none => none
    | some v => if v < bound then some v else none

/-- Number of values of `usize` (64-bit target). -/
abbrev usizeBound : Nat := 2 ^ 64

/-- Number of values of `u16`. -/
abbrev u16Bound : Nat := 2 ^ 16

/-- Decimal digits of `n`, prepended to `acc`; `fuel` bounds the number of digits. -/
def decAux : Nat → Nat → Bytes → Bytes
  | 0, _, acc => acc
  | f + 1, n, acc =>
    let acc := UInt8.ofNat (48 + n % 10) :: acc
    if n / 10 = 0 then acc else decAux f (n / 10) acc

/-- `n.to_string()` for an unsigned integer. -/
def natDec (n : Nat) : Bytes := decAux (n + 1) n []

example : natDec 0 = b!"0" := by decide
example : natDec 1054 = b!"1054" := by decide
example : parseUnsigned 10 usizeBound b!"+5" = some 5 := by decide
example : parseUnsigned 10 usizeBound b!"-5" = none := by decide
example : parseUnsigned 10 usizeBound b!"18446744073709551615" = some 18446744073709551615 := by decide
example : parseUnsigned 10 usizeBound b!"18446744073709551616" = none := by decide
example : parseUnsigned 16 usizeBound b!"fF" = some 255 := by decide
example : splitOnce b!": " b!"a: b: c" = some (b!"a", b!"b: c") := by decide
example : splitByte SP b!"GET / HTTP/1.1" = [b!"GET", b!"/", b!"HTTP/1.1"] := by decide
example : splitByte SP b!"" = [b!""] := by decide
example : containsStr b!"gzip, chunked" b!"chunked" = true := by decide

end Verif
