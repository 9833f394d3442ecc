import Verif.Std.Bytes

/-!
UTF-8 validity and `String::pop`, as provided by the Rust standard library.

`utf8Valid` follows `core::str::from_utf8` (table 3-7 of the Unicode standard): overlong forms,
surrogates and code points above U+10FFFF are rejected.
-/

namespace Verif

/-- State of the UTF-8 recogniser: between characters, or what must come next. -/
inductive U8
  | start            -- between two characters
  | one              -- one more continuation byte
  | two              -- two more continuation bytes
  | three            -- three more continuation bytes
  | e0 | ed          -- second byte of a three byte form with restricted range
  | f0 | f4          -- second byte of a four byte form with restricted range
  | bad
  deriving DecidableEq, Repr

/-- Continuation byte `10xxxxxx`. -/
def isCont (b : UInt8) : Bool := 0x80 ≤ b && b ≤ 0xBF

/-- One step of the recogniser. -/
def U8.step : U8 → UInt8 → U8
  | .start, b =>
    if b < 0x80 then .start
    else if 0xC2 ≤ b && b ≤ 0xDF then .one
    else if b = 0xE0 then .e0
    else if b = 0xED then .ed
    else if 0xE1 ≤ b && b ≤ 0xEF then .two
    else if b = 0xF0 then .f0
    else if b = 0xF4 then .f4
    else if 0xF1 ≤ b && b ≤ 0xF3 then .three
    else .bad
  | .one, b => if isCont b then .start else .bad
  | .two, b => if isCont b then .one else .bad
  | .three, b => if isCont b then .two else .bad
  | .e0, b => if 0xA0 ≤ b && b ≤ 0xBF then .one else .bad
  | .ed, b => if 0x80 ≤ b && b ≤ 0x9F then .one else .bad
  | .f0, b => if 0x90 ≤ b && b ≤ 0xBF then .two else .bad
  | .f4, b => if 0x80 ≤ b && b ≤ 0x8F then .two else .bad
  | .bad, _ => .bad

/-- `core::str::from_utf8(bs).is_ok()`. -/
def utf8Valid (bs : Bytes) : Bool := bs.foldl U8.step .start == .start

/-- `String::pop`: splits off the last character (its bytes), `none` on the empty string. On valid
UTF-8 the last character starts at the last byte that is not a continuation byte. -/
def popChar (s : Bytes) : Option (Bytes × Bytes) :=
  if s = [] then none
  else
    let k := s.length - ((s.reverse.takeWhile isCont).length + 1)
    some (s.take k, s.drop k)

end Verif
