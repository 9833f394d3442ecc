/-!
Byte strings.

Rust `Vec<u8>`, `&[u8]`, `String` and `&str` are all modelled as lists of bytes; that a `String`
holds valid UTF-8 is an explicit predicate (`Verif.Std.Utf8`), not part of the type.
-/

namespace Verif

/-- Bytes on the wire and the bytes of Rust strings. -/
abbrev Bytes := List UInt8

/-- `b!"..."` is the list of the UTF-8 bytes of a string literal, written out as numerals. -/
syntax:max "b!" noWs str : term

open Lean in
macro_rules
  | `(b!$s:str) => do
    let bs := s.getString.toUTF8.toList
    let ts ← bs.toArray.mapM fun b => `(($(quote b.toNat) : UInt8))
    `(([$[$ts],*] : Bytes))

/-- Carriage return. -/
abbrev CR : UInt8 := 13
/-- Line feed. -/
abbrev LF : UInt8 := 10
/-- Space. -/
abbrev SP : UInt8 := 32

/-- The two byte line terminator. -/
abbrev CRLF : Bytes := [CR, LF]

example : b!"GET" = [71, 69, 84] := rfl
example : b!"\r\n" = CRLF := rfl

end Verif
