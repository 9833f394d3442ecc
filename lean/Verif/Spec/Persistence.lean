import Verif.Spec.Rfc

/-!
When a connection stays open after a request, as RFC 9112 9.3 says. Nothing here refers to the program.
-/

namespace Verif.Rfc

/-- An option of the connection, RFC 9110 7.6.1: an element of the list in the fields named Connection; case does not matter. -/
def Asks (o : Bytes) (fs : List (Bytes × Bytes)) : Prop := ∃ x ∈ values fs b!"connection", fold x = o

/-- The connection persists after a request with this version and these fields, RFC 9112 9.3: not if the option `close` is there; otherwise in HTTP/1.1 always, and
in HTTP/1.0 if the option `keep-alive` is there. -/
def Persists (version : Bytes) (fs : List (Bytes × Bytes)) : Prop := ¬ Asks b!"close" fs ∧ (version = b!"HTTP/1.1" ∨ Asks b!"keep-alive" fs)

/-- The request `w`, which says `m`, has this version in its first line. -/
def VersionIn (w : Bytes) (m : Message) (version : Bytes) : Prop :=
  (version = b!"HTTP/1.0" ∨ version = b!"HTTP/1.1") ∧ ∃ rest, w = m.method ++ [SP] ++ m.target ++ [SP] ++ version ++ CRLF ++ rest

/-- The fields named Connection are in the form that the program knows: one option each, in lower case. -/
def PlainOptions (fs : List (Bytes × Bytes)) : Prop := ∀ f ∈ fs, fold f.1 = b!"connection" → fold f.2 = f.2 ∧ (44 : UInt8) ∉ f.2

end Verif.Rfc
