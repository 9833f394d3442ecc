import Verif.Model.Header
import Verif.Model.Status

/-!
`src/common/request.rs` and `src/common/response.rs`.
-/

namespace Verif

/-- `Request`, request.rs 4-15. -/
structure Request where
  uri : Bytes
  method : Method
  headers : HeaderMap
  body : Bytes
  deriving DecidableEq, Repr

/-- `Response`, response.rs 7-15. -/
structure Response where
  status : Status
  headers : HeaderMap
  body : Bytes
  deriving DecidableEq, Repr

/-- `From<Status> for Response`, response.rs 17-26. -/
def Response.ofStatus (status : Status) : Response :=
  { status, headers := HeaderMap.fromPairs [(Header.contentLength, b!"0")], body := [] }

/-- `From<Vec<u8>> for Response`, response.rs 42-51; `From<String>` and `From<&str>`, 28-40, are the
same on the bytes of the string. -/
def Response.ofBody (body : Bytes) : Response :=
  { status := .ok, headers := HeaderMap.fromPairs [(Header.contentLength, natDec body.length)], body }

end Verif
