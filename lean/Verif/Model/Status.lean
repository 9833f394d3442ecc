import Verif.Std.Str

/-!
`src/common/status.rs`, `src/common/method.rs`, `src/common/version.rs`.
-/

namespace Verif

/-- `Status`, status.rs 2-8. -/
structure Status where
  code : Nat
  reason : Bytes
  deriving DecidableEq, Repr

/-- The status constants, status.rs 36-97, in source order. -/
def statusTable : List Status := [
  ⟨200, b!"OK"⟩,
  ⟨201, b!"CREATED"⟩,
  ⟨202, b!"ACCEPTED"⟩,
  ⟨203, b!"NON-AUTHORITATIVE INFORMATION"⟩,
  ⟨204, b!"NO CONTENT"⟩,
  ⟨205, b!"RESET CONTENT"⟩,
  ⟨206, b!"PARTIAL CONTENT"⟩,
  ⟨207, b!"MULTI-STATUS"⟩,
  ⟨208, b!"ALREADY REPORTED"⟩,
  ⟨226, b!"IM USED"⟩,
  ⟨300, b!"MULTIPLE CHOICES"⟩,
  ⟨301, b!"MOVED PERMANENTLY"⟩,
  ⟨302, b!"FOUND"⟩,
  ⟨303, b!"SEE OTHER"⟩,
  ⟨304, b!"NOT MODIFIED"⟩,
  ⟨305, b!"USE PROXY"⟩,
  ⟨307, b!"TEMPORARY REDIRECT"⟩,
  ⟨308, b!"PERMANENT REDIRECT"⟩,
  ⟨400, b!"BAD REQUEST"⟩,
  ⟨401, b!"UNAUTHORIZED"⟩,
  ⟨402, b!"PAYMENT REQUIRED"⟩,
  ⟨403, b!"FORBIDDEN"⟩,
  ⟨404, b!"NOT FOUND"⟩,
  ⟨405, b!"METHOD NOT ALLOWED"⟩,
  ⟨406, b!"NOT ACCEPTABLE"⟩,
  ⟨407, b!"PROXY AUTHENTICATION REQUIRED"⟩,
  ⟨408, b!"REQUEST TIMEOUT"⟩,
  ⟨409, b!"CONFLICT"⟩,
  ⟨410, b!"GONE"⟩,
  ⟨411, b!"LENGTH REQUIRED"⟩,
  ⟨412, b!"PRECONDITION FAILED"⟩,
  ⟨413, b!"PAYLOAD TOO LARGE"⟩,
  ⟨414, b!"URI TOO LONG"⟩,
  ⟨415, b!"UNSUPPORTED MEDIA TYPE"⟩,
  ⟨416, b!"REQUESTED RANGE NOT SATISFIABLE"⟩,
  ⟨417, b!"EXPECTATION FAILED"⟩,
  ⟨418, b!"I'M A TEAPOT"⟩,
  ⟨421, b!"MISDIRECTED REQUEST"⟩,
  ⟨422, b!"UNPROCESSABLE ENTITY"⟩,
  ⟨423, b!"LOCKED"⟩,
  ⟨424, b!"FAILED DEPENDENCY"⟩,
  ⟨426, b!"UPGRADE REQUIRED"⟩,
  ⟨428, b!"PRECONDITION REQUIRED"⟩,
  ⟨429, b!"TOO MANY REQUESTS"⟩,
  ⟨431, b!"REQUEST HEADER FIELDS TOO LARGE"⟩,
  ⟨444, b!"CONNECTION CLOSED WITHOUT RESPONSE"⟩,
  ⟨451, b!"UNAVAILABLE FOR LEGAL REASONS"⟩,
  ⟨499, b!"CLIENT CLOSED REQUEST"⟩,
  ⟨500, b!"INTERNAL SERVER ERROR"⟩,
  ⟨501, b!"NOT IMPLEMENTED"⟩,
  ⟨502, b!"BAD GATEWAY"⟩,
  ⟨503, b!"SERVICE UNAVAILABLE"⟩,
  ⟨504, b!"GATEWAY TIMEOUT"⟩,
  ⟨505, b!"HTTP VERSION NOT SUPPORTED"⟩,
  ⟨506, b!"VARIANT ALSO NEGOTIATES"⟩,
  ⟨507, b!"INSUFFICIENT STORAGE"⟩,
  ⟨508, b!"LOOP DETECTED"⟩,
  ⟨510, b!"NOT EXTENDED"⟩,
  ⟨511, b!"NETWORK AUTHENTICATION REQUIRED"⟩,
  ⟨599, b!"NETWORK CONNECT TIMEOUT ERROR"⟩]

/-- `Status::from_code`, status.rs 24-31: the first row with that code. -/
def Status.fromCode (code : Nat) : Option Status :=
  statusTable.find? fun s => s.code = code

/-- `status::OK`, status.rs 37. -/
def Status.ok : Status := ⟨200, b!"OK"⟩

/-- `status::NOT_FOUND`, status.rs 59. -/
def Status.notFound : Status := ⟨404, b!"NOT FOUND"⟩

/-- `Method`, method.rs 5-14. -/
inductive Method
  | get | post | delete | put
  deriving DecidableEq, Repr

/-- `Display for Method`, method.rs 16-20: the derived `Debug` text, i.e. the variant name. -/
def Method.text : Method → Bytes
  | .get => b!"GET"
  | .post => b!"POST"
  | .delete => b!"DELETE"
  | .put => b!"PUT"

/-- `Method::try_from_str`, method.rs 25-33 (and `try_from_bytes`, 36-44). -/
def Method.tryFromStr (s : Bytes) : Option Method :=
  if s = b!"GET" then some .get
  else if s = b!"POST" then some .post
  else if s = b!"DELETE" then some .delete
  else if s = b!"PUT" then some .put
  else none

/-- `HTTP_VERSION_1_0`, version.rs 2. -/
def http10 : Bytes := b!"HTTP/1.0"
/-- `HTTP_VERSION_1_1`, version.rs 4. -/
def http11 : Bytes := b!"HTTP/1.1"

/-- `version::is_supported`, version.rs 7-9. -/
def versionSupported (raw : Bytes) : Bool := raw = http11 || raw = http10

end Verif
