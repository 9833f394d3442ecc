import Verif.Std.Str

/-!
`src/common/header.rs`: header names and the header multimap.
-/

namespace Verif

/-- `Header`, header.rs 8-12. The derived equality distinguishes the two variants even when they
hold the same text. -/
inductive Header
  | standard (s : Bytes)
  | custom (s : Bytes)
  deriving DecidableEq, Repr

/-- `Header::as_str` and `Display for Header`, header.rs 14-30. -/
def Header.asStr : Header → Bytes
  | .standard s => s
  | .custom s => s

/-- The texts of the standard headers, header.rs 68-148. -/
def standardNames : List Bytes := [
  b!"accept",
  b!"accept-charset",
  b!"accept-encoding",
  b!"accept-language",
  b!"accept-ranges",
  b!"access-control-allow-credentials",
  b!"access-control-allow-headers",
  b!"access-control-allow-methods",
  b!"access-control-allow-origin",
  b!"access-control-expose-headers",
  b!"access-control-max-age",
  b!"access-control-request-headers",
  b!"access-control-request-method",
  b!"age",
  b!"allow",
  b!"alt-svc",
  b!"authorization",
  b!"cache-control",
  b!"connection",
  b!"content-disposition",
  b!"content-encoding",
  b!"content-language",
  b!"content-length",
  b!"content-location",
  b!"content-range",
  b!"content-security-policy",
  b!"content-security-policy-report-only",
  b!"content-type",
  b!"cookie",
  b!"dnt",
  b!"date",
  b!"etag",
  b!"expect",
  b!"expires",
  b!"forwarded",
  b!"from",
  b!"host",
  b!"if-match",
  b!"if-modified-since",
  b!"if-none-match",
  b!"if-range",
  b!"if-unmodified-since",
  b!"last-modified",
  b!"link",
  b!"location",
  b!"max-forwards",
  b!"origin",
  b!"pragma",
  b!"proxy-authenticate",
  b!"proxy-authorization",
  b!"public-key-pins",
  b!"public-key-pins-report-only",
  b!"range",
  b!"referer",
  b!"referrer-policy",
  b!"refresh",
  b!"retry-after",
  b!"sec-websocket-accept",
  b!"sec-websocket-extensions",
  b!"sec-websocket-key",
  b!"sec-websocket-protocol",
  b!"sec-websocket-version",
  b!"server",
  b!"set-cookie",
  b!"strict-transport-security",
  b!"te",
  b!"trailer",
  b!"transfer-encoding",
  b!"user-agent",
  b!"upgrade",
  b!"upgrade-insecure-requests",
  b!"vary",
  b!"via",
  b!"warning",
  b!"www-authenticate",
  b!"x-content-type-options",
  b!"x-dns-prefetch-control",
  b!"x-frame-options",
  b!"x-xss-protection"]

/-- `From<String> for Header`, header.rs 45-56 (the generated match tries the standard names in
order); `From<&str>`, header.rs 60-65, is the same function. -/
def Header.ofStr (value : Bytes) : Header :=
  let v := lower value
  if v ∈ standardNames then .standard v else .custom v

namespace Header
/-- `header::CONNECTION`, header.rs 87. -/
def connection : Header := .standard b!"connection"
/-- `header::CONTENT_LENGTH`, header.rs 91. -/
def contentLength : Header := .standard b!"content-length"
/-- `header::CONTENT_TYPE`, header.rs 96. -/
def contentType : Header := .standard b!"content-type"
/-- `header::TRANSFER_ENCODING`, header.rs 136. -/
def transferEncoding : Header := .standard b!"transfer-encoding"
end Header

/-- `HeaderMap = HashMap<Header, Vec<String>>`, header.rs 192, as an association list whose keys are
pairwise different (`HeaderMap.WF`, an invariant of every operation below). The order of the list is
the iteration order of the `HashMap`, which Rust leaves unspecified: statements about iterating over
a map quantify over all permutations of the list. -/
abbrev HeaderMap := List (Header × List Bytes)

namespace HeaderMap

/-- `HashMap::get`. -/
def get : HeaderMap → Header → Option (List Bytes)
  | [], _ => none
  | (k', vs) :: m, k => if k' = k then some vs else get m k

/-- `add_header`, header.rs 202-204: `self.entry(k).or_insert(Vec::new()).push(v)`. -/
def addHeader : HeaderMap → Header → Bytes → HeaderMap
  | [], k, v => [(k, [v])]
  | (k', vs) :: m, k, v =>
    if k' = k then (k', vs ++ [v]) :: m else (k', vs) :: addHeader m k v

/-- `from_pairs`, header.rs 195-200, and the `header_map!` macro, header.rs 170-177. -/
def fromPairs (ps : List (Header × Bytes)) : HeaderMap :=
  ps.foldl (fun m p => m.addHeader p.1 p.2) []

/-- `contains_header_value`, header.rs 206-211. -/
def containsHeaderValue (m : HeaderMap) (k : Header) (v : Bytes) : Bool :=
  match m.get k with
  | some vs => vs.contains v
  | none => false

/-- `get_first_header_value`, header.rs 213-215. -/
def getFirst (m : HeaderMap) (k : Header) : Option Bytes :=
  match m.get k with
  | some vs => vs[0]?
  | none => none

/-- The keys are pairwise different, as in any `HashMap`. -/
def WF (m : HeaderMap) : Prop := (m.map Prod.fst).Nodup

/-- Two maps are equal as `HashMap`s (`PartialEq`): same entries, whatever the order. -/
def Equiv (m₁ m₂ : HeaderMap) : Prop := ∀ k, m₁.get k = m₂.get k

end HeaderMap

end Verif
