import Verif.Std.Str

/-!
The status codes of the IANA registry (HTTP Status Code Registry, as of RFC 7231, 7538, 7540, 7725 and 8470), without
the informational ones.
-/

namespace Verif.Spec

/-- Final status codes and their reason phrases. -/
def registry : List (Nat × Bytes) := [
  (200, b!"OK"),
  (201, b!"Created"),
  (202, b!"Accepted"),
  (203, b!"Non-Authoritative Information"),
  (204, b!"No Content"),
  (205, b!"Reset Content"),
  (206, b!"Partial Content"),
  (207, b!"Multi-Status"),
  (208, b!"Already Reported"),
  (226, b!"IM Used"),
  (300, b!"Multiple Choices"),
  (301, b!"Moved Permanently"),
  (302, b!"Found"),
  (303, b!"See Other"),
  (304, b!"Not Modified"),
  (305, b!"Use Proxy"),
  (307, b!"Temporary Redirect"),
  (308, b!"Permanent Redirect"),
  (400, b!"Bad Request"),
  (401, b!"Unauthorized"),
  (402, b!"Payment Required"),
  (403, b!"Forbidden"),
  (404, b!"Not Found"),
  (405, b!"Method Not Allowed"),
  (406, b!"Not Acceptable"),
  (407, b!"Proxy Authentication Required"),
  (408, b!"Request Timeout"),
  (409, b!"Conflict"),
  (410, b!"Gone"),
  (411, b!"Length Required"),
  (412, b!"Precondition Failed"),
  (413, b!"Payload Too Large"),
  (414, b!"URI Too Long"),
  (415, b!"Unsupported Media Type"),
  (416, b!"Range Not Satisfiable"),
  (417, b!"Expectation Failed"),
  (421, b!"Misdirected Request"),
  (422, b!"Unprocessable Entity"),
  (423, b!"Locked"),
  (424, b!"Failed Dependency"),
  (425, b!"Too Early"),
  (426, b!"Upgrade Required"),
  (428, b!"Precondition Required"),
  (429, b!"Too Many Requests"),
  (431, b!"Request Header Fields Too Large"),
  (451, b!"Unavailable For Legal Reasons"),
  (500, b!"Internal Server Error"),
  (501, b!"Not Implemented"),
  (502, b!"Bad Gateway"),
  (503, b!"Service Unavailable"),
  (504, b!"Gateway Timeout"),
  (505, b!"HTTP Version Not Supported"),
  (506, b!"Variant Also Negotiates"),
  (507, b!"Insufficient Storage"),
  (508, b!"Loop Detected"),
  (510, b!"Not Extended"),
  (511, b!"Network Authentication Required")]

/-- A letter in upper case. -/
def capital (b : UInt8) : UInt8 := if b!"abcdefghijklmnopqrstuvwxyz".contains b then b - 32 else b

/-- The codes that the registry does not have, and their phrases: RFC 2324 and the error pages of some servers; and
the phrase of 416 in RFC 2616. -/
def unregistered : List (Nat × Bytes) := [
  (416, b!"Requested Range Not Satisfiable"),
  (418, b!"I'm a teapot"),
  (444, b!"Connection Closed Without Response"),
  (499, b!"Client Closed Request"),
  (599, b!"Network Connect Timeout Error")]

end Verif.Spec
