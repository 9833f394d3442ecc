import Verif.Tests.Harness

/-!
The unit tests of `src/parse/headers.rs`, written by `tools/mktests.py`.
-/

namespace Verif.Tests.Headers

/-- headers.rs 74-79. -/
theorem one_full_header : headers [
    ([b!"header: value\r\n\r\n"], .value (.fromPairs [(.ofStr b!"header", b!"value")]))] := by decide +kernel

/-- headers.rs 81-87. -/
theorem multiple_full_headers_all_at_once : headers [
    ([b!"header: value\r\nheader2: value2\r\ncontent-length: 5\r\n\r\n"], .value (.fromPairs [(.ofStr b!"header", b!"value"), (.ofStr b!"header2", b!"value2"), (.standard b!"content-length", b!"5")]))] := by decide +kernel

/-- headers.rs 89-95. -/
theorem multiple_full_headers_all_at_once_fragmented : headers [
    ([b!"head", b!"er: va", b!"l", b!"ue\r", b!"\nhead", b!"e", b!"r2: val", b!"ue2", b!"\r", b!"\ncon", b!"ten", b!"t-le", b!"ngth: 5\r", b!"\n", b!"\r", b!"\n"], .value (.fromPairs [(.ofStr b!"header", b!"value"), (.ofStr b!"header2", b!"value2"), (.standard b!"content-length", b!"5")]))] := by decide +kernel

/-- headers.rs 97-109. -/
theorem partial_header : headers [
    ([b!"head"], .ioErr .wouldBlock),
    ([b!"er"], .ioErr .wouldBlock),
    ([b!":"], .ioErr .wouldBlock),
    ([b!" "], .ioErr .wouldBlock),
    ([b!"val"], .ioErr .wouldBlock),
    ([b!"ue\r"], .ioErr .wouldBlock),
    ([b!"\n\r"], .ioErr .wouldBlock),
    ([b!"\n"], .value (.fromPairs [(.ofStr b!"header", b!"value")]))] := by decide +kernel

/-- headers.rs 111-136. -/
theorem partial_headers : headers [
    ([b!"head"], .ioErr .wouldBlock),
    ([b!"er"], .ioErr .wouldBlock),
    ([b!":"], .ioErr .wouldBlock),
    ([b!" "], .ioErr .wouldBlock),
    ([b!"val"], .ioErr .wouldBlock),
    ([b!"ue\r"], .ioErr .wouldBlock),
    ([b!"\n"], .ioErr .wouldBlock),
    ([b!"head"], .ioErr .wouldBlock),
    ([b!"er2"], .ioErr .wouldBlock),
    ([b!":"], .ioErr .wouldBlock),
    ([b!" "], .ioErr .wouldBlock),
    ([b!"val"], .ioErr .wouldBlock),
    ([b!"ue2\r"], .ioErr .wouldBlock),
    ([b!"\n"], .ioErr .wouldBlock),
    ([b!"header3:", b!" value3"], .ioErr .wouldBlock),
    ([b!"\r\n"], .ioErr .wouldBlock),
    ([b!"\r\n"], .value (.fromPairs [(.ofStr b!"header", b!"value"), (.ofStr b!"header2", b!"value2"), (.ofStr b!"header3", b!"value3")]))] := by decide +kernel

/-- headers.rs 138-143. -/
theorem eof_in_middle_of_header : headers [
    ([b!"header: v", b!""], .ioErr .unexpectedEof)] := by decide +kernel

/-- headers.rs 145-150. -/
theorem eof_after_header : headers [
    ([b!"header: value\r\n", b!""], .ioErr .unexpectedEof)] := by decide +kernel

/-- headers.rs 152-168. -/
theorem no_data_for_a_while : headers [
    ([], .ioErr .wouldBlock),
    ([b!"header: "], .ioErr .wouldBlock),
    ([], .ioErr .wouldBlock),
    ([], .ioErr .wouldBlock),
    ([], .ioErr .wouldBlock),
    ([b!"value"], .ioErr .wouldBlock),
    ([], .ioErr .wouldBlock),
    ([], .ioErr .wouldBlock),
    ([b!"\r\n"], .ioErr .wouldBlock),
    ([], .ioErr .wouldBlock),
    ([], .ioErr .wouldBlock),
    ([b!"\r\n"], .value (.fromPairs [(.ofStr b!"header", b!"value")]))] := by decide +kernel

/-- headers.rs 170-175. -/
theorem no_data_eof : headers [
    ([b!""], .ioErr .unexpectedEof)] := by decide +kernel

/-- `data` of the next test. -/
def header_too_large_data : Bytes := [
  b!"oergoeiwglieuhrglieuwhrgoiebuhrgoibeusrghobsieurghobsiuerghosejtgihleiurthglerti",
  b!"ughlreitugherthrhtrt"].flatten

/-- headers.rs 177-187. -/
theorem header_too_large : headers [
    ([header_too_large_data, b!":", header_too_large_data], .ioErr .wouldBlock),
    ([header_too_large_data, header_too_large_data], .ioErr .wouldBlock),
    ([header_too_large_data], .ioErr .wouldBlock),
    ([header_too_large_data], .ioErr .limitReached)] := by decide +kernel

/-- `header` of the next test. -/
def too_many_headers_header : Bytes := [
  b!"oergoeiwglieuhrglieuwhrg: ebuhrgoibeusrghobsieurghobsiuerghosejtgihleiurthglerti",
  b!"ughlreitugherthrhtrt\r\n"].flatten

/-- headers.rs 189-202. -/
theorem too_many_headers : headers [
    ([too_many_headers_header, too_many_headers_header, too_many_headers_header, too_many_headers_header, too_many_headers_header, too_many_headers_header], .ioErr .wouldBlock),
    ([too_many_headers_header, too_many_headers_header, too_many_headers_header, too_many_headers_header, too_many_headers_header, too_many_headers_header], .ioErr .wouldBlock),
    ([too_many_headers_header, too_many_headers_header, too_many_headers_header, too_many_headers_header, too_many_headers_header, too_many_headers_header], .ioErr .wouldBlock),
    ([too_many_headers_header, too_many_headers_header, too_many_headers_header, too_many_headers_header, too_many_headers_header, too_many_headers_header], .ioErr .wouldBlock),
    ([too_many_headers_header, too_many_headers_header, too_many_headers_header, too_many_headers_header, too_many_headers_header, too_many_headers_header], .ioErr .wouldBlock),
    ([too_many_headers_header, too_many_headers_header, too_many_headers_header, too_many_headers_header, too_many_headers_header, too_many_headers_header], .ioErr .wouldBlock),
    ([too_many_headers_header, too_many_headers_header, too_many_headers_header, too_many_headers_header, too_many_headers_header, too_many_headers_header], .ioErr .limitReached)] := by decide +kernel

end Verif.Tests.Headers
