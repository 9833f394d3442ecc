import Verif.Tests.Harness

/-!
The unit tests of `src/parse/response.rs`, written by `tools/mktests.py`.
-/

namespace Verif.Tests.Response

/-- response.rs 87-97. -/
theorem no_headers_or_body : responseEof [b!"HTTP/1.1 200 OK\r\n\r\n"]
    (.value ⟨⟨200, b!"OK"⟩, [], []⟩) := by decide +kernel

/-- response.rs 99-109. -/
theorem headers_and_body : responseEof [b!"HTTP/1.1 200 OK\r\ncontent-length: 5\r\n\r\nhello"]
    (.value ⟨⟨200, b!"OK"⟩, .fromPairs [(.standard b!"content-length", b!"5")], b!"hello"⟩) := by decide +kernel

/-- response.rs 111-121. -/
theorem headers_and_body_fragmented : responseEof [b!"HTT", b!"P/1.", b!"1 200 OK", b!"\r", b!"\nconte", b!"nt-length", b!":", b!" 5\r\n\r\nh", b!"el", b!"lo"]
    (.value ⟨⟨200, b!"OK"⟩, .fromPairs [(.standard b!"content-length", b!"5")], b!"hello"⟩) := by decide +kernel

/-- response.rs 123-133. -/
theorem only_one_response_read : responseEof [b!"HTTP/1.1 200 OK\r\ncontent-length: 5\r\n\r\nhello", b!"HTTP/1.1 200 OK\r\n\r\n", b!"HTTP/1.1 200 OK\r\n\r\n"]
    (.value ⟨⟨200, b!"OK"⟩, .fromPairs [(.standard b!"content-length", b!"5")], b!"hello"⟩) := by decide +kernel

/-- `body` of the next test. -/
def long_body_body : Bytes := [
  b!"iuwrhgiuelrguihwleriughwleiruhglweiurhgliwerg fkwfowjeofjiwoefijwef wergiuwehrgi",
  b!"uwehilrguwehlrgiuw fewfwferg wenrjg; weirng lwieurhg owieurhg oeiuwrhg oewirg er",
  b!"gweuirghweiurhgleiwurhglwieurhglweiurhglewiurhto8w374yto8374yt9p18234u50982@#$%#",
  b!"$%^&%^*(^)&(*)_)+__+*()*()&**^%&$##!~!@~``12]\n3'']\\l[.'\"lk]/l;<:?<:}|?L:|?L|?|:?",
  b!"e       oivj        \n\n\n\n\\\t\t\t\t\t\t\t\\\t\t\t\t                                           ",
  b!"               ioerjgfoiaejrogiaergq34t2345123`    oijrgoi wjergi jweorgi jweorg",
  b!"ji                 eworigj riogj ewoirgj oewirjg 934598ut6932458t\ruyo3485gh o4w5",
  b!"89ghu w458                          9ghupw94358gh pw93458gh pw9345gh pw9438g\rhu ",
  b!"pw3945hg pw43958gh pw495gh :::;wefwefwef wef we  e ;;@#$%@#$^@#$%&#$@%^#$%@#$%@$",
  b!"^%$&$%^*^%&(^$%&*#%^$&@$%^#!#$!~```~~~```wefwef wef ee f efefe e{@#$%@#$^@#$%&#$",
  b!"@%^#$%@#$%@$^%$&$%^*^%&(^$%&*#%^$&@$%^#!#$!~```~~~```wefwef wef ee f efefe e{@#$",
  b!"%@#$^@#$%&#$@%^#$%@#$%@$^%$&$%^*^%&(^$%&*#%^$&@$%^#!#$!~```~~~```wefwef wef ee f",
  b!" efefe e{P{P[p[p[][][][]{}{}][][%%%\n\n\n\n\n\n wefwfw e2123456768960798676reresdsxfbc",
  b!"grtg eg erg   "].flatten

/-- response.rs 135-157. -/
theorem long_body : responseEof [b!"HTTP/1.1 200 OK\r\ncontent-length: 1054\r\n\r\n", long_body_body]
    (.value ⟨⟨200, b!"OK"⟩, .fromPairs [(.standard b!"content-length", b!"1054")], long_body_body⟩) := by decide +kernel

/-- response.rs 159-169. -/
theorem no_content_length : responseEof [b!"HTTP/1.1 200 OK\r\n\r\nhello", b!"HTTP/1.1 200 OK\r\n\r\n", b!"HTTP/1.1 200 OK\r\n\r\n"]
    (.value ⟨⟨200, b!"OK"⟩, [], b!"helloHTTP/1.1 200 OK\r\n\r\nHTTP/1.1 200 OK\r\n\r\n"⟩) := by decide +kernel

/-- response.rs 171-181. -/
theorem custom_header : responseEof [b!"HTTP/1.1 200 OK\r\ncustom-header: custom header value\r\n\r\n"]
    (.value ⟨⟨200, b!"OK"⟩, .fromPairs [(.custom b!"custom-header", b!"custom header value")], []⟩) := by decide +kernel

/-- response.rs 183-193. -/
theorem not_found_404_response : responseEof [b!"HTTP/1.1 404 Not Found\r\n\r\n"]
    (.value ⟨⟨404, b!"NOT FOUND"⟩, [], []⟩) := by decide +kernel

/-- response.rs 195-205. -/
theorem no_status_reason : responseEof [b!"HTTP/1.1 400\r\n\r\n"]
    (.value ⟨⟨400, b!"BAD REQUEST"⟩, [], []⟩) := by decide +kernel

/-- response.rs 207-213. -/
theorem invalid_status_code : responseEof [b!"HTTP/1.1 300000 Not Found\r\n\r\n"]
    (.parseErr .invalidStatusCode) := by decide +kernel

/-- response.rs 215-221. -/
theorem negative_status_code : responseEof [b!"HTTP/1.1 -30 Not Found\r\n\r\n"]
    (.parseErr .invalidStatusCode) := by decide +kernel

/-- response.rs 223-229. -/
theorem gibberish_response : responseEof [b!"ergejrogi jerogij eworfgjwoefjwof9wef wfw"]
    (.ioErr .unexpectedEof) := by decide +kernel

/-- response.rs 231-237. -/
theorem gibberish_with_newline : responseEof [b!"ergejrogi jerogij ewo\nrfgjwoefjwof9wef wfw"]
    (.parseErr .badSyntax) := by decide +kernel

/-- response.rs 239-245. -/
theorem gibberish_with_crlf : responseEof [b!"ergejrogi jerogij ewo\r\nrfgjwoefjwof9wef wfw\r\n\r\n"]
    (.parseErr .invalidHttpVersion) := by decide +kernel

/-- response.rs 247-253. -/
theorem gibberish_with_crlfs_at_end : responseEof [b!"ergejrogi jerogij eworfgjwoefjwof9wef wfw\r\n\r\n"]
    (.parseErr .invalidHttpVersion) := by decide +kernel

/-- response.rs 255-261. -/
theorem all_newlines : responseEof [b!"\n\n\n\n\n\n\n\n\n\n\n"]
    (.parseErr .badSyntax) := by decide +kernel

/-- response.rs 263-269. -/
theorem all_crlfs : responseEof [b!"\r\n\r\n\r\n\r\n"]
    (.parseErr .badSyntax) := by decide +kernel

/-- response.rs 271-277. -/
theorem wrong_http_version : responseEof [b!"HTTP/2.0 404 Not Found\r\n\r\n"]
    (.parseErr .invalidHttpVersion) := by decide +kernel

/-- response.rs 279-285. -/
theorem no_status_code : responseEof [b!"HTTP/1.1\r\n\r\n"]
    (.parseErr .badSyntax) := by decide +kernel

/-- response.rs 287-293. -/
theorem missing_crlfs : responseEof [b!"HTTP/1.1 200 OK"]
    (.ioErr .unexpectedEof) := by decide +kernel

/-- response.rs 295-301. -/
theorem only_one_crlf : responseEof [b!"HTTP/1.1 200 OK\r\n"]
    (.ioErr .unexpectedEof) := by decide +kernel

/-- response.rs 303-309. -/
theorem bad_header : responseEof [b!"HTTP/1.1 200 OK\r\nbad header\r\n\r\n"]
    (.parseErr .badSyntax) := by decide +kernel

/-- response.rs 311-317. -/
theorem bad_content_length_value : responseEof [b!"HTTP/1.1 200 OK\r\ncontent-length: five\r\n\r\nhello"]
    (.parseErr .invalidHeaderValue) := by decide +kernel

/-- response.rs 319-325. -/
theorem no_data : responseEof []
    (.ioErr .unexpectedEof) := by decide +kernel

/-- response.rs 327-333. -/
theorem one_character : responseEof [b!"a"]
    (.ioErr .unexpectedEof) := by decide +kernel

/-- response.rs 335-341. -/
theorem one_crlf_nothing_else : responseEof [b!"\r\n"]
    (.parseErr .badSyntax) := by decide +kernel

/-- response.rs 343-349. -/
theorem content_length_too_long : responseEof [b!"HTTP/1.1 200 OK\r\ncontent-length: 7\r\n\r\nhello"]
    (.ioErr .unexpectedEof) := by decide +kernel

/-- response.rs 351-361. -/
theorem content_length_too_long_with_request_after : responseEof [b!"HTTP/1.1 200 OK\r\ncontent-length: 7\r\n\r\nhello", b!"HTTP/1.1 200 OK\r\n\r\n"]
    (.value ⟨⟨200, b!"OK"⟩, .fromPairs [(.standard b!"content-length", b!"7")], b!"helloHT"⟩) := by decide +kernel

/-- response.rs 363-373. -/
theorem content_length_too_short : responseEof [b!"HTTP/1.1 200 OK\r\ncontent-length: 3\r\n\r\nhello"]
    (.value ⟨⟨200, b!"OK"⟩, .fromPairs [(.standard b!"content-length", b!"3")], b!"hel"⟩) := by decide +kernel

end Verif.Tests.Response
