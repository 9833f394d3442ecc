import Verif.Tests.Harness

/-!
The unit tests of `src/parse/request.rs`, written by `tools/mktests.py`.
-/

namespace Verif.Tests.Request

/-- request.rs 95-98. -/
theorem no_data : requestEof []
    (.ioErr .unexpectedEof) := by decide +kernel

/-- request.rs 100-110. -/
theorem no_header_or_body : requestEof [b!"GET / HTTP/1.1\r\n\r\n"]
    (.value ⟨b!"/", .get, [], []⟩) := by decide +kernel

/-- request.rs 112-122. -/
theorem no_header_or_body_fragmented : requestEof [b!"G", b!"ET / ", b!"HTTP/1", b!".1\r\n", b!"\r", b!"\n"]
    (.value ⟨b!"/", .get, [], []⟩) := by decide +kernel

/-- request.rs 124-134. -/
theorem interesting_uri : requestEof [b!"GET /hello/world/ HTTP/1.1\r\n\r\n"]
    (.value ⟨b!"/hello/world/", .get, [], []⟩) := by decide +kernel

/-- request.rs 136-146. -/
theorem weird_uri : requestEof [b!"GET !#%$#/-+=_$+[]{}\\%&$ HTTP/1.1\r\n\r\n"]
    (.value ⟨b!"!#%$#/-+=_$+[]{}\\%&$", .get, [], []⟩) := by decide +kernel

/-- request.rs 148-158. -/
theorem many_spaces_in_first_line : requestEof [b!"GET /hello/world/ HTTP/1.1 hello there blah blah\r\n\r\n"]
    (.value ⟨b!"/hello/world/", .get, [], []⟩) := by decide +kernel

/-- request.rs 160-170. -/
theorem only_reads_one_request : requestEof [b!"GET / HTTP/1.1\r\n\r\n", b!"POST / HTTP/1.1\r\n\r\n"]
    (.value ⟨b!"/", .get, [], []⟩) := by decide +kernel

/-- request.rs 172-186. -/
theorem headers : requestEof [b!"GET / HTTP/1.1\r\ncontent-length: 0\r\nconnection: close\r\nsomething: hello there goodbye\r\n\r\n"]
    (.value ⟨b!"/", .get, .fromPairs [(.standard b!"content-length", b!"0"), (.standard b!"connection", b!"close"), (.ofStr b!"something", b!"hello there goodbye")], []⟩) := by decide +kernel

/-- request.rs 188-203. -/
theorem repeated_headers : requestEof [b!"GET / HTTP/1.1\r\ncontent-length: 0\r\ncontent-length: 0\r\nsomething: value 1\r\nsomething: value 2\r\n\r\n"]
    (.value ⟨b!"/", .get, .fromPairs [(.standard b!"content-length", b!"0"), (.standard b!"content-length", b!"0"), (.ofStr b!"something", b!"value 1"), (.ofStr b!"something", b!"value 2")], []⟩) := by decide +kernel

/-- request.rs 205-219. -/
theorem headers_weird_case : requestEof [b!"GET / HTTP/1.1\r\ncoNtEnt-lEngtH: 0\r\nCoNNECTION: close\r\nsoMetHing: hello there goodbye\r\n\r\n"]
    (.value ⟨b!"/", .get, .fromPairs [(.standard b!"content-length", b!"0"), (.standard b!"connection", b!"close"), (.ofStr b!"something", b!"hello there goodbye")], []⟩) := by decide +kernel

/-- request.rs 221-234. -/
theorem headers_only_colon_and_space : requestEof [b!"GET / HTTP/1.1\r\n: \r\n: \r\n\r\n"]
    (.value ⟨b!"/", .get, .fromPairs [(.ofStr b!"", b!""), (.ofStr b!"", b!"")], []⟩) := by decide +kernel

/-- request.rs 236-248. -/
theorem body_with_content_length : requestEof [b!"GET / HTTP/1.1\r\ncontent-length: 5\r\n\r\nhello"]
    (.value ⟨b!"/", .get, .fromPairs [(.standard b!"content-length", b!"5")], b!"hello"⟩) := by decide +kernel

/-- request.rs 250-262. -/
theorem body_fragmented : requestEof [b!"GE", b!"T / ", b!"HTT", b!"P/1.", b!"1\r", b!"\nconte", b!"nt-le", b!"n", b!"gth: ", b!"5\r\n\r", b!"\nhe", b!"ll", b!"o"]
    (.value ⟨b!"/", .get, .fromPairs [(.standard b!"content-length", b!"5")], b!"hello"⟩) := by decide +kernel

/-- request.rs 264-280. -/
theorem two_requests_with_bodies : requestEof [b!"GET /body1 HTTP/1.1\r\ncontent-length: 5\r\n\r\nhello", b!"GET /body2 HTTP/1.1\r\ncontent-length: 7\r\n\r\ngoodbye"]
    (.value ⟨b!"/body1", .get, .fromPairs [(.standard b!"content-length", b!"5")], b!"hello"⟩) := by decide +kernel

/-- `body` of the next test. -/
def large_body_body : Bytes := [
  b!"ergiergjhlisuehrlgisuehrlgisuehrlgiushelrgiushelriguheisurhgl iseuhrg laiuwe````",
  b!"hrg ;aoiwhg aw4tyg 8o3w74go 8w475g\no 8w475hgo 8w475hgo 84w75hgo 8w347hfo g83qw7h",
  b!"4goq837hgp 9q384h~~~gp 9qw\r\n385hgp q9384htpq9 38\r\nwuhf iwourehafgliweurhglaieruh",
  b!"gq9w348gh q9384ufhquerhgfq 934g\\hq934h|][;[.',,/.fg 9w`234145365uerhfg iawo!@#$$",
  b!"%#^$%&^$%^(&*^)(_)+_){P.;o\\/]'o;\n\n\r\n\n         \r\n\n\r\n\r]/li][.                     ",
  b!"                                                  \n\n\n\n\n\n\n\n\n     ^$%@#%!@%!@$%@#$",
  b!"^&%*&&^&()&)(|>wiuerghwiefujwouegowogjoe rijgoe rgeriopgjeorgj eorgij woergij ow",
  b!"gj 9348t9 348uqwtp 3874hg ow3489ghqp 9348ghf qp3498ugh pq3q489g pq3498gf qp3948f",
  b!"h qp39ruhgwirughp9q34ughpq34u9gh pq3g3q498g7 hq3o84g7h q3o847gh qp3948fh pq9wufh",
  b!"p q9w4hgpq9w47hgpq39wu4hfqw4ufhwq43q8974fh q3489fh qopw4389fhpq9w4ghqpw94ghpqw94",
  b!"ufghpw9fhupq9w4ghpqw94ghpqwoeifjoweifjowijfow ejf owijf ejf qefasfoP OJP JP JE F",
  b!"PIJEPF IWJEPFI JWPEF WWEIOFJ WEFJ WPEIGJH 0348HG39 84GHJF039 84JF0394JF0 384G034",
  b!"8HGOWEIRGJPRGOJPEWEIFOJ WEOFIJ PQIEGHQPIGH024UHG034IUHJG0WIUEJF0EIWJGF0WEGH 0WEG",
  b!"H W0IEJF PWIEJFG PWEFW0EFJ 0WEFJ -WIJF-024JG0F34IGJ03 4I JG03W4IJG02HG0IQJGW-EIG",
  b!"JWPIEJGWeuf"].flatten

/-- request.rs 282-308. -/
theorem large_body : requestEof [b!"GET / HTTP/1.1\r\ncontent-length: 1131\r\n\r\n", large_body_body]
    (.value ⟨b!"/", .get, .fromPairs [(.standard b!"content-length", b!"1131")], large_body_body⟩) := by decide +kernel

/-- request.rs 310-322. -/
theorem header_multiple_colons : requestEof [b!"GET / HTTP/1.1\r\nhello: value: foo\r\n\r\n"]
    (.value ⟨b!"/", .get, .fromPairs [(.ofStr b!"hello", b!"value: foo")], []⟩) := by decide +kernel

/-- request.rs 324-329. -/
theorem gibberish : requestEof [b!"regw", b!"\nergrg\n", b!"ie\n\n\nwof"]
    (.parseErr .badSyntax) := by decide +kernel

/-- request.rs 331-336. -/
theorem no_requests_read_after_bad_request : requestEof [b!"regw", b!"\nergrg\n", b!"ie\n\n\nwof\r\n\r\n", b!"POST / HTTP/1.1\r\n\r\n"]
    (.parseErr .badSyntax) := by decide +kernel

/-- request.rs 338-343. -/
theorem lots_of_newlines : requestEof [b!"\n\n\n\n\n", b!"\n\n\n", b!"\n\n"]
    (.parseErr .badSyntax) := by decide +kernel

/-- request.rs 345-350. -/
theorem no_newlines : requestEof [b!"wuirghuiwuhfwf", b!"iouwejf", b!"ioerjgiowjergiuhwelriugh"]
    (.ioErr .unexpectedEof) := by decide +kernel

/-- request.rs 352-357. -/
theorem invalid_method : requestEof [b!"yadadada / HTTP/1.1\r\n\r\n"]
    (.parseErr .unrecognizedMethod) := by decide +kernel

/-- request.rs 359-364. -/
theorem invalid_http_version : requestEof [b!"GET / HTTP/1.2\r\n\r\n"]
    (.parseErr .invalidHttpVersion) := by decide +kernel

/-- request.rs 366-371. -/
theorem missing_uri_and_version : requestEof [b!"GET\r\n\r\n"]
    (.parseErr .badSyntax) := by decide +kernel

/-- request.rs 373-378. -/
theorem missing_http_version : requestEof [b!"GET /\r\n\r\n"]
    (.parseErr .badSyntax) := by decide +kernel

/-- request.rs 380-385. -/
theorem bad_crlf : requestEof [b!"GET / HTTP/1.1\n\r\n"]
    (.parseErr .badSyntax) := by decide +kernel

/-- request.rs 387-392. -/
theorem bad_header : requestEof [b!"GET / HTTP/1.1\r\nyadadada\r\n\r\n"]
    (.parseErr .badSyntax) := by decide +kernel

/-- request.rs 394-399. -/
theorem header_with_newline : requestEof [b!"GET / HTTP/1.1\r\nhello: wgwf\niwjfw\r\n\r\n"]
    (.parseErr .badSyntax) := by decide +kernel

/-- request.rs 401-406. -/
theorem missing_crlf_after_last_header : requestEof [b!"GET / HTTP/1.1\r\nhello: wgwf\r\n"]
    (.ioErr .unexpectedEof) := by decide +kernel

/-- request.rs 408-413. -/
theorem missing_crlfs : requestEof [b!"GET / HTTP/1.1"]
    (.ioErr .unexpectedEof) := by decide +kernel

/-- request.rs 415-425. -/
theorem body_no_content_length : requestEof [b!"GET / HTTP/1.1\r\n\r\nhello"]
    (.value ⟨b!"/", .get, [], []⟩) := by decide +kernel

/-- request.rs 427-437. -/
theorem body_too_short_content_length : requestEof [b!"GET / HTTP/1.1\r\ncontent-length: 3\r\n\r\nhello"]
    (.value ⟨b!"/", .get, .fromPairs [(.standard b!"content-length", b!"3")], b!"hel"⟩) := by decide +kernel

/-- request.rs 439-444. -/
theorem body_content_length_too_long : requestEof [b!"GET / HTTP/1.1\r\ncontent-length: 10\r\n\r\nhello"]
    (.ioErr .unexpectedEof) := by decide +kernel

/-- request.rs 446-457. -/
theorem body_content_length_too_long_request_after : requestEof [b!"GET / HTTP/1.1\r\ncontent-length: 10\r\n\r\nhello", b!"GET / HTTP/1.1\r\ncontent-length: 10\r\n\r\nhello"]
    (.value ⟨b!"/", .get, .fromPairs [(.standard b!"content-length", b!"10")], b!"helloGET /"⟩) := by decide +kernel

/-- request.rs 459-464. -/
theorem negative_content_length : requestEof [b!"GET / HTTP/1.1\r\ncontent-length: -5\r\n\r\nhello"]
    (.parseErr .invalidHeaderValue) := by decide +kernel

/-- request.rs 466-476. -/
theorem request_with_0_content_length : requestEof [b!"GET / HTTP/1.1\r\ncontent-length: 0\r\n\r\nhello"]
    (.value ⟨b!"/", .get, .fromPairs [(.standard b!"content-length", b!"0")], []⟩) := by decide +kernel

end Verif.Tests.Request
