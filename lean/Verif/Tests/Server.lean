import Verif.Tests.Harness

/-!
The unit tests of `src/server/server.rs`, written by `tools/mktests.py`.
-/

namespace Verif.Tests.Server

/-- server.rs 224-227. -/
theorem no_data : respond [] [] [] b!"" := by decide +kernel

/-- server.rs 229-239. -/
theorem one_request : respondNoBad [b!"GET / HTTP/1.1\r\n\r\n"]
    [⟨b!"/", .get, [], []⟩] := by decide +kernel

/-- server.rs 241-251. -/
theorem one_request_fragmented : respondNoBad [b!"G", b!"ET / ", b!"HTTP/1", b!".1\r\n", b!"\r", b!"\n"]
    [⟨b!"/", .get, [], []⟩] := by decide +kernel

/-- server.rs 253-263. -/
theorem one_request_interesting_uri : respondNoBad [b!"GET /hello/world/ HTTP/1.1\r\n\r\n"]
    [⟨b!"/hello/world/", .get, [], []⟩] := by decide +kernel

/-- server.rs 265-275. -/
theorem one_request_weird_uri : respondNoBad [b!"GET !#%$#/-+=_$+[]{}\\%&$ HTTP/1.1\r\n\r\n"]
    [⟨b!"!#%$#/-+=_$+[]{}\\%&$", .get, [], []⟩] := by decide +kernel

/-- server.rs 277-287. -/
theorem one_request_many_spaces_in_first_line : respondNoBad [b!"GET /hello/world/ HTTP/1.1 hello there blah blah\r\n\r\n"]
    [⟨b!"/hello/world/", .get, [], []⟩] := by decide +kernel

/-- server.rs 289-307. -/
theorem two_requests : respondNoBad [b!"GET / HTTP/1.1\r\n\r\n", b!"POST / HTTP/1.1\r\n\r\n"]
    [⟨b!"/", .get, [], []⟩, ⟨b!"/", .post, [], []⟩] := by decide +kernel

/-- server.rs 309-323. -/
theorem one_request_with_headers : respondNoBad [b!"GET / HTTP/1.1\r\ncontent-length: 0\r\nconnection: close\r\nsomething: hello there goodbye\r\n\r\n"]
    [⟨b!"/", .get, .fromPairs [(.standard b!"content-length", b!"0"), (.standard b!"connection", b!"close"), (.custom b!"something", b!"hello there goodbye")], []⟩] := by decide +kernel

/-- server.rs 325-340. -/
theorem one_request_with_repeated_headers : respondNoBad [b!"GET / HTTP/1.1\r\ncontent-length: 0\r\ncontent-length: 0\r\nsomething: value 1\r\nsomething: value 2\r\n\r\n"]
    [⟨b!"/", .get, .fromPairs [(.standard b!"content-length", b!"0"), (.standard b!"content-length", b!"0"), (.custom b!"something", b!"value 1"), (.custom b!"something", b!"value 2")], []⟩] := by decide +kernel

/-- server.rs 342-356. -/
theorem one_request_with_headers_weird_case : respondNoBad [b!"GET / HTTP/1.1\r\ncoNtEnt-lEngtH: 0\r\nCoNNECTION: close\r\nsoMetHing: hello there goodbye\r\n\r\n"]
    [⟨b!"/", .get, .fromPairs [(.standard b!"content-length", b!"0"), (.standard b!"connection", b!"close"), (.custom b!"something", b!"hello there goodbye")], []⟩] := by decide +kernel

/-- server.rs 358-371. -/
theorem one_request_with_headers_only_colon_and_space : respondNoBad [b!"GET / HTTP/1.1\r\n: \r\n: \r\n\r\n"]
    [⟨b!"/", .get, .fromPairs [(.custom b!"", b!""), (.custom b!"", b!"")], []⟩] := by decide +kernel

/-- server.rs 373-386. -/
theorem one_request_with_body : respondNoBad [b!"GET / HTTP/1.1\r\ncontent-length: 5\r\n\r\nhello"]
    [⟨b!"/", .get, .fromPairs [(.standard b!"content-length", b!"5")], b!"hello"⟩] := by decide +kernel

/-- server.rs 388-401. -/
theorem one_request_with_body_fragmented : respondNoBad [b!"GE", b!"T / ", b!"HTT", b!"P/1.", b!"1\r", b!"\nconte", b!"nt-le", b!"n", b!"gth: ", b!"5\r\n\r", b!"\nhe", b!"ll", b!"o"]
    [⟨b!"/", .get, .fromPairs [(.standard b!"content-length", b!"5")], b!"hello"⟩] := by decide +kernel

/-- server.rs 403-431. -/
theorem two_requests_with_bodies : respondNoBad [b!"GET /body1 HTTP/1.1\r\ncontent-length: 5\r\n\r\nhello", b!"GET /body2 HTTP/1.1\r\ncontent-length: 7\r\n\r\ngoodbye"]
    [⟨b!"/body1", .get, .fromPairs [(.standard b!"content-length", b!"5")], b!"hello"⟩, ⟨b!"/body2", .get, .fromPairs [(.standard b!"content-length", b!"7")], b!"goodbye"⟩] := by decide +kernel

/-- `body` of the next test. -/
def one_request_with_large_body_body : Bytes := [
  b!"ergiergjhlisuehrlgisuehrlgisuehrlgiushelrgiushelriguheisurhgl iseuhrg laiuwe````",
  b!"hrg ;aoiwhg aw4tyg 8o3w74go 8w475g\no 8w475hgo 8w475hgo 84w75hgo 8w347hfo g83qw7h",
  b!"4goq837hgp 9q384h~~~gp 9qw\r\n385hgp q9384htpq9 38\r\nwuhf iwourehafgliweurhglaieruh",
  b!"gq9w348gh q9384ufhquerhgfq 934g\\hq934h|][;[.',,/.fg 9w`234145365uerhfg iawo!@#$$",
  b!"%#^$%&^$%^(&*^)(_)+_){P.;o\\/]'o;\n\n\r\n\n         \r\n\n\r\n\r]/li][.                     ",
  b!"                                                  \n\n\n\n\n\n\n\n\n     ^$%@#%!@%!@$%@#$",
  b!"^&%*&&^&()&)(|>wiuerghwiefujwouegowogjoe rijgoe rgeriopgjeorgj eorgij woergij ow",
  b!"gj 9348t9 348uqwtp 3874hg ow3489ghqp 9348ghf qp3498ugh pq3q489g pq3498gf qp3948f",
  b!"h qp39ruhgwirughp9q34ughpq34u9gh pq3g3q498g7 hq3o84g7h q3o847gh qp3948fh pq9wufh",
  b!"p q9w4hgpq9w47hgpq39wu4hfqw4ufhwq43q8974fh q3489fh qopw4389fhpq9w4ghqpw94ghpqw94",
  b!"ufghpw9fhupq9w4ghpqw94ghpqwoeifjoweifjowijfow ejf owijf ejf qefasfoP OJP JP JE F",
  b!"PIJEPF IWJEPFI JWPEF WWEIOFJ WEFJ WPEIGJH 0348HG39 84GHJF039 84JF0394JF0 384G034",
  b!"8HGOWEIRGJPRGOJPEWEIFOJ WEOFIJ PQIEGHQPIGH024UHG034IUHJG0WIUEJF0EIWJGF0WEGH 0WEG",
  b!"H W0IEJF PWIEJFG PWEFW0EFJ 0WEFJ -WIJF-024JG0F34IGJ03 4I JG03W4IJG02HG0IQJGW-EIG",
  b!"JWPIEJGWeuf"].flatten

/-- server.rs 433-459. -/
theorem one_request_with_large_body : respondNoBad [b!"GET / HTTP/1.1\r\ncontent-length: 1131\r\n\r\n", one_request_with_large_body_body]
    [⟨b!"/", .get, .fromPairs [(.standard b!"content-length", b!"1131")], one_request_with_large_body_body⟩] := by decide +kernel

/-- server.rs 461-473. -/
theorem two_requests_connection_close_header : respondNoBad [b!"GET / HTTP/1.1\r\nconnection: close\r\n\r\n", b!"POST / HTTP/1.1\r\n\r\n"]
    [⟨b!"/", .get, .fromPairs [(.standard b!"connection", b!"close")], []⟩] := by decide +kernel

/-- server.rs 476-490. -/
theorem header_with_multiple_colons : respondNoBad [b!"GET / HTTP/1.1\r\nhello: value: foo\r\n\r\n"]
    [⟨b!"/", .get, .fromPairs [(.custom b!"hello", b!"value: foo")], []⟩] := by decide +kernel

/-- server.rs 492-498. -/
theorem bad_request_gibberish : respondLast [b!"regw", b!"\nergrg\n", b!"ie\n\n\nwof"] []
    b!"HTTP/1.1 400 Bad Request\r\n\r\n" := by decide +kernel

/-- server.rs 500-506. -/
theorem no_requests_read_after_bad_request : respondLast [b!"regw", b!"\nergrg\n", b!"ie\n\n\nwof\r\n\r\n", b!"POST / HTTP/1.1\r\n\r\n"] []
    b!"HTTP/1.1 400 Bad Request\r\n\r\n" := by decide +kernel

/-- server.rs 508-514. -/
theorem bad_request_lots_of_newlines : respondLast [b!"\n\n\n\n\n", b!"\n\n\n", b!"\n\n"] []
    b!"HTTP/1.1 400 Bad Request\r\n\r\n" := by decide +kernel

/-- server.rs 516-522. -/
theorem bad_request_no_newlines : respondLast [b!"wuirghuiwuhfwf", b!"iouwejf", b!"ioerjgiowjergiuhwelriugh"] []
    b!"HTTP/1.1 400 Bad Request\r\n\r\n" := by decide +kernel

/-- server.rs 524-530. -/
theorem invalid_method : respondLast [b!"yadadada / HTTP/1.1\r\n\r\n"] []
    b!"HTTP/1.1 400 Bad Request\r\n\r\n" := by decide +kernel

/-- server.rs 532-538. -/
theorem invalid_http_version : respondLast [b!"GET / HTTP/1.2\r\n\r\n"] []
    b!"HTTP/1.1 400 Bad Request\r\n\r\n" := by decide +kernel

/-- server.rs 540-546. -/
theorem missing_uri_and_version : respondLast [b!"GET\r\n\r\n"] []
    b!"HTTP/1.1 400 Bad Request\r\n\r\n" := by decide +kernel

/-- server.rs 548-554. -/
theorem missing_http_version : respondLast [b!"GET /\r\n\r\n"] []
    b!"HTTP/1.1 400 Bad Request\r\n\r\n" := by decide +kernel

/-- server.rs 556-562. -/
theorem bad_crlf : respondLast [b!"GET / HTTP/1.1\n\r\n"] []
    b!"HTTP/1.1 400 Bad Request\r\n\r\n" := by decide +kernel

/-- server.rs 564-570. -/
theorem bad_header : respondLast [b!"GET / HTTP/1.1\r\nyadadada\r\n\r\n"] []
    b!"HTTP/1.1 400 Bad Request\r\n\r\n" := by decide +kernel

/-- server.rs 572-578. -/
theorem header_with_newline : respondLast [b!"GET / HTTP/1.1\r\nhello: wgwf\niwjfw\r\n\r\n"] []
    b!"HTTP/1.1 400 Bad Request\r\n\r\n" := by decide +kernel

/-- server.rs 580-586. -/
theorem missing_crlf_after_last_header : respondLast [b!"GET / HTTP/1.1\r\nhello: wgwf\r\n"] []
    b!"HTTP/1.1 400 Bad Request\r\n\r\n" := by decide +kernel

/-- server.rs 588-594. -/
theorem missing_crlfs : respondLast [b!"GET / HTTP/1.1"] []
    b!"HTTP/1.1 400 Bad Request\r\n\r\n" := by decide +kernel

/-- server.rs 596-609. -/
theorem request_with_body_and_no_content_length : respondLast [b!"GET / HTTP/1.1\r\n\r\nhello"] [⟨b!"/", .get, [], []⟩]
    b!"HTTP/1.1 400 Bad Request\r\n\r\n" := by decide +kernel

/-- server.rs 611-624. -/
theorem request_with_body_and_too_short_content_length : respondLast [b!"GET / HTTP/1.1\r\ncontent-length: 3\r\n\r\nhello"] [⟨b!"/", .get, .fromPairs [(.standard b!"content-length", b!"3")], b!"hel"⟩]
    b!"HTTP/1.1 400 Bad Request\r\n\r\n" := by decide +kernel

/-- server.rs 626-632. -/
theorem request_with_body_and_too_long_content_length : respondLast [b!"GET / HTTP/1.1\r\ncontent-length: 10\r\n\r\nhello"] []
    b!"HTTP/1.1 400 Bad Request\r\n\r\n" := by decide +kernel

/-- server.rs 634-640. -/
theorem request_with_negative_content_length : respondLast [b!"GET / HTTP/1.1\r\ncontent-length: -5\r\n\r\nhello"] []
    b!"HTTP/1.1 400 Bad Request\r\n\r\n" := by decide +kernel

/-- server.rs 642-654. -/
theorem request_with_0_content_length : respondLast [b!"GET / HTTP/1.1\r\ncontent-length: 0\r\n\r\nhello"] [⟨b!"/", .get, .fromPairs [(.standard b!"content-length", b!"0")], []⟩]
    b!"HTTP/1.1 400 Bad Request\r\n\r\n" := by decide +kernel

end Verif.Tests.Server
