import Verif.Tests.Harness

/-!
The unit tests of `src/parse/message.rs`, written by `tools/mktests.py`.
-/

namespace Verif.Tests.Message

/-- message.rs 129-138. -/
theorem no_headers_or_body : messageEof [b!"blah blah blah\r\n\r\n"] false
    (.value (b!"blah blah blah", [], [])) := by decide +kernel

/-- message.rs 140-149. -/
theorem headers_and_body : messageEof [b!"HTTP/1.1 200 OK\r\ncontent-length: 5\r\n\r\nhello"] false
    (.value (b!"HTTP/1.1 200 OK", .fromPairs [(.standard b!"content-length", b!"5")], b!"hello")) := by decide +kernel

/-- message.rs 151-160. -/
theorem headers_and_body_fragmented : messageEof [b!"HTT", b!"P/1.", b!"1 200 OK", b!"\r", b!"\nconte", b!"nt-length", b!":", b!" 5\r\n\r\nh", b!"el", b!"lo"] false
    (.value (b!"HTTP/1.1 200 OK", .fromPairs [(.standard b!"content-length", b!"5")], b!"hello")) := by decide +kernel

/-- message.rs 162-171. -/
theorem only_one_message_returned : messageEof [b!"HTTP/1.1 200 OK\r\ncontent-length: 5\r\n\r\nhello", b!"HTTP/1.1 200 OK\r\n\r\n", b!"HTTP/1.1 200 OK\r\n\r\n"] false
    (.value (b!"HTTP/1.1 200 OK", .fromPairs [(.standard b!"content-length", b!"5")], b!"hello")) := by decide +kernel

/-- `body` of the next test. -/
def big_body_body : Bytes := [
  b!"iuwrhgiuelrguihwleriughwleiruhglweiurhgliwerg fkwfowjeofjiwoefijwef wergiuwehrgi",
  b!"uwehilrguwehlrgiuw fewfwferg wenrjg; weirng lwieurhg owieurhg oeiuwrhg oewirg er",
  b!"gweuirghweiurhgleiwurhglwieurhglweiurhglewiurhto8w374yto8374yt9p18234u50982@#$%#",
  b!"$%^&%^*(^)&(*)_)+__+*()*()&**^%&$##!~!@~``12]\n3'']\\l[.'\"lk]/l;<:?<:}|?L:|?L|?|:?",
  b!"e       oivj        \n\n\n\n\\\t\t\t\t\t\t\t\\\t\t\t\t                                           ",
  b!"               ioerjgfoiaejrogiaergq34t2345123`    oijrgoi wjergi jweorgi jweorg",
  b!"ji                 eworigj riogj ewoirgj oewirjg 934598ut6932458t\ruyo3485gh o4w5",
  b!"89ghu w458                          9ghupw94358gh pw93458gh pw9345gh pw9438g\rhu ",
  b!"pw3945hg pw43958gh pw495gh :::;wefwefwef wef we  e ;;@#$%@#$^@#$%&#$@%^#$%@#$%@$",
  b!"^%$&$%^*^%&(^$%&*#%^$&@$%^#!#$!~```~~~```wefwef wef ee f efefe e{@#$%@#$^@#$%&#$",
  b!"@%^#$%@#$%@$^%$&$%^*^%&(^$%&*#%^$&@$%^#!#$!~```~~~```wefwef wef ee f efefe e{@#$",
  b!"%@#$^@#$%&#$@%^#$%@#$%@$^%$&$%^*^%&(^$%&*#%^$&@$%^#!#$!~```~~~```wefwef wef ee f",
  b!" efefe e{P{P[p[p[][][][]{}{}][][%%%\n\n\n\n\n\n wefwfw e2123456768960798676reresdsxfbc",
  b!"grtg eg erg   "].flatten

/-- message.rs 173-194. -/
theorem big_body : messageEof [b!"HTTP/1.1 200 OK\r\ncontent-length: 1054\r\n\r\n", big_body_body] false
    (.value (b!"HTTP/1.1 200 OK", .fromPairs [(.standard b!"content-length", b!"1054")], big_body_body)) := by decide +kernel

/-- message.rs 196-205. -/
theorem read_if_no_content_length_true : messageEof [b!"HTTP/1.1 200 OK\r\n\r\nhello", b!"HTTP/1.1 200 OK\r\n\r\n", b!"HTTP/1.1 200 OK\r\n\r\n"] true
    (.value (b!"HTTP/1.1 200 OK", [], b!"helloHTTP/1.1 200 OK\r\n\r\nHTTP/1.1 200 OK\r\n\r\n")) := by decide +kernel

/-- message.rs 207-216. -/
theorem read_if_no_content_length_false : messageEof [b!"HTTP/1.1 200 OK\r\n\r\nhello", b!"HTTP/1.1 200 OK\r\n\r\n", b!"HTTP/1.1 200 OK\r\n\r\n"] false
    (.value (b!"HTTP/1.1 200 OK", [], [])) := by decide +kernel

/-- message.rs 218-227. -/
theorem custom_header : messageEof [b!"HTTP/1.1 200 OK\r\ncustom-header: custom header value\r\n\r\n"] false
    (.value (b!"HTTP/1.1 200 OK", .fromPairs [(.custom b!"custom-header", b!"custom header value")], [])) := by decide +kernel

/-- message.rs 229-236. -/
theorem gibberish : messageEof [b!"ergejrogi jerogij eworfgjwoefjwof9wef wfw"] false
    (.ioErr .unexpectedEof) := by decide +kernel

/-- message.rs 238-245. -/
theorem gibberish_with_newline : messageEof [b!"ergejrogi jerogij ewo\nrfgjwoefjwof9wef wfw"] false
    (.parseErr .badSyntax) := by decide +kernel

/-- message.rs 247-254. -/
theorem gibberish_with_crlf : messageEof [b!"ergejrogi jerogij ewo\r\nrfgjwoefjwof9wef wfw\r\n\r\n"] false
    (.parseErr .badSyntax) := by decide +kernel

/-- message.rs 256-267. -/
theorem gibberish_with_crlfs_at_end : messageEof [b!"ergejrogi jerogij eworfgjwoefjwof9wef wfw\r\n\r\n"] false
    (.value (b!"ergejrogi jerogij eworfgjwoefjwof9wef wfw", [], [])) := by decide +kernel

/-- message.rs 269-276. -/
theorem all_newlines : messageEof [b!"\n\n\n\n\n\n\n\n\n\n\n"] false
    (.parseErr .badSyntax) := by decide +kernel

/-- message.rs 278-285. -/
theorem all_crlfs : messageEof [b!"\r\n\r\n\r\n\r\n"] false
    (.value (b!"", [], [])) := by decide +kernel

/-- message.rs 287-294. -/
theorem missing_crlfs : messageEof [b!"HTTP/1.1 200 OK"] false
    (.ioErr .unexpectedEof) := by decide +kernel

/-- message.rs 296-303. -/
theorem only_one_crlf : messageEof [b!"HTTP/1.1 200 OK\r\n"] false
    (.ioErr .unexpectedEof) := by decide +kernel

/-- message.rs 305-312. -/
theorem bad_header : messageEof [b!"HTTP/1.1 200 OK\r\nbad header\r\n\r\n"] false
    (.parseErr .badSyntax) := by decide +kernel

/-- message.rs 314-321. -/
theorem bad_content_length_value : messageEof [b!"HTTP/1.1 200 OK\r\ncontent-length: five\r\n\r\nhello"] false
    (.parseErr .invalidHeaderValue) := by decide +kernel

/-- message.rs 323-330. -/
theorem no_data : messageEof [] false
    (.ioErr .unexpectedEof) := by decide +kernel

/-- message.rs 332-339. -/
theorem one_character : messageEof [b!"a"] false
    (.ioErr .unexpectedEof) := by decide +kernel

/-- message.rs 341-348. -/
theorem one_crlf_nothing_else : messageEof [b!"\r\n"] false
    (.ioErr .unexpectedEof) := by decide +kernel

/-- message.rs 350-357. -/
theorem content_length_too_long : messageEof [b!"HTTP/1.1 200 OK\r\ncontent-length: 7\r\n\r\nhello"] false
    (.ioErr .unexpectedEof) := by decide +kernel

/-- message.rs 359-368. -/
theorem content_length_too_long_with_request_after : messageEof [b!"HTTP/1.1 200 OK\r\ncontent-length: 7\r\n\r\nhello", b!"HTTP/1.1 200 OK\r\n\r\n"] false
    (.value (b!"HTTP/1.1 200 OK", .fromPairs [(.standard b!"content-length", b!"7")], b!"helloHT")) := by decide +kernel

/-- message.rs 370-379. -/
theorem content_length_too_short : messageEof [b!"HTTP/1.1 200 OK\r\ncontent-length: 3\r\n\r\nhello"] false
    (.value (b!"HTTP/1.1 200 OK", .fromPairs [(.standard b!"content-length", b!"3")], b!"hel")) := by decide +kernel

/-- message.rs 381-398. -/
theorem chunked_body : messageEof [b!"HTTP/1.1 200 OK\r\ntransfer-encoding: chunked\r\n\r\n", b!"2\r\n", b!"he\r\n", b!"c\r\n", b!"llo world he\r\n", b!"3\r\n", b!"llo\r\n", b!"0\r\n", b!"\r\n"] false
    (.value (b!"HTTP/1.1 200 OK", .fromPairs [(.standard b!"transfer-encoding", b!"chunked")], b!"hello world hello")) := by decide +kernel

/-- message.rs 400-413. -/
theorem chunked_body_no_termination : messageEof [b!"HTTP/1.1 200 OK\r\ntransfer-encoding: chunked\r\n\r\n", b!"2\r\n", b!"he\r\n", b!"c\r\n", b!"llo world he\r\n", b!"3\r\n", b!"llo\r\n"] false
    (.ioErr .unexpectedEof) := by decide +kernel

/-- message.rs 415-430. -/
theorem chunked_body_chunk_size_1_byte_too_large : messageEof [b!"HTTP/1.1 200 OK\r\ntransfer-encoding: chunked\r\n\r\n", b!"3\r\n", b!"he\r\n", b!"c\r\n", b!"llo world he\r\n", b!"3\r\n", b!"llo\r\n", b!"0\r\n", b!"\r\n"] false
    (.parseErr .badSyntax) := by decide +kernel

/-- message.rs 432-447. -/
theorem chunked_body_chunk_size_2_bytes_too_large : messageEof [b!"HTTP/1.1 200 OK\r\ntransfer-encoding: chunked\r\n\r\n", b!"4\r\n", b!"he\r\n", b!"c\r\n", b!"llo world he\r\n", b!"3\r\n", b!"llo\r\n", b!"0\r\n", b!"\r\n"] false
    (.parseErr .badSyntax) := by decide +kernel

/-- message.rs 449-466. -/
theorem chunked_body_chunk_size_many_bytes_too_large : messageEof [b!"HTTP/1.1 200 OK\r\ntransfer-encoding: chunked\r\n\r\n", b!"13\r\n", b!"he\r\n", b!"c\r\n", b!"llo world he\r\n", b!"3\r\n", b!"llo\r\n", b!"0\r\n", b!"\r\n"] false
    (.value (b!"HTTP/1.1 200 OK", .fromPairs [(.standard b!"transfer-encoding", b!"chunked")], b!"he\r\nc\r\nllo world hello")) := by decide +kernel

/-- message.rs 468-483. -/
theorem chunked_body_huge_chunk_size : messageEof [b!"HTTP/1.1 200 OK\r\ntransfer-encoding: chunked\r\n\r\n", b!"100\r\n", b!"he\r\n", b!"c\r\n", b!"llo world he\r\n", b!"3\r\n", b!"llo\r\n", b!"0\r\n", b!"\r\n"] false
    (.ioErr .unexpectedEof) := by decide +kernel

/-- message.rs 485-500. -/
theorem chunked_body_chunk_size_not_hex_digit : messageEof [b!"HTTP/1.1 200 OK\r\ntransfer-encoding: chunked\r\n\r\n", b!"z\r\n", b!"he\r\n", b!"c\r\n", b!"llo world he\r\n", b!"3\r\n", b!"llo\r\n", b!"0\r\n", b!"\r\n"] false
    (.parseErr .invalidChunkSize) := by decide +kernel

/-- message.rs 502-510. -/
theorem chunked_body_no_crlfs : messageEof [b!"HTTP/1.1 200 OK\r\ntransfer-encoding: chunked\r\n\r\n", b!"zhelloiouf jwiufji ejif jef"] false
    (.ioErr .unexpectedEof) := by decide +kernel

/-- message.rs 513-522. -/
theorem chunked_body_no_content : messageEof [b!"HTTP/1.1 200 OK\r\ntransfer-encoding: chunked\r\n\r\n", b!"9\r\n", b!"\r\n"] false
    (.ioErr .unexpectedEof) := by decide +kernel

/-- message.rs 524-538. -/
theorem chunked_body_no_trailing_crlf : messageEof [b!"HTTP/1.1 200 OK\r\ntransfer-encoding: chunked\r\n\r\n", b!"2\r\n", b!"he\r\n", b!"c\r\n", b!"llo world he\r\n", b!"3\r\n", b!"llo\r\n", b!"0\r\n"] false
    (.ioErr .unexpectedEof) := by decide +kernel

/-- message.rs 540-549. -/
theorem chunked_body_only_chunk_size : messageEof [b!"HTTP/1.1 200 OK\r\ntransfer-encoding: chunked\r\n\r\n", b!"2\r\n", b!"he"] false
    (.ioErr .unexpectedEof) := by decide +kernel

/-- message.rs 551-562. -/
theorem empty_chunked_body : messageEof [b!"HTTP/1.1 200 OK\r\ntransfer-encoding: chunked\r\n\r\n", b!"0\r\n", b!"\r\n"] false
    (.value (b!"HTTP/1.1 200 OK", .fromPairs [(.standard b!"transfer-encoding", b!"chunked")], [])) := by decide +kernel

/-- `chunk` of the next test. -/
def chunked_body_huge_chunk_chunk : Bytes := [
  b!"eofjaiweughlwauehgliw uehfwaiuefhpqiwuefh lwieufh wle23453257rgoi jgoai\"\"\"woirjg",
  b!"owiejfiuf hawlieuf halweifu hawef awef weFIU HW iefu\t\r\n\r\nhweif uhweifuh qefq2345",
  b!"23 812u9405834205 8245 1#@%^#$*&&^(*&)()&%^$%#^$]\r;g]ew r;g]ege\n\r\n\r\noweijf owaie",
  b!"jf; aowiejf owf ifoa iwf aioerjf aoiwerjf laiuerwhgf lawiuefhj owfjdcwf         ",
  b!"        awefoi jwaeoif jwei          WEAOFIJ AOEWI FJA EFJ  fewwefoi jawoiefj ao",
  b!"wiefgj aelirugh aliowefj oaweijf oweijf owiejf oweifj weofweiofj weoifj oweijfo ",
  b!"qwiejfo quehfow uehfo qiwjfpo qihw fpqeighpqf efoiwej foqwefoi jawoiefj aowiefgj",
  b!" aelirugh aliowefj oaweijf oweijf owiejf oweifj weofweiofj weoifj oweijfo qwiejf",
  b!"o quehfow uehfo qiwjfpo qihw fpqeighpqf efoiwej foqwefoi jawoiefj aowiefgj aelir",
  b!"ugh aliowefj oaweijf oweijf owiejf oweifj weofweiofj weoifj oweijfo qwiejfo queh",
  b!"fow uehfo qiwjfpo qihw fpqeighpqf efoiwej foqwefoi jawoiefj aowiefgj aelirugh al",
  b!"iowefj oaweijf oweijf owiejf oweifj weofweiofj weoifj oweijfo qwiejfo quehfow ue",
  b!"hfo qiwjfpo qihw fpqeighpqf efoiwej foqwefoi jawoiefj aowiefgj aelirugh aliowefj",
  b!" oaweijf oweijf owiejf oweifj weofweiofj weoifj oweijfo qwiejfo quehfow uehfo qi",
  b!"wjfpo qihw fpqeighpqf efoiwej foqwefoi jawoiefj aowiefgj aelirugh aliowefj oawei",
  b!"jf oweijf owiejf oweifj weofweiofj weoifj oweijfo qwiejfo quehfow uehfo qiwjfpo ",
  b!"qihw fpqeighpqf efoiwej foqwefoi jawoiefj aowiefgj aelirugh aliowefj oaweijf owe",
  b!"ijf owiejf oweifj weofwefoi jawoiefj aowiefgj aelirugh aliowefj oaweijf oweijf o",
  b!"wiejf oweifj weofwefoi jawoiefj aowiefgj aelirugh aliowefj oaweijf oweijf owiejf",
  b!" oweifj weofwefoi jawoiefj aowiefgj aelirugh aliowefj oaweijf oweijf owiejf owei",
  b!"fj weofwefoi jawoiefj aowiefgj aelirugh aliowefj oaweijf oweijf owiejf oweifj we",
  b!"ofwefoi jawoiefj aowiefgj aelirugh aliowefj oaweijf oweijf owiejf oweifj weofwef",
  b!"oi jawoiefj aowiefgj aelirugh aliowefj oaweijf oweijf owiejf oweifj weofwefoi ja",
  b!"woiefj aowiefgj aelirugh aliowefj oaweijf oweijf owiejf oweifj weofwefoi jawoief",
  b!"j aowi\r\nefgj aelirugh aliowefj oaweijf oweijf owiejf oweifj weofwefoi jawoiefj a",
  b!"owiefgj aelirugh aliowefj oaweijf oweijf owiejf oweifj weofwefoi jawoiefj aowief",
  b!"gj ae\r\nlirugh aliowefj oaweijf oweijf owiejf oweifj weofwefoi jawoiefj aowiefgj ",
  b!"aelirugh aliowefj oaweijf oweijf owiejf oweifj weofwefoi jawoiefj aowiefgj ae\nli",
  b!"rugh aliowefj oaweijf oweijf owiejf oweifj weofwefoi jawoiefj aowiefgj aelirugh ",
  b!"aliowefj oaweijf oweijf owiejf oweifj weofwefoi jawoiefj aowiefgj aelirugh aliow",
  b!"efj oaweijf oweijf owiejf oweifj weofwefoi jawoiefj aowiefgj aelirugh aliowefj o",
  b!"aweijf\n oweijf owiejf oweifj weofwefoi jawoiefj aowiefgj aelirugh aliowefj oawei",
  b!"jf oweijf owiejf oweifj weofwefoi jawoiefj aowiefgj aelirugh aliowefj oaweijf ow",
  b!"eijf owiejf oweifj weofwefoi jawoiefj aowiefgj aelirugh aliowefj oaweijf oweijf ",
  b!"owiejf oweifj weofwefoi jawoiefj aowiefgj aelirugh aliowefj oaweijf oweijf owiej",
  b!"f oweifj weofwefoi jawoiefj aowiefgj aelirugh aliowefj oaweijf oweijf owiejf owe",
  b!"ifj weofwefoi jawoiefj aowi\nefgj aelirugh aliowefj oaweijf oweijf owiejf oweifj ",
  b!"weofwefoi jawoiefj aowiefgj aelirugh aliowefj oaweijf oweijf owiejf oweifj weofw",
  b!"efoi jawoiefj aowiefgj aelirugh aliowefj oaweijf oweijf owiejf oweifj weof"].flatten

/-- message.rs 564-621. -/
theorem chunked_body_huge_chunk : messageEof [b!"HTTP/1.1 200 OK\r\ntransfer-encoding: chunked\r\n\r\n", b!"C2A\r\n", chunked_body_huge_chunk_chunk, b!"\r\n", b!"0\r\n", b!"\r\n"] false
    (.value (b!"HTTP/1.1 200 OK", .fromPairs [(.standard b!"transfer-encoding", b!"chunked")], chunked_body_huge_chunk_chunk)) := by decide +kernel

/-- message.rs 623-639. -/
theorem huge_first_line : messageEof [b!"HTTP/1.1 200 OKroig jseorgi jpseoriegj seorigj epoirgj epsigrj paweorgj aeo6rgj seprogj aeorigj pserijg pseirjgp seijg aowijrg03w8u4 t0q83u40 qwifwagf awiorjgf aowi4rgj seprogj aeorigj pserijg pseirjgp seijg aowijrg03w8u4 t0q83u40 qwifwagf awiorjgf aowi3rgj seprogj aeorigj pserijg pseirjgp seijg aowijrg03w8u4 t0q83u40 qwifwagf awiorjgf aowi2rgj seprogj aeorigj pserijg pseirjgp seijg aowijrg03w8u4 t0q83u40 qwifwagf awiorjgf aowi1rgj seprogj aeorigj pserijg pseirjgp seijg aowijrg03w8u4 t0q83u40 qwifwagf awiorjgf aowi4rgj seprogj aeorigj pserijg pseirjgp seijg aowijrg03w8u4 t0q83u40 qwifwagf awiorjgf aowi8rgj seprogj aeorigj pserijg pseirjgp seijg aowijrg03w8u4 t0q83u40 qwifwagf awiorjgf aowi9fj asodijv osdivj osidvja psijf pasidjf pas\r\ncontent-length: 5\r\n\r\nhello"] false
    (.ioErr .limitReached) := by decide +kernel

/-- message.rs 641-657. -/
theorem huge_header : messageEof [b!"HTTP/1.1 200 OK\r\n", b!"big-header: iowjfo iawjeofiajw pefiawjpefoi hwjpeiUF HWPIU4FHPAIWUHGPAIWUHGP AIWUHGRP 9Q43GHP 9Q3824U P9 658 23 YP 5698U24P985U2P198 4YU5P23985THPWERIUHG LIEAHVL DIFSJNV LAID9Q43GHP 9Q3824U P9 658 23 YP 5698U24P985U2P198 4YU5P23985THPWERIUHG LIEAHVL DIFSJNV LAID9Q43GHP 9Q3824U P9 658 23 YP 5698U24P985U2P198 4YU5P23985THPWERIUHG LIEAHVL DIFSJNV LAID9Q43GHP 9Q3824U P9 658 23 YP 5698U24P985U2P198 4YU5P23985THPWERIUHG LIEAHVL DIFSJNV LAID9Q43GHP 9Q3824U P9 658 23 YP 5698U24P985U2P198 4YU5P23985THPWERIUHG LIEAHVL DIFSJNV LAID9Q43GHP 9Q3824U P9 658 23 YP 5698U24P985U2P198 4YU5P23985THPWERIUHG LIEAHVL DIFSJNV LAID3JFHVL AIJFHVL AILIHiuh waiufh iefuhapergiu hapergiu hapeirug haeriug hsperg ", b!"\r\n\r\n"] false
    (.ioErr .limitReached) := by decide +kernel

/-- message.rs 659-668. -/
theorem zero_content_length : messageEof [b!"HTTP/1.1 200 OK\r\n", b!"content-length: 0\r\n", b!"\r\n"] false
    (.value (b!"HTTP/1.1 200 OK", .fromPairs [(.standard b!"content-length", b!"0")], [])) := by decide +kernel

/-- message.rs 670-678. -/
theorem endless_line : messageEndless [] b!"blah" false
    (.ioErr .limitReached) := by decide +kernel

/-- message.rs 680-730. -/
theorem endless_headers :
    messageEndless [b!"HTTP/1.1 200 OK\r\n"] b!"random: blah\r\n" false
    (.ioErr .limitReached) ∧
    messageEndless [b!"HTTP/1.1 200 OK\r\n"] b!"random: blahh\r\n" false
    (.ioErr .limitReached) ∧
    messageEndless [b!"HTTP/1.1 200 OK\r\n"] b!"random: blahhhh\r\n" false
    (.ioErr .limitReached) ∧
    messageEndless [b!"HTTP/1.1 200 OK\r\n"] b!"a: a\r\n" false
    (.ioErr .limitReached) ∧
    messageEndless [b!"HTTP/1.1 200 OK\r\n"] b!"a" false
    (.ioErr .limitReached) ∧
    messageEndless [b!"HTTP/1.1 200 OK\r\n"] b!"a: " false
    (.ioErr .limitReached) ∧
    messageEndless [b!"HTTP/1.1 200 OK\r\n"] b!": " false
    (.ioErr .limitReached) := by decide +kernel

/-- message.rs 742-772. -/
theorem blocking_with_headers_and_body : messageBlocking false [
    ([b!"GET ", b!"/so"], .ioErr .wouldBlock),
    ([], .ioErr .wouldBlock),
    ([b!"mera", b!"ndomurl "], .ioErr .wouldBlock),
    ([], .ioErr .wouldBlock),
    ([b!"HT"], .ioErr .wouldBlock),
    ([b!"T"], .ioErr .wouldBlock),
    ([], .ioErr .wouldBlock),
    ([], .ioErr .wouldBlock),
    ([b!"P"], .ioErr .wouldBlock),
    ([b!"/1.1"], .ioErr .wouldBlock),
    ([b!"\r"], .ioErr .wouldBlock),
    ([b!"\n"], .ioErr .wouldBlock),
    ([b!"hell"], .ioErr .wouldBlock),
    ([b!"o: "], .ioErr .wouldBlock),
    ([b!"value\r\n"], .ioErr .wouldBlock),
    ([], .ioErr .wouldBlock),
    ([b!"con", b!"te", b!"nt", b!"-length: 5"], .ioErr .wouldBlock),
    ([], .ioErr .wouldBlock),
    ([b!"\r\n"], .ioErr .wouldBlock),
    ([], .ioErr .wouldBlock),
    ([b!"\r\n"], .ioErr .wouldBlock),
    ([b!"h"], .ioErr .wouldBlock),
    ([b!"e"], .ioErr .wouldBlock),
    ([], .ioErr .wouldBlock),
    ([b!"ll"], .ioErr .wouldBlock),
    ([b!"o"], .value (b!"GET /somerandomurl HTTP/1.1", .fromPairs [(.ofStr b!"content-length", b!"5"), (.ofStr b!"hello", b!"value")], b!"hello"))] := by decide +kernel

end Verif.Tests.Message
