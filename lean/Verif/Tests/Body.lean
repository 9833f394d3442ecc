import Verif.Tests.Harness

/-!
The unit tests of `src/parse/body.rs`, written by `tools/mktests.py`.
-/

namespace Verif.Tests.Body

/-- body.rs 220-225. -/
theorem sized_body_all_at_once : sized 11 [
    ([b!"hello world"], .value (b!"hello world"))] := by decide +kernel

/-- body.rs 227-232. -/
theorem stops_reading_once_size_is_reached : sized 11 [
    ([b!"hello worldhello world"], .value (b!"hello world"))] := by decide +kernel

/-- body.rs 234-239. -/
theorem sized_body_all_at_once_fragmented : sized 11 [
    ([b!"h", b!"el", b!"lo", b!" w", b!"or", b!"ld"], .value (b!"hello world"))] := by decide +kernel

/-- body.rs 241-253. -/
theorem sized_body_partial : sized 11 [
    ([], .ioErr .wouldBlock),
    ([b!"h", b!"ell"], .ioErr .wouldBlock),
    ([b!"o"], .ioErr .wouldBlock),
    ([], .ioErr .wouldBlock),
    ([], .ioErr .wouldBlock),
    ([b!" w", b!"o", b!"rl"], .ioErr .wouldBlock),
    ([], .ioErr .wouldBlock),
    ([b!"d"], .value (b!"hello world"))] := by decide +kernel

/-- body.rs 255-265. -/
theorem sized_body_eof_before_size_reached : sized 11 [
    ([b!"h", b!"ell"], .ioErr .wouldBlock),
    ([b!"o"], .ioErr .wouldBlock),
    ([], .ioErr .wouldBlock),
    ([], .ioErr .wouldBlock),
    ([b!" w", b!"o", b!"rl"], .ioErr .wouldBlock),
    ([b!""], .ioErr .unexpectedEof)] := by decide +kernel

/-- body.rs 267-277. -/
theorem sized_body_more_data_than_size : sized 11 [
    ([b!"h", b!"ell"], .ioErr .wouldBlock),
    ([b!"o"], .ioErr .wouldBlock),
    ([], .ioErr .wouldBlock),
    ([], .ioErr .wouldBlock),
    ([b!" w", b!"o", b!"rl"], .ioErr .wouldBlock),
    ([b!"dblahblahblah"], .value (b!"hello world"))] := by decide +kernel

/-- body.rs 279-284. -/
theorem sized_body_eof_before_any_data : sized 11 [
    ([b!""], .ioErr .unexpectedEof)] := by decide +kernel

/-- body.rs 292-297. -/
theorem until_eof_all_at_once_with_eof : untilEof [
    ([b!"hello ", b!"blah ", b!"blah", b!" blah", b!""], .value (b!"hello blah blah blah"))] := by decide +kernel

/-- body.rs 299-311. -/
theorem until_eof_partial : untilEof [
    ([b!"hello "], .ioErr .wouldBlock),
    ([b!"he", b!"l", b!"lo"], .ioErr .wouldBlock),
    ([], .ioErr .wouldBlock),
    ([b!" "], .ioErr .wouldBlock),
    ([b!"hello"], .ioErr .wouldBlock),
    ([], .ioErr .wouldBlock),
    ([], .ioErr .wouldBlock),
    ([b!""], .value (b!"hello hello hello"))] := by decide +kernel

/-- body.rs 325-340. -/
theorem chunks_partial : chunked [
    ([b!"5\r\n"], .ioErr .wouldBlock),
    ([b!"hello"], .ioErr .wouldBlock),
    ([b!"\r\n"], .ioErr .wouldBlock),
    ([b!"1\r\n"], .ioErr .wouldBlock),
    ([b!" "], .ioErr .wouldBlock),
    ([b!"\r\n"], .ioErr .wouldBlock),
    ([b!"5\r\n"], .ioErr .wouldBlock),
    ([b!"world"], .ioErr .wouldBlock),
    ([b!"\r\n"], .ioErr .wouldBlock),
    ([b!"0\r\n"], .ioErr .wouldBlock),
    ([b!"\r\n"], .value (b!"hello world"))] := by decide +kernel

/-- body.rs 342-365. -/
theorem chunks_partial_no_data_sometimes : chunked [
    ([b!"5\r\n"], .ioErr .wouldBlock),
    ([], .ioErr .wouldBlock),
    ([b!"hello"], .ioErr .wouldBlock),
    ([], .ioErr .wouldBlock),
    ([b!"\r\n"], .ioErr .wouldBlock),
    ([b!"1\r\n"], .ioErr .wouldBlock),
    ([], .ioErr .wouldBlock),
    ([], .ioErr .wouldBlock),
    ([b!" "], .ioErr .wouldBlock),
    ([], .ioErr .wouldBlock),
    ([b!"\r\n"], .ioErr .wouldBlock),
    ([], .ioErr .wouldBlock),
    ([b!"5\r\n"], .ioErr .wouldBlock),
    ([b!"world"], .ioErr .wouldBlock),
    ([], .ioErr .wouldBlock),
    ([b!"\r\n"], .ioErr .wouldBlock),
    ([b!"0\r\n"], .ioErr .wouldBlock),
    ([], .ioErr .wouldBlock),
    ([b!"\r\n"], .value (b!"hello world"))] := by decide +kernel

/-- body.rs 367-372. -/
theorem chunks_all_at_once : chunked [
    ([b!"5\r\nhello\r\n1\r\n \r\n5\r\nworld\r\n0\r\n\r\n"], .value (b!"hello world"))] := by decide +kernel

/-- body.rs 374-379. -/
theorem chunks_all_at_once_fragmented : chunked [
    ([b!"5\r", b!"\nhel", b!"lo\r", b!"\n1\r\n", b!" \r\n5", b!"\r\nwor", b!"ld\r\n", b!"0\r\n", b!"\r", b!"\n"], .value (b!"hello world"))] := by decide +kernel

/-- body.rs 381-386. -/
theorem one_empty_chunk : chunked [
    ([b!"0\r\n", b!"\r\n"], .value [])] := by decide +kernel

/-- body.rs 388-395. -/
theorem chunk_size_in_hex : chunked [
    ([b!"f\r\n"], .ioErr .wouldBlock),
    ([b!"fifteen letters\r\n"], .ioErr .wouldBlock),
    ([b!"0\r\n\r\n"], .value (b!"fifteen letters"))] := by decide +kernel

/-- body.rs 397-402. -/
theorem stops_reading_at_empty_chunk : chunked [
    ([b!"5\r\n", b!"hello\r\n", b!"0\r\n\r\n", b!"7\r\n", b!"goodbye\r\n", b!"0\r\n\r\n"], .value b!"hello")] := by decide +kernel

/-- body.rs 404-428. -/
theorem chunk_one_byte_at_a_time : chunked [
    ([b!"a"], .ioErr .wouldBlock),
    ([b!"\r"], .ioErr .wouldBlock),
    ([b!"\n"], .ioErr .wouldBlock),
    ([b!"0"], .ioErr .wouldBlock),
    ([b!"1"], .ioErr .wouldBlock),
    ([b!"2"], .ioErr .wouldBlock),
    ([b!"3"], .ioErr .wouldBlock),
    ([b!"4"], .ioErr .wouldBlock),
    ([b!"5"], .ioErr .wouldBlock),
    ([b!"6"], .ioErr .wouldBlock),
    ([b!"7"], .ioErr .wouldBlock),
    ([b!"8"], .ioErr .wouldBlock),
    ([b!"9"], .ioErr .wouldBlock),
    ([b!"\r"], .ioErr .wouldBlock),
    ([b!"\n"], .ioErr .wouldBlock),
    ([b!"0"], .ioErr .wouldBlock),
    ([b!"\r"], .ioErr .wouldBlock),
    ([b!"\n"], .ioErr .wouldBlock),
    ([b!"\r"], .ioErr .wouldBlock),
    ([b!"\n"], .value b!"0123456789")] := by decide +kernel

/-- body.rs 430-435. -/
theorem chunk_size_too_large : chunked [
    ([b!"fffffff\r\n"], .parseErr .invalidChunkSize)] := by decide +kernel

/-- body.rs 449-455. -/
theorem chunk_body_too_large : chunked [
    ([b!"5\r\n"], .ioErr .wouldBlock),
    ([b!"helloo\r\n"], .parseErr .badSyntax)] := by decide +kernel

/-- body.rs 457-463. -/
theorem chunk_body_too_short : chunked [
    ([b!"5\r\n"], .ioErr .wouldBlock),
    ([b!"hell\r\n"], .parseErr .badSyntax)] := by decide +kernel

/-- body.rs 465-470. -/
theorem zero_content_length_no_data : sized 0 [
    ([], .value [])] := by decide +kernel

/-- body.rs 472-477. -/
theorem zero_content_length_eof : sized 0 [
    ([b!""], .value [])] := by decide +kernel

/-- body.rs 479-484. -/
theorem zero_content_length_with_data : sized 0 [
    ([b!"h", b!"ell"], .value [])] := by decide +kernel

end Verif.Tests.Body
