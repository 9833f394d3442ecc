import Verif.Tests.Harness
import Verif.Model.Slab
import Verif.Model.ClientPool
import Verif.Proofs.Complete
import Verif.Props.Limits

/-!
Unit tests of the project that are not of the common forms, translated by hand.
-/

namespace Verif.Tests

/-! `src/common/header.rs` -/

namespace Header

/-- What the three tests of header maps assert; `hs` is the map, which `add_header`, `from_pairs` or the macro made. -/
def holds (hs : HeaderMap) : Bool :=
  hs.containsHeaderValue .connection b!"value 1" && hs.containsHeaderValue .connection b!"value 2" &&
  hs.containsHeaderValue .connection b!"value 3" && hs.containsHeaderValue .contentLength b!"5" &&
  hs.containsHeaderValue .contentType b!"something" && hs.getFirst .connection == some b!"value 1" &&
  hs.getFirst .contentLength == some b!"5" && hs.getFirst .contentType == some b!"something"

/-- header.rs 224-242. -/
theorem header_map : holds ([(Header.connection, b!"value 1"), (.connection, b!"value 2"), (.connection, b!"value 3"),
    (.contentLength, b!"5"), (.contentType, b!"something")].foldl (fun m kv => HeaderMap.addHeader m kv.1 kv.2) []) := by decide +kernel

/-- header.rs 244-263. -/
theorem header_map_from_pairs : holds (.fromPairs [(.connection, b!"value 1"), (.contentLength, b!"5"),
    (.connection, b!"value 2"), (.contentType, b!"something"), (.connection, b!"value 3")]) := by decide +kernel

/-- header.rs 265-268. -/
theorem header_map_macro_empty_header_map : (HeaderMap.fromPairs []).isEmpty := by decide +kernel

/-- header.rs 270-273. -/
theorem header_map_macro_predefined_header_from_str : Header.connection = .ofStr b!"ConnEctiOn" := by decide +kernel

/-- header.rs 275-278. -/
theorem header_map_macro_custom_header_from_str : Header.custom b!"custom-header" = .ofStr b!"Custom-Header" := by decide +kernel

/-- The map of the next test. -/
def macroMap : HeaderMap := .fromPairs [(.connection, b!"value 1"), (.contentLength, b!"5"), (.connection, b!"value 2"),
  (.contentType, b!"something"), (.connection, b!"value 3"), (.ofStr b!"custom-header", b!"hello"),
  (.ofStr b!"coNneCtion", b!"value 4"), (.ofStr b!"transfer-encoding", b!"chunked")]

/-- header.rs 280-306. -/
theorem header_map_macro : holds macroMap ∧ macroMap.containsHeaderValue .connection b!"value 4" ∧
    macroMap.containsHeaderValue (.custom b!"custom-header") b!"hello" ∧
    macroMap.containsHeaderValue (.ofStr b!"transfer-encoding") b!"chunked" ∧
    macroMap.getFirst .transferEncoding = some b!"chunked" := by decide +kernel

/-- header.rs 308-314. -/
theorem from_str : Header.ofStr b!"hello" = .custom b!"hello" ∧ Header.ofStr b!"HeLlO" = .custom b!"hello" ∧
    Header.ofStr b!"content-length" = .contentLength ∧ Header.ofStr b!"ContenT-leNgth" = .contentLength := by decide +kernel

/-- header.rs 316-322: the same, from a `String`. -/
theorem from_string : Header.ofStr b!"hello" = .custom b!"hello" ∧ Header.ofStr b!"HeLlO" = .custom b!"hello" ∧
    Header.ofStr b!"content-length" = .contentLength ∧ Header.ofStr b!"ContenT-leNgth" = .contentLength := from_str

end Header

/-! `src/common/status.rs` -/

namespace Status

/-- status.rs 103-106. -/
theorem from_code_valid : some Status.ok = Status.fromCode 200 := by decide +kernel

/-- status.rs 108-111. -/
theorem from_code_invalid : none = Status.fromCode 2 := by decide +kernel

end Status

/-! `src/server/slab.rs` -/

namespace Slab

/-- The operations of the tests of `Slab`, and what they assert. -/
inductive Op
  /-- `assert_eq!(slab.next_key(), slab.insert(x))`, the key being the given one. -/
  | insert (x : Bytes) (key : Nat)
  | remove (key : Nat) (found : Bool)
  | get (key : Nat) (found : Option Bytes)

/-- Run them. The keys are written out, so that the names of the test are not needed. -/
def run : List Op → Slab Bytes → Bool
  | [], _ => true
  | .insert x k :: os, s =>
    s.nextKey == k && match s.insert x with
      | some (s, k') => k' == k && run os s
      | none => false
  | .remove k found :: os, s => (s.remove k).1.isSome == found && run os (s.remove k).2
  | .get k found :: os, s => s.get k == found && run os s

/-- slab.rs 54-71. -/
theorem test_insertion : run [.insert b!"a" 0, .insert b!"b" 1, .insert b!"c" 2, .insert b!"d" 3, .get 0 b!"a", .get 1 b!"b",
    .get 2 b!"c", .get 3 b!"d"] .new := by decide +kernel

/-- slab.rs 73-91. -/
theorem test_removal : run [.insert b!"a" 0, .insert b!"b" 1, .insert b!"c" 2, .insert b!"d" 3, .remove 0 true,
    .remove 1 true, .remove 2 true, .remove 3 true, .get 0 none, .get 1 none, .get 2 none, .get 3 none] .new := by
  decide +kernel

/-- slab.rs 93-105. -/
theorem double_removal : run [.insert b!"a" 0, .remove 0 true, .remove 0 false, .insert b!"a" 0, .get 0 b!"a"] .new := by
  decide +kernel

/-- slab.rs 107-112. -/
theorem key_out_of_bounds : run [.get 1000 none] .new := by decide +kernel

/-- slab.rs 114-119. -/
theorem remove_key_out_of_bounds : run [.remove 1000 false] .new := by decide +kernel

end Slab

/-! `src/parse/request.rs` -/

namespace Request

/-- What the tests of `has_data` look at. -/
def dataAfter (r : Rd) : Option (IoError × Bool) :=
  match RequestParser.parse debug .new r with
  | (.io p e, _) => some (e, p.hasData)
  | _ => none

/-- request.rs 478-482. -/
theorem has_data_false : RequestParser.new.hasData = false := by decide +kernel

/-- request.rs 484-497. -/
theorem has_data_false_with_failed_read : dataAfter (reader []) = some (.wouldBlock, false) := by decide +kernel

/-- request.rs 499-510. -/
theorem has_data_false_with_eof_read : dataAfter (ending [b!""]) = some (.unexpectedEof, false) := by decide +kernel

/-- request.rs 512-525. -/
theorem has_data_true : dataAfter (reader [b!"hello"]) = some (.wouldBlock, true) := by decide +kernel

/-- request.rs 527-540. -/
theorem has_data_true_more_than_first_line :
    dataAfter (reader [b!"GET / HTTP/1.1\r\nhello: hi\r\n"]) = some (.wouldBlock, true) := by decide +kernel

end Request

/-! `src/server/server.rs`: `write_response` -/

namespace Server

/-- The response of the next test, its header map iterated in either order. -/
def withBoth (swap : Bool) : Response :=
  let hs : HeaderMap := .fromPairs [(.contentType, b!"hello"), (.connection, b!"bye")]
  ⟨.ok, if swap then hs.reverse else hs, b!"the body"⟩

/-- server.rs 656-678: whichever way the header map is iterated. -/
theorem write_response_with_headers_and_body :
    ((writeResponse (⟨[], []⟩ : MockWriter) (withBoth false)).2.flushed.flatten =
      b!"HTTP/1.1 200 OK\r\ncontent-type: hello\r\nconnection: bye\r\n\r\nthe body") ∧
    ((writeResponse (⟨[], []⟩ : MockWriter) (withBoth true)).2.flushed.flatten =
      b!"HTTP/1.1 200 OK\r\nconnection: bye\r\ncontent-type: hello\r\n\r\nthe body") := by decide +kernel

/-- server.rs 680-690. -/
theorem write_response_no_header_or_body_to_bytes :
    writeResponse ([] : Bytes) ⟨.ok, [], []⟩ = (.ok, b!"HTTP/1.1 200 OK\r\n\r\n") := by decide +kernel

/-- server.rs 692-704. -/
theorem write_response_one_header_no_body_to_bytes :
    writeResponse ([] : Bytes) ⟨.ok, .fromPairs [(.custom b!"custom header", b!"header value")], []⟩ =
      (.ok, b!"HTTP/1.1 200 OK\r\ncustom header: header value\r\n\r\n") := by decide +kernel

end Server

/-! `src/server/nonblocking_buf_writer.rs` -/

namespace NbwTest

/-- The stream that the mock writer is: it takes all that it is given, in `n` writes at most. -/
def willing (n : Nat) : Sock := ⟨List.replicate n (.accept 1000), [], []⟩

/-- The writer of the test. -/
def start : Nbw := .withCapacity 16 (fun c n => max (2 * c) n) (fun c n => Nat.le_trans (by omega : c ≤ 2 * c) (Nat.le_max_left _ _))
  (willing 10)

/-- Write these one after the other: all succeed, and this is what the stream has got. -/
def wrote (xs : List Bytes) : Option Bytes × Nbw :=
  xs.foldl (fun s x => match s.1, s.2.write x with
    | some _, (.ok _, w) => (some w.sock.sent, w)
    | _, (_, w) => (none, w)) (some [], start)

/-- nonblocking_buf_writer.rs 95-119. That each piece is one write of the stream is not in the model of streams, only what was
written. -/
theorem writes_and_flushes_with_no_blocking :
    (wrote [b!"hello 1", b!"hello 2"]).1 = some [] ∧
    (wrote [b!"hello 1", b!"hello 2", b!"hello 3"]).1 = some b!"hello 1hello 2" ∧
    (wrote [b!"hello 1", b!"hello 2", b!"hello 3", b!"this is big and wont fit in the buffer"]).1 =
      some b!"hello 1hello 2hello 3this is big and wont fit in the buffer" ∧
    (wrote [b!"hello 1", b!"hello 2", b!"hello 3", b!"this is big and wont fit in the buffer"]).2.flush.2.sock.sent =
      b!"hello 1hello 2hello 3this is big and wont fit in the buffer" := by decide +kernel

end NbwTest

/-! `src/client/client.rs` -/

namespace Client

/-- client.rs 181-189: `zero_connections` panics. -/
theorem zero_connections (threads : Nat) : (CPool.new 0 threads).isNone := rfl

/-- The request of the next test, its header map iterated in either order. -/
def withBoth (swap : Bool) : Request :=
  let hs : HeaderMap := .fromPairs [(.contentType, b!"hello"), (.ofStr b!"HeLlO", b!"blah")]
  ⟨b!"/hello/blah", .post, if swap then hs.reverse else hs, b!"the body"⟩

/-- client.rs 191-214. -/
theorem write_request_with_headers_and_body :
    ((writeRequest (⟨[], []⟩ : MockWriter) (withBoth false)).2.flushed.flatten =
      b!"POST /hello/blah HTTP/1.1\r\ncontent-type: hello\r\nhello: blah\r\n\r\nthe body") ∧
    ((writeRequest (⟨[], []⟩ : MockWriter) (withBoth true)).2.flushed.flatten =
      b!"POST /hello/blah HTTP/1.1\r\nhello: blah\r\ncontent-type: hello\r\n\r\nthe body") := by decide +kernel

/-- client.rs 216-227. -/
theorem write_empty_request : writeRequest ([] : Bytes) ⟨b!"/", .get, [], []⟩ = (.ok, b!"GET / HTTP/1.1\r\n\r\n") := by
  decide +kernel

/-- client.rs 229-242. -/
theorem write_response_one_header_no_body_to_bytes :
    writeRequest ([] : Bytes) ⟨b!"/", .get, .fromPairs [(.ofStr b!"custom header", b!"header value")], []⟩ =
      (.ok, b!"GET / HTTP/1.1\r\ncustom header: header value\r\n\r\n") := by decide +kernel

/-- client.rs 244-271, the part that is not about threads: with a factory that always fails, `send` returns an error. (That calls
of several threads return is C44 and C45.) -/
theorem can_call_send_request_from_multiple_threads (q : Request) :
    (ClientConn.new.send debug ([] : List CreateEnd) q).1 = .err (.connecting .other) := rfl

end Client

/-! `src/parse/error_take.rs` -/

namespace ErrorTake

/-- error_take.rs 59-72: a limit of 100 over a reader that never ends. -/
theorem infinite_reader :
    let x := Reader.readToEnd [] (Reader.push 100 (endlessly [] b!"blahblahblah"))
    x.1 = .err .limitReached ∧ x.2.1.length ≤ 100 := by decide +kernel

end ErrorTake

end Verif.Tests
