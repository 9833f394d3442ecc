import Verif.Proofs.EndlessChunks
import Verif.Props.HttpsCloses

/-!
C79 for the whole server: a client whose first line, header section or chunked body has no end is cut off on every schedule.
-/

namespace Verif

variable {σ : Type} {prof : Profile} {rt : Router σ} {n N k : Nat} {s₀ : σ}

/-- As for requests that are refused (`C85_refused_partial`), for whatever is refused in whatever pieces it comes. -/
theorem cut_off (r : Net.Run prof rt n s₀) (hg : r.Going) (he : r.Ends) (hcr : ∀ t, (r.at_ t).pool.crashed.length < n) (hs : r.Steady N k)
    {ms : List (Bytes × Request)} (hms : ∀ m ∈ ms, FittingRequest m.1 m.2 ∧ ¬ CloseAsked m.2) {b : Bytes} (hb : Hopeless prof b)
    {z : Bytes} (hc : r.Comes k (ms.flatMap Prod.fst ++ b) z) :
    ∃ T as out conn, as.map Prod.fst = ms.map Prod.snd ∧ AnsweredIn rt as out ∧ conn.writer.sock.sent ++ conn.writer.pending = out ++ b!"HTTP/1.1 400 Bad Request\r\n\r\n" ∧
      ∀ t ≥ T, asksOn k (r.at_ t).asks = as ∧ ∃ c, (r.at_ t).conns[k]? = some c ∧ c.slot = .gone conn := by
  obtain ⟨T, c, h1, r₀, evs, h2, h3, h4, h5, h6, h7⟩ := r.finds hg he hcr hs hc
  obtain ⟨conn, out, h8, h9, h10, h11⟩ := h2.hopeless_text hms hb (fun conn h => ⟨h3 conn h, h7⟩) h4 h5 h6
  refine ⟨T, _, out, conn, h9, h10, h11, fun t ht => ?_⟩
  obtain ⟨⟨c', g1, g2⟩, g3⟩ := r.shut ht h1 (by rw [h8]; rfl)
  exact ⟨g3, c', g1, by rw [g2, h8]⟩

/-- C79 (partial: for first lines of ASCII characters, and for header lines of ASCII characters that repeat and whose length is a divisor of 4096 or 4095, and for chunks that repeat and whose size is a divisor of 3 MiB or one less; fewer handlers panic than there are workers; the socket as in `Net.Run.Steady`): if operating system, event loop and workers
go on, and a client sends requests and then 512 characters without the end of a line, or such a header line again and again, in whatever pieces and however slowly, then from some time on the connection is closed for good, whatever comes after these and whatever other connections do. The router was asked about the requests and nothing else, and what was sent, together with what was still in the
buffer when the connection was dropped, is its answers and one 400 response. -/
theorem C79_server_partial (r : Net.Run prof rt n s₀) (hg : r.Going) (he : r.Ends) (hcr : ∀ t, (r.at_ t).pool.crashed.length < n) (hs : r.Steady N k)
    {ms : List (Bytes × Request)} (hms : ∀ m ∈ ms, FittingRequest m.1 m.2 ∧ ¬ CloseAsked m.2) {b : Bytes} (hb : Interminable b)
    {z : Bytes} (hc : r.Comes k (ms.flatMap Prod.fst ++ b) z) :
    ∃ T as out conn, as.map Prod.fst = ms.map Prod.snd ∧ AnsweredIn rt as out ∧ conn.writer.sock.sent ++ conn.writer.pending = out ++ b!"HTTP/1.1 400 Bad Request\r\n\r\n" ∧
      ∀ t ≥ T, asksOn k (r.at_ t).asks = as ∧ ∃ c, (r.at_ t).conns[k]? = some c ∧ c.slot = .gone conn :=
  cut_off r hg he hcr hs hms (hb.hopeless prof) hc

/-- A text that is refused in whatever pieces it comes, over TLS. -/
theorem tls_cut_off (r : HttpsRun prof rt n s₀) (hf : r.run.Fair) (hcr : ∀ t, (r.run.at_ t).pool.crashed.length < n) {t : Nat} {cipher : Cipher} {input : List TlsEv}
    (hs : r.Come k t cipher input) (hr : r.Roomy k) (hst : r.Steady k) (hcut : AnyCut (TlsEv.plain input)) (he : ∃ t' ≥ t, (r.run.at_ t').Edge k)
    {ms : List (Bytes × Request)} (hms : ∀ m ∈ ms, FittingRequest m.1 m.2 ∧ ¬ CloseAsked m.2) {b : Bytes} (hb : Hopeless prof b)
    {z : Bytes} (htext : TlsEv.plain input = ms.flatMap Prod.fst ++ b ++ z) :
    ∃ T as out, as.map Prod.fst = ms.map Prod.snd ∧ AnsweredIn rt as out ∧
      ∀ t ≥ T, asksOn k (r.run.at_ t).asks = as ∧ ∃ c l l', (r.run.at_ t).conns[k]? = some c ∧ (∀ conn, c.slot ≠ .live conn) ∧ c.raw.raw.sess.log = l ++ .closeNotify :: l' ∧ .closeNotify ∉ l ∧
        (∀ y ∈ l', y = .reply ∨ y = .alert) ∧ l.flatMap TlsItem.plain = out ++ b!"HTTP/1.1 400 Bad Request\r\n\r\n" ∧ c.raw.raw.sock.sent = cipher.wire 0 (l ++ .closeNotify :: l') := by
  obtain ⟨T, hT, c, hc, x, r₀, evs, h1, h2, h3, h4, h5, h6, h7⟩ := r.finds hf hcr (r.quiet hr hs) hst hcut he
  obtain ⟨conn, out, rfl, h8, h9, h10⟩ := h2.hopeless_text hms hb (fun conn h => ⟨(h3 conn h).1, (List.prefix_append _ z).trans (htext ▸ (h3 conn h).2)⟩) h4 h5 (htext ▸ h6)
  refine ⟨T, _, out, h8, h9, fun t ht => ?_⟩
  have := r.shut_sent hr hst hc h1 (fun hg => ?_) hs ht (by omega)
  · rw [h10] at this
    exact this
  rw [hg] at h7
  obtain ⟨conn', out', -, h11, -⟩ := h2.hopeless_text (ms := ms ++ [aRequest]) (z := []) (stays_more hms) hb nofun h4 h5 (by rw [h7]; exact List.nil_prefix)
  have := congrArg List.length (h8.symm.trans h11)
  simp at this

/-- C79 (partial: for first lines, header lines and chunks as above; otherwise as `C85_tls_refused_sent_partial`): the same over TLS. After the answers to the requests comes one 400 response, all is sent, and then the connection is closed for good. -/
theorem C79_tls_server_partial (r : HttpsRun prof rt n s₀) (hf : r.run.Fair) (hcr : ∀ t, (r.run.at_ t).pool.crashed.length < n) {t : Nat} {cipher : Cipher} {input : List TlsEv}
    (hs : r.Come k t cipher input) (hr : r.Roomy k) (hst : r.Steady k) (hcut : AnyCut (TlsEv.plain input)) (he : ∃ t' ≥ t, (r.run.at_ t').Edge k)
    {ms : List (Bytes × Request)} (hms : ∀ m ∈ ms, FittingRequest m.1 m.2 ∧ ¬ CloseAsked m.2) {b : Bytes} (hb : Interminable b)
    {z : Bytes} (htext : TlsEv.plain input = ms.flatMap Prod.fst ++ b ++ z) :
    ∃ T as out, as.map Prod.fst = ms.map Prod.snd ∧ AnsweredIn rt as out ∧
      ∀ t ≥ T, asksOn k (r.run.at_ t).asks = as ∧ ∃ c l l', (r.run.at_ t).conns[k]? = some c ∧ (∀ conn, c.slot ≠ .live conn) ∧ c.raw.raw.sess.log = l ++ .closeNotify :: l' ∧ .closeNotify ∉ l ∧
        (∀ y ∈ l', y = .reply ∨ y = .alert) ∧ l.flatMap TlsItem.plain = out ++ b!"HTTP/1.1 400 Bad Request\r\n\r\n" ∧ c.raw.raw.sock.sent = cipher.wire 0 (l ++ .closeNotify :: l') :=
  tls_cut_off r hf hcr hs hr hst hcut he hms (hb.hopeless prof) htext

/-! ## The integration tests -/

/-- What the clients of the integration tests infinite_connection, infinite_connection_with_sleeps, infinite_headers, infinite_header_value and insanely_huge_body have sent when they are cut off at the latest
(tests/http_server.rs 397-496, 524-548); in the tests the last part of it goes on for ever. -/
def testTexts : List Bytes := [again 128 b!"blah", b!"GET / HTTP/1.1\r\n" ++ again 316 b!"random: value\r\n", b!"GET / HTTP/1.1\r\nheader: " ++ again 2 b!"blah\r\n", b!"GET / HTTP/1.1\r\ncontent-length: 99999999\r\n\r\n"]

theorem again_oneLine {b : Bytes} (h : OneLine b) (k : Nat) : OneLine (again k b) := by
  intro c hc
  obtain ⟨l, hl, hc⟩ := List.mem_flatten.1 hc
  rw [(List.mem_replicate.1 hl).2] at hc
  exact h c hc

theorem blah_oneLine : OneLine b!"blah" := by unfold OneLine; decide

theorem refused_of {b : Bytes} (h : ∃ e, (RequestParser.parse prof .new (Rd.sample [.data b])).1 = .perr e) (ha : (Rd.sample [.data b]).Ahead (b.map .byte)) (hr : (RequestParser.parse prof .new (Rd.sample [.data b])).2.src.atoms = []) : Refused prof b := by
  obtain ⟨e, h⟩ := h
  exact ⟨_, (RequestParser.parse prof .new (Rd.sample [.data b])).2, e, ha, Prod.ext h rfl, parse_lims ha.1, hr⟩

theorem testTexts_hopeless (prof : Profile) {b : Bytes} (hb : b ∈ testTexts) : Hopeless prof b := by
  simp only [testTexts, List.mem_cons, List.not_mem_nil, or_false] at hb
  rcases hb with rfl | rfl | rfl | rfl
  · exact (Interminable.line (again_oneLine blah_oneLine 128) (by rw [again_length]; decide)).hopeless prof
  · exact (Interminable.fields (m := .get) (u := b!"/") (l := b!"GET / HTTP/1.1") (f := (b!"random", b!"value")) ⟨b!"HTTP/1.1", [], by decide, by decide, .inl rfl, by decide⟩ ⟨by decide, by decide, by decide⟩
      ⟨⟨by decide, by decide, by decide⟩, not_occurs (by decide)⟩ (by decide) (by decide)).hopeless prof
  · refine Refused.hopeless (refused_of ⟨.badSyntax, ?_⟩ ⟨rfl, ?_⟩ ?_) <;> (obtain ⟨_ | _⟩ := prof <;> decide +kernel)
  · refine Refused.hopeless (refused_of ⟨.contentLengthTooLarge, ?_⟩ ⟨rfl, ?_⟩ ?_) <;> (obtain ⟨_ | _⟩ := prof <;> decide +kernel)

/-- C79 (partial: as above; infinite_chunked_body is not among the tests): the clients of the integration tests are cut off in every router, in whatever pieces their text comes, whatever follows and whatever other connections do: from some time on the connection is closed for good.
The router was never asked, and what was sent, together with what was still in the buffer when the connection was dropped, is one 400 response. -/
theorem C79_tests_partial (r : Net.Run prof rt n s₀) (hg : r.Going) (he : r.Ends) (hcr : ∀ t, (r.at_ t).pool.crashed.length < n) (hs : r.Steady N k) {b : Bytes} (hb : b ∈ testTexts) {z : Bytes} (hc : r.Comes k b z) :
    ∃ T conn, conn.writer.sock.sent ++ conn.writer.pending = b!"HTTP/1.1 400 Bad Request\r\n\r\n" ∧ ∀ t ≥ T, asksOn k (r.at_ t).asks = [] ∧ ∃ c, (r.at_ t).conns[k]? = some c ∧ c.slot = .gone conn := by
  obtain ⟨T, as, out, conn, h1, h2, h3, h4⟩ := cut_off r hg he hcr hs (ms := []) nofun (testTexts_hopeless prof hb) hc
  obtain rfl : as = [] := List.map_eq_nil_iff.1 h1
  cases h2
  exact ⟨T, conn, h3, h4⟩

/-- C79 over TLS for the texts of the integration tests except infinite_chunked_body, after any requests (partial: as `C79_tls_server_partial`): the client gets the answers and one 400 response, and the session and the connection are closed. -/
theorem C79_tls_tests_partial (r : HttpsRun prof rt n s₀) (hf : r.run.Fair) (hcr : ∀ t, (r.run.at_ t).pool.crashed.length < n) {t : Nat} {cipher : Cipher} {input : List TlsEv}
    (hs : r.Come k t cipher input) (hr : r.Roomy k) (hst : r.Steady k) (hcut : AnyCut (TlsEv.plain input)) (he : ∃ t' ≥ t, (r.run.at_ t').Edge k)
    {ms : List (Bytes × Request)} (hms : ∀ m ∈ ms, FittingRequest m.1 m.2 ∧ ¬ CloseAsked m.2) {b : Bytes} (hb : b ∈ testTexts)
    {z : Bytes} (htext : TlsEv.plain input = ms.flatMap Prod.fst ++ b ++ z) :
    ∃ T as out, as.map Prod.fst = ms.map Prod.snd ∧ AnsweredIn rt as out ∧
      ∀ t ≥ T, asksOn k (r.run.at_ t).asks = as ∧ ∃ c l l', (r.run.at_ t).conns[k]? = some c ∧ (∀ conn, c.slot ≠ .live conn) ∧ c.raw.raw.sess.log = l ++ .closeNotify :: l' ∧ .closeNotify ∉ l ∧
        (∀ y ∈ l', y = .reply ∨ y = .alert) ∧ l.flatMap TlsItem.plain = out ++ b!"HTTP/1.1 400 Bad Request\r\n\r\n" ∧ c.raw.raw.sock.sent = cipher.wire 0 (l ++ .closeNotify :: l') :=
  tls_cut_off r hf hcr hs hr hst hcut he hms (testTexts_hopeless prof hb) htext

/-! ## Witnesses -/

/-- A request, and then the text of `infinite_connection`, tests/http_server.rs 397-419, in two pieces. -/
def blahs : List Ev := [.data (aRequest.1 ++ again 60 b!"blah"), .data (again 70 b!"blah")]

theorem blahs_batch : OneBatch prof false blahs 6 := by
  constructor <;> (obtain ⟨_ | _⟩ := prof <;> decide +kernel)

theorem blahs_comes : (blahs_batch (prof := prof)).run.Comes 0 ([aRequest].flatMap Prod.fst ++ again 128 b!"blah") (again 2 b!"blah") := by
  refine blahs_batch.comes ⟨?_, by decide +kernel⟩ (by decide +kernel)
  refine .safe fun ev he => ?_
  simp only [blahs, List.mem_cons, List.not_mem_nil, or_false] at he
  rcases he with rfl | rfl
  · exact ⟨_, rfl, by decide, safeCut_ascii (by decide +kernel)⟩
  · exact ⟨_, rfl, by decide, safeCut_ascii (by decide +kernel)⟩

/-- The hypotheses of C79_server_partial can be met. -/
example : ∃ T conn, conn.writer.sock.sent ++ conn.writer.pending = b!"HTTP/1.1 404 Not Found\r\n\r\nHTTP/1.1 400 Bad Request\r\n\r\n" ∧
    ∀ t ≥ T, ∃ c, ((blahs_batch (prof := prof)).run.at_ t).conns[0]? = some c ∧ c.slot = .gone conn := by
  obtain ⟨T, as, out, conn, h1, h2, h3, h4⟩ := C79_server_partial (blahs_batch (prof := prof)).run blahs_batch.going blahs_batch.ends (fun t => (blahs_batch.facts t).1) blahs_batch.steady
    (ms := [aRequest]) (by simpa using aRequest_stays) (.line (again_oneLine blah_oneLine 128) (by rw [again_length]; decide)) blahs_comes
  refine ⟨T, conn, ?_, fun t ht => (h4 t ht).2⟩
  rw [h3]
  match as, h1 with
  | [(q, u)], _ =>
    cases h2 with
    | cons h h' =>
      cases h'
      simp only [Router.result, Router.resultInternal, Option.some.injEq] at h
      subst h
      decide +kernel
    | panic h => simp [Router.result, Router.resultInternal] at h

/-- What is sent in insanely_huge_body, in two pieces, with the beginning of the body. -/
def hugeBody : List Ev := [.data b!"GET / HTTP/1.1\r\ncontent-l", .data b!"ength: 99999999\r\n\r\nblahblah"]

theorem hugeBody_batch : OneBatch prof false hugeBody 3 := by
  constructor <;> (obtain ⟨_ | _⟩ := prof <;> decide +kernel)

theorem hugeBody_comes : (hugeBody_batch (prof := prof)).run.Comes 0 b!"GET / HTTP/1.1\r\ncontent-length: 99999999\r\n\r\n" b!"blahblah" := by
  refine hugeBody_batch.comes ⟨?_, by decide +kernel⟩ (by decide +kernel)
  refine .safe fun ev he => ?_
  simp only [hugeBody, List.mem_cons, List.not_mem_nil, or_false] at he
  rcases he with rfl | rfl
  · exact ⟨_, rfl, by decide, safeCut_ascii (by decide +kernel)⟩
  · exact ⟨_, rfl, by decide, safeCut_ascii (by decide +kernel)⟩

/-- The hypotheses of C79_tests_partial can be met. -/
example : ∃ T conn, conn.writer.sock.sent ++ conn.writer.pending = b!"HTTP/1.1 400 Bad Request\r\n\r\n" ∧
    ∀ t ≥ T, asksOn 0 ((hugeBody_batch (prof := prof)).run.at_ t).asks = [] ∧ ∃ c, ((hugeBody_batch (prof := prof)).run.at_ t).conns[0]? = some c ∧ c.slot = .gone conn :=
  C79_tests_partial (hugeBody_batch (prof := prof)).run hugeBody_batch.going hugeBody_batch.ends (fun t => (hugeBody_batch.facts t).1) hugeBody_batch.steady (by simp [testTexts]) hugeBody_comes

/-- And those of C79_tls_server_partial. -/
example (prof : Profile) : (∃ T as out, as.map Prod.fst = [aRequest.2] ∧ AnsweredIn counter as out ∧ ∀ t ≥ T, asksOn 0 ((leaveRun prof .endless).run.at_ t).asks = as) ∧
    ∃ t c, ((leaveRun prof .endless).run.at_ t).conns[0]? = some c ∧ c.slot.isLive = false ∧
      c.raw.raw.sock.sent = [0, 2, 1, 1] ++ b!"HTTP/1.1 200 OK\r\n\r\nhi" ++ [2, 1] ++ b!"HTTP/1.1 400 Bad Request\r\n\r\n" ++ [3, 4] := by
  constructor
  · obtain ⟨T, as, out, h1, h2, h3⟩ := C79_tls_server_partial (leaveRun prof .endless) (leave_fair prof .endless) (leave_crashed prof .endless) (leave_quiet prof .endless).toCome (leave_roomy prof .endless) (leave_steady prof .endless)
      (anyCut_ascii (by decide +kernel)) (leave_edge prof .endless) (ms := [aRequest]) (by simpa using aRequest_stays) (.line (again_oneLine blah_oneLine 128) (by rw [again_length]; decide)) (z := again 2 b!"blah") (by decide +kernel)
    exact ⟨T, as, out, h1, h2, fun t ht => (h3 t ht).1⟩
  · have h : (((leaveRun prof .endless).run.at_ 17).conns[0]?.any fun c => !c.slot.isLive && c.raw.raw.sock.sent == [0, 2, 1, 1] ++ b!"HTTP/1.1 200 OK\r\n\r\nhi" ++ [2, 1] ++ b!"HTTP/1.1 400 Bad Request\r\n\r\n" ++ [3, 4]) = true := by
      rcases prof with ⟨_ | _⟩ <;> decide +kernel
    obtain ⟨c, h1, h2⟩ := any_some h
    simp only [Bool.and_eq_true, beq_iff_eq, Bool.not_eq_true'] at h2
    exact ⟨17, c, h1, h2.1, h2.2⟩

/-- And those of C79_tls_tests_partial. -/
example (prof : Profile) : ∃ T as out, as.map Prod.fst = [aRequest.2] ∧ AnsweredIn counter as out ∧ ∀ t ≥ T, asksOn 0 ((leaveRun prof .endless).run.at_ t).asks = as := by
  obtain ⟨T, as, out, h1, h2, h3⟩ := C79_tls_tests_partial (leaveRun prof .endless) (leave_fair prof .endless) (leave_crashed prof .endless) (leave_quiet prof .endless).toCome (leave_roomy prof .endless) (leave_steady prof .endless)
    (anyCut_ascii (by decide +kernel)) (leave_edge prof .endless) (ms := [aRequest]) (by simpa using aRequest_stays) (b := again 128 b!"blah") (by simp [testTexts]) (z := again 2 b!"blah") (by decide +kernel)
  exact ⟨T, as, out, h1, h2, fun t ht => (h3 t ht).1⟩

/-- A chunked body that these theorems cover; that of the integration test infinite_chunked_body, with chunks of five bytes, is not covered. -/
example : Interminable (b!"GET / HTTP/1.1" ++ CRLF ++ (fieldLines [(b!"transfer-encoding", b!"chunked")] ++ CRLF ++ again (3 * 1024 * 1024 / 4 + 1) (b!"4" ++ CRLF ++ (b!"blah" ++ CRLF)))) :=
  .chunks (m := .get) (u := b!"/") (c := (b!"4", b!"blah")) ⟨b!"HTTP/1.1", [], by decide, by decide, .inl rfl, by decide⟩ ⟨by decide, by decide, by decide⟩
    (by simp only [List.mem_singleton, forall_eq]; exact ⟨⟨by decide, by decide, by decide⟩, not_occurs (by decide)⟩) (by decide +kernel) (by decide)
    (.chunked (v := b!"chunked") (by decide) (by decide) ⟨[], [], by simp⟩) ⟨by decide, .inl (.digit (d := 4) ⟨by decide, .inl ⟨by decide, by decide⟩⟩), by decide, by decide⟩ (by decide)

end Verif
