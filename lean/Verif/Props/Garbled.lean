import Verif.Proofs.ClientKeen
import Verif.Props.Client
import Verif.Props.ClientAny

/-!
C46: what is sent after a request that could not be written whole. The stream is kept if no other one can be opened, with what is in its buffer; the next request is written behind it.
-/

namespace Verif

/-- A piece that fits into the buffer is kept there. -/
theorem bufw_fits {w : BufW} {b : Bytes} (hb : b ≠ []) (h : w.buf.length + b.length < w.cap) : Write.writeAll w b = (.ok, { w with buf := w.buf ++ b }) := by
  obtain ⟨c, t, rfl⟩ := List.exists_cons_of_ne_nil hb
  unfold Write.writeAll Write.writeAllLoop
  rw [show Write.write w (c :: t) = w.write (c :: t) from rfl]
  unfold BufW.write
  rw [if_pos h]
  simp only [List.length_cons, List.drop_succ_cons, List.drop_length]
  unfold Write.writeAllLoop
  rfl

theorem bufw_fmt_fits {w : BufW} {ps : List Bytes} (hp : ∀ p ∈ ps, p ≠ []) (h : w.buf.length + ps.flatten.length < w.cap) : Write.fmt w ps = (.ok, { w with buf := w.buf ++ ps.flatten }) := by
  induction ps generalizing w with
  | nil => simp [Write.fmt]
  | cons p ps ih =>
    rw [List.flatten_cons, List.length_append] at h
    unfold Write.fmt
    rw [bufw_fits (hp p (List.mem_cons_self ..)) (by omega)]
    dsimp only
    rw [ih (fun p hm => hp p (List.mem_cons_of_mem _ hm)) (by simp only [List.length_append]; omega)]
    simp

/-- A piece that does not fit is not written if what is in the buffer cannot be written. -/
theorem bufw_stuck {buf b : Bytes} {cap : Nat} {es : List WEv} {fl : List (Option IoError)} {sent : Bytes} (hbuf : buf ≠ []) (hb : b ≠ []) (h : cap < buf.length + b.length) :
    Write.writeAll (⟨buf, cap, ⟨.err .wouldBlock :: es, fl, sent⟩⟩ : BufW) b = (.err .wouldBlock, ⟨buf, cap, ⟨es, fl, sent⟩⟩) := by
  obtain ⟨c, t, rfl⟩ := List.exists_cons_of_ne_nil hb
  obtain ⟨d, u, rfl⟩ := List.exists_cons_of_ne_nil hbuf
  unfold Write.writeAll Write.writeAllLoop
  rw [show Write.write (⟨d :: u, cap, ⟨.err .wouldBlock :: es, fl, sent⟩⟩ : BufW) (c :: t) = BufW.write ⟨d :: u, cap, ⟨.err .wouldBlock :: es, fl, sent⟩⟩ (c :: t) from rfl]
  unfold BufW.write
  rw [if_neg (by dsimp only; omega), if_pos (by dsimp only; omega)]
  rfl

/-- A request whose Content-Length is the length of its body. -/
def upload (uri : Bytes) (body : Bytes) : Request := ⟨uri, .post, [(.contentLength, [natDec body.length])], body⟩

theorem upload_sendable {c : UInt8} (hc : 97 ≤ c ∧ c < 128) {body : Bytes} (h : body.length ≤ 10000) : (upload [47, c] body).Sendable := by
  obtain ⟨-, h1, -⟩ := sized_sendable (st := ⟨200, b!"OK"⟩) (by decide) (natDec_numeral body.length) (Nat.le_trans (natDec_length _ 5 (by omega)) (by decide)) (by omega)
  have h3 : c ≠ 32 := fun h => absurd (h ▸ hc.1) (by decide)
  have h4 : c ≠ 10 := fun h => absurd (h ▸ hc.1) (by decide)
  refine ⟨?_, ?_, ?_, by simp [upload, Method.text], h1, .inl ⟨_, ⟨[], by simp [upload]⟩, .inl (natDec_numeral _), by simp only [upload]; omega⟩⟩
  · simp only [upload, List.mem_cons, List.not_mem_nil, or_false, not_or]; exact ⟨by decide, fun h => h3 h.symm⟩
  · simp only [upload, List.mem_cons, List.not_mem_nil, or_false, not_or]; exact ⟨by decide, fun h => h4 h.symm⟩
  · exact utf8_ascii (by simp only [upload, List.mem_cons, List.not_mem_nil, or_false]; intro x hx; rcases hx with rfl | rfl <;> first | exact hc.2 | decide)

/-- What comes before the body. -/
def uploadHead (c : UInt8) (n : Nat) : Bytes := b!"POST /" ++ [c] ++ b!" HTTP/1.1\r\ncontent-length: " ++ natDec n ++ b!"\r\n\r\n"

theorem upload_bytes (c : UInt8) (body : Bytes) : requestBytes (upload [47, c] body) = uploadHead c body.length ++ body := by
  simp only [requestBytes, upload, uploadHead, Method.text, List.flatMap_cons, List.flatMap_nil, List.append_nil]
  rw [show Header.contentLength.asStr = b!"content-length" from by decide]
  simp only [List.append_assoc, List.cons_append, List.nil_append]

theorem writeRequest_stuck (c : UInt8) {body : Bytes} (hb : 8192 ≤ body.length) (hb' : body.length ≤ 10000) (es : List WEv) (fl : List (Option IoError)) :
    writeRequest (⟨[], 8192, ⟨.err .wouldBlock :: es, fl, []⟩⟩ : BufW) (upload [47, c] body) = (.err .wouldBlock, ⟨uploadHead c body.length, 8192, ⟨es, fl, []⟩⟩) := by
  have hn := natDec_length body.length 5 (by omega)
  have hn0 := numeral_ne_nil (natDec_numeral body.length)
  have hcl : Header.contentLength.asStr = b!"content-length" := by decide
  unfold writeRequest
  rw [bufw_fmt_fits (by simp [upload, Method.text, CRLF]) (by simp [upload, Method.text, CRLF])]
  simp only [Write.andThen]
  simp only [upload, HeaderMap.flat, List.flatMap_cons, List.flatMap_nil, List.map_cons, List.map_nil, List.append_nil, Write.headerLines]
  rw [bufw_fmt_fits (by rw [hcl]; simp [CRLF, hn0]) (by rw [hcl]; simp [Method.text, CRLF]; omega)]
  simp only [Write.andThen]
  rw [bufw_fits (by simp [CRLF]) (by rw [hcl]; simp [Method.text, CRLF]; omega)]
  dsimp only
  rw [bufw_stuck (by simp) (by rintro rfl; simp at hb) (by simp only [List.length_append, CRLF, List.length_cons, List.length_nil]; omega)]
  dsimp only
  rw [hcl]
  simp [Method.text, uploadHead, CRLF, SP]

/-- A stream that blocks once and then does what it is told, and on which one response arrives. -/
def blocksOnce (es : List WEv) : RawStream := { input := [.data (responseBytes (.ofBody b!"x"))], output := .err .wouldBlock :: es }

theorem blocksOnce_parses (prof : Profile) (es : List WEv) : (ResponseParser.parse prof .new (ClientStream.open (blocksOnce es)).reader).1 = .done (.ofBody b!"x") := by
  have : (ResponseParser.parse prof .new (ClientStream.open (blocksOnce [])).reader).1 = .done (.ofBody b!"x") := by
    rcases prof with ⟨_ | _⟩ <;> decide +kernel
  exact this

/-- The first call is stuck after the head of its request; the second writes its request behind it. -/
theorem garbled {prof : Profile} {x y : Bytes} {es : List WEv} (hx : x.length = 10000) (hy : (uploadHead 98 y.length ++ y).length = 10000) (hes : ∀ ev ∈ es, ev = .accept 10000) (hn : 20000 ≤ takers es) : ∃ c₁ f₁ c₂ f₂ s,
    ClientConn.send prof .new [CreateEnd.ok (blocksOnce es)] (upload [47, 97] x) = (.err (.connecting .other), c₁, f₁) ∧ c₁.send prof f₁ (upload [47, 98] y) = (.ok (.ofBody b!"x"), c₂, f₂) ∧
    c₂.all = [s] ∧ s.asked = [upload [47, 97] x, upload [47, 98] y] ∧ s.writer.sock.sent = uploadHead 97 10000 ++ (uploadHead 98 y.length ++ y) ∧ bytesOf s.given = responseBytes (.ofBody b!"x") := by
  have hstuck := writeRequest_stuck 97 (body := x) (by omega) (by omega) es []
  rw [hx] at hstuck
  have hfirst : sendRequest prof (.open (blocksOnce es)) (upload [47, 97] x) = (.err (.writing .wouldBlock),
      ⟨(ClientStream.open (blocksOnce es)).reader, ⟨uploadHead 97 10000, 8192, ⟨es, [], []⟩⟩, [upload [47, 97] x], (ClientStream.open (blocksOnce es)).given⟩) := by
    unfold sendRequest
    simp only [ClientStream.open, blocksOnce] at hstuck ⊢
    rw [hstuck]
    rfl
  have hhead : (uploadHead 97 10000).length = 43 := by decide +kernel
  have hkeen := writeRequest_keen (N := 20000) ⟨uploadHead 97 10000, 8192, ⟨es, [], []⟩⟩ (upload [47, 98] y) ⟨fun ev he => .inr ⟨10000, by omega, hes ev he⟩, nofun, by simpa using hn⟩
    (by simp only [BufW.total, List.nil_append]; rw [upload_bytes]; omega)
  obtain ⟨k1, -, k3⟩ := hkeen
  obtain ⟨k4, k5, k6⟩ | ⟨e, k4, -⟩ := C54_client_in_order ⟨uploadHead 97 10000, 8192, ⟨es, [], []⟩⟩ (upload [47, 98] y)
  · rw [upload_bytes] at k6
    have hp := blocksOnce_parses prof es
    cases hw : writeRequest (⟨uploadHead 97 10000, 8192, ⟨es, [], []⟩⟩ : BufW) (upload [47, 98] y) with
    | mk o w =>
    rw [hw] at k4 k5 k6
    dsimp only at k4 k5 k6
    subst k4
    cases hq : ResponseParser.parse prof .new (ClientStream.open (blocksOnce es)).reader with
    | mk o rd =>
    rw [hq] at hp
    dsimp only at hp
    subst hp
    refine ⟨⟨some ⟨(ClientStream.open (blocksOnce es)).reader, ⟨uploadHead 97 10000, 8192, ⟨es, [], []⟩⟩, [upload [47, 97] x], (ClientStream.open (blocksOnce es)).given⟩, []⟩, [],
      ⟨some ⟨rd, w, [upload [47, 97] x, upload [47, 98] y], (ClientStream.open (blocksOnce es)).given⟩, []⟩, [], ⟨rd, w, [upload [47, 97] x, upload [47, 98] y], (ClientStream.open (blocksOnce es)).given⟩, ?_, ?_, rfl, rfl, ?_, ?_⟩
    · unfold ClientConn.send ClientConn.sendOpen
      simp only [ClientConn.new, ClientConn.connect, StreamFactory.create, Option.map_none, Option.toList_none, List.append_nil]
      rw [hfirst]
      simp only [ClientConn.retry, ClientConn.connect, StreamFactory.create]
    · unfold ClientConn.send ClientConn.sendOpen sendRequest
      dsimp only
      rw [hw]
      dsimp only
      rw [hq]
      rfl
    · simpa using k6
    · have : bytesOf (ClientStream.open (blocksOnce [])).given = responseBytes (.ofBody b!"x") := by decide +kernel
      exact this
  · rw [k4] at k1
    cases k1

theorem accepts_replicate (n k : Nat) : n ≤ takers (List.replicate n (.accept k)) := by
  induction n with
  | zero => exact Nat.zero_le _
  | succ n ih =>
    simp only [List.replicate_succ, takers]
    omega

/-- C46 fails: the first call cannot write its request whole, because the stream blocks, and no other stream can be opened. The stream is kept, with the head of the request in its buffer. The second call, for another request, writes its request
behind this head: what is sent is one request, which nobody has made, with the second request as the body of the first; and the answer to it is returned for the second. -/
theorem C46_garbled_false (prof : Profile) : ∃ (a b : Request) (r : Response), a.Sendable ∧ b.Sendable ∧ ∃ (f f₁ f₂ : List CreateEnd) (c₁ c₂ : ClientConn) (s : ClientStream),
    ClientConn.send prof .new f a = (.err (.connecting .other), c₁, f₁) ∧ c₁.send prof f₁ b = (.ok r, c₂, f₂) ∧ c₂.all = [s] ∧ s.asked = [a, b] ∧
    s.writer.sock.sent = requestBytes { a with body := requestBytes b } ∧ FittingRequest s.writer.sock.sent { a with body := requestBytes b } ∧
    bytesOf s.given = responseBytes r := by
  have hh : (uploadHead 98 9958).length = 42 := by decide +kernel
  have main : ∀ x y : Bytes, x.length = 10000 → y.length = 9958 → _ := fun x y hx hy => garbled (prof := prof) (es := List.replicate 20000 (.accept 10000)) hx
    (show (uploadHead 98 y.length ++ y).length = 10000 by rw [List.length_append, hy, hh]) (fun ev he => (List.mem_replicate.1 he).2) (accepts_replicate 20000 10000)
  obtain ⟨x, hx⟩ : ∃ x : Bytes, x.length = 10000 := ⟨List.replicate 10000 120, List.length_replicate⟩
  obtain ⟨y, hy⟩ : ∃ y : Bytes, y.length = 9958 := ⟨List.replicate 9958 120, List.length_replicate⟩
  obtain ⟨c₁, f₁, c₂, f₂, s, h1, h2, h3, h4, h5, h6⟩ := main x y hx hy
  have hlen : (requestBytes (upload [47, 98] y)).length = 10000 := by rw [upload_bytes, List.length_append, hy, hh]
  have hab : { upload [47, 97] x with body := requestBytes (upload [47, 98] y) } = upload [47, 97] (requestBytes (upload [47, 98] y)) := by
    simp only [upload] at hlen ⊢
    rw [hlen, hx]
  have hsent : s.writer.sock.sent = requestBytes (upload [47, 97] (requestBytes (upload [47, 98] y))) := by
    rw [upload_bytes, hlen, h5, upload_bytes]
  refine ⟨_, _, _, upload_sendable (by decide) (by omega), upload_sendable (by decide) (by omega), _, f₁, f₂, c₁, c₂, s, h1, h2, h3, h4, ?_, ?_, h6⟩
  · rw [hab, hsent]
  · rw [hab, hsent]
    exact (upload_sendable (by decide) (by omega)).fitting

/-- C76 fails: over TLS it is enough that the handshakes are slow. The first call fails with an error of writing, as the handshake is not over in time with either server, and nothing was sent to them. The second call, for another request, finds the
handshake done and the first request in the buffer of the stream. So the request whose call failed is sent after all, and its response is returned for the second. Every server answers what it is asked, in order and at once. -/
theorem C76_handshake_false (prof : Profile) : ∃ (ans : Request → Response) (a b : Request) (peers : List TlsPeer), ans a ≠ ans b ∧ ∃ (c₁ c₂ : AnyConn (Traced TlsStream)) (f₁ f₂ : TlsStreamFactory),
    AnyConn.sendAll prof id [(id, 20, a)] .new (toyClient peers) = some ([.err (.writing .wouldBlock)], c₁, f₁) ∧ (∀ x ∈ c₁.all, x.traced.put = []) ∧
    AnyConn.sendAll prof id [(id, 20, a), (id, 20, b)] .new (toyClient peers) = some ([.err (.writing .wouldBlock), .ok (ans a)], c₂, f₂) ∧
    (∀ x, c₂.stream = some x → x.traced.put = requestBytes a ++ requestBytes b) ∧ ∀ x ∈ c₂.all, ∃ b, x.traced.got <+: b ∧ x.Honest ans b := by
  let peers := [toyPeer [.err .wouldBlock], toyPeer [.err .wouldBlock, .records true [] false true, .records false (responseBytes (echo (ask 97))) false false]]
  obtain ⟨c₁, f₁, h1, h2⟩ := toy_sends (prof := prof) (qs := [(20, ask 97)]) (os := [.err (.writing .wouldBlock)]) (peers := peers) (seen := [⟨[ask 97], [], [], 0⟩, ⟨[ask 97], [], [], 2⟩])
    (by rcases prof with ⟨_ | _⟩ <;> decide +kernel)
  obtain ⟨c₂, f₂, h3, h4⟩ := toy_sends (prof := prof) (qs := [(20, ask 97), (20, ask 98)]) (os := [.err (.writing .wouldBlock), .ok (echo (ask 97))]) (peers := peers)
    (seen := [⟨[ask 97], [], [], 0⟩, ⟨[ask 97, ask 98], requestBytes (ask 97) ++ requestBytes (ask 98), responseBytes (echo (ask 97)), 0⟩])
    (by rcases prof with ⟨_ | _⟩ <;> decide +kernel)
  refine ⟨echo, ask 97, ask 98, peers, echo_ne (by decide), c₁, c₂, f₁, f₂, h1, ?_, h3, ?_, ?_⟩
  · intro x hx
    have := List.mem_map_of_mem (f := AnyStream.seen) hx
    rw [h2] at this
    simp only [AnyStream.seen, List.mem_cons, SeenTls.mk.injEq, List.not_mem_nil, or_false] at this
    rcases this with h | h <;> exact h.2.1
  · intro x hx
    have := congrArg List.getLast? h4
    rw [AnyConn.all, hx] at this
    simp only [Option.toList_some, List.map_append, List.map_cons, List.map_nil, List.getLast?_append, List.getLast?_singleton, Option.some_or] at this
    simp only [AnyStream.seen, List.getLast?_cons_cons, List.getLast?_singleton, Option.some.injEq, SeenTls.mk.injEq] at this
    exact this.2.1
  · refine toy_honest (ys := [([97], []), ([97, 98], responseBytes (echo (ask 97)))]) ?_ (by decide +kernel)
    have := congrArg (List.map fun (e : SeenTls) => (e.asked, e.got)) h4
    rw [List.map_map] at this
    exact this

end Verif
