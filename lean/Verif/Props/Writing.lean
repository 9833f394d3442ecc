import Verif.Proofs.ClientWriter

/-!
C31, C32, C33, C39, C54: what is written arrives on the wire.
-/

namespace Verif

/-- A writer as the server makes it (server.rs 74-76), with some growth of its buffer, before a socket. -/
def Nbw.sample (evs : List WEv) : Nbw := Nbw.withCapacity 4096 (fun c n => c + n) (by intros; omega) ⟨evs, [], []⟩

/-- A response with a body of 4097 bytes. -/
def bigResponse : Response := ⟨⟨200, b!"OK"⟩, [], List.replicate 4097 120⟩

/-! ## C31 -/

theorem write_fits {w : Nbw} {d : Bytes} (h : w.buf.length + d.length ≤ w.cap) :
    w.write d = (.ok d.length, { w with buf := w.buf ++ d }) := by
  unfold Nbw.write
  rw [if_neg (by omega)]
  unfold Nbw.push
  simp only [List.length_append, if_pos h]

theorem writeAll_fits {w : Nbw} {d : Bytes} (h : w.buf.length + d.length ≤ w.cap) :
    Write.writeAll w d = (.ok, { w with buf := w.buf ++ d }) := by
  unfold Write.writeAll
  cases d with
  | nil => simp [Write.writeAllLoop]
  | cons c t =>
    simp only [Write.writeAllLoop]
    rw [show Write.write w (c :: t) = w.write (c :: t) from rfl, write_fits h]
    simp only [List.length_cons, List.drop_succ_cons, List.drop_length]
    cases (Write.rounds w + (t.length + 1)) <;> rfl

theorem fmt_fits {w : Nbw} {ps : List Bytes} (h : w.buf.length + ps.flatten.length ≤ w.cap) :
    Write.fmt w ps = (.ok, { w with buf := w.buf ++ ps.flatten }) := by
  induction ps generalizing w with
  | nil => simp [Write.fmt]
  | cons p ps ih =>
    simp only [List.flatten_cons, List.length_append] at h
    rw [Write.fmt, writeAll_fits (by omega)]
    dsimp only
    rw [ih (by simp only [List.length_append]; omega)]
    simp [List.append_assoc]

/-- C31 is false: if the socket is full when the writer tries to send the head of a response, and no longer
full right after, the writer sends a body larger than its buffer before the head. This happens for every such
body and whatever the growth of the buffer. -/
theorem C31_reorder_false (grow : Nat → Nat → Nat) (growOk : ∀ c n, c ≤ grow c n) (body : Bytes) (hb : 4096 < body.length)
    (n : Nat) (hn : body.length ≤ n) :
    ∃ w', writeResponse (Nbw.withCapacity 4096 grow growOk ⟨[.err .wouldBlock, .accept n], [], []⟩) ⟨⟨200, b!"OK"⟩, [], body⟩ = (.ok, w') ∧
      w'.sock.sent = body ∧ w'.pending = b!"HTTP/1.1 200 OK\r\n\r\n" := by
  unfold writeResponse
  rw [fmt_fits (by simp only [Nbw.withCapacity]; decide)]
  simp only [Write.andThen, HeaderMap.flat, List.flatMap_nil, Write.headerLines]
  rw [show @Write.write Nbw _ = Nbw.write from rfl, show @Write.flush Nbw _ = Nbw.flush from rfl, write_fits (by simp only [Nbw.withCapacity]; decide)]
  simp only [Write.res]
  have e : ([b!"HTTP/1.1", [SP], natDec 200, [SP], b!"OK", CRLF].flatten ++ CRLF : Bytes) = b!"HTTP/1.1 200 OK\r\n\r\n" := by decide
  simp only [Nbw.withCapacity, List.nil_append, e]
  have hl : (b!"HTTP/1.1 200 OK\r\n\r\n").length = 19 := by decide
  have hf : Nbw.flushBuf ⟨b!"HTTP/1.1 200 OK\r\n\r\n", 0, 4096, grow, growOk, ⟨[.err .wouldBlock, .accept n], [], []⟩⟩ =
      (.ok (), ⟨b!"HTTP/1.1 200 OK\r\n\r\n", 0, 4096, grow, growOk, ⟨[.accept n], [], []⟩⟩) := rfl
  have hwr : Sock.writeUntilBlocked ⟨[.accept n], [], []⟩ body = (.ok body.length, ⟨[], [], body⟩) := by
    obtain ⟨c, t, rfl⟩ := List.exists_cons_of_length_pos (by omega : 0 < body.length)
    simp only [Sock.writeUntilBlocked, Sock.writeLoop, List.drop_eq_nil_of_le hn, List.take_of_length_le hn, List.nil_append]
    simp only [Except.map, Nat.zero_add, Nat.min_eq_right hn]
  have hww : Nbw.write ⟨b!"HTTP/1.1 200 OK\r\n\r\n", 0, 4096, grow, growOk, ⟨[.err .wouldBlock, .accept n], [], []⟩⟩ body =
      (.ok body.length, ⟨b!"HTTP/1.1 200 OK\r\n\r\n", 0, 4096, grow, growOk, ⟨[], [], body⟩⟩) := by
    unfold Nbw.write
    rw [if_pos (by rw [hl]; dsimp only; omega), hf]
    dsimp only
    rw [if_pos ⟨rfl, hb⟩, hwr]
    dsimp only
    rw [List.drop_length]
    unfold Nbw.push
    simp only [List.append_nil, hl]
    rfl
  rw [hww]
  dsimp only
  exact ⟨⟨b!"HTTP/1.1 200 OK\r\n\r\n", 0, 4096, grow, growOk, ⟨[], [], body⟩⟩, rfl, rfl, rfl⟩

/-- There is such a body, and what is sent then does not begin the response. -/
example : ¬ bigResponse.body <+: responseBytes bigResponse := by
  intro h
  have h2 := List.prefix_iff_eq_take.1 h
  revert h2
  decide +kernel

/-- C31 is false: when the socket is interrupted in the middle of sending buffered bytes, `write_all` calls
`write` again, which sends them again from the start. -/
theorem C31_duplicate_false (grow : Nat → Nat → Nat) (growOk : ∀ c n, c ≤ grow c n) :
    let w := (Nbw.withCapacity 4 grow growOk ⟨[.accept 2, .err .interrupted, .accept 10], [], []⟩)
    (Write.fmt w [b!"abcd", b!"e"]).1 = .ok ∧ (Write.fmt w [b!"abcd", b!"e"]).2.sock.sent = b!"ababcd" ∧
      (Write.fmt w [b!"abcd", b!"e"]).2.pending = b!"e" := by
  refine ⟨?_, ?_, ?_⟩ <;> first | rfl | decide +kernel

/-- C31 (partial: no interruption, and either the socket does not become free again in the middle of an
operation or no write is larger than the capacity): as long as all operations succeed, the bytes given to the socket
followed by those held are exactly the bytes written; when an operation fails, the bytes given to the
socket are a beginning of the bytes written. -/
theorem C31_in_order_partial {w w' : Nbw} {ok : Bool} (hw : w.Ok) {ops : List (List WEv × WOp)}
    (h : ∀ x ∈ ops, .err .interrupted ∉ x.1 ∧ (Sticky x.1 ∨ x.2.bytes.length ≤ w.cap)) (hr : runOps w ops = (ok, w')) :
    (ok = true → w'.sock.sent ++ w'.pending = w.sock.sent ++ w.pending ++ ops.flatMap fun x => x.2.bytes) ∧
    (ok = false → w'.sock.sent <+: w.sock.sent ++ w.pending ++ ops.flatMap fun x => x.2.bytes) := by
  induction ops generalizing w with
  | nil => cases hr; simp
  | cons x ops ih =>
    obtain ⟨evs, op⟩ := x
    obtain ⟨h1, h2⟩ := h (evs, op) (by simp)
    simp only [runOps] at hr
    have hO : ({ w with sock := { w.sock with evs } } : Nbw).Orderly op.bytes.length := ⟨hw, h1, h2⟩
    generalize hw0 : ({ w with sock := { w.sock with evs } } : Nbw) = w0 at hr hO
    have htot : w0.total = w.sock.sent ++ w.pending := by rw [← hw0]; rfl
    have hcap : w0.cap = w.cap := by rw [← hw0]
    have key : ∃ y : IoRes × Nbw, w0.Wrote op.bytes.length op.bytes y ∧ y.2 = (op.run w0).2 ∧ ((op.run w0).1 = true ↔ y.1 = .ok) := by
      cases op with
      | write b =>
        refine ⟨_, (write_orderly hO (Nat.le_refl _)).1, ?_, ?_⟩
        · rw [show Write.write w0 (WOp.write b).bytes = w0.write b from rfl]
          simp only [WOp.run]
          generalize w0.write b = y
          obtain ⟨_ | _, _⟩ := y <;> rfl
        · rw [show Write.write w0 (WOp.write b).bytes = w0.write b from rfl]
          simp only [WOp.run]
          generalize w0.write b = y
          obtain ⟨_ | _, _⟩ := y <;> simp [Write.res, Except.isOk, Except.toBool]
      | flush =>
        refine ⟨_, flush_orderly hO, ?_, ?_⟩
        · rw [show Write.flush w0 = w0.flush from rfl]
          simp only [WOp.run]
          generalize w0.flush = y
          obtain ⟨_ | _, _⟩ := y <;> rfl
        · rw [show Write.flush w0 = w0.flush from rfl]
          simp only [WOp.run]
          generalize w0.flush = y
          obtain ⟨_ | _, _⟩ := y <;> simp [Write.res, Except.isOk, Except.toBool]
    obtain ⟨y, k1, k2, k3⟩ := key
    generalize op.run w0 = z at hr k2 k3
    obtain ⟨b, w1⟩ := z
    dsimp only at k2 k3
    cases b with
    | true =>
      dsimp only at hr
      rcases k1 with ⟨kl, ⟨-, k4, k5⟩ | ⟨e, k4, -⟩⟩
      · rw [k2] at k4 k5 kl
        have hcap' : w.cap ≤ w1.cap := hcap ▸ kl.cap
        have := ih k4.ok (fun x hx => ⟨(h x (by simp [hx])).1, (h x (by simp [hx])).2.imp id fun h => Nat.le_trans h hcap'⟩) hr
        rw [show w1.sock.sent ++ w1.pending = w1.total from rfl, k5, htot] at this
        simpa [List.append_assoc] using this
      · rw [k3.1 rfl] at k4; cases k4
    | false =>
      cases hr
      refine ⟨by simp, fun _ => ?_⟩
      rcases k1 with ⟨-, ⟨k4, -⟩ | ⟨e, -, -, k4⟩⟩
      · exact absurd (k3.2 k4) (by simp)
      · rw [k2, htot] at k4
        simp only [List.flatMap_cons]
        exact k4.trans ⟨ops.flatMap fun x => x.2.bytes, by simp [List.append_assoc]⟩

/-- The same for whole responses: the bytes of the response are appended to those written before. -/
theorem C31_response_partial {n : Nat} {w : Nbw} {r : Response} (hr : r.PartsLe n) (hw : w.Ok)
    (hi : .err .interrupted ∉ w.sock.evs) (ho : Sticky w.sock.evs ∨ n ≤ w.cap) :
    ((writeResponse w r).1 = .ok ∧
      (writeResponse w r).2.sock.sent ++ (writeResponse w r).2.pending = w.sock.sent ++ w.pending ++ responseBytes r) ∨
    ∃ e, (writeResponse w r).1 = .err e ∧ e ≠ .wouldBlock ∧ (.err e ∈ w.sock.evs ∨ some e ∈ w.sock.flushes) ∧
      (writeResponse w r).2.sock.sent <+: w.sock.sent ++ w.pending ++ responseBytes r := by
  rcases (writeResponse_orderly ⟨hw, hi, ho⟩ hr).2 with ⟨h1, -, h3⟩ | ⟨e, h1, h2, h3⟩
  · exact .inl ⟨h1, h3⟩
  · exact .inr ⟨e, h1, h2.1, h2.2, h3⟩

/-- Two writes and a flush; the socket takes one byte at a time, is full, takes the rest. -/
example : (runOps (Nbw.sample []) [([], .write b!"ab"), ([], .write b!"cd"), ([.accept 1, .accept 1], .flush), ([.accept 9], .flush)]).1 = true ∧
    (runOps (Nbw.sample []) [([], .write b!"ab"), ([], .write b!"cd"), ([.accept 1, .accept 1], .flush), ([.accept 9], .flush)]).2.sock.sent =
      b!"abcd" := by decide +kernel

example : Sticky [.accept 3, .accept 0, .err .wouldBlock, .err .wouldBlock] := by
  intro pre post h n hn
  rcases pre with _ | ⟨a, _ | ⟨b, _ | ⟨c, _ | ⟨d, t⟩⟩⟩⟩ <;> simp at h
  · obtain ⟨-, -, -, rfl⟩ := id h; simp at hn
  · obtain ⟨-, -, -, -, rfl⟩ := id h; simp at hn

example : bigResponse.PartsLe 4097 :=
  ⟨by decide, by decide, by decide, (by intro p hp; cases hp), by rw [bigResponse, List.length_replicate]; decide⟩

/-! ## C32 -/

/-- C32: a flush during which the socket takes everything held leaves nothing, and everything written has been
given to the socket; it succeeds unless flushing the socket itself fails. -/
theorem C32_drains {w : Nbw} (hw : w.Ok) (h : w.pending.length ≤ room w.sock.evs) :
    w.flush.2.sock.sent = w.sock.sent ++ w.pending ∧ w.flush.2.pending = [] ∧
      ((∀ e, w.sock.flushes.head? = some (some e) → e = .wouldBlock) → w.flush.1 = .ok ()) := by
  obtain ⟨-, c5, c6, -⟩ := flush_cases w hw
  obtain ⟨c7, c8⟩ := c6 (.inl h)
  exact ⟨by rw [c5, List.take_of_length_le h], by rw [c7, List.drop_eq_nil_of_le h], c8⟩

/-- C32: a flush stopped because the socket is full succeeds and keeps exactly the bytes not sent. -/
theorem C32_blocked {w : Nbw} (hw : w.Ok) (h : firstErr w.sock.evs = .wouldBlock)
    (hf : ∀ e, w.sock.flushes.head? = some (some e) → e = .wouldBlock) :
    w.flush.1 = .ok () ∧ w.flush.2.sock.sent = w.sock.sent ++ w.pending.take (room w.sock.evs) ∧
      w.flush.2.pending = w.pending.drop (room w.sock.evs) ∧ w.flush.2.Ok := by
  obtain ⟨c1, c5, c6, -⟩ := flush_cases w hw
  obtain ⟨c7, c8⟩ := c6 (.inr h)
  exact ⟨c8 hf, c5, c7, c1.1⟩

/-- C32: repeated flushing drains everything if the socket takes at least one byte each time. -/
theorem C32_repeated {w : Nbw} (hw : w.Ok) (scripts : List (List WEv)) (hs : ∀ s ∈ scripts, 1 ≤ room s ∧ firstErr s = .wouldBlock)
    (hf : w.sock.flushes = []) (hl : w.pending.length ≤ scripts.length) :
    (runOps w (scripts.map fun s => (s, .flush))).1 = true ∧
    (runOps w (scripts.map fun s => (s, .flush))).2.pending = [] ∧
      (runOps w (scripts.map fun s => (s, .flush))).2.sock.sent = w.sock.sent ++ w.pending := by
  induction scripts generalizing w with
  | nil =>
    have : w.pending = [] := List.length_eq_zero_iff.1 (by simpa using hl)
    simp [runOps, this]
  | cons s scripts ih =>
    obtain ⟨h1, h2⟩ := hs s (by simp)
    simp only [List.map_cons, runOps]
    generalize hw0 : ({ w with sock := { w.sock with evs := s } } : Nbw) = w0
    have e1 : w0.Ok := by rw [← hw0]; exact hw
    have e2 : w0.sock.evs = s := by rw [← hw0]
    have e3 : w0.sock.flushes = [] := by rw [← hw0]; exact hf
    have e4 : w0.pending = w.pending := by rw [← hw0]; rfl
    have e5 : w0.sock.sent = w.sock.sent := by rw [← hw0]
    obtain ⟨b1, b2, b3, b4⟩ := C32_blocked e1 (by rw [e2]; exact h2) (by rw [e3]; simp)
    obtain ⟨⟨-, -, -, b5⟩, -⟩ := flush_cases w0 e1
    rw [e2, e4, e5] at b2
    rw [e2, e4] at b3
    rw [e3] at b5
    simp only [WOp.run]
    generalize w0.flush = z at b1 b2 b3 b4 b5
    obtain ⟨r, w1⟩ := z
    dsimp only at b1 b2 b3 b4 b5
    subst b1
    simp only [Except.isOk, Except.toBool]
    obtain ⟨i0, i1, i2⟩ := ih b4 (fun x hx => hs x (by simp [hx])) (List.suffix_nil.1 b5) (by
      rw [b3, List.length_drop]; simp only [List.length_cons] at hl; omega)
    refine ⟨i0, i1, ?_⟩
    rw [i2, b2, b3, List.append_assoc, List.take_append_drop]

example : let w : Nbw := { Nbw.sample [.accept 1, .err .wouldBlock] with buf := b!"xabc", pos := 1 }
    w.Ok ∧ w.pending = b!"abc" ∧ w.flush.2.sock.sent = b!"a" ∧ w.flush.2.pending = b!"bc" := by
  refine ⟨.inl (by decide), by decide, by decide, by decide⟩

/-! ## C33 -/

/-- C33: a successful write reports the length of all its data, and no byte is lost or duplicated: the bytes
sent and held are those sent and held before together with the data. -/
theorem C33_write_complete {w : Nbw} (hw : w.Ok) {d : Bytes} {n : Nat} (h : (w.write d).1 = .ok n) :
    n = d.length ∧ ((w.write d).2.sock.sent ++ (w.write d).2.pending).Perm (w.sock.sent ++ w.pending ++ d) :=
  write_perm hw h

/-- C33: so does `write_response`, which ignores the reported counts (for sockets that are not
interrupted; `write_all` duplicates bytes after an interruption, see C31). -/
theorem C33_response_complete {w : Nbw} (hw : w.Ok) (hi : .err .interrupted ∉ w.sock.evs) (r : Response)
    (h : (writeResponse w r).1 = .ok) :
    ((writeResponse w r).2.sock.sent ++ (writeResponse w r).2.pending).Perm (w.sock.sent ++ w.pending ++ responseBytes r) :=
  (writeResponse_kept hw hi r h).2.2

/-- The restriction to server connections is needed: `write_response`, which takes any writer, loses the end
of the body when given a standard buffered writer before a socket that takes only part of it. -/
theorem C33_other_writer_loses :
    let w : BufW := ⟨[], 8192, ⟨[.accept 100, .accept 5, .accept 100], [], []⟩⟩
    let r : Response := ⟨⟨200, b!"OK"⟩, [], List.replicate 8192 120⟩
    (writeResponse w r).1 = .ok ∧ (writeResponse w r).2.buf = [] ∧
      (writeResponse w r).2.sock.sent = b!"HTTP/1.1 200 OK\r\n\r\nxxxxx" := by
  decide +kernel

example : (((Nbw.sample [.accept 7, .accept 2]).write (List.replicate 5000 97)).1.toOption = some 5000) ∧
    ((Nbw.sample [.accept 7, .accept 2]).write (List.replicate 5000 97)).2.sock.sent = List.replicate 9 97 := by
  decide +kernel

/-! ## C39 -/

theorem vec_writeAll (w b : Bytes) : Write.writeAll w b = (.ok, w ++ b) := by
  unfold Write.writeAll
  cases b with
  | nil => simp [Write.writeAllLoop]
  | cons c t =>
    simp only [Write.writeAllLoop]
    rw [show Write.write w (c :: t) = (.ok (t.length + 1), w ++ c :: t) from rfl]
    simp only [List.drop_succ_cons, List.drop_length]
    cases (Write.rounds w + (c :: t).length) <;> rfl

theorem vec_fmt (w : Bytes) (ps : List Bytes) : Write.fmt w ps = (.ok, w ++ ps.flatten) := by
  induction ps generalizing w with
  | nil => simp [Write.fmt]
  | cons p ps ih => simp [Write.fmt, vec_writeAll, ih]

theorem vec_headerLines (w : Bytes) (hs : List (Header × Bytes)) : Write.headerLines w hs =
    (.ok, w ++ hs.flatMap fun p => p.1.asStr ++ b!": " ++ p.2 ++ b!"\r\n") := by
  induction hs generalizing w with
  | nil => simp [Write.headerLines]
  | cons p hs ih =>
    obtain ⟨k, v⟩ := p
    simp [Write.headerLines, vec_fmt, ih, Write.andThen, CRLF]

/-- C39: `write_response` writes the status line, one line per header value in the order in which the map
is iterated, an empty line and the body, and nothing else. -/
theorem C39_response (w : Bytes) (r : Response) : writeResponse w r = (.ok, w ++ responseBytes r) := by
  rw [responseBytes_parts]
  unfold writeResponse
  have h1 : ∀ w b : Bytes, Write.res (Write.write w b) = (.ok, w ++ b) := fun _ _ => rfl
  have h2 : ∀ w : Bytes, Write.res (Write.flush w) = (.ok, w) := fun _ => rfl
  simp only [vec_fmt, vec_headerLines, Write.andThen, h1, h2]
  simp [List.append_assoc]

/-- C39: `write_request` likewise. -/
theorem C39_request (w : Bytes) (r : Request) : writeRequest w r = (.ok, w ++ requestBytes r) := by
  rw [requestBytes_parts]
  unfold writeRequest
  have h2 : ∀ w : Bytes, Write.res (Write.flush w) = (.ok, w) := fun _ => rfl
  simp only [vec_fmt, vec_headerLines, vec_writeAll, Write.andThen, h2]
  simp [List.append_assoc]

/-- C39: the order of iteration only permutes the header lines of a message, and each header value gets its own line. -/
theorem C39_header_order {m m' : HeaderMap} (h : m.Perm m') : ∃ lines lines' : List Bytes, lines.Perm lines' ∧
    lines = (m.flatMap fun e => e.2.map fun v => e.1.asStr ++ b!": " ++ v ++ b!"\r\n") ∧
    (∀ w st b, writeResponse (W := Bytes) w ⟨st, m, b⟩ =
        (.ok, w ++ (b!"HTTP/1.1 " ++ natDec st.code ++ b!" " ++ st.reason ++ b!"\r\n" ++ lines.flatten ++ b!"\r\n" ++ b)) ∧
      writeResponse (W := Bytes) w ⟨st, m', b⟩ =
        (.ok, w ++ (b!"HTTP/1.1 " ++ natDec st.code ++ b!" " ++ st.reason ++ b!"\r\n" ++ lines'.flatten ++ b!"\r\n" ++ b))) ∧
    ∀ w u x b, writeRequest (W := Bytes) w ⟨u, x, m, b⟩ =
        (.ok, w ++ (x.text ++ b!" " ++ u ++ b!" HTTP/1.1\r\n" ++ lines.flatten ++ b!"\r\n" ++ b)) ∧
      writeRequest (W := Bytes) w ⟨u, x, m', b⟩ =
        (.ok, w ++ (x.text ++ b!" " ++ u ++ b!" HTTP/1.1\r\n" ++ lines'.flatten ++ b!"\r\n" ++ b)) := by
  have hf : ∀ m : HeaderMap, (m.flatMap fun e => e.2.map fun v => e.1.asStr ++ b!": " ++ v ++ b!"\r\n").flatten =
      m.flatMap fun e => e.2.flatMap fun v => e.1.asStr ++ b!": " ++ v ++ b!"\r\n" := by
    intro m
    induction m with
    | nil => rfl
    | cons e m ih => rw [List.flatMap_cons, List.flatten_append, ih, List.flatMap_cons, List.flatMap_def (l := e.2)]
  refine ⟨_, m'.flatMap fun e => e.2.map fun v => e.1.asStr ++ b!": " ++ v ++ b!"\r\n", h.flatMap_right _, rfl, fun w st b => ?_, fun w u x b => ?_⟩
  · rw [C39_response, C39_response, hf, hf]; exact ⟨rfl, rfl⟩
  · rw [C39_request, C39_request, hf, hf]; exact ⟨rfl, rfl⟩

example : responseBytes ⟨⟨200, b!"OK"⟩, HeaderMap.fromPairs [(.ofStr b!"A", b!"1"), (.ofStr b!"a", b!"2")], b!"hi"⟩ =
    b!"HTTP/1.1 200 OK\r\na: 1\r\na: 2\r\n\r\nhi" := by decide

example : requestBytes ⟨b!"/x", .post, HeaderMap.fromPairs [(.ofStr b!"A", b!"1")], b!"hi"⟩ =
    b!"POST /x HTTP/1.1\r\na: 1\r\n\r\nhi" := by decide

/-! ## C54 -/

/-- C54: a request written by the client through its buffered writer goes out in order, once, whatever the
stream does: after a success everything has been given to the stream; after an error a beginning of it
has, and the writer holds at most the bytes that come next. -/
theorem C54_client_in_order (w : BufW) (r : Request) :
    ((writeRequest w r).1 = .ok ∧ (writeRequest w r).2.buf = [] ∧
      (writeRequest w r).2.sock.sent = w.sock.sent ++ w.buf ++ requestBytes r) ∨
    ∃ e, (writeRequest w r).1 = .err e ∧
      (writeRequest w r).2.sock.sent ++ (writeRequest w r).2.buf <+: w.sock.sent ++ w.buf ++ requestBytes r := by
  obtain ⟨⟨-, h⟩, hb⟩ := bufw_writeRequest w r
  rcases h with ⟨h1, h2⟩ | ⟨e, h1, -, h2⟩
  · refine .inl ⟨h1, hb h1, ?_⟩
    have := hb h1
    simp only [BufW.total, this, List.append_nil] at h2
    exact h2
  · exact .inr ⟨e, h1, h2⟩

example : (writeRequest (⟨[], 8, ⟨[.accept 3, .err .interrupted, .accept 4, .accept 50, .accept 50], [], []⟩⟩ : BufW)
    ⟨b!"/x", .get, [], []⟩).2.sock.sent = b!"GET /x HTTP/1.1\r\n\r\n" := by decide +kernel

end Verif
