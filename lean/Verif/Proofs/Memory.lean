import Verif.Proofs.NetConn
import Verif.Proofs.Calls
import Verif.Spec.Memory

/-! What parsers and writers keep. -/

namespace Verif

variable {σ : Type} {prof : Profile} {rt : Router σ}

theorem weight_addHeader (m : HeaderMap) (k : Header) (v : Bytes) : (m.addHeader k v).weight ≤ m.weight + k.asStr.length + v.length := by
  induction m with
  | nil => simp [HeaderMap.addHeader, HeaderMap.weight]
  | cons e m ih =>
    obtain ⟨k', vs⟩ := e
    unfold HeaderMap.addHeader
    split
    · simp [HeaderMap.weight]; omega
    · simp only [HeaderMap.weight, List.map_cons, List.sum_cons] at ih ⊢; omega

theorem lower_length (b : Bytes) : (lower b).length = b.length := by simp [lower]

theorem ofStr_length (b : Bytes) : (Header.ofStr b).asStr.length = b.length := by
  unfold Header.ofStr
  dsimp only
  split <;> simp [Header.asStr, lower_length]

theorem weight_fields (fs : List (Bytes × Bytes)) : (HeaderMap.fromPairs (fieldMap fs)).weight ≤ (fieldLines fs).length := by
  suffices ∀ fs' : List (Bytes × Bytes), (HeaderMap.fromPairs (fieldMap fs'.reverse)).weight ≤ (fieldLines fs'.reverse).length by
    have := this fs.reverse
    simpa using this
  intro fs'
  induction fs' with
  | nil => simp [fieldMap, fieldLines, HeaderMap.fromPairs, HeaderMap.weight]
  | cons f fs ih =>
    rw [List.reverse_cons]
    have e1 : fieldMap (fs.reverse ++ [f]) = fieldMap fs.reverse ++ [(Header.ofStr f.1, f.2)] := by simp [fieldMap]
    rw [e1, HeaderMap.fromPairs_snoc, fieldLines_snoc]
    have := weight_addHeader (HeaderMap.fromPairs (fieldMap fs.reverse)) (Header.ofStr f.1) f.2
    rw [ofStr_length] at this
    simp only [fieldLine, List.length_append]
    omega

theorem uri_le {m : Method} {u l : Bytes} (h : parseRequestLine l = .ok (m, u)) : u.length ≤ l.length := by
  obtain ⟨v, extra, -, -, -, rfl⟩ := requestLine_iff.1 h
  simp only [List.length_append]; omega

theorem chunkData_le (cs : List (Bytes × Bytes)) : (chunkData cs).length ≤ (chunkLines cs).length := by
  induction cs with
  | nil => simp [chunkData]
  | cons x cs ih =>
    simp only [chunkData, chunkLines, List.flatMap_cons, List.length_append] at ih ⊢
    omega

theorem chunked_le {w body : Bytes} (h : ChunkedText w body) : body.length ≤ w.length := by
  obtain ⟨cs, last, -, -, -, rfl, rfl⟩ := h
  have := chunkData_le cs
  simp only [List.length_append]; omega

theorem bodyText_le {f : Framing} {w body : Bytes} (h : BodyText f w body) : body.length ≤ w.length := by
  cases f with
  | length n => rw [h.1]; exact Nat.le_refl _
  | chunked => exact chunked_le h
  | untilEof => rw [show w = body from h]; exact Nat.le_refl _
  | noBody => rw [h.2]; simp

theorem message_memory {m : Method} {l u bw body w : Bytes} {fs : List (Bytes × Bytes)} {b : Bool} {f : Framing} (hl : parseRequestLine l = .ok (m, u))
    (h : MessageText l fs b f bw body w) : u.length + (HeaderMap.fromPairs (fieldMap fs)).weight + body.length ≤ w.length ∧ u.length ≤ 510 := by
  have h1 := uri_le hl
  have h2 := weight_fields fs
  have h3 := bodyText_le h.bodyOk
  have h4 := h.lineOk.short
  rw [h.wire]
  simp only [List.length_append]
  constructor <;> omega

theorem RequestSt.memory {single ended : Bool} {p : RequestParser} {w : Bytes} (h : MsgSt prof parseRequestLine false single ended p w) :
    p.memory ≤ w.length + 3 * 1024 * 1024 ∧ (prof.overflowChecks = true → p.memory ≤ 10 * 1024 * 1024) := by
  cases h with
  | firstLine hl => have := hl.short; simp only [RequestParser.memory]; constructor <;> omega
  | @headers l t p fs hl hpf hp hs hchk =>
    obtain ⟨m, u⟩ := t
    have h1 := uri_le hpf
    have h2 := weight_fields fs
    rw [← hp.headers] at h2
    have h3 := hl.short
    simp only [RequestParser.memory, List.length_append]
    refine ⟨by omega, fun h => ?_⟩
    have := hchk h
    omega
  | @body l t hs fs f p c hl hpf hft hm ha hp hs' hchk =>
    obtain ⟨m, u⟩ := t
    have h1 := uri_le hpf
    have h2 := weight_fields fs
    rw [← hm] at h2
    have h3 := hl.short
    simp only [RequestParser.memory, List.length_append]
    cases hp with
    | length hn => dsimp only; exact ⟨by omega, fun h => by have := (hchk h).1; omega⟩
    | untilEof hd => dsimp only; exact ⟨by omega, fun h => by have := (hchk h).1; omega⟩
    | empty => dsimp only; exact ⟨by omega, fun h => by have := (hchk h).1; omega⟩
    | @chunked q c hc =>
      cases hc with
      | @size cs line hcs hln =>
        have := chunkData_le cs
        have := hln.short
        simp only [List.length_append]
        refine ⟨by omega, fun h => ?_⟩
        obtain ⟨h4, h5⟩ := hchk h
        simp only [BodyParser.held, ChunksParser.held] at h5
        omega
      | @data cs s filled n hcs hs hu hn hf =>
        have := chunkData_le cs
        simp only [List.length_append]
        refine ⟨by omega, fun h => ?_⟩
        obtain ⟨h4, h5⟩ := hchk h
        simp only [BodyParser.held, ChunksParser.held] at h5
        omega
      | @tailing cs s d line l hcs hs hu hn hln =>
        have := chunkData_le cs
        have := hln.short
        simp only [List.length_append]
        refine ⟨by omega, fun h => ?_⟩
        obtain ⟨h4, h5⟩ := hchk h
        simp only [BodyParser.held, ChunksParser.held, List.length_append] at h5
        omega
      | @finished c body hct =>
        dsimp only
        have := chunked_le hct
        refine ⟨by omega, fun h => ?_⟩
        obtain ⟨h4, h5⟩ := hchk h
        simp only [BodyParser.held, ChunksParser.held] at h5
        omega
  | finished hpf hmt hm hfit hmax hchk hlt =>
    rename_i t hs fs f body
    obtain ⟨m, u⟩ := t
    obtain ⟨h1, h2⟩ := message_memory hpf hmt
    rw [← hm] at h1
    have h3 := weight_fields fs
    rw [← hm] at h3
    simp only [RequestParser.memory]
    refine ⟨by omega, fun h => ?_⟩
    have := hchk h
    omega

/-! ### Writing -/

theorem flushBuf_buf (w : Nbw) : w.flushBuf.2.buf.length ≤ w.buf.length := by
  unfold Nbw.flushBuf
  generalize w.sock.writeUntilBlocked _ = x
  obtain ⟨x, s⟩ := x
  cases x with
  | error e => exact Nat.le_refl _
  | ok n => dsimp only; split <;> simp

theorem flush_buf (w : Nbw) : (w.flush).2.buf.length ≤ w.buf.length := by
  have h := flushBuf_buf w
  unfold Nbw.flush
  generalize w.flushBuf = x at h
  obtain ⟨x, w'⟩ := x
  cases x with
  | error e => exact h
  | ok _ =>
    dsimp only at h ⊢
    unfold Nbw.flushInner
    generalize w'.sock.flush = y
    obtain ⟨y, s⟩ := y
    split <;> exact h

theorem push_buf (w : Nbw) (b : Bytes) : (w.push b).buf.length = w.buf.length + b.length := by simp [Nbw.push]

theorem write_buf (w : Nbw) (b : Bytes) : (w.write b).2.buf.length ≤ w.buf.length + b.length ∧
    (∀ n, (w.write b).1 = .ok n → n = b.length) ∧ (∀ e, (w.write b).1 = .error e → (w.write b).2.buf.length ≤ w.buf.length) := by
  have h := flushBuf_buf w
  unfold Nbw.write
  split
  · generalize w.flushBuf = x at h
    obtain ⟨x, w'⟩ := x
    cases x with
    | error e => dsimp only at h ⊢; exact ⟨by omega, nofun, fun _ _ => h⟩
    | ok _ =>
      dsimp only at h ⊢
      split
      · generalize w'.sock.writeUntilBlocked b = y
        obtain ⟨y, s⟩ := y
        cases y with
        | error e => dsimp only; exact ⟨by omega, nofun, fun _ _ => h⟩
        | ok n =>
          dsimp only
          rw [push_buf]
          simp only [List.length_drop]
          exact ⟨by omega, fun n h => by cases h; rfl, nofun⟩
      · dsimp only
        rw [push_buf]
        exact ⟨by omega, fun n h => by cases h; rfl, nofun⟩
  · dsimp only
    rw [push_buf]
    exact ⟨by omega, fun n h => by cases h; rfl, nofun⟩

theorem writeAllLoop_buf (f : Nat) (w : Nbw) (b : Bytes) : (Write.writeAllLoop f w b).2.buf.length ≤ w.buf.length + b.length := by
  induction f generalizing w with
  | zero => cases b <;> simp [Write.writeAllLoop]
  | succ f ih =>
    cases b with
    | nil => simp [Write.writeAllLoop]
    | cons x b =>
      unfold Write.writeAllLoop
      obtain ⟨h1, h2, h3⟩ := write_buf w (x :: b)
      rw [show Write.write w (x :: b) = w.write (x :: b) from rfl]
      generalize w.write (x :: b) = y at h1 h2 h3
      obtain ⟨y, w'⟩ := y
      dsimp only at h1 h2 h3
      split
      · next h => cases h; exact h1
      · next n w'' _ h =>
        cases h
        rw [h2 n rfl, List.drop_length]
        have : Write.writeAllLoop f w' [] = (.ok, w') := by cases f <;> rfl
        rw [this]; exact h1
      · next w'' h =>
        cases h
        have := h3 _ rfl
        have := ih w'
        omega
      · next h => cases h; exact h1

theorem writeAll_buf (w : Nbw) (b : Bytes) : (Write.writeAll w b).2.buf.length ≤ w.buf.length + b.length := writeAllLoop_buf _ w b

theorem andThen_buf {x : IoRes × Nbw} {k : Nbw → IoRes × Nbw} {a b n : Nat} (h : x.2.buf.length ≤ n + a)
    (hk : ∀ w, (k w).2.buf.length ≤ w.buf.length + b) : (Write.andThen x k).2.buf.length ≤ n + (a + b) := by
  obtain ⟨x, w⟩ := x
  cases x with
  | ok => have := hk w; simp only [Write.andThen] at h ⊢; omega
  | _ => simp only [Write.andThen] at h ⊢; omega

theorem fmt_buf (w : Nbw) (ps : List Bytes) : (Write.fmt w ps).2.buf.length ≤ w.buf.length + ps.flatten.length := by
  induction ps generalizing w with
  | nil => simp [Write.fmt]
  | cons p ps ih =>
    unfold Write.fmt
    have h := writeAll_buf w p
    generalize Write.writeAll w p = x at h
    obtain ⟨x, w'⟩ := x
    simp only [List.flatten_cons, List.length_append]
    cases x with
    | ok => have := ih w'; dsimp only at h ⊢; omega
    | _ => dsimp only at h ⊢; omega

theorem res_buf {α : Type} (x : Except IoError α × Nbw) : (Write.res x).2 = x.2 := by
  obtain ⟨x, w⟩ := x
  cases x <;> rfl

/-- The lines of some header values. -/
def flatLines (hs : List (Header × Bytes)) : Bytes := hs.flatMap fun e => e.1.asStr ++ b!": " ++ e.2 ++ b!"\r\n"

theorem headerLines_buf (w : Nbw) (hs : List (Header × Bytes)) : (Write.headerLines w hs).2.buf.length ≤ w.buf.length + (flatLines hs).length := by
  induction hs generalizing w with
  | nil => simp [Write.headerLines]
  | cons x hs ih =>
    obtain ⟨k, v⟩ := x
    unfold Write.headerLines
    refine Nat.le_trans (andThen_buf (fmt_buf w _) (fun w => ih w)) ?_
    simp [flatLines, CRLF]
    omega

theorem flatLines_flat (m : HeaderMap) : flatLines m.flat = m.flatMap fun e => e.2.flatMap fun v => e.1.asStr ++ b!": " ++ v ++ b!"\r\n" := by
  induction m with
  | nil => rfl
  | cons e m ih => simp [flatLines, HeaderMap.flat, List.flatMap_map] at ih ⊢; rw [ih]

theorem writeAnswer_buf (w : Nbw) (a : ListenerResult) : (writeAnswer w a).2.buf.length ≤ w.buf.length + (answerBytes a).length := by
  have hr : ∀ r : Response, (writeResponse w r).2.buf.length ≤ w.buf.length + (responseBytes r).length := by
    intro r
    unfold writeResponse
    refine Nat.le_trans (andThen_buf (fmt_buf w _) fun w => andThen_buf (headerLines_buf w _) fun w => andThen_buf (a := CRLF.length) (by rw [res_buf]; exact (write_buf w _).1)
      fun w => andThen_buf (a := r.body.length) (b := 0) (by rw [res_buf]; exact (write_buf w _).1) fun w => by rw [res_buf]; exact flush_buf w) ?_
    rw [flatLines_flat]
    simp only [responseBytes, List.flatten_cons, List.flatten_nil, List.length_append, SP, CRLF]
    simp
    omega
  cases a with
  | sendResponse r => exact hr r
  | sendResponseArc r => exact hr r
  | next =>
    show (Write.andThen (Write.writeAll w notFoundResponse) fun w => Write.res (Write.flush w)).2.buf.length ≤ _
    exact andThen_buf (b := 0) (writeAll_buf w notFoundResponse) fun w => by rw [res_buf]; exact flush_buf w

/-! ### Connections -/

/-- What is still to be written. -/
def Phase.due : Option Phase → Nat
  | some (.reply _ a) => (answerBytes a).length
  | _ => 0

/-- The request that is being handled. -/
def Phase.request : Option Phase → Option Request
  | some (.reply q _) => some q
  | some (.asked q) => some q
  | _ => none

/-- What holds of an open connection. -/
structure Frugal (prof : Profile) (rt : Router σ) (c : Conn Rd Nbw) (arr : List Ev) (seen : List (Request × σ)) (p : Option Phase) : Prop where
  lims : c.reader.lims = []
  parser : ∃ single w, RequestSt prof single (c.parser.getD .new) w ∧ w.length + (bytesOf c.reader.src.atoms).length ≤ received arr
  writer : c.writer.buf.length + Phase.due p ≤ answered rt seen
  request : ∀ q, Phase.request p = some q → q.memory ≤ received arr ∧ (prof.overflowChecks = true → q.memory ≤ 10 * 1024 * 1024)

theorem readRequest_frugal {c c' : Conn Rd Nbw} {x : ReadRequestResult} {B : Nat} (hl : c.reader.lims = [])
    (hp : ∃ single w, RequestSt prof single (c.parser.getD .new) w ∧ w.length + (bytesOf c.reader.src.atoms).length ≤ B)
    (h : c.readRequest prof = (x, c')) (hx : x = .notReady ∨ ∃ q, x = .ready q) :
    c'.reader.lims = [] ∧ c'.writer = c.writer ∧
    (∃ single w, RequestSt prof single (c'.parser.getD .new) w ∧ w.length + (bytesOf c'.reader.src.atoms).length ≤ B) ∧
    ∀ q, x = .ready q → q.memory ≤ B ∧ (prof.overflowChecks = true → q.memory ≤ 10 * 1024 * 1024) := by
  refine ⟨(readRequest_lims h hl).1, ?_⟩
  obtain ⟨single, w, hst, hw⟩ := hp
  unfold Conn.readRequest at h
  have ha := requestParse_ahead (prof := prof) (p := c.parser.getD .new) (Rd.ahead_self hl)
  cases hq : RequestParser.parse prof (c.parser.getD .new) c.reader with
  | mk o r =>
  rw [hq] at h ha
  obtain ⟨h1, h2⟩ := request_run hst ha
  cases o with
  | done q =>
    cases h
    obtain ⟨pre, line, fs, f, bw, e1, -, e3, e4, e5, e6⟩ := h1 q rfl
    have e7 := e1.atoms
    simp only [Rd.abs] at e7
    rw [e7, bytesOf_append, List.length_append] at hw
    obtain ⟨g1, g2⟩ := message_memory (requestLine_iff.2 e3) e4
    rw [← e5] at g1
    rw [List.length_append] at g1
    refine ⟨rfl, ⟨true, [], MsgSt.start prof _ false, by simp only [List.length_nil]; omega⟩, ?_⟩
    intro q' hq'
    cases hq'
    refine ⟨by simp only [Request.memory]; omega, fun ho => ?_⟩
    have := e6.2.2.1 ho
    have g3 := weight_fields fs
    rw [← e5] at g3
    simp only [Request.memory]
    omega
  | io p e =>
    dsimp only at h
    split at h
    · next he =>
      subst he
      cases h
      obtain ⟨pre, k, d, e1, e2, e3, e4, -⟩ := h2 p _ rfl (by decide)
      have e7 := e1.atoms
      simp only [Rd.abs] at e7
      rw [e7, bytesOf_append, e2, List.length_append, List.length_append] at hw
      exact ⟨rfl, ⟨false, w ++ k, e4, by rw [List.length_append]; dsimp only; omega⟩, nofun⟩
    · split at h <;> cases h <;> rcases hx with hx | ⟨q, hx⟩ <;> cases hx
  | _ => cases h; rcases hx with hx | ⟨q, hx⟩ <;> cases hx

theorem received_snoc (arr : List Ev) (ev : Ev) : received (arr ++ [ev]) = received arr + (bytesOf ev.atoms).length := by
  simp [received, bytesOf_append]

theorem frugal_kept : Kept prof rt (Frugal prof rt) where
  fresh offer grow growOk flushes := ⟨rfl, ⟨true, [], MsgSt.start prof _ false, by simp [Conn.new, Src.atoms, bytesOf, received]⟩, by simp [Conn.new, Nbw.withCapacity, Phase.due], nofun⟩
  arrive c arr seen p ev _ h := by
    obtain ⟨s, w, h1, h2⟩ := h.parser
    refine ⟨h.lims, ⟨s, w, h1, ?_⟩, h.writer, fun q hq => ?_⟩
    · rw [received_snoc]
      simp only [Src.atoms, bytesOf_append, List.flatMap_append, List.length_append, List.flatMap_cons, List.flatMap_nil, List.append_nil] at h2 ⊢
      omega
    · obtain ⟨h3, h4⟩ := h.request q hq
      rw [received_snoc]
      exact ⟨by omega, h4⟩
  enter c arr seen evs h := ⟨h.lims, h.parser, h.writer, nofun⟩
  move c c' arr seen p p' d d' hm h := by
    cases hm with
    | flushOk hf =>
      refine ⟨h.lims, h.parser, ?_, nofun⟩
      have h1 := flush_buf c.writer
      rw [show c.writer.flush = _ from hf] at h1
      have h2 := h.writer
      simp only [Phase.due] at h1 h2 ⊢
      omega
    | ready hr =>
      obtain ⟨h1, h2, h3, h4⟩ := readRequest_frugal h.lims h.parser hr (.inr ⟨_, rfl⟩)
      refine ⟨h1, h3, by rw [h2]; exact h.writer, ?_⟩
      intro q hq
      cases hq
      exact h4 _ rfl
    | notReady hr =>
      obtain ⟨h1, h2, h3, h4⟩ := readRequest_frugal h.lims h.parser hr (.inl rfl)
      exact ⟨h1, h3, by rw [h2]; exact h.writer, nofun⟩
    | @wrote _ q r wr _ _ hw hcl =>
      refine ⟨h.lims, h.parser, ?_, nofun⟩
      have h1 := writeAnswer_buf c.writer r
      rw [hw] at h1
      have h2 := h.writer
      simp only [Phase.due] at h1 h2 ⊢
      omega
  ask c arr seen q s a ha h := by
    refine ⟨h.lims, h.parser, ?_, ?_⟩
    · have := h.writer
      simp only [answered, List.map_append, List.sum_append, List.map_cons, List.map_nil, List.sum_cons, List.sum_nil, ha, Phase.due, Option.map_some, Option.getD_some] at this ⊢
      omega
    · intro q' hq'
      cases hq'
      exact h.request q rfl
  leave c arr seen h := ⟨h.lims, h.parser, h.writer, nofun⟩

end Verif
