import Verif.Proofs.Trace
import Verif.Proofs.Idle
import Verif.Props.Basic
import Verif.Props.Writing
import Verif.Props.Pauses

/-!
C22, C34 - C38: what a connection is answered with, and when it is closed.
-/

namespace Verif

variable {σ : Type} {rt : Router σ} {prof : Profile} {n : Nat}

/-! ## C34 -/

/-- If no listener panics, the router answers any requests, ... -/
theorem served_exists (h : ∀ q s, (rt.result q s).1 ≠ none) (s : σ) (qs : List Request) : ∃ out s', Served rt s qs out s' := by
  induction qs generalizing s with
  | nil => exact ⟨[], s, .nil⟩
  | cons q qs ih =>
    cases hr : rt.result q s with
    | mk a s1 =>
    cases a with
    | none => exact absurd (by rw [hr]) (h q s)
    | some a =>
      obtain ⟨out, s', h1⟩ := ih s1
      exact ⟨_, _, .cons hr h1⟩

/-- ... in one way. -/
theorem served_unique {s s' s'' : σ} {qs : List Request} {out out' : Bytes} (h : Served rt s qs out s')
    (h' : Served rt s qs out' s'') : out = out' ∧ s' = s'' := by
  induction h generalizing out' with
  | nil => cases h'; exact ⟨rfl, rfl⟩
  | cons h1 _ ih =>
    cases h' with
    | cons h2 h3 =>
    rw [h1] at h2
    cases h2
    obtain ⟨rfl, rfl⟩ := ih h3
    exact ⟨rfl, rfl⟩

/-- The hypotheses of the theorems about several invocations, up to the last one. -/
theorem served_pieces {ms : List (Bytes × Request)} (hms : ∀ m ∈ ms, FittingRequest m.1 m.2)
    (hopen : ∀ m ∈ ms, ¬ CloseAsked m.2) {ps : List Bytes} (hps : PausesWell ps) {last t t' x : Bytes}
    (ht : ∀ y, y <+: t' → Waits prof y) (htx : t = t' ++ x) (hx : x.length ≤ last.length)
    (he : ps.flatten ++ last = ms.flatMap Prod.fst ++ t) {c : Conn Rd Nbw} (hp : c.parser.getD .new = .new) {X : List Atom}
    (hr : c.reader.Ahead (spaced (ps.map fun a => a.map .byte) (last.map .byte ++ X)))
    {es es' : List (List WEv)} {evs : List WEv}
    (hw : Writable rt n c (es ++ evs :: es')) (hlen : es.length = ps.length)
    {s s' : σ} {out : Bytes} (hs : Served rt s (ms.map Prod.snd) out s') :
    ∃ u' a' p' r' w' f po, u' ++ a' = t ∧ Got prof u' p' ∧ r'.Ahead (a'.map .byte ++ X) ∧ po.getD .new = p' ∧
      w'.Healthy n ∧ w'.total = c.writer.total ++ out ∧ c.writer.sock.sent <+: w'.sock.sent ∧
      handleAll prof rt (es ++ evs :: es') (.live c) s =
        handleAll prof rt es' (finish (respondLoop prof rt (f + 1) ⟨r', w', po⟩ s')).2.1
          (finish (respondLoop prof rt (f + 1) ⟨r', w', po⟩ s')).2.2 := by
  subst htx
  obtain ⟨Z, hZ⟩ : ∃ Z, last = Z ++ x := by
    rw [← List.append_assoc] at he
    rcases List.append_eq_append_iff.1 he with ⟨y, h1, h2⟩ | ⟨y, h1, h2⟩
    · exact ⟨y, h2⟩
    · have := congrArg List.length h2
      simp only [List.length_append] at this
      have : y = [] := List.length_eq_zero_iff.1 (by omega)
      subst this
      exact ⟨[], by simpa using h2.symm⟩
  subst hZ
  have he' : [] ++ ps.flatten ++ Z = ms.flatMap Prod.fst ++ t' := by
    rw [← List.append_assoc, ← List.append_assoc] at he
    simpa using List.append_cancel_right he
  obtain ⟨c1, m2, u', o1, o2, s1, h1, h2, h3, h4, h5, h6, h7, h8, h9, h10, rfl, h12⟩ :=
    handleAll_pieces (n := n) (cap := c.writer.cap) (u := []) hms ht hopen hps hr (by rw [hp]; exact got_new prof) (by
        intro m hm
        have := hms m (List.mem_of_mem_head? hm)
        cases hm1 : m.1 with
        | nil => rw [hm1] at this; exact this.ne_nil.elim
        | cons _ _ => simp) he' hlen (fun e he => hw.calm e (by simp [he])) (Nat.le_refl _)
      hw.steady hw.parts hs
  obtain ⟨u1, a1, p1, r1, w1, f, po, i1, i2, i3, i4, i5, i6, i7, i8, -, i10⟩ :=
    handleAll_last (n := n) (cap := c.writer.cap) (evs := evs) (fun m hm => hms m (h7 m hm)) (fun m hm => hopen m (h7 m hm)) h2 h8 h9
      (t := t' ++ x) (by rw [← List.append_assoc, h10, List.append_assoc]) (hw.calm evs (by simp)) h4 h3 hw.parts h12
  refine ⟨u1, a1, p1, r1, w1, f, po, i1, i3, i4, i5, i6, by rw [i7, h5, List.append_assoc], h6.trans i8, ?_⟩
  rw [handleAll_append, h1]
  simp only [handleAll]
  rw [i10]

/-- C34 (partial: for pauses that do not cut a character of a line, and writers with room or sockets that do not become free
in the middle): requests arrive in pieces `ps`, each followed by a pause, and a last piece, which may end in the
middle of a request. Then after as many invocations of the handler the router has been asked about each request
once and in order, from state `s` to `s'`, and exactly the answers have been sent or are held to be sent. -/
theorem C34_answered_partial {ms : List (Bytes × Request)} (hms : ∀ m ∈ ms, FittingRequest m.1 m.2)
    (hopen : ∀ m ∈ ms, ¬ CloseAsked m.2) {ps : List Bytes} (hps : PausesWell ps) {last t : Bytes}
    (ht : Unfinished t) (he : ps.flatten ++ last = ms.flatMap Prod.fst ++ t)
    {c : Conn Rd Nbw} (hp : c.parser.getD .new = .new)
    (hr : c.reader.Ahead (spaced (ps.map fun a => a.map .byte) (last.map .byte)))
    {es : List (List WEv)} (hlen : es.length = ps.length + 1) (hw : Writable rt n c es)
    {s s' : σ} {out : Bytes} (hs : Served rt s (ms.map Prod.snd) out s') :
    ∃ c', handleAll prof rt es (.live c) s = (.live c', s') ∧ c'.reader.Ahead [] ∧
      c'.writer.total = c.writer.total ++ out ∧ c.writer.sock.sent <+: c'.writer.sock.sent := by
  obtain ⟨es1, evs, rfl⟩ : ∃ a b, es = a ++ [b] := by
    rcases List.eq_nil_or_concat es with rfl | ⟨a, b, rfl⟩
    · simp at hlen
    · exact ⟨a, b, by simp⟩
  obtain ⟨u', a', p', r', w', f, po, h1, h2, h3, h4, h5, h6, h7, h8⟩ := served_pieces (prof := prof) (x := []) (t' := t) (X := []) hms hopen hps
    (fun y hy => ht.waits hy) (by simp) (by simp) he hp (by simpa using hr) hw (by simpa using hlen) hs
  obtain ⟨p2, r2, e1, e2, -⟩ := h2.part (by rw [h1]; exact ht.waits (List.prefix_refl t)) h3 (.inl rfl)
  rw [loop_notReady f (by rw [h4]; exact e1)] at h8
  exact ⟨⟨r2, w', some p2⟩, h8, e2, h6, h7⟩

/-- A router for examples: every request gets the same response, and the requests are counted. -/
def counter : Router Nat := Router.onPrefix [] [] fun _ _ s => (some (.sendResponse ⟨⟨200, b!"OK"⟩, [], b!"hi"⟩), s + 1)

theorem counter_result (q : Request) (s : Nat) :
    counter.result q s = (some (.sendResponse ⟨⟨200, b!"OK"⟩, [], b!"hi"⟩), s + 1) := by
  simp [counter, Router.result, Router.onPrefix, Router.resultInternal, startsWith]

theorem counter_parts : counter.PartsLe 28 := by
  refine ⟨by decide, fun q s r s' h => ?_⟩
  rw [counter_result] at h
  rcases h with h | h <;> cases h
  exact ⟨by decide, by decide, by decide, by simp [HeaderMap.flat], by decide⟩

/-- The requests of the following examples. -/
def aRequest : Bytes × Request := (b!"GET /a HTTP/1.1\r\n\r\n", ⟨b!"/a", .get, [], []⟩)

theorem aRequest_fits : FittingRequest aRequest.1 aRequest.2 := fitting_of (prof := ⟨true⟩) (by decide +kernel)

/-- The connections of the following examples: new ones. -/
def Conn.sample (evs : List Ev) : Conn Rd Nbw := Conn.new (Rd.sample evs) (Nbw.sample [])

theorem sample_writable (evs : List Ev) (es : List (List WEv)) (h : ∀ evs ∈ es, ∀ e, .err e ∈ evs → e = .wouldBlock) :
    Writable counter 28 (Conn.sample evs) es :=
  ⟨counter_parts, ⟨.inr rfl, by simp [Conn.sample, Conn.new, Nbw.sample, Nbw.withCapacity]⟩,
    fun x hx => ⟨h x hx, .inr (show 28 ≤ 4096 by omega)⟩⟩

example : ∃ c', handleAll ⟨true⟩ counter [[.accept 7], [], [.accept 100]]
    (.live (Conn.sample [.data (aRequest.1 ++ b!"GET"), .err .wouldBlock, .data b!" /a HT", .err .wouldBlock,
      .data b!"TP/1.1\r\n\r\nG"])) 5 = (.live c', 7) ∧ c'.writer.total = b!"HTTP/1.1 200 OK\r\n\r\nhiHTTP/1.1 200 OK\r\n\r\nhi" := by
  obtain ⟨c', h1, -, h2, -⟩ := C34_answered_partial (rt := counter) (prof := ⟨true⟩) (n := 28) (ms := [aRequest, aRequest])
    (by simp [aRequest_fits]) (by simp [CloseAsked, aRequest, HeaderMap.get])
    (ps := [aRequest.1 ++ b!"GET", b!" /a HT"]) (pausesWell_safe <| by
      intro a ha
      simp only [List.mem_cons, List.not_mem_nil, or_false] at ha
      rcases ha with rfl | rfl <;> exact safeCut_ascii (by decide +kernel))
    (last := b!"TP/1.1\r\n\r\nG") (t := b!"G")
    ⟨b!"ET / HTTP/1.1\r\n\r\n", ⟨b!"/", .get, [], []⟩, by decide, fitting_of (prof := ⟨true⟩) (by decide +kernel)⟩
    (by decide +kernel) (c := Conn.sample [.data (aRequest.1 ++ b!"GET"), .err .wouldBlock, .data b!" /a HT", .err .wouldBlock,
      .data b!"TP/1.1\r\n\r\nG"]) rfl ⟨rfl, by decide +kernel⟩
    (es := [[.accept 7], [], [.accept 100]]) rfl (sample_writable _ _ (by simp)) (s := 5) (s' := 7)
    (.cons (counter_result _ _) (.cons (counter_result _ _) .nil))
  exact ⟨c', h1, h2⟩

/-- C34 (partial: for writers with room or sockets that do not become free in the middle): whatever a client sends,
however it is cut, and whatever else happens (errors, panics), what has been sent is a beginning of what was held
to be sent before, the answers to the requests that were read from the stream, in order, and perhaps one 400 response, if what
comes next is no request. While the connection is there, exactly this has been sent or is held to be sent. -/
theorem C34_only_answers_partial (hrt : rt.PartsLe n) {es : List (List WEv)} {c : Conn Rd Nbw} {s : σ}
    (hl : c.reader.lims = []) (hw : c.writer.Ok) (hes : ∀ evs ∈ es, Tidy n c.writer.cap evs)
    (hp : c.parser.getD .new = .new) :
    ∃ qs out s₁ r₁ tail, Heard prof c.reader qs r₁ ∧ Served rt s qs out s₁ ∧
      (tail = [] ∨ tail = b!"HTTP/1.1 400 Bad Request\r\n\r\n" ∧ NoRequest prof r₁) ∧
      NoneAsked prof rt r₁ s₁ (handleAll prof rt es (.live c) s).2 ∧ c.writer.sock.sent <+: (handleAll prof rt es (.live c) s).1.conn.writer.sock.sent ∧
      (handleAll prof rt es (.live c) s).1.conn.writer.sock.sent <+: c.writer.total ++ out ++ tail ∧
      ∀ c', (handleAll prof rt es (.live c) s).1 = .live c' → tail = [] ∧ (handleAll prof rt es (.live c) s).2 = s₁ ∧
        c'.writer.total = c.writer.total ++ out ∧ ∀ q ∈ qs, ¬ CloseAsked q := by
  obtain ⟨qs, out, s₁, r₁, tail, h1, h2, h3, h0, h4, h5, h6⟩ := handleAll_sound (prof := prof) hrt (s := s) hl hw (Nat.le_refl _) hes
    (r₀ := c.reader) (by rw [hp]; exact inProgress_new prof _)
  exact ⟨qs, out, s₁, r₁, tail, h1, h2, h3, h0, h4, h5, fun c' hc => by
    obtain ⟨k1, k2, k3, k4, -⟩ := h6 c' hc
    exact ⟨k1, k2, k3, k4⟩⟩

example : (∀ evs ∈ [[.accept 5, .err .connectionAborted], [.err .wouldBlock, .accept 3]],
    Tidy 28 (Conn.sample [.data b!"GET"]).writer.cap evs) ∧ (Conn.sample [.data b!"GET"]).reader.lims = [] := by
  refine ⟨?_, rfl⟩
  intro evs h
  simp only [List.mem_cons, List.not_mem_nil, or_false] at h
  rcases h with rfl | rfl <;> exact ⟨by decide, .inr (by decide)⟩

/-- A handler run with nothing held to be sent, on a request. -/
theorem handle_one {q : Request} {w : Nbw} (hb : w.buf = []) (hpos : w.pos = 0) (hf : w.sock.flushes = []) {po : Option RequestParser} {r r' : Rd}
    {s : σ} (hp : RequestParser.parse prof (po.getD .new) r = (.done q, r')) {w' : Nbw} {s' : σ}
    (hw : writeResponseFromRouter rt w q s = (some .ok, w', s')) :
    ∃ f, handle prof rt (.live ⟨r, w, po⟩) s =
      if shouldCloseAfterResponse q then (.done, .gone ⟨r', w', none⟩, s')
      else finish (respondLoop prof rt (f + 1) ⟨r', w', none⟩ s') := by
  refine ⟨3 * r.src.atoms.length + 6, ?_⟩
  have hfl : w.flush = (.ok (), w) := by
    obtain ⟨buf, pos, cap, grow, growOk, evs, fl, sent⟩ := w
    simp only at hb hpos hf
    subst hb hpos hf
    simp [Nbw.flush, Nbw.flushBuf, Sock.writeUntilBlocked, Sock.writeLoop, Nbw.flushInner, Sock.flush]
  rw [handle_live, hfl]
  simp only [respondToRequests]
  rw [show Reader.fuel r = (3 * r.src.atoms.length + 7) + 1 from rfl, respondLoop,
    readRequest_ready (c := ⟨r, w, po⟩) hp]
  simp only [hw]
  split <;> rfl


/-- A handler run that waits at once. -/
theorem handle_wait {c : Conn Rd Nbw} (hl : c.reader.lims = []) (hw : c.writer.Healthy n) (hrt : rt.PartsLe n) {p : RequestParser} {r' : Rd}
    (h : RequestParser.parse prof (c.parser.getD .new) c.reader = (.io p .wouldBlock, r')) (s : σ) :
    ∃ w', handle prof rt (.live c) s = (.done, .live ⟨r', w', some p⟩, s) ∧ w'.Healthy n ∧ w'.total = c.writer.total ∧
      c.writer.Later w' := by
  obtain ⟨w₁, po₁, f, e1, e2, e3, e4, e5⟩ := handle_delivers (.nil : Delivers prof _ c.reader [] _ c.reader) hl (by simp) .nil hw hrt
    (s := s)
  rw [loop_notReady f (by rw [e1]; exact h)] at e5
  exact ⟨w₁, e5, e2, by simpa using e3, e4⟩

/-- A handler run that answers 400 at once. -/
theorem handle_reject {c : Conn Rd Nbw} (hl : c.reader.lims = []) (hw : c.writer.Healthy n) (hrt : rt.PartsLe n) {r' : Rd}
    (h : Rejected prof (c.parser.getD .new) c.reader r') (s : σ) :
    ∃ w', handle prof rt (.live c) s = (.done, .gone ⟨r', w', none⟩, s) ∧ w'.Healthy n ∧
      w'.total = c.writer.total ++ badRequestResponse ∧ c.writer.Later w' := by
  obtain ⟨w₁, po₁, f, e1, e2, e3, e4, e5⟩ := handle_delivers (.nil : Delivers prof _ c.reader [] _ c.reader) hl (by simp) .nil hw hrt
    (s := s)
  obtain ⟨w2, i1, i2, i3, i4⟩ := loop_rejected (rt := rt) f (s := s) (by rw [e1]; exact h) e2 hrt.1
  rw [i1] at e5
  exact ⟨w2, e5, i2, by rw [i3, e3]; simp, e4.trans i4⟩

/-- A handler run that closes at once. -/
theorem handle_close {c : Conn Rd Nbw} (hl : c.reader.lims = []) (hw : c.writer.Healthy n) (hrt : rt.PartsLe n) {r' : Rd}
    {p : RequestParser} {e : IoError} (h : RequestParser.parse prof (c.parser.getD .new) c.reader = (.io p e, r'))
    (he : e ≠ .wouldBlock) (hc : isClosed p e = true) (s : σ) :
    ∃ w', handle prof rt (.live c) s = (.done, .gone ⟨r', w', none⟩, s) ∧ w'.Healthy n ∧
      w'.total = c.writer.total ∧ c.writer.Later w' := by
  obtain ⟨w₁, po₁, f, e1, e2, e3, e4, e5⟩ := handle_delivers (.nil : Delivers prof _ c.reader [] _ c.reader) hl (by simp) .nil hw hrt
    (s := s)
  rw [loop_closed f (by rw [e1]; exact h) he hc] at e5
  exact ⟨w₁, e5, e2, by simpa using e3, e4⟩

theorem Writable.wake {c : Conn Rd Nbw} {es : List (List WEv)} {evs : List WEv} (h : Writable rt n c (evs :: es)) :
    Nbw.Healthy n { c.writer with sock := { c.writer.sock with evs } } :=
  wake_healthy h.steady (Nat.le_refl _) (h.calm evs (by simp))

theorem Writable.later {c : Conn Rd Nbw} {es : List (List WEv)} {evs : List WEv} (h : Writable rt n c (evs :: es)) {c' : Conn Rd Nbw}
    (hl : Nbw.Later { c.writer with sock := { c.writer.sock with evs } } c'.writer) (hh : c'.writer.Healthy n) :
    Writable rt n c' es :=
  ⟨h.parts, healthy_steady hh, fun e he => by
    have := h.calm e (by simp [he])
    exact ⟨this.1, this.2.imp id fun hc => Nat.le_trans hc hl.cap⟩⟩

/-- C34 is false: if reading pauses inside a character of the request line, a request that fits is answered with
400 and the router is not asked about it. -/
theorem C34_cut_false (prof : Profile) : ∃ (a b : Bytes) (q : Request), FittingRequest (a ++ b) q ∧ ¬ CloseAsked q ∧
    ∀ {σ : Type} (rt : Router σ) (n : Nat) (c : Conn Rd Nbw) (e₁ e₂ : List WEv) (s : σ), c.parser.getD .new = .new →
      c.reader.Ahead (a.map .byte ++ .err .wouldBlock :: b.map .byte) → Writable rt n c [e₁, e₂] →
      ∃ c', handleAll prof rt [e₁, e₂] (.live c) s = (.gone c', s) ∧
        c'.writer.total = c.writer.total ++ b!"HTTP/1.1 400 Bad Request\r\n\r\n" := by
  refine ⟨b!"GET /caf" ++ [0xC3], 0xA9 :: b!" HTTP/1.1\r\n\r\n", ⟨b!"/caf" ++ [0xC3, 0xA9], .get, [], []⟩,
    fitting_of (prof := ⟨true⟩) (by decide +kernel), by simp [CloseAsked, HeaderMap.get], ?_⟩
  intro σ rt n c e₁ e₂ s hp hr hw
  obtain ⟨r1, h1, h2⟩ := requestParse_of (prof := prof) (p := .new) hr (o := .io (.firstLine []) .wouldBlock)
    (rest := (0xA9 :: b!" HTTP/1.1\r\n\r\n").map .byte) (by rcases prof with ⟨_ | _⟩ <;> decide +kernel)
  obtain ⟨r2, h3, h4⟩ := requestParse_of (prof := prof) (p := .firstLine []) h2 (o := .perr .invalidUtf8)
    (rest := b!"\r\n".map .byte) (by rcases prof with ⟨_ | _⟩ <;> decide +kernel)
  obtain ⟨w1, i1, i2, i3, i4⟩ := handle_wait
    (c := { c with writer := { c.writer with sock := { c.writer.sock with evs := e₁ } } }) hr.1 hw.wake hw.parts (by rw [hp]; exact h1) s
  have hw' := hw.later (c' := ⟨r1, w1, some (.firstLine [])⟩) i4 i2
  obtain ⟨w2, j1, j2, j3, j4⟩ := handle_reject
    (c := ⟨r1, { w1 with sock := { w1.sock with evs := e₂ } }, some (.firstLine [])⟩) h2.1 hw'.wake hw.parts (.inl ⟨_, h3⟩) s
  refine ⟨⟨r2, w2, none⟩, ?_, ?_⟩
  · simp only [handleAll, Slot.wake, i1, j1]
  · rw [j3]
    show w1.total ++ _ = _
    rw [i3]
    rfl

/-- A router that answers every request with a large response. -/
def bigRouter : Router Unit := Router.onPrefix [] [] fun _ _ s => (some (.sendResponse bigResponse), s)

theorem bigRouter_result (q : Request) (s : Unit) : bigRouter.result q s = (some (.sendResponse bigResponse), s) := by
  simp [bigRouter, Router.result, Router.onPrefix, Router.resultInternal, startsWith]

/-- C34 is false: if the socket becomes free while a response is written that is larger than the buffer, the
body is sent before the head. -/
theorem C34_order_false (prof : Profile) : ∃ (rt : Router Unit) (w : Bytes) (q : Request) (head body : Bytes),
    FittingRequest w q ∧ ¬ CloseAsked q ∧ Served rt () [q] (head ++ body) () ∧ head ≠ body.take head.length ∧
    ∀ (r : Rd) (grow : Nat → Nat → Nat) (growOk : ∀ c n, c ≤ grow c n), r.Ahead (w.map .byte) → ∃ c',
      handle prof rt (.live (Conn.new r (Nbw.withCapacity 4096 grow growOk ⟨[.err .wouldBlock, .accept 5000], [], []⟩))) () =
        (.done, .live c', ()) ∧ c'.writer.sock.sent = body ∧ c'.writer.pending = head := by
  refine ⟨bigRouter, aRequest.1, aRequest.2, b!"HTTP/1.1 200 OK\r\n\r\n", List.replicate 4097 120, aRequest_fits,
    by simp [CloseAsked, aRequest, HeaderMap.get], ?_, by decide +kernel, ?_⟩
  · have := Served.cons (rt := bigRouter) (bigRouter_result aRequest.2 ()) .nil
    rw [List.append_nil] at this
    have e : ∀ body : Bytes, responseBytes ⟨⟨200, b!"OK"⟩, [], body⟩ = b!"HTTP/1.1 200 OK\r\n\r\n" ++ body := by
      intro body
      unfold responseBytes
      simp only [HeaderMap.flat, List.flatMap_nil]
      exact congrArg (· ++ body) (by decide +kernel)
    rw [answerBytes, bigResponse, e] at this
    exact this
  · intro r grow growOk hr
    obtain ⟨r1, h1, h2⟩ := C04_request_accepted prof aRequest_fits (rest := []) (by simpa using hr)
    obtain ⟨w', h3, h4, h5⟩ := C31_reorder_false grow growOk bigResponse.body (by rw [bigResponse, List.length_replicate]; decide)
      5000 (by rw [bigResponse, List.length_replicate]; decide)
    obtain ⟨f, h6⟩ := handle_one (rt := bigRouter) (w := Nbw.withCapacity 4096 grow growOk ⟨[.err .wouldBlock, .accept 5000], [], []⟩)
      rfl rfl rfl (po := some .new) h1 (w' := w') (s := ()) (s' := ()) (by
        unfold writeResponseFromRouter
        rw [bigRouter_result]
        simp only
        rw [show bigResponse = ⟨⟨200, b!"OK"⟩, [], bigResponse.body⟩ from rfl, h3])
    obtain ⟨p2, r2, e1, e2, -⟩ := (got_new prof).part (v := []) (unfinished_nil.waits (List.nil_prefix)) (by simpa using h2) (.inl rfl)
    rw [loop_notReady f e1] at h6
    refine ⟨⟨r2, w', some p2⟩, h6, h4, h5⟩


/-! ## C35 -/

theorem Refused.run {b : Bytes} (h : Refused prof b) (X : List Atom) :
    ∃ e, mrun prof parseRequestLine false RequestParser.new ⟨[], b.map .byte ++ X⟩ = (.perr e, ⟨[], X⟩) := by
  obtain ⟨r, r', e, h1, h2, h3⟩ := h
  have h4 := (request_isWrap prof).ahead (p := RequestParser.new) h1
  rw [h2, h3.abs] at h4
  simp only [wrap, Prod.mk.injEq] at h4
  have h5 : mrun prof parseRequestLine false RequestParser.new ⟨[], b.map .byte⟩ = (.perr e, ⟨[], []⟩) := by
    refine Prod.ext ?_ h4.2
    generalize (mrun prof parseRequestLine false RequestParser.new ⟨[], b.map .byte⟩).1 = o at h4
    obtain ⟨h4, -⟩ := h4
    cases o with
    | done v => simp [Out.bind] at h4
    | perr e' => simpa [Out.bind] using h4
    | _ => simp [Out.bind] at h4
  have h6 := mrun_append X h5 (by simp)
  exact ⟨e, by simpa using h6⟩

/-- C35 (partial: for pauses that do not cut a character of a line, and writers as in `C34_answered_partial`): if after some
requests comes something that is no request, then the answers to the requests and one 400 response are sent or held to be
sent, the connection is closed in the invocation in which the last byte of this arrives, and what comes after it
(`X`) is not read, however many further invocations there are. -/
theorem C35_refused_partial {ms : List (Bytes × Request)} (hms : ∀ m ∈ ms, FittingRequest m.1 m.2)
    (hopen : ∀ m ∈ ms, ¬ CloseAsked m.2) {ps : List Bytes} (hps : PausesWell ps) {last b : Bytes}
    (hb : Refused prof b) (hlast : last ≠ []) (he : ps.flatten ++ last = ms.flatMap Prod.fst ++ b)
    {c : Conn Rd Nbw} (hp : c.parser.getD .new = .new) {X : List Atom}
    (hr : c.reader.Ahead (spaced (ps.map fun a => a.map .byte) (last.map .byte ++ X)))
    {es : List (List WEv)} (hlen : ps.length < es.length) (hw : Writable rt n c es)
    {s s' : σ} {out : Bytes} (hs : Served rt s (ms.map Prod.snd) out s') :
    ∃ c', handleAll prof rt es (.live c) s = (.gone c', s') ∧ c'.reader.Ahead X ∧
      c'.writer.total = c.writer.total ++ out ++ b!"HTTP/1.1 400 Bad Request\r\n\r\n" ∧
      c.writer.sock.sent <+: c'.writer.sock.sent := by
  obtain ⟨es1, evs, es2, rfl, hl1⟩ : ∃ a b d, es = a ++ b :: d ∧ a.length = ps.length := by
    refine ⟨es.take ps.length, es[ps.length], es.drop (ps.length + 1), ?_, by simp; omega⟩
    rw [← List.drop_eq_getElem_cons, List.take_append_drop]
  have hbne : b ≠ [] := by
    rintro rfl
    obtain ⟨e, h⟩ := hb.run []
    obtain ⟨s, r, h'⟩ := unfinished_nil.waits (prof := prof) (List.prefix_refl [])
    rw [show ([] : Bytes).map Atom.byte ++ [] = ([] : Bytes).map .byte from rfl, h'] at h
    cases h
  obtain ⟨b', x, rfl⟩ : ∃ b' x, b = b' ++ [x] := by
    rcases List.eq_nil_or_concat b with rfl | ⟨a, b, rfl⟩
    · exact absurd rfl hbne
    · exact ⟨a, b, by simp⟩
  obtain ⟨u', a', p', r', w', f, po, h1, h2, h3, h4, h5, h6, h7, h8⟩ := served_pieces (prof := prof) (x := [x]) (t' := b') (X := X)
    hms hopen hps (fun y hy => by
      obtain ⟨z, rfl⟩ := hy
      obtain ⟨e, h⟩ := hb.run []
      rw [List.append_assoc] at h
      exact waits_of h (by simp)) rfl (by have := List.length_pos_iff.2 hlast; simp only [List.length_cons, List.length_nil]; omega) he hp hr hw hl1 hs
  obtain ⟨e, h9⟩ := hb.run X
  rw [← h1] at h9
  obtain ⟨r2, i1, i2⟩ := h2.bad h9 h3
  obtain ⟨w2, j1, j2, j3, j4⟩ := loop_rejected (rt := rt) f (s := s') (by rw [h4]; exact .inl ⟨e, i1⟩) h5 hw.parts.1
  rw [j1] at h8
  refine ⟨⟨r2, w2, none⟩, ?_, i2, by rw [j3, h6]; rfl, h7.trans j4.sent⟩
  rw [h8]
  exact handleAll_gone _ _ _

/-- C35: the same if the thing that is no request begins in the invocation in which it is found to be none; it may be too
long in some way, which is found before it has arrived completely, or end with an error of the stream. -/
theorem C35_rejected_partial {ms : List (Bytes × Request)} (hms : ∀ m ∈ ms, FittingRequest m.1 m.2)
    (hopen : ∀ m ∈ ms, ¬ CloseAsked m.2) {ps : List Bytes} (hps : PausesWell ps) {last : Bytes}
    (he : ps.flatten ++ last = ms.flatMap Prod.fst)
    {c : Conn Rd Nbw} (hp : c.parser.getD .new = .new) {X : List Atom} (hX : Rejects prof X)
    (hr : c.reader.Ahead (spaced (ps.map fun a => a.map .byte) (last.map .byte ++ X)))
    {es : List (List WEv)} (hlen : ps.length < es.length) (hw : Writable rt n c es)
    {s s' : σ} {out : Bytes} (hs : Served rt s (ms.map Prod.snd) out s') :
    ∃ c', handleAll prof rt es (.live c) s = (.gone c', s') ∧
      c'.writer.total = c.writer.total ++ out ++ b!"HTTP/1.1 400 Bad Request\r\n\r\n" ∧
      c.writer.sock.sent <+: c'.writer.sock.sent := by
  obtain ⟨es1, evs, es2, rfl, hl1⟩ : ∃ a b d, es = a ++ b :: d ∧ a.length = ps.length := by
    refine ⟨es.take ps.length, es[ps.length], es.drop (ps.length + 1), ?_, by simp; omega⟩
    rw [← List.drop_eq_getElem_cons, List.take_append_drop]
  obtain ⟨u', a', p', r', w', f, po, h1, h2, h3, h4, h5, h6, h7, h8⟩ := served_pieces (prof := prof) (x := []) (t := []) (t' := []) (X := X)
    hms hopen hps (fun y hy => unfinished_nil.waits hy) rfl (by simp) (by simpa using he) hp hr hw hl1 hs
  obtain ⟨rfl, rfl⟩ := List.append_eq_nil_iff.1 h1
  obtain ⟨rfl, -⟩ := h2.line (by simp)
  have h3' : r'.Ahead X := by simpa using h3
  have hrej : ∃ r2, Rejected prof .new r' r2 := by
    obtain ⟨r0, k1, k2⟩ := hX
    have e1 := requestParse_ahead (prof := prof) (p := .new) k1
    have e2 := requestParse_ahead (prof := prof) (p := .new) h3'
    rw [e1] at e2
    simp only [Prod.mk.injEq] at e2
    rw [e2.1] at k2
    rcases k2 with ⟨e, k2⟩ | ⟨p, e, k2, k3, k4, k5⟩
    · exact ⟨_, .inl ⟨e, Prod.ext k2 rfl⟩⟩
    · exact ⟨_, .inr ⟨p, e, Prod.ext k2 rfl, k3, by simp [isClosed, k4, k5]⟩⟩
  obtain ⟨r2, hrej⟩ := hrej
  obtain ⟨w2, j1, j2, j3, j4⟩ := loop_rejected (rt := rt) f (s := s') (by rw [h4]; exact hrej) h5 hw.parts.1
  rw [j1] at h8
  refine ⟨⟨r2, w2, none⟩, ?_, by rw [j3, h6]; rfl, h7.trans j4.sent⟩
  rw [h8]
  exact handleAll_gone _ _ _

/-- A line that is no request line is no request. -/
theorem C35_first_line (prof : Profile) {l : Bytes} (hl : LineText l) (h : ∀ m u, ¬ RequestLine m u l) : Refused prof (l ++ CRLF) := by
  obtain ⟨r, hr⟩ := Rd.exists_ahead ((l ++ CRLF).map .byte)
  have h1 := line_accept prof hl (ls := []) (by simp) []
  rw [List.append_nil] at h1
  cases hp : parseRequestLine l with
  | ok x => exact absurd (requestLine_iff.1 hp) (h x.1 x.2)
  | error e =>
    obtain ⟨r', h2, h3⟩ := (request_isWrap prof).of (p := RequestParser.new) (o := .perr e) (rest := []) hr (by
      have h2 : mrun prof parseRequestLine false RequestParser.new ⟨[], (l ++ CRLF).map .byte⟩ = (.perr e, ⟨[], []⟩) := by
        rw [mrun_cont _ _ _ _ _ (show MsgState.isFinished RequestParser.new = false from rfl)]
        simp only [msgStep, RequestParser.new, firstLineState, h1, Out.bind, hp, Out.cont, decN_nil]
      rw [wrap, h2]
      rfl)
    exact ⟨r, r', e, hr, h2, h3⟩

example : LineText b!"GET /x" ∧ ∀ m u, ¬ RequestLine m u b!"GET /x" := by
  refine ⟨⟨by decide, by decide, by decide⟩, fun m u h => ?_⟩
  have := requestLine_iff.2 h
  rw [show parseRequestLine b!"GET /x" = .error .badSyntax from rfl] at this
  cases this

example : ∃ c', handleAll ⟨true⟩ counter [[], [.accept 100], [.accept 100]]
    (.live (Conn.sample [.data (aRequest.1 ++ b!"GET"), .err .wouldBlock, .data (b!" /x\r\n" ++ aRequest.1), .data aRequest.1])) 5 =
      (.gone c', 6) ∧ c'.writer.total = b!"HTTP/1.1 200 OK\r\n\r\nhiHTTP/1.1 400 Bad Request\r\n\r\n" := by
  obtain ⟨c', h1, -, h2, -⟩ := C35_refused_partial (rt := counter) (prof := ⟨true⟩) (n := 28) (ms := [aRequest])
    (by simp [aRequest_fits]) (by simp [CloseAsked, aRequest, HeaderMap.get])
    (ps := [aRequest.1 ++ b!"GET"]) (pausesWell_safe <| by
      intro a ha
      simp only [List.mem_cons, List.not_mem_nil, or_false] at ha
      rcases ha with rfl; exact safeCut_ascii (by decide +kernel))
    (last := b!" /x\r\n") (b := b!"GET /x\r\n") (C35_first_line ⟨true⟩ (l := b!"GET /x") ⟨by decide, by decide, by decide⟩ (by
      intro m u h
      have := requestLine_iff.2 h
      rw [show parseRequestLine b!"GET /x" = .error .badSyntax from rfl] at this
      cases this)) (by decide)
    (by decide +kernel)
    (c := Conn.sample [.data (aRequest.1 ++ b!"GET"), .err .wouldBlock, .data (b!" /x\r\n" ++ aRequest.1), .data aRequest.1]) rfl
    (X := (aRequest.1 ++ aRequest.1).map .byte) ⟨rfl, by decide +kernel⟩
    (es := [[], [.accept 100], [.accept 100]]) (by decide) (sample_writable _ _ (by simp)) (s := 5) (s' := 6)
    (.cons (counter_result _ _) .nil)
  exact ⟨c', h1, h2⟩

example : Rejects ⟨true⟩ ((List.replicate 513 120).map .byte) := by
  obtain ⟨r, hr⟩ := Rd.exists_ahead ((List.replicate 513 120).map .byte)
  obtain ⟨p', r', h⟩ := limited_of (prof := ⟨true⟩) (p := .new) hr (by decide +kernel)
  exact ⟨r, hr, .inr ⟨p', _, by rw [h], by simp⟩⟩


/-! ## C36 -/

/-- C36: a client that has sent the fields `fs` has asked for the connection to be closed exactly if one of them has a name
that is `connection` but for capitals, and the value `close`, in small letters. -/
theorem C36_close_field {q : Request} {fs : List (Bytes × Bytes)} (h : q.headers = HeaderMap.fromPairs (fieldMap fs)) :
    CloseAsked q ↔ ∃ name, (name, b!"close") ∈ fs ∧ SameText name b!"connection" := by
  rw [← closeAsked_iff, shouldCloseAfterResponse, h, C19_contains_value]
  simp only [fieldMap, List.mem_map, Prod.mk.injEq]
  constructor
  · rintro ⟨⟨a, b⟩, h1, h2, rfl⟩
    refine ⟨a, h1, ?_⟩
    rwa [show Header.connection = Header.ofStr b!"connection" from by decide +kernel, C18_header_equal_iff_same_text] at h2
  · rintro ⟨name, h1, h2⟩
    refine ⟨_, h1, ?_, rfl⟩
    rwa [show Header.connection = Header.ofStr b!"connection" from by decide +kernel, C18_header_equal_iff_same_text]

example : CloseAsked ⟨b!"/", .get, HeaderMap.fromPairs (fieldMap [(b!"Connection", b!"keep-alive"), (b!"CONNECTION", b!"close")]), []⟩ ∧
    ¬ CloseAsked ⟨b!"/", .get, HeaderMap.fromPairs (fieldMap [(b!"Connection", b!"Close")]), []⟩ := by
  rw [C36_close_field rfl, C36_close_field rfl]
  refine ⟨⟨b!"CONNECTION", by decide, lower_eq_iff.1 (by decide)⟩, ?_⟩
  rintro ⟨name, h, -⟩
  simp at h

/-- C36 (partial: for pauses that do not cut a character of a line, and writers as in `C34_answered_partial`, which report no
errors): after the answer to a request that asks for it the connection is closed, in the invocation in which
the request arrives; nothing that comes after it is read. That it is not closed after a request that does not ask
for it is in `C34_answered_partial`. -/
theorem C36_asked_partial {ms : List (Bytes × Request)} (hms : ∀ m ∈ ms, FittingRequest m.1 m.2)
    (hopen : ∀ m ∈ ms, ¬ CloseAsked m.2) {w : Bytes} {q : Request} (hq : FittingRequest w q) (hc : CloseAsked q)
    {ps : List Bytes} (hps : PausesWell ps) {last : Bytes}
    (hlast : last ≠ []) (he : ps.flatten ++ last = ms.flatMap Prod.fst ++ w)
    {c : Conn Rd Nbw} (hp : c.parser.getD .new = .new) {X : List Atom}
    (hr : c.reader.Ahead (spaced (ps.map fun a => a.map .byte) (last.map .byte ++ X)))
    {es : List (List WEv)} (hlen : ps.length < es.length) (hw : Writable rt n c es)
    {s s' : σ} {out : Bytes} (hs : Served rt s (ms.map Prod.snd ++ [q]) out s') :
    ∃ c', handleAll prof rt es (.live c) s = (.gone c', s') ∧ c'.reader.Ahead X ∧
      c'.writer.total = c.writer.total ++ out ∧ c.writer.sock.sent <+: c'.writer.sock.sent := by
  obtain ⟨es1, evs, es2, rfl, hl1⟩ : ∃ a b d, es = a ++ b :: d ∧ a.length = ps.length := by
    refine ⟨es.take ps.length, es[ps.length], es.drop (ps.length + 1), ?_, by simp; omega⟩
    rw [← List.drop_eq_getElem_cons, List.take_append_drop]
  obtain ⟨b', x, rfl⟩ : ∃ b' x, w = b' ++ [x] := by
    rcases List.eq_nil_or_concat w with rfl | ⟨a, b, rfl⟩
    · exact hq.ne_nil.elim
    · exact ⟨a, b, by simp⟩
  obtain ⟨o1, o2, s1, rfl, hs1, hs2⟩ := hs.split
  obtain ⟨u', a', p', r', w', f, po, h1, h2, h3, h4, h5, h6, h7, h8⟩ := served_pieces (prof := prof) (x := [x]) (t' := b') (X := X)
    hms hopen hps (fun y hy => by
      obtain ⟨z, rfl⟩ := hy
      rw [List.append_assoc] at hq
      exact waits_of_fitting (by simp) hq) rfl
    (by have := List.length_pos_iff.2 hlast; simp only [List.length_cons, List.length_nil]; omega) he hp hr hw hl1 hs1
  obtain ⟨r2, i1, i2⟩ := h2.request (by rw [h1]; exact hq) h3
  cases hs2 with
  | cons k1 k2 =>
  cases k2
  obtain ⟨w2, j1, j2, j3, j4⟩ := loop_asked f (by rw [h4]; exact i1) hc k1 h5 hw.parts
  rw [j1] at h8
  refine ⟨⟨r2, w2, none⟩, ?_, i2, by rw [j3, h6]; simp, h7.trans j4.sent⟩
  rw [h8]
  exact handleAll_gone _ _ _

/-- A request that asks for the connection to be closed. -/
def closeRequest : Bytes × Request :=
  (b!"GET /a HTTP/1.1\r\nConnection: close\r\n\r\n", ⟨b!"/a", .get, HeaderMap.fromPairs [(Header.connection, b!"close")], []⟩)

theorem closeRequest_fits : FittingRequest closeRequest.1 closeRequest.2 := fitting_of (prof := ⟨true⟩) (by decide +kernel)

theorem closeRequest_asks : CloseAsked closeRequest.2 := (closeAsked_iff _).1 (by decide +kernel)

example : ∃ c', handleAll ⟨true⟩ counter [[], [.accept 3], []]
    (.live (Conn.sample [.data (aRequest.1 ++ b!"GET"), .err .wouldBlock, .data (closeRequest.1.drop 3), .data aRequest.1])) 5 =
      (.gone c', 7) ∧ c'.writer.total = b!"HTTP/1.1 200 OK\r\n\r\nhiHTTP/1.1 200 OK\r\n\r\nhi" := by
  obtain ⟨c', h1, -, h2, -⟩ := C36_asked_partial (rt := counter) (prof := ⟨true⟩) (n := 28) (ms := [aRequest])
    (by simp [aRequest_fits]) (by simp [CloseAsked, aRequest, HeaderMap.get]) closeRequest_fits closeRequest_asks
    (ps := [aRequest.1 ++ b!"GET"]) (pausesWell_safe <| by
      intro a ha
      simp only [List.mem_cons, List.not_mem_nil, or_false] at ha
      rcases ha with rfl; exact safeCut_ascii (by decide +kernel))
    (last := closeRequest.1.drop 3) (by decide +kernel) (by decide +kernel)
    (c := Conn.sample [.data (aRequest.1 ++ b!"GET"), .err .wouldBlock, .data (closeRequest.1.drop 3), .data aRequest.1]) rfl
    (X := aRequest.1.map .byte) ⟨rfl, by decide +kernel⟩
    (es := [[], [.accept 3], []]) (by decide) (sample_writable _ _ (by simp)) (s := 5) (s' := 7)
    (.cons (counter_result _ _) (.cons (counter_result _ _) .nil))
  exact ⟨c', h1, h2⟩

/-- C36 (partial: for writers with room or sockets that do not become free in the middle): whatever a client sends, and
whatever the socket does. The requests read in one invocation are `qs`. If the connection is kept, none of them asked for
it to be closed. If it is closed, the socket reported an error, or the last of them did (and none before it), or the input
is at an end (closed, or an error of the stream) or is no request. Otherwise a parse call or a listener panicked. -/
theorem C36_reasons_partial (hrt : rt.PartsLe n) {c : Conn Rd Nbw} (s : σ) (hl : c.reader.lims = []) (hw : c.writer.Orderly n)
    {r₀ : Rd} (hi : InProgress prof r₀ (c.parser.getD .new) c.reader) :
    ∃ qs out s₁ r₁, Heard prof r₀ qs r₁ ∧ Served rt s qs out s₁ ∧ (∀ q ∈ qs.dropLast, ¬ CloseAsked q) ∧
      match (handle prof rt (.live c) s).2.1 with
      | .live c' => (∀ q ∈ qs, ¬ CloseAsked q) ∧ InProgress prof r₁ (c'.parser.getD .new) c'.reader ∧
          c'.writer.total = c.writer.total ++ out
      | .gone c' => (∃ e, c.writer.Faulty e) ∨ (∃ q, qs.getLast? = some q ∧ CloseAsked q ∧ c'.writer.total = c.writer.total ++ out) ∨
          (∀ q ∈ qs, ¬ CloseAsked q) ∧
            ∃ o r', Calls (RequestParser.parse prof) .new r₁ o r' ∧ ((∃ e, o = .perr e) ∨ ∃ p e, o = .io p e ∧ e ≠ .wouldBlock)
      | .poisoned _ => (∃ r', Calls (RequestParser.parse prof) .new r₁ .panic r') ∨
          ∃ q r', Calls (RequestParser.parse prof) .new r₁ (.done q) r' ∧ (rt.result q s₁).1 = none := by
  have hdrop : ∀ {qs : List Request}, (∀ q ∈ qs, ¬ CloseAsked q) → ∀ q ∈ qs.dropLast, ¬ CloseAsked q :=
    fun h q hq => h q (List.dropLast_subset _ hq)
  rcases handle_trace (prof := prof) hrt (s := s) hl hw with ⟨e, w, h1, h2, h3, h4⟩ | ⟨e, c', s', qs, out, s₁, p₁, r₁, h1, h2, h3, h4, h5, h6⟩
  · rw [h4]
    exact ⟨[], [], s, r₀, .nil, .nil, by simp, .inl ⟨e, h1⟩⟩
  · rw [h1]
    obtain ⟨r₂, g1, g2⟩ := h3.heard hi
    cases h6 with
    | @keep _ p' e1 e2 e3 e4 =>
      exact ⟨qs, out, s', r₂, g1, h5, hdrop h4, h4, by rw [e2]; exact g2.pause e1, e4⟩
    | @asked _ q a _ e1 e2 e3 e4 e5 =>
      refine ⟨qs ++ [q], out ++ answerBytes a, s', c'.reader, g1.append (.cons (g2.calls (.last e1)) .nil),
        h5.append (by simpa using Served.cons e2 .nil), by simpa using h4, .inr (.inl ⟨q, by simp, e3, by rw [e5, List.append_assoc]⟩)⟩
    | @failed _ q a _ e e1 e2 e3 e4 =>
      exact ⟨qs ++ [q], out ++ answerBytes a, s', c'.reader, g1.append (.cons (g2.calls (.last e1)) .nil),
        h5.append (by simpa using Served.cons e2 .nil), by simpa using h4, .inl ⟨e, e3⟩⟩
    | closed e1 e2 e3 e4 e5 =>
      exact ⟨qs, out, s', r₂, g1, h5, hdrop h4, .inr (.inr ⟨h4, _, _, g2.calls (.last e1), .inr ⟨_, _, rfl, e2⟩⟩)⟩
    | bad e1 e2 =>
      refine ⟨qs, out, s', r₂, g1, h5, hdrop h4, .inr (.inr ⟨h4, ?_⟩)⟩
      rcases e1 with ⟨e, e1⟩ | ⟨p', e, e1, e3, e4⟩
      · exact ⟨_, _, g2.calls (.last e1), .inl ⟨e, rfl⟩⟩
      · exact ⟨_, _, g2.calls (.last e1), .inr ⟨_, _, rfl, e3⟩⟩
    | parserPanic e1 e2 e3 => exact ⟨qs, out, s', r₂, g1, h5, hdrop h4, .inl ⟨_, g2.calls (.last e1)⟩⟩
    | listenerPanic e1 e2 e3 e4 =>
      exact ⟨qs, out, s₁, r₂, g1, h5, hdrop h4, .inr ⟨_, _, g2.calls (.last e1), by rw [e2]⟩⟩

example : (Conn.sample [.data b!"GET"]).writer.Orderly 28 ∧
    InProgress prof (Conn.sample [.data b!"GET"]).reader ((Conn.sample [.data b!"GET"]).parser.getD .new) (Conn.sample [.data b!"GET"]).reader :=
  ⟨⟨.inr rfl, by simp [Conn.sample, Conn.new, Nbw.sample, Nbw.withCapacity], .inl (by simp [Sticky, Conn.sample, Conn.new, Nbw.sample, Nbw.withCapacity])⟩,
    inProgress_new _ _⟩

/-- C36: when the response could not be written, the connection is closed: a socket that reports an error
closes the connection at the next invocation if something is held to be sent. -/
theorem C36_broken_partial {c : Conn Rd Nbw} (s : σ) (hw : c.writer.Ok) (hp : c.writer.pending ≠ []) {e : IoError}
    (he : c.writer.sock.evs.head? = some (.err e)) (h1 : e ≠ .wouldBlock) (h2 : e ≠ .interrupted) :
    ∃ w, handle prof rt (.live c) s = (.done, .gone { c with writer := w }, s) ∧ w.sock.sent = c.writer.sock.sent := by
  obtain ⟨-, f1, -, f3⟩ := flush_cases c.writer hw
  obtain ⟨evs', hev⟩ : ∃ t, c.writer.sock.evs = .err e :: t := by
    cases hs : c.writer.sock.evs with
    | nil => rw [hs] at he; cases he
    | cons a t => rw [hs] at he; simp only [List.head?_cons, Option.some.injEq] at he; exact ⟨t, by rw [he]⟩
  rw [hev] at f1 f3
  simp only [room, List.take_zero, List.append_nil, firstErr, List.drop_zero, Nat.le_zero, List.length_eq_zero_iff] at f1 f3
  rw [handle_live]
  rcases f3 with ⟨-, h | h, -⟩ | ⟨e', h, -⟩
  · exact absurd h hp
  · exact absurd h h1
  · cases hf : c.writer.flush with
    | mk x w =>
    rw [hf] at h f1
    simp only at h f1
    subst h
    exact ⟨w, rfl, f1⟩

/-! ## C37 -/

/-- C37 is false: what the socket does not take at once of the answer to a request that asks for the connection to be closed
is lost. -/
theorem C37_close_false (prof : Profile) : ∃ c', handle prof counter
    (.live (Conn.new (Rd.sample [.data closeRequest.1]) (Nbw.sample [.accept 5]))) 0 = (.done, .gone c', 1) ∧
      c'.writer.sock.sent = b!"HTTP/" ∧ c'.writer.pending = b!"1.1 200 OK\r\n\r\nhi" := by
  obtain ⟨r1, h1, h2⟩ := C04_request_accepted prof closeRequest_fits (r := Rd.sample [.data closeRequest.1]) (rest := [])
    ⟨rfl, by decide +kernel⟩
  obtain ⟨w', h3, h4, h5⟩ : ∃ w', writeResponse (Nbw.sample [.accept 5]) ⟨⟨200, b!"OK"⟩, [], b!"hi"⟩ = (.ok, w') ∧
      w'.sock.sent = b!"HTTP/" ∧ w'.pending = b!"1.1 200 OK\r\n\r\nhi" :=
    ⟨_, Prod.ext (by decide +kernel) rfl, by decide +kernel, by decide +kernel⟩
  obtain ⟨f, h6⟩ := handle_one (rt := counter) (w := Nbw.sample [.accept 5]) rfl rfl rfl (po := some .new) h1 (w' := w') (s := 0) (s' := 1) (by
    unfold writeResponseFromRouter
    rw [counter_result]
    simp only [h3])
  rw [(closeAsked_iff _).2 closeRequest_asks] at h6
  exact ⟨_, h6, h4, h5⟩


/-- C37 is false: so is what the socket does not take at once of a 400 response. -/
theorem C37_refused_false (prof : Profile) : ∃ c', handle prof counter
    (.live (Conn.new (Rd.sample [.data b!"GET /\r\n"]) (Nbw.sample [.accept 5]))) 0 = (.done, .gone c', 0) ∧
      c'.writer.sock.sent = b!"HTTP/" ∧ c'.writer.pending = b!"1.1 400 Bad Request\r\n\r\n" := by
  obtain ⟨r2, h3, h4⟩ := requestParse_of (prof := prof) (p := .new) (r := Rd.sample [.data b!"GET /\r\n"])
    (as := b!"GET /\r\n".map .byte) ⟨rfl, by decide +kernel⟩ (o := .perr .badSyntax) (rest := []) (by rcases prof with ⟨_ | _⟩ <;> decide +kernel)
  obtain ⟨w', h5, h6, h7⟩ : ∃ w', writeErrorResponse (Nbw.sample [.accept 5]) = (.ok, w') ∧
      w'.sock.sent = b!"HTTP/" ∧ w'.pending = b!"1.1 400 Bad Request\r\n\r\n" :=
    ⟨_, Prod.ext (by decide +kernel) rfl, by decide +kernel, by decide +kernel⟩
  refine ⟨⟨r2, w', none⟩, ?_, h6, h7⟩
  have hfl : (Nbw.sample [.accept 5]).flush = (.ok (), Nbw.sample [.accept 5]) := by
    simp [Nbw.flush, Nbw.flushBuf, Sock.writeUntilBlocked, Sock.writeLoop, Nbw.flushInner, Sock.flush, Nbw.sample, Nbw.withCapacity]
  rw [handle_live, show (Conn.new (Rd.sample [.data b!"GET /\r\n"]) (Nbw.sample [.accept 5])).writer = Nbw.sample [.accept 5] from rfl, hfl]
  simp only [respondToRequests, Conn.new]
  rw [show Reader.fuel (Rd.sample [.data b!"GET /\r\n"]) = (3 * (Rd.sample [.data b!"GET /\r\n"]).src.atoms.length + 7) + 1 from rfl,
    respondLoop]
  unfold Conn.readRequest
  simp only [Option.getD_some, h3, h5, finish]

section

variable {E : List WEv} {w : Nbw}

/-- All events the socket has had so far are of `E`, and if it has not been full, nothing is held. -/
def Drained (w : Nbw) : Prop := w.sock.evs ≠ [] → w.pending = []

theorem accepts_left {fl : List (Option IoError)} {evs : List WEv} (h : ∀ e, .err e ∉ evs) {sent b : Bytes}
    (hb : ¬ b.length ≤ room evs) : (Sock.writeLoop fl evs sent b).2.evs = [] := by
  induction evs generalizing sent b with
  | nil => cases b <;> simp [Sock.writeLoop]
  | cons x es ih =>
    cases x with
    | err e => exact absurd (List.mem_cons_self) (h e)
    | accept k =>
      cases b with
      | nil => simp at hb
      | cons a b =>
        simp only [Sock.writeLoop]
        refine ih (fun e he => h e (by simp [he])) ?_
        simp only [room, List.length_cons, List.length_drop] at hb ⊢
        omega

theorem flush_drained (hE : ∀ e, .err e ∉ E) (hw : w.Ok) (he : w.sock.evs <:+ E) : Drained w.flush.2 := by
  intro hne
  obtain ⟨-, -, f2, -⟩ := flush_cases w hw
  have hno : ∀ e, .err e ∉ w.sock.evs := fun e h => hE e (he.mem h)
  by_cases hb : w.pending.length ≤ room w.sock.evs
  · exact (f2 (.inl hb)).1.trans (List.drop_eq_nil_of_le hb)
  · have h1 := accepts_left (fl := w.sock.flushes) hno (sent := w.sock.sent) hb
    have h2 := (flushBuf_eq w hw).1.1
    have h3 : w.flush.2.sock.evs = w.flushBuf.2.sock.evs := by
      unfold Nbw.flush
      generalize w.flushBuf = x
      obtain ⟨x, w1⟩ := x
      cases x with
      | error e => rfl
      | ok u =>
        simp only [Nbw.flushInner, Sock.flush]
        cases w1.sock.flushes with
        | nil => rfl
        | cons y ys =>
          cases y with
          | none => rfl
          | some e => cases e <;> rfl
    rw [h3, h2] at hne
    exact absurd h1 hne

theorem andThen_drained {d : Bytes} {x : IoRes × Nbw} {k : Nbw → IoRes × Nbw} (hx : w.Wrote n d x) (hw : w.Healthy n)
    (he : w.sock.evs <:+ E) (hk : ∀ w' : Nbw, w'.Healthy n → w'.sock.evs <:+ E → Drained (k w').2) :
    Drained (Write.andThen x k).2 := by
  obtain ⟨h1, h2, h3⟩ := hx.healthy hw
  have h4 := hx.1.evs
  obtain ⟨r, w'⟩ := x
  simp only at h1 h2 h4
  subst h1
  exact hk w' h2 (h4.trans he)

theorem res_flush_drained (hE : ∀ e, .err e ∉ E) (hw : w.Healthy n) (he : w.sock.evs <:+ E) :
    Drained (Write.res (Write.flush w)).2 := by
  have h := flush_drained hE hw.ok he
  rw [show Write.flush w = w.flush from rfl]
  revert h
  cases w.flush with
  | mk x w1 => cases x <;> exact id

theorem fixed_drained (hE : ∀ e, .err e ∉ E) (hw : w.Healthy n) (he : w.sock.evs <:+ E) {d : Bytes} (hd : d.length ≤ n) :
    Drained (Write.andThen (Write.writeAll w d) fun w => Write.res (Write.flush w)).2 :=
  andThen_drained (writeAll_orderly hw.toOrderly hd) hw he fun _ h1 h2 => res_flush_drained hE h1 h2

theorem response_drained (hE : ∀ e, .err e ∉ E) (hw : w.Healthy n) (he : w.sock.evs <:+ E) {r : Response} (hr : r.PartsLe n) :
    Drained (writeResponse w r).2 := by
  obtain ⟨h8, h1, h2, h3, h4⟩ := hr
  unfold writeResponse
  refine andThen_drained (fmt_orderly hw.toOrderly ?_) hw he fun w hw he =>
    andThen_drained (headerLines_orderly hw.toOrderly (by omega) h3) hw he fun w hw he =>
    andThen_drained (write_orderly hw.toOrderly (d := CRLF) (show 2 ≤ n by omega)).1 hw he fun w hw he =>
    andThen_drained (write_orderly hw.toOrderly h4).1 hw he fun w hw he => res_flush_drained hE hw he
  intro p hp
  simp only [List.mem_cons, List.not_mem_nil, or_false] at hp
  rcases hp with rfl | rfl | rfl | rfl | rfl | rfl
  · exact h8
  · exact Nat.le_trans (by decide) h8
  · exact h1
  · exact Nat.le_trans (by decide) h8
  · exact h2
  · exact Nat.le_trans (by decide) h8

theorem answer_drained (hE : ∀ e, .err e ∉ E) (hrt : rt.PartsLe n) (hw : w.Healthy n) (he : w.sock.evs <:+ E) {q : Request}
    {s s' : σ} {a : ListenerResult} (h : rt.result q s = (some a, s')) {x : IoRes} {w' : Nbw}
    (hx : writeResponseFromRouter rt w q s = (some x, w', s')) : Drained w' := by
  unfold writeResponseFromRouter at hx
  rw [h] at hx
  cases a with
  | next =>
    have := fixed_drained hE hw he (d := notFoundResponse) (Nat.le_trans (by decide +kernel) hrt.1)
    simp only [Prod.mk.injEq] at hx
    rw [← hx.2.1]; exact this
  | sendResponse r =>
    have := response_drained hE hw he (hrt.2 _ _ _ _ (.inl h))
    simp only [Prod.mk.injEq] at hx
    rw [← hx.2.1]; exact this
  | sendResponseArc r =>
    have := response_drained hE hw he (hrt.2 _ _ _ _ (.inr h))
    simp only [Prod.mk.injEq] at hx
    rw [← hx.2.1]; exact this

theorem loop_drained (hE : ∀ e, .err e ∉ E) (hrt : rt.PartsLe n) {f : Nat} {c : Conn Rd Nbw} {s : σ} (hw : c.writer.Healthy n)
    (he : c.writer.sock.evs <:+ E) (hd : Drained c.writer) : Drained (respondLoop prof rt f c s).2.1.writer := by
  induction f generalizing c s with
  | zero => exact hd
  | succ f ih =>
    obtain ⟨r, w, po⟩ := c
    simp only at hw he hd
    rw [respondLoop]
    unfold Conn.readRequest
    cases hq : RequestParser.parse prof (po.getD .new) r with
    | mk o r1 =>
    cases o with
    | done q =>
      simp only
      cases hr : rt.result q s with
      | mk a s1 =>
      cases a with
      | none =>
        unfold writeResponseFromRouter
        simp only [hr]
        exact hd
      | some a =>
        obtain ⟨x, w1, h4, h5⟩ := answer_written hrt hw.toOrderly hr
        have h6 := answer_drained hE hrt hw he hr h4
        obtain ⟨h7, h8, -⟩ := h5.healthy hw
        simp only at h7 h8
        subst h7
        simp only [h4]
        split
        · exact h6
        · exact ih h8 (h5.1.evs.trans he) h6
    | io p e =>
      simp only
      have h6 : Drained (writeErrorResponse w).2 := fixed_drained hE hw he (d := badRequestResponse) hrt.1
      cases hx : writeErrorResponse w with
      | mk x w' =>
      rw [hx] at h6
      by_cases h1 : e = .wouldBlock
      · simp only [h1, if_true]; exact hd
      · by_cases h2 : isClosed p e = true
        · simp only [h1, h2, if_true, if_false]; exact hd
        · simp only [h1, h2, if_false, Bool.false_eq_true, hx]
          cases x <;> exact h6
    | perr e =>
      have h6 : Drained (writeErrorResponse w).2 := fixed_drained hE hw he (d := badRequestResponse) hrt.1
      cases hx : writeErrorResponse w with
      | mk x w' =>
      rw [hx] at h6
      simp only [hx]
      cases x <;> exact h6
    | panic => exact hd
    | diverge => exact hd

end

/-- C37 (partial: for sockets that are not full during the invocation in which the connection is closed; in general it is false): if
the socket takes something each time it is written to, and is not asked more often than `evs` says, then nothing is lost:
at the end of the invocation, whether the connection is closed or not, everything has been given to the socket. -/
theorem C37_delivered_partial (hrt : rt.PartsLe n) {c : Conn Rd Nbw} (s : σ) (hw : c.writer.Ok)
    (hf : ∀ e, some e ∈ c.writer.sock.flushes → e = .wouldBlock)
    (hE : ∀ e, .err e ∉ c.writer.sock.evs)
    (he : (handle prof rt (.live c) s).2.1.conn.writer.sock.evs ≠ []) :
    (handle prof rt (.live c) s).2.1.conn.writer.pending = [] := by
  have hh : c.writer.Healthy n := ⟨⟨hw, hE _, .inl fun pre post h => absurd (h ▸ by simp) (hE .wouldBlock)⟩, fun e ⟨h1, h2⟩ =>
    h2.elim (hE e) fun h => h1 (hf e h)⟩
  have h1 := flush_drained hE hw (List.suffix_refl _)
  rw [handle_live] at he ⊢
  obtain ⟨w', h2, h3, h4, h5⟩ := flush_healthy hh
  rw [h2] at he h1 ⊢
  simp only [respondToRequests] at he h1 ⊢
  have h6 := loop_drained (prof := prof) (f := Reader.fuel c.reader) (s := s) (c := { c with writer := w' }) hE hrt h3 h5.evs h1
  revert he h6
  generalize respondLoop prof rt (Reader.fuel c.reader) { c with writer := w' } s = y
  obtain ⟨e, c', s'⟩ := y
  cases e <;> exact fun he h6 => h6 he

example : (handle ⟨true⟩ counter (.live (Conn.new (Rd.sample [.data closeRequest.1]) (Nbw.sample [.accept 100, .accept 1]))) 0).2.1.conn.writer.sock.evs ≠ [] ∧
    ∀ e, .err e ∉ (Conn.new (Rd.sample [.data closeRequest.1]) (Nbw.sample [.accept 100, .accept 1])).writer.sock.evs :=
  ⟨by decide +kernel, by simp [Conn.new, Nbw.sample, Nbw.withCapacity]⟩


/-! ## C38 -/

theorem Paused.hungry {p : RequestParser} (h : Paused prof p) : p.Hungry := by
  rcases h with rfl | ⟨p₀, r₀, r₁, h⟩
  · trivial
  · exact parse_hungry h

/-- A socket that is full leaves a writer as it is. -/
theorem flush_full {w : Nbw} (hw : w.Ok) (he : ∀ e ∈ w.sock.evs, e = .err .wouldBlock)
    (hf : ∀ e, some e ∈ w.sock.flushes → e = .wouldBlock) :
    ∃ w', w.flush = (.ok (), w') ∧ w'.Ok ∧ w'.sock.sent = w.sock.sent ∧ w'.pending = w.pending ∧ w'.sock.flushes <:+ w.sock.flushes := by
  obtain ⟨⟨f0, -, -, ff⟩, f1, f2, -⟩ := flush_cases w hw
  have hr : room w.sock.evs = 0 ∧ firstErr w.sock.evs = .wouldBlock := by
    cases hev : w.sock.evs with
    | nil => exact ⟨rfl, rfl⟩
    | cons a t =>
      rw [he a (by simp [hev])]
      exact ⟨rfl, rfl⟩
  obtain ⟨f3, f4⟩ := f2 (.inr hr.2)
  rw [hr.1] at f1 f3
  exact ⟨_, Prod.ext (f4 fun e h => hf e (List.mem_of_mem_head? h)) rfl, f0, by simpa using f1, by simpa using f3, ff⟩

/-- C38 (partial: if the connection can still receive a request; otherwise it is false): any number of invocations
of the handler when there is nothing to read and the socket takes nothing leave the parser as it is, and what has
been sent and is held to be sent, and the input, and ask the router nothing. -/
theorem C38_spurious_partial {c : Conn Rd Nbw} (hp : Paused prof (c.parser.getD .new)) (hd : ¬ Doomed prof (c.parser.getD .new))
    {es : List (List WEv)} {X : List Atom} (hr : c.reader.Ahead (List.replicate es.length (.err .wouldBlock) ++ X))
    (hes : ∀ evs ∈ es, ∀ e ∈ evs, e = .err .wouldBlock) (hw : c.writer.Steady) (s : σ) :
    ∃ c', handleAll prof rt es (.live c) s = (.live c', s) ∧ c'.parser.getD .new = c.parser.getD .new ∧ c'.reader.Ahead X ∧
      c'.writer.sock.sent = c.writer.sock.sent ∧ c'.writer.pending = c.writer.pending := by
  have hk : ∀ (r : Rd) (X : List Atom), r.Ahead (.err .wouldBlock :: X) →
      ∃ r', RequestParser.parse prof (c.parser.getD .new) r = (.io (c.parser.getD .new) .wouldBlock, r') ∧ r'.Ahead X := by
    rcases parse_idle prof hp.hungry with h | h | h
    · exact fun r X hr => h r _ hr (.inr ⟨X, rfl⟩)
    · refine absurd (fun r hl => ?_) hd
      obtain ⟨r', h1, -⟩ := h r _ ⟨hl, rfl⟩
      exact .inr ⟨_, by rw [h1]⟩
    · refine absurd (fun r hl => ?_) hd
      obtain ⟨r', h1, -⟩ := h r _ ⟨hl, rfl⟩
      exact .inl (by rw [h1])
  clear hp hd
  obtain ⟨r, w, po⟩ := c
  simp only at hk hr hw ⊢
  generalize hp : po.getD .new = p at hk
  induction es generalizing r w po with
  | nil => exact ⟨⟨r, w, po⟩, rfl, hp, by simpa using hr, rfl, rfl⟩
  | cons evs es ih =>
    obtain ⟨r1, h1, h2⟩ := hk r _ hr
    obtain ⟨w1, g1, g2, g3, g4, g5⟩ := flush_full (w := { w with sock := { w.sock with evs } }) hw.1 (hes evs (by simp)) hw.2
    obtain ⟨c', h3, h4, h5, h6, h7⟩ := ih (fun e he => hes e (by simp [he])) r1 w1 (some p) (by simpa using h2)
      ⟨g2, fun e he => hw.2 e (g5.mem he)⟩ rfl
    refine ⟨c', ?_, h4, h5, by rw [h6, g3], by rw [h7, g4]; rfl⟩
    simp only [handleAll, Slot.wake, handle_live, g1, respondToRequests]
    rw [show Reader.fuel r = (3 * r.src.atoms.length + 7) + 1 from rfl, loop_notReady _ (by rw [hp]; exact h1)]
    exact h3

/-- C38: handling events for a connection that has been closed does nothing. -/
theorem C38_closed (es : List (List WEv)) (c : Conn Rd Nbw) (s : σ) :
    handleAll prof rt es (.gone c) s = (.gone c, s) ∧ handle prof rt (.gone c) s = (.done, .gone c, s) :=
  ⟨handleAll_gone _ _ _, rfl⟩

/-- Several invocations of the handler that wait. -/
theorem handleAll_wait {k : Nat} {es : List (List WEv)} (hlen : es.length = k + 1) {c : Conn Rd Nbw} (hw : Writable rt n c es)
    (hl : c.reader.lims = []) {p : RequestParser} {r' : Rd}
    (h : runCalls (RequestParser.parse prof) k (c.parser.getD .new) c.reader = (.io p .wouldBlock, r')) (s : σ) :
    ∃ w', handleAll prof rt es (.live c) s = (.live ⟨r', w', some p⟩, s) ∧ w'.Steady ∧ c.writer.cap ≤ w'.cap ∧
      w'.total = c.writer.total := by
  induction k generalizing c es with
  | zero =>
    obtain ⟨evs, rfl⟩ := List.length_eq_one_iff.1 hlen
    obtain ⟨w1, i1, i2, i3, i4⟩ := handle_wait
      (c := { c with writer := { c.writer with sock := { c.writer.sock with evs } } }) hl hw.wake hw.parts h s
    exact ⟨w1, by simp only [handleAll, Slot.wake, i1], healthy_steady i2, i4.cap, i3⟩
  | succ k ih =>
    obtain ⟨evs, es, rfl⟩ : ∃ a t, es = a :: t := by cases es <;> simp at hlen ⊢
    rw [runCalls] at h
    have hl1 := parse_lims (prof := prof) (p := c.parser.getD .new) hl
    cases hq : RequestParser.parse prof (c.parser.getD .new) c.reader with
    | mk o r1 =>
    rw [hq] at h hl1
    cases o with
    | io p1 e =>
      by_cases he : e = .wouldBlock
      · subst he
        simp only at h hl1
        obtain ⟨w1, i1, i2, i3, i4⟩ := handle_wait
          (c := { c with writer := { c.writer with sock := { c.writer.sock with evs } } }) hl hw.wake hw.parts hq s
        obtain ⟨w2, j1, j2, j3, j4⟩ := ih (c := ⟨r1, w1, some p1⟩) (by simpa using hlen) (hw.later i4 i2) hl1 h
        exact ⟨w2, by simp only [handleAll, Slot.wake, i1, j1], j2, Nat.le_trans i4.cap j3, by rw [j4, i3]; rfl⟩
      · have : (.io p1 e, r1) = ((.io p .wouldBlock, r') : Out RequestParser Request × Rd) := by
          revert h
          cases e <;> first | exact id | exact absurd rfl he
        cases this
        exact absurd rfl he
    | _ => simp at h

/-- The call paused. -/
def isPause {σ τ : Type} : Out σ τ → Bool
  | .io _ .wouldBlock => true
  | _ => false

theorem paused_of {k : Nat} {p : RequestParser} {r : Rd} {as : List Atom} (hr : r.Ahead as)
    (h : isPause (runCalls (RequestParser.parse prof) k p (⟨[], as⟩ : AR)).1 = true) :
    ∃ p' r', runCalls (RequestParser.parse prof) k p r = (.io p' .wouldBlock, r') ∧
      runCalls (RequestParser.parse prof) k p (⟨[], as⟩ : AR) = (.io p' .wouldBlock, r'.abs) := by
  have h1 := runCalls_abs (requestParse_abs prof) k p r
  rw [hr.abs] at h1
  rw [h1] at h ⊢
  revert h
  generalize runCalls (RequestParser.parse prof) k p r = x
  obtain ⟨o, r'⟩ := x
  cases o with
  | io p' e =>
    cases e with
    | wouldBlock => exact fun _ => ⟨p', r', rfl, rfl⟩
    | _ => simp [isPause, absOut]
  | _ => simp [isPause, absOut]

theorem runCalls_next {R σ τ : Type} (step : σ → R → Out σ τ × R) {k : Nat} {p p' : σ} {r r' : R}
    (h : runCalls step k p r = (.io p' .wouldBlock, r')) : runCalls step (k + 1) p r = step p' r' := by
  induction k generalizing p r with
  | zero => rw [runCalls] at h; rw [runCalls, h]; rfl
  | succ k ih =>
    rw [runCalls] at h
    rw [runCalls]
    cases hq : step p r with
    | mk o r1 =>
    rw [hq] at h
    cases o with
    | io p1 e =>
      cases e with
      | wouldBlock => exact ih h
      | _ => simp at h
    | _ => simp at h

/-- C38 is false in debug builds: after the input of `C16_headers_false` the connection waits, and an event without
anything to read makes the worker panic and poisons the connection. -/
theorem C38_panic_false {c : Conn Rd Nbw} (hp : c.parser.getD .new = .new)
    (hr : c.reader.Ahead ((b!"GET / HTTP/1.1\r\n" ++ fieldLines longFields).map .byte ++
      .err .wouldBlock :: ((b!"a: " ++ List.replicate 87 120).map .byte ++
      .err .wouldBlock :: (List.replicate 90 120 ++ CRLF).map .byte)))
    {e₁ e₂ e₃ e₄ : List WEv} (hw : Writable rt n c [e₁, e₂, e₃, e₄]) (s : σ) :
    ∃ c₁ c₂, handleAll ⟨true⟩ rt [e₁, e₂, e₃] (.live c) s = (.live c₁, s) ∧
      handleAll ⟨true⟩ rt [e₁, e₂, e₃, e₄] (.live c) s = (.poisoned c₂, s) := by
  obtain ⟨p, r', h1, h2⟩ := paused_of (prof := ⟨true⟩) (k := 2) (p := .new) hr (by decide +kernel)
  have h3 : (runCalls (RequestParser.parse ⟨true⟩) 3 RequestParser.new (⟨[], (b!"GET / HTTP/1.1\r\n" ++ fieldLines longFields).map .byte ++
      .err .wouldBlock :: ((b!"a: " ++ List.replicate 87 120).map .byte ++
      .err .wouldBlock :: (List.replicate 90 120 ++ CRLF).map .byte)⟩ : AR)).1 = .panic := by decide +kernel
  rw [runCalls_next _ h2] at h3
  have h4 := requestParse_abs ⟨true⟩ p r'
  rw [Prod.ext_iff] at h4
  have h5 : (RequestParser.parse ⟨true⟩ p r').1 = .panic := h4.1.symm.trans h3
  have hw3 : Writable rt n c [e₁, e₂, e₃] := ⟨hw.parts, hw.steady, fun e he => hw.calm e (by
    simp only [List.mem_cons, List.not_mem_nil, or_false] at he ⊢
    rcases he with rfl | rfl | rfl <;> simp)⟩
  obtain ⟨w1, i1, i2, i3, i4⟩ := handleAll_wait (k := 2) rfl hw3 hr.1 (by rw [hp]; exact h1) s
  obtain ⟨w2, k1, k2, k3, k4⟩ := flush_healthy (wake_healthy i2 i3 (hw.calm e₄ (by simp)))
  refine ⟨_, ⟨(RequestParser.parse ⟨true⟩ p r').2, w2, none⟩, i1, ?_⟩
  rw [show [e₁, e₂, e₃, e₄] = [e₁, e₂, e₃] ++ [e₄] from rfl, handleAll_append, i1]
  simp only [handleAll, Slot.wake, handle_live, k1, respondToRequests]
  rw [show Reader.fuel r' = (3 * r'.src.atoms.length + 7) + 1 from rfl, respondLoop]
  unfold Conn.readRequest
  simp only [Option.getD_some]
  rw [show RequestParser.parse ⟨true⟩ p r' = (.panic, (RequestParser.parse ⟨true⟩ p r').2) from Prod.ext h5 rfl]
  rfl

/-- C38 is false in all builds: when exactly 4096 bytes of header lines have been counted the connection waits, and an event
without anything to read closes it with a 400 response. (So does any other event.) -/
theorem C38_limit_false (prof : Profile) {c : Conn Rd Nbw} (hp : c.parser.getD .new = .new)
    (hr : c.reader.Ahead ((b!"GET / HTTP/1.1\r\n" ++ fieldLines longFields).map .byte ++
      .err .wouldBlock :: ((b!"a: " ++ List.replicate 40 120).map .byte ++
      .err .wouldBlock :: (List.replicate 53 120 ++ CRLF).map .byte)))
    {e₁ e₂ e₃ e₄ : List WEv} (hw : Writable rt n c [e₁, e₂, e₃, e₄]) (s : σ) :
    ∃ c₁ c₂, handleAll prof rt [e₁, e₂, e₃] (.live c) s = (.live c₁, s) ∧ c₁.writer.total = c.writer.total ∧
      handleAll prof rt [e₁, e₂, e₃, e₄] (.live c) s = (.gone c₂, s) ∧
      c₂.writer.total = c.writer.total ++ b!"HTTP/1.1 400 Bad Request\r\n\r\n" := by
  obtain ⟨p, r', h1, h2⟩ := paused_of (prof := prof) (k := 2) (p := .new) hr (by rcases prof with ⟨_ | _⟩ <;> decide +kernel)
  have h3 : isLimit (runCalls (RequestParser.parse prof) 3 RequestParser.new (⟨[], (b!"GET / HTTP/1.1\r\n" ++ fieldLines longFields).map .byte ++
      .err .wouldBlock :: ((b!"a: " ++ List.replicate 40 120).map .byte ++
      .err .wouldBlock :: (List.replicate 53 120 ++ CRLF).map .byte)⟩ : AR)).1 = true := by
    rcases prof with ⟨_ | _⟩ <;> decide +kernel
  rw [runCalls_next _ h2] at h3
  have hl' : r'.abs = ⟨[], r'.src.atoms⟩ := by
    have hl : ∀ (k : Nat) (p : RequestParser) (r : Rd), r.lims = [] → (runCalls (RequestParser.parse prof) k p r).2.lims = [] := by
      intro k
      induction k with
      | zero => exact fun p r h => parse_lims h
      | succ k ih =>
        intro p r h
        rw [runCalls]
        have := parse_lims (prof := prof) (p := p) h
        generalize RequestParser.parse prof p r = x at this
        obtain ⟨o, r1⟩ := x
        split
        · rename_i heq; cases heq; exact ih _ _ this
        · exact this
    have := hl 2 .new c.reader hr.1
    rw [h1] at this
    exact Rd.Ahead.abs ⟨this, rfl⟩
  have hahead : r'.Ahead r'.src.atoms := ⟨by have := congrArg AR.lims hl'; exact this, rfl⟩
  rw [hl'] at h3
  obtain ⟨p2, r2, h4⟩ := limited_of hahead h3
  have hw3 : Writable rt n c [e₁, e₂, e₃] := ⟨hw.parts, hw.steady, fun e he => hw.calm e (by
    simp only [List.mem_cons, List.not_mem_nil, or_false] at he ⊢
    rcases he with rfl | rfl | rfl <;> simp)⟩
  obtain ⟨w1, i1, i2, i3, i4⟩ := handleAll_wait (k := 2) rfl hw3 hr.1 (by rw [hp]; exact h1) s
  obtain ⟨w2, j1, j2, j3, j4⟩ := handle_reject
    (c := ⟨r', { w1 with sock := { w1.sock with evs := e₄ } }, some p⟩) hahead.1 (wake_healthy i2 i3 (hw.calm e₄ (by simp))) hw.parts
    (.inr ⟨_, _, h4, by simp, by simp [isClosed]⟩) s
  refine ⟨_, ⟨r2, w2, none⟩, i1, i4, ?_, ?_⟩
  · rw [show [e₁, e₂, e₃, e₄] = [e₁, e₂, e₃] ++ [e₄] from rfl, handleAll_append, i1]
    simp only [handleAll, Slot.wake, j1]
  · rw [j3]
    show w1.total ++ _ = _
    rw [i4]
    rfl

example : Paused prof .new ∧ ¬ Doomed prof .new := by
  refine ⟨.inl rfl, fun h => ?_⟩
  obtain ⟨r, hr⟩ := Rd.exists_ahead (aRequest.1.map .byte)
  obtain ⟨r', h1, -⟩ := C04_request_accepted prof aRequest_fits (rest := []) (r := r) (by simpa using hr)
  rcases h r hr.1 with h | ⟨p, h⟩ <;> rw [h1] at h <;> cases h

example : Writable counter 28 (Conn.sample []) [[], [.accept 5], [.err .wouldBlock], []] := sample_writable _ _ (by simp)

/-! ## C22 -/

/-- The end of the stream before a request. -/
theorem parse_eof (prof : Profile) {r : Rd} {Y : List Atom} (hr : r.Ahead (.eof :: Y)) :
    ∃ r', RequestParser.parse prof .new r = (.io (.firstLine []) .unexpectedEof, r') ∧ r'.Ahead Y := by
  refine requestParse_of hr ?_
  rcases prof with ⟨_ | _⟩ <;> rfl

/-- C22 (partial: for pauses that do not cut a character of a line, and writers as in `C34_answered_partial`): when the client
closes the connection between requests, or before the first, the requests have been answered and the server closes without
sending anything else. -/
theorem C22_between_partial {ms : List (Bytes × Request)} (hms : ∀ m ∈ ms, FittingRequest m.1 m.2)
    (hopen : ∀ m ∈ ms, ¬ CloseAsked m.2) {ps : List Bytes} (hps : PausesWell ps) {last : Bytes}
    (he : ps.flatten ++ last = ms.flatMap Prod.fst)
    {c : Conn Rd Nbw} (hp : c.parser.getD .new = .new) {Y : List Atom}
    (hr : c.reader.Ahead (spaced (ps.map fun a => a.map .byte) (last.map .byte ++ .eof :: Y)))
    {es : List (List WEv)} (hlen : ps.length < es.length) (hw : Writable rt n c es)
    {s s' : σ} {out : Bytes} (hs : Served rt s (ms.map Prod.snd) out s') :
    ∃ c', handleAll prof rt es (.live c) s = (.gone c', s') ∧ c'.reader.Ahead Y ∧
      c'.writer.total = c.writer.total ++ out ∧ c.writer.sock.sent <+: c'.writer.sock.sent := by
  obtain ⟨es1, evs, es2, rfl, hl1⟩ : ∃ a b d, es = a ++ b :: d ∧ a.length = ps.length := by
    refine ⟨es.take ps.length, es[ps.length], es.drop (ps.length + 1), ?_, by simp; omega⟩
    rw [← List.drop_eq_getElem_cons, List.take_append_drop]
  obtain ⟨u', a', p', r', w', f, po, h1, h2, h3, h4, h5, h6, h7, h8⟩ := served_pieces (prof := prof) (x := []) (t := []) (t' := [])
    (X := .eof :: Y) hms hopen hps (fun y hy => unfinished_nil.waits hy) rfl (by simp) (by simpa using he) hp hr hw hl1 hs
  obtain ⟨rfl, rfl⟩ := List.append_eq_nil_iff.1 h1
  obtain ⟨rfl, -⟩ := h2.line (by simp)
  obtain ⟨r2, i1, i2⟩ := parse_eof prof (r := r') (by simpa using h3)
  rw [loop_closed f (by rw [h4]; exact i1) (by simp) (by simp [isClosed, RequestParser.hasData])] at h8
  refine ⟨⟨r2, w', none⟩, ?_, i2, h6, h7⟩
  rw [h8]
  exact handleAll_gone _ _ _

theorem popChar_two {t x y : Bytes} (h : 2 ≤ chars t) (hx : popChar t = some (x, y)) : x ≠ [] := by
  unfold popChar at hx
  split at hx
  · cases hx
  simp only [Option.some.injEq, Prod.mk.injEq] at hx
  rw [← hx.1]
  have h1 : chars t = (t.reverse.filter fun c => !isCont c).length := by
    rw [chars, List.filter_reverse, List.length_reverse]
  rw [← List.takeWhile_append_dropWhile (p := isCont) (l := t.reverse), List.filter_append] at h1
  have h2 : (t.reverse.takeWhile isCont).filter (fun c => !isCont c) = [] := by
    rw [List.filter_eq_nil_iff]
    intro a ha
    have := List.all_takeWhile (p := isCont) (l := t.reverse)
    rw [List.all_eq_true] at this
    simp [this a ha]
  rw [h2, List.nil_append] at h1
  have h3 : ((t.reverse.dropWhile isCont).filter fun c => !isCont c).length ≤ (t.reverse.dropWhile isCont).length :=
    List.length_filter_le _ _
  have h4 := congrArg List.length (List.takeWhile_append_dropWhile (p := isCont) (l := t.reverse))
  simp only [List.length_append, List.length_reverse] at h4
  intro h5
  have := congrArg List.length h5
  simp only [List.length_take, List.length_nil] at this
  omega

/-- C22 (partial: for pauses that do not cut a character of a line, writers as in `C34_answered_partial`, and if more than one character of
the request has arrived): when the client closes the connection in the middle of a request, the server answers 400 and closes. -/
theorem C22_middle_partial {ms : List (Bytes × Request)} (hms : ∀ m ∈ ms, FittingRequest m.1 m.2)
    (hopen : ∀ m ∈ ms, ¬ CloseAsked m.2) {ps : List Bytes} (hps : PausesWell ps) {last t : Bytes}
    (ht : Unfinished t) (ht2 : LF ∈ t ∨ 2 ≤ chars t) (he : ps.flatten ++ last = ms.flatMap Prod.fst ++ t)
    {c : Conn Rd Nbw} (hp : c.parser.getD .new = .new) {Y : List Atom}
    (hr : c.reader.Ahead (spaced (ps.map fun a => a.map .byte) (last.map .byte ++ .eof :: Y)))
    {es : List (List WEv)} (hlen : ps.length < es.length) (hw : Writable rt n c es)
    {s s' : σ} {out : Bytes} (hs : Served rt s (ms.map Prod.snd) out s') :
    ∃ c', handleAll prof rt es (.live c) s = (.gone c', s') ∧
      c'.writer.total = c.writer.total ++ out ++ b!"HTTP/1.1 400 Bad Request\r\n\r\n" ∧
      c.writer.sock.sent <+: c'.writer.sock.sent := by
  obtain ⟨es1, evs, es2, rfl, hl1⟩ : ∃ a b d, es = a ++ b :: d ∧ a.length = ps.length := by
    refine ⟨es.take ps.length, es[ps.length], es.drop (ps.length + 1), ?_, by simp; omega⟩
    rw [← List.drop_eq_getElem_cons, List.take_append_drop]
  obtain ⟨u', a', p', r', w', f, po, h1, h2, h3, h4, h5, h6, h7, h8⟩ := served_pieces (prof := prof) (x := []) (t' := t)
    (X := .eof :: Y) hms hopen hps (fun y hy => ht.waits hy) (by simp) (by simp) he hp hr hw hl1 hs
  have hrej : ∃ r2, Rejected prof p' r' r2 := by
    obtain ⟨r2, ⟨e, i1⟩ | ⟨q, i1, i2, i3⟩⟩ := h2.eof (by rw [h1]; exact ht.waits (List.prefix_refl t)) h3
    · exact ⟨r2, .inl ⟨e, i1⟩⟩
    · refine ⟨r2, .inr ⟨q, _, i1, by simp, ?_⟩⟩
      rw [h1] at i2 i3
      have : RequestParser.hasData q = true := by
        by_cases hlf : LF ∈ t
        · exact i2 hlf
        · have h2' := ht2.resolve_left hlf
          rw [i3 hlf]
          cases hpc : popChar t with
          | none => rw [popChar_none hpc] at h2'; simp [chars] at h2'
          | some y =>
            obtain ⟨x, y⟩ := y
            have := popChar_two h2' hpc
            simpa [RequestParser.hasData, List.length_pos_iff] using this
      simp [isClosed, this]
  obtain ⟨r2, hrej⟩ := hrej
  obtain ⟨w2, j1, j2, j3, j4⟩ := loop_rejected (rt := rt) f (s := s') (by rw [h4]; exact hrej) h5 hw.parts.1
  rw [j1] at h8
  refine ⟨⟨r2, w2, none⟩, ?_, by rw [j3, h6]; rfl, h7.trans j4.sent⟩
  rw [h8]
  exact handleAll_gone _ _ _

example : ∃ c', handleAll ⟨true⟩ counter [[], [.accept 100], [.accept 100]]
    (.live (Conn.sample [.data (aRequest.1 ++ b!"G"), .err .wouldBlock, .data b!"E", .data []])) 5 =
      (.gone c', 6) ∧ c'.writer.total = b!"HTTP/1.1 200 OK\r\n\r\nhiHTTP/1.1 400 Bad Request\r\n\r\n" := by
  obtain ⟨c', h1, h2, -⟩ := C22_middle_partial (rt := counter) (prof := ⟨true⟩) (n := 28) (ms := [aRequest])
    (by simp [aRequest_fits]) (by simp [CloseAsked, aRequest, HeaderMap.get])
    (ps := [aRequest.1 ++ b!"G"]) (pausesWell_safe <| by
      intro a ha
      simp only [List.mem_cons, List.not_mem_nil, or_false] at ha
      rcases ha with rfl; exact safeCut_ascii (by decide +kernel))
    (last := b!"E") (t := b!"GE")
    ⟨b!"T / HTTP/1.1\r\n\r\n", ⟨b!"/", .get, [], []⟩, by decide, fitting_of (prof := ⟨true⟩) (by decide +kernel)⟩
    (.inr (by decide)) (by decide +kernel)
    (c := Conn.sample [.data (aRequest.1 ++ b!"G"), .err .wouldBlock, .data b!"E", .data []]) rfl
    (Y := []) ⟨rfl, by decide +kernel⟩
    (es := [[], [.accept 100], [.accept 100]]) (by decide) (sample_writable _ _ (by simp)) (s := 5) (s' := 6)
    (.cons (counter_result _ _) .nil)
  exact ⟨c', h1, h2⟩

example : ∃ c', handleAll ⟨true⟩ counter [[], [.accept 100]]
    (.live (Conn.sample [.data (aRequest.1 ++ b!"GET"), .err .wouldBlock, .data (aRequest.1.drop 3), .data []])) 5 =
      (.gone c', 7) ∧ c'.writer.total = b!"HTTP/1.1 200 OK\r\n\r\nhiHTTP/1.1 200 OK\r\n\r\nhi" := by
  obtain ⟨c', h1, -, h2, -⟩ := C22_between_partial (rt := counter) (prof := ⟨true⟩) (n := 28) (ms := [aRequest, aRequest])
    (by simp [aRequest_fits]) (by simp [CloseAsked, aRequest, HeaderMap.get])
    (ps := [aRequest.1 ++ b!"GET"]) (pausesWell_safe <| by
      intro a ha
      simp only [List.mem_cons, List.not_mem_nil, or_false] at ha
      rcases ha with rfl; exact safeCut_ascii (by decide +kernel))
    (last := aRequest.1.drop 3) (by decide +kernel)
    (c := Conn.sample [.data (aRequest.1 ++ b!"GET"), .err .wouldBlock, .data (aRequest.1.drop 3), .data []]) rfl
    (Y := []) ⟨rfl, by decide +kernel⟩
    (es := [[], [.accept 100]]) (by decide) (sample_writable _ _ (by simp)) (s := 5) (s' := 7)
    (.cons (counter_result _ _) (.cons (counter_result _ _) .nil))
  exact ⟨c', h1, h2⟩

/-- C22, for streams that fail (partial: for writers with room or sockets that do not become free in the middle). The requests read in one invocation are
`qs`, and `out` their answers. If the connection is closed although the socket reported no error and no request asked for it, then what follows the requests is
no request, or reading fails. If it fails because the connection was aborted, nothing but the answers is sent. If it fails with any other error but the end of
the stream (for which see `C22_between_partial` and `C22_middle_partial`), or what follows is no request, a 400 response is sent after them. -/
theorem C22_failed_partial (hrt : rt.PartsLe n) {c : Conn Rd Nbw} (s : σ) (hl : c.reader.lims = []) (hw : c.writer.Orderly n)
    {r₀ : Rd} (hi : InProgress prof r₀ (c.parser.getD .new) c.reader) {c' : Conn Rd Nbw} (hg : (handle prof rt (.live c) s).2.1 = .gone c')
    (hf : ∀ e, ¬ c.writer.Faulty e) :
    ∃ qs out s₁ r₁, Heard prof r₀ qs r₁ ∧ Served rt s qs out s₁ ∧
      ((∃ q, qs.getLast? = some q ∧ CloseAsked q ∧ c'.writer.total = c.writer.total ++ out) ∨
        ∃ o, Calls (RequestParser.parse prof) .new r₁ o c'.reader ∧
          ((∃ e, o = .perr e ∧ c'.writer.total = c.writer.total ++ out ++ b!"HTTP/1.1 400 Bad Request\r\n\r\n") ∨
            ∃ p e, o = .io p e ∧ e ≠ .wouldBlock ∧ (e = .connectionAborted → c'.writer.total = c.writer.total ++ out) ∧
              (e ≠ .connectionAborted → e ≠ .unexpectedEof →
                c'.writer.total = c.writer.total ++ out ++ b!"HTTP/1.1 400 Bad Request\r\n\r\n"))) := by
  rcases handle_trace (prof := prof) hrt (s := s) hl hw with ⟨e, w, h1, -⟩ | ⟨e, c'', s', qs, out, s₁, p₁, r₁, h1, h2, h3, h4, h5, h6⟩
  · exact absurd h1 (hf e)
  rw [h1] at hg
  obtain ⟨r₂, g1, g2⟩ := h3.heard hi
  cases h6 with
  | keep | parserPanic | listenerPanic => simp [finish] at hg
  | @asked _ q a _ e1 e2 e3 e4 e5 =>
    obtain rfl : c'' = c' := by simpa [finish] using hg
    exact ⟨qs ++ [q], out ++ answerBytes a, s', _, g1.append (.cons (g2.calls (.last e1)) .nil),
      h5.append (by simpa using Served.cons e2 .nil), .inl ⟨q, by simp, e3, by rw [e5, List.append_assoc]⟩⟩
  | failed _ _ e3 => exact absurd e3 (hf _)
  | @closed _ p' e e1 e2 e3 e4 e5 =>
    obtain rfl : c'' = c' := by simpa [finish] using hg
    refine ⟨qs, out, _, r₂, g1, h5, .inr ⟨_, g2.calls (.last e1), .inr ⟨p', e, rfl, e2, fun _ => e5, fun h7 h8 => ?_⟩⟩⟩
    simp [isClosed, h7, h8] at e3
  | bad e1 e2 =>
    obtain rfl : c'' = c' := by simpa [finish] using hg
    have e2 := (e2.resolve_right fun ⟨e, h, _⟩ => hf e h).2
    refine ⟨qs, out, _, r₂, g1, h5, .inr ?_⟩
    rcases e1 with ⟨e, e1⟩ | ⟨p', e, e1, e3, e4⟩
    · exact ⟨_, g2.calls (.last e1), .inl ⟨e, rfl, e2⟩⟩
    · exact ⟨_, g2.calls (.last e1), .inr ⟨p', e, rfl, e3, by rintro rfl; simp [isClosed] at e4, fun _ _ => e2⟩⟩

/-- Not vacuous: after a request the connection is aborted. The answer, and nothing else, is sent. Without the abort (another error of the stream) there is also
a 400 response. -/
example (prof : Profile) :
    (∃ c', (handle prof counter (.live (Conn.sample [.data aRequest.1, .err .connectionAborted])) 5).2.1 = .gone c' ∧
      c'.writer.total = b!"HTTP/1.1 200 OK\r\n\r\nhi") ∧
    ∃ c', (handle prof counter (.live (Conn.sample [.data aRequest.1, .err .other])) 5).2.1 = .gone c' ∧
      c'.writer.total = b!"HTTP/1.1 200 OK\r\n\r\nhiHTTP/1.1 400 Bad Request\r\n\r\n" := by
  rcases prof with ⟨_ | _⟩ <;> exact ⟨⟨_, rfl, by decide +kernel⟩, ⟨_, rfl, by decide +kernel⟩⟩

/-- C22 is false: when only one character of a request has arrived, the server closes without a 400 response. -/
theorem C22_one_character_false (prof : Profile) : Unfinished b!"G" ∧
    ∀ {σ : Type} (rt : Router σ) (n : Nat) (c : Conn Rd Nbw) (evs : List WEv) (s : σ), c.parser.getD .new = .new →
      c.reader.Ahead (b!"G".map .byte ++ [.eof]) → Writable rt n c [evs] →
      ∃ c', handleAll prof rt [evs] (.live c) s = (.gone c', s) ∧ c'.writer.total = c.writer.total := by
  refine ⟨⟨b!"ET / HTTP/1.1\r\n\r\n", ⟨b!"/", .get, [], []⟩, by decide, fitting_of (prof := ⟨true⟩) (by decide +kernel)⟩, ?_⟩
  intro σ rt n c evs s hp hr hw
  obtain ⟨r1, h1, h2⟩ := requestParse_of (prof := prof) (p := .new) hr (o := .io (.firstLine []) .unexpectedEof)
    (rest := []) (by rcases prof with ⟨_ | _⟩ <;> decide +kernel)
  obtain ⟨w1, i1, i2, i3, i4⟩ := handle_close
    (c := { c with writer := { c.writer with sock := { c.writer.sock with evs } } }) hr.1 hw.wake hw.parts (by rw [hp]; exact h1)
    (by simp) (by simp [isClosed, RequestParser.hasData]) s
  exact ⟨⟨r1, w1, none⟩, by simp only [handleAll, Slot.wake, i1], i3⟩

/-- C22 is false: so it does when reading paused inside a character of the first line, because what had arrived of the line is lost. -/
theorem C22_cut_false (prof : Profile) : Unfinished (b!"GET /caf" ++ [0xC3]) ∧
    ∀ {σ : Type} (rt : Router σ) (n : Nat) (c : Conn Rd Nbw) (e₁ e₂ : List WEv) (s : σ), c.parser.getD .new = .new →
      c.reader.Ahead ((b!"GET /caf" ++ [0xC3]).map .byte ++ [.err .wouldBlock, .eof]) → Writable rt n c [e₁, e₂] →
      ∃ c', handleAll prof rt [e₁, e₂] (.live c) s = (.gone c', s) ∧ c'.writer.total = c.writer.total := by
  refine ⟨⟨0xA9 :: b!" HTTP/1.1\r\n\r\n", ⟨b!"/caf" ++ [0xC3, 0xA9], .get, [], []⟩, by decide, fitting_of (prof := ⟨true⟩) (by decide +kernel)⟩, ?_⟩
  intro σ rt n c e₁ e₂ s hp hr hw
  obtain ⟨r1, h1, h2⟩ := requestParse_of (prof := prof) (p := .new) hr (o := .io (.firstLine []) .wouldBlock)
    (rest := [.eof]) (by rcases prof with ⟨_ | _⟩ <;> decide +kernel)
  obtain ⟨r2, h3, h4⟩ := parse_eof prof h2
  obtain ⟨w1, i1, i2, i3, i4⟩ := handle_wait
    (c := { c with writer := { c.writer with sock := { c.writer.sock with evs := e₁ } } }) hr.1 hw.wake hw.parts (by rw [hp]; exact h1) s
  have hw' := hw.later (c' := ⟨r1, w1, some (.firstLine [])⟩) i4 i2
  obtain ⟨w2, j1, j2, j3, j4⟩ := handle_close
    (c := ⟨r1, { w1 with sock := { w1.sock with evs := e₂ } }, some (.firstLine [])⟩) h2.1 hw'.wake hw.parts h3
    (by simp) (by simp [isClosed, RequestParser.hasData]) s
  refine ⟨⟨r2, w2, none⟩, ?_, ?_⟩
  · simp only [handleAll, Slot.wake, i1, j1]
  · rw [j3]
    show w1.total = _
    rw [i3]
    rfl


end Verif
