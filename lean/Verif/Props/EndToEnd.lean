import Verif.Spec.EndToEnd
import Verif.Proofs.ClientKeen
import Verif.Props.RoundTrip
import Verif.Props.Serving
import Verif.Props.Client

/-!
C57: the client and the server of this library talk to each other.
-/

namespace Verif

theorem Answered.served {σ : Type} {rt : Router σ} {s s' : σ} {qs : List Request} {rs : List Response} (h : Answered rt s qs rs s') :
    Served rt s qs (rs.flatMap responseBytes) s' := by
  induction h with
  | nil => exact .nil
  | cons h _ ih => rcases h with h | h <;> exact .cons h ih

theorem Answered.length_eq {σ : Type} {rt : Router σ} {s s' : σ} {qs : List Request} {rs : List Response} (h : Answered rt s qs rs s') :
    qs.length = rs.length := by
  induction h with
  | nil => rfl
  | cons _ _ ih => simp [ih]

/-- A stream of the client with its writer empty, on which the responses are going to arrive. -/
theorem sendOpen_answers {F : Type} [StreamFactory F] {prof : Profile} {qs : List Request} {rs : List Response} (hl : qs.length = rs.length)
    (hrs : ∀ r ∈ rs, r.Sendable) {N : Nat} {c : ClientConn} {st : ClientStream} (hst : c.stream = some st)
    (hb : st.writer.buf = []) (hk : st.writer.Keen N) (hn : st.writer.sock.sent.length + (qs.flatMap requestBytes).length ≤ N)
    {rest : List Atom} (hr : st.reader.Ahead ((rs.flatMap responseBytes).map .byte ++ rest)) (f : F) :
    ∃ st', sendAll prof qs c f = (rs.map .ok, { c with stream := some st' }, f) ∧ st'.writer.buf = [] ∧
      st'.writer.sock.sent = st.writer.sock.sent ++ qs.flatMap requestBytes ∧ st'.reader.Ahead rest := by
  induction qs generalizing rs c st with
  | nil =>
    cases rs with
    | cons => cases hl
    | nil =>
      refine ⟨st, ?_, hb, by simp, by simpa using hr⟩
      simp only [sendAll, List.map_nil, Prod.mk.injEq, true_and, and_true]
      rw [← hst]
  | cons q qs ih =>
    cases rs with
    | nil => cases hl
    | cons r rs =>
      simp only [List.flatMap_cons, List.length_append] at hn
      obtain ⟨a1, a2, a3⟩ := writeRequest_keen (N := N) st.writer q hk (by simp only [BufW.total, hb, List.append_nil]; omega)
      have a4 := (bufw_writeRequest st.writer q).2 a1
      generalize hx : writeRequest st.writer q = x at a1 a2 a3 a4
      obtain ⟨x1, w1⟩ := x
      dsimp only at a1 a2 a3 a4
      subst a1
      simp only [BufW.total, hb, a4, List.append_nil] at a3
      have hr1 : st.reader.Ahead ((responseBytes r).map .byte ++ if Framing.length r.body.length = .untilEof then
          .eof :: ((rs.flatMap responseBytes).map .byte ++ rest) else ((rs.flatMap responseBytes).map .byte ++ rest)) := by
        simpa using hr
      obtain ⟨rd, b1, b2⟩ := C04_response_accepted prof (hrs r (by simp)).fitting hr1
      have hsend : c.send prof f q = (.ok r, { c with stream := some { st with reader := rd, writer := w1, asked := st.asked ++ [q] } }, f) := by
        simp only [ClientConn.send, hst, ClientConn.sendOpen, sendRequest, hx, b1]
      obtain ⟨st', i1, i2, i3, i4⟩ := ih (rs := rs) (by simpa using hl) (fun x hx => hrs x (by simp [hx]))
        (c := { c with stream := some { st with reader := rd, writer := w1, asked := st.asked ++ [q] } }) rfl a4 a2
        (by dsimp only; rw [a3, List.length_append]; omega) b2
      refine ⟨st', ?_, i2, ?_, i4⟩
      · simp only [sendAll, hsend, i1, List.map_cons]
      · rw [i3]
        simp only [a3, List.flatMap_cons, List.append_assoc]

/-- C57 (partial: see the conditions): requests that can be sent, and do not ask for the connection to be closed, are sent one after the
other on a connection of the client; the router answers with responses that can be sent. What the client writes arrives at
the server in any pieces that do not cut a character of a line (`ps`, `last`), the handler runs at each, and the server's socket takes what it is given in any
pieces (`es`) until all is gone; this arrives at the client in any pieces (`raw.input`). Then each call of `send` returns the answer of the router
to its request, the router was asked each request once and in order, and nothing was sent but the requests. -/
theorem C57_conversation_partial {σ : Type} {rt : Router σ} {n : Nat} (profC profS : Profile) {qs : List Request} {rs : List Response}
    (hne : qs ≠ []) (hq : ∀ q ∈ qs, q.Sendable ∧ ¬ CloseAsked q) (hrs : ∀ r ∈ rs, r.Sendable) {s s' : σ} (ha : Answered rt s qs rs s')
    {ps : List Bytes} (hps : PausesWell ps) {last : Bytes} (he : ps.flatten ++ last = qs.flatMap requestBytes)
    {c : Conn Rd Nbw} (hp : c.parser = some .new) (hc : c.writer.total = []) (hr : c.reader.Ahead (spaced (ps.map fun a => a.map .byte) (last.map .byte)))
    {es : List (List WEv)} (hlen : es.length = ps.length + 1) (hw : Writable rt n c es) :
    ∃ c', handleAll profS rt es (.live c) s = (.live c', s') ∧ (c'.writer.pending = [] →
      ∀ raw : RawStream, raw.Takes (qs.flatMap requestBytes).length → raw.input.flatMap Ev.atoms = c'.writer.sock.sent.map .byte →
        ∃ st, sendAll profC qs .new [CreateEnd.ok raw] = (rs.map .ok, ⟨some st, []⟩, []) ∧ st.writer.buf = [] ∧
          st.writer.sock.sent = qs.flatMap requestBytes) := by
  have hms : ∀ m ∈ qs.map fun q => (requestBytes q, q), FittingRequest m.1 m.2 := by
    intro m hm
    obtain ⟨q, h1, rfl⟩ := List.mem_map.1 hm
    exact (hq q h1).1.fitting
  have hopen : ∀ m ∈ qs.map fun q => (requestBytes q, q), ¬ CloseAsked m.2 := by
    intro m hm
    obtain ⟨q, h1, rfl⟩ := List.mem_map.1 hm
    exact (hq q h1).2
  have e1 : (qs.map fun q => (requestBytes q, q)).map Prod.snd = qs := by simp [Function.comp_def]
  have e2 : (qs.map fun q => (requestBytes q, q)).flatMap Prod.fst = qs.flatMap requestBytes := by simp [List.flatMap_map]
  obtain ⟨c', h1, h2, h3, h4⟩ := C34_answered_partial (prof := profS) hms hopen hps unfinished_nil (by simpa [e2] using he) (by rw [hp]; rfl) hr hlen hw
    (by rw [e1]; exact ha.served)
  refine ⟨c', h1, fun hd raw hraw hin => ?_⟩
  simp only [Nbw.total, hd, List.append_nil] at h3
  rw [show c.writer.sock.sent ++ c.writer.pending = [] from hc, List.nil_append] at h3
  rw [h3] at hin
  obtain ⟨st, i1, i2, i3, -⟩ := sendOpen_answers (prof := profC) (F := List CreateEnd) ha.length_eq hrs (N := (qs.flatMap requestBytes).length)
    (c := ⟨some (.open raw), []⟩) (st := .open raw) rfl rfl ⟨hraw.events, hraw.flushes, by simpa [ClientStream.open] using hraw.enough⟩
    (by simp [ClientStream.open]) (rest := []) ⟨rfl, by simpa [ClientStream.open, Src.atoms] using hin⟩ []
  refine ⟨st, ?_, i2, by simpa [ClientStream.open] using i3⟩
  cases qs with
  | nil => exact absurd rfl hne
  | cons q qs =>
    rw [← i1]
    simp only [sendAll]
    have : ClientConn.send profC .new [CreateEnd.ok raw] q = ClientConn.send profC ⟨some (.open raw), []⟩ ([] : List CreateEnd) q := by
      simp [ClientConn.send, ClientConn.new, ClientConn.connect, StreamFactory.create]
    rw [this]

/-- A router for the example: the answer depends on how many requests came before. -/
def greeter : Router Nat := Router.onPrefix [] [] fun _ _ s => (some (.sendResponse (.ofBody (if s = 0 then b!"hello" else b!"hello again"))), s + 1)

theorem greeter_result (q : Request) (s : Nat) :
    greeter.result q s = (some (.sendResponse (.ofBody (if s = 0 then b!"hello" else b!"hello again"))), s + 1) := by
  simp [greeter, Router.result, Router.onPrefix, Router.resultInternal, startsWith]

theorem greeter_parts : greeter.PartsLe 28 := by
  refine ⟨by decide, fun q s r s' h => ?_⟩
  rw [greeter_result] at h
  rcases h with h | h <;> cases h
  split <;> exact ⟨by decide, by decide +kernel, by decide, by decide +kernel, by decide⟩

theorem ask_sendable (c : UInt8) (hc : 32 < c ∧ c < 128) : (ask c).Sendable := by
  obtain ⟨h1, h2⟩ := hc
  have h3 : c ≠ 32 := fun h => absurd (h ▸ h1) (by decide)
  have h4 : c ≠ 10 := fun h => absurd (h ▸ h1) (by decide)
  refine ⟨?_, ?_, ?_, by simp [ask, Method.text], ⟨by simp [ask, HeaderMap.WF], by simp [ask], by simp [ask], by simp [ask], by simp [ask]⟩,
    .inr ⟨⟨fun v h => ?_, fun v h => ?_⟩, rfl⟩⟩
  · simp only [ask, List.mem_cons, List.not_mem_nil, or_false, not_or]; exact ⟨by decide, fun h => h3 h.symm⟩
  · simp only [ask, List.mem_cons, List.not_mem_nil, or_false, not_or]; exact ⟨by decide, fun h => h4 h.symm⟩
  · exact utf8_ascii (by simp only [ask, List.mem_cons, List.not_mem_nil, or_false]; intro x hx; rcases hx with rfl | rfl <;> first | exact h2 | decide)
  · obtain ⟨vs, h⟩ := h; simp [ask] at h
  · obtain ⟨vs, h⟩ := h; simp [ask] at h

/-- The hypotheses can be met: two requests arrive in three pieces, and the answers go out in pieces. -/
example (profC profS : Profile) : ∃ c', handleAll profS greeter [[.accept 7], [], [.accept 20, .accept 10, .accept 100, .accept 100]]
    (.live (Conn.sample [.data b!"GET /a HTTP/1.1\r\n\r\nGE", .err .wouldBlock, .data b!"T /b H", .err .wouldBlock, .data b!"TTP/1.1\r\n\r\n"])) 0 =
      (.live c', 2) ∧ (c'.writer.pending = [] → ∀ raw : RawStream, raw.Takes 38 → raw.input.flatMap Ev.atoms = c'.writer.sock.sent.map .byte →
        ∃ st, sendAll profC [ask 97, ask 98] .new [CreateEnd.ok raw] = ([.ok (.ofBody b!"hello"), .ok (.ofBody b!"hello again")], ⟨some st, []⟩, []) ∧
          st.writer.buf = [] ∧ st.writer.sock.sent = b!"GET /a HTTP/1.1\r\n\r\nGET /b HTTP/1.1\r\n\r\n") := by
  have hb : ∀ r ∈ [Response.ofBody b!"hello", Response.ofBody b!"hello again"], r.Sendable := by
    intro r hr
    simp only [List.mem_cons, List.not_mem_nil, or_false] at hr
    rcases hr with rfl | rfl <;>
      exact sized_sendable (by decide) (natDec_numeral _) (Nat.le_trans (natDec_length _ 7 (by decide)) (by decide)) (by decide)
  obtain ⟨c', h1, h2⟩ := C57_conversation_partial (rt := greeter) (n := 28) profC profS (qs := [ask 97, ask 98]) (by simp)
    (by
      intro q hq
      simp only [List.mem_cons, List.not_mem_nil, or_false] at hq
      rcases hq with rfl | rfl <;> exact ⟨ask_sendable _ (by decide), by simp [CloseAsked, ask, HeaderMap.get]⟩)
    hb (s := 0) (s' := 2) (.cons (.inl (greeter_result _ _)) (.cons (.inl (greeter_result _ _)) .nil))
    (ps := [b!"GET /a HTTP/1.1\r\n\r\nGE", b!"T /b H"]) (pausesWell_safe <| by
      intro a ha
      simp only [List.mem_cons, List.not_mem_nil, or_false] at ha
      rcases ha with rfl | rfl <;> exact safeCut_ascii (by decide +kernel))
    (last := b!"TTP/1.1\r\n\r\n") (by decide +kernel)
    (c := Conn.sample [.data b!"GET /a HTTP/1.1\r\n\r\nGE", .err .wouldBlock, .data b!"T /b H", .err .wouldBlock, .data b!"TTP/1.1\r\n\r\n"]) rfl
    (by decide +kernel) ⟨rfl, by decide +kernel⟩ (es := [[.accept 7], [], [.accept 20, .accept 10, .accept 100, .accept 100]]) rfl
    ⟨greeter_parts, ⟨.inr rfl, by simp [Conn.sample, Conn.new, Nbw.sample, Nbw.withCapacity]⟩,
      fun x hx => ⟨by simp only [List.mem_cons, List.not_mem_nil, or_false] at hx; rcases hx with rfl | rfl | rfl <;> simp, .inr (show 28 ≤ 4096 by omega)⟩⟩
  have e : [ask 97, ask 98].flatMap requestBytes = b!"GET /a HTTP/1.1\r\n\r\nGET /b HTTP/1.1\r\n\r\n" := by decide +kernel
  rw [e] at h2
  exact ⟨c', h1, h2⟩

end Verif
