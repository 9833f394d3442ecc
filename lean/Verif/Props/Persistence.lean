import Verif.Spec.Persistence
import Verif.Props.Rfc
import Verif.Props.Serving
import Verif.Props.Client

/-!
C74: connections stay open, or not, as HTTP/1.1 says.
-/

namespace Verif

theorem Rfc.Means.unique {m : Rfc.Message} {q q' : Request} (h : Rfc.Means m q) (h' : Rfc.Means m q') : q = q' := by
  obtain ⟨u, x, hs, b⟩ := q
  obtain ⟨u', x', hs', b'⟩ := q'
  obtain ⟨h1, h2, h3, h4⟩ := h
  obtain ⟨k1, k2, k3, k4⟩ := h'
  simp only at h1 h2 h3 h4 k1 k2 k3 k4
  rw [C21_method_text_injective (h1.trans k1.symm), h2.trans k2.symm, h3.trans k3.symm, h4.trans k4.symm]

theorem Rfc.Plain.fitting {w : Bytes} {m : Rfc.Message} {q : Request} (h : Rfc.Plain w m) (hm : Rfc.Means m q) : FittingRequest w q := by
  obtain ⟨q', h1, h2⟩ := h.fits
  rw [hm.unique h1]
  exact h2

theorem commas_none {v : Bytes} (h : (44 : UInt8) ∉ v) : Rfc.commas v = [v] := by
  induction v with
  | nil => rfl
  | cons b v ih =>
    rw [Rfc.commas, if_neg (fun e => h (by simp [e])), ih fun hm => h (by simp [hm])]

theorem sameText_connection {n : Bytes} : SameText n b!"connection" ↔ Rfc.fold n = b!"connection" := by
  rw [← lower_eq_iff, fold_eq]
  exact Iff.of_eq (congrArg _ (by decide))

theorem closeAsked_field {m : Rfc.Message} {q : Request} (h : Rfc.Means m q) : CloseAsked q ↔ ∃ f ∈ m.fields, Rfc.fold f.1 = b!"connection" ∧ f.2 = b!"close" := by
  rw [C36_close_field h.headers]
  constructor
  · rintro ⟨n, h1, h2⟩
    exact ⟨_, h1, sameText_connection.1 h2, rfl⟩
  · rintro ⟨⟨n, v⟩, h1, h2, rfl⟩
    exact ⟨n, h1, sameText_connection.2 h2⟩

theorem asks_of_field {f : Bytes × Bytes} {fs : List (Bytes × Bytes)} (h : f ∈ fs) (hn : Rfc.fold f.1 = b!"connection") (hv : f.2 = b!"close") : Rfc.Asks b!"close" fs := by
  refine ⟨b!"close", ?_, by decide⟩
  rw [Rfc.values, List.mem_flatMap]
  refine ⟨f, List.mem_filter.2 ⟨h, by simpa using hn⟩, ?_⟩
  rw [hv]
  decide

theorem field_of_asks {fs : List (Bytes × Bytes)} (hv : ∀ f ∈ fs, Rfc.FieldValue f.2) (hp : Rfc.PlainOptions fs) (h : Rfc.Asks b!"close" fs) :
    ∃ f ∈ fs, Rfc.fold f.1 = b!"connection" ∧ f.2 = b!"close" := by
  obtain ⟨x, hx, hc⟩ := h
  rw [Rfc.values, List.mem_flatMap] at hx
  obtain ⟨f, hf, hx⟩ := hx
  obtain ⟨h1, h2⟩ := List.mem_filter.1 hf
  have h2 : Rfc.fold f.1 = b!"connection" := by simpa using h2
  obtain ⟨h3, h4⟩ := hp f h1 h2
  rw [commas_none h4, List.map_singleton, List.mem_singleton, trim_of (hv f h1)] at hx
  exact ⟨f, h1, h2, by rw [← h3, ← hx, hc]⟩

section

variable {σ : Type} {rt : Router σ} {prof : Profile} {n : Nat}

/-- C74: the server does not close a connection that should persist. Whatever plain requests arrive, in whatever safe pieces: if after each of them the connection persists as RFC 9112 says, all
of them are answered, and the connection is open in the end. (Partial as C34_answered_partial is.) -/
theorem C74_keeps_partial {ms : List (Bytes × Rfc.Message × Request)} (hms : ∀ x ∈ ms, Rfc.Plain x.1 x.2.1 ∧ Rfc.Means x.2.1 x.2.2)
    (hopen : ∀ x ∈ ms, ∃ v, Rfc.VersionIn x.1 x.2.1 v ∧ Rfc.Persists v x.2.1.fields)
    {ps : List Bytes} (hps : PausesWell ps) {last t : Bytes} (ht : Unfinished t) (he : ps.flatten ++ last = ms.flatMap Prod.fst ++ t)
    {c : Conn Rd Nbw} (hp : c.parser.getD .new = .new) (hr : c.reader.Ahead (spaced (ps.map fun a => a.map .byte) (last.map .byte)))
    {es : List (List WEv)} (hlen : es.length = ps.length + 1) (hw : Writable rt n c es)
    {s s' : σ} {out : Bytes} (hs : Served rt s (ms.map fun x => x.2.2) out s') :
    ∃ c', handleAll prof rt es (.live c) s = (.live c', s') ∧ c'.reader.Ahead [] ∧ c'.writer.total = c.writer.total ++ out := by
  obtain ⟨c', h1, h2, h3, -⟩ := C34_answered_partial (prof := prof) (ms := ms.map fun x => (x.1, x.2.2)) (by
      intro y hy
      obtain ⟨x, hx, rfl⟩ := List.mem_map.1 hy
      exact (hms x hx).1.fitting (hms x hx).2) (by
      intro y hy hc
      obtain ⟨x, hx, rfl⟩ := List.mem_map.1 hy
      obtain ⟨f, k1, k2, k3⟩ := (closeAsked_field (hms x hx).2).1 hc
      obtain ⟨v, -, k4⟩ := hopen x hx
      exact k4.1 (asks_of_field k1 k2 k3)) hps ht (by rw [he, List.flatMap_map]) hp hr hlen hw (by rw [List.map_map]; exact hs)
  exact ⟨c', h1, h2, h3⟩

/-- C74 (partial: for HTTP/1.1 requests whose Connection fields have one option each, in lower case; and as C36_asked_partial is): if after some plain requests after which the
connection persists one comes after which it does not, all are answered, then the connection is closed, and nothing behind is read. -/
theorem C74_closes_partial {ms : List (Bytes × Rfc.Message × Request)} (hms : ∀ x ∈ ms, Rfc.Plain x.1 x.2.1 ∧ Rfc.Means x.2.1 x.2.2)
    (hopen : ∀ x ∈ ms, ∃ v, Rfc.VersionIn x.1 x.2.1 v ∧ Rfc.Persists v x.2.1.fields)
    {w : Bytes} {m : Rfc.Message} {q : Request} (hq : Rfc.Plain w m) (hm : Rfc.Means m q) (ho : Rfc.PlainOptions m.fields)
    (_hv : Rfc.VersionIn w m b!"HTTP/1.1") (hc : ¬ Rfc.Persists b!"HTTP/1.1" m.fields)
    {ps : List Bytes} (hps : PausesWell ps) {last : Bytes} (hlast : last ≠ []) (he : ps.flatten ++ last = ms.flatMap Prod.fst ++ w)
    {c : Conn Rd Nbw} (hp : c.parser.getD .new = .new) {X : List Atom} (hr : c.reader.Ahead (spaced (ps.map fun a => a.map .byte) (last.map .byte ++ X)))
    {es : List (List WEv)} (hlen : ps.length < es.length) (hw : Writable rt n c es)
    {s s' : σ} {out : Bytes} (hs : Served rt s ((ms.map fun x => x.2.2) ++ [q]) out s') :
    ∃ c', handleAll prof rt es (.live c) s = (.gone c', s') ∧ c'.reader.Ahead X ∧ c'.writer.total = c.writer.total ++ out := by
  have hask : Rfc.Asks b!"close" m.fields := Classical.not_not.1 fun h => hc ⟨h, .inl rfl⟩
  obtain ⟨f, f1, f2, f3⟩ := field_of_asks (fun f hf => (hq.fields f hf).2.1) ho hask
  obtain ⟨c', h1, h2, h3, -⟩ := C36_asked_partial (prof := prof) (ms := ms.map fun x => (x.1, x.2.2)) (by
      intro y hy
      obtain ⟨x, hx, rfl⟩ := List.mem_map.1 hy
      exact (hms x hx).1.fitting (hms x hx).2) (by
      intro y hy hc
      obtain ⟨x, hx, rfl⟩ := List.mem_map.1 hy
      obtain ⟨f, k1, k2, k3⟩ := (closeAsked_field (hms x hx).2).1 hc
      obtain ⟨v, -, k4⟩ := hopen x hx
      exact k4.1 (asks_of_field k1 k2 k3)) (hq.fitting hm) ((closeAsked_field hm).2 ⟨f, f1, f2, f3⟩) hps hlast (by rw [he, List.flatMap_map]) hp hr hlen hw
      (by rw [List.map_map]; exact hs)
  exact ⟨c', h1, h2, h3⟩

/-- A plain request without a field whose value is `close` leaves the connection open. -/
theorem stays {w : Bytes} {m : Rfc.Message} {q : Request} (hq : Rfc.Plain w m) (hm : Rfc.Means m q) (hc : ∀ f ∈ m.fields, f.2 ≠ b!"close")
    {c : Conn Rd Nbw} (hp : c.parser.getD .new = .new) (hr : c.reader.Ahead (w.map .byte)) {evs : List WEv} (hw : Writable rt n c [evs])
    {s s' : σ} {out : Bytes} (hs : Served rt s [q] out s') :
    ∃ c', handleAll prof rt [evs] (.live c) s = (.live c', s') ∧ c'.reader.Ahead [] ∧ c'.writer.total = c.writer.total ++ out := by
  obtain ⟨c', h1, h2, h3, -⟩ := C34_answered_partial (prof := prof) (ms := [(w, q)]) (by simpa using hq.fitting hm) (by
      simp only [List.mem_singleton, forall_eq]
      intro h
      obtain ⟨f, h1, -, h2⟩ := (closeAsked_field hm).1 h
      exact hc f h1 h2) (ps := []) (pausesWell_safe (by simp)) (last := w) (t := []) ⟨aRequest.1, aRequest.2, by decide, by simpa using aRequest_fits⟩ (by simp) hp (by simpa [spaced] using hr)
      (es := [evs]) rfl hw hs
  exact ⟨c', h1, h2, h3⟩

/-- A GET request for `/` with one field. -/
def simpleMessage (n v : Bytes) : Rfc.Message := ⟨b!"GET", b!"/", [(n, v)], []⟩

/-- Its text. -/
def simpleText (version n v : Bytes) : Bytes := b!"GET / " ++ version ++ b!"\r\n" ++ n ++ b!": " ++ v ++ b!"\r\n\r\n"

theorem simple_plain {version n v : Bytes} (hv : version = b!"HTTP/1.0" ∨ version = b!"HTTP/1.1") (h1 : Rfc.Token n) (h2 : Rfc.FieldValue v) (h3 : utf8Valid v = true)
    (h4 : n.length + v.length ≤ 500) (h5 : Rfc.fold n ≠ b!"content-length") (h6 : Rfc.fold n ≠ b!"transfer-encoding") : Rfc.Plain (simpleText version n v) (simpleMessage n v) := by
  refine ⟨⟨.get, show Method.text .get = b!"GET" by decide⟩, ⟨by simp [simpleMessage], by simp [simpleMessage]⟩, by simp [simpleMessage], ?_, ?_, version, [], hv, ?_, .inl ⟨?_, ?_, rfl, rfl⟩⟩
  · simp only [simpleMessage, List.mem_singleton, forall_eq]
    refine ⟨h1, h2, h3, ?_⟩
    simp only [fieldLine, List.length_append, List.length_cons, List.length_nil]
    omega
  · simp only [simpleMessage, fieldLines, fieldLine, List.flatMap_cons, List.flatMap_nil, List.length_append, List.length_cons, List.length_nil, CRLF]
    omega
  · simp [simpleText, simpleMessage, fieldLines, fieldLine, CRLF, SP]
  · simp [simpleMessage, h5]
  · simp [simpleMessage, h6]

theorem simple_version {version n v : Bytes} (hv : version = b!"HTTP/1.0" ∨ version = b!"HTTP/1.1") : Rfc.VersionIn (simpleText version n v) (simpleMessage n v) version :=
  ⟨hv, n ++ b!": " ++ v ++ b!"\r\n\r\n", by simp [simpleText, simpleMessage, CRLF, SP]⟩

theorem simple_kept {version n v : Bytes} (hp : Rfc.Plain (simpleText version n v) (simpleMessage n v)) (hc : v ≠ b!"close") : ∃ q, Rfc.Means (simpleMessage n v) q ∧
    ∀ (c : Conn Rd Nbw) (evs : List WEv) (s s' : σ) (out : Bytes), c.parser.getD .new = .new → c.reader.Ahead ((simpleText version n v).map .byte) → Writable rt n' c [evs] → Served rt s [q] out s' →
      ∃ c', handleAll prof rt [evs] (.live c) s = (.live c', s') ∧ c'.reader.Ahead [] ∧ c'.writer.total = c.writer.total ++ out := by
  obtain ⟨q, hq, -⟩ := hp.fits
  exact ⟨q, hq, fun c evs s s' out h1 h2 h3 h4 => stays hp hq (by simpa [simpleMessage] using hc) h1 h2 h3 h4⟩

/-- C74 is false for requests with `Connection: Close` and with `Connection: close, te`, whatever the routes are: RFC 9112 says that the connection does not persist; the server
keeps it open, and goes on to read requests from it. -/
theorem C74_close_false (prof : Profile) (rt : Router σ) (n' : Nat) : ∀ v ∈ [b!"Close", b!"close, te"],
    Rfc.Plain (simpleText b!"HTTP/1.1" b!"Connection" v) (simpleMessage b!"Connection" v) ∧
    ¬ Rfc.Persists b!"HTTP/1.1" (simpleMessage b!"Connection" v).fields ∧ ∃ q, Rfc.Means (simpleMessage b!"Connection" v) q ∧
    ∀ (c : Conn Rd Nbw) (evs : List WEv) (s s' : σ) (out : Bytes), c.parser.getD .new = .new → c.reader.Ahead ((simpleText b!"HTTP/1.1" b!"Connection" v).map .byte) →
      Writable rt n' c [evs] → Served rt s [q] out s' →
      ∃ c', handleAll prof rt [evs] (.live c) s = (.live c', s') ∧ c'.reader.Ahead [] ∧ c'.writer.total = c.writer.total ++ out := by
  intro v hv
  have hp : Rfc.Plain (simpleText b!"HTTP/1.1" b!"Connection" v) (simpleMessage b!"Connection" v) := by
    simp only [List.mem_cons, List.not_mem_nil, or_false] at hv
    rcases hv with rfl | rfl <;> exact simple_plain (.inr rfl) (token_of (by decide)) (fieldValue_of (by decide)) (by decide) (by decide) (by decide) (by decide)
  refine ⟨hp, ?_, simple_kept hp ?_⟩
  · simp only [List.mem_cons, List.not_mem_nil, or_false] at hv
    rcases hv with rfl | rfl
    · exact fun h => h.1 ⟨b!"Close", by decide, by decide⟩
    · exact fun h => h.1 ⟨b!"close", by decide, by decide⟩
  · simp only [List.mem_cons, List.not_mem_nil, or_false] at hv
    rcases hv with rfl | rfl <;> decide

/-- C74 is false for HTTP/1.0 requests, whatever the routes are: without `keep-alive` the connection does not persist; the server does not look at the version, and keeps the
connection open. A client that takes the end of the connection for the end of the answer waits for ever. -/
theorem C74_old_false (prof : Profile) (rt : Router σ) (n' : Nat) :
    Rfc.Plain (simpleText b!"HTTP/1.0" b!"Host" b!"x") (simpleMessage b!"Host" b!"x") ∧ Rfc.VersionIn (simpleText b!"HTTP/1.0" b!"Host" b!"x") (simpleMessage b!"Host" b!"x") b!"HTTP/1.0" ∧
    ¬ Rfc.Persists b!"HTTP/1.0" (simpleMessage b!"Host" b!"x").fields ∧ ∃ q, Rfc.Means (simpleMessage b!"Host" b!"x") q ∧
    ∀ (c : Conn Rd Nbw) (evs : List WEv) (s s' : σ) (out : Bytes), c.parser.getD .new = .new → c.reader.Ahead ((simpleText b!"HTTP/1.0" b!"Host" b!"x").map .byte) →
      Writable rt n' c [evs] → Served rt s [q] out s' →
      ∃ c', handleAll prof rt [evs] (.live c) s = (.live c', s') ∧ c'.reader.Ahead [] ∧ c'.writer.total = c.writer.total ++ out := by
  have hp : Rfc.Plain (simpleText b!"HTTP/1.0" b!"Host" b!"x") (simpleMessage b!"Host" b!"x") :=
    simple_plain (.inl rfl) (token_of (by decide)) (fieldValue_of (by decide)) (by decide) (by decide) (by decide) (by decide)
  refine ⟨hp, simple_version (.inl rfl), ?_, simple_kept hp (by decide)⟩
  rintro ⟨-, h | ⟨x, h, -⟩⟩
  · exact absurd h (by decide)
  · rw [show Rfc.values (simpleMessage b!"Host" b!"x").fields b!"connection" = [] by decide] at h
    cases h

end

/-- The conditions of `C74_keeps_partial` and `C74_closes_partial` can be met, also with a request in HTTP/1.0. -/
example : Rfc.Persists b!"HTTP/1.0" (simpleMessage b!"connection" b!"TE, Keep-Alive").fields ∧ Rfc.Persists b!"HTTP/1.1" (simpleMessage b!"Host" b!"x").fields ∧
    Rfc.PlainOptions (simpleMessage b!"Connection" b!"close").fields ∧ ¬ Rfc.Persists b!"HTTP/1.1" (simpleMessage b!"Connection" b!"close").fields := by
  refine ⟨⟨?_, .inr ⟨b!"Keep-Alive", by decide, by decide⟩⟩, ⟨?_, .inl rfl⟩, by simp [Rfc.PlainOptions, simpleMessage]; decide, fun h => h.1 ⟨b!"close", by decide, by decide⟩⟩
  · rintro ⟨x, h, h'⟩
    rw [show Rfc.values (simpleMessage b!"connection" b!"TE, Keep-Alive").fields b!"connection" = [b!"TE", b!"Keep-Alive"] by decide] at h
    simp only [List.mem_cons, List.not_mem_nil, or_false] at h
    rcases h with rfl | rfl <;> exact absurd h' (by decide)
  · rintro ⟨x, h, -⟩
    rw [show Rfc.values (simpleMessage b!"Host" b!"x").fields b!"connection" = [] by decide] at h
    cases h

theorem simple_means {n v : Bytes} : Rfc.Means (simpleMessage n v) ⟨b!"/", .get, HeaderMap.fromPairs (fieldMap [(n, v)]), []⟩ := ⟨by show Method.text .get = b!"GET"; decide, rfl, rfl, rfl⟩

/-- An HTTP/1.0 request that asks for the connection to be kept, then one that ends it: both are answered. -/
example : ∃ c', handleAll ⟨true⟩ counter [[]]
    (.live (Conn.sample [.data (simpleText b!"HTTP/1.0" b!"connection" b!"Keep-Alive" ++ simpleText b!"HTTP/1.1" b!"Connection" b!"close" ++ b!"more")])) 5 = (.gone c', 7) ∧
      c'.writer.total = b!"HTTP/1.1 200 OK\r\n\r\nhiHTTP/1.1 200 OK\r\n\r\nhi" := by
  obtain ⟨c', h1, -, h2⟩ := C74_closes_partial (rt := counter) (prof := ⟨true⟩) (n := 28)
    (ms := [(simpleText b!"HTTP/1.0" b!"connection" b!"Keep-Alive", simpleMessage b!"connection" b!"Keep-Alive", _)])
    (by
      simp only [List.mem_singleton, forall_eq]
      exact ⟨simple_plain (.inl rfl) (token_of (by decide)) (fieldValue_of (by decide)) (by decide) (by decide) (by decide) (by decide), simple_means⟩)
    (by
      simp only [List.mem_singleton, forall_eq]
      refine ⟨b!"HTTP/1.0", simple_version (.inl rfl), ?_, .inr ⟨b!"Keep-Alive", by decide, by decide⟩⟩
      rintro ⟨x, h, h'⟩
      rw [show Rfc.values (simpleMessage b!"connection" b!"Keep-Alive").fields b!"connection" = [b!"Keep-Alive"] by decide, List.mem_singleton] at h
      subst h
      exact absurd h' (by decide))
    (w := simpleText b!"HTTP/1.1" b!"Connection" b!"close")
    (simple_plain (.inr rfl) (token_of (by decide)) (fieldValue_of (by decide)) (by decide) (by decide) (by decide) (by decide)) simple_means
    (by simp [Rfc.PlainOptions, simpleMessage]; decide) (simple_version (.inr rfl)) (fun h => h.1 ⟨b!"close", by decide, by decide⟩)
    (ps := []) (pausesWell_safe (by simp)) (last := simpleText b!"HTTP/1.0" b!"connection" b!"Keep-Alive" ++ simpleText b!"HTTP/1.1" b!"Connection" b!"close") (by decide) (by simp)
    (c := Conn.sample [.data (simpleText b!"HTTP/1.0" b!"connection" b!"Keep-Alive" ++ simpleText b!"HTTP/1.1" b!"Connection" b!"close" ++ b!"more")]) rfl
    (X := b!"more".map .byte) ⟨rfl, by decide +kernel⟩ (es := [[]]) (by decide) (sample_writable _ _ (by simp)) (s := 5) (s' := 7)
    (.cons (counter_result _ _) (.cons (counter_result _ _) .nil))
  exact ⟨c', h1, h2⟩

/-- A stream on which one answer comes, which says that no other will, then the end. -/
def lastAnswer : RawStream where
  input := [.data b!"HTTP/1.1 200 OK\r\nConnection: close\r\nContent-Length: 0\r\n\r\n", .data []]
  output := [.accept 1000, .accept 1000, .accept 1000]

/-- C74 is false of the client: after an answer with `Connection: close` no more requests may be sent on the connection, RFC 9112 9.6. The client writes the next one on it
nevertheless, and, as there is no answer, a second time on another stream. -/
theorem C74_client_false (prof : Profile) : ∃ (f f₁ f₂ : List CreateEnd) (c₁ c₂ : ClientConn) (t : Response), t.headers.containsHeaderValue .connection b!"close" = true ∧
    ClientConn.send prof .new f (ask 97) = (.ok t, c₁, f₁) ∧ c₁.send prof f₁ (ask 98) = (.ok (echo (ask 98)), c₂, f₂) ∧
    c₂.dropped.map (fun s => s.writer.sock.sent) = [requestBytes (ask 97) ++ requestBytes (ask 98)] ∧
    c₂.stream.map (fun s => s.writer.sock.sent) = some (requestBytes (ask 98)) := by
  obtain ⟨f₁, f₂, c₁, c₂, h1, h2, h3⟩ := sends_of (prof := prof) (f := [CreateEnd.ok lastAnswer, .ok (prompt [98])]) (a := ask 97) (b := ask 98)
    (x := .ok ⟨⟨200, b!"OK"⟩, HeaderMap.fromPairs [(Header.connection, b!"close"), (Header.contentLength, b!"0")], []⟩) (y := .ok (echo (ask 98)))
    (P := fun c => c.dropped.map (fun s => s.writer.sock.sent) = [requestBytes (ask 97) ++ requestBytes (ask 98)] ∧
      c.stream.map (fun s => s.writer.sock.sent) = some (requestBytes (ask 98)))
    (by rcases prof with ⟨_ | _⟩ <;> decide +kernel) (by rcases prof with ⟨_ | _⟩ <;> decide +kernel)
    (by rcases prof with ⟨_ | _⟩ <;> decide +kernel)
  exact ⟨_, f₁, f₂, c₁, c₂, _, by decide +kernel, h1, h2, h3⟩

end Verif
