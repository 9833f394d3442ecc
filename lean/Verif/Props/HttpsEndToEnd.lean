import Verif.Spec.HttpsEndToEnd
import Verif.Props.NetAny
import Verif.Props.ClientAny
import Verif.Props.WholeSystem

/-! C83: the HTTPS client and the HTTPS server of the library understand each other, on every schedule. -/

namespace Verif

theorem AnyStream.AllLike.zip {T α : Type} {xs : List (AnyStream (Traced T))} {ss : List ClientStream} (h : AnyStream.AllLike xs ss) {ls : List α} {p : AnyStream (Traced T) × α} (hp : p ∈ xs.zip ls) :
    ∃ s, (s, p.2) ∈ ss.zip ls ∧ p.1.Like s := by
  induction h generalizing ls with
  | nil => simp at hp
  | cons h1 _ ih =>
    cases ls with
    | nil => simp at hp
    | cons l ls =>
      rw [List.zip_cons_cons] at hp ⊢
      rcases List.mem_cons.1 hp with rfl | hp
      · exact ⟨_, List.mem_cons_self .., h1⟩
      · obtain ⟨s, h2, h3⟩ := ih hp
        exact ⟨s, List.mem_cons_of_mem _ h2, h3⟩

/-- The exchanges of a client, stream by stream. -/
theorem any_streams {T F : Type} [RawIO T] [AnyFactory T F] {prof : Profile} (hT : RawIO.Honest T) (hR : RawIO.ReadsWithin T) (offer : Nat → Nat) (qs : List ((T → T) × Nat × Request)) {f f' : F}
    {rs : List Response} {c : AnyConn (Traced T)} (h : AnyConn.sendAll prof offer qs .new f = some (rs.map .ok, c, f')) :
    ∃ logs : List (List (Request × Response)), logs.length = c.all.length ∧ (qs.map fun p => p.2.2).zip rs = logs.flatten ∧ ∀ p ∈ c.all.zip logs, p.2.map Prod.fst <+: p.1.asked ∧
      (∀ ws : List (Bytes × Response), (∀ w ∈ ws, ∃ f, f ≠ .untilEof ∧ FittingResponse w.1 f w.2) → p.1.traced.got <+: ws.flatMap Prod.fst → p.2.map Prod.snd <+: ws.map Prod.snd) ∧
      p.1.traced.put <+: p.1.asked.flatMap requestBytes := by
  obtain ⟨script, d, h1, h2, h3, -⟩ := C76_client hT hR offer qs h
  have hist := history_of_sendAll h1 .nil rfl
  rw [List.nil_append] at hist
  obtain ⟨logs, l1, l2, l3⟩ := C46_streams_partial hist
  refine ⟨logs, by rw [l1, h2.length], l2, fun p hp => ?_⟩
  obtain ⟨s, h4, h5⟩ := h2.zip hp
  obtain ⟨l4, l5⟩ := l3 _ h4
  refine ⟨by rw [← h5.asked]; exact l4, fun ws h6 h7 => l5 ws h6 (by rw [h5.given]; exact h7), ?_⟩
  exact (C76_sent_partial hT hR offer qs h).1 p.1 (List.of_mem_zip hp).1

/-- If the router was asked about the first requests of a stream, and what came back on it is a beginning of the answers, then the exchanges are these requests and answers. -/
theorem answered_first {σ : Type} {rt : Router σ} {as : List (Request × σ)} {asked : List Request} {log : List (Request × Response)} {out got : Bytes} (h1 : log.map Prod.fst <+: asked)
    (h2 : ∀ ws : List (Bytes × Response), (∀ w ∈ ws, ∃ f, f ≠ .untilEof ∧ FittingResponse w.1 f w.2) → got <+: ws.flatMap Prod.fst → log.map Prod.snd <+: ws.map Prod.snd)
    (a1 : as.map Prod.fst <+: asked) (a2 : AnsweredIn rt as out) (a3 : got <+: out) (ha : ∀ a ∈ as, ∃ r, rt.Says a r ∧ r.Sendable) : AnsweredFirst rt as log := by
  obtain ⟨rs, b1, b0, b2, b3⟩ := a2.responses ha
  have hgiven : log.map Prod.snd <+: rs := by
    have := h2 (rs.map fun r => (responseBytes r, r))
      (by
        intro w hw
        obtain ⟨r, hr, rfl⟩ := List.mem_map.1 hw
        exact ⟨_, by simp, (b2 r hr).fitting⟩)
      (by
        rw [List.flatMap_map, ← b1]
        exact a3)
    simpa [Function.comp_def] using this
  refine b3 log (List.prefix_of_prefix_length_le h1 a1 ?_) hgiven
  have := hgiven.length_le
  simp only [List.length_map] at this ⊢
  omega

/-- The exchanges on one stream that is joined to a connection of a server. -/
theorem any_answered {T : Type} {x : AnyStream (Traced T)} {log : List (Request × Response)} (hq : ∀ q ∈ x.asked, q.Sendable) (l4 : log.map Prod.fst <+: x.asked)
    (l5 : ∀ ws : List (Bytes × Response), (∀ w ∈ ws, ∃ f, f ≠ .untilEof ∧ FittingResponse w.1 f w.2) → x.traced.got <+: ws.flatMap Prod.fst → log.map Prod.snd <+: ws.map Prod.snd)
    (l6 : x.traced.put <+: x.asked.flatMap requestBytes) {T' σ : Type} [RawIO T'] {rt : Router σ} {prof : Profile} {n : Nat} {s₀ : σ} {as : List (AAct T')} {s : ANet (Traced T') σ} {k : Nat} {d : AConn (Traced T')}
    (hT' : RawIO.Honest T') (hR' : RawIO.ReadsWithin T') (hE : ∀ (f : Nat) (t t' : T') (b : Bytes), Wr.write f t b ≠ some (.error .interrupted, t')) (hs : ANet.after prof rt n s₀ as = some s) (hd : s.conns[k]? = some d)
    (hj : x.Joins d) (hrt : ∀ a ∈ asksOn k s.asks, ∀ r, rt.Says a r → r.PartsLe 4096) (ha : ∀ a ∈ asksOn k s.asks, a.1 ∈ x.asked → ∃ r, rt.Says a r ∧ r.Sendable) : AnsweredFirst rt (asksOn k s.asks) log := by
  have e1 : (x.asked.map fun q => (requestBytes q, q)).map Prod.snd = x.asked := by simp [Function.comp_def]
  have e2 : (x.asked.map fun q => (requestBytes q, q)).flatMap Prod.fst = x.asked.flatMap requestBytes := by simp [List.flatMap_map]
  obtain ⟨a1, out, a2, a3⟩ := C78_served_partial hT' hR' hE hs hd hrt (ms := x.asked.map fun q => (requestBytes q, q))
    (by
      intro m hm
      obtain ⟨q, hm', rfl⟩ := List.mem_map.1 hm
      exact (hq q hm').fitting)
    ⟨hj.there.pieces, by rw [e2]; exact hj.there.text.trans l6⟩
  rw [e1] at a1
  exact answered_first l4 l5 a1 a2 (hj.back.trans a3) fun a hm => ha a hm (a1.mem (List.mem_map_of_mem hm))

/-- C83 (partial: as long as every call of `send` returned a response; the requests and the responses can be sent; for responses in parts of at most 4096 bytes, streams of the server that are never interrupted, and reads that do not cut a
character): a client of this library has called `send` any number of times, over streams of any kind, on any number of them one after the other. The exchanges are those on the streams; and on each stream that is joined to a connection of a
server of this library, over streams of any other kind, at any time on any schedule, with any other clients and listeners: the calls returned, in order, what the router answered when it was asked about the requests of this connection. -/
theorem C83_any_partial {T F : Type} [RawIO T] [AnyFactory T F] {profC : Profile} (hT : RawIO.Honest T) (hR : RawIO.ReadsWithin T) (offer : Nat → Nat) (qs : List ((T → T) × Nat × Request)) {f f' : F}
    {rs : List Response} {c : AnyConn (Traced T)} (h : AnyConn.sendAll profC offer qs .new f = some (rs.map .ok, c, f')) (hq : ∀ x ∈ c.all, ∀ q ∈ x.asked, q.Sendable) :
    ∃ logs : List (List (Request × Response)), logs.length = c.all.length ∧ (qs.map fun p => p.2.2).zip rs = logs.flatten ∧ ∀ p ∈ c.all.zip logs,
      ∀ {T' σ : Type} [RawIO T'] {rt : Router σ} {prof : Profile} {n : Nat} {s₀ : σ} {as : List (AAct T')} {s : ANet (Traced T') σ} {k : Nat} {d : AConn (Traced T')}, RawIO.Honest T' → RawIO.ReadsWithin T' →
        (∀ (f : Nat) (t t' : T') (b : Bytes), Wr.write f t b ≠ some (.error .interrupted, t')) → ANet.after prof rt n s₀ as = some s → s.conns[k]? = some d → p.1.Joins d →
        (∀ a ∈ asksOn k s.asks, ∀ r, rt.Says a r → r.PartsLe 4096) → (∀ a ∈ asksOn k s.asks, a.1 ∈ p.1.asked → ∃ r, rt.Says a r ∧ r.Sendable) →
        AnsweredFirst rt (asksOn k s.asks) p.2 := by
  obtain ⟨logs, l1, l2, l3⟩ := any_streams hT hR offer qs h
  refine ⟨logs, l1, l2, ?_⟩
  intro p hp T' σ _ rt prof n s₀ as s k d hT' hR' hE hs hd hj hrt ha
  obtain ⟨l4, l5, l6⟩ := l3 p hp
  exact any_answered (hq p.1 (List.of_mem_zip hp).1) l4 l5 l6 hT' hR' hE hs hd hj hrt ha

/-- The exchanges on one stream whose session is joined to that of a connection of a server. -/
theorem tls_answered {x : AnyStream (Traced TlsStream)} {log : List (Request × Response)} (g1 : x.traced.raw.sess.log.flatMap TlsItem.plain = x.traced.put)
    (hq : ∀ q ∈ x.asked, q.Sendable ∧ AnyCut (requestBytes q)) (l4 : log.map Prod.fst <+: x.asked)
    (l5 : ∀ ws : List (Bytes × Response), (∀ w ∈ ws, ∃ f, f ≠ .untilEof ∧ FittingResponse w.1 f w.2) → x.traced.got <+: ws.flatMap Prod.fst → log.map Prod.snd <+: ws.map Prod.snd)
    (l6 : x.traced.put <+: x.asked.flatMap requestBytes) {σ : Type} {rt : Router σ} {prof : Profile} {n : Nat} {s₀ : σ} {hs : List HttpsAct} {s : ANet (Traced TlsStream) σ} {k : Nat} {d : AConn (Traced TlsStream)}
    (hs' : ANet.after prof rt n s₀ (hs.map HttpsAct.act) = some s) (hd : s.conns[k]? = some d) (hord : HttpsAct.Orderly k hs) (hj : x.Sealed d) (hrt : HttpsAct.Fits prof rt n s₀ k hs s)
    (ha : ∀ a ∈ asksOn k s.asks, a.1 ∈ x.asked → ∃ r, rt.Says a r ∧ r.Sendable) : AnsweredFirst rt (asksOn k s.asks) log := by
  obtain ⟨-, -, -, -, -, g2⟩ := C78_tls hs' hd
  have hgot : d.raw.got <+: x.asked.flatMap requestBytes := (by rw [← g1]; exact hj.there : d.raw.got <+: x.traced.put).trans l6
  have e1 : (x.asked.map fun q => (requestBytes q, q)).map Prod.snd = x.asked := by simp [Function.comp_def]
  have e2 : (x.asked.map fun q => (requestBytes q, q)).flatMap Prod.fst = x.asked.flatMap requestBytes := by simp [List.flatMap_map]
  have hfit : ∀ m ∈ x.asked.map fun q => (requestBytes q, q), FittingRequest m.1 m.2 ∧ AnyCut m.1 := by
    intro m hm
    obtain ⟨q, hm', rfl⟩ := List.mem_map.1 hm
    exact ⟨(hq q hm').1.fitting, (hq q hm').2⟩
  obtain ⟨s', Er, N, k1, k2, -, -, hN, hw, hrt⟩ := orderly_fits hord hs' hd hrt
  obtain ⟨a1, out, a2, a3⟩ := rel_served k1 k2 hd hN hw hrt (ms := x.asked.map fun q => (requestBytes q, q))
    (fun m hm => (hfit m hm).1) (brings_told (orderly_log hord hs' hd) (anyCut_all hfit) (by rw [e2]; exact hgot))
  rw [e1] at a1
  refine answered_first l4 l5 a1 a2 (hj.back.trans ?_) fun a hm => ha a hm (a1.mem (List.mem_map_of_mem hm))
  rw [g2]
  exact a3

/-- What C83 says over TLS, if every stream of the client seals what is written to it. -/
theorem tls_end_to_end {F : Type} [AnyFactory TlsStream F] {profC : Profile} (offer : Nat → Nat) (qs : List ((TlsStream → TlsStream) × Nat × Request)) {rs : List Response} {c : AnyConn (Traced TlsStream)} {f f' : F}
    (h : AnyConn.sendAll profC offer qs .new f = some (rs.map .ok, c, f')) (hlog : ∀ x ∈ c.all, x.traced.raw.sess.log.flatMap TlsItem.plain = x.traced.put)
    (hq : ∀ x ∈ c.all, ∀ q ∈ x.asked, q.Sendable ∧ AnyCut (requestBytes q)) :
    ∃ logs : List (List (Request × Response)), logs.length = c.all.length ∧ (qs.map fun p => p.2.2).zip rs = logs.flatten ∧ ∀ p ∈ c.all.zip logs,
      ∀ {σ : Type} {rt : Router σ} {prof : Profile} {n : Nat} {s₀ : σ} {hs : List HttpsAct} {s : ANet (Traced TlsStream) σ} {k : Nat} {d : AConn (Traced TlsStream)},
        ANet.after prof rt n s₀ (hs.map HttpsAct.act) = some s → s.conns[k]? = some d → HttpsAct.Orderly k hs → p.1.Sealed d →
        HttpsAct.Fits prof rt n s₀ k hs s → (∀ a ∈ asksOn k s.asks, a.1 ∈ p.1.asked → ∃ r, rt.Says a r ∧ r.Sendable) →
        AnsweredFirst rt (asksOn k s.asks) p.2 := by
  obtain ⟨logs, l1, l2, l3⟩ := any_streams tls_honest tls_within offer qs h
  refine ⟨logs, l1, l2, ?_⟩
  intro p hp σ rt prof n s₀ hs s k d hs' hd hord hj hrt ha
  obtain ⟨l4, l5, l6⟩ := l3 p hp
  have hx := (List.of_mem_zip hp).1
  exact tls_answered (hlog p.1 hx) (hq p.1 hx) l4 l5 l6 hs' hd hord hj hrt ha

/-- C83 over TLS (partial: as long as every call of `send` returned a response; the requests and the responses can be sent; for responses in parts of at most 4096 bytes or sockets of the server that always take more, requests that may be cut anywhere, see `AnyCut`, and a server that has not yet read the end of the
connection): a client that was made with `new_https` has called `send` any number of times, on any number of streams one after the other. The exchanges are those on the streams; and on each stream whose session is joined to that of a
connection of a server started with `listen_https`, at any time on any schedule, with any other clients and listeners: the calls returned, in order, what the router answered when it was asked about the requests of this connection. -/
theorem C83_tls_partial {profC : Profile} {cfg : ClientConfig} {connects : List (Except IoError TlsPeer)} (hnew : ∀ p, .ok p ∈ connects → p.sock.sent = []) {f : TlsStreamFactory}
    (hf : TlsStreamFactory.new cfg connects = some f) (offer : Nat → Nat) (qs : List (Nat × Request)) {rs : List Response} {c : AnyConn (Traced TlsStream)} {f' : TlsStreamFactory}
    (h : AnyConn.sendAll profC offer (qs.map fun e => (id, e)) .new f = some (rs.map .ok, c, f')) (hq : ∀ x ∈ c.all, ∀ q ∈ x.asked, q.Sendable ∧ AnyCut (requestBytes q)) :
    ∃ logs : List (List (Request × Response)), logs.length = c.all.length ∧ (qs.map Prod.snd).zip rs = logs.flatten ∧ ∀ p ∈ c.all.zip logs,
      ∀ {σ : Type} {rt : Router σ} {prof : Profile} {n : Nat} {s₀ : σ} {hs : List HttpsAct} {s : ANet (Traced TlsStream) σ} {k : Nat} {d : AConn (Traced TlsStream)},
        ANet.after prof rt n s₀ (hs.map HttpsAct.act) = some s → s.conns[k]? = some d → HttpsAct.Orderly k hs → p.1.Sealed d →
        HttpsAct.Fits prof rt n s₀ k hs s → (∀ a ∈ asksOn k s.asks, a.1 ∈ p.1.asked → ∃ r, rt.Says a r ∧ r.Sendable) →
        AnsweredFirst rt (asksOn k s.asks) p.2 := by
  obtain ⟨logs, l1, l2, l3⟩ := tls_end_to_end offer _ h (fun x hx => by
    obtain ⟨-, -, -, g, -⟩ := C76_tls hnew hf offer qs h x hx
    exact g) hq
  refine ⟨logs, l1, by rw [← l2]; simp [Function.comp_def], fun p hp => l3 p hp⟩

/-! ## The conditions can be met -/

/-- One worker serves two requests that come over TLS. -/
def twoSecrets : List HttpsAct := [.accept (fun n => n) (fun c n => c + n) (by omega) toyCipher (List.replicate 9 (.accept 100)) [], .arrive 0 [.records true [] false true],
  .arrive 0 [.records false (b!"GET /a HTTP/1.1\r\n\r\nGET /") false false], .poll [0], .dispatch false, .work 0, .work 0, .work 0, .work 0, .lock 0, .go 0 9, .go 0 9,
  .arrive 0 [.records false (b!"b HTTP/1.1\r\n\r\n") false false], .go 0 9, .go 0 9, .go 0 9, .go 0 9, .go 0 9, .go 0 9, .go 0 9]

/-- One worker serves two requests that come over streams of another kind. -/
def twoPlain : List (AAct Duplex) := [.accept (fun n => n) (fun c n => c + n) (by omega) ⟨[], []⟩, .change 0 (fun t => { t with inp := t.inp ++ b!"GET /a HTTP/1.1\r\n\r\nGET /" }),
  .poll [0], .dispatch false, .work 0, .work 0, .work 0, .work 0, .lock 0, .go 0 9, .go 0 9, .change 0 (fun t => { t with inp := t.inp ++ b!"b HTTP/1.1\r\n\r\n" }),
  .go 0 9, .go 0 9, .go 0 9, .go 0 9, .go 0 9, .go 0 9, .go 0 9]

/-- What was read from and written to the first connection of a server. -/
def told {T σ : Type} (s : ANet (Traced T) σ) : Option (List Ev × Bytes × Bytes) := s.conns[0]?.map fun c => (c.raw.log, c.raw.got, c.raw.put)

theorem two_secrets (prof : Profile) : ((ANet.after prof aOrB 1 () (twoSecrets.map HttpsAct.act)).bind told).map (fun x => x.2) =
    some (b!"GET /a HTTP/1.1\r\n\r\nGET /b HTTP/1.1\r\n\r\n", responseBytes (.ofBody b!"A") ++ responseBytes (.ofBody b!"B")) := by
  rcases prof with ⟨_ | _⟩ <;> decide +kernel

theorem two_plain (prof : Profile) : ((ANet.after prof aOrB 1 () twoPlain).bind told).map (fun x => (Ev.told x.1, x.2)) =
    some ([.data b!"GET /a HTTP/1.1\r\n\r\nGET /", .data b!"b HTTP/1.1\r\n\r\n"], b!"GET /a HTTP/1.1\r\n\r\nGET /b HTTP/1.1\r\n\r\n", responseBytes (.ofBody b!"A") ++ responseBytes (.ofBody b!"B")) := by
  rcases prof with ⟨_ | _⟩ <;> decide +kernel

/-- A client that calls `send` twice, and is answered twice on one stream. -/
theorem two_calls (prof : Profile) : ∃ (peers : List TlsPeer) (c : AnyConn (Traced TlsStream)) (f : TlsStreamFactory) (x : AnyStream (Traced TlsStream)),
    (∀ p, Except.ok p ∈ peers.map (Except.ok (ε := IoError)) → p.sock.sent = []) ∧ TlsStreamFactory.new ⟨b!"example.com:443", 1000, 1⟩ (peers.map .ok) = some (toyClient peers) ∧
    AnyConn.sendAll prof id ([(20, ask 97), (20, ask 98)].map fun e => (id, e)) .new (toyClient peers) = some ([Response.ofBody b!"A", .ofBody b!"B"].map .ok, c, f) ∧ c.all = [x] ∧
    x.seen = ⟨[ask 97, ask 98], requestBytes (ask 97) ++ requestBytes (ask 98), responseBytes (.ofBody b!"A") ++ responseBytes (.ofBody b!"B"), 0⟩ := by
  obtain ⟨c, f, h1, h2⟩ := toy_sends (prof := prof) (qs := [(20, ask 97), (20, ask 98)]) (os := [.ok (.ofBody b!"A"), .ok (.ofBody b!"B")]) (peers := [
      toyPeer [.records true [] false true, .records false (responseBytes (.ofBody b!"A")) false false, .records false (responseBytes (.ofBody b!"B")) false false]])
    (seen := [⟨[ask 97, ask 98], requestBytes (ask 97) ++ requestBytes (ask 98), responseBytes (.ofBody b!"A") ++ responseBytes (.ofBody b!"B"), 0⟩])
    (by rcases prof with ⟨_ | _⟩ <;> decide +kernel)
  obtain ⟨x, h3, h4⟩ := List.map_eq_singleton_iff.1 h2
  refine ⟨_, c, f, x, ?_, toyClient_new _, h1, h3, h4⟩
  intro p hp
  simp only [List.map_cons, List.map_nil, List.mem_cons, List.not_mem_nil, or_false] at hp
  cases hp
  rfl

theorem aOrB_small (a : Request × Unit) (r : Response) (hr : aOrB.Says a r) : r.PartsLe 4096 := by
  simp only [Router.Says, aOrB_result] at hr
  rcases hr with hr | hr <;> cases hr
  split <;> exact ⟨by decide, by decide +kernel, by decide, by decide +kernel, by decide⟩

theorem aOrB_sendable (a : Request × Unit) : ∃ r, aOrB.Says a r ∧ r.Sendable := by
  refine ⟨_, .inl (by rw [aOrB_result]), ?_⟩
  split <;> exact sized_sendable (by decide) (natDec_numeral _) (Nat.le_trans (natDec_length _ 7 (by decide)) (by decide)) (by decide)

theorem told_of {T σ : Type} {s : Option (ANet (Traced T) σ)} {α : Type} {g : List Ev × Bytes × Bytes → α} {y : α} (h : (s.bind told).map g = some y) :
    ∃ s' c, s = some s' ∧ s'.conns[0]? = some c ∧ g (c.raw.log, c.raw.got, c.raw.put) = y := by
  obtain ⟨x, h1, h2⟩ := Option.map_eq_some_iff.1 h
  obtain ⟨s', h3, h4⟩ := Option.bind_eq_some_iff.1 h1
  obtain ⟨c, h5, h6⟩ := Option.map_eq_some_iff.1 h4
  exact ⟨s', c, h3, h5, by rw [h6]; exact h2⟩

theorem duplex_within : RawIO.ReadsWithin Duplex := by
  intro t t' n b h
  simp only [RawIO.read] at h
  split at h <;> cases h
  exact List.length_take_le _ _

/-- The conditions of `C83_any_partial` can be met, with streams of two kinds. -/
example (profC prof : Profile) : ∃ (f f' : TlsStreamFactory) (c : AnyConn (Traced TlsStream)) (rs : List Response) (qs : List ((TlsStream → TlsStream) × Nat × Request)),
    AnyConn.sendAll profC id qs .new f = some (rs.map .ok, c, f') ∧ rs.length = 2 ∧ (∀ x ∈ c.all, ∀ q ∈ x.asked, q.Sendable) ∧ RawIO.Honest TlsStream ∧ RawIO.ReadsWithin TlsStream ∧
    RawIO.Honest Duplex ∧ RawIO.ReadsWithin Duplex ∧ (∀ (f : Nat) (t t' : Duplex) (b : Bytes), Wr.write f t b ≠ some (.error .interrupted, t')) ∧ ∀ x ∈ c.all,
      ∃ (s : ANet (Traced Duplex) Unit) (d : AConn (Traced Duplex)), ANet.after prof aOrB 1 () twoPlain = some s ∧ s.conns[0]? = some d ∧ x.Joins d ∧
        (∀ a ∈ asksOn 0 s.asks, ∀ r, aOrB.Says a r → r.PartsLe 4096) ∧ ∀ a ∈ asksOn 0 s.asks, a.1 ∈ x.asked → ∃ r, aOrB.Says a r ∧ r.Sendable := by
  obtain ⟨peers, c, f, x, -, -, h1, h2, h3⟩ := two_calls profC
  obtain ⟨s, d, h4, h5, h6⟩ := told_of (two_plain prof)
  simp only [AnyStream.seen, SeenTls.mk.injEq] at h3
  simp only [Prod.mk.injEq] at h6
  refine ⟨_, f, c, _, _, h1, rfl, ?_, tls_honest, tls_within, duplex_honest, duplex_within, nofun, ?_⟩
  · intro y hy q hq
    rw [h2] at hy
    obtain rfl := List.mem_singleton.1 hy
    rw [h3.1] at hq
    simp only [List.mem_cons, List.not_mem_nil, or_false] at hq
    rcases hq with rfl | rfl <;> exact ask_sendable _ (by decide)
  · intro y hy
    rw [h2] at hy
    obtain rfl := List.mem_singleton.1 hy
    refine ⟨s, d, h4, h5, ⟨⟨?_, ?_⟩, ?_⟩, fun a _ => aOrB_small a, fun a _ _ => aOrB_sendable a⟩
    · rw [h6.1]
      refine .safe fun ev he => ?_
      simp only [List.mem_cons, List.not_mem_nil, or_false] at he
      rcases he with rfl | rfl
      · exact ⟨_, rfl, by decide, safeCut_ascii (by decide)⟩
      · exact ⟨_, rfl, by decide, safeCut_ascii (by decide)⟩
    · rw [h6.1, h3.2.1]; decide +kernel
    · rw [h3.2.2.1, h6.2.2]; exact List.prefix_refl _

theorem twoSecrets_orderly : HttpsAct.Orderly 0 twoSecrets := by
  have hg : (HttpsAct.given twoSecrets)[0]? = some (toyCipher, [.records true [] false true, .records false (b!"GET /a HTTP/1.1\r\n\r\nGET /") false false, .records false (b!"b HTTP/1.1\r\n\r\n") false false]) := rfl
  refine ⟨fun cipher input h => ?_, fun evs h => ?_⟩
  · rw [hg] at h
    cases h
    simp [TlsEv.Orderly]
  · cases h
    simp

/-- The conditions of `C83_tls_partial` can be met. -/
example (profC prof : Profile) : ∃ (connects : List (Except IoError TlsPeer)) (cfg : ClientConfig) (f f' : TlsStreamFactory) (c : AnyConn (Traced TlsStream)) (rs : List Response) (qs : List (Nat × Request)),
    (∀ p, .ok p ∈ connects → p.sock.sent = []) ∧ TlsStreamFactory.new cfg connects = some f ∧ AnyConn.sendAll profC id (qs.map fun e => (id, e)) .new f = some (rs.map .ok, c, f') ∧ rs.length = 2 ∧
    (∀ x ∈ c.all, ∀ q ∈ x.asked, q.Sendable ∧ AnyCut (requestBytes q)) ∧ HttpsAct.Orderly 0 twoSecrets ∧ ∀ x ∈ c.all,
      ∃ (s : ANet (Traced TlsStream) Unit) (d : AConn (Traced TlsStream)), ANet.after prof aOrB 1 () (twoSecrets.map HttpsAct.act) = some s ∧ s.conns[0]? = some d ∧ x.Sealed d ∧
        HttpsAct.Fits prof aOrB 1 () 0 twoSecrets s ∧ ∀ a ∈ asksOn 0 s.asks, a.1 ∈ x.asked → ∃ r, aOrB.Says a r ∧ r.Sendable := by
  obtain ⟨peers, c, f, x, h0, hn, h1, h2, h3⟩ := two_calls profC
  obtain ⟨s, d, h4, h5, h6⟩ := told_of (two_secrets prof)
  simp only [AnyStream.seen, SeenTls.mk.injEq] at h3
  simp only [Prod.mk.injEq] at h6
  have hx : x ∈ c.all := by rw [h2]; exact List.mem_singleton.2 rfl
  obtain ⟨-, -, -, g1, -⟩ := C76_tls h0 hn id _ h1 x hx
  obtain ⟨-, -, -, -, -, g2⟩ := C78_tls h4 h5
  refine ⟨_, _, _, f, c, _, _, h0, hn, h1, rfl, ?_, ?_, ?_⟩
  · intro y hy q hq
    rw [h2] at hy
    obtain rfl := List.mem_singleton.1 hy
    rw [h3.1] at hq
    simp only [List.mem_cons, List.not_mem_nil, or_false] at hq
    rcases hq with rfl | rfl <;> exact ⟨ask_sendable _ (by decide), anyCut_ascii (by decide +kernel)⟩
  · exact twoSecrets_orderly
  · intro y hy
    rw [h2] at hy
    obtain rfl := List.mem_singleton.1 hy
    refine ⟨s, d, h4, h5, ⟨?_, ?_⟩, .inl fun a _ => aOrB_small a, fun a _ _ => aOrB_sendable a⟩
    · rw [g1, h3.2.1, h6.1]; decide +kernel
    · rw [h3.2.2.1, g2, h6.2]; exact List.prefix_refl _

end Verif
