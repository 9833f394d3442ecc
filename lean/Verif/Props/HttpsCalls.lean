import Verif.Props.ClientPoolAny

/-!
C83 and C84 for calls of `send` however they end: on each stream, the calls until the first one that failed on it returned what the router of the server at its other end answered.
-/

namespace Verif

/-- C83 (partial: for the calls on a stream until the first that failed on it, and unless a call was made on it after one that could not write its request whole; the requests and the responses can be sent; for responses in parts of at most 4096
bytes, streams of the server that are never interrupted, and reads that do not cut a character): a client of this library has called `send` any number of times, over streams of any kind, and the calls have ended in any way. If one of its streams is
joined to a connection of a server of this library, over streams of any other kind, at any time on any schedule, with any other clients and listeners, then the calls that were answered on this stream returned, in order, what the router answered when
it was asked about the requests of this connection. -/
theorem C83_calls_any_partial {T F : Type} [RawIO T] [AnyFactory T F] {profC : Profile} (hT : RawIO.Honest T) (hR : RawIO.ReadsWithin T) (offer : Nat → Nat) (qs : List ((T → T) × Nat × Request)) {f f' : F} {os : List SendEnd}
    {c : AnyConn (Traced T)} (h : AnyConn.sendAll profC offer qs .new f = some (os, c, f')) {m : Nat} {x : AnyStream (Traced T)} (hx : c.all[m]? = some x) (hw : WroteWhole (m + 1) (AnyConn.calls profC offer qs .new f))
    (hq : ∀ q ∈ x.asked, q.Sendable) {T' σ : Type} [RawIO T'] {rt : Router σ} {prof : Profile} {n : Nat} {s₀ : σ} {as : List (AAct T')} {s : ANet (Traced T') σ} {k : Nat} {d : AConn (Traced T')} (hT' : RawIO.Honest T')
    (hR' : RawIO.ReadsWithin T') (hE : ∀ (f : Nat) (t t' : T') (b : Bytes), Wr.write f t b ≠ some (.error .interrupted, t')) (hs : ANet.after prof rt n s₀ as = some s) (hd : s.conns[k]? = some d) (hj : x.Joins d)
    (hrt : ∀ a ∈ asksOn k s.asks, ∀ r, rt.Says a r → r.PartsLe 4096) (ha : ∀ a ∈ asksOn k s.asks, a.1 ∈ x.asked → ∃ r, rt.Says a r ∧ r.Sendable) :
    AnsweredFirst rt (asksOn k s.asks) (onStream (m + 1) (AnyConn.calls profC offer qs .new f)) := by
  obtain ⟨l4, l5⟩ := any_calls_streams hT hR offer qs h hx
  exact any_answered hq l4 l5 (C76_calls_sent_partial hT hR offer qs h hx hw) hT' hR' hE hs hd hj hrt ha

/-- C83 over TLS (partial: for the calls on a stream until the first that failed on it, and unless a call was made on it after one that could not write its request whole; the requests and the responses can be sent; for responses in parts of at most
4096 bytes or sockets of the server that always take more, requests that may be cut anywhere, see `AnyCut`, and a server that has not yet read the end of the connection): a client that was made with `new_https` has called `send` any number of times, and the calls have ended in any way. If the session of one of its streams is
joined to that of a connection of a server started with `listen_https`, at any time on any schedule, with any other clients and listeners, then the calls that were answered on this stream returned, in order, what the router answered when it was
asked about the requests of this connection. -/
theorem C83_calls_tls_partial {profC : Profile} {cfg : ClientConfig} {connects : List (Except IoError TlsPeer)} (hnew : ∀ p, .ok p ∈ connects → p.sock.sent = []) {f : TlsStreamFactory}
    (hf : TlsStreamFactory.new cfg connects = some f) (offer : Nat → Nat) (qs : List (Nat × Request)) {os : List SendEnd} {c : AnyConn (Traced TlsStream)} {f' : TlsStreamFactory}
    (h : AnyConn.sendAll profC offer (qs.map fun e => (id, e)) .new f = some (os, c, f')) {m : Nat} {x : AnyStream (Traced TlsStream)} (hx : c.all[m]? = some x)
    (hw : WroteWhole (m + 1) (AnyConn.calls (T := TlsStream) profC offer (qs.map fun e => (id, e)) .new f)) (hq : ∀ q ∈ x.asked, q.Sendable ∧ AnyCut (requestBytes q)) {σ : Type} {rt : Router σ} {prof : Profile} {n : Nat} {s₀ : σ}
    {hs : List HttpsAct} {s : ANet (Traced TlsStream) σ} {k : Nat} {d : AConn (Traced TlsStream)} (hs' : ANet.after prof rt n s₀ (hs.map HttpsAct.act) = some s) (hd : s.conns[k]? = some d) (hord : HttpsAct.Orderly k hs) (hj : x.Sealed d)
    (hrt : HttpsAct.Fits prof rt n s₀ k hs s) (ha : ∀ a ∈ asksOn k s.asks, a.1 ∈ x.asked → ∃ r, rt.Says a r ∧ r.Sendable) :
    AnsweredFirst rt (asksOn k s.asks) (onStream (m + 1) (AnyConn.calls (T := TlsStream) profC offer (qs.map fun e => (id, e)) .new f)) := by
  obtain ⟨l4, l5⟩ := any_calls_streams tls_honest tls_within offer _ h hx
  obtain ⟨-, -, -, g, -⟩ := C76_tls hnew hf offer qs h x (List.mem_of_getElem? hx)
  exact tls_answered g hq l4 l5 (C76_calls_sent_partial tls_honest tls_within offer _ h hx hw) hs' hd hord hj hrt ha

/-- C84 (partial: as `C83_calls_any_partial`): whatever the threads do and however the calls on a connection end, if a stream of the connection is joined to a connection of a server of this library, over streams of any other kind, at any time on any
schedule, then the calls that were answered on this stream returned, in order, what the router answered when it was asked about the requests of this connection. -/
theorem C84_calls_any_partial {T F : Type} [RawIO T] [AnyFactory T F] {prof : Profile} {offer : Nat → Nat} (hT : RawIO.Honest T) (hR : RawIO.ReadsWithin T) {n m : Nat} {s : APool T F} (h : APool.Reach prof offer n m s) {i : Nat}
    {c : AnyConn (Traced T)} (hc : s.conns[i]? = some c) {l : Nat} {x : AnyStream (Traced T)} (hx : c.all[l]? = some x) (hw : WroteWhole (l + 1) ((s.sentOn i).map ASent.call)) (hq : ∀ q ∈ x.asked, q.Sendable)
    {T' σ : Type} [RawIO T'] {rt : Router σ} {profS : Profile} {nw : Nat} {s₀ : σ} {as : List (AAct T')} {net : ANet (Traced T') σ} {k : Nat} {d : AConn (Traced T')} (hT' : RawIO.Honest T')
    (hR' : RawIO.ReadsWithin T') (hE : ∀ (f : Nat) (t t' : T') (b : Bytes), Wr.write f t b ≠ some (.error .interrupted, t')) (hs : ANet.after profS rt nw s₀ as = some net) (hd : net.conns[k]? = some d) (hj : x.Joins d)
    (hrt : ∀ a ∈ asksOn k net.asks, ∀ r, rt.Says a r → r.PartsLe 4096) (ha : ∀ a ∈ asksOn k net.asks, a.1 ∈ x.asked → ∃ r, rt.Says a r ∧ r.Sendable) :
    AnsweredFirst rt (asksOn k net.asks) (onStream (l + 1) ((s.sentOn i).map ASent.call)) := by
  obtain ⟨c', script, h1, h2, h2', -⟩ := C84_serial h (i := i) (by rw [← h.inv.conns]; exact (List.getElem?_eq_some_iff.1 hc).1)
  rw [hc] at h1
  cases h1
  rw [← h2'] at hw ⊢
  exact C83_calls_any_partial hT hR offer _ h2 hx hw hq hT' hR' hE hs hd hj hrt ha

/-- C84 over TLS (partial: as `C83_calls_tls_partial`): whatever the threads do and however the calls on a connection of an HTTPS client end, if the session of a stream of the connection is joined to that of a connection of a server started with
`listen_https`, at any time on any schedule, then the calls that were answered on this stream returned, in order, what the router answered when it was asked about the requests of this connection. -/
theorem C84_calls_tls_partial {prof : Profile} {offer : Nat → Nat} {cfg : ClientConfig} {n m : Nat} {s : APool TlsStream TlsStreamFactory} (h : APool.Reach prof offer n m s) {i : Nat} {c : AnyConn (Traced TlsStream)} (hc : s.conns[i]? = some c)
    (hs : ∀ e ∈ s.log, ∃ connects, e.Https cfg connects) {l : Nat} {x : AnyStream (Traced TlsStream)} (hx : c.all[l]? = some x) (hw : WroteWhole (l + 1) ((s.sentOn i).map ASent.call))
    (hq : ∀ q ∈ x.asked, q.Sendable ∧ AnyCut (requestBytes q)) {σ : Type} {rt : Router σ} {profS : Profile} {nw : Nat} {s₀ : σ} {hs' : List HttpsAct} {net : ANet (Traced TlsStream) σ} {k : Nat}
    {d : AConn (Traced TlsStream)} (hn : ANet.after profS rt nw s₀ (hs'.map HttpsAct.act) = some net) (hd : net.conns[k]? = some d) (hord : HttpsAct.Orderly k hs') (hj : x.Sealed d)
    (hrt : HttpsAct.Fits profS rt nw s₀ k hs' net) (ha : ∀ a ∈ asksOn k net.asks, a.1 ∈ x.asked → ∃ r, rt.Says a r ∧ r.Sendable) :
    AnsweredFirst rt (asksOn k net.asks) (onStream (l + 1) ((s.sentOn i).map ASent.call)) := by
  obtain ⟨c', script, h1, h2, h2', -⟩ := C84_serial h (i := i) (by rw [← h.inv.conns]; exact (List.getElem?_eq_some_iff.1 hc).1)
  rw [hc] at h1
  cases h1
  obtain ⟨-, -, -, -, -, -, -, g, -⟩ := C84_tls h hc hs x (List.mem_of_getElem? hx)
  rw [← h2'] at hw ⊢
  obtain ⟨l4, l5⟩ := any_calls_streams tls_honest tls_within offer _ h2 hx
  exact tls_answered g hq l4 l5 (C76_calls_sent_partial tls_honest tls_within offer _ h2 hx hw) hn hd hord hj hrt ha

/-! ## The conditions can be met -/

/-- Two servers that are late, and one that answers the two requests of C83. -/
def lateThenAnswers : List TlsPeer := [toyPeer [.records true [] false true], toyPeer [.records true [] false true],
  toyPeer [.records true [] false true, .records false (responseBytes (.ofBody b!"A")) false false, .records false (responseBytes (.ofBody b!"B")) false false]]

/-- Three calls: the first fails, because two servers are late; the next two are answered by a third server. -/
theorem three_calls (prof : Profile) : ∃ (c : AnyConn (Traced TlsStream)) (f : TlsStreamFactory) (x : AnyStream (Traced TlsStream)),
    (∀ p, Except.ok p ∈ lateThenAnswers.map (Except.ok (ε := IoError)) → p.sock.sent = []) ∧
    AnyConn.sendAll prof id ([(20, ask 99), (20, ask 97), (20, ask 98)].map fun e => (id, e)) .new (toyClient lateThenAnswers) = some ([.err (.reading .wouldBlock), .ok (.ofBody b!"A"), .ok (.ofBody b!"B")], c, f) ∧
    c.all[2]? = some x ∧ x.seen = ⟨[ask 97, ask 98], requestBytes (ask 97) ++ requestBytes (ask 98), responseBytes (.ofBody b!"A") ++ responseBytes (.ofBody b!"B"), 0⟩ := by
  obtain ⟨c, f, h1, h2⟩ := toy_sends (prof := prof) (qs := [(20, ask 99), (20, ask 97), (20, ask 98)]) (os := [.err (.reading .wouldBlock), .ok (.ofBody b!"A"), .ok (.ofBody b!"B")]) (peers := lateThenAnswers)
    (seen := [⟨[ask 99], requestBytes (ask 99), [], 0⟩, ⟨[ask 99, ask 97], requestBytes (ask 99) ++ requestBytes (ask 97), [], 0⟩,
      ⟨[ask 97, ask 98], requestBytes (ask 97) ++ requestBytes (ask 98), responseBytes (.ofBody b!"A") ++ responseBytes (.ofBody b!"B"), 0⟩])
    (by rcases prof with ⟨_ | _⟩ <;> decide +kernel)
  have h3 := congrArg (fun l => l[2]?) h2
  simp only [List.getElem?_map, List.getElem?_cons_succ, List.getElem?_cons_zero] at h3
  obtain ⟨x, h4, h5⟩ := Option.map_eq_some_iff.1 h3
  refine ⟨c, f, x, ?_, h1, h4, h5⟩
  intro p hp
  simp only [lateThenAnswers, List.map_cons, List.map_nil, List.mem_cons, List.not_mem_nil, or_false] at hp
  rcases hp with hp | hp | hp <;> (cases hp; rfl)

theorem three_wrote {ks : List Call} (h : ks.map (fun k => (k.result, k.opened)) = [(.err (.reading .wouldBlock), 2), (.ok (.ofBody b!"A"), 3), (.ok (.ofBody b!"B"), 3)]) : WroteWhole 3 ks := by
  rcases ks with _ | ⟨⟨q₁, x₁, n₁⟩, _ | ⟨⟨q₂, x₂, n₂⟩, _ | ⟨⟨q₃, x₃, n₃⟩, _ | ⟨k, ks⟩⟩⟩⟩ <;> simp only [List.map_cons, List.map_nil, List.cons.injEq, Prod.mk.injEq, reduceCtorEq, and_false, and_true] at h
  obtain ⟨⟨rfl, rfl⟩, ⟨rfl, rfl⟩, rfl, rfl⟩ := h
  intro k hk hn
  simp only [List.dropLast, List.mem_cons, List.not_mem_nil, or_false] at hk
  rcases hk with rfl | rfl
  · cases hn
  · exact .inl ⟨_, rfl⟩

/-- The conditions of `C83_calls_tls_partial` can be met after a call that failed, with two calls that were answered on the stream. -/
example (profC prof : Profile) : ∃ (connects : List (Except IoError TlsPeer)) (cfg : ClientConfig) (f f' : TlsStreamFactory) (os : List SendEnd) (c : AnyConn (Traced TlsStream)) (qs : List (Nat × Request)) (x : AnyStream (Traced TlsStream)),
    (∀ p, .ok p ∈ connects → p.sock.sent = []) ∧ TlsStreamFactory.new cfg connects = some f ∧ AnyConn.sendAll profC id (qs.map fun e => (id, e)) .new f = some (os, c, f') ∧ c.all[2]? = some x ∧
    WroteWhole 3 (AnyConn.calls (T := TlsStream) profC id (qs.map fun e => (id, e)) .new f) ∧ (onStream 3 (AnyConn.calls (T := TlsStream) profC id (qs.map fun e => (id, e)) .new f)).length = 2 ∧
    (∀ q ∈ x.asked, q.Sendable ∧ AnyCut (requestBytes q)) ∧ HttpsAct.Orderly 0 twoSecrets ∧
      ∃ (s : ANet (Traced TlsStream) Unit) (d : AConn (Traced TlsStream)), ANet.after prof aOrB 1 () (twoSecrets.map HttpsAct.act) = some s ∧ s.conns[0]? = some d ∧ x.Sealed d ∧
        (∀ a ∈ asksOn 0 s.asks, ∀ r, aOrB.Says a r → r.PartsLe 4096) ∧ ∀ a ∈ asksOn 0 s.asks, a.1 ∈ x.asked → ∃ r, aOrB.Says a r ∧ r.Sendable := by
  obtain ⟨c, f, x, h0, h1, h2, h3⟩ := three_calls profC
  obtain ⟨s, d, h4, h5, h6⟩ := told_of (two_secrets prof)
  simp only [AnyStream.seen, SeenTls.mk.injEq] at h3
  simp only [Prod.mk.injEq] at h6
  obtain ⟨-, -, -, g1, -⟩ := C76_tls h0 (toyClient_new _) id _ h1 x (List.mem_of_getElem? h2)
  obtain ⟨-, -, -, -, -, g2⟩ := C78_tls h4 h5
  refine ⟨_, _, _, f, _, c, _, x, h0, toyClient_new _, h1, h2, three_wrote ?_, ?_, ?_, twoSecrets_orderly, s, d, h4, h5, ⟨?_, ?_⟩, fun a _ => aOrB_small a, fun a _ _ => aOrB_sendable a⟩
  · rcases profC with ⟨_ | _⟩ <;> decide +kernel
  · rcases profC with ⟨_ | _⟩ <;> decide +kernel
  · intro q hq
    rw [h3.1] at hq
    simp only [List.mem_cons, List.not_mem_nil, or_false] at hq
    rcases hq with rfl | rfl <;> exact ⟨ask_sendable _ (by decide), anyCut_ascii (by decide +kernel)⟩
  · rw [g1, h3.2.1, h6.1]; decide +kernel
  · rw [h3.2.2.1, g2, h6.2]; exact List.prefix_refl _

/-- The conditions of `C83_calls_any_partial` can be met after a call that failed, with streams of two kinds. -/
example (profC prof : Profile) : ∃ (f f' : TlsStreamFactory) (os : List SendEnd) (c : AnyConn (Traced TlsStream)) (qs : List ((TlsStream → TlsStream) × Nat × Request)) (x : AnyStream (Traced TlsStream)),
    AnyConn.sendAll profC id qs .new f = some (os, c, f') ∧ c.all[2]? = some x ∧ WroteWhole 3 (AnyConn.calls profC id qs .new f) ∧ (onStream 3 (AnyConn.calls profC id qs .new f)).length = 2 ∧ (∀ q ∈ x.asked, q.Sendable) ∧
      ∃ (s : ANet (Traced Duplex) Unit) (d : AConn (Traced Duplex)), ANet.after prof aOrB 1 () twoPlain = some s ∧ s.conns[0]? = some d ∧ x.Joins d ∧
        (∀ a ∈ asksOn 0 s.asks, ∀ r, aOrB.Says a r → r.PartsLe 4096) ∧ ∀ a ∈ asksOn 0 s.asks, a.1 ∈ x.asked → ∃ r, aOrB.Says a r ∧ r.Sendable := by
  obtain ⟨c, f, x, -, h1, h2, h3⟩ := three_calls profC
  obtain ⟨s, d, h4, h5, h6⟩ := told_of (two_plain prof)
  simp only [AnyStream.seen, SeenTls.mk.injEq] at h3
  simp only [Prod.mk.injEq] at h6
  refine ⟨_, f, _, c, _, x, h1, h2, three_wrote ?_, ?_, ?_, s, d, h4, h5, ⟨⟨?_, ?_⟩, ?_⟩, fun a _ => aOrB_small a, fun a _ _ => aOrB_sendable a⟩
  · rcases profC with ⟨_ | _⟩ <;> decide +kernel
  · rcases profC with ⟨_ | _⟩ <;> decide +kernel
  · intro q hq
    rw [h3.1] at hq
    simp only [List.mem_cons, List.not_mem_nil, or_false] at hq
    rcases hq with rfl | rfl <;> exact ask_sendable _ (by decide)
  · rw [h6.1]
    refine .safe fun ev he => ?_
    simp only [List.mem_cons, List.not_mem_nil, or_false] at he
    rcases he with rfl | rfl
    · exact ⟨_, rfl, by decide, safeCut_ascii (by decide)⟩
    · exact ⟨_, rfl, by decide, safeCut_ascii (by decide)⟩
  · rw [h6.1, h3.2.1]; decide +kernel
  · rw [h3.2.2.1, h6.2.2]; exact List.prefix_refl _

/-- Two threads share a client with one connection: the call of the first fails, those of the second are answered. -/
def lateThenTwo : List (PAct TlsStream TlsStreamFactory) := [.call 0 (ask 99), .call 1 (ask 97), .look 0, .look 1, .finish 0 id 20 (toyClient (lateThenAnswers.take 2)), .look 1, .look 1,
  .finish 1 id 20 (toyClient (lateThenAnswers.drop 2)), .call 1 (ask 98), .look 1, .finish 1 id 20 (toyClient [])]

/-- The conditions of `C84_calls_tls_partial` can be met after a call that failed. -/
example (prof profS : Profile) : ∃ (s : APool TlsStream TlsStreamFactory) (c : AnyConn (Traced TlsStream)) (x : AnyStream (Traced TlsStream)), APool.Reach prof id 1 2 s ∧ s.conns[0]? = some c ∧
    (∀ e ∈ s.log, ∃ connects, e.Https ⟨b!"example.com:443", 1000, 1⟩ connects) ∧ c.all[2]? = some x ∧ WroteWhole 3 ((s.sentOn 0).map ASent.call) ∧ (s.sentOn 0).length = 3 ∧
    (∀ q ∈ x.asked, q.Sendable ∧ AnyCut (requestBytes q)) ∧
      ∃ (net : ANet (Traced TlsStream) Unit) (d : AConn (Traced TlsStream)), ANet.after profS aOrB 1 () (twoSecrets.map HttpsAct.act) = some net ∧ net.conns[0]? = some d ∧ HttpsAct.Orderly 0 twoSecrets ∧ x.Sealed d ∧
        (∀ a ∈ asksOn 0 net.asks, ∀ r, aOrB.Says a r → r.PartsLe 4096) ∧ ∀ a ∈ asksOn 0 net.asks, a.1 ∈ x.asked → ∃ r, aOrB.Says a r ∧ r.Sendable := by
  obtain ⟨s, h1, h2⟩ := Option.map_eq_some_iff.1 (show (APool.run prof id lateThenTwo ⟨[.new], [.free], [.idle, .idle], []⟩).map
      (fun s => (((s.sentOn 0).map ASent.call).map (fun k => (k.result, k.opened)), s.conns.map fun c => c.all.map AnyStream.seen)) =
      some ([(.err (.reading .wouldBlock), 2), (.ok (.ofBody b!"A"), 3), (.ok (.ofBody b!"B"), 3)],
        [[⟨[ask 99], requestBytes (ask 99), [], 0⟩, ⟨[ask 99, ask 97], requestBytes (ask 99) ++ requestBytes (ask 97), [], 0⟩,
          ⟨[ask 97, ask 98], requestBytes (ask 97) ++ requestBytes (ask 98), responseBytes (.ofBody b!"A") ++ responseBytes (.ofBody b!"B"), 0⟩]]) by
    rcases prof with ⟨_ | _⟩ <;> decide +kernel)
  simp only [Prod.mk.injEq] at h2
  obtain ⟨h2, h4⟩ := h2
  obtain ⟨c, h5, h6⟩ := List.map_eq_singleton_iff.1 h4
  have hr : APool.Reach prof id 1 2 s := APool.run_reach (.new rfl) h1
  have hc : s.conns[0]? = some c := by rw [h5]; rfl
  have h3 := congrArg (fun l => l[2]?) h6
  simp only [List.getElem?_map, List.getElem?_cons_succ, List.getElem?_cons_zero] at h3
  obtain ⟨x, h7, h8⟩ := Option.map_eq_some_iff.1 h3
  have hs : ∀ e ∈ s.log, ∃ connects, e.Https ⟨b!"example.com:443", 1000, 1⟩ connects := by
    have := run_log (P := fun env f => ∃ connects, env = id ∧ TlsStreamFactory.new ⟨b!"example.com:443", 1000, 1⟩ connects = some f ∧ ∀ p, .ok p ∈ connects → p.sock.sent = []) h1 nofun (by
      intro t env n f hm
      have hcl : ∀ inputs : List (List TlsEv), ∃ connects, (id : TlsStream → TlsStream) = id ∧
          TlsStreamFactory.new ⟨b!"example.com:443", 1000, 1⟩ connects = some (toyClient (inputs.map toyPeer)) ∧ ∀ p, .ok p ∈ connects → p.sock.sent = [] := by
        intro inputs
        refine ⟨(inputs.map toyPeer).map .ok, rfl, toyClient_new _, fun p hm => ?_⟩
        obtain ⟨p', h5, h6⟩ := List.mem_map.1 hm
        cases h6
        obtain ⟨i, -, rfl⟩ := List.mem_map.1 h5
        rfl
      simp only [lateThenTwo, List.mem_cons, reduceCtorEq, List.not_mem_nil, or_false, false_or] at hm
      rcases hm with hm | hm | hm <;> cases hm
      · exact hcl [_, _]
      · exact hcl [_]
      · exact hcl [])
    exact this
  obtain ⟨-, -, -, -, -, -, -, g1, -⟩ := C84_tls hr hc hs x (List.mem_of_getElem? h7)
  obtain ⟨net, d, h9, h10, h11⟩ := told_of (two_secrets profS)
  obtain ⟨-, -, -, -, -, g2⟩ := C78_tls h9 h10
  simp only [AnyStream.seen, SeenTls.mk.injEq] at h8
  simp only [Prod.mk.injEq] at h11
  refine ⟨s, c, x, hr, hc, hs, h7, three_wrote h2, ?_, ?_, net, d, h9, h10, twoSecrets_orderly, ⟨?_, ?_⟩, fun a _ => aOrB_small a, fun a _ _ => aOrB_sendable a⟩
  · simpa using congrArg List.length h2
  · intro q hq
    rw [h8.1] at hq
    simp only [List.mem_cons, List.not_mem_nil, or_false] at hq
    rcases hq with rfl | rfl <;> exact ⟨ask_sendable _ (by decide), anyCut_ascii (by decide +kernel)⟩
  · rw [g1, h8.2.1, h11.1]; decide +kernel
  · rw [h8.2.2.1, g2, h11.2]; exact List.prefix_refl _

end Verif
