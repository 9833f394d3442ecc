import Verif.Props.HttpsRoomy
import Verif.Props.ClosesAny

/-! C85 over TLS, with sockets that always take more: before the server closes a connection it sends all it has to send. -/

namespace Verif

variable {σ : Type} {prof : Profile} {rt : Router σ} {n k : Nat} {s₀ : σ}

theorem HttpsRun.quiet (r : HttpsRun prof rt n s₀) (hr : r.Roomy k) {t : Nat} {cipher : Cipher} {input : List TlsEv} (h : r.Come k t cipher input) : r.Quiet k t cipher input :=
  ⟨h, fun _ _ _ _ hc hl hsl => C80_tls_roomy r hr hc hl hsl⟩

/-- C85 (partial: for orderly peers, and sockets that never fail and would always take more): in every run of a server started with `listen_https`, a connection that was closed after anything was ever read on
it has given all that was written on it to the session, and the session has sent all on the socket. -/
theorem C85_tls_emptied_partial (r : HttpsRun prof rt n s₀) (hr : r.Roomy k) (hord : ∀ u, HttpsAct.Orderly k (r.before u)) {u : Nat} {c : AConn (Traced TlsStream)} {conn : SharedConn (ServerStack (Traced TlsStream))}
    (hc : (r.run.at_ u).conns[k]? = some c) (hsl : c.slot = .gone conn ∨ c.slot = .poisoned conn) (hg : c.raw.got ≠ []) :
    conn.reader.stream.val.buf.drop conn.reader.stream.val.pos = [] ∧ c.raw.raw.sess.out = [] := by
  have key : ∀ u, (r.run.at_ u).Emptied k := by
    intro u
    induction u with
    | zero =>
      obtain ⟨pool, -, h⟩ := Option.map_eq_some_iff.1 r.run.start
      intro c conn hc
      rw [← h] at hc
      cases hc
    | succ u ih =>
      have hn := r.run.next u
      have ha := r.acts u
      cases hact : r.run.act u with
      | none =>
        rw [hact] at hn
        rw [show r.run.at_ (u + 1) = r.run.at_ u from hn]
        exact ih
      | some a =>
        rw [hact] at hn ha
        refine emptied_step ih (fun c conn hc hsl => C80_tls_drained_partial r hr hord hc hsl) hn (fun c conn hc hsl => ?_) (fun j env he x => ?_) (fun c conn w q a hc hl hp hsl => ?_) (fun c hc => (hr (u + 1) c hc).1)
        · obtain ⟨cipher, input, -, h1⟩ := (https_reach inv_stays (fun _ _ _ _ => trivial) (r.after u)).1 k c hc
          have h2 := (hr u c hc).2
          rw [AConn.raw, hsl] at h1 h2
          exact ⟨⟨cipher, input, h1⟩, h2⟩
        · subst he
          cases hh : r.act u with
          | none => rw [hh] at ha; cases ha
          | some b => rw [hh] at ha; cases b <;> cases ha <;> rfl
        · exact (orderly_ready (hord u) (r.after u) (fun c hc => (hr u c hc).2) hc hl hsl).2.1 q a hp
  have hraw : c.raw = conn.reader.stream.val.inner.val.inner := by
    rcases hsl with h | h <;> (rw [AConn.raw, h]; rfl)
  rw [hraw] at hg ⊢
  exact key u c conn hc hsl hg

theorem stays_more {ms : List (Bytes × Request)} (hms : ∀ m ∈ ms, FittingRequest m.1 m.2 ∧ ¬ CloseAsked m.2) : ∀ m ∈ ms ++ [aRequest], FittingRequest m.1 m.2 ∧ ¬ CloseAsked m.2 := by
  intro m hm
  rcases List.mem_append.1 hm with hm | hm
  · exact hms m hm
  · obtain rfl := List.mem_singleton.1 hm
    exact aRequest_stays

/-- What a connection that was closed leaves behind. -/
theorem HttpsRun.shut_sent (r : HttpsRun prof rt n s₀) (hr : r.Roomy k) (hst : r.Steady k) {T : Nat} {c : AConn (Traced TlsStream)} (hc : (r.run.at_ T).conns[k]? = some c) {m : Conn Rd Nbw} (ha : c.slot.Alike (.gone m))
    (hg : c.raw.got ≠ []) {t₀ : Nat} {cipher : Cipher} {input : List TlsEv} (hcome : r.Come k t₀ cipher input) {t : Nat} (ht : T ≤ t) (ht₀ : t₀ ≤ t) :
    asksOn k (r.run.at_ t).asks = asksOn k (r.run.at_ T).asks ∧ ∃ c l l', (r.run.at_ t).conns[k]? = some c ∧ (∀ conn, c.slot ≠ .live conn) ∧ c.raw.raw.sess.log = l ++ .closeNotify :: l' ∧ .closeNotify ∉ l ∧
      (∀ y ∈ l', y = .reply ∨ y = .alert) ∧ l.flatMap TlsItem.plain = m.writer.total ∧ c.raw.raw.sock.sent = cipher.wire 0 (l ++ .closeNotify :: l') := by
  obtain ⟨h1, c', conn, l, l', h2, h3, h4, h5, h6, h7⟩ := r.shut hc ha ht
  have hlog : c'.raw.got ≠ [] := by
    have hl : c.slot.isLive = false := by
      generalize c.slot = x at ha
      cases ha
      rfl
    obtain ⟨-, c'', g1, -, -, g2⟩ := r.run.dead_log ht hc hl
    rw [h2] at g1
    cases g1
    rw [Traced.got, g2]
    exact hg
  obtain ⟨e1, e2⟩ := C85_tls_emptied_partial r hr hst.orderly h2 h3 hlog
  obtain ⟨ci, inp, g1, g2, g3, -⟩ := C78_tls (r.after t) h2
  rw [(r.quiet hr hcome).kept ht₀] at g1
  cases g1
  rw [e1, List.append_nil] at h7
  refine ⟨h1, c', l, l', h2, fun conn h => ?_, h4, h5, h6, h7, ?_⟩
  · rw [h] at h3
    rcases h3 with h3 | h3 <;> cases h3
  · rw [e2, List.append_nil] at g3
    rw [g3, h4]

/-- C85 (partial: as `C85_tls_ended_partial`, with a condition on the socket instead of one on the session). -/
theorem C85_tls_ended_roomy_partial (r : HttpsRun prof rt n s₀) (hf : r.run.Fair) (hcr : ∀ t, (r.run.at_ t).pool.crashed.length < n) {t : Nat} {cipher : Cipher} (hne : ∀ n x, cipher.sealed n x ≠ [])
    {input : List TlsEv} (hs : r.Come k t cipher input) (hr : r.Roomy k) (he : ∃ t' ≥ t, (r.run.at_ t').Edge k) {ev : TlsEv} (hev : ev ∈ input) (hfin : ev.Final) :
    ∃ T, ∀ t' ≥ T, (r.run.at_ t').Closed k := C85_tls_ended_partial r hf hcr hne (r.quiet hr hs) he hev hfin

/-- C85 (partial: fewer handlers panic than there are workers; clients that have sent all they will send, text that may be cut anywhere, see `AnyCut`, sockets that never fail and would always take more, the peer as in `HttpsRun.Steady`): in every fair run of a server started with
`listen_https`, if a client does the handshake and sends requests of which only the last asks for the connection to be closed, and maybe more after them, and its socket is reported as ready, then from some time on the connection is closed for good.
The router was asked about these requests and no others, each once and in order; exactly its answers were sealed before the one close_notify, and all that was sealed was sent. -/
theorem C85_tls_asked_sent_partial (r : HttpsRun prof rt n s₀) (hf : r.run.Fair) (hcr : ∀ t, (r.run.at_ t).pool.crashed.length < n) {t : Nat} {cipher : Cipher} {input : List TlsEv}
    (hs : r.Come k t cipher input) (hr : r.Roomy k) (hst : r.Steady k) (hcut : AnyCut (TlsEv.plain input)) (he : ∃ t' ≥ t, (r.run.at_ t').Edge k)
    {ms : List (Bytes × Request)} (hms : ∀ m ∈ ms, FittingRequest m.1 m.2 ∧ ¬ CloseAsked m.2) {w : Bytes} {q : Request} (hq : FittingRequest w q) (hcl : CloseAsked q)
    {z : Bytes} (htext : TlsEv.plain input = ms.flatMap Prod.fst ++ w ++ z) :
    ∃ T as out, as.map Prod.fst = ms.map Prod.snd ++ [q] ∧ AnsweredIn rt as out ∧
      ∀ t ≥ T, asksOn k (r.run.at_ t).asks = as ∧ ∃ c l l', (r.run.at_ t).conns[k]? = some c ∧ (∀ conn, c.slot ≠ .live conn) ∧ c.raw.raw.sess.log = l ++ .closeNotify :: l' ∧ .closeNotify ∉ l ∧
        (∀ y ∈ l', y = .reply ∨ y = .alert) ∧ l.flatMap TlsItem.plain = out ∧ c.raw.raw.sock.sent = cipher.wire 0 (l ++ .closeNotify :: l') := by
  obtain ⟨T, hT, c, hc, x, r₀, evs, h1, h2, h3, h4, h5, h6, h7⟩ := r.finds hf hcr (r.quiet hr hs) hst hcut he
  obtain ⟨conn, rfl, h8, h9⟩ := h2.asked_text hms hq hcl (fun conn h => ⟨(h3 conn h).1, (List.prefix_append _ z).trans (htext ▸ (h3 conn h).2)⟩) h4 h5 (htext ▸ h6)
  refine ⟨T, _, _, h8, h9, fun t ht => r.shut_sent hr hst hc h1 (fun hg => ?_) hs ht (by omega)⟩
  rw [hg] at h7
  obtain ⟨conn', -, h10, -⟩ := h2.asked_text (ms := ms ++ [aRequest]) (z := []) (stays_more hms) hq hcl nofun h4 h5 (by rw [h7]; exact List.nil_prefix)
  have := congrArg List.length (h8.symm.trans h10)
  simp at this

/-- C85 (partial, as before): the same for a client that sends requests and then something that is no request: after the answers to the requests comes one that says so, all is sent, and then the connection is closed for good. -/
theorem C85_tls_refused_sent_partial (r : HttpsRun prof rt n s₀) (hf : r.run.Fair) (hcr : ∀ t, (r.run.at_ t).pool.crashed.length < n) {t : Nat} {cipher : Cipher} {input : List TlsEv}
    (hs : r.Come k t cipher input) (hr : r.Roomy k) (hst : r.Steady k) (hcut : AnyCut (TlsEv.plain input)) (he : ∃ t' ≥ t, (r.run.at_ t').Edge k)
    {ms : List (Bytes × Request)} (hms : ∀ m ∈ ms, FittingRequest m.1 m.2 ∧ ¬ CloseAsked m.2) {b : Bytes} (hb : Refused prof b)
    {z : Bytes} (htext : TlsEv.plain input = ms.flatMap Prod.fst ++ b ++ z) :
    ∃ T as out, as.map Prod.fst = ms.map Prod.snd ∧ AnsweredIn rt as out ∧
      ∀ t ≥ T, asksOn k (r.run.at_ t).asks = as ∧ ∃ c l l', (r.run.at_ t).conns[k]? = some c ∧ (∀ conn, c.slot ≠ .live conn) ∧ c.raw.raw.sess.log = l ++ .closeNotify :: l' ∧ .closeNotify ∉ l ∧
        (∀ y ∈ l', y = .reply ∨ y = .alert) ∧ l.flatMap TlsItem.plain = out ++ b!"HTTP/1.1 400 Bad Request\r\n\r\n" ∧ c.raw.raw.sock.sent = cipher.wire 0 (l ++ .closeNotify :: l') := by
  obtain ⟨T, hT, c, hc, x, r₀, evs, h1, h2, h3, h4, h5, h6, h7⟩ := r.finds hf hcr (r.quiet hr hs) hst hcut he
  obtain ⟨conn, out, rfl, h8, h9, h10⟩ := h2.refused_text hms hb (fun conn h => ⟨(h3 conn h).1, (List.prefix_append _ z).trans (htext ▸ (h3 conn h).2)⟩) h4 h5 (htext ▸ h6)
  refine ⟨T, _, out, h8, h9, fun t ht => ?_⟩
  have := r.shut_sent hr hst hc h1 (fun hg => ?_) hs ht (by omega)
  · rw [h10] at this
    exact this
  rw [hg] at h7
  obtain ⟨conn', out', -, h11, -⟩ := h2.refused_text (ms := ms ++ [aRequest]) (z := []) (stays_more hms) hb nofun h4 h5 (by rw [h7]; exact List.nil_prefix)
  have := congrArg List.length (h8.symm.trans h11)
  simp at this

/-! ## Witnesses -/

def roomyNow (s : ANet (Traced TlsStream) σ) : Bool := s.conns.all fun c => !c.raw.raw.sock.evs.isEmpty && c.raw.raw.sock.evs.all fun e => match e with | .accept _ => true | _ => false

theorem roomy_of {r : HttpsRun prof rt n s₀} (h : ∀ u, roomyNow (r.run.at_ u) = true) : r.Roomy k := by
  intro u c hc
  have := List.all_eq_true.1 (h u) c (List.mem_of_getElem? hc)
  simp only [Bool.and_eq_true, Bool.not_eq_true', List.all_eq_true] at this
  refine ⟨fun h => by rw [h] at this; exact absurd this.1 (by simp), fun e he => ?_⟩
  have := this.2 e he
  cases e with
  | accept m => exact ⟨m, rfl⟩
  | err e => cases this

theorem leave_roomy (prof : Profile) (b : Leave) : (leaveRun prof b).Roomy 0 :=
  roomy_of fun u => leave_all (prof := prof) (b := b) roomyNow 0 (Nat.zero_le _) (by rcases prof with ⟨_ | _⟩ <;> cases b <;> decide +kernel) u (Nat.zero_le _)

theorem cut_roomy (prof : Profile) (b : Bool) : (cutRun prof b).Roomy 0 :=
  roomy_of fun u => cut_all (prof := prof) (hup := b) roomyNow 0 (Nat.zero_le _) (by rcases prof with ⟨_ | _⟩ <;> cases b <;> decide +kernel) u (Nat.zero_le _)

/-- The hypotheses of C85_tls_asked_sent_partial can be met (see `C85_tls_asked_partial` for what is sent). -/
example (prof : Profile) : ∃ T as out, as.map Prod.fst = [aRequest.2] ++ [closeRequest.2] ∧ AnsweredIn counter as out ∧ ∀ t ≥ T, asksOn 0 ((leaveRun prof .asked).run.at_ t).asks = as := by
  obtain ⟨T, as, out, h1, h2, h3⟩ := C85_tls_asked_sent_partial (leaveRun prof .asked) (leave_fair prof .asked) (leave_crashed prof .asked) (leave_quiet prof .asked).toCome (leave_roomy prof .asked) (leave_steady prof .asked) (anyCut_ascii (by decide +kernel))
    (leave_edge prof .asked) (ms := [aRequest]) (by simpa using aRequest_stays) closeRequest_fits closeRequest_asks (z := aRequest.1) (by decide +kernel)
  exact ⟨T, as, out, h1, h2, fun t ht => (h3 t ht).1⟩

/-- Those of C85_tls_refused_sent_partial too. -/
example (prof : Profile) : ∃ T as out, as.map Prod.fst = [aRequest.2] ∧ AnsweredIn counter as out ∧ ∀ t ≥ T, asksOn 0 ((leaveRun prof .refused).run.at_ t).asks = as := by
  obtain ⟨T, as, out, h1, h2, h3⟩ := C85_tls_refused_sent_partial (leaveRun prof .refused) (leave_fair prof .refused) (leave_crashed prof .refused) (leave_quiet prof .refused).toCome (leave_roomy prof .refused) (leave_steady prof .refused) (anyCut_ascii (by decide +kernel))
    (leave_edge prof .refused) (ms := [aRequest]) (by simpa using aRequest_stays) (refused_line prof) (z := b!"and more") (by decide +kernel)
  exact ⟨T, as, out, h1, h2, fun t ht => (h3 t ht).1⟩

/-- Those of C85_tls_emptied_partial too: the connection is closed after something was read. -/
example (prof : Profile) : (leaveRun prof .asked).Roomy 0 ∧ (∀ u, HttpsAct.Orderly 0 ((leaveRun prof .asked).before u)) ∧
    ∃ c, ((leaveRun prof .asked).run.at_ 19).conns[0]? = some c ∧ c.slot.isLive = false ∧ c.raw.got ≠ [] := by
  refine ⟨leave_roomy prof .asked, leave_orderly, ?_⟩
  have h : (((leaveRun prof .asked).run.at_ 19).conns[0]?.any fun c => !c.slot.isLive && !c.raw.got.isEmpty) = true := by rcases prof with ⟨_ | _⟩ <;> decide +kernel
  obtain ⟨c, h1, h2⟩ := any_some h
  simp only [Bool.and_eq_true, Bool.not_eq_true'] at h2
  exact ⟨c, h1, h2.1, fun h => by rw [h] at h2; exact absurd h2.2 (by simp)⟩

/-- And those of C85_tls_ended_roomy_partial (the others are the same as in C85_tls_ended_partial). -/
example (prof : Profile) : (cutRun prof false).Roomy 0 ∧ TlsEv.eof.Final := ⟨cut_roomy prof false, trivial⟩

end Verif
