import Verif.Props.WholeSystem
import Verif.Props.NetAny
import Verif.Props.Progress
import Verif.Props.HttpsRoomy
import Verif.Props.Closes
import Verif.Props.HttpsCloses

/-!
C88: what is sent to a client depends on nothing but what the client sends, if the answers of the listeners do not depend on what they were asked before.
-/

namespace Verif

variable {σ : Type} {rt : Router σ}

/-- What the router answers to these requests, up to the first that makes a listener panic. -/
def Router.replies (rt : Router σ) (s : σ) : List Request → Bytes
  | [] => []
  | q :: qs =>
    match (rt.result q s).1 with
    | some a => answerBytes a ++ rt.replies s qs
    | none => []

theorem AnsweredIn.replies (hp : rt.Pure) (s : σ) {as : List (Request × σ)} {out : Bytes} (h : AnsweredIn rt as out) {qs : List Request}
    (hq : as.map Prod.fst <+: qs) : out <+: rt.replies s qs := by
  induction h generalizing qs with
  | nil => exact List.nil_prefix
  | @cons q s' as a out h1 _ ih =>
    obtain ⟨t, rfl⟩ := hq
    simp only [List.map_cons, List.cons_append, Router.replies]
    rw [hp q s s', h1]
    exact (List.prefix_append_right_inj _).2 (ih (List.prefix_append _ _))
  | panic h1 => exact List.nil_prefix

theorem AnsweredIn.replies_all (hp : rt.Pure) (s : σ) {as : List (Request × σ)} {out : Bytes} (h : AnsweredIn rt as out) : out = rt.replies s (as.map Prod.fst) := by
  induction h with
  | nil => rfl
  | @cons q s' as a out h1 _ ih =>
    simp only [List.map_cons, Router.replies]
    rw [hp q s s', h1, ← ih]
  | @panic q s' h1 =>
    simp only [List.map_cons, Router.replies]
    rw [hp q s s', h1]

/-- C88 (partial: conditions as in `C60_server_partial`): there is one text, which depends only on the listeners and on the requests that a client sends, such that on every server with these listeners, in
either build profile, with any number of workers, whatever it has done before, whatever other clients there are, and on every schedule: what is sent to a client that sends these requests, in any pieces, is a
beginning of this text, and what the listeners are asked on its connection is a beginning of its requests; once all have arrived and been read, and no worker is at the connection, the text that has been sent or waits in the buffer is this text,
and the listeners were asked about all requests. -/
theorem C88_same_partial (hp : rt.Pure) {N : Nat} (hN : 28 ≤ N) (hparts : rt.PartsLe N) {ms : List (Bytes × Request)} (hms : ∀ m ∈ ms, FittingRequest m.1 m.2) :
    ∃ all : Bytes, ∀ (prof : Profile) (n : Nat) (s₀ : σ) (s : Net σ) (k : Nat) (c : NConn σ), Net.Reach prof rt n s₀ s → s.conns[k]? = some c →
      Brings c.arrived (ms.flatMap Prod.fst) → (∀ evs ∈ c.wakes, Tidy N 4096 evs) →
      c.slot.conn.writer.sock.sent <+: all ∧ (asksOn k s.asks).map Prod.fst <+: ms.map Prod.snd ∧
      ∀ conn, c.lock = none → c.slot = .live conn → conn.reader.src.atoms = [] → bytesOf (c.arrived.flatMap Ev.atoms) = ms.flatMap Prod.fst →
        conn.writer.total = all ∧ (asksOn k s.asks).map Prod.fst = ms.map Prod.snd := by
  by_cases hσ : Nonempty σ
  · obtain ⟨s'⟩ := hσ
    refine ⟨rt.replies s' (ms.map Prod.snd), fun prof n s₀ s k c h hc hb hw => ?_⟩
    have hrt : ∀ a ∈ asksOn k s.asks, ∀ r, rt.Says a r → r.PartsLe N := fun a _ r hr =>
      hparts.2 a.1 a.2 r (rt.result a.1 a.2).2 (hr.imp (fun h => Prod.ext h rfl) fun h => Prod.ext h rfl)
    obtain ⟨h1, out, h2, h3⟩ := C60_server_partial h hc hN hrt hms hb hw
    refine ⟨h3.trans (h2.replies hp s' h1), h1, fun conn hl hs ha hall => ?_⟩
    obtain ⟨h4, h5⟩ := idle_answered h hc hl hs ha hN hrt hms hb hall hw
    exact ⟨by rw [h5.replies_all hp s', h4], h4⟩
  · exact ⟨[], fun _ _ s₀ => absurd ⟨s₀⟩ hσ⟩

/-- C88 (partial, as `C88_same_partial`): of what two such clients are sent, on two servers with the same listeners or on the same, at any times, one is a beginning of the other. -/
theorem C88_others_partial (hp : rt.Pure) {N : Nat} (hN : 28 ≤ N) (hparts : rt.PartsLe N) {ms : List (Bytes × Request)} (hms : ∀ m ∈ ms, FittingRequest m.1 m.2)
    {prof prof' : Profile} {n n' : Nat} {s₀ s₀' : σ} {s s' : Net σ} {k k' : Nat} {c c' : NConn σ} (h : Net.Reach prof rt n s₀ s) (h' : Net.Reach prof' rt n' s₀' s')
    (hc : s.conns[k]? = some c) (hc' : s'.conns[k']? = some c') (hb : Brings c.arrived (ms.flatMap Prod.fst)) (hb' : Brings c'.arrived (ms.flatMap Prod.fst))
    (hw : ∀ evs ∈ c.wakes, Tidy N 4096 evs) (hw' : ∀ evs ∈ c'.wakes, Tidy N 4096 evs) :
    c.slot.conn.writer.sock.sent <+: c'.slot.conn.writer.sock.sent ∨ c'.slot.conn.writer.sock.sent <+: c.slot.conn.writer.sock.sent := by
  obtain ⟨all, ha⟩ := C88_same_partial hp hN hparts hms
  exact List.prefix_or_prefix_of_prefix (ha prof n s₀ s k c h hc hb hw).1 (ha prof' n' s₀' s' k' c' h' hc' hb' hw').1

/-- C88 (partial, as `C88_same_partial`): two such clients that wait for nothing, on two servers with the same listeners or on the same, were sent the same, or what was not sent waits in the buffers. -/
theorem C88_idle_partial (hp : rt.Pure) {N : Nat} (hN : 28 ≤ N) (hparts : rt.PartsLe N) {ms : List (Bytes × Request)} (hms : ∀ m ∈ ms, FittingRequest m.1 m.2)
    {prof prof' : Profile} {n n' : Nat} {s₀ s₀' : σ} {s s' : Net σ} {k k' : Nat} {c c' : NConn σ} (h : Net.Reach prof rt n s₀ s) (h' : Net.Reach prof' rt n' s₀' s')
    (hc : s.conns[k]? = some c) (hc' : s'.conns[k']? = some c') (hb : Brings c.arrived (ms.flatMap Prod.fst)) (hb' : Brings c'.arrived (ms.flatMap Prod.fst))
    (hw : ∀ evs ∈ c.wakes, Tidy N 4096 evs) (hw' : ∀ evs ∈ c'.wakes, Tidy N 4096 evs) (hl : c.lock = none) (hl' : c'.lock = none) {conn conn' : Conn Rd Nbw} (hs : c.slot = .live conn) (hs' : c'.slot = .live conn')
    (ha : conn.reader.src.atoms = []) (ha' : conn'.reader.src.atoms = []) (hall : bytesOf (c.arrived.flatMap Ev.atoms) = ms.flatMap Prod.fst) (hall' : bytesOf (c'.arrived.flatMap Ev.atoms) = ms.flatMap Prod.fst) :
    conn.writer.total = conn'.writer.total ∧ (asksOn k s.asks).map Prod.fst = (asksOn k' s'.asks).map Prod.fst := by
  obtain ⟨all, hx⟩ := C88_same_partial hp hN hparts hms
  obtain ⟨-, -, h1⟩ := hx prof n s₀ s k c h hc hb hw
  obtain ⟨-, -, h2⟩ := hx prof' n' s₀' s' k' c' h' hc' hb' hw'
  obtain ⟨h3, h4⟩ := h1 conn hl hs ha hall
  obtain ⟨h5, h6⟩ := h2 conn' hl' hs' ha' hall'
  exact ⟨by rw [h3, h5], by rw [h4, h6]⟩

/-- C88 over streams of any kind (partial: conditions as in `C78_served_partial` and `C78_answered_partial`): there is one text, which depends only on the listeners and on the requests, such that on every server with these listeners, whatever the kind of its streams: what is written to the
stream of a client that sends these requests is a beginning of this text; once all have been read, and no worker is at the open connection, what was written or waits to be written is this text. So it makes no difference to a client over which kind of stream it is served. -/
theorem C88_any_same_partial (hp : rt.Pure) (hparts : rt.PartsLe 4096) {ms : List (Bytes × Request)} (hms : ∀ m ∈ ms, FittingRequest m.1 m.2) :
    ∃ all : Bytes, ∀ (T : Type) [RawIO T], RawIO.Honest T → RawIO.ReadsWithin T → (∀ (f : Nat) (t t' : T) (b : Bytes), Wr.write f t b ≠ some (.error .interrupted, t')) →
      ∀ (prof : Profile) (nw : Nat) (s₀ : σ) (as : List (AAct T)) (s : ANet (Traced T) σ) (k : Nat) (c : AConn (Traced T)), ANet.after prof rt nw s₀ as = some s → s.conns[k]? = some c →
      (Brings (Ev.told c.raw.log) (ms.flatMap Prod.fst) → c.raw.put <+: all ∧ (asksOn k s.asks).map Prod.fst <+: ms.map Prod.snd) ∧
      ∀ conn, c.lock = none → c.slot = .live conn → .err .interrupted ∉ c.raw.log → CutWell c.raw.log → c.raw.got = ms.flatMap Prod.fst →
        c.raw.put ++ conn.reader.stream.val.buf.drop conn.reader.stream.val.pos = all ∧ (asksOn k s.asks).map Prod.fst = ms.map Prod.snd := by
  by_cases hσ : Nonempty σ
  · obtain ⟨s'⟩ := hσ
    refine ⟨rt.replies s' (ms.map Prod.snd), fun T _ hT hR hE prof nw s₀ as s k c h hc => ?_⟩
    have hrt : ∀ a ∈ asksOn k s.asks, ∀ r, rt.Says a r → r.PartsLe 4096 := fun a _ r hr =>
      hparts.2 a.1 a.2 r (rt.result a.1 a.2).2 (hr.imp (fun h => Prod.ext h rfl) fun h => Prod.ext h rfl)
    refine ⟨fun hb => ?_, fun conn hl hs hi hcut hu => ?_⟩
    · obtain ⟨g1, out, g2, g3⟩ := C78_served_partial hT hR hE h hc hrt hms hb
      exact ⟨g3.trans (g2.replies hp s' g1), g1⟩
    · obtain ⟨ms₁, rest, out, ⟨ms₂, e⟩, g2, g3, g4, g5, g6⟩ := C78_answered_partial hT hR hE h hc hl hs hrt hms hi hcut (by rw [hu]; exact List.prefix_refl _)
      rw [hu, ← e, List.flatMap_append] at g2
      have g8 := List.append_cancel_left g2
      have hnil : ms₂ = [] := by
        cases ms₂ with
        | nil => rfl
        | cons m ms₂ =>
          refine absurd ?_ (g3 m.1 m.2 (hms m (by rw [← e]; simp)))
          rw [← g8, List.flatMap_cons]
          exact List.prefix_append _ _
      rw [hnil, List.append_nil] at e
      rw [e] at g4
      exact ⟨by rw [g6, g5.replies_all hp s', g4], g4⟩
  · exact ⟨[], fun _ _ _ _ _ _ _ s₀ => absurd ⟨s₀⟩ hσ⟩

/-- C88 over TLS (partial: conditions as in `C78_tls_served_partial` and `C78_tls_answered_partial`): there is one text, which depends only on the listeners and on the requests, such that on every server with these listeners that was started with `listen_https`: what is sent to a client
whose plain text is a beginning of these requests is, decrypted, a beginning of this text; once the session has read all of them and has nothing to send, and no worker is at the open connection, what was sealed and sent or waits to be sealed is this text. -/
theorem C88_tls_same_partial (hp : rt.Pure) {ms : List (Bytes × Request)} (hms : ∀ m ∈ ms, FittingRequest m.1 m.2 ∧ AnyCut m.1) :
    ∃ all : Bytes, ∀ (prof : Profile) (nw : Nat) (s₀ : σ) (hs : List HttpsAct) (s : ANet (Traced TlsStream) σ) (k : Nat) (c : AConn (Traced TlsStream)) (cipher : Cipher) (input : List TlsEv),
      HttpsAct.Calm k hs → ANet.after prof rt nw s₀ (hs.map HttpsAct.act) = some s → s.conns[k]? = some c → HttpsAct.Fits prof rt nw s₀ k hs s →
      (HttpsAct.given hs)[k]? = some (cipher, input) →
      ((∀ ev ∈ c.raw.log, ev = .err .wouldBlock ∨ ∃ b, ev = .data b ∧ b ≠ []) → TlsEv.plain input <+: ms.flatMap Prod.fst →
        ∃ items, items.flatMap TlsItem.plain <+: all ∧ c.raw.raw.sock.sent <+: cipher.wire 0 items) ∧
      ∀ conn used, c.lock = none → c.slot = .live conn → c.raw.raw.sess.out = [] → input = used ++ c.raw.raw.input → TlsEv.plain used = ms.flatMap Prod.fst →
        c.raw.raw.sess.log.flatMap TlsItem.plain ++ conn.reader.stream.val.buf.drop conn.reader.stream.val.pos = all ∧ c.raw.raw.sock.sent = cipher.wire 0 c.raw.raw.sess.log := by
  by_cases hσ : Nonempty σ
  · obtain ⟨s'⟩ := hσ
    refine ⟨rt.replies s' (ms.map Prod.snd), fun prof nw s₀ hs s k c cipher input h1 h2 h3 h4 h5 => ⟨fun h6 h7 => ?_, fun conn used hl hs ho hi hu => ?_⟩⟩
    · obtain ⟨g1, out, items, g2, g3, g4⟩ := C78_tls_served_partial h1 h2 h3 h4 h5 h6 hms h7
      exact ⟨items, g3.trans (g2.replies hp s' g1), g4⟩
    · subst hi
      obtain ⟨ms₁, rest, out, ⟨ms₂, e⟩, g2, g3, g4, g5, g6, g7⟩ := C78_tls_answered_partial h1 h2 h3 hl hs ho h4 h5 hms (by rw [hu]; exact List.prefix_refl _)
      rw [hu, ← e, List.flatMap_append] at g2
      have g8 := List.append_cancel_left g2
      have hnil : ms₂ = [] := by
        cases ms₂ with
        | nil => rfl
        | cons m ms₂ =>
          refine absurd ?_ (g3 m.1 m.2 (hms m (by rw [← e]; simp)).1)
          rw [← g8, List.flatMap_cons]
          exact List.prefix_append _ _
      rw [hnil, List.append_nil] at e
      exact ⟨by rw [g6, g5.replies_all hp s', g4, e], g7⟩
  · exact ⟨[], fun _ _ s₀ => absurd ⟨s₀⟩ hσ⟩

/-- C88 in the end (partial: conditions as in `C62_sent_partial` and `C80_tls_sent_partial`): there is one text, which depends only on the listeners and on the requests, such that on every fair run of every server with these listeners, with and without TLS: from some time on what was sent to a
client that sends these requests and goes on reading is exactly this text; over TLS, decrypted, whenever no handler uses the connection. -/
theorem C88_eventually_partial (hp : rt.Pure) (ms : List (Bytes × Request)) :
    ∃ all : Bytes, (∀ (prof : Profile) (n : Nat) (s₀ : σ) (r : Net.Run prof rt n s₀) (N k : Nat), r.Going → r.Ends → (∀ t, (r.at_ t).pool.crashed.length < n) → r.Sends N k ms → r.Takes k →
        ∃ T, ∀ t ≥ T, ∃ c, (r.at_ t).conns[k]? = some c ∧ c.slot.conn.writer.sock.sent = all) ∧
      ∀ (prof : Profile) (n : Nat) (s₀ : σ) (r : HttpsRun prof rt n s₀) (k t : Nat) (cipher : Cipher) (input : List TlsEv), r.run.Fair → (∀ t, (r.run.at_ t).pool.crashed.length < n) →
        r.Texts k t cipher input ms → r.Stays k ms → r.Roomy k → (∃ t' ≥ t, (r.run.at_ t').Edge k) →
        ∃ u, ∀ v ≥ u, ∀ c, (r.run.at_ v).conns[k]? = some c → c.lock = none → ∃ items, items.flatMap TlsItem.plain = all ∧ c.raw.raw.sock.sent = cipher.wire 0 items := by
  by_cases hσ : Nonempty σ
  · obtain ⟨s'⟩ := hσ
    refine ⟨rt.replies s' (ms.map Prod.snd), fun prof n s₀ r N k hg he hcr hs htk => ?_, fun prof n s₀ r k t cipher input hf hcr hs hst hr he => ?_⟩
    · obtain ⟨T, as, out, h1, h2, h3⟩ := C62_sent_partial r hg he hcr hs htk
      refine ⟨T, fun t ht => ?_⟩
      obtain ⟨-, c, h4, h5⟩ := h3 t ht
      exact ⟨c, h4, by rw [h5, h2.replies_all hp s', h1]⟩
    · obtain ⟨u, h1⟩ := C80_tls_sent_partial r hf hcr hs hst hr he
      refine ⟨u, fun v hv c hc hl => ?_⟩
      obtain ⟨h2, -, h3, h4⟩ := (h1 v hv).2 c hc hl
      exact ⟨_, by rw [h3.replies_all hp s', h2], h4⟩
  · exact ⟨[], fun _ _ s₀ => absurd ⟨s₀⟩ hσ, fun _ _ s₀ => absurd ⟨s₀⟩ hσ⟩

/-- C88 to the end (partial: conditions as in `C85_asked_partial` and `C85_tls_asked_sent_partial`): there is one text, which depends only on the listeners and on the requests, such that on every fair run of every server with these listeners, with and without TLS: if a client sends requests of which only
the last asks for the connection to be closed, and whatever comes after them, then in the end the connection is closed, and this text is what was sent to the client or was in the buffer when the connection was dropped; over TLS it is what was sent before the close_notify. -/
theorem C88_closed_partial (hp : rt.Pure) {ms : List (Bytes × Request)} (hms : ∀ m ∈ ms, FittingRequest m.1 m.2 ∧ ¬ CloseAsked m.2) {w : Bytes} {q : Request} (hq : FittingRequest w q) (hcl : CloseAsked q) :
    ∃ all : Bytes, (∀ (prof : Profile) (n : Nat) (s₀ : σ) (r : Net.Run prof rt n s₀) (N k : Nat) (z : Bytes), r.Going → r.Ends → (∀ t, (r.at_ t).pool.crashed.length < n) → r.Steady N k →
        r.Comes k (ms.flatMap Prod.fst ++ w) z → ∃ T conn, conn.writer.sock.sent ++ conn.writer.pending = all ∧ ∀ t ≥ T, ∃ c, (r.at_ t).conns[k]? = some c ∧ c.slot = .gone conn) ∧
      ∀ (prof : Profile) (n : Nat) (s₀ : σ) (r : HttpsRun prof rt n s₀) (k t : Nat) (cipher : Cipher) (input : List TlsEv) (z : Bytes), r.run.Fair → (∀ t, (r.run.at_ t).pool.crashed.length < n) →
        r.Come k t cipher input → r.Roomy k → r.Steady k → AnyCut (TlsEv.plain input) → (∃ t' ≥ t, (r.run.at_ t').Edge k) → TlsEv.plain input = ms.flatMap Prod.fst ++ w ++ z →
        ∃ T, ∀ t ≥ T, ∃ c l l', (r.run.at_ t).conns[k]? = some c ∧ (∀ conn, c.slot ≠ .live conn) ∧ .closeNotify ∉ l ∧ l.flatMap TlsItem.plain = all ∧ c.raw.raw.sock.sent = cipher.wire 0 (l ++ .closeNotify :: l') := by
  by_cases hσ : Nonempty σ
  · obtain ⟨s'⟩ := hσ
    refine ⟨rt.replies s' (ms.map Prod.snd ++ [q]), fun prof n s₀ r N k z hg he hcr hs hc => ?_, fun prof n s₀ r k t cipher input z hf hcr hs hr hst hcut he htext => ?_⟩
    · obtain ⟨T, as, conn, h1, h2, h3⟩ := C85_asked_partial r hg he hcr hs hms hq hcl hc
      exact ⟨T, conn, by rw [h2.replies_all hp s', h1], fun t ht => (h3 t ht).2⟩
    · obtain ⟨T, as, out, h1, h2, h3⟩ := C85_tls_asked_sent_partial r hf hcr hs hr hst hcut he hms hq hcl htext
      refine ⟨T, fun t ht => ?_⟩
      obtain ⟨-, c, l, l', g1, g2, -, g3, -, g4, g5⟩ := h3 t ht
      exact ⟨c, l, l', g1, g2, g3, by rw [g4, h2.replies_all hp s', h1], g5⟩
  · exact ⟨[], fun _ _ s₀ => absurd ⟨s₀⟩ hσ, fun _ _ s₀ => absurd ⟨s₀⟩ hσ⟩

/-- C88 to the end (partial: conditions as in `C85_refused_partial` and `C85_tls_refused_sent_partial`): the same for a client that sends requests and then something that is no request. -/
theorem C88_refused_partial (hp : rt.Pure) {ms : List (Bytes × Request)} (hms : ∀ m ∈ ms, FittingRequest m.1 m.2 ∧ ¬ CloseAsked m.2) (b : Bytes) :
    ∃ all : Bytes, (∀ (prof : Profile) (n : Nat) (s₀ : σ) (r : Net.Run prof rt n s₀) (N k : Nat) (z : Bytes), Refused prof b → r.Going → r.Ends → (∀ t, (r.at_ t).pool.crashed.length < n) → r.Steady N k →
        r.Comes k (ms.flatMap Prod.fst ++ b) z → ∃ T conn, conn.writer.sock.sent ++ conn.writer.pending = all ∧ ∀ t ≥ T, ∃ c, (r.at_ t).conns[k]? = some c ∧ c.slot = .gone conn) ∧
      ∀ (prof : Profile) (n : Nat) (s₀ : σ) (r : HttpsRun prof rt n s₀) (k t : Nat) (cipher : Cipher) (input : List TlsEv) (z : Bytes), Refused prof b → r.run.Fair → (∀ t, (r.run.at_ t).pool.crashed.length < n) →
        r.Come k t cipher input → r.Roomy k → r.Steady k → AnyCut (TlsEv.plain input) → (∃ t' ≥ t, (r.run.at_ t').Edge k) → TlsEv.plain input = ms.flatMap Prod.fst ++ b ++ z →
        ∃ T, ∀ t ≥ T, ∃ c l l', (r.run.at_ t).conns[k]? = some c ∧ (∀ conn, c.slot ≠ .live conn) ∧ .closeNotify ∉ l ∧ l.flatMap TlsItem.plain = all ∧ c.raw.raw.sock.sent = cipher.wire 0 (l ++ .closeNotify :: l') := by
  by_cases hσ : Nonempty σ
  · obtain ⟨s'⟩ := hσ
    refine ⟨rt.replies s' (ms.map Prod.snd) ++ b!"HTTP/1.1 400 Bad Request\r\n\r\n", fun prof n s₀ r N k z hb hg he hcr hs hc => ?_, fun prof n s₀ r k t cipher input z hb hf hcr hs hr hst hcut he htext => ?_⟩
    · obtain ⟨T, as, out, conn, h1, h2, h3, h4⟩ := C85_refused_partial r hg he hcr hs hms hb hc
      exact ⟨T, conn, by rw [h3, h2.replies_all hp s', h1], fun t ht => (h4 t ht).2⟩
    · obtain ⟨T, as, out, h1, h2, h3⟩ := C85_tls_refused_sent_partial r hf hcr hs hr hst hcut he hms hb htext
      refine ⟨T, fun t ht => ?_⟩
      obtain ⟨-, c, l, l', g1, g2, -, g3, -, g4, g5⟩ := h3 t ht
      exact ⟨c, l, l', g1, g2, g3, by rw [g4, h2.replies_all hp s', h1], g5⟩
  · exact ⟨[], fun _ _ s₀ => absurd ⟨s₀⟩ hσ, fun _ _ s₀ => absurd ⟨s₀⟩ hσ⟩

/-! ## The conditions can be met -/

theorem counter_pure : counter.Pure := fun q s s' => by rw [counter_result, counter_result]

/-- The conditions of `C88_same_partial`, `C88_others_partial` and `C88_idle_partial` can be met after a request was answered; so can those of `C88_any_same_partial` and `C88_tls_same_partial`, by the examples at the end of Props/NetAny.lean, which have the same router. A run as in the first part of `C88_eventually_partial` is that of the example in Props/Progress.lean, with a router that has no state; runs as in `C88_closed_partial` and `C88_refused_partial` are those of the examples in Props/Closes.lean, with the same router, and in Props/HttpsCloses.lean, with this one. -/
example (prof : Profile) : counter.Pure ∧ counter.PartsLe 28 ∧ (∀ m ∈ [aRequest], FittingRequest m.1 m.2 ∧ AnyCut m.1) ∧ ∃ (s : Net Nat) (c : NConn Nat), Net.Reach prof counter 1 0 s ∧ s.conns[0]? = some c ∧
    Brings c.arrived ([aRequest].flatMap Prod.fst) ∧ (∀ evs ∈ c.wakes, Tidy 28 4096 evs) ∧ c.slot.conn.writer.sock.sent = b!"HTTP/1.1 200 OK\r\n\r\nhi" ∧
    c.lock = none ∧ c.slot.isLive = true ∧ c.slot.conn.reader.src.atoms = [] ∧ bytesOf (c.arrived.flatMap Ev.atoms) = [aRequest].flatMap Prod.fst := by
  refine ⟨counter_pure, counter_parts, fun m hm => ?_, ?_⟩
  · obtain rfl : m = aRequest := by simpa using hm
    exact ⟨aRequest_fits, anyCut_ascii (by decide)⟩
  have h1 : (Net.after prof counter 1 0 [.accept (fun n => n) (fun c n => c + n) (by omega) [], .arrive 0 (.data b!"GET /a HTTP/1.1\r\n\r\n"),
      .poll [0], .dispatch false, .work 0, .work 0, .work 0, .work 0, .lock 0 [.accept 100], .go 0, .go 0, .go 0, .go 0, .go 0, .go 0]).any (fun s => s.conns[0]?.any fun c =>
      c.arrived == [.data b!"GET /a HTTP/1.1\r\n\r\n"] && c.wakes == [[.accept 100]] && c.slot.conn.writer.sock.sent == b!"HTTP/1.1 200 OK\r\n\r\nhi" &&
      c.lock == none && c.slot.isLive && c.slot.conn.reader.src.atoms == []) = true := by
    obtain ⟨_ | _⟩ := prof <;> decide +kernel
  rw [Option.any_eq_true_iff_get] at h1
  obtain ⟨hs, h1⟩ := h1
  rw [Option.any_eq_true_iff_get] at h1
  obtain ⟨hc, h1⟩ := h1
  simp only [Bool.and_eq_true, beq_iff_eq] at h1
  obtain ⟨⟨⟨⟨⟨h2, h3⟩, h4⟩, h5⟩, h6⟩, h7⟩ := h1
  refine ⟨_, _, Net.reach_of (Option.some_get hs).symm, (Option.some_get hc).symm, ⟨?_, ?_⟩, ?_, h4, h5, h6, h7, by rw [h2]; decide +kernel⟩
  · rw [h2]
    refine .safe fun ev he => ?_
    simp only [List.mem_cons, List.not_mem_nil, or_false] at he
    subst he
    refine ⟨_, rfl, by decide, fun x hx _ => ?_⟩
    rw [bytesOf_bytes] at hx
    exact utf8_ascii fun y hy => by
      have : ((b!"GET /a HTTP/1.1\r\n\r\n").all fun x => decide (x < 128)) = true := by decide
      simpa using List.all_eq_true.1 this y (hx.mem hy)
  · rw [h2]; decide +kernel
  · rw [h3]
    intro evs he
    simp only [List.mem_singleton] at he
    subst he
    exact ⟨by decide, .inr (by decide)⟩

theorem steady_ok (prof : Profile) : (ANet.after prof counter 1 0 (secretTurns.map HttpsAct.act)).isSome = true := by rcases prof with ⟨_ | _⟩ <;> decide +kernel

/-- The run in which nothing happens afterwards. -/
def steadyRun (prof : Profile) : HttpsRun prof counter 1 0 where
  run := ANet.Run.ofList (s := (ANet.new 1 0).get rfl) (secretTurns.map HttpsAct.act) rfl (steady_ok prof)
  act t := secretTurns[t]?
  acts t := List.getElem?_map ..

theorem steady_all {prof : Profile} (p : ANet (Traced TlsStream) Nat → Bool) (hp : ∀ t ≤ 32, (ANet.after prof counter 1 0 ((secretTurns.map HttpsAct.act).take t)).all p = true)
    (t : Nat) : p ((steadyRun prof).run.at_ t) = true :=
  ANet.Run.ofList_all (hn := rfl) (s := (ANet.new 1 0).get rfl) (h := steady_ok prof) (Nat.zero_le 32) (fun t h _ => hp t h) t (Nat.zero_le _)

theorem steady_before {prof : Profile} (u : Nat) : secretTurns = (steadyRun prof).before u ++ secretTurns.drop u := by
  rw [show (steadyRun prof).before u = secretTurns.take u from range_get _ _, List.take_append_drop]

theorem steady_given {prof : Profile} {u : Nat} {cipher : Cipher} {input : List TlsEv} (h : (HttpsAct.given ((steadyRun prof).before u))[0]? = some (cipher, input)) :
    ∃ es, input ++ es = [.records true [] false true, .records false (requestBytes (ask 97)) false false, .records false (requestBytes (ask 98)) false false] := by
  obtain ⟨es, h⟩ := Verif.given_grows h (secretTurns.drop u)
  rw [← steady_before] at h
  simp only [secretTurns, HttpsAct.given, List.foldl_cons, List.foldl_nil, List.nil_append, List.modify_cons, if_true, List.getElem?_cons_zero, Option.some.injEq, Prod.mk.injEq] at h
  exact ⟨es, h.2.symm⟩

theorem steady_orderly {prof : Profile} (u : Nat) : HttpsAct.Orderly 0 ((steadyRun prof).before u) := by
  refine ⟨fun cipher input h => ?_, fun evs h => ?_⟩
  · obtain ⟨es, h⟩ := steady_given h
    refine TlsEv.Orderly.append (v := es) ?_
    rw [h]
    simp [TlsEv.Orderly]
  · obtain ⟨es, h⟩ := rooms_grow h (secretTurns.drop u)
    rw [← steady_before] at h
    simp only [secretTurns, HttpsAct.rooms, List.foldl_cons, List.foldl_nil, List.nil_append, List.getElem?_cons_zero, Option.some.injEq] at h
    intro e he
    have : .err e ∈ evs ++ es := List.mem_append_left _ he
    rw [← h] at this
    simp [List.mem_replicate] at this

theorem steady_edge {prof : Profile} {t : Nat} (h : (((steadyRun prof).run.at_ t).conns[0]?.any fun c => c.edge) = true) : ((steadyRun prof).run.at_ t).Edge 0 := by
  obtain ⟨c, h1, h2⟩ := any_some h
  exact ⟨c, h1, h2⟩

theorem steady_roomy (prof : Profile) : (steadyRun prof).Roomy 0 := by
  intro u c hc
  have := steady_all (prof := prof) (fun s => s.conns.all fun c => !c.raw.raw.sock.evs.isEmpty && c.raw.raw.sock.evs.all fun e => match e with | .accept _ => true | _ => false)
    (by rcases prof with ⟨_ | _⟩ <;> decide +kernel) u
  have := List.all_eq_true.1 this c (List.mem_of_getElem? hc)
  simp only [Bool.and_eq_true, Bool.not_eq_true', List.all_eq_true] at this
  refine ⟨fun h => by rw [h] at this; exact absurd this.1 (by simp), fun e he => ?_⟩
  have := this.2 e he
  cases e with
  | accept m => exact ⟨m, rfl⟩
  | err e => cases this

/-- The conditions of the second part of `C88_eventually_partial` can be met. -/
example (prof : Profile) : counter.Pure ∧ (steadyRun prof).run.Fair ∧ (∀ t, ((steadyRun prof).run.at_ t).pool.crashed.length < 1) ∧
    (steadyRun prof).Texts 0 18 toyCipher [.records true [] false true, .records false (requestBytes (ask 97)) false false, .records false (requestBytes (ask 98)) false false]
      [(requestBytes (ask 97), ask 97), (requestBytes (ask 98), ask 98)] ∧
    (steadyRun prof).Stays 0 [(requestBytes (ask 97), ask 97), (requestBytes (ask 98), ask 98)] ∧ (steadyRun prof).Roomy 0 ∧ ∃ t' ≥ 18, ((steadyRun prof).run.at_ t').Edge 0 := by
  have ht := secret_inTurns (prof := prof) prof
  refine ⟨counter_pure, ANet.Run.ofList_fair (hn := rfl) (h := steady_ok prof) (by rcases prof with ⟨_ | _⟩ <;> decide +kernel) (by rcases prof with ⟨_ | _⟩ <;> decide +kernel), fun t => ?_,
    ⟨⟨rfl, fun u hu es h => ?_, by simp⟩, by decide +kernel, fun m hm => ?_, fun u => ht.calm u, .inr ⟨steady_orderly, steady_roomy prof⟩⟩,
    ⟨steady_orderly, fun u c hc => ?_, fun m hm => (ht.messages m hm).2.2, fun u a ha => ?_⟩, steady_roomy prof, ?_⟩
  · have := steady_all (prof := prof) (fun s => s.pool.crashed.length == 0) (by rcases prof with ⟨_ | _⟩ <;> decide +kernel) t
    rw [beq_iff_eq] at this
    omega
  · obtain ⟨d, rfl⟩ := Nat.le.dest hu
    have h' : (secretTurns.drop 18)[d]? = some (.arrive 0 es) := by rw [List.getElem?_drop]; exact h
    have := List.mem_of_getElem? h'
    simp [secretTurns] at this
  · exact ⟨(ht.messages m hm).1, (ht.messages m hm).2.1⟩
  · have := steady_all (prof := prof) (fun s => s.conns.all fun c => c.inTable) (by rcases prof with ⟨_ | _⟩ <;> decide +kernel) u
    exact List.all_eq_true.1 this c (List.mem_of_getElem? hc)
  · rw [counter_result]
    exact nofun
  · exact ⟨19, by omega, steady_edge (by rcases prof with ⟨_ | _⟩ <;> decide +kernel)⟩

/-! ## Timing -/

/-- A request for a path with a letter that is two bytes long arrives at once, and is answered. -/
def cafeWhole : List NAct := [.accept (fun n => n) (fun c n => c + n) (by omega) [], .arrive 0 (.data (b!"GET /caf" ++ [0xC3] ++ 0xA9 :: b!" HTTP/1.1\r\n\r\n")),
  .poll [0], .dispatch false, .work 0, .work 0, .work 0, .work 0, .lock 0 [.accept 100], .go 0, .go 0, .go 0, .go 0, .go 0, .go 0]

/-- The same bytes; a worker looks at the first of them before the others have arrived. -/
def cafeCut : List NAct := [.accept (fun n => n) (fun c n => c + n) (by omega) [], .arrive 0 (.data (b!"GET /caf" ++ [0xC3])),
  .poll [0], .dispatch false, .work 0, .work 0, .work 0, .work 0, .lock 0 [.accept 100], .go 0, .go 0, .go 0,
  .arrive 0 (.data (0xA9 :: b!" HTTP/1.1\r\n\r\n")), .poll [0], .dispatch false, .work 0, .work 0, .work 0, .work 0, .lock 0 [.accept 100], .go 0, .go 0, .go 0]

/-- What is said of both runs. -/
structure CafeSight (s : Net Unit) (c : NConn Unit) (sent : Bytes) : Prop where
  conn : s.conns[0]? = some c
  text : bytesOf (c.arrived.flatMap Ev.atoms) = b!"GET /caf" ++ [0xC3, 0xA9] ++ b!" HTTP/1.1\r\n\r\n"
  free : c.lock = none
  done : s.pool.queue = [] ∧ s.batch = [] ∧ s.pool.workers = [.idle]
  sent : c.slot.conn.writer.sock.sent = sent

theorem cafe_facts {prof : Profile} {as : List NAct} {b : Bytes} (h : (Net.after prof ([] : Router Unit) 1 () as).any (fun s => s.conns[0]?.any (fun c =>
      bytesOf (c.arrived.flatMap Ev.atoms) == b!"GET /caf" ++ [0xC3, 0xA9] ++ b!" HTTP/1.1\r\n\r\n" && c.lock == none && c.slot.conn.writer.sock.sent == b) &&
      s.pool.queue == [] && s.batch == [] && s.pool.workers == [.idle]) = true) :
    ∃ s c, Net.Reach prof ([] : Router Unit) 1 () s ∧ CafeSight s c b := by
  cases hs : Net.after prof ([] : Router Unit) 1 () as with
  | none => rw [hs] at h; cases h
  | some s =>
    rw [hs] at h
    simp only [Option.any_some, Bool.and_eq_true, beq_iff_eq] at h
    obtain ⟨⟨⟨h1, h2⟩, h3⟩, h4⟩ := h
    cases hc : s.conns[0]? with
    | none => rw [hc] at h1; cases h1
    | some c =>
      rw [hc] at h1
      simp only [Option.any_some, Bool.and_eq_true, beq_iff_eq] at h1
      exact ⟨s, c, Net.reach_of hs, hc, h1.1.1, h1.1.2, ⟨h2, h3, h4⟩, h1.2⟩

/-- C88 does not hold of all requests: a server without listeners sends one client 404 and another 400, although both send the same bytes, as the server looks at the connection of the second when it has
half a letter. -/
theorem C88_timing_false (prof : Profile) : ∃ s c s' c', Router.Pure ([] : Router Unit) ∧ Net.Reach prof ([] : Router Unit) 1 () s ∧ Net.Reach prof ([] : Router Unit) 1 () s' ∧
    CafeSight s c b!"HTTP/1.1 404 Not Found\r\n\r\n" ∧ CafeSight s' c' b!"HTTP/1.1 400 Bad Request\r\n\r\n" := by
  obtain ⟨s, c, h1, h2⟩ := cafe_facts (prof := prof) (as := cafeWhole) (b := b!"HTTP/1.1 404 Not Found\r\n\r\n") (by obtain ⟨_ | _⟩ := prof <;> decide +kernel)
  obtain ⟨s', c', h3, h4⟩ := cafe_facts (prof := prof) (as := cafeCut) (b := b!"HTTP/1.1 400 Bad Request\r\n\r\n") (by obtain ⟨_ | _⟩ := prof <;> decide +kernel)
  exact ⟨s, c, s', c', fun _ _ _ => rfl, h1, h3, h2, h4⟩

/-! ## The build profile -/

/-- A request whose header section goes a little over the limit, in pieces, up to the empty line, and that a worker looks at after each piece. -/
def overPieces (last : List NAct) : List NAct :=
  let wake : List NAct := [.poll [0], .dispatch false, .work 0, .work 0, .work 0, .work 0, .lock 0 [], .go 0, .go 0, .go 0]
  [.accept (fun n => n) (fun c n => c + n) (by omega) [], .arrive 0 (.data (b!"GET / HTTP/1.1\r\n" ++ fieldLines longFields))] ++ wake ++
  [.arrive 0 (.data (b!"a: " ++ List.replicate 87 120))] ++ wake ++
  [.arrive 0 (.data (List.replicate 90 120 ++ CRLF))] ++ wake ++ [.arrive 0 (.data CRLF), .poll [0], .dispatch false, .work 0, .work 0, .work 0, .work 0, .lock 0 [.accept 100]] ++ last

/-- What arrives in them. -/
def overArrived : List Ev := [.data (b!"GET / HTTP/1.1\r\n" ++ fieldLines longFields), .data (b!"a: " ++ List.replicate 87 120), .data (List.replicate 90 120 ++ CRLF), .data CRLF]

theorem over_facts : (Net.after ⟨true⟩ ([] : Router Unit) 1 () (overPieces [.go 0, .go 0])).any (fun s => s.asks.length == 0 && s.pool.workers == [.crashed] && s.conns[0]?.any fun c =>
      c.arrived == overArrived && c.slot.conn.writer.sock.sent == []) = true ∧
    (Net.after ⟨false⟩ ([] : Router Unit) 1 () (overPieces [.go 0, .go 0, .go 0, .go 0, .go 0, .go 0])).any (fun s => s.asks.length == 1 && s.pool.workers == [.idle] && s.conns[0]?.any fun c =>
      c.arrived == overArrived && c.slot.conn.writer.sock.sent == b!"HTTP/1.1 404 Not Found\r\n\r\n") = true := by
  constructor <;> decide +kernel

/-- C88 does not hold of all requests: on the same schedule, of the same bytes in the same pieces, a release build answers a request and a debug build loses its worker and answers nothing. -/
theorem C88_profile_false : ∃ s c s' c', Net.Reach ⟨true⟩ ([] : Router Unit) 1 () s ∧ Net.Reach ⟨false⟩ ([] : Router Unit) 1 () s' ∧ s.conns[0]? = some c ∧ s'.conns[0]? = some c' ∧ c.arrived = c'.arrived ∧
    s.pool.workers = [.crashed] ∧ s.asks = [] ∧ c.slot.conn.writer.sock.sent = [] ∧
    s'.pool.workers = [.idle] ∧ s'.asks.length = 1 ∧ c'.slot.conn.writer.sock.sent = b!"HTTP/1.1 404 Not Found\r\n\r\n" := by
  obtain ⟨h1, h2⟩ := over_facts
  rw [Option.any_eq_true_iff_get] at h1 h2
  obtain ⟨hs, h1⟩ := h1
  obtain ⟨hs', h2⟩ := h2
  simp only [Bool.and_eq_true, beq_iff_eq, List.length_eq_zero_iff] at h1 h2
  obtain ⟨⟨a1, a2⟩, h1⟩ := h1
  obtain ⟨⟨b1, b2⟩, h2⟩ := h2
  rw [Option.any_eq_true_iff_get] at h1 h2
  obtain ⟨hc, h1⟩ := h1
  obtain ⟨hc', h2⟩ := h2
  simp only [Bool.and_eq_true, beq_iff_eq] at h1 h2
  exact ⟨_, _, _, _, Net.reach_of (Option.some_get hs).symm, Net.reach_of (Option.some_get hs').symm, (Option.some_get hc).symm, (Option.some_get hc').symm, h1.1.trans h2.1.symm, a2, a1, h1.2, b2, b1, h2.2⟩

end Verif
