import Verif.Proofs.NetAnyLetGo
import Verif.Proofs.TlsEnds
import Verif.Props.Closes
import Verif.Props.NetAnyRun

/-!
C85 over streams of any kind, and over TLS: connections whose stream ends, or whose client hangs up, are closed.
-/

namespace Verif

section

variable {T σ : Type} [RawIO T] {prof : Profile} {rt : Router σ} {n : Nat} {s₀ : σ}

/-- C85: at every time, on every schedule, over streams of any kind: on a connection that is open and that no worker uses, no read has ever reported the end of the stream or a failure. -/
theorem C85_any (hT : RawIO.Honest T) (hR : RawIO.ReadsWithin T) {as : List (AAct T)} {s : ANet (Traced T) σ} (h : ANet.after prof rt n s₀ as = some s) {k : Nat} {c : AConn (Traced T)}
    {conn : SharedConn (ServerStack (Traced T))} (hc : s.conns[k]? = some c) (hl : c.lock = none) (hs : c.slot = .live conn) : ∀ ev ∈ c.raw.log, ¬ ev.Final := by
  intro ev hev hf
  obtain ⟨-, s', h1, h2⟩ := any_reach (P := fun _ => True) hT hR keeps_true errsIn_any (fun a _ => by cases a <;> simp [AAct.Allowed]) h
  obtain ⟨m, h3, h4⟩ := h2.all.conns k c hc
  have h5 := h4.slot
  rw [hs] at h5
  generalize hn : m.slot = l at h5
  cases h5 with
  | live h6 =>
    refine idle_mild h1 h3 (by rw [h4.lock, hl]) hn (by rw [h6.unread, (C78_waits hT hR h hc hl hs).1]; rfl) (ev := ev) ?_ hf
    rw [h4.arrived]
    refine List.mem_filter.2 ⟨hev, ?_⟩
    cases ev with
    | data b => rfl
    | err e =>
      have := hf.1
      simpa using this

theorem reported_keeps (ev : Ev) : RawKeeps (T := Traced T) fun x => ev ∈ x.log where
  write {f x x' b y} h h1 := by
    obtain ⟨⟨z, raw⟩, h2, h3⟩ := Option.map_eq_some_iff.1 h
    cases z <;> (cases h3; exact h1)
  flush {f x x' y} h h1 := by
    obtain ⟨z, h2, h3⟩ := Option.map_eq_some_iff.1 h
    cases h3
    exact h1
  read {x x' m y} h h1 := by
    simp only [RawIO.read] at h
    generalize RawIO.read x.raw m = z at h
    obtain ⟨z, x₁⟩ := z
    cases z <;> (cases h; exact List.mem_append_left _ h1)
  drop h := h

/-- C85: over streams of any kind, if operating system, event loop and workers go on, a connection on which a read has reported the end of the stream, or that it failed, is closed from some time on. -/
theorem C85_any_ended (hT : RawIO.Honest T) (hR : RawIO.ReadsWithin T) (r : ANet.Run T prof rt n s₀) (hf : r.Fair) {k t : Nat} {c : AConn (Traced T)}
    (hc : (r.at_ t).conns[k]? = some c) {ev : Ev} (hev : ev ∈ c.raw.log) (hfin : ev.Final) : ∃ T, ∀ t' ≥ T, (r.at_ t').Closed k := by
  obtain ⟨u, hu, c', h1, h2⟩ := r.free hT hR hf hc
  refine ⟨u, r.shut h1 ?_⟩
  cases hs : c'.slot with
  | live conn => exact absurd hfin (C85_any hT hR (r.after u) h1 h2 hs ev (r.keeps hT hR (reported_keeps ev) hc hev (fun _ _ _ _ _ h => h) hu h1))
  | gone _ => rfl
  | poisoned _ => rfl

/-- C85 (partial: fewer handlers panic than there are workers): over streams of any kind, if operating system, event loop and workers go on, a connection that the event loop takes out of its table, as it does when the operating system reports
that the client has hung up, is closed from some time on. -/
theorem C85_any_hangup_partial (hT : RawIO.Honest T) (hR : RawIO.ReadsWithin T) (r : ANet.Run T prof rt n s₀) (hf : r.Fair) (hcr : ∀ t, (r.at_ t).pool.crashed.length < n) {k t : Nat} {c : AConn (Traced T)}
    (hc : (r.at_ t).conns[k]? = some c) (hi : c.inTable = false) : ∃ T, ∀ t' ≥ T, (r.at_ t').Closed k :=
  r.dropped hT hR hf hcr hc hi

/-- C85: over streams of any kind, from the time that nothing holds a connection any more, no worker ever uses it again, and nothing happens to it but what the network does to its stream. So with the last `Arc` that is dropped the
connection is dropped as it was then (`AConn.letGo`), and it does not matter to anything else when this happens. -/
theorem C85_let_go (hT : RawIO.Honest T) (hR : RawIO.ReadsWithin T) {as : List (AAct T)} {s : ANet (Traced T) σ} (h : ANet.after prof rt n s₀ as = some s) {k : Nat} (hu : s.Unheld k) {bs : List (AAct T)} {t : ANet (Traced T) σ}
    (ht : s.run prof rt (bs.map AAct.traced) = some t) :
    t.Unheld k ∧ (∀ w, t.handled w ≠ some k) ∧ ((∀ env, .change k env ∉ bs) → t.conns[k]?.map AConn.slot = s.conns[k]?.map AConn.slot) := by
  induction bs generalizing as s with
  | nil =>
    cases ht
    exact ⟨hu, unheld_unused hT hR h hu, fun _ => rfl⟩
  | cons b bs ih =>
    obtain ⟨s₁, h1, h2⟩ := Option.bind_eq_some_iff.1 ht
    obtain ⟨g1, g2, g3⟩ := ih (after_then h h1) (unheld_step h1 hu) h2
    refine ⟨g1, g2, fun hb => (g3 fun env he => hb env (List.mem_cons_of_mem _ he)).trans ?_⟩
    obtain ⟨c, hc, -⟩ := id hu
    refine slot_step h1 (List.getElem?_eq_some_iff.1 hc).1 (unheld_unused hT hR h hu) fun env he => ?_
    cases b <;> cases he
    exact hb _ List.mem_cons_self

end

/-! ## TLS -/

section

variable {σ : Type} {prof : Profile} {rt : Router σ} {n : Nat} {s₀ : σ}

/-- The stream of an open connection: the session has not come to the end of what has arrived, or has reported it. -/
def TlsAwake (_ : Nat) (cipher : Cipher) (input : List TlsEv) (t : Traced TlsStream) : Prop := TlsStream.Inv cipher input t.got t.put t.raw ∧
  ((∀ n x, cipher.sealed n x ≠ []) → TlsStream.Past input t.raw ∨ ∃ ev ∈ t.log, ev.Final)

theorem awake_leads : TlsLeads TlsAwake fun _ _ => True where
  new _ _ _ _ cipher evs fl _ := ⟨TlsStream.Inv.new cipher false [] evs fl, fun _ => .inl ⟨[], rfl, nofun⟩⟩
  arrive _ _ es _ cipher input t _ h := ⟨inv_arrive h.1 es, fun hc => (h.2 hc).imp (fun ⟨used, h1, h2⟩ => ⟨used, by rw [h1, List.append_assoc], h2⟩) id⟩
  room _ _ evs fl _ cipher input t _ h := ⟨inv_room h.1 evs fl, fun hc => (h.2 hc).imp (fun h => h.same rfl) id⟩

theorem TlsStream.Spots.past {α : Type} {i : List TlsEv} {x : Except IoError α × TlsStream} (h : Spots i x) (hx : ∀ e, x.1 = .error e → e.Mild) : Past i x.2 := by
  rcases h with h | ⟨e, h1, h2⟩
  · exact h
  · exact absurd (hx e h1) h2

theorem awake_goes (k : Nat) (cipher : Cipher) (input : List TlsEv) : RawGoes (TlsAwake k cipher input) where
  write {f w w' b x} hb e hx h := by
    refine ⟨(tls_keeps cipher input).write e h.1, fun hc => ?_⟩
    obtain ⟨⟨y, t⟩, h1, h2⟩ := Option.map_eq_some_iff.1 e
    have h1 : w.raw.write b = (y, t) := Option.some.inj h1
    rcases h.2 hc with h3 | h3
    · have := TlsStream.write_spots (by rw [h.1.cipher]; exact hc) (fun hh => (h.1.early hh).1) h3 hb
      rw [h1] at this
      cases y with
      | ok m => cases h2; exact .inl (this.past nofun)
      | error er => cases h2; exact .inl (this.past fun e he => by cases he; exact hx _ rfl)
    · exact .inr (by cases y <;> (cases h2; exact h3))
  flush {f w w' x} e hx h := by
    refine ⟨(tls_keeps cipher input).flush e h.1, fun hc => ?_⟩
    obtain ⟨y, h1, h2⟩ := Option.map_eq_some_iff.1 e
    cases h2
    have h1 : y = w.raw.flush := (Option.some.inj h1).symm
    subst h1
    exact (h.2 hc).imp (fun h3 => (TlsStream.flush_spots (fun hh => (h.1.early hh).1) h3).past hx) id
  read {t t' m x} e h := by
    refine ⟨(tls_keeps cipher input).read e h.1, fun hc => ?_⟩
    have hs := fun h3 => TlsStream.read_spots (i := input) (fun hh => (h.1.early hh).1) h3 m
    simp only [RawIO.read] at e
    generalize t.raw.read m = y at hs e
    obtain ⟨y, t₁⟩ := y
    rcases h.2 hc with h3 | ⟨ev, h3, h4⟩
    · rcases hs h3 with (h4 | ⟨er, h4, h5⟩) | h4
      · exact .inl (by cases y <;> (cases e; exact h4))
      · have h4 : y = .error er := h4
        subst h4
        cases e
        exact .inr ⟨.err er, by simp, fun h => h5 (.inl h), fun h => h5 (.inr h)⟩
      · have h4 : y = .ok [] := h4
        subst h4
        cases e
        exact .inr ⟨.data [], by simp, rfl⟩
    · exact .inr ⟨ev, by cases y <;> (cases e; exact List.mem_append_left _ h3), h4⟩

theorem awake_hist (hs : List HttpsAct) (hist : List (AAct TlsStream)) (k : Nat) : RawGoes (TlsHist TlsAwake hs hist k) where
  write := fun b e hx ⟨cipher, input, h1, h2⟩ => ⟨cipher, input, h1, (awake_goes k cipher input).write b e hx h2⟩
  flush := fun e hx ⟨cipher, input, h1, h2⟩ => ⟨cipher, input, h1, (awake_goes k cipher input).flush e hx h2⟩
  read := fun e ⟨cipher, input, h1, h2⟩ => ⟨cipher, input, h1, (awake_goes k cipher input).read e h2⟩

/-- C85: at every time, on every schedule, for every connection of a server started with `listen_https` that is open and that no worker uses, if sealing gives at least a byte: in what the session has read of what has arrived at
its socket there was no end of the TCP stream, no failure of it, and nothing that is not valid TLS. -/
theorem C85_tls {hs : List HttpsAct} {s : ANet (Traced TlsStream) σ} (h : ANet.after prof rt n s₀ (hs.map HttpsAct.act) = some s) {k : Nat} {c : AConn (Traced TlsStream)}
    {conn : SharedConn (ServerStack (Traced TlsStream))} (hc : s.conns[k]? = some c) (hl : c.lock = none) (hsl : c.slot = .live conn) :
    ∃ cipher used, (HttpsAct.given hs)[k]? = some (cipher, used ++ c.raw.raw.input) ∧ ((∀ n x, cipher.sealed n x ≠ []) → ∀ ev ∈ used, ¬ ev.Final) := by
  have h1 := opens_hist (L := TlsHist TlsAwake hs) (awake_hist hs) (awake_leads.leads fun _ _ _ _ => trivial) h k c conn hc hsl
  rw [TlsHist, show (hs.map HttpsAct.act).length = hs.length by simp, List.take_length] at h1
  obtain ⟨cipher, input, h2, h3, h4⟩ := h1
  have hraw : c.raw = conn.reader.stream.val.inner.val.inner := by rw [AConn.raw, hsl]; rfl
  rw [← hraw] at h3 h4
  obtain ⟨used, h5, -⟩ := h3.heard
  refine ⟨cipher, used, by rw [h2, h5], fun hne => ?_⟩
  rcases h4 hne with ⟨used', h6, h7⟩ | ⟨ev, h6, h7⟩
  · rw [h5] at h6
    rw [List.append_cancel_right h6]
    exact h7
  · exact absurd h7 (C85_any tls_honest tls_within h hc hl hsl ev h6)

/-- C85: at every time, on every schedule, every connection of a server started with `listen_https`, if it is dropped now or has been dropped before: its session has sealed exactly one close_notify, after all that was ever written to it, and after
that at most replies to what had come and an alert; and what was sent is a beginning of what the cipher makes of this. -/
theorem C85_tls_let_go {hs : List HttpsAct} {s : ANet (Traced TlsStream) σ} (h : ANet.after prof rt n s₀ (hs.map HttpsAct.act) = some s) {k : Nat} {c : AConn (Traced TlsStream)} (hc : s.conns[k]? = some c) :
    ∃ cipher input l l', (HttpsAct.given hs)[k]? = some (cipher, input) ∧ .closeNotify ∉ l ∧ l.flatMap TlsItem.plain = c.raw.put ∧ (∀ y ∈ l', y = .reply ∨ y = .alert) ∧
      c.letGo.raw.raw.sess.log = l ++ .closeNotify :: l' ∧ c.letGo.raw.raw.sock.sent <+: cipher.wire 0 (l ++ .closeNotify :: l') := by
  obtain ⟨cipher, input, g1, g2, g3, g4⟩ := C78_tls h hc
  obtain ⟨k1, k2⟩ := C78_close_notify h hc
  have dead : (∀ conn, c.slot ≠ .live conn) → c.letGo = c → ∃ cipher input l l', (HttpsAct.given hs)[k]? = some (cipher, input) ∧ .closeNotify ∉ l ∧ l.flatMap TlsItem.plain = c.raw.put ∧ (∀ y ∈ l', y = .reply ∨ y = .alert) ∧
      c.letGo.raw.raw.sess.log = l ++ .closeNotify :: l' ∧ c.letGo.raw.raw.sock.sent <+: cipher.wire 0 (l ++ .closeNotify :: l') := by
    intro hn he
    obtain ⟨l, l', h1, h2, h3, h4⟩ := k2 hn
    rw [he]
    exact ⟨cipher, input, l, l', g1, h2, h3, h4, h1, by rw [← h1, ← g3]; exact List.prefix_append _ _⟩
  cases hsl : c.slot with
  | live conn =>
    have h1 := opens_hist (L := TlsHist TlsAwake hs) (awake_hist hs) (awake_leads.leads fun _ _ _ _ => trivial) h k c conn hc hsl
    rw [TlsHist, show (hs.map HttpsAct.act).length = hs.length by simp, List.take_length] at h1
    obtain ⟨cipher, input, h2, h3, -⟩ := h1
    have hraw : c.raw = conn.reader.stream.val.inner.val.inner := by rw [AConn.raw, hsl]; rfl
    have hgo : c.letGo.raw = RawIO.dropped c.raw := by rw [hraw, AConn.letGo, hsl]; rfl
    rw [← hraw] at h3
    obtain ⟨l', h4, h5⟩ := h3.drop_log
    refine ⟨cipher, input, c.raw.raw.sess.log, l', h2, k1 conn hsl, h3.log, h5, by rw [hgo]; exact h4, ?_⟩
    have h6 := h3.drop.wire
    rw [h3.drop.cipher, h4] at h6
    rw [hgo, ← h6]
    exact List.prefix_append _ _
  | gone x => exact dead (by rw [hsl]; exact nofun) (by simp only [AConn.letGo, hsl])
  | poisoned x => exact dead (by rw [hsl]; exact nofun) (by simp only [AConn.letGo, hsl])

/-- C85 (partial: fewer handlers panic than there are workers; sessions that have sent everything whenever no handler uses the connection): in every fair run of a server started with `listen_https`, a connection whose TCP stream ends or fails, or on which
something comes that is not valid TLS, at whatever place, also in the handshake, is closed from some time on, if its socket is reported as ready after that. Nothing is assumed about what else comes on it, or the listeners. -/
theorem C85_tls_ended_partial (r : HttpsRun prof rt n s₀) (hf : r.run.Fair) (hcr : ∀ t, (r.run.at_ t).pool.crashed.length < n) {k t : Nat} {cipher : Cipher} (hne : ∀ n x, cipher.sealed n x ≠ [])
    {input : List TlsEv} (hs : r.Quiet k t cipher input) (he : ∃ t' ≥ t, (r.run.at_ t').Edge k) {ev : TlsEv} (hev : ev ∈ input) (hfin : ev.Final) :
    ∃ T, ∀ t' ≥ T, (r.run.at_ t').Closed k := by
  obtain ⟨t', ht, he⟩ := he
  by_cases hin : ∀ t c, (r.run.at_ t).conns[k]? = some c → c.inTable = true
  · obtain ⟨u, hu, hidle⟩ := hs.idle hf hcr ht he
    obtain ⟨c₀, hc₀, -⟩ := he
    obtain ⟨c₁, hc₁, -⟩ := r.run.conns hc₀ hu
    obtain ⟨u', hu', c₂, hc₂, hl₂⟩ := r.run.free tls_honest tls_within hf hc₁
    refine ⟨u', r.run.shut hc₂ ?_⟩
    cases hsl : c₂.slot with
    | live conn =>
      exfalso
      obtain ⟨ci, used, h1, h2⟩ := C85_tls (r.after u') hc₂ hl₂ hsl
      rw [(hidle u' hu' c₂ conn hc₂ hl₂ hsl (hin _ _ hc₂)).1, List.append_nil, hs.kept (by omega)] at h1
      cases h1
      exact h2 hne ev hev hfin
    | gone _ => rfl
    | poisoned _ => rfl
  · obtain ⟨t₁, c, h1, h2⟩ : ∃ t c, (r.run.at_ t).conns[k]? = some c ∧ c.inTable = false := by
      refine Classical.byContradiction fun h => hin fun t c hc => ?_
      cases hi : c.inTable with
      | true => rfl
      | false => exact absurd ⟨t, c, hc, hi⟩ h
    exact r.run.dropped tls_honest tls_within hf hcr h1 h2

/-- At some time no worker uses a connection of which all was read if it is open. -/
theorem HttpsRun.finds (r : HttpsRun prof rt n s₀) (hf : r.run.Fair) (hcr : ∀ t, (r.run.at_ t).pool.crashed.length < n) {k t : Nat} {cipher : Cipher} {input : List TlsEv}
    (hs : r.Quiet k t cipher input) (hst : r.Steady k) (hcut : AnyCut (TlsEv.plain input)) (he : ∃ t' ≥ t, (r.run.at_ t').Edge k) :
    ∃ T ≥ t, ∃ c, (r.run.at_ T).conns[k]? = some c ∧ ∃ (x : Slot Rd Nbw) (r₀ : Rd) (evs : List Atom), c.slot.Alike x ∧ Stands prof rt r₀ (asksOn k (r.run.at_ T).asks) x ∧
      (∀ conn, x = .live conn → conn.reader.src.atoms = [] ∧ TlsEv.plain input <+: bytesOf evs) ∧ r₀.Ahead evs ∧ Smooth evs ∧ bytesOf evs <+: TlsEv.plain input ∧ bytesOf evs = c.raw.got := by
  obtain ⟨t', ht, he⟩ := he
  obtain ⟨u, hu, hidle⟩ := hs.idle hf hcr ht he
  obtain ⟨c₀, hc₀, -⟩ := he
  obtain ⟨c₁, hc₁, -⟩ := r.run.conns hc₀ hu
  obtain ⟨T, hT, c, hc, hl⟩ := r.run.free tls_honest tls_within hf hc₁
  have hord := hst.orderly T
  obtain ⟨s', Er, N, h1, h2, hE, hwr, hN, hw, hrt⟩ := orderly_fits hord (r.after T) hc (hst.fits.before T)
  obtain ⟨m, h3, h4⟩ := h2.all.conns k c hc
  have hlog := orderly_log hord (r.after T) hc
  obtain ⟨c', i', g1, g2, -⟩ := C78_tls (r.after T) hc
  rw [hs.kept (by omega)] at g1
  cases g1
  have hb : Brings (Ev.told c.raw.log) (TlsEv.plain input) := brings_told hlog hcut g2
  obtain ⟨evs, r₀, h7, h8, h9⟩ := stands h1 h3 (h4.lock.trans hl) hN (by rw [h2.asks]; exact fun a ha => ⟨hrt a ha, hst.listeners T a ha⟩)
    (fun evs he => ⟨hw m h3 evs he, fun e hm => hwr e (h4.wakes evs he _ hm e rfl)⟩) (fun e he => by
      have := h4.slips e he
      rwa [hE] at this)
  rw [h2.asks] at h9
  rw [h4.arrived] at h7
  obtain ⟨hsm, hby⟩ := hb.events h7
  refine ⟨T, by omega, c, hc, m.slot, r₀, _, h4.slot.alike, h9, fun conn hm => ?_, h8, hsm, by rw [hby]; exact hb.text, by rw [hby, bytesOf_told, bytesOf_got]; rfl⟩
  have h5 := h4.slot.alike
  rw [hm] at h5
  generalize hsl : c.slot = l at h5
  cases h5 with
  | @live conn' _ h6 =>
    obtain ⟨i1, i2⟩ := hidle T hT c conn' hc hl hsl (hst.inTable T c hc)
    obtain ⟨w1, w2⟩ := C78_tls_waits (r.after T) hc hl hsl
    obtain ⟨ci, used, w3, w4⟩ := w2 i2
    rw [hs.kept (by omega), i1, List.append_nil] at w3
    cases w3
    refine ⟨by rw [h6.unread, w1]; rfl, ?_⟩
    rw [hby, bytesOf_told, bytesOf_got, ← w4]
    exact List.prefix_refl _

/-- What was written on a connection that a handler has dropped, seen on the session. -/
theorem HttpsRun.shut (r : HttpsRun prof rt n s₀) {k T : Nat} {c : AConn (Traced TlsStream)} (hc : (r.run.at_ T).conns[k]? = some c) {m : Conn Rd Nbw} (ha : c.slot.Alike (.gone m)) {t : Nat} (ht : T ≤ t) :
    asksOn k (r.run.at_ t).asks = asksOn k (r.run.at_ T).asks ∧ ∃ c conn l l', (r.run.at_ t).conns[k]? = some c ∧ (c.slot = .gone conn ∨ c.slot = .poisoned conn) ∧ c.raw.raw.sess.log = l ++ .closeNotify :: l' ∧ .closeNotify ∉ l ∧
      (∀ y ∈ l', y = .reply ∨ y = .alert) ∧ l.flatMap TlsItem.plain ++ conn.reader.stream.val.buf.drop conn.reader.stream.val.pos = m.writer.total := by
  have hw : c.slot.isLive = false ∧ c.written = m.writer.total := by
    unfold AConn.written AConn.raw
    generalize c.slot = l at ha
    cases ha with
    | gone h => exact ⟨rfl, by rw [Nbw.total, Nbw.pending, h.buf, h.pos, h.sent]; rfl⟩
  obtain ⟨h1, c', h2, h3, h4⟩ := r.run.dead ht hc hw.1
  have hd : ∀ conn, c'.slot ≠ .live conn := fun conn h => by rw [h] at h3; cases h3
  obtain ⟨l, l', g1, g2, g3, g4⟩ := (C78_close_notify (r.after t) h2).2 hd
  refine ⟨h1, c', c'.slot.conn, l, l', h2, ?_, g1, g2, g4, ?_⟩
  · cases hs : c'.slot with
    | live conn => exact absurd hs (hd conn)
    | gone conn => exact .inl rfl
    | poisoned conn => exact .inr rfl
  · rw [g3, ← hw.2, ← h4]
    rfl

/-- C85 (partial: fewer handlers panic than there are workers; clients that have sent all they will send, text that may be cut anywhere, see `AnyCut`, sessions that have sent everything whenever no handler uses the connection, the peer and the socket as in `HttpsRun.Steady`): in every
fair run of a server started with `listen_https`, if a client does the handshake and sends requests of which only the last asks for the connection to be closed, and maybe more after them, and its socket is reported as ready, then from some time on the
connection is closed for good. The router was asked about these requests and no others, each once and in order; what was sealed before the one close_notify, together with what was still in the buffer when the connection was dropped, is its
answers. -/
theorem C85_tls_asked_partial (r : HttpsRun prof rt n s₀) (hf : r.run.Fair) (hcr : ∀ t, (r.run.at_ t).pool.crashed.length < n) {k t : Nat} {cipher : Cipher} {input : List TlsEv}
    (hs : r.Quiet k t cipher input) (hst : r.Steady k) (hcut : AnyCut (TlsEv.plain input)) (he : ∃ t' ≥ t, (r.run.at_ t').Edge k)
    {ms : List (Bytes × Request)} (hms : ∀ m ∈ ms, FittingRequest m.1 m.2 ∧ ¬ CloseAsked m.2) {w : Bytes} {q : Request} (hq : FittingRequest w q) (hcl : CloseAsked q)
    {z : Bytes} (htext : TlsEv.plain input = ms.flatMap Prod.fst ++ w ++ z) :
    ∃ T as out, as.map Prod.fst = ms.map Prod.snd ++ [q] ∧ AnsweredIn rt as out ∧
      ∀ t ≥ T, asksOn k (r.run.at_ t).asks = as ∧ ∃ c conn l l', (r.run.at_ t).conns[k]? = some c ∧ (c.slot = .gone conn ∨ c.slot = .poisoned conn) ∧ c.raw.raw.sess.log = l ++ .closeNotify :: l' ∧ .closeNotify ∉ l ∧
        (∀ y ∈ l', y = .reply ∨ y = .alert) ∧ l.flatMap TlsItem.plain ++ conn.reader.stream.val.buf.drop conn.reader.stream.val.pos = out := by
  obtain ⟨T, hT, c, hc, x, r₀, evs, h1, h2, h3, h4, h5, h6, -⟩ := r.finds hf hcr hs hst hcut he
  obtain ⟨conn, rfl, h8, h9⟩ := h2.asked_text hms hq hcl (fun conn h => ⟨(h3 conn h).1, (List.prefix_append _ z).trans (htext ▸ (h3 conn h).2)⟩) h4 h5 (htext ▸ h6)
  exact ⟨T, _, _, h8, h9, fun t ht => r.shut hc h1 ht⟩

/-- C85 (partial, as before): the same for a client that sends requests and then something that is no request: after the answers to the requests comes one that says so, and then the connection is closed for good. -/
theorem C85_tls_refused_partial (r : HttpsRun prof rt n s₀) (hf : r.run.Fair) (hcr : ∀ t, (r.run.at_ t).pool.crashed.length < n) {k t : Nat} {cipher : Cipher} {input : List TlsEv}
    (hs : r.Quiet k t cipher input) (hst : r.Steady k) (hcut : AnyCut (TlsEv.plain input)) (he : ∃ t' ≥ t, (r.run.at_ t').Edge k)
    {ms : List (Bytes × Request)} (hms : ∀ m ∈ ms, FittingRequest m.1 m.2 ∧ ¬ CloseAsked m.2) {b : Bytes} (hb : Refused prof b)
    {z : Bytes} (htext : TlsEv.plain input = ms.flatMap Prod.fst ++ b ++ z) :
    ∃ T as out, as.map Prod.fst = ms.map Prod.snd ∧ AnsweredIn rt as out ∧
      ∀ t ≥ T, asksOn k (r.run.at_ t).asks = as ∧ ∃ c conn l l', (r.run.at_ t).conns[k]? = some c ∧ (c.slot = .gone conn ∨ c.slot = .poisoned conn) ∧ c.raw.raw.sess.log = l ++ .closeNotify :: l' ∧ .closeNotify ∉ l ∧
        (∀ y ∈ l', y = .reply ∨ y = .alert) ∧ l.flatMap TlsItem.plain ++ conn.reader.stream.val.buf.drop conn.reader.stream.val.pos = out ++ b!"HTTP/1.1 400 Bad Request\r\n\r\n" := by
  obtain ⟨T, hT, c, hc, x, r₀, evs, h1, h2, h3, h4, h5, h6, -⟩ := r.finds hf hcr hs hst hcut he
  obtain ⟨conn, out, rfl, h8, h9, h10⟩ := h2.refused_text hms hb (fun conn h => ⟨(h3 conn h).1, (List.prefix_append _ z).trans (htext ▸ (h3 conn h).2)⟩) h4 h5 (htext ▸ h6)
  refine ⟨T, _, out, h8, h9, fun t ht => ?_⟩
  have := r.shut hc h1 ht
  rw [h10] at this
  exact this

end

/-! ## Witnesses -/

/-- One worker; a client connects, does the handshake, sends the beginning of a request, and is cut off. If the operating system reports that it has hung up (`hup`), the event loop gives the connection up, and else a handler looks at it. -/
def cutSecret (hup : Bool) : List HttpsAct := [.accept (fun n => n) (fun c n => c + n) (by omega) toyCipher (List.replicate 9 (.accept 100)) [], .arrive 0 [.records true [] false true],
  .arrive 0 [.records false b!"GET" false false, .eof], .poll [0], .dispatch hup, .work 0] ++ if hup then [] else [.work 0, .work 0, .work 0, .lock 0, .go 0 9, .go 0 9, .go 0 9, .work 0]

theorem cut_ok (prof : Profile) (hup : Bool) : (ANet.after prof counter 1 0 ((cutSecret hup).map HttpsAct.act)).isSome = true := by rcases prof with ⟨_ | _⟩ <;> cases hup <;> decide +kernel

/-- The run in which nothing happens afterwards. -/
def cutRun (prof : Profile) (hup : Bool) : HttpsRun prof counter 1 0 where
  run := ANet.Run.ofList (s := (ANet.new 1 0).get rfl) ((cutSecret hup).map HttpsAct.act) rfl (cut_ok prof hup)
  act t := (cutSecret hup)[t]?
  acts t := List.getElem?_map ..

theorem cut_all {prof : Profile} {hup : Bool} (p : ANet (Traced TlsStream) Nat → Bool) (t₀ : Nat) (ht₀ : t₀ ≤ ((cutSecret hup).map HttpsAct.act).length)
    (hp : ∀ t ≤ ((cutSecret hup).map HttpsAct.act).length, t₀ ≤ t → (ANet.after prof counter 1 0 (((cutSecret hup).map HttpsAct.act).take t)).all p = true) (t : Nat) (ht : t₀ ≤ t) : p ((cutRun prof hup).run.at_ t) = true :=
  ANet.Run.ofList_all (hn := rfl) (s := (ANet.new 1 0).get rfl) (h := cut_ok prof hup) ht₀ hp t ht

theorem cut_fair (prof : Profile) (hup : Bool) : (cutRun prof hup).run.Fair :=
  ANet.Run.ofList_fair (hn := rfl) (h := cut_ok prof hup) (by rcases prof with ⟨_ | _⟩ <;> cases hup <;> decide +kernel) (by rcases prof with ⟨_ | _⟩ <;> cases hup <;> decide +kernel)

theorem cut_crashed (prof : Profile) (hup : Bool) (t : Nat) : ((cutRun prof hup).run.at_ t).pool.crashed.length < 1 := by
  have := cut_all (prof := prof) (hup := hup) (fun s => s.pool.crashed.length == 0) 0 (Nat.zero_le _) (by rcases prof with ⟨_ | _⟩ <;> cases hup <;> decide +kernel) t (Nat.zero_le _)
  rw [beq_iff_eq] at this
  omega

/-- The hypotheses of C85_tls_ended_partial can be met, and the connection is open before: it is closed by a handler, after an answer that says that the request was no good and a close_notify. -/
example (prof : Profile) : ∃ r : HttpsRun prof counter 1 0, r.run.Fair ∧ (∀ t, (r.run.at_ t).pool.crashed.length < 1) ∧ (∀ n x, toyCipher.sealed n x ≠ []) ∧
    r.Quiet 0 3 toyCipher [.records true [] false true, .records false b!"GET" false false, .eof] ∧ (∃ t' ≥ 3, (r.run.at_ t').Edge 0) ∧ TlsEv.eof.Final ∧ (r.run.at_ 9).Open 0 ∧
    ∃ t c, (r.run.at_ t).conns[0]? = some c ∧ c.slot.isLive = false ∧ c.inTable = true ∧ c.raw.raw.sock.sent = [0, 2, 1, 1] ++ b!"HTTP/1.1 400 Bad Request\r\n\r\n" ++ [2, 4] := by
  refine ⟨cutRun prof false, cut_fair prof false, cut_crashed prof false, fun n x => by cases x <;> exact nofun, ⟨⟨rfl, fun u hu es h => ?_, by simp⟩, fun u hu c conn hc hl hs => ?_⟩, ⟨3, Nat.le_refl _, ?_⟩, trivial, ?_, 14, ?_⟩
  · rcases u with _ | _ | _ | u
    · omega
    · omega
    · omega
    · have h : ((cutSecret false).drop 3)[u]? = some (.arrive 0 es) := h
      have := List.mem_of_getElem? h
      simp [cutSecret] at this
  · have := cut_all (prof := prof) (hup := false) (fun s => s.conns.all fun c => c.lock != none || !c.slot.isLive || c.raw.raw.sess.out == []) 0 (by decide) (by rcases prof with ⟨_ | _⟩ <;> decide +kernel) u (Nat.zero_le _)
    have := List.all_eq_true.1 this c (List.mem_of_getElem? hc)
    simpa [hl, hs, Slot.isLive] using this
  · have h : (((cutRun prof false).run.at_ 3).conns[0]?.any fun c => c.edge) = true := by rcases prof with ⟨_ | _⟩ <;> decide +kernel
    obtain ⟨c, h1, h2⟩ := any_some h
    exact ⟨c, h1, h2⟩
  · have h : (((cutRun prof false).run.at_ 9).conns[0]?.any fun c => c.inTable && c.slot.isLive) = true := by rcases prof with ⟨_ | _⟩ <;> decide +kernel
    obtain ⟨c, h1, h2⟩ := any_some h
    rw [Bool.and_eq_true] at h2
    cases hs : c.slot with
    | live conn => exact ⟨c, conn, h1, h2.1, hs⟩
    | gone x => rw [hs] at h2; cases h2.2
    | poisoned x => rw [hs] at h2; cases h2.2
  · have h : (((cutRun prof false).run.at_ 14).conns[0]?.any fun c => !c.slot.isLive && c.inTable && c.raw.raw.sock.sent == [0, 2, 1, 1] ++ b!"HTTP/1.1 400 Bad Request\r\n\r\n" ++ [2, 4]) = true := by
      rcases prof with ⟨_ | _⟩ <;> decide +kernel
    obtain ⟨c, h1, h2⟩ := any_some h
    simp only [Bool.and_eq_true, beq_iff_eq, Bool.not_eq_true'] at h2
    exact ⟨c, h1, h2.1.1, h2.1.2, h2.2⟩

/-- The same for C85_any_ended: a read has reported the end. -/
example (prof : Profile) : ∃ r : HttpsRun prof counter 1 0, r.run.Fair ∧ ∃ t c, (r.run.at_ t).conns[0]? = some c ∧ Ev.data [] ∈ c.raw.log ∧ (Ev.data []).Final := by
  refine ⟨cutRun prof false, cut_fair prof false, 14, ?_⟩
  have h : (((cutRun prof false).run.at_ 14).conns[0]?.any fun c => c.raw.log.contains (.data [])) = true := by rcases prof with ⟨_ | _⟩ <;> decide +kernel
  obtain ⟨c, h1, h2⟩ := any_some h
  exact ⟨c, h1, by simpa using h2, rfl⟩

/-- The same for C85_any_hangup_partial: the client has hung up. -/
example (prof : Profile) : ∃ r : HttpsRun prof counter 1 0, r.run.Fair ∧ (∀ t, (r.run.at_ t).pool.crashed.length < 1) ∧ ∃ t c, (r.run.at_ t).conns[0]? = some c ∧ c.inTable = false ∧ c.slot.isLive = true := by
  refine ⟨cutRun prof true, cut_fair prof true, cut_crashed prof true, 6, ?_⟩
  have h : (((cutRun prof true).run.at_ 6).conns[0]?.any fun c => !c.inTable && c.slot.isLive) = true := by rcases prof with ⟨_ | _⟩ <;> decide +kernel
  obtain ⟨c, h1, h2⟩ := any_some h
  simp only [Bool.and_eq_true, Bool.not_eq_true'] at h2
  exact ⟨c, h1, h2.1, h2.2⟩

/-- The hypotheses of C85_let_go and C85_tls_let_go can be met by a connection that is dropped only with its last `Arc`: a close_notify is sent (`[0, 4]`), and, as
the session looks at its socket for the first time, a reply to what had come. -/
example (prof : Profile) : ∃ s, ANet.after prof counter 1 0 ((cutSecret true).map HttpsAct.act) = some s ∧ s.Unheld 0 ∧ ∃ c, s.conns[0]? = some c ∧ c.slot.isLive = true ∧ c.letGo.raw.raw.sock.sent = [0, 4, 1, 2] := by
  have h : (ANet.after prof counter 1 0 ((cutSecret true).map HttpsAct.act)).any (fun s => s.jobs == [] && s.conns[0]?.any fun c => !c.inTable && c.slot.isLive && c.letGo.raw.raw.sock.sent == [0, 4, 1, 2]) = true := by
    rcases prof with ⟨_ | _⟩ <;> decide +kernel
  obtain ⟨s, h1, h2⟩ := any_some h
  rw [Bool.and_eq_true] at h2
  obtain ⟨c, h3, h4⟩ := any_some h2.2
  simp only [Bool.and_eq_true, Bool.not_eq_true', beq_iff_eq] at h4 h2
  exact ⟨s, h1, ⟨c, h3, h4.1.1, fun j hj => by rw [h2.1] at hj; cases hj⟩, c, h3, h4.1.2, h4.2⟩

/-- Three ways for a connection to end. -/
inductive Leave
  | asked
  | refused
  | endless

/-- A request, one that asks for the connection to be closed, and one more; or a request, and then something that is none; or a request, and then a line that is too long. -/
def leaveText : Leave → Bytes
  | .asked => aRequest.1 ++ closeRequest.1 ++ aRequest.1
  | .refused => aRequest.1 ++ b!"GET /x\r\nand more"
  | .endless => aRequest.1 ++ (List.replicate 130 b!"blah").flatten

/-- One worker; a client connects, does the handshake, and sends this. -/
def leaveSecret (b : Leave) : List HttpsAct := [.accept (fun n => n) (fun c n => c + n) (by omega) toyCipher (List.replicate 9 (.accept 100)) [], .arrive 0 [.records true [] false true],
  .arrive 0 [.records false (leaveText b) false false], .poll [0], .dispatch false, .work 0, .work 0, .work 0, .work 0, .lock 0] ++ List.replicate (match b with | .asked => 8 | _ => 6) (.go 0 9) ++ [.work 0]

theorem leave_ok (prof : Profile) (b : Leave) : (ANet.after prof counter 1 0 ((leaveSecret b).map HttpsAct.act)).isSome = true := by rcases prof with ⟨_ | _⟩ <;> cases b <;> decide +kernel

/-- The run in which nothing happens afterwards. -/
def leaveRun (prof : Profile) (b : Leave) : HttpsRun prof counter 1 0 where
  run := ANet.Run.ofList (s := (ANet.new 1 0).get rfl) ((leaveSecret b).map HttpsAct.act) rfl (leave_ok prof b)
  act t := (leaveSecret b)[t]?
  acts t := List.getElem?_map ..

theorem leave_all {prof : Profile} {b : Leave} (p : ANet (Traced TlsStream) Nat → Bool) (t₀ : Nat) (ht₀ : t₀ ≤ ((leaveSecret b).map HttpsAct.act).length)
    (hp : ∀ t ≤ ((leaveSecret b).map HttpsAct.act).length, t₀ ≤ t → (ANet.after prof counter 1 0 (((leaveSecret b).map HttpsAct.act).take t)).all p = true) (t : Nat) (ht : t₀ ≤ t) : p ((leaveRun prof b).run.at_ t) = true :=
  ANet.Run.ofList_all (hn := rfl) (s := (ANet.new 1 0).get rfl) (h := leave_ok prof b) ht₀ hp t ht

theorem leave_fair (prof : Profile) (b : Leave) : (leaveRun prof b).run.Fair :=
  ANet.Run.ofList_fair (hn := rfl) (h := leave_ok prof b) (by rcases prof with ⟨_ | _⟩ <;> cases b <;> decide +kernel) (by rcases prof with ⟨_ | _⟩ <;> cases b <;> decide +kernel)

theorem leave_before {prof : Profile} {b : Leave} (u : Nat) : leaveSecret b = (leaveRun prof b).before u ++ (leaveSecret b).drop u := by
  rw [show (leaveRun prof b).before u = (leaveSecret b).take u from range_get _ _, List.take_append_drop]

theorem leave_given (b : Leave) : HttpsAct.given (leaveSecret b) = [(toyCipher, [.records true [] false true, .records false (leaveText b) false false])] := by cases b <;> rfl

theorem leave_rooms (b : Leave) : HttpsAct.rooms (leaveSecret b) = [List.replicate 9 (.accept 100)] := by cases b <;> rfl

theorem leave_orderly {prof : Profile} {b : Leave} (u : Nat) : HttpsAct.Orderly 0 ((leaveRun prof b).before u) := by
  refine ⟨fun cipher input h => ?_, fun evs h => ?_⟩
  · obtain ⟨es, h⟩ := given_grows h ((leaveSecret b).drop u)
    rw [← leave_before, leave_given] at h
    simp only [List.getElem?_cons_zero, Option.some.injEq, Prod.mk.injEq] at h
    refine TlsEv.Orderly.append (v := es) ?_
    rw [← h.2]
    simp [TlsEv.Orderly]
  · obtain ⟨es, h⟩ := rooms_grow h ((leaveSecret b).drop u)
    rw [← leave_before, leave_rooms] at h
    simp only [List.getElem?_cons_zero, Option.some.injEq] at h
    intro e he
    have : .err e ∈ evs ++ es := List.mem_append_left _ he
    rw [← h] at this
    simp at this

theorem leave_steady (prof : Profile) (b : Leave) : (leaveRun prof b).Steady 0 where
  orderly := leave_orderly
  inTable u c hc := by
    have := leave_all (prof := prof) (b := b) (fun s => s.conns.all fun c => c.inTable) 0 (Nat.zero_le _) (by rcases prof with ⟨_ | _⟩ <;> cases b <;> decide +kernel) u (Nat.zero_le _)
    exact List.all_eq_true.1 this c (List.mem_of_getElem? hc)
  listeners u a ha := by rw [counter_result]; simp
  fits := by
    refine .inl fun u a ha r hr => ?_
    obtain ⟨q, st⟩ := a
    simp only [Router.Says, counter_result] at hr
    rcases hr with hr | hr <;> cases hr
    exact ⟨by decide, by decide, by decide, by simp [HeaderMap.flat], by decide⟩

theorem leave_quiet (prof : Profile) (b : Leave) : (leaveRun prof b).Quiet 0 3 toyCipher [.records true [] false true, .records false (leaveText b) false false] := by
  refine ⟨⟨by cases b <;> rfl, fun u hu es h => ?_, by simp⟩, fun u hu c conn hc hl hs => ?_⟩
  · rcases u with _ | _ | _ | u
    · omega
    · omega
    · omega
    · have h : ((leaveSecret b).drop 3)[u]? = some (.arrive 0 es) := h
      have := List.mem_of_getElem? h
      simp [leaveSecret] at this
  · have := leave_all (prof := prof) (b := b) (fun s => s.conns.all fun c => c.lock != none || !c.slot.isLive || c.raw.raw.sess.out == []) 0 (Nat.zero_le _) (by rcases prof with ⟨_ | _⟩ <;> cases b <;> decide +kernel) u (Nat.zero_le _)
    have := List.all_eq_true.1 this c (List.mem_of_getElem? hc)
    simpa [hl, hs, Slot.isLive] using this

theorem leave_crashed (prof : Profile) (b : Leave) (t : Nat) : ((leaveRun prof b).run.at_ t).pool.crashed.length < 1 := by
  have := leave_all (prof := prof) (b := b) (fun s => s.pool.crashed.length == 0) 0 (Nat.zero_le _) (by rcases prof with ⟨_ | _⟩ <;> cases b <;> decide +kernel) t (Nat.zero_le _)
  rw [beq_iff_eq] at this
  omega

theorem leave_edge (prof : Profile) (b : Leave) : ∃ t' ≥ 3, ((leaveRun prof b).run.at_ t').Edge 0 := by
  have h : (((leaveRun prof b).run.at_ 3).conns[0]?.any fun c => c.edge) = true := by rcases prof with ⟨_ | _⟩ <;> cases b <;> decide +kernel
  obtain ⟨c, h1, h2⟩ := any_some h
  exact ⟨3, Nat.le_refl _, c, h1, h2⟩

/-- The hypotheses of C85_tls_asked_partial can be met: the first two requests are answered, then comes a close_notify (`[3, 4]`), and the third is not looked at. -/
example (prof : Profile) : (∃ T as out, as.map Prod.fst = [aRequest.2] ++ [closeRequest.2] ∧ AnsweredIn counter as out ∧ ∀ t ≥ T, asksOn 0 ((leaveRun prof .asked).run.at_ t).asks = as) ∧
    ∃ t c, ((leaveRun prof .asked).run.at_ t).conns[0]? = some c ∧ c.slot.isLive = false ∧
      c.raw.raw.sock.sent = [0, 2, 1, 1] ++ b!"HTTP/1.1 200 OK\r\n\r\nhi" ++ [2, 1] ++ b!"HTTP/1.1 200 OK\r\n\r\nhi" ++ [3, 4] := by
  constructor
  · obtain ⟨T, as, out, h1, h2, h3⟩ := C85_tls_asked_partial (leaveRun prof .asked) (leave_fair prof .asked) (leave_crashed prof .asked) (leave_quiet prof .asked) (leave_steady prof .asked) (anyCut_ascii (by decide +kernel)) (leave_edge prof .asked) (ms := [aRequest])
      (by simpa using aRequest_stays) closeRequest_fits closeRequest_asks (z := aRequest.1) (by decide +kernel)
    exact ⟨T, as, out, h1, h2, fun t ht => (h3 t ht).1⟩
  · have h : (((leaveRun prof .asked).run.at_ 19).conns[0]?.any fun c => !c.slot.isLive && c.raw.raw.sock.sent == [0, 2, 1, 1] ++ b!"HTTP/1.1 200 OK\r\n\r\nhi" ++ [2, 1] ++ b!"HTTP/1.1 200 OK\r\n\r\nhi" ++ [3, 4]) = true := by
      rcases prof with ⟨_ | _⟩ <;> decide +kernel
    obtain ⟨c, h1, h2⟩ := any_some h
    simp only [Bool.and_eq_true, beq_iff_eq, Bool.not_eq_true'] at h2
    exact ⟨19, c, h1, h2.1, h2.2⟩

/-- The hypotheses of C85_tls_refused_partial can be met: the request is answered, then comes a response that says that what follows is no request, and a close_notify. -/
example (prof : Profile) : (∃ T as out, as.map Prod.fst = [aRequest.2] ∧ AnsweredIn counter as out ∧ ∀ t ≥ T, asksOn 0 ((leaveRun prof .refused).run.at_ t).asks = as) ∧
    ∃ t c, ((leaveRun prof .refused).run.at_ t).conns[0]? = some c ∧ c.slot.isLive = false ∧
      c.raw.raw.sock.sent = [0, 2, 1, 1] ++ b!"HTTP/1.1 200 OK\r\n\r\nhi" ++ [2, 1] ++ b!"HTTP/1.1 400 Bad Request\r\n\r\n" ++ [3, 4] := by
  constructor
  · obtain ⟨T, as, out, h1, h2, h3⟩ := C85_tls_refused_partial (leaveRun prof .refused) (leave_fair prof .refused) (leave_crashed prof .refused) (leave_quiet prof .refused) (leave_steady prof .refused) (anyCut_ascii (by decide +kernel)) (leave_edge prof .refused)
      (ms := [aRequest]) (by simpa using aRequest_stays) (refused_line prof) (z := b!"and more") (by decide +kernel)
    exact ⟨T, as, out, h1, h2, fun t ht => (h3 t ht).1⟩
  · have h : (((leaveRun prof .refused).run.at_ 17).conns[0]?.any fun c => !c.slot.isLive && c.raw.raw.sock.sent == [0, 2, 1, 1] ++ b!"HTTP/1.1 200 OK\r\n\r\nhi" ++ [2, 1] ++ b!"HTTP/1.1 400 Bad Request\r\n\r\n" ++ [3, 4]) = true := by
      rcases prof with ⟨_ | _⟩ <;> decide +kernel
    obtain ⟨c, h1, h2⟩ := any_some h
    simp only [Bool.and_eq_true, beq_iff_eq, Bool.not_eq_true'] at h2
    exact ⟨17, c, h1, h2.1, h2.2⟩

end Verif
