import Verif.Props.Endless
import Verif.Props.Sent
import Verif.Props.CutOff

/-!
C79 for the whole server: how much of a request that is not finished a server waits with.
-/

namespace Verif

section

variable {σ : Type} {prof : Profile} {rt : Router σ} {n : Nat} {s₀ : σ}

theorem RequestSt.awaited {single : Bool} {p : RequestParser} {w : Bytes} (h : RequestSt prof single p w) : Awaited prof w := by
  obtain ⟨ended, h⟩ : ∃ ended, MsgSt prof parseRequestLine false single ended p w := ⟨_, h⟩
  unfold Awaited slowBudget
  cases h with
  | firstLine hl => have := hl.short; exact .inl (by omega)
  | headers h1 h2 h3 h4 h5 =>
    have := h1.short
    refine .inr ⟨by simp [CRLF, LF], fun hp => .inl ?_⟩
    have := h5 hp
    simp only [List.length_append, CRLF, List.length_cons, List.length_nil]
    omega
  | @body l t hs fs f p c h1 h2 h3 h4 h5 h6 h7 h8 =>
    have h9 := h1.short
    have hb := head_blank l fs c
    refine .inr ⟨hb.lf, fun hp => .inr ⟨hb, ?_⟩⟩
    obtain ⟨h10, h11⟩ := h8 hp
    have hb := body_wire_le h6 (by omega)
    simp only [List.length_append, CRLF, List.length_cons, List.length_nil]
    omega
  | @finished l w bw t hs fs f body h1 h2 h3 h4 h5 h6 h7 =>
    have h9 := h2.lineOk.short
    rw [h2.wire]
    have hb := head_blank l fs bw
    refine .inr ⟨hb.lf, fun hp => .inr ⟨hb, ?_⟩⟩
    obtain ⟨h10, h11⟩ := h6 hp
    have hb := bodyText_wire_le h2.bodyOk (by omega) (fun n hn => by have := h7 n hn; omega)
    simp only [List.length_append, CRLF, List.length_cons, List.length_nil]
    omega

/-- C79 (partial: only ASCII characters come): in every reachable state of the server, on every schedule, however the text is cut, whatever the sockets, other clients and listeners do: if no handler uses an open connection and everything that has come was read, then all of it is the
texts of the requests that listeners were asked about and the beginning of another, of at most 512 bytes if it has no end of a line; with overflow checks of at most 9216 bytes as long as the header section has not ended, and of about 3 GB in any case. -/
theorem C79_idle_partial {s : Net σ} (h : Net.Reach prof rt n s₀ s) {k : Nat} {c : NConn σ} {conn : Conn Rd Nbw} (hc : s.conns[k]? = some c) (hs : c.slot = .live conn) (hl : c.lock = none)
    (hr : conn.reader.src.atoms = []) (ha : ∀ b ∈ bytesOf (c.arrived.flatMap Ev.atoms), b < 128) :
    AwaitedAfter prof ((asksOn k s.asks).map Prod.fst) (bytesOf (c.arrived.flatMap Ev.atoms)) := by
  obtain ⟨ms, single, w, h1, h2, h3, -, h5⟩ := ((h.kept traces_kept).2 k c conn hc hs).made
  rw [(C43_asks h).2 k c hc, Net.at_, hl] at h1
  refine ⟨ms, w, by simpa [Phase.unasked] using h1, h2, ?_, h3.awaited⟩
  have h6 := h5 ha
  rw [hr] at h6
  rw [← show sentOn c.arrived = bytesOf (c.arrived.flatMap Ev.atoms) from rfl, ← h6]
  simp [bytesOf]

/-- C79 (partial: only ASCII characters come; fewer handlers panic than there are workers): if operating system, event loop and workers go on, then from some time on a connection is closed for good, or whenever no handler uses it, all that the client has sent
is the texts of the requests that listeners were asked about and the beginning of another with which a server may wait. So a client that has sent more of a request is cut off, however slowly the text comes, and whatever the socket, other clients and listeners do. -/
theorem C79_eventually_partial (r : Net.Run prof rt n s₀) (hg : r.Going) (he : r.Ends) (hcr : ∀ t, (r.at_ t).pool.crashed.length < n) {k : Nat} (hk : ∃ t c, (r.at_ t).conns[k]? = some c)
    (ha : ∀ t c, (r.at_ t).conns[k]? = some c → ∀ b ∈ bytesOf (c.arrived.flatMap Ev.atoms), b < 128) :
    ∃ T, (∀ t ≥ T, (r.at_ t).Closed k) ∨ ∀ t ≥ T, ∃ c, (r.at_ t).conns[k]? = some c ∧
      (c.lock = none → AwaitedAfter prof ((asksOn k (r.at_ t).asks).map Prod.fst) (bytesOf (c.arrived.flatMap Ev.atoms))) := by
  by_cases hin : ∀ t c, (r.at_ t).conns[k]? = some c → c.inTable = true
  · obtain ⟨T, hT⟩ := r.settles hg he hcr hk hin
    by_cases hd : ∃ t ≥ T, ∃ c, (r.at_ t).conns[k]? = some c ∧ Net.isLive c.slot = false
    · obtain ⟨t, -, c, h1, h2⟩ := hd
      refine ⟨t, .inl fun t' ht => ?_⟩
      obtain ⟨⟨c', g1, g2⟩, -⟩ := r.shut ht h1 h2
      exact ⟨c', g1, .inl fun conn h => by rw [g2] at h; rw [h] at h2; simp [Net.isLive] at h2⟩
    · refine ⟨T, .inr fun t ht => ?_⟩
      obtain ⟨c, h1, h2⟩ := hT t ht
      refine ⟨c, h1, fun hl => ?_⟩
      cases hs : c.slot with
      | live conn => exact C79_idle_partial (r.reach t) h1 hs hl (h2 conn hs) (ha t c h1)
      | gone _ => exact absurd ⟨t, ht, c, h1, by rw [hs]; rfl⟩ hd
      | poisoned _ => exact absurd ⟨t, ht, c, h1, by rw [hs]; rfl⟩ hd
  · obtain ⟨t', c', h1, h2⟩ : ∃ t c, (r.at_ t).conns[k]? = some c ∧ c.inTable = false := by
      refine Classical.byContradiction fun h => hin fun t c hc => ?_
      cases hi : c.inTable with
      | true => rfl
      | false => exact absurd ⟨t, c, hc, hi⟩ h
    obtain ⟨T, hT⟩ := r.dropped (r.fair hg he) hcr h1 h2
    exact ⟨T, .inl hT⟩

/-- Text without the end of a line is waited with only up to 512 bytes, after no request. -/
theorem AwaitedAfter.line {qs : List Request} {sent : Bytes} (h : AwaitedAfter prof qs sent) (hl : LF ∉ sent) : sent.length ≤ 512 := by
  obtain ⟨ms, w, -, h2, rfl, h4⟩ := h
  cases ms with
  | nil =>
    rcases h4 with h4 | ⟨h4, -⟩
    · simpa using h4
    · exact absurd (by simpa using h4) hl
  | cons m ms => exact absurd (by have := (h2 m (by simp)).blank.lf; simp [this]) hl

/-- A client sends `blah` 130 times, in two pieces. -/
def moreBlahs : List Ev := [.data (again 100 b!"blah"), .data (again 30 b!"blah")]

theorem moreBlahs_batch : OneBatch prof false moreBlahs 3 := by
  obtain ⟨_ | _⟩ := prof <;> exact ⟨by decide +kernel, by decide +kernel, by decide +kernel, by decide +kernel, by decide +kernel, by decide +kernel⟩

/-- The conditions of `C79_eventually_partial` can be met, and then it says that the connection is closed. -/
example : ∃ T, ∀ t ≥ T, ((moreBlahs_batch (prof := prof)).run.at_ t).Closed 0 := by
  obtain ⟨t₀, c₀, h1, h2⟩ := (moreBlahs_batch (prof := prof)).arrived
  have hall : ∀ b ∈ bytesOf (moreBlahs.flatMap Ev.atoms), b < 128 ∧ b ≠ LF := by decide +kernel
  have hpre : ∀ t c, ((moreBlahs_batch (prof := prof)).run.at_ t).conns[0]? = some c → bytesOf (c.arrived.flatMap Ev.atoms) <+: bytesOf (moreBlahs.flatMap Ev.atoms) := by
    intro t c hc
    obtain ⟨z, hz⟩ := (((moreBlahs_batch (prof := prof)).facts t).2 0 c hc).2.1
    rw [← hz, List.flatMap_append, bytesOf_append]
    exact List.prefix_append _ _
  obtain ⟨T, hT | hT⟩ := C79_eventually_partial _ moreBlahs_batch.going (moreBlahs_batch (prof := prof)).ends (fun t => ((moreBlahs_batch (prof := prof)).facts t).1) ⟨t₀, c₀, h1⟩
    (fun t c hc b hb => (hall b ((hpre t c hc).subset hb)).1)
  · exact ⟨T, hT⟩
  · exfalso
    obtain ⟨c₁, h3, -⟩ := (moreBlahs_batch (prof := prof)).run.mono h1 (max t₀ T - t₀)
    rw [show t₀ + (max t₀ T - t₀) = max t₀ T by omega] at h3
    obtain ⟨t, h4, c, h5, h6⟩ := (moreBlahs_batch (prof := prof)).run.unused moreBlahs_batch.going (moreBlahs_batch (prof := prof)).ends h3
    obtain ⟨c', h7, h8⟩ := hT t (by omega)
    rw [h5] at h7; cases h7
    obtain ⟨c', h9, h10⟩ := (moreBlahs_batch (prof := prof)).run.arrivedPrefix (show t₀ ≤ t by omega) h1
    rw [h5] at h9; cases h9
    rw [h2] at h10
    have h11 := (h8 h6).line fun hm => (hall _ ((hpre t c h5).subset hm)).2 rfl
    have h12 : moreBlahs = c.arrived := h10.eq_of_length (Nat.le_antisymm h10.length_le (((moreBlahs_batch (prof := prof)).facts t).2 0 c h5).2.1.length_le)
    rw [← h12] at h11
    exact absurd h11 (by decide +kernel)

/-- What is said of a connection that stays open: one request was asked about, and the beginning of another is waited with. -/
example : ∃ s c conn, Net.Reach prof ([] : Router Unit) 1 () s ∧ s.conns[0]? = some c ∧ c.slot = .live conn ∧ c.lock = none ∧ conn.reader.src.atoms = [] ∧
    bytesOf (c.arrived.flatMap Ev.atoms) = b!"GET / HTTP/1.1\r\n\r\nGET" ∧ (asksOn 0 s.asks).length = 1 := by
  have h : (Net.after prof ([] : Router Unit) 1 () (oneBatch false [.data b!"GET / HTTP/1.1\r\n\r\nGET"] 6)).any (fun s => s.conns[0]?.any fun c => c.lock == none && (bytesOf (c.arrived.flatMap Ev.atoms) == b!"GET / HTTP/1.1\r\n\r\nGET") &&
      (asksOn 0 s.asks).length == 1 && match c.slot with
        | .live conn => conn.reader.src.atoms.isEmpty
        | _ => false) = true := by obtain ⟨_ | _⟩ := prof <;> decide +kernel
  cases hs : Net.after prof ([] : Router Unit) 1 () (oneBatch false [.data b!"GET / HTTP/1.1\r\n\r\nGET"] 6) with
  | none => rw [hs] at h; cases h
  | some s =>
    rw [hs, Option.any_some] at h
    cases hc : s.conns[0]? with
    | none => rw [hc] at h; cases h
    | some c =>
      rw [hc, Option.any_some, Bool.and_eq_true, Bool.and_eq_true, Bool.and_eq_true, beq_iff_eq, beq_iff_eq, beq_iff_eq] at h
      cases hl : c.slot with
      | live conn => rw [hl] at h; exact ⟨s, c, conn, Net.reach_of hs, hc, hl, h.1.1.1, List.isEmpty_iff.1 h.2, h.1.1.2, h.1.2⟩
      | _ => rw [hl] at h; cases h.2

end

section

variable {T σ : Type} [RawIO T] {prof : Profile} {rt : Router σ} {n : Nat} {s₀ : σ}

/-- C79 (partial: only ASCII characters come): the same over streams of any kind, of what was read from the stream. -/
theorem C79_any_partial (hT : RawIO.Honest T) (hR : RawIO.ReadsWithin T) {as : List (AAct T)} {s : ANet (Traced T) σ} (h : ANet.after prof rt n s₀ as = some s) {k : Nat} {c : AConn (Traced T)}
    {conn : SharedConn (ServerStack (Traced T))} (hc : s.conns[k]? = some c) (hl : c.lock = none) (hs : c.slot = .live conn) (ha : ∀ b ∈ c.raw.got, b < 128) :
    AwaitedAfter prof ((asksOn k s.asks).map Prod.fst) c.raw.got := by
  obtain ⟨-, s', h1, h2⟩ := any_reach (P := fun _ => True) hT hR keeps_true errsIn_any (fun a _ => by cases a <;> simp [AAct.Allowed]) h
  obtain ⟨m, h3, h4⟩ := h2.all.conns k c hc
  have h5 := h4.slot
  rw [hs] at h5
  generalize hn : m.slot = l at h5
  have e : bytesOf (m.arrived.flatMap Ev.atoms) = c.raw.got := by rw [h4.arrived, bytesOf_told, bytesOf_got]; rfl
  cases h5 with
  | live h6 =>
    have := C79_idle_partial h1 h3 hn (by rw [h4.lock, hl]) (by rw [h6.unread, (C78_waits hT hR h hc hl hs).1]; rfl) (by rw [e]; exact ha)
    rw [e, h2.asks] at this
    exact this

end

section

variable {σ : Type} {prof : Profile} {rt : Router σ} {n k : Nat} {s₀ : σ}

/-- C79 (partial: only ASCII characters come): the same for a server started with `listen_https`, of the plain text of the records that were read, when the session has nothing left to send. -/
theorem C79_tls_idle_partial {hs : List HttpsAct} {s : ANet (Traced TlsStream) σ} (h : ANet.after prof rt n s₀ (hs.map HttpsAct.act) = some s) {c : AConn (Traced TlsStream)} {conn : SharedConn (ServerStack (Traced TlsStream))}
    (hc : s.conns[k]? = some c) (hl : c.lock = none) (hsl : c.slot = .live conn) (ho : c.raw.raw.sess.out = []) {cipher : Cipher} {used : List TlsEv} (hg : (HttpsAct.given hs)[k]? = some (cipher, used ++ c.raw.raw.input))
    (ha : ∀ b ∈ TlsEv.plain used, b < 128) : AwaitedAfter prof ((asksOn k s.asks).map Prod.fst) (TlsEv.plain used) := by
  obtain ⟨c₁, u, g1, g2⟩ := (C78_tls_waits h hc hl hsl).2 ho
  rw [hg] at g1
  obtain ⟨rfl, g0⟩ := Prod.mk.inj (Option.some.inj g1)
  obtain rfl := List.append_cancel_right g0
  rw [← g2] at ha ⊢
  exact C79_any_partial tls_honest tls_within h hc hl hsl ha

/-- C79 (partial: only ASCII characters come; fewer handlers panic than there are workers; for clients that have sent all they will send, and sessions that have sent everything whenever no handler uses the connection): in every fair run of a server started with `listen_https`, if the
socket is reported as ready when all has arrived, then from some time on the connection is closed for good, or whenever no handler uses it, all that the client has sent is the texts of the requests that listeners were asked about and the beginning of another with which a server may
wait. -/
theorem C79_tls_eventually_partial (r : HttpsRun prof rt n s₀) (hf : r.run.Fair) (hcr : ∀ t, (r.run.at_ t).pool.crashed.length < n) {t : Nat} {cipher : Cipher} {input : List TlsEv} (hs : r.Quiet k t cipher input)
    (ha : ∀ b ∈ TlsEv.plain input, b < 128) (he : ∃ t' ≥ t, (r.run.at_ t').Edge k) :
    ∃ T, (∀ t ≥ T, (r.run.at_ t).Closed k) ∨ ∀ t ≥ T, ∃ c, (r.run.at_ t).conns[k]? = some c ∧
      (c.lock = none → AwaitedAfter prof ((asksOn k (r.run.at_ t).asks).map Prod.fst) (TlsEv.plain input)) := by
  obtain ⟨t', ht, he⟩ := he
  obtain ⟨T, hT, hidle⟩ := hs.idle hf hcr ht he
  obtain ⟨c₀, hc₀, -⟩ := he
  by_cases hin : ∀ t c, (r.run.at_ t).conns[k]? = some c → c.inTable = true
  · by_cases hd : ∃ t ≥ T, ∃ c, (r.run.at_ t).conns[k]? = some c ∧ c.slot.isLive = false
    · obtain ⟨t, -, c, h1, h2⟩ := hd
      exact ⟨t, .inl (r.run.shut h1 h2)⟩
    · refine ⟨T, .inr fun t ht => ?_⟩
      obtain ⟨c, h1, -⟩ := r.run.conns hc₀ (show t' ≤ t by omega)
      refine ⟨c, h1, fun hl => ?_⟩
      cases hsl : c.slot with
      | live conn =>
        obtain ⟨h2, h3⟩ := hidle t ht c conn h1 hl hsl (hin t c h1)
        exact C79_tls_idle_partial (r.after t) h1 hl hsl h3 (by rw [h2, List.append_nil]; exact hs.kept (by omega)) ha
      | gone _ => exact absurd ⟨t, ht, c, h1, by rw [hsl]; rfl⟩ hd
      | poisoned _ => exact absurd ⟨t, ht, c, h1, by rw [hsl]; rfl⟩ hd
  · obtain ⟨t', c', h1, h2⟩ : ∃ t c, (r.run.at_ t).conns[k]? = some c ∧ c.inTable = false := by
      refine Classical.byContradiction fun h => hin fun t c hc => ?_
      cases hi : c.inTable with
      | true => rfl
      | false => exact absurd ⟨t, c, hc, hi⟩ h
    obtain ⟨T, hT⟩ := r.run.dropped tls_honest tls_within hf hcr h1 h2
    exact ⟨T, .inl hT⟩

/-- The hypotheses of `C79_tls_eventually_partial` can be met: a client that sends a request and then something that is no request. -/
example (prof : Profile) : ∃ T, (∀ t ≥ T, ((leaveRun prof .refused).run.at_ t).Closed 0) ∨ ∀ t ≥ T, ∃ c, ((leaveRun prof .refused).run.at_ t).conns[0]? = some c ∧
    (c.lock = none → AwaitedAfter prof ((asksOn 0 ((leaveRun prof .refused).run.at_ t).asks).map Prod.fst) (leaveText .refused)) :=
  C79_tls_eventually_partial (leaveRun prof .refused) (leave_fair prof .refused) (leave_crashed prof .refused) (leave_quiet prof .refused) (by decide +kernel) (leave_edge prof .refused)

/-- Those of `C79_any_partial` and `C79_tls_idle_partial` too: one request was asked about, and the beginning of another is waited with. -/
example (prof : Profile) : ∃ (s : ANet (Traced TlsStream) Nat) (c : AConn (Traced TlsStream)) (conn : SharedConn (ServerStack (Traced TlsStream))) (used : List TlsEv), ANet.after prof counter 1 0 (oneSecret.map HttpsAct.act) = some s ∧
    s.conns[0]? = some c ∧ c.lock = none ∧ c.slot = .live conn ∧ c.raw.raw.sess.out = [] ∧ (HttpsAct.given oneSecret)[0]? = some (toyCipher, used ++ c.raw.raw.input) ∧ TlsEv.plain used = b!"GET /a HTTP/1.1\r\n\r\nGET" ∧
    c.raw.got = b!"GET /a HTTP/1.1\r\n\r\nGET" ∧ s.asks.length = 1 := by
  obtain ⟨s, h1, h2⟩ := Option.bind_eq_some_iff.1 (secret_run prof)
  obtain ⟨c, h3, h4⟩ := Option.map_eq_some_iff.1 h2
  simp only [SecretSight.mk.injEq] at h4
  obtain ⟨a1, -, a2, a3, a4, -, -, a5, -⟩ := h4
  have hl : c.lock = none := by simpa using a3
  cases hs : c.slot with
  | gone x => rw [hs] at a2; cases a2
  | poisoned x => rw [hs] at a2; cases a2
  | live conn =>
    obtain ⟨cipher, used, h6, h7⟩ := (C78_tls_waits h1 h3 hl hs).2 a5
    have hc : cipher = toyCipher := (Prod.mk.inj (Option.some.inj h6)).1.symm
    subst hc
    exact ⟨s, c, conn, used, h1, h3, hl, hs, a5, h6, h7.symm.trans a4, a4, by simpa using congrArg List.length a1⟩

end

end Verif
