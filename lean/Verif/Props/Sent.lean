import Verif.Proofs.Sent
import Verif.Props.NetAny

/-! C81: every request that a listener sees was sent on its connection, and no byte counts twice. -/

namespace Verif

section

variable {σ : Type} {prof : Profile} {rt : Router σ} {n : Nat} {s₀ : σ}

/-- C81: in every reachable state of the server, on every schedule, whatever arrives and however it is cut, also when a listener has panicked: the requests of a connection that listeners were asked about have texts that were sent on
this connection, in the order in which they were asked about, and no two of them share a byte. -/
theorem C81_made {s : Net σ} (h : Net.Reach prof rt n s₀ s) {k : Nat} {c : NConn σ} (hc : s.conns[k]? = some c) :
    MadeOf (bytesOf (c.arrived.flatMap Ev.atoms)) ((asksOn k s.asks).map Prod.fst) := by
  rw [← (C43_asks h).2 k c hc]
  exact h.made k c hc

theorem MadeOf.cost {sent : Bytes} {qs : List Request} (h : MadeOf sent qs) : (qs.map fun q => q.memory + 17).sum ≤ sent.length := by
  obtain ⟨ms, rfl, h2, h3, -⟩ := h
  refine Nat.le_trans ?_ h3.length_le
  clear h3
  induction ms with
  | nil => exact Nat.le_refl _
  | cons m ms ih =>
    have h4 := text_cost (h2 m (by simp))
    have h5 := ih fun m hm => h2 m (by simp [hm])
    simp only [List.map_cons, List.sum_cons, List.flatMap_cons, List.length_append]
    omega

/-- C81: all requests together that listeners were asked about on a connection hold no more bytes than were sent on it, and seventeen bytes less for each of them. -/
theorem C81_count {s : Net σ} (h : Net.Reach prof rt n s₀ s) {k : Nat} {c : NConn σ} (hc : s.conns[k]? = some c) :
    ((asksOn k s.asks).map fun a => a.1.memory + 17).sum ≤ received c.arrived := by
  have := (C81_made h hc).cost
  rw [List.map_map] at this
  exact this

end

section

variable {T σ : Type} [RawIO T] {prof : Profile} {rt : Router σ} {nw : Nat} {s₀ : σ}

theorem after_length {as : List (AAct T)} {s : ANet (Traced T) σ} (h : ANet.after prof rt nw s₀ as = some s) : s.conns.length = AAct.accepted as := by
  have hrun : ∀ (bs : List (AAct T)) (s₁ : ANet (Traced T) σ), s₁.run prof rt (bs.map AAct.traced) = some s → s.conns.length = s₁.conns.length + AAct.accepted bs := by
    intro bs
    induction bs with
    | nil =>
      intro s₁ h
      cases h
      rfl
    | cons b bs ih =>
      intro s₁ h
      simp only [List.map_cons, ANet.run] at h
      cases hb : s₁.step prof rt b.traced with
      | none => rw [hb] at h; cases h
      | some s₂ =>
        rw [hb] at h
        rw [ih s₂ h, ANet.step_length hb, AAct.accepted_traced, Nat.add_assoc, ← AAct.accepted_append]
        rfl
  obtain ⟨s₁, h1, h2⟩ := Option.bind_eq_some_iff.1 h
  rw [hrun as s₁ h2]
  unfold ANet.new at h1
  obtain ⟨p, -, rfl⟩ := Option.map_eq_some_iff.1 h1
  simp

/-- C81: the same over streams of any kind: the requests are made of what was read from the stream of the connection. -/
theorem C81_any (hT : RawIO.Honest T) (hR : RawIO.ReadsWithin T) {as : List (AAct T)} {s : ANet (Traced T) σ} (h : ANet.after prof rt nw s₀ as = some s) {k : Nat} {c : AConn (Traced T)} (hc : s.conns[k]? = some c) :
    MadeOf c.raw.got ((asksOn k s.asks).map Prod.fst) := by
  obtain ⟨s', h1, h2⟩ := C78_any hT hR h
  obtain ⟨n, h3, h4⟩ := h2.conns k c hc
  have h5 := C81_made h1 h3
  rw [h4.arrived, bytesOf_told, bytesOf_got, h2.asks] at h5
  exact h5

end

section

variable {σ : Type} {prof : Profile} {rt : Router σ} {nw : Nat} {s₀ : σ}

theorem MadeOf.more {sent sent' : Bytes} {qs : List Request} (h : MadeOf sent qs) (hp : sent <+: sent') : MadeOf sent' qs := by
  obtain ⟨ms, h1, h2, h3, h4⟩ := h
  exact ⟨ms, h1, h2, h3.trans hp.sublist, fun ha => (h4 fun b hb => ha b (hp.subset hb)).trans hp⟩

/-- C81: the same for a server started with `listen_https`: the requests are made of the plain text of the records that have arrived at the socket of the connection. -/
theorem C81_tls {hs : List HttpsAct} {s : ANet (Traced TlsStream) σ} (h : ANet.after prof rt nw s₀ (hs.map HttpsAct.act) = some s) {k : Nat} {cipher : Cipher} {input : List TlsEv}
    (hg : (HttpsAct.given hs)[k]? = some (cipher, input)) : MadeOf (TlsEv.plain input) ((asksOn k s.asks).map Prod.fst) := by
  cases hc : s.conns[k]? with
  | none =>
    have h1 := List.getElem?_eq_none_iff.1 hc
    have h2 := (List.getElem?_eq_some_iff.1 hg).1
    rw [given_length, ← after_length h] at h2
    omega
  | some c =>
    obtain ⟨ci, inp, h1, h2, -⟩ := C78_tls h hc
    rw [hg] at h1
    cases h1
    exact (C81_any tls_honest tls_within h hc).more h2

/-- C81: a client that does not speak TLS, and one that has sent nothing but a handshake, reaches no listener of a server started with `listen_https`. -/
theorem C81_not_tls {hs : List HttpsAct} {s : ANet (Traced TlsStream) σ} (h : ANet.after prof rt nw s₀ (hs.map HttpsAct.act) = some s) {k : Nat} {cipher : Cipher} {input : List TlsEv}
    (hg : (HttpsAct.given hs)[k]? = some (cipher, input)) (hp : TlsEv.plain input = []) : asksOn k s.asks = [] := by
  have := (C81_tls h hg).cost
  rw [hp] at this
  cases ha : asksOn k s.asks with
  | nil => rfl
  | cons a as =>
    rw [ha] at this
    simp only [List.map_cons, List.sum_cons, List.length_nil] at this
    omega

end

/-! ## Witnesses -/

/-- A client sends the text of a request. -/
def sends (w : Bytes) : List NAct := [.accept (fun n => n) (fun c n => c + n) (by omega) [], .arrive 0 (.data w),
  .poll [0], .dispatch false, .work 0, .work 0, .work 0, .work 0, .lock 0 [.accept 100], .go 0, .go 0, .go 0, .go 0, .go 0, .go 0, .work 0]

/-- The bound of `C81_count` is reached: a request whose text has seventeen bytes and that holds nothing. -/
example (prof : Profile) : ∃ s c, Net.Reach prof ([] : Router Unit) 1 () s ∧ s.conns[0]? = some c ∧ (asksOn 0 s.asks).length = 1 ∧ ((asksOn 0 s.asks).map fun a => a.1.memory + 17).sum = 17 ∧ received c.arrived = 17 := by
  have h1 : (Net.after prof ([] : Router Unit) 1 () (sends b!"GET  HTTP/1.1\r\n\r\n")).any (fun s => s.conns[0]?.any fun c => (asksOn 0 s.asks).length == 1 && ((asksOn 0 s.asks).map fun a => a.1.memory + 17).sum == 17 &&
      received c.arrived == 17) = true := by
    obtain ⟨_ | _⟩ := prof <;> decide +kernel
  cases hs : Net.after prof ([] : Router Unit) 1 () (sends b!"GET  HTTP/1.1\r\n\r\n") with
  | none => rw [hs] at h1; cases h1
  | some s =>
    rw [hs] at h1
    cases hc : s.conns[0]? with
    | none => simp [hc] at h1
    | some c =>
      simp only [Option.any_some, hc, Bool.and_eq_true, beq_iff_eq] at h1
      exact ⟨s, c, Net.reach_of hs, hc, h1.1.1, h1.1.2, h1.2⟩

/-- A client sends three pieces of a text, with pauses between them. -/
def sendsSlowly (u v w : Bytes) : List NAct := [.accept (fun n => n) (fun c n => c + n) (by omega) [], .arrive 0 (.data u), .poll [0], .dispatch false, .work 0, .work 0, .work 0, .work 0, .lock 0 [], .go 0, .go 0, .go 0, .work 0,
  .arrive 0 (.data v), .poll [0], .dispatch false, .work 0, .work 0, .work 0, .lock 0 [], .go 0, .go 0, .go 0, .work 0,
  .arrive 0 (.data w), .poll [0], .dispatch false, .work 0, .work 0, .work 0, .lock 0 [.accept 100], .go 0, .go 0, .go 0, .go 0, .go 0, .go 0, .work 0]

/-- It is false that the requests are made of all that was sent before the end of the last one: bytes that are not UTF-8 are left out at a pause. -/
theorem C81_prefix_false (prof : Profile) : ∃ (s : Net Unit) (c : NConn Unit), Net.Reach prof ([] : Router Unit) 1 () s ∧ s.conns[0]? = some c ∧ (asksOn 0 s.asks).map (fun a => a.1.uri) = [b!"/"] ∧
    bytesOf (c.arrived.flatMap Ev.atoms) = b!"GET " ++ [255] ++ b!"/ HTTP/1.1\r\n\r\n" ∧
    ¬ ∃ ms : List (Bytes × Request), ms.map Prod.snd = (asksOn 0 s.asks).map Prod.fst ∧ (∀ m ∈ ms, RequestText m.1 m.2) ∧ ms.flatMap Prod.fst <+: bytesOf (c.arrived.flatMap Ev.atoms) := by
  have h1 : (Net.after prof ([] : Router Unit) 1 () (sendsSlowly b!"GET " [255] b!"/ HTTP/1.1\r\n\r\n")).any (fun s => s.conns[0]?.any fun c => (asksOn 0 s.asks).map (fun a => a.1.uri) == [b!"/"] &&
      bytesOf (c.arrived.flatMap Ev.atoms) == b!"GET " ++ [255] ++ b!"/ HTTP/1.1\r\n\r\n") = true := by
    obtain ⟨_ | _⟩ := prof <;> decide +kernel
  cases hs : Net.after prof ([] : Router Unit) 1 () (sendsSlowly b!"GET " [255] b!"/ HTTP/1.1\r\n\r\n") with
  | none => rw [hs] at h1; cases h1
  | some s =>
    rw [hs] at h1
    cases hc : s.conns[0]? with
    | none => simp [hc] at h1
    | some c =>
      simp only [Option.any_some, hc, Bool.and_eq_true, beq_iff_eq] at h1
      refine ⟨s, c, Net.reach_of hs, hc, h1.1, h1.2, fun ⟨ms, g1, g2, g3⟩ => ?_⟩
      rw [h1.2] at g3
      have g4 : ms.map (fun m => m.2.uri) = [b!"/"] := by
        rw [← h1.1]
        have := congrArg (List.map Request.uri) g1
        rw [List.map_map, List.map_map] at this
        exact this
      obtain ⟨m, rfl⟩ := List.length_eq_one_iff.1 (show ms.length = 1 by simpa using congrArg List.length g4)
      obtain ⟨line, fs, f, bw, g5, g6, -⟩ := g2 m (by simp)
      obtain ⟨version, extra, -, -, -, g7⟩ := g5
      have g8 : m.2.uri = b!"/" := by simpa using g4
      have g9 : m.2.method.text ++ [SP] ++ b!"/" <+: m.1 := by
        rw [g6.wire, g7, g8]
        simp only [List.append_assoc]
        exact ⟨_, by simp only [List.append_assoc]; rfl⟩
      have g10 := g9.trans (List.IsPrefix.trans (by simp) g3)
      revert g10
      cases m.2.method <;> decide

/-- A client sends something else than TLS to a server started with `listen_https`. -/
def plainToTls : List HttpsAct := [.accept (fun n => n) (fun c n => c + n) (by omega) toyCipher [.accept 100, .accept 100, .accept 100] [], .arrive 0 [.bad], .poll [0], .dispatch false, .work 0, .work 0, .work 0, .work 0,
  .lock 0, .go 0 9, .go 0 9, .work 0]

/-- The hypotheses of `C81_tls` and `C81_not_tls` can be met: the server has read what the client sent, and has closed the connection. -/
example (prof : Profile) : ∃ (s : ANet (Traced TlsStream) Nat) (c : AConn (Traced TlsStream)), ANet.after prof counter 1 0 (plainToTls.map HttpsAct.act) = some s ∧ (HttpsAct.given plainToTls)[0]? = some (toyCipher, [.bad]) ∧
    TlsEv.plain [.bad] = [] ∧ s.conns[0]? = some c ∧ c.raw.raw.input = [] ∧ c.slot.isLive = false := by
  have h1 : (ANet.after prof counter 1 0 (plainToTls.map HttpsAct.act)).any (fun s => s.conns[0]?.any fun c => c.raw.raw.input == [] && !c.slot.isLive) = true := by
    obtain ⟨_ | _⟩ := prof <;> decide +kernel
  cases hs : ANet.after prof counter 1 0 (plainToTls.map HttpsAct.act) with
  | none => rw [hs] at h1; cases h1
  | some s =>
    rw [hs] at h1
    cases hc : s.conns[0]? with
    | none => simp [hc] at h1
    | some c =>
      simp only [Option.any_some, hc, Bool.and_eq_true, beq_iff_eq, Bool.not_eq_true'] at h1
      exact ⟨s, c, rfl, rfl, rfl, hc, h1.1, h1.2⟩

end Verif
