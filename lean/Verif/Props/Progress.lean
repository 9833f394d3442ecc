import Verif.Proofs.NetSettle

/-!
C44 without the assumption that handlers return, and C62: every request is answered in the end.
-/

namespace Verif

variable {σ : Type} {prof : Profile} {rt : Router σ} {n N : Nat} {s₀ : σ}

/-- C44 (partial: fewer handlers panic than there are workers): if operating system, event loop and workers go on, and on no connection do things arrive without
end, then every handler returns. -/
theorem C44_returns_partial (r : Net.Run prof rt n s₀) (hg : r.Going) (he : r.Ends) (t w j : Nat) (hw : (r.at_ t).pool.workers[w]? = some (.running j)) :
    ∃ t' ≥ t, (r.at_ t').pool.workers[w]? ≠ some (.running j) := r.returns hg he t w j hw

/-- C44 (partial: fewer handlers panic than there are workers): if operating system, event loop and workers go on, and on no connection do things arrive without
end, then on every connection that the client does not close, from some time on everything that has arrived was read, or the server has closed it. -/
theorem C44_settles_partial (r : Net.Run prof rt n s₀) (hg : r.Going) (he : r.Ends) (hcr : ∀ t, (r.at_ t).pool.crashed.length < n) {k : Nat}
    (hin : ∀ t c, (r.at_ t).conns[k]? = some c → c.inTable = true) : ∃ T, ∀ t ≥ T, ¬ (r.at_ t).Waiting k := by
  by_cases hk : ∃ t c, (r.at_ t).conns[k]? = some c
  · obtain ⟨T, hT⟩ := r.settles hg he hcr hk hin
    refine ⟨T, fun t ht ⟨c, conn, h1, h2, h3⟩ => ?_⟩
    obtain ⟨c', h4, h5⟩ := hT t ht
    rw [h1] at h4; cases h4
    exact h3 (h5 conn h2)
  · exact ⟨0, fun t _ ⟨c, _, h, _⟩ => hk ⟨t, c, h⟩⟩

/-- C62: when nobody uses a connection on which whole requests have arrived, and everything was read, the router was asked about all of them, each once and in
order, and what was sent together with what is in the buffer is the answers. -/
theorem C62_idle_partial {s : Net σ} (h : Net.Reach prof rt n s₀ s) {k : Nat} {c : NConn σ} (hc : s.conns[k]? = some c) (hl : c.lock = none)
    {conn : Conn Rd Nbw} (hs : c.slot = .live conn) (ha : ¬ s.Waiting k) (hN : 28 ≤ N) (hrt : ∀ a ∈ asksOn k s.asks, ∀ r, rt.Says a r → r.PartsLe N)
    {ms : List (Bytes × Request)} (hms : ∀ m ∈ ms, FittingRequest m.1 m.2) (hb : Brings c.arrived (ms.flatMap Prod.fst))
    (hall : bytesOf (c.arrived.flatMap Ev.atoms) = ms.flatMap Prod.fst) (hw : ∀ evs ∈ c.wakes, Tidy N 4096 evs) :
    (asksOn k s.asks).map Prod.fst = ms.map Prod.snd ∧ AnsweredIn rt (asksOn k s.asks) (conn.writer.sock.sent ++ conn.writer.pending) :=
  idle_answered h hc hl hs (Classical.byContradiction fun h0 => ha ⟨c, conn, hc, hs, h0⟩) hN hrt hms hb hall hw

/-- C62: a client that sends requests and waits: from some time on the router was asked about all of them, each once and in order, and whenever no handler uses the
connection it is open, and what was sent together with what is in the buffer is the answers. -/
theorem C62_answered_partial (r : Net.Run prof rt n s₀) (hg : r.Going) (he : r.Ends) (hcr : ∀ t, (r.at_ t).pool.crashed.length < n) {k : Nat}
    {ms : List (Bytes × Request)} (hs : r.Sends N k ms) :
    ∃ T as out, as.map Prod.fst = ms.map Prod.snd ∧ AnsweredIn rt as out ∧ ∀ t ≥ T, asksOn k (r.at_ t).asks = as ∧ ∃ c, (r.at_ t).conns[k]? = some c ∧
      (c.lock = none → ∃ conn, c.slot = .live conn ∧ conn.writer.sock.sent ++ conn.writer.pending = out) := by
  obtain ⟨T, as, out, h1, h2, h3⟩ := r.answers hg he hcr hs
  refine ⟨T, as, out, h1, h2, fun t ht => ?_⟩
  obtain ⟨h4, c, h5, -, h6⟩ := h3 t ht
  refine ⟨h4, c, h5, fun hl => ?_⟩
  obtain ⟨⟨conn, h7⟩, h8⟩ := h6 hl
  exact ⟨conn, h7, by rw [h7] at h8; exact h8⟩

/-- C62: if besides the client goes on reading, so that the socket can take what the server has to send, then from some time on the server has sent exactly the answers
to the requests. -/
theorem C62_sent_partial (r : Net.Run prof rt n s₀) (hg : r.Going) (he : r.Ends) (hcr : ∀ t, (r.at_ t).pool.crashed.length < n) {k : Nat}
    {ms : List (Bytes × Request)} (hs : r.Sends N k ms) (htk : r.Takes k) :
    ∃ T as out, as.map Prod.fst = ms.map Prod.snd ∧ AnsweredIn rt as out ∧ ∀ t ≥ T, asksOn k (r.at_ t).asks = as ∧
      ∃ c, (r.at_ t).conns[k]? = some c ∧ c.slot.conn.writer.sock.sent = out := r.sends hg he hcr hs htk

/-! ## Witnesses -/

theorem Net.Run.ofList_going {s : Net σ} {as : List NAct} {hn : Net.new n s₀ = some s} {h : (s.runActs prof rt as).isSome = true}
    (hf : (Net.Run.ofList as hn h).Fair) (hend : (s.runActs prof rt as).all fun s => s.pool.workers == [.receiving]) : (Net.Run.ofList as hn h).Going := by
  have hfin : ∀ t ≥ as.length, ∀ w, ((Net.Run.ofList as hn h).at_ t).handled w = none := by
    intro t ht w
    obtain ⟨s', hs'⟩ := Option.isSome_iff_exists.1 h
    rw [hs'] at hend
    simp only [Option.all_some, beq_iff_eq] at hend
    have : (Net.Run.ofList as hn h).at_ t = s' := by
      show (s.runActs prof rt (as.take t)).getD s = s'
      rw [List.take_of_length_le ht, hs']; rfl
    rw [this]
    unfold Net.handled
    rw [hend]
    cases w <;> simp
  refine ⟨hf.polled, hf.dispatched, hf.workers, ?_, ?_⟩
  · intro t w hc
    refine absurd ?_ (hc (t + as.length) (by omega))
    simp only [Net.step, hfin (t + as.length) (by omega) w]
  · intro t w hc
    obtain ⟨t', h1, evs, h2⟩ := hc (t + as.length) (by omega)
    refine absurd ?_ h2
    simp only [Net.step, hfin t' (by omega) w]

/-- One worker serves one request; the socket is full at first. -/
def slowRequest : List NAct := [.accept (fun n => n) (fun c n => c + n) (by omega) [], .arrive 0 (.data aRequest.1),
  .poll [0], .dispatch false, .work 0, .work 0, .work 0, .work 0, .lock 0 [], .go 0, .go 0, .go 0, .go 0, .go 0, .go 0, .work 0,
  .notify 0, .poll [0], .dispatch false, .work 0, .work 0, .work 0, .lock 0 [.accept 100], .go 0, .go 0, .go 0, .work 0]

theorem slow_ok : ((((Net.new 1 ()).get rfl).runActs prof ([] : Router Unit) slowRequest)).isSome = true := by obtain ⟨_ | _⟩ := prof <;> decide +kernel

def slowRun (prof : Profile) : Net.Run prof ([] : Router Unit) 1 () := Net.Run.ofList (s := (Net.new 1 ()).get rfl) slowRequest rfl slow_ok

theorem slow_going : (slowRun prof).Going := by
  refine Net.Run.ofList_going (Net.Run.ofList_fair ?_ ?_) ?_
  · obtain ⟨_ | _⟩ := prof <;> decide +kernel
  · obtain ⟨_ | _⟩ := prof <;> decide +kernel
  · obtain ⟨_ | _⟩ := prof <;> decide +kernel

theorem slow_all {p : Net Unit → Bool} (hp : ∀ t ≤ slowRequest.length, ((((Net.new 1 ()).get rfl).runActs prof ([] : Router Unit) (slowRequest.take t))).all p) (t : Nat) :
    p ((slowRun prof).at_ t) = true := Net.Run.ofList_all hp t

/-- What holds of the connections at all times. -/
theorem slow_conns (t : Nat) {k : Nat} {c : NConn Unit} (hc : ((slowRun prof).at_ t).conns[k]? = some c) :
    k = 0 ∧ (c.arrived = [] ∨ c.arrived = [.data aRequest.1]) ∧ c.inTable = true ∧ (∀ evs ∈ c.wakes, evs = [] ∨ evs = [.accept 100]) ∧
      c.slot.conn.writer.pending.length ≤ 100 := by
  have := slow_all (prof := prof) (p := fun s => s.conns.length ≤ 1 && s.conns.all fun c => (c.arrived == [] || c.arrived == [.data aRequest.1]) && c.inTable &&
    (c.wakes.all fun evs => evs == [] || evs == [.accept 100]) && decide (c.slot.conn.writer.pending.length ≤ 100)) (by obtain ⟨_ | _⟩ := prof <;> decide +kernel) t
  simp only [Bool.and_eq_true, decide_eq_true_eq, List.all_eq_true, Bool.or_eq_true, beq_iff_eq] at this
  obtain ⟨h1, h2⟩ := this
  obtain ⟨⟨⟨h3, h4⟩, h5⟩, h6⟩ := h2 c (List.mem_of_getElem? hc)
  have := (List.getElem?_eq_some_iff.1 hc).1
  exact ⟨by omega, h3, h4, h5, h6⟩

theorem slow_ends : (slowRun prof).Ends := by
  intro k
  refine ⟨1, fun t c hc => ?_⟩
  rcases (slow_conns t hc).2.1 with h | h <;> simp [h]

theorem slow_alive (t : Nat) : ((slowRun prof).at_ t).pool.crashed.length < 1 := by
  have := slow_all (prof := prof) (p := fun s => s.pool.crashed.length == 0) (by obtain ⟨_ | _⟩ := prof <;> decide +kernel) t
  rw [beq_iff_eq] at this
  omega

theorem slow_sends : (slowRun prof).Sends 4096 0 [aRequest] where
  size := by decide
  requests m hm := by
    simp only [List.mem_cons, List.not_mem_nil, or_false] at hm
    subst hm
    exact ⟨aRequest_fits, by rintro ⟨vs, h, -⟩; cases h⟩
  text t c hc := by
    rcases (slow_conns t hc).2.1 with h | h
    · rw [h]; exact ⟨.safe (by simp), by simp [bytesOf]⟩
    · rw [h]
      refine ⟨?_, ?_⟩
      · refine .safe fun ev he => ?_
        simp only [List.mem_cons, List.not_mem_nil, or_false] at he
        exact ⟨_, he, by decide, safeCut_ascii (by decide +kernel)⟩
      · decide +kernel
  all := by
    have h : ((slowRun prof).at_ 2).conns[0]?.any (fun c => c.arrived == [.data aRequest.1]) = true := by obtain ⟨_ | _⟩ := prof <;> decide +kernel
    cases hc : ((slowRun prof).at_ 2).conns[0]? with
    | none => rw [hc] at h; cases h
    | some c =>
      rw [hc] at h
      simp only [Option.any_some, beq_iff_eq] at h
      exact ⟨2, c, hc, by rw [h]; decide +kernel⟩
  stays t c hc := (slow_conns t hc).2.2.1
  socket t c hc evs he := by
    rcases (slow_conns t hc).2.2.2.1 evs he with rfl | rfl
    · exact ⟨⟨by simp, .inr (Nat.le_refl _)⟩, by simp⟩
    · exact ⟨⟨by simp, .inr (Nat.le_refl _)⟩, by simp⟩
  flushes t c hc := by
    have h := slow_all (prof := prof) (p := fun s => s.conns.all fun c => c.first.writer.sock.flushes == []) (by obtain ⟨_ | _⟩ := prof <;> decide +kernel) t
    simp only [List.all_eq_true, beq_iff_eq] at h
    rw [h c (List.mem_of_getElem? hc)]
    exact fun _ => nofun
  listeners t a ha := by
    refine ⟨fun r hr => ?_, by simp [Router.result, Router.resultInternal]⟩
    rcases hr with hr | hr <;> simp [Router.result, Router.resultInternal] at hr

theorem slow_takes : (slowRun prof).Takes 0 := by
  intro t c hc hl hp
  have h : ∀ t ≤ slowRequest.length, (((Net.new 1 ()).get rfl).runActs prof ([] : Router Unit) (slowRequest.take t)).all fun s =>
      decide (t ≤ 22) || s.conns.all fun c => c.lock != none || c.slot.conn.writer.pending == [] := by obtain ⟨_ | _⟩ := prof <;> decide +kernel
  have ht : t ≤ 22 := by
    refine Classical.byContradiction fun hn => hp ?_
    obtain ⟨s', hs'⟩ : ∃ s', ((Net.new 1 ()).get rfl).runActs prof ([] : Router Unit) (slowRequest.take t) = some s' := by
      obtain ⟨s', h'⟩ := Option.isSome_iff_exists.1 (slow_ok (prof := prof))
      rw [← List.take_append_drop t slowRequest, Net.runActs_append] at h'
      obtain ⟨s'', h3, -⟩ := Option.bind_eq_some_iff.1 h'
      exact ⟨s'', h3⟩
    have h2 : (slowRun prof).at_ t = s' := by
      show (((Net.new 1 ()).get rfl).runActs prof ([] : Router Unit) (slowRequest.take t)).getD _ = s'
      rw [hs']; rfl
    rw [h2] at hc
    by_cases hlen : t ≤ slowRequest.length
    · have h3 := h t hlen
      rw [hs'] at h3
      simp only [Option.all_some, Bool.or_eq_true, decide_eq_true_eq, List.all_eq_true, beq_iff_eq, bne_iff_ne] at h3
      exact ((h3.resolve_left hn) c (List.mem_of_getElem? hc)).resolve_left (absurd hl)
    · have h3 := h slowRequest.length (Nat.le_refl _)
      rw [List.take_of_length_le (by omega)] at hs'
      rw [List.take_of_length_le (Nat.le_refl _), hs'] at h3
      simp only [Option.all_some, Bool.or_eq_true, decide_eq_true_eq, List.all_eq_true, beq_iff_eq, bne_iff_ne] at h3
      exact ((h3.resolve_left (by decide)) c (List.mem_of_getElem? hc)).resolve_left (absurd hl)
  have h22 : ((slowRun prof).at_ 22).handled 0 = some 0 := by obtain ⟨_ | _⟩ := prof <;> decide +kernel
  obtain ⟨c', hc', -⟩ := (slowRun prof).mono hc (22 - t)
  rw [show t + (22 - t) = 22 by omega] at hc'
  exact ⟨22, ht, 0, [.accept 100], c', rfl, h22, hc', (slow_conns 22 hc').2.2.2.2⟩

/-- The conditions of `C44_returns_partial`, `C44_settles_partial`, `C62_answered_partial` and `C62_sent_partial` can be met, by a run in which the socket is full when the answer is written
first, so that the answer goes out at a later event. -/
example : (slowRun prof).Going ∧ (slowRun prof).Ends ∧ (∀ t, ((slowRun prof).at_ t).pool.crashed.length < 1) ∧ (slowRun prof).Sends 4096 0 [aRequest] ∧
    (slowRun prof).Takes 0 ∧ (∃ t c, ((slowRun prof).at_ t).conns[0]? = some c ∧ c.lock = none ∧ c.slot.conn.writer.pending ≠ []) ∧
    ((slowRun prof).at_ 9).pool.workers[0]? = some (.running 0) := by
  refine ⟨slow_going, slow_ends, slow_alive, slow_sends, slow_takes, ?_, by obtain ⟨_ | _⟩ := prof <;> decide +kernel⟩
  have h : ((slowRun prof).at_ 16).conns[0]?.any (fun c => c.lock == none && !c.slot.conn.writer.pending.isEmpty) = true := by obtain ⟨_ | _⟩ := prof <;> decide +kernel
  cases hc : ((slowRun prof).at_ 16).conns[0]? with
  | none => rw [hc] at h; cases h
  | some c =>
    rw [hc] at h
    simp only [Option.any_some, Bool.and_eq_true, beq_iff_eq, Bool.not_eq_true', List.isEmpty_eq_false_iff] at h
    exact ⟨16, c, hc, h.1, h.2⟩

/-- The conditions of `C62_idle_partial` can be met. -/
example : ∃ (s : Net Unit) (c : NConn Unit) (conn : Conn Rd Nbw), Net.Reach prof [] 1 () s ∧ s.conns[0]? = some c ∧ c.lock = none ∧ c.slot = .live conn ∧ ¬ s.Waiting 0 ∧
    (∀ a ∈ asksOn 0 s.asks, ∀ r, Router.Says ([] : Router Unit) a r → r.PartsLe 4096) ∧ Brings c.arrived ([aRequest].flatMap Prod.fst) ∧
    bytesOf (c.arrived.flatMap Ev.atoms) = [aRequest].flatMap Prod.fst ∧ (∀ evs ∈ c.wakes, Tidy 4096 4096 evs) ∧ (asksOn 0 s.asks).length = 1 := by
  have h : ((slowRun prof).at_ 16).conns[0]?.any (fun c => c.lock == none && (c.slot matches .live _) && c.slot.conn.reader.src.atoms.isEmpty && c.arrived == [.data aRequest.1]) = true ∧
      (asksOn 0 ((slowRun prof).at_ 16).asks).length = 1 := by
    obtain ⟨_ | _⟩ := prof <;> decide +kernel
  cases hc : ((slowRun prof).at_ 16).conns[0]? with
  | none => rw [hc] at h; cases h.1
  | some c =>
    rw [hc] at h
    simp only [Option.any_some, Bool.and_eq_true, beq_iff_eq, List.isEmpty_iff] at h
    obtain ⟨⟨⟨⟨h1, h2⟩, h3⟩, h4⟩, h5⟩ := h
    cases hs : c.slot with
    | live conn =>
      refine ⟨_, c, conn, (slowRun prof).reach 16, hc, h1, hs, ?_, ?_, slow_sends.text 16 c hc, by rw [h4]; decide +kernel, fun evs he => (slow_sends.socket 16 c hc evs he).1, h5⟩
      · rintro ⟨c', conn', g1, g2, g3⟩
        rw [hc] at g1; cases g1
        rw [hs] at g2; cases g2
        rw [hs] at h3
        exact g3 h3
      · exact fun a ha => (slow_sends.listeners 16 a ha).1
    | _ => rw [hs] at h2; cases h2

/-- What is said of this run: in the end the answer was sent. -/
theorem slow_sent : ∃ T, ∀ t ≥ T, ∃ c, ((slowRun prof).at_ t).conns[0]? = some c ∧ c.slot.conn.writer.sock.sent = b!"HTTP/1.1 404 Not Found\r\n\r\n" := by
  obtain ⟨T, as, out, h1, h2, h3⟩ := C62_sent_partial (slowRun prof) slow_going slow_ends slow_alive slow_sends slow_takes
  refine ⟨T, fun t ht => ?_⟩
  obtain ⟨-, c, h4, h5⟩ := h3 t ht
  refine ⟨c, h4, ?_⟩
  rw [h5]
  match as, h1 with
  | [(q, u)], h1 =>
    cases h2 with
    | panic h => simp [Router.result, Router.resultInternal] at h
    | cons h h' =>
      cases h'
      simp only [Router.result, Router.resultInternal, Option.some.injEq] at h
      subst h
      decide +kernel

end Verif
