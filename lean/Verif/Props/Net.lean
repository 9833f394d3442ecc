import Verif.Proofs.NetSerial
import Verif.Proofs.NetBlame
import Verif.Props.Limits

/-!
C43 and C44: connections, events, workers and handlers together, on every schedule.
-/

namespace Verif

variable {σ : Type} {prof : Profile} {rt : Router σ} {n : Nat} {s₀ : σ}

/-! ## C43 -/

/-- C43: at most one worker uses a connection at a time. -/
theorem C43_exclusive {s : Net σ} (h : Net.Reach prof rt n s₀ s) {w w' k : Nat} (hw : s.Uses w k) (hw' : s.Uses w' k) : w = w' := by
  obtain ⟨j, a, h1, h2⟩ := handled_iff.1 hw.1
  have hk := h.inv.base.conns j k a h2
  have h3 := (h.inv.base.lock k w _ (List.getElem?_eq_getElem hk)).2 hw
  have h4 := (h.inv.base.lock k w' _ (List.getElem?_eq_getElem hk)).2 hw'
  rw [h3] at h4
  cases h4
  rfl

theorem Net.Reach.serial {s : Net σ} (h : Net.Reach prof rt n s₀ s) : s.SerialAll prof rt := by
  induction h with
  | new h =>
    unfold Net.new at h
    simp only [Option.map_eq_some_iff] at h
    obtain ⟨p, h1, rfl⟩ := h
    exact ⟨by simp, by simp, by simp⟩
  | step h hs ih => exact serial_step h.inv.base h.inv.told ih (step_nstep hs)

/-- C43: the listeners' state is what the router makes of it, asked about the requests of all connections one after the other in
some order; the requests of a connection are asked about in the states recorded for it. -/
theorem C43_asks {s : Net σ} (h : Net.Reach prof rt n s₀ s) :
    Asked rt s₀ s.asks s.state ∧ ∀ (k : Nat) c, s.conns[k]? = some c → c.seen = asksOn k s.asks := by
  refine ⟨?_, h.serial.seen⟩
  induction h with
  | new h =>
    unfold Net.new at h
    simp only [Option.map_eq_some_iff] at h
    obtain ⟨p, h1, rfl⟩ := h
    exact .nil
  | step h hs ih =>
    cases step_nstep hs with
    | go _ _ _ ha =>
      cases ha with
      | ask => exact ih.snoc
      | crashAsk => exact ih.snoc
      | _ => exact ih
    | _ => exact ih

/-- `C43_serial` of every state in which what it rests on holds. -/
theorem Net.SerialAll.runs {s : Net σ} (h : s.SerialAll prof rt) {k : Nat} {c : NConn σ} (hc : s.conns[k]? = some c) (hl : c.lock = none) :
    ∃ evs : List Ev, evs.filter (· ≠ .err .wouldBlock) = c.arrived ∧ ∀ D, Router.Follows D rt c.seen → ∀ fut, ∃ slot,
      handleAll prof D c.wakes (.live (c.first.receiving evs)) (c.seen ++ fut) = (slot, fut) ∧ slot.Same c.slot := by
  have h1 := h.conn k c hc
  unfold Net.at_ at h1
  rw [hl] at h1
  obtain ⟨-, h0, evs, h2, h3⟩ := h1
  refine ⟨evs, h2, fun D hD fut => ?_⟩
  have h4 := h3 D hD [] fut
  have h5 : Slot.live (c.first.at (evs.flatMap Ev.atoms ++ [])) = (Slot.live (c.first.receiving evs)).at [] := by
    simp only [Src.atoms, List.append_eq_nil_iff] at h0
    simp only [Slot.at, Conn.at, Conn.receiving, Src.atoms, h0.1, h0.2, List.nil_append, List.append_nil]
  have h6 : ∀ x : Slot AR Nbw, Net.rest prof D none x fut = (x, fut) := fun x => by cases x <;> rfl
  rw [h5, handleAll_at_nil, Option.map_none, h6] at h4
  refine ⟨_, Prod.ext rfl (show _ = fut from (Prod.mk.inj h4).2), same_of_at (Prod.mk.inj h4).1⟩

/-- C43: on a connection that no worker is using, the result of the handlers that ran is that of the same handlers run
one after the other, each without interruption, where the input is what arrived, with pauses in between: the same
bytes were sent or are kept for sending, the parser is the same, and it is open, closed or poisoned alike. The router
is asked the same requests in the same order, in the listeners' states it was asked in (`C43_asks`), and nothing else: its answers to other
questions (`D`) do not matter, and it is asked no more often, as `fut` is still to be asked about in the end. -/
theorem C43_serial {s : Net σ} (h : Net.Reach prof rt n s₀ s) {k : Nat} {c : NConn σ} (hc : s.conns[k]? = some c) (hl : c.lock = none) :
    ∃ evs : List Ev, evs.filter (· ≠ .err .wouldBlock) = c.arrived ∧ ∀ D, Router.Follows D rt c.seen → ∀ fut, ∃ slot,
      handleAll prof D c.wakes (.live (c.first.receiving evs)) (c.seen ++ fut) = (slot, fut) ∧ slot.Same c.slot :=
  h.serial.runs hc hl

theorem during_nil (rt : Router σ) (q : Request) : rt.during.result q [] = (none, []) := by
  unfold Router.during Router.result
  simp only [Router.resultInternal, show startsWith q.uri [] = true by cases q.uri <;> rfl, if_true]

theorem during_other (rt : Router σ) {q q' : Request} (h : q' ≠ q) (s : σ) (ss : List (Request × σ)) :
    rt.during.result q ((q', s) :: ss) = (none, []) := by
  unfold Router.during Router.result
  simp only [Router.resultInternal, show startsWith q.uri [] = true by cases q.uri <;> rfl, if_true, if_neg h]

theorem loop_none {R W : Type} [Reader R] [Write W] {τ : Type} {D : Router (List τ)} (hD : ∀ q, D.result q [] = (none, [])) (f : Nat) (c : Conn R W) : (respondLoop prof D f c []).2.2 = [] := by
  cases f with
  | zero => rfl
  | succ f =>
    cases hx : c.readRequest prof with
    | mk x c' =>
    cases x with
    | ready q => rw [respondLoop_ready hx, wrfr, hD]; rfl
    | error e =>
      rw [respondLoop, hx]
      dsimp only
      split <;> rfl
    | _ => rw [respondLoop, hx]

theorem handle_none {R : Type} [Reader R] {τ : Type} {D : Router (List τ)} (hD : ∀ q, D.result q [] = (none, [])) (x : Slot R Nbw) : (handle prof D x []).2.2 = [] := by
  cases x with
  | live c =>
    simp only [handle]
    generalize Write.flush c.writer = y
    obtain ⟨y, w⟩ := y
    cases y with
    | error e => rfl
    | ok u =>
      dsimp only
      have := loop_none (prof := prof) hD (Reader.fuel c.reader) { c with writer := w }
      unfold respondToRequests
      dsimp only
      revert this
      generalize respondLoop prof D (Reader.fuel c.reader) { c with writer := w } [] = z
      obtain ⟨e, c', s'⟩ := z
      intro hz
      cases e <;> exact hz
  | _ => rfl

theorem handleAll_none {R : Type} [Reader R] {τ : Type} {D : Router (List τ)} (hD : ∀ q, D.result q [] = (none, [])) (es : List (List WEv)) (x : Slot R Nbw) : (handleAll prof D es x []).2 = [] := by
  induction es generalizing x with
  | nil => rfl
  | cons e es ih =>
    simp only [handleAll]
    rw [handle_none hD]
    exact ih _

theorem loop_pure {R W : Type} [Reader R] [Write W] (hp : rt.Pure) (s : σ) (f : Nat) (c : Conn R W) (ss : List (Request × σ))
    (h : (respondLoop prof rt.during f c ss).2.2 ≠ []) :
    (respondLoop prof rt f c s).1 = (respondLoop prof rt.during f c ss).1 ∧
      (respondLoop prof rt f c s).2.1 = (respondLoop prof rt.during f c ss).2.1 := by
  induction f generalizing c ss s with
  | zero => exact ⟨rfl, rfl⟩
  | succ f ih =>
    cases hx : c.readRequest prof with
    | mk x c' =>
    cases x with
    | ready q =>
      rw [respondLoop_ready hx] at h ⊢
      rw [respondLoop_ready hx]
      cases ss with
      | nil => rw [wrfr, during_nil] at h; exact absurd rfl h
      | cons s₁ ss =>
        obtain ⟨q', s₁⟩ := s₁
        by_cases hq : q' = q
        case neg => rw [wrfr, during_other rt hq] at h; exact absurd rfl h
        subst hq
        rw [wrfr, during_result rt [(q', s₁)] _ _ _ (by simp), hp q' s₁ s] at h
        rw [wrfr, wrfr rt.during, during_result rt [(q', s₁)] _ _ _ (by simp), hp q' s₁ s]
        generalize rt.result q' s = z at h
        obtain ⟨a, s₂⟩ := z
        cases a with
        | none => exact ⟨rfl, rfl⟩
        | some a =>
          dsimp only at h ⊢
          generalize writeAnswer c'.writer a = y at h
          obtain ⟨y, w⟩ := y
          cases y with
          | ok =>
            simp only [loopTail] at h ⊢
            split
            · exact ⟨rfl, rfl⟩
            · next hc => rw [if_neg hc] at h; exact ih _ _ _ h
          | _ => exact ⟨rfl, rfl⟩
    | error e =>
      rw [respondLoop, respondLoop, hx]
      dsimp only
      split <;> exact ⟨rfl, rfl⟩
    | _ => rw [respondLoop, respondLoop, hx]; exact ⟨rfl, rfl⟩

theorem handle_pure {R : Type} [Reader R] (hp : rt.Pure) (s : σ) (x : Slot R Nbw) (ss : List (Request × σ)) (h : (handle prof rt.during x ss).2.2 ≠ []) :
    (handle prof rt x s).2.1 = (handle prof rt.during x ss).2.1 := by
  cases x with
  | live c =>
    simp only [handle] at h ⊢
    generalize Write.flush c.writer = y at h
    obtain ⟨y, w⟩ := y
    cases y with
    | error e => rfl
    | ok u =>
      dsimp only at h ⊢
      have := loop_pure (prof := prof) hp s (Reader.fuel c.reader) { c with writer := w } ss
      unfold respondToRequests at h ⊢
      dsimp only at h ⊢
      revert this h
      generalize respondLoop prof rt.during (Reader.fuel c.reader) { c with writer := w } ss = z
      generalize respondLoop prof rt (Reader.fuel c.reader) { c with writer := w } s = z'
      obtain ⟨e, c', s'⟩ := z
      obtain ⟨e', c'', s''⟩ := z'
      intro h hz
      have h1 : s' ≠ [] := by
        intro h0
        subst h0
        apply h
        cases e <;> rfl
      obtain ⟨h2, h3⟩ := hz h1
      dsimp only at h2 h3
      subst h2 h3
      cases e' <;> rfl
  | _ => rfl

theorem handleAll_pure {R : Type} [Reader R] (hp : rt.Pure) (s : σ) (es : List (List WEv)) (x : Slot R Nbw) (ss : List (Request × σ))
    (h : (handleAll prof rt.during es x ss).2 ≠ []) : (handleAll prof rt es x s).1 = (handleAll prof rt.during es x ss).1 := by
  induction es generalizing x ss s with
  | nil => rfl
  | cons e es ih =>
    simp only [handleAll] at h ⊢
    have h1 : (handle prof rt.during (x.wake e) ss).2.2 ≠ [] := by
      intro h0
      rw [h0] at h
      exact h (handleAll_none (during_nil rt) es _)
    have h2 := handle_pure hp s (x.wake e) ss h1
    rw [h2]
    exact ih _ _ _ h

/-- C43: where answers do not depend on what was asked before, the result on a connection is that of its handlers run one after the
other alone: other connections do not matter at all. -/
theorem C43_serial_pure {s : Net σ} (h : Net.Reach prof rt n s₀ s) (hp : rt.Pure) {k : Nat} {c : NConn σ} (hc : s.conns[k]? = some c)
    (hl : c.lock = none) : ∃ evs : List Ev, evs.filter (· ≠ .err .wouldBlock) = c.arrived ∧
      ∀ s, (handleAll prof rt c.wakes (.live (c.first.receiving evs)) s).1.Same c.slot := by
  obtain ⟨evs, h1, h2⟩ := C43_serial h hc hl
  refine ⟨evs, h1, fun s => ?_⟩
  obtain ⟨slot, h3, h4⟩ := h2 _ (during_result rt _) [(⟨[], .get, [], []⟩, s)]
  rw [handleAll_pure hp s _ _ (c.seen ++ _) (by rw [h3]; simp), h3]
  exact h4

/-! ## C44 -/

/-- C44: unless as many handlers have panicked as there are workers: when something waits on an open connection, the connection is on the
list of ready sockets, or among the events that `poll` returned, or a handler for it is queued, or a worker has received
one that has not yet come to the end of the input. -/
theorem C44_no_lost_wakeup_partial {s : Net σ} (h : Net.Reach prof rt n s₀ s) (hc : s.pool.crashed.length < n) {k : Nat} (ho : s.Open k) (hw : s.Waiting k) :
    s.Edge k ∨ k ∈ s.batch ∨ (∃ j a : Nat, s.jobs[j]? = some (k, a) ∧ .job j ∈ s.pool.queue) ∨ ∃ w, s.WillRead w k :=
  h.inv.will_read hc ho hw

/-- C44: if operating system, event loop and workers go on, every handler returns, and fewer handlers panic than there are workers,
then on every connection all that has arrived at some time is read at some time later, or the connection is closed. -/
theorem C44_eventually_partial (r : Net.Run prof rt n s₀) (hf : r.Fair) (hc : ∀ t, (r.at_ t).pool.crashed.length < n) (k t : Nat) :
    ∃ t' ≥ t, ¬ (r.at_ t').Open k ∨ ¬ (r.at_ t').Waiting k := r.quiet hf hc k t

/-! ## Witnesses -/

/-- A number of steps. -/
def Net.runActs (prof : Profile) (rt : Router σ) (s : Net σ) : List NAct → Option (Net σ)
  | [] => some s
  | a :: as => (s.step prof rt a).bind fun s => Net.runActs prof rt s as

theorem Net.runActs_append (s : Net σ) (as bs : List NAct) :
    s.runActs prof rt (as ++ bs) = (s.runActs prof rt as).bind fun s => s.runActs prof rt bs := by
  induction as generalizing s with
  | nil => rfl
  | cons a as ih =>
    simp only [List.cons_append, Net.runActs]
    cases s.step prof rt a with
    | none => rfl
    | some s' => exact ih s'

/-- The state after a number of steps from the beginning. -/
def Net.after (prof : Profile) (rt : Router σ) (n : Nat) (s₀ : σ) (as : List NAct) : Option (Net σ) :=
  (Net.new n s₀).bind fun s => s.runActs prof rt as

theorem Net.reach_of {as : List NAct} {s : Net σ} (h : Net.after prof rt n s₀ as = some s) : Net.Reach prof rt n s₀ s := by
  unfold Net.after at h
  obtain ⟨s1, h1, h2⟩ := Option.bind_eq_some_iff.1 h
  have : ∀ (as : List NAct) (s1 s : Net σ), Net.Reach prof rt n s₀ s1 → s1.runActs prof rt as = some s → Net.Reach prof rt n s₀ s := by
    intro as
    induction as with
    | nil => intro s1 s hr h; cases h; exact hr
    | cons a as ih =>
      intro s1 s hr h
      obtain ⟨s2, h3, h4⟩ := Option.bind_eq_some_iff.1 h
      exact ih s2 s (hr.step h3) h4
  exact this as s1 s (.new h1) h2

/-- A client connects and sends a request; the event loop submits two handlers; both workers take one, and the first gets the mutex. -/
def twoHandlers : List NAct := [.accept (fun n => n) (fun c n => c + n) (by omega) [], .arrive 0 (.data b!"GET / HTTP/1.1\r\n\r\n"),
  .poll [0], .dispatch false, .notify 0, .poll [0], .dispatch false, .work 0, .work 0, .work 0, .work 1, .work 1, .work 1, .work 0, .work 1,
  .lock 0 [], .go 0]

def Net.openB (s : Net σ) (k : Nat) : Bool := (s.conns[k]?).any fun c => c.inTable && Net.isLive c.slot
def Net.waitingB (s : Net σ) (k : Nat) : Bool := (s.conns[k]?).any fun c => match c.slot with
  | .live conn => !conn.reader.src.atoms.isEmpty
  | _ => false
def Net.edgeB (s : Net σ) (k : Nat) : Bool := (s.conns[k]?).any fun c => c.edge
def Net.freeB (s : Net σ) (k : Nat) : Bool := (s.conns[k]?).any fun c => c.lock.isNone

theorem Net.open_iff {s : Net σ} {k : Nat} : s.openB k = true ↔ s.Open k := by
  unfold Net.openB Net.Open
  cases s.conns[k]? <;> simp

theorem Net.waiting_iff {s : Net σ} {k : Nat} : s.waitingB k = true ↔ s.Waiting k := by
  unfold Net.waitingB Net.Waiting
  cases s.conns[k]? with
  | none => simp
  | some c =>
    simp only [Option.any_some, Option.some.injEq, exists_and_left, exists_eq_left']
    cases c.slot <;> simp

theorem Net.edge_iff {s : Net σ} {k : Nat} : s.edgeB k = true ↔ s.Edge k := by
  unfold Net.edgeB Net.Edge
  cases s.conns[k]? <;> simp

/-- The conditions of `C43_exclusive` and of `C44_no_lost_wakeup_partial` can be met: a worker uses a connection while
another worker is in a handler for it, and something waits there. -/
example : ∃ s, Net.Reach prof ([] : Router Unit) 2 () s ∧ s.Uses 0 0 ∧ s.handled 1 = some 0 ∧ s.pool.crashed.length < 2 ∧ s.Open 0 ∧ s.Waiting 0 := by
  have h : (Net.after prof ([] : Router Unit) 2 () twoHandlers).isSome = true := by obtain ⟨_ | _⟩ := prof <;> decide +kernel
  obtain ⟨s, hs⟩ := Option.isSome_iff_exists.1 h
  have h1 : (Net.after prof ([] : Router Unit) 2 () twoHandlers).any (fun s => s.handled 0 == some 0 && s.handled 1 == some 0 &&
      s.phase 0 == .reading && s.pool.crashed.length == 0 && s.openB 0 && s.waitingB 0) = true := by obtain ⟨_ | _⟩ := prof <;> decide +kernel
  rw [hs] at h1
  simp only [Option.any_some, Bool.and_eq_true, beq_iff_eq] at h1
  obtain ⟨⟨⟨⟨⟨h2, h3⟩, h4⟩, h5⟩, h6⟩, h7⟩ := h1
  exact ⟨s, Net.reach_of hs, ⟨h2, by rw [h4]; simp⟩, h3, by omega, Net.open_iff.1 h6, Net.waiting_iff.1 h7⟩

/-- One worker serves one request of one client. -/
def oneRequest : List NAct := [.accept (fun n => n) (fun c n => c + n) (by omega) [], .arrive 0 (.data b!"GET / HTTP/1.1\r\n\r\n"),
  .poll [0], .dispatch false, .work 0, .work 0, .work 0, .work 0, .lock 0 [.accept 100], .go 0, .go 0, .go 0, .go 0, .go 0, .go 0, .work 0]

/-- The conditions of `C43_asks`, `C43_serial` and `C43_serial_pure` can be met after a request was answered. -/
example : Router.Pure ([] : Router Unit) ∧ ∃ s, Net.Reach prof ([] : Router Unit) 1 () s ∧ s.asks.length = 1 ∧ ∃ c, s.conns[0]? = some c ∧ c.lock = none ∧
    c.wakes = [[.accept 100]] ∧ c.slot.conn.writer.sock.sent = b!"HTTP/1.1 404 Not Found\r\n\r\n" := by
  refine ⟨fun _ _ _ => rfl, ?_⟩
  have h : (Net.after prof ([] : Router Unit) 1 () oneRequest).isSome = true := by obtain ⟨_ | _⟩ := prof <;> decide +kernel
  obtain ⟨s, hs⟩ := Option.isSome_iff_exists.1 h
  have h1 : (Net.after prof ([] : Router Unit) 1 () oneRequest).any (fun s => s.asks.length == 1 && s.conns[0]?.any fun c => c.lock == none &&
      c.wakes == [[.accept 100]] && c.slot.conn.writer.sock.sent == b!"HTTP/1.1 404 Not Found\r\n\r\n") = true := by
    obtain ⟨_ | _⟩ := prof <;> decide +kernel
  rw [hs] at h1
  simp only [Option.any_some, Bool.and_eq_true, beq_iff_eq] at h1
  obtain ⟨h2, h3⟩ := h1
  cases hc : s.conns[0]? with
  | none => rw [hc] at h3; cases h3
  | some c =>
    rw [hc] at h3
    simp only [Option.any_some, Bool.and_eq_true, beq_iff_eq] at h3
    exact ⟨s, Net.reach_of hs, h2, c, hc, h3.1.1, h3.1.2, h3.2⟩

/-- A run that stops. -/
def Net.Run.ofList {s : Net σ} (as : List NAct) (hn : Net.new n s₀ = some s) (h : (s.runActs prof rt as).isSome = true) : Net.Run prof rt n s₀ where
  at_ t := (s.runActs prof rt (as.take t)).getD s
  act t := as[t]?
  start := by simp [hn, Net.runActs]
  next t := by
    cases ha : as[t]? with
    | none =>
      have := List.getElem?_eq_none_iff.1 ha
      simp only
      rw [List.take_of_length_le this, List.take_of_length_le (by omega)]
    | some a =>
      have hlt := (List.getElem?_eq_some_iff.1 ha).1
      have h1 : as.take (t + 1) = as.take t ++ [a] := by
        rw [List.take_add_one, ha]; rfl
      have h2 : (s.runActs prof rt (as.take (t + 1))).isSome = true := by
        obtain ⟨s', h'⟩ := Option.isSome_iff_exists.1 h
        rw [← List.take_append_drop (t + 1) as, Net.runActs_append] at h'
        obtain ⟨s'', h3, -⟩ := Option.bind_eq_some_iff.1 h'
        rw [h3]; rfl
      obtain ⟨s2, h3⟩ := Option.isSome_iff_exists.1 h2
      simp only [h3, Option.getD_some]
      rw [h1, Net.runActs_append] at h3
      obtain ⟨s1, h4, h5⟩ := Option.bind_eq_some_iff.1 h3
      rw [h4]
      simp only [Net.runActs, Option.bind_eq_some_iff] at h5
      obtain ⟨s3, h6, h7⟩ := h5
      cases h7
      exact h6

def NAct.polls (k : Nat) : NAct → Bool
  | .poll ks => ks.contains k
  | _ => false

def NAct.dispatches : NAct → Bool
  | .dispatch _ => true
  | _ => false

theorem Net.Run.ofList_fair {s : Net σ} {as : List NAct} {hn : Net.new n s₀ = some s} {h : (s.runActs prof rt as).isSome = true}
    (hlen : ∀ t ≤ as.length, (s.runActs prof rt (as.take t)).all fun s => s.conns.length ≤ 1 && (!s.edgeB 0 || (as.drop t).any (NAct.polls 0)) &&
      (s.batch.isEmpty || (as.drop t).any NAct.dispatches))
    (hend : (s.runActs prof rt as).all fun s => s.pool.workers.length ≤ 1 && s.pool.workers[0]? == some .receiving && s.pool.queue.isEmpty && s.pool.owner == .using) :
    (Net.Run.ofList as hn h).Fair := by
  have hall : ∀ t, (s.runActs prof rt (as.take t)).all fun s => s.conns.length ≤ 1 && (!s.edgeB 0 || (as.drop t).any (NAct.polls 0)) &&
      (s.batch.isEmpty || (as.drop t).any NAct.dispatches) := by
    intro t
    rcases Nat.lt_or_ge as.length t with ht | ht
    · have := hlen as.length (Nat.le_refl _)
      rw [List.take_of_length_le (by omega), List.drop_of_length_le (by omega)] at *
      exact this
    · exact hlen t ht
  have hsome : ∀ t, ∃ s', s.runActs prof rt (as.take t) = some s' := by
    intro t
    obtain ⟨s', h'⟩ := Option.isSome_iff_exists.1 h
    rw [← List.take_append_drop t as, Net.runActs_append] at h'
    obtain ⟨s'', h3, -⟩ := Option.bind_eq_some_iff.1 h'
    exact ⟨s'', h3⟩
  have hat : ∀ t, ∃ s', (Net.Run.ofList as hn h).at_ t = s' ∧ s'.conns.length ≤ 1 ∧ (s'.edgeB 0 = true → (as.drop t).any (NAct.polls 0) = true) ∧
      (s'.batch ≠ [] → (as.drop t).any NAct.dispatches = true) := by
    intro t
    obtain ⟨s', hs'⟩ := hsome t
    have h1 := hall t
    rw [hs'] at h1
    simp only [Option.all_some, Bool.and_eq_true, Bool.or_eq_true, decide_eq_true_eq, Bool.not_eq_true', List.isEmpty_iff] at h1
    refine ⟨s', by show (s.runActs prof rt (as.take t)).getD s = s'; rw [hs']; rfl, h1.1.1, ?_, ?_⟩
    · intro he
      rcases h1.1.2 with h2 | h2
      · rw [he] at h2; cases h2
      · exact h2
    · intro hb
      rcases h1.2 with h2 | h2
      · exact absurd h2 hb
      · exact h2
  have hfin : ∀ t ≥ as.length, ∃ s', (Net.Run.ofList as hn h).at_ t = s' ∧ s'.pool.workers = [.receiving] ∧ s'.pool.queue = [] ∧ s'.pool.owner = .using := by
    intro t ht
    obtain ⟨s', hs'⟩ := Option.isSome_iff_exists.1 h
    rw [hs'] at hend
    simp only [Option.all_some, Bool.and_eq_true, decide_eq_true_eq, List.isEmpty_iff, beq_iff_eq] at hend
    refine ⟨s', ?_, ?_, hend.1.2, hend.2⟩
    · show (s.runActs prof rt (as.take t)).getD s = s'
      rw [List.take_of_length_le ht, hs']; rfl
    · have h1 := hend.1.1.1
      have h2 := hend.1.1.2
      match hw : s'.pool.workers with
      | [] => rw [hw] at h2; cases h2
      | [x] => rw [hw] at h2; cases h2; rfl
      | _ :: _ :: _ => rw [hw] at h1; simp at h1
  refine ⟨?_, ?_, ?_, ?_⟩
  · intro t k he
    obtain ⟨s', h1, h2, h3, -⟩ := hat t
    rw [h1] at he
    have hk : k = 0 := by
      obtain ⟨c, h4, -⟩ := he
      have := (List.getElem?_eq_some_iff.1 h4).1
      omega
    subst hk
    have h4 := h3 (Net.edge_iff.2 he)
    rw [List.any_eq_true] at h4
    obtain ⟨a, h5, h6⟩ := h4
    obtain ⟨i, h7⟩ := List.mem_iff_getElem?.1 h5
    rw [List.getElem?_drop] at h7
    cases a with
    | poll ks => exact ⟨t + i, by omega, ks, h7, by simpa [NAct.polls] using h6⟩
    | _ => cases h6
  · intro t hb
    obtain ⟨s', h1, h2, -, h3⟩ := hat t
    rw [h1] at hb
    have h4 := h3 hb
    rw [List.any_eq_true] at h4
    obtain ⟨a, h5, h6⟩ := h4
    obtain ⟨i, h7⟩ := List.mem_iff_getElem?.1 h5
    rw [List.getElem?_drop] at h7
    cases a with
    | dispatch b => exact ⟨t + i, by omega, b, h7⟩
    | _ => cases h6
  · intro t w hc
    exfalso
    obtain ⟨s', h1, h2, h3, h4⟩ := hfin (t + as.length) (by omega)
    refine hc (t + as.length) (by omega) ?_
    rw [h1]
    simp only [Net.step, Pool.step, Pool.work, h2, h3, h4]
    cases w with
    | zero => simp [Owner.hasSender]
    | succ w => simp
  · intro t w j hr
    refine ⟨t + as.length, by omega, ?_⟩
    obtain ⟨s', h1, h2, -⟩ := hfin (t + as.length) (by omega)
    rw [h1, h2]
    cases w <;> simp

theorem Net.Run.ofList_all {s : Net σ} {as : List NAct} {hn : Net.new n s₀ = some s} {h : (s.runActs prof rt as).isSome = true} {p : Net σ → Bool}
    (hp : ∀ t ≤ as.length, (s.runActs prof rt (as.take t)).all p) (t : Nat) : p ((Net.Run.ofList as hn h).at_ t) = true := by
  have hs : ∃ s', s.runActs prof rt (as.take t) = some s' := by
    obtain ⟨s', h'⟩ := Option.isSome_iff_exists.1 h
    rw [← List.take_append_drop t as, Net.runActs_append] at h'
    obtain ⟨s'', h3, -⟩ := Option.bind_eq_some_iff.1 h'
    exact ⟨s'', h3⟩
  obtain ⟨s', hs⟩ := hs
  show p ((s.runActs prof rt (as.take t)).getD s) = true
  rw [hs]
  rcases Nat.lt_or_ge as.length t with ht | ht
  · have := hp as.length (Nat.le_refl _)
    rw [List.take_of_length_le (Nat.le_refl _)] at this
    rw [List.take_of_length_le (by omega)] at hs
    rw [hs] at this
    exact this
  · have := hp t ht
    rw [hs] at this
    exact this

/-- The conditions of `C44_eventually_partial` can be met by a run in which something arrives. -/
example : ∃ r : Net.Run prof ([] : Router Unit) 1 (), r.Fair ∧ (∀ t, (r.at_ t).pool.crashed.length < 1) ∧ (r.at_ 2).Open 0 ∧ (r.at_ 2).Waiting 0 := by
  refine ⟨Net.Run.ofList (s := (Net.new 1 ()).get rfl) oneRequest rfl (by obtain ⟨_ | _⟩ := prof <;> decide +kernel), ?_, ?_, ?_, ?_⟩
  · exact Net.Run.ofList_fair (by obtain ⟨_ | _⟩ := prof <;> decide +kernel) (by obtain ⟨_ | _⟩ := prof <;> decide +kernel)
  · intro t
    have := Net.Run.ofList_all (s := (Net.new 1 ()).get rfl) (as := oneRequest) (rt := ([] : Router Unit)) (prof := prof) (n := 1) (s₀ := ()) (hn := rfl)
      (h := by obtain ⟨_ | _⟩ := prof <;> decide +kernel) (p := fun s => s.pool.crashed.length == 0)
      (by obtain ⟨_ | _⟩ := prof <;> decide +kernel) t
    rw [beq_iff_eq] at this
    omega
  · exact Net.open_iff.1 (by obtain ⟨_ | _⟩ := prof <;> decide +kernel)
  · exact Net.waiting_iff.1 (by obtain ⟨_ | _⟩ := prof <;> decide +kernel)

/-! ## What a panicking listener does -/

/-- A router whose listener panics at every request. -/
def panicking : Router Unit := [([], fun _ _ s => (none, s))]

/-- Two workers are in handlers for the same connection, as in `twoHandlers`; the listener panics in the first. Another client connects,
and something arrives from it. -/
def deadServer : List NAct := twoHandlers ++ [.go 0, .go 0, .lock 1 [], .accept (fun n => n) (fun c n => c + n) (by omega) [],
  .arrive 1 (.data b!"GET / HTTP/1.1\r\n\r\n"), .poll [1], .dispatch false]

theorem dead_facts : (Net.after prof panicking 2 () deadServer).any (fun s => s.asks.length == 1 && s.pool.crashed.length == 2 && s.openB 1 && s.waitingB 1 &&
    !s.edgeB 1 && s.batch.isEmpty && s.pool.queue.isEmpty && s.pool.workers == [.crashed, .crashed] && s.pool.owner == .failed) = true := by
  obtain ⟨_ | _⟩ := prof <;> decide +kernel

/-- C44 does not hold when too many handlers have panicked: something waits on an open connection, and nothing will look at it. -/
theorem C44_panics_false : ∃ s, Net.Reach prof panicking 2 () s ∧ s.Open 1 ∧ s.Waiting 1 ∧
    ¬ (s.Edge 1 ∨ 1 ∈ s.batch ∨ (∃ j a : Nat, s.jobs[j]? = some (1, a) ∧ .job j ∈ s.pool.queue) ∨ ∃ w, s.WillRead w 1) := by
  have h := dead_facts (prof := prof)
  cases hs : Net.after prof panicking 2 () deadServer with
  | none => rw [hs] at h; cases h
  | some s =>
    rw [hs] at h
    simp only [Option.any_some, Bool.and_eq_true, beq_iff_eq, Bool.not_eq_true', List.isEmpty_iff] at h
    obtain ⟨⟨⟨⟨⟨⟨⟨⟨-, -⟩, h1⟩, h2⟩, h3⟩, h4⟩, h5⟩, h6⟩, -⟩ := h
    refine ⟨s, Net.reach_of hs, Net.open_iff.1 h1, Net.waiting_iff.1 h2, ?_⟩
    rintro (h | h | ⟨j, a, -, h⟩ | ⟨w, j, a, -, h⟩)
    · rw [Net.edge_iff.2 h] at h3; cases h3
    · rw [h4] at h; cases h
    · rw [h5] at h; cases h
    · rw [h6] at h
      match w with
      | 0 => simp at h
      | 1 => simp at h
      | w + 2 => simp at h

/-- C55 does not hold: a single request on which a listener panics disables both workers of a server; the next event then
ends the event loop. -/
theorem C55_one_request_false : ∃ s, Net.Reach prof panicking 2 () s ∧ s.asks.length = 1 ∧ s.pool.workers = [.crashed, .crashed] ∧
    s.pool.owner = .failed := by
  have h := dead_facts (prof := prof)
  cases hs : Net.after prof panicking 2 () deadServer with
  | none => rw [hs] at h; cases h
  | some s =>
    rw [hs] at h
    simp only [Option.any_some, Bool.and_eq_true, beq_iff_eq, Bool.not_eq_true', List.isEmpty_iff] at h
    exact ⟨s, Net.reach_of hs, h.1.1.1.1.1.1.1.1, h.1.2, h.2⟩

/-- C55 in part: a worker that ended by a panic was handling a connection on which a listener had panicked, or (only in debug builds)
a parser. So clients whose requests do not make a listener panic do not cost the server any worker; how many workers one such
connection costs is not limited. -/
theorem C55_blame_partial {n : Nat} {s₀ : σ} {s : Net σ} (h : Net.Reach prof rt n s₀ s) {j : Nat} (hj : j ∈ s.pool.crashed) :
    ∃ k a, s.jobs[j]? = some (k, a) ∧ (prof.overflowChecks = true ∨ ∃ q st, (k, q, st) ∈ s.asks ∧ (rt.result q st).1 = none) :=
  h.blame.crashed j hj

theorem Net.Reach.pos {s : Net σ} (h : Net.Reach prof rt n s₀ s) : 0 < n := by
  induction h with
  | new h =>
    unfold Net.new Pool.new at h
    cases n with
    | zero => simp at h
    | succ n => omega
  | step _ _ ih => exact ih

/-- C55 in part: in release builds, if no listener panics, no worker ends and the event loop goes on. -/
theorem C55_release_partial {n : Nat} {s₀ : σ} {s : Net σ} (h : Net.Reach ⟨false⟩ rt n s₀ s) (hr : ∀ q st, (rt.result q st).1 ≠ none) :
    s.pool.crashed = [] ∧ s.pool.owner = .using := by
  have hc : s.pool.crashed = [] := by
    cases hl : s.pool.crashed with
    | nil => rfl
    | cons j js =>
      exfalso
      obtain ⟨k, a, -, h1 | ⟨q, st, -, h1⟩⟩ := h.blame.crashed j (by rw [hl]; simp)
      · cases h1
      · exact hr q st h1
  refine ⟨hc, ?_⟩
  rcases h.inv.up with h1 | h1
  · exact h1
  · rw [hc] at h1
    have h2 := h.pos
    simp only [List.length_nil] at h1
    omega

/-- In debug builds one client alone, without a listener panicking, can end the only worker of a server and then its event loop. -/
def remote : List NAct :=
  let wake : List NAct := [.poll [0], .dispatch false, .work 0, .work 0, .work 0, .work 0, .lock 0 [], .go 0, .go 0, .go 0]
  [.accept (fun n => n) (fun c n => c + n) (by omega) [], .arrive 0 (.data (b!"GET / HTTP/1.1\r\n" ++ fieldLines longFields))] ++ wake ++
  [.arrive 0 (.data (b!"a: " ++ List.replicate 87 120))] ++ wake ++
  [.arrive 0 (.data (List.replicate 90 120 ++ CRLF))] ++ wake ++ [.notify 0] ++ wake.take 9 ++ [.notify 0, .poll [0], .dispatch false]

theorem remote_facts : (Net.after ⟨true⟩ ([] : Router Unit) 1 () remote).any (fun s => s.asks.length == 0 && s.pool.workers == [.crashed] &&
    s.pool.owner == .failed) = true := by
  decide +kernel

/-- C55 does not hold in debug builds even if no listener ever panics. -/
theorem C55_remote_false : ∃ s, Net.Reach ⟨true⟩ ([] : Router Unit) 1 () s ∧ s.asks = [] ∧ s.pool.workers = [.crashed] ∧ s.pool.owner = .failed := by
  have h := remote_facts
  cases hs : Net.after ⟨true⟩ ([] : Router Unit) 1 () remote with
  | none => rw [hs] at h; cases h
  | some s =>
    rw [hs] at h
    simp only [Option.any_some, Bool.and_eq_true, beq_iff_eq, List.length_eq_zero_iff] at h
    exact ⟨s, Net.reach_of hs, h.1.1, h.1.2, h.2⟩

end Verif
