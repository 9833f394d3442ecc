import Verif.Props.Net
import Verif.Props.Message

/-!
One request on which a listener panics ends the whole server, however many workers it has. Each piece of input that arrives while
the request has not been handled makes the event loop submit another handler for the same connection; the mutex is poisoned by the panic,
so each of these handlers panics too, and with the last worker the receiver of the jobs is gone.
-/

namespace Verif

variable {σ : Type} {prof : Profile} {rt : Router σ} {s₀ : σ}

/-- The first `i` of `n` workers are at the mutex of the only connection, on which the request `text` and more has arrived. -/
structure Gathered (s₀ : σ) (text : Bytes) (n i : Nat) (s : Net σ) : Prop where
  len : s.pool.workers.length = n
  run : ∀ w, w < i → s.pool.workers[w]? = some (.running w)
  idle : ∀ w, i ≤ w → w < n → s.pool.workers[w]? = some .idle
  queue : s.pool.queue = []
  locked : s.pool.locked = none
  poisoned : s.pool.poisoned = false
  owner : s.pool.owner = .using
  sent : (jobsOf s.pool.sent).length = i
  jobs : s.jobs.length = i
  job : ∀ j, j < i → s.jobs[j]?.map Prod.fst = some 0
  phase : ∀ w, s.phase w = .enter
  batch : s.batch = []
  asks : s.asks = []
  state : s.state = s₀
  conns : ∃ (c : NConn σ) (conn : Conn Rd Nbw) (rest : List Atom), s.conns = [c] ∧ c.slot = .live conn ∧ c.lock = none ∧ c.inTable = true ∧
    conn.reader.Ahead (text.map .byte ++ rest) ∧ conn.parser = some .new ∧ conn.writer.buf = [] ∧ conn.writer.pos = 0 ∧
    conn.writer.sock = ⟨[], [], []⟩

/-- Another piece of input brings another worker to the mutex. -/
theorem Gathered.next {text : Bytes} {n i : Nat} {s : Net σ} (h : Gathered s₀ text n i s) (hi : i < n) :
    ∃ s', s.runActs prof rt [.arrive 0 (.data [120]), .poll [0], .dispatch false, .work i, .work i, .work i, .work i] = some s' ∧
      Gathered s₀ text n (i + 1) s' := by
  obtain ⟨h1, h2, h3, h4, h5, h6, h7, h8, h9, h10, h11, h12, h13, h14, c, conn, rest, h15, h16, h17, h18, h19, h20, h21, h22, h23⟩ := h
  obtain ⟨pool, jobs, phase, conns, batch, state, asks⟩ := s
  obtain ⟨workers, locked, poisoned, queue, owner, sent, taken, lost, started, finished, crashed⟩ := pool
  obtain ⟨slot, lock, inTable, edge, first, arrived, wakes, seen, drained⟩ := c
  simp only at h1 h2 h3 h4 h5 h6 h7 h8 h9 h10 h11 h12 h13 h14 h15 h16 h17 h18
  subst h4 h5 h6 h7 h12 h13 h15 h16 h17 h18 h14
  have hw := h3 i (Nat.le_refl _) hi
  have hop : (workers.any Worker.alive) = true := by
    rw [List.any_eq_true]
    exact ⟨.idle, List.mem_of_getElem? hw, rfl⟩
  have hlt : i < workers.length := by omega
  have hd : (Ev.data [120] != Ev.err IoError.wouldBlock) = true := by decide
  have hw' : workers[i] = .idle := by rw [List.getElem?_eq_getElem hlt] at hw; exact Option.some.inj hw
  simp [Net.runActs, Net.step, Net.isLive, Net.receive, Net.setConn, Net.onEvent, Pool.step, Pool.open, hop, Pool.work, hw', Net.setPhase, hlt, hd,
    -List.any_eq_true]
  refine ⟨by simpa using h1, fun w hw => ?_, fun w hw hn => ?_, rfl, rfl, rfl, rfl, ?_, ?_, fun j hj => ?_, fun w => ?_, rfl, rfl, rfl,
    _, _, rest ++ [.byte 120], rfl, rfl, rfl, rfl, ⟨h19.1, ?_⟩, h20, h21, h22, h23⟩
  · by_cases hwi : w = i
    · subst hwi
      simp [hlt, h8]
    · simpa [show i ≠ w by omega] using h2 w (by omega)
  · simpa [show i ≠ w by omega] using h3 w (by omega) hn
  · simp [jobsOf] at h8 ⊢
    omega
  · simp [h9]
  · by_cases hji : j = i
    · subst hji; subst h9; simp
    · simpa [List.getElem?_append_left (show j < jobs.length by omega)] using h10 j (by omega)
  · dsimp only
    split
    · rfl
    · exact h11 w
  · have := h19.2
    simp only [Src.atoms] at this ⊢
    simp only [List.flatMap_append, ← List.append_assoc, this]
    rfl

/-- The listener has panicked, and the first `i` of `n` workers have ended; the others are at the mutex that is poisoned. -/
structure Fallen (s₀ : σ) (q : Request) (n i : Nat) (s : Net σ) : Prop where
  len : s.pool.workers.length = n
  dead : ∀ w, w < i → s.pool.workers[w]? = some .crashed
  run : ∀ w, i ≤ w → w < n → s.pool.workers[w]? = some (.running w)
  owner : s.pool.owner = .using
  job : ∀ j, j < n → s.jobs[j]?.map Prod.fst = some 0
  phase : ∀ w, i ≤ w → s.phase w = .enter
  batch : s.batch = []
  asks : s.asks = [(0, q, s₀)]
  conns : ∃ (c : NConn σ) (conn : Conn Rd Nbw), s.conns = [c] ∧ c.slot = .poisoned conn ∧ c.lock = none

theorem Net.reach_runActs {n : Nat} {s s' : Net σ} {as : List NAct} (hr : Net.Reach prof rt n s₀ s) (h : s.runActs prof rt as = some s') :
    Net.Reach prof rt n s₀ s' := by
  induction as generalizing s with
  | nil => cases h; exact hr
  | cons a as ih =>
    obtain ⟨s2, h3, h4⟩ := Option.bind_eq_some_iff.1 h
    exact ih (hr.step h3) h4

/-- A request has arrived at a new server. -/
theorem gathered_first (prof : Profile) (rt : Router σ) (s₀ : σ) {text : Bytes} (ht : text ≠ []) {n : Nat} (hn : 0 < n) :
    ∃ s, Net.Reach prof rt n s₀ s ∧ Gathered s₀ text n 0 s := by
  have hd : (Ev.data text != Ev.err IoError.wouldBlock) = true := rfl
  suffices ∃ s, Net.after prof rt n s₀ [.accept (fun n => n) (fun c n => c + n) (by omega) [], .arrive 0 (.data text)] = some s ∧ Gathered s₀ text n 0 s by
    obtain ⟨s, h1, h2⟩ := this
    exact ⟨s, Net.reach_of h1, h2⟩
  simp [Net.after, Net.new, Pool.new, show n ≠ 0 by omega, Net.runActs, Net.step, Net.isLive, Net.receive, Net.setConn, Net.fresh, hd]
  refine ⟨by simp, by simp, fun w _ hw => ?_, rfl, rfl, rfl, rfl, rfl, rfl, by simp, fun _ => rfl, rfl, rfl, rfl,
    _, _, [], rfl, rfl, rfl, rfl, ⟨rfl, ?_⟩, rfl, rfl, rfl, rfl⟩
  · simp [hw]
  · cases text with
    | nil => exact absurd rfl ht
    | cons b bs => simp [Src.atoms, Conn.new, Ev.atoms]

theorem gathered_all (prof : Profile) (rt : Router σ) (s₀ : σ) {text : Bytes} (ht : text ≠ []) {n : Nat} (hn : 0 < n) {i : Nat} (hi : i ≤ n) :
    ∃ s, Net.Reach prof rt n s₀ s ∧ Gathered s₀ text n i s := by
  induction i with
  | zero => exact gathered_first prof rt s₀ ht hn
  | succ i ih =>
    obtain ⟨s, h1, h2⟩ := ih (by omega)
    obtain ⟨s', h3, h4⟩ := h2.next (prof := prof) (rt := rt) (by omega)
    exact ⟨s', Net.reach_runActs h1 h3, h4⟩

theorem FittingRequest.text_ne {text : Bytes} {q : Request} (hq : FittingRequest text q) : text ≠ [] := by
  rintro rfl
  obtain ⟨line, fs, f, bw, -, hm, -⟩ := hq
  have := hm.wire
  simp [CRLF] at this

/-- The listener panics. -/
theorem Gathered.panic {text : Bytes} {q : Request} (hq : FittingRequest text q) (hp : (rt.result q s₀).1 = none) {n : Nat} (hn : 0 < n) {s : Net σ}
    (h : Gathered s₀ text n n s) : ∃ s', s.runActs prof rt [.lock 0 [], .go 0, .go 0, .go 0] = some s' ∧ Fallen s₀ q n 1 s' := by
  obtain ⟨h1, h2, -, h4, h5, h6, h7, h8, h9, h10, h11, h12, h13, h14, c, conn, rest, h15, h16, h17, h18, h19, h20, h21, h22, h23⟩ := h
  obtain ⟨pool, jobs, phase, conns, batch, state, asks⟩ := s
  obtain ⟨workers, locked, poisoned, queue, owner, sent, taken, lost, started, finished, crashed⟩ := pool
  obtain ⟨slot, lock, inTable, edge, first, arrived, wakes, seen, drained⟩ := c
  obtain ⟨reader, ⟨buf, pos, cap, grow, growOk, sock⟩, parser⟩ := conn
  simp only at h1 h2 h4 h5 h6 h7 h8 h9 h10 h11 h12 h13 h14 h15 h16 h17 h18 h19 h20 h21 h22 h23
  subst h4 h5 h6 h7 h12 h13 h15 h16 h17 h18 h14 h20 h21 h22 h23
  obtain ⟨r', h24, -⟩ := C04_request_accepted prof hq h19
  have hj := h10 0 hn
  have hw := h2 0 hn
  have hlt : 0 < workers.length := by omega
  have hw' : workers[0] = .running 0 := by rw [List.getElem?_eq_getElem hlt] at hw; exact Option.some.inj hw
  have hf : Write.flush (⟨[], 0, cap, grow, growOk, ⟨[], [], []⟩⟩ : Nbw) = (.ok (), ⟨[], 0, cap, grow, growOk, ⟨[], [], []⟩⟩) := rfl
  simp [Net.runActs, Net.step, Net.handled, Net.enter, Net.advance, Slot.wake, Net.setConn, Net.setPhase, hw', hj, h11, hlt, hf, Conn.readRequest, h24, hp,
    Net.crash, Pool.step, Pool.work, Pool.stop]
  refine ⟨by simpa using h1, fun w hw => ?_, fun w hw hn => ?_, rfl, h10, fun w hw => ?_, rfl, rfl, _, _, rfl, rfl, rfl⟩
  · obtain rfl : w = 0 := by omega
    simp [hlt]
  · simpa [show 0 ≠ w by omega] using h2 w hn
  · simp [show w ≠ 0 by omega]

/-- The next worker panics at the poisoned mutex. -/
theorem Fallen.next {q : Request} {n i : Nat} {s : Net σ} (h : Fallen s₀ q n i s) (hi : i < n) :
    ∃ s', s.runActs prof rt [.lock i []] = some s' ∧ Fallen s₀ q n (i + 1) s' := by
  obtain ⟨h1, h2, h3, h4, h5, h6, h7, h8, c, conn, h9, h10, h11⟩ := h
  obtain ⟨pool, jobs, phase, conns, batch, state, asks⟩ := s
  obtain ⟨workers, locked, poisoned, queue, owner, sent, taken, lost, started, finished, crashed⟩ := pool
  obtain ⟨slot, lock, inTable, edge, first, arrived, wakes, seen, drained⟩ := c
  simp only at h1 h2 h3 h4 h5 h6 h7 h8 h9 h10 h11
  subst h4 h7 h8 h9 h10 h11
  have hj := h5 i hi
  have hlt : i < workers.length := by omega
  have hw := h3 i (Nat.le_refl _) hi
  have hw' : workers[i] = .running i := by rw [List.getElem?_eq_getElem hlt] at hw; exact Option.some.inj hw
  simp [Net.runActs, Net.step, Net.handled, Net.enter, Net.setConn, hw', hj, h6, hlt, Pool.step, Pool.work, Pool.stop]
  refine ⟨by split <;> simpa using h1, fun w hw => ?_, fun w hw hn => ?_, by split <;> rfl, h5, fun w hw => h6 w (by omega), rfl, rfl,
    _, _, rfl, rfl, rfl⟩
  · suffices (workers.set i Worker.crashed)[w]? = some .crashed by
      split <;> exact this
    by_cases hwi : w = i
    · subst hwi
      simp [hlt]
    · simpa [show i ≠ w by omega] using h2 w (by omega)
  · suffices (workers.set i Worker.crashed)[w]? = some (.running w) by
      split <;> exact this
    simpa [show i ≠ w by omega] using h3 w (by omega) hn

/-- Another client connects, and the event loop panics. -/
theorem Fallen.last {q : Request} {n : Nat} {s : Net σ} (h : Fallen s₀ q n n s) :
    ∃ s', s.runActs prof rt [.accept (fun n => n) (fun c n => c + n) (by omega) [], .poll [1], .dispatch false] = some s' ∧
      s'.asks = [(0, q, s₀)] ∧ s'.pool.workers = List.replicate n .crashed ∧ s'.pool.owner = .failed ∧
      s'.conns.length = 2 ∧ ∀ c, s'.conns[1]? = some c → c.arrived = [] := by
  obtain ⟨h1, h2, -, h4, -, -, h7, h8, c, conn, h9, h10, h11⟩ := h
  obtain ⟨pool, jobs, phase, conns, batch, state, asks⟩ := s
  obtain ⟨workers, locked, poisoned, queue, owner, sent, taken, lost, started, finished, crashed⟩ := pool
  simp only at h1 h2 h4 h7 h8 h9
  subst h4 h7 h8 h9
  have hw : workers = List.replicate n .crashed := by
    refine List.ext_getElem? fun w => ?_
    by_cases hw : w < n
    · rw [h2 w hw]
      simp [hw]
    · simp [h1, hw]
  subst hw
  have hop : ((List.replicate n Worker.crashed).any Worker.alive) = false := by
    rw [List.any_eq_false]
    intro x hx
    rw [(List.mem_replicate.1 hx).2]
    simp [Worker.alive]
  simp [Net.runActs, Net.step, Net.fresh, Net.onEvent, Pool.step, Pool.open, hop, -List.any_replicate, -List.any_eq_true]

/-- C55 does not hold, whatever the number of workers: if there is any request, within the limits of the server, on which the listeners
panic, then one client that sends it once, and a few bytes more, ends all workers; at the next event, for example another
client connecting, the event loop panics. -/
theorem C55_outage_false (prof : Profile) (rt : Router σ) (s₀ : σ) {text : Bytes} {q : Request} (hq : FittingRequest text q)
    (hp : (rt.result q s₀).1 = none) {n : Nat} (hn : 0 < n) : ∃ s, Net.Reach prof rt n s₀ s ∧
      s.asks = [(0, q, s₀)] ∧ s.pool.workers = List.replicate n .crashed ∧ s.pool.owner = .failed ∧
      s.conns.length = 2 ∧ ∀ c, s.conns[1]? = some c → c.arrived = [] := by
  obtain ⟨s1, h1, h2⟩ := gathered_all prof rt s₀ hq.text_ne hn (Nat.le_refl n)
  obtain ⟨s2, h3, h4⟩ := h2.panic (prof := prof) hq hp hn
  have : ∀ i, 1 ≤ i → i ≤ n → ∃ s, Net.Reach prof rt n s₀ s ∧ Fallen s₀ q n i s := by
    intro i h1i
    induction h1i with
    | refl => exact fun _ => ⟨s2, Net.reach_runActs h1 h3, h4⟩
    | @step i h1i ih =>
      intro hi
      obtain ⟨s, h5, h6⟩ := ih (by omega)
      obtain ⟨s', h7, h8⟩ := h6.next (prof := prof) (rt := rt) (by omega)
      exact ⟨s', Net.reach_runActs h5 h7, h8⟩
  obtain ⟨s3, h5, h6⟩ := this n hn (Nat.le_refl n)
  obtain ⟨s4, h7, h8⟩ := h6.last (prof := prof) (rt := rt)
  exact ⟨s4, Net.reach_runActs h5 h7, h8⟩

example : FittingRequest b!"GET / HTTP/1.1\r\n\r\n" ⟨b!"/", .get, HeaderMap.fromPairs [], []⟩ ∧
    (panicking.result ⟨b!"/", .get, HeaderMap.fromPairs [], []⟩ ()).1 = none :=
  ⟨fitting_of (prof := ⟨true⟩) (by decide +kernel), by decide +kernel⟩

/-! ## C69 -/

/-- A worker waits for the mutex of connection `k`, which another has. -/
def Net.Blocked (s : Net σ) (w k : Nat) : Prop :=
  s.handled w = some k ∧ s.phase w = .enter ∧ ∃ c w', s.conns[k]? = some c ∧ c.lock = some w' ∧ w' ≠ w

/-- A worker that waits for a mutex can do nothing until it is released. -/
theorem Net.Blocked.stuck {s : Net σ} {w k : Nat} (h : s.Blocked w k) : s.step prof rt (.work w) = none ∧ s.step prof rt (.go w) = none ∧
    ∀ evs, s.step prof rt (.lock w evs) = none := by
  obtain ⟨h1, h2, c, w', h3, h4, h5⟩ := h
  refine ⟨?_, ?_, fun evs => ?_⟩
  · obtain ⟨j, a, h6, -⟩ := handled_iff.1 h1
    simp [Net.step, h6]
  · simp [Net.step, h1, h3, h4, h5]
  · simp [Net.step, h1, h3, h4]

/-- What is shown of the state in `C69_occupied_false`. -/
structure Occupied (text : Bytes) (q : Request) (n : Nat) (s : Net σ) : Prop where
  asks : s.asks = []
  len : s.pool.workers.length = n
  first : s.handled 0 = some 0
  asked : s.phase 0 = .asked q
  blocked : ∀ w, 0 < w → w < n → s.Blocked w 0
  other : s.Open 1
  arrived : ∃ c, s.conns[1]? = some c ∧ c.arrived = [.data text]
  queued : .job n ∈ s.pool.queue
  job : s.jobs[n]?.map Prod.fst = some 1

theorem Gathered.occupied {text : Bytes} {q : Request} (hq : FittingRequest text q) {n : Nat} (hn : 0 < n) {s : Net σ}
    (h : Gathered s₀ text n n s) : ∃ s', s.runActs prof rt [.lock 0 [], .go 0, .go 0, .accept (fun n => n) (fun c n => c + n) (by omega) [],
      .arrive 1 (.data text), .poll [1], .dispatch false] = some s' ∧ Occupied text q n s' := by
  obtain ⟨h1, h2, -, h4, h5, h6, h7, h8, h9, h10, h11, h12, h13, h14, c, conn, rest, h15, h16, h17, h18, h19, h20, h21, h22, h23⟩ := h
  obtain ⟨pool, jobs, phase, conns, batch, state, asks⟩ := s
  obtain ⟨workers, locked, poisoned, queue, owner, sent, taken, lost, started, finished, crashed⟩ := pool
  obtain ⟨slot, lock, inTable, edge, first, arrived, wakes, seen, drained⟩ := c
  obtain ⟨reader, ⟨buf, pos, cap, grow, growOk, sock⟩, parser⟩ := conn
  simp only at h1 h2 h4 h5 h6 h7 h8 h9 h10 h11 h12 h13 h14 h15 h16 h17 h18 h19 h20 h21 h22 h23
  subst h4 h5 h6 h7 h12 h13 h15 h16 h17 h18 h14 h20 h21 h22 h23
  obtain ⟨r', h24, -⟩ := C04_request_accepted prof hq h19
  have hj := h10 0 hn
  have hw := h2 0 hn
  have hlt : 0 < workers.length := by omega
  have hw' : workers[0] = .running 0 := by rw [List.getElem?_eq_getElem hlt] at hw; exact Option.some.inj hw
  have hop : (workers.any Worker.alive) = true := by
    rw [List.any_eq_true]
    exact ⟨.running 0, List.mem_of_getElem? hw, rfl⟩
  have hd : (Ev.data text != Ev.err IoError.wouldBlock) = true := rfl
  have hf : Write.flush (⟨[], 0, cap, grow, growOk, ⟨[], [], []⟩⟩ : Nbw) = (.ok (), ⟨[], 0, cap, grow, growOk, ⟨[], [], []⟩⟩) := rfl
  have hj' : ∀ w, w < n → ∀ x, Option.map Prod.fst (jobs ++ [x])[w]? = some 0 := fun w hw x => by
    rw [List.getElem?_append_left (by omega)]
    exact h10 w hw
  simp [Net.runActs, Net.step, Net.handled, Net.enter, Net.advance, Slot.wake, Net.setConn, Net.setPhase, hw', hj, h11, hlt, hf, Conn.readRequest, h24,
    Net.fresh, Net.isLive, Net.receive, hd, Net.onEvent, Pool.step, Pool.open, hop, -List.any_eq_true]
  refine ⟨rfl, h1, ?_, rfl, fun w h0 hw => ⟨?_, ?_, _, 0, rfl, rfl, by omega⟩, ⟨_, rfl, rfl, rfl⟩, ⟨_, rfl, rfl⟩, ?_, ?_⟩
  · simp only [Net.handled, hw]
    exact hj' 0 hn _
  · simp only [Net.handled, h2 w hw]
    exact hj' w hw _
  · simp [show w ≠ 0 by omega]
  · simp [h8]
  · simp [← h9]

/-- C69 does not hold: while the listeners are busy with one request of one client, all other workers can be waiting for the mutex
of the same connection, and the request of another client is not looked at, whatever the number of workers. -/
theorem C69_occupied_false (prof : Profile) (rt : Router σ) (s₀ : σ) {text : Bytes} {q : Request} (hq : FittingRequest text q)
    {n : Nat} (hn : 0 < n) : ∃ s, Net.Reach prof rt n s₀ s ∧ s.asks = [] ∧ s.pool.workers.length = n ∧ s.handled 0 = some 0 ∧
      s.phase 0 = .asked q ∧ (∀ w, 0 < w → w < n → s.Blocked w 0) ∧ s.Open 1 ∧ (∃ c, s.conns[1]? = some c ∧ c.arrived = [.data text]) ∧
      .job n ∈ s.pool.queue ∧ s.jobs[n]?.map Prod.fst = some 1 := by
  obtain ⟨s1, h1, h⟩ := gathered_all prof rt s₀ hq.text_ne hn (Nat.le_refl n)
  obtain ⟨s2, h2, h3⟩ := h.occupied (prof := prof) (rt := rt) hq hn
  exact ⟨s2, Net.reach_runActs h1 h2, h3.asks, h3.len, h3.first, h3.asked, h3.blocked, h3.other, h3.arrived, h3.queued, h3.job⟩

example : FittingRequest b!"GET / HTTP/1.1\r\n\r\n" ⟨b!"/", .get, HeaderMap.fromPairs [], []⟩ := fitting_of (prof := ⟨true⟩) (by decide +kernel)

theorem Pool.Inv.running_unique {n : Nat} {s : Pool} (h : s.Inv n) {i i' j : Nat} (hw : s.workers[i]? = some (.running j))
    (hw' : s.workers[i']? = some (.running j)) : i = i' := by
  refine Decidable.byContradiction fun hne => ?_
  have h1 := sumW_set (f := Worker.run j) hw .idle
  have h2 := sumW_le (f := Worker.run j) (ws := s.workers.set i .idle) (i := i') (x := .running j) (by rw [List.getElem?_set_ne hne]; exact hw')
  simp only [Worker.run, if_true] at h1 h2
  have h3 := h.running j
  have h4 := h.started j
  have h5 : (jobsOf s.taken).count j ≤ (jobsOf s.sent).count j := by
    rw [h.msgs, jobsOf_append, jobsOf_append, List.count_append, List.count_append]
    omega
  have h6 : (jobsOf s.sent).count j ≤ 1 := by
    rw [h.ids]
    exact List.nodup_iff_count.1 List.nodup_range j
  omega

/-- C69 in part: the workers that handle a connection do so because of different events, and at most one of them has its mutex. -/
theorem C69_events_partial {n : Nat} {s : Net σ} (h : Net.Reach prof rt n s₀ s) {w w' k : Nat} (hw : s.handled w = some k) (hw' : s.handled w' = some k)
    (hne : w ≠ w') : (∃ j j' a a', j ≠ j' ∧ s.jobs[j]? = some (k, a) ∧ s.jobs[j']? = some (k, a') ∧ s.pool.workers[w]? = some (.running j) ∧
      s.pool.workers[w']? = some (.running j')) ∧ (s.phase w = .enter ∨ s.phase w' = .enter) := by
  obtain ⟨j, a, h1, h2⟩ := handled_iff.1 hw
  obtain ⟨j', a', h3, h4⟩ := handled_iff.1 hw'
  refine ⟨⟨j, j', a, a', ?_, h2, h4, h1, h3⟩, ?_⟩
  · rintro rfl
    exact hne (h.inv.base.pool.inv.running_unique h1 h3)
  · by_cases h5 : s.phase w = .enter
    · exact .inl h5
    · by_cases h6 : s.phase w' = .enter
      · exact .inr h6
      · exact absurd (C43_exclusive h ⟨hw, h5⟩ ⟨hw', h6⟩) hne

end Verif
