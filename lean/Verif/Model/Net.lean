import Verif.Model.Server
import Verif.Model.ThreadPool

/-!
The whole server as a transition system: clients, the operating system's readiness notification, the event loop (`src/server/poll.rs`), the
thread pool, and the workers that handle connections (`src/server/server.rs` 48-138). Each transition is one action of one of
these; a run is any sequence of actions that are possible one after the other, so every schedule is covered.

A handler is cut into the steps between which other threads can interfere: taking the mutex, flushing, reading one request, asking
the router, writing the answer, releasing the mutex. What happens within one step touches only the connection, which is in a
local variable of the handler, or (asking the router) the listeners' state. Input that arrives while one request is being read
counts as arriving before or after that.

Simplifications: listeners run one at a time. Readiness is edge-triggered as `mio` registers it with `epoll`: whenever
something arrives, the socket is put on the list of ready sockets; `poll` takes it off. A mutex is taken in any order. TLS is not modelled;
how the event loop ends is in `Model/Lifecycle`. The number of connections is not limited.
-/

namespace Verif

/-- Where the handler run by a worker is, server.rs 82-117. -/
inductive Phase
  /-- At `lock()`, server.rs 83. -/
  | enter
  /-- The connection has been taken out of the mutex; at `flush`, server.rs 87. -/
  | flushing
  /-- At `read_request`, server.rs 104. -/
  | reading
  /-- A request was read; at `router.result`, server.rs 121. -/
  | asked (q : Request)
  /-- The router answered; at writing, server.rs 122-124. -/
  | reply (q : Request) (a : ListenerResult)
  /-- About to put the connection back (unless it is dropped) and to release the mutex, server.rs 94-98. -/
  | leaving
  deriving DecidableEq, Repr

/-- An accepted connection. While a handler has taken it out of the mutex, server.rs 85, it is still recorded in `slot`; what is in its
`reader.src.evs` is what has arrived at the socket and was not read yet. -/
structure NConn (σ : Type) where
  slot : Slot Rd Nbw
  /-- The worker that holds the mutex. -/
  lock : Option Nat
  /-- The connection is in the table of the event loop. -/
  inTable : Bool
  /-- The socket is on the list of ready sockets of the operating system. -/
  edge : Bool
  /-- For statements only: the connection as it was accepted. -/
  first : Conn Rd Nbw
  /-- For statements only: all that has arrived. -/
  arrived : List Ev
  /-- For statements only: for each handler that took the mutex, what the socket does with what is written. -/
  wakes : List (List WEv)
  /-- For statements only: the requests on this connection, with the listeners' state at each. -/
  seen : List (Request × σ)
  /-- For statements only: how much had arrived (the length of `arrived`) when reading last reported `WouldBlock`. -/
  drained : Nat

/-- The server. -/
structure Net (σ : Type) where
  pool : Pool
  /-- The jobs submitted to the pool: the connection, and (for statements only) how much had arrived on it then. -/
  jobs : List (Nat × Nat)
  phase : Nat → Phase
  conns : List (NConn σ)
  /-- The events that `poll` returned and that were not handled yet, poll.rs 57: connections. -/
  batch : List Nat
  /-- The listeners' state. -/
  state : σ
  /-- For statements only: the requests the router was asked about, in order, with the connection and the listeners' state. -/
  asks : List (Nat × Request × σ)

/-- What can happen. -/
inductive NAct
  /-- A connection is accepted and registered, poll.rs 37-42; how its buffers will grow is arbitrary, and so is what flushing its stream will do. -/
  | accept (offer : Nat → Nat) (grow : Nat → Nat → Nat) (growOk : ∀ c n, c ≤ grow c n) (flushes : List (Option IoError))
  /-- Something arrives on a connection: bytes, the end of the stream, an error. -/
  | arrive (k : Nat) (ev : Ev)
  /-- The operating system reports a connection for another reason (it became writable). -/
  | notify (k : Nat)
  /-- `poll` returns, poll.rs 55. -/
  | poll (ks : List Nat)
  /-- The event loop handles the next event, poll.rs 44-45; `closed`: `is_write_closed`. -/
  | dispatch (closed : Bool)
  /-- The event loop handles an event of an old socket as one of this connection (`C53_stale_token_false`). -/
  | stray (k : Nat) (closed : Bool)
  /-- A worker that is not in a handler does its next step. -/
  | work (w : Nat)
  /-- A worker gets the mutex of the connection, server.rs 83; the socket will do `evs` with what is written until it is released. -/
  | lock (w : Nat) (evs : List WEv)
  /-- A worker that has the mutex does its next step. -/
  | go (w : Nat)

/-- What `write_response_from_router` does with an answer, server.rs 122-124. -/
def writeAnswer {W : Type} [Write W] (w : W) : ListenerResult → IoRes × W
  | .sendResponse r => writeResponse w r
  | .sendResponseArc r => writeResponse w r
  | .next => Write.andThen (Write.writeAll w notFoundResponse) fun w => Write.res (Write.flush w)

namespace Net

variable {σ : Type}

/-- `listen_abstract` before anything happened, server.rs 48-52; `none`: no worker threads, a panic. -/
def new (n : Nat) (s : σ) : Option (Net σ) :=
  (Pool.new n).map fun pool => { pool, jobs := [], phase := fun _ => .enter, conns := [], batch := [], state := s, asks := [] }

/-- A new connection: server.rs 55-60 and 69-79 (`READ_BUF_SIZE`, `WRITE_BUF_SIZE`). It is writable, so it is ready at once. -/
def fresh (offer : Nat → Nat) (grow : Nat → Nat → Nat) (growOk : ∀ c n, c ≤ grow c n) (flushes : List (Option IoError)) : NConn σ :=
  let c := Conn.new ⟨[], ⟨4096, by decide, offer, [], []⟩⟩ (Nbw.withCapacity 4096 grow growOk ⟨[], flushes, []⟩)
  { slot := .live c, lock := none, inTable := true, edge := true, first := c, arrived := [], wakes := [], seen := [], drained := 0 }

/-- Something arrives at the socket. -/
def receive (ev : Ev) : Slot Rd Nbw → Slot Rd Nbw
  | .live c => .live { c with reader := { c.reader with src := { c.reader.src with evs := c.reader.src.evs ++ [ev] } } }
  | x => x

/-- The socket is open. -/
def isLive : Slot Rd Nbw → Bool
  | .live _ => true
  | _ => false

/-- Change connection `k`. -/
def setConn (s : Net σ) (k : Nat) (c : NConn σ) : Net σ := { s with conns := s.conns.set k c }

/-- Change where worker `w` is. -/
def setPhase (s : Net σ) (w : Nat) (p : Phase) : Net σ := { s with phase := fun w' => if w' = w then p else s.phase w' }

/-- `on_io_ready`, server.rs 61-65, or the removal from the table, poll.rs 44-45, for connection `k`. -/
def onEvent (s : Net σ) (k : Nat) (closed : Bool) : Option (Net σ) :=
  match s.conns[k]? with
  | none => none
  | some c =>
    if !c.inTable then some s
    else if closed then some (s.setConn k { c with inTable := false })
    else
      match s.pool.step .execute with
      | none => none
      | some pool => some { s with pool, jobs := if pool.owner = .using then s.jobs ++ [(k, c.arrived.length)] else s.jobs }

/-- The connection that worker `w` handles. -/
def handled (s : Net σ) (w : Nat) : Option Nat :=
  match s.pool.workers[w]? with
  | some (.running j) => s.jobs[j]?.map Prod.fst
  | _ => none

/-- A handler that has the mutex ends by a panic: the mutex is poisoned, the connection is dropped, the worker ends. -/
def crash (s : Net σ) (w k : Nat) (c : NConn σ) (conn : Conn Rd Nbw) : Option (Net σ) :=
  (s.pool.step (.work w true)).map fun pool =>
    { s.setConn k { c with slot := .poisoned conn, lock := none } with pool }

/-- The next step of a handler that has the mutex, server.rs 85-117. -/
def advance (prof : Profile) (rt : Router σ) (s : Net σ) (w k : Nat) (c : NConn σ) : Option (Net σ) :=
  match s.phase w, c.slot with
  | .flushing, .live conn =>
    match Write.flush conn.writer with
    | (.error _, wr) => some ((s.setConn k { c with slot := .gone { conn with writer := wr } }).setPhase w .leaving)
    | (.ok (), wr) => some ((s.setConn k { c with slot := .live { conn with writer := wr } }).setPhase w .reading)
  | .reading, .live conn =>
    match conn.readRequest prof with
    | (.ready q, conn) => some ((s.setConn k { c with slot := .live conn }).setPhase w (.asked q))
    | (.notReady, conn) => some ((s.setConn k { c with slot := .live conn, drained := c.arrived.length }).setPhase w .leaving)
    | (.closed, conn) => some ((s.setConn k { c with slot := .gone conn }).setPhase w .leaving)
    | (.error _, conn) =>
      match writeErrorResponse conn.writer with
      | (.diverge, _) => none
      | (_, wr) => some ((s.setConn k { c with slot := .gone { conn with writer := wr } }).setPhase w .leaving)
    | (.panic, conn) => s.crash w k c conn
    | (.diverge, _) => none
  | .asked q, .live conn =>
    let c := { c with seen := c.seen ++ [(q, s.state)] }
    let s₁ := { s with asks := s.asks ++ [(k, q, s.state)], state := (rt.result q s.state).2 }
    match (rt.result q s.state).1 with
    | none => s₁.crash w k c conn
    | some a => some ((s₁.setConn k c).setPhase w (.reply q a))
  | .reply q a, .live conn =>
    match writeAnswer conn.writer a with
    | (.ok, wr) =>
      if shouldCloseAfterResponse q then some ((s.setConn k { c with slot := .gone { conn with writer := wr } }).setPhase w .leaving)
      else some ((s.setConn k { c with slot := .live { conn with writer := wr } }).setPhase w .reading)
    | (.err _, wr) => some ((s.setConn k { c with slot := .gone { conn with writer := wr } }).setPhase w .leaving)
    | (.diverge, _) => none
  | .leaving, _ =>
    (s.pool.step (.work w false)).map fun pool => { (s.setConn k { c with lock := none }).setPhase w .enter with pool }
  | _, _ => none

/-- A worker at `lock().unwrap()`, server.rs 83, when the mutex is free. -/
def enter (s : Net σ) (w k : Nat) (c : NConn σ) (evs : List WEv) : Option (Net σ) :=
  match c.slot with
  | .poisoned _ => (s.pool.step (.work w true)).map fun pool => { s.setConn k { c with wakes := c.wakes ++ [evs] } with pool }
  | .gone _ => some ((s.setConn k { c with lock := some w, wakes := c.wakes ++ [evs] }).setPhase w .leaving)
  | .live conn =>
    some ((s.setConn k { c with slot := (Slot.live conn).wake evs, lock := some w, wakes := c.wakes ++ [evs] }).setPhase w .flushing)

/-- One step; `none`: it is not possible now. -/
def step (prof : Profile) (rt : Router σ) (s : Net σ) : NAct → Option (Net σ)
  | .accept offer grow growOk flushes => some { s with conns := s.conns ++ [fresh offer grow growOk flushes] }
  | .arrive k ev =>
    match s.conns[k]? with
    | none => none
    | some c =>
      if isLive c.slot && ev != .err .wouldBlock then
        some (s.setConn k { c with slot := receive ev c.slot, edge := true, arrived := c.arrived ++ [ev] })
      else none
  | .notify k =>
    match s.conns[k]? with
    | none => none
    | some c => some (s.setConn k { c with edge := true })
  | .poll ks =>
    if s.batch = [] ∧ ks.length ≤ 128 ∧ ∀ k ∈ ks, (s.conns[k]?.any fun c => c.edge) = true then
      some { s with batch := ks, conns := s.conns.mapIdx fun k c => if k ∈ ks then { c with edge := false } else c }
    else none
  | .dispatch closed =>
    match s.batch with
    | [] => none
    | k :: ks => ({ s with batch := ks } : Net σ).onEvent k closed
  | .stray k closed => s.onEvent k closed
  | .work w =>
    match s.pool.workers[w]? with
    | some (.running _) => none
    | _ => (s.pool.step (.work w false)).map fun pool => { s.setPhase w .enter with pool }
  | .lock w evs =>
    match s.handled w with
    | none => none
    | some k =>
      match s.conns[k]? with
      | none => none
      | some c => if s.phase w = .enter ∧ c.lock = none then s.enter w k c evs else none
  | .go w =>
    match s.handled w with
    | none => none
    | some k =>
      match s.conns[k]? with
      | none => none
      | some c => if c.lock = some w then advance prof rt s w k c else none

end Net

end Verif
