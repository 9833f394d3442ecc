import Verif.Model.Net
import Verif.Model.Shared
import Verif.Model.Tls

/-!
The whole server over streams of any kind, as it is in the program: `listen_abstract` (`src/server/server.rs` 47-66) is generic in the type of the streams, and `listen_https` uses
it with TLS streams. In `Verif.Model.Net` each stream is scripted and in two parts. Everything else is as there: the steps, who can interfere where, and the simplifications. The
event loop, the thread pool and the cutting of a handler into steps are the same.

A handler that does not put a connection back drops it, and then its stream does what it does when it is dropped. A connection that is not in the table any more is dropped with the
last job for it. This is no step: `AConn.letGo` says what becomes of the connection; as nothing uses it then (C85) it does not matter when it happens.
-/

namespace Verif

/-- An accepted connection, as `NConn`. While a handler has taken it out of the mutex, server.rs 85, it is still recorded in `slot`. -/
structure AConn (T : Type) where
  slot : Slot (Shared (ServerStack T)) Unit
  /-- The worker that holds the mutex. -/
  lock : Option Nat
  /-- The connection is in the table of the event loop. -/
  inTable : Bool
  /-- The socket is on the list of ready sockets of the operating system. -/
  edge : Bool

/-- The server, as `Net`. -/
structure ANet (T σ : Type) where
  pool : Pool
  /-- The jobs submitted to the pool: the connections. -/
  jobs : List Nat
  phase : Nat → Phase
  conns : List (AConn T)
  /-- The events that `poll` returned and that were not handled yet, poll.rs 57: connections. -/
  batch : List Nat
  /-- The listeners' state. -/
  state : σ
  /-- For statements only: the requests the router was asked about, in order, with the connection and the listeners' state. -/
  asks : List (Nat × Request × σ)

/-- What can happen, as `NAct`. -/
inductive AAct (T : Type)
  /-- A connection is accepted and registered, poll.rs 37-42; `t` is what `on_new_connection` makes of it, server.rs 56. -/
  | accept (offer : Nat → Nat) (grow : Nat → Nat → Nat) (growOk : ∀ c n, c ≤ grow c n) (t : T)
  /-- The raw stream of a connection changes: something arrives, there is room to write again, or anything else. -/
  | change (k : Nat) (env : T → T)
  /-- The operating system reports a connection. -/
  | notify (k : Nat)
  /-- `poll` returns, poll.rs 55. -/
  | poll (ks : List Nat)
  /-- The event loop handles the next event, poll.rs 44-45. -/
  | dispatch (closed : Bool)
  /-- The event loop handles an event of an old socket as one of this connection. -/
  | stray (k : Nat) (closed : Bool)
  /-- A worker that is not in a handler does its next step. -/
  | work (w : Nat)
  /-- A worker gets the mutex of the connection, server.rs 83. -/
  | lock (w : Nat)
  /-- A worker that has the mutex does its next step; the loops in it get `rounds` rounds. -/
  | go (w : Nat) (rounds : Nat)

namespace ANet

variable {T σ : Type}

/-- `listen_abstract` before anything happened, server.rs 48-52; `none`: no worker threads, a panic. -/
def new (n : Nat) (s : σ) : Option (ANet T σ) :=
  (Pool.new n).map fun pool => { pool, jobs := [], phase := fun _ => .enter, conns := [], batch := [], state := s, asks := [] }

/-- A new connection: server.rs 55-60 and 69-79. -/
def fresh (offer : Nat → Nat) (grow : Nat → Nat → Nat) (t : T) : AConn T :=
  { slot := .live (Conn.new ⟨[], offer, 0, false, ServerStack.new grow t⟩ ()), lock := none, inTable := true, edge := true }

/-- The raw stream of a connection changes. -/
def changedConn (env : T → T) (c : SharedConn (ServerStack T)) : SharedConn (ServerStack T) :=
  { c with reader := { c.reader with stream := ⟨{ c.reader.stream.val with
      inner := ⟨{ c.reader.stream.val.inner.val with inner := env c.reader.stream.val.inner.val.inner }⟩ }⟩ } }

/-- The same; that of a connection that was dropped too, which makes no difference as it is not used any more. -/
def changed (env : T → T) : Slot (Shared (ServerStack T)) Unit → Slot (Shared (ServerStack T)) Unit
  | .live c => .live (changedConn env c)
  | .gone c => .gone (changedConn env c)
  | .poisoned c => .poisoned (changedConn env c)

/-- A connection that a handler took out of the mutex, server.rs 85, is dropped, at its `return`, server.rs 88, at the end of the block, server.rs 98, or by a panic. Its buffers do nothing (`BufReader` and
`NonBlockingBufWriter` have no `Drop`; what the latter holds is lost), the raw stream may. -/
def droppedConn [RawIO T] (c : SharedConn (ServerStack T)) : SharedConn (ServerStack T) := changedConn RawIO.dropped c

/-- Change connection `k`. -/
def setConn (s : ANet T σ) (k : Nat) (c : AConn T) : ANet T σ := { s with conns := s.conns.set k c }

/-- Change where worker `w` is. -/
def setPhase (s : ANet T σ) (w : Nat) (p : Phase) : ANet T σ := { s with phase := fun w' => if w' = w then p else s.phase w' }

/-- `on_io_ready`, server.rs 61-65, or the removal from the table, poll.rs 44-45, for connection `k`. -/
def onEvent (s : ANet T σ) (k : Nat) (closed : Bool) : Option (ANet T σ) :=
  match s.conns[k]? with
  | none => none
  | some c =>
    if !c.inTable then some s
    else if closed then some (s.setConn k { c with inTable := false })
    else
      match s.pool.step .execute with
      | none => none
      | some pool => some { s with pool, jobs := if pool.owner = .using then s.jobs ++ [k] else s.jobs }

/-- The connection that worker `w` handles. -/
def handled (s : ANet T σ) (w : Nat) : Option Nat :=
  match s.pool.workers[w]? with
  | some (.running j) => s.jobs[j]?
  | _ => none

variable [RawIO T]

/-- A handler that has the mutex ends by a panic: the mutex is poisoned, the connection is dropped, the worker ends. -/
def crash (s : ANet T σ) (w k : Nat) (c : AConn T) (conn : SharedConn (ServerStack T)) : Option (ANet T σ) :=
  (s.pool.step (.work w true)).map fun pool => { s.setConn k { c with slot := .poisoned (droppedConn conn), lock := none } with pool }

/-- Go on with a connection, unless one of its loops did not return within its rounds. -/
def unlessHung (r : Shared (ServerStack T)) (s : ANet T σ) : Option (ANet T σ) := if r.hung then none else some s

/-- The next step of a handler that has the mutex, server.rs 85-117. -/
def advance (prof : Profile) (rt : Router σ) (s : ANet T σ) (w k : Nat) (c : AConn T) (rounds : Nat) : Option (ANet T σ) :=
  match s.phase w, c.slot with
  | .flushing, .live conn =>
    match Write.flush { conn.reader with rounds } with
    | (.error _, r) => unlessHung r ((s.setConn k { c with slot := .gone (droppedConn { conn with reader := r }) }).setPhase w .leaving)
    | (.ok (), r) => unlessHung r ((s.setConn k { c with slot := .live { conn with reader := r } }).setPhase w .reading)
  | .reading, .live conn =>
    match ({ conn with reader := { conn.reader with rounds } } : SharedConn (ServerStack T)).readRequest prof with
    | (.ready q, conn) => some ((s.setConn k { c with slot := .live conn }).setPhase w (.asked q))
    | (.notReady, conn) => some ((s.setConn k { c with slot := .live conn }).setPhase w .leaving)
    | (.closed, conn) => some ((s.setConn k { c with slot := .gone (droppedConn conn) }).setPhase w .leaving)
    | (.error _, conn) =>
      match writeErrorResponse conn.reader with
      | (.diverge, _) => none
      | (_, r) => unlessHung r ((s.setConn k { c with slot := .gone (droppedConn { conn with reader := r }) }).setPhase w .leaving)
    | (.panic, conn) => s.crash w k c conn
    | (.diverge, _) => none
  | .asked q, .live conn =>
    let s₁ := { s with asks := s.asks ++ [(k, q, s.state)], state := (rt.result q s.state).2 }
    match (rt.result q s.state).1 with
    | none => s₁.crash w k c conn
    | some a => some ((s₁.setConn k c).setPhase w (.reply q a))
  | .reply q a, .live conn =>
    match writeAnswer { conn.reader with rounds } a with
    | (.ok, r) =>
      if shouldCloseAfterResponse q then unlessHung r ((s.setConn k { c with slot := .gone (droppedConn { conn with reader := r }) }).setPhase w .leaving)
      else unlessHung r ((s.setConn k { c with slot := .live { conn with reader := r } }).setPhase w .reading)
    | (.err _, r) => unlessHung r ((s.setConn k { c with slot := .gone (droppedConn { conn with reader := r }) }).setPhase w .leaving)
    | (.diverge, _) => none
  | .leaving, _ =>
    (s.pool.step (.work w false)).map fun pool => { (s.setConn k { c with lock := none }).setPhase w .enter with pool }
  | _, _ => none

/-- A worker at `lock().unwrap()`, server.rs 83, when the mutex is free. -/
def enter (s : ANet T σ) (w k : Nat) (c : AConn T) : Option (ANet T σ) :=
  match c.slot with
  | .poisoned _ => (s.pool.step (.work w true)).map fun pool => { s with pool }
  | .gone _ => some ((s.setConn k { c with lock := some w }).setPhase w .leaving)
  | .live _ => some ((s.setConn k { c with lock := some w }).setPhase w .flushing)

/-- One step; `none`: it is not possible now. -/
def step (prof : Profile) (rt : Router σ) (s : ANet T σ) : AAct T → Option (ANet T σ)
  | .accept offer grow _ t => some { s with conns := s.conns ++ [fresh offer grow t] }
  | .change k env =>
    match s.conns[k]? with
    | none => none
    | some c => some (s.setConn k { c with slot := changed env c.slot })
  | .notify k =>
    match s.conns[k]? with
    | none => none
    | some c => some (s.setConn k { c with edge := true })
  | .poll ks =>
    if s.batch = [] ∧ ks.length ≤ 128 ∧ ∀ k ∈ ks, (s.conns[k]?.any fun c => c.edge) = true then
      some { s with batch := ks, conns := s.conns.mapIdx fun k c => if k ∈ ks then { c with edge := false } else c }
    else none
  | .dispatch closed =>
    match s.batch with
    | [] => none
    | k :: ks => ({ s with batch := ks } : ANet T σ).onEvent k closed
  | .stray k closed => s.onEvent k closed
  | .work w =>
    match s.pool.workers[w]? with
    | some (.running _) => none
    | _ => (s.pool.step (.work w false)).map fun pool => { s.setPhase w .enter with pool }
  | .lock w =>
    match s.handled w with
    | none => none
    | some k =>
      match s.conns[k]? with
      | none => none
      | some c => if s.phase w = .enter ∧ c.lock = none then s.enter w k c else none
  | .go w rounds =>
    match s.handled w with
    | none => none
    | some k =>
      match s.conns[k]? with
      | none => none
      | some c => if c.lock = some w then advance prof rt s w k c rounds else none

/-- Nothing holds connection `k` any more: it is not in the table, poll.rs 44, and every job with a clone of its `Arc`, server.rs 62-64, has ended. -/
def Unheld (s : ANet T σ) (k : Nat) : Prop :=
  ∃ c, s.conns[k]? = some c ∧ c.inTable = false ∧ ∀ j : Nat, s.jobs[j]? = some k → j ∈ s.pool.finished ∨ j ∈ s.pool.crashed

/-- The last `Arc` of a connection is dropped, server.rs 59, and with it the connection, if no handler has dropped it before. -/
def _root_.Verif.AConn.letGo (c : AConn T) : AConn T :=
  match c.slot with
  | .live conn => { c with slot := .gone (droppedConn conn) }
  | _ => c

/-- A number of steps. -/
def run (prof : Profile) (rt : Router σ) (s : ANet T σ) : List (AAct T) → Option (ANet T σ)
  | [] => some s
  | a :: as => (s.step prof rt a).bind fun s => run prof rt s as

end ANet

/-- What can happen to a server that was started with `listen_https`, server.rs 41-45. -/
inductive HttpsAct
  /-- A connection is accepted; a new session of the server is made for it, with this cipher, over a socket that will do `evs` and `flushes` with what is written. Nothing has arrived yet. -/
  | accept (offer : Nat → Nat) (grow : Nat → Nat → Nat) (growOk : ∀ c n, c ≤ grow c n) (cipher : Cipher) (evs : List WEv) (flushes : List (Option IoError))
  /-- Something arrives at the socket of a connection. -/
  | arrive (k : Nat) (es : List TlsEv)
  /-- From now on the socket of a connection will do `evs` and `flushes`. -/
  | room (k : Nat) (evs : List WEv) (flushes : List (Option IoError))
  | notify (k : Nat)
  | poll (ks : List Nat)
  | dispatch (closed : Bool)
  | stray (k : Nat) (closed : Bool)
  | work (w : Nat)
  | lock (w : Nat)
  | go (w : Nat) (rounds : Nat)

/-- `listen_https` is `listen_abstract` with sessions over the sockets as streams, server.rs 41-45. -/
def HttpsAct.act : HttpsAct → AAct TlsStream
  | .accept offer grow growOk cipher evs flushes => .accept offer grow growOk (.new cipher false [] ⟨evs, flushes, []⟩)
  | .arrive k es => .change k fun t => { t with input := t.input ++ es }
  | .room k evs flushes => .change k fun t => { t with sock := { t.sock with evs, flushes } }
  | .notify k => .notify k
  | .poll ks => .poll ks
  | .dispatch closed => .dispatch closed
  | .stray k closed => .stray k closed
  | .work w => .work w
  | .lock w => .lock w
  | .go w rounds => .go w rounds

end Verif
