import Verif.Model.Client

/-!
`Client`, `src/client/client.rs` 40-92: threads that share one client and its connections, as a transition system. Each
transition is one action of one thread; a run is any sequence of actions that are possible one after the other, so every
schedule of the threads is covered.

Simplifications: `Mutex` is taken to behave as documented (`try_lock` fails if the mutex is locked, and if a thread
panicked while it had it locked). What a call of `Connection::send` does while it has its connection locked is one
transition; that it takes time is in the model, because the connection stays locked between `look` and `finish`. The stream
factory is shared by all connections; what it does during one call is an arbitrary script given with `finish`.
-/

namespace Verif

/-- The state of the mutex of a connection. -/
inductive CLock
  | free
  /-- Locked by this thread. -/
  | held (thread : Nat)
  | poisoned
  deriving DecidableEq, Repr

/-- Where a thread is in `Client::send`, client.rs 84-91. -/
inductive CThread
  /-- Not in `send`. -/
  | idle
  /-- In `free.next()`, client.rs 87, about to try connection `i`, or at the end of the connections. -/
  | scanning (q : Request) (i : Nat)
  /-- In `conn.send`, client.rs 88, with connection `i` locked. -/
  | sending (q : Request) (i : Nat)
  /-- `conn.send` panicked. -/
  | panicked
  deriving DecidableEq

/-- One call of `Connection::send` that has ended: the connection, the thread, the request, what the stream factory did, and
the result. -/
structure Sent where
  conn : Nat
  thread : Nat
  request : Request
  script : List CreateEnd
  result : SendEnd

/-- `Client`, client.rs 41-48, and the threads that use it. `log` is not in the program; it records, for statements only, the
calls of `Connection::send` in the order in which they ended. -/
structure CPool where
  conns : List ClientConn
  locks : List CLock
  threads : List CThread
  log : List Sent

/-- `Client::new`, client.rs 68-77, used by `threads` threads; `none`: the assertion fails. -/
def CPool.new (numConnections threads : Nat) : Option CPool :=
  if numConnections = 0 then none
  else some ⟨List.replicate numConnections .new, List.replicate numConnections .free, List.replicate threads .idle, []⟩

/-- What the threads can do. -/
inductive CAct
  /-- Call `send`. -/
  | call (t : Nat) (q : Request)
  /-- Try the next connection. -/
  | look (t : Nat)
  /-- `Connection::send` ends, while the stream factory does what the script says. -/
  | finish (t : Nat) (script : List CreateEnd)

/-- One step; `none`: it is not possible now. -/
def CPool.step (prof : Profile) (s : CPool) : CAct → Option CPool
  | .call t q =>
    match s.threads[t]? with
    | some .idle => some { s with threads := s.threads.set t (.scanning q 0) }
    | _ => none
  | .look t =>
    match s.threads[t]? with
    | some (.scanning q i) =>
      match s.locks[i]? with
      | some .free => some { s with locks := s.locks.set i (.held t), threads := s.threads.set t (.sending q i) }
      | some _ => some { s with threads := s.threads.set t (.scanning q (i + 1)) }
      | none => some { s with threads := s.threads.set t (.scanning q 0) }
    | _ => none
  | .finish t script =>
    match s.threads[t]? with
    | some (.sending q i) =>
      match s.conns[i]? with
      | none => none
      | some c =>
        let (x, c', _) := c.send prof script q
        let log := s.log ++ [⟨i, t, q, script, x⟩]
        match x with
        | .panic => some { conns := s.conns.set i c', locks := s.locks.set i .poisoned, threads := s.threads.set t .panicked, log }
        | .diverge => none
        | _ => some { conns := s.conns.set i c', locks := s.locks.set i .free, threads := s.threads.set t .idle, log }
    | _ => none

end Verif
