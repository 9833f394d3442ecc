import Verif.Std.Bytes

/-!
`src/util/thread_pool.rs`: the worker threads, the channel, the mutex around its receiver, and the owner of the pool, as
a transition system. Each transition is one action of one thread; a run is any sequence of actions that are
possible one after the other, so every schedule of the threads is covered.

Simplifications: `mpsc` and `Mutex` are taken to behave as documented (a channel is a queue; sending fails once the receiver
is gone; receiving fails once the sender is gone and the queue is empty; a panic while a mutex is locked poisons it).
`ThreadPool` is not `Sync` (it holds an `mpsc::Sender`), so only one thread, the owner, calls `execute` and `drop`.
What a job does is not modelled, only whether it returns or panics; jobs are numbered in the order of submission.
-/

namespace Verif

/-- `Message`, thread_pool.rs 16-21. -/
inductive Msg
  | job (id : Nat)
  | terminate
  deriving DecidableEq, Repr

/-- Where a worker thread is in its loop, thread_pool.rs 79-86. -/
inductive Worker
  /-- At `receiver.lock()`, thread_pool.rs 80. -/
  | idle
  /-- In `recv()`, thread_pool.rs 80, with the mutex locked. -/
  | receiving
  /-- `recv` has returned; the mutex is locked until the end of the statement, thread_pool.rs 80. -/
  | received (m : Msg)
  /-- At the `match`, thread_pool.rs 82; the mutex has been released. -/
  | matching (m : Msg)
  /-- In `job()`, thread_pool.rs 83. -/
  | running (id : Nat)
  /-- The loop was left, thread_pool.rs 84. -/
  | exited
  /-- A job panicked. -/
  | crashed
  /-- An `unwrap` of thread_pool.rs 80 panicked. -/
  | failed
  deriving DecidableEq, Repr

/-- The thread still runs, and so keeps the receiver alive (each has an `Arc` of it; that of `new`, thread_pool.rs 36, is
dropped at the end of `new`). -/
def Worker.alive : Worker → Bool
  | .exited | .crashed | .failed => false
  | _ => true

/-- Where the owner of the pool is. -/
inductive Owner
  /-- Using the pool. -/
  | using
  /-- In `drop`, thread_pool.rs 61-63, with this many `Terminate` messages left to send. -/
  | sending (k : Nat)
  /-- In `drop`, thread_pool.rs 65-69, at this worker. -/
  | joining (i : Nat)
  /-- The pool has been dropped, and so has the sender. -/
  | dropped
  /-- `drop` panicked at an `unwrap`, thread_pool.rs 62 or 67; the sender is dropped when the panic unwinds. -/
  | panicked
  /-- `execute` panicked at its `unwrap`, thread_pool.rs 54; unwinding drops the pool, which panics again, and that ends the
  process. -/
  | failed
  deriving DecidableEq, Repr

/-- The pool. The last fields are not in the program; they record, for statements only, the messages that were sent, were
received, and were destroyed with the receiver, and the jobs that were called, returned and panicked, each in order. -/
structure Pool where
  workers : List Worker
  /-- The worker that holds the mutex. -/
  locked : Option Nat
  poisoned : Bool
  queue : List Msg
  owner : Owner
  sent : List Msg := []
  taken : List Msg := []
  lost : List Msg := []
  started : List Nat := []
  finished : List Nat := []
  crashed : List Nat := []
  deriving DecidableEq, Repr

/-- `ThreadPool::new`, thread_pool.rs 31-45; `none`: the assertion fails. -/
def Pool.new (size : Nat) : Option Pool :=
  if size = 0 then none
  else some { workers := List.replicate size .idle, locked := none, poisoned := false, queue := [], owner := .using }

/-- The receiver is there. -/
def Pool.open (s : Pool) : Bool := s.workers.any Worker.alive

/-- What the threads can do. -/
inductive Act
  /-- The owner calls `execute`. -/
  | execute
  /-- The owner drops the pool. -/
  | drop
  /-- The owner goes on with `drop`. -/
  | own
  /-- A worker does its next step; `panics`: if this is a job, it panics. -/
  | work (i : Nat) (panics : Bool)
  deriving DecidableEq, Repr

/-- The jobs among messages. -/
def jobsOf (ms : List Msg) : List Nat :=
  ms.filterMap fun
    | .job j => some j
    | .terminate => none

/-- A worker stops; when the last one does, the receiver is destroyed with all messages in the channel. -/
def Pool.stop (s : Pool) (i : Nat) (w : Worker) : Pool :=
  let s := { s with workers := s.workers.set i w }
  if s.open then s else { s with queue := [], lost := s.lost ++ s.queue }

/-- The sender is there. -/
def Owner.hasSender : Owner → Bool
  | .dropped | .panicked => false
  | _ => true

/-- One step of worker `i`, thread_pool.rs 79-86. -/
def Pool.work (s : Pool) (i : Nat) (panics : Bool) : Option Pool :=
  match s.workers[i]? with
  | some .idle =>
    if s.locked.isSome then none
    else if s.poisoned then some (s.stop i .failed)
    else some { s with workers := s.workers.set i .receiving, locked := some i }
  | some .receiving =>
    match s.queue with
    | m :: ms => some { s with workers := s.workers.set i (.received m), queue := ms, taken := s.taken ++ [m] }
    | [] => if s.owner.hasSender then none else some { s.stop i .failed with locked := none, poisoned := true }
  | some (.received m) => some { s with workers := s.workers.set i (.matching m), locked := none }
  | some (.matching (.job j)) => some { s with workers := s.workers.set i (.running j), started := s.started ++ [j] }
  | some (.matching .terminate) => some (s.stop i .exited)
  | some (.running j) =>
    if panics then some (({ s with crashed := s.crashed ++ [j] } : Pool).stop i .crashed)
    else some { s with workers := s.workers.set i .idle, finished := s.finished ++ [j] }
  | _ => none

/-- One step of `drop`, thread_pool.rs 60-70. -/
def Pool.own (s : Pool) : Option Pool :=
  match s.owner with
  | .sending 0 => some { s with owner := .joining 0 }
  | .sending (k + 1) =>
    if s.open then some { s with queue := s.queue ++ [.terminate], sent := s.sent ++ [.terminate], owner := .sending k }
    else some { s with owner := .panicked }
  | .joining i =>
    match s.workers[i]? with
    | none => some { s with owner := .dropped }
    | some .exited => some { s with owner := .joining (i + 1) }
    | some w => if w.alive then none else some { s with owner := .panicked }
  | _ => none

/-- One step; `none`: it is not possible now. `execute`: thread_pool.rs 48-55. -/
def Pool.step (s : Pool) : Act → Option Pool
  | .execute =>
    if s.owner = .using then
      let m := Msg.job (jobsOf s.sent).length
      some (if s.open then { s with queue := s.queue ++ [m], sent := s.sent ++ [m] } else { s with owner := .failed })
    else none
  | .drop => if s.owner = .using then some { s with owner := .sending s.workers.length } else none
  | .own => s.own
  | .work i panics => s.work i panics

end Verif
