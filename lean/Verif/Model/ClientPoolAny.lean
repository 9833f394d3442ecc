import Verif.Model.ClientPool
import Verif.Spec.ClientAny

/-!
`Client`, `src/client/client.rs` 40-92, over streams of any kind, so also as made by `new_https`: threads that share one client and its connections. In `Verif.Model.ClientPool` the streams are scripted and in two
parts; the steps and the simplifications are as there. The streams note what is read from them and written to them, for statements only.

The stream factory is shared by all connections and its state is that of the world. So that the world can do anything between any two things that threads do, each call is given a state of the factory of its own,
and the raw stream of the connection changes in any way before the call.
-/

namespace Verif

/-- One call of `Connection::send` that has ended, as `Sent`: with what happened to the raw stream before it, the rounds its loops had, the state of the factory, and how many streams the connection had opened in the end. -/
structure ASent (T F : Type) where
  conn : Nat
  thread : Nat
  env : T → T
  rounds : Nat
  factory : F
  request : Request
  result : SendEnd
  opened : Nat

/-- `Client`, client.rs 41-48, and the threads that use it. `log` is not in the program; it records, for statements only, the calls of `Connection::send` in the order in which they ended. -/
structure APool (T F : Type) where
  conns : List (AnyConn (Traced T))
  locks : List CLock
  threads : List CThread
  log : List (ASent T F)

/-- `Client::new`, client.rs 68-77, used by `threads` threads; `none`: the assertion fails. -/
def APool.new {T F : Type} (numConnections threads : Nat) : Option (APool T F) :=
  if numConnections = 0 then none
  else some ⟨List.replicate numConnections .new, List.replicate numConnections .free, List.replicate threads .idle, []⟩

/-- What the threads can do, as `CAct`. -/
inductive PAct (T F : Type)
  /-- Call `send`. -/
  | call (t : Nat) (q : Request)
  /-- Try the next connection. -/
  | look (t : Nat)
  /-- `Connection::send` ends. -/
  | finish (t : Nat) (env : T → T) (n : Nat) (f : F)

/-- One step, client.rs 84-91; `none`: it is not possible now. A call whose loops go on for more rounds than they have has not ended. -/
def APool.step {T F : Type} [RawIO T] [AnyFactory T F] (prof : Profile) (offer : Nat → Nat) (s : APool T F) : PAct T F → Option (APool T F)
  | .call t q =>
    match s.threads[t]? with
    | some .idle => some { s with threads := s.threads.set t (.scanning q 0) }
    | _ => none
  | .look t =>
    match s.threads[t]? with
    | some (.scanning q i) =>
      match s.locks[i]? with
      | some .free => some { s with locks := s.locks.set i (.held t), threads := s.threads.set t (.sending q i) }
      | some _ => some { s with threads := s.threads.set t (.scanning q (i + 1)) }
      | none => some { s with threads := s.threads.set t (.scanning q 0) }
    | _ => none
  | .finish t env n f =>
    match s.threads[t]? with
    | some (.sending q i) =>
      match s.conns[i]? with
      | none => none
      | some c =>
        let (x, c', _) := (c.turn env n).send prof offer n f q
        let log := s.log ++ [⟨i, t, env, n, f, q, x, c'.all.length⟩]
        if c'.all.any fun y => y.shared.hung then none
        else match x with
          | .panic => some { conns := s.conns.set i c', locks := s.locks.set i .poisoned, threads := s.threads.set t .panicked, log }
          | .diverge => none
          | _ => some { conns := s.conns.set i c', locks := s.locks.set i .free, threads := s.threads.set t .idle, log }
    | _ => none

end Verif
