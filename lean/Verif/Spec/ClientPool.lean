import Verif.Model.ClientPool

/-! Runs of threads that share a client, for the statements about them. -/

namespace Verif

/-- The states a client with `n` connections that is used by `m` threads can be in. -/
inductive CPool.Reach (prof : Profile) (n m : Nat) : CPool → Prop
  | new {s : CPool} : CPool.new n m = some s → CPool.Reach prof n m s
  | step {s s' : CPool} {a : CAct} : CPool.Reach prof n m s → s.step prof a = some s' → CPool.Reach prof n m s'

/-- A run from one state to another, with something that holds before every step. -/
inductive CPool.Path (prof : Profile) (P : CPool → Prop) : CPool → List CAct → CPool → Prop
  | nil {s : CPool} : CPool.Path prof P s [] s
  | cons {s s₁ s' : CPool} {a : CAct} {as : List CAct} : P s → s.step prof a = some s₁ → CPool.Path prof P s₁ as s' →
      CPool.Path prof P s (a :: as) s'

/-- How often a thread looks for a connection. -/
def looks (t : Nat) : List CAct → Nat
  | [] => 0
  | .look t' :: as => (if t' = t then 1 else 0) + looks t as
  | _ :: as => looks t as

/-- How many threads are sending. -/
def CPool.inFlight (s : CPool) : Nat :=
  s.threads.countP fun
    | .sending _ _ => true
    | _ => false

/-- What the calls of `send` on connection `i` make of a connection, one after the other. -/
def replay (prof : Profile) (i : Nat) : List Sent → ClientConn → ClientConn
  | [], c => c
  | e :: es, c => replay prof i es (if e.conn = i then (c.send prof e.script e.request).2.1 else c)

/-- The results in a log are those of calling `send` on connection `i` for one request after the other. -/
def Replayed (prof : Profile) (i : Nat) : List Sent → ClientConn → Prop
  | [], _ => True
  | e :: es, c => if e.conn = i then (c.send prof e.script e.request).1 = e.result ∧
      Replayed prof i es (c.send prof e.script e.request).2.1 else Replayed prof i es c

end Verif
