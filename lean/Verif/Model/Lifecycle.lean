import Verif.Model.Net

/-!
How the server starts and ends: `listen_http` as a whole, `src/server/server.rs` 36-66 with `src/server/poll.rs` 22-61, around the running server of `Model/Net`.

`listen_http` returns only when `poll` (or something before it) reports an error. The table of connections is then dropped, poll.rs 30, and the
thread pool after it, server.rs 50, whose `drop` lets the workers finish what was submitted and waits for them. A connection is closed
when nothing refers to it any more: neither the table nor a job.

Simplifications: whether `config.addr` is a socket address is a parameter, not its syntax. The table is dropped in one step. That `execute` panics,
which ends the process, is in `Model/ThreadPool`.
-/

namespace Verif

/-- What the operating system answers before the event loop starts, poll.rs 25-28: the error of `bind`, `Poll::new` or `register`, whichever is first. -/
abbrev StartError := Option IoError

/-- Where the event loop is. -/
inductive Stage
  /-- In the loop, poll.rs 54-60. -/
  | serving
  /-- `listen` has returned this error, poll.rs 25-28 or 55; `listen_abstract` is dropping the pool, server.rs 50. -/
  | ending (e : IoError)
  deriving DecidableEq, Repr

/-- A call of `listen_http`. -/
structure Life (σ : Type) where
  net : Net σ
  stage : Stage

/-- How a call of `listen_http` ends. -/
inductive ListenEnd
  | returned (e : IoError)
  | panicked
  deriving DecidableEq, Repr

/-- What can happen. -/
inductive LAct
  /-- Something of the running server. -/
  | net (a : NAct)
  /-- `poll` returns an error, poll.rs 55. -/
  | pollFails (e : IoError)
  /-- The thread that called `listen_http` goes on with dropping the pool. -/
  | own

/-- The event loop does it, poll.rs 36-61. -/
def NAct.ofLoop : NAct → Bool
  | .accept .. | .poll .. | .dispatch .. | .stray .. => true
  | _ => false

namespace Life

variable {σ : Type}

/-- The pool is being dropped, thread_pool.rs 59-63. -/
def dropPool (s : Net σ) : Option (Net σ) := (s.pool.step .drop).map fun pool => { s with pool }

/-- The table of connections is dropped, poll.rs 30. -/
def dropTable (s : Net σ) : Net σ := { s with conns := s.conns.map fun c => { c with inTable := false } }

/-- `listen_abstract` until the event loop runs, server.rs 49-54 and poll.rs 25-30; `addrOk`: `config.addr` is a socket address; `none`: a panic. -/
def start (addrOk : Bool) (n : Nat) (os : StartError) (s₀ : σ) : Option (Life σ) :=
  if addrOk then
    (Net.new n s₀).bind fun s =>
      match os with
      | none => some ⟨s, .serving⟩
      | some e => (dropPool s).map fun s => ⟨s, .ending e⟩
  else none

/-- One step; `none`: it is not possible now. -/
def step (prof : Profile) (rt : Router σ) (l : Life σ) : LAct → Option (Life σ)
  | .net a =>
    if l.stage ≠ .serving ∧ a.ofLoop = true then none
    else (l.net.step prof rt a).map fun s => { l with net := s }
  | .pollFails e =>
    if l.stage = .serving ∧ l.net.batch = [] then (dropPool (dropTable l.net)).map fun s => ⟨s, .ending e⟩ else none
  | .own =>
    if l.stage = .serving then none
    else l.net.pool.own.map fun pool => { l with net := { l.net with pool } }

/-- How the call has ended, if it has. -/
def outcome (l : Life σ) : Option ListenEnd :=
  match l.stage, l.net.pool.owner with
  | .ending e, .dropped => some (.returned e)
  | .ending _, .panicked => some .panicked
  | _, _ => none

end Life

end Verif
