import Verif.Model.Net
import Verif.Spec.Serving
import Verif.Spec.ThreadPool

/-! Runs of the whole server, for the statements about it. -/

namespace Verif

variable {σ : Type}

/-- The states a server with `n` workers can be in. -/
inductive Net.Reach (prof : Profile) (rt : Router σ) (n : Nat) (s₀ : σ) : Net σ → Prop
  | new {s : Net σ} : Net.new n s₀ = some s → Net.Reach prof rt n s₀ s
  | step {s s' : Net σ} {a : NAct} : Net.Reach prof rt n s₀ s → s.step prof rt a = some s' → Net.Reach prof rt n s₀ s'

/-- Worker `w` is using connection `k`: it is handling it and has its mutex. -/
def Net.Uses (s : Net σ) (w k : Nat) : Prop := s.handled w = some k ∧ s.phase w ≠ .enter

/-- Asked about a request of the list with the state that goes with it, `D` answers like `rt` in this state, and goes on to the next. What it
does when it is asked anything else does not matter. -/
def Router.Follows (D : Router (List (Request × σ))) (rt : Router σ) (as : List (Request × σ)) : Prop :=
  ∀ q s ss, (q, s) ∈ as → D.result q ((q, s) :: ss) = ((rt.result q s).1, ss)

/-- The router, asked about the requests of a list, in this order and each in the given state of the listeners; any other question makes it panic. -/
def Router.during (rt : Router σ) : Router (List (Request × σ)) :=
  [([], fun _ q ss => match ss with
    | [] => (none, [])
    | (q', s) :: ss => if q' = q then ((rt.result q s).1, ss) else (none, []))]

/-- The answers of the router do not depend on what it was asked before. -/
def Router.Pure (rt : Router σ) : Prop := ∀ q s s', (rt.result q s).1 = (rt.result q s').1

/-- A connection on which `evs` will be received. -/
def Conn.receiving {W : Type} (c : Conn Rd W) (evs : List Ev) : Conn Rd W :=
  { c with reader := { c.reader with src := { c.reader.src with evs } } }

/-- The same connection but for how its unread input is cut into pieces. -/
structure Conn.Same {W : Type} (c c' : Conn Rd W) : Prop where
  writer : c.writer = c'.writer
  parser : c.parser = c'.parser
  lims : c.reader.lims = c'.reader.lims
  input : c.reader.src.atoms = c'.reader.src.atoms

/-- The same state of a connection, likewise. -/
inductive Slot.Same {W : Type} : Slot Rd W → Slot Rd W → Prop
  | live {c c' : Conn Rd W} : c.Same c' → Slot.Same (.live c) (.live c')
  | gone {c c' : Conn Rd W} : c.Same c' → Slot.Same (.gone c) (.gone c')
  | poisoned {c c' : Conn Rd W} : c.Same c' → Slot.Same (.poisoned c) (.poisoned c')

/-- The router was asked about the requests one after the other, the state each left being the one that the next finds. -/
inductive Asked (rt : Router σ) : σ → List (Nat × Request × σ) → σ → Prop
  | nil {s : σ} : Asked rt s [] s
  | snoc {s₀ s : σ} {as : List (Nat × Request × σ)} {k : Nat} {q : Request} : Asked rt s₀ as s →
      Asked rt s₀ (as ++ [(k, q, s)]) (rt.result q s).2

/-- The requests on connection `k`, with the listeners' states at each. -/
def asksOn (k : Nat) (as : List (Nat × Request × σ)) : List (Request × σ) := (as.filter fun a => a.1 == k).map Prod.snd

/-- Connection `k` is open: the event loop knows it and the server has not closed it. -/
def Net.Open (s : Net σ) (k : Nat) : Prop := ∃ c, s.conns[k]? = some c ∧ c.inTable = true ∧ Net.isLive c.slot = true

/-- Something has arrived on connection `k`, at the socket or in the buffer of the server, that was not looked at yet. -/
def Net.Waiting (s : Net σ) (k : Nat) : Prop := ∃ c conn, s.conns[k]? = some c ∧ c.slot = .live conn ∧ conn.reader.src.atoms ≠ []

/-- Worker `w` has a job for connection `k` and has not yet come to the end of the input. -/
def Net.WillRead (s : Net σ) (w k : Nat) : Prop := ∃ j a, s.jobs[j]? = some (k, a) ∧
  (s.pool.workers[w]? = some (.received (.job j)) ∨ s.pool.workers[w]? = some (.matching (.job j)) ∨
    s.pool.workers[w]? = some (.running j) ∧ s.phase w ≠ .leaving)

/-- The socket of connection `k` is on the list of ready sockets. -/
def Net.Edge (s : Net σ) (k : Nat) : Prop := ∃ c, s.conns[k]? = some c ∧ c.edge = true

/-- An infinite run of a server: at each time something happens or nothing does. -/
structure Net.Run (prof : Profile) (rt : Router σ) (n : Nat) (s₀ : σ) where
  at_ : Nat → Net σ
  act : Nat → Option NAct
  start : Net.new n s₀ = some (at_ 0)
  next : ∀ t, match act t with
    | none => at_ (t + 1) = at_ t
    | some a => (at_ t).step prof rt a = some (at_ (t + 1))

/-- The operating system, the event loop and the workers go on. -/
structure Net.Run.Fair {prof : Profile} {rt : Router σ} {n : Nat} {s₀ : σ} (r : Net.Run prof rt n s₀) : Prop where
  /-- A socket that is ready is reported at some time. -/
  polled : ∀ t k, (r.at_ t).Edge k → ∃ t' ≥ t, ∃ ks, r.act t' = some (.poll ks) ∧ k ∈ ks
  /-- The event loop goes on with the events that were reported. -/
  dispatched : ∀ t, (r.at_ t).batch ≠ [] → ∃ t' ≥ t, ∃ b, r.act t' = some (.dispatch b)
  /-- A worker that is not in a handler and can go on at all times does so. -/
  workers : ∀ t w, (∀ t' ≥ t, (r.at_ t').step prof rt (.work w) ≠ none) → ∃ t' ≥ t, r.act t' = some (.work w)
  /-- Every handler returns or panics. -/
  returns : ∀ t w j : Nat, (r.at_ t).pool.workers[w]? = some (.running j) → ∃ t' ≥ t, (r.at_ t').pool.workers[w]? ≠ some (.running j)

/-- The operating system, the event loop and the workers go on; that handlers return is not assumed. -/
structure Net.Run.Going {prof : Profile} {rt : Router σ} {n : Nat} {s₀ : σ} (r : Net.Run prof rt n s₀) : Prop where
  /-- A socket that is ready is reported at some time. -/
  polled : ∀ t k, (r.at_ t).Edge k → ∃ t' ≥ t, ∃ ks, r.act t' = some (.poll ks) ∧ k ∈ ks
  /-- The event loop goes on with the events that were reported. -/
  dispatched : ∀ t, (r.at_ t).batch ≠ [] → ∃ t' ≥ t, ∃ b, r.act t' = some (.dispatch b)
  /-- A worker that is not in a handler and can go on at all times does so. -/
  workers : ∀ t w, (∀ t' ≥ t, (r.at_ t').step prof rt (.work w) ≠ none) → ∃ t' ≥ t, r.act t' = some (.work w)
  /-- A worker that has the mutex of a connection and can go on at all times does so. -/
  goes : ∀ t w, (∀ t' ≥ t, (r.at_ t').step prof rt (.go w) ≠ none) → ∃ t' ≥ t, r.act t' = some (.go w)
  /-- A worker that waits for a mutex that is free again and again gets it at some time. -/
  locks : ∀ t w, (∀ t' ≥ t, ∃ t'' ≥ t', ∃ evs, (r.at_ t'').step prof rt (.lock w evs) ≠ none) → ∃ t' ≥ t, ∃ evs, r.act t' = some (.lock w evs)

/-- On no connection do things arrive without end. -/
def Net.Run.Ends {prof : Profile} {rt : Router σ} {n : Nat} {s₀ : σ} (r : Net.Run prof rt n s₀) : Prop :=
  ∀ k : Nat, ∃ m, ∀ t c, (r.at_ t).conns[k]? = some c → c.arrived.length ≤ m

/-- The operating system has a reason to report connection `k`: something arrived on it, or it became writable. -/
def NAct.wakes (k : Nat) : NAct → Bool
  | .arrive k' _ => k' == k
  | .notify k' => k' == k
  | _ => false

/-- The jobs that were submitted for connection `k`. -/
def Net.jobsFor (s : Net σ) (k : Nat) : Nat := s.jobs.countP fun x => x.1 == k

end Verif
