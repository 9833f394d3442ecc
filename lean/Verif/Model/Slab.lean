/-!
`src/server/slab.rs` and `src/server/poll.rs`.
-/

namespace Verif

/-- `Slab`, slab.rs 5-8. -/
structure Slab (T : Type) where
  data : List (Option T)
  openSlots : List Nat
  deriving DecidableEq, Repr

namespace Slab

variable {T : Type}

/-- `Slab::with_capacity`, slab.rs 12-14; capacity is not modelled. -/
def new : Slab T := ⟨[], []⟩

/-- `Slab::next_key`, slab.rs 17-19. -/
def nextKey (self : Slab T) : Nat := self.openSlots.head?.getD self.data.length

/-- `Slab::insert`, slab.rs 23-31: the new slab and the key; `none` is the panic of `unwrap`. -/
def insert (self : Slab T) (inner : T) : Option (Slab T × Nat) :=
  match self.openSlots with
  | index :: openSlots =>
    if index < self.data.length then some (⟨self.data.set index (some inner), openSlots⟩, index) else none
  | [] => some (⟨self.data ++ [some inner], []⟩, self.data.length)

/-- `Slab::get`, slab.rs 34-36. -/
def get (self : Slab T) (key : Nat) : Option T := self.data[key]?.bind id

/-- `Slab::remove`, slab.rs 39-47. -/
def remove (self : Slab T) (key : Nat) : Option T × Slab T :=
  match self.data[key]? with
  | some (some x) => (some x, ⟨self.data.set key none, key :: self.openSlots⟩)
  | _ => (none, self)

end Slab

/-- `LISTENER_TOKEN`, poll.rs 17 (`usize::MAX`). -/
def listenerToken : Nat := 2 ^ 64 - 1

/-- One result of `listener.accept()`, poll.rs 66-74, with the outcome of registering the new stream, poll.rs
39. The loop ends at the first `WouldBlock`, so the results before it are a list. -/
inductive Accept (C : Type)
  | ok (conn : C) (registered : Bool)
  | err

/-- A readiness event as delivered by `poll`, poll.rs 34-46, and what `accept` will give if it is handled by
the listener. -/
structure PollEvent (C : Type) where
  token : Nat
  writeClosed : Bool
  accepts : List (Accept C)

variable {C : Type}

/-- The closure of `listen_until_blocked`, poll.rs 37-42 and 64-76: `none` is a panic. A stream that cannot
be registered is dropped. -/
def acceptAll : List (Accept C) → Slab C → Option (Slab C)
  | [], s => some s
  | .ok c true :: as, s => (s.insert c).bind fun x => acceptAll as x.1
  | .ok _ false :: as, s => acceptAll as s
  | .err :: as, s => acceptAll as s

/-- The event handler of `listen`, poll.rs 34-46: the new table and the connection that `on_io_ready` is called
with, if any. -/
def onEvent (e : PollEvent C) (s : Slab C) : Option (Slab C × Option C) :=
  if e.token = listenerToken then (acceptAll e.accepts s).map fun s => (s, none)
  else if e.writeClosed then some ((s.remove e.token).2, none)
  else some (s, s.get e.token)

/-- `poll_events`, poll.rs 51-61, on the events delivered so far: the table and the calls of `on_io_ready`. -/
def onEvents : List (PollEvent C) → Slab C → Option (Slab C × List C)
  | [], s => some (s, [])
  | e :: es, s => (onEvent e s).bind fun x => (onEvents es x.1).map fun y => (y.1, x.2.toList ++ y.2)

/-- The event loop together with the sockets that the operating system has registered and their tokens.
A socket stays registered until its file descriptor is closed, that is until the last owner of the
connection drops it: the table, or a worker still handling it (server.rs 61-65). -/
structure Loop (C : Type) where
  slab : Slab C
  registered : List (C × Nat)

/-- What a step of the event loop did. -/
inductive LoopAct (C : Type)
  | other
  /-- An event of this socket made the loop call `on_io_ready` on that connection. -/
  | call (socket : C) (conn : Option C)
  /-- A hang-up of this socket made the loop drop that connection. -/
  | drop (socket : C) (conn : Option C)
  deriving DecidableEq

/-- The steps of the event loop, poll.rs 34-46. With `prompt`, a socket is closed as soon as the table drops
its connection, that is no worker still holds it; without, that may happen later. -/
inductive LoopStep {C : Type} (prompt : Bool) : Loop C → LoopAct C → Loop C → Prop
  | accept {l : Loop C} {c : C} {s' : Slab C} {k : Nat} : (∀ t, (c, t) ∉ l.registered) →
      l.slab.insert c = some (s', k) → LoopStep prompt l .other ⟨s', (c, l.slab.nextKey) :: l.registered⟩
  | ready {l : Loop C} {c : C} {t : Nat} : (c, t) ∈ l.registered →
      LoopStep prompt l (.call c (l.slab.get t)) l
  | hangUp {l : Loop C} {c : C} {t : Nat} {regs : List (C × Nat)} : (c, t) ∈ l.registered →
      (∀ x, x ∈ regs ↔ x ∈ l.registered ∧ (prompt = true → x.2 ≠ t)) →
      LoopStep prompt l (.drop c (l.slab.remove t).1) ⟨(l.slab.remove t).2, regs⟩
  | closed {l : Loop C} {regs : List (C × Nat)} : (∀ x, x ∈ regs → x ∈ l.registered) →
      LoopStep prompt l .other ⟨l.slab, regs⟩

/-- The event loop after some steps; the last component is what the last step did. -/
inductive LoopAfter {C : Type} (prompt : Bool) : Loop C → LoopAct C → Prop
  | start : LoopAfter prompt ⟨.new, []⟩ .other
  | step {l l' : Loop C} {a a' : LoopAct C} : LoopAfter prompt l a → LoopStep prompt l a' l' → LoopAfter prompt l' a'

end Verif
