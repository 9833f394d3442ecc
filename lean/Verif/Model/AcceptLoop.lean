import Verif.Model.Slab

/-!
`listen_until_blocked`, `src/server/poll.rs` 63-76, without the assumption of `Verif.Model.Slab` that `accept` reports `WouldBlock`
at some time: what `accept` does is an infinite sequence.
-/

namespace Verif

variable {C : Type}

/-- One result of `listener.accept()`, poll.rs 66. -/
inductive AcceptResult (C : Type)
  | got (a : Accept C)
  | wouldBlock

/-- The loop of `listen_until_blocked`, poll.rs 65-75, for `f` calls of `accept` from call `i` on. `none`: it has not returned; `some none`: a panic. -/
def acceptLoop (rs : Nat → AcceptResult C) : Nat → Nat → Slab C → Option (Option (Slab C))
  | 0, _, _ => none
  | f + 1, i, s =>
    match rs i with
    | .wouldBlock => some (some s)
    | .got (.ok c true) =>
      match s.insert c with
      | none => some none
      | some (s, _) => acceptLoop rs f (i + 1) s
    | .got (.ok _ false) => acceptLoop rs f (i + 1) s
    | .got .err => acceptLoop rs f (i + 1) s

/-- A readiness event, and what the calls of `accept` do if it is handled by the listener. -/
structure LiveEvent (C : Type) where
  token : Nat
  writeClosed : Bool
  accepts : Nat → AcceptResult C

/-- The event handler of `listen`, poll.rs 34-46, with `f` calls of `accept` for each event. -/
def onLiveEvent (f : Nat) (e : LiveEvent C) (s : Slab C) : Option (Option (Slab C × Option C)) :=
  if e.token = listenerToken then (acceptLoop e.accepts f 0 s).map fun x => x.map fun s => (s, none)
  else if e.writeClosed then some (some ((s.remove e.token).2, none))
  else some (some (s, s.get e.token))

/-- `poll_events`, poll.rs 51-61, on some events: the table and the calls of `on_io_ready`. -/
def onLiveEvents (f : Nat) : List (LiveEvent C) → Slab C → Option (Option (Slab C × List C))
  | [], s => some (some (s, []))
  | e :: es, s =>
    match onLiveEvent f e s with
    | none => none
    | some none => some none
    | some (some (s, c)) => (onLiveEvents f es s).map fun x => x.map fun x => (x.1, c.toList ++ x.2)

end Verif
