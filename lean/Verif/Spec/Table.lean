import Verif.Model.Slab

/-!
Tables, declaratively.
-/

namespace Verif

/-- What has been done with a table and what it answered. -/
inductive TableOp (T : Type)
  | inserted (key : Nat) (x : T)
  | removed (key : Nat) (answer : Option T)

/-- What a finite map holds under `k` after these operations, the latest first. -/
def holds {T : Type} (k : Nat) : List (TableOp T) → Option T
  | [] => none
  | .inserted key x :: h => if k = key then some x else holds k h
  | .removed key _ :: h => if k = key then none else holds k h

/-- The number of elements held. -/
def liveCount {T : Type} : List (TableOp T) → Nat
  | [] => 0
  | .inserted _ _ :: h => liveCount h + 1
  | .removed _ (some _) :: h => liveCount h - 1
  | .removed _ none :: h => liveCount h

/-- The largest number of elements held at any time. -/
def peak {T : Type} : List (TableOp T) → Nat
  | [] => 0
  | o :: h => max (liveCount (o :: h)) (peak h)

/-- The slab after some operations, the latest first. -/
inductive SlabAfter {T : Type} : List (TableOp T) → Slab T → Prop
  | new : SlabAfter [] .new
  | insert {h : List (TableOp T)} {s s' : Slab T} {x : T} {k : Nat} : SlabAfter h s →
      s.insert x = some (s', k) → SlabAfter (.inserted k x :: h) s'
  | remove {h : List (TableOp T)} {s s' : Slab T} {k : Nat} {o : Option T} : SlabAfter h s →
      s.remove k = (o, s') → SlabAfter (.removed k o :: h) s'

end Verif
