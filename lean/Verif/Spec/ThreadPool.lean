import Verif.Model.ThreadPool

/-! Runs of the thread pool, for the statements about it. -/

namespace Verif

/-- The states a pool of `n` workers can be in. -/
inductive Pool.Reach (n : Nat) : Pool → Prop
  | new {s : Pool} : Pool.new n = some s → Pool.Reach n s
  | step {s s' : Pool} {a : Act} : Pool.Reach n s → s.step a = some s' → Pool.Reach n s'

/-- What happens from one state to another. -/
inductive Pool.Steps : Pool → Pool → Prop
  | refl {s : Pool} : Pool.Steps s s
  | step {s s' s'' : Pool} {a : Act} : Pool.Steps s s' → s'.step a = some s'' → Pool.Steps s s''

/-- The jobs that were submitted, in order. -/
def Pool.submitted (s : Pool) : List Nat := jobsOf s.sent

/-- Worker `i` can do something. -/
def Pool.CanWork (s : Pool) (i : Nat) : Prop := ∃ p, s.work i p ≠ none

/-- An infinite run of a pool: at each time one thread does something, or none does. -/
structure Pool.Run (n : Nat) where
  at_ : Nat → Pool
  act : Nat → Option Act
  start : Pool.new n = some (at_ 0)
  next : ∀ t, match act t with
    | none => at_ (t + 1) = at_ t
    | some a => (at_ t).step a = some (at_ (t + 1))

/-- Fair to the workers: a worker that can always do something from some time on does something. In particular every
job returns or panics. -/
def Pool.Run.Fair {n : Nat} (r : Pool.Run n) : Prop :=
  ∀ i t, (∀ t' ≥ t, (r.at_ t').CanWork i) → ∃ t' ≥ t, ∃ p, r.act t' = some (.work i p)

/-- Fair to the owner once it drops the pool. -/
def Pool.Run.OwnerFair {n : Nat} (r : Pool.Run n) : Prop :=
  ∀ t, (∀ t' ≥ t, (r.at_ t').own ≠ none) → ∃ t' ≥ t, r.act t' = some .own

end Verif
