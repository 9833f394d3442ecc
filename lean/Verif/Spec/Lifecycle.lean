import Verif.Model.Lifecycle
import Verif.Spec.Net

/-! Runs of `listen_http` from its call to its end, for C73. -/

namespace Verif

variable {σ : Type}

/-- The states that a call of `listen_http` can be in. -/
inductive Life.Reach (prof : Profile) (rt : Router σ) (n : Nat) (os : StartError) (s₀ : σ) : Life σ → Prop
  | start {l : Life σ} : Life.start true n os s₀ = some l → Life.Reach prof rt n os s₀ l
  | step {l l' : Life σ} {a : LAct} : Life.Reach prof rt n os s₀ l → l.step prof rt a = some l' → Life.Reach prof rt n os s₀ l'

/-- What happens from one state to another. -/
inductive Life.Steps (prof : Profile) (rt : Router σ) (l : Life σ) : Life σ → Prop
  | refl : Life.Steps prof rt l l
  | step {l' l'' : Life σ} {a : LAct} : Life.Steps prof rt l l' → l'.step prof rt a = some l'' → Life.Steps prof rt l l''

/-- Something refers to connection `k`: the table, or a job that waits or is run. Otherwise it has been dropped, and its socket is closed. -/
def Life.Held (l : Life σ) (k : Nat) : Prop :=
  (∃ c, l.net.conns[k]? = some c ∧ c.inTable = true) ∨
    ∃ j a, l.net.jobs[j]? = some (k, a) ∧ (.job j ∈ l.net.pool.queue ∨
      ∃ w ∈ l.net.pool.workers, w = .received (.job j) ∨ w = .matching (.job j) ∨ w = .running j)

/-- An infinite run: at each time something happens or nothing does. -/
structure Life.Run (prof : Profile) (rt : Router σ) (n : Nat) (os : StartError) (s₀ : σ) where
  at_ : Nat → Life σ
  act : Nat → Option LAct
  start : Life.start true n os s₀ = some (at_ 0)
  next : ∀ t, match act t with
    | none => at_ (t + 1) = at_ t
    | some a => (at_ t).step prof rt a = some (at_ (t + 1))

/-- The threads go on. -/
structure Life.Run.Fair {prof : Profile} {rt : Router σ} {n : Nat} {os : StartError} {s₀ : σ} (r : Life.Run prof rt n os s₀) : Prop where
  /-- A worker that is not in a handler and can go on at all times does so. -/
  workers : ∀ t w, (∀ t' ≥ t, (r.at_ t').step prof rt (.net (.work w)) ≠ none) → ∃ t' ≥ t, r.act t' = some (.net (.work w))
  /-- Every handler returns or panics. -/
  returns : ∀ t w j : Nat, (r.at_ t).net.pool.workers[w]? = some (.running j) → ∃ t' ≥ t, (r.at_ t').net.pool.workers[w]? ≠ some (.running j)
  /-- The thread that called `listen_http` goes on with dropping the pool when it can. -/
  owner : ∀ t, (∀ t' ≥ t, (r.at_ t').step prof rt .own ≠ none) → ∃ t' ≥ t, r.act t' = some .own

end Verif
