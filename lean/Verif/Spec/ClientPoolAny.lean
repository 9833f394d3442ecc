import Verif.Model.ClientPoolAny
import Verif.Spec.ClientPool
import Verif.Spec.HttpsEndToEnd
import Verif.Spec.ClientCalls

/-! Vocabulary for C84: threads that share a client over streams of any kind. -/

namespace Verif

variable {T F : Type}

/-- The states a client with `n` connections that is used by `m` threads can be in. -/
inductive APool.Reach [RawIO T] [AnyFactory T F] (prof : Profile) (offer : Nat → Nat) (n m : Nat) : APool T F → Prop
  | new {s : APool T F} : APool.new n m = some s → APool.Reach prof offer n m s
  | step {s s' : APool T F} {a : PAct T F} : APool.Reach prof offer n m s → s.step prof offer a = some s' → APool.Reach prof offer n m s'

/-- How many threads are sending. -/
def APool.inFlight (s : APool T F) : Nat :=
  s.threads.countP fun
    | .sending _ _ => true
    | _ => false

/-- The calls on connection `i` that have ended. -/
def APool.sentOn (i : Nat) (s : APool T F) : List (ASent T F) := s.log.filter fun e => e.conn = i

/-- A call as it is seen from outside. -/
def ASent.call (e : ASent T F) : Call := ⟨e.request, e.result, e.opened⟩

/-- What a factory makes when it is used several times. -/
inductive AnyFactory.Runs [AnyFactory T F] : F → List (CreateEnd T) → F → Prop
  | nil {f : F} : Runs f [] f
  | cons {f f₁ f' : F} {x : CreateEnd T} {xs : List (CreateEnd T)} : AnyFactory.create f = (x, f₁) → Runs f₁ xs f' → Runs f (x :: xs) f'

/-- The call was one of a client that was made with `new_https`: its factory has the configuration of the client, and what its TCP streams reach is new. -/
def ASent.Https (cfg : ClientConfig) (e : ASent TlsStream TlsStreamFactory) (connects : List (Except IoError TlsPeer)) : Prop :=
  e.env = id ∧ TlsStreamFactory.new cfg connects = some e.factory ∧ ∀ p, .ok p ∈ connects → p.sock.sent = []

/-- Steps of a client, with `P` before each. -/
inductive APool.Path [RawIO T] [AnyFactory T F] (prof : Profile) (offer : Nat → Nat) (P : APool T F → Prop) : APool T F → List (PAct T F) → APool T F → Prop
  | nil {s : APool T F} : APool.Path prof offer P s [] s
  | cons {s s₁ s' : APool T F} {a : PAct T F} {as : List (PAct T F)} : P s → s.step prof offer a = some s₁ → APool.Path prof offer P s₁ as s' → APool.Path prof offer P s (a :: as) s'

/-- How often a thread looks for a connection. -/
def PAct.looks (t : Nat) : List (PAct T F) → Nat
  | [] => 0
  | .look t' :: as => (if t' = t then 1 else 0) + looks t as
  | _ :: as => looks t as

end Verif
