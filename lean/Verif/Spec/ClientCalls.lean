import Verif.Spec.ClientAny
import Verif.Spec.EndToEnd

/-!
Calls of `send` on one connection of the client, however they end, as they are seen from outside.
-/

namespace Verif

/-- A call of `send`: the request, how the call ended, and how many streams the connection has opened until then. So `opened` is the number of the stream that is there when the call ends, and if the call returned a
response then this is the stream it came from. -/
structure Call where
  request : Request
  result : SendEnd
  opened : Nat

/-- The calls that `sendAll` makes. -/
def calls {F : Type} [StreamFactory F] (prof : Profile) : List Request → ClientConn → F → List Call
  | [], _, _ => []
  | q :: qs, c, f =>
    match c.send prof f q with
    | (x, c, f) => ⟨q, x, c.all.length⟩ :: calls prof qs c f

/-- The calls that `AnyConn.sendAll` makes. -/
def AnyConn.calls {T F : Type} [RawIO T] [AnyFactory T F] (prof : Profile) (offer : Nat → Nat) : List ((T → T) × Nat × Request) → AnyConn (Traced T) → F → List Call
  | [], _, _ => []
  | (env, n, q) :: qs, c, f =>
    match (c.turn env n).send prof offer n f q with
    | (x, c, f) => ⟨q, x, c.all.length⟩ :: calls prof offer qs c f

/-- The call with number `i` returned `r`, and no call before it failed on the stream that `r` came from. -/
structure ReturnedCleanly (ks : List Call) (i : Nat) (q : Request) (r : Response) (n : Nat) : Prop where
  call : ks[i]? = some ⟨q, .ok r, n⟩
  clean : ∀ j < i, ∀ k, ks[j]? = some k → k.opened = n → ∃ r', k.result = .ok r'

/-- The exchanges of the first calls, as long as these returned responses. -/
def firstOnes : List Call → List (Request × Response)
  | [] => []
  | k :: ks => match k.result with
    | .ok r => (k.request, r) :: firstOnes ks
    | _ => []

/-- The exchanges on the stream with number `n`, until the first call failed on it. -/
def onStream (n : Nat) (ks : List Call) : List (Request × Response) := firstOnes (ks.filter fun k => k.opened == n)

/-- The request of the call was written whole on the stream that was there when it ended. -/
def Call.Wrote (k : Call) : Prop := (∃ r, k.result = .ok r) ∨ (∃ e, k.result = .err (.reading e)) ∨ ∃ e, k.result = .err (.responseParsing e)

/-- Whenever a call was made on the stream with number `n`, all requests before on this stream were written whole. -/
def WroteWhole (n : Nat) (ks : List Call) : Prop := ∀ k ∈ ks.dropLast, k.opened = n → k.Wrote

end Verif
