import Verif.Model.Message
import Verif.Std.Utf8
import Verif.Std.Str

/-!
`src/server/router.rs`.

A listener is a Rust closure `Fn(&str, &Request) -> ListenerResult`. It may have side effects (through a
mutex, a file, a cache) and may panic, so it is modelled as a function of some state of type `σ`, shared
by all listeners, that returns its result (`none` is a panic) and the new state.
-/

namespace Verif

/-- `str::is_char_boundary`, standard library. -/
def isCharBoundary (s : Bytes) (n : Nat) : Bool :=
  match s[n]? with
  | some b => n == 0 || !isCont b
  | none => n == s.length

/-- `&s[n..]` on a `str`, standard library: `none` is a panic. -/
def sliceFrom (s : Bytes) (n : Nat) : Option Bytes :=
  if isCharBoundary s n then some (s.drop n) else none

/-- `ListenerResult`, router.rs 9-16. -/
inductive ListenerResult
  | next
  | sendResponse (r : Response)
  | sendResponseArc (r : Response)
  deriving DecidableEq, Repr

/-- A listener, router.rs 20. -/
abbrev Listener (σ : Type) := Bytes → Request → σ → Option ListenerResult × σ

/-- `Router`, router.rs 19-27. -/
abbrev Router (σ : Type) := List (Bytes × Listener σ)

namespace Router

variable {σ : Type}

/-- `Router::on_prefix`, router.rs 32-34. -/
def onPrefix (self : Router σ) (uri : Bytes) (listener : Listener σ) : Router σ := self ++ [(uri, listener)]

/-- `Router::on`, router.rs 37-46. -/
def on (self : Router σ) (uri : Bytes) (listener : Listener σ) : Router σ :=
  self.onPrefix b!"" fun routerUri request s =>
    if uri = routerUri then listener routerUri request s else (some .next, s)

/-- `Router::result_internal`, router.rs 70-76. The iterator chain is lazy: a listener is called when `find`
asks for its result, and nothing is called after `find` has succeeded. -/
def resultInternal (uri : Bytes) (request : Request) : Router σ → σ → Option ListenerResult × σ
  | [], s => (some .next, s)
  | (p, listener) :: rest, s =>
    if startsWith uri p then
      match listener uri request s with
      | (some .next, s) => resultInternal uri request rest s
      | x => x
    else resultInternal uri request rest s

/-- `Router::route`, router.rs 61-67. -/
def route (self : Router σ) (uri : Bytes) (router : Router σ) : Router σ :=
  self.onPrefix uri fun requestUri request s =>
    match sliceFrom requestUri uri.length with
    | none => (none, s)
    | some u => resultInternal u request router s

/-- `Router::result`, router.rs 81-83. -/
def result (self : Router σ) (request : Request) (s : σ) : Option ListenerResult × σ :=
  resultInternal request.uri request self s

end Router

end Verif
