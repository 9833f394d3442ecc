import Verif.Model.Router

/-!
Routing, declaratively.
-/

namespace Verif

variable {σ : Type}

/-- Called one after the other, all these listeners answer `Next`; the state changes from the first to the
second. -/
inductive AllNext (uri : Bytes) (request : Request) : List (Bytes × Listener σ) → σ → σ → Prop
  | nil (s : σ) : AllNext uri request [] s s
  | cons {p : Bytes} {l : Listener σ} {ls : List (Bytes × Listener σ)} {s s' s'' : σ} :
      l uri request s = (some .next, s') → AllNext uri request ls s' s'' →
      AllNext uri request ((p, l) :: ls) s s''

/-- What a program registers: listeners for a prefix, listeners for one URI, and sub-routers. -/
inductive Route (σ : Type)
  | onPrefix (uri : Bytes) (listener : Listener σ)
  | on (uri : Bytes) (listener : Listener σ)
  | route (uri : Bytes) (sub : List (Route σ))

/-- A listener at some depth: the texts to be stripped before it, its own text, and whether that has to
match exactly. -/
structure Entry (σ : Type) where
  mount : Bytes
  text : Bytes
  exact : Bool
  listener : Listener σ

mutual
/-- All listeners of a route mounted at `mount`, in the order of registration. -/
def Route.entries (mount : Bytes) : Route σ → List (Entry σ)
  | .onPrefix uri l => [⟨mount, uri, false, l⟩]
  | .on uri l => [⟨mount, uri, true, l⟩]
  | .route uri sub => Route.allEntries (mount ++ uri) sub
/-- All listeners of some routes mounted at `mount`. -/
def Route.allEntries (mount : Bytes) : List (Route σ) → List (Entry σ)
  | [] => []
  | r :: rs => r.entries mount ++ Route.allEntries mount rs
end

/-- The entry applies to this full URI. -/
def Entry.Matches (e : Entry σ) (uri : Bytes) : Prop :=
  if e.exact then uri = e.mount ++ e.text else (e.mount ++ e.text) <+: uri

instance (e : Entry σ) (uri : Bytes) : Decidable (e.Matches uri) := by
  unfold Entry.Matches; infer_instance

/-- Ask the entries that apply one after the other, giving each its local URI, until one decides. -/
def Entry.ask (uri : Bytes) (request : Request) : List (Entry σ) → σ → Option ListenerResult × σ
  | [], s => (some .next, s)
  | e :: es, s =>
    if e.Matches uri then
      match e.listener (uri.drop e.mount.length) request s with
      | (some .next, s) => Entry.ask uri request es s
      | x => x
    else Entry.ask uri request es s

mutual
/-- Register a route with a router. -/
def Route.register (self : Router σ) : Route σ → Router σ
  | .onPrefix uri l => self.onPrefix uri l
  | .on uri l => self.on uri l
  | .route uri sub => self.route uri (Route.registerAll [] sub)
/-- Register some routes one after the other. -/
def Route.registerAll (self : Router σ) : List (Route σ) → Router σ
  | [] => self
  | r :: rs => Route.registerAll (r.register self) rs
end

mutual
/-- All texts are valid UTF-8, as they are in a Rust program. -/
def Route.Utf8 : Route σ → Prop
  | .onPrefix uri _ => utf8Valid uri = true
  | .on uri _ => utf8Valid uri = true
  | .route uri sub => utf8Valid uri = true ∧ Route.AllUtf8 sub
/-- All texts in some routes are valid UTF-8. -/
def Route.AllUtf8 : List (Route σ) → Prop
  | [] => True
  | r :: rs => r.Utf8 ∧ Route.AllUtf8 rs
end

mutual
/-- No listener panics. -/
def Route.NoPanic : Route σ → Prop
  | .onPrefix _ l => ∀ u r s, (l u r s).1 ≠ none
  | .on _ l => ∀ u r s, (l u r s).1 ≠ none
  | .route _ sub => Route.AllNoPanic sub
/-- No listener of some routes panics. -/
def Route.AllNoPanic : List (Route σ) → Prop
  | [] => True
  | r :: rs => r.NoPanic ∧ Route.AllNoPanic rs
end

end Verif
