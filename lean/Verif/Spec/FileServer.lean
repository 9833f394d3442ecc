import Verif.Model.FileServer

/-! Files under a directory, content types, and histories of the file router, for the statements about it. -/

namespace Verif

/-- The file or directory that is reached from a directory by entries with the given names, always going down. -/
def Node.descend : Node → List Bytes → Option Node
  | d, [] => some d
  | d, n :: ns => (d.child n).bind fun d => d.descend ns

/-- The parts of a path between its slashes. -/
inductive Components : Bytes → List Bytes → Prop
  | last {w : Bytes} : (47 : UInt8) ∉ w → Components w [w]
  | more {w rest : Bytes} {ws : List Bytes} : (47 : UInt8) ∉ w → Components rest ws → Components (w ++ 47 :: rest) (w :: ws)

/-- The components that are names: a component that is empty or a dot stands for the directory itself. -/
def names (cs : List Bytes) : List Bytes := cs.filter fun c => c != [] && c != b!"."

/-- A path without `..`, and the names in it. -/
def PlainPath (path : Bytes) (ns : List Bytes) : Prop := ∃ cs, Components path cs ∧ b!".." ∉ cs ∧ ns = names cs

/-- The extension of a path: what follows its last dot. -/
def Extension (path ext : Bytes) : Prop := (46 : UInt8) ∉ ext ∧ ∃ stem, path = stem ++ 46 :: ext

/-- The content types that the program knows. -/
def knownTypes : List (Bytes × Bytes) :=
  [(b!"ico", b!"image/x-icon"), (b!"js", b!"application/javascript"), (b!"svg", b!"image/svg+xml"), (b!"html", b!"text/html"), (b!"css", b!"text/css")]

/-- The content type of a path. -/
def TypeOf (path type : Bytes) : Prop :=
  (∃ e, Extension path e ∧ (e, type) ∈ knownTypes) ∨ (∀ e t, Extension path e → (e, t) ∉ knownTypes) ∧ type = b!"text/plain"

/-- The actions in `P` lead from one state to the other. -/
inductive FileServer.Runs (directory : Bytes) (P : FAct → Prop) : FileServer → FileServer → Prop
  | refl {s : FileServer} : Runs directory P s s
  | step {s s' s'' : FileServer} {a : FAct} : Runs directory P s s' → P a → s'.step directory a = some s'' → Runs directory P s s''

/-- The states a file router can be in. -/
abbrev FileServer.Reach (directory : Bytes) (root : Node) : FileServer → Prop := FileServer.Runs directory (fun _ => True) (.new root)

/-- Requests are handled by one worker only. -/
def OneWorker (a : FAct) : Prop := ∀ w uri, a = .start w uri → w = 0

/-- Some worker is about to fill in the answer for a path: it did not find it in the cache, and has not inserted it yet. -/
def FileServer.Filling (directory : Bytes) (s : FileServer) (path : Bytes) : Prop :=
  ∃ w uri, filePath directory uri = path ∧ (s.phase w = .missed uri ∨ ∃ r, s.phase w = .loaded uri r)

end Verif
