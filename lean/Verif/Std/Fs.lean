import Verif.Std.Str

/-!
A file system and `fs::read`, standard library and operating system.

Simplifications: there are no symbolic links, permissions, devices or limits on lengths; relative paths start at the root.
-/

namespace Verif

/-- A file or a directory. -/
inductive Node
  | file (contents : Bytes)
  | dir (entries : List (Bytes × Node))

namespace Node

/-- The entry of a directory with a name. -/
def child : Node → Bytes → Option Node
  | .file _, _ => none
  | .dir es, name => (es.find? fun e => e.1 == name).map Prod.snd

def isDir : Node → Bool
  | .file _ => false
  | .dir _ => true

/-- How the operating system follows the components of a path from a place: the list is where it is, then the directory that is in,
and so on up to the root. Every place but the last has to be a directory; the empty component and `.` stay, `..` goes up (and stays at
the root). -/
def walk : List Node → List Bytes → Option (List Node)
  | at_, [] => some at_
  | [], _ :: _ => none
  | here :: up, c :: cs =>
    if here.isDir then
      if c = [] ∨ c = b!"." then walk (here :: up) cs
      else if c = b!".." then
        match up with
        | [] => walk [here] cs
        | p :: up => walk (p :: up) cs
      else
        match here.child c with
        | none => none
        | some n => walk (n :: here :: up) cs
    else none

/-- `fs::read`: `none` is an error. -/
def readFile (root : Node) (path : Bytes) : Option Bytes :=
  if 0 ∈ path then none
  else
    match walk [root] (splitByte 47 path) with
    | some (.file contents :: _) => some contents
    | _ => none

end Node

end Verif
