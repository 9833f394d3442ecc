import Verif.Model.Router
import Verif.Std.Fs

/-!
`src/main.rs`: the example program that serves files.
-/

namespace Verif

/-- The cache of a file router, a `HashMap<String, Arc<Response>>`, main.rs 37, as an association list with different keys. -/
abbrev Cache := List (Bytes × Response)

/-- `HashMap::get`. -/
def Cache.get : Cache → Bytes → Option Response
  | [], _ => none
  | (p', r) :: c, p => if p' = p then some r else Cache.get c p

/-- `HashMap::insert`. -/
def Cache.insert (c : Cache) (p : Bytes) (r : Response) : Cache := (p, r) :: c.filter fun e => e.1 != p

/-- The path of the file for a URI, main.rs 40-45. -/
def filePath (directory uri : Bytes) : Bytes :=
  let path := directory ++ uri
  if endsWith path b!"/" then path ++ b!"index.html" else path

/-- `get_content_type`, main.rs 74-87. -/
def getContentType (path : Bytes) : Bytes :=
  if endsWith path b!".ico" then b!"image/x-icon"
  else if endsWith path b!".js" then b!"application/javascript"
  else if endsWith path b!".svg" then b!"image/svg+xml"
  else if endsWith path b!".html" then b!"text/html"
  else if endsWith path b!".css" then b!"text/css"
  else b!"text/plain"

/-- `file_response`, main.rs 62-72. -/
def fileResponse (root : Node) (path : Bytes) : Response :=
  match root.readFile path with
  | some contents =>
    { status := .ok
      headers := HeaderMap.fromPairs [(Header.contentLength, natDec contents.length), (Header.contentType, getContentType path)]
      body := contents }
  | none => Response.ofStatus .notFound

/-- What the listeners of the program use: the file system, and a cache for each file router. -/
structure FileState where
  root : Node
  caches : Nat → Cache

/-- The listener of the file router whose cache is number `i`, main.rs 39-57, if no other runs at the same time. -/
def fileListener (i : Nat) (directory : Bytes) : Listener FileState := fun uri _ s =>
  let path := filePath directory uri
  match (s.caches i).get path with
  | some r => (some (.sendResponseArc r), s)
  | none =>
    let r := fileResponse s.root path
    (some (.sendResponseArc r), { s with caches := fun j => if j = i then (s.caches i).insert path r else s.caches j })

/-- `file_router`, main.rs 34-60. -/
def fileRouter (i : Nat) (directory : Bytes) : Router FileState := Router.onPrefix [] b!"" (fileListener i directory)

/-- The router of `main`, main.rs 13-25. -/
def mainRouter : Router FileState :=
  let router := Router.on [] b!"/secret/message/path" fun _ _ s =>
    (some (.sendResponse
      { status := .ok
        headers := HeaderMap.fromPairs [(Header.contentLength, b!"29")]
        body := b!"You found the secret message!" }), s)
  let router := Router.route router b!"/my/middleton/website/" (fileRouter 0 b!"/Users/Ben/Code/middletonSite/")
  Router.route router b!"/" (fileRouter 1 b!"/Users/Ben/Code/ReactTetris/tetris-app/build/")

/-! ### Several workers in the listener of one file router -/

/-- Where a worker is in the listener, main.rs 39-57. -/
inductive FPhase
  | idle
  /-- Before the look into the cache, main.rs 47. -/
  | looking (uri : Bytes)
  /-- The cache had nothing; before reading the file, main.rs 51. -/
  | missed (uri : Bytes)
  /-- Before the insertion into the cache, main.rs 53. -/
  | loaded (uri : Bytes) (r : Response)
  deriving DecidableEq

/-- A file router, the workers that are in its listener, and the file system. -/
structure FileServer where
  root : Node
  cache : Cache
  phase : Nat → FPhase
  /-- For statements only: the URIs and answers of the requests that were answered, in order. -/
  log : List (Bytes × Response)
  /-- For statements only: the file systems there have been, the present one included. -/
  roots : List Node

inductive FAct
  /-- The files change. -/
  | change (root : Node)
  /-- Worker `w` enters the listener with a request. -/
  | start (w : Nat) (uri : Bytes)
  /-- Worker `w` does its next step: each has the lock of the cache for itself, or (reading the file) uses nothing shared. -/
  | work (w : Nat)

namespace FileServer

/-- Before any request, main.rs 34-37. -/
def new (root : Node) : FileServer := { root, cache := [], phase := fun _ => .idle, log := [], roots := [root] }

/-- Change where worker `w` is. -/
def setPhase (s : FileServer) (w : Nat) (p : FPhase) : FileServer := { s with phase := fun w' => if w' = w then p else s.phase w' }

/-- One step, main.rs 39-57; `none`: it is not possible now. -/
def step (directory : Bytes) (s : FileServer) : FAct → Option FileServer
  | .change root => some { s with root, roots := s.roots ++ [root] }
  | .start w uri =>
    match s.phase w with
    | .idle => some (s.setPhase w (.looking uri))
    | _ => none
  | .work w =>
    match s.phase w with
    | .idle => none
    | .looking uri =>
      match s.cache.get (filePath directory uri) with
      | some r => some { s.setPhase w .idle with log := s.log ++ [(uri, r)] }
      | none => some (s.setPhase w (.missed uri))
    | .missed uri => some (s.setPhase w (.loaded uri (fileResponse s.root (filePath directory uri))))
    | .loaded uri r => some { s.setPhase w .idle with cache := s.cache.insert (filePath directory uri) r, log := s.log ++ [(uri, r)] }

end FileServer

end Verif
