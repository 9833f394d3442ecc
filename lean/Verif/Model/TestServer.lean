import Verif.Model.Router

/-!
`tests/util/test_server.rs`: the router of the integration tests of the server.
-/

namespace Verif

/-- `HashMap::eq`, standard library: as many keys, and the same value for each key. -/
def HeaderMap.eq (m m' : HeaderMap) : Bool := m.length == m'.length && m.all fun e => m'.get e.1 == some e.2

/-- `Request::eq`, derived at request.rs 5. -/
def Request.eq (q q' : Request) : Bool := q.uri == q'.uri && q.method == q'.method && HeaderMap.eq q.headers q'.headers && q.body == q'.body

/-- The listener for one message, test_server.rs 115-121. -/
def testListener (m : Request × Response) : Listener Unit := fun _ req s =>
  if m.1.eq req then (some (.sendResponseArc m.2), s) else (some .next, s)

/-- `get_router`, test_server.rs 108-125. -/
def testRouter (messages : List (Request × Response)) : Router Unit :=
  messages.foldl (fun router m => Router.on router m.1.uri (testListener m)) []

end Verif
