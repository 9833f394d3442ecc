import Verif.Spec.HttpsTurns
import Verif.Spec.TestServer

/-! Vocabulary for C82 over TLS: the clients of the integration tests of the HTTPS server. -/

namespace Verif

/-- A client of the tests of the HTTPS server on connection `k`, which is `curl` with many requests: it sends a request, waits for the response, and goes on with the next request. Nothing but the requests comes, in whatever records;
and each request comes in the end if those before it were answered, as far as the client can know from what the server has sealed and sent. After the last has arrived, the socket is reported as ready. No request asks for the
connection to be closed, the client is orderly and does not close it. The requests may be cut anywhere, and the expected responses are such that a client can read them. The socket never fails and would always take more. -/
structure HttpsRun.Curl {σ : Type} {prof : Profile} {rt : Router σ} {n : Nat} {s₀ : σ} (r : HttpsRun prof rt n s₀) (profC : Profile) (k : Nat) (ps : List (Request × Response)) : Prop where
  requests : ∀ p ∈ ps, p.1.Sendable ∧ ¬ CloseAsked p.1 ∧ AnyCut (requestBytes p.1)
  responses : ∀ p ∈ ps, p.2.Sendable
  accepted : ∃ t c, (r.run.at_ t).conns[k]? = some c
  text : ∀ t cipher input, (HttpsAct.given (r.before t))[k]? = some (cipher, input) → .err .wouldBlock ∉ input ∧ TlsEv.plain input <+: ps.flatMap fun p => requestBytes p.1
  goesOn : ∀ t c, (r.run.at_ t).conns[k]? = some c → c.raw.raw.sess.out = [] → ∃ t' cipher input, (HttpsAct.given (r.before t'))[k]? = some (cipher, input) ∧
    ((ps.take (hears profC (ps.map Prod.fst) (c.raw.raw.sess.log.flatMap TlsItem.plain) + 1)).flatMap fun p => requestBytes p.1) <+: TlsEv.plain input
  lasts : ∃ t, ∀ u ≥ t, ∀ es, r.act u ≠ some (.arrive k es)
  ready : ∀ t es, r.act t = some (.arrive k es) → ∃ t' > t, (r.run.at_ t').Edge k
  orderly : ∀ u, HttpsAct.Orderly k (r.before u)
  stays : ∀ u c, (r.run.at_ u).conns[k]? = some c → c.inTable = true
  roomy : r.Roomy k

end Verif
