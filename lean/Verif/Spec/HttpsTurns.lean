import Verif.Spec.NetAnyRun
import Verif.Spec.InTurns

/-! Independent vocabulary for C68 over TLS: a client of the library that calls `send` again and again, on one connection to a server that was started with `listen_https`. -/

namespace Verif

variable {σ : Type} {prof : Profile} {rt : Router σ} {n : Nat} {s₀ : σ}

/-- A client sends the requests `qs` on connection `k`. It may wait for answers: of each request it is only said that it comes in the end if those before it were answered, as far as the client can know from
what the server has sealed and sent. Nothing else comes, in whatever records; after the last has arrived, the socket is reported as ready. The client is orderly and does not close the connection, and no
request asks for that. Every request is answered with a response that can be sent, in parts of at most 4096 bytes unless the socket always takes more. The requests may be cut anywhere. -/
structure HttpsRun.InTurns (r : HttpsRun prof rt n s₀) (profC : Profile) (k : Nat) (qs : List Request) : Prop where
  requests : ∀ q ∈ qs, q.Sendable ∧ ¬ CloseAsked q ∧ AnyCut (requestBytes q)
  accepted : ∃ t c, (r.run.at_ t).conns[k]? = some c
  text : ∀ t cipher input, (HttpsAct.given (r.before t))[k]? = some (cipher, input) → .err .wouldBlock ∉ input ∧ TlsEv.plain input <+: qs.flatMap requestBytes
  goesOn : ∀ t c, (r.run.at_ t).conns[k]? = some c → c.raw.raw.sess.out = [] → ∃ t' cipher input, (HttpsAct.given (r.before t'))[k]? = some (cipher, input) ∧
    (qs.take (hears profC qs (c.raw.raw.sess.log.flatMap TlsItem.plain) + 1)).flatMap requestBytes <+: TlsEv.plain input
  lasts : ∃ t, ∀ u ≥ t, ∀ es, r.act u ≠ some (.arrive k es)
  ready : ∀ t es, r.act t = some (.arrive k es) → ∃ t' > t, (r.run.at_ t').Edge k
  orderly : ∀ u, HttpsAct.Orderly k (r.before u)
  inTable : ∀ u c, (r.run.at_ u).conns[k]? = some c → c.inTable = true
  listeners : ∀ u, ∀ a ∈ asksOn k (r.run.at_ u).asks, ∃ r, rt.Says a r ∧ r.Sendable
  fits : r.Fits k

/-- Whenever connection `k` is open and no handler uses it, the server has sent all that it has to send on it: its session has, and there is nothing that is still to be given to the session. -/
def HttpsRun.Sent (r : HttpsRun prof rt n s₀) (k : Nat) : Prop :=
  ∀ u c conn, (r.run.at_ u).conns[k]? = some c → c.lock = none → c.slot = .live conn → c.raw.raw.sess.out = [] ∧ conn.reader.stream.val.buf.drop conn.reader.stream.val.pos = []

end Verif
