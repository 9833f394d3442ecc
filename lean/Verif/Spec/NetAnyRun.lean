import Verif.Spec.NetAny
import Verif.Spec.EndToEnd
import Verif.Spec.Writing

/-! Vocabulary for C80: infinite runs of the whole server over streams of any kind. -/

namespace Verif

variable {T σ : Type}

/-- Connection `k` is open: the event loop knows it and the server has not closed it. -/
def ANet.Open (s : ANet T σ) (k : Nat) : Prop := ∃ c conn, s.conns[k]? = some c ∧ c.inTable = true ∧ c.slot = .live conn

/-- The socket of connection `k` is on the list of ready sockets. -/
def ANet.Edge (s : ANet T σ) (k : Nat) : Prop := ∃ c, s.conns[k]? = some c ∧ c.edge = true

variable [RawIO T]

/-- An infinite run of a server whose raw streams record what is done with them: at each time something happens or nothing does. -/
structure ANet.Run (T : Type) [RawIO T] (prof : Profile) (rt : Router σ) (n : Nat) (s₀ : σ) where
  at_ : Nat → ANet (Traced T) σ
  act : Nat → Option (AAct T)
  start : ANet.new n s₀ = some (at_ 0)
  next : ∀ t, match act t with
    | none => at_ (t + 1) = at_ t
    | some a => (at_ t).step prof rt a.traced = some (at_ (t + 1))

/-- The operating system, the event loop and the workers go on. -/
structure ANet.Run.Fair {prof : Profile} {rt : Router σ} {n : Nat} {s₀ : σ} (r : ANet.Run T prof rt n s₀) : Prop where
  /-- A socket that is ready is reported at some time. -/
  polled : ∀ t k, (r.at_ t).Edge k → ∃ t' ≥ t, ∃ ks, r.act t' = some (.poll ks) ∧ k ∈ ks
  /-- The event loop goes on with the events that were reported. -/
  dispatched : ∀ t, (r.at_ t).batch ≠ [] → ∃ t' ≥ t, ∃ b, r.act t' = some (.dispatch b)
  /-- A worker that is not in a handler and can go on at all times does so. -/
  workers : ∀ t w, (∀ t' ≥ t, (r.at_ t').step prof rt (.work w) ≠ none) → ∃ t' ≥ t, r.act t' = some (.work w)
  /-- Every handler returns or panics. -/
  returns : ∀ t w j : Nat, (r.at_ t).pool.workers[w]? = some (.running j) → ∃ t' ≥ t, (r.at_ t').pool.workers[w]? ≠ some (.running j)

/-- What has happened before time `t`. -/
def ANet.Run.before {prof : Profile} {rt : Router σ} {n : Nat} {s₀ : σ} (r : ANet.Run T prof rt n s₀) (t : Nat) : List (AAct T) := (List.range t).filterMap r.act

/-- An infinite run of a server that was started with `listen_https`. -/
structure HttpsRun (prof : Profile) (rt : Router σ) (n : Nat) (s₀ : σ) where
  run : ANet.Run TlsStream prof rt n s₀
  act : Nat → Option HttpsAct
  acts : ∀ t, run.act t = (act t).map HttpsAct.act

/-- What has happened before time `t`. -/
def HttpsRun.before {prof : Profile} {rt : Router σ} {n : Nat} {s₀ : σ} (r : HttpsRun prof rt n s₀) (t : Nat) : List HttpsAct := (List.range t).filterMap r.act

/-- All that ever comes on connection `k` has arrived at its socket at time `t`, and is `input`. -/
structure HttpsRun.Come {prof : Profile} {rt : Router σ} {n : Nat} {s₀ : σ} (r : HttpsRun prof rt n s₀) (k t : Nat) (cipher : Cipher) (input : List TlsEv) : Prop where
  given : (HttpsAct.given (r.before t))[k]? = some (cipher, input)
  all : ∀ u ≥ t, ∀ es, r.act u ≠ some (.arrive k es)
  steady : .err .wouldBlock ∉ input

/-- The same; and from then on, whenever the connection is open and no handler uses it, its session has sent all that it has to send. -/
structure HttpsRun.Quiet {prof : Profile} {rt : Router σ} {n : Nat} {s₀ : σ} (r : HttpsRun prof rt n s₀) (k t : Nat) (cipher : Cipher) (input : List TlsEv) : Prop extends r.Come k t cipher input where
  takes : ∀ u ≥ t, ∀ c conn, (r.run.at_ u).conns[k]? = some c → c.lock = none → c.slot = .live conn → c.raw.raw.sess.out = []

/-- The socket of connection `k` never fails, and would always take more. -/
def HttpsRun.Roomy {prof : Profile} {rt : Router σ} {n : Nat} {s₀ : σ} (r : HttpsRun prof rt n s₀) (k : Nat) : Prop :=
  ∀ u c, (r.run.at_ u).conns[k]? = some c → c.raw.raw.sock.evs ≠ [] ∧ ∀ e ∈ c.raw.raw.sock.evs, ∃ m, e = .accept m

/-- No part of what the router answers to the requests of connection `k` is longer than 4096 bytes; or its peer is orderly and its socket never fails and would always take more. -/
def HttpsRun.Fits {prof : Profile} {rt : Router σ} {n : Nat} {s₀ : σ} (r : HttpsRun prof rt n s₀) (k : Nat) : Prop :=
  (∀ u, ∀ a ∈ asksOn k (r.run.at_ u).asks, ∀ resp, rt.Says a resp → resp.PartsLe 4096) ∨ (∀ u, HttpsAct.Orderly k (r.before u)) ∧ r.Roomy k

/-- A client sends the texts of the requests `ms` on connection `k`, as TLS records: at time `t` all has arrived at the socket. No part of a response is longer than 4096 bytes, or the socket always takes more; the requests may be cut anywhere, and
the socket is never interrupted. -/
structure HttpsRun.Texts {prof : Profile} {rt : Router σ} {n : Nat} {s₀ : σ} (r : HttpsRun prof rt n s₀) (k t : Nat) (cipher : Cipher) (input : List TlsEv) (ms : List (Bytes × Request)) : Prop extends r.Come k t cipher input where
  text : TlsEv.plain input = ms.flatMap Prod.fst
  requests : ∀ m ∈ ms, FittingRequest m.1 m.2 ∧ AnyCut m.1
  calm : ∀ u, HttpsAct.Calm k (r.before u)
  fits : r.Fits k

/-- The same; and from then on, whenever the connection is open and no handler uses it, its session has sent all that it has to send. -/
structure HttpsRun.Sends {prof : Profile} {rt : Router σ} {n : Nat} {s₀ : σ} (r : HttpsRun prof rt n s₀) (k t : Nat) (cipher : Cipher) (input : List TlsEv) (ms : List (Bytes × Request)) : Prop extends r.Texts k t cipher input ms where
  takes : ∀ u ≥ t, ∀ c conn, (r.run.at_ u).conns[k]? = some c → c.lock = none → c.slot = .live conn → c.raw.raw.sess.out = []

/-- The peer of connection `k` is orderly and does not close the connection, the requests `ms` do not ask for it to be closed, and no listener panics when asked about them. -/
structure HttpsRun.Stays {prof : Profile} {rt : Router σ} {n : Nat} {s₀ : σ} (r : HttpsRun prof rt n s₀) (k : Nat) (ms : List (Bytes × Request)) : Prop where
  orderly : ∀ u, HttpsAct.Orderly k (r.before u)
  inTable : ∀ u c, (r.run.at_ u).conns[k]? = some c → c.inTable = true
  requests : ∀ m ∈ ms, ¬ CloseAsked m.2
  listeners : ∀ u, ∀ a ∈ asksOn k (r.run.at_ u).asks, (rt.result a.1 a.2).1 ≠ none

/-- The peer of connection `k` is orderly, the socket fails with nothing but `WouldBlock`, the event loop keeps the connection, and listeners do not panic when asked about its requests;
they answer in parts of at most 4096 bytes, or the socket always takes more. -/
structure HttpsRun.Steady {prof : Profile} {rt : Router σ} {n : Nat} {s₀ : σ} (r : HttpsRun prof rt n s₀) (k : Nat) : Prop where
  orderly : ∀ u, HttpsAct.Orderly k (r.before u)
  inTable : ∀ u c, (r.run.at_ u).conns[k]? = some c → c.inTable = true
  listeners : ∀ u, ∀ a ∈ asksOn k (r.run.at_ u).asks, (rt.result a.1 a.2).1 ≠ none
  fits : r.Fits k

end Verif
