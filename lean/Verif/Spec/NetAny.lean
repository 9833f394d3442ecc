import Verif.Spec.Shared
import Verif.Spec.Tls
import Verif.Spec.Net
import Verif.Spec.EndToEnd
import Verif.Spec.Writing
import Verif.Model.NetAny

/-! Vocabulary for C78: the whole server over streams of any kind. -/

namespace Verif

variable {T σ : Type}

/-- What reads have brought, but for that there was nothing at the time. -/
def Ev.told (es : List Ev) : List Ev := es.filter (· != .err .wouldBlock)

/-- The same with raw streams that record what their reads returned and what their writes took. -/
def AAct.traced : AAct T → AAct (Traced T)
  | .accept offer grow growOk t => .accept offer grow growOk ⟨t, [], []⟩
  | .change k env => .change k fun t => { t with raw := env t.raw }
  | .notify k => .notify k
  | .poll ks => .poll ks
  | .dispatch closed => .dispatch closed
  | .stray k closed => .stray k closed
  | .work w => .work w
  | .lock w => .lock w
  | .go w rounds => .go w rounds

/-- The server after `as`, its raw streams recording. -/
def ANet.after [RawIO T] (prof : Profile) (rt : Router σ) (n : Nat) (s₀ : σ) (as : List (AAct T)) : Option (ANet (Traced T) σ) :=
  (ANet.new n s₀).bind fun s => s.run prof rt (as.map AAct.traced)

/-- The operating system puts connection `k` on its list of ready sockets. -/
def AAct.reports (k : Nat) : AAct T → Bool
  | .notify k' => k' == k
  | _ => false

/-- The jobs that were submitted for connection `k`. -/
def ANet.jobsFor (s : ANet T σ) (k : Nat) : Nat := s.jobs.count k

/-- The raw stream of a connection. -/
def AConn.raw (c : AConn T) : T := c.slot.conn.reader.stream.val.inner.val.inner

/-- What can happen is such that raw streams are as `P` says: they are so when they are accepted, and stay so when they change. -/
def AAct.Allowed (P : Traced T → Prop) : AAct T → Prop
  | .accept _ _ _ t => P ⟨t, [], []⟩
  | .change _ env => ∀ t, P t → P { t with raw := env t.raw }
  | _ => True

/-- If the raw streams of the connections are as `P` says, they are as `P'` says after this has happened, with the next connection to be accepted being `i`. -/
structure AAct.Leads (P P' : Nat → Traced T → Prop) (i : Nat) (a : AAct T) : Prop where
  same : ∀ (j : Nat) (t : Traced T), (∀ env, a ≠ .change j env) → P j t → P' j t
  new : ∀ offer grow growOk t, a = .accept offer grow growOk t → P' i ⟨t, [], []⟩
  change : ∀ k env, a = .change k env → ∀ t, P k t → P' k { t with raw := env t.raw }

/-- How many connections were accepted. -/
def AAct.accepted (as : List (AAct T)) : Nat := as.countP fun a => match a with | .accept .. => true | _ => false

/-- A connection over a stream of any kind and one over a scripted stream, in the same state: they are as far in the parsing of a request; they hold the same bytes read and not parsed,
and the same bytes to be sent; and they have sent the same. -/
structure Conn.Alike (c : SharedConn (ServerStack (Traced T))) (n : Conn Rd Nbw) : Prop where
  parser : n.parser = c.parser
  lims : n.reader.lims = c.reader.lims
  unread : n.reader.src.atoms = c.reader.stream.val.inner.val.buf.map .byte
  buf : n.writer.buf = c.reader.stream.val.buf
  pos : n.writer.pos = c.reader.stream.val.pos
  cap : n.writer.cap = c.reader.stream.val.cap
  sent : n.writer.sock.sent = c.reader.stream.val.inner.val.inner.put

/-- The same, and both are open, closed or poisoned. -/
inductive Slot.Alike : Slot (Shared (ServerStack (Traced T))) Unit → Slot Rd Nbw → Prop
  | live {c : SharedConn (ServerStack (Traced T))} {n : Conn Rd Nbw} : Conn.Alike c n → Slot.Alike (.live c) (.live n)
  | gone {c : SharedConn (ServerStack (Traced T))} {n : Conn Rd Nbw} : Conn.Alike c n → Slot.Alike (.gone c) (.gone n)
  | poisoned {c : SharedConn (ServerStack (Traced T))} {n : Conn Rd Nbw} : Conn.Alike c n → Slot.Alike (.poisoned c) (.poisoned n)

/-- The same for connections of the whole server. What was read from the one is what has arrived on the other. -/
structure AConn.Alike (c : AConn (Traced T)) (n : NConn σ) : Prop where
  slot : c.slot.Alike n.slot
  lock : n.lock = c.lock
  inTable : n.inTable = c.inTable
  arrived : n.arrived = Ev.told c.raw.log

/-- The server over streams of any kind and the server over scripted ones, in the same state. -/
structure ANet.Alike (s : ANet (Traced T) σ) (s' : Net σ) : Prop where
  pool : s'.pool = s.pool
  jobs : s'.jobs.map Prod.fst = s.jobs
  phase : s'.phase = s.phase
  batch : s'.batch = s.batch
  state : s'.state = s.state
  asks : s'.asks = s.asks
  length : s'.conns.length = s.conns.length
  conns : ∀ (k : Nat) (c : AConn (Traced T)), s.conns[k]? = some c → ∃ n : NConn σ, s'.conns[k]? = some n ∧ c.Alike n

/-- The connections of a server that was started with `listen_https`: the cipher of each, and all that has arrived at its socket so far. -/
def HttpsAct.given : List HttpsAct → List (Cipher × List TlsEv) :=
  List.foldl (fun l a => match a with
    | .accept _ _ _ cipher _ _ => l ++ [(cipher, [])]
    | .arrive k es => l.modify k fun x => (x.1, x.2 ++ es)
    | _ => l) []

/-- The plain text in what has arrived at a socket, if the handshake has ended. -/
def TlsEv.plain (input : List TlsEv) : Bytes := (input.foldl TlsHeard.step ⟨true, [], false, false⟩).came

/-- All that the sockets of the connections were said to do with what is written to them. -/
def HttpsAct.rooms : List HttpsAct → List (List WEv) :=
  List.foldl (fun l a => match a with
    | .accept _ _ _ _ evs _ => l ++ [evs]
    | .room k evs _ => l.modify k fun x => x ++ evs
    | _ => l) []

/-- Nothing that the socket of connection `k` does is an interruption. -/
structure HttpsAct.Calm (k : Nat) (hs : List HttpsAct) : Prop where
  input : ∀ cipher input, (HttpsAct.given hs)[k]? = some (cipher, input) → .err .interrupted ∉ input
  room : ∀ evs, (HttpsAct.rooms hs)[k]? = some evs → .err .interrupted ∉ evs

/-- The peer of connection `k` is orderly, and its socket at worst has nothing to read or no room to write. -/
structure HttpsAct.Orderly (k : Nat) (hs : List HttpsAct) : Prop where
  input : ∀ cipher input, (HttpsAct.given hs)[k]? = some (cipher, input) → TlsEv.Orderly true input
  room : ∀ evs, (HttpsAct.rooms hs)[k]? = some evs → ∀ e, .err e ∈ evs → e = .wouldBlock

/-- Up to now the socket of connection `k` never failed, and would always take more. -/
def HttpsAct.Roomy {σ : Type} (prof : Profile) (rt : Router σ) (n : Nat) (s₀ : σ) (k : Nat) (hs : List HttpsAct) : Prop :=
  ∀ pre, pre <+: hs → ∀ s, ANet.after prof rt n s₀ (pre.map HttpsAct.act) = some s → ∀ c, s.conns[k]? = some c → c.raw.raw.sock.evs ≠ [] ∧ ∀ e ∈ c.raw.raw.sock.evs, ∃ m, e = .accept m

/-- What the router answered to the requests of connection `k` is in parts of at most 4096 bytes; or its peer is orderly and its socket always takes more. -/
def HttpsAct.Fits {σ : Type} (prof : Profile) (rt : Router σ) (n : Nat) (s₀ : σ) (k : Nat) (hs : List HttpsAct) (s : ANet (Traced TlsStream) σ) : Prop :=
  (∀ a ∈ asksOn k s.asks, ∀ r, rt.Says a r → r.PartsLe 4096) ∨ HttpsAct.Orderly k hs ∧ HttpsAct.Roomy prof rt n s₀ k hs

end Verif
