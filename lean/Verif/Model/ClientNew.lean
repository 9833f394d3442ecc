import Verif.Model.ClientPool
import Verif.Model.Tls

/-!
How a client is made: `src/client/config.rs`, `Client::new_http`, `new_https` and `new` (`src/client/client.rs` 50-78), and
`TlsStreamFactory` (`src/client/stream_factory.rs` 44-72).
-/

namespace Verif

/-- `Config`, config.rs 4-11. The timeout is in nanoseconds. -/
structure ClientConfig where
  addr : Bytes
  readTimeout : Nat
  numConnections : Nat

/-- `config.addr.split(":").next()`, stream_factory.rs 54: the text before the first colon. There always is a first piece, so the `expect` there does not fail. -/
def hostPart (addr : Bytes) : Bytes := addr.takeWhile fun b => b ≠ 58

/-- The variables of the loop of `is_valid_dns_id`, webpki 0.21. -/
structure DnsScan where
  length : Nat
  allNumeric : Bool
  endsHyphen : Bool
  deriving DecidableEq

/-- One round of the loop of `is_valid_dns_id`, webpki 0.21, for a reference name, without wildcards; `none`: `return false`. -/
def DnsScan.next (s : DnsScan) (b : UInt8) : Option DnsScan :=
  if b = 45 then
    if s.length = 0 then none else if s.length + 1 > 63 then none else some ⟨s.length + 1, false, true⟩
  else if 48 ≤ b ∧ b ≤ 57 then
    if s.length + 1 > 63 then none else some ⟨s.length + 1, if s.length = 0 then true else s.allNumeric, false⟩
  else if (97 ≤ b ∧ b ≤ 122) ∨ (65 ≤ b ∧ b ≤ 90) ∨ b = 95 then
    if s.length + 1 > 63 then none else some ⟨s.length + 1, false, false⟩
  else if b = 46 then
    if s.length = 0 then none else if s.endsHyphen then none else some ⟨0, s.allNumeric, false⟩
  else none

/-- The loop. -/
def DnsScan.run : DnsScan → Bytes → Option DnsScan
  | s, [] => some s
  | s, b :: bs => (s.next b).bind fun s => s.run bs

/-- `DNSNameRef::try_from_ascii_str`, webpki 0.21 (written down without its sources at hand): at most 253 bytes, at least one; the loop; and in the end the last label must neither end with a
hyphen nor consist of digits. -/
def dnsValid (h : Bytes) : Bool :=
  h.length ≤ 253 && h ≠ [] && match DnsScan.run ⟨0, false, false⟩ h with
    | none => false
    | some s => !s.endsHyphen && !s.allNumeric

/-- What a TCP stream to a server turns out to do, under a TLS session that asks for a certificate for the given name: how the session seals what it sends, what its reads will find, and the
writing side. -/
structure TlsPeer where
  cipher : Cipher
  input : Bytes → List TlsEv
  sock : Sock

/-- `TlsStreamFactory`, stream_factory.rs 45-49. The `tls_config` is in what the peers do. -/
structure TlsStreamFactory where
  tcp : TcpStreamFactory TlsPeer
  dnsName : Bytes

/-- `TcpStreamFactory::new`, stream_factory.rs 26-28; what connecting will do is given. -/
def TcpStreamFactory.new {S : Type} (cfg : ClientConfig) (connects : List (Except IoError S)) : TcpStreamFactory S := ⟨cfg.readTimeout = 0, connects⟩

/-- `TlsStreamFactory::new`, stream_factory.rs 53-62; `none`: it panics, because there is no valid name in the address. -/
def TlsStreamFactory.new (cfg : ClientConfig) (connects : List (Except IoError TlsPeer)) : Option TlsStreamFactory :=
  if dnsValid (hostPart cfg.addr) then some ⟨.new cfg connects, hostPart cfg.addr⟩ else none

/-- `TlsStreamFactory::create`, stream_factory.rs 66-70. -/
def TlsStreamFactory.create (f : TlsStreamFactory) : CreateEnd TlsStream × TlsStreamFactory :=
  match f.tcp.create with
  | (.err e, tcp) => (.err e, { f with tcp })
  | (.panic, tcp) => (.panic, { f with tcp })
  | (.ok p, tcp) => (.ok (.new p.cipher true (p.input f.dnsName) p.sock), { f with tcp })

/-- `Client::new_http`, client.rs 52-55, used by `threads` threads; `none`: it panics. -/
def newHttp (cfg : ClientConfig) (connects : List (Except IoError RawStream)) (threads : Nat) : Option (CPool × TcpStreamFactory) :=
  (CPool.new cfg.numConnections threads).map fun p => (p, .new cfg connects)

/-- `Client::new_https`, client.rs 60-63, used by `threads` threads; `none`: it panics. -/
def newHttps (cfg : ClientConfig) (connects : List (Except IoError TlsPeer)) (threads : Nat) : Option (CPool × TlsStreamFactory) :=
  (TlsStreamFactory.new cfg connects).bind fun f => (CPool.new cfg.numConnections threads).map fun p => (p, f)

end Verif
