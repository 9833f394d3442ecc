import Verif.Model.ClientNew
import Verif.Spec.ClientNew
import Verif.Props.ClientPool

/-!
C75: making a client.
-/

namespace Verif

instance (b : UInt8) : Decidable (DecDigit b) := by unfold DecDigit; infer_instance

/-- The state of the loop after the label `p` has been read so far; `a` is the value of `label_is_all_numeric` before it. -/
def scanOf (a : Bool) (p : Bytes) : DnsScan :=
  ⟨p.length, if p = [] then a else p.all fun b => decide (DecDigit b), decide (p.getLast? = some 45)⟩

/-- What may be read of a label. -/
structure HostPart (p : Bytes) : Prop where
  size : p.length ≤ 63
  bytes : ∀ b ∈ p, DecDigit b ∨ (97 ≤ b ∧ b ≤ 122) ∨ (65 ≤ b ∧ b ≤ 90) ∨ b = 95 ∨ b = 45
  first : p.head? ≠ some 45

theorem scanOf_snoc (a : Bool) (p : Bytes) (b : UInt8) :
    scanOf a (p ++ [b]) = ⟨p.length + 1, (p.all fun b => decide (DecDigit b)) && decide (DecDigit b), decide (b = 45)⟩ := by
  simp [scanOf]

theorem next_label {a : Bool} {p : Bytes} {b : UInt8} (hp : HostPart (p ++ [b])) : (scanOf a p).next b = some (scanOf a (p ++ [b])) := by
  have hs := hp.size
  simp only [List.length_append, List.length_cons, List.length_nil] at hs
  have hb := hp.bytes b (by simp)
  rw [scanOf_snoc]
  unfold DnsScan.next
  have hlen : (scanOf a p).length = p.length := rfl
  rw [hlen]
  by_cases h1 : b = 45
  · subst h1
    have hne : p.length ≠ 0 := by
      intro h
      have : p = [] := List.eq_nil_of_length_eq_zero h
      subst this
      exact hp.first rfl
    rw [if_pos rfl, if_neg hne, if_neg (by omega)]
    have : ¬ DecDigit 45 := by decide
    simp [this]
  · rw [if_neg h1]
    by_cases h2 : 48 ≤ b ∧ b ≤ 57
    · rw [if_pos h2, if_neg (by omega)]
      have h3 : DecDigit b := h2
      simp only [h1, h3, decide_true, decide_false, Bool.and_true, Option.some.injEq, DnsScan.mk.injEq, true_and, and_true]
      by_cases h4 : p = []
      · subst h4; rfl
      · rw [if_neg (by simpa using h4)]
        simp only [scanOf, if_neg h4]
    · have h3 : ¬ DecDigit b := h2
      have h4 : (97 ≤ b ∧ b ≤ 122) ∨ (65 ≤ b ∧ b ≤ 90) ∨ b = 95 := by
        rcases hb with h | h | h | h | h
        · exact absurd h h3
        · exact .inl h
        · exact .inr (.inl h)
        · exact .inr (.inr h)
        · exact absurd h h1
      rw [if_neg h2, if_pos h4, if_neg (by omega)]
      simp [h1, h3]

theorem HostPart.prefix {p l : Bytes} (h : HostPart (p ++ l)) : HostPart p := by
  refine ⟨?_, fun b hb => h.bytes b (List.mem_append_left _ hb), ?_⟩
  · have := h.size
    rw [List.length_append] at this
    omega
  · intro hf
    refine h.first ?_
    rw [List.head?_append, hf]
    rfl

theorem run_label {a : Bool} {p l rest : Bytes} (h : HostPart (p ++ l)) : (scanOf a p).run (l ++ rest) = (scanOf a (p ++ l)).run rest := by
  induction l generalizing p with
  | nil => simp
  | cons b l ih =>
    have h1 : HostPart ((p ++ [b]) ++ l) := by simpa using h
    rw [List.cons_append, DnsScan.run, next_label h1.prefix, Option.bind_some, ih h1]
    simp

theorem HostLabel.part {l : Bytes} (h : HostLabel l) : HostPart l := ⟨h.size.2, h.bytes, h.first⟩

theorem next_dot {a : Bool} {l : Bytes} (h : HostLabel l) : (scanOf a l).next 46 = some (scanOf (l.all fun b => decide (DecDigit b)) []) := by
  unfold DnsScan.next
  have h1 : (scanOf a l).length = l.length := rfl
  have h2 : (scanOf a l).endsHyphen = false := by simpa [scanOf] using h.last
  rw [if_neg (by decide), if_neg (by decide), if_neg (by decide), if_pos rfl, h1, if_neg (by simpa using h.size.1), h2, if_neg (by decide)]
  simp [scanOf, h.size.1]

theorem run_labels {a : Bool} {ls : List Bytes} {rest : Bytes} (h : ∀ l ∈ ls, HostLabel l) :
    ∃ a', (scanOf a []).run (ls.flatMap (fun x => x ++ [46]) ++ rest) = (scanOf a' []).run rest := by
  induction ls generalizing a with
  | nil => exact ⟨a, rfl⟩
  | cons l ls ih =>
    have hl := h l (by simp)
    obtain ⟨a', h1⟩ := ih (a := l.all fun b => decide (DecDigit b)) fun x hx => h x (by simp [hx])
    refine ⟨a', ?_⟩
    rw [List.flatMap_cons, List.append_assoc, List.append_assoc, run_label (p := []) hl.part, List.nil_append, List.singleton_append, DnsScan.run, next_dot hl, Option.bind_some, h1]

/-- What one round accepts. -/
theorem next_inv {a : Bool} {p : Bytes} (hp : HostPart p) {b : UInt8} {s : DnsScan} (h : (scanOf a p).next b = some s) :
    (HostPart (p ++ [b]) ∧ s = scanOf a (p ++ [b])) ∨ (b = 46 ∧ HostLabel p ∧ s = scanOf (p.all fun b => decide (DecDigit b)) []) := by
  have hlen : (scanOf a p).length = p.length := rfl
  have key : (DecDigit b ∨ (97 ≤ b ∧ b ≤ 122) ∨ (65 ≤ b ∧ b ≤ 90) ∨ b = 95 ∨ b = 45) → p.length + 1 ≤ 63 → (b = 45 → p ≠ []) →
      (HostPart (p ++ [b]) ∧ s = scanOf a (p ++ [b])) := by
    intro h1 h2 h3
    have hq : HostPart (p ++ [b]) := by
      refine ⟨by simpa using h2, ?_, ?_⟩
      · intro c hc
        rcases List.mem_append.1 hc with hc | hc
        · exact hp.bytes c hc
        · rw [List.mem_singleton] at hc
          subst hc
          exact h1
      · rcases p with _ | ⟨c, p⟩
        · intro hb
          exact h3 (by simpa using hb) rfl
        · exact hp.first
    rw [next_label hq] at h
    exact ⟨hq, (Option.some.inj h).symm⟩
  have h' := h
  unfold DnsScan.next at h
  rw [hlen] at h
  split at h
  · next h1 =>
    split at h
    · cases h
    · next h2 =>
      split at h
      · cases h
      · next h3 =>
        exact .inl (key (.inr (.inr (.inr (.inr h1)))) (by omega) (fun _ e => h2 (by simp [e])))
  · next h1 =>
    split at h
    · next h2 =>
      split at h
      · cases h
      · exact .inl (key (.inl h2) (by omega) (fun e => absurd e h1))
    · split at h
      · next h2 =>
        split at h
        · cases h
        · refine .inl (key ?_ (by omega) (fun e => absurd e h1))
          rcases h2 with h2 | h2 | h2
          · exact .inr (.inl h2)
          · exact .inr (.inr (.inl h2))
          · exact .inr (.inr (.inr (.inl h2)))
      · split at h
        · next h2 =>
          split at h
          · cases h
          · next h3 =>
            split at h
            · cases h
            · next h4 =>
              have hl : HostLabel p := ⟨⟨by simpa using h3, hp.size⟩, hp.bytes, hp.first, by simpa [scanOf] using h4⟩
              refine .inr ⟨h2, hl, ?_⟩
              subst h2
              rw [next_dot hl] at h'
              exact (Option.some.inj h').symm
        · cases h

theorem run_inv {a : Bool} {p : Bytes} (hp : HostPart p) {t : Bytes} {s : DnsScan} (h : (scanOf a p).run t = some s) :
    ∃ ls q a', (∀ x ∈ ls, HostLabel x) ∧ HostPart q ∧ p ++ t = ls.flatMap (fun x => x ++ [46]) ++ q ∧ s = scanOf a' q ∧
      ((ls = [] ∧ a' = a) ∨ ∃ l, ls.getLast? = some l ∧ a' = l.all fun b => decide (DecDigit b)) := by
  induction t generalizing a p with
  | nil =>
    cases h
    exact ⟨[], p, a, by simp, hp, by simp, rfl, .inl ⟨rfl, rfl⟩⟩
  | cons b t ih =>
    obtain ⟨s₁, h1, h2⟩ := Option.bind_eq_some_iff.1 h
    rcases next_inv hp h1 with ⟨h3, rfl⟩ | ⟨rfl, h3, rfl⟩
    · obtain ⟨ls, q, a', k1, k2, k3, k4⟩ := ih h3 h2
      exact ⟨ls, q, a', k1, k2, by simpa using k3, k4⟩
    · obtain ⟨ls, q, a', k1, k2, k3, k4, k5⟩ := ih ⟨by simp, by simp, by simp⟩ h2
      refine ⟨p :: ls, q, a', ?_, k2, ?_, k4, .inr ?_⟩
      · intro x hx
        rcases List.mem_cons.1 hx with rfl | hx
        · exact h3
        · exact k1 x hx
      · rw [List.flatMap_cons, List.append_assoc, ← k3]
        simp
      · rcases k5 with ⟨rfl, rfl⟩ | ⟨l, k5, k6⟩
        · exact ⟨p, by simp, rfl⟩
        · refine ⟨l, ?_, k6⟩
          rw [List.getLast?_cons, k5]
          rfl

theorem all_digits {l : Bytes} : (l.all fun b => decide (DecDigit b)) = false ↔ ∃ b ∈ l, ¬ DecDigit b := by
  rw [List.all_eq_false]
  simp

theorem dnsValid_iff (h : Bytes) : dnsValid h = true ↔ HostName h := by
  have h0 : (⟨0, false, false⟩ : DnsScan) = scanOf false [] := rfl
  unfold dnsValid
  rw [h0]
  constructor
  · intro hv
    simp only [Bool.and_eq_true, decide_eq_true_eq] at hv
    obtain ⟨⟨hs, hne⟩, hv⟩ := hv
    cases hr : (scanOf false []).run h with
    | none => rw [hr] at hv; cases hv
    | some s =>
      rw [hr] at hv
      simp only [Bool.and_eq_true, Bool.not_eq_true'] at hv
      obtain ⟨ls, q, a', k1, k2, k3, k4, k5⟩ := run_inv ⟨by simp, by simp, by simp⟩ hr
      rw [List.nil_append] at k3
      subst k4
      by_cases hq : q = []
      · subst hq
        rcases k5 with ⟨rfl, -⟩ | ⟨l, k5, rfl⟩
        · exact absurd k3 hne
        · obtain ⟨ls', rfl⟩ : ∃ ls', ls = ls' ++ [l] := by
            rcases List.eq_nil_or_concat ls with rfl | ⟨a, b, rfl⟩
            · cases k5
            · rw [List.concat_eq_append, List.getLast?_append] at k5
              simp at k5
              subst k5
              exact ⟨a, by simp⟩
          refine ⟨hs, ls', l, [46], fun x hx => k1 x (by simp [hx]), k1 l (by simp), ?_, .inr rfl, by rw [k3]; simp⟩
          exact all_digits.1 (by simpa [scanOf] using hv.2)
      · refine ⟨hs, ls, q, [], k1, ⟨⟨hq, k2.size⟩, k2.bytes, k2.first, by simpa [scanOf] using hv.1⟩, ?_, .inl rfl, by simpa using k3⟩
        have := hv.2
        simp only [scanOf, if_neg hq] at this
        exact all_digits.1 this
  · rintro ⟨hs, ls, l, dot, k1, k2, k3, k4, rfl⟩
    simp only [Bool.and_eq_true, decide_eq_true_eq]
    refine ⟨⟨hs, ?_⟩, ?_⟩
    · intro he
      simp only [List.append_eq_nil_iff] at he
      exact k2.size.1 he.1.2
    · rw [List.append_assoc]
      obtain ⟨a', h1⟩ := run_labels (a := false) (rest := l ++ dot) k1
      rw [h1, run_label (p := []) k2.part, List.nil_append]
      rcases k4 with rfl | rfl
      · simp only [DnsScan.run, Bool.and_eq_true, Bool.not_eq_true']
        refine ⟨by simpa [scanOf] using k2.last, ?_⟩
        simp only [scanOf, if_neg k2.size.1]
        exact all_digits.2 k3
      · simp only [DnsScan.run, next_dot k2, Option.bind_some, Bool.and_eq_true, Bool.not_eq_true']
        exact ⟨rfl, all_digits.2 k3⟩

/-- C75: `new_http` makes a client exactly if the number of connections is positive, whatever the address is; none of the connections is open. -/
theorem C75_http (cfg : ClientConfig) (connects : List (Except IoError RawStream)) (n : Nat) :
    (∃ p f, newHttp cfg connects n = some (p, f)) ↔ 0 < cfg.numConnections := by
  unfold newHttp CPool.new
  by_cases h : cfg.numConnections = 0
  · simp [h]
  · simp [h, Nat.pos_of_ne_zero h]

/-- C75: `new_https` makes a client exactly if the number of connections is positive and the address begins with the name of a host, followed by its end or a colon; otherwise it panics. -/
theorem C75_https (cfg : ClientConfig) (connects : List (Except IoError TlsPeer)) (n : Nat) :
    (∃ p f, newHttps cfg connects n = some (p, f)) ↔
      0 < cfg.numConnections ∧ ∃ h rest, HostName h ∧ cfg.addr = h ++ rest ∧ (rest = [] ∨ rest.head? = some 58) := by
  have hsplit : HostName (hostPart cfg.addr) ↔ ∃ h rest, HostName h ∧ cfg.addr = h ++ rest ∧ (rest = [] ∨ rest.head? = some 58) := by
    constructor
    · intro h
      refine ⟨_, cfg.addr.dropWhile (fun b => b ≠ 58), h, List.takeWhile_append_dropWhile.symm, ?_⟩
      cases hd : cfg.addr.dropWhile (fun b => b ≠ 58) with
      | nil => exact .inl rfl
      | cons b t =>
        have := List.head?_dropWhile_not (fun b : UInt8 => decide (b ≠ 58)) cfg.addr
        rw [hd] at this
        simp at this
        exact .inr (by simp [this])
    · rintro ⟨h, rest, h1, h2, h3⟩
      have hc : ∀ b ∈ h, b ≠ 58 := by
        obtain ⟨-, ls, l, dot, k1, k2, -, k4, rfl⟩ := h1
        have key : ∀ l, HostLabel l → ∀ b ∈ l, b ≠ 58 := by
          rintro l hl b hb rfl
          exact absurd (hl.bytes _ hb) (by decide)
        intro b hb
        rcases List.mem_append.1 hb with hb | hb
        · rcases List.mem_append.1 hb with hb | hb
          · obtain ⟨x, hx, hb⟩ := List.mem_flatMap.1 hb
            rcases List.mem_append.1 hb with hb | hb
            · exact key x (k1 x hx) b hb
            · rw [List.mem_singleton] at hb; subst hb; decide
          · exact key l k2 b hb
        · rcases k4 with rfl | rfl
          · cases hb
          · rw [List.mem_singleton] at hb; subst hb; decide
      have : hostPart cfg.addr = h := by
        unfold hostPart
        rw [h2, List.takeWhile_append_of_pos (by simpa using hc)]
        rcases h3 with rfl | h3
        · simp
        · cases rest with
          | nil => simp
          | cons b t =>
            simp only [List.head?_cons, Option.some.injEq] at h3
            subst h3
            simp
      rw [this]
      exact h1
  rw [← hsplit, ← dnsValid_iff]
  unfold newHttps TlsStreamFactory.new CPool.new
  by_cases h : cfg.numConnections = 0
  · simp [h]
  · by_cases h' : dnsValid (hostPart cfg.addr) = true
    · simp [h, h', Nat.pos_of_ne_zero h]
    · simp [h, h']

/-- C75: every session of such a client asks for a certificate for the name in the address, which is the text before the first colon, and for no other; the factory keeps this name. -/
theorem C75_name {cfg : ClientConfig} {connects : List (Except IoError TlsPeer)} {n : Nat} {p : CPool} {f : TlsStreamFactory} (h : newHttps cfg connects n = some (p, f)) :
    f.dnsName = hostPart cfg.addr ∧ ∀ (g g' : TlsStreamFactory) (t : TlsStream), g.create = (.ok t, g') →
      g'.dnsName = g.dnsName ∧ ∃ peer, .ok peer ∈ g.tcp.connects ∧ t = .new peer.cipher true (peer.input g.dnsName) peer.sock := by
  constructor
  · unfold newHttps TlsStreamFactory.new at h
    split at h
    · obtain ⟨q, -, h2⟩ := Option.map_eq_some_iff.1 h
      cases h2
      rfl
    · cases h
  · intro g g' t hc
    unfold TlsStreamFactory.create at hc
    cases hx : g.tcp.create with
    | mk x tcp =>
    rw [hx] at hc
    cases x with
    | err e => cases hc
    | panic => cases hc
    | ok peer =>
      cases hc
      refine ⟨rfl, peer, ?_, rfl⟩
      unfold TcpStreamFactory.create TcpStreamFactory.connect at hx
      obtain ⟨⟨z, l⟩, dn⟩ := g
      dsimp only at hx ⊢
      rcases l with _ | ⟨a, l⟩
      · simp at hx
      · cases a with
        | ok s =>
          dsimp only at hx
          by_cases hz : z = true
          · simp [hz] at hx
          · simp [hz] at hx
            simp [hx.1]
        | error e =>
          dsimp only at hx
          rcases l with _ | ⟨b, l⟩
          · simp at hx
          · cases b with
            | error e => simp at hx
            | ok s =>
              dsimp only at hx
              by_cases hz : z = true
              · simp [hz] at hx
              · simp [hz] at hx
                simp [hx.1]

/-- A number at the end is no name. -/
theorem number_last {x d : Bytes} (hd : DecNumber d) : ¬ HostName (x ++ 46 :: d) := by
  rintro ⟨-, ls, l, dot, k1, k2, ⟨b, hb, k3⟩, k4, he⟩
  have hdot : (46 : UInt8) ∉ l := fun h => absurd (k2.bytes _ h) (by decide)
  rcases k4 with rfl | rfl
  · rw [List.append_nil] at he
    have h1 : l <:+ x ++ 46 :: d := ⟨_, he.symm⟩
    have h2 : 46 :: d <:+ x ++ 46 :: d := ⟨x, rfl⟩
    rcases List.suffix_or_suffix_of_suffix h1 h2 with h3 | h3
    · rcases List.suffix_cons_iff.1 h3 with h3 | h3
      · exact hdot (by simp [h3])
      · exact k3 (hd.2 b (h3.subset hb))
    · exact hdot (h3.subset (by simp))
  · have h1 := congrArg List.getLast? he
    rw [List.getLast?_append, List.getLast?_append] at h1
    obtain ⟨c, hc⟩ : ∃ c, d.getLast? = some c := by
      cases hx : d.getLast? with
      | none => exact absurd (List.getLast?_eq_none_iff.1 hx) hd.1
      | some c => exact ⟨c, rfl⟩
    rw [List.getLast?_cons, hc] at h1
    simp at h1
    subst h1
    exact absurd (hd.2 _ (List.mem_of_getLast? hc)) (by decide)

/-- C75 (false: a client can be made for every address that a TCP stream can be opened to): for an IPv4 address, with or without port, `new_https` panics; it does so for an IPv6 address, too;
`new_http` makes a client for them. -/
theorem C75_address_false (cfg : ClientConfig) (connects : List (Except IoError TlsPeer)) (n : Nat)
    (h : (∃ x d port, DecNumber d ∧ (∀ b ∈ x, b ≠ 58) ∧ cfg.addr = x ++ 46 :: d ++ port ∧ (port = [] ∨ port.head? = some 58)) ∨ (∃ rest, cfg.addr = 91 :: rest) ∨ ∃ rest, cfg.addr = 58 :: rest) :
    newHttps cfg connects n = none := by
  have key : ¬ HostName (hostPart cfg.addr) → newHttps cfg connects n = none := by
    intro hn
    unfold newHttps TlsStreamFactory.new
    rw [if_neg (fun e => hn ((dnsValid_iff _).1 e))]
    rfl
  refine key ?_
  rcases h with ⟨x, d, port, h1, h2, h3, h4⟩ | ⟨rest, h⟩ | ⟨rest, h⟩
  · have hd : ∀ b ∈ d, b ≠ 58 := by
      rintro b hb rfl
      exact absurd (h1.2 _ hb) (by decide)
    have : hostPart cfg.addr = x ++ 46 :: d := by
      unfold hostPart
      rw [h3, List.takeWhile_append_of_pos (by
        intro b hb
        rcases List.mem_append.1 hb with hb | hb
        · simpa using h2 b hb
        · rcases List.mem_cons.1 hb with rfl | hb
          · decide
          · simpa using hd b hb)]
      rcases h4 with rfl | h4
      · simp
      · cases port with
        | nil => simp
        | cons b t =>
          simp only [List.head?_cons, Option.some.injEq] at h4
          subst h4
          simp
    rw [this]
    exact number_last h1
  · rw [← dnsValid_iff, h]
    simp [hostPart, dnsValid, DnsScan.run, DnsScan.next]
  · rw [← dnsValid_iff, h]
    simp [hostPart, dnsValid]

/-- Addresses for which it works, and some for which it does not. -/
example : HostName b!"example.com" ∧ HostName b!"localhost" ∧ HostName b!"a.b-c.x1." ∧ ¬ HostName b!"-a.com" ∧ ¬ HostName b!"a..b" ∧ ¬ HostName b!"10.0.0.1" ∧ ¬ HostName b!"" := by
  simp only [← dnsValid_iff]
  decide

example (connects : List (Except IoError TlsPeer)) : (∃ p f, newHttps ⟨b!"example.com:443", 1000, 2⟩ connects 3 = some (p, f)) ∧ newHttps ⟨b!"127.0.0.1:8443", 1000, 2⟩ connects 3 = none ∧
    newHttps ⟨b!"[::1]:443", 1000, 2⟩ connects 3 = none := by
  refine ⟨(C75_https _ _ _).2 ⟨by decide, b!"example.com", b!":443", (dnsValid_iff _).1 (by decide), by decide, .inr (by decide)⟩,
    C75_address_false _ _ _ (.inl ⟨b!"127.0.0", b!"1", b!":8443", ⟨by decide, by decide⟩, by decide, by decide, .inr (by decide)⟩), C75_address_false _ _ _ (.inr (.inl ⟨b!"::1]:443", by decide⟩))⟩

theorem zero_create {S : Type} {f : TcpStreamFactory S} (hf : f.timeoutZero = true) : (∃ e, f.create.1 = .err e) ∨ f.create.1 = .panic := by
  obtain ⟨z, l⟩ := f
  subst hf
  unfold TcpStreamFactory.create TcpStreamFactory.connect
  rcases l with _ | ⟨a, l⟩
  · exact .inl ⟨_, rfl⟩
  · cases a with
    | ok s => exact .inr rfl
    | error e =>
      rcases l with _ | ⟨b, l⟩
      · exact .inl ⟨_, rfl⟩
      · cases b with
        | error e => exact .inl ⟨_, rfl⟩
        | ok s => exact .inr rfl

/-- C75 (false: a client that was made can be used): the timeout zero is accepted, and then no request ever gets an answer: each `send` on a new connection of the client either fails to connect,
or panics; it panics whenever a TCP stream can be opened at once. The same holds for the streams of an HTTPS client. -/
theorem C75_timeout_false (prof : Profile) (cfg : ClientConfig) (h0 : cfg.readTimeout = 0) (hn : 0 < cfg.numConnections) (connects : List (Except IoError RawStream)) (q : Request) :
    ∃ p f, newHttp cfg connects 1 = some (p, f) ∧ (∀ c ∈ p.conns, c = .new) ∧ ((∃ e, (ClientConn.send prof .new f q).1 = .err (.connecting e)) ∨ (ClientConn.send prof .new f q).1 = .panic) ∧
      (∀ s, connects.head? = some (.ok s) → (ClientConn.send prof .new f q).1 = .panic) ∧
      ∀ (g : TlsStreamFactory), g.tcp.timeoutZero = true → (∃ e, g.create.1 = .err e) ∨ g.create.1 = .panic := by
  have hz : (TcpStreamFactory.new cfg connects).timeoutZero = true := by simp [TcpStreamFactory.new, h0]
  refine ⟨_, _, by
    unfold newHttp CPool.new
    rw [if_neg (by omega)]
    rfl, ?_, ?_, ?_, ?_⟩
  · intro c hc
    exact (List.mem_replicate.1 hc).2
  · have := zero_create hz
    unfold ClientConn.send ClientConn.connect
    dsimp only [ClientConn.new, StreamFactory.create]
    generalize (TcpStreamFactory.new cfg connects).create = y at this ⊢
    obtain ⟨y, f⟩ := y
    rcases this with ⟨e, rfl⟩ | rfl
    · exact .inl ⟨e, rfl⟩
    · exact .inr rfl
  · intro s hs
    cases connects with
    | nil => cases hs
    | cons a l =>
      simp only [List.head?_cons, Option.some.injEq] at hs
      subst hs
      unfold ClientConn.send ClientConn.connect
      simp [ClientConn.new, StreamFactory.create, TcpStreamFactory.create, TcpStreamFactory.connect, TcpStreamFactory.new, h0]
  · intro g hg
    have := zero_create hg
    unfold TlsStreamFactory.create
    generalize g.tcp.create = y at this ⊢
    obtain ⟨y, f⟩ := y
    rcases this with ⟨e, rfl⟩ | rfl
    · exact .inl ⟨e, rfl⟩
    · exact .inr rfl

end Verif
