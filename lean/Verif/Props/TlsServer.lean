import Verif.Proofs.NetIdle
import Verif.Proofs.SharedBlock
import Verif.Proofs.Smoothly
import Verif.Proofs.TlsBlock
import Verif.Props.Shared

/-!
C77: a handler that keeps its connection has read all that there was to read.
-/

namespace Verif

section

variable {T σ : Type} [RawIO T] {prof : Profile} {rt : Router σ} {P : Traced T → Prop} {Er : Errs}

theorem shared_handleAll_gone (envs : List ((T → T) × Nat)) {c : SharedConn (ServerStack (Traced T))} {l : Slot (Shared (ServerStack (Traced T))) Unit} {s s' : σ}
    (h : SharedConn.handleAll prof rt envs (.gone c) s = some (l, s')) : l = .gone c := by
  induction envs with
  | nil => cases h; rfl
  | cons e envs ih =>
    rw [SharedConn.handleAll] at h
    simp only [Slot.turn, SharedConn.handle] at h
    split at h
    · cases h
    · exact ih h

theorem shared_handleAll_poisoned (envs : List ((T → T) × Nat)) {c : SharedConn (ServerStack (Traced T))} {l : Slot (Shared (ServerStack (Traced T))) Unit} {s s' : σ}
    (h : SharedConn.handleAll prof rt envs (.poisoned c) s = some (l, s')) : l = .poisoned c := by
  induction envs with
  | nil => cases h; rfl
  | cons e envs ih =>
    rw [SharedConn.handleAll] at h
    simp only [Slot.turn, SharedConn.handle] at h
    split at h
    · cases h
    · exact ih h

/-- After the last invocation. -/
theorem server_waits_all (hP : RawKeeps P) {envs : List ((T → T) × Nat)} (henv : ∀ e ∈ envs, ∀ t, P t → P { t with raw := e.1 t.raw }) (hne : envs ≠ [])
    {c c' : SharedConn (ServerStack (Traced T))} {s s' : σ} (hk : P c.reader.stream.val.inner.val.inner)
    (h : SharedConn.handleAll prof rt envs (.live c) s = some (.live c', s')) : ServerStack.Waits P c'.reader.stream := by
  induction envs generalizing c s with
  | nil => exact absurd rfl hne
  | cons e envs ih =>
    obtain ⟨env, n⟩ := e
    rw [SharedConn.handleAll] at h
    cases hy : SharedConn.handle prof rt ((Slot.live c).turn env n) s with
    | mk o y =>
    obtain ⟨l₁, s₁⟩ := y
    rw [hy] at h
    have h : SharedConn.handleAll prof rt envs l₁ s₁ = some (.live c', s') := by
      cases o with
      | diverge => cases h
      | _ =>
        dsimp only at h
        split at h
        · cases h
        · exact h
    cases l₁ with
    | gone c₁ => cases shared_handleAll_gone envs h
    | poisoned c₁ => cases shared_handleAll_poisoned envs h
    | live c₁ =>
      have hw := server_waits hP prof rt (henv (env, n) (List.mem_cons_self ..) _ hk) hy
      cases envs with
      | nil =>
        cases h
        exact hw
      | cons e envs =>
        obtain ⟨-, t, m, h1, h2⟩ := hw
        exact ih (fun e he => henv e (List.mem_cons_of_mem _ he)) nofun (hP.read h2 h1) h

/-- C77: over any raw stream, a handler that keeps its connection does so because a `read` of the stream said `WouldBlock`. That was the last thing it did with the stream, and
all bytes that were read before have been handed to the parser: nothing is left in the buffer. (The poll in poll.rs 39 is edge-triggered, so there would be no further call of the
handler for bytes that it left behind.) -/
theorem C77_waits (grow : Nat → Nat → Nat) (offer : Nat → Nat) (t : T) {envs : List ((T → T) × Nat)} (hne : envs ≠ []) {c : SharedConn (ServerStack (Traced T))} {s s' : σ}
    (h : SharedConn.handleAll prof rt envs (.live (SharedConn.new grow offer t)) s = some (.live c, s')) :
    c.reader.stream.val.inner.val.buf = [] ∧ ∃ (t : Traced T) (n : Nat), RawIO.read t.raw n = (.error .wouldBlock, (Slot.live c).traced.raw) ∧
      (Slot.live c).traced = { t with raw := (Slot.live c).traced.raw, log := t.log ++ [.err .wouldBlock] } := by
  obtain ⟨h1, t, n, -, h2⟩ := server_waits_all (P := fun _ => True) { write := fun _ _ => trivial, flush := fun _ _ => trivial, read := fun _ _ => trivial, drop := fun _ => trivial }
    (fun _ _ _ _ => trivial) hne trivial h
  refine ⟨h1, t, n, ?_⟩
  simp only [RawIO.read] at h2
  change RawIO.read t.raw n = (_, (Slot.live c).traced.raw) ∧ _
  have h2 : _ = (_, (Slot.live c).traced) := h2
  cases hx : RawIO.read t.raw n with
  | mk x raw =>
  rw [hx] at h2
  cases x with
  | ok b => cases h2
  | error e =>
    obtain ⟨h3, h4⟩ := Prod.mk.inj h2
    cases h3
    rw [← h4]
    exact ⟨rfl, rfl⟩

theorem log_mild {evs : List Ev} (h : ∀ a ∈ evs.flatMap Ev.atoms, a.Mild) {ev : Ev} (he : ev ∈ evs) :
    (∃ b, ev = .data b ∧ b ≠ []) ∨ ev = .err .wouldBlock ∨ ev = .err .interrupted := by
  have h : ∀ a ∈ ev.atoms, a.Mild := fun a ha => h a (List.mem_flatMap.2 ⟨ev, he, ha⟩)
  cases ev with
  | data b =>
    refine .inl ⟨b, rfl, ?_⟩
    rintro rfl
    rcases h .eof (by simp [Ev.atoms]) with ⟨b, hb⟩ | hb | hb <;> cases hb
  | err e =>
    rcases h (.err e) (by simp [Ev.atoms]) with ⟨b, hb⟩ | hb | hb
    · cases hb
    · cases hb; exact .inr (.inr rfl)
    · cases hb; exact .inr (.inl rfl)

/-- Everything about a connection that is kept. -/
theorem kept_live (hT : RawIO.Honest T) (hR : RawIO.ReadsWithin T) (hP : RawKeeps P) (hE : ErrsIn P Er) {grow : Nat → Nat → Nat} (hg : ∀ c n, c ≤ grow c n) (offer : Nat → Nat)
    {t : T} (ht : P ⟨t, [], []⟩) {envs : List ((T → T) × Nat)} (henv : ∀ e ∈ envs, ∀ t, P t → P { t with raw := e.1 t.raw }) {c : SharedConn (ServerStack (Traced T))} {s s' : σ}
    (h : SharedConn.handleAll prof rt envs (.live (SharedConn.new grow offer t)) s = some (.live c, s')) :
    P (Slot.live c).traced ∧ ∃ wss fl d, (∀ ws ∈ wss, ∀ e ∈ ws, ∀ er, e = .err er → Er.write er) ∧
      handleAll prof rt wss (.live (Conn.scripted grow hg offer (Slot.live c).traced.log fl)) s = (.live d, s') ∧ d.reader.Ahead [] ∧
      d.writer.total = (Slot.live c).traced.put ++ c.reader.stream.val.buf.drop c.reader.stream.val.pos := by
  obtain ⟨es, wss, fl, h1, h2, h0, h3, h4⟩ := server_runs hT hR hP hE hg offer henv h ⟨⟨rfl, rfl, ht⟩, rfl⟩ (fun c hc => by cases hc; rfl)
  obtain rfl : (Slot.live c).traced.log = es := h3
  have h4 := h4 [] []
  rw [List.append_nil, List.append_nil] at h4
  refine ⟨h0, wss, fl, _, h2, h4, ?_, rfl⟩
  have hb : c.reader.stream.val.inner.val.buf = [] := by
    cases envs with
    | nil =>
      cases h
      rfl
    | cons e envs => exact (server_waits_all hP henv nofun ht h).1
  have hl : (Conn.scripted grow hg offer (Slot.live c).traced.log fl).Mild ((Slot.live c).traced.log.flatMap Ev.atoms) :=
    ⟨by simp [Conn.scripted, Conn.new, RequestParser.new, MsgState.Framed], _, ⟨rfl, rfl⟩, [], rfl, by simp⟩
  obtain ⟨-, as, h5, -⟩ := handleAll_mild hl h4
  refine ⟨h5.1, ?_⟩
  change (c.reader.stream.val.inner.val.buf.map Atom.byte ++ [].flatMap Ev.atoms) = []
  rw [hb]
  rfl

/-- C77: over any raw stream, on a connection that is kept no `read` has failed in any other way than with `WouldBlock` or by an interruption, and none has said that the stream is at its
end. -/
theorem C77_mild (hT : RawIO.Honest T) (hR : RawIO.ReadsWithin T) {grow : Nat → Nat → Nat} (hg : ∀ c n, c ≤ grow c n) (offer : Nat → Nat) (t : T) (envs : List ((T → T) × Nat))
    {c : SharedConn (ServerStack (Traced T))} {s s' : σ} (h : SharedConn.handleAll prof rt envs (.live (SharedConn.new grow offer t)) s = some (.live c, s')) :
    ∀ ev ∈ (Slot.live c).traced.log, (∃ b, ev = .data b ∧ b ≠ []) ∨ ev = .err .wouldBlock ∨ ev = .err .interrupted := by
  obtain ⟨-, wss, fl, d, -, h4, h5, -⟩ := kept_live (P := fun _ => True) (Er := .any) hT hR
    { write := fun _ _ => trivial, flush := fun _ _ => trivial, read := fun _ _ => trivial, drop := fun _ => trivial } errsIn_any hg offer trivial (fun _ _ _ _ => trivial) h
  have hl : (Conn.scripted grow hg offer (Slot.live c).traced.log fl).Mild ((Slot.live c).traced.log.flatMap Ev.atoms) :=
    ⟨by simp [Conn.scripted, Conn.new, RequestParser.new, MsgState.Framed], _, ⟨rfl, rfl⟩, [], rfl, by simp⟩
  obtain ⟨-, as, h6, used, h7, h8⟩ := handleAll_mild hl h4
  obtain rfl : as = [] := by rw [← h6.2, h5.2]
  rw [List.append_nil] at h7
  exact fun ev he => log_mild (by rw [h7]; exact h8) he

theorem answered_live (hT : RawIO.Honest T) (hR : RawIO.ReadsWithin T) (hP : RawKeeps P) (hE : ErrsIn P .calm) (hrt : rt.PartsLe 4096)
    {grow : Nat → Nat → Nat} (hg : ∀ c n, c ≤ grow c n) (offer : Nat → Nat)
    {t : T} (ht : P ⟨t, [], []⟩) {envs : List ((T → T) × Nat)} (henv : ∀ e ∈ envs, ∀ t, P t → P { t with raw := e.1 t.raw }) {c : SharedConn (ServerStack (Traced T))} {s s' : σ}
    (h : SharedConn.handleAll prof rt envs (.live (SharedConn.new grow offer t)) s = some (.live c, s'))
    (hi : .err .interrupted ∉ (Slot.live c).traced.log) (hc : CutWell (Slot.live c).traced.log)
    {ms : List (Bytes × Request)} (hms : ∀ m ∈ ms, FittingRequest m.1 m.2) (hgot : (Slot.live c).traced.got <+: ms.flatMap Prod.fst) :
    P (Slot.live c).traced ∧ ∃ ms₁ rest out, ms₁ <+: ms ∧ (Slot.live c).traced.got = ms₁.flatMap Prod.fst ++ rest ∧ (∀ w q, FittingRequest w q → ¬ w <+: rest) ∧
      Served rt s (ms₁.map Prod.snd) out s' ∧ (Slot.live c).traced.put ++ c.reader.stream.val.buf.drop c.reader.stream.val.pos = out := by
  have hm := C77_mild hT hR hg offer t envs h
  obtain ⟨h0, wss, fl, d, h2, h4, h5, h6⟩ := kept_live hT hR hP hE hg offer ht henv h
  refine ⟨h0, ?_⟩
  have hp : ∀ ev ∈ (Slot.live c).traced.log, ev = .err .wouldBlock ∨ ∃ b, ev = .data b ∧ b ≠ [] := by
    intro ev he
    rcases hm ev he with ⟨b, rfl, hb⟩ | rfl | rfl
    · exact .inr ⟨b, rfl, hb⟩
    · exact .inl rfl
    · exact absurd he hi
  have hsm := hc.smooth hp
  have hby : bytesOf ((Slot.live c).traced.log.flatMap Ev.atoms) = (Slot.live c).traced.got := bytesOf_got _
  obtain ⟨qs, out, s₁, r₁, tail, k1, k2, k3, k4, -, k6, k7⟩ := handleAll_sound (prof := prof) hrt (es := wss)
    (c := Conn.scripted grow hg offer (Slot.live c).traced.log fl) (s := s) rfl (.inr rfl) (cap := 4096) (Nat.le_refl _)
    (fun ws hw => ⟨fun hi => h2 ws hw _ hi _ rfl rfl, .inr (Nat.le_refl _)⟩)
    (r₀ := (Conn.scripted grow hg offer (Slot.live c).traced.log fl).reader) (inProgress_new prof _)
  rw [h4] at k7
  obtain ⟨-, j2, j3, -, j5⟩ := k7 _ rfl
  dsimp only at j2
  subst j2
  have hah : (Conn.scripted grow hg offer (Slot.live c).traced.log fl).reader.Ahead ((Slot.live c).traced.log.flatMap Ev.atoms) := ⟨rfl, rfl⟩
  obtain ⟨ms₁, ms₂, as', e1, e2, e3, e4, e5, e6⟩ := heard_conform k1 hms hah hsm (by rw [hby]; exact hgot)
  refine ⟨ms₁, bytesOf as', out, ⟨ms₂, e1.symm⟩, by rw [← hby, e6], fun w q hq => j5.idle e3 e4 h5 hq, by rw [← e2]; exact k2, ?_⟩
  rw [← h6, j3]
  rfl

/-- C77 (partial: for responses in parts of at most 4096 bytes, and a raw stream that is never interrupted): over any raw stream, if what the server read is a beginning of the texts of some requests, cut by the reads only where `read_line`
loses nothing, then on a connection that is kept the router was asked about all requests that came whole, and no other, in order, and the answers have been written or are held to be written: there is no further request in the rest. -/
theorem C77_answered_partial (hT : RawIO.Honest T) (hR : RawIO.ReadsWithin T) (hE : ∀ (f : Nat) (t t' : T) (b : Bytes), Wr.write f t b ≠ some (.error .interrupted, t'))
    (hrt : rt.PartsLe 4096) {grow : Nat → Nat → Nat} (hg : ∀ c n, c ≤ grow c n) (offer : Nat → Nat) (t : T) (envs : List ((T → T) × Nat)) {c : SharedConn (ServerStack (Traced T))} {s s' : σ}
    (h : SharedConn.handleAll prof rt envs (.live (SharedConn.new grow offer t)) s = some (.live c, s'))
    (hi : .err .interrupted ∉ (Slot.live c).traced.log) (hc : CutWell (Slot.live c).traced.log)
    {ms : List (Bytes × Request)} (hms : ∀ m ∈ ms, FittingRequest m.1 m.2) (hgot : (Slot.live c).traced.got <+: ms.flatMap Prod.fst) :
    ∃ ms₁ rest out, ms₁ <+: ms ∧ (Slot.live c).traced.got = ms₁.flatMap Prod.fst ++ rest ∧ (∀ w q, FittingRequest w q → ¬ w <+: rest) ∧
      Served rt s (ms₁.map Prod.snd) out s' ∧ (Slot.live c).traced.put ++ c.reader.stream.val.buf.drop c.reader.stream.val.pos = out := by
  refine (answered_live (P := fun _ => True) hT hR { write := fun _ _ => trivial, flush := fun _ _ => trivial, read := fun _ _ => trivial, drop := fun _ => trivial } ?_ hrt hg offer trivial
    (fun _ _ _ _ => trivial) h hi hc hms hgot).2
  refine ⟨fun _ _ _ => trivial, fun {f t t' b e} _ hw he => ?_, fun _ _ => trivial⟩
  subst he
  obtain ⟨⟨y, t₁⟩, h1, h2⟩ := Option.map_eq_some_iff.1 hw
  cases y with
  | ok n => cases h2
  | error e =>
    cases h2
    exact hE _ _ _ _ h1

end

/-! ## Over TLS -/

section

variable {σ : Type} {prof : Profile} {rt : Router σ}

/-- What holds of a TLS stream. -/
def TlsHeld (cipher : Cipher) (input : List TlsEv) (evs : List WEv) (t : Traced TlsStream) : Prop := TlsStream.Inv cipher input t.got t.put t.raw ∧ t.raw.Of input evs

theorem tlsHeld_keeps (cipher : Cipher) (input : List TlsEv) (evs : List WEv) : RawKeeps (TlsHeld cipher input evs) where
  write {f w w' b x} e h := by
    refine ⟨(tls_keeps cipher input).write e h.1, ?_⟩
    have := TlsStream.write_parks h.2 b
    obtain ⟨⟨y, t⟩, h1, h2⟩ := Option.map_eq_some_iff.1 e
    have h1 : (y, t) = w.raw.write b := (Option.some.inj h1).symm
    rw [← h1] at this
    cases y <;> (cases h2; exact this.1)
  flush {f w w' x} e h := by
    refine ⟨(tls_keeps cipher input).flush e h.1, ?_⟩
    obtain ⟨y, h1, h2⟩ := Option.map_eq_some_iff.1 e
    cases h2
    have h1 : y = w.raw.flush := (Option.some.inj h1).symm
    subst h1
    exact (TlsStream.flush_parks h.2).1
  read {t t' n x} e h := by
    refine ⟨(tls_keeps cipher input).read e h.1, ?_⟩
    have h1 := TlsStream.read_parks h.2 n
    simp only [RawIO.read] at e
    generalize t.raw.read n = y at h1 e
    obtain ⟨y, t₁⟩ := y
    cases y <;> (cases e; exact h1.1)
  drop {t} h := ⟨(tls_keeps cipher input).drop h.1, (TlsStream.flush_parks (t := { t.raw with sess := t.raw.sess.sendCloseNotify }) h.2).1⟩

/-- What holds of a TLS stream over scripts that are never interrupted. -/
def TlsKept (cipher : Cipher) (input : List TlsEv) (t : Traced TlsStream) : Prop :=
  (TlsStream.Inv cipher input t.got t.put t.raw ∧ t.raw.Calm) ∧ .err .interrupted ∉ t.log

theorem tls_read_calm {t t' : TlsStream} (h : t.Calm) {n : Nat} : t.read n ≠ (.error .interrupted, t') := by
  have h1 := TlsStream.completePriorIo_calm h
  unfold TlsStream.read
  generalize t.completePriorIo = x at h1
  obtain ⟨x, t₁⟩ := x
  cases x with
  | error e =>
    intro hx
    cases hx
    exact h1.2 rfl
  | ok u =>
    have h2 := TlsStream.readLoop_calm (t₁.input.length + 1) h1.1
    dsimp only
    generalize TlsStream.readLoop (t₁.input.length + 1) t₁ = x at h2
    obtain ⟨x, t₂⟩ := x
    cases x with
    | error e =>
      intro hx
      cases hx
      exact h2.2 rfl
    | ok u =>
      intro hx
      have hx := (Prod.mk.inj hx).1
      unfold TlsSession.read at hx
      split at hx <;> cases hx

theorem tlsKept_keeps (cipher : Cipher) (input : List TlsEv) : RawKeeps (TlsKept cipher input) where
  write {f w w' b x} e h := by
    refine ⟨(tls_calm_keeps cipher input).write e h.1, ?_⟩
    obtain ⟨⟨y, t⟩, h1, h2⟩ := Option.map_eq_some_iff.1 e
    cases y <;> (cases h2; exact h.2)
  flush {f w w' x} e h := by
    refine ⟨(tls_calm_keeps cipher input).flush e h.1, ?_⟩
    obtain ⟨y, h1, h2⟩ := Option.map_eq_some_iff.1 e
    cases h2
    exact h.2
  read {t t' n x} e h := by
    refine ⟨(tls_calm_keeps cipher input).read e h.1, ?_⟩
    have h2 := fun t' => tls_read_calm (t' := t') h.1.2 (n := n)
    simp only [RawIO.read] at e
    generalize t.raw.read n = y at h2 e
    obtain ⟨y, t₁⟩ := y
    cases y with
    | ok b =>
      cases e
      simpa using h.2
    | error er =>
      cases e
      intro hm
      rcases List.mem_append.1 hm with hm | hm
      · exact h.2 hm
      · simp only [List.mem_singleton, Ev.err.injEq] at hm
        subst hm
        exact h2 _ rfl
  drop h := ⟨(tls_calm_keeps cipher input).drop h.1, h.2⟩

/-- C77: over TLS, a handler keeps its connection in two cases only. Either the session has something to send, and the TCP stream, asked to take it, said `WouldBlock`, and nothing was asked of it after that. Or
there is nothing to send, all plain text that came has been handed to the parser, and the TCP stream, asked for more, said `WouldBlock`, and nothing was read from it after that. -/
theorem C77_tls_waits (cipher : Cipher) (input : List TlsEv) (evs : List WEv) (fl : List (Option IoError)) (grow : Nat → Nat → Nat) (offer : Nat → Nat) {ns : List Nat} (hne : ns ≠ [])
    {c : SharedConn (ServerStack (Traced TlsStream))} {s s' : σ}
    (h : SharedConn.handleAll prof rt (ns.map fun n => (id, n)) (.live (SharedConn.new grow offer (TlsStream.new cipher false input ⟨evs, fl, []⟩))) s = some (.live c, s')) :
    let t := (Slot.live c).traced.raw
    c.reader.stream.val.inner.val.buf = [] ∧ ∃ used, input = used ++ t.input ∧
    (t.sess.out ≠ [] ∧ (t.sock.evs = [] ∨ .err .wouldBlock :: t.sock.evs <:+ evs) ∨
      t.sess.out = [] ∧ (Slot.live c).traced.got = (used.foldl TlsHeard.step ⟨true, [], false, false⟩).came ∧ (t.input = [] ∨ used.getLast? = some (.err .wouldBlock))) := by
  have h0 : TlsHeld cipher input evs ⟨TlsStream.new cipher false input ⟨evs, fl, []⟩, [], []⟩ :=
    ⟨TlsStream.Inv.new cipher false input evs fl, List.suffix_refl _, List.suffix_refl _⟩
  obtain ⟨h1, t, n, h2, h3⟩ := server_waits_all (tlsHeld_keeps cipher input evs)
    (fun e hm t ht => by
      obtain ⟨n, -, rfl⟩ := List.mem_map.1 hm
      exact ht) (by simpa using hne) (c := SharedConn.new grow offer (TlsStream.new cipher false input ⟨evs, fl, []⟩)) h0 h
  have h4 : TlsStream.Inv cipher input (Slot.live c).traced.got (Slot.live c).traced.put (Slot.live c).traced.raw := ((tlsHeld_keeps cipher input evs).read h3 h2).1
  have h5 := TlsStream.read_parks h2.2 n
  obtain ⟨used, h9, h10⟩ := h4.heard
  refine ⟨h1, used, h9, ?_⟩
  simp only [RawIO.read] at h3
  have h3 : _ = (_, (Slot.live c).traced) := h3
  have h6 : (Slot.live c).traced.raw.Blocked input evs := by
    generalize t.raw.read n = y at h3 h5
    obtain ⟨y, t₁⟩ := y
    cases y with
    | ok b => cases h3
    | error e =>
      obtain ⟨h6, h7⟩ := Prod.mk.inj h3
      rw [← h7]
      cases h6
      exact h5.2 rfl
  rcases h6 with h6 | ⟨h6, h7, h8⟩
  · exact .inl h6
  · refine .inr ⟨h6, ?_, h8.imp id fun ⟨pre, hp⟩ => ?_⟩
    · rw [h10]
      change _ = (Slot.live c).traced.raw.sess.came
      rw [← h4.plain, h7, List.append_nil]
    · rw [show pre ++ .err .wouldBlock :: (Slot.live c).traced.raw.input = (pre ++ [.err .wouldBlock]) ++ (Slot.live c).traced.raw.input by simp] at hp
      rw [← List.append_cancel_right (hp.trans h9)]
      simp

/-- C77 (partial: for responses in parts of at most 4096 bytes, a TCP stream that is never interrupted, and requests that may be cut anywhere, see `AnyCut`): over TLS, if the plain text that came after the handshake is a beginning of the texts of some requests, then
on a connection that is kept with nothing left to send the router was asked about all requests that came whole, and no other, in order; the answers have been sealed and sent, or are held to be sealed; and there is nothing more to read: the
TCP stream has said so. -/
theorem C77_tls_answered_partial (hrt : rt.PartsLe 4096) (cipher : Cipher) {input : List TlsEv} {evs : List WEv} (hi : .err .interrupted ∉ input) (he : .err .interrupted ∉ evs)
    (fl : List (Option IoError)) {grow : Nat → Nat → Nat} (hg : ∀ c n, c ≤ grow c n) (offer : Nat → Nat) {ns : List Nat} (hne : ns ≠ [])
    {c : SharedConn (ServerStack (Traced TlsStream))} {s s' : σ}
    (h : SharedConn.handleAll prof rt (ns.map fun n => (id, n)) (.live (SharedConn.new grow offer (TlsStream.new cipher false input ⟨evs, fl, []⟩))) s = some (.live c, s'))
    (ho : (Slot.live c).traced.raw.sess.out = []) {ms : List (Bytes × Request)} (hms : ∀ m ∈ ms, FittingRequest m.1 m.2 ∧ AnyCut m.1) {used : List TlsEv}
    (hu : input = used ++ (Slot.live c).traced.raw.input) (hcame : (used.foldl TlsHeard.step ⟨true, [], false, false⟩).came <+: ms.flatMap Prod.fst) :
    let t := (Slot.live c).traced.raw
    (t.input = [] ∨ used.getLast? = some (.err .wouldBlock)) ∧
    ∃ ms₁ rest out, ms₁ <+: ms ∧ (used.foldl TlsHeard.step ⟨true, [], false, false⟩).came = ms₁.flatMap Prod.fst ++ rest ∧ (∀ w q, FittingRequest w q → ¬ w <+: rest) ∧
      Served rt s (ms₁.map Prod.snd) out s' ∧ t.sess.log.flatMap TlsItem.plain ++ c.reader.stream.val.buf.drop c.reader.stream.val.pos = out ∧
      t.sock.sent = cipher.wire 0 t.sess.log := by
  have henv : ∀ e ∈ ns.map fun n => ((id : TlsStream → TlsStream), n), ∀ t, TlsKept cipher input t → TlsKept cipher input { t with raw := e.1 t.raw } := fun e hm t ht => by
    obtain ⟨n, -, rfl⟩ := List.mem_map.1 hm
    exact ht
  have h0 : TlsKept cipher input ⟨TlsStream.new cipher false input ⟨evs, fl, []⟩, [], []⟩ := ⟨⟨TlsStream.Inv.new cipher false input evs fl, hi, he⟩, by simp⟩
  have hk := (kept_live tls_honest tls_within (tlsKept_keeps cipher input) (Er := .any) ⟨fun _ _ _ => trivial, fun _ _ => trivial, fun _ _ => trivial⟩ hg offer h0 henv h).1
  obtain ⟨-, u, h3, hw⟩ := C77_tls_waits cipher input evs fl grow offer hne h
  obtain rfl : used = u := List.append_cancel_right (hu.symm.trans h3)
  rcases hw with ⟨hw, -⟩ | ⟨-, hw, hb⟩
  · exact absurd ho hw
  obtain ⟨-, ms₁, rest, out, k1, k2, k3, k4, k5⟩ := answered_live tls_honest tls_within (tlsKept_keeps cipher input)
    ((tls_calm_errs cipher input).of fun _ ht => ht.1) hrt hg offer h0 henv h hk.2
    ((anyCut_all hms).cutWell (by rw [← Traced.got, hw]; exact hcame)) (fun m hm => (hms m hm).1) (by rw [hw]; exact hcame)
  refine ⟨hb, ms₁, rest, out, k1, by rw [← hw, k2], k3, k4, by rw [hk.1.1.log]; exact k5, ?_⟩
  have := hk.1.1.wire
  rw [ho, List.append_nil, hk.1.1.cipher] at this
  exact this

end

/-- What can be seen of a connection over TLS: whether it is kept, what was read, how much there is still to read, what there is to send, what was written, and the state of the router. -/
structure TlsSight where
  live : Bool
  got : Bytes
  left : Nat
  out : Bytes
  put : Bytes
  st : Nat
  deriving DecidableEq

def tlsSight (x : Slot (Shared (ServerStack (Traced TlsStream))) Unit × Nat) : TlsSight :=
  ⟨x.1.isLive, x.1.traced.got, x.1.traced.raw.input.length, x.1.traced.raw.sess.out, x.1.traced.put, x.2⟩

theorem tlsSight_of {x : Option (Slot (Shared (ServerStack (Traced TlsStream))) Unit × Nat)} {g o p : Bytes} {n s : Nat}
    (h : x.map tlsSight = some ⟨true, g, n, o, p, s⟩) : ∃ c, x = some (.live c, s) ∧ (Slot.live c).traced.got = g ∧ (Slot.live c).traced.raw.input.length = n ∧
      (Slot.live c).traced.raw.sess.out = o ∧ (Slot.live c).traced.put = p := by
  obtain ⟨⟨l, s₁⟩, h1, h2⟩ := Option.map_eq_some_iff.1 h
  unfold tlsSight at h2
  simp only [TlsSight.mk.injEq] at h2
  obtain ⟨h2, h3, h4, h5, h6, rfl⟩ := h2
  cases l with
  | live c => exact ⟨c, h1, h3, h4, h5, h6⟩
  | gone c => cases h2
  | poisoned c => cases h2

/-- A connection that is kept over TLS with everything read and answered: the hypotheses of the theorems above can hold. -/
example (prof : Profile) : ∃ c, SharedConn.handleAll prof counter [(id, 20)] (tlsConn [.records true [] false true, .records false (b!"GET /a HTTP/1.1\r\n\r\nGET /b HT") false false]
    [.accept 100, .accept 100]) 0 = some (.live c, 1) ∧ (Slot.live c).traced.got = b!"GET /a HTTP/1.1\r\n\r\nGET /b HT" ∧ (Slot.live c).traced.raw.input.length = 0 ∧
      (Slot.live c).traced.raw.sess.out = [] ∧ (Slot.live c).traced.put = b!"HTTP/1.1 200 OK\r\n\r\nhi" :=
  tlsSight_of (by rcases prof with ⟨_ | _⟩ <;> decide +kernel)

/-- C77 fails for what has come to the TCP stream: while the session has something to send that the TCP stream does not take, here its part of the handshake, nothing is read, so a request lies unanswered although it has come. (Without TLS the
requests are read and answered, and the answers are held. The next call of the handler comes when the TCP stream takes something again.) -/
theorem C77_tls_blocked_false (prof : Profile) : ∃ c, SharedConn.handleAll prof counter [(id, 20), (id, 20)]
    (tlsConn [.records true [] false true, .records false (b!"GET /a HTTP/1.1\r\n\r\n") false false] []) 0 = some (.live c, 0) ∧ (Slot.live c).traced.got = [] ∧
      (Slot.live c).traced.raw.input.length = 1 ∧ (Slot.live c).traced.raw.sess.out = toyCipher.sealed 0 .reply ∧ (Slot.live c).traced.put = [] :=
  tlsSight_of (by rcases prof with ⟨_ | _⟩ <;> decide +kernel)

end Verif
