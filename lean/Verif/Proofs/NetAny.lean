import Verif.Spec.NetAny
import Verif.Proofs.SharedBlock
import Verif.Props.Net

/-!
The whole server over streams of any kind: what it does is what it does over scripted streams.
-/

namespace Verif

variable {σ : Type} {prof : Profile}

/-! ## Reading -/

theorem Conn.at_app {W : Type} (c : Conn Rd W) (es : List Ev) (X : List Atom) :
    ({ c with reader := { c.reader with src := { c.reader.src with evs := c.reader.src.evs ++ es } } } : Conn Rd W).at X = c.at (es.flatMap Ev.atoms ++ X) := by
  simp [Conn.at, Src.atoms]

theorem readRequest_abs {W : Type} {c c' : Conn Rd W} {x : ReadRequestResult} (h : c.readRequest prof = (x, c')) : (c.at []).readRequest prof = (x, c'.at []) := by
  have key : ∀ {p : RequestParser} {r r' : Rd} {o : Out RequestParser Request}, RequestParser.parse prof p r = (o, r') →
      RequestParser.parse prof p (⟨r.lims, r.src.atoms ++ []⟩ : AR) = (o, ⟨r'.lims, r'.src.atoms ++ []⟩) := by
    intro p r r' o h
    have h1 := requestParse_abs prof p r
    rw [h] at h1
    rw [List.append_nil, List.append_nil]
    exact h1
  unfold Conn.readRequest at h ⊢
  split at h
  · next he =>
    cases h
    rw [show RequestParser.parse prof ((c.at []).parser.getD .new) (c.at []).reader = _ from key he]
    rfl
  · next p e r he =>
    rw [show RequestParser.parse prof ((c.at []).parser.getD .new) (c.at []).reader = _ from key he]
    dsimp only
    split at h
    · next h1 => cases h; rw [if_pos h1]; rfl
    · next h1 =>
      rw [if_neg h1]
      split at h
      · next h2 => cases h; rw [if_pos h2]; rfl
      · next h2 => cases h; rw [if_neg h2]; rfl
  all_goals
    next he =>
    cases h
    rw [show RequestParser.parse prof ((c.at []).parser.getD .new) (c.at []).reader = _ from key he]
    rfl

/-- After `notReady` nothing is left, when there was no `WouldBlock` in what was to be read. -/
theorem readRequest_none {W : Type} {c c' : Conn Rd W} (h : c.readRequest prof = (.notReady, c')) (hw : WB ∉ c.reader.src.atoms) : c'.reader.src.atoms = [] := by
  unfold Conn.readRequest at h
  split at h
  · cases h
  · next p e r he =>
    split at h
    · next hwb =>
      subst hwb
      cases h
      have h1 := requestParse_abs prof (c.parser.getD .new) c.reader
      rw [he] at h1
      exact (request_block [] hw h1).1
    · split at h <;> cases h
  all_goals cases h

theorem Ev.atoms_ne (e : Ev) : e.atoms ≠ [] := by
  cases e with
  | err => simp [Ev.atoms]
  | data b => cases b <;> simp [Ev.atoms]

theorem Ev.no_wb {es : List Ev} (h : ∀ e ∈ es, e ≠ .err .wouldBlock) : WB ∉ es.flatMap Ev.atoms := by
  intro hm
  obtain ⟨e, h1, h2⟩ := List.mem_flatMap.1 hm
  cases e with
  | err e =>
    simp only [Ev.atoms, List.mem_singleton, WB] at h2
    injection h2 with h2
    exact h _ h1 (h2 ▸ rfl)
  | data b => cases b <;> simp [Ev.atoms, WB] at h2

theorem Ev.split_wb (es : List Ev) : (∀ e ∈ es, e ≠ .err .wouldBlock) ∨ ∃ A X, es = A ++ .err .wouldBlock :: X ∧ ∀ e ∈ A, e ≠ .err .wouldBlock := by
  induction es with
  | nil => exact .inl (by simp)
  | cons e es ih =>
    by_cases he : e = .err .wouldBlock
    · exact .inr ⟨[], es, by simp [he], by simp⟩
    · rcases ih with h | ⟨A, X, rfl, h⟩
      · exact .inl (List.forall_mem_cons.2 ⟨he, h⟩)
      · exact .inr ⟨e :: A, X, rfl, List.forall_mem_cons.2 ⟨he, h⟩⟩

theorem Ev.told_all {es : List Ev} (h : ∀ e ∈ es, e ≠ .err .wouldBlock) : Ev.told es = es := by
  unfold Ev.told
  rw [List.filter_eq_self]
  intro e he
  simpa using h e he

/-- Reading a request where `es` comes, with the pauses in it, is reading it where only what is told comes. -/
theorem read_told {W : Type} {c c' n : Conn Rd W} {o : ReadRequestResult} {es : List Ev} (h : ({ c with reader := { c.reader with src := { c.reader.src with evs := es } } } : Conn Rd W).readRequest prof = (o, c'))
    (hc : c.reader.src.evs = []) (hc' : c'.reader.src.evs = []) (hb : o = .notReady → c'.reader.src.buf = []) (hn : n.at [] = c.at []) (hd : o ≠ .diverge) :
    ∃ n', ({ n with reader := { n.reader with src := { n.reader.src with evs := n.reader.src.evs ++ Ev.told es } } } : Conn Rd W).readRequest prof = (o, n') ∧ n'.at [] = c'.at [] := by
  have hat : ∀ es X, ({ n with reader := { n.reader with src := { n.reader.src with evs := n.reader.src.evs ++ es } } } : Conn Rd W).at X =
      ({ c with reader := { c.reader with src := { c.reader.src with evs := es } } } : Conn Rd W).at X := by
    intro es X
    rw [Conn.at_app]
    have h1 := Conn.at_app c es X
    rw [hc, List.nil_append] at h1
    rw [h1]
    injection hn with a1 a2 a3
    injection a1 with a1 a4
    simp only [List.append_nil] at a4
    simp only [Conn.at, a1, a2, a3, a4]
  have hwb : WB ∉ n.reader.src.atoms := by
    injection hn with a1 a2 a3
    injection a1 with a1 a4
    simp only [List.append_nil] at a4
    rw [a4, Src.atoms, hc]
    simp [WB]
  have hwbc' : WB ∉ c'.reader.src.atoms := by
    rw [Src.atoms, hc']
    simp [WB]
  rcases Ev.split_wb es with hes | ⟨A, X, rfl, hA⟩
  · rw [Ev.told_all hes]
    generalize hr : ({ n with reader := { n.reader with src := { n.reader.src with evs := n.reader.src.evs ++ es } } } : Conn Rd W).readRequest prof = r
    obtain ⟨o', n'⟩ := r
    have h1 := readRequest_abs hr
    rw [hat, readRequest_abs h] at h1
    obtain ⟨h2, h3⟩ := Prod.mk.inj h1
    exact ⟨n', by rw [h2], h3.symm⟩
  · generalize hr : ({ n with reader := { n.reader with src := { n.reader.src with evs := n.reader.src.evs ++ A } } } : Conn Rd W).readRequest prof = r
    obtain ⟨o', n'⟩ := r
    have hsame : (({ n with reader := { n.reader with src := { n.reader.src with evs := n.reader.src.evs ++ A } } } : Conn Rd W).at (WB :: X.flatMap Ev.atoms)) =
        ({ c with reader := { c.reader with src := { c.reader.src with evs := A ++ .err .wouldBlock :: X } } } : Conn Rd W).at [] := by
      rw [hat]
      simp [Conn.at, Src.atoms, Ev.atoms, WB]
    have h0 := readRequest_abs h
    by_cases ho' : o' = .notReady
    · subst ho'
      have hnA : WB ∉ ({ n with reader := { n.reader with src := { n.reader.src with evs := n.reader.src.evs ++ A } } } : Conn Rd W).reader.src.atoms := by
        have h1 := congrArg (fun x => x.reader.atoms) (Conn.at_app n A [])
        simp only [Conn.at, List.append_nil] at h1
        rw [h1]
        simp only [List.mem_append, not_or]
        exact ⟨hwb, Ev.no_wb hA⟩
      have h1 := readRequest_at_block hr hnA (X.flatMap Ev.atoms)
      rw [hsame, h0] at h1
      obtain ⟨h2, h3⟩ := Prod.mk.inj h1
      subst h2
      have h4 := readRequest_none hr hnA
      have h5 : c'.reader.src.atoms = [] := by rw [Src.atoms, hb rfl, hc']; rfl
      have h6 : X = [] := by
        have := congrArg (fun x => x.reader.atoms) h3
        simp only [Conn.at, h4, h5, List.append_nil, List.nil_append] at this
        cases X with
        | nil => rfl
        | cons e X =>
          rw [List.flatMap_cons] at this
          exact absurd (List.append_eq_nil_iff.1 this.symm).1 (Ev.atoms_ne e)
      subst h6
      have h7 : Ev.told (A ++ [.err .wouldBlock]) = A := by
        have := Ev.told_all hA
        unfold Ev.told at this ⊢
        rw [List.filter_append, this]
        simp
      rw [h7]
      exact ⟨n', hr, h3.symm⟩
    · have h1 := readRequest_at hr ho' (WB :: X.flatMap Ev.atoms)
      rw [hsame, h0] at h1
      have h3 := congrArg (fun x => x.2.reader.atoms) h1
      simp only [Conn.at, List.append_nil] at h3
      exact absurd (h3 ▸ (by simp)) hwbc'

/-! ## One connection -/

section

variable {T : Type} [RawIO T] {P : Traced T → Prop} {E : Errs} {Er : Nat → Errs}

/-- The stream of a connection is as it should be. -/
structure Conn.Fine (P : Traced T → Prop) (c : SharedConn (ServerStack (Traced T))) : Prop where
  cap : c.reader.stream.val.inner.val.cap = 4096
  grow : ∀ a n, a ≤ c.reader.stream.val.grow a n
  inv : P c.reader.stream.val.inner.val.inner

/-- What the raw stream does is as `E` says. -/
def Errs.In (E : Errs) (ws : List WEv) (fl : List (Option IoError)) : Prop := (∀ w ∈ ws, ∀ er, w = .err er → E.write er) ∧ ∀ e, some e ∈ fl → E.flush e

/-- A connection and its parts, given what the raw stream is going to do with what is written. -/
structure Conn.Rel (ws : List WEv) (fl : List (Option IoError)) (c : SharedConn (ServerStack (Traced T))) (n : Conn Rd Nbw) : Prop extends Conn.Alike c n where
  grow : n.writer.grow = c.reader.stream.val.grow
  evs : n.writer.sock.evs = ws
  flushes : n.writer.sock.flushes = fl

/-- The view of the stream of a connection. -/
def Conn.Fine.viewsTo {c : SharedConn (ServerStack (Traced T))} (h : Conn.Fine P c) (Bad : Traced T → Prop) (E : Errs) : Views (ServerStack (Traced T)) Nbw :=
  serverViewsTo P Bad E c.reader.stream.val.grow h.grow c.reader.offer

abbrev Conn.Fine.views {c : SharedConn (ServerStack (Traced T))} (h : Conn.Fine P c) (E : Errs) : Views (ServerStack (Traced T)) Nbw := h.viewsTo (fun _ => False) E

variable {c c' : SharedConn (ServerStack (Traced T))} {n : Conn Rd Nbw} {ws : List WEv} {fl : List (Option IoError)}

omit [RawIO T] in
theorem Conn.Fine.good {Bad : Traced T → Prop} (h : Conn.Fine P c) : (h.viewsTo Bad E).Good c.reader := ⟨⟨h.cap, rfl, h.inv⟩, rfl⟩

omit [RawIO T] in
theorem Conn.Fine.next {Bad : Traced T → Prop} (h : Conn.Fine P c) (hg : (h.viewsTo Bad E).Good c'.reader) : Conn.Fine P c' := by
  obtain ⟨⟨h1, h2, h3⟩, -⟩ := hg
  exact ⟨h1, fun a n => by rw [h2]; exact h.grow a n, h3⟩

omit [RawIO T] in
theorem Conn.Fine.rel {Bad : Traced T → Prop} (h : Conn.Fine P c) (hg : c'.reader.stream.val.grow = c.reader.stream.val.grow) : Conn.Rel ws fl c' n ↔ n.at [] = ((h.viewsTo Bad E).conn c' [] ws fl).at [] := by
  constructor
  · rintro ⟨⟨h1, h2, h3, h4, h5, h6, h7⟩, h8, h9, h10⟩
    obtain ⟨⟨nl, ns⟩, ⟨a1, a2, a3, a4, a5, ⟨b1, b2, b3⟩⟩, np⟩ := n
    dsimp only at h1 h2 h3 h4 h5 h6 h7 h8 h9 h10
    rw [hg] at h8
    subst h1 h2 h4 h5 h6 h7 h8 h9 h10
    simp only [Conn.at, h3]
    simp [Views.conn, Views.join, Conn.Fine.viewsTo, serverViewsTo, BufR.over, NbWriter.over, Src.atoms]
  · intro e
    injection e with e1 e2 e3
    injection e1 with e1 e4
    refine ⟨⟨e3, e1, ?_, ?_, ?_, ?_, ?_⟩, ?_, ?_, ?_⟩
    · simpa [Views.conn, Views.join, Conn.Fine.viewsTo, serverViewsTo, BufR.over, Src.atoms] using e4
    all_goals (rw [e2]; first | exact hg.symm | rfl)

theorem read_rel (hT : RawIO.Honest T) (hR : RawIO.ReadsWithin T) (hP : RawUses P) (hE : ErrsIn P E) (h : Conn.Fine P c) {o : ReadRequestResult} (e : c.readRequest prof = (o, c')) (ho : o ≠ .diverge) :
    Conn.Fine P c' ∧ ∃ es, c'.reader.stream.val.inner.val.inner.log = c.reader.stream.val.inner.val.inner.log ++ es ∧ (∀ e ∈ es, E.read e) ∧ ∀ ws fl n, Conn.Rel ws fl c n →
      ∃ n', ({ n with reader := { n.reader with src := { n.reader.src with evs := n.reader.src.evs ++ Ev.told es } } } : Conn Rd Nbw).readRequest prof = (o, n') ∧ Conn.Rel ws fl c' n' := by
  obtain ⟨es, h1, h2⟩ := (serverViews_lawful hT hR hP hE h.grow c.reader.offer).readRequest prof (h.good (E := E)) e ho
  have hg := h1.good h.good
  refine ⟨h.next hg, es, h1.reads.log, h1.reads.got, fun ws fl n hn => ?_⟩
  have hb : o = .notReady → c'.reader.stream.val.inner.val.buf = [] := by
    rintro rfl
    unfold Conn.readRequest at e
    have k := (server_quits hP.toRawReads).stops.request prof (c.parser.getD .new) (r := c.reader) h.inv
    generalize RequestParser.parse prof (c.parser.getD .new) c.reader = x at e k
    obtain ⟨o, r⟩ := x
    cases o with
    | io p e' =>
      by_cases he : e' = .wouldBlock
      · subst he
        cases e
        exact (k.2 _ rfl).1
      · simp only [if_neg he] at e
        split at e <;> cases e
    | _ => cases e
  obtain ⟨n', h3, h4⟩ := read_told (c := (h.views E).conn c [] ws fl) (c' := (h.views E).conn c' [] ws fl) (es := es) (n := n) (prof := prof) (o := o)
    (by have := h2 [] ws fl; rw [List.append_nil] at this; exact this) rfl rfl hb ((h.rel rfl).1 hn) ho
  exact ⟨n', h3, (h.rel hg.ok.2.1).2 h4⟩

/-- What is done with a writer is done with the scripted one, for a script in which the raw stream does what `E` says. -/
def Puts (E : Errs) {α : Type} (G : Nbw → α × Nbw) (o : α) (c c' : SharedConn (ServerStack (Traced T))) : Prop :=
  ∃ ws fl, E.In ws fl ∧ ∀ wrest frest n, Conn.Rel (ws ++ wrest) (fl ++ frest) c n → ∃ w', G n.writer = (o, w') ∧ Conn.Rel wrest frest c' { n with writer := w' }

theorem put_to {Bad : Traced T → Prop} (h : Conn.Fine P c) {α : Type} {G : Nbw → α × Nbw} {o : α} {r : Shared (ServerStack (Traced T))} (h1 : (h.viewsTo Bad E).WStep c.reader r)
    (h2 : ∃ es fl, (h.viewsTo Bad E).Did r.stream es fl ∧ ∀ rest frest, G ((h.viewsTo Bad E).wr c.reader.stream (es ++ rest) (fl ++ frest)) = (o, (h.viewsTo Bad E).wr r.stream rest frest))
    (hb : ¬ Bad r.stream.val.inner.val.inner) :
    Conn.Fine P { c with reader := r } ∧ r.stream.val.inner.val.inner.log = c.reader.stream.val.inner.val.inner.log ∧ Puts E G o c { c with reader := r } := by
  have hg := h1.good h.good
  refine ⟨h.next (c' := { c with reader := r }) hg, h1.writes.log, ?_⟩
  obtain ⟨ws, fl, h3, h4⟩ := h2
  refine ⟨ws, fl, ⟨fun e he er hr => (h3.1 e he er hr).resolve_right hb, h3.2⟩, fun wrest frest n hn => ⟨(h.viewsTo Bad E).wr r.stream wrest frest, ?_, ?_⟩⟩
  · have := (h.rel (E := E) (Bad := Bad) rfl).1 hn
    injection this with _ e2 _
    rw [e2]
    exact h4 wrest frest
  · refine ⟨⟨hn.parser, hn.lims.trans h1.lims.symm, hn.unread.trans ?_, rfl, rfl, rfl, rfl⟩, hg.ok.2.1.symm, rfl, rfl⟩
    have := congrArg Src.buf (h1.writes.rd [])
    exact congrArg (List.map Atom.byte) this.symm

theorem put_rel (h : Conn.Fine P c) {α : Type} {G : Nbw → α × Nbw} {o : α} {r : Shared (ServerStack (Traced T))} (h1 : (h.views E).WStep c.reader r)
    (h2 : ∃ es fl, (h.views E).Did r.stream es fl ∧ ∀ rest frest, G ((h.views E).wr c.reader.stream (es ++ rest) (fl ++ frest)) = (o, (h.views E).wr r.stream rest frest)) :
    Conn.Fine P { c with reader := r } ∧ r.stream.val.inner.val.inner.log = c.reader.stream.val.inner.val.inner.log ∧ Puts E G o c { c with reader := r } := put_to h h1 h2 id

theorem nbw_idle (w : Nbw) (h : w.buf.drop w.pos = []) : (Write.flush w).2.sock.evs = w.sock.evs := by
  have h1 : w.flushBuf = (.ok (), { w with buf := [], pos := 0 }) := by
    have hl : w.pos ≥ w.buf.length := List.drop_eq_nil_iff.1 h
    have hw : w.sock.writeUntilBlocked (w.buf.drop w.pos) = (.ok 0, w.sock) := by
      rw [h, Sock.writeUntilBlocked, Sock.writeLoop]
    unfold Nbw.flushBuf
    rw [hw]
    dsimp only
    rw [if_pos (by omega)]
  show w.flush.2.sock.evs = _
  unfold Nbw.flush
  rw [h1]
  dsimp only
  unfold Nbw.flushInner
  have h2 : w.sock.flush.2.evs = w.sock.evs := by
    unfold Sock.flush
    split <;> rfl
  dsimp only
  generalize w.sock.flush = x at h2
  obtain ⟨x, sock⟩ := x
  cases x with
  | ok u => exact h2
  | error e => cases e <;> exact h2

theorem nbw_idle_held (w : Nbw) (h : w.buf.drop w.pos = []) : (Write.flush w).2.buf.drop (Write.flush w).2.pos = [] := by
  have h1 : w.flushBuf = (.ok (), { w with buf := [], pos := 0 }) := by
    have hl : w.pos ≥ w.buf.length := List.drop_eq_nil_iff.1 h
    have hw : w.sock.writeUntilBlocked (w.buf.drop w.pos) = (.ok 0, w.sock) := by
      rw [h, Sock.writeUntilBlocked, Sock.writeLoop]
    unfold Nbw.flushBuf
    rw [hw]
    dsimp only
    rw [if_pos (by omega)]
  show w.flush.2.buf.drop w.flush.2.pos = _
  unfold Nbw.flush
  rw [h1]
  dsimp only
  unfold Nbw.flushInner
  dsimp only
  generalize w.sock.flush = x
  obtain ⟨x, sock⟩ := x
  cases x with
  | ok u => rfl
  | error e => cases e <;> rfl

/-- A flush with nothing to write writes nothing. -/
theorem Puts.idle {E' : Errs} (hf : Conn.Fine P c) (hb : c.reader.stream.val.buf.drop c.reader.stream.val.pos = []) {o : Except IoError Unit} (h : Puts E Write.flush o c c') (he : ∀ e, E.flush e → E'.flush e) : Puts E' Write.flush o c c' := by
  obtain ⟨ws, fl, h1, h2⟩ := h
  have h3 : Conn.Rel (ws ++ []) (fl ++ []) c ((hf.views E).conn c [] ws fl) := by
    rw [List.append_nil, List.append_nil]
    exact (hf.rel (E := E) (Bad := fun _ => False) rfl).2 rfl
  obtain ⟨w', h4, h5⟩ := h2 [] [] _ h3
  have h6 := nbw_idle ((hf.views E).conn c [] ws fl).writer hb
  rw [h4] at h6
  have h7 : w'.sock.evs = [] := h5.evs
  rw [h7] at h6
  obtain rfl : ws = [] := h6.symm
  exact ⟨[], fl, ⟨nofun, fun e k => he e (h1.2 e k)⟩, h2⟩

/-! ## All connections -/

/-- What raw streams are going to do with what is written: until the mutex is released, and when they are flushed. -/
abbrev Future := List WEv × List (Option IoError)

/-- A connection and its parts. -/
inductive Slot.Rel (F : Future) (locked : Prop) : Slot (Shared (ServerStack (Traced T))) Unit → Slot Rd Nbw → Prop
  | live {c : SharedConn (ServerStack (Traced T))} {n : Conn Rd Nbw} {ws : List WEv} : Conn.Rel ws F.2 c n → (locked → ws = F.1) → Slot.Rel F locked (.live c) (.live n)
  | gone {c : SharedConn (ServerStack (Traced T))} {n : Conn Rd Nbw} : Conn.Alike c n → Slot.Rel F locked (.gone c) (.gone n)
  | poisoned {c : SharedConn (ServerStack (Traced T))} {n : Conn Rd Nbw} : Conn.Alike c n → Slot.Rel F locked (.poisoned c) (.poisoned n)

/-- The same in the whole server. -/
structure AConn.Rel (E : Errs) (F : Future) (c : AConn (Traced T)) (n : NConn σ) : Prop where
  slot : Slot.Rel F (c.lock ≠ none) c.slot n.slot
  lock : n.lock = c.lock
  inTable : n.inTable = c.inTable
  edge : c.edge = true → n.edge = true
  arrived : n.arrived = Ev.told c.raw.log
  wakes : ∀ evs ∈ n.wakes, ∀ e ∈ evs, ∀ er, e = .err er → E.write er
  slips : ∀ e, some e ∈ n.first.writer.sock.flushes → E.flush e
  brought : ∀ e ∈ n.arrived, E.read e

/-- The same for all connections. -/
structure RelAll (Er : Nat → Errs) (F : Nat → Future) (cs : List (AConn (Traced T))) (ns : List (NConn σ)) : Prop where
  length : ns.length = cs.length
  conns : ∀ (k : Nat) (c : AConn (Traced T)), cs[k]? = some c → ∃ n : NConn σ, ns[k]? = some n ∧ c.Rel (Er k) (F k) n

/-- The same for the server. -/
structure ANet.Rel (Er : Nat → Errs) (F : Nat → Future) (s : ANet (Traced T) σ) (s' : Net σ) : Prop where
  pool : s'.pool = s.pool
  jobs : s'.jobs.map Prod.fst = s.jobs
  phase : s'.phase = s.phase
  batch : s'.batch = s.batch
  state : s'.state = s.state
  asks : s'.asks = s.asks
  all : RelAll Er F s.conns s'.conns

/-- All streams are as they should be. -/
def ANet.Fine (P : Nat → Traced T → Prop) (s : ANet (Traced T) σ) : Prop := ∀ (k : Nat) (c : AConn (Traced T)), s.conns[k]? = some c → Conn.Fine (P k) c.slot.conn

/-- What raw streams do is as `Er` says. -/
def Future.In (Er : Nat → Errs) (F : Nat → Future) : Prop := ∀ k, (Er k).In (F k).1 (F k).2

/-- What the raw stream of one connection does before. -/
def Future.before (F : Nat → Future) (k : Nat) (ws : List WEv) (fl : List (Option IoError)) : Nat → Future :=
  fun j => if j = k then (ws ++ (F k).1, fl ++ (F k).2) else F j

omit [RawIO T] in
theorem Slot.Rel.alike {F : Future} {locked : Prop} {l : Slot (Shared (ServerStack (Traced T))) Unit} {n : Slot Rd Nbw} (h : Slot.Rel F locked l n) : l.Alike n := by
  cases h with
  | live h _ => exact .live h.toAlike
  | gone h => exact .gone h
  | poisoned h => exact .poisoned h

omit [RawIO T] in
theorem Slot.Rel.unlock {F : Future} {locked locked' : Prop} {l : Slot (Shared (ServerStack (Traced T))) Unit} {n : Slot Rd Nbw} (h : Slot.Rel F locked l n) (hl : ¬ locked') : Slot.Rel F locked' l n := by
  cases h with
  | live h _ => exact .live h fun k => absurd k hl
  | gone h => exact .gone h
  | poisoned h => exact .poisoned h

omit [RawIO T] in
theorem ANet.Rel.alike {F : Nat → Future} {s : ANet (Traced T) σ} {s' : Net σ} (h : ANet.Rel Er F s s') : s.Alike s' where
  pool := h.pool
  jobs := h.jobs
  phase := h.phase
  batch := h.batch
  state := h.state
  asks := h.asks
  length := h.all.length
  conns k c hc := by
    obtain ⟨n, h1, h2⟩ := h.all.conns k c hc
    exact ⟨n, h1, h2.slot.alike, h2.lock, h2.inTable, h2.arrived⟩

omit [RawIO T] in
theorem RelAll.set {F F' : Nat → Future} {cs : List (AConn (Traced T))} {ns : List (NConn σ)} (h : RelAll Er F cs ns) {k : Nat} (hF : ∀ j, j ≠ k → F' j = F j) {c : AConn (Traced T)} {n : NConn σ}
    (hn : c.Rel (Er k) (F' k) n) : RelAll Er F' (cs.set k c) (ns.set k n) where
  length := by rw [List.length_set, List.length_set, h.length]
  conns j d hd := by
    by_cases hj : j = k
    · subst hj
      rw [List.getElem?_set_self' ] at hd ⊢
      cases hc : cs[j]? with
      | none => rw [hc] at hd; cases hd
      | some x =>
        rw [hc] at hd
        cases hd
        obtain ⟨y, h1, -⟩ := h.conns j x hc
        rw [h1]
        exact ⟨n, rfl, hn⟩
    · rw [List.getElem?_set_ne (Ne.symm hj)] at hd ⊢
      rw [hF j hj]
      exact h.conns j d hd

omit [RawIO T] in
theorem ANet.Fine.set {P : Nat → Traced T → Prop} {s : ANet (Traced T) σ} (h : s.Fine P) {k : Nat} {c : AConn (Traced T)} (hc : Conn.Fine (P k) c.slot.conn) : (s.setConn k c).Fine P := by
  intro j d hd
  have hd : (s.conns.set k c)[j]? = some d := hd
  by_cases hj : j = k
  · subst hj
    rw [List.getElem?_set_self'] at hd
    cases hs : s.conns[j]? with
    | none => rw [hs] at hd; cases hd
    | some x => rw [hs] at hd; cases hd; exact hc
  · rw [List.getElem?_set_ne (Ne.symm hj)] at hd
    exact h j d hd

/-! ## Steps -/

variable {rt : Router σ}

/-- What leads from `s` to `t` is done over scripted streams too. -/
def ANet.Sim (Er : Nat → Errs) (prof : Profile) (rt : Router σ) (s t : ANet (Traced T) σ) : Prop :=
  ∀ F, Future.In Er F → ∃ F₀, Future.In Er F₀ ∧ ∀ s', ANet.Rel Er F₀ s s' → ∃ as' t', s'.runActs prof rt as' = some t' ∧ ANet.Rel Er F t t'

theorem Future.before_in {F : Nat → Future} (h : Future.In Er F) {k : Nat} {ws : List WEv} {fl : List (Option IoError)} (hw : (Er k).In ws fl) :
    Future.In Er (Future.before F k ws fl) := by
  intro j
  unfold Future.before
  split
  · next hj =>
    subst hj
    refine ⟨fun e he => ?_, fun e he => ?_⟩
    · rcases List.mem_append.1 he with he | he
      · exact hw.1 e he
      · exact (h j).1 e he
    · rcases List.mem_append.1 he with he | he
      · exact hw.2 e he
      · exact (h j).2 e he
  · exact h j

theorem Future.before_self (F : Nat → Future) (k : Nat) (ws : List WEv) (fl : List (Option IoError)) : Future.before F k ws fl k = (ws ++ (F k).1, fl ++ (F k).2) := by
  simp [Future.before]

theorem Future.before_other (F : Nat → Future) {k : Nat} (ws : List WEv) (fl : List (Option IoError)) (j : Nat) (h : j ≠ k) : F j = Future.before F k ws fl j := by
  simp [Future.before, h]

omit [RawIO T] in
theorem ANet.Rel.upd {F F' : Nat → Future} {s : ANet (Traced T) σ} {s' : Net σ} (h : ANet.Rel Er F s s') {k : Nat} (hF : ∀ j, j ≠ k → F' j = F j) {c : AConn (Traced T)} {n : NConn σ}
    (hn : c.Rel (Er k) (F' k) n) : ANet.Rel Er F' (s.setConn k c) (s'.setConn k n) :=
  ⟨h.pool, h.jobs, h.phase, h.batch, h.state, h.asks, h.all.set hF hn⟩

omit [RawIO T] in
theorem ANet.Rel.goto {F : Nat → Future} {s : ANet (Traced T) σ} {s' : Net σ} (h : ANet.Rel Er F s s') (w : Nat) (p : Phase) : ANet.Rel Er F (s.setPhase w p) (s'.setPhase w p) :=
  ⟨h.pool, h.jobs, by simp only [ANet.setPhase, Net.setPhase, h.phase], h.batch, h.state, h.asks, h.all⟩

omit [RawIO T] in
theorem ANet.Rel.handled {F : Nat → Future} {s : ANet (Traced T) σ} {s' : Net σ} (h : ANet.Rel Er F s s') (w : Nat) : s'.handled w = s.handled w := by
  unfold Net.handled ANet.handled
  rw [h.pool, ← h.jobs]
  simp only [List.getElem?_map]
  cases s.pool.workers[w]? with
  | none => rfl
  | some x => cases x <;> rfl

omit [RawIO T] in
theorem ANet.Rel.go {F : Nat → Future} {s : ANet (Traced T) σ} {s' : Net σ} (h : ANet.Rel Er F s s') {w k : Nat} {c : AConn (Traced T)} {n : NConn σ} (hw : s.handled w = some k)
    (hn : s'.conns[k]? = some n) (hr : c.Rel (Er k) (F k) n) (hl : c.lock = some w) : s'.runActs prof rt [.go w] = Net.advance prof rt s' w k n := by
  have h1 : s'.step prof rt (.go w) = Net.advance prof rt s' w k n := by
    simp only [Net.step, h.handled, hw, hn, hr.lock, hl, if_true]
  rw [Net.runActs, h1]
  cases Net.advance prof rt s' w k n <;> rfl

omit [RawIO T] in
/-- What was told arrives. -/
theorem net_arrives {k : Nat} {es : List Ev} (hes : ∀ e ∈ es, e ≠ .err .wouldBlock) {s' : Net σ} {n : NConn σ} {m : Conn Rd Nbw} (hn : s'.conns[k]? = some n) (hm : n.slot = .live m) :
    ∃ e', (n.edge = true → e' = true) ∧ s'.runActs prof rt (es.map (.arrive k)) =
      some (s'.setConn k { n with slot := .live { m with reader := { m.reader with src := { m.reader.src with evs := m.reader.src.evs ++ es } } }, edge := e', arrived := n.arrived ++ es }) := by
  induction es generalizing s' n m with
  | nil =>
    refine ⟨n.edge, id, ?_⟩
    simp only [List.map_nil, Net.runActs, List.append_nil, Net.setConn, ← hm]
    rw [show s'.conns.set k n = s'.conns from (List.getElem?_eq_some_iff.1 hn).2 ▸ List.set_getElem_self ..]
  | cons e es ih =>
    obtain ⟨h1, h2⟩ := List.forall_mem_cons.1 hes
    have hk : k < s'.conns.length := (List.getElem?_eq_some_iff.1 hn).1
    obtain ⟨e', h3, h4⟩ := ih h2 (s' := s'.setConn k { n with slot := Net.receive e n.slot, edge := true, arrived := n.arrived ++ [e] })
      (n := { n with slot := Net.receive e n.slot, edge := true, arrived := n.arrived ++ [e] })
      (m := { m with reader := { m.reader with src := { m.reader.src with evs := m.reader.src.evs ++ [e] } } })
      (by simp [Net.setConn, hk]) (by simp [hm, Net.receive])
    refine ⟨e', fun _ => h3 rfl, ?_⟩
    rw [List.map_cons, Net.runActs]
    have h5 : s'.step prof rt (.arrive k e) = some (s'.setConn k { n with slot := Net.receive e n.slot, edge := true, arrived := n.arrived ++ [e] }) := by
      have : (e != .err .wouldBlock) = true := by simpa using h1
      simp only [Net.step, hn, hm, Net.isLive, this, Bool.and_self, if_true]
    rw [h5]
    refine h4.trans ?_
    simp [Net.setConn, List.set_set]

theorem writeAnswer_put {W : Type} [Write W] (w : W) (a : ListenerResult) : writeAnswer w a = putAnswer w a := by cases a <;> rfl

omit [RawIO T] in
theorem Conn.Fine.rounds {c : SharedConn (ServerStack (Traced T))} (h : Conn.Fine P c) (rounds : Nat) : Conn.Fine P { c with reader := { c.reader with rounds } } := ⟨h.cap, h.grow, h.inv⟩

omit [RawIO T] in
theorem Conn.Rel.rounds {c : SharedConn (ServerStack (Traced T))} {n : Conn Rd Nbw} {ws : List WEv} {fl : List (Option IoError)} (h : Conn.Rel ws fl c n) (rounds : Nat) :
    Conn.Rel ws fl { c with reader := { c.reader with rounds } } n := ⟨⟨h.parser, h.lims, h.unread, h.buf, h.pos, h.cap, h.sent⟩, h.grow, h.evs, h.flushes⟩

omit [RawIO T] in
theorem unlessHung_some {r : Shared (ServerStack (Traced T))} {s t : ANet (Traced T) σ} (h : ANet.unlessHung r s = some t) : r.hung = false ∧ s = t := by
  unfold ANet.unlessHung at h
  split at h
  · cases h
  · next hr => exact ⟨by simpa using hr, Option.some.inj h⟩

theorem Conn.Fine.dropped (hP : RawKeeps P) {c : SharedConn (ServerStack (Traced T))} (h : Conn.Fine P c) : Conn.Fine P (ANet.droppedConn c) := ⟨h.cap, h.grow, hP.drop h.inv⟩

theorem Conn.Alike.dropped {c : SharedConn (ServerStack (Traced T))} {n : Conn Rd Nbw} (h : Conn.Alike c n) : Conn.Alike (ANet.droppedConn c) n :=
  ⟨h.parser, h.lims, h.unread, h.buf, h.pos, h.cap, h.sent⟩

/-- What a worker does that only writes. -/
theorem write_sim {P : Nat → Traced T → Prop} (hP : ∀ k, RawKeeps (P k)) {s : ANet (Traced T) σ} (hf : s.Fine P) {w k : Nat} {c c' : AConn (Traced T)} {conn conn' : SharedConn (ServerStack (Traced T))} {ph : Phase} (hw : s.handled w = some k)
    (hc : s.conns[k]? = some c) (hl : c.lock = some w) (hs : c.slot = .live conn) {α : Type} {G : Nbw → α × Nbw} {o : α}
    (hlog : conn'.reader.stream.val.inner.val.inner.log = conn.reader.stream.val.inner.val.inner.log) (hfine : Conn.Fine (P k) conn')
    (h : ∃ ws fl, (Er k).In ws fl ∧ ∀ wrest frest n, Conn.Rel (ws ++ wrest) (fl ++ frest) conn n → ∃ w', G n.writer = (o, w') ∧ Conn.Rel wrest frest conn' { n with writer := w' })
    (hc' : c' = { c with slot := .live conn' } ∨ c' = { c with slot := .gone (ANet.droppedConn conn') })
    (hn : ∀ (s' : Net σ) (n : NConn σ) (m : Conn Rd Nbw) (w' : Nbw), s'.phase = s.phase → n.slot = .live m → G m.writer = (o, w') → Net.advance prof rt s' w k n =
      some ((s'.setConn k { n with slot := match c'.slot with | .live _ => .live { m with writer := w' } | _ => .gone { m with writer := w' } }).setPhase w ph)) :
    ((s.setConn k c').setPhase w ph).Fine P ∧ ANet.Sim Er prof rt s ((s.setConn k c').setPhase w ph) := by
  have hlk : c'.lock = c.lock ∧ c'.inTable = c.inTable ∧ c'.edge = c.edge ∧ Conn.Fine (P k) c'.slot.conn ∧ c'.raw.log = conn'.reader.stream.val.inner.val.inner.log := by
    rcases hc' with rfl | rfl
    · exact ⟨rfl, rfl, rfl, hfine, rfl⟩
    · exact ⟨rfl, rfl, rfl, hfine.dropped (hP k), rfl⟩
  refine ⟨(hf.set (c := c') hlk.2.2.2.1), fun F hF => ?_⟩
  obtain ⟨ws, fl, hd, hG⟩ := h
  refine ⟨Future.before F k ws fl, Future.before_in hF hd, fun s' hr => ?_⟩
  obtain ⟨n, h1, h2⟩ := hr.all.conns k c hc
  have h3 := h2.slot
  rw [hs, Future.before_self] at h3
  generalize hns : n.slot = l at h3
  cases h3 with
  | live h4 h5 =>
    next m ws' =>
    have := h5 (by rw [hl]; exact nofun)
    subst this
    obtain ⟨w', h6, h7⟩ := hG _ _ _ h4
    have h8 := hn s' n m w' hr.phase hns h6
    refine ⟨[.go w], _, (hr.go hw h1 h2 hl).trans h8, (hr.upd (Future.before_other F ws fl) ?_).goto w ph⟩
    refine ⟨?_, h2.lock.trans hlk.1.symm, h2.inTable.trans hlk.2.1.symm, fun he => h2.edge (hlk.2.2.1 ▸ he), ?_, h2.wakes, h2.slips, h2.brought⟩
    · rcases hc' with rfl | rfl
      · exact .live h7 fun _ => rfl
      · exact .gone h7.toAlike.dropped
    · refine h2.arrived.trans ?_
      rw [hlk.2.2.2.2, AConn.raw, hs]
      exact congrArg Ev.told hlog.symm

/-- What comes before a worker reads, and what it reads. -/
structure ReadsOn (Er : Nat → Errs) (prof : Profile) (rt : Router σ) (F : Nat → Future) (s : ANet (Traced T) σ) (w k : Nat) (c : AConn (Traced T)) (conn' : SharedConn (ServerStack (Traced T)))
    (o : ReadRequestResult) (s₁ : Net σ) (n : NConn σ) (m n' : Conn Rd Nbw) : Prop where
  go : s₁.runActs prof rt [.go w] = Net.advance prof rt s₁ w k n
  slot : n.slot = .live m
  read : m.readRequest prof = (o, n')
  rel : Conn.Rel (F k).1 (F k).2 conn' n'
  pool : s₁.pool = s.pool
  phase : s₁.phase = s.phase
  upd : ∀ (F' : Nat → Future) (c' : AConn (Traced T)) (n'' : NConn σ), (∀ j, j ≠ k → F' j = F j) → c'.Rel (Er k) (F' k) n'' → ANet.Rel Er F' (s.setConn k c') (s₁.setConn k n'')
  lock : n.lock = c.lock
  inTable : n.inTable = c.inTable
  edge : c.edge = true → n.edge = true
  arrived : n.arrived = Ev.told conn'.reader.stream.val.inner.val.inner.log
  wakes : ∀ evs ∈ n.wakes, ∀ e ∈ evs, ∀ er, e = .err er → (Er k).write er
  slips : ∀ e, some e ∈ n.first.writer.sock.flushes → (Er k).flush e
  brought : ∀ e ∈ n.arrived, (Er k).read e

omit [RawIO T] in
theorem ANet.Rel.reads {F : Nat → Future} {s : ANet (Traced T) σ} {s' : Net σ} (h : ANet.Rel Er F s s') {w k : Nat} {c : AConn (Traced T)} {conn conn' : SharedConn (ServerStack (Traced T))}
    (hw : s.handled w = some k) (hc : s.conns[k]? = some c) (hl : c.lock = some w) (hs : c.slot = .live conn) {o : ReadRequestResult} {es : List Ev}
    (hlog : conn'.reader.stream.val.inner.val.inner.log = conn.reader.stream.val.inner.val.inner.log ++ es)
    (hgot : ∀ e ∈ es, (Er k).read e)
    (hr : ∀ ws fl n, Conn.Rel ws fl conn n →
      ∃ n', ({ n with reader := { n.reader with src := { n.reader.src with evs := n.reader.src.evs ++ Ev.told es } } } : Conn Rd Nbw).readRequest prof = (o, n') ∧ Conn.Rel ws fl conn' n') :
    ∃ as' s₁ n m n', s'.runActs prof rt as' = some s₁ ∧ ReadsOn Er prof rt F s w k c conn' o s₁ n m n' := by
  obtain ⟨n, h1, h2⟩ := h.all.conns k c hc
  have h3 := h2.slot
  rw [hs] at h3
  generalize hns : n.slot = l at h3
  cases h3 with
  | live h4 h5 =>
    next m ws =>
    have := h5 (by rw [hl]; exact nofun)
    subst this
    obtain ⟨n', h6, h7⟩ := hr _ _ _ h4
    obtain ⟨e', h8, h9⟩ := net_arrives (prof := prof) (rt := rt) (es := Ev.told es) (fun e he => by simpa using (List.mem_filter.1 he).2) h1 hns
    have hk : k < s'.conns.length := (List.getElem?_eq_some_iff.1 h1).1
    refine ⟨_, _, { n with slot := .live { m with reader := { m.reader with src := { m.reader.src with evs := m.reader.src.evs ++ Ev.told es } } }, edge := e', arrived := n.arrived ++ Ev.told es },
      _, n', h9, ?_, rfl, h6, h7, h.pool, h.phase, fun F' c' n'' hF hn => ?_, h2.lock, h2.inTable, fun he => h8 (h2.edge he), ?_, h2.wakes, h2.slips,
      List.forall_mem_append.2 ⟨h2.brought, fun e he => hgot e (List.mem_filter.1 he).1⟩⟩
    · have : ∀ n₁ : NConn σ, n₁.lock = n.lock → (s'.setConn k n₁).runActs prof rt [.go w] = Net.advance prof rt (s'.setConn k n₁) w k n₁ := by
        intro n₁ hn₁
        have a1 : (s'.setConn k n₁).handled w = some k := (h.handled w).trans hw
        have a2 : (s'.setConn k n₁).conns[k]? = some n₁ := by simp [Net.setConn, hk]
        simp only [Net.runActs, Net.step, a1, a2, hn₁, h2.lock, hl, if_true]
        cases Net.advance prof rt (s'.setConn k n₁) w k n₁ <;> rfl
      exact this _ rfl
    · have := h.upd hF hn
      simpa [Net.setConn, List.set_set] using this
    · dsimp only
      rw [h2.arrived, AConn.raw, hs, hlog, Ev.told, Ev.told, Ev.told, List.filter_append]
      rfl

omit [RawIO T] in
theorem ANet.Rel.pooled {F : Nat → Future} {s : ANet (Traced T) σ} {s' : Net σ} (h : ANet.Rel Er F s s') (pool : Pool) : ANet.Rel Er F { s with pool } { s' with pool } :=
  ⟨rfl, h.jobs, h.phase, h.batch, h.state, h.asks, h.all⟩

theorem AConn.Rel.crash {F : Future} {c : AConn (Traced T)} {n : NConn σ} {conn : SharedConn (ServerStack (Traced T))} {m : Conn Rd Nbw} (h3 : n.inTable = c.inTable) (h4 : c.edge = true → n.edge = true)
    (h5 : n.arrived = Ev.told conn.reader.stream.val.inner.val.inner.log) (h6 : ∀ evs ∈ n.wakes, ∀ e ∈ evs, ∀ er, e = .err er → E.write er) (h7 : ∀ e, some e ∈ n.first.writer.sock.flushes → E.flush e) (h8 : ∀ e ∈ n.arrived, E.read e) (h : Conn.Alike conn m) :
    AConn.Rel E F { c with slot := .poisoned (ANet.droppedConn conn), lock := none } { n with slot := .poisoned m, lock := none } :=
  ⟨.poisoned h.dropped, rfl, h3, h4, h5, h6, h7, h8⟩

/-- The raw stream of a connection, in one part. -/
abbrev Conn.raw (c : SharedConn (ServerStack (Traced T))) : Traced T := c.reader.stream.val.inner.val.inner

/-- Raw streams that satisfy `P`, and fail as `E` says. That a `write` does is known only if the stream satisfies `Q`, and if it is not `Bad` afterwards. -/
structure Kinds (P Q Bad : Traced T → Prop) (E : Errs) : Prop where
  keeps : RawKeeps P
  errs : ErrsIn P ⟨E.read, fun _ => True, E.flush⟩
  uses : RawUses Q
  to : ErrsTo Q Bad E
  drop : ∀ {t}, Bad t → Bad (RawIO.dropped t)

theorem Kinds.of (hP : RawKeeps P) (hE : ErrsIn P E) : Kinds P P (fun _ => False) E :=
  ⟨hP, ⟨hE.read, fun _ _ => trivial, hE.flush⟩, hP, hE.to, id⟩

/-- When a handler is going to write, the stream satisfies `Q`. -/
def ANet.Ready (prof : Profile) (Q : Nat → Traced T → Prop) (s : ANet (Traced T) σ) : Prop :=
  ∀ (w k : Nat) (c : AConn (Traced T)) (conn : SharedConn (ServerStack (Traced T))), s.handled w = some k → s.conns[k]? = some c → c.lock = some w → c.slot = .live conn →
    (s.phase w = .flushing → Q k (Conn.raw conn) ∨ conn.reader.stream.val.buf.drop conn.reader.stream.val.pos = []) ∧
    (∀ q a, s.phase w = .reply q a → Q k (Conn.raw conn)) ∧
    ∀ rounds e conn', s.phase w = .reading → ({ conn with reader := { conn.reader with rounds } } : SharedConn (ServerStack (Traced T))).readRequest prof = (.error e, conn') → Q k (Conn.raw conn')

/-- No stream is `Bad`. -/
def ANet.Unspoilt (Bad : Nat → Traced T → Prop) (s : ANet (Traced T) σ) : Prop := ∀ (k : Nat) (c : AConn (Traced T)), s.conns[k]? = some c → ¬ Bad k c.raw

theorem ANet.Fine.ready {P : Nat → Traced T → Prop} (hT : RawIO.Honest T) (hR : RawIO.ReadsWithin T) (hP : ∀ k, RawKeeps (P k)) {s : ANet (Traced T) σ} (h : s.Fine P) : s.Ready prof P := by
  intro w k c conn hw hc hl hs
  have hfc := h k c hc
  rw [hs] at hfc
  have hfc : Conn.Fine (P k) conn := hfc
  exact ⟨fun _ => .inl hfc.inv, fun _ _ _ => hfc.inv, fun rounds e conn' _ hr => (read_rel (E := .any) hT hR (hP k) errsIn_any (hfc.rounds rounds) hr nofun).1.inv⟩

theorem ready_write {Q Bad : Traced T → Prop} (hK : Kinds P Q Bad E) {s : ANet (Traced T) σ} {k w : Nat} {c c' : AConn (Traced T)} {ph : Phase} {x : SharedConn (ServerStack (Traced T))}
    (hc : s.conns[k]? = some c) (h : ∀ d, ((s.setConn k c').setPhase w ph).conns[k]? = some d → ¬ Bad d.raw) (hc' : c'.raw = Conn.raw x ∨ c'.raw = RawIO.dropped (Conn.raw x)) : ¬ Bad (Conn.raw x) := by
  have h1 := h c' (List.getElem?_set_self (List.getElem?_eq_some_iff.1 hc).1)
  rcases hc' with h2 | h2
  · rwa [h2] at h1
  · rw [h2] at h1
    exact fun hb => h1 (hK.drop hb)

theorem advance_sim {P Q Bad : Nat → Traced T → Prop} (hT : RawIO.Honest T) (hR : RawIO.ReadsWithin T) (hK : ∀ k, Kinds (P k) (Q k) (Bad k) (Er k)) {s t : ANet (Traced T) σ} (hrd : s.Ready prof Q) (hun : t.Unspoilt Bad) (hf : s.Fine P) {w k rounds : Nat} {c : AConn (Traced T)}
    (hw : s.handled w = some k) (hc : s.conns[k]? = some c) (hl : c.lock = some w) (h : ANet.advance prof rt s w k c rounds = some t) : t.Fine P ∧ ANet.Sim Er prof rt s t := by
  have hP := fun k => (hK k).keeps
  have hE := fun k => (hK k).errs
  have hfc := hf k c hc
  have hrd := hrd w k c
  have hun := hun k
  unfold ANet.advance at h
  split at h
  · next conn hp hs =>
    rw [hs] at hfc
    have hfc : Conn.Fine (P k) conn := hfc
    have hV := serverViews_lawful (Er := ⟨(Er k).read, fun _ => True, (Er k).flush⟩) hT hR (hP k) (hE k) (hfc.rounds rounds).grow conn.reader.offer
    obtain ⟨k1, k2⟩ := hV.flush1 (hfc.rounds rounds).good
    dsimp only at k1 k2
    have key : ∀ x r, Write.flush { conn.reader with rounds } = (x, r) → r.hung = false → ¬ Bad k (Conn.raw { conn with reader := r }) → Puts (Er k) Write.flush x { conn with reader := { conn.reader with rounds } } { conn with reader := r } := by
      intro x r hx hh hb
      rcases (hrd conn hw hc hl hs).1 hp with hq | hq
      · have hfq : Conn.Fine (Q k) { conn with reader := { conn.reader with rounds } } := ⟨hfc.cap, hfc.grow, hq⟩
        obtain ⟨q1, q2⟩ := (serverViewsTo_lawful hT hR (hK k).uses (hK k).to hfq.grow conn.reader.offer).flush1 hfq.good
        dsimp only at q1 q2
        rw [hx] at q1 q2
        exact (put_to hfq q1 (q2 hh) hb).2.2
      · rw [hx] at k1 k2
        exact (put_rel (hfc.rounds rounds) k1 (k2 hh)).2.2.idle (hfc.rounds rounds) hq fun _ h => h
    generalize Write.flush { conn.reader with rounds } = x at h k1 k2 key
    obtain ⟨x, r⟩ := x
    cases x with
    | error e =>
      obtain ⟨hh, rfl⟩ := unlessHung_some h
      obtain ⟨a1, a2, -⟩ := put_rel (hfc.rounds rounds) k1 (k2 hh)
      obtain ⟨ws, fl, a3, a4⟩ := key _ _ rfl hh (ready_write (hK k) hc hun (.inr rfl))
      refine write_sim hP hf hw hc hl hs (G := Write.flush) a2 a1 ⟨ws, fl, a3, fun wr fr n hn => a4 wr fr n (hn.rounds rounds)⟩ (.inr rfl) fun s' n m w' h1 h2 h3 => ?_
      simp only [Net.advance, h1, hp, h2, h3]
    | ok u =>
      obtain ⟨hh, rfl⟩ := unlessHung_some h
      obtain ⟨a1, a2, -⟩ := put_rel (hfc.rounds rounds) k1 (k2 hh)
      obtain ⟨ws, fl, a3, a4⟩ := key _ _ rfl hh (ready_write (hK k) hc hun (.inl rfl))
      refine write_sim hP hf hw hc hl hs (G := Write.flush) a2 a1 ⟨ws, fl, a3, fun wr fr n hn => a4 wr fr n (hn.rounds rounds)⟩ (.inl rfl) fun s' n m w' h1 h2 h3 => ?_
      simp only [Net.advance, h1, hp, h2, h3]
  · next conn hp hs =>
    rw [hs] at hfc
    have hfc : Conn.Fine (P k) conn := hfc
    generalize hr : ({ conn with reader := { conn.reader with rounds } } : SharedConn (ServerStack (Traced T))).readRequest prof = x at h
    obtain ⟨o, conn'⟩ := x
    have ho : o ≠ .diverge := by
      rintro rfl
      cases h
    obtain ⟨a1, es, a2, a0, a3⟩ := read_rel hT hR (hP k) (hE k) (hfc.rounds rounds) hr ho
    have a3 := fun ws fl n hn => a3 ws fl n (Conn.Rel.rounds hn rounds)
    cases o with
    | ready q =>
      cases h
      refine ⟨hf.set a1, fun F hF => ⟨F, hF, fun s' hs' => ?_⟩⟩
      obtain ⟨as', s₁, n, m, n', b1, b⟩ := hs'.reads (rt := rt) hw hc hl hs a2 a0 a3
      refine ⟨as' ++ [.go w], _, ?_, (b.upd F _ { n with slot := .live n' } (fun _ _ => rfl) ?_).goto w (.asked q)⟩
      · rw [Net.runActs_append, b1]
        refine b.go.trans ?_
        simp only [Net.advance, b.phase, hp, b.slot, b.read]
      · exact ⟨.live b.rel fun _ => rfl, b.lock, b.inTable, b.edge, b.arrived, b.wakes, b.slips, b.brought⟩
    | notReady =>
      cases h
      refine ⟨hf.set a1, fun F hF => ⟨F, hF, fun s' hs' => ?_⟩⟩
      obtain ⟨as', s₁, n, m, n', b1, b⟩ := hs'.reads (rt := rt) hw hc hl hs a2 a0 a3
      refine ⟨as' ++ [.go w], _, ?_, (b.upd F _ { n with slot := .live n', drained := n.arrived.length } (fun _ _ => rfl) ?_).goto w .leaving⟩
      · rw [Net.runActs_append, b1]
        refine b.go.trans ?_
        simp only [Net.advance, b.phase, hp, b.slot, b.read]
      · exact ⟨.live b.rel fun _ => rfl, b.lock, b.inTable, b.edge, b.arrived, b.wakes, b.slips, b.brought⟩
    | closed =>
      cases h
      refine ⟨hf.set (a1.dropped (hP k)), fun F hF => ⟨F, hF, fun s' hs' => ?_⟩⟩
      obtain ⟨as', s₁, n, m, n', b1, b⟩ := hs'.reads (rt := rt) hw hc hl hs a2 a0 a3
      refine ⟨as' ++ [.go w], _, ?_, (b.upd F _ { n with slot := .gone n' } (fun _ _ => rfl) ?_).goto w .leaving⟩
      · rw [Net.runActs_append, b1]
        refine b.go.trans ?_
        simp only [Net.advance, b.phase, hp, b.slot, b.read]
      · exact ⟨.gone b.rel.toAlike.dropped, b.lock, b.inTable, b.edge, b.arrived, b.wakes, b.slips, b.brought⟩
    | error e =>
      dsimp only at h
      have hV := serverViews_lawful (Er := ⟨(Er k).read, fun _ => True, (Er k).flush⟩) hT hR (hP k) (hE k) a1.grow conn'.reader.offer
      have hA := hV.writeError (x := conn'.reader) a1.good
      have hfq : Conn.Fine (Q k) conn' := ⟨a1.cap, a1.grow, (hrd conn hw hc hl hs).2.2 rounds e conn' hp hr⟩
      have hQ := (serverViewsTo_lawful hT hR (hK k).uses (hK k).to hfq.grow conn'.reader.offer).writeError (x := conn'.reader) hfq.good
      generalize writeErrorResponse conn'.reader = A at h hA hQ
      obtain ⟨x, r⟩ := A
      have hx : x ≠ .diverge := by
        rintro rfl
        cases h
      have h : ANet.unlessHung r ((s.setConn k { c with slot := .gone (ANet.droppedConn { conn' with reader := r }) }).setPhase w .leaving) = some t := by
        cases x <;> first | exact h | cases h
      obtain ⟨hh, rfl⟩ := unlessHung_some h
      obtain ⟨d1, d2, -⟩ := put_rel a1 hA.step (hA.same hx hh)
      obtain ⟨-, -, ws, fl, d3, d4⟩ := put_to hfq hQ.step (hQ.same hx hh) (ready_write (x := { conn' with reader := r }) (hK k) hc hun (.inr rfl))
      refine ⟨hf.set (d1.dropped (hP k)), fun F hF => ⟨Future.before F k ws fl, Future.before_in hF d3, fun s' hs' => ?_⟩⟩
      obtain ⟨as', s₁, n, m, n', b1, b⟩ := hs'.reads (rt := rt) hw hc hl hs a2 a0 a3
      have hrel := b.rel
      rw [Future.before_self] at hrel
      obtain ⟨w', d5, d6⟩ := d4 _ _ _ hrel
      refine ⟨as' ++ [.go w], _, ?_, (b.upd F _ { n with slot := .gone { n' with writer := w' } } (Future.before_other F ws fl) ?_).goto w .leaving⟩
      · rw [Net.runActs_append, b1]
        refine b.go.trans ?_
        simp only [Net.advance, b.phase, hp, b.slot, b.read, d5]
      · exact ⟨.gone d6.toAlike.dropped, b.lock, b.inTable, b.edge, b.arrived.trans (congrArg Ev.told d2.symm), b.wakes, b.slips, b.brought⟩
    | panic =>
      obtain ⟨pool, h1, rfl⟩ := Option.map_eq_some_iff.1 h
      refine ⟨hf.set (a1.dropped (hP k)), fun F hF => ⟨F, hF, fun s' hs' => ?_⟩⟩
      obtain ⟨as', s₁, n, m, n', b1, b⟩ := hs'.reads (rt := rt) hw hc hl hs a2 a0 a3
      refine ⟨as' ++ [.go w], _, ?_, (b.upd F { c with slot := .poisoned (ANet.droppedConn conn'), lock := none } { n with slot := .poisoned n', lock := none } (fun _ _ => rfl) ?_).pooled pool⟩
      · rw [Net.runActs_append, b1]
        refine b.go.trans ?_
        simp only [Net.advance, b.phase, hp, b.slot, b.read, Net.crash, b.pool, h1]
        rfl
      · exact .crash b.inTable b.edge b.arrived b.wakes b.slips b.brought b.rel.toAlike
    | diverge => exact absurd rfl ho
  · next q conn hp hs =>
    dsimp only at h
    rw [hs] at hfc
    have hfc : Conn.Fine (P k) conn := hfc
    cases ha : (rt.result q s.state).1 with
    | none =>
      rw [ha] at h
      obtain ⟨pool, h1, rfl⟩ := Option.map_eq_some_iff.1 h
      refine ⟨hf.set (hfc.dropped (hP k)), fun F hF => ⟨F, hF, fun s' hs' => ?_⟩⟩
      obtain ⟨n, b1, b2⟩ := hs'.all.conns k c hc
      have b3 := b2.slot
      rw [hs] at b3
      generalize hns : n.slot = l at b3
      cases b3 with
      | live b4 b5 =>
        next m ws =>
        refine ⟨[.go w], { ({ s' with asks := s'.asks ++ [(k, q, s'.state)], state := (rt.result q s'.state).2 } : Net σ).setConn k
          { n with seen := n.seen ++ [(q, s'.state)], slot := .poisoned m, lock := none } with pool }, (hs'.go hw b1 b2 hl).trans ?_, ?_⟩
        · have h1 : s.pool.step (.work w true) = some pool := h1
          simp only [Net.advance, hs'.phase, hp, hns, hs'.state, ha, Net.crash, hs'.pool, h1]
          rfl
        · exact ⟨rfl, hs'.jobs, hs'.phase, hs'.batch, congrArg (fun x => (rt.result q x).2) hs'.state, by simp only [ANet.setConn, Net.setConn, hs'.asks, hs'.state],
            hs'.all.set (fun _ _ => rfl) (.crash (c := c) (n := { n with seen := n.seen ++ [(q, s'.state)] }) b2.inTable b2.edge (by rw [b2.arrived, AConn.raw, hs]; rfl) b2.wakes b2.slips b2.brought b4.toAlike)⟩
    | some a =>
      rw [ha] at h
      cases h
      refine ⟨hf.set (hs ▸ hfc), fun F hF => ⟨F, hF, fun s' hs' => ?_⟩⟩
      obtain ⟨n, b1, b2⟩ := hs'.all.conns k c hc
      have b3 := b2.slot
      rw [hs] at b3
      generalize hns : n.slot = l at b3
      cases b3 with
      | live b4 b5 =>
        next m ws =>
        refine ⟨[.go w], (({ s' with asks := s'.asks ++ [(k, q, s'.state)], state := (rt.result q s'.state).2 } : Net σ).setConn k
          { n with seen := n.seen ++ [(q, s'.state)] }).setPhase w (.reply q a), (hs'.go hw b1 b2 hl).trans ?_, ANet.Rel.goto ?_ w (.reply q a)⟩
        · simp only [Net.advance, hs'.phase, hp, hns, hs'.state, ha]
        · refine ⟨hs'.pool, hs'.jobs, hs'.phase, hs'.batch, congrArg (fun x => (rt.result q x).2) hs'.state, by simp only [ANet.setConn, Net.setConn, hs'.asks, hs'.state], ?_⟩
          exact hs'.all.set (fun _ _ => rfl) ⟨b2.slot, b2.lock, b2.inTable, b2.edge, b2.arrived, b2.wakes, b2.slips, b2.brought⟩
  · next q a conn hp hs =>
    rw [hs] at hfc
    have hfc : Conn.Fine (P k) conn := hfc
    have hV := serverViews_lawful (Er := ⟨(Er k).read, fun _ => True, (Er k).flush⟩) hT hR (hP k) (hE k) (hfc.rounds rounds).grow conn.reader.offer
    have hA := hV.answer a (hfc.rounds rounds).good
    have hfq : Conn.Fine (Q k) { conn with reader := { conn.reader with rounds } } := ⟨hfc.cap, hfc.grow, (hrd conn hw hc hl hs).2.1 q a hp⟩
    have hQ := (serverViewsTo_lawful hT hR (hK k).uses (hK k).to hfq.grow conn.reader.offer).answer a hfq.good
    rw [writeAnswer_put] at h
    dsimp only at hA hQ
    generalize putAnswer { conn.reader with rounds } a = A at h hA hQ
    obtain ⟨x, r⟩ := A
    cases x with
    | ok =>
      dsimp only at h
      by_cases hq : shouldCloseAfterResponse q = true
      · rw [if_pos hq] at h
        obtain ⟨hh, rfl⟩ := unlessHung_some h
        obtain ⟨a1, a2, -⟩ := put_rel (G := fun w => putAnswer w a) (hfc.rounds rounds) hA.step (hA.same nofun hh)
        obtain ⟨-, -, ws, fl, a3, a4⟩ := put_to (G := fun w => putAnswer w a) hfq hQ.step (hQ.same nofun hh) (ready_write (x := { conn with reader := r }) (hK k) hc hun (.inr rfl))
        refine write_sim hP hf hw hc hl hs (G := fun w => putAnswer w a) a2 a1 ⟨ws, fl, a3, fun wr fr n hn => a4 wr fr n (hn.rounds rounds)⟩ (.inr rfl) fun s' n m w' h1 h2 h3 => ?_
        simp only [Net.advance, h1, hp, h2, writeAnswer_put, h3, if_pos hq]
      · rw [if_neg hq] at h
        obtain ⟨hh, rfl⟩ := unlessHung_some h
        obtain ⟨a1, a2, -⟩ := put_rel (G := fun w => putAnswer w a) (hfc.rounds rounds) hA.step (hA.same nofun hh)
        obtain ⟨-, -, ws, fl, a3, a4⟩ := put_to (G := fun w => putAnswer w a) hfq hQ.step (hQ.same nofun hh) (ready_write (x := { conn with reader := r }) (hK k) hc hun (.inl rfl))
        refine write_sim hP hf hw hc hl hs (G := fun w => putAnswer w a) a2 a1 ⟨ws, fl, a3, fun wr fr n hn => a4 wr fr n (hn.rounds rounds)⟩ (.inl rfl) fun s' n m w' h1 h2 h3 => ?_
        simp only [Net.advance, h1, hp, h2, writeAnswer_put, h3, if_neg hq]
    | err e =>
      obtain ⟨hh, rfl⟩ := unlessHung_some h
      obtain ⟨a1, a2, -⟩ := put_rel (G := fun w => putAnswer w a) (hfc.rounds rounds) hA.step (hA.same nofun hh)
      obtain ⟨-, -, ws, fl, a3, a4⟩ := put_to (G := fun w => putAnswer w a) hfq hQ.step (hQ.same nofun hh) (ready_write (x := { conn with reader := r }) (hK k) hc hun (.inr rfl))
      refine write_sim hP hf hw hc hl hs (G := fun w => putAnswer w a) a2 a1 ⟨ws, fl, a3, fun wr fr n hn => a4 wr fr n (hn.rounds rounds)⟩ (.inr rfl) fun s' n m w' h1 h2 h3 => ?_
      simp only [Net.advance, h1, hp, h2, writeAnswer_put, h3]
    | diverge => cases h
  · next hp =>
    obtain ⟨pool, h1, rfl⟩ := Option.map_eq_some_iff.1 h
    refine ⟨hf.set (c := { c with lock := none }) hfc, fun F hF => ⟨F, hF, fun s' hs' => ?_⟩⟩
    obtain ⟨n, b1, b2⟩ := hs'.all.conns k c hc
    refine ⟨[.go w], _, (hs'.go hw b1 b2 hl).trans ?_, ((hs'.upd (F' := F) (k := k) (fun _ _ => rfl) (c := { c with lock := none }) (n := { n with lock := none }) ?_).goto w .enter).pooled pool⟩
    · simp only [Net.advance, hs'.phase, hp, hs'.pool, h1]
      rfl
    · exact ⟨b2.slot.unlock (by simp), rfl, b2.inTable, b2.edge, b2.arrived, b2.wakes, b2.slips, b2.brought⟩
  · cases h

theorem ANet.Sim.same {s t : ANet (Traced T) σ} (a : (Nat → Future) → NAct) (h : ∀ F s', Future.In Er F → ANet.Rel Er F s s' → ∃ t', s'.step prof rt (a F) = some t' ∧ ANet.Rel Er F t t') : ANet.Sim Er prof rt s t := by
  refine fun F hF => ⟨F, hF, fun s' hs' => ?_⟩
  obtain ⟨t', h1, h2⟩ := h F s' hF hs'
  exact ⟨[a F], t', by rw [Net.runActs, h1]; rfl, h2⟩

omit [RawIO T] in
theorem onEvent_sim {P : Nat → Traced T → Prop} {s t : ANet (Traced T) σ} (hf : s.Fine P) {k : Nat} {closed : Bool} (h : s.onEvent k closed = some t) :
    t.Fine P ∧ ∀ F s', ANet.Rel Er F s s' → ∃ t', s'.onEvent k closed = some t' ∧ ANet.Rel Er F t t' := by
  unfold ANet.onEvent at h
  split at h
  · cases h
  · next c hc =>
    split at h
    · next hi =>
      cases h
      refine ⟨hf, fun F s' hs' => ⟨s', ?_, hs'⟩⟩
      obtain ⟨n, b1, b2⟩ := hs'.all.conns k c hc
      simp only [Net.onEvent, b1, b2.inTable, if_pos hi]
    · next hi =>
      split at h
      · next hcl =>
        cases h
        refine ⟨hf.set (c := { c with inTable := false }) (hf k c hc), fun F s' hs' => ?_⟩
        obtain ⟨n, b1, b2⟩ := hs'.all.conns k c hc
        refine ⟨_, ?_, hs'.upd (k := k) (fun _ _ => rfl) (c := { c with inTable := false }) (n := { n with inTable := false }) ⟨b2.slot, b2.lock, rfl, b2.edge, b2.arrived, b2.wakes, b2.slips, b2.brought⟩⟩
        simp only [Net.onEvent, b1, b2.inTable, if_neg hi, if_pos hcl]
      · next hcl =>
        split at h
        · cases h
        · next pool hpool =>
          cases h
          refine ⟨hf, fun F s' hs' => ?_⟩
          obtain ⟨n, b1, b2⟩ := hs'.all.conns k c hc
          refine ⟨{ s' with pool, jobs := if pool.owner = .using then s'.jobs ++ [(k, n.arrived.length)] else s'.jobs }, ?_, rfl, ?_, hs'.phase, hs'.batch, hs'.state, hs'.asks, hs'.all⟩
          · simp only [Net.onEvent, b1, b2.inTable, if_neg hi, if_neg hcl, hs'.pool, hpool]
          · dsimp only
            split
            · rw [List.map_append, hs'.jobs]; rfl
            · exact hs'.jobs

theorem others_sim {P Q Bad : Nat → Traced T → Prop} (hT : RawIO.Honest T) (hR : RawIO.ReadsWithin T) (hK : ∀ k, Kinds (P k) (Q k) (Bad k) (Er k)) {s t : ANet (Traced T) σ} (hrd : s.Ready prof Q) (hun : t.Unspoilt Bad) (hf : s.Fine P) {a : AAct T}
    (ha : ∀ offer grow growOk t, a ≠ .accept offer grow growOk t) (hc : ∀ k env, a ≠ .change k env) (h : s.step prof rt a.traced = some t) : t.Fine P ∧ ANet.Sim Er prof rt s t := by
  cases a with
  | accept offer grow growOk x => exact absurd rfl (ha offer grow growOk x)
  | change k env => exact absurd rfl (hc k env)
  | notify k =>
    simp only [AAct.traced, ANet.step] at h
    split at h
    · cases h
    · next c hc =>
      cases h
      refine ⟨hf.set (c := { c with edge := true }) (hf k c hc), .same (fun _ => .notify k) fun F s' hF hs' => ?_⟩
      obtain ⟨n, b1, b2⟩ := hs'.all.conns k c hc
      refine ⟨s'.setConn k { n with edge := true }, by simp only [Net.step, b1], hs'.upd (fun _ _ => rfl) ⟨b2.slot, b2.lock, b2.inTable, fun _ => rfl, b2.arrived, b2.wakes, b2.slips, b2.brought⟩⟩
  | poll ks =>
    simp only [AAct.traced, ANet.step] at h
    split at h
    · next hk =>
      obtain ⟨k1, k2, k3⟩ := hk
      cases h
      refine ⟨fun k c hc => ?_, .same (fun _ => .poll ks) fun F s' hF hs' => ?_⟩
      · simp only [List.getElem?_mapIdx] at hc
        obtain ⟨d, h1, rfl⟩ := Option.map_eq_some_iff.1 hc
        have := hf k d h1
        split
        · exact this
        · exact this
      · have : s'.batch = [] ∧ ks.length ≤ 128 ∧ ∀ k ∈ ks, (s'.conns[k]?.any fun c => c.edge) = true := by
          refine ⟨hs'.batch.trans k1, k2, fun k hk => ?_⟩
          have := k3 k hk
          cases hc : s.conns[k]? with
          | none => rw [hc] at this; cases this
          | some c =>
            rw [hc] at this
            obtain ⟨n, b1, b2⟩ := hs'.all.conns k c hc
            rw [b1]
            exact b2.edge this
        refine ⟨_, if_pos this, hs'.pool, hs'.jobs, hs'.phase, rfl, hs'.state, hs'.asks, ?_, fun k c hc => ?_⟩
        · simp [hs'.all.length]
        · simp only [List.getElem?_mapIdx] at hc ⊢
          obtain ⟨d, h1, rfl⟩ := Option.map_eq_some_iff.1 hc
          obtain ⟨n, b1, b2⟩ := hs'.all.conns k d h1
          rw [b1]
          refine ⟨_, rfl, ?_⟩
          split
          · exact ⟨b2.slot, b2.lock, b2.inTable, nofun, b2.arrived, b2.wakes, b2.slips, b2.brought⟩
          · exact b2
    · cases h
  | dispatch closed =>
    simp only [AAct.traced, ANet.step] at h
    split at h
    · cases h
    · next k ks hb =>
      obtain ⟨h1, h2⟩ := onEvent_sim (Er := Er) (P := P) (s := { s with batch := ks }) hf h
      refine ⟨h1, .same (fun _ => .dispatch closed) fun F s' hF hs' => ?_⟩
      obtain ⟨t', h3, h4⟩ := h2 F { s' with batch := ks } ⟨hs'.pool, hs'.jobs, hs'.phase, rfl, hs'.state, hs'.asks, hs'.all⟩
      refine ⟨t', ?_, h4⟩
      simp only [Net.step, hs'.batch, hb]
      exact h3
  | stray k closed =>
    obtain ⟨h1, h2⟩ := onEvent_sim (Er := Er) hf (show s.onEvent k closed = some t from h)
    exact ⟨h1, .same (fun _ => .stray k closed) fun F s' hF hs' => h2 F s' hs'⟩
  | work w =>
    simp only [AAct.traced, ANet.step] at h
    split at h
    · cases h
    · next hw =>
      obtain ⟨pool, h1, rfl⟩ := Option.map_eq_some_iff.1 h
      refine ⟨hf, .same (fun _ => .work w) fun F s' hF hs' => ?_⟩
      refine ⟨_, ?_, (hs'.goto w .enter).pooled pool⟩
      simp only [Net.step, hs'.pool, h1]
      generalize s.pool.workers[w]? = x at hw
      rcases x with _ | x
      · rfl
      · cases x with
        | running j => exact absurd rfl (hw j)
        | _ => rfl
  | lock w =>
    simp only [AAct.traced, ANet.step] at h
    split at h
    · cases h
    · next k hw =>
      split at h
      · cases h
      · next c hc =>
        split at h
        · next hcond =>
          have hfc := hf k c hc
          have hl : ∀ (F : Nat → Future) (s' : Net σ), ANet.Rel Er F s s' → ∀ n, s'.conns[k]? = some n → c.Rel (Er k) (F k) n → ∀ evs, s'.step prof rt (.lock w evs) = s'.enter w k n evs := by
            intro F s' hs' n b1 b2 evs
            simp only [Net.step, hs'.handled, hw, b1, hs'.phase, b2.lock, hcond, and_self, if_true]
          have hwk : ∀ (F : Nat → Future), Future.In Er F → ∀ n : NConn σ, c.Rel (Er k) (F k) n → ∀ evs ∈ n.wakes ++ [(F k).1], ∀ e ∈ evs, ∀ er, e = .err er → (Er k).write er := by
            intro F hF n b2 evs he
            rcases List.mem_append.1 he with he | he
            · exact b2.wakes evs he
            · rw [List.mem_singleton.1 he]
              exact (hF k).1
          unfold ANet.enter at h
          split at h
          · next conn hs =>
            obtain ⟨pool, h1, rfl⟩ := Option.map_eq_some_iff.1 h
            refine ⟨hf, .same (fun F => .lock w (F k).1) fun F s' hF hs' => ?_⟩
            obtain ⟨n, b1, b2⟩ := hs'.all.conns k c hc
            have b3 := b2.slot
            rw [hs] at b3
            generalize hns : n.slot = l at b3
            cases b3 with
            | poisoned b4 =>
              refine ⟨{ s'.setConn k { n with wakes := n.wakes ++ [(F k).1] } with pool }, ?_, ?_⟩
              · rw [hl F s' hs' n b1 b2]
                simp only [Net.enter, hns, hs'.pool, h1]
                rfl
              · have := (hs'.upd (k := k) (fun _ _ => rfl) (c := c) (n := { n with wakes := n.wakes ++ [(F k).1] }) ⟨b2.slot, b2.lock, b2.inTable, b2.edge, b2.arrived, hwk F hF n b2, b2.slips, b2.brought⟩).pooled pool
                unfold ANet.setConn at this
                rwa [show s.conns.set k c = s.conns from (List.getElem?_eq_some_iff.1 hc).2 ▸ List.set_getElem_self ..] at this
          · next conn hs =>
            cases h
            refine ⟨hf.set (c := { c with lock := some w }) hfc, .same (fun F => .lock w (F k).1) fun F s' hF hs' => ?_⟩
            obtain ⟨n, b1, b2⟩ := hs'.all.conns k c hc
            have b3 := b2.slot
            rw [hs] at b3
            generalize hns : n.slot = l at b3
            cases b3 with
            | gone b4 =>
              refine ⟨(s'.setConn k { n with lock := some w, wakes := n.wakes ++ [(F k).1] }).setPhase w .leaving, ?_,
                (hs'.upd (k := k) (fun _ _ => rfl) (c := { c with lock := some w }) (n := { n with lock := some w, wakes := n.wakes ++ [(F k).1] })
                  ⟨?_, rfl, b2.inTable, b2.edge, b2.arrived, hwk F hF n b2, b2.slips, b2.brought⟩).goto w .leaving⟩
              · rw [hl F s' hs' n b1 b2]
                simp only [Net.enter, hns]
              · dsimp only
                rw [hs, hns]
                exact .gone b4
          · next conn hs =>
            cases h
            refine ⟨hf.set (c := { c with lock := some w }) hfc, .same (fun F => .lock w (F k).1) fun F s' hF hs' => ?_⟩
            obtain ⟨n, b1, b2⟩ := hs'.all.conns k c hc
            have b3 := b2.slot
            rw [hs] at b3
            generalize hns : n.slot = l at b3
            cases b3 with
            | live b4 b5 =>
              next m ws =>
              refine ⟨(s'.setConn k { n with slot := (Slot.live m).wake (F k).1, lock := some w, wakes := n.wakes ++ [(F k).1] }).setPhase w .flushing, ?_,
                (hs'.upd (k := k) (fun _ _ => rfl) (c := { c with lock := some w }) (n := { n with slot := (Slot.live m).wake (F k).1, lock := some w, wakes := n.wakes ++ [(F k).1] })
                  ⟨?_, rfl, b2.inTable, b2.edge, b2.arrived, hwk F hF n b2, b2.slips, b2.brought⟩).goto w .flushing⟩
              · rw [hl F s' hs' n b1 b2]
                simp only [Net.enter, hns]
              · dsimp only
                rw [hs]
                exact .live (ws := (F k).1) ⟨⟨b4.parser, b4.lims, b4.unread, b4.buf, b4.pos, b4.cap, b4.sent⟩, b4.grow, rfl, b4.flushes⟩ fun _ => rfl
        · cases h
  | go w rounds =>
    simp only [AAct.traced, ANet.step] at h
    split at h
    · cases h
    · next k hw =>
      split at h
      · cases h
      · next c hc =>
        split at h
        · next hl => exact advance_sim hT hR hK hrd hun hf hw hc hl h
        · cases h

theorem step_simTo {P P' Q Bad : Nat → Traced T → Prop} (hT : RawIO.Honest T) (hR : RawIO.ReadsWithin T) (hK : ∀ k, Kinds (P k) (Q k) (Bad k) (Er k)) {s t : ANet (Traced T) σ} (hrd : s.Ready prof Q) (hun : t.Unspoilt Bad) (hf : s.Fine P) {a : AAct T} (ha : a.Leads P P' s.conns.length)
    (h : s.step prof rt a.traced = some t) : t.Fine P' ∧ ANet.Sim Er prof rt s t := by
  have key : (∀ offer grow growOk t, a ≠ .accept offer grow growOk t) → (∀ k env, a ≠ .change k env) → t.Fine P ∧ ANet.Sim Er prof rt s t := fun x y => others_sim (a := a) hT hR hK hrd hun hf x y h
  cases a with
  | accept offer grow growOk x =>
    cases h
    refine ⟨fun k c hc => ?_, .same (fun F => .accept offer grow growOk (F s.conns.length).2) fun F s' hF hs' => ⟨_, rfl, hs'.pool, hs'.jobs, hs'.phase, hs'.batch, hs'.state, hs'.asks, ?_, ?_⟩⟩
    · dsimp only at hc
      by_cases hk : k < s.conns.length
      · rw [List.getElem?_append_left hk] at hc
        have := hf k c hc
        exact ⟨this.cap, this.grow, ha.same k _ (fun _ => nofun) this.inv⟩
      · rw [List.getElem?_append_right (by omega)] at hc
        obtain ⟨hj, rfl⟩ : k - s.conns.length = 0 ∧ ANet.fresh offer grow ⟨x, [], []⟩ = c := by
          cases hj : k - s.conns.length with
          | zero => rw [hj] at hc; exact ⟨rfl, Option.some.inj hc⟩
          | succ j => rw [hj] at hc; cases hc
        obtain rfl : k = s.conns.length := by omega
        exact ⟨rfl, growOk, ha.new _ _ _ _ rfl⟩
    · simp [hs'.all.length]
    · intro k c hc
      dsimp only at hc ⊢
      by_cases hk : k < s.conns.length
      · rw [List.getElem?_append_left hk] at hc
        rw [List.getElem?_append_left (hs'.all.length.symm ▸ hk)]
        exact hs'.all.conns k c hc
      · rw [List.getElem?_append_right (by omega)] at hc
        rw [List.getElem?_append_right (by rw [hs'.all.length]; omega), hs'.all.length]
        obtain ⟨hj, rfl⟩ : k - s.conns.length = 0 ∧ ANet.fresh offer grow ⟨x, [], []⟩ = c := by
          cases hj : k - s.conns.length with
          | zero => rw [hj] at hc; exact ⟨rfl, Option.some.inj hc⟩
          | succ j => rw [hj] at hc; cases hc
        have hk' : k = s.conns.length := by omega
        subst hk'
        rw [hj]
        refine ⟨_, rfl, ?_, rfl, rfl, fun _ => rfl, rfl, (fun evs he => by cases he), ?_, nofun⟩
        · exact .live (ws := []) ⟨⟨rfl, rfl, rfl, rfl, rfl, rfl, rfl⟩, rfl, rfl, rfl⟩ fun hl => absurd rfl hl
        · exact (hF _).2
  | change k env =>
    simp only [AAct.traced, ANet.step] at h
    split at h
    · cases h
    · next c hc =>
      cases h
      have hfc := hf k c hc
      refine ⟨fun j d hd => ?_, fun F hF => ⟨F, hF, fun s' hs' => ⟨[], s', rfl, hs'.pool, hs'.jobs, hs'.phase, hs'.batch, hs'.state, hs'.asks, ?_⟩⟩⟩
      · have hd : (s.conns.set k _)[j]? = some d := hd
        by_cases hj : j = k
        · subst hj
          rw [List.getElem?_set_self (List.getElem?_eq_some_iff.1 hc).1] at hd
          cases hd
          dsimp only
          cases hs : c.slot with
          | live x => rw [hs] at hfc; exact ⟨hfc.cap, hfc.grow, ha.change j env rfl _ hfc.inv⟩
          | gone x => rw [hs] at hfc; exact ⟨hfc.cap, hfc.grow, ha.change j env rfl _ hfc.inv⟩
          | poisoned x => rw [hs] at hfc; exact ⟨hfc.cap, hfc.grow, ha.change j env rfl _ hfc.inv⟩
        · rw [List.getElem?_set_ne (Ne.symm hj)] at hd
          have := hf j d hd
          exact ⟨this.cap, this.grow, ha.same j _ (fun env' he => hj (by cases he; rfl)) this.inv⟩
      · obtain ⟨n, b1, b2⟩ := hs'.all.conns k c hc
        have := hs'.all.set (k := k) (fun _ _ => rfl) (c := { c with slot := ANet.changed (fun t => { t with raw := env t.raw }) c.slot }) (n := n) ?_
        · rwa [show s'.conns.set k n = s'.conns from (List.getElem?_eq_some_iff.1 b1).2 ▸ List.set_getElem_self ..] at this
        · obtain ⟨d1, d2, d3, d4, d5, d6, d7, d8⟩ := b2
          refine ⟨?_, d2, d3, d4, d5.trans ?_, d6, d7, d8⟩
          · dsimp only
            generalize c.slot = l at d1
            generalize n.slot = l' at d1
            cases d1 with
            | live x y => exact .live ⟨⟨x.parser, x.lims, x.unread, x.buf, x.pos, x.cap, x.sent⟩, x.grow, x.evs, x.flushes⟩ y
            | gone x => exact .gone ⟨x.parser, x.lims, x.unread, x.buf, x.pos, x.cap, x.sent⟩
            | poisoned x => exact .poisoned ⟨x.parser, x.lims, x.unread, x.buf, x.pos, x.cap, x.sent⟩
          · unfold AConn.raw
            dsimp only
            cases c.slot <;> rfl
  | _ =>
    obtain ⟨h1, h2⟩ := key (fun _ _ _ _ => nofun) (fun _ _ => nofun)
    refine ⟨fun k c hc => ?_, h2⟩
    have := h1 k c hc
    exact ⟨this.cap, this.grow, ha.same k _ (fun _ => nofun) this.inv⟩

theorem ANet.run_append {T : Type} [RawIO T] (s : ANet T σ) (as bs : List (AAct T)) : s.run prof rt (as ++ bs) = (s.run prof rt as).bind fun t => t.run prof rt bs := by
  induction as generalizing s with
  | nil => rfl
  | cons a as ih =>
    rw [List.cons_append, ANet.run, ANet.run]
    cases h : s.step prof rt a with
    | none => rfl
    | some t => exact ih t

theorem unspoilt_false {s : ANet (Traced T) σ} : s.Unspoilt fun _ _ => False := fun _ _ _ => id

theorem step_sim {P P' : Nat → Traced T → Prop} (hT : RawIO.Honest T) (hR : RawIO.ReadsWithin T) (hP : ∀ k, RawKeeps (P k)) (hE : ∀ k, ErrsIn (P k) (Er k)) {s t : ANet (Traced T) σ} (hf : s.Fine P) {a : AAct T} (ha : a.Leads P P' s.conns.length)
    (h : s.step prof rt a.traced = some t) : t.Fine P' ∧ ANet.Sim Er prof rt s t := step_simTo hT hR (fun k => .of (hP k) (hE k)) (hf.ready hT hR hP) unspoilt_false hf ha h

omit [RawIO T] in
theorem ANet.onEvent_length {s t : ANet T σ} {k : Nat} {closed : Bool} (h : s.onEvent k closed = some t) : t.conns.length = s.conns.length := by
  unfold ANet.onEvent at h
  split at h
  · cases h
  · split at h
    · cases h; rfl
    · split at h
      · cases h; simp [ANet.setConn]
      · split at h <;> cases h
        rfl

theorem ANet.step_length {s t : ANet T σ} {a : AAct T} (h : s.step prof rt a = some t) : t.conns.length = s.conns.length + AAct.accepted [a] := by
  have hcrash : ∀ {s t : ANet T σ} {w k : Nat} {c : AConn T} {conn : SharedConn (ServerStack T)}, s.crash w k c conn = some t → t.conns.length = s.conns.length := by
    intro s t w k c conn h
    obtain ⟨pool, -, rfl⟩ := Option.map_eq_some_iff.1 h
    simp [ANet.setConn]
  have hhung : ∀ {r : Shared (ServerStack T)} {s t : ANet T σ}, ANet.unlessHung r s = some t → t = s := by
    intro r s t h
    unfold ANet.unlessHung at h
    split at h <;> cases h
    rfl
  cases a with
  | accept => cases h; simp [AAct.accepted]
  | change k env =>
    simp only [ANet.step] at h
    split at h <;> cases h
    simp [ANet.setConn, AAct.accepted]
  | notify k =>
    simp only [ANet.step] at h
    split at h <;> cases h
    simp [ANet.setConn, AAct.accepted]
  | poll ks =>
    simp only [ANet.step] at h
    split at h <;> cases h
    simp [AAct.accepted]
  | dispatch closed =>
    simp only [ANet.step] at h
    split at h
    · cases h
    · exact (ANet.onEvent_length h).trans rfl
  | stray k closed => exact ANet.onEvent_length h
  | work w =>
    simp only [ANet.step] at h
    split at h
    · cases h
    · obtain ⟨pool, -, rfl⟩ := Option.map_eq_some_iff.1 h
      rfl
  | lock w =>
    simp only [ANet.step] at h
    split at h
    · cases h
    · split at h
      · cases h
      · split at h
        · unfold ANet.enter at h
          split at h
          · obtain ⟨pool, -, rfl⟩ := Option.map_eq_some_iff.1 h
            rfl
          · cases h; simp [ANet.setConn, ANet.setPhase, AAct.accepted]
          · cases h; simp [ANet.setConn, ANet.setPhase, AAct.accepted]
        · cases h
  | go w rounds =>
    change t.conns.length = s.conns.length
    simp only [ANet.step] at h
    split at h
    · cases h
    · split at h
      · cases h
      · split at h
        · unfold ANet.advance at h
          split at h
          · split at h <;> rw [hhung h] <;> simp [ANet.setConn, ANet.setPhase]
          · split at h
            · cases h; simp [ANet.setConn, ANet.setPhase]
            · cases h; simp [ANet.setConn, ANet.setPhase]
            · cases h; simp [ANet.setConn, ANet.setPhase]
            · split at h
              · cases h
              · rw [hhung h]; simp [ANet.setConn, ANet.setPhase]
            · exact hcrash h
            · cases h
          · dsimp only at h
            split at h
            · exact (hcrash h).trans rfl
            · cases h; simp [ANet.setConn, ANet.setPhase]
          · split at h
            · split at h <;> rw [hhung h] <;> simp [ANet.setConn, ANet.setPhase]
            · rw [hhung h]; simp [ANet.setConn, ANet.setPhase]
            · cases h
          · obtain ⟨pool, -, rfl⟩ := Option.map_eq_some_iff.1 h
            simp [ANet.setConn, ANet.setPhase]
          · cases h
        · cases h

omit [RawIO T] in
theorem AAct.accepted_append (as bs : List (AAct T)) : AAct.accepted (as ++ bs) = AAct.accepted as + AAct.accepted bs := List.countP_append ..

omit [RawIO T] in
theorem AAct.accepted_traced (a : AAct T) : AAct.accepted [a.traced] = AAct.accepted [a] := by cases a <;> rfl

theorem run_sim {P Q : List (AAct T) → Nat → Traced T → Prop} {Bad : Nat → Traced T → Prop} (hT : RawIO.Honest T) (hR : RawIO.ReadsWithin T) (hK : ∀ hist k, Kinds (P hist k) (Q hist k) (Bad k) (Er k))
    {hist : List (AAct T)} {s t : ANet (Traced T) σ} (hl : s.conns.length = AAct.accepted hist) (hf : s.Fine (P hist)) {as : List (AAct T)}
    (ha : ∀ pre a post, as = pre ++ a :: post → a.Leads (P (hist ++ pre)) (P (hist ++ pre ++ [a])) (AAct.accepted (hist ++ pre)))
    (hr : ∀ pre a post u u', as = pre ++ a :: post → s.run prof rt (pre.map AAct.traced) = some u → u.step prof rt a.traced = some u' → u.Fine (P (hist ++ pre)) → u.Ready prof (Q (hist ++ pre)) ∧ u'.Unspoilt Bad)
    (h : s.run prof rt (as.map AAct.traced) = some t) : t.Fine (P (hist ++ as)) ∧ ANet.Sim Er prof rt s t := by
  induction as generalizing s hist with
  | nil =>
    cases h
    rw [List.append_nil]
    exact ⟨hf, fun F hF => ⟨F, hF, fun s' hs' => ⟨[], s', rfl, hs'⟩⟩⟩
  | cons a as ih =>
    rw [List.map_cons, ANet.run] at h
    obtain ⟨s₁, h1, h2⟩ := Option.bind_eq_some_iff.1 h
    have ha1 := ha [] a as rfl
    rw [List.append_nil, ← hl] at ha1
    obtain ⟨r1, r2⟩ := hr [] a as s s₁ rfl rfl h1 (by rw [List.append_nil]; exact hf)
    rw [List.append_nil] at r1
    obtain ⟨f1, g1⟩ := step_simTo hT hR (hK hist) r1 r2 hf ha1 h1
    obtain ⟨f2, g2⟩ := ih (hist := hist ++ [a]) (by rw [ANet.step_length h1, hl, AAct.accepted_append, AAct.accepted_traced]) f1 (fun pre b post he => by
      have := ha (a :: pre) b post (by rw [he]; rfl)
      simpa using this) (fun pre b post u u' he hu hu' hfu => by
      have := hr (a :: pre) b post u u' (by rw [he]; rfl) (by rw [List.map_cons, ANet.run, h1]; exact hu) hu' (by simpa using hfu)
      simpa using this) h2
    refine ⟨by simpa using f2, fun F hF => ?_⟩
    obtain ⟨F₁, hF₁, k1⟩ := g2 F hF
    obtain ⟨F₀, hF₀, k0⟩ := g1 F₁ hF₁
    refine ⟨F₀, hF₀, fun s' hs' => ?_⟩
    obtain ⟨as₁, t₁, l1, l2⟩ := k0 s' hs'
    obtain ⟨as₂, t₂, l3, l4⟩ := k1 t₁ l2
    exact ⟨as₁ ++ as₂, t₂, by rw [Net.runActs_append, l1]; exact l3, l4⟩

/-- What the server does over streams of any kind it does over scripted ones. -/
theorem any_reach_to {P Q : List (AAct T) → Nat → Traced T → Prop} {Bad : Nat → Traced T → Prop} (hT : RawIO.Honest T) (hR : RawIO.ReadsWithin T) (hK : ∀ hist k, Kinds (P hist k) (Q hist k) (Bad k) (Er k))
    {nw : Nat} {s₀ : σ} {as : List (AAct T)} (ha : ∀ pre a post, as = pre ++ a :: post → a.Leads (P pre) (P (pre ++ [a])) (AAct.accepted pre))
    (hr : ∀ pre a post u u', as = pre ++ a :: post → ANet.after prof rt nw s₀ pre = some u → ANet.after prof rt nw s₀ (pre ++ [a]) = some u' → u.Fine (P pre) → u.Ready prof (Q pre) ∧ u'.Unspoilt Bad) {s : ANet (Traced T) σ}
    (h : ANet.after prof rt nw s₀ as = some s) : s.Fine (P as) ∧ ∃ s', Net.Reach prof rt nw s₀ s' ∧ ANet.Rel Er (fun _ => ([], [])) s s' := by
  obtain ⟨s₁, h1, h2⟩ := Option.bind_eq_some_iff.1 h
  have hafter : ∀ {pre : List (AAct T)} {u : ANet (Traced T) σ}, s₁.run prof rt (pre.map AAct.traced) = some u → ANet.after prof rt nw s₀ pre = some u := fun {pre u} hu => Option.bind_eq_some_iff.2 ⟨s₁, h1, hu⟩
  have hr' := fun pre a post u u' (he : as = pre ++ a :: post) (hu : s₁.run prof rt (pre.map AAct.traced) = some u) (hu' : u.step prof rt a.traced = some u') (hfu : u.Fine (P ([] ++ pre))) =>
    hr pre a post u u' he (hafter hu) (hafter (by rw [List.map_append, ANet.run_append, hu]; simp [ANet.run, hu'])) hfu
  obtain ⟨pool, h3, rfl⟩ := Option.map_eq_some_iff.1 h1
  obtain ⟨f, g⟩ := run_sim hT hR hK (hist := []) rfl (fun k c hc => by cases hc) ha hr' h2
  refine ⟨f, ?_⟩
  obtain ⟨F₀, -, k⟩ := g (fun _ => ([], [])) fun _ => ⟨nofun, nofun⟩
  obtain ⟨as', t', k1, k2⟩ := k { pool, jobs := [], phase := fun _ => .enter, conns := [], batch := [], state := s₀, asks := [] } ⟨rfl, rfl, rfl, rfl, rfl, rfl, rfl, fun k c hc => by cases hc⟩
  refine ⟨t', Net.reach_of (as := as') ?_, k2⟩
  rw [Net.after, Net.new, h3]
  exact k1

/-- The same, where all writes fail only as `Er` says. -/
theorem any_reach_hist {P : List (AAct T) → Nat → Traced T → Prop} (hT : RawIO.Honest T) (hR : RawIO.ReadsWithin T) (hP : ∀ hist k, RawKeeps (P hist k)) (hE : ∀ hist k, ErrsIn (P hist k) (Er k))
    {nw : Nat} {s₀ : σ} {as : List (AAct T)} (ha : ∀ pre a post, as = pre ++ a :: post → a.Leads (P pre) (P (pre ++ [a])) (AAct.accepted pre)) {s : ANet (Traced T) σ}
    (h : ANet.after prof rt nw s₀ as = some s) : s.Fine (P as) ∧ ∃ s', Net.Reach prof rt nw s₀ s' ∧ ANet.Rel Er (fun _ => ([], [])) s s' :=
  any_reach_to hT hR (fun hist k => .of (hP hist k) (hE hist k)) ha (fun pre _ _ _ _ _ _ _ hf => ⟨hf.ready hT hR (hP pre), unspoilt_false⟩) h

/-- The same, where all streams are always alike. -/
theorem any_reach (hT : RawIO.Honest T) (hR : RawIO.ReadsWithin T) (hP : RawKeeps P) (hE : ErrsIn P E) {nw : Nat} {s₀ : σ} {as : List (AAct T)} (ha : ∀ a ∈ as, a.Allowed P) {s : ANet (Traced T) σ}
    (h : ANet.after prof rt nw s₀ as = some s) : s.Fine (fun _ => P) ∧ ∃ s', Net.Reach prof rt nw s₀ s' ∧ ANet.Rel (fun _ => E) (fun _ => ([], [])) s s' := by
  refine any_reach_hist (P := fun _ _ => P) hT hR (fun _ _ => hP) (fun _ _ => hE) (fun pre a post he => ?_) h
  have ha := ha a (by rw [he]; simp)
  refine ⟨fun _ _ _ h => h, fun offer grow growOk t e => ?_, fun k env e => ?_⟩
  · subst e
    exact ha
  · subst e
    exact ha

end

end Verif
