import Verif.Proofs.BufStreamAny

/-!
C58: the two directions of a buffered stream do not interfere, and neither loses, repeats or reorders bytes.
-/

namespace Verif

/-! ## Over independent directions -/

/-- A reader and the reader of the rest of the model are in the same state. -/
structure BufR.Same (s : BufR Tcp) (h : Src) : Prop where
  cap : s.cap = h.cap
  buf : s.buf = h.buf
  input : s.inner.input = h.evs

theorem bufr_fillBuf {s : BufR Tcp} {h : Src} (hs : s.Same h) :
    s.fillBuf.1 = h.fillBuf.1 ∧ s.fillBuf.2.Same h.fillBuf.2 ∧ s.fillBuf.2.inner.out = s.inner.out := by
  obtain ⟨rcap, rbuf, ⟨input, out⟩⟩ := s
  obtain ⟨c, cp, off, b, evs⟩ := h
  obtain ⟨e1, e2, e3⟩ := hs
  dsimp only at e1 e2 e3
  subst e1 e2 e3
  simp only [BufR.fillBuf, Src.fillBuf, RawIO.read]
  split
  · generalize rawRead rcap input = x
    obtain ⟨x1, x2⟩ := x
    cases x1 <;> exact ⟨rfl, ⟨rfl, rfl, rfl⟩, rfl⟩
  · exact ⟨rfl, ⟨rfl, rfl, rfl⟩, rfl⟩

theorem bufr_consume {s : BufR Tcp} {h : Src} (hs : s.Same h) (n : Nat) : (s.consume n).Same (h.consume n) :=
  ⟨hs.cap, by simp [BufR.consume, Src.consume, hs.buf], hs.input⟩

theorem bufr_read {s : BufR Tcp} {h : Src} (hs : s.Same h) (n : Nat) :
    (s.read n).1 = (h.read n).1 ∧ (s.read n).2.Same (h.read n).2 ∧ (s.read n).2.inner.out = s.inner.out := by
  unfold BufR.read Src.read
  rw [hs.buf, hs.cap]
  split
  · simp only [RawIO.read, hs.input]
    generalize rawRead n h.evs = x
    obtain ⟨x1, x2⟩ := x
    cases x1 <;> exact ⟨rfl, ⟨rfl, rfl, rfl⟩, trivial⟩
  · obtain ⟨h1, h2, h3⟩ := bufr_fillBuf hs
    generalize s.fillBuf = x at h1 h2 h3
    generalize h.fillBuf = y at h1 h2
    obtain ⟨x1, x2⟩ := x
    obtain ⟨y1, y2⟩ := y
    dsimp only at h1 h2 h3
    subst h1
    cases x1 with
    | error e => exact ⟨rfl, h2, h3⟩
    | ok b => exact ⟨rfl, bufr_consume h2 _, h3⟩

theorem ServerStack.Same.rd {s : ServerStack Tcp} {h : Halves Nbw} (hs : s.Same h) : s.val.inner.val.Same h.rd := ⟨hs.rcap, hs.rbuf, hs.input⟩

theorem ServerStack.Same.wr {s : ServerStack Tcp} {h : Halves Nbw} (hs : s.Same h) : s.val.Same h.wr := ⟨hs.wbuf, hs.pos, hs.wcap, hs.grow, hs.out⟩

/-- Neither direction of a buffered stream of the server affects the other: one use. -/
theorem server_op {f : Nat} {s : ServerStack Tcp} {h : Halves Nbw} (hs : s.Same h) (hf : h.wr.sock.evs.length < f) (o : StreamOp) :
    (o.run f s).1 = (o.run f h).1 ∧ ServerStack.Same (o.run f s).2 (o.run f h).2 ∧ (o.run f h).2.wr.sock.evs.length ≤ h.wr.sock.evs.length := by
  cases o with
  | fillBuf =>
    obtain ⟨h1, h2, h3⟩ := bufr_fillBuf hs.rd
    exact ⟨congrArg StreamRes.bytes h1, ⟨h2.cap, h2.buf, h2.input, hs.wbuf, hs.pos, hs.wcap, hs.grow, h3.trans hs.out⟩, Nat.le_refl _⟩
  | consume n =>
    have h2 := bufr_consume hs.rd n
    exact ⟨rfl, ⟨h2.cap, h2.buf, h2.input, hs.wbuf, hs.pos, hs.wcap, hs.grow, hs.out⟩, Nat.le_refl _⟩
  | read n =>
    obtain ⟨h1, h2, h3⟩ := bufr_read hs.rd n
    exact ⟨congrArg StreamRes.bytes h1, ⟨h2.cap, h2.buf, h2.input, hs.wbuf, hs.pos, hs.wcap, hs.grow, h3.trans hs.out⟩, Nat.le_refl _⟩
  | write b =>
    obtain ⟨s', h1, h2, ⟨o, h3⟩, h4⟩ := nb_write hs.wr hf b
    have e : StreamOp.run f s (.write b) = (.count (h.wr.write b).1, ⟨s'⟩) := by
      simp only [StreamOp.run, Wr.write, h1, Option.map_some]
    rw [e]
    refine ⟨rfl, ⟨?_, ?_, ?_, h2.wbuf, h2.pos, h2.wcap, h2.grow, h2.out⟩, h4⟩ <;> dsimp only <;> rw [h3] <;> first | exact hs.rcap | exact hs.rbuf | exact hs.input
  | flush =>
    obtain ⟨s', h1, h2, ⟨o, h3⟩, h4⟩ := nb_flush hs.wr hf
    have e : StreamOp.run f s .flush = (.done h.wr.flush.1, ⟨s'⟩) := by
      simp only [StreamOp.run, Wr.flush, h1, Option.map_some]
    rw [e]
    refine ⟨rfl, ⟨?_, ?_, ?_, h2.wbuf, h2.pos, h2.wcap, h2.grow, h2.out⟩, h4⟩ <;> dsimp only <;> rw [h3] <;> first | exact hs.rcap | exact hs.rbuf | exact hs.input

/-- C58: over a raw stream with independent directions, a buffered stream of the server does, whatever it is used for, exactly what a reader and a
writer that share nothing do. (So the rest of the model, which keeps them apart, is about the program.) -/
theorem C58_server_halves {f : Nat} {s : ServerStack Tcp} {h : Halves Nbw} (hs : s.Same h) (hf : h.wr.sock.evs.length < f) (os : List StreamOp) :
    (StreamOp.runAll f os s).1 = (StreamOp.runAll f os h).1 ∧ ServerStack.Same (StreamOp.runAll f os s).2 (StreamOp.runAll f os h).2 := by
  induction os generalizing s h with
  | nil => exact ⟨rfl, hs⟩
  | cons o os ih =>
    obtain ⟨h1, h2, h3⟩ := server_op hs hf o
    obtain ⟨i1, i2⟩ := ih h2 (Nat.lt_of_le_of_lt h3 hf)
    simp only [StreamOp.runAll]
    exact ⟨by rw [h1, i1], i2⟩

theorem ClientStack.Same.rd {s : ClientStack Tcp} {h : Halves BufW} (hs : s.Same h) : s.val.inner.val.Same h.rd := ⟨hs.rcap, hs.rbuf, hs.input⟩

theorem ClientStack.Same.wr {s : ClientStack Tcp} {h : Halves BufW} (hs : s.Same h) : s.val.Same h.wr := ⟨hs.wbuf, hs.wcap, hs.out⟩

/-- Neither direction of a buffered stream of the client affects the other: one use. -/
theorem client_op {f : Nat} {s : ClientStack Tcp} {h : Halves BufW} (hs : s.Same h) (hf : h.wr.sock.evs.length < f) (o : StreamOp) :
    (o.run f s).1 = (o.run f h).1 ∧ ClientStack.Same (o.run f s).2 (o.run f h).2 ∧ (o.run f h).2.wr.sock.evs.length ≤ h.wr.sock.evs.length := by
  cases o with
  | fillBuf =>
    obtain ⟨h1, h2, h3⟩ := bufr_fillBuf hs.rd
    exact ⟨congrArg StreamRes.bytes h1, ⟨h2.cap, h2.buf, h2.input, hs.wbuf, hs.wcap, h3.trans hs.out⟩, Nat.le_refl _⟩
  | consume n =>
    have h2 := bufr_consume hs.rd n
    exact ⟨rfl, ⟨h2.cap, h2.buf, h2.input, hs.wbuf, hs.wcap, hs.out⟩, Nat.le_refl _⟩
  | read n =>
    obtain ⟨h1, h2, h3⟩ := bufr_read hs.rd n
    exact ⟨congrArg StreamRes.bytes h1, ⟨h2.cap, h2.buf, h2.input, hs.wbuf, hs.wcap, h3.trans hs.out⟩, Nat.le_refl _⟩
  | write b =>
    obtain ⟨s', h1, h2, ⟨o, h3⟩, h4⟩ := std_write hs.wr hf b
    have e : StreamOp.run f s (.write b) = (.count (h.wr.write b).1, ⟨s'⟩) := by
      simp only [StreamOp.run, Wr.write, h1, Option.map_some]
    rw [e]
    refine ⟨rfl, ⟨?_, ?_, ?_, h2.wbuf, h2.wcap, h2.out⟩, h4⟩ <;> dsimp only <;> rw [h3] <;> first | exact hs.rcap | exact hs.rbuf | exact hs.input
  | flush =>
    obtain ⟨s', h1, h2, ⟨o, h3⟩, h4⟩ := std_flush hs.wr hf
    have e : StreamOp.run f s .flush = (.done h.wr.flush.1, ⟨s'⟩) := by
      simp only [StreamOp.run, Wr.flush, h1, Option.map_some]
    rw [e]
    refine ⟨rfl, ⟨?_, ?_, ?_, h2.wbuf, h2.wcap, h2.out⟩, h4⟩ <;> dsimp only <;> rw [h3] <;> first | exact hs.rcap | exact hs.rbuf | exact hs.input

/-- C58: the same for a buffered stream of the client. -/
theorem C58_client_halves {f : Nat} {s : ClientStack Tcp} {h : Halves BufW} (hs : s.Same h) (hf : h.wr.sock.evs.length < f) (os : List StreamOp) :
    (StreamOp.runAll f os s).1 = (StreamOp.runAll f os h).1 ∧ ClientStack.Same (StreamOp.runAll f os s).2 (StreamOp.runAll f os h).2 := by
  induction os generalizing s h with
  | nil => exact ⟨rfl, hs⟩
  | cons o os ih =>
    obtain ⟨h1, h2, h3⟩ := client_op hs hf o
    obtain ⟨i1, i2⟩ := ih h2 (Nat.lt_of_le_of_lt h3 hf)
    simp only [StreamOp.runAll]
    exact ⟨by rw [h1, i1], i2⟩

/-- New streams are in the same state as the reader and the writer of `Net.fresh` and of `ClientStream.open`. -/
example (grow : Nat → Nat → Nat) (growOk : ∀ c n, c ≤ grow c n) (offer : Nat → Nat) (input : List Ev) (sock : Sock) :
    (ServerStack.new grow ⟨input, sock⟩).Same ⟨⟨4096, by decide, offer, [], input⟩, Nbw.withCapacity 4096 grow growOk sock⟩ ∧
    (ClientStack.new ⟨input, sock⟩).Same ⟨⟨8192, by decide, offer, [], input⟩, ⟨[], 8192, sock⟩⟩ :=
  ⟨⟨rfl, rfl, rfl, rfl, rfl, rfl, rfl, rfl⟩, ⟨rfl, rfl, rfl, rfl, rfl, rfl⟩⟩

/-! ## Over any raw stream -/

variable {T : Type} [RawIO T]

/-- What the reader holds back is what the raw stream delivered and the user did not take. -/
structure BufR.Keeps (s : BufR (Traced T)) (v : StreamView) : Prop where
  got : s.inner.got = v.taken ++ s.buf
  avail : v.avail <+: s.buf

theorem keeps_fillBuf {s : BufR (Traced T)} {v : StreamView} (h : s.Keeps v) :
    s.fillBuf.2.Keeps (v.step .fillBuf (.bytes s.fillBuf.1)) ∧ s.fillBuf.2.inner.put = s.inner.put := by
  unfold BufR.fillBuf
  split
  · next hb =>
    have ha : v.avail = [] := by have := h.avail; rw [hb] at this; exact List.eq_nil_of_prefix_nil this
    have hg := h.got
    rw [hb, List.append_nil] at hg
    simp only [RawIO.read]
    generalize RawIO.read s.inner.raw s.cap = x
    obtain ⟨x1, x2⟩ := x
    cases x1 with
    | error e => exact ⟨⟨by simpa [StreamView.step, hb, Traced.got, Ev.bytes] using hg, by simp [StreamView.step, ha]⟩, rfl⟩
    | ok b => exact ⟨⟨by simp [StreamView.step, ← hg, Traced.got, Ev.bytes], by simp [StreamView.step]⟩, rfl⟩
  · exact ⟨⟨h.got, by simp [StreamView.step]⟩, rfl⟩

omit [RawIO T] in
theorem keeps_consume {s : BufR (Traced T)} {v : StreamView} (h : s.Keeps v) {n : Nat} (hn : n ≤ v.avail.length) (r : StreamRes) :
    (s.consume n).Keeps (v.step (.consume n) r) := by
  obtain ⟨t, ht⟩ := h.avail
  have e1 : s.buf.take n = v.avail.take n := by rw [← ht, List.take_append_of_le_length hn]
  have e2 : s.buf.drop n = v.avail.drop n ++ t := by rw [← ht, List.drop_append_of_le_length hn]
  refine ⟨?_, ?_⟩
  · simp only [BufR.consume, StreamView.step, h.got, List.append_assoc]
    rw [← e1, List.take_append_drop]
  · simp only [BufR.consume, StreamView.step, e2]
    exact List.prefix_append _ _

theorem keeps_read {s : BufR (Traced T)} {v : StreamView} (h : s.Keeps v) (n : Nat) :
    (s.read n).2.Keeps (v.step (.read n) (.bytes (s.read n).1)) ∧ (s.read n).2.inner.put = s.inner.put := by
  unfold BufR.read
  split
  · next hb =>
    obtain ⟨hb, -⟩ := hb
    have ha : v.avail = [] := by have := h.avail; rw [hb] at this; exact List.eq_nil_of_prefix_nil this
    have hg := h.got
    rw [hb, List.append_nil] at hg
    simp only [RawIO.read]
    generalize RawIO.read s.inner.raw n = x
    obtain ⟨x1, x2⟩ := x
    cases x1 with
    | error e => exact ⟨⟨by simpa [StreamView.step, hb, Traced.got, Ev.bytes] using hg, by simp [StreamView.step, ha]⟩, rfl⟩
    | ok b => exact ⟨⟨by simp [StreamView.step, ← hg, hb, Traced.got, Ev.bytes], by simp [StreamView.step, ha]⟩, rfl⟩
  · obtain ⟨h1, h2⟩ := keeps_fillBuf h
    have h3 : s.fillBuf.2.buf = s.buf ∨ s.buf = [] := by
      unfold BufR.fillBuf
      split
      · next hb => exact .inr hb
      · exact .inl rfl
    have h4 : ∀ b, s.fillBuf.1 = .ok b → b = s.fillBuf.2.buf := by
      unfold BufR.fillBuf
      split
      · generalize RawIO.read s.inner s.cap = x
        obtain ⟨x1, x2⟩ := x
        cases x1 <;> rintro b ⟨⟩
        rfl
      · rintro b ⟨⟩; rfl
    generalize s.fillBuf = x at h1 h2 h3 h4
    obtain ⟨x1, x2⟩ := x
    cases x1 with
    | error e => exact ⟨⟨h1.got, h1.avail⟩, h2⟩
    | ok b =>
      have := h4 b rfl
      dsimp only at this h2 h3
      subst this
      refine ⟨⟨?_, ?_⟩, h2⟩
      · have := h1.got
        simp only [StreamView.step, BufR.consume] at this ⊢
        rw [this, List.append_assoc, List.length_take]
        congr 1
        rw [show List.take n x2.buf = List.take (min n x2.buf.length) x2.buf by rw [List.take_eq_take_iff]; omega, List.take_append_drop]
      · simp only [StreamView.step, BufR.consume]
        rcases h3 with h3 | h3
        · rw [h3]
          obtain ⟨t, ht⟩ := h.avail
          rw [← ht, List.drop_append]
          exact List.prefix_append _ _
        · have ha : v.avail = [] := by have := h.avail; rw [h3] at this; exact List.eq_nil_of_prefix_nil this
          simp [ha]

/-- Writing through a reader is recorded by the raw stream and does not touch the reader. -/
theorem logs_reader (hT : RawIO.Honest T) : Logs (I := WriteableReader (BufR (Traced T))) (fun w => w.val.inner.put)
    (fun w => (w.val.cap, w.val.buf, w.val.inner.got)) where
  write_ok := by
    intro f i i' b n h
    simp only [Wr.write, InnerMut.inner, InnerMut.put, Option.map_map, Option.map_eq_some_iff, Function.comp_apply, Prod.mk.injEq] at h
    obtain ⟨⟨y, t⟩, h1, h2, h3⟩ := h
    cases y with
    | error e => cases h2
    | ok m =>
      cases h2
      subst h3
      exact ⟨hT _ _ _ _ _ h1, rfl, rfl⟩
  write_err := by
    intro f i i' b e h
    simp only [Wr.write, InnerMut.inner, InnerMut.put, Option.map_map, Option.map_eq_some_iff, Function.comp_apply, Prod.mk.injEq] at h
    obtain ⟨⟨y, t⟩, h1, h2, h3⟩ := h
    cases y with
    | error e => subst h3; exact ⟨rfl, rfl⟩
    | ok m => cases h2
  flush := by
    intro f i i' x h
    simp only [Wr.flush, InnerMut.inner, InnerMut.put, Option.map_map, Option.map_eq_some_iff, Function.comp_apply, Prod.mk.injEq] at h
    obtain ⟨⟨y, t⟩, h1, h2, h3⟩ := h
    subst h3
    exact ⟨rfl, rfl⟩

/-- What holds of a buffered stream of the server in use. -/
structure ServerStack.Ok (s : ServerStack (Traced T)) (v : StreamView) : Prop where
  keeps : s.val.inner.val.Keeps v
  pos : s.val.pos ≤ s.val.buf.length
  cap : 4096 ≤ s.val.cap
  grow : ∀ c n, c ≤ s.val.grow c n

/-- What was accepted for writing: what the raw stream took and what is still buffered. -/
def ServerStack.all (s : ServerStack (Traced T)) : Bytes := s.val.inner.val.inner.put ++ s.val.buf.drop s.val.pos

omit [RawIO T] in
theorem BufR.Keeps.congr {s s' : BufR (Traced T)} {v v' : StreamView} (h : s.Keeps v)
    (hf : (s'.cap, s'.buf, s'.inner.got) = (s.cap, s.buf, s.inner.got)) (ha : v'.avail = v.avail) (ht : v'.taken = v.taken) : s'.Keeps v' := by
  simp only [Prod.mk.injEq] at hf
  exact ⟨by rw [hf.2.1, hf.2.2, ht]; exact h.got, by rw [hf.2.1, ha]; exact h.avail⟩

theorem server_step (hT : RawIO.Honest T) {f : Nat} {s : ServerStack (Traced T)} {v : StreamView} (h : s.Ok v) (o : StreamOp)
    (ho : ∀ n, o = .consume n → n ≤ v.avail.length) :
    ServerStack.Ok (o.run f s).2 (v.step o (o.run f s).1) ∧
    ((∀ b, o = .write b → b.length ≤ 4096) → ¬ (o.run f s).1.WriteFailed → s.all = v.written →
      ServerStack.all (o.run f s).2 = (v.step o (o.run f s).1).written) := by
  have hl := logs_reader hT
  cases o with
  | fillBuf =>
    obtain ⟨h1, h2⟩ := keeps_fillBuf h.keeps
    refine ⟨⟨h1, h.pos, h.cap, h.grow⟩, fun _ _ ha => ?_⟩
    have e : (v.step .fillBuf (.bytes s.val.inner.val.fillBuf.1)).written = v.written := by
      unfold StreamView.step
      split <;> first | rfl | simp_all
    exact (congrArg (· ++ s.val.buf.drop s.val.pos) h2).trans (ha.trans e.symm)
  | consume n => exact ⟨⟨keeps_consume h.keeps (ho n rfl) _, h.pos, h.cap, h.grow⟩, fun _ _ ha => ha⟩
  | read n =>
    obtain ⟨h1, h2⟩ := keeps_read h.keeps n
    refine ⟨⟨h1, h.pos, h.cap, h.grow⟩, fun _ _ ha => ?_⟩
    have e : (v.step (.read n) (.bytes (s.val.inner.val.read n).1)).written = v.written := by
      unfold StreamView.step
      split <;> first | rfl | simp_all
    exact (congrArg (· ++ s.val.buf.drop s.val.pos) h2).trans (ha.trans e.symm)
  | write b =>
    cases hw : s.val.write f b with
    | none =>
      have e : StreamOp.run f s (.write b) = (.never, s) := by simp only [StreamOp.run, Wr.write, hw, Option.map_none]
      rw [e]
      exact ⟨h, fun _ hn => absurd trivial hn⟩
    | some y =>
      obtain ⟨x, w'⟩ := y
      have e : StreamOp.run f s (.write b) = (.count x, ⟨w'⟩) := by simp only [StreamOp.run, Wr.write, hw, Option.map_some]
      rw [e]
      obtain ⟨d, hn⟩ := hl.nb_write hw
      refine ⟨⟨h.keeps.congr d.frame ?_ ?_, d.pos h.pos, Nat.le_trans h.cap (d.cap h.grow), by rw [d.grow]; exact h.grow⟩, fun hb hf ha => ?_⟩
      · cases x <;> rfl
      · cases x <;> rfl
      · cases x with
        | error e => exact absurd trivial hf
        | ok n =>
          have := d.all h.pos (Nat.le_trans (hb b rfl) h.cap) n rfl
          cases hn n rfl
          have e2 : v.written ++ b = v.written ++ b.take b.length := by rw [List.take_length]
          exact this.trans ((congrArg (· ++ b) ha).trans e2)
  | flush =>
    cases hw : s.val.flush f with
    | none =>
      have e : StreamOp.run f s .flush = (.never, s) := by simp only [StreamOp.run, Wr.flush, hw, Option.map_none]
      rw [e]
      exact ⟨h, fun _ hn => absurd trivial hn⟩
    | some y =>
      obtain ⟨x, w'⟩ := y
      have e : StreamOp.run f s .flush = (.done x, ⟨w'⟩) := by simp only [StreamOp.run, Wr.flush, hw, Option.map_some]
      rw [e]
      have d := hl.nb_flush hw
      refine ⟨⟨h.keeps.congr d.frame rfl rfl, d.pos h.pos, Nat.le_trans h.cap (d.cap h.grow), by rw [d.grow]; exact h.grow⟩, fun hb hf ha => ?_⟩
      cases x with
      | error e => exact absurd trivial hf
      | ok n =>
        have := d.all h.pos trivial n rfl
        rw [List.append_nil] at this
        exact this.trans ha

theorem server_steps (hT : RawIO.Honest T) {f : Nat} (os : List StreamOp) {s : ServerStack (Traced T)} {v : StreamView} (h : s.Ok v)
    (hp : v.Proper os (StreamOp.runAll f os s).1) :
    ServerStack.Ok (StreamOp.runAll f os s).2 (v.steps os (StreamOp.runAll f os s).1) ∧
    ((∀ b, .write b ∈ os → b.length ≤ 4096) → (∀ r ∈ (StreamOp.runAll f os s).1, ¬ r.WriteFailed) → s.all = v.written →
      ServerStack.all (StreamOp.runAll f os s).2 = (v.steps os (StreamOp.runAll f os s).1).written) := by
  induction os generalizing s v with
  | nil => exact ⟨h, fun _ _ ha => ha⟩
  | cons o os ih =>
    simp only [StreamOp.runAll] at hp ⊢
    obtain ⟨h1, h2⟩ := server_step hT (f := f) h o hp.1
    obtain ⟨i1, i2⟩ := ih h1 hp.2
    exact ⟨i1, fun hb hr ha => i2 (fun b hb' => hb b (by simp [hb'])) (fun r hr' => hr r (by simp [hr']))
      (h2 (fun b hb' => hb b (by simp [hb'])) (hr _ (by simp)) ha)⟩

/-- C58: whatever the raw stream does (it may be a TLS stream, whose reads also write), and whatever fails: what is taken out of a buffered stream of the
server is, in order and without loss or repetition, what the raw stream's reads delivered. -/
theorem C58_server_reads (hT : RawIO.Honest T) {f : Nat} {grow : Nat → Nat → Nat} (hg : ∀ c n, c ≤ grow c n) (t : T) (os : List StreamOp) {rs : List StreamRes}
    {s : ServerStack (Traced T)} (h : StreamOp.runAll f os (ServerStack.new grow ⟨t, [], []⟩) = (rs, s)) (hp : StreamView.Proper ⟨[], [], []⟩ os rs) :
    (StreamView.steps ⟨[], [], []⟩ os rs).taken <+: s.val.inner.val.inner.got := by
  have h0 : (ServerStack.new (T := Traced T) grow ⟨t, [], []⟩).Ok ⟨[], [], []⟩ := ⟨⟨rfl, List.prefix_refl _⟩, Nat.le_refl _, Nat.le_refl _, hg⟩
  obtain ⟨h1, h2⟩ := server_steps hT (f := f) os h0 (by rw [h]; exact hp)
  rw [h] at h1
  rw [h1.keeps.got]
  exact List.prefix_append _ _

/-- C58 (partial: pieces of at most 4096 bytes, and as long as no write or flush fails; see C31 for larger pieces): whatever the raw
stream does, what its writes took is, in order and without loss or repetition, a beginning of what was written to the buffered stream, and
the rest is in the buffer. -/
theorem C58_server_writes_partial (hT : RawIO.Honest T) {f : Nat} {grow : Nat → Nat → Nat} (hg : ∀ c n, c ≤ grow c n) (t : T) (os : List StreamOp)
    {rs : List StreamRes} {s : ServerStack (Traced T)} (h : StreamOp.runAll f os (ServerStack.new grow ⟨t, [], []⟩) = (rs, s))
    (hp : StreamView.Proper ⟨[], [], []⟩ os rs) (hb : ∀ b, .write b ∈ os → b.length ≤ 4096) (hr : ∀ r ∈ rs, ¬ r.WriteFailed) :
    s.val.inner.val.inner.put ++ s.val.buf.drop s.val.pos = (StreamView.steps ⟨[], [], []⟩ os rs).written := by
  have h0 : (ServerStack.new (T := Traced T) grow ⟨t, [], []⟩).Ok ⟨[], [], []⟩ := ⟨⟨rfl, List.prefix_refl _⟩, Nat.le_refl _, Nat.le_refl _, hg⟩
  obtain ⟨h1, h2⟩ := server_steps hT (f := f) os h0 (by rw [h]; exact hp)
  rw [h] at h2
  exact h2 hb hr rfl

/-- A raw stream for the examples: what is written to it is what is read from it. -/
structure Loopback where
  bytes : Bytes

instance : RawIO Loopback where
  write _ t b := some (.ok b.length, ⟨t.bytes ++ b⟩)
  flush _ t := some (.ok (), t)
  read t n := if t.bytes = [] then (.error .wouldBlock, t) else (.ok (t.bytes.take n), ⟨t.bytes.drop n⟩)

theorem loopback_honest : RawIO.Honest Loopback := by
  intro f t t' b n h
  cases h
  exact Nat.le_refl _

/-- Uses for the examples: write, flush, look, consume, read, and try to read more. -/
def someUses : List StreamOp := [.write b!"hello", .fillBuf, .flush, .fillBuf, .consume 2, .read 9, .read 9]

/-- What they return. -/
def someResults : List StreamRes :=
  [.count (.ok 5), .bytes (.error .wouldBlock), .done (.ok ()), .bytes (.ok b!"hello"), .unit, .bytes (.ok b!"llo"), .bytes (.error .wouldBlock)]

/-- The conditions can be met. -/
example : ∃ s : ServerStack (Traced Loopback), StreamOp.runAll 1 someUses (ServerStack.new (fun c n => max c n) ⟨⟨[]⟩, [], []⟩) =
      (someResults, s) ∧
    b!"hello" <+: s.val.inner.val.inner.got ∧ s.val.inner.val.inner.put ++ s.val.buf.drop s.val.pos = b!"hello" := by
  have hp : StreamView.Proper ⟨[], [], []⟩ someUses someResults := by
    simp [someUses, someResults, StreamView.Proper, StreamView.step]
  have hg : ∀ c n : Nat, c ≤ max c n := fun c n => by omega
  have h : ∃ s : ServerStack (Traced Loopback), StreamOp.runAll 1 someUses (ServerStack.new (fun c n => max c n) ⟨⟨[]⟩, [], []⟩) = (someResults, s) := ⟨_, rfl⟩
  obtain ⟨s, h⟩ := h
  exact ⟨s, h, C58_server_reads loopback_honest hg ⟨[]⟩ someUses h hp, C58_server_writes_partial loopback_honest hg ⟨[]⟩ someUses h hp
    (fun b hb => by simp [someUses] at hb; subst hb; decide) (by simp [someResults, StreamRes.WriteFailed])⟩

/-- What was accepted for writing: what the raw stream took and what is still buffered. -/
def ClientStack.all (s : ClientStack (Traced T)) : Bytes := s.val.inner.val.inner.put ++ s.val.buf

theorem client_step (hT : RawIO.Honest T) {f : Nat} {s : ClientStack (Traced T)} {v : StreamView} (h : s.val.inner.val.Keeps v) (o : StreamOp)
    (ho : ∀ n, o = .consume n → n ≤ v.avail.length) :
    BufR.Keeps (o.run f s).2.val.inner.val (v.step o (o.run f s).1) ∧
    ((o.run f s).1 ≠ .never → s.all = v.written → ClientStack.all (o.run f s).2 = (v.step o (o.run f s).1).written) := by
  have hl := logs_reader hT
  cases o with
  | fillBuf =>
    obtain ⟨h1, h2⟩ := keeps_fillBuf h
    refine ⟨h1, fun _ ha => ?_⟩
    have e : (v.step .fillBuf (.bytes s.val.inner.val.fillBuf.1)).written = v.written := by
      unfold StreamView.step
      split <;> first | rfl | simp_all
    exact (congrArg (· ++ s.val.buf) h2).trans (ha.trans e.symm)
  | consume n => exact ⟨keeps_consume h (ho n rfl) _, fun _ ha => ha⟩
  | read n =>
    obtain ⟨h1, h2⟩ := keeps_read h n
    refine ⟨h1, fun _ ha => ?_⟩
    have e : (v.step (.read n) (.bytes (s.val.inner.val.read n).1)).written = v.written := by
      unfold StreamView.step
      split <;> first | rfl | simp_all
    exact (congrArg (· ++ s.val.buf) h2).trans (ha.trans e.symm)
  | write b =>
    cases hw : s.val.write f b with
    | none =>
      have e : StreamOp.run f s (.write b) = (.never, s) := by simp only [StreamOp.run, Wr.write, hw, Option.map_none]
      rw [e]
      exact ⟨h, fun hn => absurd rfl hn⟩
    | some y =>
      obtain ⟨x, w'⟩ := y
      have e : StreamOp.run f s (.write b) = (.count x, ⟨w'⟩) := by simp only [StreamOp.run, Wr.write, hw, Option.map_some]
      rw [e]
      have d := hl.std_write hw
      refine ⟨h.congr d.frame ?_ ?_, fun _ ha => ?_⟩
      · cases x <;> rfl
      · cases x <;> rfl
      · cases x with
        | error er => exact (d.err er rfl).trans ha
        | ok n => exact (d.ok n rfl).trans (congrArg (· ++ b.take n) ha)
  | flush =>
    cases hw : s.val.flush f with
    | none =>
      have e : StreamOp.run f s .flush = (.never, s) := by simp only [StreamOp.run, Wr.flush, hw, Option.map_none]
      rw [e]
      exact ⟨h, fun hn => absurd rfl hn⟩
    | some y =>
      obtain ⟨x, w'⟩ := y
      have e : StreamOp.run f s .flush = (.done x, ⟨w'⟩) := by simp only [StreamOp.run, Wr.flush, hw, Option.map_some]
      rw [e]
      have d := hl.std_flush hw
      refine ⟨h.congr d.frame rfl rfl, fun _ ha => ?_⟩
      cases x with
      | error er => exact (d.err er rfl).trans ha
      | ok n => exact ((d.ok n rfl).trans (List.append_nil _)).trans ha

/-- C58: whatever the raw stream does, and whatever fails: what is taken out of a buffered stream of the client is, in order and without loss or
repetition, what the raw stream's reads delivered; and what the raw stream's writes took is, in order and without loss or repetition, a beginning of
what was accepted for writing, the rest being in the buffer. -/
theorem C58_client_any (hT : RawIO.Honest T) {f : Nat} (t : T) (os : List StreamOp) {rs : List StreamRes}
    {s : ClientStack (Traced T)} (h : StreamOp.runAll f os (ClientStack.new ⟨t, [], []⟩) = (rs, s)) (hp : StreamView.Proper ⟨[], [], []⟩ os rs) :
    (StreamView.steps ⟨[], [], []⟩ os rs).taken <+: s.val.inner.val.inner.got ∧
    ((∀ r ∈ rs, r ≠ .never) → s.val.inner.val.inner.put ++ s.val.buf = (StreamView.steps ⟨[], [], []⟩ os rs).written) := by
  have key : ∀ (os : List StreamOp) (s : ClientStack (Traced T)) (v : StreamView), s.val.inner.val.Keeps v → v.Proper os (StreamOp.runAll f os s).1 →
      (StreamOp.runAll f os s).2.val.inner.val.Keeps (v.steps os (StreamOp.runAll f os s).1) ∧
      ((∀ r ∈ (StreamOp.runAll f os s).1, r ≠ .never) → s.all = v.written →
        ClientStack.all (StreamOp.runAll f os s).2 = (v.steps os (StreamOp.runAll f os s).1).written) := by
    intro os
    induction os with
    | nil => intro s v h _; exact ⟨h, fun _ ha => ha⟩
    | cons o os ih =>
      intro s v h hp
      simp only [StreamOp.runAll] at hp ⊢
      obtain ⟨h1, h2⟩ := client_step hT (f := f) h o hp.1
      obtain ⟨i1, i2⟩ := ih _ _ h1 hp.2
      exact ⟨i1, fun hr ha => i2 (fun r hr' => hr r (by simp [hr'])) (h2 (hr _ (by simp)) ha)⟩
  obtain ⟨h1, h2⟩ := key os (ClientStack.new ⟨t, [], []⟩) ⟨[], [], []⟩ ⟨rfl, List.prefix_refl _⟩ (by rw [h]; exact hp)
  rw [h] at h1 h2
  refine ⟨?_, fun hr => h2 hr rfl⟩
  rw [h1.got]
  exact List.prefix_append _ _

/-- The conditions can be met. -/
example : ∃ s : ClientStack (Traced Loopback), StreamOp.runAll 1 someUses (ClientStack.new ⟨⟨[]⟩, [], []⟩) =
      (someResults, s) ∧
    b!"hello" <+: s.val.inner.val.inner.got ∧ s.val.inner.val.inner.put ++ s.val.buf = b!"hello" := by
  have hp : StreamView.Proper ⟨[], [], []⟩ someUses someResults := by
    simp [someUses, someResults, StreamView.Proper, StreamView.step]
  have h : ∃ s : ClientStack (Traced Loopback), StreamOp.runAll 1 someUses (ClientStack.new ⟨⟨[]⟩, [], []⟩) = (someResults, s) := ⟨_, rfl⟩
  obtain ⟨s, h⟩ := h
  exact ⟨s, h, (C58_client_any loopback_honest ⟨[]⟩ someUses h hp).1, (C58_client_any loopback_honest ⟨[]⟩ someUses h hp).2 (by simp [someResults])⟩

end Verif
