import Verif.Spec.BufStream

/-! Buffered streams: the two directions do not interfere. -/

namespace Verif

/-! ### Over independent directions -/

/-- Change the writing side of the raw stream under a reader. -/
def WriteableReader.setOut (w : WriteableReader (BufR Tcp)) (o : Sock) : WriteableReader (BufR Tcp) :=
  ⟨{ w.val with inner := { w.val.inner with out := o } }⟩

theorem wr_write (f : Nat) (w : WriteableReader (BufR Tcp)) (b : Bytes) :
    Wr.write f w b = some ((w.val.inner.out.write b).1, w.setOut (w.val.inner.out.write b).2) := rfl

theorem wr_flush (f : Nat) (w : WriteableReader (BufR Tcp)) :
    Wr.flush f w = some (w.val.inner.out.flush.1, w.setOut w.val.inner.out.flush.2) := rfl

@[simp] theorem setOut_out (w : WriteableReader (BufR Tcp)) (o : Sock) : (w.setOut o).val.inner.out = o := rfl

@[simp] theorem setOut_setOut (w : WriteableReader (BufR Tcp)) (o o' : Sock) : (w.setOut o).setOut o' = w.setOut o' := rfl

theorem setOut_self (w : WriteableReader (BufR Tcp)) : w.setOut w.val.inner.out = w := rfl

theorem wub_tcp (f : Nat) : ∀ (evs : List WEv) (r : Nat) (w : WriteableReader (BufR Tcp)) (fl : List (Option IoError)) (sent b : Bytes) (pos : Nat),
    evs.length < r → w.val.inner.out = ⟨evs, fl, sent⟩ →
    writeUntilBlocked f r w b pos = some ((Sock.writeLoop fl evs sent b).1.map (· + pos), w.setOut (Sock.writeLoop fl evs sent b).2) := by
  intro evs
  induction evs with
  | nil =>
    intro r w fl sent b pos hr hw
    obtain ⟨r, rfl⟩ : ∃ r', r = r' + 1 := ⟨r - 1, by simp at hr; omega⟩
    cases b with
    | nil => simp [writeUntilBlocked, Sock.writeLoop, Except.map, ← hw, setOut_self]
    | cons c b => simp [writeUntilBlocked, Sock.writeLoop, Except.map, wr_write, hw, Sock.write]
  | cons e evs ih =>
    intro r w fl sent b pos hr hw
    obtain ⟨r, rfl⟩ : ∃ r', r = r' + 1 := ⟨r - 1, by simp at hr; omega⟩
    cases b with
    | nil => simp [writeUntilBlocked, Sock.writeLoop, Except.map, ← hw, setOut_self]
    | cons c b =>
      cases e with
      | err e =>
        simp only [writeUntilBlocked, Sock.writeLoop, wr_write, hw, Sock.write, reduceCtorEq, if_false]
        split <;> simp [Except.map]
      | accept n =>
        have hr' : evs.length < r := by simpa using hr
        have := ih r (w.setOut ⟨evs, fl, sent ++ (c :: b).take n⟩) fl (sent ++ (c :: b).take n) ((c :: b).drop n)
          (pos + min n (c :: b).length) hr' rfl
        simp only [writeUntilBlocked, Sock.writeLoop, wr_write, hw, Sock.write, reduceCtorEq, if_false]
        have hd : (c :: b).drop (min n (c :: b).length) = (c :: b).drop n := by
          rw [List.drop_eq_drop_iff]; omega
        rw [hd, this]
        generalize Sock.writeLoop fl evs (sent ++ (c :: b).take n) ((c :: b).drop n) = x
        obtain ⟨x1, x2⟩ := x
        cases x1 <;> simp [Except.map, Nat.add_assoc, Nat.add_comm, Nat.add_left_comm]

theorem wub_same {f : Nat} {w : WriteableReader (BufR Tcp)} (hf : w.val.inner.out.evs.length < f) (b : Bytes) :
    writeUntilBlocked f f w b 0 = some ((w.val.inner.out.writeUntilBlocked b).1, w.setOut (w.val.inner.out.writeUntilBlocked b).2) := by
  rw [wub_tcp f w.val.inner.out.evs f w w.val.inner.out.flushes w.val.inner.out.sent b 0 hf rfl]
  simp only [Sock.writeUntilBlocked]
  generalize Sock.writeLoop _ _ _ _ = x
  obtain ⟨x1, x2⟩ := x
  cases x1 <;> simp [Except.map]

theorem writeLoop_evs_le (fl : List (Option IoError)) : ∀ (evs : List WEv) (sent b : Bytes), (Sock.writeLoop fl evs sent b).2.evs.length ≤ evs.length := by
  intro evs
  induction evs with
  | nil => intro sent b; cases b <;> simp [Sock.writeLoop]
  | cons e evs ih =>
    intro sent b
    cases b with
    | nil => simp [Sock.writeLoop]
    | cons c b =>
      cases e with
      | err e => simp [Sock.writeLoop]
      | accept n =>
        have := ih (sent ++ (c :: b).take n) ((c :: b).drop n)
        simp only [Sock.writeLoop, List.length_cons]
        omega

theorem wub_evs (s : Sock) (b : Bytes) : (s.writeUntilBlocked b).2.evs.length ≤ s.evs.length := writeLoop_evs_le _ _ _ _

/-- The writer of a buffered stream and the writer of the rest of the model are in the same state. -/
structure NbWriter.Same (s : NbWriter (WriteableReader (BufR Tcp))) (h : Nbw) : Prop where
  wbuf : s.buf = h.buf
  pos : s.pos = h.pos
  wcap : s.cap = h.cap
  grow : s.grow = h.grow
  out : s.inner.val.inner.out = h.sock

/-- One operation on both: the results agree, the states agree, and the reading side is as before. -/
def NbWriter.Agree {α : Type} (s : NbWriter (WriteableReader (BufR Tcp))) (h : Nbw)
    (x : Option (α × NbWriter (WriteableReader (BufR Tcp)))) (y : α × Nbw) : Prop :=
  ∃ s', x = some (y.1, s') ∧ s'.Same y.2 ∧ (∃ o, s'.inner = s.inner.setOut o) ∧ y.2.sock.evs.length ≤ h.sock.evs.length

theorem nb_flushBuf {f : Nat} {s : NbWriter (WriteableReader (BufR Tcp))} {h : Nbw} (hs : s.Same h) (hf : h.sock.evs.length < f) :
    s.Agree h (s.flushBuf f) h.flushBuf := by
  obtain ⟨buf, pos, cap, grow, inner⟩ := s
  obtain ⟨buf', pos', cap', grow', growOk, sock⟩ := h
  obtain ⟨e1, e2, e3, e4, e5⟩ := hs
  dsimp only at e1 e2 e3 e4 e5 hf
  subst e1 e2 e3 e4 e5
  have hw := wub_same (f := f) (w := inner) hf (buf.drop pos)
  have he := wub_evs inner.val.inner.out (buf.drop pos)
  unfold NbWriter.flushBuf Nbw.flushBuf NbWriter.Agree
  dsimp only
  rw [hw]
  generalize inner.val.inner.out.writeUntilBlocked (buf.drop pos) = x at he
  obtain ⟨x1, x2⟩ := x
  cases x1 with
  | error e => exact ⟨_, rfl, ⟨rfl, rfl, rfl, rfl, rfl⟩, ⟨_, rfl⟩, he⟩
  | ok n =>
    simp only [Option.map_some]
    split <;> exact ⟨_, rfl, ⟨rfl, rfl, rfl, rfl, rfl⟩, ⟨_, rfl⟩, he⟩

theorem sock_flush_evs (s : Sock) : s.flush.2.evs = s.evs := by
  unfold Sock.flush
  split <;> rfl

theorem nb_flushInner {f : Nat} {s : NbWriter (WriteableReader (BufR Tcp))} {h : Nbw} (hs : s.Same h) :
    s.Agree h (s.flushInner f) h.flushInner := by
  obtain ⟨buf, pos, cap, grow, inner⟩ := s
  obtain ⟨buf', pos', cap', grow', growOk, sock⟩ := h
  obtain ⟨e1, e2, e3, e4, e5⟩ := hs
  dsimp only at e1 e2 e3 e4 e5
  subst e1 e2 e3 e4 e5
  have he := sock_flush_evs inner.val.inner.out
  unfold NbWriter.flushInner Nbw.flushInner NbWriter.Agree
  dsimp only
  rw [wr_flush]
  generalize inner.val.inner.out.flush = x at he
  obtain ⟨x1, x2⟩ := x
  have h2 : x2.evs.length ≤ inner.val.inner.out.evs.length := by dsimp only at he; rw [he]; exact Nat.le_refl _
  cases x1 with
  | ok u => exact ⟨_, rfl, ⟨rfl, rfl, rfl, rfl, rfl⟩, ⟨_, rfl⟩, h2⟩
  | error e => cases e <;> exact ⟨_, rfl, ⟨rfl, rfl, rfl, rfl, rfl⟩, ⟨_, rfl⟩, h2⟩

theorem nb_push {s : NbWriter (WriteableReader (BufR Tcp))} {h : Nbw} (hs : s.Same h) (b : Bytes) : (s.push b).Same (h.push b) := by
  unfold NbWriter.push Nbw.push
  exact ⟨by simp [hs.wbuf], hs.pos, by simp [hs.wbuf, hs.wcap, hs.grow], hs.grow, hs.out⟩

theorem nb_flush {f : Nat} {s : NbWriter (WriteableReader (BufR Tcp))} {h : Nbw} (hs : s.Same h) (hf : h.sock.evs.length < f) :
    s.Agree h (s.flush f) h.flush := by
  obtain ⟨s', h1, h2, ⟨o, h3⟩, h4⟩ := nb_flushBuf hs hf
  unfold NbWriter.flush Nbw.flush
  rw [h1]
  generalize h.flushBuf = x at h1 h2 h4
  obtain ⟨x1, x2⟩ := x
  cases x1 with
  | error e => exact ⟨s', rfl, h2, ⟨o, h3⟩, h4⟩
  | ok u =>
    obtain ⟨s'', i1, i2, ⟨o', i3⟩, i4⟩ := nb_flushInner (f := f) h2
    exact ⟨s'', i1, i2, ⟨o', by rw [i3, h3, setOut_setOut]⟩, Nat.le_trans i4 h4⟩

theorem nb_write {f : Nat} {s : NbWriter (WriteableReader (BufR Tcp))} {h : Nbw} (hs : s.Same h) (hf : h.sock.evs.length < f) (data : Bytes) :
    s.Agree h (s.write f data) (h.write data) := by
  unfold NbWriter.write Nbw.write
  rw [hs.wbuf, hs.wcap]
  split
  · obtain ⟨s', h1, h2, ⟨o, h3⟩, h4⟩ := nb_flushBuf hs hf
    rw [h1]
    generalize h.flushBuf = x at h1 h2 h4
    obtain ⟨x1, x2⟩ := x
    cases x1 with
    | error e => exact ⟨s', rfl, h2, ⟨o, h3⟩, h4⟩
    | ok u =>
      obtain ⟨buf, pos, cap, grow, inner⟩ := s'
      obtain ⟨buf', pos', cap', grow', growOk, sock⟩ := x2
      obtain ⟨e1, e2, e3, e4, e5⟩ := h2
      dsimp only at e1 e2 e3 e4 e5 h3 h4
      subst e1 e2 e3 e4 e5
      dsimp only
      split
      · have hw := wub_same (f := f) (w := inner) (Nat.lt_of_le_of_lt h4 hf) data
        have he := wub_evs inner.val.inner.out data
        rw [hw]
        generalize inner.val.inner.out.writeUntilBlocked data = y at he
        obtain ⟨y1, y2⟩ := y
        dsimp only at he
        cases y1 with
        | error e => exact ⟨_, rfl, ⟨rfl, rfl, rfl, rfl, rfl⟩, ⟨y2, by simp [h3]⟩, Nat.le_trans he h4⟩
        | ok n => exact ⟨_, rfl, nb_push ⟨rfl, rfl, rfl, rfl, rfl⟩ _, ⟨y2, by simp [h3, NbWriter.push]⟩, Nat.le_trans he h4⟩
      · exact ⟨_, rfl, nb_push ⟨rfl, rfl, rfl, rfl, rfl⟩ _, ⟨o, h3⟩, h4⟩
  · exact ⟨_, rfl, nb_push hs _, ⟨s.inner.val.inner.out, by rw [setOut_self]; rfl⟩, Nat.le_refl _⟩

/-! The same for the client. -/

/-- The writer of a buffered stream and the writer of the rest of the model are in the same state. -/
structure StdWriter.Same (s : StdWriter (WriteableReader (BufR Tcp))) (h : BufW) : Prop where
  wbuf : s.buf = h.buf
  wcap : s.cap = h.cap
  out : s.inner.val.inner.out = h.sock

/-- One operation on both: the results agree, the states agree, and the reading side is as before. -/
def StdWriter.Agree {α : Type} (s : StdWriter (WriteableReader (BufR Tcp))) (h : BufW)
    (x : Option (α × StdWriter (WriteableReader (BufR Tcp)))) (y : α × BufW) : Prop :=
  ∃ s', x = some (y.1, s') ∧ s'.Same y.2 ∧ (∃ o, s'.inner = s.inner.setOut o) ∧ y.2.sock.evs.length ≤ h.sock.evs.length

theorem std_flushLoop (f : Nat) (cap : Nat) (fl : List (Option IoError)) : ∀ (evs : List WEv) (r : Nat) (s : StdWriter (WriteableReader (BufR Tcp))) (sent b : Bytes),
    evs.length < r → s.Same ⟨b, cap, ⟨evs, fl, sent⟩⟩ →
    s.Agree ⟨b, cap, ⟨evs, fl, sent⟩⟩ (s.flushBuf f r) (BufW.flushLoop fl cap evs sent b) := by
  intro evs
  induction evs with
  | nil =>
    intro r s sent b hr hs
    obtain ⟨r, rfl⟩ : ∃ r', r = r' + 1 := ⟨r - 1, by simp at hr; omega⟩
    cases b with
    | nil => exact ⟨s, by simp [StdWriter.flushBuf, BufW.flushLoop, hs.wbuf], by simpa [BufW.flushLoop] using hs, ⟨_, (setOut_self _).symm⟩, by simp [BufW.flushLoop]⟩
    | cons c b =>
      simp only [StdWriter.flushBuf, hs.wbuf, reduceCtorEq, if_false, wr_write, hs.out, Sock.write, BufW.flushLoop]
      exact ⟨_, rfl, ⟨rfl, hs.wcap, rfl⟩, ⟨_, rfl⟩, by simp⟩
  | cons e evs ih =>
    intro r s sent b hr hs
    obtain ⟨r, rfl⟩ : ∃ r', r = r' + 1 := ⟨r - 1, by simp at hr; omega⟩
    have hr' : evs.length < r := by simpa using hr
    cases b with
    | nil => exact ⟨s, by simp [StdWriter.flushBuf, BufW.flushLoop, hs.wbuf], by simpa [BufW.flushLoop] using hs, ⟨_, (setOut_self _).symm⟩, by simp [BufW.flushLoop]⟩
    | cons c b =>
      cases e with
      | err e =>
        simp only [StdWriter.flushBuf, hs.wbuf, reduceCtorEq, if_false, wr_write, hs.out, Sock.write, BufW.flushLoop]
        split
        · obtain ⟨s', h1, h2, ⟨o, h3⟩, h4⟩ := ih r { s with inner := s.inner.setOut ⟨evs, fl, sent⟩, buf := c :: b } sent (c :: b) hr' ⟨rfl, hs.wcap, rfl⟩
          exact ⟨s', h1, h2, ⟨o, h3⟩, Nat.le_trans h4 (by simp)⟩
        · exact ⟨_, rfl, ⟨rfl, hs.wcap, rfl⟩, ⟨_, rfl⟩, by simp⟩
      | accept n =>
        simp only [StdWriter.flushBuf, hs.wbuf, reduceCtorEq, if_false, wr_write, hs.out, Sock.write, BufW.flushLoop]
        by_cases hn : n = 0
        · subst hn
          simp only [Nat.zero_min, if_true, List.take_zero, List.append_nil]
          exact ⟨_, rfl, ⟨rfl, hs.wcap, rfl⟩, ⟨_, rfl⟩, by simp⟩
        · have hm : min n (c :: b).length ≠ 0 := by simp only [List.length_cons]; omega
          have hd : (c :: b).drop (min n (c :: b).length) = (c :: b).drop n := by
            rw [List.drop_eq_drop_iff]; omega
          simp only [hn, hm, if_false, hd]
          obtain ⟨s', h1, h2, ⟨o, h3⟩, h4⟩ := ih r { s with inner := s.inner.setOut ⟨evs, fl, sent ++ (c :: b).take n⟩, buf := (c :: b).drop n }
            (sent ++ (c :: b).take n) ((c :: b).drop n) hr' ⟨rfl, hs.wcap, rfl⟩
          exact ⟨s', h1, h2, ⟨o, h3⟩, Nat.le_trans h4 (by simp)⟩

theorem std_flushBuf {f : Nat} {s : StdWriter (WriteableReader (BufR Tcp))} {h : BufW} (hs : s.Same h) (hf : h.sock.evs.length < f) :
    s.Agree h (s.flushBuf f f) h.flushBuf := std_flushLoop f h.cap h.sock.flushes h.sock.evs f s h.sock.sent h.buf hf hs

theorem std_flush {f : Nat} {s : StdWriter (WriteableReader (BufR Tcp))} {h : BufW} (hs : s.Same h) (hf : h.sock.evs.length < f) :
    s.Agree h (s.flush f) h.flush := by
  obtain ⟨s', h1, h2, ⟨o, h3⟩, h4⟩ := std_flushBuf hs hf
  unfold StdWriter.flush BufW.flush
  rw [h1]
  generalize h.flushBuf = x at h1 h2 h4
  obtain ⟨x1, x2⟩ := x
  cases x1 with
  | error e => exact ⟨s', rfl, h2, ⟨o, h3⟩, h4⟩
  | ok u =>
    simp only [wr_flush, Option.map_some, h2.out]
    exact ⟨_, rfl, ⟨h2.wbuf, h2.wcap, rfl⟩, ⟨x2.sock.flush.2, by simp [h3]⟩, by rw [sock_flush_evs]; exact h4⟩

theorem sock_write_evs (s : Sock) (b : Bytes) : (s.write b).2.evs.length ≤ s.evs.length := by
  unfold Sock.write
  split
  · simp
  · next h => simp [h]
  · next h => simp [h]

theorem std_write {f : Nat} {s : StdWriter (WriteableReader (BufR Tcp))} {h : BufW} (hs : s.Same h) (hf : h.sock.evs.length < f) (data : Bytes) :
    s.Agree h (s.write f data) (h.write data) := by
  unfold StdWriter.write BufW.write
  rw [hs.wbuf, hs.wcap]
  split
  · exact ⟨_, rfl, ⟨rfl, rfl, hs.out⟩, ⟨_, (setOut_self _).symm⟩, Nat.le_refl _⟩
  · have key : s.Agree h (if h.buf.length + data.length > h.cap then s.flushBuf f f else some (.ok (), s))
        (if h.buf.length + data.length > h.cap then h.flushBuf else (.ok (), h)) := by
      split
      · exact std_flushBuf hs hf
      · exact ⟨_, rfl, hs, ⟨_, (setOut_self _).symm⟩, Nat.le_refl _⟩
    obtain ⟨s', h1, h2, ⟨o, h3⟩, h4⟩ := key
    rw [h1]
    generalize (if h.buf.length + data.length > h.cap then h.flushBuf else (.ok (), h)) = x at h1 h2 h4
    obtain ⟨x1, x2⟩ := x
    cases x1 with
    | error e => exact ⟨s', rfl, h2, ⟨o, h3⟩, h4⟩
    | ok u =>
      dsimp only at h2 h4 ⊢
      rw [h2.wcap, h2.wbuf]
      split
      · simp only [wr_write, Option.map_some, h2.out]
        exact ⟨_, rfl, ⟨rfl, rfl, rfl⟩, ⟨(x2.sock.write data).2, by simp [h3]⟩, Nat.le_trans (sock_write_evs _ _) h4⟩
      · exact ⟨_, rfl, ⟨rfl, rfl, h2.out⟩, ⟨o, h3⟩, h4⟩

end Verif
