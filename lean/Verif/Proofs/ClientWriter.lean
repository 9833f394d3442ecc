import Verif.Proofs.Writer

/-!
What the buffered writer of the client does with the bytes it is given.
-/

namespace Verif

/-- What a socket has taken and the writer holds. -/
def BufW.total (w : BufW) : Bytes := w.sock.sent ++ w.buf

theorem flushLoop_spec (fl : List (Option IoError)) (cap : Nat) (evs : List WEv) (sent b : Bytes) :
    (BufW.flushLoop fl cap evs sent b).2.total = sent ++ b ∧ (BufW.flushLoop fl cap evs sent b).2.cap = cap ∧
    (BufW.flushLoop fl cap evs sent b).2.sock.evs.length ≤ evs.length ∧
    ((BufW.flushLoop fl cap evs sent b).1 = .ok () → (BufW.flushLoop fl cap evs sent b).2.buf = []) ∧
    (BufW.flushLoop fl cap evs sent b).1 ≠ .error .interrupted ∧
    sent <+: (BufW.flushLoop fl cap evs sent b).2.sock.sent := by
  induction evs generalizing sent b with
  | nil => cases b <;> simp [BufW.flushLoop, BufW.total]
  | cons x es ih =>
    cases b with
    | nil => simp [BufW.flushLoop, BufW.total]
    | cons c t =>
      cases x with
      | err e =>
        simp only [BufW.flushLoop]
        split
        · obtain ⟨h1, h2, h3, h4, h5, h6⟩ := ih sent (c :: t)
          exact ⟨h1, h2, by simp only [List.length_cons]; omega, h4, h5, h6⟩
        · rename_i h
          refine ⟨rfl, rfl, by simp, by simp, by simpa using h, List.prefix_refl _⟩
      | accept n =>
        simp only [BufW.flushLoop]
        split
        · exact ⟨rfl, rfl, by simp, by simp, by simp, List.prefix_refl _⟩
        · obtain ⟨h1, h2, h3, h4, h5, h6⟩ := ih (sent ++ (c :: t).take n) ((c :: t).drop n)
          refine ⟨?_, h2, by simp only [List.length_cons]; omega, h4, h5, (List.prefix_append _ _).trans h6⟩
          rw [h1, List.append_assoc, List.take_append_drop]

/-- A `write` appends the bytes it reports, and nothing when it fails. -/
theorem bufw_write (w : BufW) (d : Bytes) :
    (w.write d).2.cap = w.cap ∧ (w.write d).2.sock.evs.length ≤ w.sock.evs.length ∧ w.sock.sent <+: (w.write d).2.sock.sent ∧
    ((∃ n, (w.write d).1 = .ok n ∧ n ≤ d.length ∧ (w.write d).2.total = w.total ++ d.take n) ∨
     (∃ e, (w.write d).1 = .error e ∧ (w.write d).2.total = w.total ∧
      (e = .interrupted → (w.write d).2.sock.evs.length < w.sock.evs.length))) := by
  unfold BufW.write
  by_cases h1 : w.buf.length + d.length < w.cap
  · rw [if_pos h1]
    exact ⟨rfl, Nat.le_refl _, List.prefix_refl _, .inl ⟨_, rfl, Nat.le_refl _, by simp [BufW.total]⟩⟩
  · rw [if_neg h1]
    have key : ∀ x : Except IoError Unit × BufW, x.2.cap = w.cap → x.2.sock.evs.length ≤ w.sock.evs.length →
        x.2.total = w.total → w.sock.sent <+: x.2.sock.sent → x.1 ≠ .error .interrupted →
        (x.1 = .ok () → w.cap ≤ d.length → x.2.buf = []) →
        ∀ y : Except IoError Nat × BufW, y = (match x with
          | (.error e, w) => (.error e, w)
          | (.ok (), w) =>
            if d.length ≥ w.cap then
              let (r, sock) := w.sock.write d
              (r, { w with sock })
            else (.ok d.length, { w with buf := w.buf ++ d })) →
        y.2.cap = w.cap ∧ y.2.sock.evs.length ≤ w.sock.evs.length ∧ w.sock.sent <+: y.2.sock.sent ∧
        ((∃ n, y.1 = .ok n ∧ n ≤ d.length ∧ y.2.total = w.total ++ d.take n) ∨
         (∃ e, y.1 = .error e ∧ y.2.total = w.total ∧ (e = .interrupted → y.2.sock.evs.length < w.sock.evs.length))) := by
      rintro ⟨r, w1⟩ a1 a2 a3 a4 a5 a6 y hy
      dsimp only at a1 a2 a3 a4 a5 a6
      cases r with
      | error e =>
        subst hy
        exact ⟨a1, a2, a4, .inr ⟨e, rfl, a3, fun h => absurd (by rw [h]) a5⟩⟩
      | ok u =>
        dsimp only at hy
        by_cases h2 : d.length ≥ w1.cap
        · rw [if_pos h2] at hy
          have hb := a6 rfl (by omega)
          rcases he : w1.sock.evs with _ | ⟨_ | e, es⟩
          · simp only [Sock.write, he] at hy
            subst hy
            exact ⟨a1, a2, a4, .inr ⟨_, rfl, a3, by simp⟩⟩
          · rename_i n
            simp only [Sock.write, he] at hy
            subst hy
            rw [he] at a2
            simp only [List.length_cons] at a2
            refine ⟨a1, by dsimp only; omega, a4.trans (List.prefix_append _ _), .inl ⟨_, rfl, Nat.min_le_right _ _, ?_⟩⟩
            simp only [BufW.total, hb, List.append_nil] at a3 ⊢
            rw [a3]
            congr 1
            by_cases hn : n ≤ d.length
            · rw [Nat.min_eq_left hn]
            · rw [Nat.min_eq_right (by omega), List.take_length, List.take_of_length_le (by omega)]
          · simp only [Sock.write, he] at hy
            subst hy
            rw [he] at a2
            simp only [List.length_cons] at a2
            exact ⟨a1, by dsimp only; omega, a4, .inr ⟨_, rfl, a3, fun _ => by dsimp only; omega⟩⟩
        · rw [if_neg h2] at hy
          subst hy
          exact ⟨a1, a2, a4, .inl ⟨_, rfl, Nat.le_refl _, by simp only [BufW.total] at a3 ⊢; rw [← List.append_assoc, a3, List.take_length]⟩⟩
    by_cases h2 : w.buf.length + d.length > w.cap
    · rw [if_pos h2]
      obtain ⟨f1, f2, f3, f4, f5, f6⟩ := flushLoop_spec w.sock.flushes w.cap w.sock.evs w.sock.sent w.buf
      exact key w.flushBuf f2 f3 f1 f6 f5 (fun h _ => f4 h) _ rfl
    · rw [if_neg h2]
      exact key (.ok (), w) rfl (Nat.le_refl _) rfl (List.prefix_refl _) (by simp)
        (fun _ h => List.length_eq_zero_iff.1 (by dsimp only; omega)) _ rfl

instance : LawfulWrite BufW where
  ok := fun w b n w' h => by
    have := (bufw_write w b).2.1
    rw [show w.write b = (.ok n, w') from h] at this
    exact this
  interrupted := fun w b w' h => by
    rcases (bufw_write w b).2.2.2 with ⟨n, h1, -⟩ | ⟨e, h1, -, h2⟩
    · rw [show w.write b = (.error .interrupted, w') from h] at h1; cases h1
    · rw [show w.write b = (.error .interrupted, w') from h] at h1 h2
      cases h1
      exact h2 rfl

/-- The effect of writing `d` through the buffered writer: it is appended, or an error is reported and a
beginning of it is appended. -/
def BufW.Wrote (w : BufW) (d : Bytes) (x : IoRes × BufW) : Prop :=
  w.sock.sent <+: x.2.sock.sent ∧
  ((x.1 = .ok ∧ x.2.total = w.total ++ d) ∨ (∃ e, x.1 = .err e ∧ w.total <+: x.2.total ∧ x.2.total <+: w.total ++ d))

theorem BufW.Wrote.andThen {w : BufW} {d d' : Bytes} {x : IoRes × BufW} {k : BufW → IoRes × BufW}
    (h : w.Wrote d x) (hk : ∀ w' : BufW, w'.Wrote d' (k w')) : w.Wrote (d ++ d') (Write.andThen x k) := by
  obtain ⟨r, w1⟩ := x
  obtain ⟨h0, ⟨rfl, h1⟩ | ⟨e, rfl, h1, h2⟩⟩ := h
  · obtain ⟨k0, ⟨k1, k2⟩ | ⟨e, k1, k2, k3⟩⟩ := hk w1
    · refine ⟨h0.trans k0, .inl ⟨k1, ?_⟩⟩
      simp only [Write.andThen]
      rw [k2, h1, List.append_assoc]
    · refine ⟨h0.trans k0, .inr ⟨e, k1, ?_, ?_⟩⟩
      · dsimp only at h1
        rw [h1] at k2
        exact (List.prefix_append _ _).trans k2
      · dsimp only at h1
        rw [h1, List.append_assoc] at k3
        exact k3
  · exact ⟨h0, .inr ⟨e, rfl, h1, h2.trans ⟨d', by simp⟩⟩⟩

theorem bufw_writeAllLoop (f : Nat) (w : BufW) (b : Bytes) (h : Write.rounds w + b.length < f) :
    w.Wrote b (Write.writeAllLoop f w b) := by
  induction f generalizing w b with
  | zero => omega
  | succ f ih =>
    cases b with
    | nil => exact ⟨List.prefix_refl _, .inl ⟨rfl, by simp [Write.writeAllLoop]⟩⟩
    | cons c t =>
      simp only [Write.writeAllLoop]
      have hw := bufw_write w (c :: t)
      rw [show Write.write w (c :: t) = w.write (c :: t) from rfl]
      generalize hx : w.write (c :: t) = x at hw
      obtain ⟨r, w'⟩ := x
      obtain ⟨-, h2, h3, h4⟩ := hw
      dsimp only at h2 h3 h4
      have hrw : Write.rounds w = w.sock.evs.length := rfl
      have hrw' : Write.rounds w' = w'.sock.evs.length := rfl
      rcases h4 with ⟨n, rfl, h5, h6⟩ | ⟨e, rfl, h5, h6⟩
      · cases n with
        | zero =>
          show w.Wrote (c :: t) (.err .writeZero, w')
          refine ⟨h3, .inr ⟨_, rfl, ?_, ?_⟩⟩
          · rw [h6]; exact List.prefix_append _ _
          · rw [h6]; simp
        | succ n =>
          have hi := ih w' ((c :: t).drop (n + 1)) (by
            simp only [List.length_drop, List.length_cons] at h ⊢
            omega)
          obtain ⟨i0, i1⟩ := hi
          refine ⟨h3.trans i0, ?_⟩
          rw [h6, List.append_assoc, List.take_append_drop] at i1
          rcases i1 with i1 | ⟨e, i1, i2, i3⟩
          · exact .inl i1
          · exact .inr ⟨e, i1, (List.prefix_append _ _).trans i2, i3⟩
      · have stop : w.Wrote (c :: t) (.err e, w') :=
          ⟨h3, .inr ⟨e, rfl, by rw [h5]; exact List.prefix_refl _, by rw [h5]; exact List.prefix_append _ _⟩⟩
        cases e <;> try exact stop
        dsimp only
        obtain ⟨i0, i1⟩ := ih w' (c :: t) (by have := h6 rfl; omega)
        rw [h5] at i1
        exact ⟨h3.trans i0, i1⟩

theorem bufw_writeAll (w : BufW) (b : Bytes) : w.Wrote b (Write.writeAll w b) := bufw_writeAllLoop _ w b (by omega)

theorem bufw_fmt (w : BufW) (ps : List Bytes) : w.Wrote ps.flatten (Write.fmt w ps) := by
  induction ps generalizing w with
  | nil => exact ⟨List.prefix_refl _, .inl ⟨rfl, by simp [Write.fmt]⟩⟩
  | cons p ps ih =>
    have h := (bufw_writeAll w p).andThen (k := fun w => Write.fmt w ps) ih
    rw [show Write.fmt w (p :: ps) = Write.andThen (Write.writeAll w p) fun w => Write.fmt w ps by
      simp only [Write.fmt, Write.andThen]]
    simpa using h

theorem bufw_headerLines (w : BufW) (hs : List (Header × Bytes)) :
    w.Wrote (hs.flatMap fun p => p.1.asStr ++ b!": " ++ p.2 ++ b!"\r\n") (Write.headerLines w hs) := by
  induction hs generalizing w with
  | nil => exact ⟨List.prefix_refl _, .inl ⟨rfl, by simp [Write.headerLines]⟩⟩
  | cons p hs ih =>
    obtain ⟨k, v⟩ := p
    have h := (bufw_fmt w [k.asStr, b!": ", v, CRLF]).andThen (k := fun w => Write.headerLines w hs) ih
    simpa [Write.headerLines, CRLF, List.append_assoc] using h

theorem bufw_flush (w : BufW) : w.Wrote [] (Write.res (Write.flush w)) ∧
    ((Write.res (Write.flush w)).1 = .ok → (Write.res (Write.flush w)).2.buf = []) := by
  obtain ⟨f1, f2, f3, f4, f5, f6⟩ := flushLoop_spec w.sock.flushes w.cap w.sock.evs w.sock.sent w.buf
  rw [show Write.flush w = w.flush from rfl]
  unfold BufW.flush
  rw [show BufW.flushLoop w.sock.flushes w.cap w.sock.evs w.sock.sent w.buf = w.flushBuf from rfl] at f1 f2 f3 f4 f5 f6
  rw [show w.sock.sent ++ w.buf = w.total from rfl] at f1
  generalize w.flushBuf = x at f1 f2 f3 f4 f5 f6
  obtain ⟨r, w1⟩ := x
  cases r with
  | error e =>
    dsimp only at f1 f6
    exact ⟨⟨f6, .inr ⟨e, rfl, by simp only [Write.res]; rw [f1]; exact List.prefix_refl _, by simp [Write.res, f1]⟩⟩, by simp [Write.res]⟩
  | ok u =>
    dsimp only at f1 f4 f6
    have hb := f4 rfl
    have ht : ∀ s : Sock, s.sent = w1.sock.sent → ({ w1 with sock := s } : BufW).total = w.total := by
      intro s hs; simp only [BufW.total, hs] at f1 ⊢; exact f1
    dsimp only
    unfold Sock.flush
    rcases w1.sock.flushes with _ | ⟨_ | e, fs⟩
    · exact ⟨⟨f6, .inl ⟨rfl, by simpa [Write.res] using ht _ rfl⟩⟩, fun _ => hb⟩
    · refine ⟨⟨f6, .inl ⟨rfl, ?_⟩⟩, fun _ => hb⟩
      simp only [Write.res, List.append_nil]
      exact ht _ rfl
    · refine ⟨⟨f6, .inr ⟨e, rfl, ?_, ?_⟩⟩, by simp [Write.res]⟩ <;> simp only [Write.res, List.append_nil] <;> rw [ht ⟨w1.sock.evs, fs, w1.sock.sent⟩ rfl] <;>
        exact List.prefix_refl _

theorem requestBytes_parts (r : Request) : requestBytes r =
    [r.method.text, [SP], r.uri, [SP], b!"HTTP/1.1", CRLF].flatten ++
      ((r.headers.flat.flatMap fun p => p.1.asStr ++ b!": " ++ p.2 ++ b!"\r\n") ++ (CRLF ++ (r.body ++ []))) := by
  rw [flat_lines]
  simp [requestBytes, CRLF, SP, CR, LF]

theorem bufw_writeRequest (w : BufW) (r : Request) : w.Wrote (requestBytes r) (writeRequest w r) ∧
    ((writeRequest w r).1 = .ok → (writeRequest w r).2.buf = []) := by
  rw [requestBytes_parts]
  unfold writeRequest
  refine ⟨(bufw_fmt w _).andThen fun w => (bufw_headerLines w _).andThen fun w => (bufw_writeAll w _).andThen fun w =>
    (bufw_writeAll w _).andThen fun w => (bufw_flush w).1, ?_⟩
  have key : ∀ (x : IoRes × BufW) (k : BufW → IoRes × BufW), (∀ w, (k w).1 = .ok → (k w).2.buf = []) →
      (Write.andThen x k).1 = .ok → (Write.andThen x k).2.buf = [] := by
    rintro ⟨r, w⟩ k hk h
    cases r with
    | ok => exact hk w h
    | err e => cases h
    | diverge => cases h
  exact key _ _ fun w => key _ _ fun w => key _ _ fun w => key _ _ fun w => (bufw_flush w).2

end Verif
