import Verif.Proofs.ClientWriter
import Verif.Spec.EndToEnd

/-!
The buffered writer of the client over a stream that takes what it is given.
-/

namespace Verif

/-- The stream of this writer will have taken `N` bytes before it takes no more. -/
structure BufW.Keen (N : Nat) (w : BufW) : Prop where
  events : ∀ ev ∈ w.sock.evs, ev = .err .interrupted ∨ ∃ n, 0 < n ∧ ev = .accept n
  flushes : ∀ x ∈ w.sock.flushes, x = none
  enough : N ≤ takers w.sock.evs + w.sock.sent.length

theorem flushLoop_keen {N : Nat} {fl : List (Option IoError)} {cap : Nat} (evs : List WEv) (sent b : Bytes)
    (h : (⟨b, cap, ⟨evs, fl, sent⟩⟩ : BufW).Keen N) (hn : sent.length + b.length ≤ N) :
    (BufW.flushLoop fl cap evs sent b).1 = .ok () ∧ (BufW.flushLoop fl cap evs sent b).2.Keen N := by
  induction evs generalizing sent b with
  | nil =>
    cases b with
    | nil => exact ⟨rfl, by simpa [BufW.flushLoop] using h⟩
    | cons c t => have := h.enough; simp only [takers, List.length_cons] at this hn; omega
  | cons x es ih =>
    cases b with
    | nil => exact ⟨rfl, by simpa [BufW.flushLoop] using h⟩
    | cons c t =>
      obtain ⟨h1, h2, h3⟩ := h
      dsimp only at h1 h2 h3
      have h4 := h1 x (by simp)
      cases x with
      | err e =>
        rcases h4 with h4 | ⟨n, -, h4⟩
        · simp only [WEv.err.injEq] at h4
          subst h4
          simp only [BufW.flushLoop, if_true]
          exact ih sent (c :: t) ⟨fun ev he => h1 ev (by simp [he]), h2, by simpa [takers] using h3⟩ hn
        · cases h4
      | accept n =>
        rcases h4 with h4 | ⟨n', hn', h4⟩
        · cases h4
        · simp only [WEv.accept.injEq] at h4
          subst h4
          simp only [BufW.flushLoop, if_neg (show ¬ n = 0 by omega)]
          refine ih _ _ ⟨fun ev he => h1 ev (by simp [he]), h2, ?_⟩ ?_
          · simp only [takers, List.length_append, List.length_take, List.length_cons] at h3 ⊢
            omega
          · rw [← List.length_append, List.append_assoc, List.take_append_drop, List.length_append]
            exact hn

theorem bufw_flushBuf_keen {N : Nat} {w : BufW} (h : w.Keen N) (hn : w.total.length ≤ N) :
    w.flushBuf.1 = .ok () ∧ w.flushBuf.2.Keen N ∧ w.flushBuf.2.total = w.total ∧ w.flushBuf.2.buf = [] ∧ w.flushBuf.2.cap = w.cap := by
  have h1 := flushLoop_keen (fl := w.sock.flushes) (cap := w.cap) w.sock.evs w.sock.sent w.buf h (by simpa [BufW.total] using hn)
  obtain ⟨f1, f2, -, f4, -⟩ := flushLoop_spec w.sock.flushes w.cap w.sock.evs w.sock.sent w.buf
  exact ⟨h1.1, h1.2, f1, f4 h1.1, f2⟩

theorem bufw_write_keen {N : Nat} {w : BufW} (h : w.Keen N) {d : Bytes} (hd : d ≠ []) (hn : w.total.length + d.length ≤ N) :
    (w.write d).2.Keen N ∧ ((∃ n, (w.write d).1 = .ok (n + 1)) ∨ (w.write d).1 = .error .interrupted) := by
  have hdl : d.length = (d.length - 1) + 1 := by have := List.length_pos_iff.2 hd; omega
  unfold BufW.write
  by_cases h1 : w.buf.length + d.length < w.cap
  · rw [if_pos h1]
    exact ⟨⟨h.events, h.flushes, h.enough⟩, .inl ⟨_, congrArg _ hdl⟩⟩
  · rw [if_neg h1]
    have key : ∀ x : Except IoError Unit × BufW, x.1 = .ok () → x.2.Keen N → x.2.total = w.total → x.2.cap = w.cap →
        (w.cap ≤ d.length → x.2.buf = []) →
        ∀ y : Except IoError Nat × BufW, y = (match x with
          | (.error e, w) => (.error e, w)
          | (.ok (), w) =>
            if d.length ≥ w.cap then
              let (r, sock) := w.sock.write d
              (r, { w with sock })
            else (.ok d.length, { w with buf := w.buf ++ d })) →
        y.2.Keen N ∧ ((∃ n, y.1 = .ok (n + 1)) ∨ y.1 = .error .interrupted) := by
      rintro ⟨r, w1⟩ a1 a2 a3 a4 a5 y hy
      dsimp only at a1 a2 a3 a4 a5
      subst a1
      dsimp only at hy
      by_cases h2 : d.length ≥ w1.cap
      · rw [if_pos h2] at hy
        have hb := a5 (by omega)
        obtain ⟨b1, b2, b3⟩ := a2
        rw [← a3] at hn
        simp only [BufW.total, hb, List.append_nil] at hn
        rcases he : w1.sock.evs with _ | ⟨n | e, es⟩
        · rw [he] at b3
          simp only [takers] at b3
          omega
        · simp only [Sock.write, he] at hy
          subst hy
          rw [he] at b1 b3
          obtain ⟨n', hn', h4⟩ : ∃ n', 0 < n' ∧ WEv.accept n = .accept n' := by
            rcases b1 (.accept n) (by simp) with h4 | h4
            · cases h4
            · exact h4
          simp only [WEv.accept.injEq] at h4
          subst h4
          refine ⟨⟨fun ev he => b1 ev (by simp only at he; simp [he]), b2, ?_⟩, .inl ⟨min n d.length - 1, ?_⟩⟩
          · simp only [takers, List.length_append, List.length_take] at b3 ⊢
            omega
          · exact congrArg Except.ok (by omega)
        · simp only [Sock.write, he] at hy
          subst hy
          rw [he] at b1 b3
          have : e = .interrupted := by
            rcases b1 (.err e) (by simp) with h4 | ⟨_, -, h4⟩
            · simpa using h4
            · cases h4
          subst this
          exact ⟨⟨fun ev he => b1 ev (by simp only at he; simp [he]), b2, by simpa [takers] using b3⟩, .inr rfl⟩
      · rw [if_neg h2] at hy
        subst hy
        exact ⟨⟨a2.events, a2.flushes, a2.enough⟩, .inl ⟨_, congrArg _ hdl⟩⟩
    by_cases h2 : w.buf.length + d.length > w.cap
    · rw [if_pos h2]
      obtain ⟨f1, f2, f3, f4, f5⟩ := bufw_flushBuf_keen h (by omega)
      exact key w.flushBuf f1 f2 f3 f5 (fun _ => f4) _ rfl
    · rw [if_neg h2]
      exact key (.ok (), w) rfl h rfl rfl (fun h => List.length_eq_zero_iff.1 (by dsimp only; omega)) _ rfl

/-- If the stream takes all that is written, writing succeeds, and the stream goes on to take things. -/
def BufW.WroteAll (N : Nat) (w : BufW) (d : Bytes) (x : IoRes × BufW) : Prop :=
  w.Keen N → w.total.length + d.length ≤ N → x.1 = .ok ∧ x.2.Keen N ∧ x.2.total = w.total ++ d

theorem BufW.WroteAll.andThen {N : Nat} {w : BufW} {d d' : Bytes} {x : IoRes × BufW} {k : BufW → IoRes × BufW}
    (h : w.WroteAll N d x) (hk : ∀ w' : BufW, w'.WroteAll N d' (k w')) : w.WroteAll N (d ++ d') (Write.andThen x k) := by
  intro h1 h2
  rw [List.length_append] at h2
  obtain ⟨r, w1⟩ := x
  obtain ⟨a1, a2, a3⟩ := h h1 (by omega)
  dsimp only at a1 a2 a3
  subst a1
  obtain ⟨b1, b2, b3⟩ := hk w1 a2 (by rw [a3, List.length_append]; omega)
  exact ⟨b1, b2, by simp only [Write.andThen]; rw [b3, a3, List.append_assoc]⟩

theorem writeAll_keen {N : Nat} (w : BufW) (b : Bytes) : w.WroteAll N b (Write.writeAll w b) := by
  have key : ∀ (f : Nat) (w : BufW) (b : Bytes), Write.rounds w + b.length < f → w.WroteAll N b (Write.writeAllLoop f w b) := by
    intro f
    induction f with
    | zero => intro w b h; omega
    | succ f ih =>
      intro w b h hk hn
      cases b with
      | nil => exact ⟨rfl, hk, by simp [Write.writeAllLoop]⟩
      | cons c t =>
        obtain ⟨a1, a2⟩ := bufw_write_keen hk (List.cons_ne_nil c t) hn
        obtain ⟨-, g2, -, g4⟩ := bufw_write w (c :: t)
        simp only [Write.writeAllLoop]
        rw [show Write.write w (c :: t) = w.write (c :: t) from rfl]
        have hrw : Write.rounds w = w.sock.evs.length := rfl
        generalize hx : w.write (c :: t) = x at a1 a2 g2 g4
        obtain ⟨r, w'⟩ := x
        have hrw' : Write.rounds w' = w'.sock.evs.length := rfl
        dsimp only at a1 a2 g2 g4
        rcases a2 with ⟨n, rfl⟩ | rfl
        · rcases g4 with ⟨n', e1, e2, e3⟩ | ⟨e, e1, -⟩
          · cases e1
            obtain ⟨i1, i2, i3⟩ := ih w' ((c :: t).drop (n + 1)) (by
              simp only [List.length_drop, List.length_cons] at h ⊢
              omega) a1 (by
              rw [e3, ← List.length_append, List.append_assoc, List.take_append_drop, List.length_append]
              exact hn)
            refine ⟨i1, i2, ?_⟩
            rw [e3, List.append_assoc, List.take_append_drop] at i3
            exact i3
          · cases e1
        · rcases g4 with ⟨n', e1, -⟩ | ⟨e, e1, e2, e3⟩
          · cases e1
          · cases e1
            obtain ⟨i1, i2, i3⟩ := ih w' (c :: t) (by have := e3 rfl; omega) a1 (by rw [e2]; exact hn)
            exact ⟨i1, i2, by rw [i3, e2]⟩
  exact key _ w b (by omega)

theorem fmt_keen {N : Nat} (w : BufW) (ps : List Bytes) : w.WroteAll N ps.flatten (Write.fmt w ps) := by
  induction ps generalizing w with
  | nil => exact fun h _ => ⟨rfl, h, by simp [Write.fmt]⟩
  | cons p ps ih =>
    rw [show Write.fmt w (p :: ps) = Write.andThen (Write.writeAll w p) fun w => Write.fmt w ps by
      simp only [Write.fmt, Write.andThen]]
    simpa using (writeAll_keen w p).andThen (k := fun w => Write.fmt w ps) ih

theorem headerLines_keen {N : Nat} (w : BufW) (hs : List (Header × Bytes)) :
    w.WroteAll N (hs.flatMap fun p => p.1.asStr ++ b!": " ++ p.2 ++ b!"\r\n") (Write.headerLines w hs) := by
  induction hs generalizing w with
  | nil => exact fun h _ => ⟨rfl, h, by simp [Write.headerLines]⟩
  | cons p hs ih =>
    obtain ⟨k, v⟩ := p
    have h := (fmt_keen (N := N) w [k.asStr, b!": ", v, CRLF]).andThen (k := fun w => Write.headerLines w hs) ih
    simpa [Write.headerLines, CRLF, List.append_assoc] using h

theorem flush_keen {N : Nat} (w : BufW) : w.WroteAll N [] (Write.res (Write.flush w)) := by
  intro h hn
  obtain ⟨f1, f2, f3, f4, f5⟩ := bufw_flushBuf_keen h (by simpa using hn)
  rw [show Write.flush w = w.flush from rfl]
  unfold BufW.flush
  generalize w.flushBuf = x at f1 f2 f3 f4 f5
  obtain ⟨r, w1⟩ := x
  dsimp only at f1 f2 f3 f4 f5
  subst f1
  obtain ⟨b1, b2, b3⟩ := f2
  dsimp only
  unfold Sock.flush
  rcases he : w1.sock.flushes with _ | ⟨x, fs⟩
  · exact ⟨rfl, ⟨b1, b2, b3⟩, by simpa [Write.res, BufW.total] using f3⟩
  · have := b2 x (by rw [he]; simp)
    subst this
    refine ⟨rfl, ⟨b1, fun x hx => b2 x ?_, b3⟩, by simpa [Write.res, BufW.total] using f3⟩
    rw [he]
    simp only [Write.res] at hx
    simp [hx]

theorem writeRequest_keen {N : Nat} (w : BufW) (r : Request) : w.WroteAll N (requestBytes r) (writeRequest w r) := by
  rw [requestBytes_parts]
  unfold writeRequest
  exact (fmt_keen w _).andThen fun w => (headerLines_keen w _).andThen fun w => (writeAll_keen w _).andThen fun w =>
    (writeAll_keen w _).andThen fun w => flush_keen w

end Verif
