import Verif.Proofs.Serving

/-!
Whatever happens on a connection: what has been sent is answers to requests received.
-/

namespace Verif

variable {σ : Type} {rt : Router σ} {prof : Profile} {n : Nat}

theorem inProgress_new (prof : Profile) (r : Rd) : InProgress prof r .new r := .new

/-- Calls that go on from here are calls that go on from there. -/
theorem InProgress.calls {r₀ r r' : Rd} {p : RequestParser} {o : Out RequestParser Request} (h : InProgress prof r₀ p r)
    (hc : Calls (RequestParser.parse prof) p r o r') : Calls (RequestParser.parse prof) .new r₀ o r' := by
  induction h with
  | new => exact hc
  | pause _ hp ih => exact ih (.pause hp hc)

theorem Delivers.heard {r r' : Rd} {p p' : RequestParser} {qs : List Request} (h : Delivers prof p r qs p' r') :
    ∀ {r₀ : Rd}, InProgress prof r₀ p r → ∃ r₁, Heard prof r₀ qs r₁ ∧ InProgress prof r₁ p' r' := by
  induction h with
  | nil => exact fun hi => ⟨_, .nil, hi⟩
  | @cons p p' r r₁ r' q qs h1 _ ih =>
    intro r₀ hi
    obtain ⟨r2, h2, h3⟩ := ih (inProgress_new prof r₁)
    exact ⟨r2, .cons (hi.calls (.last h1)) h2, h3⟩

theorem Heard.append {r r' r'' : Rd} {qs qs' : List Request} (h : Heard prof r qs r') (h' : Heard prof r' qs' r'') :
    Heard prof r (qs ++ qs') r'' := by
  induction h with
  | nil => exact h'
  | cons h1 _ ih => exact .cons h1 (ih h')

theorem Served.append {s s' s'' : σ} {qs qs' : List Request} {out out' : Bytes} (h : Served rt s qs out s')
    (h' : Served rt s' qs' out' s'') : Served rt s (qs ++ qs') (out ++ out') s'' := by
  induction h with
  | nil => exact h'
  | cons h1 _ ih => rw [List.append_assoc]; exact .cons h1 (ih h')

theorem orderly_wake {w : Nbw} (hw : w.Ok) {cap : Nat} {evs : List WEv} (hcap : cap ≤ w.cap) (he : Tidy n cap evs) :
    Nbw.Orderly n { w with sock := { w.sock with evs } } :=
  ⟨hw, he.1, he.2.imp id fun h => Nat.le_trans h hcap⟩

theorem sent_total (w : Nbw) : w.sock.sent <+: w.total := List.prefix_append _ _

theorem finish_ends (e : LoopEnd) (c : Conn Rd Nbw) (s : σ) :
    (finish (e, c, s)).2.1.conn = c ∧ (finish (e, c, s)).2.2 = s ∧
      ((∃ x, (finish (e, c, s)).2.1 = .live x) ↔ e = .keep) ∧ ((finish (e, c, s)).1 = .diverge ↔ e = .diverge) := by
  cases e <;> simp [finish, Slot.conn]

/-- One invocation of the handler. -/
theorem handle_trace (hrt : rt.PartsLe n) {c : Conn Rd Nbw} {s : σ} (hl : c.reader.lims = []) (hw : c.writer.Orderly n) :
    (∃ e w, c.writer.Faulty e ∧ c.writer.Later w ∧ w.sock.sent <+: c.writer.total ∧
        handle prof rt (.live c) s = (.done, .gone { c with writer := w }, s)) ∨
      ∃ e c' s' qs out s₁ p₁ r₁, handle prof rt (.live c) s = finish (e, c', s') ∧ c.writer.Later c'.writer ∧
        Delivers prof (c.parser.getD .new) c.reader qs p₁ r₁ ∧ (∀ q ∈ qs, ¬ CloseAsked q) ∧ Served rt s qs out s₁ ∧
        LoopEnds prof rt n c.writer (c.writer.total ++ out) p₁ r₁ s₁ e c' s' := by
  rw [handle_live]
  have h1 : c.writer.Wrote n [] (Write.res c.writer.flush) := flush_orderly hw
  cases hf : c.writer.flush with
  | mk x w =>
  rw [hf] at h1
  obtain ⟨h2, h3⟩ := h1
  cases x with
  | error e =>
    left
    rcases h3 with ⟨h, -⟩ | ⟨e', h, h4, h5⟩
    · cases h
    · exact ⟨e', w, h4, h2, by simpa [Write.res] using h5, rfl⟩
  | ok u =>
    right
    rcases h3 with ⟨-, h4, h5⟩ | ⟨e', h, -⟩
    · simp only [Write.res, List.append_nil] at h4 h5 h2
      simp only [respondToRequests]
      cases hr : respondLoop prof rt (Reader.fuel c.reader) ⟨c.reader, w, c.parser⟩ s with
      | mk e y =>
      obtain ⟨c', s'⟩ := y
      obtain ⟨i1, qs, out, s₁, p₁, r₁, i2, i3, i4, i5⟩ := respondLoop_trace hrt (c := ⟨c.reader, w, c.parser⟩) hl (by
        simp only [Reader.fuel]
        split <;> omega) h4 hr
      refine ⟨e, c', s', qs, out, s₁, p₁, r₁, rfl, h2.trans i1, i2, i3, i4, ?_⟩
      simp only [h5] at i5
      exact i5.mono h2
    · cases h

/-- The state of a connection, for what has been received since `r₀` and sent after `w₀`. -/
theorem handle_sound (hrt : rt.PartsLe n) {c : Conn Rd Nbw} {s : σ} (hl : c.reader.lims = []) (hw : c.writer.Orderly n)
    {r₀ : Rd} (hi : InProgress prof r₀ (c.parser.getD .new) c.reader) :
    (handle prof rt (.live c) s).1 ≠ .diverge ∧ ∃ qs out s₁ r₁ tail, Heard prof r₀ qs r₁ ∧ Served rt s qs out s₁ ∧
      (tail = [] ∨ tail = badRequestResponse ∧ NoRequest prof r₁) ∧
      NoneAsked prof rt r₁ s₁ (handle prof rt (.live c) s).2.2 ∧
      c.writer.sock.sent <+: (handle prof rt (.live c) s).2.1.conn.writer.sock.sent ∧
      (handle prof rt (.live c) s).2.1.conn.writer.sock.sent <+: c.writer.total ++ out ++ tail ∧
      ∀ c', (handle prof rt (.live c) s).2.1 = .live c' → tail = [] ∧ (handle prof rt (.live c) s).2.2 = s₁ ∧
        c'.reader.lims = [] ∧ c'.writer.Orderly n ∧ c.writer.Later c'.writer ∧ c'.writer.total = c.writer.total ++ out ∧
        (∀ q ∈ qs, ¬ CloseAsked q) ∧ InProgress prof r₁ (c'.parser.getD .new) c'.reader := by
  rcases handle_trace (prof := prof) hrt (s := s) hl hw with ⟨e, w, h1, h2, h3, h4⟩ | ⟨e, c', s', qs, out, s₁, p₁, r₁, h1, h2, h3, h4, h5, h6⟩
  · rw [h4]
    exact ⟨by simp, [], [], s, r₀, [], .nil, .nil, .inl rfl, .inl rfl, h2.sent, by simpa [Slot.conn] using h3, by simp⟩
  · obtain ⟨f1, f2, f3, f4⟩ := finish_ends e c' s'
    rw [h1, f1, f2]
    obtain ⟨r₂, g1, g2⟩ := h3.heard hi
    have hl₁ := h3.lims hl
    have hnot : e ≠ .keep → ∀ c'', (finish (e, c', s')).2.1 ≠ .live c'' := fun he c'' hc => he (f3.1 ⟨c'', hc⟩)
    cases h6 with
    | @keep _ p' e1 e2 e3 e4 =>
      refine ⟨by simp [finish], qs, out, s', r₂, [], g1, h5, .inl rfl, .inl rfl, h2.sent, ?_, ?_⟩
      · rw [List.append_nil, ← e4]; exact sent_total _
      · intro c'' hc
        simp only [finish, Slot.live.injEq] at hc
        subst hc
        have := parse_lims (prof := prof) (p := p₁) hl₁
        rw [e1] at this
        exact ⟨rfl, rfl, this, e3, h2, e4, h4, by rw [e2]; exact g2.pause e1⟩
    | @asked _ q a _ e1 e2 e3 e4 e5 =>
      refine ⟨by simp [finish], qs ++ [q], out ++ answerBytes a, s', c'.reader, [],
        g1.append (.cons (g2.calls (.last e1)) .nil), h5.append (by simpa using Served.cons e2 .nil), .inl rfl, .inl rfl, h2.sent, ?_,
        fun c'' hc => absurd hc (hnot (by simp) c'')⟩
      rw [List.append_nil, ← List.append_assoc, ← e5]; exact sent_total _
    | @failed _ q a _ e e1 e2 e3 e4 =>
      refine ⟨by simp [finish], qs ++ [q], out ++ answerBytes a, s', c'.reader, [],
        g1.append (.cons (g2.calls (.last e1)) .nil), h5.append (by simpa using Served.cons e2 .nil), .inl rfl, .inl rfl, h2.sent, ?_,
        fun c'' hc => absurd hc (hnot (by simp) c'')⟩
      rw [List.append_nil, ← List.append_assoc]; exact e4
    | closed e1 e2 e3 e4 e5 =>
      refine ⟨by simp [finish], qs, out, s', r₂, [], g1, h5, .inl rfl, .inl rfl, h2.sent, ?_,
        fun c'' hc => absurd hc (hnot (by simp) c'')⟩
      rw [List.append_nil, ← e5]; exact sent_total _
    | bad e1 e2 =>
      have hno : NoRequest prof r₂ := by
        rcases e1 with ⟨e, e1⟩ | ⟨p', e, e1, e3, e4⟩
        · exact ⟨_, _, g2.calls (.last e1), .inl ⟨e, rfl⟩⟩
        · exact ⟨_, _, g2.calls (.last e1), .inr ⟨p', e, rfl, e3, by rintro rfl; simp [isClosed] at e4⟩⟩
      refine ⟨by simp [finish], qs, out, s', r₂, badRequestResponse, g1, h5, .inr ⟨rfl, hno⟩, .inl rfl, h2.sent, ?_,
        fun c'' hc => absurd hc (hnot (by simp) c'')⟩
      rcases e2 with ⟨-, e3⟩ | ⟨e, -, e3⟩
      · rw [← e3]; exact sent_total _
      · exact e3
    | parserPanic e1 e2 e3 =>
      refine ⟨by simp [finish], qs, out, s', r₂, [], g1, h5, .inl rfl, .inl rfl, h2.sent, ?_,
        fun c'' hc => absurd hc (hnot (by simp) c'')⟩
      rw [List.append_nil, ← e3]; exact sent_total _
    | listenerPanic e1 e2 e3 e4 =>
      refine ⟨by simp [finish], qs, out, s₁, r₂, [], g1, h5, .inl rfl, .inr ⟨_, _, g2.calls (.last e1), e2⟩, h2.sent, ?_,
        fun c'' hc => absurd hc (hnot (by simp) c'')⟩
      rw [List.append_nil, ← e4]; exact sent_total _

/-- All invocations of the handler. -/
theorem handleAll_sound (hrt : rt.PartsLe n) {es : List (List WEv)} {c : Conn Rd Nbw} {s : σ} (hl : c.reader.lims = [])
    (hw : c.writer.Ok) {cap : Nat} (hcap : cap ≤ c.writer.cap) (hes : ∀ evs ∈ es, Tidy n cap evs)
    {r₀ : Rd} (hi : InProgress prof r₀ (c.parser.getD .new) c.reader) :
    ∃ qs out s₁ r₁ tail, Heard prof r₀ qs r₁ ∧ Served rt s qs out s₁ ∧ (tail = [] ∨ tail = badRequestResponse ∧ NoRequest prof r₁) ∧
      NoneAsked prof rt r₁ s₁ (handleAll prof rt es (.live c) s).2 ∧
      c.writer.sock.sent <+: (handleAll prof rt es (.live c) s).1.conn.writer.sock.sent ∧
      (handleAll prof rt es (.live c) s).1.conn.writer.sock.sent <+: c.writer.total ++ out ++ tail ∧
      ∀ c', (handleAll prof rt es (.live c) s).1 = .live c' → tail = [] ∧ (handleAll prof rt es (.live c) s).2 = s₁ ∧
        c'.writer.total = c.writer.total ++ out ∧ (∀ q ∈ qs, ¬ CloseAsked q) ∧
        InProgress prof r₁ (c'.parser.getD .new) c'.reader := by
  induction es generalizing c s r₀ with
  | nil =>
    refine ⟨[], [], s, r₀, [], .nil, .nil, .inl rfl, .inl rfl, List.prefix_refl _, by simpa [handleAll, Slot.conn] using sent_total c.writer, ?_⟩
    intro c' hc
    simp only [handleAll, Slot.live.injEq] at hc
    subst hc
    exact ⟨rfl, rfl, by simp, by simp, hi⟩
  | cons evs es ih =>
    have hw' := orderly_wake hw hcap (hes evs (by simp))
    obtain ⟨-, qs, out, s₁, r₁, tail, h1, h2, h3, h0, h4, h5, h6⟩ := handle_sound (prof := prof) hrt (s := s)
      (c := { c with writer := { c.writer with sock := { c.writer.sock with evs } } }) hl hw' hi
    simp only [handleAll, Slot.wake]
    cases hh : handle prof rt (.live { c with writer := { c.writer with sock := { c.writer.sock with evs } } }) s with
    | mk e y =>
    obtain ⟨slot, s'⟩ := y
    rw [hh] at h0 h4 h5 h6
    simp only at h0 h4 h5 h6 ⊢
    cases slot with
    | live c1 =>
      obtain ⟨rfl, rfl, k1, k2, k3, k4, k5, k6⟩ := h6 c1 rfl
      obtain ⟨qs', out', s₂, r₂, tail', i1, i2, i3, i0, i4, i5, i6⟩ := ih (c := c1) (s := s') k1 k2.ok
        (Nat.le_trans hcap k3.cap) (fun e he => hes e (by simp [he])) k6
      have k4' : c1.writer.total = c.writer.total ++ out := k4
      rw [k4'] at i5
      refine ⟨qs ++ qs', out ++ out', s₂, r₂, tail', h1.append i1, h2.append i2, i3, i0, h4.trans i4, by simpa using i5, ?_⟩
      intro c' hc
      obtain ⟨j1, j2, j3, j4, j5⟩ := i6 c' hc
      exact ⟨j1, j2, by rw [j3, k4', List.append_assoc], fun q hq => (List.mem_append.1 hq).elim (k5 q) (j4 q), j5⟩
    | gone c1 =>
      rw [handleAll_gone]
      exact ⟨qs, out, s₁, r₁, tail, h1, h2, h3, h0, h4, h5, by simp⟩
    | poisoned c1 =>
      rw [handleAll_poisoned]
      exact ⟨qs, out, s₁, r₁, tail, h1, h2, h3, h0, h4, h5, by simp⟩

end Verif
