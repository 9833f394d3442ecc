import Verif.Spec.Closing
import Verif.Proofs.NetReturn
import Verif.Props.Serving

/-! C36: when the server closes a connection, whatever comes and whatever the socket does. -/

namespace Verif

variable {prof : Profile} {σ : Type} {rt : Router σ}

theorem wrfr_outcome (w : Nbw) (q : Request) (s : σ) : writeResponseFromRouter rt w q s =
    match rt.result q s with
    | (none, s₁) => (none, w, s₁)
    | (some a, s₁) => (some (answerOutcome w a).1, (answerOutcome w a).2, s₁) := by
  unfold writeResponseFromRouter
  cases h : rt.result q s with
  | mk a s₁ =>
  cases a with
  | none => rfl
  | some a => cases a <;> rfl

theorem answerOutcome_ends (w : Nbw) (a : ListenerResult) : (answerOutcome w a).1 ≠ .diverge := by
  cases a with
  | sendResponse r => exact writeResponse_ne_diverge w r
  | sendResponseArc r => exact writeResponse_ne_diverge w r
  | next => exact andThen_ne_diverge (writeAll_ends _ _) fun _ => res_ne_diverge _

theorem hungUp_iff {p : RequestParser} {e : IoError} : isClosed p e = true ↔ HungUp p e := by
  unfold isClosed HungUp
  cases e <;> simp

theorem respondLoop_ending {f : Nat} {c : Conn Rd Nbw} {s : σ} (hl : c.reader.lims = [])
    (hf : c.reader.src.atoms.length + (if c.parser.getD .new = .new then 0 else 1) < f) :
    ∃ qs c₁ s₁, GoesOn prof rt c s qs c₁ s₁ ∧ Ending prof rt c₁ s₁ (finish (respondLoop prof rt f c s)) := by
  induction f generalizing c s with
  | zero => omega
  | succ f ih =>
    obtain ⟨r, w, po⟩ := c
    simp only at hl hf ⊢
    rw [respondLoop]
    unfold Conn.readRequest
    simp only
    cases hq : RequestParser.parse prof (po.getD .new) r with
    | mk o r1 =>
    have hl1 := parse_lims (prof := prof) (p := po.getD .new) hl
    have hle := parse_le (prof := prof) (p := po.getD .new) (r := r)
    rw [hq] at hl1 hle
    simp only at hl1 hle
    have here : ∀ {y}, Ending prof rt ⟨r, w, po⟩ s y → ∃ qs c₁ s₁, GoesOn prof rt ⟨r, w, po⟩ s qs c₁ s₁ ∧ Ending prof rt c₁ s₁ y :=
      fun h => ⟨[], _, _, .nil, h⟩
    have bad : ∀ (hbad : (∃ e, RequestParser.parse prof (po.getD .new) r = (.perr e, r1)) ∨
        ∃ p e, RequestParser.parse prof (po.getD .new) r = (.io p e, r1) ∧ e ≠ .wouldBlock ∧ ¬ HungUp p e),
        ∃ qs c₁ s₁, GoesOn prof rt ⟨r, w, po⟩ s qs c₁ s₁ ∧ Ending prof rt c₁ s₁ (.done, .gone ⟨r1, (writeErrorResponse w).2, none⟩, s) :=
      fun hbad => by
        rcases hbad with ⟨e, h⟩ | ⟨p, e, h, h1, h2⟩
        · exact here (.refused h)
        · exact here (.failed h h1 h2)
    have hne := writeError_ne_diverge w
    generalize hE : writeErrorResponse w = x at bad hne
    obtain ⟨x, w1⟩ := x
    cases o with
    | done q =>
      simp only
      rw [wrfr_outcome]
      cases hr : rt.result q s with
      | mk a s1 =>
      cases a with
      | none => exact here (.listenerPanic hq hr)
      | some a =>
        have h1 := answerOutcome_ends w a
        cases hx : answerOutcome w a with
        | mk x w1 =>
        rw [hx] at h1
        simp only [hx]
        cases x with
        | diverge => exact absurd rfl h1
        | err e => exact here (.unwritten hq hr hx)
        | ok =>
          simp only
          by_cases hc : shouldCloseAfterResponse q = true
          · rw [if_pos hc]
            exact here (.asked hq hr hx ((closeAsked_iff q).1 hc))
          · rw [if_neg hc]
            have hfu : r1.src.atoms.length < f := by
              by_cases hp : po.getD .new = RequestParser.new
              · rw [hp] at hq
                have := request_takes hl hq
                rw [if_pos hp] at hf
                omega
              · rw [if_neg hp] at hf
                omega
            obtain ⟨qs, c₁, s₁, i1, i2⟩ := ih (c := ⟨r1, w1, none⟩) (s := s1) hl1 (by simpa using hfu)
            exact ⟨q :: qs, c₁, s₁, .cons hq hr hx (fun h => hc ((closeAsked_iff q).2 h)) i1, i2⟩
    | io p e' =>
      simp only
      by_cases he : e' = .wouldBlock
      · subst he
        simp only [if_true]
        exact here (.waits hq)
      · by_cases hc : isClosed p e' = true
        · simp only [he, hc, if_false, if_true]
          exact here (.hungUp hq (hungUp_iff.1 hc))
        · simp only [he, hc, if_false, Bool.false_eq_true]
          have := bad (.inr ⟨p, e', hq, he, fun h => hc (hungUp_iff.2 h)⟩)
          simp only [hE]
          cases x with
          | diverge => exact absurd rfl hne
          | _ => exact this
    | perr e' =>
      have := bad (.inl ⟨e', hq⟩)
      simp only [hE]
      cases x with
      | diverge => exact absurd rfl hne
      | _ => exact this
    | panic => exact here (.parserPanic hq)
    | diverge =>
      have := (requestParse_progress prof (po.getD .new) r.abs).1
      rw [requestParse_abs, hq] at this
      exact absurd rfl this

theorem not_hungUp (p : RequestParser) : ¬ HungUp p .wouldBlock := by
  simp [HungUp]

/-- How an invocation ends is determined. -/
theorem Ending.unique {c : Conn Rd Nbw} {s : σ} {y y' : HandleEnd × Slot Rd Nbw × σ} (h : Ending prof rt c s y) (h' : Ending prof rt c s y') :
    y = y' := by
  cases h <;> cases h' <;> simp_all
  case waits.hungUp => exact absurd ‹HungUp _ _› (not_hungUp _)
  case hungUp.waits =>
    rename_i h1 h2 h3
    rw [← h1.1.2] at h2
    exact not_hungUp _ h2

theorem Ending.not_kept {c c₁ : Conn Rd Nbw} {s s₁ : σ} {q : Request} {qs : List Request} {y : HandleEnd × Slot Rd Nbw × σ}
    (h : Ending prof rt c s y) (h' : GoesOn prof rt c s (q :: qs) c₁ s₁) : False := by
  cases h' with
  | cons h1 h2 h3 h4 h5 => cases h <;> simp_all

theorem GoesOn.unique {c c₁ c₂ : Conn Rd Nbw} {s s₁ s₂ : σ} {qs qs' : List Request} {y y' : HandleEnd × Slot Rd Nbw × σ}
    (h : GoesOn prof rt c s qs c₁ s₁) (e : Ending prof rt c₁ s₁ y) (h' : GoesOn prof rt c s qs' c₂ s₂) (e' : Ending prof rt c₂ s₂ y') :
    qs = qs' ∧ y = y' := by
  induction h generalizing qs' with
  | nil =>
    cases qs' with
    | nil => cases h'; exact ⟨rfl, e.unique e'⟩
    | cons q qs' => exact (e.not_kept h').elim
  | cons h1 h2 h3 h4 h5 ih =>
    cases h' with
    | nil => exact (e'.not_kept (.cons h1 h2 h3 h4 h5)).elim
    | cons k1 k2 k3 k4 k5 =>
      rw [h1] at k1
      cases k1
      rw [h2] at k2
      cases k2
      rw [h3] at k3
      cases k3
      obtain ⟨rfl, rfl⟩ := ih e k5
      exact ⟨rfl, rfl⟩

theorem handle_invocation {c : Conn Rd Nbw} (hl : c.reader.lims = []) (s : σ) (y : HandleEnd × Slot Rd Nbw × σ) :
    handle prof rt (.live c) s = y ↔ Invocation prof rt c s y := by
  unfold Invocation
  rw [handle_live]
  cases hf : c.writer.flush with
  | mk x w =>
  cases x with
  | error e =>
    simp only [Prod.mk.injEq, Except.error.injEq, reduceCtorEq, false_and, exists_false, or_false]
    constructor
    · rintro rfl; exact ⟨e, w, ⟨rfl, rfl⟩, rfl⟩
    · rintro ⟨e', w', ⟨rfl, rfl⟩, rfl⟩; rfl
  | ok u =>
    obtain ⟨qs, c₁, s₁, h1, h2⟩ := respondLoop_ending (prof := prof) (rt := rt) (c := { c with writer := w }) (s := s)
      (f := Reader.fuel c.reader) hl (by
        show _ < 3 * c.reader.src.atoms.length + 8
        dsimp only
        split <;> omega)
    simp only [Prod.mk.injEq, reduceCtorEq, false_and, exists_false, false_or, true_and]
    constructor
    · rintro rfl; exact ⟨w, qs, c₁, s₁, rfl, h1, h2⟩
    · rintro ⟨w', qs', c₂, s₂, rfl, h3, h4⟩
      exact (h1.unique h2 h3 h4).2

theorem GoesOn.lims {c c₁ : Conn Rd Nbw} {s s₁ : σ} {qs : List Request} (h : GoesOn prof rt c s qs c₁ s₁) (hl : c.reader.lims = []) :
    c₁.reader.lims = [] := by
  induction h with
  | nil => exact hl
  | cons h1 _ _ _ _ ih =>
    refine ih ?_
    have := congrArg (fun x => x.2.lims) h1
    exact this.symm.trans (parse_lims hl)

theorem handle_lims {c c' : Conn Rd Nbw} {s s' : σ} {x : HandleEnd} (hl : c.reader.lims = [])
    (h : handle prof rt (.live c) s = (x, .live c', s')) : c'.reader.lims = [] := by
  rcases (handle_invocation hl _ _).1 h with ⟨e, w, -, h1⟩ | ⟨w, qs, c₁, s₂, -, h1, h2⟩
  · cases h1
  · have h3 := h1.lims hl
    cases h2 with
    | waits h4 =>
      have h5 := parse_lims (prof := prof) (p := c₁.parser.getD .new) h3
      rw [h4] at h5
      exact h5

theorem handleAll_lims {es : List (List WEv)} {c c' : Conn Rd Nbw} {s s' : σ} (hl : c.reader.lims = [])
    (h : handleAll prof rt es (.live c) s = (.live c', s')) : c'.reader.lims = [] := by
  induction es generalizing c s with
  | nil => cases h; exact hl
  | cons evs es ih =>
    rw [handleAll] at h
    simp only [Slot.wake] at h
    generalize hw : ({ c.writer with sock := { c.writer.sock with evs } } : Nbw) = w at h
    cases hy : handle prof rt (.live { c with writer := w }) s with
    | mk x y =>
    obtain ⟨slot, s₁⟩ := y
    rw [hy] at h
    cases slot with
    | live c₁ => exact ih (handle_lims (c := { c with writer := w }) hl hy) h
    | gone c₁ => simp only [handleAll_gone] at h; cases h
    | poisoned c₁ => simp only [handleAll_poisoned] at h; cases h

/-- C36: whatever a client sends, in whatever pieces, and whatever the socket does, every invocation of the handler of a connection
goes as `Invocation` says, and only so: after the answer to a request the connection is closed exactly if the request asks for it
or the answer could not be written (now or, in part, at the beginning of the next invocation), and otherwise the next request is
read from the same connection. It is closed without an answer exactly if the client is gone. -/
theorem C36_closes {c c' : Conn Rd Nbw} (hl : c.reader.lims = []) {es : List (List WEv)} {s s' : σ}
    (h : handleAll prof rt es (.live c) s = (.live c', s')) {evs : List WEv} {c₁ : Conn Rd Nbw}
    (hc : (Slot.live c').wake evs = .live c₁) (y : HandleEnd × Slot Rd Nbw × σ) :
    handle prof rt (.live c₁) s' = y ↔ Invocation prof rt c₁ s' y := by
  have h1 := handleAll_lims hl h
  have h2 : c₁.reader.lims = [] := by
    cases hc
    exact h1
  exact handle_invocation h2 _ _

/-- Two requests come, of which the second asks for the connection to be closed, and a third one, which is not answered. -/
example : (handle ⟨true⟩ counter (.live (Conn.sample [.data (aRequest.1 ++ closeRequest.1 ++ aRequest.1)])) 5).2.2 = 7 := by
  decide +kernel

/-- Two requests come; the answer to the first cannot be written. -/
example : (handle ⟨true⟩ counter (.live { Conn.sample [.data (aRequest.1 ++ aRequest.1)] with writer := Nbw.sample [.err .other] }) 5).2.2 = 6 := by
  decide +kernel

/-- Two requests come, and all is well. -/
example : (handle ⟨true⟩ counter (.live (Conn.sample [.data (aRequest.1 ++ aRequest.1)])) 5).2.2 = 7 := by
  decide +kernel

/-- C35 is false: a request that fits, cut inside a character, and then something that is no request. The 400 response is sent
where the answer to the request should be, and the router is not asked. -/
theorem C35_cut_false (prof : Profile) : ∃ (a b bad : Bytes) (q : Request), FittingRequest (a ++ b) q ∧ ¬ CloseAsked q ∧ Refused prof bad ∧
    ∀ {σ : Type} (rt : Router σ) (n : Nat) (c : Conn Rd Nbw) (e₁ e₂ : List WEv) (s : σ), c.parser.getD .new = .new →
      c.reader.Ahead (a.map .byte ++ .err .wouldBlock :: (b ++ bad).map .byte) → Writable rt n c [e₁, e₂] →
      ∃ c', handleAll prof rt [e₁, e₂] (.live c) s = (.gone c', s) ∧
        c'.writer.total = c.writer.total ++ b!"HTTP/1.1 400 Bad Request\r\n\r\n" := by
  refine ⟨b!"GET /caf" ++ [0xC3], 0xA9 :: b!" HTTP/1.1\r\n\r\n", b!"x\r\n", ⟨b!"/caf" ++ [0xC3, 0xA9], .get, [], []⟩,
    fitting_of (prof := ⟨true⟩) (by decide +kernel), by simp [CloseAsked, HeaderMap.get], ?_, ?_⟩
  · obtain ⟨r, hr⟩ := Rd.exists_ahead (b!"x\r\n".map .byte)
    obtain ⟨r', h1, h2⟩ := requestParse_of (prof := prof) (p := .new) hr (o := .perr .badSyntax) (rest := [])
      (by rcases prof with ⟨_ | _⟩ <;> decide +kernel)
    exact ⟨r, r', _, hr, h1, h2⟩
  intro σ rt n c e₁ e₂ s hp hr hw
  obtain ⟨r1, h1, h2⟩ := requestParse_of (prof := prof) (p := .new) hr (o := .io (.firstLine []) .wouldBlock)
    (rest := (0xA9 :: b!" HTTP/1.1\r\n\r\nx\r\n").map .byte) (by rcases prof with ⟨_ | _⟩ <;> decide +kernel)
  obtain ⟨r2, h3, h4⟩ := requestParse_of (prof := prof) (p := .firstLine []) h2 (o := .perr .invalidUtf8)
    (rest := b!"\r\nx\r\n".map .byte) (by rcases prof with ⟨_ | _⟩ <;> decide +kernel)
  obtain ⟨w1, i1, i2, i3, i4⟩ := handle_wait
    (c := { c with writer := { c.writer with sock := { c.writer.sock with evs := e₁ } } }) hr.1 hw.wake hw.parts (by rw [hp]; exact h1) s
  have hw' := hw.later (c' := ⟨r1, w1, some (.firstLine [])⟩) i4 i2
  obtain ⟨w2, j1, j2, j3, j4⟩ := handle_reject
    (c := ⟨r1, { w1 with sock := { w1.sock with evs := e₂ } }, some (.firstLine [])⟩) h2.1 hw'.wake hw.parts (.inl ⟨_, h3⟩) s
  refine ⟨⟨r2, w2, none⟩, ?_, ?_⟩
  · simp only [handleAll, Slot.wake, i1, j1]
  · rw [j3]
    show w1.total ++ _ = _
    rw [i3]
    rfl

end Verif
