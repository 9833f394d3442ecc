import Verif.Proofs.Split
import Verif.Proofs.Calls

/-!
Several calls against one call: from the message loop to the parsers on streams.
-/

namespace Verif

section

variable {T τ : Type}

theorem mrun_block {prof : Profile} {pf : Bytes → Except ParsingError T} {b : Bool} {st : MsgState T} {ls : List Nat}
    {as : List Atom} (X : List Atom) (hwb : WB ∉ as) {st' : MsgState T} {r : AR}
    (h : mrun prof pf b st ⟨ls, as⟩ = (.io st' .wouldBlock, r)) :
    r.atoms = [] ∧ mrun prof pf b st ⟨ls, as ++ WB :: X⟩ = (.io st' .wouldBlock, ⟨r.lims, X⟩) := by
  have := (sim_block X).messageLoop prof pf b 5 st (a := ⟨ls, as⟩) (b := ⟨ls, as ++ WB :: X⟩) ⟨rfl, hwb, rfl⟩
  rw [show MessageParser.loop prof pf b 5 st (⟨ls, as⟩ : AR) = (.io st' .wouldBlock, r) from h] at this
  revert this
  change RelOut _ _ _ _ (mrun prof pf b st ⟨ls, as ++ WB :: X⟩) → _
  generalize mrun prof pf b st ⟨ls, as ++ WB :: X⟩ = y
  obtain ⟨o, ls', bs⟩ := y
  rintro (⟨_, _, _, h⟩ | ⟨h1, h2⟩)
  · exact h.elim
  · simp only at h1
    subst h1
    simp only [BlkE, if_true] at h2
    obtain ⟨h3, h4, h5⟩ := h2
    subst h3 h5
    exact ⟨h4, rfl⟩

/-- A call stopped by a pause stops likewise when there is nothing after the pause. -/
theorem mrun_unblock {prof : Profile} {pf : Bytes → Except ParsingError T} {b : Bool} {st st' : MsgState T}
    {ls : List Nat} {as X : List Atom} (hwb : WB ∉ as) {r : AR}
    (h : mrun prof pf b st ⟨ls, as ++ WB :: X⟩ = (.io st' .wouldBlock, r)) :
    r.atoms = X ∧ ∃ ls', mrun prof pf b st ⟨ls, as⟩ = (.io st' .wouldBlock, ⟨ls', []⟩) := by
  cases hm : mrun prof pf b st ⟨ls, as⟩ with
  | mk o r1 =>
  by_cases ho : ∃ s, o = .io s .wouldBlock
  · obtain ⟨s, rfl⟩ := ho
    obtain ⟨h1, h2⟩ := mrun_block X hwb hm
    rw [h] at h2
    simp only [Prod.mk.injEq, Out.io.injEq, and_true] at h2
    obtain ⟨rfl, rfl⟩ := h2
    exact ⟨rfl, r1.lims, by rw [← h1]⟩
  · have := mrun_append (WB :: X) hm (fun s hs => ho ⟨s, hs⟩)
    rw [h] at this
    simp only [Prod.mk.injEq] at this
    exact absurd ⟨_, this.1.symm⟩ ho

/-- A parser made of the message loop and a last step. -/
def wrap (prof : Profile) (pf : Bytes → Except ParsingError T) (b : Bool) (g : T × HeaderMap × Bytes → τ)
    (p : MsgState T) (r : AR) : Out (MsgState T) τ × AR :=
  ((mrun prof pf b p r).1.bind id fun x => .done (g x), (mrun prof pf b p r).2)

/-- A parser on streams that is such a parser on atoms. -/
def IsWrap (prof : Profile) (pf : Bytes → Except ParsingError T) (b : Bool) (g : T × HeaderMap × Bytes → τ)
    (step : MsgState T → Rd → Out (MsgState T) τ × Rd) : Prop :=
  ∀ p r, wrap prof pf b g p r.abs = ((step p r).1, (step p r).2.abs)

theorem request_isWrap (prof : Profile) : IsWrap prof parseRequestLine false
    (fun x : (Method × Bytes) × HeaderMap × Bytes => (⟨x.1.2, x.1.1, x.2.1, x.2.2⟩ : Request))
    (RequestParser.parse prof) := by
  intro p r
  exact requestParse_abs prof p r

theorem response_isWrap (prof : Profile) : IsWrap prof parseStatusLine true
    (fun x : Status × HeaderMap × Bytes => (⟨x.1, x.2.1, x.2.2⟩ : Response)) (ResponseParser.parse prof) := by
  intro p r
  exact responseParse_abs prof p r

variable {prof : Profile} {pf : Bytes → Except ParsingError T} {b : Bool} {g : T × HeaderMap × Bytes → τ}
  {step : MsgState T → Rd → Out (MsgState T) τ × Rd}

theorem IsWrap.ahead (hw : IsWrap prof pf b g step) {p : MsgState T} {r : Rd} {as : List Atom} (h : r.Ahead as) :
    wrap prof pf b g p ⟨[], as⟩ = ((step p r).1, (step p r).2.abs) := by
  rw [← h.abs]; exact hw p r

theorem IsWrap.of (hw : IsWrap prof pf b g step) {p : MsgState T} {r : Rd} {as rest : List Atom} (h : r.Ahead as)
    {o : Out (MsgState T) τ} (hp : wrap prof pf b g p ⟨[], as⟩ = (o, ⟨[], rest⟩)) :
    ∃ r', step p r = (o, r') ∧ r'.Ahead rest := by
  rw [hw.ahead h] at hp
  simp only [Prod.mk.injEq] at hp
  exact ⟨_, Prod.ext hp.1 rfl, Rd.ahead_abs hp.2⟩

theorem headersParse_lims_length (prof : Profile) (p : HeadersParser) (r : AR) :
    (HeadersParser.parse prof p r).2.lims.length = r.lims.length := by
  obtain ⟨ls, as⟩ := r
  rw [headersParse_eq]
  cases prof.sub maxHeadersSize p.read with
  | none => rfl
  | some lim => simp [hrun_lims_length]

theorem bodyParse_lims_length (prof : Profile) (p : BodyParser) (r : AR) :
    (BodyParser.parse prof p r).2.lims.length = r.lims.length := by
  obtain ⟨ls, as⟩ := r
  rw [bodyParse_eq]
  cases prof.sub maxBodySize p.readSoFar with
  | none => rfl
  | some lim =>
    cases p with
    | withSize p => simp [bytes_lims_length]
    | untilEof d => simp [drain_lims_length]
    | chunked p => simp [crun_lims_length]
    | empty => rfl

theorem msgStep_lims_length (prof : Profile) (pf : Bytes → Except ParsingError T) (b : Bool) (st : MsgState T) (r : AR) :
    (msgStep prof pf b st r).2.lims.length = r.lims.length := by
  cases st with
  | finished t hs bd => rfl
  | firstLine line => exact crlf_lims_length prof line r
  | headers t p => exact headersParse_lims_length prof p r
  | body t hs p => exact bodyParse_lims_length prof p r

theorem messageLoop_lims_length (prof : Profile) (pf : Bytes → Except ParsingError T) (b : Bool) (f : Nat)
    (st : MsgState T) (r : AR) : (MessageParser.loop prof pf b f st r).2.lims.length = r.lims.length := by
  induction f generalizing st r with
  | zero => rfl
  | succ f ih =>
    cases hf : st.isFinished with
    | true => cases st <;> simp [MsgState.isFinished] at hf; rfl
    | false =>
      rw [messageLoop_cont _ _ _ _ _ _ hf]
      exact cont_lims_length (msgStep_lims_length _ _ _ _ _) fun st' r' _ => ih st' r'

theorem mrun_lims {st : MsgState T} {as : List Atom} : (mrun prof pf b st ⟨[], as⟩).2.lims = [] := by
  have := messageLoop_lims_length prof pf b 5 st (⟨[], as⟩ : AR)
  exact List.eq_nil_of_length_eq_zero this

/-- The calls before the last. -/
theorem CleanCalls.tracks (hw : IsWrap prof pf b g step) {p : MsgState T} {r r₁ r' : Rd} {w : List Atom}
    {o : Out (MsgState T) τ} (h : CleanCalls step p r w r₁ o r') (hl : r.lims = []) {w₀ : List Atom}
    (ht : Tracks prof pf b w₀ p) :
    ∃ p₁, Tracks prof pf b (w₀ ++ w) p₁ ∧ r₁.lims = [] ∧ step p₁ r₁ = (o, r') := by
  induction h generalizing w₀ with
  | last h => exact ⟨_, by simpa using ht, hl, h⟩
  | @pause p p' r r₁ r1 r'' o pre w rest h1 h2 h3 h4 _ ih =>
    have h5 := hw.ahead (p := p) h1
    rw [h3] at h5
    simp only [wrap, Prod.mk.injEq] at h5
    obtain ⟨s, h6, rfl⟩ := Out.bind_io h5.1 (by simp)
    obtain ⟨h7, ls', h8⟩ := mrun_unblock h2 (Prod.ext h6 rfl)
    have hl1 : r1.lims = [] := by
      have := mrun_lims (prof := prof) (pf := pf) (b := b) (st := p) (as := pre ++ WB :: rest)
      rw [h5.2] at this
      exact this
    obtain ⟨p₁, e1, e2⟩ := ih hl1 (ht.pause h2 h8 (.inl h4))
    exact ⟨p₁, by simpa using e1, e2⟩

theorem Near.same {x y : Out (MsgState T) τ × AR} (h : Near x y) (hx : ∀ s e, x.1 ≠ .io s e) : x = y := by
  rcases h.2 with h1 | ⟨s, _, e, h1, _⟩
  · exact Prod.ext h1 h.1
  · exact absurd h1 (hx s e)

/-- Several clean calls against one. -/
theorem CleanCalls.one (hw : IsWrap prof pf b g step) {r r₁ r' : Rd} {w rest : List Atom}
    {o : Out (MsgState T) τ} (h : CleanCalls step (.firstLine []) r w r₁ o r') (hl : r.lims = [])
    (h₁ : r₁.Ahead rest) {s : Rd} (hs : s.Ahead (w ++ rest)) :
    (∃ p s', step (.firstLine []) s = (.io p .limitReached, s')) ∨
      ∃ o₁ s', step (.firstLine []) s = (o₁, s') ∧ s'.lims = r'.lims ∧ s'.src.atoms = r'.src.atoms ∧
        (o₁ = o ∨ ∃ p p' e, o₁ = .io p e ∧ o = .io p' e) := by
  obtain ⟨p₁, ht, -, h2⟩ := h.tracks hw hl (tracks_new prof pf b)
  have e1 := hw.ahead (p := .firstLine []) hs
  have e2 := hw.ahead (p := p₁) h₁
  rw [h2] at e2
  rw [List.nil_append] at ht
  rcases ht.last rest with ⟨q, hq⟩ | hn
  · left
    simp only [wrap, Prod.mk.injEq, hq, Out.bind] at e1
    exact ⟨_, _, Prod.ext e1.1.symm rfl⟩
  · right
    have hn := hn.bind (id : MsgState T → MsgState T) (fun x => Out.done (g x))
    change Near (wrap prof pf b g _ _) (wrap prof pf b g _ _) at hn
    rw [e1, e2] at hn
    obtain ⟨h3, h4⟩ := hn
    simp only at h3 h4
    simp only [Rd.abs, AR.mk.injEq] at h3
    exact ⟨_, _, rfl, h3.1, h3.2, h4⟩

theorem SafeCut.clean {as : List Atom} (h : SafeCut as) (st : MsgState T) : CleanStop st as := by
  have h1 : utf8Valid (afterLf (bytesOf as)) = true := by
    refine h _ ?_ ?_
    · refine ⟨((bytesOf as).reverse.dropWhile (· != LF)).reverse, ?_⟩
      rw [afterLf, ← List.reverse_append, List.takeWhile_append_dropWhile, List.reverse_reverse]
    · simp only [afterLf, List.mem_reverse]
      intro hm
      have : ∀ l : Bytes, LF ∉ l.takeWhile (· != LF) := by
        intro l
        induction l with
        | nil => simp
        | cons a l ih =>
          rw [List.takeWhile_cons]
          split
          · rename_i hne
            simp only [List.mem_cons, not_or]
            exact ⟨fun h => by simp [← h] at hne, ih⟩
          · simp
      exact this _ hm
  unfold CleanStop
  split
  · exact h1
  · exact h1
  · exact h
  · exact h
  · trivial

/-- A call that ends otherwise than for lack of input or with an I/O error ends likewise if pauses are added
before its end, none of which cuts a character that is not in a body. -/
theorem paused_calls (hw : IsWrap prof pf b g step) {ps : List (List Atom)} {X rest w : List Atom} {st : MsgState T}
    {o : Out (MsgState T) τ} (ht : Tracks prof pf b w st)
    (h : wrap prof pf b g (.firstLine []) ⟨[], w ++ (ps.flatten ++ X)⟩ = (o, ⟨[], rest⟩))
    (ho : ∀ p e, o ≠ .io p e) (hrest : rest.length < X.length)
    (hps : ∀ l a m, ps = l ++ a :: m → WB ∉ a ∧ (SafeCut a ∨ CompletesBy (fun as => mrun prof pf b (.firstLine []) ⟨[], as⟩) (w ++ (l.flatten ++ a))))
    {r : Rd} (hr : r.Ahead (spaced ps X)) : ∃ r', Calls step st r o r' ∧ r'.Ahead rest := by
  simp only [wrap, Prod.mk.injEq] at h
  obtain ⟨h1, h2⟩ := h
  have hm : ∀ p e, (mrun prof pf b (.firstLine []) ⟨[], w ++ (ps.flatten ++ X)⟩).1 ≠ .io p e := by
    intro p e he
    rw [he] at h1
    exact ho _ _ h1.symm
  induction ps generalizing w st r with
  | nil =>
    simp only [List.flatten_nil, List.nil_append] at h1 h2 hm
    rcases ht.last X with ⟨q, hq⟩ | hn
    · exact absurd hq (hm _ _)
    · have := hn.same hm
      obtain ⟨r', h3, h4⟩ := hw.of (p := st) (o := o) (rest := rest) (as := X) hr (by
        simp only [wrap, ← this, Prod.mk.injEq]; exact ⟨h1, h2⟩)
      exact ⟨r', .last h3, h4⟩
  | cons a ps ih =>
    simp only [List.flatten_cons, List.append_assoc] at h1 h2 hm
    have ha := hps [] a ps rfl
    rw [List.flatten_nil, List.nil_append] at ha
    cases hq : mrun prof pf b (.firstLine []) ⟨[], w ++ a⟩ with
    | mk o1 r1 =>
    have hwb : ∃ s, o1 = .io s .wouldBlock := by
      refine Classical.byContradiction fun hne => ?_
      have h3 := mrun_append (ps.flatten ++ X) hq (fun s hs => hne ⟨s, hs⟩)
      rw [List.append_assoc] at h3
      rw [h3] at h2
      simp only [AR.mk.injEq] at h2
      have := congrArg List.length h2.2
      simp only [List.length_append] at this
      omega
    obtain ⟨s, rfl⟩ := hwb
    rcases ht.last a with ⟨q, hq'⟩ | hn
    · rw [hq] at hq'; cases hq'
    rw [hq] at hn
    have hst : ∃ s', (mrun prof pf b st ⟨[], a⟩).1 = .io s' .wouldBlock := by
      rcases hn.2 with h3 | ⟨_, s', e, h3, h4⟩
      · exact ⟨s, h3.symm⟩
      · cases h3; exact ⟨s', h4⟩
    obtain ⟨s', hst⟩ := hst
    have hst : mrun prof pf b st ⟨[], a⟩ = (.io s' .wouldBlock, _) := Prod.ext hst rfl
    have ht' := ht.pause ha.1 hst (ha.2.imp (fun h => h.clean s') id)
    obtain ⟨-, h5⟩ := mrun_block (spaced ps X) ha.1 hst
    rw [mrun_lims] at h5
    obtain ⟨r2, h6, h7⟩ := hw.of (p := st) (o := .io s' .wouldBlock) (rest := spaced ps X)
      (as := a ++ WB :: spaced ps X) hr (by simp only [wrap, h5, Out.bind, id])
    obtain ⟨r', h8, h9⟩ := ih (w := w ++ a) (st := s') (r := r2) ht'
      (fun l x m e => by simpa using hps (a :: l) x m (by rw [e]; rfl)) h7
      (by simpa using h1) (by simpa using h2) (by simpa using hm)
    exact ⟨r', .pause h6 h8, h9⟩

theorem safeCut_ascii {as : List Atom} (h : ∀ c ∈ bytesOf as, c < 128) : SafeCut as :=
  fun _ hs _ => utf8_ascii fun c hc => h c (hs.subset hc)

end

end Verif
