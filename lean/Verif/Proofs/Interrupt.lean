import Verif.Proofs.Sim
import Verif.Proofs.Calls
import Verif.Spec.Interrupt

/-!
Interrupted reads: only those within a part of known length matter.
-/

namespace Verif

open Reader

/-- The second input is the first without the interruptions. -/
def CalmRel (a b : AR) : Prop := a.lims = b.lims ∧ calmAtoms a.atoms = b.atoms

theorem calm_byte (b : UInt8) (as : List Atom) : calmAtoms (.byte b :: as) = .byte b :: calmAtoms as := rfl
theorem calm_eof (as : List Atom) : calmAtoms (.eof :: as) = .eof :: calmAtoms as := rfl
theorem calm_int (as : List Atom) : calmAtoms (.err .interrupted :: as) = calmAtoms as := rfl
theorem calm_err {e : IoError} (h : e ≠ .interrupted) (as : List Atom) : calmAtoms (.err e :: as) = .err e :: calmAtoms as := by
  simp [calmAtoms, h]

theorem scan_calm (d : UInt8) (ls : List Nat) (as : List Atom) :
    AR.scan d ls (calmAtoms as) = ((AR.scan d ls as).1, (AR.scan d ls as).2.1, (AR.scan d ls as).2.2.1, calmAtoms (AR.scan d ls as).2.2.2) := by
  induction as generalizing ls with
  | nil => simp only [calmAtoms, List.filter_nil, AR.scan]; split <;> rfl
  | cons a as ih =>
    by_cases h0 : 0 ∈ ls
    · have : ∀ bs, AR.scan d ls bs = (.err .limitReached, [], ls, bs) := by
        intro bs; cases bs <;> simp [AR.scan, h0]
      simp [this]
    · cases a with
      | byte b =>
        rw [calm_byte]
        simp only [AR.scan, h0, if_false]
        split
        · rfl
        · rw [ih]
      | eof => rw [calm_eof]; simp only [AR.scan, h0, if_false]
      | err e =>
        by_cases he : e = .interrupted
        · subst he
          rw [calm_int, ih]
          simp only [AR.scan, h0, if_false]
        · rw [calm_err he]
          simp only [AR.scan, h0, if_false]

theorem drain_calm (ls : List Nat) (as : List Atom) :
    AR.drain ls (calmAtoms as) = ((AR.drain ls as).1, (AR.drain ls as).2.1, (AR.drain ls as).2.2.1, calmAtoms (AR.drain ls as).2.2.2) := by
  induction as generalizing ls with
  | nil => simp only [calmAtoms, List.filter_nil, AR.drain]; split <;> rfl
  | cons a as ih =>
    by_cases h0 : 0 ∈ ls
    · have : ∀ bs, AR.drain ls bs = (.err .limitReached, [], ls, bs) := by
        intro bs; cases bs <;> simp [AR.drain, h0]
      simp [this]
    · cases a with
      | byte b =>
        rw [calm_byte]
        simp only [AR.drain, h0, if_false]
        rw [ih]
      | eof => rw [calm_eof]; simp only [AR.drain, h0, if_false]
      | err e =>
        by_cases he : e = .interrupted
        · subst he
          rw [calm_int, ih]
          simp only [AR.drain, h0, if_false]
        · rw [calm_err he]
          simp only [AR.drain, h0, if_false]

theorem takeN_calm (n : Nat) (ls : List Nat) (as : List Atom) : (AR.takeN n ls as).1 = .err .interrupted ∨
    AR.takeN n ls (calmAtoms as) =
      ((AR.takeN n ls as).1, (AR.takeN n ls as).2.1, (AR.takeN n ls as).2.2.1, calmAtoms (AR.takeN n ls as).2.2.2) := by
  induction n generalizing ls as with
  | zero => right; simp only [AR.takeN]
  | succ n ih =>
    by_cases h0 : 0 ∈ ls
    · right; simp only [AR.takeN, h0, if_true]
    · cases as with
      | nil => right; simp only [calmAtoms, List.filter_nil, AR.takeN, h0, if_false]
      | cons a as =>
        cases a with
        | byte b =>
          rw [calm_byte]
          rcases ih (AR.dec ls) as with h | h
          · left; simp only [AR.takeN, h0, if_false]; exact h
          · right
            simp only [AR.takeN, h0, if_false]
            rw [h]
        | eof => right; rw [calm_eof]; simp only [AR.takeN, h0, if_false]
        | err e =>
          by_cases he : e = .interrupted
          · subst he; left; simp only [AR.takeN, h0, if_false]
          · right; rw [calm_err he]; simp only [AR.takeN, h0, if_false]

theorem sim_calm : Sim CalmRel (fun _ => CalmRel) (fun e => e = .interrupted) where
  push l h := ⟨by simp [Reader.push, h.1], h.2⟩
  pop h := ⟨by simp [Reader.pop, h.1], h.2⟩
  popE h := ⟨by simp [Reader.pop, h.1], h.2⟩
  eofE h := h
  untilLf {a b} h := by
    obtain ⟨ls, as⟩ := a
    obtain ⟨ls', bs⟩ := b
    obtain ⟨h1, h2⟩ := h
    simp only at h1 h2
    subst h1 h2
    simp only [readUntilLf]
    rw [scan_calm]
    refine .inr ⟨rfl, rfl, ?_⟩
    dsimp only
    cases (AR.scan LF ls as).1 with
    | diverge => trivial
    | _ => exact ⟨rfl, rfl⟩
  into {a b} n d h := by
    obtain ⟨ls, as⟩ := a
    obtain ⟨ls', bs⟩ := b
    obtain ⟨h1, h2⟩ := h
    simp only at h1 h2
    subst h1 h2
    simp only [readInto]
    rcases takeN_calm (n - d.length) ls as with h | h
    · exact .inl ⟨_, h, rfl⟩
    · rw [h]
      refine .inr ⟨rfl, rfl, ?_⟩
      dsimp only
      cases (AR.takeN (n - d.length) ls as).1 with
      | diverge => trivial
      | _ => exact ⟨rfl, rfl⟩
  toEnd {a b} d h := by
    obtain ⟨ls, as⟩ := a
    obtain ⟨ls', bs⟩ := b
    obtain ⟨h1, h2⟩ := h
    simp only at h1 h2
    subst h1 h2
    simp only [readToEnd]
    rw [drain_calm]
    refine .inr ⟨rfl, rfl, ?_⟩
    dsimp only
    cases (AR.drain ls as).1 with
    | diverge => trivial
    | _ => exact ⟨rfl, rfl⟩
  hX h := by cases h

theorem RelOut.calm {σ τ : Type} {x y : Out σ τ × AR} (h : RelOut CalmRel (fun _ => CalmRel) (fun e => e = .interrupted) x y)
    (hd : x.1 ≠ .diverge) : (∃ s, x.1 = .io s .interrupted) ∨ (x.1 = y.1 ∧ CalmRel x.2 y.2) := by
  obtain ⟨o, a⟩ := x
  obtain ⟨o', b⟩ := y
  rcases h with ⟨s, e, h, he⟩ | ⟨h, h2⟩
  · subst he; exact .inl ⟨s, h⟩
  · right
    simp only at h hd
    subst h
    refine ⟨rfl, ?_⟩
    cases o with
    | done v => exact h2
    | io s e => exact h2
    | perr e => rcases h2 with h2 | ⟨_, h2⟩ <;> exact h2
    | panic => rcases h2 with h2 | ⟨_, h2⟩ <;> exact h2
    | diverge => exact absurd rfl hd

theorem atoms_uninterrupted (r : Rd) : r.uninterrupted.src.atoms = calmAtoms r.src.atoms := by
  have : ∀ evs : List Ev, (evs.filter (· != .err .interrupted)).flatMap Ev.atoms = calmAtoms (evs.flatMap Ev.atoms) := by
    intro evs
    induction evs with
    | nil => rfl
    | cons e evs ih =>
      unfold calmAtoms at *
      rw [List.flatMap_cons, List.filter_append, ← ih]
      cases e with
      | data b =>
        rw [List.filter_cons_of_pos (by rfl), List.flatMap_cons]
        congr 1
        cases b with
        | nil => rfl
        | cons b bs =>
          show (b :: bs).map Atom.byte = List.filter _ ((b :: bs).map Atom.byte)
          symm; rw [List.filter_eq_self]; intro a ha; obtain ⟨x, -, rfl⟩ := List.mem_map.1 ha; rfl
      | err e =>
        by_cases he : e = .interrupted
        · subst he; rfl
        · rw [List.filter_cons_of_pos (by simp [he]), List.flatMap_cons]
          simp [Ev.atoms, he]
  unfold Rd.uninterrupted Src.atoms
  dsimp only
  rw [this]
  unfold calmAtoms
  rw [List.filter_append]
  congr 1
  symm; rw [List.filter_eq_self]; intro a ha; obtain ⟨x, -, rfl⟩ := List.mem_map.1 ha; rfl

/-! ### Where an interruption shows -/

theorem scan_not_interrupted (d : UInt8) (ls : List Nat) (as : List Atom) : (AR.scan d ls as).1 ≠ .err .interrupted := by
  induction as generalizing ls with
  | nil => simp only [AR.scan]; split <;> simp
  | cons a as ih =>
    simp only [AR.scan]
    split
    · simp
    · cases a with
      | byte b =>
        dsimp only
        split
        · simp
        · exact ih _
      | eof => simp
      | err e => cases e <;> first | exact ih _ | simp

theorem drain_not_interrupted (ls : List Nat) (as : List Atom) : (AR.drain ls as).1 ≠ .err .interrupted := by
  induction as generalizing ls with
  | nil => simp only [AR.drain]; split <;> simp
  | cons a as ih =>
    simp only [AR.drain]
    split
    · simp
    · cases a with
      | byte b => exact ih _
      | eof => simp
      | err e => cases e <;> first | exact ih _ | simp

theorem crlf_not_interrupted (prof : Profile) (line : Bytes) (r : AR) (s : Bytes) : (CrlfLineParser.parse prof line r).1 ≠ .io s .interrupted := by
  unfold CrlfLineParser.parse
  split
  · simp
  · next lim _ =>
    have h : ∀ s, (LineDeframer.parse line (push lim r)).1 ≠ .io s .interrupted := by
      intro s
      unfold LineDeframer.parse readLine
      have := scan_not_interrupted LF (lim :: r.lims) r.atoms
      revert this
      show (AR.scan LF (push lim r).lims (push lim r).atoms).1 ≠ _ → _
      simp only [readUntilLf]
      generalize AR.scan LF (push lim r).lims (push lim r).atoms = x
      obtain ⟨o, b, ls, as⟩ := x
      dsimp only
      intro h
      by_cases hv : utf8Valid b = true
      · simp only [hv, if_true]
        cases o with
        | ok =>
          dsimp only
          cases popChar (line ++ b) with
          | none => simp
          | some p => obtain ⟨x, y⟩ := p; dsimp only; split <;> simp
        | err e => dsimp only; intro h'; cases h'; exact h rfl
        | diverge => simp
      · simp only [hv]
        cases o with
        | ok => simp
        | err e => dsimp only; intro h'; cases h'; exact h rfl
        | diverge => simp
    revert h
    generalize LineDeframer.parse line (push lim r) = x
    obtain ⟨o, a⟩ := x
    intro h
    cases o with
    | done l => simp only [Out.ofExcept]; cases parseCrlfLine l <;> simp
    | io t e =>
      dsimp only
      split
      · simp
      · intro h'; exact h s h'
    | _ => simp

theorem hloop_not_interrupted (prof : Profile) (f : Nat) (p : HeadersParser) (r : AR) (s : HeadersParser) :
    (HeadersParser.loop prof f p r).1 ≠ .io s .interrupted := by
  induction f generalizing p r with
  | zero => simp [HeadersParser.loop]
  | succ f ih =>
    unfold HeadersParser.loop
    have := crlf_not_interrupted prof p.inner r
    revert this
    generalize CrlfLineParser.parse prof p.inner r = x
    obtain ⟨o, a⟩ := x
    intro h
    cases o with
    | done l =>
      dsimp only
      split
      · simp
      · cases parseHeader l with
        | ok x => exact ih _ _
        | error e => simp
    | io t e => dsimp only; intro h'; cases h'; exact h _ rfl
    | _ => simp

theorem chunks_interrupted (prof : Profile) (f : Nat) (p : ChunksParser) (r : AR) (s : ChunksParser)
    (h : (ChunksParser.loop prof f p r).1 = .io s .interrupted) : ∃ b d, s = ⟨b, .data d⟩ := by
  induction f generalizing p r with
  | zero => simp [ChunksParser.loop] at h
  | succ f ih =>
    obtain ⟨body, st⟩ := p
    unfold ChunksParser.loop at h
    cases st with
    | finished => simp at h
    | size line =>
      dsimp only at h
      have h1 := crlf_not_interrupted prof line r
      revert h h1
      unfold sizeState
      generalize CrlfLineParser.parse prof line r = x
      obtain ⟨o, a⟩ := x
      intro h h1
      cases o with
      | done l =>
        simp only [Out.bind] at h
        cases hc : parseChunkSize l with
        | ok n => rw [hc] at h; exact ih _ _ h
        | error e => rw [hc] at h; simp at h
      | io t e => simp only [Out.bind] at h; cases h; exact absurd rfl (h1 _)
      | _ => simp [Out.bind] at h
    | data d =>
      dsimp only at h
      revert h
      unfold dataState
      generalize BytesDeframer.parse d r = x
      obtain ⟨o, a⟩ := x
      intro h
      cases o with
      | done l => simp only [Out.bind] at h; exact ih _ _ h
      | io t e => simp only [Out.bind] at h; cases h; exact ⟨_, _, rfl⟩
      | _ => simp [Out.bind] at h
    | tailingCrlf line l =>
      dsimp only at h
      have h1 := crlf_not_interrupted prof line r
      revert h h1
      unfold tailingCrlfState
      generalize CrlfLineParser.parse prof line r = x
      obtain ⟨o, a⟩ := x
      intro h h1
      cases o with
      | done t =>
        simp only [Out.bind] at h
        by_cases ht : t ≠ []
        · rw [if_pos ht] at h; simp at h
        · rw [if_neg ht] at h
          cases l with
          | true => exact ih _ _ h
          | false => exact ih _ _ h
      | io t e => simp only [Out.bind] at h; cases h; exact absurd rfl (h1 _)
      | _ => simp [Out.bind] at h

theorem message_interrupted {T : Type} (prof : Profile) (pf : Bytes → Except ParsingError T) (b : Bool) (f : Nat) (p : MsgState T) (r : AR) (s : MsgState T)
    (h : (MessageParser.loop prof pf b f p r).1 = .io s .interrupted) : InSizedPart s := by
  induction f generalizing p r with
  | zero => simp [MessageParser.loop] at h
  | succ f ih =>
    unfold MessageParser.loop at h
    cases p with
    | finished => simp at h
    | firstLine line =>
      dsimp only at h
      have h1 := crlf_not_interrupted prof line r
      revert h h1
      unfold firstLineState
      generalize CrlfLineParser.parse prof line r = x
      obtain ⟨o, a⟩ := x
      intro h h1
      cases o with
      | done l =>
        simp only [Out.bind] at h
        cases hc : pf l with
        | ok n => rw [hc] at h; exact ih _ _ h
        | error e => rw [hc] at h; simp at h
      | io t e => simp only [Out.bind] at h; cases h; exact absurd rfl (h1 _)
      | _ => simp [Out.bind] at h
    | headers t p =>
      dsimp only at h
      have h1 : ∀ s, (HeadersParser.parse prof p r).1 ≠ .io s .interrupted := by
        intro s
        unfold HeadersParser.parse
        split
        · simp
        · exact hloop_not_interrupted _ _ _ _ _
      revert h h1
      unfold headersState
      generalize HeadersParser.parse prof p r = x
      obtain ⟨o, a⟩ := x
      intro h h1
      cases o with
      | done l =>
        simp only [Out.bind] at h
        cases hc : BodyParser.new l b with
        | ok n => rw [hc] at h; exact ih _ _ h
        | error e => rw [hc] at h; simp at h
      | io t e => simp only [Out.bind] at h; cases h; exact absurd rfl (h1 _)
      | _ => simp [Out.bind] at h
    | body t hs p =>
      dsimp only at h
      have h1 : ∀ s, (BodyParser.parse prof p r).1 = .io s .interrupted → (∃ d, s = .withSize d) ∨ ∃ b d, s = .chunked ⟨b, .data d⟩ := by
        intro s
        unfold BodyParser.parse
        split
        · simp
        · next lim _ =>
          cases p with
          | withSize p =>
            dsimp only
            generalize BytesDeframer.parse p (push lim r) = x
            obtain ⟨o, a⟩ := x
            intro h
            cases o with
            | io t e => simp only [Out.bind] at h; cases h; exact .inl ⟨_, rfl⟩
            | _ => simp [Out.bind] at h
          | untilEof d =>
            dsimp only
            unfold BytesUntilEofDeframer.parse
            have h2 := drain_not_interrupted (push lim r).lims (push lim r).atoms
            revert h2
            simp only [readToEnd]
            generalize AR.drain (push lim r).lims (push lim r).atoms = x
            obtain ⟨o, b, a⟩ := x
            intro h2 h
            cases o with
            | err e => simp only [Out.bind] at h; cases h; exact absurd rfl h2
            | _ => simp [Out.bind] at h
          | chunked p =>
            dsimp only
            have h2 := chunks_interrupted prof (fuel r) p (push lim r)
            revert h2
            generalize ChunksParser.loop prof (fuel r) p (push lim r) = x
            obtain ⟨o, a⟩ := x
            intro h2 h
            cases o with
            | io t e => simp only [Out.bind] at h; cases h; obtain ⟨b, d, rfl⟩ := h2 _ rfl; exact .inr ⟨_, _, rfl⟩
            | _ => simp [Out.bind] at h
          | empty => simp
      revert h h1
      unfold bodyState
      generalize BodyParser.parse prof p r = x
      obtain ⟨o, a⟩ := x
      intro h h1
      cases o with
      | done l => simp only [Out.bind] at h; exact ih _ _ h
      | io t e =>
        simp only [Out.bind] at h; cases h
        rcases h1 _ rfl with ⟨d, rfl⟩ | ⟨b, d, rfl⟩ <;> trivial
      | _ => simp [Out.bind] at h

end Verif
