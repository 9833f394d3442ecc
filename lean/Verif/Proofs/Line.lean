import Verif.Proofs.Atoms
import Verif.Proofs.Utf8
import Verif.Proofs.RefineParse

/-!
The CRLF line parser, byte by byte.
-/

namespace Verif

open Reader

/-- Outcome of the line parser, given what `read_until` returned. -/
def crlfOut (line : Bytes) (o : IoRes) (bs : Bytes) : Out Bytes Bytes :=
  if utf8Valid bs then
    match o with
    | .ok =>
      match popChar (line ++ bs) with
      | some (rest, c) =>
        if c = [LF] then .ofExcept (parseCrlfLine rest) else .io rest .unexpectedEof
      | none => .io (line ++ bs) .unexpectedEof
    | .err e => if e = .invalidData then .perr .invalidUtf8 else .io (line ++ bs) e
    | .diverge => .diverge
  else
    match o with
    | .ok => .perr .invalidUtf8
    | .err e => if e = .invalidData then .perr .invalidUtf8 else .io line e
    | .diverge => .diverge

theorem crlf_eq (prof : Profile) (line : Bytes) (lim : Nat) (h : prof.sub maxLineSize line.length = some lim)
    (ls : List Nat) (as : List Atom) :
    CrlfLineParser.parse prof line (⟨ls, as⟩ : AR) =
      (crlfOut line (AR.scan LF (lim :: ls) as).1 (AR.scan LF (lim :: ls) as).2.1,
        ⟨(AR.scan LF (lim :: ls) as).2.2.1.tail, (AR.scan LF (lim :: ls) as).2.2.2⟩) := by
  simp only [CrlfLineParser.parse, h, LineDeframer.parse, readLine, readUntilLf, push, pop, crlfOut]
  generalize AR.scan LF (lim :: ls) as = q
  obtain ⟨o, bs, ls', as'⟩ := q
  by_cases hv : utf8Valid bs = true
  · simp only [hv, if_true]
    cases o with
    | ok =>
      simp only
      cases popChar (line ++ bs) with
      | none => simp
      | some p =>
        obtain ⟨rest, c⟩ := p
        simp only
        by_cases hc : c = [LF]
        · simp [hc]
        · simp [hc]
    | err e => simp
    | diverge => simp
  · simp only [hv]
    cases o <;> simp

theorem sub_le (prof : Profile) {a b : Nat} (h : b ≤ a) : prof.sub a b = some (a - b) := by
  simp [Profile.sub, h]

/-- Outcome when a whole line was found. -/
theorem crlfOut_found (line u : Bytes) :
    crlfOut line .ok (u ++ [LF]) =
      if utf8Valid u then .ofExcept (parseCrlfLine (line ++ u)) else .perr .invalidUtf8 := by
  have h : utf8Valid (u ++ [LF]) = utf8Valid u := utf8_snoc_ascii (by decide) u
  by_cases hv : utf8Valid u = true
  · simp only [crlfOut, h, hv, if_true]
    rw [← List.append_assoc, popChar_snoc_ascii (by decide)]
    simp
  · simp only [crlfOut, h, hv]
    simp

/-- Outcome when the stream ended without a line feed. -/
theorem crlfOut_eof (line u : Bytes) (hl : LF ∉ line) (hu : LF ∉ u) :
    crlfOut line .ok u = .perr .invalidUtf8 ∨
      ∃ rest, crlfOut line .ok u = .io rest .unexpectedEof ∧ ∃ c, line ++ u = rest ++ c := by
  simp only [crlfOut]
  by_cases hv : utf8Valid u = true
  · right
    simp only [hv, if_true]
    cases hp : popChar (line ++ u) with
    | none => exact ⟨_, rfl, [], by simp⟩
    | some p =>
      obtain ⟨rest, c⟩ := p
      have := popChar_append hp
      have hc : c ≠ [LF] := by
        intro hc
        have : LF ∈ line ++ u := by rw [this, hc]; simp
        simp only [List.mem_append] at this
        rcases this with h | h
        · exact hl h
        · exact hu h
      simp only [hc, if_false]
      exact ⟨rest, rfl, c, this⟩
  · left; simp [hv]

theorem parseCrlfLine_ok {s l : Bytes} (h : parseCrlfLine s = .ok l) : s = l ++ [CR] := by
  unfold parseCrlfLine at h
  split at h
  · rename_i rest c hp
    split at h
    · cases h
      rename_i hc
      rw [popChar_append hp, hc]
    · cases h
  · cases h

theorem parseCrlfLine_snoc (l : Bytes) : parseCrlfLine (l ++ [CR]) = .ok l := by
  simp [parseCrlfLine, popChar_snoc_ascii (show CR < 128 by decide)]

theorem parseCrlfLine_err {s : Bytes} {e : ParsingError} (h : parseCrlfLine s = .error e) :
    e = .badSyntax := by
  unfold parseCrlfLine at h
  split at h
  · split at h <;> cases h; rfl
  · cases h; rfl

theorem crlfOut_not_panic (line : Bytes) (o : IoRes) (bs : Bytes) : crlfOut line o bs ≠ .panic := by
  unfold crlfOut
  split
  · cases o with
    | ok =>
      simp only
      cases popChar (line ++ bs) with
      | none => simp
      | some p =>
        simp only
        split
        · cases parseCrlfLine p.1 <;> simp [Out.ofExcept]
        · simp
    | err e => simp only; split <;> simp
    | diverge => simp
  · cases o with
    | ok => simp
    | err e => simp only; split <;> simp
    | diverge => simp

/-- Everything about one call of the line parser that completes a line. -/
theorem crlf_done {prof : Profile} {line : Bytes} (hlen : line.length ≤ 512) (hl : LF ∉ line) {ls : List Nat}
    {as : List Atom} {l : Bytes} {r : AR}
    (h : CrlfLineParser.parse prof line (⟨ls, as⟩ : AR) = (.done l, r)) :
    ∃ pre, Quiet pre ∧ LF ∉ bytesOf pre ∧ utf8Valid (bytesOf pre) = true ∧
      line ++ bytesOf pre = l ++ [CR] ∧ as = pre ++ .byte LF :: r.atoms ∧
      (line ++ bytesOf pre).length + 1 ≤ 512 ∧
      r.lims = decN ((bytesOf pre).length + 1) ls ∧ ∀ x ∈ ls, (bytesOf pre).length + 1 ≤ x := by
  rw [crlf_eq prof line _ (sub_le prof (show line.length ≤ maxLineSize from hlen))] at h
  obtain ⟨pre, h1, h2, h3⟩ := scan_spec LF ((maxLineSize - line.length) :: ls) as
  revert h h1 h2 h3
  generalize AR.scan LF ((maxLineSize - line.length) :: ls) as = q
  obtain ⟨o, bs, ls', as'⟩ := q
  simp only
  intro h h1 h2 h3
  simp only [Prod.mk.injEq] at h
  obtain ⟨ho, rfl⟩ := h
  have h3' := h3 _ (by simp : maxLineSize - line.length ∈ _)
  have h4 : ∀ x ∈ ls, bs.length ≤ x := fun x hx => h3 x (List.mem_cons_of_mem _ hx)
  cases h1 with
  | found hq hd =>
    rw [crlfOut_found] at ho
    by_cases hv : utf8Valid (bytesOf pre) = true
    · simp only [hv, if_true] at ho
      cases hp : parseCrlfLine (line ++ bytesOf pre) with
      | error e => simp [hp, Out.ofExcept] at ho
      | ok l' =>
        simp only [hp, Out.ofExcept, Out.done.injEq] at ho
        subst ho
        refine ⟨pre, hq, hd, hv, parseCrlfLine_ok hp, rfl, ?_, ?_, ?_⟩
        · simp [maxLineSize] at h3' ⊢; omega
        · simp [h2]
        · intro x hx; have := h4 x hx; simpa using this
    · simp [hv] at ho
  | eof hq hd h0 =>
    rcases crlfOut_eof line (bytesOf pre) hl hd with h' | ⟨rest, h', -⟩ <;> rw [h'] at ho <;> cases ho
  | err e hq hd h0 he =>
    unfold crlfOut at ho
    split at ho <;> (simp only at ho; split at ho <;> cases ho)
  | limit hq hd h0 =>
    unfold crlfOut at ho
    split at ho <;> (simp at ho)
  | out hq hd h0 ha =>
    unfold crlfOut at ho
    split at ho <;> (simp at ho)

/-- A whole line within the limits is accepted. -/
theorem crlf_accept (prof : Profile) {line : Bytes} {ls : List Nat} {pre as : List Atom} {l : Bytes}
    (hq : Quiet pre) (hd : LF ∉ bytesOf pre) (hv : utf8Valid (bytesOf pre) = true)
    (he : line ++ bytesOf pre = l ++ [CR]) (hlen : (line ++ bytesOf pre).length + 1 ≤ 512)
    (hls : ∀ x ∈ ls, (bytesOf pre).length + 1 ≤ x) :
    CrlfLineParser.parse prof line (⟨ls, pre ++ .byte LF :: as⟩ : AR) =
      (.done l, ⟨decN ((bytesOf pre).length + 1) ls, as⟩) := by
  simp only [List.length_append] at hlen
  rw [crlf_eq prof line _ (sub_le prof (show line.length ≤ maxLineSize by simp [maxLineSize]; omega))]
  have hlims : ∀ x ∈ (maxLineSize - line.length) :: ls, (bytesOf pre).length < x := by
    intro x hx
    simp only [List.mem_cons] at hx
    rcases hx with rfl | hx
    · simp [maxLineSize]; omega
    · exact hls x hx
  rw [scan_quiet LF pre _ _ hq hd hlims]
  have h0 : 0 ∉ decN (bytesOf pre).length ((maxLineSize - line.length) :: ls) :=
    zero_not_mem_decN.2 hlims
  rw [scan_delim LF h0]
  simp only [crlfOut_found, hv, if_true, he, parseCrlfLine_snoc, decN_decN, decN_tail, List.tail_cons]
  rfl

/-- A call of the line parser that stops before the line is complete. -/
theorem crlf_io {prof : Profile} {line : Bytes} (hlen : line.length ≤ 512) (hl : LF ∉ line) {ls : List Nat}
    {as : List Atom} {line' : Bytes} {e : IoError} {r : AR}
    (h : CrlfLineParser.parse prof line (⟨ls, as⟩ : AR) = (.io line' e, r)) :
    ∃ pre post, Quiet pre ∧ LF ∉ bytesOf pre ∧ as = pre ++ post ++ r.atoms ∧
      r.lims = decN (bytesOf pre).length ls ∧ (∀ x ∈ ls, (bytesOf pre).length ≤ x) ∧
      (line ++ bytesOf pre).length ≤ 512 ∧ e ≠ .invalidData ∧
      ((e = .unexpectedEof ∧ post = [.eof] ∧ utf8Valid (bytesOf pre) = true ∧
          ∃ c, line ++ bytesOf pre = line' ++ c) ∨
        ((post = [.err e] ∧ e ≠ .interrupted ∨
          post = [] ∧ (e = .wouldBlock ∧ r.atoms = [] ∨
            e = .limitReached ∧ (0 ∈ r.lims ∨ (line ++ bytesOf pre).length = 512))) ∧
          line' = if utf8Valid (bytesOf pre) then line ++ bytesOf pre else line)) := by
  rw [crlf_eq prof line _ (sub_le prof (show line.length ≤ maxLineSize from hlen))] at h
  obtain ⟨pre, h1, h2, h3⟩ := scan_spec LF ((maxLineSize - line.length) :: ls) as
  revert h h1 h2 h3
  generalize AR.scan LF ((maxLineSize - line.length) :: ls) as = q
  obtain ⟨o, bs, ls', as'⟩ := q
  simp only
  intro h h1 h2 h3
  simp only [Prod.mk.injEq] at h
  obtain ⟨ho, rfl⟩ := h
  have h3' := h3 _ (by simp : maxLineSize - line.length ∈ _)
  have h4 : ∀ x ∈ ls, bs.length ≤ x := fun x hx => h3 x (List.mem_cons_of_mem _ hx)
  have herr : ∀ e', crlfOut line (.err e') (bytesOf pre) = .io line' e →
      e' = e ∧ e ≠ .invalidData ∧ line' = if utf8Valid (bytesOf pre) then line ++ bytesOf pre else line := by
    intro e' ho
    unfold crlfOut at ho
    by_cases hv : utf8Valid (bytesOf pre) = true
    · simp only [hv, if_true] at ho
      split at ho
      · cases ho
      · cases ho; simp [*]
    · simp only [hv, Bool.false_eq_true, if_false] at ho
      split at ho
      · cases ho
      · cases ho; simp [*]
  cases h1 with
  | found hq hd =>
    rw [crlfOut_found] at ho
    split at ho
    · cases hp : parseCrlfLine (line ++ bytesOf pre) <;> simp [hp, Out.ofExcept] at ho
    · cases ho
  | eof hq hd h0 =>
    have hv : utf8Valid (bytesOf pre) = true := by
      unfold crlfOut at ho
      by_cases hv : utf8Valid (bytesOf pre) = true
      · exact hv
      · simp [hv] at ho
    rcases crlfOut_eof line (bytesOf pre) hl hd with h' | ⟨rest, h', c, hc⟩ <;> rw [h'] at ho <;> cases ho
    refine ⟨pre, [.eof], hq, hd, by simp, by simp [h2], h4, ?_, by simp, .inl ⟨rfl, rfl, hv, c, hc⟩⟩
    simp [maxLineSize] at h3' ⊢; omega
  | err e' hq hd h0 he =>
    obtain ⟨rfl, h6, h7⟩ := herr e' ho
    refine ⟨pre, [.err e'], hq, hd, by simp, by simp [h2], h4, ?_, h6, .inr ⟨.inl ⟨rfl, he⟩, h7⟩⟩
    simp [maxLineSize] at h3' ⊢; omega
  | limit hq hd h0 =>
    obtain ⟨rfl, h6, h7⟩ := herr _ ho
    have h5 : (line ++ bytesOf pre).length ≤ 512 := by
      simp [maxLineSize] at h3' ⊢; omega
    refine ⟨pre, [], hq, hd, by simp, by simp [h2], h4, h5, h6, .inr ⟨.inr ⟨rfl, .inr ⟨rfl, ?_⟩⟩, h7⟩⟩
    rw [h2] at h0
    simp only [decN_cons, List.mem_cons] at h0
    rcases h0 with h0 | h0
    · right; simp [maxLineSize] at h0 h5 ⊢; omega
    · left; simp [h2, h0]
  | out hq hd h0 ha =>
    obtain ⟨rfl, h6, h7⟩ := herr _ ho
    have h5 : (line ++ bytesOf as).length ≤ 512 := by
      simp [maxLineSize] at h3' ⊢; omega
    exact ⟨as, [], hq, hd, by simp [ha], by simp [h2], h4, h5, h6, .inr ⟨.inr ⟨rfl, .inl ⟨rfl, ha⟩⟩, h7⟩⟩

/-- Whatever its state, a call of the line parser does not diverge, and if it completes a line it
consumes something. -/
theorem crlf_progress (prof : Profile) (line : Bytes) (r : AR) :
    (CrlfLineParser.parse prof line r).1 ≠ .diverge ∧
    (CrlfLineParser.parse prof line r).2.atoms.length ≤ r.atoms.length ∧
    (∀ l, (CrlfLineParser.parse prof line r).1 = .done l →
      (CrlfLineParser.parse prof line r).2.atoms.length < r.atoms.length) := by
  obtain ⟨ls, as⟩ := r
  cases h : prof.sub maxLineSize line.length with
  | none => simp [CrlfLineParser.parse, h]
  | some lim =>
    rw [crlf_eq prof line lim h]
    obtain ⟨pre, h1, h2, h3⟩ := scan_spec LF (lim :: ls) as
    revert h1 h2 h3
    generalize AR.scan LF (lim :: ls) as = q
    obtain ⟨o, bs, ls', as'⟩ := q
    simp only
    intro h1 h2 h3
    have key : o ≠ .diverge ∧ as'.length ≤ as.length ∧ (o = .ok → as'.length < as.length) := by
      cases h1 <;> simp <;> try omega
      all_goals simp [*]
    obtain ⟨k1, k2, k3⟩ := key
    refine ⟨?_, k2, ?_⟩
    · unfold crlfOut
      split
      · cases o with
        | ok =>
          simp only
          cases popChar (line ++ bs) with
          | none => simp
          | some p =>
            simp only
            split
            · cases parseCrlfLine p.1 <;> simp [Out.ofExcept]
            · simp
        | err e => simp only; split <;> simp
        | diverge => simp at k1
      · cases o with
        | ok => simp
        | err e => simp only; split <;> simp
        | diverge => simp at k1
    · intro l hl
      apply k3
      cases o with
      | ok => rfl
      | err e => unfold crlfOut at hl; split at hl <;> (simp only at hl; split at hl <;> cases hl)
      | diverge => simp at k1

end Verif
