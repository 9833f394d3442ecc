import Verif.Proofs.Conform
import Verif.Proofs.Trace

/-!
A parser that has read everything and waits has no complete request before it.
-/

namespace Verif

variable {prof : Profile}

theorem parse_pause_ends {p p' : RequestParser} {as as' : List Atom} (h : RequestParser.parse prof p (⟨[], as⟩ : AR) = (.io p' .wouldBlock, ⟨[], as'⟩)) :
    ∃ k Y, as ++ List.replicate k WB = Y ++ WB :: as' ∧
      ∀ X, RequestParser.parse prof p (⟨[], as ++ (List.replicate k WB ++ X)⟩ : AR) = (.io p' .wouldBlock, ⟨[], as' ++ X⟩) := by
  rcases firstPause as with hn | ⟨pre, post, rfl, hn⟩
  · obtain ⟨h1, -⟩ := request_block [] hn h
    dsimp only at h1
    subst h1
    exact ⟨1, as, rfl, fun X => by simpa using (request_block X hn h).2⟩
  · cases hp : RequestParser.parse prof p (⟨[], pre⟩ : AR) with
    | mk o r =>
    by_cases ho : ∃ s, o = .io s .wouldBlock
    · obtain ⟨s, rfl⟩ := ho
      have h1 := (request_block post hn hp).2
      rw [h] at h1
      simp only [Prod.mk.injEq, Out.io.injEq, AR.mk.injEq] at h1
      obtain ⟨⟨rfl, -⟩, h2, rfl⟩ := h1
      refine ⟨0, pre, by simp, fun X => ?_⟩
      have h3 := (request_block (as' ++ X) hn hp).2
      rw [← h2] at h3
      simpa using h3
    · have h1 := request_append (WB :: post) hp (fun s e => ho ⟨s, e⟩)
      rw [h] at h1
      exact absurd ⟨p', (Prod.mk.inj h1).1.symm⟩ ho

theorem InProgress.more {r₀ r : Rd} {p : RequestParser} (h : InProgress prof r₀ p r) {as : List Atom} (hr : r₀.Ahead as) :
    ∃ as₂ k, r.Ahead as₂ ∧ (k = 0 ∧ as₂ = as ∨ ∃ Y, as ++ List.replicate k WB = Y ++ WB :: as₂) ∧
      ∀ X (s : Rd), s.Ahead (as ++ (List.replicate k WB ++ X)) → ∃ s', InProgress prof s p s' ∧ s'.Ahead (as₂ ++ X) := by
  induction h with
  | new => exact ⟨as, 0, hr, .inl ⟨rfl, rfl⟩, fun X s hs => ⟨s, .new, by simpa using hs⟩⟩
  | pause _ hp ih =>
    obtain ⟨as₁, k, h1, h2, h3⟩ := ih
    obtain ⟨as₂, h4, h5⟩ := parse_ahead hp h1
    obtain ⟨j, Y, h6, h7⟩ := parse_pause_ends h5
    refine ⟨as₂, k + j, h4, .inr ?_, fun X s hs => ?_⟩
    · rw [← List.replicate_append_replicate, ← List.append_assoc]
      rcases h2 with ⟨rfl, rfl⟩ | ⟨Z, h2⟩
      · exact ⟨Y, by simpa using h6⟩
      · exact ⟨Z ++ WB :: Y, by rw [h2, List.append_assoc, List.cons_append, h6]; simp⟩
    · obtain ⟨s₁, h8, h9⟩ := h3 (List.replicate j WB ++ X) s (by
        rw [← List.append_assoc (List.replicate k WB), List.replicate_append_replicate]; exact hs)
      obtain ⟨s', h10, h11⟩ := parse_of_ahead (h7 X) h9
      exact ⟨s', h8.pause h10, h11⟩

theorem InProgress.comes {r₀ r r' : Rd} {p : RequestParser} {o : Out RequestParser Request} (h : InProgress prof r₀ p r) (ho : ∀ s, o ≠ .io s .wouldBlock)
    (hc : Calls (RequestParser.parse prof) .new r₀ o r') : Calls (RequestParser.parse prof) p r o r' := by
  induction h with
  | new => exact hc
  | pause _ hp ih =>
    cases ih with
    | last h => rw [hp] at h; cases h; exact absurd rfl (ho _)
    | pause h h' => rw [hp] at h; cases h; exact h'

theorem calls_shorter {p : RequestParser} {r r' : Rd} {o : Out RequestParser Request} (h : Calls (RequestParser.parse prof) p r o r') :
    r'.src.atoms.length ≤ r.src.atoms.length := by
  induction h with
  | @last p r _ _ h => have := (C17_request_parse_returns prof p r).2; rw [h] at this; exact this
  | @pause p _ r _ _ _ h _ ih => have := (C17_request_parse_returns prof p r).2; rw [h] at this; exact Nat.le_trans ih this

/-- A stream that brings a text is read as this text. -/
theorem conform_read {w : Bytes} {o : Out RequestParser Request} (hq : Decides prof w o) {as : List Atom} (hs : Smooth as) (hp : w <+: bytesOf as) {s : Rd} (hsa : s.Ahead as) :
    ∃ (pre : List Atom) (b : UInt8) (rest : List Atom), as = pre ++ .byte b :: rest ∧ ∃ s', Calls (RequestParser.parse prof) .new s o s' ∧ s'.Ahead rest := by
  obtain ⟨ps, last, rest, e1, e2, e3, e4, e6, e5⟩ := split_pieces (P := Harmless) hs.only hs.pauses hq.1 hp
  obtain ⟨s'', h5, h6⟩ := hq.pieces (rest := rest) e2 e3 e5 (r := s) (by rw [← e1]; exact hsa)
  obtain ⟨l, b, rfl⟩ : ∃ l b, last = l ++ [b] := ⟨_, _, (List.dropLast_concat_getLast e2).symm⟩
  have hsp : ∀ ps : List (List Atom), ∃ Z, ∀ X : List Atom, spaced ps X = Z ++ X := by
    intro ps
    induction ps with
    | nil => exact ⟨[], fun X => rfl⟩
    | cons p ps ih =>
      obtain ⟨Z, hZ⟩ := ih
      exact ⟨p ++ WB :: Z, fun X => by simp [spaced, hZ]⟩
  obtain ⟨Z, hZ⟩ := hsp (ps.map fun a => a.map .byte)
  exact ⟨Z ++ l.map .byte, b, rest, by rw [e1, hZ]; simp, s'', h5, h6⟩

/-- A parser that waits, when all was read, has nothing before it that is a complete request, or no request. -/
theorem InProgress.undecided {r₀ r : Rd} {p : RequestParser} (h : InProgress prof r₀ p r) {as : List Atom} (hr : r₀.Ahead as) (hs : Smooth as)
    (ha : r.Ahead []) {w : Bytes} {o : Out RequestParser Request} (hq : Decides prof w o) : ¬ w <+: bytesOf as := by
  intro hp
  obtain ⟨as₂, k, h1, h2, h3⟩ := h.more hr
  have : as₂ = [] := by rw [← h1.2, ha.2]
  subst this
  obtain ⟨s, hsa⟩ := Rd.exists_ahead (as ++ List.replicate k WB)
  obtain ⟨s', h4, h5⟩ := h3 [] s (by simpa using hsa)
  obtain ⟨pre, b, rest, h6, s'', h7, h8⟩ := conform_read (prof := prof) hq (hs.pause k) (by rw [bytesOf_app, bytesOf_pauses, List.append_nil]; exact hp) hsa
  have h9 := calls_shorter (h4.comes (fun p => hq.2.1 p _) h7)
  rw [h8.2, h5.2] at h9
  have : rest = [] := List.length_eq_zero_iff.1 (by simpa using h9)
  subst this
  rcases h2 with ⟨rfl, rfl⟩ | ⟨Y, h2⟩
  · simp at h6
  · rw [h6] at h2
    have := congrArg List.getLast? h2
    simp [WB] at this

/-- A parser that waits, when all was read, has no complete request before it. -/
theorem InProgress.idle {r₀ r : Rd} {p : RequestParser} (h : InProgress prof r₀ p r) {as : List Atom} (hr : r₀.Ahead as) (hs : Smooth as)
    (ha : r.Ahead []) {w : Bytes} {q : Request} (hq : FittingRequest w q) : ¬ w <+: bytesOf as := h.undecided hr hs ha hq.decides

end Verif
