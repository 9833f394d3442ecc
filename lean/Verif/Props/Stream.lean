import Verif.Proofs.Regroup
import Verif.Proofs.Fuel

/-!
C01 (grouping of bytes into reads) and C17 (every parse call returns).
-/

namespace Verif

/-! ## C01 -/

/-- C01 for requests: whatever the state of the parser, however the pending input is grouped into
reads, whatever the buffer sizes and the growth of buffers, one parse call gives the same outcome
(including the parser kept for later) and leaves the same input for later. -/
theorem C01_request_parse_ignores_grouping (prof : Profile) (p : RequestParser) {r₁ r₂ : Rd}
    (h : SameInput r₁ r₂) :
    (RequestParser.parse prof p r₁).1 = (RequestParser.parse prof p r₂).1 ∧
      SameInput (RequestParser.parse prof p r₁).2 (RequestParser.parse prof p r₂).2 := by
  have h1 := requestParse_abs prof p r₁
  have h2 := requestParse_abs prof p r₂
  rw [sameInput_iff] at h ⊢
  rw [h, h2] at h1
  simp only [absOut, Prod.mk.injEq] at h1
  exact ⟨h1.1.symm, h1.2.symm⟩

/-- C01 for responses. -/
theorem C01_response_parse_ignores_grouping (prof : Profile) (p : ResponseParser) {r₁ r₂ : Rd}
    (h : SameInput r₁ r₂) :
    (ResponseParser.parse prof p r₁).1 = (ResponseParser.parse prof p r₂).1 ∧
      SameInput (ResponseParser.parse prof p r₁).2 (ResponseParser.parse prof p r₂).2 := by
  have h1 := responseParse_abs prof p r₁
  have h2 := responseParse_abs prof p r₂
  rw [sameInput_iff] at h ⊢
  rw [h, h2] at h1
  simp only [absOut, Prod.mk.injEq] at h1
  exact ⟨h1.1.symm, h1.2.symm⟩

/-- `n` successive parse calls on one connection: after a complete request a new parser is used, after
an I/O error the kept one, after anything else it is over. The list of outcomes. -/
def requestSession (prof : Profile) : Nat → RequestParser → Rd → List (Out RequestParser Request)
  | 0, _, _ => []
  | n + 1, p, r =>
    match RequestParser.parse prof p r with
    | (.done q, r) => .done q :: requestSession prof n .new r
    | (.io p e, r) => .io p e :: requestSession prof n p r
    | (o, _) => [o]

/-- C01 over a whole connection: the outcomes of all parse calls made on a connection depend only on
the bytes and events received and not on how they were grouped or on the buffer size. -/
theorem C01_request_session_ignores_grouping (prof : Profile) (n : Nat) {cap₁ cap₂ : Nat}
    (h₁ : 0 < cap₁) (h₂ : 0 < cap₂) (offer₁ offer₂ : Nat → Nat) {evs₁ evs₂ : List Ev}
    (h : Regroup evs₁ evs₂) :
    requestSession prof n .new (.fresh cap₁ h₁ offer₁ evs₁) =
      requestSession prof n .new (.fresh cap₂ h₂ offer₂ evs₂) := by
  have key : ∀ n p (r₁ r₂ : Rd), SameInput r₁ r₂ →
      requestSession prof n p r₁ = requestSession prof n p r₂ := by
    intro n
    induction n with
    | zero => intros; rfl
    | succ n ih =>
      intro p r₁ r₂ hs
      have := C01_request_parse_ignores_grouping prof p hs
      revert this
      simp only [requestSession]
      generalize RequestParser.parse prof p r₁ = q₁
      generalize RequestParser.parse prof p r₂ = q₂
      obtain ⟨o₁, r₁'⟩ := q₁
      obtain ⟨o₂, r₂'⟩ := q₂
      rintro ⟨rfl, hs'⟩
      cases o₁ with
      | done q => simp only; rw [ih _ _ _ hs']
      | io p e => simp only; rw [ih _ _ _ hs']
      | _ => rfl
  refine key n _ _ _ ⟨rfl, ?_⟩
  simpa [Rd.pending, Rd.fresh] using h

/-- The hypotheses of C01 are met by one read of a whole request and by the same request read byte by
byte with an interruption in between, and the parse then succeeds. -/
example : Regroup [.data b!"GET / HTTP/1.1\r\n\r\nGE", .err .interrupted, .data b!"T"]
    [.data b!"G", .data b!"ET / HTTP/1.1\r", .data b!"\n\r\nGE", .err .interrupted, .data b!"T"] :=
  regroup_iff.2 (by decide)

example : (requestSession ⟨true⟩ 2 .new (.fresh 4096 (by decide) id
      [.data b!"GET / HTTP/1.1\r\n\r\nGE", .err .interrupted, .data b!"T"])) =
    [.done ⟨b!"/", .get, [], []⟩, .io (.firstLine b!"GET") .wouldBlock] := by decide +kernel

/-! ## C17 -/

/-- C17 for requests: from every parser state and on every input a parse call returns; it never runs
out of fuel, i.e. the number of iterations of every loop is bounded by a linear function of the input
still to be read, and the input does not grow. -/
theorem C17_request_parse_returns (prof : Profile) (p : RequestParser) (r : Rd) :
    (RequestParser.parse prof p r).1 ≠ .diverge ∧
      (RequestParser.parse prof p r).2.src.atoms.length ≤ r.src.atoms.length := by
  have h := requestParse_progress prof p r.abs
  rw [requestParse_abs] at h
  exact h

/-- C17 for responses. -/
theorem C17_response_parse_returns (prof : Profile) (p : ResponseParser) (r : Rd) :
    (ResponseParser.parse prof p r).1 ≠ .diverge ∧
      (ResponseParser.parse prof p r).2.src.atoms.length ≤ r.src.atoms.length := by
  have h := responseParse_progress prof p r.abs
  rw [responseParse_abs] at h
  exact h

end Verif
