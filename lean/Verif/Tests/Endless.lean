import Verif.Tests.Harness
import Verif.Proofs.Complete
import Verif.Props.Limits

/-!
The unit tests of `src/parse/body.rs` and `src/parse/message.rs` that are not of the common forms, by hand. Some read 3 MiB of an
endless stream, which is too much to run, so they are proved.
-/

namespace Verif.Tests

/-- An `EndlessMockReader`, mock.rs 46-75, after `n` rounds of its sequence. -/
def rounds (n : Nat) (data : List Bytes) (sequence : Bytes) : Rd := reader (data ++ List.replicate n sequence)

theorem flatMap_atoms {xs : List Bytes} (h : ∀ x ∈ xs, x ≠ []) : (xs.map Ev.data).flatMap Ev.atoms = xs.flatten.map .byte := by
  induction xs with
  | nil => rfl
  | cons x xs ih =>
    simp only [List.map_cons, List.flatMap_cons, List.flatten_cons, List.map_append]
    rw [ih fun y hy => h y (by simp [hy])]
    cases x with
    | nil => exact absurd rfl (h [] (by simp))
    | cons b x => rfl

/-- What a reader of pieces finds. -/
theorem reader_ahead {xs : List Bytes} (h : ∀ x ∈ xs, x ≠ []) : (reader xs).Ahead (xs.flatten.map .byte) :=
  ⟨rfl, by simp [reader, Src.atoms, flatMap_atoms h]⟩

theorem drain_over {l : Nat} {bs : Bytes} (h : l ≤ bs.length) (rest : List Atom) :
    ∃ d ls as, AR.drain [l] (bs.map .byte ++ rest) = (.err .limitReached, d, ls, as) := by
  induction bs generalizing l with
  | nil =>
    obtain rfl : l = 0 := by simpa using h
    exact ⟨_, _, _, drain_zero (by simp) _⟩
  | cons b bs ih =>
    cases l with
    | zero => exact ⟨_, _, _, drain_zero (by simp) _⟩
    | succ l =>
      obtain ⟨d, ls, as, e⟩ := ih (l := l) (by simpa using h)
      refine ⟨b :: d, ls, as, ?_⟩
      rw [List.map_cons, List.cons_append, drain_byte b (by simp), show decN 1 [l + 1] = [l] from rfl, e]

/-- A body that ends with the stream, of more than 3 MiB. -/
theorem untilEof_over (prof : Profile) {bs : Bytes} (h : 3 * 1024 * 1024 ≤ bs.length) (rest : List Atom) :
    ∃ s r, BodyParser.parse prof (.untilEof []) (⟨[], bs.map .byte ++ rest⟩ : AR) = (.io s .limitReached, r) := by
  obtain ⟨d, ls, as, e⟩ := drain_over h rest
  rw [bodyParse_eq, sub_le prof (by simp [BodyParser.readSoFar])]
  simp only [BodyParser.readSoFar, List.length_nil, Nat.sub_zero, maxBodySize, bytesUntilEof_eq, e]
  exact ⟨_, _, rfl⟩

/-- Chunks of one byte until none is allowed any more. -/
theorem chunks_over (prof : Profile) (k n : Nat) (h : k ≤ n) (body : Bytes) (rest : List Atom) :
    ∃ s r, crun prof ⟨body, .size []⟩ (⟨[6 * k], (List.replicate n b!"1\r\na\r\n").flatten.map .byte ++ rest⟩ : AR) =
      (.io s .limitReached, r) := by
  induction k generalizing n body with
  | zero =>
    rw [crun_eq]
    simp only [reduceCtorEq, if_false, chunkStep, sizeState]
    rw [crlf_eq prof [] 512 (sub_le prof (by simp [maxLineSize])), scan_zero LF (by simp)]
    exact ⟨_, _, rfl⟩
  | succ k ih =>
    cases n with
    | zero => omega
    | succ n =>
      have hu : UnsignedText 16 b!"1" (b!"a" : Bytes).length := .inl (.digit (d := 1) ⟨by decide, .inl ⟨by decide, by decide⟩⟩)
      rw [show (List.replicate (n + 1) b!"1\r\na\r\n").flatten.map Atom.byte ++ rest =
        (b!"1" ++ CRLF ++ b!"a" ++ CRLF).map .byte ++ ((List.replicate n b!"1\r\na\r\n").flatten.map .byte ++ rest) by
          simp [List.replicate_succ, CRLF, CR, LF]]
      rw [crun_chunk prof (by decide) hu (by decide) body (by simp; omega)]
      have := ih n (by omega) (body ++ b!"a")
      simpa [decN, show 6 * (k + 1) - 6 = 6 * k by omega] using this

namespace Body

/-- body.rs 286-290. -/
theorem sized_body_too_big :
    (match BodyParser.new (.fromPairs [(.ofStr b!"content-length", natDec (2 ^ 64 - 1))]) false with
      | .error e => some e
      | .ok _ => none) = some .contentLengthTooLarge := by decide +kernel

/-- body.rs 319-323. -/
theorem no_content_length_should_not_read_until_eof :
    body [] false fun p => once (· == ·) (BodyParser.parse debug) p (endlessly [] b!"blah") (.value []) := by decide +kernel

/-- body.rs 437-441. -/
theorem endless_chunk_content :
    body [(.ofStr b!"transfer-encoding", b!"chunked")] false fun p =>
      once (· == ·) (BodyParser.parse debug) p (endlessly [b!"ff\r\n"] b!"a") (.ioErr .limitReached) := by decide +kernel

/-- body.rs 313-317: after as many rounds as one likes, if there are enough. -/
theorem until_eof_endless (n : Nat) (hn : 1024 * 1024 ≤ n) :
    body [] true fun p => once (· == ·) (BodyParser.parse debug) p (rounds n [] b!"blah") (.ioErr .limitReached) := by
  have hr := reader_ahead (xs := [] ++ List.replicate n b!"blah") (by
    intro x hx; rw [List.nil_append, List.mem_replicate] at hx; rw [hx.2]; decide)
  obtain ⟨s, r, e⟩ := untilEof_over debug (bs := ([] ++ List.replicate n b!"blah").flatten) (by simp; omega) []
  rw [List.append_nil, bodyParse_ahead hr] at e
  show once (· == ·) (BodyParser.parse debug) (.untilEof []) (reader _) _ = true
  rw [once, (Prod.mk.inj e).1]
  rfl

/-- body.rs 443-447: after as many rounds as one likes, if there are enough. -/
theorem endless_chunks (n : Nat) (hn : 512 * 1024 ≤ n) :
    body [(.ofStr b!"transfer-encoding", b!"chunked")] false fun p =>
      once (· == ·) (BodyParser.parse debug) p (rounds n [] b!"1\r\na\r\n") (.ioErr .limitReached) := by
  have hr := reader_ahead (xs := [] ++ List.replicate n b!"1\r\na\r\n") (by
    intro x hx; rw [List.nil_append, List.mem_replicate] at hx; rw [hx.2]; decide)
  obtain ⟨s, r, e⟩ := chunks_over debug (512 * 1024) n hn [] []
  have e' : ∃ s r, BodyParser.parse debug chunkedStart (⟨[], ([] ++ List.replicate n b!"1\r\na\r\n").flatten.map .byte⟩ : AR) =
      (.io s .limitReached, r) := by
    rw [bodyParse_eq, sub_le debug (by simp [BodyParser.readSoFar, chunkedStart])]
    simp only [BodyParser.readSoFar, chunkedStart, List.length_nil, Nat.sub_zero, maxBodySize, List.nil_append]
    rw [List.append_nil] at e
    rw [show (3 * 1024 * 1024 : Nat) = 6 * (512 * 1024) by decide, e]
    exact ⟨_, _, rfl⟩
  obtain ⟨s', r', e'⟩ := e'
  rw [bodyParse_ahead hr] at e'
  show once (· == ·) (BodyParser.parse debug) chunkedStart (reader _) _ = true
  rw [once, (Prod.mk.inj e').1]
  rfl

end Body

namespace Message

/-- message.rs 732-740: after as many rounds as one likes, if there are enough. -/
theorem endless_body (n : Nat) (hn : 1024 * 1024 ≤ n) :
    once sameMessage (messageParse true) (.firstLine []) (rounds n [b!"HTTP/1.1 200 OK\r\n\r\n"] b!"blah blah blah")
      (.ioErr .limitReached) := by
  have hr := reader_ahead (xs := [b!"HTTP/1.1 200 OK\r\n\r\n"] ++ List.replicate n b!"blah blah blah") (by
    intro x hx
    rw [List.mem_append, List.mem_singleton, List.mem_replicate] at hx
    rcases hx with rfl | hx
    · decide
    · rw [hx.2]; decide)
  obtain ⟨s, r, e⟩ := untilEof_over debug (bs := (List.replicate n b!"blah blah blah").flatten) (by simp; omega) []
  rw [List.append_nil] at e
  have e1 : ([b!"HTTP/1.1 200 OK\r\n\r\n"] ++ List.replicate n b!"blah blah blah").flatten.map Atom.byte =
      (b!"HTTP/1.1 200 OK" ++ CRLF).map .byte ++ ((fieldLines [] ++ CRLF).map .byte ++
        (List.replicate n b!"blah blah blah").flatten.map .byte) := by
    simp [CRLF, CR, LF, fieldLines]
  have e2 : ∃ s r, messageParse true (.firstLine []) (⟨[], ([b!"HTTP/1.1 200 OK\r\n\r\n"] ++ List.replicate n
      b!"blah blah blah").flatten.map .byte⟩ : AR) = (.io s .limitReached, r) := by
    rw [e1, messageParse, messageLoop_step _ _ _ _ _ _ rfl]
    simp only [msgStep, firstLineState]
    rw [line_accept debug ⟨by decide, by decide, by decide⟩ (by simp)]
    simp only [Out.bind]
    rw [messageLoop_step _ _ _ _ _ _ rfl]
    simp only [msgStep, headersState]
    rw [decN_nil, headers_accept debug (by simp) (by decide)]
    simp only [Out.bind]
    rw [show BodyParser.new (HeaderMap.fromPairs (fieldMap [])) true = .ok (.untilEof []) from rfl]
    simp only
    rw [messageLoop_step _ _ _ _ _ _ rfl]
    simp only [msgStep, bodyState, e, Out.bind]
    exact ⟨_, _, rfl⟩
  obtain ⟨s', r', e2⟩ := e2
  rw [← hr.abs, messageParse, messageLoop_abs] at e2
  rw [once, messageParse, rounds, (Prod.mk.inj e2).1]
  rfl

end Message

end Verif.Tests
