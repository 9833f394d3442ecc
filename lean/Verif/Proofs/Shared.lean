import Verif.Spec.Shared
import Verif.Proofs.RefineParse
import Verif.Proofs.Fuel
import Verif.Proofs.Writer

/-!
A run over a stream that is read and written is a run over a stream in two parts, for scripts that have what the stream did.
-/

namespace Verif

open Reader

/-- A buffered stream seen as two parts, given what the raw stream is going to do. What its `read` brings satisfies `got`, what its `write` does satisfies `did` (also for all later states of the stream), and the errors of its `flush` satisfy `slip`. -/
structure Views (S W : Type) where
  offer : Nat → Nat
  ok : S → Prop
  rd : S → List Ev → Src
  wr : S → List WEv → List (Option IoError) → W
  log : S → List Ev
  got : Ev → Prop
  did : S → WEv → Prop
  slip : IoError → Prop

namespace Views

variable {S W : Type}

/-- What the raw stream did when it was written to and flushed. -/
def Did (V : Views S W) (s : S) (es : List WEv) (fl : List (Option IoError)) : Prop := (∀ e ∈ es, V.did s e) ∧ ∀ e, some e ∈ fl → V.slip e

theorem Did.nil {V : Views S W} {s : S} : V.Did s [] [] := ⟨by simp, by simp⟩

theorem Did.append {V : Views S W} {s : S} {es es' : List WEv} {fl fl' : List (Option IoError)} (h : V.Did s es fl) (h' : V.Did s es' fl') : V.Did s (es ++ es') (fl ++ fl') :=
  ⟨List.forall_mem_append.2 ⟨h.1, h'.1⟩, fun e he => (List.mem_append.1 he).elim (h.2 e) (h'.2 e)⟩

theorem Did.later {V : Views S W} {s s' : S} (hs : ∀ e, V.did s e → V.did s' e) {es : List WEv} {fl : List (Option IoError)} (h : V.Did s es fl) : V.Did s' es fl :=
  ⟨fun e he => hs e (h.1 e he), h.2⟩

theorem Did.writes {V : Views S W} {s : S} {es : List WEv} (h : ∀ e ∈ es, V.did s e) : V.Did s es [] := ⟨h, by simp⟩

/-- Reading led from `s` to `s'`, and the raw stream did `es` for it. -/
structure Reads (V : Views S W) (s s' : S) (es : List Ev) : Prop where
  ok : V.ok s'
  wr : ∀ a b, V.wr s' a b = V.wr s a b
  log : V.log s' = V.log s ++ es
  got : ∀ e ∈ es, V.got e
  did : ∀ e, V.did s e → V.did s' e

/-- Writing led from `s` to `s'`. -/
structure Writes (V : Views S W) (s s' : S) : Prop where
  ok : V.ok s'
  rd : ∀ es, V.rd s' es = V.rd s es
  log : V.log s' = V.log s
  did : ∀ e, V.did s e → V.did s' e

variable {V : Views S W}

theorem Reads.refl {s : S} (h : V.ok s) : V.Reads s s [] := ⟨h, fun _ _ => rfl, by simp, by simp, fun _ => id⟩

theorem Reads.trans {s₁ s₂ s₃ : S} {es es' : List Ev} (h : V.Reads s₁ s₂ es) (h' : V.Reads s₂ s₃ es') : V.Reads s₁ s₃ (es ++ es') :=
  ⟨h'.ok, fun a b => (h'.wr a b).trans (h.wr a b), by rw [h'.log, h.log]; simp, List.forall_mem_append.2 ⟨h.got, h'.got⟩, fun e he => h'.did e (h.did e he)⟩

theorem Writes.refl {s : S} (h : V.ok s) : V.Writes s s := ⟨h, fun _ => rfl, rfl, fun _ => id⟩

theorem Writes.trans {s₁ s₂ s₃ : S} (h : V.Writes s₁ s₂) (h' : V.Writes s₂ s₃) : V.Writes s₁ s₃ :=
  ⟨h'.ok, fun a => (h'.rd a).trans (h.rd a), h'.log.trans h.log, fun e he => h'.did e (h.did e he)⟩

variable [BufRead S] [Wr S] [Write W]

/-- The operations of the stream are those of the parts. -/
structure Lawful (V : Views S W) : Prop where
  offer : ∀ s es, (V.rd s es).offer = V.offer
  fillBuf : ∀ s, V.ok s → ∃ es, V.Reads s (BufRead.fillBuf s).2 es ∧
    ∀ rest, (V.rd s (es ++ rest)).fillBuf = ((BufRead.fillBuf s).1, V.rd (BufRead.fillBuf s).2 rest)
  consume : ∀ s n, V.ok s → V.Reads s (BufRead.consume s n) [] ∧ ∀ rest, (V.rd s rest).consume n = V.rd (BufRead.consume s n) rest
  read : ∀ s n, V.ok s → ∃ es, V.Reads s (BufRead.read s n).2 es ∧
    ∀ rest, (V.rd s (es ++ rest)).read n = ((BufRead.read s n).1, V.rd (BufRead.read s n).2 rest)
  write : ∀ f s b x s', V.ok s → Wr.write f s b = some (x, s') → V.Writes s s' ∧ ∃ es, (∀ e ∈ es, V.did s' e) ∧ ∀ rest fl,
    Write.write (V.wr s (es ++ rest) fl) b = (x, V.wr s' rest fl)
  flush : ∀ f s x s', V.ok s → Wr.flush f s = some (x, s') → V.Writes s s' ∧ ∃ es fl, V.Did s' es fl ∧ ∀ rest frest,
    Write.flush (V.wr s (es ++ rest) (fl ++ frest)) = (x, V.wr s' rest frest)
  returns : ∀ (w : W) (b : Bytes), (Write.writeAll w b).1 ≠ .diverge

/-! ### Reading through wrappers -/

theorem Lawful.fillBufL (hV : V.Lawful) (ls : List Nat) (s : S) (h : V.ok s) : ∃ es, V.Reads s (Shared.fillBufL ls s).2 es ∧
    ∀ rest, Rd.fillBufL ls (V.rd s (es ++ rest)) = ((Shared.fillBufL ls s).1, V.rd (Shared.fillBufL ls s).2 rest) := by
  induction ls with
  | nil => exact hV.fillBuf s h
  | cons l ls ih =>
    simp only [Shared.fillBufL, Rd.fillBufL]
    split
    · exact ⟨[], .refl h, fun rest => rfl⟩
    · obtain ⟨es, h1, h2⟩ := ih
      refine ⟨es, ?_⟩
      simp only [h2]
      generalize Shared.fillBufL ls s = q at h1
      obtain ⟨_ | _, s'⟩ := q
      · exact ⟨h1, fun _ => rfl⟩
      · exact ⟨h1, fun _ => rfl⟩

theorem Lawful.consumeL (hV : V.Lawful) (ls : List Nat) (s : S) (n : Nat) (h : V.ok s) : V.Reads s (Shared.consumeL ls s n).2 [] ∧
    ∀ rest, Rd.consumeL ls (V.rd s rest) n = ((Shared.consumeL ls s n).1, V.rd (Shared.consumeL ls s n).2 rest) := by
  induction ls generalizing n with
  | nil =>
    obtain ⟨h1, h2⟩ := hV.consume s n h
    exact ⟨h1, fun rest => by simp only [Rd.consumeL, Shared.consumeL, h2]⟩
  | cons l ls ih =>
    obtain ⟨h1, h2⟩ := ih (min n l)
    exact ⟨h1, fun rest => by simp only [Rd.consumeL, Shared.consumeL, h2]⟩

theorem Lawful.readL (hV : V.Lawful) (ls : List Nat) (s : S) (n : Nat) (h : V.ok s) : ∃ es, V.Reads s (Shared.readL ls s n).2.2 es ∧
    ∀ rest, Rd.readL ls (V.rd s (es ++ rest)) n = ((Shared.readL ls s n).1, (Shared.readL ls s n).2.1, V.rd (Shared.readL ls s n).2.2 rest) := by
  induction ls generalizing n with
  | nil =>
    obtain ⟨es, h1, h2⟩ := hV.read s n h
    exact ⟨es, h1, fun rest => by simp only [Rd.readL, Shared.readL, h2]⟩
  | cons l ls ih =>
    simp only [Shared.readL, Rd.readL]
    split
    · exact ⟨[], .refl h, fun rest => rfl⟩
    · obtain ⟨es, h1, h2⟩ := ih (min n l)
      refine ⟨es, ?_⟩
      simp only [h2]
      generalize Shared.readL ls s (min n l) = q at h1
      obtain ⟨_ | _, ls', s'⟩ := q
      · exact ⟨h1, fun _ => rfl⟩
      · exact ⟨h1, fun _ => rfl⟩

/-! ### The loops -/

theorem Lawful.readUntil (hV : V.Lawful) (d : UInt8) (f : Nat) (acc : Bytes) (ls : List Nat) (s : S) (h : V.ok s)
    (hd : (Shared.readUntil d f acc ls s).1 ≠ .diverge) : ∃ es, V.Reads s (Shared.readUntil d f acc ls s).2.2.2 es ∧
    ∀ rest, ∀ f' ≥ f, Rd.readUntil d f' acc ls (V.rd s (es ++ rest)) = ((Shared.readUntil d f acc ls s).1, (Shared.readUntil d f acc ls s).2.1,
      (Shared.readUntil d f acc ls s).2.2.1, V.rd (Shared.readUntil d f acc ls s).2.2.2 rest) := by
  induction f generalizing acc ls s with
  | zero => exact absurd rfl hd
  | succ f ih =>
    simp only [Shared.readUntil] at hd ⊢
    obtain ⟨es, h1, h2⟩ := hV.fillBufL ls s h
    generalize Shared.fillBufL ls s = q at *
    obtain ⟨r, s₁⟩ := q
    dsimp only at *
    have key : ∀ {P : Nat → Prop}, (∀ f' ≥ f, P (f' + 1)) → ∀ f' ≥ f + 1, P f' := by
      intro P hP f' hf'
      obtain ⟨g, rfl⟩ : ∃ g, f' = g + 1 := ⟨f' - 1, by omega⟩
      exact hP g (by omega)
    cases r with
    | error e =>
      by_cases hi : e = .interrupted
      · subst hi
        dsimp only at *
        obtain ⟨es', i1, i2⟩ := ih acc ls s₁ h1.ok hd
        refine ⟨es ++ es', h1.trans i1, fun rest => key fun f' hf' => ?_⟩
        simp only [Rd.readUntil, List.append_assoc, h2]
        exact i2 rest f' hf'
      · refine ⟨es, ?_, fun rest => key fun f' hf' => ?_⟩
        · cases e <;> first | exact h1 | exact absurd rfl hi
        · simp only [Rd.readUntil, h2]
    | ok av =>
      dsimp only at *
      cases hm : Rd.memchr d av with
      | some i =>
        obtain ⟨c1, c2⟩ := hV.consumeL ls s₁ (i + 1) h1.ok
        refine ⟨es, by simpa using h1.trans c1, fun rest => key fun f' hf' => ?_⟩
        simp only [Rd.readUntil, h2, hm, c2]
      | none =>
        obtain ⟨c1, c2⟩ := hV.consumeL ls s₁ av.length h1.ok
        simp only [hm] at hd ⊢
        generalize Shared.consumeL ls s₁ av.length = q at *
        obtain ⟨ls', s₂⟩ := q
        dsimp only at *
        by_cases h0 : av.length = 0
        · rw [if_pos h0]
          refine ⟨es, by simpa using h1.trans c1, fun rest => key fun f' hf' => ?_⟩
          simp only [Rd.readUntil, h2, hm, c2]
          rw [if_pos h0]
        · rw [if_neg h0] at hd ⊢
          obtain ⟨es', i1, i2⟩ := ih _ _ s₂ c1.ok hd
          refine ⟨es ++ es', by simpa using (h1.trans c1).trans i1, fun rest => key fun f' hf' => ?_⟩
          simp only [Rd.readUntil, List.append_assoc, h2, hm, c2]
          rw [if_neg h0]
          exact i2 rest f' hf'

theorem Lawful.readToEnd (hV : V.Lawful) (f : Nat) (acc : Bytes) (ls : List Nat) (s : S) (h : V.ok s)
    (hd : (Shared.readToEndLoop V.offer f acc ls s).1 ≠ .diverge) : ∃ es, V.Reads s (Shared.readToEndLoop V.offer f acc ls s).2.2.2 es ∧
    ∀ rest, ∀ f' ≥ f, Rd.readToEndLoop f' acc ls (V.rd s (es ++ rest)) = ((Shared.readToEndLoop V.offer f acc ls s).1, (Shared.readToEndLoop V.offer f acc ls s).2.1,
      (Shared.readToEndLoop V.offer f acc ls s).2.2.1, V.rd (Shared.readToEndLoop V.offer f acc ls s).2.2.2 rest) := by
  induction f generalizing acc ls s with
  | zero => exact absurd rfl hd
  | succ f ih =>
    simp only [Shared.readToEndLoop] at hd ⊢
    obtain ⟨es, h1, h2⟩ := hV.readL ls s (V.offer acc.length + 1) h
    generalize Shared.readL ls s (V.offer acc.length + 1) = q at *
    obtain ⟨r, ls₁, s₁⟩ := q
    dsimp only at *
    have key : ∀ {P : Nat → Prop}, (∀ f' ≥ f, P (f' + 1)) → ∀ f' ≥ f + 1, P f' := by
      intro P hP f' hf'
      obtain ⟨g, rfl⟩ : ∃ g, f' = g + 1 := ⟨f' - 1, by omega⟩
      exact hP g (by omega)
    cases r with
    | error e =>
      by_cases hi : e = .interrupted
      · subst hi
        dsimp only at *
        obtain ⟨es', i1, i2⟩ := ih acc ls₁ s₁ h1.ok hd
        refine ⟨es ++ es', h1.trans i1, fun rest => key fun f' hf' => ?_⟩
        simp only [Rd.readToEndLoop, List.append_assoc, hV.offer, h2]
        exact i2 rest f' hf'
      · refine ⟨es, ?_, fun rest => key fun f' hf' => ?_⟩
        · cases e <;> first | exact h1 | exact absurd rfl hi
        · simp only [Rd.readToEndLoop, hV.offer, h2]
    | ok b =>
      dsimp only at *
      by_cases h0 : b.length = 0
      · rw [if_pos h0]
        refine ⟨es, h1, fun rest => key fun f' hf' => ?_⟩
        simp only [Rd.readToEndLoop, hV.offer, h2]
        rw [if_pos h0]
      · rw [if_neg h0] at hd ⊢
        obtain ⟨es', i1, i2⟩ := ih _ _ s₁ h1.ok hd
        refine ⟨es ++ es', h1.trans i1, fun rest => key fun f' hf' => ?_⟩
        simp only [Rd.readToEndLoop, List.append_assoc, hV.offer, h2]
        rw [if_neg h0]
        exact i2 rest f' hf'

theorem Lawful.readInto (hV : V.Lawful) (size f : Nat) (acc : Bytes) (ls : List Nat) (s : S) (h : V.ok s)
    (hd : (Shared.readIntoLoop size f acc ls s).1 ≠ .diverge) : ∃ es, V.Reads s (Shared.readIntoLoop size f acc ls s).2.2.2 es ∧
    ∀ rest, ∀ f' ≥ f, Rd.readIntoLoop size f' acc ls (V.rd s (es ++ rest)) = ((Shared.readIntoLoop size f acc ls s).1, (Shared.readIntoLoop size f acc ls s).2.1,
      (Shared.readIntoLoop size f acc ls s).2.2.1, V.rd (Shared.readIntoLoop size f acc ls s).2.2.2 rest) := by
  induction f generalizing acc ls s with
  | zero => exact absurd rfl hd
  | succ f ih =>
    have key : ∀ {P : Nat → Prop}, (∀ f' ≥ f, P (f' + 1)) → ∀ f' ≥ f + 1, P f' := by
      intro P hP f' hf'
      obtain ⟨g, rfl⟩ : ∃ g, f' = g + 1 := ⟨f' - 1, by omega⟩
      exact hP g (by omega)
    simp only [Shared.readIntoLoop] at hd ⊢
    by_cases hlt : acc.length < size
    · simp only [if_pos hlt] at hd ⊢
      obtain ⟨es, h1, h2⟩ := hV.readL ls s (size - acc.length) h
      generalize Shared.readL ls s (size - acc.length) = q at *
      obtain ⟨r, ls₁, s₁⟩ := q
      dsimp only at *
      cases r with
      | error e =>
        refine ⟨es, h1, fun rest => key fun f' hf' => ?_⟩
        simp only [Rd.readIntoLoop, if_pos hlt, h2]
      | ok b =>
        dsimp only at *
        by_cases h0 : b.length = 0
        · rw [if_pos h0]
          refine ⟨es, h1, fun rest => key fun f' hf' => ?_⟩
          simp only [Rd.readIntoLoop, if_pos hlt, h2]
          rw [if_pos h0]
        · rw [if_neg h0] at hd ⊢
          obtain ⟨es', i1, i2⟩ := ih _ _ s₁ h1.ok hd
          refine ⟨es ++ es', h1.trans i1, fun rest => key fun f' hf' => ?_⟩
          simp only [Rd.readIntoLoop, List.append_assoc, if_pos hlt, h2]
          rw [if_neg h0]
          exact i2 rest f' hf'
    · simp only [if_neg hlt]
      exact ⟨[], .refl h, fun rest => key fun f' hf' => by simp only [Rd.readIntoLoop, if_neg hlt, List.nil_append]⟩

end Views

/-! ### More rounds change nothing -/

theorem Rd.readUntil_more (d : UInt8) (f : Nat) (acc : Bytes) (ls : List Nat) (s : Src) (hd : (Rd.readUntil d f acc ls s).1 ≠ .diverge) :
    ∀ f' ≥ f, Rd.readUntil d f' acc ls s = Rd.readUntil d f acc ls s := by
  induction f generalizing acc ls s with
  | zero => exact absurd rfl hd
  | succ f ih =>
    intro f' hf'
    obtain ⟨g, rfl⟩ : ∃ g, f' = g + 1 := ⟨f' - 1, by omega⟩
    simp only [Rd.readUntil] at hd ⊢
    generalize Rd.fillBufL ls s = q at *
    obtain ⟨_ | av, s₁⟩ := q
    · next e => cases e <;> first | rfl | exact ih _ _ _ hd g (by omega)
    · dsimp only at *
      cases hm : Rd.memchr d av with
      | some i => rfl
      | none =>
        simp only [hm] at hd ⊢
        split
        · rfl
        · next h0 => rw [if_neg h0] at hd; exact ih _ _ _ hd g (by omega)

theorem Rd.readToEnd_more (f : Nat) (acc : Bytes) (ls : List Nat) (s : Src) (hd : (Rd.readToEndLoop f acc ls s).1 ≠ .diverge) :
    ∀ f' ≥ f, Rd.readToEndLoop f' acc ls s = Rd.readToEndLoop f acc ls s := by
  induction f generalizing acc ls s with
  | zero => exact absurd rfl hd
  | succ f ih =>
    intro f' hf'
    obtain ⟨g, rfl⟩ : ∃ g, f' = g + 1 := ⟨f' - 1, by omega⟩
    simp only [Rd.readToEndLoop] at hd ⊢
    generalize Rd.readL ls s _ = q at *
    obtain ⟨_ | b, ls₁, s₁⟩ := q
    · next e => cases e <;> first | rfl | exact ih _ _ _ hd g (by omega)
    · dsimp only at *
      split
      · rfl
      · next h0 => rw [if_neg h0] at hd; exact ih _ _ _ hd g (by omega)

theorem Rd.readInto_more (size f : Nat) (acc : Bytes) (ls : List Nat) (s : Src) (hd : (Rd.readIntoLoop size f acc ls s).1 ≠ .diverge) :
    ∀ f' ≥ f, Rd.readIntoLoop size f' acc ls s = Rd.readIntoLoop size f acc ls s := by
  induction f generalizing acc ls s with
  | zero => exact absurd rfl hd
  | succ f ih =>
    intro f' hf'
    obtain ⟨g, rfl⟩ : ∃ g, f' = g + 1 := ⟨f' - 1, by omega⟩
    simp only [Rd.readIntoLoop] at hd ⊢
    split
    · next hlt =>
      rw [if_pos hlt] at hd
      generalize Rd.readL ls s _ = q at *
      obtain ⟨_ | b, ls₁, s₁⟩ := q
      · rfl
      · dsimp only at *
        split
        · rfl
        · next h0 => rw [if_neg h0] at hd; exact ih _ _ _ hd g (by omega)
    · rfl

section

variable {R : Type} [Reader R]

theorem headersLoop_more (prof : Profile) (f : Nat) (p : HeadersParser) (r : R) (hd : (HeadersParser.loop prof f p r).1 ≠ .diverge) :
    ∀ f' ≥ f, HeadersParser.loop prof f' p r = HeadersParser.loop prof f p r := by
  induction f generalizing p r with
  | zero => exact absurd rfl hd
  | succ f ih =>
    intro f' hf'
    obtain ⟨g, rfl⟩ : ∃ g, f' = g + 1 := ⟨f' - 1, by omega⟩
    simp only [HeadersParser.loop] at hd ⊢
    generalize CrlfLineParser.parse prof p.inner r = q at *
    obtain ⟨o, r'⟩ := q
    cases o with
    | done line =>
      dsimp only at *
      split
      · rfl
      · next h0 =>
        rw [if_neg h0] at hd
        cases hx : parseHeader line with
        | ok hv => simp only [hx] at hd; exact ih _ _ hd g (by omega)
        | error e => rfl
    | _ => rfl

theorem chunksLoop_more (prof : Profile) (f : Nat) (p : ChunksParser) (r : R) (hd : (ChunksParser.loop prof f p r).1 ≠ .diverge) :
    ∀ f' ≥ f, ChunksParser.loop prof f' p r = ChunksParser.loop prof f p r := by
  induction f generalizing p r with
  | zero => exact absurd rfl hd
  | succ f ih =>
    intro f' hf'
    obtain ⟨g, rfl⟩ : ∃ g, f' = g + 1 := ⟨f' - 1, by omega⟩
    obtain ⟨body, st⟩ := p
    cases st with
    | finished => rfl
    | size line =>
      simp only [ChunksParser.loop] at hd ⊢
      generalize sizeState prof line r = q at *
      obtain ⟨o, r'⟩ := q
      cases o <;> first | rfl | exact ih _ _ hd g (by omega)
    | data b =>
      simp only [ChunksParser.loop] at hd ⊢
      generalize dataState b body r = q at *
      obtain ⟨o, r'⟩ := q
      cases o <;> first | rfl | exact ih _ _ hd g (by omega)
    | tailingCrlf line l =>
      simp only [ChunksParser.loop] at hd ⊢
      generalize tailingCrlfState prof line l r = q at *
      obtain ⟨o, r'⟩ := q
      cases o <;> first | rfl | exact ih _ _ hd g (by omega)

end

theorem Write.writeAllLoop_more {W : Type} [Write W] (f : Nat) (w : W) (b : Bytes) (hd : (Write.writeAllLoop f w b).1 ≠ .diverge) :
    ∀ f' ≥ f, Write.writeAllLoop f' w b = Write.writeAllLoop f w b := by
  induction f generalizing w b with
  | zero =>
    intro f' _
    cases b with
    | nil => cases f' <;> rfl
    | cons c t => exact absurd rfl hd
  | succ f ih =>
    intro f' hf'
    obtain ⟨g, rfl⟩ : ∃ g, f' = g + 1 := ⟨f' - 1, by omega⟩
    cases b with
    | nil => rfl
    | cons c t =>
      simp only [Write.writeAllLoop] at hd ⊢
      generalize Write.write w (c :: t) = q at *
      obtain ⟨_ | n, w'⟩ := q
      · next e => cases e <;> first | rfl | exact ih _ _ hd g (by omega)
      · cases n <;> first | rfl | exact ih _ _ hd g (by omega)

end Verif
