import Verif.Proofs.Writer
import Verif.Proofs.Ending
import Verif.Props.Message
import Verif.Spec.Serving
import Verif.Spec.Cuts

/-!
Serving a connection: from the handler to the parse calls it makes and the answers it writes.
-/

namespace Verif

/-! ### Writing answers -/

theorem Nbw.Wrote.healthy {n : Nat} {w : Nbw} {d : Bytes} {x : IoRes × Nbw} (h : w.Wrote n d x) (hw : w.Healthy n) :
    x.1 = .ok ∧ x.2.Healthy n ∧ x.2.total = w.total ++ d := by
  obtain ⟨h1, ⟨h2, h3, h4⟩ | ⟨e, h2, h3, -⟩⟩ := h
  · exact ⟨h2, ⟨h3, fun e he => hw.sound e (h1.faulty he)⟩, h4⟩
  · exact absurd h3 (hw.sound e)

theorem fixed_written {n : Nat} {w : Nbw} (hw : w.Orderly n) {d : Bytes} (hd : d.length ≤ n) :
    w.Wrote n d (Write.andThen (Write.writeAll w d) fun w => Write.res (Write.flush w)) := by
  simpa using (writeAll_orderly hw hd).andThen fun w hw => flush_orderly hw

theorem error_written {n : Nat} {w : Nbw} (hw : w.Orderly n) (hn : 28 ≤ n) :
    w.Wrote n badRequestResponse (writeErrorResponse w) :=
  fixed_written hw (show badRequestResponse.length ≤ n from hn)

theorem answer_written {σ : Type} {rt : Router σ} {n : Nat} (hrt : rt.PartsLe n) {w : Nbw} (hw : w.Orderly n) {q : Request}
    {s s' : σ} {a : ListenerResult} (h : rt.result q s = (some a, s')) :
    ∃ x w', writeResponseFromRouter rt w q s = (some x, w', s') ∧ w.Wrote n (answerBytes a) (x, w') := by
  unfold writeResponseFromRouter
  rw [h]
  cases a with
  | next => exact ⟨_, _, rfl, fixed_written hw (Nat.le_trans (by decide +kernel) hrt.1)⟩
  | sendResponse r => exact ⟨_, _, rfl, writeResponse_orderly hw (hrt.2 _ _ _ _ (.inl h))⟩
  | sendResponseArc r => exact ⟨_, _, rfl, writeResponse_orderly hw (hrt.2 _ _ _ _ (.inr h))⟩

theorem closeAsked_iff (q : Request) : shouldCloseAfterResponse q = true ↔ CloseAsked q := by
  unfold shouldCloseAfterResponse HeaderMap.containsHeaderValue CloseAsked
  cases q.headers.get Header.connection with
  | none => simp
  | some vs => simp

/-! ### The requests read -/

/-- Successive parse calls that each give a request, all but the first with a new parser. -/
inductive Delivers (prof : Profile) : RequestParser → Rd → List Request → RequestParser → Rd → Prop
  | nil {p : RequestParser} {r : Rd} : Delivers prof p r [] p r
  | cons {p p' : RequestParser} {r r₁ r' : Rd} {q : Request} {qs : List Request} :
      RequestParser.parse prof p r = (.done q, r₁) → Delivers prof .new r₁ qs p' r' → Delivers prof p r (q :: qs) p' r'

theorem Delivers.snoc {prof : Profile} {p p' : RequestParser} {r r' r'' : Rd} {q : Request} {qs : List Request}
    (h : Delivers prof p r qs p' r') (h' : RequestParser.parse prof p' r' = (.done q, r'')) :
    Delivers prof p r (qs ++ [q]) .new r'' := by
  induction h with
  | nil => exact .cons h' .nil
  | cons h1 _ ih => exact .cons h1 (ih h')

theorem served_snoc {σ : Type} {rt : Router σ} {s s₁ s₂ : σ} {qs : List Request} {out : Bytes} {q : Request}
    {a : ListenerResult} (h : Served rt s qs out s₁) (h' : rt.result q s₁ = (some a, s₂)) :
    Served rt s (qs ++ [q]) (out ++ answerBytes a) s₂ := by
  induction h with
  | nil => simpa using Served.cons h' .nil
  | cons h1 _ ih => simpa using Served.cons h1 (ih h')

/-- A request takes at least one atom. -/
theorem request_takes {prof : Profile} {r r' : Rd} {q : Request} (hl : r.lims = [])
    (h : RequestParser.parse prof .new r = (.done q, r')) : r'.src.atoms.length < r.src.atoms.length := by
  obtain ⟨pre, line, fs, f, bw, h1, -, -, -, h5, -⟩ := requestOne_done h hl
  have : pre ≠ [] := by
    rintro rfl
    have := h5.wire
    simp [bytesOf, CRLF] at this
  have := List.length_pos_iff.2 this
  rw [h1, List.length_append]
  omega

theorem parse_lims {prof : Profile} {p : RequestParser} {r : Rd} (hl : r.lims = []) :
    (RequestParser.parse prof p r).2.lims = [] := by
  have h1 := (request_isWrap prof).ahead (p := p) (Rd.ahead_self hl)
  have h2 := congrArg (fun x => x.2.lims) h1
  simp only [wrap, mrun_lims] at h2
  exact h2.symm

theorem parse_le {prof : Profile} {p : RequestParser} {r : Rd} :
    (RequestParser.parse prof p r).2.src.atoms.length ≤ r.src.atoms.length := by
  have h := requestParse_progress prof p r.abs
  rw [requestParse_abs] at h
  exact h.2

theorem Delivers.lims {prof : Profile} {p p' : RequestParser} {r r' : Rd} {qs : List Request}
    (h : Delivers prof p r qs p' r') (hl : r.lims = []) : r'.lims = [] := by
  induction h with
  | nil => exact hl
  | @cons p p' r r₁ r' q qs h1 _ ih =>
    refine ih ?_
    have := parse_lims (prof := prof) (p := p) hl
    rw [h1] at this
    exact this

theorem Delivers.length {prof : Profile} {p p' : RequestParser} {r r' : Rd} {qs : List Request}
    (h : Delivers prof p r qs p' r') (hl : r.lims = []) :
    qs.length + r'.src.atoms.length ≤ r.src.atoms.length + 1 ∧
      (p = .new → qs.length + r'.src.atoms.length ≤ r.src.atoms.length) := by
  induction h with
  | nil => exact ⟨by simp, fun _ => by simp⟩
  | @cons p p' r r₁ r' q qs h1 _ ih =>
    have h2 := parse_lims (prof := prof) (p := p) hl
    have h3 := parse_le (prof := prof) (p := p) (r := r)
    rw [h1] at h2 h3
    have := (ih h2).2 rfl
    simp only at h3
    refine ⟨by simp only [List.length_cons]; omega, fun hp => ?_⟩
    subst hp
    have := request_takes hl h1
    simp only [List.length_cons]; omega

/-! ### Forwards -/

variable {σ : Type} {rt : Router σ} {prof : Profile} {n : Nat}

theorem readRequest_ready {W : Type} {c : Conn Rd W} {q : Request} {r : Rd}
    (h : RequestParser.parse prof (c.parser.getD .new) c.reader = (.done q, r)) :
    c.readRequest prof = (.ready q, ⟨r, c.writer, none⟩) := by
  unfold Conn.readRequest; rw [h]

theorem readRequest_notReady {W : Type} {c : Conn Rd W} {p : RequestParser} {r : Rd}
    (h : RequestParser.parse prof (c.parser.getD .new) c.reader = (.io p .wouldBlock, r)) :
    c.readRequest prof = (.notReady, ⟨r, c.writer, some p⟩) := by
  unfold Conn.readRequest; rw [h]; rfl

/-- The handler reads requests and answers them. -/
theorem respond_delivers {p p₁ : RequestParser} {r r₁ : Rd} {qs : List Request} (hd : Delivers prof p r qs p₁ r₁)
    {po : Option RequestParser} {w : Nbw} {s s₁ : σ} {out : Bytes} (hp : po.getD .new = p)
    (hopen : ∀ q ∈ qs, ¬ CloseAsked q) (hs : Served rt s qs out s₁) (hw : w.Healthy n) (hrt : rt.PartsLe n) :
    ∃ w₁ po₁, po₁.getD .new = p₁ ∧ w₁.Healthy n ∧ w₁.total = w.total ++ out ∧ w.Later w₁ ∧
      ∀ f, respondLoop prof rt (qs.length + f) ⟨r, w, po⟩ s = respondLoop prof rt f ⟨r₁, w₁, po₁⟩ s₁ := by
  induction hd generalizing po w s out with
  | nil =>
    cases hs
    exact ⟨w, po, hp, hw, by simp, .refl w, fun f => by simp⟩
  | @cons p p' r r₁ r' q qs h1 _ ih =>
    cases hs with
    | @cons _ s1 _ _ _ a out h2 h3 =>
    obtain ⟨x, w1, h4, h5⟩ := answer_written hrt hw.toOrderly h2
    obtain ⟨h6, h7, h8⟩ := h5.healthy hw
    simp only at h6 h7 h8
    subst h6
    obtain ⟨w2, po2, e1, e2, e3, e4, e5⟩ := ih (po := none) (w := w1) rfl (fun q hq => hopen q (by simp [hq])) h3 h7
    refine ⟨w2, po2, e1, e2, by rw [e3, h8, List.append_assoc], h5.1.trans e4, fun f => ?_⟩
    rw [show (q :: qs).length + f = (qs.length + f) + 1 by simp only [List.length_cons]; omega, ← e5 f]
    have hc : shouldCloseAfterResponse q = false := by
      rw [Bool.eq_false_iff]; exact fun h => hopen q (by simp) ((closeAsked_iff q).1 h)
    rw [respondLoop, readRequest_ready (by rw [hp]; exact h1)]
    simp only [h4, hc, Bool.false_eq_true, if_false]

/-! ### Backwards -/

/-- How the loop ends when the parser is `p`, the stream `r`, the router's state `s`, and `acc` has been written:
first in general. -/
inductive LoopEnds (prof : Profile) (rt : Router σ) (n : Nat) (w : Nbw) (acc : Bytes) (p : RequestParser) (r : Rd) (s : σ) :
    LoopEnd → Conn Rd Nbw → σ → Prop
  | keep {c' : Conn Rd Nbw} {p' : RequestParser} : RequestParser.parse prof p r = (.io p' .wouldBlock, c'.reader) →
      c'.parser = some p' → c'.writer.Orderly n → c'.writer.total = acc → LoopEnds prof rt n w acc p r s .keep c' s
  | asked {c' : Conn Rd Nbw} {q : Request} {a : ListenerResult} {s' : σ} :
      RequestParser.parse prof p r = (.done q, c'.reader) → rt.result q s = (some a, s') → CloseAsked q →
      c'.writer.Orderly n → c'.writer.total = acc ++ answerBytes a → LoopEnds prof rt n w acc p r s .drop c' s'
  | failed {c' : Conn Rd Nbw} {q : Request} {a : ListenerResult} {s' : σ} {e : IoError} :
      RequestParser.parse prof p r = (.done q, c'.reader) → rt.result q s = (some a, s') → w.Faulty e →
      c'.writer.sock.sent <+: acc ++ answerBytes a → LoopEnds prof rt n w acc p r s .drop c' s'
  | closed {c' : Conn Rd Nbw} {p' : RequestParser} {e : IoError} :
      RequestParser.parse prof p r = (.io p' e, c'.reader) → e ≠ .wouldBlock → isClosed p' e = true →
      c'.writer.Orderly n → c'.writer.total = acc → LoopEnds prof rt n w acc p r s .drop c' s
  | bad {c' : Conn Rd Nbw} : ((∃ e, RequestParser.parse prof p r = (.perr e, c'.reader)) ∨
        ∃ p' e, RequestParser.parse prof p r = (.io p' e, c'.reader) ∧ e ≠ .wouldBlock ∧ isClosed p' e = false) →
      ((c'.writer.Orderly n ∧ c'.writer.total = acc ++ badRequestResponse) ∨
        ∃ e, w.Faulty e ∧ c'.writer.sock.sent <+: acc ++ badRequestResponse) → LoopEnds prof rt n w acc p r s .drop c' s
  | parserPanic {c' : Conn Rd Nbw} : RequestParser.parse prof p r = (.panic, c'.reader) →
      c'.writer.Orderly n → c'.writer.total = acc → LoopEnds prof rt n w acc p r s .panic c' s
  | listenerPanic {c' : Conn Rd Nbw} {q : Request} {s' : σ} : RequestParser.parse prof p r = (.done q, c'.reader) →
      rt.result q s = (none, s') → c'.writer.Orderly n → c'.writer.total = acc → LoopEnds prof rt n w acc p r s .panic c' s'

theorem LoopEnds.mono {w w₀ : Nbw} {acc : Bytes} {p : RequestParser} {r : Rd} {s s' : σ} {e : LoopEnd} {c' : Conn Rd Nbw}
    (h : LoopEnds prof rt n w acc p r s e c' s') (hl : w₀.Later w) : LoopEnds prof rt n w₀ acc p r s e c' s' := by
  cases h with
  | keep h1 h2 h3 h4 => exact .keep h1 h2 h3 h4
  | asked h1 h2 h3 h4 h5 => exact .asked h1 h2 h3 h4 h5
  | failed h1 h2 h3 h4 => exact .failed h1 h2 (hl.faulty h3) h4
  | closed h1 h2 h3 h4 h5 => exact .closed h1 h2 h3 h4 h5
  | bad h1 h2 => exact .bad h1 (h2.imp id fun ⟨e, h3, h4⟩ => ⟨e, hl.faulty h3, h4⟩)
  | parserPanic h1 h2 h3 => exact .parserPanic h1 h2 h3
  | listenerPanic h1 h2 h3 h4 => exact .listenerPanic h1 h2 h3 h4

/-- What a run of the loop has done. -/
theorem respondLoop_trace (hrt : rt.PartsLe n) {f : Nat} {c : Conn Rd Nbw} {s : σ} {e : LoopEnd} {c' : Conn Rd Nbw} {s' : σ}
    (hl : c.reader.lims = []) (hf : c.reader.src.atoms.length + (if c.parser.getD .new = .new then 0 else 1) < f)
    (hw : c.writer.Orderly n) (h : respondLoop prof rt f c s = (e, c', s')) :
    c.writer.Later c'.writer ∧ ∃ qs out s₁ p₁ r₁, Delivers prof (c.parser.getD .new) c.reader qs p₁ r₁ ∧
      (∀ q ∈ qs, ¬ CloseAsked q) ∧ Served rt s qs out s₁ ∧
      LoopEnds prof rt n c.writer (c.writer.total ++ out) p₁ r₁ s₁ e c' s' := by
  induction f generalizing c s with
  | zero => omega
  | succ f ih =>
    obtain ⟨r, w, po⟩ := c
    simp only at hl hw hf ⊢
    rw [respondLoop] at h
    unfold Conn.readRequest at h
    simp only at h
    cases hq : RequestParser.parse prof (po.getD .new) r with
    | mk o r1 =>
    have hl1 := parse_lims (prof := prof) (p := po.getD .new) hl
    have hle := parse_le (prof := prof) (p := po.getD .new) (r := r)
    rw [hq] at h hl1 hle
    simp only at hl1 hle
    cases o with
    | done q =>
      simp only at h
      cases hr : rt.result q s with
      | mk a s1 =>
      cases a with
      | none =>
        unfold writeResponseFromRouter at h
        simp only [hr, Prod.mk.injEq] at h
        obtain ⟨rfl, rfl, rfl⟩ := h
        exact ⟨.refl w, [], [], s, _, r, .nil, by simp, .nil, .listenerPanic hq hr hw (by simp)⟩
      | some a =>
        obtain ⟨x, w1, h4, h5⟩ := answer_written hrt hw hr
        rw [h4] at h
        obtain ⟨h6, ⟨h7, h8, h9⟩ | ⟨e', h7, h8, h9⟩⟩ := h5
        · simp only at h7 h8 h9 h6
          subst h7
          simp only at h
          by_cases hc : shouldCloseAfterResponse q = true
          · simp only [hc, if_true, Prod.mk.injEq] at h
            obtain ⟨rfl, rfl, rfl⟩ := h
            exact ⟨h6, [], [], s, _, r, .nil, by simp, .nil, .asked hq hr ((closeAsked_iff q).1 hc) h8 (by simpa using h9)⟩
          · simp only [hc] at h
            have hfu : r1.src.atoms.length < f := by
              by_cases hp : po.getD .new = RequestParser.new
              · rw [hp] at hq
                have := request_takes hl hq
                rw [if_pos hp] at hf
                omega
              · rw [if_neg hp] at hf
                omega
            obtain ⟨i1, qs, out, s2, p2, r2, i2, i3, i4, i5⟩ := ih (c := ⟨r1, w1, none⟩) hl1 (by simpa using hfu) h8 h
            refine ⟨h6.trans i1, q :: qs, answerBytes a ++ out, s2, p2, r2, .cons hq i2, ?_, .cons hr i4, ?_⟩
            · intro q' hq'
              rcases List.mem_cons.1 hq' with rfl | hq'
              · exact fun hh => hc ((closeAsked_iff _).2 hh)
              · exact i3 q' hq'
            · simp only [h9] at i5
              rw [← List.append_assoc]
              exact i5.mono h6
        · simp only at h7 h8 h9
          subst h7
          simp only [Prod.mk.injEq] at h
          obtain ⟨rfl, rfl, rfl⟩ := h
          exact ⟨h6, [], [], s, _, r, .nil, by simp, .nil, .failed hq hr h8 (by simpa using h9)⟩
    | io p e' =>
      by_cases he : e' = .wouldBlock
      · subst he
        simp only [if_true, Prod.mk.injEq] at h
        obtain ⟨rfl, rfl, rfl⟩ := h
        exact ⟨.refl w, [], [], s, _, r, .nil, by simp, .nil, .keep hq rfl hw (by simp)⟩
      · by_cases hc : isClosed p e' = true
        · simp only [he, hc, if_false, if_true, Prod.mk.injEq] at h
          obtain ⟨rfl, rfl, rfl⟩ := h
          exact ⟨.refl w, [], [], s, _, r, .nil, by simp, .nil, .closed hq he hc hw (by simp)⟩
        · simp only [he, hc, if_false, Bool.false_eq_true] at h
          have hw2 := error_written hw hrt.1
          cases hx : writeErrorResponse w with
          | mk x w1 =>
          simp only [hx] at h
          rw [hx] at hw2
          obtain ⟨h6, h7⟩ := hw2
          simp only at h6 h7
          refine ⟨?_, [], [], s, _, r, .nil, by simp, .nil, ?_⟩
          · rcases h7 with ⟨rfl, -⟩ | ⟨e2, rfl, -⟩ <;>
              (simp only [Prod.mk.injEq] at h; obtain ⟨rfl, rfl, rfl⟩ := h; exact h6)
          · rcases h7 with ⟨rfl, h8, h9⟩ | ⟨e2, rfl, h8, h9⟩
            · simp only [Prod.mk.injEq] at h
              obtain ⟨rfl, rfl, rfl⟩ := h
              exact .bad (.inr ⟨p, e', hq, he, by simpa using hc⟩) (.inl ⟨h8, by simpa using h9⟩)
            · simp only [Prod.mk.injEq] at h
              obtain ⟨rfl, rfl, rfl⟩ := h
              exact .bad (.inr ⟨p, e', hq, he, by simpa using hc⟩) (.inr ⟨e2, h8, by simpa using h9⟩)
    | perr e' =>
      have hw2 := error_written hw hrt.1
      cases hx : writeErrorResponse w with
      | mk x w1 =>
      simp only [hx] at h
      rw [hx] at hw2
      obtain ⟨h6, h7⟩ := hw2
      simp only at h6 h7
      refine ⟨?_, [], [], s, _, r, .nil, by simp, .nil, ?_⟩
      · rcases h7 with ⟨rfl, -⟩ | ⟨e2, rfl, -⟩ <;>
          (simp only [Prod.mk.injEq] at h; obtain ⟨rfl, rfl, rfl⟩ := h; exact h6)
      · rcases h7 with ⟨rfl, h8, h9⟩ | ⟨e2, rfl, h8, h9⟩
        · simp only [Prod.mk.injEq] at h
          obtain ⟨rfl, rfl, rfl⟩ := h
          exact .bad (.inl ⟨e', hq⟩) (.inl ⟨h8, by simpa using h9⟩)
        · simp only [Prod.mk.injEq] at h
          obtain ⟨rfl, rfl, rfl⟩ := h
          exact .bad (.inl ⟨e', hq⟩) (.inr ⟨e2, h8, by simpa using h9⟩)
    | panic =>
      simp only [Prod.mk.injEq] at h
      obtain ⟨rfl, rfl, rfl⟩ := h
      exact ⟨.refl w, [], [], s, _, r, .nil, by simp, .nil, .parserPanic hq hw (by simp)⟩
    | diverge =>
      have := (requestParse_progress prof (po.getD .new) r.abs).1
      rw [requestParse_abs, hq] at this
      exact absurd rfl this

/-! ### The handler -/

/-- What the handler makes of the end of the loop. -/
def finish {R W : Type} : LoopEnd × Conn R W × σ → HandleEnd × Slot R W × σ
  | (.keep, c, s) => (.done, .live c, s)
  | (.drop, c, s) => (.done, .gone c, s)
  | (.panic, c, s) => (.panic, .poisoned c, s)
  | (.diverge, c, s) => (.diverge, .poisoned c, s)

theorem handle_live (c : Conn Rd Nbw) (s : σ) : handle prof rt (.live c) s =
    match c.writer.flush with
    | (.error _, w) => (.done, .gone { c with writer := w }, s)
    | (.ok (), w) => finish (respondToRequests prof rt { c with writer := w } s) := by
  unfold handle
  simp only [show (Write.flush c.writer) = c.writer.flush from rfl]
  cases c.writer.flush with
  | mk x w =>
  cases x with
  | error e => rfl
  | ok u =>
    simp only
    generalize respondToRequests prof rt ({ c with writer := w } : Conn Rd Nbw) s = y
    obtain ⟨e, c', s'⟩ := y
    cases e <;> rfl

theorem flush_healthy {w : Nbw} (hw : w.Healthy n) :
    ∃ w', w.flush = (.ok (), w') ∧ w'.Healthy n ∧ w'.total = w.total ∧ w.Later w' := by
  have h1 := flush_orderly hw.toOrderly
  obtain ⟨h2, h3, h4⟩ := h1.healthy hw
  have h5 := h1.1
  change (Write.res w.flush).1 = _ at h2
  change (Write.res w.flush).2.Healthy n at h3
  change (Write.res w.flush).2.total = _ at h4
  change w.Later (Write.res w.flush).2 at h5
  revert h2 h3 h4 h5
  cases w.flush with
  | mk x w' =>
  cases x with
  | error e => simp [Write.res]
  | ok u => exact fun _ h3 h4 h5 => ⟨w', rfl, h3, by simpa [Write.res] using h4, h5⟩

/-- The handler reads requests and answers them. -/
theorem handle_delivers {p₁ : RequestParser} {c : Conn Rd Nbw} {r₁ : Rd} {qs : List Request}
    (hd : Delivers prof (c.parser.getD .new) c.reader qs p₁ r₁) (hl : c.reader.lims = [])
    {s s₁ : σ} {out : Bytes} (hopen : ∀ q ∈ qs, ¬ CloseAsked q) (hs : Served rt s qs out s₁) (hw : c.writer.Healthy n)
    (hrt : rt.PartsLe n) :
    ∃ w₁ po₁ f, po₁.getD .new = p₁ ∧ w₁.Healthy n ∧ w₁.total = c.writer.total ++ out ∧ c.writer.Later w₁ ∧
      handle prof rt (.live c) s = finish (respondLoop prof rt (f + 1) ⟨r₁, w₁, po₁⟩ s₁) := by
  obtain ⟨w', h1, h2, h3, h4⟩ := flush_healthy hw
  obtain ⟨w₁, po₁, e1, e2, e3, e4, e5⟩ := respond_delivers hd (po := c.parser) rfl hopen hs h2 hrt
  have hlen := (hd.length hl).1
  refine ⟨w₁, po₁, 3 * c.reader.src.atoms.length + 7 - qs.length, e1, e2, by rw [e3, h3], h4.trans e4, ?_⟩
  rw [handle_live, h1, ← e5]
  simp only [respondToRequests]
  rw [show qs.length + (3 * c.reader.src.atoms.length + 7 - qs.length + 1) = 3 * c.reader.src.atoms.length + 8 by omega]
  rfl

theorem loop_notReady {r r' : Rd} {w : Nbw} {po : Option RequestParser} {p : RequestParser} (f : Nat) {s : σ}
    (h : RequestParser.parse prof (po.getD .new) r = (.io p .wouldBlock, r')) :
    respondLoop prof rt (f + 1) ⟨r, w, po⟩ s = (.keep, ⟨r', w, some p⟩, s) := by
  rw [respondLoop, readRequest_notReady (c := ⟨r, w, po⟩) h]

/-- The parse call is answered with 400. -/
def Rejected (prof : Profile) (p : RequestParser) (r r' : Rd) : Prop :=
  (∃ e, RequestParser.parse prof p r = (.perr e, r')) ∨
    ∃ p' e, RequestParser.parse prof p r = (.io p' e, r') ∧ e ≠ .wouldBlock ∧ isClosed p' e = false

theorem loop_rejected {r r' : Rd} {w : Nbw} {po : Option RequestParser} (f : Nat) {s : σ}
    (h : Rejected prof (po.getD .new) r r') (hw : w.Healthy n) (hn : 28 ≤ n) :
    ∃ w', respondLoop prof rt (f + 1) ⟨r, w, po⟩ s = (.drop, ⟨r', w', none⟩, s) ∧ w'.Healthy n ∧
      w'.total = w.total ++ badRequestResponse ∧ w.Later w' := by
  have h1 := error_written hw.toOrderly hn
  obtain ⟨h2, h3, h4⟩ := h1.healthy hw
  have h5 := h1.1
  cases hx : writeErrorResponse w with
  | mk x w' =>
  rw [hx] at h2 h3 h4 h5
  simp only at h2 h3 h4 h5
  subst h2
  refine ⟨w', ?_, h3, h4, h5⟩
  rw [respondLoop]
  unfold Conn.readRequest
  rcases h with ⟨e, h⟩ | ⟨p', e, h, he, hc⟩
  · simp only [h, hx]
  · simp only [h, hx, he, hc, if_false, Bool.false_eq_true]

theorem loop_closed {r r' : Rd} {w : Nbw} {po : Option RequestParser} (f : Nat) {s : σ} {p : RequestParser} {e : IoError}
    (h : RequestParser.parse prof (po.getD .new) r = (.io p e, r')) (he : e ≠ .wouldBlock) (hc : isClosed p e = true) :
    respondLoop prof rt (f + 1) ⟨r, w, po⟩ s = (.drop, ⟨r', w, none⟩, s) := by
  rw [respondLoop]
  unfold Conn.readRequest
  simp only [h, he, hc, if_false, if_true]

theorem loop_asked {r r' : Rd} {w : Nbw} {po : Option RequestParser} (f : Nat) {s s' : σ} {q : Request} {a : ListenerResult}
    (h : RequestParser.parse prof (po.getD .new) r = (.done q, r')) (hq : CloseAsked q) (ha : rt.result q s = (some a, s'))
    (hw : w.Healthy n) (hrt : rt.PartsLe n) :
    ∃ w', respondLoop prof rt (f + 1) ⟨r, w, po⟩ s = (.drop, ⟨r', w', none⟩, s') ∧ w'.Healthy n ∧
      w'.total = w.total ++ answerBytes a ∧ w.Later w' := by
  obtain ⟨x, w1, h4, h5⟩ := answer_written hrt hw.toOrderly ha
  obtain ⟨h6, h7, h8⟩ := h5.healthy hw
  simp only at h6 h7 h8
  subst h6
  refine ⟨w1, ?_, h7, h8, h5.1⟩
  rw [respondLoop, readRequest_ready (c := ⟨r, w, po⟩) h]
  simp only [h4, (closeAsked_iff q).2 hq, if_true]

/-! ### Several invocations -/

/-- After `t`, a call waits for more. -/
def Waits (prof : Profile) (t : Bytes) : Prop :=
  ∃ s r, mrun prof parseRequestLine false RequestParser.new ⟨[], t.map .byte⟩ = (.io s .wouldBlock, r)

theorem waits_of {t z : Bytes} {o : Out RequestParser ((Method × Bytes) × HeaderMap × Bytes)} {r : AR} {X : List Atom}
    (h : mrun prof parseRequestLine false RequestParser.new ⟨[], (t ++ z).map .byte ++ X⟩ = (o, r))
    (hr : r.atoms.length < z.length + X.length) : Waits prof t := by
  cases hm : mrun prof parseRequestLine false RequestParser.new ⟨[], t.map .byte⟩ with
  | mk o1 r1 =>
  by_cases hwb : ∃ s, o1 = .io s .wouldBlock
  · obtain ⟨s, rfl⟩ := hwb
    exact ⟨s, r1, hm⟩
  · have h4 := mrun_append (z.map .byte ++ X) hm (fun s hs => hwb ⟨s, hs⟩)
    rw [← List.append_assoc, ← List.map_append, h, Prod.mk.injEq] at h4
    rw [h4.2] at hr
    simp only [List.length_append, List.length_map] at hr
    omega

theorem mrun_done {p : RequestParser} {r r' : Rd} {as rest : List Atom} {q : Request} (hr : r.Ahead as) (hr' : r'.Ahead rest)
    (h : RequestParser.parse prof p r = (.done q, r')) :
    mrun prof parseRequestLine false p ⟨[], as⟩ = (.done ((q.method, q.uri), q.headers, q.body), ⟨[], rest⟩) := by
  have h3 := (request_isWrap prof).ahead (p := p) hr
  rw [h, hr'.abs] at h3
  simp only [wrap, Prod.mk.injEq] at h3
  obtain ⟨⟨⟨m, u⟩, hs, bd⟩, h4, h5⟩ := Out.bind_done h3.1
  cases h5
  exact Prod.ext h4 h3.2

theorem waits_of_fitting {t z : Bytes} {q : Request} (hz : z ≠ []) (hq : FittingRequest (t ++ z) q) : Waits prof t := by
  obtain ⟨s, hs⟩ := Rd.exists_ahead ((t ++ z).map .byte ++ [])
  obtain ⟨s', h1, h2⟩ := C04_request_accepted prof hq hs
  refine waits_of (mrun_done hs h2 h1) ?_
  have := List.length_pos_iff.2 hz
  simpa using this

/-- The bytes `u` since the last request have been received and `p` is the parser. -/
structure Got (prof : Profile) (u : Bytes) (p : RequestParser) : Prop where
  tracks : Tracks prof parseRequestLine false (u.map .byte) p
  line : LF ∉ u → p = .firstLine u ∧ LineSt u
  past : LF ∈ u → ∀ l, p ≠ .firstLine l

theorem got_new (prof : Profile) : Got prof [] RequestParser.new := ⟨tracks_new _ _ _, fun _ => ⟨rfl, LineSt.nil⟩, by simp⟩

theorem Got.same {u v : Bytes} {p : RequestParser} (h : Got prof u p) {X : List Atom}
    {o : Out RequestParser ((Method × Bytes) × HeaderMap × Bytes)} {r : AR}
    (hm : mrun prof parseRequestLine false RequestParser.new ⟨[], (u ++ v).map .byte ++ X⟩ = (o, r))
    (ho : ∀ s, o ≠ .io s .limitReached) :
    Near (o, r) (mrun prof parseRequestLine false p ⟨[], v.map .byte ++ X⟩) := by
  rw [show (u ++ v).map Atom.byte ++ X = u.map .byte ++ (v.map .byte ++ X) by simp] at hm
  rcases h.tracks.last (v.map .byte ++ X) with ⟨t, ht⟩ | hn
  · rw [show MsgState.firstLine [] = RequestParser.new from rfl, hm] at ht
    exact absurd ht (ho t)
  · rw [show MsgState.firstLine [] = RequestParser.new from rfl, hm] at hn
    exact hn

/-- The rest of a request. -/
theorem Got.request {u v : Bytes} {p : RequestParser} (h : Got prof u p) {q : Request} (hq : FittingRequest (u ++ v) q)
    {r : Rd} {X : List Atom} (hr : r.Ahead (v.map .byte ++ X)) :
    ∃ r', RequestParser.parse prof p r = (.done q, r') ∧ r'.Ahead X := by
  obtain ⟨s, hs⟩ := Rd.exists_ahead ((u ++ v).map .byte ++ X)
  obtain ⟨s', h1, h2⟩ := C04_request_accepted prof hq hs
  have h3 := (h.same (mrun_done hs h2 h1) (by simp)).same (by simp)
  refine (request_isWrap prof).of hr ?_
  simp only [wrap, ← h3, Out.bind]

/-- The rest of a malformed request. -/
theorem Got.bad {u v : Bytes} {p : RequestParser} (h : Got prof u p) {e : ParsingError} {rest X : List Atom}
    (hm : mrun prof parseRequestLine false RequestParser.new ⟨[], (u ++ v).map .byte ++ X⟩ = (.perr e, ⟨[], rest⟩))
    {r : Rd} (hr : r.Ahead (v.map .byte ++ X)) :
    ∃ r', RequestParser.parse prof p r = (.perr e, r') ∧ r'.Ahead rest := by
  have h3 := (h.same hm (by simp)).same (by simp)
  refine (request_isWrap prof).of hr ?_
  simp only [wrap, ← h3, Out.bind]

theorem msgStep_line {line : Bytes} (hl : LineSt line) {v : Bytes}
    {o : Out RequestParser RequestParser} {r : AR}
    (h : msgStep prof parseRequestLine false (.firstLine line) ⟨[], v.map .byte⟩ = (o, r)) :
    (∀ s, o = .io s .wouldBlock → LF ∉ v ∧ (line ++ v).length ≤ 512 ∧ s = .firstLine (if utf8Valid v then line ++ v else line)) ∧
      ∀ st, o = .done st → LF ∈ v ∧ ∀ l, st ≠ .firstLine l := by
  simp only [msgStep, firstLineState, Prod.mk.injEq] at h
  obtain ⟨h, -⟩ := h
  constructor
  · rintro s rfl
    obtain ⟨l', h1, h2⟩ := Out.bind_io h (by intro v; cases parseRequestLine v <;> simp)
    obtain ⟨-, h4, h5, -, -, h6⟩ := crlf_pause hl.short hl.noLf (by simp [WB]) (Prod.ext h1 rfl)
    rw [bytesOf_map] at h4 h5 h6
    exact ⟨h4, by omega, by rw [h2, h6]⟩
  · rintro st rfl
    obtain ⟨l, h1, h2⟩ := Out.bind_done h
    refine ⟨?_, ?_⟩
    · obtain ⟨pre, hc, -, he⟩ := (crlf_run (prof := prof) (line := line) (a := ⟨[], v.map .byte⟩) hl rfl).1 l h1
      have hm : LF ∈ line ++ bytesOf pre := by rw [he]; simp [CRLF]
      simp only [List.mem_append, hl.noLf, false_or] at hm
      have hp : v.map Atom.byte = pre ++ _ := hc.atoms
      have := congrArg bytesOf hp
      rw [bytesOf_map, bytesOf_append] at this
      rw [this]; simp [hm]
    · cases hp : parseRequestLine l with
      | error e => simp [hp] at h2
      | ok t => simp only [hp] at h2; cases h2; simp

theorem SafeCut.right {as bs : List Atom} (h : SafeCut (as ++ bs)) : SafeCut bs := by
  intro x hx hn
  refine h x ?_ hn
  rw [bytesOf_append]
  exact hx.trans (List.suffix_append _ _)

theorem SafeCut.nil : SafeCut [] := fun x hx _ => by rw [List.suffix_nil.1 hx]; rfl

theorem SafeCut.append {as bs : List Atom} (h : SafeCut as) (h' : SafeCut bs) : SafeCut (as ++ bs) := by
  intro x hx hn
  rw [bytesOf_append] at hx
  obtain ⟨y, hy⟩ := hx
  rcases List.append_eq_append_iff.1 hy with ⟨z, h1, h2⟩ | ⟨z, h1, h2⟩
  · rw [h2] at hn ⊢
    simp only [List.mem_append, not_or] at hn
    rw [utf8_append (h z ⟨y, h1.symm⟩ hn.1)]
    exact h' _ (List.suffix_refl _) hn.2
  · exact h' x ⟨z, h2.symm⟩ hn

theorem Harmless.nil : Harmless [] := .line .nil

theorem pausesWell_safe {ps : List Bytes} (h : ∀ a ∈ ps, SafeCut (a.map .byte)) : PausesWell ps := by
  have hf : ∀ l : List Bytes, (∀ a ∈ l, SafeCut (a.map .byte)) → SafeCut (l.flatten.map .byte) := by
    intro l
    induction l with
    | nil => exact fun _ => SafeCut.nil
    | cons a l ih =>
      intro h
      rw [List.flatten_cons, List.map_append]
      exact (h a (by simp)).append (ih fun a ha => h a (by simp [ha]))
  rintro l a m rfl
  refine .line ?_
  rw [List.map_append]
  exact (hf l fun a ha => h a (by simp [ha])).append (h a (by simp))

/-- Whatever follows it, a new parser that receives the text `w` comes to `o` at its end. -/
def Decides (prof : Profile) (w : Bytes) (o : Out RequestParser Request) : Prop := w ≠ [] ∧ (∀ p e, o ≠ .io p e) ∧
  ∀ {r : Rd} {rest : List Atom}, r.Ahead (w.map .byte ++ rest) → ∃ r', RequestParser.parse prof .new r = (o, r') ∧ r'.Ahead rest

theorem FittingRequest.ne_nil {q : Request} (h : FittingRequest [] q) : False := by
  obtain ⟨line, fs, f, bw, hl, hm, hh, hf⟩ := h
  have := hm.wire
  simp [CRLF] at this

theorem FittingRequest.decides {w : Bytes} {q : Request} (hq : FittingRequest w q) : Decides prof w (.done q) :=
  ⟨by rintro rfl; exact hq.ne_nil, by simp, fun hr => C04_request_accepted prof hq hr⟩

theorem Decides.unique {w w' p p' : Bytes} {o o' : Out RequestParser Request} (h : Decides prof w o) (h' : Decides prof w' o')
    (e : w ++ p = w' ++ p') : p = p' := by
  obtain ⟨r, hr⟩ := Rd.exists_ahead ((w ++ p).map .byte)
  obtain ⟨r₁, h1, h2⟩ := h.2.2 (r := r) (rest := p.map .byte) (by rw [← List.map_append]; exact hr)
  obtain ⟨r₂, h3, h4⟩ := h'.2.2 (r := r) (rest := p'.map .byte) (by rw [← List.map_append, ← e]; exact hr)
  rw [h1] at h3
  cases h3
  have := h2.2.symm.trans h4.2
  have := congrArg bytesOf this
  rwa [bytesOf_map, bytesOf_map] at this

/-- After a request, the next one may pause where all together may. -/
theorem Harmless.shift {w p : Bytes} {o : Out RequestParser Request} (hq : Decides prof w o) (h : Harmless (w ++ p)) : Harmless p := by
  generalize hu : w ++ p = u at h
  cases h with
  | line h =>
    subst hu
    rw [List.map_append] at h
    exact .line h.right
  | @next p' x c q hf hc =>
    subst hu
    have := hq.unique (p := p ++ c :: x) (p' := []) (hf.decides (prof := prof)) (by simp)
    simp at this
  | @after w' p' q hf hp =>
    rw [hq.unique (hf.decides (prof := prof)) hu]
    exact hp

theorem Harmless.shifts (prof : Profile) {ms : List (Bytes × Request)} (hms : ∀ m ∈ ms, FittingRequest m.1 m.2) {p : Bytes} (h : Harmless (ms.flatMap Prod.fst ++ p)) : Harmless p := by
  induction ms with
  | nil => exact h
  | cons m ms ih =>
    rw [List.flatMap_cons, List.append_assoc] at h
    exact ih (fun m hm => hms m (by simp [hm])) (h.shift ((hms m (by simp)).decides (prof := prof)))

/-- What came of the first line of a request that goes on with the beginning of a character is text. -/
theorem FittingRequest.firstText {u x : Bytes} {c : UInt8} {q : Request} (h : FittingRequest (u ++ c :: x) q) (hc : isCont c = false) (hu : LF ∉ u) : utf8Valid u = true := by
  obtain ⟨line, fs, f, bw, -, hm, -, -⟩ := h
  have hw := hm.wire
  obtain ⟨hno, hutf, -⟩ := hm.lineOk
  simp only [List.append_assoc] at hw
  rcases List.append_eq_append_iff.1 hw with ⟨y, h1, h2⟩ | ⟨y, h1, h2⟩
  · cases y with
    | nil => rw [List.append_nil] at h1; rw [← h1]; exact hutf
    | cons d y =>
      rw [List.cons_append, List.cons.injEq] at h2
      rw [h1, ← h2.1] at hutf
      exact utf8_left hc hutf
  · -- at most the carriage return follows the line
    have : y = [] ∨ y = [CR] := by
      cases y with
      | nil => exact .inl rfl
      | cons d y =>
        simp only [CRLF, List.cons_append, List.nil_append, List.cons.injEq] at h2
        obtain ⟨rfl, h2⟩ := h2
        cases y with
        | nil => exact .inr rfl
        | cons d y =>
          simp only [List.cons_append, List.cons.injEq] at h2
          exact absurd (by rw [h1, ← h2.1]; simp) hu
    rw [h1]
    rcases this with rfl | rfl
    · simpa using hutf
    · rw [utf8_append hutf]; decide

/-- A harmless pause where more is to come. -/
theorem Harmless.waiting {u v : Bytes} (h : Harmless (u ++ v)) (hw : Waits prof (u ++ v)) (p : RequestParser) :
    (CleanStop p (v.map .byte) ∨ CompletesBy (fun as => mrun prof parseRequestLine false (.firstLine []) ⟨[], as⟩) (u.map .byte ++ v.map .byte)) ∧
      (utf8Valid u = true → LF ∉ u ++ v → utf8Valid v = true) := by
  generalize hz : u ++ v = z at h
  cases h with
  | line h =>
    subst hz
    rw [List.map_append] at h
    exact ⟨.inl (h.right.clean p), fun _ hn => h.right v (by rw [bytesOf_map]; exact List.suffix_refl v) (fun hl => hn (by simp [hl]))⟩
  | @next p' x c q hf hc =>
    subst hz
    refine ⟨.inr ?_, fun hu hn => ?_⟩
    · obtain ⟨t, ht⟩ := Rd.exists_ahead ((u ++ v ++ c :: x).map .byte ++ [])
      obtain ⟨t', h1, h2⟩ := C04_request_accepted prof hf ht
      exact ⟨c, x.map .byte, _, _, hc, by simpa [RequestParser.new] using mrun_done ht h2 h1⟩
    · have := hf.firstText hc hn
      rwa [utf8_append hu] at this
  | @after w' p' q hf hp =>
    exfalso
    obtain ⟨t, r1, hm⟩ := hw
    obtain ⟨s, hs⟩ := Rd.exists_ahead (w'.map .byte ++ p'.map .byte)
    obtain ⟨s', h1, h2⟩ := C04_request_accepted prof hf hs
    have h3 := mrun_done hs h2 h1
    rw [← List.map_append, ← hz, hm] at h3
    cases h3

/-- A part of a request that is not the whole of the rest. -/
theorem Got.part {u v : Bytes} {p : RequestParser} (h : Got prof u p) (hq : Waits prof (u ++ v)) {r : Rd} {X : List Atom}
    (hr : r.Ahead (v.map .byte ++ X)) (hX : X = [] ∨ ∃ Y, X = WB :: Y) :
    ∃ p' r', RequestParser.parse prof p r = (.io p' .wouldBlock, r') ∧ r'.Ahead X.tail ∧
      (Harmless (u ++ v) → Got prof (u ++ v) p') := by
  have hw := hq
  obtain ⟨t, r1, hm⟩ := hq
  have hn := h.same (v := v) (X := []) (by simpa using hm) (by simp)
  have hst : ∃ s', (mrun prof parseRequestLine false p ⟨[], v.map .byte⟩).1 = .io s' .wouldBlock := by
    rw [List.append_nil] at hn
    rcases hn.2 with h3 | ⟨_, s', e, h3, h4⟩
    · exact ⟨t, h3.symm⟩
    · cases h3; exact ⟨s', h4⟩
  obtain ⟨p', hst⟩ := hst
  obtain ⟨r2, hst⟩ : ∃ r2, mrun prof parseRequestLine false p ⟨[], v.map .byte⟩ = (.io p' .wouldBlock, r2) :=
    ⟨_, Prod.ext hst rfl⟩
  have hlim := mrun_lims (prof := prof) (pf := parseRequestLine) (b := false) (st := p) (as := v.map .byte)
  rw [hst] at hlim
  obtain ⟨ls2, as2⟩ := r2
  simp only at hlim
  subst hlim
  have hnwb : WB ∉ v.map Atom.byte := by simp [WB]
  have hgot : Harmless (u ++ v) → Got prof (u ++ v) p' := fun hv => by
    obtain ⟨hclean, hline⟩ := hv.waiting hw p'
    have h1 := h.tracks.pause hnwb hst hclean
    rw [← List.map_append] at h1
    by_cases hu : LF ∈ u
    · exact ⟨h1, fun h2 => absurd (by simp [hu]) h2, fun _ => mrun_past (h.past hu) hst⟩
    · obtain ⟨rfl, hlen⟩ := h.line hu
      rw [mrun_cont _ _ _ _ _ rfl] at hst
      cases hms : msgStep prof parseRequestLine false (.firstLine u) ⟨[], v.map .byte⟩ with
      | mk o r3 =>
      obtain ⟨e1, e2⟩ := msgStep_line hlen hms
      rw [hms] at hst
      cases o with
      | done st =>
        obtain ⟨e3, e4⟩ := e2 st rfl
        exact ⟨h1, fun h2 => absurd (by simp [e3]) h2, fun _ => mrun_past e4 hst⟩
      | io s e =>
        simp only [Out.cont, id, Prod.mk.injEq, Out.io.injEq] at hst
        obtain ⟨⟨rfl, rfl⟩, -⟩ := hst
        obtain ⟨e3, e4, e5⟩ := e1 s rfl
        have hval : utf8Valid v = true := hline hlen.utf8 (by simp [hu, e3])
        rw [hval, if_pos rfl] at e5
        exact ⟨h1, fun _ => ⟨e5, ⟨by simp [hu, e3], (utf8_append hlen.utf8 v).trans hval, e4⟩⟩, fun h2 => absurd h2 (by simp [hu, e3])⟩
      | _ => simp [Out.cont] at hst
  rcases hX with rfl | ⟨Y, rfl⟩
  · obtain ⟨h5, -⟩ := mrun_block [] hnwb hst
    obtain ⟨r', h6, h7⟩ := (request_isWrap prof).of (p := p) (o := .io p' .wouldBlock) (rest := []) (as := v.map .byte)
      (by simpa using hr) (by
        simp only at h5
        subst h5
        simp only [wrap, hst, Out.bind, id])
    exact ⟨p', r', h6, h7, hgot⟩
  · obtain ⟨-, h5⟩ := mrun_block Y hnwb hst
    obtain ⟨r', h6, h7⟩ := (request_isWrap prof).of (p := p) (o := .io p' .wouldBlock) (rest := Y)
      (as := v.map .byte ++ WB :: Y) hr (by simp only [wrap, h5, Out.bind, id])
    exact ⟨p', r', h6, h7, hgot⟩

/-- The end of the stream in a request. -/
theorem Got.eof {u v : Bytes} {p : RequestParser} (h : Got prof u p) (hq : Waits prof (u ++ v)) {r : Rd} {X : List Atom}
    (hr : r.Ahead (v.map .byte ++ .eof :: X)) :
    ∃ r', (∃ e, RequestParser.parse prof p r = (.perr e, r')) ∨
      ∃ s, RequestParser.parse prof p r = (.io s .unexpectedEof, r') ∧ (LF ∈ u ++ v → RequestParser.hasData s = true) ∧
        (LF ∉ u ++ v → s = .firstLine (match popChar (u ++ v) with | some (x, _) => x | none => [])) := by
  obtain ⟨t, r1, hm⟩ := hq
  have hc := mrun_cut (X := X) prof parseRequestLine (st := RequestParser.new) (by simp [RequestParser.new, MsgState.Awaits])
    [] (as := (u ++ v).map .byte) (by simp [WB])
  rw [hm] at hc
  have hbad : EndsBad (mrun prof parseRequestLine false RequestParser.new ⟨[], (u ++ v).map .byte ++ .eof :: X⟩) := by
    rcases hc with ⟨_, _, _, h1, -⟩ | ⟨-, h1⟩ | ⟨-, h1⟩
    · cases h1
    · exact h1
    · exact absurd rfl (h1 t)
  obtain ⟨oM, rM, hM⟩ : ∃ oM rM, mrun prof parseRequestLine false RequestParser.new
      ⟨[], (u ++ v).map .byte ++ .eof :: X⟩ = (oM, rM) := ⟨_, _, Prod.ext rfl rfl⟩
  rw [hM] at hbad
  have hn := h.same (v := v) (X := .eof :: X) hM (by
    rintro s rfl
    rcases hbad with ⟨s', h1⟩ | ⟨e, h1⟩ <;> cases h1)
  have hbad' : EndsBad (mrun prof parseRequestLine false p ⟨[], v.map .byte ++ .eof :: X⟩) := by
    rcases hn.2 with h1 | ⟨s, s', e, h1, h2⟩
    · unfold EndsBad; rw [← h1]; exact hbad
    · rcases hbad with ⟨s'', h3⟩ | ⟨e', h3⟩
      · rw [h3] at h1; cases h1; exact .inl ⟨s', h2⟩
      · rw [h3] at h1; cases h1
  have hw := (request_isWrap prof).ahead (p := p) hr
  simp only [wrap, Prod.mk.injEq] at hw
  refine ⟨(RequestParser.parse prof p r).2, ?_⟩
  rcases hbad' with ⟨s, h1⟩ | ⟨e, h1⟩
  · right
    rw [h1] at hw
    refine ⟨s, Prod.ext hw.1.symm rfl, ?_⟩
    by_cases hu : LF ∈ u
    · refine ⟨fun _ => ?_, fun h2 => absurd (by simp [hu]) h2⟩
      have := mrun_past (h.past hu) (Prod.ext h1 rfl)
      cases s with
      | firstLine l => exact absurd rfl (this l)
      | _ => rfl
    · obtain ⟨rfl, hlen⟩ := h.line hu
      rw [mrun_cont _ _ _ _ _ rfl] at h1
      simp only [msgStep, firstLineState] at h1
      rw [crlf_eq prof u _ (sub_le prof (show u.length ≤ maxLineSize from hlen.short))] at h1
      obtain ⟨pre, h5, -, -⟩ := scan_spec LF ((maxLineSize - u.length) :: []) (v.map .byte ++ .eof :: X)
      revert h1 h5
      generalize AR.scan LF ((maxLineSize - u.length) :: []) (v.map .byte ++ .eof :: X) = y
      obtain ⟨o, bs, ls', as'⟩ := y
      simp only
      intro h1 h5
      generalize has : v.map Atom.byte ++ .eof :: X = as at h5
      cases h5 with
      | found hq' hd' =>
        rw [crlfOut_found] at h1
        refine ⟨fun _ => ?_, fun hno => ?_⟩
        · by_cases hv : utf8Valid (bytesOf pre) = true
          · simp only [hv, if_true] at h1
            cases hp : parseCrlfLine (u ++ bytesOf pre) with
            | error e => simp [hp, Out.ofExcept, Out.bind, Out.cont] at h1
            | ok l' =>
              cases hp2 : parseRequestLine l' with
              | error e => simp [hp, Out.ofExcept, Out.bind, hp2, Out.cont] at h1
              | ok t =>
                simp only [hp, Out.ofExcept, Out.bind, hp2, Out.cont] at h1
                have := mrun_past (by simp) (Prod.ext h1 rfl)
                cases s with
                | firstLine l => exact absurd rfl (this l)
                | _ => rfl
          · simp [hv, Out.bind, Out.cont] at h1
        · exfalso
          -- the line feed would be in `v`
          have : Atom.byte LF ∈ v.map Atom.byte := by
            rcases List.append_eq_append_iff.1 has with ⟨a, h6, h7⟩ | ⟨a, h6, h7⟩
            · cases a with
              | nil => simp at h7
              | cons x a =>
                simp only [List.cons_append, List.cons.injEq] at h7
                rw [h6] at hq'
                rcases hq' .eof (by rw [← h7.1]; simp) with ⟨b, hb⟩ | hb <;> cases hb
            · cases a with
              | nil => simp at h7
              | cons x a =>
                simp only [List.cons_append, List.cons.injEq] at h7
                rw [h6, ← h7.1]; simp
          simp only [List.mem_map, Atom.byte.injEq, exists_eq_right] at this
          exact hno (by simp [this])
      | eof hq' hd' _ =>
        have hv : bytesOf pre = v := by
          rcases List.append_eq_append_iff.1 has with ⟨a, h6, h7⟩ | ⟨a, h6, h7⟩
          · cases a with
            | nil => rw [List.append_nil] at h6; rw [h6, bytesOf_map]
            | cons x a =>
              simp only [List.cons_append, List.cons.injEq] at h7
              rw [h6] at hq'
              rcases hq' .eof (by rw [← h7.1]; simp) with ⟨b, hb⟩ | hb <;> cases hb
          · cases a with
            | nil => rw [List.append_nil] at h6; rw [← h6, bytesOf_map]
            | cons x a =>
              simp only [List.cons_append, List.cons.injEq] at h7
              have : Atom.eof ∈ v.map Atom.byte := by rw [h6, ← h7.1]; simp
              simp at this
        subst hv
        refine ⟨fun hno => absurd hno (by simp [hu, hd']), fun _ => ?_⟩
        simp only [crlfOut] at h1
        by_cases hvalid : utf8Valid (bytesOf pre) = true
        · simp only [hvalid, if_true] at h1
          cases hp : popChar (u ++ bytesOf pre) with
          | none =>
            simp only [hp, Out.bind, Out.cont, id, Out.io.injEq] at h1
            rw [← h1.1]
            have : u ++ bytesOf pre = [] := popChar_none hp
            rw [this]
          | some x =>
            obtain ⟨rest, c⟩ := x
            have happ := popChar_append hp
            have hcl : c ≠ [LF] := by
              intro hcl
              have : LF ∈ u ++ bytesOf pre := by rw [happ, hcl]; simp
              simp [hu, hd'] at this
            simp only [hp, hcl, if_false, Out.bind, Out.cont, id, Out.io.injEq] at h1
            rw [← h1.1]
        · simp [hvalid, Out.bind, Out.cont] at h1
      | err e hq' hd' _ _ =>
        exfalso
        have : Atom.err e ∈ v.map Atom.byte ++ .eof :: X := by rw [has]; simp
        unfold crlfOut at h1
        by_cases hvalid : utf8Valid (bytesOf pre) = true
        all_goals
          by_cases he : e = .invalidData
          · simp [hvalid, he, Out.bind, Out.cont] at h1
          · simp only [hvalid, he, if_false, if_true, Out.bind, Out.cont, Bool.false_eq_true] at h1
            simp only [Out.io.injEq] at h1
            rcases List.append_eq_append_iff.1 has with ⟨a, h6, h7⟩ | ⟨a, h6, h7⟩
            · cases a with
              | nil => simp at h7
              | cons x a =>
                simp only [List.cons_append, List.cons.injEq] at h7
                rw [h6] at hq'
                rcases hq' .eof (by rw [← h7.1]; simp) with ⟨b, hb⟩ | hb <;> cases hb
            · cases a with
              | nil => simp at h7
              | cons x a =>
                simp only [List.cons_append, List.cons.injEq] at h7
                have : x ∈ v.map Atom.byte := by rw [h6]; simp
                rw [← h7.1] at this
                simp at this
      | limit hq' hd' _ =>
        exfalso
        unfold crlfOut at h1
        by_cases hvalid : utf8Valid (bytesOf pre) = true <;> simp [hvalid, Out.bind, Out.cont] at h1
      | out hq' hd' h0 he =>
        exfalso
        rw [← has] at hq'
        rcases hq' .eof (by simp) with ⟨b, hb⟩ | hb <;> cases hb
  · left
    rw [h1] at hw
    exact ⟨e, Prod.ext hw.1.symm rfl⟩

theorem unfinished_nil : Unfinished [] :=
  ⟨b!"GET / HTTP/1.1\r\n\r\n", _, by decide, fitting_of (prof := ⟨true⟩) (q := ⟨b!"/", .get, [], []⟩) (by decide +kernel)⟩

theorem Unfinished.waits {t t' : Bytes} (h : Unfinished t) (ht : t' <+: t) : Waits prof t' := by
  obtain ⟨z, q, hz, hq⟩ := h
  obtain ⟨y, rfl⟩ := ht
  rw [List.append_assoc] at hq
  exact waits_of_fitting (by simp [hz]) hq

/-- The part `a` of a stream of requests is received. -/
theorem Got.piece {ms : List (Bytes × Request)} (hms : ∀ m ∈ ms, FittingRequest m.1 m.2) {t : Bytes}
    (ht : ∀ t', t' <+: t → Waits prof t')
    {u a Z : Bytes} {p : RequestParser} (h : Got prof u p) (hu : ∀ m ∈ ms.head?, u.length < m.1.length)
    (he : u ++ a ++ Z = ms.flatMap Prod.fst ++ t) {r : Rd} {X : List Atom} (hr : r.Ahead (a.map .byte ++ X))
    (hX : X = [] ∨ ∃ Y, X = WB :: Y) :
    ∃ m1 m2 u' p1 r1 p2 r2, ms = m1 ++ m2 ∧ u ++ a = m1.flatMap Prod.fst ++ u' ∧ u' ++ Z = m2.flatMap Prod.fst ++ t ∧
      (∀ m ∈ m2.head?, u'.length < m.1.length) ∧ Delivers prof p r (m1.map Prod.snd) p1 r1 ∧
      RequestParser.parse prof p1 r1 = (.io p2 .wouldBlock, r2) ∧ r2.Ahead X.tail ∧
      (Harmless u' → Got prof u' p2) := by
  induction ms generalizing u a p r with
  | nil =>
    simp only [List.flatMap_nil, List.nil_append] at he
    obtain ⟨p2, r2, h1, h2, h3⟩ := h.part (ht (u ++ a) ⟨Z, he⟩) hr hX
    exact ⟨[], [], u ++ a, p, r, p2, r2, rfl, rfl, he, by simp, .nil, h1, h2, h3⟩
  | cons m ms ih =>
    have hm := hms m (by simp)
    have hu' := hu m (by simp)
    simp only [List.flatMap_cons, List.append_assoc] at he
    by_cases hlt : (u ++ a).length < m.1.length
    · have e1 : m.1 = u ++ a ++ m.1.drop (u ++ a).length := by
        rw [← List.append_assoc] at he
        have := congrArg (List.take (u ++ a).length) he
        rw [List.take_append_of_le_length (Nat.le_refl _), List.take_length,
          List.take_append_of_le_length (Nat.le_of_lt hlt)] at this
        rw [this, List.length_take, Nat.min_eq_left (Nat.le_of_lt hlt), List.take_append_drop]
      rw [e1] at hm
      obtain ⟨p2, r2, h1, h2, h3⟩ := h.part (waits_of_fitting (by
        intro h0
        have := congrArg List.length h0
        simp only [List.length_drop, List.length_nil] at this
        omega) hm) hr hX
      refine ⟨[], m :: ms, u ++ a, p, r, p2, r2, rfl, rfl, by simpa using he, ?_, .nil, h1, h2, h3⟩
      intro m' hm'
      simp only [List.head?_cons, Option.mem_some_iff] at hm'
      rw [← hm']; exact hlt
    · -- the request is completed
      have e0 : m.1 = u ++ a.take (m.1.length - u.length) := by
        have := congrArg (List.take m.1.length) he
        rw [List.take_append_of_le_length (Nat.le_refl _), List.take_length, List.take_append,
          List.take_of_length_le (Nat.le_of_lt hu'), List.take_append_of_le_length (by
            simp only [List.length_append] at hlt; omega)] at this
        exact this.symm
      have ea : a = a.take (m.1.length - u.length) ++ a.drop (m.1.length - u.length) := (List.take_append_drop _ _).symm
      generalize a.take (m.1.length - u.length) = a1 at e0 ea
      generalize a.drop (m.1.length - u.length) = a2 at ea
      subst ea
      rw [e0] at hm
      obtain ⟨r1, h1, h2⟩ := h.request hm (r := r) (X := a2.map .byte ++ X) (by simpa using hr)
      have he2 : [] ++ a2 ++ Z = ms.flatMap Prod.fst ++ t := by
        rw [e0] at he
        simpa using he
      obtain ⟨m1, m2, u', p1, r1', p2, r2, i1, i2, i3, i4, i5, i6, i7, i8⟩ := ih (fun x hx => hms x (by simp [hx]))
        (got_new prof) (by
          intro x hx
          have := hms x (by simp [List.mem_of_mem_head? hx])
          cases hx1 : x.1 with
          | nil => rw [hx1] at this; exact this.ne_nil.elim
          | cons _ _ => simp) he2 h2
      refine ⟨m :: m1, m2, u', p1, r1', p2, r2, by rw [i1]; rfl, ?_, i3, i4, .cons h1 i5, i6, i7, i8⟩
      simp only [List.nil_append] at i2
      rw [List.flatMap_cons, e0, i2]; simp

/-- The rest of some requests is received, and then `t` is next. -/
theorem Got.deliver {ms : List (Bytes × Request)} (hms : ∀ m ∈ ms, FittingRequest m.1 m.2) {t u a : Bytes}
    {p : RequestParser} (h : Got prof u p) (hu : ∀ m ∈ ms.head?, u.length < m.1.length)
    (he : u ++ a = ms.flatMap Prod.fst ++ t) {r : Rd} {X : List Atom} (hr : r.Ahead (a.map .byte ++ X)) :
    ∃ u' a' p' r', u' ++ a' = t ∧ a' <:+ a ∧ Delivers prof p r (ms.map Prod.snd) p' r' ∧ Got prof u' p' ∧
      r'.Ahead (a'.map .byte ++ X) := by
  induction ms generalizing u a p r with
  | nil => exact ⟨u, a, p, r, by simpa using he, List.suffix_refl a, .nil, h, hr⟩
  | cons m ms ih =>
    have hu' := hu m (by simp)
    simp only [List.flatMap_cons, List.append_assoc] at he
    obtain ⟨a1, h1, h2⟩ : ∃ a1, m.1 = u ++ a1 ∧ a = a1 ++ (ms.flatMap Prod.fst ++ t) := by
      rcases List.append_eq_append_iff.1 he with ⟨x, h1, h2⟩ | ⟨x, h1, h2⟩
      · exact ⟨x, h1, h2⟩
      · have := congrArg List.length h1
        simp only [List.length_append] at this
        omega
    have hm := hms m (by simp)
    rw [h1] at hm
    subst h2
    obtain ⟨r1, e1, e2⟩ := h.request hm (r := r) (X := (ms.flatMap Prod.fst ++ t).map .byte ++ X) (by simpa using hr)
    obtain ⟨u', a', p', r', i1, i2, i3, i4, i5⟩ := ih (fun x hx => hms x (by simp [hx])) (got_new prof) (by
        intro x hx
        have := hms x (by simp [List.mem_of_mem_head? hx])
        cases hx1 : x.1 with
        | nil => rw [hx1] at this; exact this.ne_nil.elim
        | cons _ _ => simp) rfl e2
    exact ⟨u', a', p', r', i1, i2.trans (List.suffix_append _ _), .cons e1 i3, i4, i5⟩

theorem Served.split {s s' : σ} {qs qs' : List Request} {out : Bytes} (h : Served rt s (qs ++ qs') out s') :
    ∃ o1 o2 s1, out = o1 ++ o2 ∧ Served rt s qs o1 s1 ∧ Served rt s1 qs' o2 s' := by
  induction qs generalizing s out with
  | nil => exact ⟨[], out, s, rfl, .nil, h⟩
  | cons q qs ih =>
    cases h with
    | @cons _ s1 _ _ _ a out h1 h2 =>
    obtain ⟨o1, o2, s2, e, h3, h4⟩ := ih h2
    exact ⟨answerBytes a ++ o1, o2, s2, by rw [e, List.append_assoc], .cons h1 h3, h4⟩

/-- The writer in a new invocation. -/
theorem wake_healthy {w : Nbw} (hw : w.Steady) {evs : List WEv} {cap : Nat} (hc : cap ≤ w.cap) (he : Calm n cap evs) :
    ({ w with sock := { w.sock with evs } } : Nbw).Healthy n := by
  refine ⟨⟨hw.1, fun h => ?_, he.2.imp id fun h => Nat.le_trans h hc⟩, fun e hf => ?_⟩
  · cases he.1 _ h
  · rcases hf.2 with h | h
    · exact hf.1 (he.1 e h)
    · exact hf.1 (hw.2 e h)

theorem healthy_steady {w : Nbw} (hw : w.Healthy n) : w.Steady :=
  ⟨hw.ok, fun e he => Classical.byContradiction fun hne => hw.sound e ⟨hne, .inr he⟩⟩

theorem handleAll_append (es es' : List (List WEv)) (slot : Slot Rd Nbw) (s : σ) :
    handleAll prof rt (es ++ es') slot s =
      handleAll prof rt es' (handleAll prof rt es slot s).1 (handleAll prof rt es slot s).2 := by
  induction es generalizing slot s with
  | nil => rfl
  | cons e es ih => simp only [List.cons_append, handleAll]; exact ih _ _

theorem handleAll_gone (es : List (List WEv)) (c : Conn Rd Nbw) (s : σ) :
    handleAll prof rt es (.gone c) s = (.gone c, s) := by
  induction es with
  | nil => rfl
  | cons e es ih => simp only [handleAll, Slot.wake, handle]; exact ih

theorem handleAll_poisoned (es : List (List WEv)) (c : Conn Rd Nbw) (s : σ) :
    handleAll prof rt es (.poisoned c) s = (.poisoned c, s) := by
  induction es with
  | nil => rfl
  | cons e es ih => simp only [handleAll, Slot.wake, handle]; exact ih

/-- Pieces of a stream of requests, each followed by a pause. -/
theorem handleAll_pieces {ms : List (Bytes × Request)} (hms : ∀ m ∈ ms, FittingRequest m.1 m.2) {t : Bytes}
    (ht : ∀ t', t' <+: t → Waits prof t')
    (hopen : ∀ m ∈ ms, ¬ CloseAsked m.2) {ps : List Bytes} {u Z : Bytes} (hps : ∀ l a m, ps = l ++ a :: m → Harmless (u ++ (l.flatten ++ a)))
    {c : Conn Rd Nbw} {X : List Atom} (hr : c.reader.Ahead (spaced (ps.map fun a => a.map .byte) X))
    (h : Got prof u (c.parser.getD .new)) (hu : ∀ m ∈ ms.head?, u.length < m.1.length)
    (he : u ++ ps.flatten ++ Z = ms.flatMap Prod.fst ++ t) {cap : Nat} {es : List (List WEv)}
    (hes : es.length = ps.length) (hcalm : ∀ evs ∈ es, Calm n cap evs) (hcap : cap ≤ c.writer.cap)
    (hw : c.writer.Steady) (hrt : rt.PartsLe n) {s s' : σ} {out : Bytes} (hs : Served rt s (ms.map Prod.snd) out s') :
    ∃ (c' : Conn Rd Nbw) (m2 : List (Bytes × Request)) (u' o1 o2 : Bytes) (s1 : σ), handleAll prof rt es (.live c) s = (.live c', s1) ∧ c'.reader.Ahead X ∧
      c'.writer.Steady ∧ cap ≤ c'.writer.cap ∧ c'.writer.total = c.writer.total ++ o1 ∧
      c.writer.sock.sent <+: c'.writer.sock.sent ∧ (∀ m ∈ m2, m ∈ ms) ∧
      Got prof u' (c'.parser.getD .new) ∧ (∀ m ∈ m2.head?, u'.length < m.1.length) ∧
      u' ++ Z = m2.flatMap Prod.fst ++ t ∧ out = o1 ++ o2 ∧ Served rt s1 (m2.map Prod.snd) o2 s' := by
  induction ps generalizing ms u c es s out with
  | nil =>
    obtain rfl := List.length_eq_zero_iff.1 hes
    exact ⟨c, ms, u, [], out, s, rfl, hr, hw, hcap, by simp, List.prefix_refl _, fun _ h => h, h, hu, by simpa using he, rfl, hs⟩
  | cons a ps ih =>
    obtain ⟨evs, es, rfl⟩ : ∃ x y, es = x :: y := by
      cases es with
      | nil => simp at hes
      | cons x y => exact ⟨x, y, rfl⟩
    obtain ⟨m1, m2, u', p1, r1, p2, r2, i1, i2, i3, i4, i5, i6, i7, i8⟩ := h.piece hms ht hu (a := a)
      (Z := ps.flatten ++ Z) (by simpa using he) (X := WB :: spaced (ps.map fun a => a.map .byte) X)
      (by simpa [spaced] using hr) (.inr ⟨_, rfl⟩)
    subst i1
    have hps1 : Harmless u' := by
      refine Harmless.shifts prof (ms := m1) (fun m hm => hms m (by simp [hm])) ?_
      rw [← i2]
      simpa using hps [] a ps rfl
    have hps2 : ∀ l x m, ps = l ++ x :: m → Harmless (u' ++ (l.flatten ++ x)) := fun l x m e => by
      refine Harmless.shifts prof (ms := m1) (fun m hm => hms m (by simp [hm])) ?_
      rw [← List.append_assoc, ← i2]
      simpa using hps (a :: l) x m (by rw [e]; rfl)
    rw [List.map_append] at hs
    obtain ⟨o1, o2, s1, rfl, hs1, hs2⟩ := hs.split
    obtain ⟨w₁, po₁, f, e1, e2, e3, e4, e5⟩ := handle_delivers
      (c := { c with writer := { c.writer with sock := { c.writer.sock with evs } } }) i5 hr.1
      (by simpa using fun q x hx => hopen (x, q) (by simp [hx])) hs1
      (wake_healthy (evs := evs) hw hcap (hcalm _ (by simp))) hrt
    rw [loop_notReady f (by rw [e1]; exact i6)] at e5
    obtain ⟨c', m2', u'', o1', o2', s2, j1, j2, j3, j4, j5, j6, j7, j8, j9, j10, j11, j12⟩ :=
      ih (ms := m2) (c := ⟨r2, w₁, some p2⟩) (es := es) (u := u')
      (fun m hm => hms m (by simp [hm])) (fun m hm => hopen m (by simp [hm])) hps2 i7
      (i8 hps1) i4 (by simpa using i3) (by simpa using hes) (fun e he => hcalm e (by simp [he]))
      (Nat.le_trans hcap e4.cap) (healthy_steady e2) hs2
    refine ⟨c', m2', u'', o1 ++ o1', o2', s2, ?_, j2, j3, j4, ?_, e4.sent.trans j6, fun m hm => by simp [j7 m hm], j8, j9, j10,
      by rw [j11, List.append_assoc], j12⟩
    · simp only [handleAll, Slot.wake, e5, finish]
      exact j1
    · rw [j5]
      simp only [e3, ← List.append_assoc]
      rfl

/-- The last invocation begins. -/
theorem handleAll_last {ms : List (Bytes × Request)} (hms : ∀ m ∈ ms, FittingRequest m.1 m.2) {t : Bytes}
    (hopen : ∀ m ∈ ms, ¬ CloseAsked m.2) {u last : Bytes} {c : Conn Rd Nbw} {X : List Atom}
    (hr : c.reader.Ahead (last.map .byte ++ X))
    (h : Got prof u (c.parser.getD .new)) (hu : ∀ m ∈ ms.head?, u.length < m.1.length)
    (he : u ++ last = ms.flatMap Prod.fst ++ t) {cap : Nat} {evs : List WEv} (hcalm : Calm n cap evs)
    (hcap : cap ≤ c.writer.cap)
    (hw : c.writer.Steady) (hrt : rt.PartsLe n) {s s' : σ} {out : Bytes} (hs : Served rt s (ms.map Prod.snd) out s') :
    ∃ u' a' p' r' w' f po, u' ++ a' = t ∧ a' <:+ last ∧ Got prof u' p' ∧ r'.Ahead (a'.map .byte ++ X) ∧ po.getD .new = p' ∧
      w'.Healthy n ∧ w'.total = c.writer.total ++ out ∧ c.writer.sock.sent <+: w'.sock.sent ∧ cap ≤ w'.cap ∧
      handle prof rt ((Slot.live c).wake evs) s = finish (respondLoop prof rt (f + 1) ⟨r', w', po⟩ s') := by
  obtain ⟨u', a', p', r', i1, i2, i3, i4, i5⟩ := h.deliver hms hu he hr
  obtain ⟨w₁, po₁, f, e1, e2, e3, e4, e5⟩ := handle_delivers
    (c := { c with writer := { c.writer with sock := { c.writer.sock with evs } } }) i3 hr.1
    (by simpa using fun q x hx => hopen (x, q) hx) hs
    (wake_healthy (evs := evs) hw hcap hcalm) hrt
  exact ⟨u', a', p', r', w₁, f, po₁, i1, i2, i4, i5, e1, e2, by rw [e3]; rfl, e4.sent, Nat.le_trans hcap e4.cap, e5⟩

end Verif
