import Verif.Proofs.Local
import Verif.Proofs.Frame
import Verif.Proofs.Message

/-!
A call stopped for lack of input, compared with one call that has all the input.
-/

namespace Verif

open Reader

theorem takeWhile_stop {α : Type} (p : α → Bool) (x : α) (hx : p x = false) (a b : List α) :
    (a ++ x :: b).takeWhile p = a.takeWhile p := by
  induction a with
  | nil => simp [List.takeWhile, hx]
  | cons y a ih => simp only [List.cons_append, List.takeWhile]; split <;> simp_all

theorem afterLf_append (a b : Bytes) : afterLf (a ++ LF :: b) = afterLf b := by
  simp only [afterLf, List.reverse_append, List.reverse_cons, List.append_assoc, List.singleton_append]
  rw [takeWhile_stop _ _ (by simp)]

theorem afterLf_eq {b : Bytes} (h : LF ∉ b) : afterLf b = b := by
  have : b.reverse.takeWhile (· != LF) = b.reverse := by
    have h' : LF ∉ b.reverse := by simpa using h
    revert h'
    generalize b.reverse = c
    intro h'
    induction c with
    | nil => rfl
    | cons x c ih =>
      simp only [List.mem_cons, not_or] at h'
      have hx : (x != LF) = true := by simpa using Ne.symm h'.1
      simp only [List.takeWhile, hx, ih h'.2]
  rw [afterLf, this, List.reverse_reverse]

theorem Out.cont_done {σ σ' τ τ' : Type} {g : σ → σ'} {k : τ → AR → Out σ' τ' × AR} {x : Out σ τ × AR} {v : τ'} {r : AR} (h : Out.cont g k x = (.done v, r)) :
    ∃ u r', x = (.done u, r') := by
  obtain ⟨o, r'⟩ := x
  cases o with
  | done u => exact ⟨u, r', rfl⟩
  | _ => simp [Out.cont] at h

/-- The two outcomes agree, except perhaps for the parser kept at an I/O error. -/
def Near {σ τ : Type} (x y : Out σ τ × AR) : Prop :=
  x.2 = y.2 ∧ (x.1 = y.1 ∨ ∃ s s' e, x.1 = .io s e ∧ y.1 = .io s' e)

theorem Near.refl {σ τ : Type} (x : Out σ τ × AR) : Near x x := ⟨rfl, .inl rfl⟩

theorem Near.trans {σ τ : Type} {x y z : Out σ τ × AR} (h : Near x y) (h' : Near y z) : Near x z := by
  refine ⟨h.1.trans h'.1, ?_⟩
  rcases h.2 with h1 | ⟨s, s', e, h1, h2⟩
  · rw [h1]; exact h'.2
  · right
    rcases h'.2 with h3 | ⟨s1, s2, e', h3, h4⟩
    · exact ⟨s, s', e, h1, by rw [← h3, h2]⟩
    · rw [h2] at h3; cases h3; exact ⟨s, s2, e, h1, h4⟩

theorem Near.cont {σ σ' τ τ' : Type} {x y : Out σ τ × AR}
    (h : Near x y) (g : σ → σ') (k : τ → AR → Out σ' τ' × AR) : Near (Out.cont g k x) (Out.cont g k y) := by
  obtain ⟨o, a⟩ := x
  obtain ⟨o', b⟩ := y
  obtain ⟨h1, h2⟩ := h
  simp only at h1 h2
  subst h1
  rcases h2 with h2 | ⟨s, s', e, rfl, rfl⟩
  · subst h2; exact .refl _
  · exact ⟨rfl, .inr ⟨g s, g s', e, rfl, rfl⟩⟩

theorem Near.bind {σ σ' τ τ' : Type} {x y : Out σ τ × AR}
    (h : Near x y) (g : σ → σ') (f : τ → Out σ' τ') : Near (x.1.bind g f, x.2) (y.1.bind g f, y.2) := by
  obtain ⟨h1, h2⟩ := h
  refine ⟨h1, ?_⟩
  rcases h2 with h2 | ⟨s, s', e, h3, h4⟩
  · left; simp only [h2]
  · right
    simp only [h3, h4, Out.bind]
    exact ⟨g s, g s', e, rfl, rfl⟩

theorem Near.io {σ τ : Type} {x y : Out σ τ × AR} (h : Near x y) {s : σ}
    {e : IoError} (hy : y.1 = .io s e) : ∃ s, x.1 = .io s e := by
  rcases h.2 with h | ⟨s1, s2, e', h1, h2⟩
  · exact ⟨s, by rw [h, hy]⟩
  · rw [hy] at h2; cases h2; exact ⟨s1, h1⟩

/-! ### Lines -/

/-- A line stopped for lack of input. -/
theorem crlf_pause {prof : Profile} {line : Bytes} (hlen : line.length ≤ 512) (hl : LF ∉ line) {ls : List Nat}
    {as : List Atom} (hw : WB ∉ as) {line' : Bytes} {r : AR}
    (h : CrlfLineParser.parse prof line (⟨ls, as⟩ : AR) = (.io line' .wouldBlock, r)) :
    Quiet as ∧ LF ∉ bytesOf as ∧ (line ++ bytesOf as).length < 512 ∧ (∀ l ∈ ls, (bytesOf as).length < l) ∧
      r = ⟨decN (bytesOf as).length ls, []⟩ ∧
      line' = if utf8Valid (bytesOf as) then line ++ bytesOf as else line := by
  rw [crlf_eq prof line _ (sub_le prof (show line.length ≤ maxLineSize from hlen))] at h
  obtain ⟨pre, h1, h2, h3⟩ := scan_spec LF ((maxLineSize - line.length) :: ls) as
  revert h h1 h2 h3
  generalize AR.scan LF ((maxLineSize - line.length) :: ls) as = q
  obtain ⟨o, bs, ls', as'⟩ := q
  simp only
  intro h h1 h2 h3
  simp only [Prod.mk.injEq] at h
  obtain ⟨h, rfl⟩ := h
  cases h1 with
  | found hq hd =>
    rw [crlfOut_found] at h
    by_cases hv : utf8Valid (bytesOf pre) = true
    · simp only [hv, if_true] at h
      cases hp : parseCrlfLine (line ++ bytesOf pre) <;> simp [hp, Out.ofExcept] at h
    · simp [hv] at h
  | eof hq hd _ =>
    rcases crlfOut_eof line (bytesOf pre) hl hd with he | ⟨rest, he, -⟩ <;> rw [he] at h <;> cases h
  | err e hq hd _ _ =>
    exfalso
    have : e = .wouldBlock := by
      unfold crlfOut at h
      split at h <;> (simp only at h; split at h <;> cases h <;> rfl)
    subst this
    exact hw (by simp [WB])
  | limit hq hd _ =>
    unfold crlfOut at h
    split at h <;> simp at h
  | out hq hd h0 he =>
    subst he
    rw [h2, zero_not_mem_decN] at h0
    refine ⟨hq, hd, ?_, fun l hl => h0 l (by simp [hl]), ?_, ?_⟩
    · have := h0 _ (List.mem_cons_self)
      simp only [maxLineSize] at this
      simp only [List.length_append]; omega
    · rw [h2]; rfl
    · unfold crlfOut at h
      by_cases hv : utf8Valid (bytesOf as) = true
      · simp [hv] at h ⊢; exact h.symm
      · simp [hv] at h ⊢; exact h.symm

theorem crlfOut_near {line u bs : Bytes} (hu : utf8Valid u = true) (o : IoRes) :
    crlfOut line o (u ++ bs) = crlfOut (line ++ u) o bs ∨
      (utf8Valid bs = false ∧ ∃ e, o = .err e ∧ crlfOut line o (u ++ bs) = .io line e ∧
        crlfOut (line ++ u) o bs = .io (line ++ u) e) := by
  by_cases hv : utf8Valid bs = true
  · left
    simp only [crlfOut, utf8_append hu, hv, if_true, List.append_assoc]
  · have hv' : utf8Valid bs = false := by simpa using hv
    cases o with
    | ok => left; simp [crlfOut, utf8_append hu, hv']
    | diverge => left; simp [crlfOut, utf8_append hu, hv']
    | err e =>
      by_cases he : e = .invalidData
      · left; simp [crlfOut, utf8_append hu, hv', he]
      · right; exact ⟨hv', e, rfl, by simp [crlfOut, utf8_append hu, hv', he]⟩

theorem crlf_split {prof : Profile} {line : Bytes} {as : List Atom} (hq : Quiet as) (hd : LF ∉ bytesOf as)
    (hlen : (line ++ bytesOf as).length < 512) {ls : List Nat} (hls : ∀ l ∈ ls, (bytesOf as).length < l)
    (hv : utf8Valid (bytesOf as) = true) (X : List Atom) :
    Near (CrlfLineParser.parse prof line (⟨ls, as ++ X⟩ : AR))
      (CrlfLineParser.parse prof (line ++ bytesOf as) (⟨decN (bytesOf as).length ls, X⟩ : AR)) := by
  simp only [List.length_append] at hlen
  rw [crlf_eq prof line (512 - line.length) (sub_le prof (by simp [maxLineSize]; omega)),
    crlf_eq prof (line ++ bytesOf as) (512 - (line ++ bytesOf as).length)
      (sub_le prof (by simp [maxLineSize]; omega))]
  rw [scan_quiet LF as ((512 - line.length) :: ls) X hq hd (by
    intro l hl
    simp only [List.mem_cons] at hl
    rcases hl with rfl | hl
    · omega
    · exact hls l hl)]
  rw [decN_cons, show 512 - line.length - (bytesOf as).length = 512 - (line ++ bytesOf as).length by
    simp only [List.length_append]; omega]
  generalize AR.scan LF ((512 - (line ++ bytesOf as).length) :: decN (bytesOf as).length ls) X = q
  obtain ⟨o, bs, ls', as'⟩ := q
  refine ⟨rfl, ?_⟩
  rcases crlfOut_near (line := line) (bs := bs) hv o with h | ⟨hb, e, rfl, e1, e2⟩
  · exact .inl h
  · exact .inr ⟨line, line ++ bytesOf as, e, e1, e2⟩

/-- After this input some more, which does not begin inside a character, leads to a result. -/
def CompletesBy {σ τ : Type} (run : List Atom → Out σ τ × AR) (as : List Atom) : Prop :=
  ∃ c X v r, isCont c = false ∧ run (as ++ .byte c :: X) = (.done v, r)

theorem mem_bytesOf {b : UInt8} {as : List Atom} (h : Atom.byte b ∈ as) : b ∈ bytesOf as := by
  induction as with
  | nil => cases h
  | cons a as ih =>
    rcases List.mem_cons.1 h with rfl | h'
    · simp [bytesOf]
    · have := ih h'
      cases a <;> simp [bytesOf, this]

/-- Then what was received of a line is text. -/
theorem crlf_completes {prof : Profile} {line : Bytes} (hlen : line.length ≤ 512) (hl : LF ∉ line) {ls : List Nat} {as : List Atom} (hd : LF ∉ bytesOf as)
    (h : CompletesBy (fun as => CrlfLineParser.parse prof line (⟨ls, as⟩ : AR)) as) : utf8Valid (bytesOf as) = true := by
  obtain ⟨c, X, v, r, hc, h⟩ := h
  obtain ⟨pre, -, -, hv, -, e, -⟩ := crlf_done hlen hl h
  rcases List.append_eq_append_iff.1 e with ⟨t, rfl, e2⟩ | ⟨t, rfl, e2⟩
  · cases t with
    | nil => simpa using hv
    | cons x t =>
      cases e2
      rw [bytesOf_append] at hv
      exact utf8_left hc hv
  · cases t with
    | nil => simpa using hv
    | cons x t =>
      rw [List.cons_append, List.cons.injEq] at e2
      exact absurd (mem_bytesOf (b := LF) (by rw [← e2.1]; simp)) hd

/-! ### Headers -/

theorem hrun_pause {prof : Profile} {p : HeadersParser} (hlen : p.inner.length ≤ 512) (hl : LF ∉ p.inner)
    {ls : List Nat} {as : List Atom} (hw : WB ∉ as) {p' : HeadersParser} {r : AR}
    (h : hrun prof p (⟨ls, as⟩ : AR) = (.io p' .wouldBlock, r)) (hv : utf8Valid (afterLf (bytesOf as)) = true ∨ CompletesBy (fun as => hrun prof p ⟨ls, as⟩) as) :
    ∃ n, r = ⟨decN n ls, []⟩ ∧ (∀ l ∈ ls, n < l) ∧
      p'.read + p'.inner.length ≤ p.read + p.inner.length + n ∧ (p'.inner.length ≤ 512 ∧ LF ∉ p'.inner) ∧
      ∀ X, Near (hrun prof p ⟨ls, as ++ X⟩) (hrun prof p' ⟨decN n ls, X⟩) := by
  obtain ⟨n, hn⟩ : ∃ n, as.length ≤ n := ⟨_, Nat.le_refl _⟩
  induction n using Nat.strongRecOn generalizing p ls as with
  | _ n ih =>
    rw [hrun_cont] at h
    cases hc : CrlfLineParser.parse prof p.inner (⟨ls, as⟩ : AR) with
    | mk o1 r1 =>
    rw [hc] at h
    cases o1 with
    | done line =>
      obtain ⟨pre, hq, hd, hu, e1, e2, e3, e4, e5⟩ := crlf_done hlen hl hc
      obtain ⟨pre1, hp1, hX1⟩ := crlf_local prof p.inner _ _ _ _ hc
      simp only [Out.cont, headerNext] at h
      by_cases hnil : line = []
      · simp [hnil] at h
      · simp only [hnil, if_false] at h
        cases hph : parseHeader line with
        | error e => simp [hph] at h
        | ok hv' =>
          simp only [hph] at h
          obtain ⟨ls1, as1⟩ := r1
          simp only at e2 e4
          have hlt : as1.length < as.length := by
            rw [e2]; simp only [List.length_append, List.length_cons]; omega
          have hv1 : utf8Valid (afterLf (bytesOf as1)) = true ∨ CompletesBy (fun as => hrun prof ⟨[], p.headers.addHeader hv'.1 hv'.2, p.read + line.length⟩ ⟨ls1, as⟩) as1 := by
            refine hv.imp (fun hv => ?_) ?_
            · rw [e2, bytesOf_append] at hv
              simpa only [bytesOf, afterLf_append] using hv
            · rintro ⟨c, X, v, r, hc', h'⟩
              refine ⟨c, X, v, r, hc', ?_⟩
              dsimp only at h'
              rw [hrun_cont, hp1, List.append_assoc, hX1] at h'
              simpa only [Out.cont, headerNext, hnil, if_false, hph] using h'
          obtain ⟨m, hm1, hm2, hm3, hm5, hm4⟩ := ih as1.length (by omega) (p := ⟨[], p.headers.addHeader hv'.1 hv'.2, p.read + line.length⟩)
            (by simp) (by simp) (fun hm => hw (by rw [e2]; simp [hm])) h hv1 (Nat.le_refl _)
          refine ⟨(bytesOf pre).length + 1 + m, ?_, ?_, ?_, ?_, fun X => ?_⟩
          · rw [hm1, e4, decN_decN]
          · intro l hl'
            have h1 := hm2 (l - ((bytesOf pre).length + 1)) (by
              rw [e4]; simp only [decN, List.mem_map]; exact ⟨l, hl', rfl⟩)
            have h2 := e5 l hl'
            omega
          · have := congrArg List.length e1
            simp only [List.length_append, List.length_cons, List.length_nil] at this
            simp only [List.length_nil] at hm3
            omega
          · exact hm5
          · have := hm4 X
            rw [e4, decN_decN] at this
            rw [hrun_cont prof p, hp1, List.append_assoc, hX1 (as1 ++ X)]
            simp only [Out.cont, headerNext, hnil, if_false, hph, e4]
            exact this
    | io line' e =>
      simp only [Out.cont, Prod.mk.injEq, Out.io.injEq] at h
      obtain ⟨⟨rfl, rfl⟩, rfl⟩ := h
      obtain ⟨hq, hd, h1, h2, h3, h4⟩ := crlf_pause hlen hl hw hc
      have hv : utf8Valid (bytesOf as) = true := by
        rcases hv with hv | ⟨c, X, v, r, hc', h'⟩
        · rwa [afterLf_eq hd] at hv
        · dsimp only at h'
          rw [hrun_cont] at h'
          obtain ⟨_, r'', h5⟩ := Out.cont_done h'
          exact crlf_completes hlen hl hd ⟨c, X, _, r'', hc', h5⟩
      simp only [hv, if_true] at h4
      subst h4
      refine ⟨_, h3, h2, by simp only [List.length_append]; omega,
        ⟨by simp only; omega, by simp only [List.mem_append, not_or]; exact ⟨hl, hd⟩⟩, fun X => ?_⟩
      rw [hrun_cont, hrun_cont]
      exact (crlf_split hq hd h1 h2 hv X).cont _ _
    | perr e => simp [Out.cont] at h
    | panic => simp [Out.cont] at h
    | diverge => simp [Out.cont] at h

/-! ### Sized and unsized data -/

theorem takeN_pure (n : Nat) (b : Bytes) (ls : List Nat) (as : List Atom) (hn : b.length ≤ n)
    (hl : ∀ l ∈ ls, b.length ≤ l) :
    AR.takeN n ls (b.map .byte ++ as) =
      ((AR.takeN (n - b.length) (decN b.length ls) as).1,
        b ++ (AR.takeN (n - b.length) (decN b.length ls) as).2.1,
        (AR.takeN (n - b.length) (decN b.length ls) as).2.2) := takeN_bytes n b ls as hn hl

theorem bytes_stop {p p' : BytesDeframer} {ls : List Nat} {as : List Atom} (hw : WB ∉ as) {r : AR}
    (h : BytesDeframer.parse p (⟨ls, as⟩ : AR) = (.io p' .wouldBlock, r)) :
    ∃ n, r = ⟨decN n ls, []⟩ ∧ (∀ l ∈ ls, n < l) ∧ p'.size = p.size ∧ p'.filled.length = p.filled.length + n ∧
      ∀ X, BytesDeframer.parse p (⟨ls, as ++ X⟩ : AR) = BytesDeframer.parse p' (⟨decN n ls, X⟩ : AR) := by
  rw [bytesDeframer_eq] at h
  obtain ⟨h1, h2, h3⟩ := takeN_spec (p.size - p.filled.length) ls as
  revert h h1 h2 h3
  generalize AR.takeN (p.size - p.filled.length) ls as = q
  obtain ⟨o, b, ls', as'⟩ := q
  simp only
  intro h h1 h2 h3
  have ho : o = .err .wouldBlock := by
    cases o <;> simp at h
    rw [h.1.2]
  subst ho
  simp only [Prod.mk.injEq, Out.io.injEq, and_true] at h
  obtain ⟨rfl, rfl⟩ := h
  cases h1 with
  | err _ _ _ => exact absurd (by simp [WB]) hw
  | out hb h0 he =>
    subst he
    rw [h2, zero_not_mem_decN] at h0
    refine ⟨b.length, by rw [h2], h0, rfl, by simp, fun X => ?_⟩
    rw [bytesDeframer_eq, bytesDeframer_eq,
      takeN_pure _ b ls X (by omega) (fun l hl => by have := h0 l hl; omega)]
    simp only [List.length_append]
    rw [show p.size - p.filled.length - b.length = p.size - (p.filled.length + b.length) by omega]
    generalize AR.takeN (p.size - (p.filled.length + b.length)) (decN b.length ls) X = q
    obtain ⟨o, b', ls1, as1⟩ := q
    cases o <;> simp

theorem drain_pause {d d' : Bytes} {ls : List Nat} {as : List Atom} (hw : WB ∉ as) {r : AR}
    (h : BytesUntilEofDeframer.parse d (⟨ls, as⟩ : AR) = (.io d' .wouldBlock, r)) :
    ∃ n, r = ⟨decN n ls, []⟩ ∧ (∀ l ∈ ls, n < l) ∧ d'.length = d.length + n ∧
      ∀ X, BytesUntilEofDeframer.parse d (⟨ls, as ++ X⟩ : AR) =
        BytesUntilEofDeframer.parse d' (⟨decN n ls, X⟩ : AR) := by
  rw [bytesUntilEof_eq] at h
  obtain ⟨pre, h1, h2, h3⟩ := drain_spec ls as
  revert h h1 h2 h3
  generalize AR.drain ls as = q
  obtain ⟨o, b, ls', as'⟩ := q
  simp only
  intro h h1 h2 h3
  have ho : o = .err .wouldBlock := by
    cases o <;> simp at h
    rw [h.1.2]
  subst ho
  simp only [Prod.mk.injEq, Out.io.injEq, and_true] at h
  obtain ⟨rfl, rfl⟩ := h
  cases h1 with
  | err _ _ _ _ => exact absurd (by simp [WB]) hw
  | out hq h0 he =>
    subst he
    rw [h2, zero_not_mem_decN] at h0
    refine ⟨(bytesOf as).length, by rw [h2], h0, by simp, fun X => ?_⟩
    rw [bytesUntilEof_eq, bytesUntilEof_eq, drain_quiet as ls X hq h0]
    generalize AR.drain (decN (bytesOf as).length ls) X = q
    obtain ⟨o, b', ls1, as1⟩ := q
    cases o <;> simp

/-! ### Chunks -/

/-- The chunk parser is inside a line. -/
def ChunkState.inLine : ChunkState → Prop
  | .size _ => True
  | .tailingCrlf _ _ => True
  | _ => False

/-- The unfinished line of a chunk state. -/
def ChunkState.part : ChunkState → Bytes
  | .size line => line
  | .tailingCrlf line _ => line
  | _ => []

/-- Body bytes held by the chunk parser. -/
def ChunksParser.weight : ChunksParser → Nat
  | ⟨body, .data d⟩ => body.length + d.filled.length
  | ⟨body, _⟩ => body.length

theorem ChunksParser.body_le (p : ChunksParser) : p.body.length ≤ p.weight := by
  obtain ⟨b, st⟩ := p
  cases st <;> simp [ChunksParser.weight]

theorem chunkStep_done {prof : Profile} {body : Bytes} {st : ChunkState} (hst : st ≠ .finished)
    (hlen : st.part.length ≤ 512) (hl : LF ∉ st.part) {ls : List Nat} {as : List Atom} {p1 : ChunksParser} {r : AR}
    (h : chunkStep prof body st ⟨ls, as⟩ = (.done p1, r)) :
    ∃ pre, as = pre ++ r.atoms ∧ r.lims = decN (bytesOf pre).length ls ∧ (∀ l ∈ ls, (bytesOf pre).length ≤ l) ∧
      p1.state.part = [] ∧ p1.weight ≤ (ChunksParser.mk body st).weight + (bytesOf pre).length := by
  cases st with
  | finished => exact absurd rfl hst
  | size line =>
    simp only [chunkStep, sizeState, Prod.mk.injEq] at h
    obtain ⟨h, rfl⟩ := h
    cases hc : CrlfLineParser.parse prof line (⟨ls, as⟩ : AR) with
    | mk o1 r1 =>
    rw [hc] at h
    cases o1 with
    | done raw =>
      obtain ⟨pre, hq, hd, hu, e1, e2, e3, e4, e5⟩ := crlf_done hlen hl hc
      refine ⟨pre ++ [.byte LF], by rw [e2]; simp, by simp [e4, bytesOf_append, bytesOf],
        by simpa [bytesOf_append, bytesOf] using e5, ?_⟩
      simp only [Out.bind] at h
      cases hn : parseChunkSize raw with
      | ok n => simp [hn] at h; subst h; exact ⟨rfl, by simp [ChunksParser.weight]⟩
      | error e => simp [hn] at h
    | _ => simp [Out.bind] at h
  | data d =>
    simp only [chunkStep, dataState, Prod.mk.injEq] at h
    obtain ⟨h, rfl⟩ := h
    rw [bytesDeframer_eq] at h ⊢
    obtain ⟨h1, h2, h3⟩ := takeN_spec (d.size - d.filled.length) ls as
    revert h h1 h2 h3
    generalize AR.takeN (d.size - d.filled.length) ls as = q
    obtain ⟨o, b, ls', as'⟩ := q
    intro h h1 h2 h3
    cases o with
    | ok =>
      simp only [Out.bind, Out.done.injEq] at h
      subst h
      generalize ho : IoRes.ok = o at h1
      cases h1 with
      | full hb =>
        refine ⟨b.map .byte, rfl, by simpa [bytesOf_map] using h2, by simpa [bytesOf_map] using h3, rfl, ?_⟩
        simp only [ChunksParser.weight, List.length_append, bytesOf_map]; omega
      | _ => cases ho
    | err e => simp [Out.bind] at h
    | diverge => simp [Out.bind] at h
  | tailingCrlf line l =>
    simp only [chunkStep, tailingCrlfState, Prod.mk.injEq] at h
    obtain ⟨h, rfl⟩ := h
    cases hc : CrlfLineParser.parse prof line (⟨ls, as⟩ : AR) with
    | mk o1 r1 =>
    rw [hc] at h
    cases o1 with
    | done raw =>
      obtain ⟨pre, hq, hd, hu, e1, e2, e3, e4, e5⟩ := crlf_done hlen hl hc
      refine ⟨pre ++ [.byte LF], by rw [e2]; simp, by simp [e4, bytesOf_append, bytesOf],
        by simpa [bytesOf_append, bytesOf] using e5, ?_⟩
      simp only [Out.bind] at h
      by_cases hr : raw = []
      · simp only [hr, ne_eq, not_true, if_false] at h
        cases l with
        | true => simp at h; subst h; exact ⟨rfl, by simp [ChunksParser.weight]⟩
        | false => simp at h; subst h; exact ⟨rfl, by simp [ChunksParser.weight]⟩
      · simp [hr] at h
    | _ => simp [Out.bind] at h

theorem chunkStep_pause {prof : Profile} {body : Bytes} {st : ChunkState} (hst : st ≠ .finished)
    (hlen : st.part.length ≤ 512) (hl : LF ∉ st.part) {ls : List Nat} {as : List Atom} (hw : WB ∉ as)
    {p' : ChunksParser} {r : AR} (h : chunkStep prof body st ⟨ls, as⟩ = (.io p' .wouldBlock, r))
    (hv : p'.state.inLine → (∀ bs, bs <:+ bytesOf as → LF ∉ bs → utf8Valid bs = true) ∨ CompletesBy (fun as => chunkStep prof body st ⟨ls, as⟩) as) :
    ∃ n, r = ⟨decN n ls, []⟩ ∧ (∀ l ∈ ls, n < l) ∧ p'.state ≠ .finished ∧
      p'.weight ≤ (ChunksParser.mk body st).weight + n ∧ (p'.state.part.length ≤ 512 ∧ LF ∉ p'.state.part) ∧
      ∀ X, Near (chunkStep prof body st ⟨ls, as ++ X⟩)
        (chunkStep prof p'.body p'.state ⟨decN n ls, X⟩) := by
  cases st with
  | finished => exact absurd rfl hst
  | size line =>
    simp only [chunkStep, sizeState, Prod.mk.injEq] at h
    obtain ⟨h, rfl⟩ := h
    cases hc : CrlfLineParser.parse prof line (⟨ls, as⟩ : AR) with
    | mk o1 r1 =>
    rw [hc] at h
    cases o1 with
    | done raw =>
      simp only [Out.bind] at h
      cases hn : parseChunkSize raw <;> simp [hn] at h
    | io line' e =>
      simp only [Out.bind, Out.io.injEq] at h
      obtain ⟨rfl, rfl⟩ := h
      obtain ⟨hq, hd, h1, h2, h3, h4⟩ := crlf_pause hlen hl hw hc
      have hv1 : utf8Valid (bytesOf as) = true := by
        rcases hv trivial with hv | ⟨c, X, v, r, hc', h'⟩
        · exact hv _ (List.suffix_refl _) hd
        · simp only [chunkStep, sizeState, Prod.mk.injEq] at h'
          obtain ⟨_, h5, -⟩ := Out.bind_done h'.1
          obtain ⟨_, h6, -⟩ := Out.bind_done h5
          exact crlf_completes hlen hl hd ⟨c, X, _, _, hc', Prod.ext h6 rfl⟩
      simp only [hv1, if_true] at h4
      subst h4
      refine ⟨_, h3, h2, by simp, by simp [ChunksParser.weight],
        ⟨by simp only [ChunkState.part] at h1 ⊢; omega,
          by simp only [ChunkState.part, List.mem_append, not_or] at hl ⊢; exact ⟨hl, hd⟩⟩, fun X => ?_⟩
      exact ((crlf_split hq hd h1 h2 hv1 X).bind ChunkState.size _).bind _ _
    | _ => simp [Out.bind] at h
  | data d =>
    simp only [chunkStep, dataState, Prod.mk.injEq] at h
    obtain ⟨h, rfl⟩ := h
    cases hc : BytesDeframer.parse d (⟨ls, as⟩ : AR) with
    | mk o1 r1 =>
    rw [hc] at h
    cases o1 with
    | io d' e =>
      simp only [Out.bind, Out.io.injEq] at h
      obtain ⟨rfl, rfl⟩ := h
      obtain ⟨n, h1, h2, h3, h4, h5⟩ := bytes_stop hw hc
      refine ⟨n, h1, h2, by simp, by simp only [ChunksParser.weight]; omega, by simp [ChunkState.part], fun X => ?_⟩
      simp only [chunkStep, dataState, h5 X]
      exact .refl _
    | _ => simp [Out.bind] at h
  | tailingCrlf line last =>
    simp only [chunkStep, tailingCrlfState, Prod.mk.injEq] at h
    obtain ⟨h, rfl⟩ := h
    cases hc : CrlfLineParser.parse prof line (⟨ls, as⟩ : AR) with
    | mk o1 r1 =>
    rw [hc] at h
    cases o1 with
    | done raw =>
      simp only [Out.bind] at h
      by_cases hr : raw = [] <;> cases last <;> simp [hr] at h
    | io line' e =>
      simp only [Out.bind, Out.io.injEq] at h
      obtain ⟨rfl, rfl⟩ := h
      obtain ⟨hq, hd, h1, h2, h3, h4⟩ := crlf_pause hlen hl hw hc
      have hv1 : utf8Valid (bytesOf as) = true := by
        rcases hv trivial with hv | ⟨c, X, v, r, hc', h'⟩
        · exact hv _ (List.suffix_refl _) hd
        · simp only [chunkStep, tailingCrlfState, Prod.mk.injEq] at h'
          obtain ⟨_, h5, -⟩ := Out.bind_done h'.1
          obtain ⟨_, h6, -⟩ := Out.bind_done h5
          exact crlf_completes hlen hl hd ⟨c, X, _, _, hc', Prod.ext h6 rfl⟩
      simp only [hv1, if_true] at h4
      subst h4
      refine ⟨_, h3, h2, by simp, by simp [ChunksParser.weight],
        ⟨by simp only [ChunkState.part] at h1 ⊢; omega,
          by simp only [ChunkState.part, List.mem_append, not_or] at hl ⊢; exact ⟨hl, hd⟩⟩, fun X => ?_⟩
      exact ((crlf_split hq hd h1 h2 hv1 X).bind (ChunkState.tailingCrlf · last) _).bind _ _
    | _ => simp [Out.bind] at h

theorem crun_pause {prof : Profile} {p : ChunksParser} (hlen : p.state.part.length ≤ 512) (hl : LF ∉ p.state.part)
    {ls : List Nat} {as : List Atom} (hw : WB ∉ as) {p' : ChunksParser} {r : AR}
    (h : crun prof p ⟨ls, as⟩ = (.io p' .wouldBlock, r))
    (hv : p'.state.inLine → (∀ bs, bs <:+ bytesOf as → LF ∉ bs → utf8Valid bs = true) ∨ CompletesBy (fun as => crun prof p ⟨ls, as⟩) as) :
    ∃ n, r = ⟨decN n ls, []⟩ ∧ (∀ l ∈ ls, n < l) ∧ p'.weight ≤ p.weight + n ∧
      (p'.state.part.length ≤ 512 ∧ LF ∉ p'.state.part) ∧
      ∀ X, Near (crun prof p ⟨ls, as ++ X⟩) (crun prof p' ⟨decN n ls, X⟩) := by
  obtain ⟨n, hn⟩ : ∃ n, 3 * as.length + p.state.rank ≤ n := ⟨_, Nat.le_refl _⟩
  induction n using Nat.strongRecOn generalizing p ls as with
  | _ n ih =>
    by_cases hst : p.state = .finished
    · rw [crun_eq] at h; simp [hst] at h
    · rw [crun_cont prof p _ hst] at h
      have hprog := chunkStep_progress prof p.body p.state ⟨ls, as⟩ hst
      cases hs : chunkStep prof p.body p.state ⟨ls, as⟩ with
      | mk o1 r1 =>
      rw [hs] at h hprog
      cases o1 with
      | done p1 =>
        have hlt := hprog.2.2 p1 rfl
        obtain ⟨pre, e1, e2, e3, e4, e5⟩ := chunkStep_done hst hlen hl hs
        obtain ⟨pre1, hp1, hX1⟩ := chunkStep_local prof p.body p.state _ _ _ _ hs
        obtain ⟨ls1, as1⟩ := r1
        simp only [Out.cont] at h hlt e1 e2
        obtain ⟨m, hm1, hm2, hm3, hm5, hm4⟩ := ih _ (Nat.lt_of_lt_of_le hlt hn) (p := p1)
          (by rw [e4]; simp) (by rw [e4]; simp) (fun hm => hw (by rw [e1]; simp [hm])) h
          (fun hi => (hv hi).imp (fun hv bs hbs hnl => hv bs (hbs.trans (by rw [e1, bytesOf_append]; exact List.suffix_append _ _)) hnl) (by
            rintro ⟨c, X, v, r, hc', h'⟩
            refine ⟨c, X, v, r, hc', ?_⟩
            dsimp only at h'
            rw [crun_cont prof p _ hst, hp1, List.append_assoc, hX1] at h'
            simpa only [Out.cont] using h'))
          (Nat.le_refl _)
        refine ⟨(bytesOf pre).length + m, ?_, ?_, ?_, hm5, fun X => ?_⟩
        · rw [hm1, e2, decN_decN]
        · intro l hl'
          have h1 := hm2 (l - (bytesOf pre).length) (by
            rw [e2]; simp only [decN, List.mem_map]; exact ⟨l, hl', rfl⟩)
          have h2 := e3 l hl'
          omega
        · have : (ChunksParser.mk p.body p.state).weight = p.weight := rfl
          omega
        · have := hm4 X
          rw [e2, decN_decN] at this
          rw [crun_cont prof p _ hst, hp1, List.append_assoc, hX1 (as1 ++ X)]
          simp only [Out.cont, e2]
          exact this
      | io p1 e =>
        simp only [Out.cont, Prod.mk.injEq, Out.io.injEq, id] at h
        obtain ⟨⟨rfl, rfl⟩, rfl⟩ := h
        obtain ⟨m, h1, h2, h3, h4, h6, h5⟩ := chunkStep_pause hst hlen hl hw hs (fun hi => (hv hi).imp id (by
          rintro ⟨c, X, v, r, hc', h'⟩
          dsimp only at h'
          rw [crun_cont prof p _ hst] at h'
          obtain ⟨_, r'', h5⟩ := Out.cont_done h'
          exact ⟨c, X, _, r'', hc', h5⟩))
        refine ⟨m, h1, h2, h4, h6, fun X => ?_⟩
        rw [crun_cont prof p _ hst, crun_cont prof p1 _ h3]
        exact (h5 X).cont _ _
      | perr e => simp [Out.cont] at h
      | panic => simp [Out.cont] at h
      | diverge => simp [Out.cont] at h

/-! ### Limits are per reader -/

theorem crlf_lims_length (prof : Profile) (line : Bytes) (r : AR) :
    (CrlfLineParser.parse prof line r).2.lims.length = r.lims.length := by
  obtain ⟨ls, as⟩ := r
  cases hl : prof.sub maxLineSize line.length with
  | none => simp [CrlfLineParser.parse, hl]
  | some lim =>
    rw [crlf_eq prof line lim hl]
    obtain ⟨_, _, h2, _⟩ := scan_spec LF (lim :: ls) as
    simp only [h2]
    simp [decN]

theorem bytes_lims_length (p : BytesDeframer) (r : AR) :
    (BytesDeframer.parse p r).2.lims.length = r.lims.length := by
  obtain ⟨ls, as⟩ := r
  rw [bytesDeframer_eq]
  obtain ⟨_, h2, _⟩ := takeN_spec (p.size - p.filled.length) ls as
  revert h2
  generalize AR.takeN (p.size - p.filled.length) ls as = q
  obtain ⟨o, b, ls', as'⟩ := q
  intro h2
  simp only at h2
  cases o <;> simp [h2, decN]

theorem drain_lims_length (d : Bytes) (r : AR) :
    (BytesUntilEofDeframer.parse d r).2.lims.length = r.lims.length := by
  obtain ⟨ls, as⟩ := r
  rw [bytesUntilEof_eq]
  obtain ⟨_, _, h2, _⟩ := drain_spec ls as
  revert h2
  generalize AR.drain ls as = q
  obtain ⟨o, b, ls', as'⟩ := q
  intro h2
  simp only at h2
  cases o <;> simp [h2, decN]

theorem cont_lims_length {σ σ' τ τ' : Type} {g : σ → σ'} {k : τ → AR → Out σ' τ' × AR} {x : Out σ τ × AR} {n : Nat}
    (hx : x.2.lims.length = n) (hk : ∀ v r, x = (.done v, r) → (k v r).2.lims.length = r.lims.length) :
    (Out.cont g k x).2.lims.length = n := by
  obtain ⟨o, r⟩ := x
  cases o with
  | done v => rw [Out.cont, hk v r rfl]; exact hx
  | _ => exact hx

theorem hrun_lims_length (prof : Profile) (p : HeadersParser) (r : AR) :
    (hrun prof p r).2.lims.length = r.lims.length := by
  obtain ⟨n, hn⟩ : ∃ n, r.atoms.length ≤ n := ⟨_, Nat.le_refl _⟩
  induction n using Nat.strongRecOn generalizing p r with
  | _ n ih =>
    rw [hrun_cont]
    refine cont_lims_length (crlf_lims_length _ _ _) fun line r1 h => ?_
    have hlt := (crlf_progress prof p.inner r).2.2 line (by rw [h])
    rw [h] at hlt
    simp only [headerNext]
    split
    · rfl
    · split
      · exact ih r1.atoms.length (Nat.lt_of_lt_of_le hlt hn) _ _ (Nat.le_refl _)
      · rfl

theorem chunkStep_lims_length (prof : Profile) (body : Bytes) (st : ChunkState) (r : AR) :
    (chunkStep prof body st r).2.lims.length = r.lims.length := by
  cases st with
  | finished => rfl
  | size line => exact crlf_lims_length prof line r
  | data d => exact bytes_lims_length d r
  | tailingCrlf line l => exact crlf_lims_length prof line r

theorem crun_lims_length (prof : Profile) (p : ChunksParser) (r : AR) :
    (crun prof p r).2.lims.length = r.lims.length := by
  obtain ⟨n, hn⟩ : ∃ n, 3 * r.atoms.length + p.state.rank ≤ n := ⟨_, Nat.le_refl _⟩
  induction n using Nat.strongRecOn generalizing p r with
  | _ n ih =>
    by_cases hst : p.state = .finished
    · rw [crun_eq]; simp [hst]
    · rw [crun_cont prof p _ hst]
      refine cont_lims_length (chunkStep_lims_length _ _ _ _) fun p1 r1 h => ?_
      have hlt := (chunkStep_progress prof p.body p.state r hst).2.2 p1 (by rw [h])
      rw [h] at hlt
      exact ih _ (Nat.lt_of_lt_of_le hlt hn) _ _ (Nat.le_refl _)

/-- Leaving the innermost limit. -/
def pop1 {σ τ : Type} (x : Out σ τ × AR) : Out σ τ × AR := (x.1, ⟨x.2.lims.tail, x.2.atoms⟩)

theorem Near.pop {σ τ : Type} {x y : Out σ τ × AR} (h : Near x y) : Near (pop1 x) (pop1 y) := by
  obtain ⟨h1, h2⟩ := h
  exact ⟨by simp only [pop1, h1], h2⟩

/-- The comparison of a call with one that has larger limits. -/
def Cmp {σ τ : Type} (x y : Out σ τ × AR) : Prop := (∃ s, x.1 = .io s .limitReached) ∨ x = y

theorem Cmp.bind {σ σ' τ τ' : Type} {x y : Out σ τ × AR} (h : Cmp x y) (g : σ → σ') (f : τ → Out σ' τ') :
    Cmp (x.1.bind g f, x.2) (y.1.bind g f, y.2) := by
  rcases h with ⟨s, h⟩ | h
  · exact .inl ⟨g s, by simp [h, Out.bind]⟩
  · exact .inr (by rw [h])

theorem Cmp.cont {σ σ' τ τ' : Type} {x y : Out σ τ × AR} (h : Cmp x y) (g : σ → σ') (k : τ → AR → Out σ' τ' × AR) :
    Cmp (Out.cont g k x) (Out.cont g k y) := by
  rcases h with ⟨s, h⟩ | h
  · obtain ⟨o, a⟩ := x
    simp only at h
    subst h
    exact .inl ⟨g s, rfl⟩
  · exact .inr (by rw [h])

theorem Cmp.of {σ τ : Type} {y z : Out σ τ × AR}
    (hz : RelOut LimRel (fun _ => LimRel) (fun e => e = .limitReached) y z) (hd : y.1 ≠ .diverge)
    (hy1 : y.2.lims.length = 1) (hz1 : z.2.lims.length = 1) : Cmp (pop1 y) (pop1 z) := by
  by_cases hw : ∃ s, y.1 = .io s .limitReached
  · exact .inl hw
  · right
    obtain ⟨e1, e2, e3⟩ := hz.lims (fun s hs => hw ⟨s, hs⟩) hd
    simp only [pop1, e1, e2, Prod.mk.injEq, AR.mk.injEq, and_true, true_and]
    rw [List.eq_nil_of_length_eq_zero (l := y.2.lims.tail) (by simp [hy1]),
      List.eq_nil_of_length_eq_zero (l := z.2.lims.tail) (by simp [hz1])]

theorem pop_nil {r : AR} {n l : Nat} (h : r = ⟨decN n [l], []⟩) : (⟨r.lims.tail, r.atoms⟩ : AR) = ⟨[], []⟩ := by
  subst h; rfl

theorem headersParse_pop (prof : Profile) {p : HeadersParser} (h : p.read ≤ maxHeadersSize) (as : List Atom) :
    HeadersParser.parse prof p (⟨[], as⟩ : AR) = pop1 (hrun prof p ⟨[maxHeadersSize - p.read], as⟩) := by
  rw [headersParse_eq, sub_le prof h]; rfl

/-- The body parser is inside a line. -/
def BodyParser.inLine : BodyParser → Prop
  | .chunked p => p.state.inLine
  | _ => False

/-- The body parser under a given limit. -/
def bodyAt (prof : Profile) (l : Nat) (p : BodyParser) (as : List Atom) : Out BodyParser Bytes × AR :=
  match p with
  | .withSize d => ((pop1 (BytesDeframer.parse d (⟨[l], as⟩ : AR))).1.bind .withSize .done,
      (pop1 (BytesDeframer.parse d (⟨[l], as⟩ : AR))).2)
  | .untilEof d => ((pop1 (BytesUntilEofDeframer.parse d (⟨[l], as⟩ : AR))).1.bind .untilEof .done,
      (pop1 (BytesUntilEofDeframer.parse d (⟨[l], as⟩ : AR))).2)
  | .chunked c => ((pop1 (crun prof c ⟨[l], as⟩)).1.bind .chunked .done, (pop1 (crun prof c ⟨[l], as⟩)).2)
  | .empty => (.done [], ⟨[], as⟩)

theorem bodyParse_at (prof : Profile) {p : BodyParser} (h : p.readSoFar ≤ maxBodySize) (as : List Atom) :
    BodyParser.parse prof p (⟨[], as⟩ : AR) = bodyAt prof (maxBodySize - p.readSoFar) p as := by
  rw [bodyParse_eq, sub_le prof h]
  cases p <;> rfl

theorem bodyAt_lims (prof : Profile) (l : Nat) (p : BodyParser) (as : List Atom) : (bodyAt prof l p as).2.lims = [] := by
  cases p with
  | withSize d => exact List.eq_nil_of_length_eq_zero (by simp [bodyAt, pop1, bytes_lims_length])
  | untilEof d => exact List.eq_nil_of_length_eq_zero (by simp [bodyAt, pop1, drain_lims_length])
  | chunked c => exact List.eq_nil_of_length_eq_zero (by simp [bodyAt, pop1, crun_lims_length])
  | empty => rfl

theorem bodyAt_cmp (prof : Profile) {l l' : Nat} (h : l ≤ l') (p : BodyParser) (as : List Atom) :
    Cmp (bodyAt prof l p as) (bodyAt prof l' p as) := by
  have hl : LimRel ⟨[l], as⟩ ⟨[l'], as⟩ := ⟨rfl, .cons h .nil⟩
  cases p with
  | withSize d => exact (Cmp.of (sim_lims.bytes d hl) (bytesDeframer_progress d _).1
      (by rw [bytes_lims_length]; simp) (by rw [bytes_lims_length]; simp)).bind _ _
  | untilEof d => exact (Cmp.of (sim_lims.untilEof d hl) (bytesUntilEof_progress d _).1
      (by rw [drain_lims_length]; simp) (by rw [drain_lims_length]; simp)).bind _ _
  | chunked c => exact (Cmp.of (sim_lims.crun prof c hl) (crun_progress prof c _).1
      (by rw [crun_lims_length]; simp) (by rw [crun_lims_length]; simp)).bind _ _
  | empty => exact .inr rfl

/-- The limit `l` is no more than what the body parser would set, and nothing odd is held. -/
def BodyParser.Room (l : Nat) : BodyParser → Prop
  | .withSize d => l + d.size ≤ maxBodySize
  | .untilEof d => l + d.length ≤ maxBodySize
  | .chunked c => l + c.weight ≤ maxBodySize ∧ c.state.part.length ≤ 512 ∧ LF ∉ c.state.part
  | .empty => True

theorem BodyParser.Room.le {l : Nat} {p : BodyParser} (h : p.Room l) (hp : p ≠ .empty) :
    p.readSoFar ≤ maxBodySize ∧ l ≤ maxBodySize - p.readSoFar := by
  cases p with
  | withSize d => simp only [BodyParser.Room, BodyParser.readSoFar] at h ⊢; omega
  | untilEof d => simp only [BodyParser.Room, BodyParser.readSoFar] at h ⊢; omega
  | chunked c =>
    have := c.body_le
    simp only [BodyParser.Room, BodyParser.readSoFar] at h ⊢; omega
  | empty => exact absurd rfl hp

theorem bodyAt_pause {prof : Profile} {l : Nat} {p : BodyParser} (hr : p.Room l) {as : List Atom} (hw : WB ∉ as)
    {p' : BodyParser} {r : AR} (h : bodyAt prof l p as = (.io p' .wouldBlock, r))
    (hv : p'.inLine → (∀ bs, bs <:+ bytesOf as → LF ∉ bs → utf8Valid bs = true) ∨ CompletesBy (bodyAt prof l p) as) :
    r = ⟨[], []⟩ ∧ ∃ l', p'.Room l' ∧ ∀ X, Near (bodyAt prof l p (as ++ X)) (bodyAt prof l' p' X) := by
  cases p with
  | withSize d =>
    simp only [bodyAt, Prod.mk.injEq] at h
    obtain ⟨h1, rfl⟩ := h
    obtain ⟨d', h2, rfl⟩ := Out.bind_io_eq h1
    obtain ⟨m, e1, e2, e3, e4, e5⟩ := bytes_stop hw (Prod.ext h2 rfl)
    refine ⟨pop_nil e1, l - m, by simp only [BodyParser.Room] at hr ⊢; omega, fun X => ?_⟩
    have := e5 X
    simp only [bodyAt, this]
    exact .refl _
  | untilEof d =>
    simp only [bodyAt, Prod.mk.injEq] at h
    obtain ⟨h1, rfl⟩ := h
    obtain ⟨d', h2, rfl⟩ := Out.bind_io_eq h1
    obtain ⟨m, e1, e2, e3, e4⟩ := drain_pause hw (Prod.ext h2 rfl)
    have hm := e2 _ (List.mem_singleton.2 rfl)
    refine ⟨pop_nil e1, l - m, by simp only [BodyParser.Room] at hr ⊢; omega, fun X => ?_⟩
    have := e4 X
    simp only [bodyAt, this]
    exact .refl _
  | chunked c =>
    simp only [bodyAt, Prod.mk.injEq] at h
    obtain ⟨h1, rfl⟩ := h
    obtain ⟨c', h2, rfl⟩ := Out.bind_io_eq h1
    simp only [BodyParser.Room] at hr
    obtain ⟨m, e1, e2, e3, e5, e4⟩ := crun_pause hr.2.1 hr.2.2 hw (Prod.ext h2 rfl) (fun hi => (hv hi).imp id (by
      rintro ⟨c, X, v, r, hc', h'⟩
      simp only [bodyAt, Prod.mk.injEq] at h'
      obtain ⟨_, h5, -⟩ := Out.bind_done h'.1
      exact ⟨c, X, _, _, hc', Prod.ext h5 rfl⟩))
    have hm := e2 _ (List.mem_singleton.2 rfl)
    refine ⟨pop_nil e1, l - m, ⟨by omega, e5⟩, fun X => ?_⟩
    exact (e4 X).pop.bind _ _
  | empty => simp [bodyAt] at h

/-! ### Messages -/

section
variable {T : Type}

theorem messageLoop_fuel (prof : Profile) (pf : Bytes → Except ParsingError T) (b : Bool) (f f' : Nat)
    (st : MsgState T) (r : AR) (hf : st.rank ≤ f) (hf' : st.rank ≤ f') :
    MessageParser.loop prof pf b f st r = MessageParser.loop prof pf b f' st r := by
  induction f generalizing f' st r with
  | zero => cases st <;> simp [MsgState.rank] at hf
  | succ f ih =>
    obtain ⟨f', rfl⟩ : ∃ m, f' = m + 1 := ⟨f' - 1, by cases st <;> simp [MsgState.rank] at hf' <;> omega⟩
    by_cases hfin : st.isFinished = false
    · rw [messageLoop_step _ _ _ _ _ _ hfin, messageLoop_step _ _ _ _ _ _ hfin]
      have hp := (msgStep_progress prof pf b st r).2.2 hfin
      revert hp
      generalize msgStep prof pf b st r = q
      obtain ⟨o, r'⟩ := q
      intro hp
      cases o with
      | done st1 =>
        have := hp st1 rfl
        exact ih f' st1 r' (by omega) (by omega)
      | _ => rfl
    · cases st with
      | finished t hs bd => rw [messageLoop_finished, messageLoop_finished]
      | _ => simp [MsgState.isFinished] at hfin

/-- The message loop, with enough fuel. -/
def mrun (prof : Profile) (pf : Bytes → Except ParsingError T) (b : Bool) (st : MsgState T) (r : AR) :
    Out (MsgState T) (T × HeaderMap × Bytes) × AR := MessageParser.loop prof pf b 5 st r

theorem mrun_cont (prof : Profile) (pf : Bytes → Except ParsingError T) (b : Bool) (st : MsgState T) (r : AR)
    (h : st.isFinished = false) :
    mrun prof pf b st r = Out.cont id (mrun prof pf b) (msgStep prof pf b st r) := by
  rw [mrun, messageLoop_cont _ _ _ _ _ _ h]
  have hp := (msgStep_progress prof pf b st r).2.2 h
  revert hp
  generalize msgStep prof pf b st r = q
  obtain ⟨o, r'⟩ := q
  intro hp
  cases o with
  | done st1 =>
    have h1 := hp st1 rfl
    have h2 := st.rank_le
    exact messageLoop_fuel prof pf b _ _ st1 r' (by omega) (by omega)
  | _ => rfl

/-- The message parser is inside a line. -/
def MsgState.inLine : MsgState T → Prop
  | .firstLine _ => True
  | .headers _ _ => True
  | .body _ _ p => p.inLine
  | .finished _ _ _ => False

theorem CleanStop.body {t : T} {hs : HeaderMap} {p : BodyParser} {as : List Atom}
    (h : CleanStop (.body t hs p) as) (hi : p.inLine) : ∀ bs, bs <:+ bytesOf as → LF ∉ bs → utf8Valid bs = true := by
  cases p with
  | chunked p =>
    obtain ⟨b, st⟩ := p
    cases st with
    | size l => exact h
    | tailingCrlf l x => exact h
    | data d => exact hi.elim
    | finished => exact hi.elim
  | _ => exact hi.elim

theorem cleanStop_suffix {st : MsgState T} {a b : List Atom} (h : CleanStop st (a ++ .byte LF :: b)) :
    CleanStop st b := by
  have hs : ∀ bs, bs <:+ bytesOf b → bs <:+ bytesOf (a ++ .byte LF :: b) := by
    intro bs hb
    rw [bytesOf_append]
    exact hb.trans ((List.suffix_cons _ _).trans (List.suffix_append _ _))
  cases st with
  | firstLine l => simpa only [CleanStop, bytesOf_append, bytesOf, afterLf_append] using h
  | headers t l => simpa only [CleanStop, bytesOf_append, bytesOf, afterLf_append] using h
  | finished => trivial
  | body t hd p =>
    cases p with
    | chunked p =>
      obtain ⟨bd, st⟩ := p
      cases st with
      | size l => exact fun bs hb => h bs (hs bs hb)
      | tailingCrlf l x => exact fun bs hb => h bs (hs bs hb)
      | _ => trivial
    | _ => trivial

theorem hrun_done_lf {prof : Profile} {p : HeadersParser} (hlen : p.inner.length ≤ 512) (hl : LF ∉ p.inner)
    {ls : List Nat} {as : List Atom} {hs : HeaderMap} {r : AR} (h : hrun prof p (⟨ls, as⟩ : AR) = (.done hs, r)) :
    ∃ pre, as = pre ++ .byte LF :: r.atoms := by
  obtain ⟨n, hn⟩ : ∃ n, as.length ≤ n := ⟨_, Nat.le_refl _⟩
  induction n using Nat.strongRecOn generalizing p ls as with
  | _ n ih =>
    rw [hrun_cont] at h
    cases hc : CrlfLineParser.parse prof p.inner (⟨ls, as⟩ : AR) with
    | mk o1 r1 =>
    rw [hc] at h
    cases o1 with
    | done line =>
      obtain ⟨pre, -, -, -, -, e2, -, -, -⟩ := crlf_done hlen hl hc
      simp only [Out.cont, headerNext] at h
      by_cases hnil : line = []
      · simp only [hnil, if_true, Prod.mk.injEq] at h
        obtain ⟨-, rfl⟩ := h
        exact ⟨pre, e2⟩
      · simp only [hnil, if_false] at h
        cases hph : parseHeader line with
        | error e => simp [hph] at h
        | ok hv =>
          simp only [hph] at h
          obtain ⟨pre', e⟩ := ih r1.atoms.length (by rw [e2] at hn; simp at hn; omega)
            (p := ⟨[], p.headers.addHeader hv.1 hv.2, p.read + line.length⟩) (by simp) (by simp) h (Nat.le_refl _)
          exact ⟨pre ++ .byte LF :: pre', by rw [e2, e]; simp⟩
    | _ => simp [Out.cont] at h

theorem mrun_firstLine_done {prof : Profile} {pf : Bytes → Except ParsingError T} {b : Bool} {as : List Atom}
    {st1 : MsgState T} {r1 : AR} (h : msgStep prof pf b (.firstLine []) ⟨[], as⟩ = (.done st1, r1)) :
    (∃ t, st1 = .headers t .new) ∧ r1.lims = [] ∧ ∃ pre, as = pre ++ .byte LF :: r1.atoms := by
  simp only [msgStep, firstLineState, Prod.mk.injEq] at h
  obtain ⟨h, rfl⟩ := h
  obtain ⟨l, h1, h2⟩ := Out.bind_done h
  obtain ⟨pre, -, -, -, -, e2, -, e4, -⟩ := crlf_done (by simp) (by simp) (Prod.ext h1 rfl)
  refine ⟨?_, by rw [e4]; rfl, pre, e2⟩
  cases hp : pf l <;> simp [hp] at h2
  exact ⟨_, h2.symm⟩

theorem mrun_headers_done {prof : Profile} {pf : Bytes → Except ParsingError T} {b : Bool} {as : List Atom} {t : T}
    {st1 : MsgState T} {r1 : AR} (h : msgStep prof pf b (.headers t .new) ⟨[], as⟩ = (.done st1, r1)) :
    (∃ hs p, BodyParser.new hs b = .ok p ∧ st1 = .body t hs p) ∧ r1.lims = [] ∧
      ∃ pre, as = pre ++ .byte LF :: r1.atoms := by
  simp only [msgStep, headersState, Prod.mk.injEq] at h
  obtain ⟨h, rfl⟩ := h
  obtain ⟨hs, h1, h2⟩ := Out.bind_done h
  rw [headersParse_pop prof (by decide)] at h1 ⊢
  obtain ⟨pre, e⟩ := hrun_done_lf (p := .new) (by simp [HeadersParser.new]) (by simp [HeadersParser.new]) (Prod.ext h1 rfl)
  refine ⟨?_, List.eq_nil_of_length_eq_zero (by simp only [pop1, List.length_tail, hrun_lims_length]; simp), pre, e⟩
  cases hp : BodyParser.new hs b <;> simp [hp] at h2
  exact ⟨_, _, hp, h2.symm⟩

/-- One iteration of the message loop, under a given limit. -/
def msgAt (prof : Profile) (pf : Bytes → Except ParsingError T) (b : Bool) (l : Nat) (st : MsgState T)
    (as : List Atom) : Out (MsgState T) (MsgState T) × AR :=
  match st with
  | .headers t p =>
    ((pop1 (hrun prof p ⟨[l], as⟩)).1.bind (.headers t) fun hs =>
      match BodyParser.new hs b with
      | .ok bp => .done (.body t hs bp)
      | .error e => .perr e, (pop1 (hrun prof p ⟨[l], as⟩)).2)
  | .body t hs p => ((bodyAt prof l p as).1.bind (.body t hs) fun b => .done (.finished t hs b), (bodyAt prof l p as).2)
  | .firstLine line => firstLineState prof pf line ⟨[], as⟩
  | .finished t hs bd => (.done (.finished t hs bd), ⟨[], as⟩)

/-- The message loop, its first iteration under a given limit. -/
def mrunAt (prof : Profile) (pf : Bytes → Except ParsingError T) (b : Bool) (l : Nat) (st : MsgState T)
    (as : List Atom) : Out (MsgState T) (T × HeaderMap × Bytes) × AR :=
  Out.cont id (mrun prof pf b) (msgAt prof pf b l st as)

/-- The limit `l` is no more than what the parser would set, and nothing odd is held. -/
def MsgState.Room (l : Nat) : MsgState T → Prop
  | .firstLine line => line.length ≤ 512 ∧ LF ∉ line
  | .headers _ p => l + p.read + p.inner.length ≤ maxHeadersSize ∧ p.inner.length ≤ 512 ∧ LF ∉ p.inner
  | .body _ _ p => p.Room l
  | .finished _ _ _ => True

/-- The limit that the parser sets. -/
def MsgState.limit : MsgState T → Nat
  | .headers _ p => maxHeadersSize - p.read
  | .body _ _ p => maxBodySize - p.readSoFar
  | _ => 0

theorem mrun_at (prof : Profile) (pf : Bytes → Except ParsingError T) (b : Bool) {l : Nat} {st : MsgState T}
    (h : st.Room l) (as : List Atom) : mrun prof pf b st ⟨[], as⟩ = mrunAt prof pf b st.limit st as := by
  cases st with
  | finished t hs bd => simp [mrun, mrunAt, msgAt, Out.cont, messageLoop_finished]
  | firstLine line => rw [mrun_cont _ _ _ _ _ rfl]; rfl
  | headers t p =>
    rw [mrun_cont _ _ _ _ _ rfl]
    simp only [MsgState.Room] at h
    simp only [msgStep, headersState, headersParse_pop prof (p := p) (by omega)]
    rfl
  | body t hs p =>
    rw [mrun_cont _ _ _ _ _ rfl]
    simp only [msgStep, bodyState]
    by_cases hp : p = .empty
    · subst hp; rfl
    · rw [bodyParse_at prof (BodyParser.Room.le h hp).1]; rfl

theorem mrunAt_cmp (prof : Profile) (pf : Bytes → Except ParsingError T) (b : Bool) {l l' : Nat} (hl : l ≤ l')
    (st : MsgState T) (as : List Atom) : Cmp (mrunAt prof pf b l st as) (mrunAt prof pf b l' st as) := by
  refine Cmp.cont ?_ _ _
  cases st with
  | finished t hs bd => exact .inr rfl
  | firstLine line => exact .inr rfl
  | headers t p =>
    exact (Cmp.of (sim_lims.hrun prof p (a := ⟨[l], as⟩) (b := ⟨[l'], as⟩) ⟨rfl, .cons hl .nil⟩)
      (hrun_progress prof p _).1 (by rw [hrun_lims_length]; simp) (by rw [hrun_lims_length]; simp)).bind _ _
  | body t hs p => exact (bodyAt_cmp prof hl p as).bind _ _

theorem MsgState.Room.cmp {prof : Profile} {pf : Bytes → Except ParsingError T} {b : Bool} {l : Nat} {st : MsgState T}
    (h : st.Room l) (as : List Atom) : Cmp (mrunAt prof pf b l st as) (mrun prof pf b st ⟨[], as⟩) := by
  rw [mrun_at prof pf b h]
  cases st with
  | finished t hs bd => exact .inr rfl
  | firstLine line => exact .inr rfl
  | headers t p =>
    exact mrunAt_cmp prof pf b (by simp only [MsgState.Room, MsgState.limit] at h ⊢; omega) _ _
  | body t hs p =>
    by_cases hp : p = .empty
    · subst hp; exact .inr rfl
    · exact mrunAt_cmp prof pf b (BodyParser.Room.le h hp).2 _ _

/-- A call stopped for lack of input can be resumed. -/
def Resumes (prof : Profile) (pf : Bytes → Except ParsingError T) (b : Bool) (l : Nat) (st : MsgState T)
    (as : List Atom) (st' : MsgState T) (r : AR) : Prop :=
  r = ⟨[], []⟩ ∧ ∃ l', st'.Room l' ∧ ∀ X, Near (mrunAt prof pf b l st (as ++ X)) (mrunAt prof pf b l' st' X)

theorem body_resumes {prof : Profile} {pf : Bytes → Except ParsingError T} {b : Bool} {l : Nat} {t : T}
    {hs : HeaderMap} {p : BodyParser} (hr : p.Room l) {as : List Atom} (hw : WB ∉ as) {st' : MsgState T} {r : AR}
    (h : mrunAt prof pf b l (.body t hs p) as = (.io st' .wouldBlock, r)) (hv : CleanStop st' as ∨ CompletesBy (mrunAt prof pf b l (.body t hs p)) as) :
    Resumes prof pf b l (.body t hs p) as st' r := by
  simp only [mrunAt, msgAt] at h
  cases hs3 : bodyAt prof l p as with
  | mk o r3 =>
  rw [hs3] at h
  cases o with
  | perr e => simp [Out.cont, Out.bind] at h
  | panic => simp [Out.cont, Out.bind] at h
  | diverge => simp [Out.cont, Out.bind] at h
  | done bd => simp [Out.cont, Out.bind, mrun, messageLoop_finished] at h
  | io p' e =>
    simp only [Out.cont, Out.bind, Prod.mk.injEq, Out.io.injEq, id] at h
    obtain ⟨⟨rfl, rfl⟩, rfl⟩ := h
    obtain ⟨e1, l', e2, e3⟩ := bodyAt_pause hr hw hs3 (fun hi => hv.imp (fun hv => hv.body hi) (by
      rintro ⟨c, X, v, r, hc', h'⟩
      simp only [mrunAt, msgAt] at h'
      obtain ⟨_, _, h5⟩ := Out.cont_done h'
      simp only [Prod.mk.injEq] at h5
      obtain ⟨_, h6, -⟩ := Out.bind_done h5.1
      exact ⟨c, X, _, _, hc', Prod.ext h6 rfl⟩))
    exact ⟨e1, l', e2, fun X => ((e3 X).bind _ _).cont _ _⟩

theorem fresh_room {hs : HeaderMap} {b : Bool} {p : BodyParser} (hp : BodyParser.new hs b = .ok p) :
    p.Room (maxBodySize - p.readSoFar) := by
  unfold BodyParser.new at hp
  split at hp
  · cases hp
  · split at hp
    · cases hp
    · cases hp; simp only [BodyParser.Room, BodyParser.readSoFar]; omega
  · split at hp
    · cases hp; simp [BodyParser.Room, BodyParser.readSoFar, ChunksParser.weight, ChunkState.part]
    · split at hp <;> cases hp <;> simp [BodyParser.Room, BodyParser.readSoFar]

theorem headers_resumes {prof : Profile} {pf : Bytes → Except ParsingError T} {b : Bool} {l : Nat} {t : T}
    {p : HeadersParser} (hr : (MsgState.headers t p).Room l) {as : List Atom} (hw : WB ∉ as) {st' : MsgState T} {r : AR}
    (h : mrunAt prof pf b l (.headers t p) as = (.io st' .wouldBlock, r)) (hv : CleanStop st' as ∨ CompletesBy (mrunAt prof pf b l (.headers t p)) as) :
    Resumes prof pf b l (.headers t p) as st' r := by
  simp only [mrunAt, msgAt] at h
  have hr' := hr
  simp only [MsgState.Room] at hr'
  cases hq : hrun prof p ⟨[l], as⟩ with
  | mk o r3 =>
  rw [hq] at h
  cases o with
  | perr e => simp [Out.cont, Out.bind, pop1] at h
  | panic => simp [Out.cont, Out.bind, pop1] at h
  | diverge => simp [Out.cont, Out.bind, pop1] at h
  | io p' e =>
    simp only [Out.cont, Out.bind, pop1, Prod.mk.injEq, Out.io.injEq, id] at h
    obtain ⟨⟨rfl, rfl⟩, rfl⟩ := h
    obtain ⟨n, e1, e2, e3, e5, e4⟩ := hrun_pause hr'.2.1 hr'.2.2 hw hq (hv.imp id (by
      rintro ⟨c, X, v, r, hc', h'⟩
      simp only [mrunAt, msgAt] at h'
      obtain ⟨_, _, h5⟩ := Out.cont_done h'
      simp only [Prod.mk.injEq] at h5
      obtain ⟨_, h6, -⟩ := Out.bind_done h5.1
      exact ⟨c, X, _, _, hc', Prod.ext h6 rfl⟩))
    have hn := e2 _ (List.mem_singleton.2 rfl)
    refine ⟨pop_nil e1, l - n, ⟨by omega, e5⟩, fun X => ?_⟩
    exact ((e4 X).pop.bind _ _).cont _ _
  | done hs =>
    have hlen := hrun_lims_length prof p ⟨[l], as⟩
    rw [hq] at hlen
    obtain ⟨pre, hpre⟩ := hrun_done_lf hr'.2.1 hr'.2.2 hq
    obtain ⟨pre1, hp1, hX1⟩ := hrun_local prof p _ _ _ _ hq
    obtain ⟨ls3, as3⟩ := r3
    simp only at hpre hp1 hlen
    have hnil : ls3.tail = [] := List.eq_nil_of_length_eq_zero (by simp [hlen])
    simp only [Out.bind, pop1, hnil] at h
    cases hb : BodyParser.new hs b with
    | error e => simp [hb, Out.cont] at h
    | ok bp =>
      simp only [hb, Out.cont] at h
      have hroom := fresh_room hb
      rw [mrun_at prof pf b (l := maxBodySize - bp.readSoFar) (st := .body t hs bp) hroom] at h
      have hw3 : WB ∉ as3 := fun hm => hw (by rw [hpre]; simp [hm])
      obtain ⟨e1, l', e2, e3⟩ := body_resumes hroom hw3 h (hv.imp (fun hv => by rw [hpre] at hv; exact cleanStop_suffix hv) (by
        rintro ⟨c, X, v, r, hc', h'⟩
        refine ⟨c, X, v, r, hc', ?_⟩
        simp only [mrunAt, msgAt] at h'
        rw [hp1, List.append_assoc, hX1] at h'
        simp only [Out.bind, pop1, hnil, hb, Out.cont] at h'
        rwa [mrun_at prof pf b (l := maxBodySize - bp.readSoFar) (st := .body t hs bp) hroom] at h'))
      refine ⟨e1, l', e2, fun X => ?_⟩
      have := e3 X
      simp only [mrunAt, msgAt]
      rw [hp1, List.append_assoc, hX1 (as3 ++ X)]
      simp only [Out.bind, pop1, hnil, hb, Out.cont]
      rw [mrun_at prof pf b (l := maxBodySize - bp.readSoFar) (st := .body t hs bp) hroom]
      exact this

theorem firstLine_resumes {prof : Profile} {pf : Bytes → Except ParsingError T} {b : Bool} {l : Nat} {line : Bytes}
    (hr : line.length ≤ 512 ∧ LF ∉ line) {as : List Atom} (hw : WB ∉ as) {st' : MsgState T} {r : AR}
    (h : mrunAt prof pf b l (.firstLine line) as = (.io st' .wouldBlock, r)) (hv : CleanStop st' as ∨ CompletesBy (mrunAt prof pf b l (.firstLine line)) as) :
    Resumes prof pf b l (.firstLine line) as st' r := by
  simp only [mrunAt, msgAt, firstLineState] at h
  cases hq : CrlfLineParser.parse prof line (⟨[], as⟩ : AR) with
  | mk o r3 =>
  rw [hq] at h
  cases o with
  | perr e => simp [Out.cont, Out.bind] at h
  | panic => simp [Out.cont, Out.bind] at h
  | diverge => simp [Out.cont, Out.bind] at h
  | io line' e =>
    simp only [Out.cont, Out.bind, Prod.mk.injEq, Out.io.injEq, id] at h
    obtain ⟨⟨rfl, rfl⟩, rfl⟩ := h
    obtain ⟨hq', hd, h2, h3, h4, h5⟩ := crlf_pause hr.1 hr.2 hw hq
    have hv1 : utf8Valid (bytesOf as) = true := by
      rcases hv with hv | ⟨c, X, v, r, hc', h'⟩
      · simpa only [CleanStop, afterLf_eq hd] using hv
      · simp only [mrunAt, msgAt, firstLineState] at h'
        obtain ⟨_, _, h5⟩ := Out.cont_done h'
        simp only [Prod.mk.injEq] at h5
        obtain ⟨_, h6, -⟩ := Out.bind_done h5.1
        exact crlf_completes hr.1 hr.2 hd ⟨c, X, _, _, hc', Prod.ext h6 rfl⟩
    simp only [hv1, if_true] at h5
    subst h5
    refine ⟨h4, l, ⟨Nat.le_of_lt h2, fun hm => (List.mem_append.1 hm).elim hr.2 hd⟩, fun X => ?_⟩
    exact ((crlf_split (ls := []) hq' hd h2 (by simp) hv1 X).bind _ _).cont _ _
  | done l1 =>
    obtain ⟨pre, -, -, -, -, hpre, -, e4, -⟩ := crlf_done hr.1 hr.2 hq
    obtain ⟨pre1, hp1, hX1⟩ := crlf_local prof line _ _ _ _ hq
    obtain ⟨ls3, as3⟩ := r3
    simp only [decN_nil] at hpre hp1 e4
    subst e4
    simp only [Out.bind] at h
    cases hb : pf l1 with
    | error e => simp [hb, Out.cont] at h
    | ok t =>
      simp only [hb, Out.cont] at h
      have hroom : (MsgState.headers t HeadersParser.new).Room maxHeadersSize := by
        simp [MsgState.Room, HeadersParser.new]
      rw [mrun_at prof pf b hroom] at h
      have hw3 : WB ∉ as3 := fun hm => hw (by rw [hpre]; simp [hm])
      obtain ⟨e1, l', e2, e3⟩ := headers_resumes hroom hw3 h (hv.imp (fun hv => by rw [hpre] at hv; exact cleanStop_suffix hv) (by
        rintro ⟨c, X, v, r, hc', h'⟩
        refine ⟨c, X, v, r, hc', ?_⟩
        simp only [mrunAt, msgAt, firstLineState] at h'
        rw [hp1, List.append_assoc, hX1] at h'
        simp only [Out.bind, hb, Out.cont] at h'
        rwa [mrun_at prof pf b hroom] at h'))
      refine ⟨e1, l', e2, fun X => ?_⟩
      have := e3 X
      simp only [mrunAt, msgAt, firstLineState]
      rw [hp1, List.append_assoc, hX1 (as3 ++ X)]
      simp only [Out.bind, hb, Out.cont]
      rw [mrun_at prof pf b hroom]
      exact this

theorem mrunAt_resumes {prof : Profile} {pf : Bytes → Except ParsingError T} {b : Bool} {l : Nat} {st : MsgState T}
    (hr : st.Room l) {as : List Atom} (hw : WB ∉ as) {st' : MsgState T} {r : AR}
    (h : mrunAt prof pf b l st as = (.io st' .wouldBlock, r)) (hv : CleanStop st' as ∨ CompletesBy (mrunAt prof pf b l st) as) :
    Resumes prof pf b l st as st' r := by
  cases st with
  | firstLine line => exact firstLine_resumes hr hw h hv
  | headers t p => exact headers_resumes hr hw h hv
  | body t hs p => exact body_resumes hr hw h hv
  | finished t hs bd => simp [mrunAt, msgAt, Out.cont, mrun, messageLoop_finished] at h

/-- After the input `w` in several calls the parser `st` is kept: a call with all the input does the same
from there on, unless it exceeds a limit. -/
def Tracks (prof : Profile) (pf : Bytes → Except ParsingError T) (b : Bool) (w : List Atom) (st : MsgState T) : Prop :=
  (∃ s r, mrun prof pf b (.firstLine []) ⟨[], w⟩ = (.io s .limitReached, r)) ∨
    ∃ l, st.Room l ∧ ∀ X, Near (mrun prof pf b (.firstLine []) ⟨[], w ++ X⟩) (mrunAt prof pf b l st X)

theorem tracks_new (prof : Profile) (pf : Bytes → Except ParsingError T) (b : Bool) :
    Tracks prof pf b [] (.firstLine []) := by
  have hr : (MsgState.firstLine [] : MsgState T).Room 0 := by simp [MsgState.Room]
  exact .inr ⟨0, hr, fun X => by rw [List.nil_append, mrun_at prof pf b hr]; exact .refl _⟩

theorem mrun_append {prof : Profile} {pf : Bytes → Except ParsingError T} {b : Bool} {st : MsgState T} {ls : List Nat}
    {as : List Atom} (X : List Atom) {o : Out (MsgState T) (T × HeaderMap × Bytes)} {r : AR}
    (h : mrun prof pf b st ⟨ls, as⟩ = (o, r)) (hw : ∀ s, o ≠ .io s .wouldBlock) :
    mrun prof pf b st ⟨ls, as ++ X⟩ = (o, ⟨r.lims, r.atoms ++ X⟩) := by
  have := ((sim_append X).messageLoop prof pf b 5 st (a := ⟨ls, as⟩) (b := ⟨ls, as ++ X⟩) ⟨rfl, rfl⟩).append
    (by rw [show MessageParser.loop prof pf b 5 st (⟨ls, as⟩ : AR) = (o, r) from h]; exact hw)
    (messageLoop_progress prof pf b 5 st _ (by have := st.rank_le; omega)).1
  rw [show MessageParser.loop prof pf b 5 st (⟨ls, as⟩ : AR) = (o, r) from h] at this
  exact this

theorem Tracks.pause {prof : Profile} {pf : Bytes → Except ParsingError T} {b : Bool} {w pre : List Atom}
    {st st' : MsgState T} (ht : Tracks prof pf b w st) (hw : WB ∉ pre) {r : AR}
    (h : mrun prof pf b st ⟨[], pre⟩ = (.io st' .wouldBlock, r)) (hv : CleanStop st' pre ∨ CompletesBy (fun as => mrun prof pf b (.firstLine []) ⟨[], as⟩) (w ++ pre)) :
    Tracks prof pf b (w ++ pre) st' := by
  rcases ht with ⟨s, r0, h0⟩ | ⟨l, hr, hX⟩
  · exact .inl ⟨s, _, mrun_append pre h0 (by simp)⟩
  · rcases hr.cmp (prof := prof) (pf := pf) (b := b) pre with ⟨s, hs⟩ | he
    · obtain ⟨s', hs'⟩ := (hX pre).io hs
      exact .inl ⟨s', _, Prod.ext hs' rfl⟩
    · rw [h] at he
      obtain ⟨-, l', e2, e3⟩ := mrunAt_resumes hr hw he (hv.imp id (by
        rintro ⟨c, X, v, r, hc', h'⟩
        dsimp only at h'
        rw [List.append_assoc] at h'
        have hn := hX (pre ++ .byte c :: X)
        rw [h'] at hn
        refine ⟨c, X, v, r, hc', ?_⟩
        rcases hn.2 with h3 | ⟨_, _, _, h3, _⟩
        · exact (Prod.ext h3 hn.1).symm
        · cases h3))
      refine .inr ⟨l', e2, fun X => ?_⟩
      rw [List.append_assoc]
      exact (hX (pre ++ X)).trans (e3 X)

theorem Tracks.last {prof : Profile} {pf : Bytes → Except ParsingError T} {b : Bool} {w : List Atom}
    {st : MsgState T} (ht : Tracks prof pf b w st) (X : List Atom) :
    (∃ s, (mrun prof pf b (.firstLine []) ⟨[], w ++ X⟩).1 = .io s .limitReached) ∨
      Near (mrun prof pf b (.firstLine []) ⟨[], w ++ X⟩) (mrun prof pf b st ⟨[], X⟩) := by
  rcases ht with ⟨s, r0, h0⟩ | ⟨l, hr, hX⟩
  · exact .inl ⟨s, by rw [mrun_append X h0 (by simp)]⟩
  · rcases hr.cmp (prof := prof) (pf := pf) (b := b) X with ⟨s, hs⟩ | he
    · exact .inl ((hX X).io hs)
    · right; rw [← he]; exact hX X

end

end Verif
