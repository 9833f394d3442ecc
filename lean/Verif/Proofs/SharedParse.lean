import Verif.Proofs.Shared

/-!
The parsers over a stream that is read and written, and over the reading part.
-/

namespace Verif

open Reader

namespace Views

variable {S W : Type}

/-- The reading part. -/
def join (V : Views S W) (x : Shared S) (es : List Ev) : Rd := ⟨x.lims, V.rd x.stream es⟩

/-- The stream is as it should be. -/
structure Good (V : Views S W) (x : Shared S) : Prop where
  ok : V.ok x.stream
  offer : x.offer = V.offer

/-- Reading led from `x` to `y`, and the raw stream did `es` for it. -/
structure Step (V : Views S W) (x y : Shared S) (es : List Ev) : Prop where
  offer : y.offer = x.offer
  rounds : y.rounds = x.rounds
  hung : y.hung = x.hung
  reads : V.Reads x.stream y.stream es

/-- What `G` does with the reading part is what came out. -/
def Fol {σ τ : Type} (V : Views S W) (x : Shared S) (G : Rd → Out σ τ × Rd) (res : Out σ τ × Shared S) : Prop :=
  res.1 ≠ .diverge → ∃ es, V.Step x res.2 es ∧ ∀ rest, G (V.join x (es ++ rest)) = (res.1, V.join res.2 rest)

/-- The same for an operation. -/
def FolIo (V : Views S W) (x : Shared S) (G : Rd → IoRes × Bytes × Rd) (res : IoRes × Bytes × Shared S) : Prop :=
  res.1 ≠ .diverge → ∃ es, V.Step x res.2.2 es ∧ ∀ rest, G (V.join x (es ++ rest)) = (res.1, res.2.1, V.join res.2.2 rest)

variable {V : Views S W} {x y z : Shared S}

theorem Step.refl (h : V.Good x) : V.Step x x [] := ⟨rfl, rfl, rfl, .refl h.ok⟩

theorem Step.trans {es es' : List Ev} (h : V.Step x y es) (h' : V.Step y z es') : V.Step x z (es ++ es') :=
  ⟨h'.offer.trans h.offer, h'.rounds.trans h.rounds, h'.hung.trans h.hung, h.reads.trans h'.reads⟩

theorem Step.good {es : List Ev} (h : V.Step x y es) (hg : V.Good x) : V.Good y := ⟨h.reads.ok, h.offer.trans hg.offer⟩

theorem Good.push (hg : V.Good x) (l : Nat) : V.Good { x with lims := l :: x.lims } := ⟨hg.ok, hg.offer⟩

theorem Step.push {es : List Ev} {l : Nat} (h : V.Step { x with lims := l :: x.lims } y es) : V.Step x { y with lims := y.lims.tail } es :=
  ⟨h.offer, h.rounds, h.hung, h.reads⟩

theorem Fol.same {σ τ : Type} {G : Rd → Out σ τ × Rd} (hg : V.Good x) {o : Out σ τ} (h : ∀ rest, G (V.join x rest) = (o, V.join x rest)) : V.Fol x G (o, x) :=
  fun _ => ⟨[], .refl hg, h⟩

theorem scan_ends (d : UInt8) (ls : List Nat) (as : List Atom) : (AR.scan d ls as).1 ≠ .diverge := by
  induction as generalizing ls with
  | nil => simp only [AR.scan]; split <;> simp
  | cons a as ih =>
    simp only [AR.scan]
    split
    · simp
    · cases a with
      | byte b => dsimp only; split <;> simp [ih]
      | eof => simp
      | err e => cases e <;> simp [ih]

/-- One call after the other. -/
theorem Fol.bind {σ τ σ' τ' : Type} {G : Rd → Out σ τ × Rd} {res : Out σ τ × Shared S} (h : V.Fol x G res) (hg : V.Good x)
    {K : Out σ τ → Shared S → Out σ' τ' × Shared S} {G' : Rd → Out σ' τ' × Rd} {L : Out σ τ → Rd → Out σ' τ' × Rd}
    (hG : ∀ r, G' r = L (G r).1 (G r).2) (hd : (K .diverge res.2).1 = .diverge)
    (hK : res.1 ≠ .diverge → V.Good res.2 → V.Fol res.2 (L res.1) (K res.1 res.2)) : V.Fol x G' (K res.1 res.2) := by
  intro hne
  have h0 : res.1 ≠ .diverge := by
    intro h0; rw [h0] at hne; exact hne hd
  obtain ⟨es, h1, h2⟩ := h h0
  obtain ⟨es', h3, h4⟩ := hK h0 (h1.good hg) hne
  refine ⟨es ++ es', h1.trans h3, fun rest => ?_⟩
  rw [hG, List.append_assoc, h2]
  exact h4 rest

/-- A result passed on. -/
theorem Fol.out {σ τ σ' τ' : Type} {G : Rd → Out σ τ × Rd} {res : Out σ τ × Shared S} (h : V.Fol x G res) (g : σ → σ') (f : τ → Out σ' τ') :
    V.Fol x (fun r => ((G r).1.bind g f, (G r).2)) (res.1.bind g f, res.2) := by
  intro hd
  have h0 : res.1 ≠ .diverge := by
    intro h0; rw [h0] at hd; exact hd rfl
  obtain ⟨es, h1, h2⟩ := h h0
  exact ⟨es, h1, fun rest => by simp only [h2]⟩

/-- The rounds that a loop gets for the reading part are enough. -/
theorem Fol.enough {σ τ : Type} {F : Nat → Rd → Out σ τ × Rd} (hm : ∀ f r, (F f r).1 ≠ .diverge → ∀ f' ≥ f, F f' r = F f r) {f : Nat} {g : Rd → Nat}
    (he : ∀ r, (F (g r) r).1 ≠ .diverge) {res : Out σ τ × Shared S} (h : V.Fol x (F f) res) : V.Fol x (fun r => F (g r) r) res := by
  intro hd
  obtain ⟨es, h1, h2⟩ := h hd
  refine ⟨es, h1, fun rest => ?_⟩
  have h3 := h2 rest
  generalize V.join x (es ++ rest) = r at *
  have e1 := hm f r (by rw [h3]; exact hd) _ (Nat.le_max_left f (g r))
  have e2 := hm (g r) r (he r) _ (Nat.le_max_right f (g r))
  show F (g r) r = _
  rw [← e2, e1, h3]

variable [BufRead S] [Wr S] [Write W]

theorem Lawful.untilLf (hV : V.Lawful) (hg : V.Good x) : V.FolIo x readUntilLf (readUntilLf x) := by
  intro hd
  obtain ⟨es, h1, h2⟩ := hV.readUntil LF x.rounds [] x.lims x.stream hg.ok hd
  refine ⟨es, ⟨rfl, rfl, rfl, h1⟩, fun rest => ?_⟩
  have key : Rd.readUntil LF ((V.rd x.stream (es ++ rest)).atoms.length + 1) [] x.lims (V.rd x.stream (es ++ rest)) =
      Rd.readUntil LF (max ((V.rd x.stream (es ++ rest)).atoms.length + 1) x.rounds) [] x.lims (V.rd x.stream (es ++ rest)) := by
    refine (Rd.readUntil_more _ _ _ _ _ ?_ _ (Nat.le_max_left _ _)).symm
    rw [(readUntil_refines LF _ [] x.lims (V.rd x.stream (es ++ rest)) (Nat.lt_succ_self _)).1]
    exact scan_ends _ _ _
  show (let (o, b, ls, s) := Rd.readUntil LF ((V.rd x.stream (es ++ rest)).atoms.length + 1) [] x.lims (V.rd x.stream (es ++ rest)); (o, b, (⟨ls, s⟩ : Rd))) = _
  rw [key, h2 rest _ (Nat.le_max_right _ _)]
  rfl

theorem Lawful.into (hV : V.Lawful) (hg : V.Good x) (n : Nat) (d : Bytes) : V.FolIo x (Reader.readInto n d) (Reader.readInto n d x) := by
  intro hd
  obtain ⟨es, h1, h2⟩ := hV.readInto n x.rounds d x.lims x.stream hg.ok hd
  refine ⟨es, ⟨rfl, rfl, rfl, h1⟩, fun rest => ?_⟩
  have key : Rd.readIntoLoop n ((V.rd x.stream (es ++ rest)).atoms.length + 1) d x.lims (V.rd x.stream (es ++ rest)) =
      Rd.readIntoLoop n (max ((V.rd x.stream (es ++ rest)).atoms.length + 1) x.rounds) d x.lims (V.rd x.stream (es ++ rest)) := by
    refine (Rd.readInto_more _ _ _ _ _ ?_ _ (Nat.le_max_left _ _)).symm
    rw [(readIntoLoop_refines n _ d x.lims (V.rd x.stream (es ++ rest)) (Nat.lt_succ_self _)).1]
    exact (takeN_progress _ _ _).1
  show (let (o, b, ls, s) := Rd.readIntoLoop n ((V.rd x.stream (es ++ rest)).atoms.length + 1) d x.lims (V.rd x.stream (es ++ rest)); (o, b, (⟨ls, s⟩ : Rd))) = _
  rw [key, h2 rest _ (Nat.le_max_right _ _)]
  rfl

theorem Lawful.toEnd (hV : V.Lawful) (hg : V.Good x) (d : Bytes) : V.FolIo x (Reader.readToEnd d) (Reader.readToEnd d x) := by
  intro hd
  obtain ⟨lims, offer, rounds, hung, stream⟩ := x
  obtain ⟨g1, g2⟩ := hg
  dsimp only at g1 g2
  subst g2
  obtain ⟨es, h1, h2⟩ := hV.readToEnd rounds d lims stream g1 hd
  refine ⟨es, ⟨rfl, rfl, rfl, h1⟩, fun rest => ?_⟩
  have key : Rd.readToEndLoop ((V.rd stream (es ++ rest)).atoms.length + 1) d lims (V.rd stream (es ++ rest)) =
      Rd.readToEndLoop (max ((V.rd stream (es ++ rest)).atoms.length + 1) rounds) d lims (V.rd stream (es ++ rest)) := by
    refine (Rd.readToEnd_more _ _ _ _ ?_ _ (Nat.le_max_left _ _)).symm
    rw [(readToEndLoop_refines _ d lims (V.rd stream (es ++ rest)) (Nat.lt_succ_self _)).1]
    exact (drain_progress _ _).1
  show (let (o, b, ls, s) := Rd.readToEndLoop ((V.rd stream (es ++ rest)).atoms.length + 1) d lims (V.rd stream (es ++ rest)); (o, b, (⟨ls, s⟩ : Rd))) = _
  rw [key, h2 rest _ (Nat.le_max_right _ _)]
  rfl

theorem Lawful.line (hV : V.Lawful) (hg : V.Good x) (line : Bytes) : V.FolIo x (readLine line) (readLine line x) := by
  have h := hV.untilLf hg
  unfold readLine
  unfold FolIo at h ⊢
  generalize readUntilLf x = q at h ⊢
  obtain ⟨o, b, y⟩ := q
  dsimp only at h ⊢
  by_cases hu : utf8Valid b = true
  · rw [if_pos hu]
    intro hd
    obtain ⟨es, h1, h2⟩ := h hd
    exact ⟨es, h1, fun rest => by simp only [h2]; rw [if_pos hu]⟩
  · rw [if_neg hu]
    intro hd
    have hd' : o ≠ .diverge := by cases o <;> simp_all
    obtain ⟨es, h1, h2⟩ := h hd'
    cases o with
    | diverge => exact absurd rfl hd'
    | ok => exact ⟨es, h1, fun rest => by simp only [h2]; rw [if_neg hu]⟩
    | err e => exact ⟨es, h1, fun rest => by simp only [h2]; rw [if_neg hu]⟩

theorem Lawful.lineDeframer (hV : V.Lawful) (hg : V.Good x) (line : Bytes) : V.Fol x (LineDeframer.parse line) (LineDeframer.parse line x) := by
  have h := hV.line hg line
  unfold LineDeframer.parse
  unfold FolIo at h
  generalize readLine line x = q at h ⊢
  obtain ⟨o, b, y⟩ := q
  dsimp only at h ⊢
  cases o with
  | diverge => exact fun hd => absurd rfl hd
  | err e =>
    obtain ⟨es, h1, h2⟩ := h (by simp)
    exact fun _ => ⟨es, h1, fun rest => by simp only [h2]⟩
  | ok =>
    obtain ⟨es, h1, h2⟩ := h (by simp)
    intro _
    refine ⟨es, ?_, fun rest => ?_⟩
    · dsimp only
      split
      · split <;> exact h1
      · exact h1
    · simp only [h2]
      split
      · split <;> rfl
      · rfl

theorem Lawful.crlf (hV : V.Lawful) (hg : V.Good x) (prof : Profile) (line : Bytes) :
    V.Fol x (CrlfLineParser.parse prof line) (CrlfLineParser.parse prof line x) := by
  unfold CrlfLineParser.parse
  cases prof.sub maxLineSize line.length with
  | none => exact .same hg fun _ => rfl
  | some lim =>
    have h : V.Fol (push lim x) _ (LineDeframer.parse line (push lim x)) := hV.lineDeframer (hg.push lim) line
    dsimp only
    unfold Fol at h ⊢
    generalize LineDeframer.parse line (push lim x) = q at h ⊢
    obtain ⟨o, y⟩ := q
    dsimp only at h ⊢
    cases o with
    | diverge => exact fun hd => absurd rfl hd
    | _ =>
      obtain ⟨es, h1, h2⟩ := h (by simp)
      refine fun _ => ⟨es, h1.push, fun rest => ?_⟩
      have h2 : ∀ rest, LineDeframer.parse line (push lim (V.join x (es ++ rest))) = _ := h2
      simp only [h2]
      rfl

theorem Lawful.headersLoop (hV : V.Lawful) (prof : Profile) (f : Nat) (p : HeadersParser) (hg : V.Good x) :
    V.Fol x (HeadersParser.loop prof f p) (HeadersParser.loop prof f p x) := by
  induction f generalizing x p with
  | zero => exact fun hd => absurd rfl hd
  | succ f ih =>
    intro hd
    have h := hV.crlf hg prof p.inner
    simp only [HeadersParser.loop] at hd ⊢
    unfold Fol at h
    generalize CrlfLineParser.parse prof p.inner x = q at *
    obtain ⟨o, y⟩ := q
    dsimp only at *
    cases o with
    | diverge => exact absurd rfl hd
    | done line =>
      obtain ⟨es, h1, h2⟩ := h (by simp)
      dsimp only at *
      by_cases h0 : line = []
      · simp only [if_pos h0]
        exact ⟨es, h1, fun rest => by simp only [h2, if_pos h0]⟩
      · simp only [if_neg h0] at hd ⊢
        cases hx : parseHeader line with
        | error e => exact ⟨es, h1, fun rest => by simp only [h2, if_neg h0, hx]⟩
        | ok hv =>
          simp only [hx] at hd
          obtain ⟨es', i1, i2⟩ := ih _ (h1.good hg) hd
          refine ⟨es ++ es', h1.trans i1, fun rest => ?_⟩
          simp only [List.append_assoc, h2, if_neg h0, hx]
          exact i2 rest
    | _ =>
      obtain ⟨es, h1, h2⟩ := h (by simp)
      exact ⟨es, h1, fun rest => by simp only [h2]⟩

omit [Wr S] [Write W] in
/-- A call under a limit. -/
theorem Fol.limited {σ τ : Type} {l : Nat} {G : Rd → Out σ τ × Rd} {res : Out σ τ × Shared S} (h : V.Fol (push l x) G res) :
    V.Fol x (fun r => ((G (push l r)).1, pop (G (push l r)).2)) (res.1, pop res.2) := by
  intro hd
  obtain ⟨es, h1, h2⟩ := h hd
  refine ⟨es, h1.push, fun rest => ?_⟩
  have h2 : ∀ rest, G (push l (V.join x (es ++ rest))) = _ := h2
  simp only [h2]
  rfl

theorem Lawful.bytesDeframer (hV : V.Lawful) (hg : V.Good x) (p : BytesDeframer) : V.Fol x (BytesDeframer.parse p) (BytesDeframer.parse p x) := by
  have h := hV.into hg p.size p.filled
  unfold BytesDeframer.parse
  unfold FolIo at h
  generalize Reader.readInto p.size p.filled x = q at h ⊢
  obtain ⟨o, b, y⟩ := q
  dsimp only at h ⊢
  cases o with
  | diverge => exact fun hd => absurd rfl hd
  | _ =>
    obtain ⟨es, h1, h2⟩ := h (by simp)
    exact fun _ => ⟨es, h1, fun rest => by simp only [h2]⟩

theorem Lawful.untilEof (hV : V.Lawful) (hg : V.Good x) (d : Bytes) : V.Fol x (BytesUntilEofDeframer.parse d) (BytesUntilEofDeframer.parse d x) := by
  have h := hV.toEnd hg d
  unfold BytesUntilEofDeframer.parse
  unfold FolIo at h
  generalize Reader.readToEnd d x = q at h ⊢
  obtain ⟨o, b, y⟩ := q
  dsimp only at h ⊢
  cases o with
  | diverge => exact fun hd => absurd rfl hd
  | _ =>
    obtain ⟨es, h1, h2⟩ := h (by simp)
    exact fun _ => ⟨es, h1, fun rest => by simp only [h2]⟩

theorem Lawful.sizeState (hV : V.Lawful) (hg : V.Good x) (prof : Profile) (line : Bytes) : V.Fol x (sizeState prof line) (Verif.sizeState prof line x) :=
  (hV.crlf hg prof line).out _ _

theorem Lawful.dataState (hV : V.Lawful) (hg : V.Good x) (p : BytesDeframer) (body : Bytes) : V.Fol x (dataState p body) (Verif.dataState p body x) :=
  (hV.bytesDeframer hg p).out _ _

theorem Lawful.tailingState (hV : V.Lawful) (hg : V.Good x) (prof : Profile) (line : Bytes) (l : Bool) :
    V.Fol x (tailingCrlfState prof line l) (tailingCrlfState prof line l x) :=
  (hV.crlf hg prof line).out _ _

theorem Lawful.chunksLoop (hV : V.Lawful) (prof : Profile) (f : Nat) (p : ChunksParser) (hg : V.Good x) :
    V.Fol x (ChunksParser.loop prof f p) (ChunksParser.loop prof f p x) := by
  induction f generalizing x p with
  | zero => exact fun hd => absurd rfl hd
  | succ f ih =>
    obtain ⟨body, st⟩ := p
    intro hd
    cases st with
    | finished => exact ⟨[], .refl hg, fun _ => rfl⟩
    | size line =>
      have h := hV.sizeState hg prof line
      simp only [ChunksParser.loop] at hd ⊢
      unfold Fol at h
      generalize Verif.sizeState prof line x = q at *
      obtain ⟨o, y⟩ := q
      cases o with
      | diverge => exact absurd rfl hd
      | done v =>
        obtain ⟨es, h1, h2⟩ := h (by simp)
        obtain ⟨es', i1, i2⟩ := ih _ (h1.good hg) hd
        exact ⟨es ++ es', h1.trans i1, fun rest => by simp only [List.append_assoc, h2]; exact i2 rest⟩
      | _ =>
        obtain ⟨es, h1, h2⟩ := h (by simp)
        exact ⟨es, h1, fun rest => by simp only [h2]⟩
    | data b =>
      have h := hV.dataState hg b body
      simp only [ChunksParser.loop] at hd ⊢
      unfold Fol at h
      generalize Verif.dataState b body x = q at *
      obtain ⟨o, y⟩ := q
      cases o with
      | diverge => exact absurd rfl hd
      | done v =>
        obtain ⟨es, h1, h2⟩ := h (by simp)
        obtain ⟨es', i1, i2⟩ := ih _ (h1.good hg) hd
        exact ⟨es ++ es', h1.trans i1, fun rest => by simp only [List.append_assoc, h2]; exact i2 rest⟩
      | _ =>
        obtain ⟨es, h1, h2⟩ := h (by simp)
        exact ⟨es, h1, fun rest => by simp only [h2]⟩
    | tailingCrlf line l =>
      have h := hV.tailingState hg prof line l
      simp only [ChunksParser.loop] at hd ⊢
      unfold Fol at h
      generalize tailingCrlfState prof line l x = q at *
      obtain ⟨o, y⟩ := q
      cases o with
      | diverge => exact absurd rfl hd
      | done v =>
        obtain ⟨es, h1, h2⟩ := h (by simp)
        obtain ⟨es', i1, i2⟩ := ih _ (h1.good hg) hd
        exact ⟨es ++ es', h1.trans i1, fun rest => by simp only [List.append_assoc, h2]; exact i2 rest⟩
      | _ =>
        obtain ⟨es, h1, h2⟩ := h (by simp)
        exact ⟨es, h1, fun rest => by simp only [h2]⟩

theorem headersLoop_ends (prof : Profile) (p : HeadersParser) (r : Rd) : (HeadersParser.loop prof (fuel (pop r)) p r).1 ≠ .diverge := by
  have h := headersLoop_abs prof (fuel (pop r)) p r
  have e : (HeadersParser.loop prof (fuel (pop r)) p r).1 = (HeadersParser.loop prof (fuel (pop r)) p r.abs).1 := by rw [h]; rfl
  rw [e, headersLoop_fuel prof (fuel (pop r)) (r.abs.atoms.length + 1) p r.abs (by show _ < 3 * r.src.atoms.length + 8; simp only [Rd.abs]; omega) (by omega)]
  exact (hrun_progress prof p r.abs).1

theorem chunksLoop_ends (prof : Profile) (p : ChunksParser) (r : Rd) : (ChunksParser.loop prof (fuel (pop r)) p r).1 ≠ .diverge := by
  have h := chunksLoop_abs prof (fuel (pop r)) p r
  have e : (ChunksParser.loop prof (fuel (pop r)) p r).1 = (ChunksParser.loop prof (fuel (pop r)) p r.abs).1 := by rw [h]; rfl
  rw [e]
  exact (crun_progress prof p r.abs).1

theorem Lawful.headers (hV : V.Lawful) (hg : V.Good x) (prof : Profile) (p : HeadersParser) :
    V.Fol x (HeadersParser.parse prof p) (HeadersParser.parse prof p x) := by
  unfold HeadersParser.parse
  cases prof.sub maxHeadersSize p.read with
  | none => exact .same hg fun _ => rfl
  | some lim =>
    have h : V.Fol (push lim x) (HeadersParser.loop prof (fuel x) p) _ := hV.headersLoop prof (fuel x) p (hg.push lim)
    exact (h.enough (g := fun r => fuel (pop r)) (fun f r => headersLoop_more prof f p r) (headersLoop_ends prof p)).limited

theorem Lawful.body (hV : V.Lawful) (hg : V.Good x) (prof : Profile) (p : BodyParser) :
    V.Fol x (BodyParser.parse prof p) (BodyParser.parse prof p x) := by
  unfold BodyParser.parse
  cases prof.sub maxBodySize p.readSoFar with
  | none => exact .same hg fun _ => rfl
  | some lim =>
    cases p with
    | empty => exact .same hg fun _ => rfl
    | withSize p =>
      have h : V.Fol (push lim x) (BytesDeframer.parse p) _ := hV.bytesDeframer (hg.push lim) p
      exact h.limited.out _ _
    | untilEof d =>
      have h : V.Fol (push lim x) (BytesUntilEofDeframer.parse d) _ := hV.untilEof (hg.push lim) d
      exact h.limited.out _ _
    | chunked p =>
      have h : V.Fol (push lim x) (ChunksParser.loop prof (fuel x) p) _ := hV.chunksLoop prof (fuel x) p (hg.push lim)
      exact ((h.enough (g := fun r => fuel (pop r)) (fun f r => chunksLoop_more prof f p r) (chunksLoop_ends prof p)).limited).out _ _

section

variable {T : Type}

theorem Lawful.message (hV : V.Lawful) (prof : Profile) (pf : Bytes → Except ParsingError T) (b : Bool) (f : Nat) (st : MsgState T) (hg : V.Good x) :
    V.Fol x (MessageParser.loop prof pf b f st) (MessageParser.loop prof pf b f st x) := by
  induction f generalizing x st with
  | zero => exact fun hd => absurd rfl hd
  | succ f ih =>
    intro hd
    cases st with
    | finished => exact ⟨[], .refl hg, fun _ => rfl⟩
    | firstLine line =>
      have h : V.Fol x (firstLineState prof pf line) (firstLineState prof pf line x) := (hV.crlf hg prof line).out _ _
      simp only [MessageParser.loop] at hd ⊢
      unfold Fol at h
      generalize firstLineState prof pf line x = q at *
      obtain ⟨o, y⟩ := q
      cases o with
      | diverge => exact absurd rfl hd
      | done v =>
        obtain ⟨es, h1, h2⟩ := h (by simp)
        obtain ⟨es', i1, i2⟩ := ih _ (h1.good hg) hd
        exact ⟨es ++ es', h1.trans i1, fun rest => by simp only [List.append_assoc, h2]; exact i2 rest⟩
      | _ =>
        obtain ⟨es, h1, h2⟩ := h (by simp)
        exact ⟨es, h1, fun rest => by simp only [h2]⟩
    | headers t p =>
      have h : V.Fol x (headersState prof t p b) (headersState prof t p b x) := (hV.headers hg prof p).out _ _
      simp only [MessageParser.loop] at hd ⊢
      unfold Fol at h
      generalize headersState prof t p b x = q at *
      obtain ⟨o, y⟩ := q
      cases o with
      | diverge => exact absurd rfl hd
      | done v =>
        obtain ⟨es, h1, h2⟩ := h (by simp)
        obtain ⟨es', i1, i2⟩ := ih _ (h1.good hg) hd
        exact ⟨es ++ es', h1.trans i1, fun rest => by simp only [List.append_assoc, h2]; exact i2 rest⟩
      | _ =>
        obtain ⟨es, h1, h2⟩ := h (by simp)
        exact ⟨es, h1, fun rest => by simp only [h2]⟩
    | body t hs p =>
      have h : V.Fol x (bodyState prof t hs p) (bodyState prof t hs p x) := (hV.body hg prof p).out _ _
      simp only [MessageParser.loop] at hd ⊢
      unfold Fol at h
      generalize bodyState prof t hs p x = q at *
      obtain ⟨o, y⟩ := q
      cases o with
      | diverge => exact absurd rfl hd
      | done v =>
        obtain ⟨es, h1, h2⟩ := h (by simp)
        obtain ⟨es', i1, i2⟩ := ih _ (h1.good hg) hd
        exact ⟨es ++ es', h1.trans i1, fun rest => by simp only [List.append_assoc, h2]; exact i2 rest⟩
      | _ =>
        obtain ⟨es, h1, h2⟩ := h (by simp)
        exact ⟨es, h1, fun rest => by simp only [h2]⟩

end

theorem Lawful.request (hV : V.Lawful) (hg : V.Good x) (prof : Profile) (p : RequestParser) : V.Fol x (RequestParser.parse prof p) (RequestParser.parse prof p x) :=
  (hV.message prof parseRequestLine false 5 p hg).out _ _

theorem Lawful.response (hV : V.Lawful) (hg : V.Good x) (prof : Profile) (p : ResponseParser) :
    V.Fol x (ResponseParser.parse prof p) (ResponseParser.parse prof p x) :=
  (hV.message prof parseStatusLine true 5 p hg).out _ _

end Views

end Verif
