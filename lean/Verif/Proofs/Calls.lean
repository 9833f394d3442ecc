import Verif.Proofs.Unique
import Verif.Proofs.Local
import Verif.Proofs.Panic
import Verif.Proofs.Regroup

/-!
Successive parse calls on a stream, and the transfer of results from atoms to streams.
-/

namespace Verif

theorem Rd.Ahead.abs {r : Rd} {as : List Atom} (h : r.Ahead as) : r.abs = ⟨[], as⟩ := by
  simp [Rd.abs, h.1, h.2]

theorem Rd.ahead_abs {r : Rd} {as : List Atom} (h : r.abs = ⟨[], as⟩) : r.Ahead as := by
  simp only [Rd.abs, AR.mk.injEq] at h; exact h

theorem Rd.ahead_self {r : Rd} (h : r.lims = []) : r.Ahead r.src.atoms := ⟨h, rfl⟩

/-- A parse call on a stream in terms of atoms. -/
theorem requestParse_ahead {prof : Profile} {p : RequestParser} {r : Rd} {as : List Atom} (h : r.Ahead as) :
    RequestParser.parse prof p (⟨[], as⟩ : AR) =
      ((RequestParser.parse prof p r).1, (RequestParser.parse prof p r).2.abs) := by
  rw [← h.abs, requestParse_abs]; rfl

theorem responseParse_ahead {prof : Profile} {p : ResponseParser} {r : Rd} {as : List Atom} (h : r.Ahead as) :
    ResponseParser.parse prof p (⟨[], as⟩ : AR) =
      ((ResponseParser.parse prof p r).1, (ResponseParser.parse prof p r).2.abs) := by
  rw [← h.abs, responseParse_abs]; rfl

/-- A result on atoms is a result on the stream. -/
theorem requestParse_of {prof : Profile} {p : RequestParser} {r : Rd} {as rest : List Atom} (h : r.Ahead as)
    {o : Out RequestParser Request} (hp : RequestParser.parse prof p (⟨[], as⟩ : AR) = (o, ⟨[], rest⟩)) :
    ∃ r', RequestParser.parse prof p r = (o, r') ∧ r'.Ahead rest := by
  rw [requestParse_ahead h] at hp
  simp only [Prod.mk.injEq] at hp
  exact ⟨_, Prod.ext hp.1 rfl, Rd.ahead_abs hp.2⟩

theorem responseParse_of {prof : Profile} {p : ResponseParser} {r : Rd} {as rest : List Atom} (h : r.Ahead as)
    {o : Out ResponseParser Response} (hp : ResponseParser.parse prof p (⟨[], as⟩ : AR) = (o, ⟨[], rest⟩)) :
    ∃ r', ResponseParser.parse prof p r = (o, r') ∧ r'.Ahead rest := by
  rw [responseParse_ahead h] at hp
  simp only [Prod.mk.injEq] at hp
  exact ⟨_, Prod.ext hp.1 rfl, Rd.ahead_abs hp.2⟩

/-- The atoms taken by some calls. -/
def taken (ps : List Part) : List Atom := ps.flatMap Part.taken

/-- The bytes that count. -/
def kept (ps : List Part) : Bytes := ps.flatMap Part.kept

theorem bytesOf_taken_ascii {ps : List Part} (h : ∀ c ∈ bytesOf (taken ps), c < 128) : kept ps = bytesOf (taken ps) := by
  induction ps with
  | nil => rfl
  | cons x ps ih =>
    have e1 : taken (x :: ps) = x.taken ++ taken ps := by simp [taken]
    have e2 : kept (x :: ps) = x.kept ++ kept ps := by simp [kept]
    rw [e1, bytesOf_append] at h ⊢
    rw [e2, ih (fun c hc => h c (by simp [hc])), x.split]
    rcases x.reason with hx | hx
    · rw [hx, List.append_nil]
    · rw [utf8_ascii (fun c hc => h c (by simp [x.split, hc]))] at hx
      cases hx

/-- The part taken by a call that kept everything. -/
def Part.whole (pre : List Atom) : Part := ⟨pre, bytesOf pre, [], by simp, .inl rfl, by simp⟩

theorem MsgSt.start {T : Type} (prof : Profile) (pf : Bytes → Except ParsingError T) (b : Bool) :
    MsgSt prof pf b true false (.firstLine []) [] := .firstLine .nil

/-- The state before the last of some calls. -/
theorem requestCalls_run {prof : Profile} {single : Bool} {p : RequestParser} {w : Bytes} {r r' : Rd}
    {o : Out RequestParser Request} (h : Calls (RequestParser.parse prof) p r o r')
    (hp : RequestSt prof single p w) (hl : r.lims = []) :
    ∃ (ps : List Part) (s : Bool) (p1 : RequestParser) (r1 : Rd), r.src.atoms = taken ps ++ r1.src.atoms ∧
      r1.lims = [] ∧ RequestSt prof s p1 (w ++ kept ps) ∧ RequestParser.parse prof p1 r1 = (o, r') := by
  induction h generalizing single w with
  | @last p r r' o h => exact ⟨[], single, p, r, rfl, hl, by simpa [kept] using hp, h⟩
  | @pause p p' r r' r'' o h _ ih =>
    have ha := requestParse_ahead (prof := prof) (p := p) (Rd.ahead_self hl)
    rw [h] at ha
    obtain ⟨pre, k, d, hc, hk, hd, hst, hlf⟩ := (request_run hp ha).2 p' _ rfl (by decide)
    have hl' : r'.lims = [] := by have := hc.lims; simpa [Rd.abs] using this
    obtain ⟨ps, s, p1, r1, e1, e2, e3, e4⟩ := ih hst hl'
    refine ⟨⟨pre, k, d, hk, hd, hlf⟩ :: ps, s, p1, r1, ?_, e2, ?_, e4⟩
    · have := hc.atoms
      simp only [Rd.abs] at this
      rw [this, e1]; simp [taken]
    · simpa [kept] using e3

/-- Soundness of a request read in several calls. -/
theorem requestCalls_done {prof : Profile} {r r' : Rd} {q : Request}
    (h : Calls (RequestParser.parse prof) .new r (.done q) r') (hl : r.lims = []) :
    ∃ (ps : List Part) (line : Bytes) (fs : List (Bytes × Bytes)) (f : Framing) (bw : Bytes),
      r.src.atoms = taken ps ++ r'.src.atoms ∧ r'.lims = [] ∧ RequestLine q.method q.uri line ∧
      MessageText line fs false f bw q.body (kept ps) ∧ q.headers = HeaderMap.fromPairs (fieldMap fs) ∧
      Bounded prof false fs f bw q.body := by
  obtain ⟨ps, s, p1, r1, e1, e2, e3, e4⟩ := requestCalls_run h (MsgSt.start prof _ false) hl
  have ha := requestParse_ahead (prof := prof) (p := p1) (Rd.ahead_self e2)
  rw [e4] at ha
  obtain ⟨pre, line, fs, f, bw, hc, -, hr, hm, hh, hb⟩ := (request_run e3 ha).1 q rfl
  refine ⟨ps ++ [.whole pre], line, fs, f, bw, ?_, ?_, hr, ?_, hh, nofun, hb.2⟩
  · have := hc.atoms
    simp only [Rd.abs] at this
    rw [e1, this]; simp [taken, Part.whole]
  · have := hc.lims; simpa [Rd.abs] using this
  · simpa [kept, Part.whole] using hm

/-- Soundness of a request read in one call. -/
theorem requestOne_done {prof : Profile} {r r' : Rd} {q : Request}
    (h : RequestParser.parse prof .new r = (.done q, r')) (hl : r.lims = []) :
    ∃ (pre : List Atom) (line : Bytes) (fs : List (Bytes × Bytes)) (f : Framing) (bw : Bytes),
      r.src.atoms = pre ++ r'.src.atoms ∧ Quiet pre ∧ r'.lims = [] ∧ RequestLine q.method q.uri line ∧
      MessageText line fs false f bw q.body (bytesOf pre) ∧ q.headers = HeaderMap.fromPairs (fieldMap fs) ∧
      Bounded prof true fs f bw q.body := by
  have ha := requestParse_ahead (prof := prof) (p := .new) (Rd.ahead_self hl)
  rw [h] at ha
  obtain ⟨pre, line, fs, f, bw, hc, he, hr, hm, hh, hb⟩ := (request_run (MsgSt.start prof _ false) ha).1 q rfl
  have hf : f ≠ .untilEof := hm.framing.request_framing
  refine ⟨pre, line, fs, f, bw, hc.atoms, ?_, by have := hc.lims; simpa [Rd.abs] using this, hr, hm, hh, hb⟩
  simpa [Ends, hf] using he

/-- The state before the last of some calls. -/
theorem responseCalls_run {prof : Profile} {single : Bool} {p : ResponseParser} {w : Bytes} {r r' : Rd}
    {o : Out ResponseParser Response} (h : Calls (ResponseParser.parse prof) p r o r')
    (hp : ResponseSt prof single p w) (hl : r.lims = []) :
    ∃ (ps : List Part) (s : Bool) (p1 : ResponseParser) (r1 : Rd), r.src.atoms = taken ps ++ r1.src.atoms ∧
      r1.lims = [] ∧ ResponseSt prof s p1 (w ++ kept ps) ∧ ResponseParser.parse prof p1 r1 = (o, r') := by
  induction h generalizing single w with
  | @last p r r' o h => exact ⟨[], single, p, r, rfl, hl, by simpa [kept] using hp, h⟩
  | @pause p p' r r' r'' o h _ ih =>
    have ha := responseParse_ahead (prof := prof) (p := p) (Rd.ahead_self hl)
    rw [h] at ha
    obtain ⟨pre, k, d, hc, hk, hd, hst, hlf⟩ := (response_run hp ha).2 p' _ rfl (by decide)
    have hl' : r'.lims = [] := by have := hc.lims; simpa [Rd.abs] using this
    obtain ⟨ps, s, p1, r1, e1, e2, e3, e4⟩ := ih hst hl'
    refine ⟨⟨pre, k, d, hk, hd, hlf⟩ :: ps, s, p1, r1, ?_, e2, ?_, e4⟩
    · have := hc.atoms
      simp only [Rd.abs] at this
      rw [this, e1]; simp [taken]
    · simpa [kept] using e3

/-- Soundness of a response read in several calls. -/
theorem responseCalls_done {prof : Profile} {r r' : Rd} {q : Response}
    (h : Calls (ResponseParser.parse prof) .new r (.done q) r') (hl : r.lims = []) :
    ∃ (ps : List Part) (line : Bytes) (fs : List (Bytes × Bytes)) (f : Framing) (bw : Bytes),
      r.src.atoms = taken ps ++ r'.src.atoms ∧ r'.lims = [] ∧ StatusLine q.status line ∧
      MessageText line fs true f bw q.body (kept ps) ∧ q.headers = HeaderMap.fromPairs (fieldMap fs) ∧
      Bounded prof false fs f bw q.body := by
  obtain ⟨ps, s, p1, r1, e1, e2, e3, e4⟩ := responseCalls_run h (MsgSt.start prof _ true) hl
  have ha := responseParse_ahead (prof := prof) (p := p1) (Rd.ahead_self e2)
  rw [e4] at ha
  obtain ⟨pre, line, fs, f, bw, hc, -, hr, hm, hh, hb⟩ := (response_run e3 ha).1 q rfl
  refine ⟨ps ++ [.whole pre], line, fs, f, bw, ?_, ?_, hr, ?_, hh, nofun, hb.2⟩
  · have := hc.atoms
    simp only [Rd.abs] at this
    rw [e1, this]; simp [taken, Part.whole]
  · have := hc.lims; simpa [Rd.abs] using this
  · simpa [kept, Part.whole] using hm

/-- Soundness of a response read in one call. -/
theorem responseOne_done {prof : Profile} {r r' : Rd} {q : Response}
    (h : ResponseParser.parse prof .new r = (.done q, r')) (hl : r.lims = []) :
    ∃ (pre : List Atom) (line : Bytes) (fs : List (Bytes × Bytes)) (f : Framing) (bw : Bytes),
      r.src.atoms = pre ++ r'.src.atoms ∧ Ends (decide (f = .untilEof)) pre ∧ r'.lims = [] ∧ StatusLine q.status line ∧
      MessageText line fs true f bw q.body (bytesOf pre) ∧ q.headers = HeaderMap.fromPairs (fieldMap fs) ∧
      Bounded prof true fs f bw q.body := by
  have ha := responseParse_ahead (prof := prof) (p := .new) (Rd.ahead_self hl)
  rw [h] at ha
  obtain ⟨pre, line, fs, f, bw, hc, he, hr, hm, hh, hb⟩ := (response_run (MsgSt.start prof _ true) ha).1 q rfl
  refine ⟨pre, line, fs, f, bw, hc.atoms, he, by have := hc.lims; simpa [Rd.abs] using this, hr, hm, hh, hb⟩

/-- Call the parser until it does anything but block, at most `n + 1` times. -/
def runCalls {R σ τ : Type} (step : σ → R → Out σ τ × R) : Nat → σ → R → Out σ τ × R
  | 0, p, r => step p r
  | n + 1, p, r =>
    match step p r with
    | (.io p' .wouldBlock, r') => runCalls step n p' r'
    | x => x

theorem runCalls_calls {σ τ : Type} (step : σ → Rd → Out σ τ × Rd) (n : Nat) (p : σ) (r : Rd) :
    Calls step p r (runCalls step n p r).1 (runCalls step n p r).2 := by
  induction n generalizing p r with
  | zero => exact .last rfl
  | succ n ih =>
    simp only [runCalls]
    generalize hq : step p r = q
    obtain ⟨o, r'⟩ := q
    cases o with
    | io p' e =>
      cases e with
      | wouldBlock => exact .pause hq (ih p' r')
      | _ => exact .last hq
    | _ => exact .last hq

theorem runCalls_abs {σ τ : Type} {step : σ → Rd → Out σ τ × Rd} {step' : σ → AR → Out σ τ × AR}
    (h : ∀ p r, step' p r.abs = absOut (step p r)) (n : Nat) (p : σ) (r : Rd) :
    runCalls step' n p r.abs = absOut (runCalls step n p r) := by
  induction n generalizing p r with
  | zero => exact h p r
  | succ n ih =>
    simp only [runCalls]
    rw [h]
    generalize step p r = q
    obtain ⟨o, r'⟩ := q
    cases o with
    | io p' e =>
      cases e with
      | wouldBlock => exact ih p' r'
      | _ => rfl
    | _ => rfl

/-- Several calls computed on atoms. -/
theorem calls_of {σ τ : Type} {step : σ → Rd → Out σ τ × Rd} {step' : σ → AR → Out σ τ × AR}
    (h : ∀ p r, step' p r.abs = absOut (step p r)) {p : σ} {r : Rd} {as rest : List Atom} {o : Out σ τ} (n : Nat)
    (hr : r.Ahead as) (he : runCalls step' n p ⟨[], as⟩ = (o, ⟨[], rest⟩)) :
    ∃ r', Calls step p r o r' ∧ r'.Ahead rest := by
  have h1 := runCalls_abs h n p r
  rw [hr.abs, he] at h1
  simp only [absOut, Prod.mk.injEq] at h1
  refine ⟨(runCalls step n p r).2, ?_, Rd.ahead_abs h1.2.symm⟩
  rw [h1.1]
  exact runCalls_calls step n p r

theorem FittingRequest.text {w : Bytes} {q : Request} (h : FittingRequest w q) : RequestText w q := by
  obtain ⟨line, fs, f, bw, hl, hm, hh, hf⟩ := h
  exact ⟨line, fs, f, bw, hl, hm, hh⟩

/-- A concrete request, checked by running the parser. -/
theorem fitting_of {prof : Profile} {w : Bytes} {q : Request}
    (h : RequestParser.parse prof .new (⟨[], w.map .byte⟩ : AR) = (.done q, ⟨[], []⟩)) : FittingRequest w q := by
  obtain ⟨pre, line, fs, f, bw, hc, -, hr, hm, hh, hb⟩ := (request_run (MsgSt.start prof _ false) h).1 q rfl
  have := hc.atoms
  simp only [List.append_nil] at this
  rw [List.nil_append, ← this, bytesOf_map] at hm
  exact ⟨line, fs, f, bw, hr, hm, hh, hb.1 rfl⟩

end Verif
