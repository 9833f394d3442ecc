import Verif.Proofs.Endless
import Verif.Proofs.Pauses

/-!
How much one parse call takes at most, whatever is read.
-/

namespace Verif

open Reader

/-- At most `n` bytes were taken of `a`. -/
def Within {σ τ : Type} (n : Nat) (a : AR) (x : Out σ τ × AR) : Prop := ∃ pre, Consumed pre a x.2 ∧ (bytesOf pre).length ≤ n

section
variable {σ σ' τ τ' : Type} {n m : Nat} {a : AR} {x : Out σ τ × AR}

theorem Within.mono (h : Within n a x) (hm : n ≤ m) : Within m a x := by
  obtain ⟨pre, h1, h2⟩ := h
  exact ⟨pre, h1, by omega⟩

theorem Within.all (h : Within n a x) : Within a.atoms.length a x := by
  obtain ⟨pre, h1, h2⟩ := h
  refine ⟨pre, h1, ?_⟩
  have := bytesOf_length_le pre
  rw [h1.atoms, List.length_append]
  omega

theorem Within.here {o : Out σ τ} : Within n a (o, a) := ⟨[], .refl a, by simp [bytesOf]⟩

theorem Within.cont (h : Within n a x) (g : σ → σ') (k : τ → AR → Out σ' τ' × AR)
    (hk : ∀ v r, x = (.done v, r) → Within m r (k v r)) : Within (n + m) a (Out.cont g k x) := by
  obtain ⟨o, r⟩ := x
  obtain ⟨pre, h1, h2⟩ := h
  cases o with
  | done v =>
    obtain ⟨pre', k1, k2⟩ := hk v r rfl
    exact ⟨pre ++ pre', h1.trans k1, by rw [bytesOf_append, List.length_append]; omega⟩
  | _ => exact ⟨pre, h1, by omega⟩

theorem Within.bind (h : Within n a x) (g : σ → σ') (f : τ → Out σ' τ') : Within n a (x.1.bind g f, x.2) := h

theorem Within.pop {l : Nat} {ls : List Nat} {as : List Atom} (h : Within n ⟨l :: ls, as⟩ x) :
    Within l ⟨ls, as⟩ (x.1, ⟨x.2.lims.tail, x.2.atoms⟩) := by
  obtain ⟨pre, h1, h2⟩ := h
  exact ⟨pre, h1.pop.1, h1.pop.2⟩

end

theorem crlf_within (prof : Profile) (line : Bytes) {lim : Nat} (hlim : ∀ l, prof.sub maxLineSize line.length = some l → l ≤ lim) (ls : List Nat) (as : List Atom) :
    Within lim ⟨ls, as⟩ (CrlfLineParser.parse prof line (⟨ls, as⟩ : AR)) := by
  cases hs : prof.sub maxLineSize line.length with
  | none =>
    have : CrlfLineParser.parse prof line (⟨ls, as⟩ : AR) = (.panic, ⟨ls, as⟩) := by simp [CrlfLineParser.parse, hs]
    rw [this]
    exact .here
  | some l =>
    rw [crlf_eq prof line l hs]
    obtain ⟨pre, h1, h2, h3⟩ := scan_spec LF (l :: ls) as
    revert h1 h2 h3
    generalize AR.scan LF (l :: ls) as = q
    obtain ⟨o, bs, ls', as'⟩ := q
    simp only
    intro h1 h2 h3
    subst h2
    have hl : bs.length ≤ lim := Nat.le_trans (h3 l (by simp)) (hlim l hs)
    have hle : ∀ x ∈ ls, bs.length ≤ x := fun x hx => h3 x (List.mem_cons_of_mem _ hx)
    cases h1 with
    | found hq hd =>
      exact ⟨pre ++ [.byte LF], ⟨by simp, by simp [bytesOf_append, bytesOf], by simpa [bytesOf_append, bytesOf] using hle⟩,
        by simpa [bytesOf_append, bytesOf] using hl⟩
    | eof =>
      exact ⟨pre ++ [.eof], ⟨by simp, by simp [bytesOf_append, bytesOf], by simpa [bytesOf_append, bytesOf] using hle⟩,
        by simpa [bytesOf_append, bytesOf] using hl⟩
    | err e =>
      exact ⟨pre ++ [.err e], ⟨by simp, by simp [bytesOf_append, bytesOf], by simpa [bytesOf_append, bytesOf] using hle⟩,
        by simpa [bytesOf_append, bytesOf] using hl⟩
    | limit hq hd h0 => exact ⟨pre, ⟨rfl, by simp, hle⟩, hl⟩
    | out hq hd h0 hn =>
      subst hn
      exact ⟨as, ⟨by simp, by simp, hle⟩, hl⟩

theorem bytes_within (p : BytesDeframer) (ls : List Nat) (as : List Atom) : Within as.length ⟨ls, as⟩ (BytesDeframer.parse p (⟨ls, as⟩ : AR)) := by
  have e : BytesDeframer.parse p (⟨ls, as⟩ : AR) =
      match AR.takeN (p.size - p.filled.length) ls as with
      | (.ok, d, ls', as') => (.done (p.filled ++ d), ⟨ls', as'⟩)
      | (.err e, d, ls', as') => (.io ⟨p.size, p.filled ++ d⟩ e, ⟨ls', as'⟩)
      | (.diverge, _, ls', as') => (.diverge, ⟨ls', as'⟩) := by
    unfold BytesDeframer.parse
    simp only [Reader.readInto]
    generalize AR.takeN (p.size - p.filled.length) ls as = q
    obtain ⟨o, d, ls', as'⟩ := q
    cases o <;> rfl
  rw [e]
  obtain ⟨h1, h2, h3⟩ := takeN_spec (p.size - p.filled.length) ls as
  revert h1 h2 h3
  generalize AR.takeN (p.size - p.filled.length) ls as = q
  obtain ⟨o, d, ls', as'⟩ := q
  simp only
  intro h1 h2 h3
  subst h2
  cases h1 with
  | full hl => exact Within.all (n := d.length) ⟨d.map .byte, ⟨rfl, by simp [bytesOf_map], by simpa [bytesOf_map] using h3⟩, by simp [bytesOf_map]⟩
  | eof =>
    exact Within.all (n := d.length) ⟨d.map .byte ++ [.eof], ⟨by simp, by simp [bytesOf_append, bytesOf, bytesOf_map], by simpa [bytesOf_append, bytesOf, bytesOf_map] using h3⟩,
      by simp [bytesOf_append, bytesOf, bytesOf_map]⟩
  | err e =>
    rename_i e' _ _
    exact Within.all (n := d.length) ⟨d.map .byte ++ [.err e'], ⟨by simp, by simp [bytesOf_append, bytesOf, bytesOf_map], by simpa [bytesOf_append, bytesOf, bytesOf_map] using h3⟩,
      by simp [bytesOf_append, bytesOf, bytesOf_map]⟩
  | limit hl h0 => exact Within.all (n := d.length) ⟨d.map .byte, ⟨rfl, by simp [bytesOf_map], by simpa [bytesOf_map] using h3⟩, by simp [bytesOf_map]⟩
  | out hl h0 hn =>
    subst hn
    exact Within.all (n := d.length) ⟨d.map .byte, ⟨by simp, by simp [bytesOf_map], by simpa [bytesOf_map] using h3⟩, by simp [bytesOf_map]⟩

theorem untilEof_within (d : Bytes) (ls : List Nat) (as : List Atom) : Within as.length ⟨ls, as⟩ (BytesUntilEofDeframer.parse d (⟨ls, as⟩ : AR)) := by
  unfold BytesUntilEofDeframer.parse
  simp only [readToEnd]
  obtain ⟨pre, h1, h2, h3⟩ := drain_spec ls as
  revert h1 h2 h3
  generalize AR.drain ls as = q
  obtain ⟨o, bs, ls', as'⟩ := q
  simp only
  intro h1 h2 h3
  subst h2
  cases h1 with
  | eof => exact Within.all (n := (bytesOf pre).length) ⟨pre ++ [.eof], ⟨by simp, by simp [bytesOf_append, bytesOf], by simpa [bytesOf_append, bytesOf] using h3⟩, by simp [bytesOf_append, bytesOf]⟩
  | err e => exact Within.all (n := (bytesOf pre).length) ⟨pre ++ [.err e], ⟨by simp, by simp [bytesOf_append, bytesOf], by simpa [bytesOf_append, bytesOf] using h3⟩, by simp [bytesOf_append, bytesOf]⟩
  | limit hq h0 => exact Within.all (n := (bytesOf pre).length) ⟨pre, ⟨rfl, rfl, h3⟩, Nat.le_refl _⟩
  | out hq h0 hn =>
    subst hn
    exact Within.all (n := (bytesOf as).length) ⟨as, ⟨by simp, rfl, h3⟩, Nat.le_refl _⟩

theorem hrun_within (prof : Profile) (p : HeadersParser) (ls : List Nat) (as : List Atom) : Within as.length ⟨ls, as⟩ (hrun prof p ⟨ls, as⟩) := by
  obtain ⟨n, hn⟩ : ∃ n, as.length ≤ n := ⟨_, Nat.le_refl _⟩
  induction n using Nat.strongRecOn generalizing p ls as with
  | _ n ih =>
    rw [hrun_cont]
    refine Within.all ((crlf_within prof p.inner (lim := (prof.sub maxLineSize p.inner.length).getD 0) (fun l h => by simp [h]) ls as).cont (m := as.length) _ _ fun v r h1 => ?_)
    have hp := (crlf_progress prof p.inner (⟨ls, as⟩ : AR)).2.2 v (by rw [h1])
    rw [h1] at hp
    simp only at hp
    unfold headerNext
    by_cases hv : v = []
    · simp only [hv, if_true]
      exact .here
    · simp only [hv, if_false]
      cases parseHeader v with
      | error e => exact .here
      | ok x => exact (ih r.atoms.length (by omega) _ r.lims r.atoms (Nat.le_refl _)).mono (by omega)

theorem chunkStep_within (prof : Profile) (body : Bytes) (st : ChunkState) (ls : List Nat) (as : List Atom) : Within as.length ⟨ls, as⟩ (chunkStep prof body st ⟨ls, as⟩) := by
  have hc : ∀ line, Within as.length ⟨ls, as⟩ (CrlfLineParser.parse prof line (⟨ls, as⟩ : AR)) := fun line =>
    (crlf_within prof line (lim := (prof.sub maxLineSize line.length).getD 0) (fun l h => by simp [h]) ls as).all
  cases st with
  | finished => exact .here
  | size line => exact hc line
  | data p => exact bytes_within p ls as
  | tailingCrlf line l => exact hc line

theorem crun_within (prof : Profile) (p : ChunksParser) (ls : List Nat) (as : List Atom) : Within as.length ⟨ls, as⟩ (crun prof p ⟨ls, as⟩) := by
  obtain ⟨n, hn⟩ : ∃ n, 3 * as.length + p.state.rank ≤ n := ⟨_, Nat.le_refl _⟩
  induction n using Nat.strongRecOn generalizing p ls as with
  | _ n ih =>
    by_cases hst : p.state = .finished
    · rw [crun_eq]
      simp only [hst, if_true]
      exact .here
    · rw [crun_cont _ _ _ hst]
      refine Within.all ((chunkStep_within prof p.body p.state ls as).cont (m := as.length) _ _ fun p' r h1 => ?_)
      have hp := (chunkStep_progress prof p.body p.state (⟨ls, as⟩ : AR) hst).2.2 p' (by rw [h1])
      have hc := (chunkStep_progress prof p.body p.state (⟨ls, as⟩ : AR) hst).2.1
      rw [h1] at hp hc
      simp only at hp hc
      exact (ih (3 * r.atoms.length + p'.state.rank) (by omega) p' r.lims r.atoms (Nat.le_refl _)).mono (by omega)

section
variable {T : Type} (prof : Profile) (pf : Bytes → Except ParsingError T) (b : Bool)

theorem msgStep_within {st : MsgState T} (hst : st.Anew) (ls : List Nat) (as : List Atom) : Within st.budget ⟨ls, as⟩ (msgStep prof pf b st ⟨ls, as⟩) := by
  cases st with
  | finished t hs bd => exact .here
  | firstLine line =>
    cases hst
    exact crlf_within prof [] (lim := 512) (fun l h => by
        rw [sub_le prof (by simp)] at h
        cases h; exact Nat.le_refl _) ls as
  | headers t p =>
    cases hst
    have h1 : Within 4096 ⟨ls, as⟩ (HeadersParser.parse prof .new (⟨ls, as⟩ : AR)) := by
      rw [headersParse_eq, sub_le prof (by simp [HeadersParser.new])]
      exact (hrun_within prof .new (4096 :: ls) as).pop
    exact h1
  | body t hs p =>
    have h1 : Within (3 * 1024 * 1024) ⟨ls, as⟩ (BodyParser.parse prof p (⟨ls, as⟩ : AR)) := by
      rw [bodyParse_eq, sub_le prof (show p.readSoFar ≤ maxBodySize from hst)]
      refine Within.mono (n := maxBodySize - p.readSoFar) ?_ (by simp only [maxBodySize]; omega)
      cases p with
      | withSize p => exact ((bytes_within p _ as).bind BodyParser.withSize Out.done).pop
      | untilEof d => exact ((untilEof_within d _ as).bind BodyParser.untilEof Out.done).pop
      | chunked p => exact ((crun_within prof p _ as).bind BodyParser.chunked Out.done).pop
      | empty => exact .here
    exact h1

theorem mrun_within {st : MsgState T} (hst : st.Anew) (ls : List Nat) (as : List Atom) : Within st.allBudget ⟨ls, as⟩ (mrun prof pf b st ⟨ls, as⟩) := by
  obtain ⟨n, hn⟩ : ∃ n, st.rank ≤ n := ⟨_, Nat.le_refl _⟩
  induction n using Nat.strongRecOn generalizing st ls as with
  | _ n ih =>
    by_cases hf : st.isFinished = true
    · cases st with
      | finished t hs bd => exact ⟨[], .refl _, by simp [bytesOf]⟩
      | _ => cases hf
    · have hf' : st.isFinished = false := by simpa using hf
      have hb : st.budget ≤ st.allBudget := by cases st <;> simp only [MsgState.budget, MsgState.allBudget] <;> omega
      rw [mrun_cont _ _ _ _ _ hf']
      refine ((msgStep_within prof pf b hst ls as).cont (m := st.allBudget - st.budget) _ _ fun st' r h1 => ?_).mono (by omega)
      obtain ⟨k1, k2⟩ := msgStep_anew prof pf b h1 hf'
      have hb' : st.budget + st'.allBudget ≤ st.allBudget := by
        clear hb ih hn
        cases st <;> cases st' <;> simp only [MsgState.budget, MsgState.allBudget, MsgState.rank] at k2 ⊢ <;> omega
      exact (ih st'.rank (by omega) k1 r.lims r.atoms (Nat.le_refl _)).mono (by omega)

end

/-- However the parse call of the client ends, it has taken at most so much. -/
theorem response_within (prof : Profile) {r r' : Rd} {o : Out ResponseParser Response} (h : ResponseParser.parse prof .new r = (o, r')) :
    ∃ pre, Consumed pre r.abs r'.abs ∧ (bytesOf pre).length ≤ 512 + 4096 + 3 * 1024 * 1024 := by
  have h1 := response_isWrap prof ResponseParser.new r
  rw [h] at h1
  have h2 : (mrun prof parseStatusLine true ResponseParser.new r.abs).2 = r'.abs := congrArg Prod.snd h1
  obtain ⟨pre, k1, k2⟩ := mrun_within prof parseStatusLine true (st := ResponseParser.new) (show MsgState.Anew (MsgState.firstLine []) from rfl) r.abs.lims r.abs.atoms
  exact ⟨pre, by rw [← h2]; exact k1, k2⟩

end Verif
