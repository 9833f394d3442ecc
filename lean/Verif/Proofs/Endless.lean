import Verif.Proofs.Calls
import Verif.Proofs.Ending

/-!
Reading bytes only: how much one call takes, and what it can end with.
-/

namespace Verif

open Reader

/-- Nothing but bytes. -/
def AllBytes (as : List Atom) : Prop := ∀ x ∈ as, ∃ b, x = .byte b

theorem allBytes_map (bs : Bytes) : AllBytes (bs.map .byte) := by
  intro x hx
  obtain ⟨b, -, rfl⟩ := List.mem_map.1 hx
  exact ⟨b, rfl⟩

theorem AllBytes.right {as bs : List Atom} (h : AllBytes (as ++ bs)) : AllBytes bs :=
  fun x hx => h x (List.mem_append_right _ hx)

theorem AllBytes.no_eof {p q : List Atom} (h : AllBytes (p ++ .eof :: q)) : False := by
  obtain ⟨b, hb⟩ := h .eof (by simp)
  cases hb

theorem AllBytes.no_err {p q : List Atom} {e : IoError} (h : AllBytes (p ++ .err e :: q)) : False := by
  obtain ⟨b, hb⟩ := h (.err e) (by simp)
  cases hb

/-- At most `n` bytes were taken of `a`, and if there is an error then a limit was reached or all was taken. -/
def Plainly {σ τ : Type} (n : Nat) (a : AR) (x : Out σ τ × AR) : Prop :=
  ∃ pre, Consumed pre a x.2 ∧ (bytesOf pre).length ≤ n ∧
    ∀ s e, x.1 = .io s e → e = .limitReached ∨ e = .wouldBlock ∧ x.2.atoms = []

theorem bytesOf_length_le (as : List Atom) : (bytesOf as).length ≤ as.length := by
  induction as with
  | nil => simp [bytesOf]
  | cons a as ih => cases a <;> simp [bytesOf] <;> omega

section
variable {σ σ' τ τ' : Type} {n m : Nat} {a : AR} {x : Out σ τ × AR}

theorem Plainly.mono (h : Plainly n a x) (hm : n ≤ m) : Plainly m a x := by
  obtain ⟨pre, h1, h2, h3⟩ := h
  exact ⟨pre, h1, by omega, h3⟩

theorem Plainly.all (h : Plainly n a x) : Plainly a.atoms.length a x := by
  obtain ⟨pre, h1, h2, h3⟩ := h
  refine ⟨pre, h1, ?_, h3⟩
  have := bytesOf_length_le pre
  rw [h1.atoms, List.length_append]
  omega

theorem Plainly.here {o : Out σ τ} (h : ∀ s e, o ≠ .io s e) : Plainly n a (o, a) :=
  ⟨[], .refl a, by simp [bytesOf], fun s e he => absurd he (h s e)⟩

theorem Plainly.cont (h : Plainly n a x) (ha : AllBytes a.atoms) (g : σ → σ') (k : τ → AR → Out σ' τ' × AR)
    (hk : ∀ v r, x = (.done v, r) → AllBytes r.atoms → Plainly m r (k v r)) : Plainly (n + m) a (Out.cont g k x) := by
  obtain ⟨o, r⟩ := x
  obtain ⟨pre, h1, h2, h3⟩ := h
  simp only at h1 h3
  cases o with
  | done v =>
    have hr : AllBytes r.atoms := by rw [h1.atoms] at ha; exact ha.right
    obtain ⟨pre', k1, k2, k3⟩ := hk v r rfl hr
    exact ⟨pre ++ pre', h1.trans k1, by rw [bytesOf_append, List.length_append]; omega, k3⟩
  | io s e =>
    refine ⟨pre, h1, by omega, ?_⟩
    intro s' e' he
    simp only [Out.cont, Out.io.injEq] at he
    rw [← he.2]
    exact h3 s e rfl
  | _ => exact ⟨pre, h1, by omega, nofun⟩

theorem Plainly.bind (h : Plainly n a x) (ha : AllBytes a.atoms) (g : σ → σ') (f : τ → Out σ' τ')
    (hf : ∀ v s e, f v ≠ .io s e) : Plainly n a (x.1.bind g f, x.2) := by
  have e : (x.1.bind g f, x.2) = Out.cont g (fun v r => (f v, r)) x := by
    obtain ⟨o, r⟩ := x
    cases o <;> rfl
  rw [e]
  exact h.cont (m := 0) ha g _ fun v r _ _ => .here (hf v)

theorem Plainly.pop {l : Nat} {ls : List Nat} {as : List Atom} (h : Plainly n ⟨l :: ls, as⟩ x) :
    Plainly l ⟨ls, as⟩ (x.1, ⟨x.2.lims.tail, x.2.atoms⟩) := by
  obtain ⟨pre, h1, h2, h3⟩ := h
  exact ⟨pre, h1.pop.1, h1.pop.2, h3⟩

end

theorem crlf_plain (prof : Profile) (line : Bytes) {lim : Nat} (hlim : ∀ l, prof.sub maxLineSize line.length = some l → l ≤ lim)
    (ls : List Nat) {as : List Atom} (ha : AllBytes as) :
    Plainly lim ⟨ls, as⟩ (CrlfLineParser.parse prof line (⟨ls, as⟩ : AR)) := by
  cases hs : prof.sub maxLineSize line.length with
  | none =>
    have : CrlfLineParser.parse prof line (⟨ls, as⟩ : AR) = (.panic, ⟨ls, as⟩) := by simp [CrlfLineParser.parse, hs]
    rw [this]
    exact .here nofun
  | some l =>
    rw [crlf_eq prof line l hs]
    obtain ⟨pre, h1, h2, h3⟩ := scan_spec LF (l :: ls) as
    revert h1 h2 h3
    generalize AR.scan LF (l :: ls) as = q
    obtain ⟨o, bs, ls', as'⟩ := q
    simp only
    intro h1 h2 h3
    subst h2
    have hl : bs.length ≤ lim := Nat.le_trans (h3 l (by simp)) (hlim l hs)
    have hle : ∀ x ∈ ls, bs.length ≤ x := fun x hx => h3 x (List.mem_cons_of_mem _ hx)
    have io : ∀ e s e', crlfOut line (.err e) bs = .io s e' → e' = e := by
      intro e s e' h
      unfold crlfOut at h
      by_cases hv : utf8Valid bs = true
      · simp only [hv, if_true] at h
        by_cases hi : e = .invalidData
        · simp [hi] at h
        · simp only [hi, if_false, Out.io.injEq] at h
          exact h.2.symm
      · simp only [hv] at h
        by_cases hi : e = .invalidData
        · simp [hi] at h
        · simp [hi] at h
          exact h.2.symm
    cases h1 with
    | found hq hd =>
      refine ⟨pre ++ [.byte LF], ⟨by simp, by simp [bytesOf_append, bytesOf], by simpa [bytesOf_append, bytesOf] using hle⟩,
        by simpa [bytesOf_append, bytesOf] using hl, ?_⟩
      intro s e he
      rw [show ((crlfOut line IoRes.ok (bytesOf pre ++ [LF]), (⟨_, as'⟩ : AR)).1 : Out Bytes Bytes) = _ from rfl, crlfOut_found] at he
      split at he
      · cases hp : parseCrlfLine (line ++ bytesOf pre) <;> rw [hp] at he <;> cases he
      · cases he
    | eof => exact ha.no_eof.elim
    | err e => exact ha.no_err.elim
    | limit hq hd h0 =>
      refine ⟨pre, ⟨rfl, by simp, hle⟩, hl, ?_⟩
      intro s e he
      exact .inl (io _ _ _ he)
    | out hq hd h0 hn =>
      subst hn
      refine ⟨as, ⟨by simp, by simp, hle⟩, hl, ?_⟩
      intro s e he
      exact .inr ⟨io _ _ _ he, rfl⟩

theorem bytes_plain (p : BytesDeframer) (ls : List Nat) {as : List Atom} (ha : AllBytes as) :
    Plainly as.length ⟨ls, as⟩ (BytesDeframer.parse p (⟨ls, as⟩ : AR)) := by
  have e : BytesDeframer.parse p (⟨ls, as⟩ : AR) =
      match AR.takeN (p.size - p.filled.length) ls as with
      | (.ok, d, ls', as') => (.done (p.filled ++ d), ⟨ls', as'⟩)
      | (.err e, d, ls', as') => (.io ⟨p.size, p.filled ++ d⟩ e, ⟨ls', as'⟩)
      | (.diverge, _, ls', as') => (.diverge, ⟨ls', as'⟩) := by
    unfold BytesDeframer.parse
    simp only [Reader.readInto]
    generalize AR.takeN (p.size - p.filled.length) ls as = q
    obtain ⟨o, d, ls', as'⟩ := q
    cases o <;> rfl
  rw [e]
  obtain ⟨h1, h2, h3⟩ := takeN_spec (p.size - p.filled.length) ls as
  revert h1 h2 h3
  generalize AR.takeN (p.size - p.filled.length) ls as = q
  obtain ⟨o, d, ls', as'⟩ := q
  simp only
  intro h1 h2 h3
  subst h2
  cases h1 with
  | full hl => exact ⟨d.map .byte, ⟨rfl, by simp [bytesOf_map], by simpa [bytesOf_map] using h3⟩, by simp [bytesOf_map], nofun⟩
  | eof => exact ha.no_eof.elim
  | err e => exact ha.no_err.elim
  | limit hl h0 =>
    refine ⟨d.map .byte, ⟨rfl, by simp [bytesOf_map], by simpa [bytesOf_map] using h3⟩, by simp [bytesOf_map], ?_⟩
    intro s e he
    cases he
    exact .inl rfl
  | out hl h0 hn =>
    subst hn
    refine ⟨d.map .byte, ⟨by simp, by simp [bytesOf_map], by simpa [bytesOf_map] using h3⟩, by simp [bytesOf_map], ?_⟩
    intro s e he
    cases he
    exact .inr ⟨rfl, rfl⟩

theorem untilEof_plain (d : Bytes) (ls : List Nat) {as : List Atom} (ha : AllBytes as) :
    Plainly as.length ⟨ls, as⟩ (BytesUntilEofDeframer.parse d (⟨ls, as⟩ : AR)) := by
  unfold BytesUntilEofDeframer.parse
  simp only [readToEnd]
  obtain ⟨pre, h1, h2, h3⟩ := drain_spec ls as
  revert h1 h2 h3
  generalize AR.drain ls as = q
  obtain ⟨o, bs, ls', as'⟩ := q
  simp only
  intro h1 h2 h3
  subst h2
  cases h1 with
  | eof => exact ha.no_eof.elim
  | err e => exact ha.no_err.elim
  | limit hq h0 =>
    refine ⟨pre, ⟨rfl, rfl, h3⟩, ?_, ?_⟩
    · have := bytesOf_length_le pre
      simp; omega
    · intro s e he
      cases he
      exact .inl rfl
  | out hq h0 hn =>
    subst hn
    refine ⟨as, ⟨by simp, rfl, h3⟩, bytesOf_length_le _, ?_⟩
    intro s e he
    cases he
    exact .inr ⟨rfl, rfl⟩

theorem hrun_plain (prof : Profile) (p : HeadersParser) (ls : List Nat) {as : List Atom} (ha : AllBytes as) :
    Plainly as.length ⟨ls, as⟩ (hrun prof p ⟨ls, as⟩) := by
  obtain ⟨n, hn⟩ : ∃ n, as.length ≤ n := ⟨_, Nat.le_refl _⟩
  induction n using Nat.strongRecOn generalizing p ls as with
  | _ n ih =>
    rw [hrun_cont]
    refine Plainly.all ((crlf_plain prof p.inner (lim := (prof.sub maxLineSize p.inner.length).getD 0) (fun l h => by simp [h]) ls ha).cont
      (m := as.length) ha _ _ fun v r h1 hr => ?_)
    have hp := (crlf_progress prof p.inner (⟨ls, as⟩ : AR)).2.2 v (by rw [h1])
    rw [h1] at hp
    simp only at hp
    unfold headerNext
    by_cases hv : v = []
    · simp only [hv, if_true]
      exact .here nofun
    · simp only [hv, if_false]
      cases parseHeader v with
      | error e => exact .here nofun
      | ok x =>
        exact (ih r.atoms.length (by omega) _ r.lims hr (Nat.le_refl _)).mono (by omega)

theorem chunkStep_plain (prof : Profile) (body : Bytes) (st : ChunkState) (ls : List Nat) {as : List Atom}
    (ha : AllBytes as) : Plainly as.length ⟨ls, as⟩ (chunkStep prof body st ⟨ls, as⟩) := by
  have hc : ∀ line, Plainly as.length ⟨ls, as⟩ (CrlfLineParser.parse prof line (⟨ls, as⟩ : AR)) := fun line =>
    (crlf_plain prof line (lim := (prof.sub maxLineSize line.length).getD 0) (fun l h => by simp [h]) ls ha).all
  cases st with
  | finished => exact .here nofun
  | size line =>
    exact ((hc line).bind ha ChunkState.size (fun raw =>
      match parseChunkSize raw with
      | .ok n => Out.done (ChunkState.data ⟨n, []⟩)
      | .error e => .perr e) (by intro v s e; cases parseChunkSize v <;> simp)).bind ha
        (fun st => (⟨body, st⟩ : ChunksParser)) (fun st => Out.done (⟨body, st⟩ : ChunksParser)) (by simp)
  | data p =>
    exact ((bytes_plain p ls ha).bind ha ChunkState.data
      (fun d => Out.done (ChunkState.tailingCrlf [] d.isEmpty, body ++ d)) (by simp)).bind ha
        (fun st => (⟨body, st⟩ : ChunksParser)) (fun x => Out.done (⟨x.2, x.1⟩ : ChunksParser)) (by simp)
  | tailingCrlf line l =>
    exact ((hc line).bind ha (ChunkState.tailingCrlf · l) (fun line =>
      if line ≠ [] then Out.perr .badSyntax else if l then .done ChunkState.finished else .done (.size []))
        (by intro v s e; by_cases h : v = [] <;> cases l <;> simp [h])).bind ha
        (fun st => (⟨body, st⟩ : ChunksParser)) (fun st => Out.done (⟨body, st⟩ : ChunksParser)) (by simp)

theorem crun_plain (prof : Profile) (p : ChunksParser) (ls : List Nat) {as : List Atom} (ha : AllBytes as) :
    Plainly as.length ⟨ls, as⟩ (crun prof p ⟨ls, as⟩) := by
  obtain ⟨n, hn⟩ : ∃ n, 3 * as.length + p.state.rank ≤ n := ⟨_, Nat.le_refl _⟩
  induction n using Nat.strongRecOn generalizing p ls as with
  | _ n ih =>
    by_cases hst : p.state = .finished
    · rw [crun_eq]
      simp only [hst, if_true]
      exact .here nofun
    · rw [crun_cont _ _ _ hst]
      refine Plainly.all ((chunkStep_plain prof p.body p.state ls ha).cont (m := as.length) ha _ _ fun p' r h1 hr => ?_)
      have hp := (chunkStep_progress prof p.body p.state (⟨ls, as⟩ : AR) hst).2.2 p' (by rw [h1])
      have hc := (chunkStep_progress prof p.body p.state (⟨ls, as⟩ : AR) hst).2.1
      rw [h1] at hp hc
      simp only at hp hc
      exact (ih (3 * r.atoms.length + p'.state.rank) (by omega) p' r.lims hr (Nat.le_refl _)).mono (by omega)

section
variable {T : Type} (prof : Profile) (pf : Bytes → Except ParsingError T) (b : Bool)

/-- How many bytes one iteration of the message loop takes at most, from a state without anything read. -/
def MsgState.budget : MsgState T → Nat
  | .firstLine _ => 512
  | .headers _ _ => 4096
  | .body _ _ _ => 3 * 1024 * 1024
  | .finished _ _ _ => 0

/-- Nothing was read in this state before. -/
def MsgState.Anew : MsgState T → Prop
  | .firstLine line => line = []
  | .headers _ p => p = .new
  | .body _ _ p => p.readSoFar ≤ 3 * 1024 * 1024
  | .finished _ _ _ => True

theorem msgStep_plain {st : MsgState T} (hst : st.Anew) (ls : List Nat) {as : List Atom} (ha : AllBytes as) :
    Plainly st.budget ⟨ls, as⟩ (msgStep prof pf b st ⟨ls, as⟩) := by
  cases st with
  | finished t hs bd => exact .here nofun
  | firstLine line =>
    cases hst
    exact (crlf_plain prof [] (lim := 512) (fun l h => by
        rw [sub_le prof (by simp)] at h
        cases h; exact Nat.le_refl _) ls ha).bind ha MsgState.firstLine (fun l =>
      match pf l with
      | .ok t => Out.done (MsgState.headers t .new)
      | .error e => .perr e) (by intro v s e; cases pf v <;> simp)
  | headers t p =>
    cases hst
    have h1 : Plainly 4096 ⟨ls, as⟩ (HeadersParser.parse prof .new (⟨ls, as⟩ : AR)) := by
      rw [headersParse_eq, sub_le prof (by simp [HeadersParser.new])]
      exact (hrun_plain prof .new (4096 :: ls) ha).pop
    exact h1.bind ha (MsgState.headers t) (fun hs =>
      match BodyParser.new hs b with
      | .ok bp => Out.done (MsgState.body t hs bp)
      | .error e => .perr e) (by intro v s e; cases BodyParser.new v b <;> simp)
  | body t hs p =>
    have h1 : Plainly (3 * 1024 * 1024) ⟨ls, as⟩ (BodyParser.parse prof p (⟨ls, as⟩ : AR)) := by
      rw [bodyParse_eq, sub_le prof (show p.readSoFar ≤ maxBodySize from hst)]
      refine Plainly.mono (n := maxBodySize - p.readSoFar) ?_ (by simp only [maxBodySize]; omega)
      cases p with
      | withSize p => exact ((bytes_plain p _ ha).bind ha BodyParser.withSize Out.done (by simp)).pop
      | untilEof d => exact ((untilEof_plain d _ ha).bind ha BodyParser.untilEof Out.done (by simp)).pop
      | chunked p => exact ((crun_plain prof p _ ha).bind ha BodyParser.chunked Out.done (by simp)).pop
      | empty => exact .here nofun
    exact h1.bind ha (MsgState.body t hs) (fun b => Out.done (MsgState.finished t hs b)) (by simp)


theorem body_new_room {hs : HeaderMap} {p : BodyParser} (h : BodyParser.new hs b = .ok p) : p.readSoFar ≤ 3 * 1024 * 1024 := by
  unfold BodyParser.new at h
  split at h
  · cases h
  · split at h
    · cases h
    · next hsz =>
      cases h
      simpa [BodyParser.readSoFar, maxBodySize] using hsz
  · split at h
    · cases h; simp [BodyParser.readSoFar]
    · split at h <;> (cases h; simp [BodyParser.readSoFar])

/-- What follows from a state in which nothing was read. -/
theorem msgStep_anew {st st' : MsgState T} {r r' : AR} (h : msgStep prof pf b st r = (.done st', r')) (hf : st.isFinished = false) :
    st'.Anew ∧ st'.rank < st.rank := by
  cases st with
  | finished t hs bd => cases hf
  | firstLine line =>
    simp only [msgStep, firstLineState, Prod.mk.injEq] at h
    obtain ⟨l, -, h2⟩ := Out.bind_done h.1
    cases hp : pf l with
    | ok t => rw [hp] at h2; cases h2; exact ⟨rfl, by simp [MsgState.rank]⟩
    | error e => rw [hp] at h2; cases h2
  | headers t p =>
    simp only [msgStep, headersState, Prod.mk.injEq] at h
    obtain ⟨l, -, h2⟩ := Out.bind_done h.1
    cases hp : BodyParser.new l b with
    | ok t => rw [hp] at h2; cases h2; exact ⟨body_new_room b hp, by simp [MsgState.rank]⟩
    | error e => rw [hp] at h2; cases h2
  | body t hs p =>
    simp only [msgStep, bodyState, Prod.mk.injEq] at h
    obtain ⟨l, -, h2⟩ := Out.bind_done h.1
    cases h2
    exact ⟨trivial, by simp [MsgState.rank]⟩

/-- How many bytes the message loop takes at most from a state on in which nothing was read. -/
def MsgState.allBudget : MsgState T → Nat
  | .firstLine _ => 512 + 4096 + 3 * 1024 * 1024
  | .headers _ _ => 4096 + 3 * 1024 * 1024
  | .body _ _ _ => 3 * 1024 * 1024
  | .finished _ _ _ => 0

theorem msgStep_io_kind {st s : MsgState T} {r r' : AR} {e : IoError} (h : msgStep prof pf b st r = (.io s e, r')) :
    s.budget = st.budget ∧ s.allBudget = st.allBudget := by
  cases st with
  | finished t hs bd => cases h
  | firstLine line =>
    simp only [msgStep, firstLineState, Prod.mk.injEq] at h
    obtain ⟨l, -, rfl⟩ := Out.bind_io h.1 (by intro v; cases pf v <;> simp)
    exact ⟨rfl, rfl⟩
  | headers t p =>
    simp only [msgStep, headersState, Prod.mk.injEq] at h
    obtain ⟨l, -, rfl⟩ := Out.bind_io h.1 (by intro v; cases BodyParser.new v b <;> simp)
    exact ⟨rfl, rfl⟩
  | body t hs p =>
    simp only [msgStep, bodyState, Prod.mk.injEq] at h
    obtain ⟨l, -, rfl⟩ := Out.bind_io h.1 (by simp)
    exact ⟨rfl, rfl⟩

theorem mrun_plain {st : MsgState T} (hst : st.Anew) (ls : List Nat) {as : List Atom} (ha : AllBytes as)
    {o : Out (MsgState T) (T × HeaderMap × Bytes)} {r : AR} (h : mrun prof pf b st ⟨ls, as⟩ = (o, r)) :
    ∃ pre, Consumed pre ⟨ls, as⟩ r ∧ (bytesOf pre).length ≤ st.allBudget ∧
      ∀ s e, o = .io s e → (bytesOf pre).length + s.allBudget ≤ st.allBudget + s.budget ∧ (e = .limitReached ∨ e = .wouldBlock ∧ r.atoms = []) := by
  obtain ⟨n, hn⟩ : ∃ n, st.rank ≤ n := ⟨_, Nat.le_refl _⟩
  induction n using Nat.strongRecOn generalizing st ls as with
  | _ n ih =>
    by_cases hf : st.isFinished = true
    · cases st with
      | finished t hs bd =>
        cases h
        exact ⟨[], .refl _, by simp [bytesOf], nofun⟩
      | _ => cases hf
    · have hf' : st.isFinished = false := by simpa using hf
      have hb : st.budget ≤ st.allBudget := by cases st <;> simp only [MsgState.budget, MsgState.allBudget] <;> omega
      rw [mrun_cont _ _ _ _ _ hf'] at h
      obtain ⟨pre, h1, h2, h3⟩ := msgStep_plain prof pf b hst ls ha
      cases hx : msgStep prof pf b st ⟨ls, as⟩ with
      | mk o1 r1 =>
      rw [hx] at h h1 h3
      simp only at h1 h3
      cases o1 with
      | done st' =>
        simp only [Out.cont] at h
        obtain ⟨k1, k2⟩ := msgStep_anew prof pf b hx hf'
        have hb' : st.budget + st'.allBudget ≤ st.allBudget := by
          clear hb ih hn
          cases st <;> cases st' <;> simp only [MsgState.budget, MsgState.allBudget, MsgState.rank] at k2 ⊢ <;> omega
        obtain ⟨pre', i1, i2, i3⟩ := ih st'.rank (by omega) k1 r1.lims (by
          have := h1.atoms
          simp only at this
          rw [this] at ha
          exact ha.right) h (Nat.le_refl _)
        refine ⟨pre ++ pre', h1.trans i1, by rw [bytesOf_append, List.length_append]; omega, ?_⟩
        intro s e he
        obtain ⟨i4, i5⟩ := i3 s e he
        exact ⟨by rw [bytesOf_append, List.length_append]; omega, i5⟩
      | io s e =>
        cases h
        refine ⟨pre, h1, by omega, ?_⟩
        intro s' e' he
        cases he
        obtain ⟨k1, k2⟩ := msgStep_io_kind prof pf b hx
        simp only [id]
        exact ⟨by omega, h3 s e rfl⟩
      | perr e => cases h; exact ⟨pre, h1, by omega, nofun⟩
      | panic => cases h; exact ⟨pre, h1, by omega, nofun⟩
      | diverge => cases h; exact ⟨pre, h1, by omega, nofun⟩

end

/-- Bytes only, and a parser that has not begun. -/
theorem request_plain (prof : Profile) {bs : Bytes} {r r' : Rd} (hr : r.Ahead (bs.map .byte)) {o : Out RequestParser Request}
    (h : RequestParser.parse prof .new r = (o, r')) : ∃ t u, bs = t ++ u ∧ r'.Ahead (u.map .byte) ∧ t.length ≤ 512 + 4096 + 3 * 1024 * 1024 ∧
      ∀ p e, o = .io p e → (e = .limitReached ∨ e = .wouldBlock ∧ u = []) ∧
        (∀ l, p = .firstLine l → t.length ≤ 512) ∧ (∀ l q, p = .headers l q → t.length ≤ 512 + 4096) := by
  have h1 := (request_isWrap prof).ahead (p := RequestParser.new) hr
  rw [h] at h1
  simp only [wrap] at h1
  cases hx : mrun prof parseRequestLine false RequestParser.new ⟨[], bs.map .byte⟩ with
  | mk o1 r1 =>
  rw [hx] at h1
  simp only [Prod.mk.injEq] at h1
  obtain ⟨h1, rfl⟩ := h1
  obtain ⟨pre, k1, k2, k3⟩ := mrun_plain prof parseRequestLine false (st := RequestParser.new) (show MsgState.Anew (MsgState.firstLine []) from rfl) []
    (allBytes_map bs) hx
  have hat : bs.map Atom.byte = pre ++ r'.abs.atoms := k1.atoms
  obtain ⟨t, u, rfl, rfl, hu⟩ := List.map_eq_append_iff.1 hat
  rw [bytesOf_map] at k2
  refine ⟨t, u, rfl, ⟨?_, hu.symm⟩, k2, ?_⟩
  · have := k1.lims
    simpa [Rd.abs] using this
  · intro p e he
    rw [he] at h1
    obtain ⟨p', h2, rfl⟩ := Out.bind_io h1 (by simp)
    obtain ⟨k4, k5⟩ := k3 _ _ h2
    rw [bytesOf_map] at k4
    refine ⟨?_, ?_, ?_⟩
    · rcases k5 with hk | ⟨hk, hk'⟩
      · exact .inl hk
      · refine .inr ⟨hk, ?_⟩
        rw [hk'] at hu
        simpa using hu
    · rintro l hl
      subst hl
      simp only [RequestParser.new, MsgState.allBudget, MsgState.budget] at k4
      omega
    · rintro l q hl
      subst hl
      simp only [RequestParser.new, MsgState.allBudget, MsgState.budget] at k4
      omega

end Verif
