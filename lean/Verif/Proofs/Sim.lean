import Verif.Proofs.Fuel

/-!
A parser run on two related inputs.

`Sim S E X` says that the reading operations behave alike on inputs related by `S`: either the first
one fails with an error in `X`, or both give the same result and the inputs remaining are related, by
`S` after success and by `E e` after the error `e`. Then every parser behaves alike in the same sense.
-/

namespace Verif

open Reader

/-- Results of a reading operation on two inputs are alike. -/
def RelRes (S : AR → AR → Prop) (E : IoError → AR → AR → Prop) (X : IoError → Prop)
    (x y : IoRes × Bytes × AR) : Prop :=
  (∃ e, x.1 = .err e ∧ X e) ∨
    (x.1 = y.1 ∧ x.2.1 = y.2.1 ∧
      match x.1 with
      | .ok => S x.2.2 y.2.2
      | .err e => E e x.2.2 y.2.2
      | .diverge => True)

/-- The reading operations behave alike on related inputs. -/
structure Sim (S : AR → AR → Prop) (E : IoError → AR → AR → Prop) (X : IoError → Prop) : Prop where
  push : ∀ {a b : AR} (l : Nat), S a b → S (Reader.push l a) (Reader.push l b)
  pop : ∀ {a b : AR}, S a b → S (Reader.pop a) (Reader.pop b)
  popE : ∀ {e : IoError} {a b : AR}, E e a b → E e (Reader.pop a) (Reader.pop b)
  eofE : ∀ {a b : AR}, S a b → E .unexpectedEof a b
  untilLf : ∀ {a b : AR}, S a b → RelRes S E X (readUntilLf a) (readUntilLf b)
  into : ∀ {a b : AR} (n : Nat) (d : Bytes), S a b → RelRes S E X (readInto n d a) (readInto n d b)
  toEnd : ∀ {a b : AR} (d : Bytes), S a b → RelRes S E X (readToEnd d a) (readToEnd d b)
  hX : ¬ X .invalidData

variable {S : AR → AR → Prop} {E : IoError → AR → AR → Prop} {X : IoError → Prop}

/-- Outcomes of a parser on two inputs are alike. -/
def RelOut {σ τ : Type} (S : AR → AR → Prop) (E : IoError → AR → AR → Prop) (X : IoError → Prop)
    (x y : Out σ τ × AR) : Prop :=
  (∃ s e, x.1 = .io s e ∧ X e) ∨
    (x.1 = y.1 ∧
      match x.1 with
      | .done _ => S x.2 y.2
      | .io _ e => E e x.2 y.2
      | .perr _ => S x.2 y.2 ∨ ∃ e, E e x.2 y.2
      | .panic => S x.2 y.2 ∨ ∃ e, E e x.2 y.2
      | .diverge => True)

theorem RelOut.bind {σ σ' τ τ' : Type} {x y : Out σ τ × AR} (h : RelOut S E X x y) (g : σ → σ')
    (f : τ → Out σ' τ') (hf : ∀ v, (∃ w, f v = .done w) ∨ ∃ e, f v = .perr e) :
    RelOut S E X (x.1.bind g f, x.2) (y.1.bind g f, y.2) := by
  obtain ⟨o, a⟩ := x
  obtain ⟨o', b⟩ := y
  rcases h with ⟨s, e, h, hx⟩ | ⟨h, h2⟩
  · simp only at h; subst h; exact .inl ⟨g s, e, rfl, hx⟩
  · simp only at h; subst h
    right
    refine ⟨rfl, ?_⟩
    cases o with
    | done v =>
      simp only [Out.bind] at h2 ⊢
      rcases hf v with ⟨w, hw⟩ | ⟨e, he⟩
      · simpa [hw] using h2
      · simpa [he] using .inl h2
    | diverge => trivial
    | _ => simpa [Out.bind] using h2

theorem Sim.popOut {σ τ : Type} (sim : Sim S E X) {x y : Out σ τ × AR} (h : RelOut S E X x y) :
    RelOut S E X (x.1, Reader.pop x.2) (y.1, Reader.pop y.2) := by
  obtain ⟨o, a⟩ := x
  obtain ⟨o', b⟩ := y
  rcases h with ⟨s, e, h, hx⟩ | ⟨h, h2⟩
  · exact .inl ⟨s, e, h, hx⟩
  · simp only at h; subst h
    right
    refine ⟨rfl, ?_⟩
    cases o with
    | done v => exact sim.pop h2
    | io s e => exact sim.popE h2
    | perr e => exact h2.imp sim.pop fun ⟨e, h⟩ => ⟨e, sim.popE h⟩
    | panic => exact h2.imp sim.pop fun ⟨e, h⟩ => ⟨e, sim.popE h⟩
    | diverge => trivial

theorem crlf_eq' (prof : Profile) (line : Bytes) (lim : Nat) (h : prof.sub maxLineSize line.length = some lim)
    (r : AR) :
    CrlfLineParser.parse prof line r =
      (crlfOut line (readUntilLf (Reader.push lim r)).1 (readUntilLf (Reader.push lim r)).2.1,
        Reader.pop (readUntilLf (Reader.push lim r)).2.2) := by
  obtain ⟨ls, as⟩ := r
  rw [crlf_eq prof line lim h]
  rfl

theorem Sim.crlf (sim : Sim S E X) (prof : Profile) (line : Bytes) {a b : AR} (h : S a b) :
    RelOut S E X (CrlfLineParser.parse prof line a) (CrlfLineParser.parse prof line b) := by
  cases hl : prof.sub maxLineSize line.length with
  | none =>
    simp only [CrlfLineParser.parse, hl]
    exact .inr ⟨rfl, .inl h⟩
  | some lim =>
    rw [crlf_eq' prof line lim hl, crlf_eq' prof line lim hl]
    have hu := sim.untilLf (sim.push lim h)
    revert hu
    generalize readUntilLf (Reader.push lim a) = x
    generalize readUntilLf (Reader.push lim b) = y
    obtain ⟨o, bs, a'⟩ := x
    obtain ⟨o', bs', b'⟩ := y
    rintro (⟨e, h1, hx⟩ | ⟨h1, h2, h3⟩)
    · simp only at h1
      subst h1
      left
      have he : e ≠ .invalidData := fun he => sim.hX (he ▸ hx)
      by_cases hv : utf8Valid bs = true
      · exact ⟨line ++ bs, e, by simp [crlfOut, hv, he], hx⟩
      · exact ⟨line, e, by simp [crlfOut, hv, he], hx⟩
    · simp only at h1 h2 h3 ⊢
      subst h1 h2
      refine .inr ⟨rfl, ?_⟩
      cases o with
      | ok =>
        have h4 : S (Reader.pop a') (Reader.pop b') := sim.pop h3
        cases hc : crlfOut line .ok bs with
        | done v => exact h4
        | io s e =>
          have : e = .unexpectedEof := by
            unfold crlfOut at hc
            split at hc
            · simp only at hc
              split at hc
              · split at hc
                · rename_i rest c _ _
                  cases hp : parseCrlfLine rest <;> simp [hp, Out.ofExcept] at hc
                · cases hc; rfl
              · cases hc; rfl
            · cases hc
          subst this
          exact sim.eofE h4
        | perr e => exact .inl h4
        | panic => exact .inl h4
        | diverge => trivial
      | err e =>
        have h4 : E e (Reader.pop a') (Reader.pop b') := sim.popE h3
        unfold crlfOut
        by_cases hv : utf8Valid bs = true
        · simp only [hv, if_true]
          by_cases he : e = .invalidData
          · simp only [he, if_true]; exact .inr ⟨_, h4⟩
          · simp only [he, if_false]; exact h4
        · simp only [hv]
          by_cases he : e = .invalidData
          · simp only [he, if_true]; exact .inr ⟨_, h4⟩
          · simp only [he, if_false]; exact h4
      | diverge =>
        unfold crlfOut
        by_cases hv : utf8Valid bs = true
        · simp only [hv, if_true]
        · simp only [hv]; exact trivial

/-- Continue after a completed step. -/
def Out.cont {σ σ' τ τ' : Type} (g : σ → σ') (k : τ → AR → Out σ' τ' × AR) :
    Out σ τ × AR → Out σ' τ' × AR
  | (.done v, r) => k v r
  | (.io s e, r) => (.io (g s) e, r)
  | (.perr e, r) => (.perr e, r)
  | (.panic, r) => (.panic, r)
  | (.diverge, r) => (.diverge, r)

/-- What the headers loop does with a complete line. -/
def headerNext (prof : Profile) (p : HeadersParser) (line : Bytes) (r : AR) : Out HeadersParser HeaderMap × AR :=
  if line = [] then (.done p.headers, r)
  else match parseHeader line with
    | .ok (h, v) => hrun prof ⟨[], p.headers.addHeader h v, p.read + line.length⟩ r
    | .error e => (.perr e, r)

theorem hrun_cont (prof : Profile) (p : HeadersParser) (r : AR) :
    hrun prof p r = Out.cont (fun inner => { p with inner }) (headerNext prof p)
      (CrlfLineParser.parse prof p.inner r) := by
  rw [hrun_eq]
  generalize CrlfLineParser.parse prof p.inner r = q
  obtain ⟨o, r'⟩ := q
  cases o <;> rfl

theorem crun_cont (prof : Profile) (p : ChunksParser) (r : AR) (h : p.state ≠ .finished) :
    crun prof p r = Out.cont id (crun prof) (chunkStep prof p.body p.state r) := by
  rw [crun_eq]
  simp only [h, if_false]
  generalize chunkStep prof p.body p.state r = q
  obtain ⟨o, r'⟩ := q
  cases o <;> rfl

theorem messageLoop_cont {T : Type} (prof : Profile) (pf : Bytes → Except ParsingError T) (b : Bool) (f : Nat)
    (st : MsgState T) (r : AR) (h : st.isFinished = false) :
    MessageParser.loop prof pf b (f + 1) st r =
      Out.cont id (MessageParser.loop prof pf b f) (msgStep prof pf b st r) := by
  rw [messageLoop_step _ _ _ _ _ _ h]
  generalize msgStep prof pf b st r = q
  obtain ⟨o, r'⟩ := q
  cases o <;> rfl

/-- After a step whose result continues with `k`. -/
theorem RelOut.step {σ σ' τ τ' : Type} {x y : Out σ τ × AR} (h : RelOut S E X x y) (g : σ → σ')
    (k : τ → AR → Out σ' τ' × AR)
    (hk : ∀ v a b, x = (.done v, a) → y = (.done v, b) → S a b → RelOut S E X (k v a) (k v b)) :
    RelOut S E X (Out.cont g k x) (Out.cont g k y) := by
  obtain ⟨o, a⟩ := x
  obtain ⟨o', b⟩ := y
  rcases h with ⟨s, e, h, hx⟩ | ⟨h, h2⟩
  · simp only at h; subst h; exact .inl ⟨g s, e, rfl, hx⟩
  · simp only at h; subst h
    cases o with
    | done v => exact hk v a b rfl rfl h2
    | _ => exact .inr ⟨rfl, h2⟩

theorem Sim.hrun (sim : Sim S E X) (prof : Profile) (p : HeadersParser) {a b : AR} (h : S a b) :
    RelOut S E X (Verif.hrun prof p a) (Verif.hrun prof p b) := by
  obtain ⟨n, hn⟩ : ∃ n, a.atoms.length ≤ n := ⟨_, Nat.le_refl _⟩
  induction n using Nat.strongRecOn generalizing p a b with
  | _ n ih =>
    rw [hrun_cont prof p a, hrun_cont prof p b]
    refine RelOut.step (sim.crlf prof p.inner h) _ _ ?_
    intro line a' b' ha hb hs
    unfold headerNext
    split
    · exact .inr ⟨rfl, hs⟩
    · cases parseHeader line with
      | error e => exact .inr ⟨rfl, .inl hs⟩
      | ok hv =>
        have hp := (crlf_progress prof p.inner a).2.2 line (by rw [ha])
        rw [ha] at hp
        exact ih _ (Nat.lt_of_lt_of_le hp hn) _ hs (Nat.le_refl _)

theorem Sim.headers (sim : Sim S E X) (prof : Profile) (p : HeadersParser) {a b : AR} (h : S a b) :
    RelOut S E X (HeadersParser.parse prof p a) (HeadersParser.parse prof p b) := by
  obtain ⟨ls, as⟩ := a
  obtain ⟨ls', bs⟩ := b
  rw [headersParse_eq, headersParse_eq]
  cases prof.sub maxHeadersSize p.read with
  | none => exact .inr ⟨rfl, .inl h⟩
  | some lim => exact sim.popOut (sim.hrun prof p (sim.push lim h))

theorem Sim.bytes (sim : Sim S E X) (p : BytesDeframer) {a b : AR} (h : S a b) :
    RelOut S E X (BytesDeframer.parse p a) (BytesDeframer.parse p b) := by
  simp only [BytesDeframer.parse]
  have hu := sim.into p.size p.filled h
  revert hu
  generalize readInto p.size p.filled a = x
  generalize readInto p.size p.filled b = y
  obtain ⟨o, bs, a'⟩ := x
  obtain ⟨o', bs', b'⟩ := y
  rintro (⟨e, h1, hx⟩ | ⟨h1, h2, h3⟩)
  · simp only at h1; subst h1; exact .inl ⟨_, e, rfl, hx⟩
  · simp only at h1 h2; subst h1 h2
    cases o with
    | _ => exact .inr ⟨rfl, h3⟩

theorem Sim.untilEof (sim : Sim S E X) (d : Bytes) {a b : AR} (h : S a b) :
    RelOut S E X (BytesUntilEofDeframer.parse d a) (BytesUntilEofDeframer.parse d b) := by
  simp only [BytesUntilEofDeframer.parse]
  have hu := sim.toEnd d h
  revert hu
  generalize readToEnd d a = x
  generalize readToEnd d b = y
  obtain ⟨o, bs, a'⟩ := x
  obtain ⟨o', bs', b'⟩ := y
  rintro (⟨e, h1, hx⟩ | ⟨h1, h2, h3⟩)
  · simp only at h1; subst h1; exact .inl ⟨_, e, rfl, hx⟩
  · simp only at h1 h2; subst h1 h2
    cases o with
    | _ => exact .inr ⟨rfl, h3⟩

theorem Sim.chunkStep (sim : Sim S E X) (prof : Profile) (body : Bytes) (st : ChunkState) {a b : AR}
    (h : S a b) :
    RelOut S E X (Verif.chunkStep prof body st a) (Verif.chunkStep prof body st b) := by
  cases st with
  | finished => exact .inr ⟨rfl, h⟩
  | size line =>
    simp only [Verif.chunkStep, sizeState]
    refine RelOut.bind (x := (_, _)) (y := (_, _)) (RelOut.bind (sim.crlf prof line h) _ _ ?_) _ _ ?_
    · intro v; cases parseChunkSize v <;> simp
    · intro v; simp
  | data d =>
    simp only [Verif.chunkStep, dataState]
    refine RelOut.bind (x := (_, _)) (y := (_, _)) (RelOut.bind (sim.bytes d h) _ _ ?_) _ _ ?_
    · intro v; simp
    · intro v; simp
  | tailingCrlf line l =>
    simp only [Verif.chunkStep, tailingCrlfState]
    refine RelOut.bind (x := (_, _)) (y := (_, _)) (RelOut.bind (sim.crlf prof line h) _ _ ?_) _ _ ?_
    · intro v; by_cases hv : v = [] <;> cases l <;> simp [hv]
    · intro v; simp

theorem Sim.crun (sim : Sim S E X) (prof : Profile) (p : ChunksParser) {a b : AR} (h : S a b) :
    RelOut S E X (Verif.crun prof p a) (Verif.crun prof p b) := by
  obtain ⟨n, hn⟩ : ∃ n, 3 * a.atoms.length + p.state.rank ≤ n := ⟨_, Nat.le_refl _⟩
  induction n using Nat.strongRecOn generalizing p a b with
  | _ n ih =>
    by_cases hst : p.state = .finished
    · rw [crun_eq prof p a, crun_eq prof p b]
      simp only [hst, if_true]; exact .inr ⟨rfl, h⟩
    · rw [crun_cont prof p a hst, crun_cont prof p b hst]
      refine RelOut.step (sim.chunkStep prof p.body p.state h) _ _ ?_
      intro p' a' b' ha hb hs
      have hp := (chunkStep_progress prof p.body p.state a hst).2.2 p' (by rw [ha])
      rw [ha] at hp
      exact ih _ (Nat.lt_of_lt_of_le hp hn) _ hs (Nat.le_refl _)

theorem Sim.body (sim : Sim S E X) (prof : Profile) (p : BodyParser) {a b : AR} (h : S a b) :
    RelOut S E X (BodyParser.parse prof p a) (BodyParser.parse prof p b) := by
  obtain ⟨ls, as⟩ := a
  obtain ⟨ls', bs⟩ := b
  rw [bodyParse_eq, bodyParse_eq]
  cases prof.sub maxBodySize p.readSoFar with
  | none => exact .inr ⟨rfl, .inl h⟩
  | some lim =>
    have hl := sim.push lim h
    cases p with
    | withSize d => exact sim.popOut (RelOut.bind (sim.bytes d hl) _ _ (by simp))
    | untilEof d => exact sim.popOut (RelOut.bind (sim.untilEof d hl) _ _ (by simp))
    | chunked p => exact sim.popOut (RelOut.bind (sim.crun prof p hl) _ _ (by simp))
    | empty => exact .inr ⟨rfl, h⟩

section
variable {T : Type}

theorem Sim.msgStep (sim : Sim S E X) (prof : Profile) (pf : Bytes → Except ParsingError T) (bl : Bool)
    (st : MsgState T) {a b : AR} (h : S a b) :
    RelOut S E X (Verif.msgStep prof pf bl st a) (Verif.msgStep prof pf bl st b) := by
  cases st with
  | finished => exact .inr ⟨rfl, h⟩
  | firstLine line =>
    simp only [Verif.msgStep, firstLineState]
    refine RelOut.bind (sim.crlf prof line h) _ _ ?_
    intro v; cases pf v <;> simp
  | headers t p =>
    simp only [Verif.msgStep, headersState]
    refine RelOut.bind (sim.headers prof p h) _ _ ?_
    intro v; cases BodyParser.new v bl <;> simp
  | body t hs p =>
    simp only [Verif.msgStep, bodyState]
    refine RelOut.bind (sim.body prof p h) _ _ ?_
    intro v; simp

theorem Sim.messageLoop (sim : Sim S E X) (prof : Profile) (pf : Bytes → Except ParsingError T) (bl : Bool)
    (f : Nat) (st : MsgState T) {a b : AR} (h : S a b) :
    RelOut S E X (MessageParser.loop prof pf bl f st a) (MessageParser.loop prof pf bl f st b) := by
  induction f generalizing st a b with
  | zero => exact .inr ⟨rfl, trivial⟩
  | succ f ih =>
    by_cases hfin : st.isFinished = false
    · rw [messageLoop_cont _ _ _ _ _ _ hfin, messageLoop_cont _ _ _ _ _ _ hfin]
      exact RelOut.step (sim.msgStep prof pf bl st h) _ _
        fun v a' b' _ _ hs => ih v hs
    · cases st with
      | finished t hs bd => rw [messageLoop_finished, messageLoop_finished]; exact .inr ⟨rfl, h⟩
      | _ => simp [MsgState.isFinished] at hfin

end

/-- The request parser behaves alike on related inputs. -/
theorem Sim.request (sim : Sim S E X) (prof : Profile) (p : RequestParser) {a b : AR} (h : S a b) :
    RelOut S E X (RequestParser.parse prof p a) (RequestParser.parse prof p b) := by
  simp only [RequestParser.parse]
  exact RelOut.bind (sim.messageLoop prof parseRequestLine false 5 p h) _ _ (by simp)

/-- The response parser behaves alike on related inputs. -/
theorem Sim.response (sim : Sim S E X) (prof : Profile) (p : ResponseParser) {a b : AR} (h : S a b) :
    RelOut S E X (ResponseParser.parse prof p a) (ResponseParser.parse prof p b) := by
  simp only [ResponseParser.parse]
  exact RelOut.bind (sim.messageLoop prof parseStatusLine true 5 p h) _ _ (by simp)

end Verif
