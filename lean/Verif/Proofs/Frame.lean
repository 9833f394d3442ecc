import Verif.Proofs.Sim

/-!
Instances of `Sim`: what is left is a suffix of the input; later input does not matter to a parse that
did not run out of input; larger limits do not matter to a parse that did not hit a limit.
-/

namespace Verif

open Reader

/-! ### Suffix -/

theorem scan_suffix (d : UInt8) (ls : List Nat) (as : List Atom) : (AR.scan d ls as).2.2.2 <:+ as := by
  obtain ⟨pre, h1, -, -⟩ := scan_spec d ls as
  revert h1
  generalize AR.scan d ls as = q
  obtain ⟨o, b, ls', as'⟩ := q
  simp only
  intro h1
  cases h1 with
  | found => exact ⟨pre ++ [.byte d], by simp⟩
  | eof => exact ⟨pre ++ [.eof], by simp⟩
  | err e => exact ⟨pre ++ [.err e], by simp⟩
  | limit => exact ⟨pre, rfl⟩
  | out _ _ _ h => subst h; exact ⟨as, by simp⟩

theorem takeN_suffix (n : Nat) (ls : List Nat) (as : List Atom) : (AR.takeN n ls as).2.2.2 <:+ as := by
  obtain ⟨h1, -, -⟩ := takeN_spec n ls as
  revert h1
  generalize AR.takeN n ls as = q
  obtain ⟨o, b, ls', as'⟩ := q
  simp only
  intro h1
  cases h1 with
  | full => exact ⟨b.map .byte, rfl⟩
  | eof => exact ⟨b.map .byte ++ [.eof], by simp⟩
  | err e => exact ⟨b.map .byte ++ [.err e], by simp⟩
  | limit => exact ⟨b.map .byte, rfl⟩
  | out _ _ h => subst h; exact ⟨b.map .byte, by simp⟩

theorem drain_suffix (ls : List Nat) (as : List Atom) : (AR.drain ls as).2.2.2 <:+ as := by
  obtain ⟨pre, h1, -, -⟩ := drain_spec ls as
  revert h1
  generalize AR.drain ls as = q
  obtain ⟨o, b, ls', as'⟩ := q
  simp only
  intro h1
  cases h1 with
  | eof => exact ⟨pre ++ [.eof], by simp⟩
  | err e => exact ⟨pre ++ [.err e], by simp⟩
  | limit => exact ⟨pre, rfl⟩
  | out _ _ h => subst h; exact ⟨as, by simp⟩

/-- An invariant of the reading operations is an instance of `Sim`. -/
theorem Sim.ofInv {I : AR → Prop} (push : ∀ {a : AR} (l : Nat), I a → I (Reader.push l a))
    (pop : ∀ {a : AR}, I a → I (Reader.pop a))
    (untilLf : ∀ {a : AR}, I a → I (readUntilLf a).2.2)
    (into : ∀ {a : AR} (n : Nat) (d : Bytes), I a → I (readInto n d a).2.2)
    (toEnd : ∀ {a : AR} (d : Bytes), I a → I (readToEnd d a).2.2) :
    Sim (fun a b => a = b ∧ I a) (fun _ a b => a = b ∧ I a) (fun _ => False) where
  push l h := ⟨by rw [h.1], push l h.2⟩
  pop h := ⟨by rw [h.1], pop h.2⟩
  popE h := ⟨by rw [h.1], pop h.2⟩
  eofE h := h
  untilLf h := by
    obtain ⟨rfl, h⟩ := h
    refine .inr ⟨rfl, rfl, ?_⟩
    have := untilLf h
    split
    · exact ⟨rfl, this⟩
    · exact ⟨rfl, this⟩
    · trivial
  into n d h := by
    obtain ⟨rfl, h⟩ := h
    refine .inr ⟨rfl, rfl, ?_⟩
    have := into n d h
    split
    · exact ⟨rfl, this⟩
    · exact ⟨rfl, this⟩
    · trivial
  toEnd d h := by
    obtain ⟨rfl, h⟩ := h
    refine .inr ⟨rfl, rfl, ?_⟩
    have := toEnd d h
    split
    · exact ⟨rfl, this⟩
    · exact ⟨rfl, this⟩
    · trivial
  hX h := h

theorem RelOut.inv {σ τ : Type} {I : AR → Prop} {x : Out σ τ × AR}
    (h : RelOut (fun a b => a = b ∧ I a) (fun _ a b => a = b ∧ I a) (fun _ => False) x x)
    (hd : x.1 ≠ .diverge) : I x.2 := by
  rcases h with ⟨_, _, _, h⟩ | ⟨-, h⟩
  · exact h.elim
  · revert h
    split
    · exact fun h => h.2
    · exact fun h => h.2
    · rintro (h | ⟨_, h⟩) <;> exact h.2
    · rintro (h | ⟨_, h⟩) <;> exact h.2
    · rename_i h; exact absurd h hd

theorem sim_suffix (as₀ : List Atom) : Sim (fun a b => a = b ∧ a.atoms <:+ as₀)
    (fun _ a b => a = b ∧ a.atoms <:+ as₀) (fun _ => False) :=
  Sim.ofInv (I := fun a => a.atoms <:+ as₀) (fun _ h => h) (fun h => h)
    (fun h => (scan_suffix LF _ _).trans h) (fun _ _ h => (takeN_suffix _ _ _).trans h)
    (fun _ h => (drain_suffix _ _).trans h)

theorem request_suffix (prof : Profile) (p : RequestParser) (r : AR) :
    (RequestParser.parse prof p r).2.atoms <:+ r.atoms :=
  ((sim_suffix r.atoms).request prof p ⟨rfl, List.suffix_refl _⟩).inv (I := fun a => a.atoms <:+ r.atoms)
    (requestParse_progress prof p r).1

theorem response_suffix (prof : Profile) (p : ResponseParser) (r : AR) :
    (ResponseParser.parse prof p r).2.atoms <:+ r.atoms :=
  ((sim_suffix r.atoms).response prof p ⟨rfl, List.suffix_refl _⟩).inv (I := fun a => a.atoms <:+ r.atoms)
    (responseParse_progress prof p r).1

/-! ### Later input -/

theorem scan_append (d : UInt8) (ls : List Nat) (as X : List Atom) :
    (AR.scan d ls as).1 = .err .wouldBlock ∨
      AR.scan d ls (as ++ X) = ((AR.scan d ls as).1, (AR.scan d ls as).2.1, (AR.scan d ls as).2.2.1,
        (AR.scan d ls as).2.2.2 ++ X) := by
  induction as generalizing ls with
  | nil =>
    by_cases h0 : 0 ∈ ls
    · right; simp [scan_zero d h0]
    · left; simp [scan_nil d h0]
  | cons a as ih =>
    by_cases h0 : 0 ∈ ls
    · right; simp [scan_zero d h0]
    · cases a with
      | byte b =>
        by_cases hb : b = d
        · subst hb; right; simp [scan_delim b h0]
        · rw [List.cons_append, scan_byte hb h0, scan_byte hb h0]
          rcases ih (decN 1 ls) with h | h
          · exact .inl h
          · right; rw [h]
      | eof => right; simp [scan_eof d h0]
      | err e =>
        by_cases he : e = .interrupted
        · subst he
          rw [List.cons_append, scan_int d h0, scan_int d h0]
          exact ih ls
        · right; simp [scan_err d he h0]

theorem takeN_append (n : Nat) (ls : List Nat) (as X : List Atom) :
    (AR.takeN n ls as).1 = .err .wouldBlock ∨
      AR.takeN n ls (as ++ X) = ((AR.takeN n ls as).1, (AR.takeN n ls as).2.1, (AR.takeN n ls as).2.2.1,
        (AR.takeN n ls as).2.2.2 ++ X) := by
  induction n generalizing ls as with
  | zero => right; simp [AR.takeN]
  | succ n ih =>
    by_cases h0 : 0 ∈ ls
    · right; simp [takeN_zero' h0]
    · cases as with
      | nil => left; simp [takeN_nil h0]
      | cons a as =>
        cases a with
        | byte b =>
          rw [List.cons_append, takeN_byte h0, takeN_byte h0]
          rcases ih (decN 1 ls) as with h | h
          · exact .inl h
          · right; rw [h]
        | eof => right; simp [takeN_eof h0]
        | err e => right; simp [takeN_err h0]

theorem drain_append (ls : List Nat) (as X : List Atom) :
    (AR.drain ls as).1 = .err .wouldBlock ∨
      AR.drain ls (as ++ X) = ((AR.drain ls as).1, (AR.drain ls as).2.1, (AR.drain ls as).2.2.1,
        (AR.drain ls as).2.2.2 ++ X) := by
  induction as generalizing ls with
  | nil =>
    by_cases h0 : 0 ∈ ls
    · right; simp [drain_zero h0]
    · left; simp [drain_nil h0]
  | cons a as ih =>
    by_cases h0 : 0 ∈ ls
    · right; simp [drain_zero h0]
    · cases a with
      | byte b =>
        rw [List.cons_append, drain_byte b h0, drain_byte b h0]
        rcases ih (decN 1 ls) with h | h
        · exact .inl h
        · right; rw [h]
      | eof => right; simp [drain_eof h0]
      | err e =>
        by_cases he : e = .interrupted
        · subst he
          rw [List.cons_append, drain_int h0, drain_int h0]
          exact ih ls
        · right; simp [drain_err he h0]

/-- Same limits, and the second input continues after the end of the first. -/
def Ext (X : List Atom) (a b : AR) : Prop := a.lims = b.lims ∧ b.atoms = a.atoms ++ X

theorem relRes_of_append {X : List Atom} {o : IoRes} {bs d : Bytes} {ls : List Nat} {as : List Atom}
    {y : IoRes × Bytes × List Nat × List Atom}
    (h : o = .err .wouldBlock ∨ y = (o, bs, ls, as ++ X)) :
    RelRes (Ext X) (fun _ => Ext X) (fun e => e = .wouldBlock) (o, d ++ bs, ⟨ls, as⟩)
      (y.1, d ++ y.2.1, ⟨y.2.2.1, y.2.2.2⟩) := by
  rcases h with h | h
  · exact .inl ⟨_, h, rfl⟩
  · subst h
    refine .inr ⟨rfl, rfl, ?_⟩
    cases o with
    | diverge => trivial
    | _ => exact ⟨rfl, rfl⟩

theorem sim_append (X : List Atom) : Sim (Ext X) (fun _ => Ext X) (fun e => e = .wouldBlock) where
  push l h := ⟨by simp [Reader.push, h.1], h.2⟩
  pop h := ⟨by simp [Reader.pop, h.1], h.2⟩
  popE h := ⟨by simp [Reader.pop, h.1], h.2⟩
  eofE h := h
  untilLf {a b} h := by
    obtain ⟨ls, as⟩ := a
    obtain ⟨ls', bs⟩ := b
    obtain ⟨h1, h2⟩ := h
    simp only at h1 h2
    subst h1 h2
    exact relRes_of_append (d := []) (scan_append LF ls as X)
  into {a b} n d h := by
    obtain ⟨ls, as⟩ := a
    obtain ⟨ls', bs⟩ := b
    obtain ⟨h1, h2⟩ := h
    simp only at h1 h2
    subst h1 h2
    exact relRes_of_append (d := d) (takeN_append (n - d.length) ls as X)
  toEnd {a b} d h := by
    obtain ⟨ls, as⟩ := a
    obtain ⟨ls', bs⟩ := b
    obtain ⟨h1, h2⟩ := h
    simp only at h1 h2
    subst h1 h2
    exact relRes_of_append (d := d) (drain_append ls as X)
  hX h := by cases h

/-- If a parse did not stop for lack of input, more input changes nothing and is left unread. -/
theorem RelOut.append {σ τ : Type} {X : List Atom} {x y : Out σ τ × AR}
    (h : RelOut (Ext X) (fun _ => Ext X) (fun e => e = .wouldBlock) x y)
    (hw : ∀ s, x.1 ≠ .io s .wouldBlock) (hd : x.1 ≠ .diverge) :
    y = (x.1, ⟨x.2.lims, x.2.atoms ++ X⟩) := by
  obtain ⟨o, a⟩ := x
  obtain ⟨o', ls', bs⟩ := y
  rcases h with ⟨s, e, h, he⟩ | ⟨h, h2⟩
  · subst he; exact absurd h (hw s)
  · simp only at h hd
    subst h
    have : Ext X a ⟨ls', bs⟩ := by
      cases o with
      | done v => exact h2
      | io s e => exact h2
      | perr e => rcases h2 with h2 | ⟨_, h2⟩ <;> exact h2
      | panic => rcases h2 with h2 | ⟨_, h2⟩ <;> exact h2
      | diverge => exact absurd rfl hd
    obtain ⟨h3, h4⟩ := this
    simp only at h3 h4
    subst h3 h4
    rfl

theorem request_append {prof : Profile} {p : RequestParser} {ls : List Nat} {as : List Atom} (X : List Atom)
    {o : Out RequestParser Request} {r : AR} (h : RequestParser.parse prof p (⟨ls, as⟩ : AR) = (o, r))
    (hw : ∀ s, o ≠ .io s .wouldBlock) :
    RequestParser.parse prof p (⟨ls, as ++ X⟩ : AR) = (o, ⟨r.lims, r.atoms ++ X⟩) := by
  have := ((sim_append X).request prof p (a := ⟨ls, as⟩) (b := ⟨ls, as ++ X⟩) ⟨rfl, rfl⟩).append
    (by rw [h]; exact hw) (requestParse_progress prof p _).1
  rw [h] at this
  exact this

theorem response_append {prof : Profile} {p : ResponseParser} {ls : List Nat} {as : List Atom} (X : List Atom)
    {o : Out ResponseParser Response} {r : AR} (h : ResponseParser.parse prof p (⟨ls, as⟩ : AR) = (o, r))
    (hw : ∀ s, o ≠ .io s .wouldBlock) :
    ResponseParser.parse prof p (⟨ls, as ++ X⟩ : AR) = (o, ⟨r.lims, r.atoms ++ X⟩) := by
  have := ((sim_append X).response prof p (a := ⟨ls, as⟩) (b := ⟨ls, as ++ X⟩) ⟨rfl, rfl⟩).append
    (by rw [h]; exact hw) (responseParse_progress prof p _).1
  rw [h] at this
  exact this

/-! ### Running out of input -/

/-- A would-block error as an atom. -/
abbrev WB : Atom := .err .wouldBlock

theorem scan_block (d : UInt8) (ls : List Nat) (as X : List Atom) (hw : WB ∉ as)
    (h : (AR.scan d ls as).1 = .err .wouldBlock) :
    (AR.scan d ls as).2.2.2 = [] ∧
      AR.scan d ls (as ++ WB :: X) = (.err .wouldBlock, (AR.scan d ls as).2.1, (AR.scan d ls as).2.2.1, X) := by
  induction as generalizing ls with
  | nil =>
    by_cases h0 : 0 ∈ ls
    · simp [scan_zero d h0] at h
    · simp [scan_nil d h0, scan_err d (show IoError.wouldBlock ≠ .interrupted by decide) h0]
  | cons a as ih =>
    simp only [List.mem_cons, not_or] at hw
    by_cases h0 : 0 ∈ ls
    · simp [scan_zero d h0] at h
    · cases a with
      | byte b =>
        by_cases hb : b = d
        · subst hb; simp [scan_delim b h0] at h
        · rw [List.cons_append, scan_byte hb h0, scan_byte hb h0]
          rw [scan_byte hb h0] at h
          have := ih (decN 1 ls) hw.2 h
          exact ⟨this.1, by rw [this.2]⟩
      | eof => simp [scan_eof d h0] at h
      | err e =>
        by_cases he : e = .interrupted
        · subst he
          rw [List.cons_append, scan_int d h0, scan_int d h0]
          rw [scan_int d h0] at h
          exact ih ls hw.2 h
        · simp [scan_err d he h0] at h
          subst h
          exact absurd rfl hw.1

theorem takeN_block (n : Nat) (ls : List Nat) (as X : List Atom) (hw : WB ∉ as)
    (h : (AR.takeN n ls as).1 = .err .wouldBlock) :
    (AR.takeN n ls as).2.2.2 = [] ∧
      AR.takeN n ls (as ++ WB :: X) = (.err .wouldBlock, (AR.takeN n ls as).2.1, (AR.takeN n ls as).2.2.1, X) := by
  induction n generalizing ls as with
  | zero => simp [AR.takeN] at h
  | succ n ih =>
    by_cases h0 : 0 ∈ ls
    · simp [takeN_zero' h0] at h
    · cases as with
      | nil => simp [takeN_nil h0, takeN_err h0]
      | cons a as =>
        simp only [List.mem_cons, not_or] at hw
        cases a with
        | byte b =>
          rw [List.cons_append, takeN_byte h0, takeN_byte h0]
          rw [takeN_byte h0] at h
          have := ih (decN 1 ls) as hw.2 h
          exact ⟨this.1, by rw [this.2]⟩
        | eof => simp [takeN_eof h0] at h
        | err e =>
          simp [takeN_err h0] at h
          subst h
          exact absurd rfl hw.1

theorem drain_block (ls : List Nat) (as X : List Atom) (hw : WB ∉ as)
    (h : (AR.drain ls as).1 = .err .wouldBlock) :
    (AR.drain ls as).2.2.2 = [] ∧
      AR.drain ls (as ++ WB :: X) = (.err .wouldBlock, (AR.drain ls as).2.1, (AR.drain ls as).2.2.1, X) := by
  induction as generalizing ls with
  | nil =>
    by_cases h0 : 0 ∈ ls
    · simp [drain_zero h0] at h
    · simp [drain_nil h0, drain_err (show IoError.wouldBlock ≠ .interrupted by decide) h0]
  | cons a as ih =>
    simp only [List.mem_cons, not_or] at hw
    by_cases h0 : 0 ∈ ls
    · simp [drain_zero h0] at h
    · cases a with
      | byte b =>
        rw [List.cons_append, drain_byte b h0, drain_byte b h0]
        rw [drain_byte b h0] at h
        have := ih (decN 1 ls) hw.2 h
        exact ⟨this.1, by rw [this.2]⟩
      | eof => simp [drain_eof h0] at h
      | err e =>
        by_cases he : e = .interrupted
        · subst he
          rw [List.cons_append, drain_int h0, drain_int h0]
          rw [drain_int h0] at h
          exact ih ls hw.2 h
        · simp [drain_err he h0] at h
          subst h
          exact absurd rfl hw.1

/-- The second input is the first one, then a would-block, then `X`. -/
def Blk (X : List Atom) (a b : AR) : Prop := a.lims = b.lims ∧ WB ∉ a.atoms ∧ b.atoms = a.atoms ++ WB :: X

/-- After an error: would-block was at the end of the first input. -/
def BlkE (X : List Atom) (e : IoError) (a b : AR) : Prop :=
  if e = .wouldBlock then a.lims = b.lims ∧ a.atoms = [] ∧ b.atoms = X else Blk X a b

theorem relRes_of_block {X : List Atom} {x y : IoRes × Bytes × List Nat × List Atom} {d : Bytes}
    {as : List Atom} (hw : WB ∉ as) (hs : x.2.2.2 <:+ as)
    (h : x.1 = .err .wouldBlock ∨ y = (x.1, x.2.1, x.2.2.1, x.2.2.2 ++ WB :: X))
    (hb : x.1 = .err .wouldBlock → x.2.2.2 = [] ∧ y = (.err .wouldBlock, x.2.1, x.2.2.1, X)) :
    RelRes (Blk X) (BlkE X) (fun _ => False) (x.1, d ++ x.2.1, ⟨x.2.2.1, x.2.2.2⟩)
      (y.1, d ++ y.2.1, ⟨y.2.2.1, y.2.2.2⟩) := by
  obtain ⟨o, bs, ls, as'⟩ := x
  simp only at *
  right
  by_cases ho : o = .err .wouldBlock
  · subst ho
    obtain ⟨h1, h2⟩ := hb rfl
    subst h1 h2
    refine ⟨rfl, rfl, ?_⟩
    simp only [BlkE, if_true]
    simp
  · have hy := h.resolve_left ho
    subst hy
    refine ⟨rfl, rfl, ?_⟩
    have hw' : WB ∉ as' := fun hm => hw (hs.subset hm)
    cases o with
    | diverge => trivial
    | ok => exact ⟨rfl, hw', rfl⟩
    | err e =>
      have : e ≠ .wouldBlock := fun h => ho (by rw [h])
      simp only [BlkE, this, if_false]
      exact ⟨rfl, hw', rfl⟩

theorem sim_block (X : List Atom) : Sim (Blk X) (BlkE X) (fun _ => False) where
  push l h := ⟨by simp [Reader.push, h.1], h.2⟩
  pop h := ⟨by simp [Reader.pop, h.1], h.2⟩
  popE {e a b} h := by
    by_cases he : e = .wouldBlock
    · simp only [BlkE, he, if_true] at h ⊢
      exact ⟨by simp [Reader.pop, h.1], h.2⟩
    · simp only [BlkE, he, if_false] at h ⊢
      exact ⟨by simp [Reader.pop, h.1], h.2⟩
  eofE h := by simpa [BlkE] using h
  untilLf {a b} h := by
    obtain ⟨ls, as⟩ := a
    obtain ⟨ls', bs⟩ := b
    obtain ⟨h1, hw, h2⟩ := h
    simp only at h1 h2 hw
    subst h1 h2
    exact relRes_of_block (d := []) hw (scan_suffix _ _ _) (scan_append LF ls as (WB :: X))
      (scan_block LF ls as X hw)
  into {a b} n d h := by
    obtain ⟨ls, as⟩ := a
    obtain ⟨ls', bs⟩ := b
    obtain ⟨h1, hw, h2⟩ := h
    simp only at h1 h2 hw
    subst h1 h2
    exact relRes_of_block (d := d) hw (takeN_suffix _ _ _) (takeN_append (n - d.length) ls as (WB :: X))
      (takeN_block (n - d.length) ls as X hw)
  toEnd {a b} d h := by
    obtain ⟨ls, as⟩ := a
    obtain ⟨ls', bs⟩ := b
    obtain ⟨h1, hw, h2⟩ := h
    simp only at h1 h2 hw
    subst h1 h2
    exact relRes_of_block (d := d) hw (drain_suffix _ _) (drain_append ls as (WB :: X))
      (drain_block ls as X hw)
  hX h := h

/-- A parse that stops at the end of `as` for lack of input stops likewise at a would-block there. -/
theorem request_block {prof : Profile} {p : RequestParser} {ls : List Nat} {as : List Atom} (X : List Atom)
    (hwb : WB ∉ as) {p' : RequestParser} {r : AR}
    (h : RequestParser.parse prof p (⟨ls, as⟩ : AR) = (.io p' .wouldBlock, r)) :
    r.atoms = [] ∧ RequestParser.parse prof p (⟨ls, as ++ WB :: X⟩ : AR) = (.io p' .wouldBlock, ⟨r.lims, X⟩) := by
  have := (sim_block X).request prof p (a := ⟨ls, as⟩) (b := ⟨ls, as ++ WB :: X⟩) ⟨rfl, hwb, rfl⟩
  rw [h] at this
  revert this
  generalize RequestParser.parse prof p (⟨ls, as ++ WB :: X⟩ : AR) = y
  obtain ⟨o, ls', bs⟩ := y
  rintro (⟨_, _, _, h⟩ | ⟨h1, h2⟩)
  · exact h.elim
  · simp only at h1
    subst h1
    simp only [BlkE, if_true] at h2
    obtain ⟨h3, h4, h5⟩ := h2
    subst h3 h5
    exact ⟨h4, rfl⟩

/-! ### Larger limits -/

/-- The limits of the second reader are at least those of the first. -/
inductive LimsLe : List Nat → List Nat → Prop
  | nil : LimsLe [] []
  | cons {l l' : Nat} {ls ls' : List Nat} : l ≤ l' → LimsLe ls ls' → LimsLe (l :: ls) (l' :: ls')

theorem LimsLe.refl (ls : List Nat) : LimsLe ls ls := by
  induction ls with
  | nil => exact .nil
  | cons l ls ih => exact .cons (Nat.le_refl _) ih

theorem LimsLe.trans {a b c : List Nat} (h : LimsLe a b) (h' : LimsLe b c) : LimsLe a c := by
  induction h generalizing c with
  | nil => exact h'
  | cons h1 _ ih => cases h' with | cons h2 h3 => exact .cons (Nat.le_trans h1 h2) (ih h3)

theorem LimsLe.decN {ls ls' : List Nat} (h : LimsLe ls ls') (n : Nat) : LimsLe (decN n ls) (decN n ls') := by
  induction h with
  | nil => exact .nil
  | cons h1 _ ih => exact .cons (Nat.sub_le_sub_right h1 n) ih

theorem LimsLe.decN_le {ls : List Nat} {m n : Nat} (h : m ≤ n) : LimsLe (Verif.decN n ls) (Verif.decN m ls) := by
  induction ls with
  | nil => exact .nil
  | cons l ls ih => exact .cons (Nat.sub_le_sub_left h l) ih

theorem LimsLe.tail {ls ls' : List Nat} (h : LimsLe ls ls') : LimsLe ls.tail ls'.tail := by
  cases h with
  | nil => exact .nil
  | cons _ h => exact h

theorem LimsLe.zero {ls ls' : List Nat} (h : LimsLe ls ls') (h0 : 0 ∉ ls) : 0 ∉ ls' := by
  induction h with
  | nil => exact h0
  | cons h1 _ ih =>
    simp only [List.mem_cons, not_or] at h0 ⊢
    exact ⟨by omega, ih h0.2⟩

theorem LimsLe.forall {ls ls' : List Nat} (h : LimsLe ls ls') {n : Nat} (h0 : ∀ l ∈ ls, n ≤ l) :
    ∀ l ∈ ls', n ≤ l := by
  induction h with
  | nil => exact h0
  | cons h1 _ ih =>
    simp only [List.mem_cons, forall_eq_or_imp] at h0 ⊢
    exact ⟨by omega, ih h0.2⟩

theorem scan_lims (d : UInt8) {ls ls' : List Nat} (hl : LimsLe ls ls') (as : List Atom) :
    (AR.scan d ls as).1 = .err .limitReached ∨
      ∃ ls₁', AR.scan d ls' as = ((AR.scan d ls as).1, (AR.scan d ls as).2.1, ls₁', (AR.scan d ls as).2.2.2) ∧
        LimsLe (AR.scan d ls as).2.2.1 ls₁' := by
  induction as generalizing ls ls' with
  | nil =>
    by_cases h0 : 0 ∈ ls
    · left; simp [scan_zero d h0]
    · right; rw [scan_nil d h0, scan_nil d (hl.zero h0)]; exact ⟨_, rfl, hl⟩
  | cons a as ih =>
    by_cases h0 : 0 ∈ ls
    · left; simp [scan_zero d h0]
    · have h0' := hl.zero h0
      cases a with
      | byte b =>
        by_cases hb : b = d
        · subst hb; right; rw [scan_delim b h0, scan_delim b h0']; exact ⟨_, rfl, hl.decN 1⟩
        · rw [scan_byte hb h0, scan_byte hb h0']
          rcases ih (hl.decN 1) with h | ⟨ls₁, h1, h2⟩
          · exact .inl h
          · right; rw [h1]; exact ⟨_, rfl, h2⟩
      | eof => right; rw [scan_eof d h0, scan_eof d h0']; exact ⟨_, rfl, hl⟩
      | err e =>
        by_cases he : e = .interrupted
        · subst he
          rw [scan_int d h0, scan_int d h0']
          exact ih hl
        · right; rw [scan_err d he h0, scan_err d he h0']; exact ⟨_, rfl, hl⟩

theorem takeN_lims (n : Nat) {ls ls' : List Nat} (hl : LimsLe ls ls') (as : List Atom) :
    (AR.takeN n ls as).1 = .err .limitReached ∨
      ∃ ls₁', AR.takeN n ls' as = ((AR.takeN n ls as).1, (AR.takeN n ls as).2.1, ls₁', (AR.takeN n ls as).2.2.2) ∧
        LimsLe (AR.takeN n ls as).2.2.1 ls₁' := by
  induction n generalizing ls ls' as with
  | zero => right; simp only [AR.takeN]; exact ⟨_, rfl, hl⟩
  | succ n ih =>
    by_cases h0 : 0 ∈ ls
    · left; simp [takeN_zero' h0]
    · have h0' := hl.zero h0
      cases as with
      | nil => right; rw [takeN_nil h0, takeN_nil h0']; exact ⟨_, rfl, hl⟩
      | cons a as =>
        cases a with
        | byte b =>
          rw [takeN_byte h0, takeN_byte h0']
          rcases ih (hl.decN 1) as with h | ⟨ls₁, h1, h2⟩
          · exact .inl h
          · right; rw [h1]; exact ⟨_, rfl, h2⟩
        | eof => right; rw [takeN_eof h0, takeN_eof h0']; exact ⟨_, rfl, hl⟩
        | err e => right; rw [takeN_err h0, takeN_err h0']; exact ⟨_, rfl, hl⟩

theorem drain_lims {ls ls' : List Nat} (hl : LimsLe ls ls') (as : List Atom) :
    (AR.drain ls as).1 = .err .limitReached ∨
      ∃ ls₁', AR.drain ls' as = ((AR.drain ls as).1, (AR.drain ls as).2.1, ls₁', (AR.drain ls as).2.2.2) ∧
        LimsLe (AR.drain ls as).2.2.1 ls₁' := by
  induction as generalizing ls ls' with
  | nil =>
    by_cases h0 : 0 ∈ ls
    · left; simp [drain_zero h0]
    · right; rw [drain_nil h0, drain_nil (hl.zero h0)]; exact ⟨_, rfl, hl⟩
  | cons a as ih =>
    by_cases h0 : 0 ∈ ls
    · left; simp [drain_zero h0]
    · have h0' := hl.zero h0
      cases a with
      | byte b =>
        rw [drain_byte b h0, drain_byte b h0']
        rcases ih (hl.decN 1) with h | ⟨ls₁, h1, h2⟩
        · exact .inl h
        · right; rw [h1]; exact ⟨_, rfl, h2⟩
      | eof => right; rw [drain_eof h0, drain_eof h0']; exact ⟨_, rfl, hl⟩
      | err e =>
        by_cases he : e = .interrupted
        · subst he
          rw [drain_int h0, drain_int h0']
          exact ih hl
        · right; rw [drain_err he h0, drain_err he h0']; exact ⟨_, rfl, hl⟩

/-- Same input under larger limits. -/
def LimRel (a b : AR) : Prop := a.atoms = b.atoms ∧ LimsLe a.lims b.lims

theorem relRes_of_lims {x y : IoRes × Bytes × List Nat × List Atom} {d : Bytes}
    (h : x.1 = .err .limitReached ∨ ∃ ls', y = (x.1, x.2.1, ls', x.2.2.2) ∧ LimsLe x.2.2.1 ls') :
    RelRes LimRel (fun _ => LimRel) (fun e => e = .limitReached) (x.1, d ++ x.2.1, ⟨x.2.2.1, x.2.2.2⟩)
      (y.1, d ++ y.2.1, ⟨y.2.2.1, y.2.2.2⟩) := by
  obtain ⟨o, bs, ls, as'⟩ := x
  rcases h with h | ⟨ls', h1, h2⟩
  · exact .inl ⟨_, h, rfl⟩
  · subst h1
    refine .inr ⟨rfl, rfl, ?_⟩
    cases o with
    | diverge => trivial
    | _ => exact ⟨rfl, h2⟩

theorem sim_lims : Sim LimRel (fun _ => LimRel) (fun e => e = .limitReached) where
  push l h := ⟨h.1, .cons (Nat.le_refl _) h.2⟩
  pop h := ⟨h.1, h.2.tail⟩
  popE h := ⟨h.1, h.2.tail⟩
  eofE h := h
  untilLf {a b} h := by
    obtain ⟨ls, as⟩ := a
    obtain ⟨ls', bs⟩ := b
    obtain ⟨h1, h2⟩ := h
    simp only at h1 h2
    subst h1
    exact relRes_of_lims (d := []) (scan_lims LF h2 as)
  into {a b} n d h := by
    obtain ⟨ls, as⟩ := a
    obtain ⟨ls', bs⟩ := b
    obtain ⟨h1, h2⟩ := h
    simp only at h1 h2
    subst h1
    exact relRes_of_lims (d := d) (takeN_lims (n - d.length) h2 as)
  toEnd {a b} d h := by
    obtain ⟨ls, as⟩ := a
    obtain ⟨ls', bs⟩ := b
    obtain ⟨h1, h2⟩ := h
    simp only at h1 h2
    subst h1
    exact relRes_of_lims (d := d) (drain_lims h2 as)
  hX h := by cases h

/-- A parse that did not hit a limit gives the same under larger limits. -/
theorem RelOut.lims {σ τ : Type} {x y : Out σ τ × AR}
    (h : RelOut LimRel (fun _ => LimRel) (fun e => e = .limitReached) x y)
    (hw : ∀ s, x.1 ≠ .io s .limitReached) (hd : x.1 ≠ .diverge) :
    y.1 = x.1 ∧ y.2.atoms = x.2.atoms ∧ LimsLe x.2.lims y.2.lims := by
  obtain ⟨o, a⟩ := x
  obtain ⟨o', b⟩ := y
  rcases h with ⟨s, e, h, he⟩ | ⟨h, h2⟩
  · subst he; exact absurd h (hw s)
  · simp only at h hd
    subst h
    have : LimRel a b := by
      cases o with
      | done v => exact h2
      | io s e => exact h2
      | perr e => rcases h2 with h2 | ⟨_, h2⟩ <;> exact h2
      | panic => rcases h2 with h2 | ⟨_, h2⟩ <;> exact h2
      | diverge => exact absurd rfl hd
    exact ⟨rfl, this.1.symm, this.2⟩

end Verif
