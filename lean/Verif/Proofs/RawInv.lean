import Verif.Model.BufStream

/-!
What every operation of a raw stream preserves is preserved by every use of the buffered streams around it.
-/

namespace Verif

/-- The operations of a writer preserve `P`. -/
structure WrKeeps {W : Type} [Wr W] (P : W → Prop) : Prop where
  write : ∀ {f : Nat} {w w' : W} {b : Bytes} {x : Except IoError Nat}, Wr.write f w b = some (x, w') → P w → P w'
  flush : ∀ {f : Nat} {w w' : W} {x : Except IoError Unit}, Wr.flush f w = some (x, w') → P w → P w'

/-- The operations of a writer preserve `P` if only such data are written as `may` says. -/
structure WrMay {W : Type} [Wr W] (may : Bytes → Prop) (P : W → Prop) : Prop where
  write : ∀ {f : Nat} {w w' : W} {b : Bytes} {x : Except IoError Nat}, may b → Wr.write f w b = some (x, w') → P w → P w'
  flush : ∀ {f : Nat} {w w' : W} {x : Except IoError Unit}, Wr.flush f w = some (x, w') → P w → P w'

/-- The operations of a raw stream preserve `P`. -/
structure RawKeeps {T : Type} [RawIO T] (P : T → Prop) : Prop extends WrKeeps P where
  read : ∀ {t t' : T} {n : Nat} {x : Except IoError Bytes}, RawIO.read t n = (x, t') → P t → P t'
  drop : ∀ {t : T}, P t → P (RawIO.dropped t)

/-- Reading a raw stream preserves `P`. -/
structure RawReads {T : Type} [RawIO T] (P : T → Prop) : Prop where
  read : ∀ {t t' : T} {n : Nat} {x : Except IoError Bytes}, RawIO.read t n = (x, t') → P t → P t'

/-- The operations of a raw stream, without its `Drop`, preserve `P` if only such data are written as `may` says. -/
structure RawMay {T : Type} [RawIO T] (may : Bytes → Prop) (P : T → Prop) : Prop extends WrMay may P, RawReads P

/-- What the server does with a raw stream until it drops it preserves `P`. It never writes nothing. -/
abbrev RawUses {T : Type} [RawIO T] (P : T → Prop) : Prop := RawMay (· ≠ []) P

/-- What the client does with a raw stream until it drops it preserves `P`. -/
abbrev RawFull {T : Type} [RawIO T] (P : T → Prop) : Prop := RawMay (fun _ => True) P

theorem RawKeeps.may {T : Type} [RawIO T] {P : T → Prop} (h : RawKeeps P) (may : Bytes → Prop) : RawMay may P := { write := fun _ => h.write, flush := h.flush, read := h.read }

instance {T : Type} [RawIO T] {P : T → Prop} {may : Bytes → Prop} : Coe (RawKeeps P) (RawMay may P) := ⟨fun h => h.may may⟩

section

variable {W : Type} [Wr W] {P : W → Prop} {may : Bytes → Prop}

theorem WrMay.wub (h : WrMay may P) (hm : ∀ b, b ≠ [] → may b) {f r : Nat} {w w' : W} {b : Bytes} {pos : Nat} {x : Except IoError Nat} (e : writeUntilBlocked f r w b pos = some (x, w')) (hp : P w) : P w' := by
  induction r generalizing w b pos with
  | zero =>
    unfold writeUntilBlocked at e
    split at e
    · cases e; exact hp
    · cases e
  | succ r ih =>
    unfold writeUntilBlocked at e
    split at e
    · cases e; exact hp
    · next hb =>
      split at e
      · cases e
      · rename_i hw; exact ih e (h.write (hm _ hb) hw hp)
      · rename_i hw; cases e; exact h.write (hm _ hb) hw hp

theorem WrMay.nb_flushBuf (h : WrMay may P) (hm : ∀ b, b ≠ [] → may b) {f : Nat} {w w' : NbWriter W} {x : Except IoError Unit} (e : w.flushBuf f = some (x, w')) (hp : P w.inner) : P w'.inner := by
  unfold NbWriter.flushBuf at e
  obtain ⟨⟨y, t⟩, h1, h2⟩ := Option.map_eq_some_iff.1 e
  have := h.wub hm h1 hp
  cases y with
  | error er => cases h2; exact this
  | ok n =>
    dsimp only at h2
    split at h2 <;> (cases h2; exact this)

theorem WrMay.nb (h : WrMay may P) (hm : ∀ b, b ≠ [] → may b) : WrKeeps (W := NbWriter W) fun w => P w.inner where
  write {f w w' b x} e hp := by
    change w.write f b = _ at e
    unfold NbWriter.write at e
    split at e
    · split at e
      · cases e
      · rename_i hf; cases e; exact h.nb_flushBuf hm hf hp
      · rename_i hf
        have hp := h.nb_flushBuf hm hf hp
        split at e
        · obtain ⟨⟨y, t⟩, h1, h2⟩ := Option.map_eq_some_iff.1 e
          have := h.wub hm h1 hp
          cases y <;> (cases h2; exact this)
        · cases e; exact hp
    · cases e; exact hp
  flush {f w w' x} e hp := by
    change w.flush f = _ at e
    unfold NbWriter.flush at e
    split at e
    · cases e
    · rename_i hf; cases e; exact h.nb_flushBuf hm hf hp
    · rename_i hf
      have hp := h.nb_flushBuf hm hf hp
      unfold NbWriter.flushInner at e
      obtain ⟨⟨y, t⟩, h1, h2⟩ := Option.map_eq_some_iff.1 e
      have := h.flush h1 hp
      cases y with
      | ok u => cases h2; exact this
      | error er => cases er <;> (cases h2; exact this)

theorem WrKeeps.std_flushBuf (h : WrKeeps P) {f r : Nat} {w w' : StdWriter W} {x : Except IoError Unit} (e : w.flushBuf f r = some (x, w')) (hp : P w.inner) : P w'.inner := by
  induction r generalizing w with
  | zero =>
    unfold StdWriter.flushBuf at e
    split at e
    · cases e; exact hp
    · cases e
  | succ r ih =>
    unfold StdWriter.flushBuf at e
    split at e
    · cases e; exact hp
    · split at e
      · cases e
      · rename_i hw
        have hp := h.write hw hp
        split at e
        · cases e; exact hp
        · exact ih e hp
      · rename_i hw
        have hp := h.write hw hp
        split at e
        · exact ih e hp
        · cases e; exact hp

theorem WrKeeps.std (h : WrKeeps P) : WrKeeps (W := StdWriter W) fun w => P w.inner where
  write {f w w' b x} e hp := by
    change w.write f b = _ at e
    unfold StdWriter.write at e
    split at e
    · cases e; exact hp
    · have : ∀ {y : Except IoError Unit} {w₁ : StdWriter W}, (if w.buf.length + b.length > w.cap then w.flushBuf f f else some (.ok (), w)) = some (y, w₁) → P w₁.inner := by
        intro y w₁ e
        split at e
        · exact h.std_flushBuf e hp
        · cases e; exact hp
      split at e
      · cases e
      · rename_i hf; cases e; exact this hf
      · rename_i hf
        have hp := this hf
        split at e
        · obtain ⟨⟨y, t⟩, h1, h2⟩ := Option.map_eq_some_iff.1 e
          cases h2
          exact h.write h1 hp
        · cases e; exact hp
  flush {f w w' x} e hp := by
    change w.flush f = _ at e
    unfold StdWriter.flush at e
    split at e
    · cases e
    · rename_i hf; cases e; exact h.std_flushBuf hf hp
    · rename_i hf
      obtain ⟨⟨y, t⟩, h1, h2⟩ := Option.map_eq_some_iff.1 e
      cases h2
      exact h.flush h1 (h.std_flushBuf hf hp)

theorem WrKeeps.readable (h : WrKeeps P) : WrKeeps (W := ReadableWriter W) fun w => P w.val where
  write {f w w' b x} e hp := by
    obtain ⟨⟨y, t⟩, h1, h2⟩ := Option.map_eq_some_iff.1 e
    cases h2; exact h.write h1 hp
  flush {f w w' x} e hp := by
    obtain ⟨⟨y, t⟩, h1, h2⟩ := Option.map_eq_some_iff.1 e
    cases h2; exact h.flush h1 hp

end

section

variable {T : Type} [RawIO T] {P : T → Prop} {may : Bytes → Prop}

theorem RawKeeps.writeable (h : RawKeeps P) : WrKeeps (W := WriteableReader (BufR T)) fun w => P w.val.inner where
  write {f w w' b x} e hp := by
    obtain ⟨⟨y, t⟩, h1, h2⟩ := Option.map_eq_some_iff.1 e
    cases h2; exact h.write h1 hp
  flush {f w w' x} e hp := by
    obtain ⟨⟨y, t⟩, h1, h2⟩ := Option.map_eq_some_iff.1 e
    cases h2; exact h.flush h1 hp

theorem RawMay.writeable (h : RawMay may P) : WrMay may (W := WriteableReader (BufR T)) fun w => P w.val.inner where
  write {f w w' b x} hb e hp := by
    obtain ⟨⟨y, t⟩, h1, h2⟩ := Option.map_eq_some_iff.1 e
    cases h2; exact h.write hb h1 hp
  flush {f w w' x} e hp := by
    obtain ⟨⟨y, t⟩, h1, h2⟩ := Option.map_eq_some_iff.1 e
    cases h2; exact h.flush h1 hp

theorem RawReads.fillBuf (h : RawReads P) {s : BufR T} (hp : P s.inner) : P s.fillBuf.2.inner := by
  unfold BufR.fillBuf
  split
  · have : P (RawIO.read s.inner s.cap).2 := h.read rfl hp
    generalize RawIO.read s.inner s.cap = x at this
    obtain ⟨x, t⟩ := x
    cases x <;> exact this
  · exact hp

theorem RawReads.bufRead (h : RawReads P) {s : BufR T} (n : Nat) (hp : P s.inner) : P (s.read n).2.inner := by
  unfold BufR.read
  split
  · exact h.read rfl hp
  · have := h.fillBuf hp
    generalize s.fillBuf = x at this
    obtain ⟨x, t⟩ := x
    cases x <;> exact this

theorem RawMay.server (h : RawUses P) (f : Nat) (os : List StreamOp) {s : ServerStack T} (hp : P s.val.inner.val.inner) :
    P (StreamOp.runAll f os s).2.val.inner.val.inner := by
  have hw := (h.writeable.nb fun _ hb => hb).readable
  induction os generalizing s with
  | nil => exact hp
  | cons o os ih =>
    refine ih ?_
    cases o with
    | fillBuf => exact h.fillBuf hp
    | consume n => exact hp
    | read n => exact h.bufRead n hp
    | write b =>
      unfold StreamOp.run
      dsimp only
      split
      · exact hp
      · rename_i e; exact hw.write e hp
    | flush =>
      unfold StreamOp.run
      dsimp only
      split
      · exact hp
      · rename_i e; exact hw.flush e hp

theorem RawKeeps.client (h : RawKeeps P) (f : Nat) (os : List StreamOp) {s : ClientStack T} (hp : P s.val.inner.val.inner) :
    P (StreamOp.runAll f os s).2.val.inner.val.inner := by
  have hw := h.writeable.std.readable
  induction os generalizing s with
  | nil => exact hp
  | cons o os ih =>
    refine ih ?_
    cases o with
    | fillBuf => exact (h.may fun _ => True).fillBuf hp
    | consume n => exact hp
    | read n => exact (h.may fun _ => True).bufRead n hp
    | write b =>
      unfold StreamOp.run
      dsimp only
      split
      · exact hp
      · rename_i e; exact hw.write e hp
    | flush =>
      unfold StreamOp.run
      dsimp only
      split
      · exact hp
      · rename_i e; exact hw.flush e hp

end

end Verif
