import Verif.Proofs.BufStream

/-! Buffered streams over an arbitrary raw stream. -/

namespace Verif

/-- Writing is recorded by `put` and does not touch `frame`. -/
structure Logs {I β : Type} [Wr I] (put : I → Bytes) (frame : I → β) : Prop where
  write_ok : ∀ {f : Nat} {i i' : I} {b : Bytes} {n : Nat}, Wr.write f i b = some (.ok n, i') →
    n ≤ b.length ∧ put i' = put i ++ b.take n ∧ frame i' = frame i
  write_err : ∀ {f : Nat} {i i' : I} {b : Bytes} {e : IoError}, Wr.write f i b = some (.error e, i') → put i' = put i ∧ frame i' = frame i
  flush : ∀ {f : Nat} {i i' : I} {x : Except IoError Unit}, Wr.flush f i = some (x, i') → put i' = put i ∧ frame i' = frame i

variable {I β : Type} [Wr I] {put : I → Bytes} {frame : I → β}

theorem Logs.wub (hl : Logs put frame) (f : Nat) : ∀ (r : Nat) (w w' : I) (b : Bytes) (pos : Nat) (x : Except IoError Nat),
    writeUntilBlocked f r w b pos = some (x, w') → frame w' = frame w ∧
      ∀ m, x = .ok m → ∃ n, m = pos + n ∧ n ≤ b.length ∧ put w' = put w ++ b.take n := by
  intro r
  induction r with
  | zero =>
    intro w w' b pos x h
    simp only [writeUntilBlocked] at h
    split at h
    · next hb => cases h; exact ⟨rfl, fun m hm => ⟨0, by cases hm; simp, by simp, by simp⟩⟩
    · cases h
  | succ r ih =>
    intro w w' b pos x h
    simp only [writeUntilBlocked] at h
    split at h
    · next hb => cases h; exact ⟨rfl, fun m hm => ⟨0, by cases hm; simp, by simp, by simp⟩⟩
    · split at h
      · cases h
      · next n w1 hw =>
        obtain ⟨h1, h2, h3⟩ := hl.write_ok hw
        obtain ⟨i1, i2⟩ := ih _ _ _ _ _ h
        refine ⟨i1.trans h3, fun m hm => ?_⟩
        obtain ⟨k, j1, j2, j3⟩ := i2 m hm
        refine ⟨n + k, by omega, by simp at j2; omega, ?_⟩
        rw [j3, h2, List.append_assoc, List.take_add]
      · next e w1 hw =>
        obtain ⟨h2, h3⟩ := hl.write_err hw
        cases h
        refine ⟨h3, fun m hm => ⟨0, ?_, by simp, by simp [h2]⟩⟩
        split at hm <;> cases hm
        rfl

/-- What a `NonBlockingBufWriter` has accepted: what went on and what it holds. -/
def NbWriter.all (put : I → Bytes) (w : NbWriter I) : Bytes := put w.inner ++ w.buf.drop w.pos

/-- What an operation of a writer does: it does not touch `frame`; and if it succeeds and `c` holds, it adds `b` to what was accepted. -/
structure NbWriter.Does (put : I → Bytes) (frame : I → β) {α : Type} (w : NbWriter I) (x : Except IoError α) (w' : NbWriter I) (c : Prop) (b : Bytes) : Prop where
  frame : frame w'.inner = frame w.inner
  grow : w'.grow = w.grow
  cap : (∀ c n, c ≤ w.grow c n) → w.cap ≤ w'.cap
  pos : w.pos ≤ w.buf.length → w'.pos ≤ w'.buf.length
  all : w.pos ≤ w.buf.length → c → ∀ a, x = .ok a → w'.all put = w.all put ++ b

theorem Logs.nb_flushBuf (hl : Logs put frame) {f : Nat} {w w' : NbWriter I} {x : Except IoError Unit} (h : w.flushBuf f = some (x, w')) :
    w.Does put frame x w' True [] ∧ w'.cap = w.cap := by
  simp only [NbWriter.flushBuf, Option.map_eq_some_iff] at h
  obtain ⟨⟨y, t⟩, h1, h2⟩ := h
  obtain ⟨i1, i2⟩ := hl.wub f _ _ _ _ _ _ h1
  cases y with
  | error e => cases h2; exact ⟨⟨i1, rfl, fun _ => Nat.le_refl _, id, fun _ _ a ha => by cases ha⟩, rfl⟩
  | ok m =>
    obtain ⟨n, rfl, j2, j3⟩ := i2 m rfl
    simp only [Nat.zero_add] at h2
    simp only [List.length_drop] at j2
    split at h2
    · next hge =>
      cases h2
      refine ⟨⟨i1, rfl, fun _ => Nat.le_refl _, fun _ => Nat.le_refl _, fun hp _ a _ => ?_⟩, rfl⟩
      simp only [NbWriter.all, j3, List.drop_nil, List.append_nil]
      rw [List.take_of_length_le (by simp; omega)]
    · next hlt =>
      cases h2
      refine ⟨⟨i1, rfl, fun _ => Nat.le_refl _, fun hp => by dsimp only; omega, fun hp _ a _ => ?_⟩, rfl⟩
      simp only [NbWriter.all, j3, List.append_nil, List.append_assoc]
      rw [← List.drop_drop, List.take_append_drop]

theorem nb_push_does (w : NbWriter I) (b : Bytes) {α : Type} (x : Except IoError α) (c : Prop) : w.Does put frame x (w.push b) c b := by
  refine ⟨rfl, rfl, fun hg => ?_, fun hp => ?_, fun hp _ _ _ => ?_⟩
  · simp only [NbWriter.push]
    split
    · exact Nat.le_refl _
    · exact hg _ _
  · simp only [NbWriter.push, List.length_append]; omega
  · simp only [NbWriter.push, NbWriter.all]
    rw [List.drop_append_of_le_length hp, List.append_assoc]

theorem Logs.nb_flush (hl : Logs put frame) {f : Nat} {w w' : NbWriter I} {x : Except IoError Unit} (h : w.flush f = some (x, w')) :
    w.Does put frame x w' True [] := by
  unfold NbWriter.flush at h
  split at h
  · cases h
  · next e w1 h1 => cases h; exact (hl.nb_flushBuf h1).1
  · next w1 h1 =>
    obtain ⟨i, -⟩ := hl.nb_flushBuf h1
    simp only [NbWriter.flushInner, Option.map_eq_some_iff] at h
    obtain ⟨⟨y, t⟩, h2, h3⟩ := h
    obtain ⟨j1, j2⟩ := hl.flush h2
    have hw : w' = { w1 with inner := t } := by
      split at h3
      · next e => cases e; cases h3; rfl
      · next e => cases e; cases h3; rfl
    subst hw
    refine ⟨j2.trans i.frame, i.grow, i.cap, i.pos, fun hp _ a _ => ?_⟩
    have := i.all hp trivial () rfl
    simp only [NbWriter.all, j1] at this ⊢
    exact this

theorem Logs.nb_write (hl : Logs put frame) {f : Nat} {w w' : NbWriter I} {data : Bytes} {x : Except IoError Nat}
    (h : w.write f data = some (x, w')) : w.Does put frame x w' (data.length ≤ w.cap) data ∧ ∀ n, x = .ok n → n = data.length := by
  unfold NbWriter.write at h
  split at h
  · split at h
    · cases h
    · next e w1 h1 =>
      cases h
      obtain ⟨i, -⟩ := hl.nb_flushBuf h1
      exact ⟨⟨i.frame, i.grow, i.cap, i.pos, fun _ _ a ha => by cases ha⟩, fun n hn => by cases hn⟩
    · next w1 h1 =>
      obtain ⟨i, ic⟩ := hl.nb_flushBuf h1
      split at h
      · next hc =>
        simp only [Option.map_eq_some_iff] at h
        obtain ⟨⟨y, t⟩, h2, h3⟩ := h
        obtain ⟨j1, j2⟩ := hl.wub f _ _ _ _ _ _ h2
        cases y with
        | error e =>
          cases h3
          exact ⟨⟨j1.trans i.frame, i.grow, i.cap, i.pos, fun _ _ a ha => by cases ha⟩, fun n hn => by cases hn⟩
        | ok m =>
          cases h3
          have d := nb_push_does (put := put) (frame := frame) { w1 with inner := t } (data.drop m) (.ok data.length : Except IoError Nat) True
          exact ⟨⟨(d.frame.trans j1).trans i.frame, d.grow.trans i.grow, fun hg => Nat.le_trans (i.cap hg) (d.cap (by simpa [i.grow] using hg)),
            fun hp => d.pos (i.pos hp), fun _ hd => absurd hc.2 (by omega)⟩, fun n hn => by cases hn; rfl⟩
      · cases h
        have d := nb_push_does (put := put) (frame := frame) w1 data (.ok data.length : Except IoError Nat) True
        exact ⟨⟨d.frame.trans i.frame, d.grow.trans i.grow, fun hg => Nat.le_trans (i.cap hg) (d.cap (by simpa [i.grow] using hg)),
          fun hp => d.pos (i.pos hp), fun hp _ a ha => by rw [d.all (i.pos hp) trivial a ha, i.all hp trivial () rfl]; simp⟩, fun n hn => by cases hn; rfl⟩
  · cases h
    exact ⟨nb_push_does _ _ _ _, fun n hn => by cases hn; rfl⟩

/-! The same for `BufWriter`. -/

/-- What a `BufWriter` has accepted: what went on and what it holds. -/
def StdWriter.all (put : I → Bytes) (w : StdWriter I) : Bytes := put w.inner ++ w.buf

/-- What an operation of a writer does: it does not touch `frame`, and in any case what was accepted before is neither lost nor repeated; if it
succeeds it adds `b a`. -/
structure StdWriter.Does (put : I → Bytes) (frame : I → β) {α : Type} (w : StdWriter I) (x : Except IoError α) (w' : StdWriter I) (b : α → Bytes) : Prop where
  frame : frame w'.inner = frame w.inner
  ok : ∀ a, x = .ok a → w'.all put = w.all put ++ b a
  err : ∀ e, x = .error e → w'.all put = w.all put

theorem Logs.std_flushBuf (hl : Logs put frame) (f : Nat) : ∀ (r : Nat) (w w' : StdWriter I) (x : Except IoError Unit), w.flushBuf f r = some (x, w') →
    w.Does put frame x w' fun _ => [] := by
  intro r
  induction r with
  | zero =>
    intro w w' x h
    simp only [StdWriter.flushBuf] at h
    split at h
    · cases h; exact ⟨rfl, fun _ _ => by simp, fun _ _ => rfl⟩
    · cases h
  | succ r ih =>
    intro w w' x h
    simp only [StdWriter.flushBuf] at h
    split at h
    · cases h; exact ⟨rfl, fun _ _ => by simp, fun _ _ => rfl⟩
    · split at h
      · cases h
      · next n t hw =>
        obtain ⟨h1, h2, h3⟩ := hl.write_ok hw
        split at h
        · next hn =>
          cases h
          subst hn
          exact ⟨h3, fun a ha => (by cases ha), fun _ _ => by simp [StdWriter.all, h2]⟩
        · have i := ih _ _ _ h
          have e : StdWriter.all put { w with inner := t, buf := w.buf.drop n } = w.all put := by
            simp only [StdWriter.all, h2, List.append_assoc, List.take_append_drop]
          exact ⟨i.frame.trans h3, fun a ha => by rw [i.ok a ha, e], fun a ha => by rw [i.err a ha, e]⟩
      · next e t hw =>
        obtain ⟨h2, h3⟩ := hl.write_err hw
        have e : StdWriter.all put { w with inner := t } = w.all put := by simp only [StdWriter.all, h2]
        split at h
        · have i := ih _ _ _ h
          exact ⟨i.frame.trans h3, fun a ha => by rw [i.ok a ha, e], fun a ha => by rw [i.err a ha, e]⟩
        · cases h
          exact ⟨h3, fun a ha => (by cases ha), fun _ _ => e⟩


theorem std_flushBuf_nil (f : Nat) : ∀ (r : Nat) (w w' : StdWriter I), w.flushBuf f r = some (.ok (), w') → w'.buf = [] := by
  intro r
  induction r with
  | zero =>
    intro w w' h
    simp only [StdWriter.flushBuf] at h
    split at h
    · next hb => cases h; exact hb
    · cases h
  | succ r ih =>
    intro w w' h
    simp only [StdWriter.flushBuf] at h
    split at h
    · next hb => cases h; exact hb
    · split at h
      · cases h
      · split at h
        · cases h
        · exact ih _ _ h
      · split at h
        · exact ih _ _ h
        · cases h

theorem Logs.std_flush (hl : Logs put frame) {f : Nat} {w w' : StdWriter I} {x : Except IoError Unit} (h : w.flush f = some (x, w')) :
    w.Does put frame x w' fun _ => [] := by
  unfold StdWriter.flush at h
  split at h
  · cases h
  · next e w1 h1 => cases h; exact hl.std_flushBuf f _ _ _ _ h1
  · next w1 h1 =>
    have i := hl.std_flushBuf f _ _ _ _ h1
    simp only [Option.map_eq_some_iff] at h
    obtain ⟨⟨y, t⟩, h2, h3⟩ := h
    obtain ⟨j1, j2⟩ := hl.flush h2
    cases h3
    have e : StdWriter.all put { w1 with inner := t } = w.all put := by
      have := i.ok () rfl
      simp only [StdWriter.all, j1, List.append_nil] at this ⊢
      exact this
    exact ⟨j2.trans i.frame, fun _ _ => by rw [e]; simp, fun _ _ => e⟩

theorem Logs.std_write (hl : Logs put frame) {f : Nat} {w w' : StdWriter I} {data : Bytes} {x : Except IoError Nat}
    (h : w.write f data = some (x, w')) : w.Does put frame x w' fun n => data.take n := by
  unfold StdWriter.write at h
  split at h
  · cases h
    exact ⟨rfl, fun a ha => by cases ha; simp [StdWriter.all], fun e he => by cases he⟩
  · split at h
    · cases h
    · next e w1 h1 =>
      cases h
      split at h1
      · have i := hl.std_flushBuf f _ _ _ _ h1
        exact ⟨i.frame, fun a ha => (by cases ha), fun a ha => i.err e rfl⟩
      · cases h1
    · next w1 h1 =>
      have key : frame w1.inner = frame w.inner ∧ w1.all put = w.all put ∧ (w1.cap ≤ data.length → w1.buf = []) := by
        split at h1
        · have i := hl.std_flushBuf f _ _ _ _ h1
          refine ⟨i.frame, by rw [i.ok () rfl, List.append_nil], fun _ => ?_⟩
          exact std_flushBuf_nil f _ _ _ h1
        · cases h1
          exact ⟨rfl, rfl, fun h => List.eq_nil_of_length_eq_zero (by omega)⟩
      obtain ⟨k1, k2, k3⟩ := key
      split at h
      · next hc =>
        simp only [Option.map_eq_some_iff] at h
        obtain ⟨⟨y, t⟩, h2, h3⟩ := h
        cases h3
        dsimp only
        cases y with
        | error e =>
          obtain ⟨j1, j2⟩ := hl.write_err h2
          exact ⟨j2.trans k1, fun a ha => (by cases ha), fun _ _ => by rw [← k2]; simp [StdWriter.all, j1]⟩
        | ok n =>
          obtain ⟨j0, j1, j2⟩ := hl.write_ok h2
          have := k3 hc
          refine ⟨j2.trans k1, fun a ha => ?_, fun e he => by cases he⟩
          cases ha
          rw [← k2]
          simp [StdWriter.all, j1, this]
      · cases h
        exact ⟨k1, fun a ha => by cases ha; rw [← k2]; simp [StdWriter.all], fun e he => by cases he⟩

end Verif
