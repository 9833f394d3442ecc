import Verif.Std.Utf8

/-!
When byte strings are valid UTF-8: concatenation, single characters, and what `String::pop` leaves.
-/

namespace Verif

theorem utf8_append {a : Bytes} (h : utf8Valid a = true) (b : Bytes) :
    utf8Valid (a ++ b) = utf8Valid b := by
  simp only [utf8Valid, beq_iff_eq] at h ⊢
  rw [List.foldl_append, h]

theorem foldl_bad (b : Bytes) : b.foldl U8.step .bad = .bad := by
  induction b with
  | nil => rfl
  | cons c t ih => simpa [U8.step] using ih

theorem isCont_ascii {c : UInt8} (h : c < 128) : isCont c = false := by
  have : ¬ (0x80 : UInt8) ≤ c := by
    rw [UInt8.le_iff_toNat_le]; rw [UInt8.lt_iff_toNat_lt] at h
    simp at h ⊢; omega
  simp [isCont, this]

theorem step_ascii {c : UInt8} (h : c < 128) (s : U8) :
    U8.step s c = if s = .start then .start else .bad := by
  have hc := isCont_ascii h
  rw [UInt8.lt_iff_toNat_lt] at h
  have h' : ∀ x : UInt8, 128 ≤ x.toNat → ¬ x ≤ c := by
    intro x hx; rw [UInt8.le_iff_toNat_le]; simp at h; omega
  cases s
  case start => simp [U8.step]; intro h2; rw [UInt8.le_iff_toNat_le] at h2; simp at h h2; omega
  all_goals simp [U8.step, hc]
  all_goals intro h2; exact absurd h2 (h' _ (by decide))

theorem utf8_ascii {b : Bytes} (h : ∀ c ∈ b, c < 128) : utf8Valid b = true := by
  induction b with
  | nil => rfl
  | cons c t ih =>
    have : utf8Valid [c] = true := by simp [utf8Valid, step_ascii (h c (by simp))]
    rw [show c :: t = [c] ++ t from rfl, utf8_append this]
    exact ih fun x hx => h x (List.mem_cons_of_mem _ hx)

/-- An ASCII byte is a character of its own. -/
theorem utf8_snoc_ascii {c : UInt8} (hc : c < 128) (a : Bytes) :
    utf8Valid (a ++ [c]) = utf8Valid a := by
  simp only [utf8Valid, List.foldl_append, List.foldl_cons, List.foldl_nil, step_ascii hc]
  generalize a.foldl U8.step .start = s
  cases s <;> rfl

theorem utf8_mid_ascii {c : UInt8} (hc : c < 128) (a b : Bytes) :
    utf8Valid (a ++ c :: b) = (utf8Valid a && utf8Valid b) := by
  by_cases h : utf8Valid a = true
  · rw [utf8_append h, h]
    have : utf8Valid [c] = true := utf8_ascii (by simpa using hc)
    rw [show c :: b = [c] ++ b from rfl, utf8_append this]
    simp
  · have h' : utf8Valid a = false := by simpa using h
    rw [h', Bool.false_and]
    simp only [utf8Valid, List.foldl_append, List.foldl_cons, step_ascii hc]
    have : a.foldl U8.step .start ≠ .start := by
      simpa [utf8Valid] using h
    simp [this, foldl_bad]

theorem popChar_snoc_ascii {c : UInt8} (hc : c < 128) (a : Bytes) :
    popChar (a ++ [c]) = some (a, [c]) := by
  simp [popChar, isCont_ascii hc]

theorem popChar_append {s a b : Bytes} (h : popChar s = some (a, b)) : s = a ++ b := by
  unfold popChar at h
  split at h
  · simp at h
  · simp only [Option.some.injEq, Prod.mk.injEq] at h
    rw [← h.1, ← h.2, List.take_append_drop]

theorem popChar_none {s : Bytes} (h : popChar s = none) : s = [] := by
  unfold popChar at h
  split at h
  · assumption
  · simp at h

/-- A byte that does not continue a character is at the beginning of one. -/
theorem utf8_left {c : UInt8} (hc : isCont c = false) {a z : Bytes} (h : utf8Valid (a ++ c :: z) = true) : utf8Valid a = true := by
  simp only [utf8Valid, List.foldl_append, List.foldl_cons, beq_iff_eq] at h ⊢
  have hstep : ∀ s : U8, s ≠ .start → U8.step s c = .bad := by
    intro s hs
    have h80 : ∀ x y : UInt8, 0x80 ≤ x → y ≤ 0xBF → (x ≤ c && c ≤ y) = false := by
      intro x y hx hy
      refine Bool.eq_false_iff.2 fun h' => ?_
      simp only [isCont, Bool.and_eq_false_iff, decide_eq_false_iff_not] at hc
      simp only [Bool.and_eq_true, decide_eq_true_eq] at h'
      rcases hc with hc | hc
      · exact hc (UInt8.le_trans hx h'.1)
      · exact hc (UInt8.le_trans h'.2 hy)
    cases s
    case start => exact absurd rfl hs
    case bad => rfl
    all_goals simp only [U8.step, hc, h80 _ _ (by decide : (0x80 : UInt8) ≤ 0xA0) (by decide : (0xBF : UInt8) ≤ 0xBF), h80 _ _ (by decide : (0x80 : UInt8) ≤ 0x80) (by decide : (0x9F : UInt8) ≤ 0xBF),
      h80 _ _ (by decide : (0x80 : UInt8) ≤ 0x90) (by decide : (0xBF : UInt8) ≤ 0xBF), h80 _ _ (by decide : (0x80 : UInt8) ≤ 0x80) (by decide : (0x8F : UInt8) ≤ 0xBF)]
    all_goals rfl
  refine Classical.byContradiction fun hne => ?_
  rw [hstep _ hne, foldl_bad] at h
  cases h

end Verif
