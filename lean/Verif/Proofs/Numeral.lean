import Verif.Spec.Numeral
import Verif.Std.Str

/-!
Integer parsing and printing against the declarative numerals.
-/

namespace Verif

theorem digitVal_iff {radix : Nat} (hr : radix ≤ 36) {c : UInt8} {d : Nat} :
    digitVal radix c = some d ↔ IsDigit radix c d := by
  unfold digitVal IsDigit
  have hle : ∀ x y : UInt8, (x ≤ y) = (x.toNat ≤ y.toNat) := fun x y => by
    rw [UInt8.le_iff_toNat_le]
  simp only [hle, Bool.and_eq_true, decide_eq_true_eq]
  have e1 : (48 : UInt8).toNat = 48 := rfl
  have e2 : (57 : UInt8).toNat = 57 := rfl
  have e3 : (97 : UInt8).toNat = 97 := rfl
  have e4 : (122 : UInt8).toNat = 122 := rfl
  have e5 : (65 : UInt8).toNat = 65 := rfl
  have e6 : (90 : UInt8).toNat = 90 := rfl
  rw [e1, e2, e3, e4, e5, e6]
  split
  · split <;> simp <;> omega
  · split
    · split <;> simp <;> omega
    · split
      · split <;> simp <;> omega
      · simp; omega

theorem digitsVal_append (radix : Nat) (s t : Bytes) (acc : Nat) :
    digitsVal radix (s ++ t) acc = (digitsVal radix s acc).bind fun a => digitsVal radix t a := by
  induction s generalizing acc with
  | nil => rfl
  | cons c s ih =>
    simp only [List.cons_append, digitsVal]
    cases digitVal radix c with
    | none => rfl
    | some d => exact ih _

theorem numeral_ne_nil {radix : Nat} {s : Bytes} {n : Nat} (h : Numeral radix s n) : s ≠ [] := by
  cases h <;> simp

theorem digitsVal_iff {radix : Nat} (hr : radix ≤ 36) {s : Bytes} (hs : s ≠ []) {n : Nat} :
    digitsVal radix s 0 = some n ↔ Numeral radix s n := by
  constructor
  · intro h
    obtain ⟨k, hk⟩ : ∃ k, s.length = k := ⟨_, rfl⟩
    induction k generalizing s n with
    | zero => exact absurd (List.length_eq_zero_iff.1 hk) hs
    | succ k ih =>
      obtain ⟨t, c, rfl⟩ : ∃ t c, s = t ++ [c] :=
        ⟨s.dropLast, s.getLast hs, (List.dropLast_concat_getLast hs).symm⟩
      rw [digitsVal_append] at h
      cases ht : digitsVal radix t 0 with
      | none => simp [ht] at h
      | some a =>
        simp only [ht, Option.bind_some, digitsVal] at h
        cases hc : digitVal radix c with
        | none => simp [hc] at h
        | some d =>
          simp only [hc, Option.some.injEq] at h
          subst h
          have hd := (digitVal_iff hr).1 hc
          cases t with
          | nil =>
            simp only [digitsVal, Option.some.injEq] at ht
            subst ht
            simpa using Numeral.digit hd
          | cons x t => exact .snoc (ih (by simp) ht (by simp at hk ⊢; omega)) hd
  · intro h
    induction h with
    | digit hd => simp [digitsVal, (digitVal_iff hr).2 hd]
    | snoc hn hd ih => simp [digitsVal_append, ih (numeral_ne_nil hn), digitsVal, (digitVal_iff hr).2 hd]

theorem numeral_no_plus {radix : Nat} {t : Bytes} {n : Nat} (hr : radix ≤ 36) : ¬ Numeral radix (43 :: t) n := by
  intro h
  rw [← digitsVal_iff hr (by simp)] at h
  have : digitVal radix 43 = none := by
    simp [digitVal]
  simp [digitsVal, this] at h

/-- Integer parsing accepts exactly the numerals that fit. -/
theorem parseUnsigned_iff {radix : Nat} (hr : radix ≤ 36) {bound : Nat} {s : Bytes} {n : Nat} :
    parseUnsigned radix bound s = some n ↔ UnsignedText radix s n ∧ n < bound := by
  have key : ∀ t : Bytes, (if t = [] then none else match digitsVal radix t 0 with
      | none => none
      | some v => if v < bound then some v else none) = some n ↔ Numeral radix t n ∧ n < bound := by
    intro t
    by_cases ht : t = []
    · simp only [ht, if_true]
      constructor
      · intro h; cases h
      · rintro ⟨h, -⟩; exact absurd rfl (numeral_ne_nil h)
    · simp only [ht, if_false]
      rw [← digitsVal_iff hr ht]
      cases digitsVal radix t 0 with
      | none => simp
      | some v =>
        simp only [Option.some.injEq]
        split
        · simp only [Option.some.injEq]
          constructor
          · rintro rfl; exact ⟨rfl, by assumption⟩
          · exact fun h => h.1
        · constructor
          · intro h; cases h
          · rintro ⟨rfl, h⟩; contradiction
  unfold parseUnsigned UnsignedText
  simp only
  split
  · rename_i t
    refine (key t).trans ?_
    constructor
    · rintro ⟨h, hb⟩; exact ⟨.inr ⟨t, rfl, h⟩, hb⟩
    · rintro ⟨h | ⟨t', ht, h⟩, hb⟩
      · exact absurd h (numeral_no_plus hr)
      · cases ht; exact ⟨h, hb⟩
  · rename_i h43
    refine (key s).trans ?_
    constructor
    · rintro ⟨h, hb⟩; exact ⟨.inl h, hb⟩
    · rintro ⟨h | ⟨t', ht, h⟩, hb⟩
      · exact ⟨h, hb⟩
      · exact absurd ht (by intro h; exact h43 t' h)

theorem isDigit_unique {radix : Nat} (hr : radix ≤ 36) {c : UInt8} {d d' : Nat} (h : IsDigit radix c d)
    (h' : IsDigit radix c d') : d = d' := by
  rw [← digitVal_iff hr] at h h'
  exact Option.some.inj (h.symm.trans h')

theorem unsignedText_unique {radix : Nat} (hr : radix ≤ 36) {s : Bytes} {n n' : Nat}
    (h : UnsignedText radix s n) (h' : UnsignedText radix s n') : n = n' := by
  have e1 := (parseUnsigned_iff hr (bound := n + n' + 1)).2 ⟨h, by omega⟩
  have e2 := (parseUnsigned_iff hr (bound := n + n' + 1)).2 ⟨h', by omega⟩
  exact Option.some.inj (e1.symm.trans e2)

/-! ### Printing -/

theorem isDigit_dec {d : Nat} (h : d < 10) : IsDigit 10 (UInt8.ofNat (48 + d)) d := by
  refine ⟨h, .inl ⟨h, ?_⟩⟩
  simp only [UInt8.toNat_ofNat']
  omega

theorem decAux_spec (f n : Nat) (acc : Bytes) (hf : n < f) :
    ∃ s, decAux f n acc = s ++ acc ∧ Numeral 10 s n := by
  induction f generalizing n acc with
  | zero => omega
  | succ f ih =>
    simp only [decAux]
    split
    · rename_i h0
      refine ⟨[UInt8.ofNat (48 + n % 10)], rfl, ?_⟩
      have h1 : n % 10 = n := by omega
      rw [h1]
      exact .digit (isDigit_dec (by omega))
    · obtain ⟨s, h1, h2⟩ := ih (n / 10) (UInt8.ofNat (48 + n % 10) :: acc) (by omega)
      refine ⟨s ++ [UInt8.ofNat (48 + n % 10)], by rw [h1]; simp, ?_⟩
      have h3 := Numeral.snoc h2 (isDigit_dec (d := n % 10) (by omega))
      have h4 : n / 10 * 10 + n % 10 = n := by omega
      rwa [h4] at h3

/-- Printing a number gives a decimal numeral of that value. -/
theorem natDec_numeral (n : Nat) : Numeral 10 (natDec n) n := by
  obtain ⟨s, h1, h2⟩ := decAux_spec (n + 1) n [] (by omega)
  rw [natDec, h1]
  simpa using h2

theorem numeral_digits {s : Bytes} {n : Nat} (h : Numeral 10 s n) : ∀ c ∈ s, 48 ≤ c.toNat ∧ c.toNat ≤ 57 := by
  induction h with
  | digit hd => intro c hc; simp at hc; subst hc; unfold IsDigit at hd; omega
  | snoc _ hd ih =>
    intro c hc
    simp only [List.mem_append, List.mem_singleton] at hc
    rcases hc with hc | rfl
    · exact ih c hc
    · unfold IsDigit at hd; omega

theorem parse_natDec {bound n : Nat} (h : n < bound) : parseUnsigned 10 bound (natDec n) = some n :=
  (parseUnsigned_iff (by omega)).2 ⟨.inl (natDec_numeral n), h⟩

theorem natDec_length (n k : Nat) (h : n < 10 ^ (k + 1)) : (natDec n).length ≤ k + 1 := by
  have key : ∀ (k f n : Nat) (acc : Bytes), n < f → n < 10 ^ (k + 1) →
      (decAux f n acc).length ≤ k + 1 + acc.length := by
    intro k
    induction k with
    | zero =>
      intro f n acc hf hn
      cases f with
      | zero => omega
      | succ f =>
        simp only [decAux]
        have : n / 10 = 0 := by simp at hn; omega
        simp [this]; omega
    | succ k ih =>
      intro f n acc hf hn
      cases f with
      | zero => omega
      | succ f =>
        simp only [decAux]
        split
        · simp; omega
        · have := ih f (n / 10) (UInt8.ofNat (48 + n % 10) :: acc) (by omega)
            (by rw [Nat.pow_succ] at hn; omega)
          simp only [List.length_cons] at this; omega
  have := key k (n + 1) n [] (by omega) h
  simpa [natDec] using this

end Verif
