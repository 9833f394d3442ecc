import Verif.Spec.Text
import Verif.Std.Str
import Verif.Model.Header

/-!
The string functions and the header map against the declarative notions.
-/

namespace Verif

theorem lowerByte_toNat (a : UInt8) :
    (lowerByte a).toNat = if 65 ≤ a.toNat ∧ a.toNat ≤ 90 then a.toNat + 32 else a.toNat := by
  unfold lowerByte
  have hle : ∀ x y : UInt8, (x ≤ y) = (x.toNat ≤ y.toNat) := fun x y => by
    rw [UInt8.le_iff_toNat_le]
  simp only [hle, Bool.and_eq_true, decide_eq_true_eq]
  rw [show (65 : UInt8).toNat = 65 from rfl, show (90 : UInt8).toNat = 90 from rfl]
  split
  · rw [UInt8.toNat_add]
    simp only [show (32 : UInt8).toNat = 32 from rfl]
    omega
  · rfl

theorem lowerByte_eq_iff {a b : UInt8} : lowerByte a = lowerByte b ↔ SameLetter a b := by
  unfold SameLetter
  rw [← UInt8.toNat_inj, ← UInt8.toNat_inj, lowerByte_toNat, lowerByte_toNat]
  split <;> split <;> omega

theorem lower_eq_iff {s t : Bytes} : lower s = lower t ↔ SameText s t := by
  induction s generalizing t with
  | nil =>
    cases t with
    | nil => simp [lower, SameText.nil]
    | cons b t => simp only [lower, List.map_nil, List.map_cons]; constructor <;> (intro h; cases h)
  | cons a s ih =>
    cases t with
    | nil => simp only [lower, List.map_nil, List.map_cons]; constructor <;> (intro h; cases h)
    | cons b t =>
      have ih' := ih (t := t)
      simp only [lower] at ih'
      simp only [lower, List.map_cons, List.cons.injEq, lowerByte_eq_iff, ih']
      constructor
      · rintro ⟨h1, h2⟩; exact .cons h1 h2
      · intro h; cases h; exact ⟨by assumption, by assumption⟩

theorem lower_noUpper (s : Bytes) : NoUpper (lower s) := by
  intro c hc
  simp only [lower, List.mem_map] at hc
  obtain ⟨x, -, rfl⟩ := hc
  rw [lowerByte_toNat]
  split <;> omega

theorem lower_of_noUpper {s : Bytes} (h : NoUpper s) : lower s = s := by
  induction s with
  | nil => rfl
  | cons a s ih =>
    simp only [lower, List.map_cons, List.cons.injEq]
    constructor
    · rw [← UInt8.toNat_inj, lowerByte_toNat]
      have := h a (by simp)
      split
      · contradiction
      · rfl
    · exact ih fun c hc => h c (List.mem_cons_of_mem _ hc)

theorem noUpper_of_lower {s : Bytes} (h : lower s = s) : NoUpper s := h ▸ lower_noUpper s

theorem SameText.refl (s : Bytes) : SameText s s := lower_eq_iff.1 rfl

theorem lower_same (s : Bytes) : SameText s (lower s) :=
  lower_eq_iff.1 (lower_of_noUpper (lower_noUpper s)).symm

/-! ### Splitting -/

theorem splitByte_ne_nil (d : UInt8) (s : Bytes) : splitByte d s ≠ [] := by
  induction s with
  | nil => simp [splitByte]
  | cons c t ih =>
    simp only [splitByte]
    cases h : splitByte d t with
    | nil => exact absurd h ih
    | cons w ws => simp only; split <;> simp

theorem splitByte_last {d : UInt8} {w : Bytes} (h : d ∉ w) : splitByte d w = [w] := by
  induction w with
  | nil => rfl
  | cons c t ih =>
    simp only [List.mem_cons, not_or] at h
    simp [splitByte, ih h.2, Ne.symm h.1]

theorem splitByte_more {d : UInt8} {w : Bytes} (h : d ∉ w) (t : Bytes) :
    splitByte d (w ++ d :: t) = w :: splitByte d t := by
  induction w with
  | nil =>
    simp only [List.nil_append, splitByte]
    cases hs : splitByte d t with
    | nil => exact absurd hs (splitByte_ne_nil d t)
    | cons x xs => simp
  | cons c w ih =>
    simp only [List.mem_cons, not_or] at h
    simp only [List.cons_append, splitByte, ih h.2]
    simp [Ne.symm h.1]

theorem split_first {d : UInt8} {l : Bytes} (h : d ∈ l) : ∃ w t, l = w ++ d :: t ∧ d ∉ w := by
  induction l with
  | nil => simp at h
  | cons c l ih =>
    by_cases hc : c = d
    · exact ⟨[], l, by simp [hc], by simp⟩
    · have : d ∈ l := by
        simp only [List.mem_cons] at h
        rcases h with h | h
        · exact absurd h.symm hc
        · exact h
      obtain ⟨w, t, h1, h2⟩ := ih this
      exact ⟨c :: w, t, by simp [h1], by simp [Ne.symm hc, h2]⟩

theorem splitByte_fields (line : Bytes) : Fields line (splitByte SP line) := by
  obtain ⟨k, hk⟩ : ∃ k, line.length ≤ k := ⟨_, Nat.le_refl _⟩
  induction k generalizing line with
  | zero =>
    have : line = [] := List.length_eq_zero_iff.1 (by omega)
    subst this
    exact .last (by simp)
  | succ k ih =>
    by_cases h : SP ∈ line
    · obtain ⟨w, t, rfl, hw⟩ := split_first h
      rw [splitByte_more hw]
      exact .more hw (ih t (by simp at hk; omega))
    · rw [splitByte_last h]
      exact .last h

theorem Fields.splitByte_eq {line : Bytes} {fs : List Bytes} (h : Fields line fs) :
    splitByte SP line = fs := by
  induction h with
  | last h => exact splitByte_last h
  | more h _ ih => rw [splitByte_more h, ih]

theorem fields_iff {line : Bytes} {fs : List Bytes} : Fields line fs ↔ splitByte SP line = fs :=
  ⟨Fields.splitByte_eq, fun h => h ▸ splitByte_fields line⟩

theorem splitOnce_some {pat s a b : Bytes} (h : splitOnce pat s = some (a, b)) :
    s = a ++ pat ++ b := by
  induction s generalizing a with
  | nil =>
    simp only [splitOnce] at h
    split at h
    · rename_i hp
      have : pat = [] := by simpa using hp
      simp at h; simp [h, this]
    · cases h
  | cons c t ih =>
    simp only [splitOnce] at h
    split at h
    · rename_i hp
      rw [List.isPrefixOf_iff_prefix] at hp
      obtain ⟨u, hu⟩ := hp
      simp only [Option.some.injEq, Prod.mk.injEq] at h
      rw [← h.1, ← h.2, ← hu]
      simp
    · cases hs : splitOnce pat t with
      | none => simp [hs] at h
      | some ab =>
        obtain ⟨a', b'⟩ := ab
        simp only [hs, Option.map_some, Option.some.injEq, Prod.mk.injEq] at h
        obtain ⟨rfl, rfl⟩ := h
        rw [ih hs]
        simp

theorem splitOnce_none {pat s : Bytes} (h : splitOnce pat s = none) : ¬ Occurs pat s := by
  induction s with
  | nil =>
    rintro ⟨a, b, hab⟩
    have : pat = [] := by
      have := congrArg List.length hab
      simp only [List.length_append, List.length_nil] at this
      exact List.length_eq_zero_iff.1 (by omega)
    subst this
    simp [splitOnce] at h
  | cons c t ih =>
    simp only [splitOnce] at h
    split at h
    · cases h
    · rename_i hp
      rintro ⟨a, b, hab⟩
      cases a with
      | nil =>
        apply hp
        rw [List.isPrefixOf_iff_prefix]
        exact ⟨b, by simpa using hab.symm⟩
      | cons x a =>
        simp only [List.cons_append, List.cons.injEq] at hab
        cases hs : splitOnce pat t with
        | none => exact ih hs ⟨a, b, hab.2⟩
        | some ab => simp [hs] at h

theorem occurs_iff {pat s : Bytes} : containsStr s pat = true ↔ Occurs pat s := by
  unfold containsStr
  cases h : splitOnce pat s with
  | none => simpa using splitOnce_none h
  | some ab => simp only [Option.isSome_some, true_iff]; exact ⟨ab.1, ab.2, splitOnce_some h⟩

/-! ### Header map -/

namespace HeaderMap

theorem get_addHeader (m : HeaderMap) (k : Header) (v : Bytes) (k' : Header) :
    (m.addHeader k v).get k' = if k' = k then some ((m.get k).getD [] ++ [v]) else m.get k' := by
  induction m with
  | nil =>
    simp only [addHeader, get]
    by_cases h : k' = k
    · simp [h]
    · simp [h, Ne.symm h]
  | cons e m ih =>
    obtain ⟨k₀, vs⟩ := e
    simp only [addHeader]
    by_cases h0 : k₀ = k
    · simp only [h0, if_true, get]
      by_cases h : k' = k
      · simp [h]
      · simp [h, Ne.symm h]
    · simp only [h0, if_false, get]
      by_cases h : k' = k
      · subst h; simp [h0, ih]
      · simp [ih, h]

/-- The values given to `k` in a list of additions. -/
def valuesOf (ps : List (Header × Bytes)) (k : Header) : List Bytes :=
  (ps.filter fun p => p.1 = k).map Prod.snd

theorem valuesOf_snoc (ps : List (Header × Bytes)) (k : Header) (v : Bytes) (k' : Header) :
    valuesOf (ps ++ [(k, v)]) k' = valuesOf ps k' ++ if k = k' then [v] else [] := by
  simp only [valuesOf, List.filter_append, List.map_append]
  by_cases h : k = k' <;> simp [h]

theorem fromPairs_snoc (ps : List (Header × Bytes)) (k : Header) (v : Bytes) :
    fromPairs (ps ++ [(k, v)]) = (fromPairs ps).addHeader k v := by
  simp [fromPairs]

theorem get_fromPairs (ps : List (Header × Bytes)) (k : Header) :
    (fromPairs ps).get k = if valuesOf ps k = [] then none else some (valuesOf ps k) := by
  obtain ⟨n, hn⟩ : ∃ n, ps.length = n := ⟨_, rfl⟩
  induction n generalizing ps k with
  | zero =>
    have := List.length_eq_zero_iff.1 hn
    subst this
    rfl
  | succ n ih =>
    have hne : ps ≠ [] := by intro h; simp [h] at hn
    obtain ⟨qs, p, rfl⟩ : ∃ qs p, ps = qs ++ [p] :=
      ⟨ps.dropLast, ps.getLast hne, (List.dropLast_concat_getLast hne).symm⟩
    obtain ⟨k₀, v⟩ := p
    have hl : qs.length = n := by simpa using hn
    rw [fromPairs_snoc, get_addHeader, valuesOf_snoc]
    by_cases h : k = k₀
    · subst h
      rw [ih qs k hl]
      by_cases hv : valuesOf qs k = [] <;> simp [hv]
    · rw [ih qs k hl]
      simp [h, Ne.symm h]

theorem wf_addHeader {m : HeaderMap} (h : m.WF) (k : Header) (v : Bytes) : (m.addHeader k v).WF := by
  have key : ∀ m : HeaderMap, (m.addHeader k v).map Prod.fst =
      if k ∈ m.map Prod.fst then m.map Prod.fst else m.map Prod.fst ++ [k] := by
    intro m
    induction m with
    | nil => simp [addHeader]
    | cons e m ih =>
      obtain ⟨k₀, vs⟩ := e
      simp only [addHeader]
      by_cases h0 : k₀ = k
      · simp [h0]
      · simp only [h0, if_false, List.map_cons, ih]
        by_cases hk : k ∈ m.map Prod.fst
        · simp only [hk, if_true]
          simp [hk]
        · have : k ∉ k₀ :: m.map Prod.fst := by
            simp only [List.mem_cons, not_or]; exact ⟨fun h => h0 h.symm, hk⟩
          simp [hk, this]
  unfold WF at *
  rw [key]
  split
  · exact h
  · rename_i hk
    rw [List.nodup_append]
    refine ⟨h, by simp, ?_⟩
    intro a ha b hb
    simp at hb
    subst hb
    intro hab
    exact hk (hab ▸ ha)

theorem wf_fromPairs (ps : List (Header × Bytes)) : (fromPairs ps).WF := by
  have key : ∀ (ps : List (Header × Bytes)) (m : HeaderMap), m.WF →
      (ps.foldl (fun m p => m.addHeader p.1 p.2) m).WF := by
    intro ps
    induction ps with
    | nil => exact fun m h => h
    | cons p ps ih => exact fun m h => ih _ (wf_addHeader h _ _)
  exact key ps [] (by simp [WF])

theorem getFirst_fromPairs (ps : List (Header × Bytes)) (k : Header) :
    (fromPairs ps).getFirst k = (ps.find? fun p => p.1 = k).map Prod.snd := by
  have h2 : (valuesOf ps k)[0]? = (ps.find? fun p => p.1 = k).map Prod.snd := by
    induction ps with
    | nil => rfl
    | cons p ps ih =>
      unfold valuesOf at *
      by_cases h : p.1 = k
      · simp [h]
      · simpa [h] using ih
  unfold getFirst
  rw [get_fromPairs, ← h2]
  by_cases h : valuesOf ps k = []
  · simp [h]
  · simp [h]

end HeaderMap

end Verif
