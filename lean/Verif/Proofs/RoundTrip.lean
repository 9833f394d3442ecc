import Verif.Spec.RoundTrip
import Verif.Proofs.Text
import Verif.Proofs.Utf8
import Verif.Proofs.Numeral

/-!
Header maps that are written and read back, in any order of their entries.
-/

namespace Verif

namespace HeaderMap

theorem addHeader_new {m : HeaderMap} {k : Header} (h : ∀ e ∈ m, e.1 ≠ k) (v : Bytes) :
    m.addHeader k v = m ++ [(k, [v])] := by
  induction m with
  | nil => rfl
  | cons e m ih =>
    obtain ⟨k', vs⟩ := e
    have h1 : k' ≠ k := h _ List.mem_cons_self
    simp [addHeader, h1, ih fun x hx => h x (by simp [hx])]

theorem addHeader_last {m : HeaderMap} {k : Header} (h : ∀ e ∈ m, e.1 ≠ k) (vs : List Bytes) (v : Bytes) :
    HeaderMap.addHeader (m ++ [(k, vs)]) k v = m ++ [(k, vs ++ [v])] := by
  induction m with
  | nil => simp [addHeader]
  | cons e m ih =>
    obtain ⟨k', vs⟩ := e
    have h1 : k' ≠ k := h _ List.mem_cons_self
    simp [addHeader, h1, ih fun x hx => h x (by simp [hx])]

theorem foldl_entry {m : HeaderMap} {k : Header} (h : ∀ e ∈ m, e.1 ≠ k) (us vs : List Bytes) :
    (us.map fun v => (k, v)).foldl (fun (m : HeaderMap) p => m.addHeader p.1 p.2) (m ++ [(k, vs)]) =
      m ++ [(k, vs ++ us)] := by
  induction us generalizing vs with
  | nil => simp
  | cons u us ih =>
    rw [List.map_cons, List.foldl_cons, addHeader_last h, ih]
    simp

/-- A map is what its header lines say. -/
theorem fromPairs_flat {m : HeaderMap} (hw : m.WF) (hv : ∀ e ∈ m, e.2 ≠ []) : fromPairs m.flat = m := by
  have key : ∀ m m0 : HeaderMap, (m.map Prod.fst).Nodup → (∀ e ∈ m, e.2 ≠ []) →
      (∀ e ∈ m, ∀ e0 ∈ m0, e0.1 ≠ e.1) →
      m.flat.foldl (fun (m : HeaderMap) p => m.addHeader p.1 p.2) m0 = m0 ++ m := by
    intro m
    induction m with
    | nil => intro m0 _ _ _; simp [flat]
    | cons e m ih =>
      intro m0 hn hv hd
      obtain ⟨k, vs⟩ := e
      cases vs with
      | nil => exact absurd rfl (hv _ List.mem_cons_self)
      | cons v vs =>
        have h0 : ∀ e0 ∈ m0, e0.1 ≠ k := hd _ List.mem_cons_self
        have e1 : flat ((k, v :: vs) :: m) = (k, v) :: (vs.map fun v => (k, v)) ++ flat m := by simp [flat]
        rw [e1, List.cons_append, List.foldl_cons, List.foldl_append, addHeader_new h0, foldl_entry h0,
          ih _ (by simpa using (List.nodup_cons.1 hn).2) (fun e he => hv e (by simp [he]))]
        · simp
        · intro e he e0 he0
          rcases List.mem_append.1 he0 with h | h
          · exact hd e (by simp [he]) e0 h
          · simp only [List.mem_singleton] at h
            subst h
            intro hc
            exact (List.nodup_cons.1 hn).1 (List.mem_map.2 ⟨e, he, hc.symm⟩)
  simpa [fromPairs] using key m [] hw hv (by simp)

theorem get_iff {m : HeaderMap} (hw : m.WF) {k : Header} {vs : List Bytes} : m.get k = some vs ↔ (k, vs) ∈ m := by
  induction m with
  | nil => simp [get]
  | cons e m ih =>
    obtain ⟨k', vs'⟩ := e
    have hn := List.nodup_cons.1 hw
    have ih := ih hn.2
    by_cases h : k' = k
    · subst h
      simp only [get, if_true, Option.some.injEq, List.mem_cons, Prod.mk.injEq, true_and]
      constructor
      · rintro rfl; simp
      · rintro (h | h)
        · exact h.symm
        · exact absurd (List.mem_map.2 ⟨_, h, rfl⟩) hn.1
    · simp [get, h, ih, Ne.symm h]

theorem get_perm {m m' : HeaderMap} (h : m.Perm m') (hw : m.WF) : m.Equiv m' := by
  have hw' : m'.WF := (h.map Prod.fst).nodup_iff.1 hw
  intro k
  cases hg : m.get k with
  | some vs => rw [(get_iff hw').2 (h.mem_iff.1 ((get_iff hw).1 hg))]
  | none =>
    cases hg' : m'.get k with
    | none => rfl
    | some vs => rw [(get_iff hw).2 (h.mem_iff.2 ((get_iff hw').1 hg'))] at hg; cases hg

theorem getFirst_iff {m : HeaderMap} (hw : m.WF) {k : Header} {v : Bytes} : m.getFirst k = some v ↔ m.First k v := by
  unfold getFirst First
  cases hg : m.get k with
  | some vs =>
    cases vs with
    | nil =>
      simp only [List.getElem?_nil, reduceCtorEq, false_iff, not_exists]
      intro vs hm
      rw [(get_iff hw).2 hm] at hg
      simp at hg
    | cons u us =>
      simp only [List.getElem?_cons_zero, Option.some.injEq]
      constructor
      · rintro rfl; exact ⟨us, (get_iff hw).1 hg⟩
      · rintro ⟨vs, hm⟩
        rw [(get_iff hw).2 hm] at hg
        simp at hg; exact hg.1.symm
  | none =>
    simp only [reduceCtorEq, false_iff, not_exists]
    intro vs hm
    rw [(get_iff hw).2 hm] at hg
    cases hg

theorem Writable.perm {m m' : HeaderMap} (h : m.Perm m') (hw : m.Writable) : m'.Writable where
  wf := (h.map Prod.fst).nodup_iff.1 hw.wf
  made e he := hw.made e (h.mem_iff.2 he)
  valued e he := hw.valued e (h.mem_iff.2 he)
  text e he := hw.text e (h.mem_iff.2 he)
  size := by rw [← (h.flatMap_right _).length_eq]; exact hw.size

theorem First.perm {m m' : HeaderMap} (h : m.Perm m') (k : Header) (v : Bytes) : m.First k v ↔ m'.First k v :=
  exists_congr fun _ => h.mem_iff

theorem Sized.perm {m m' : HeaderMap} (h : m.Perm m') {body : Bytes} (hs : m.Sized body) : m'.Sized body := by
  obtain ⟨v, h1, h2⟩ := hs
  exact ⟨v, (First.perm h _ _).1 h1, h2⟩

theorem Unframed.perm {m m' : HeaderMap} (h : m.Perm m') (hs : m.Unframed) : m'.Unframed :=
  ⟨fun v hv => hs.1 v ((First.perm h _ _).2 hv), fun v hv => hs.2 v ((First.perm h _ _).2 hv)⟩

/-- The header lines of a map, as fields. -/
def fields (m : HeaderMap) : List (Bytes × Bytes) := m.flat.map fun p => (p.1.asStr, p.2)

theorem fieldLines_fields (m : HeaderMap) :
    fieldLines m.fields = m.flatMap fun e => e.2.flatMap fun v => e.1.asStr ++ b!": " ++ v ++ b!"\r\n" := by
  unfold fieldLines fields flat
  induction m with
  | nil => rfl
  | cons e m ih =>
    simp only [List.flatMap_cons, List.map_append, List.flatMap_append, ih]
    congr 1
    obtain ⟨k, vs⟩ := e
    induction vs with
    | nil => rfl
    | cons v vs ih2 => simp only [List.map_cons, List.flatMap_cons, ih2]; rfl

theorem ofStr_made {k : Header} (h : ∃ name, k = Header.ofStr name) : Header.ofStr k.asStr = k := by
  obtain ⟨s, rfl⟩ := h
  have : (Header.ofStr s).asStr = lower s := by
    unfold Header.ofStr
    by_cases h : lower s ∈ standardNames <;> simp [h, Header.asStr]
  rw [this]
  have h2 : lower (lower s) = lower s := lower_of_noUpper (lower_noUpper s)
  unfold Header.ofStr
  rw [h2]

theorem fieldMap_fields {m : HeaderMap} (h : m.Writable) : fieldMap m.fields = m.flat := by
  unfold fieldMap fields
  rw [List.map_map]
  conv => rhs; rw [← List.map_id m.flat]
  apply List.map_congr_left
  rintro ⟨k, v⟩ hp
  obtain ⟨e, he, hp⟩ := List.mem_flatMap.1 hp
  obtain ⟨v', hv', hp⟩ := List.mem_map.1 hp
  cases hp
  simp [ofStr_made (h.made e he)]

theorem Writable.fromPairs {m : HeaderMap} (h : m.Writable) : HeaderMap.fromPairs (fieldMap m.fields) = m := by
  rw [fieldMap_fields h, fromPairs_flat h.wf h.valued]

theorem Writable.fieldText {m : HeaderMap} (h : m.Writable) : ∀ x ∈ m.fields, FieldText x := by
  intro x hx
  obtain ⟨p, hp, rfl⟩ := List.mem_map.1 hx
  obtain ⟨e, he, hp⟩ := List.mem_flatMap.1 hp
  obtain ⟨v', hv', hp⟩ := List.mem_map.1 hp
  cases hp
  exact h.text e he v' hv'

theorem Writable.find {m : HeaderMap} (h : m.Writable) (k : Header) (v : Bytes) :
    ((fieldMap m.fields).find? fun p => p.1 = k).map Prod.snd = some v ↔ m.First k v := by
  rw [← getFirst_fromPairs, h.fromPairs, getFirst_iff h.wf]

theorem Writable.announces_sized {m : HeaderMap} (h : m.Writable) {body : Bytes} (hs : m.Sized body) (b : Bool) :
    Announces (fieldMap m.fields) b (.ok (.length body.length)) := by
  obtain ⟨v, h1, h2, h3⟩ := hs
  exact .length ((h.find _ _).2 h1) h2 (by omega)

theorem Writable.announces_unframed {m : HeaderMap} (h : m.Writable) (hs : m.Unframed) (b : Bool) :
    Announces (fieldMap m.fields) b (.ok (if b then .untilEof else .noBody)) := by
  refine .none ?_ fun v hv => hs.2 v ((h.find _ _).1 hv)
  intro p hp hc
  cases hf : (fieldMap m.fields).find? (fun p => p.1 = Header.contentLength) with
  | none => simpa using (List.find?_eq_none.1 hf p hp) (by simpa using hc)
  | some p' => exact hs.1 p'.2 ((h.find _ _).1 (by rw [hf]; rfl))

end HeaderMap

end Verif
