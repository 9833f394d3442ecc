import Verif.Proofs.NetAnyRun
import Verif.Proofs.NetAnyOpen
import Verif.Proofs.NetCloses

/-!
Connections over streams of any kind that the event loop has dropped.
-/

namespace Verif

variable {T σ : Type} {prof : Profile} {rt : Router σ} {n : Nat} {s₀ : σ}

theorem AStep.removed {P E : T → Prop} {s s' : ANet T σ} (h : AStep P E s s') {k : Nat} {c : AConn T} (hc : s.conns[k]? = some c) (hi : c.inTable = false) {j : Nat} (hj : s'.jobs[j]? = some k) : s.jobs[j]? = some k := by
  cases h with
  | @execute k' _ d _ hd ht =>
    dsimp only at hj
    rcases Nat.lt_or_ge j s.jobs.length with hl | hl
    · rw [List.getElem?_append_left hl] at hj; exact hj
    · rw [List.getElem?_append_right hl] at hj
      have h1 := List.mem_of_getElem? hj
      simp only [List.mem_singleton] at h1
      subst h1
      rw [hc] at hd; cases hd
      rw [hi] at ht; cases ht
  | _ => exact hj

variable [RawIO T]

theorem ANet.Run.removed (r : ANet.Run T prof rt n s₀) {t t' k : Nat} (h : t ≤ t') {c : AConn (Traced T)} (hc : (r.at_ t).conns[k]? = some c) (hi : c.inTable = false) :
    (∃ c', (r.at_ t').conns[k]? = some c' ∧ c'.inTable = false) ∧ ∀ j : Nat, (r.at_ t').jobs[j]? = some k → (r.at_ t).jobs[j]? = some k := by
  have hin : ∀ u ≥ t, ∃ c', (r.at_ u).conns[k]? = some c' ∧ c'.inTable = false := fun u hu => by
    obtain ⟨c', h1, h2⟩ := r.conns hc hu
    refine ⟨c', h1, ?_⟩
    cases hb : c'.inTable with
    | false => rfl
    | true => rw [h2.inTable hb] at hi; cases hi
  refine ⟨hin t' h, ?_⟩
  obtain ⟨d, rfl⟩ := Nat.exists_eq_add_of_le h
  clear h
  induction d with
  | zero => exact fun _ h => h
  | succ d ih =>
    intro j hj
    obtain ⟨c', h1, h2⟩ := hin (t + d) (by omega)
    rcases r.astep' (t + d) with h | h
    · rw [← Nat.add_assoc, h] at hj; exact ih j hj
    · exact ih j (h.removed h1 h2 hj)

theorem ANet.Run.ended (r : ANet.Run T prof rt n s₀) {t t' j : Nat} (h : t ≤ t') (hj : j ∈ (r.at_ t).pool.finished ∨ j ∈ (r.at_ t).pool.crashed) :
    j ∈ (r.at_ t').pool.finished ∨ j ∈ (r.at_ t').pool.crashed := by
  obtain ⟨d, rfl⟩ := Nat.exists_eq_add_of_le h
  clear h
  induction d with
  | zero => exact hj
  | succ d ih =>
    rcases r.astep' (t + d) with h | h
    · rw [← Nat.add_assoc, h]; exact ih
    · have key : ∀ {a : Act}, (r.at_ (t + d)).pool.step a = some (r.at_ (t + d + 1)).pool → j ∈ (r.at_ (t + d + 1)).pool.finished ∨ j ∈ (r.at_ (t + d + 1)).pool.crashed :=
        fun hp => ih.imp (fun h => (step_finished hp).subset h) (fun h => (step_crashed hp).subset h)
      rcases h.pool with h1 | h1 | ⟨w, b, h1⟩
      · rw [← Nat.add_assoc, h1]; exact ih
      · exact key h1
      · exact key h1

/-- Once the event loop has dropped a connection, all handlers that got it end. -/
theorem ANet.Run.dropped (r : ANet.Run T prof rt n s₀) (hT : RawIO.Honest T) (hR : RawIO.ReadsWithin T) (hf : r.Fair) (hcr : ∀ t, (r.at_ t).pool.crashed.length < n) {t k : Nat} {c : AConn (Traced T)}
    (hc : (r.at_ t).conns[k]? = some c) (hi : c.inTable = false) : ∃ T, ∀ t' ≥ T, (r.at_ t').Closed k := by
  have hL : ∀ L, ∃ T ≥ t, ∀ j : Nat, j < L → (r.at_ t).jobs[j]? = some k → j ∈ (r.at_ T).pool.finished ∨ j ∈ (r.at_ T).pool.crashed := by
    intro L
    induction L with
    | zero => exact ⟨t, Nat.le_refl _, fun j h => by omega⟩
    | succ L ih =>
      obtain ⟨T, h1, h2⟩ := ih
      by_cases hj : (r.at_ t).jobs[L]? = some k
      · have hs : L ∈ (r.poolRun.at_ t).submitted := by
          have h4 := (List.getElem?_eq_some_iff.1 hj).1
          obtain ⟨s', g1, g2⟩ := r.inv hT hR t
          show L ∈ (r.at_ t).pool.submitted
          rw [← g2.jobs, List.length_map, g1.base.jobs, g2.pool] at h4
          have h3 := g1.base.pool.inv.ids
          rw [g2.pool] at h3
          unfold Pool.submitted at h4 ⊢
          rw [h3]
          exact List.mem_range.2 h4
        obtain ⟨u, h5, h6⟩ := job_ends r.poolRun (r.pool_fair hf) hcr hs
        refine ⟨max T u, by omega, fun j hl hja => ?_⟩
        by_cases hjl : j = L
        · subst hjl; exact r.ended (show u ≤ max T u by omega) h6
        · exact r.ended (show T ≤ max T u by omega) (h2 j (by omega) hja)
      · refine ⟨T, h1, fun j hl hja => ?_⟩
        by_cases hjl : j = L
        · subst hjl; exact absurd hja hj
        · exact h2 j (by omega) hja
  obtain ⟨T, h1, h2⟩ := hL (r.at_ t).jobs.length
  refine ⟨T, fun t' ht => ?_⟩
  obtain ⟨⟨c', h3, h4⟩, h5⟩ := r.removed (show t ≤ t' by omega) hc hi
  exact ⟨c', h3, .inr ⟨h4, fun j hj => r.ended ht (h2 j (List.getElem?_eq_some_iff.1 (h5 j hj)).1 (h5 j hj))⟩⟩

/-- A connection that was dropped stays so. -/
theorem ANet.Run.shut (r : ANet.Run T prof rt n s₀) {t k : Nat} {c : AConn (Traced T)} (hc : (r.at_ t).conns[k]? = some c) (hs : c.slot.isLive = false) : ∀ t' ≥ t, (r.at_ t').Closed k := by
  intro t' ht
  obtain ⟨c', h1, h2⟩ := r.conns hc ht
  exact ⟨c', h1, .inl fun conn h => by rw [h2.live (by rw [h]; rfl)] at hs; cases hs⟩

end Verif
