import Verif.Proofs.NetAnyStep

/-! Infinite runs of the whole server over streams of any kind: a connection that is reported as ready is looked at. -/

namespace Verif

variable {T σ : Type} [RawIO T] {prof : Profile} {rt : Router σ} {n : Nat} {s₀ : σ}

theorem after_then {as : List (AAct T)} {a : AAct T} {s t : ANet (Traced T) σ} (h : ANet.after prof rt n s₀ as = some s) (ht : s.step prof rt a.traced = some t) :
    ANet.after prof rt n s₀ (as ++ [a]) = some t := by
  obtain ⟨s₂, h1, h2⟩ := Option.bind_eq_some_iff.1 h
  have hrun : ∀ (bs : List (AAct (Traced T))) (s₂ : ANet (Traced T) σ), s₂.run prof rt bs = some s → s₂.run prof rt (bs ++ [a.traced]) = some t := by
    intro bs
    induction bs with
    | nil =>
      intro s₂ h
      cases h
      simp [ANet.run, ht]
    | cons b bs ih =>
      intro s₂ h
      obtain ⟨s₃, h3, h4⟩ := Option.bind_eq_some_iff.1 h
      rw [List.cons_append, ANet.run, h3]
      exact ih s₃ h4
  rw [ANet.after, h1, List.map_append]
  exact hrun _ _ h2

theorem ANet.Run.after (r : ANet.Run T prof rt n s₀) (t : Nat) : ANet.after prof rt n s₀ (r.before t) = some (r.at_ t) := by
  induction t with
  | zero =>
    show (ANet.new n s₀).bind _ = _
    rw [r.start]
    rfl
  | succ t ih =>
    have hn := r.next t
    rw [ANet.Run.before, List.range_succ, List.filterMap_append]
    cases ha : r.act t with
    | none =>
      rw [ha] at hn
      simp only [List.filterMap_cons, ha, List.filterMap_nil, List.append_nil]
      rw [hn]
      exact ih
    | some a =>
      rw [ha] at hn
      simp only [List.filterMap_cons, ha, List.filterMap_nil]
      exact after_then ih hn

theorem ANet.Run.inv (r : ANet.Run T prof rt n s₀) (hT : RawIO.Honest T) (hR : RawIO.ReadsWithin T) (t : Nat) : ∃ s' : Net σ, s'.Inv n ∧ (r.at_ t).Alike s' := by
  obtain ⟨s', h1, h2⟩ := C78_any hT hR (r.after t)
  exact ⟨s', h1.inv, h2⟩

theorem ANet.Run.astep (r : ANet.Run T prof rt n s₀) {P E : Traced T → Prop} (hP : RawKeeps P) (hE : ∀ (t t' : Traced T) n, P t → RawIO.read t n = (.error .wouldBlock, t') → E t') (t : Nat) :
    r.at_ (t + 1) = r.at_ t ∨ AStep P E (r.at_ t) (r.at_ (t + 1)) := by
  have h := r.next t
  cases ha : r.act t with
  | none => rw [ha] at h; exact .inl h
  | some a => rw [ha] at h; exact .inr (step_astep hP hE h)

theorem keeps_true : RawKeeps (T := T) fun _ => True := { write := fun _ _ => trivial, flush := fun _ _ => trivial, read := fun _ _ => trivial, drop := fun _ => trivial }

theorem ANet.Run.astep' (r : ANet.Run T prof rt n s₀) (t : Nat) : r.at_ (t + 1) = r.at_ t ∨ AStep (fun _ => True) (fun _ => True) (r.at_ t) (r.at_ (t + 1)) :=
  r.astep keeps_true (fun _ _ _ _ _ => trivial) t

theorem ANet.Run.pool_next (r : ANet.Run T prof rt n s₀) (t : Nat) : ∃ a : Option Act, match a with
    | none => (r.at_ (t + 1)).pool = (r.at_ t).pool
    | some a => (r.at_ t).pool.step a = some (r.at_ (t + 1)).pool := by
  rcases r.astep' t with h | h
  · exact ⟨none, by rw [h]⟩
  · rcases h.pool with h | h | ⟨w, b, h⟩
    · exact ⟨none, h⟩
    · exact ⟨some .execute, h⟩
    · exact ⟨some (.work w b), h⟩

/-- The run of its thread pool. -/
noncomputable def ANet.Run.poolRun (r : ANet.Run T prof rt n s₀) : Pool.Run n where
  at_ t := (r.at_ t).pool
  act t := Classical.choose (r.pool_next t)
  start := by
    have h := r.start
    unfold ANet.new at h
    simp only [Option.map_eq_some_iff] at h
    obtain ⟨p, h1, h2⟩ := h
    rw [← h2]; exact h1
  next t := Classical.choose_spec (r.pool_next t)

theorem ANet.Run.poolRun_act (r : ANet.Run T prof rt n s₀) {t w : Nat}
    (h : (r.at_ (t + 1)).pool.workers[w]? ≠ (r.at_ t).pool.workers[w]?) : ∃ b, r.poolRun.act t = some (.work w b) := by
  have hn := r.poolRun.next t
  cases ha : r.poolRun.act t with
  | none =>
    rw [ha] at hn
    exact absurd (congrArg (fun p : Pool => p.workers[w]?) hn) h
  | some a =>
    rw [ha] at hn
    rcases step_cases hn with ⟨i, b, rfl, hs⟩ | hs
    · by_cases hi : i = w
      · exact ⟨b, by rw [hi]⟩
      · exact absurd (work_other hs hi) h
    · exact absurd (by rw [show (r.at_ (t + 1)).pool.workers = (r.at_ t).pool.workers from own_workers hs]) h

theorem ANet.Run.pool_fair (r : ANet.Run T prof rt n s₀) (hf : r.Fair) : r.poolRun.Fair := by
  intro w t hc
  by_cases hr : ∃ t' ≥ t, ∃ j, (r.at_ t').pool.workers[w]? = some (.running j)
  · obtain ⟨t', h1, j, h2⟩ := hr
    obtain ⟨t'', h3, h4⟩ := hf.returns t' w j h2
    obtain ⟨u, h5, h6, h7⟩ := exists_change (P := fun t => (r.at_ t).pool.workers[w]? = some (.running j)) h3 h2 h4
    obtain ⟨b, h8⟩ := r.poolRun_act (t := u) (w := w) (by rw [h6]; exact h7)
    exact ⟨u, by omega, b, h8⟩
  · have hn : ∀ t' ≥ t, ∀ j, (r.at_ t').pool.workers[w]? ≠ some (.running j) := fun t' h1 j h2 => hr ⟨t', h1, j, h2⟩
    obtain ⟨t', h1, h2⟩ := hf.workers t w (by
      intro t' h1
      obtain ⟨p, hp⟩ := hc t' h1
      have hp' : (r.at_ t').pool.work w false ≠ none := by
        intro h0
        apply hp
        revert h0
        show (r.at_ t').pool.work w false = none → (r.at_ t').pool.work w p = none
        unfold Pool.work
        split <;> try exact id
        next j hj => exact absurd hj (hn t' h1 j)
      simp only [ANet.step]
      split
      · next j hj => exact absurd hj (hn t' h1 j)
      · intro h0
        exact hp' (by simpa [Pool.step] using h0))
    have h3 := r.next t'
    rw [h2] at h3
    simp only [AAct.traced, ANet.step] at h3
    split at h3
    · cases h3
    · simp only [Option.map_eq_some_iff] at h3
      obtain ⟨p, h4, h5⟩ := h3
      obtain ⟨b, h6⟩ := r.poolRun_act (t := t') (w := w) (by rw [← h5]; exact work_changes h4)
      exact ⟨t', h1, b, h6⟩

theorem ANet.Run.conns (r : ANet.Run T prof rt n s₀) {t k : Nat} {c : AConn (Traced T)} (hc : (r.at_ t).conns[k]? = some c) {u : Nat} (hu : t ≤ u) :
    ∃ c', (r.at_ u).conns[k]? = some c' ∧ c.Goes c' := by
  obtain ⟨d, rfl⟩ := Nat.le.dest hu
  clear hu
  induction d with
  | zero => exact ⟨c, hc, id, id⟩
  | succ d ih =>
    obtain ⟨c', h1, h2⟩ := ih
    rcases r.astep' (t + d) with h | h
    · exact ⟨c', by rw [← Nat.add_assoc, h]; exact h1, h2⟩
    · obtain ⟨c'', h3, h4⟩ := h.conns h1
      exact ⟨c'', h3, fun h => h2.live (h4.live h), fun h => h2.inTable (h4.inTable h)⟩

theorem ANet.Run.jobs (r : ANet.Run T prof rt n s₀) {t j k : Nat} (hj : (r.at_ t).jobs[j]? = some k) {u : Nat} (hu : t ≤ u) : (r.at_ u).jobs[j]? = some k := by
  obtain ⟨d, rfl⟩ := Nat.le.dest hu
  clear hu
  induction d with
  | zero => exact hj
  | succ d ih =>
    rcases r.astep' (t + d) with h | h
    · rw [← Nat.add_assoc, h]; exact ih
    · exact h.jobs ih

theorem ANet.Run.using (r : ANet.Run T prof rt n s₀) (hT : RawIO.Honest T) (hR : RawIO.ReadsWithin T) (hc : ∀ t, (r.at_ t).pool.crashed.length < n) (t : Nat) : (r.at_ t).pool.owner = .using := by
  obtain ⟨s', h1, h2⟩ := r.inv hT hR t
  rw [← h2.pool]
  rcases h1.up with h | h
  · exact h
  · have := hc t
    rw [h2.pool] at h
    omega

omit [RawIO T] in
theorem adispatch_batch [RawIO T] {s s' : ANet T σ} {b : Bool} (hn : s.step prof rt (.dispatch b) = some s') : s'.batch.length < s.batch.length := by
  simp only [ANet.step] at hn
  split at hn
  · cases hn
  · next k' ks hb =>
    rw [hb]
    unfold ANet.onEvent at hn
    repeat' split at hn
    all_goals first | (cases hn; done) | (cases hn; simp [ANet.setConn])

/-- An event that was reported leads to a job. -/
theorem ANet.Run.batch_job (r : ANet.Run T prof rt n s₀) (hT : RawIO.Honest T) (hR : RawIO.ReadsWithin T) (hf : r.Fair) (hcr : ∀ t, (r.at_ t).pool.crashed.length < n) {k : Nat}
    (m t : Nat) (hk : k ∈ (r.at_ t).batch) (hm : (r.at_ t).batch.length ≤ m) :
    ∃ t' ≥ t, ¬ (r.at_ t').Open k ∨ (r.at_ (t' + 1)).jobs = (r.at_ t').jobs ++ [k] ∧ (r.at_ t').pool.step .execute = some (r.at_ (t' + 1)).pool := by
  induction m generalizing t with
  | zero =>
    have : (r.at_ t).batch = [] := List.length_eq_zero_iff.1 (by omega)
    rw [this] at hk; cases hk
  | succ m ih =>
    obtain ⟨t', h1, b, h2⟩ := hf.dispatched t (fun h => by rw [h] at hk; cases hk)
    have key : ∀ d, (∃ t' ≥ t, ¬ (r.at_ t').Open k ∨ (r.at_ (t' + 1)).jobs = (r.at_ t').jobs ++ [k] ∧ (r.at_ t').pool.step .execute = some (r.at_ (t' + 1)).pool) ∨
        k ∈ (r.at_ (t + d)).batch ∧ (r.at_ (t + d)).batch.length ≤ m + 1 := by
      intro d
      induction d with
      | zero => exact .inr ⟨hk, hm⟩
      | succ d ihd =>
        rcases ihd with h | ⟨h3, h4⟩
        · exact .inl h
        · rcases r.astep' (t + d) with h | h
          · rw [← Nat.add_assoc, h]; exact .inr ⟨h3, h4⟩
          · rcases h.batch h3 with h6 | h6 | h6 | ⟨h6, h7⟩
            · exact absurd (r.using hT hR hcr _) h6
            · exact .inl ⟨t + d + 1, by omega, .inl h6⟩
            · exact .inl ⟨t + d, by omega, .inr h6⟩
            · exact .inr ⟨h6, by rw [← Nat.add_assoc]; omega⟩
    rcases key (t' - t) with h | ⟨h3, h4⟩
    · exact h
    · rw [show t + (t' - t) = t' by omega] at h3 h4
      have hn := r.next t'
      rw [h2] at hn
      have hl := adispatch_batch hn
      rcases r.astep' t' with h | h
      · exfalso
        rw [h] at hl
        omega
      · rcases h.batch h3 with h6 | h6 | h6 | ⟨h6, h7⟩
        · exact absurd (r.using hT hR hcr _) h6
        · exact ⟨t' + 1, by omega, .inl h6⟩
        · exact ⟨t', by omega, .inr h6⟩
        · obtain ⟨u, h8, h9⟩ := ih (t' + 1) h6 (by omega)
          exact ⟨u, by omega, h9⟩

theorem Pool.Inv.not_submitted {p : Pool} (h : p.Inv n) {j : Nat} (hj : j ∉ p.submitted) : j ∉ p.finished ∧ j ∉ p.crashed ∧ ∀ w : Nat, p.workers[w]? ≠ some (.running j) := by
  have h1 : (jobsOf p.taken).count j = 0 := by
    rw [List.count_eq_zero]
    intro hm
    apply hj
    unfold Pool.submitted
    rw [h.msgs]
    exact mem_jobsOf.2 (by simp [mem_jobsOf.1 hm])
  have h2 := h.started j
  have h3 := h.running j
  refine ⟨?_, ?_, fun w hw => ?_⟩
  · rw [← List.count_eq_zero]; omega
  · rw [← List.count_eq_zero]; omega
  · have h4 := sumW_le (f := Worker.run j) hw
    have h5 : Worker.run j (.running j) = 1 := by simp [Worker.run]
    omega

/-- Jobs end where workers run them. -/
theorem Pool.ended {p p' : Pool} {a : Act} (h : p.step a = some p') {j : Nat} (h1 : j ∈ p'.finished ∨ j ∈ p'.crashed) :
    (j ∈ p.finished ∨ j ∈ p.crashed) ∨ ∃ w : Nat, p.workers[w]? = some (.running j) ∧ p'.workers[w]? ≠ some (.running j) := by
  rcases step_cases h with ⟨i, b, rfl, hs⟩ | hs
  · have hne := work_changes h
    cases hs
    case crash j' hw =>
      by_cases hj : j = j'
      · subst hj; exact .inr ⟨i, hw, by rw [← hw]; exact hne⟩
      · left; simpa [hj] using h1
    case finish j' hw =>
      by_cases hj : j = j'
      · subst hj; exact .inr ⟨i, hw, by rw [← hw]; exact hne⟩
      · left; simpa [hj] using h1
    all_goals (left; simpa using h1)
  · left
    cases hs <;> exact h1

/-- Along a run, while it is so. -/
theorem holds_between {Q R : Nat → Prop} {t u : Nat} (h : t ≤ u) (h0 : Q t ∨ ∃ v, t ≤ v ∧ v ≤ u ∧ R v) (hs : ∀ v, t ≤ v → v < u → Q v → Q (v + 1) ∨ R (v + 1)) : Q u ∨ ∃ v, t ≤ v ∧ v ≤ u ∧ R v := by
  rcases h0 with h0 | h0
  · obtain ⟨d, rfl⟩ := Nat.le.dest h
    clear h
    induction d with
    | zero => exact .inl h0
    | succ d ih =>
      rcases ih (fun v h1 h2 => hs v h1 (by omega)) with h1 | ⟨v, h1, h2, h3⟩
      · rcases hs (t + d) (by omega) (by omega) h1 with h2 | h2
        · exact .inl h2
        · exact .inr ⟨t + d + 1, by omega, by omega, h2⟩
      · exact .inr ⟨v, h1, by omega, h3⟩
  · exact .inr h0

/-- When it began. -/
theorem exists_since {Q : Nat → Prop} {t u : Nat} (h : t ≤ u) (h0 : ¬ Q t) (h1 : Q u) : ∃ v, t ≤ v ∧ v < u ∧ ¬ Q v ∧ ∀ x, v < x → x ≤ u → Q x := by
  induction u with
  | zero =>
    obtain rfl : t = 0 := by omega
    exact absurd h1 h0
  | succ u ih =>
    have ht : t ≤ u := by
      rcases Nat.lt_or_ge u t with h2 | h2
      · obtain rfl : t = u + 1 := by omega
        exact absurd h1 h0
      · exact h2
    by_cases hu : Q u
    · obtain ⟨v, h2, h3, h4, h5⟩ := ih ht hu
      refine ⟨v, h2, by omega, h4, fun x hx hx' => ?_⟩
      by_cases hxu : x = u + 1
      · subst hxu; exact h1
      · exact h5 x hx (by omega)
    · refine ⟨u, ht, by omega, hu, fun x hx hx' => ?_⟩
      obtain rfl : x = u + 1 := by omega
      exact h1

/-- A connection that is reported is looked at: at some time later it is closed, or its stream has said that it has nothing to read. -/
theorem ANet.Run.looked (r : ANet.Run T prof rt n s₀) (hT : RawIO.Honest T) (hR : RawIO.ReadsWithin T) (hf : r.Fair) (hcr : ∀ t, (r.at_ t).pool.crashed.length < n)
    {P E : Traced T → Prop} (hP : RawKeeps P) (hE : ∀ (t t' : Traced T) n, P t → RawIO.read t n = (.error .wouldBlock, t') → E t') {k t : Nat} (he : (r.at_ t).Edge k)
    (hk : ∀ u ≥ t, ∀ c, (r.at_ u).conns[k]? = some c → P c.raw) : ∃ u ≥ t, ¬ (r.at_ u).Open k ∨ ∃ c, (r.at_ u).conns[k]? = some c ∧ E c.raw := by
  obtain ⟨t₁, h1, ks, h2, h3⟩ := hf.polled t k he
  have hn := r.next t₁
  rw [h2] at hn
  simp only [AAct.traced, ANet.step] at hn
  split at hn
  case isFalse => cases hn
  simp only [Option.some.injEq] at hn
  obtain ⟨t₂, h4, h5⟩ := r.batch_job hT hR hf hcr _ (t₁ + 1) (by rw [← hn]; exact h3) (Nat.le_refl _)
  rcases h5 with h5 | ⟨h5, h6⟩
  · exact ⟨t₂, by omega, .inl h5⟩
  obtain ⟨s', i1, i2⟩ := r.inv hT hR t₂
  obtain ⟨s'', i3, i4⟩ := r.inv hT hR (t₂ + 1)
  have hjs : ∀ t s', Net.Inv (σ := σ) n s' → (r.at_ t).Alike s' → (r.at_ t).jobs.length = (r.at_ t).pool.submitted.length := by
    intro t s' h1 h2
    rw [← h2.jobs, List.length_map, h1.base.jobs, h2.pool]
  have hsub : ∀ t s' (j : Nat), Net.Inv (σ := σ) n s' → (r.at_ t).Alike s' → (j ∈ (r.at_ t).pool.submitted ↔ j < (r.at_ t).jobs.length) := by
    intro t s' j h1 h2
    have h3 := h1.base.pool.inv.ids
    rw [h2.pool] at h3
    rw [hjs t s' h1 h2]
    unfold Pool.submitted
    rw [h3, List.mem_range]
    simp
  have hpi : (r.at_ t₂).pool.Inv n := by rw [← i2.pool]; exact i1.base.pool.inv
  obtain ⟨g1, g2, g3⟩ := hpi.not_submitted (j := (r.at_ t₂).jobs.length) (by rw [hsub t₂ s' _ i1 i2]; omega)
  obtain ⟨t₃, h7, h8⟩ := job_ends r.poolRun (r.pool_fair hf) hcr (t := t₂ + 1) (j := (r.at_ t₂).jobs.length) ((hsub (t₂ + 1) s'' _ i3 i4).2 (by rw [h5]; simp))
  have hjob : (r.at_ (t₂ + 1)).jobs[(r.at_ t₂).jobs.length]? = some k := by rw [h5]; simp
  generalize (r.at_ t₂).jobs.length = j at g1 g2 g3 h8 hjob
  obtain ⟨t₄, k1, k2, k3⟩ := exists_change (P := fun t => ¬ (j ∈ (r.at_ t).pool.finished ∨ j ∈ (r.at_ t).pool.crashed)) (t := t₂) (t' := t₃) (by omega) (by simp [g1, g2]) (not_not_intro h8)
  have k3 := Classical.not_not.1 k3
  have hstep4 : ∃ a, (r.at_ t₄).pool.step a = some (r.at_ (t₄ + 1)).pool := by
    obtain ⟨a, ha⟩ := r.pool_next t₄
    cases a with
    | none =>
      rw [show (r.at_ (t₄ + 1)).pool = (r.at_ t₄).pool from ha] at k3
      exact absurd k3 k2
    | some a => exact ⟨a, ha⟩
  obtain ⟨a, ha⟩ := hstep4
  rcases Pool.ended ha k3 with k4 | ⟨w, k4, k5⟩
  · exact absurd k4 k2
  obtain ⟨t₅, l1, l2, l3, l4⟩ := exists_since (Q := fun t => (r.at_ t).pool.workers[w]? = some (.running j)) k1 (g3 w) k4
  have hjb : ∀ v, t₅ + 1 ≤ v → (r.at_ v).jobs[j]? = some k := fun v hv => r.jobs hjob (by omega)
  have hdead : ∀ v c, (r.at_ v).conns[k]? = some c → c.slot.isLive = false → ¬ (r.at_ v).Open k := by
    rintro v c hc hl ⟨d, conn, h1, -, h2⟩
    rw [hc] at h1; cases h1
    rw [h2] at hl; cases hl
  have hbeg : (r.at_ (t₅ + 1)).phase w = .enter := by
    rcases r.astep' t₅ with h | h
    · have := l4 (t₅ + 1) (by omega) (by omega)
      rw [h] at this
      exact absurd this l3
    · exact h.begins l3 (l4 (t₅ + 1) (by omega) (by omega))
  have key := holds_between (Q := fun v => (r.at_ v).phase w ≠ .leaving) (R := fun v => ∃ c, (r.at_ v).conns[k]? = some c ∧ (c.slot.isLive = false ∨ E c.raw)) (t := t₅ + 1) (u := t₄) (by omega)
    (.inl (by rw [hbeg]; exact nofun)) (by
      intro v h1 h2 h3
      rcases r.astep hP hE v with h | h
      · rw [h]; exact .inl h3
      · by_cases h4 : (r.at_ (v + 1)).phase w = .leaving
        · rcases h.leaving (hjb v h1) (l4 v (by omega) (by omega)) (l4 (v + 1) (by omega) (by omega)) h4 (hk v (by omega)) with h5 | h5
          · exact absurd h5 h3
          · exact .inr h5
        · exact .inl h4)
  rcases key with key | ⟨v, m1, m2, c, m3, m4⟩
  · rcases r.astep' t₄ with h | h
    · rw [h] at k5
      exact absurd k4 k5
    · rcases h.ends (hjb t₄ (by omega)) k4 k5 with h1 | ⟨c, h1, h2⟩
      · exact absurd h1 key
      · exact ⟨t₄ + 1, by omega, .inl (hdead _ c h1 h2)⟩
  · refine ⟨v, by omega, ?_⟩
    rcases m4 with m4 | m4
    · exact .inl (hdead v c m3 m4)
    · exact .inr ⟨c, m3, m4⟩

/-- What holds of the raw stream of a connection and is kept by all that can happen goes on holding. -/
theorem ANet.Run.keeps (r : ANet.Run T prof rt n s₀) (hT : RawIO.Honest T) (hR : RawIO.ReadsWithin T) {P : Traced T → Prop} (hP : RawKeeps P) {k t : Nat} {c : AConn (Traced T)} (hc : (r.at_ t).conns[k]? = some c)
    (h0 : P c.raw) (hch : ∀ u ≥ t, ∀ env, r.act u = some (.change k env) → ∀ x, P x → P { x with raw := env x.raw }) {u : Nat} (hu : t ≤ u) {c' : AConn (Traced T)} (hc' : (r.at_ u).conns[k]? = some c') : P c'.raw := by
  have fine : ∀ v, ((r.at_ v).Fine fun _ _ => True) := fun v =>
    (any_reach (P := fun _ => True) hT hR keeps_true errsIn_any (fun a _ => by cases a <;> simp [AAct.Allowed]) (r.after v)).1
  have key : ∀ d, (r.at_ (t + d)).Fine fun j x => j = k → P x := by
    intro d
    induction d with
    | zero =>
      intro j cj hj
      have := fine t j cj hj
      refine ⟨this.cap, this.grow, fun he => ?_⟩
      subst he
      rw [Nat.add_zero, hc] at hj
      cases hj
      exact h0
    | succ d ih =>
      have hn := r.next (t + d)
      cases ha : r.act (t + d) with
      | none =>
        rw [ha] at hn
        rw [← Nat.add_assoc, show r.at_ (t + d + 1) = r.at_ (t + d) from hn]
        exact ih
      | some a =>
        rw [ha] at hn
        obtain ⟨cd, hcd, -⟩ := r.conns hc (u := t + d) (by omega)
        refine (step_sim (P := fun j x => j = k → P x) (P' := fun j x => j = k → P x) hT hR (fun j => ?_) (fun _ => errsIn_any) ih ⟨fun _ _ _ h => h, fun offer grow growOk x e he => ?_, fun j env e x hx he => ?_⟩ hn).1
        · by_cases hj : j = k
          · exact { write := fun h1 h2 _ => hP.write h1 (h2 hj), flush := fun h1 h2 _ => hP.flush h1 (h2 hj), read := fun h1 h2 _ => hP.read h1 (h2 hj), drop := fun h2 _ => hP.drop (h2 hj) }
          · exact { write := fun _ _ h => absurd h hj, flush := fun _ _ h => absurd h hj, read := fun _ _ h => absurd h hj, drop := fun _ h => absurd h hj }
        · have := (List.getElem?_eq_some_iff.1 hcd).1
          omega
        · subst he
          exact hch (t + d) (by omega) env (by rw [ha, e]) x (hx rfl)
  obtain ⟨d, rfl⟩ := Nat.le.dest hu
  exact (key d k c' hc').inv rfl

theorem ANet.Run.asks (r : ANet.Run T prof rt n s₀) {t u : Nat} (hu : t ≤ u) : (r.at_ t).asks <+: (r.at_ u).asks := by
  obtain ⟨d, rfl⟩ := Nat.le.dest hu
  clear hu
  induction d with
  | zero => exact List.prefix_refl _
  | succ d ih =>
    rcases r.astep' (t + d) with h | h
    · rw [← Nat.add_assoc, h]; exact ih
    · exact ih.trans h.asks

/-- Again and again nobody uses a connection. -/
theorem ANet.Run.free (r : ANet.Run T prof rt n s₀) (hT : RawIO.Honest T) (hR : RawIO.ReadsWithin T) (hf : r.Fair) {t k : Nat} {c : AConn (Traced T)} (hc : (r.at_ t).conns[k]? = some c) :
    ∃ u ≥ t, ∃ c', (r.at_ u).conns[k]? = some c' ∧ c'.lock = none := by
  cases hl : c.lock with
  | none => exact ⟨t, Nat.le_refl _, c, hc, hl⟩
  | some w =>
    obtain ⟨j, h1, -⟩ := ANet.handled_some (locked hT hR (r.after t) hc hl).1
    obtain ⟨t', h2, h3⟩ := hf.returns t w j h1
    obtain ⟨u, h4, ⟨h5, d, h6, h7⟩, h8⟩ := exists_change (P := fun t => (r.at_ t).pool.workers[w]? = some (.running j) ∧ ∃ d, (r.at_ t).conns[k]? = some d ∧ d.lock = some w) h2 ⟨h1, c, hc, hl⟩ (fun h => h3 h.1)
    obtain ⟨d', h9, -⟩ := r.conns h6 (u := u + 1) (by omega)
    rcases r.astep' u with h | h
    · rw [h] at h8
      exact absurd ⟨h5, d, h6, h7⟩ h8
    · rcases h.lock h6 h7 h9 with h10 | h10
      · exfalso
        obtain ⟨i, h11, -⟩ := ANet.handled_some (locked hT hR (r.after (u + 1)) h9 h10).1
        have h12 : i ≠ j := fun hij => h8 ⟨by rw [h11, hij], d', h9, h10⟩
        have h13 : (r.at_ u).pool.workers[w]? ≠ some (.running i) := by
          rw [h5]
          intro hx
          exact h12 (by injection hx with hx; injection hx with hx; exact hx.symm)
        rcases h.pool with h14 | h14 | ⟨v, b, h14⟩
        · rw [h14] at h11; exact h13 h11
        · rw [execute_workers h14] at h11; exact h13 h11
        · have := (work_begins h14 h13 h11).2
          rw [h5] at this
          cases this
      · exact ⟨u + 1, by omega, d', h9, h10⟩

/-- A connection that was at rest is at rest whenever nobody uses it, if only what keeps it at rest happens to it. -/
theorem ANet.Run.rests (r : ANet.Run T prof rt n s₀) (hT : RawIO.Honest T) (hR : RawIO.ReadsWithin T) {P E : Traced T → Prop} (hP : RawKeeps P)
    (hE : ∀ (t t' : Traced T) n, P t → RawIO.read t n = (.error .wouldBlock, t') → E t') {k t : Nat} {c : AConn (Traced T)} (hc : (r.at_ t).conns[k]? = some c) (h0 : E c.raw)
    (hk : ∀ u ≥ t, ∀ c, (r.at_ u).conns[k]? = some c → P c.raw) (hch : ∀ u ≥ t, ∀ env, r.act u = some (.change k env) → ∀ x, E x → E { x with raw := env x.raw })
    {u : Nat} (hu : t ≤ u) {c' : AConn (Traced T)} (hc' : (r.at_ u).conns[k]? = some c') (hl : c'.lock = none) {conn : SharedConn (ServerStack (Traced T))} (hs : c'.slot = .live conn) : E c'.raw := by
  have key : ∀ d, (r.at_ (t + d)).Resting fun j x => j = k → E x := by
    intro d
    induction d with
    | zero =>
      intro j cj conn hj hs hw
      have := resting (E := fun _ => True) hT hR (fun _ _ _ _ => trivial) (fun a _ => by cases a <;> simp [AAct.Allowed]) (r.after (t + 0)) j cj conn hj hs hw
      refine ⟨this.1, fun he => ?_⟩
      subst he
      rw [Nat.add_zero, hc] at hj
      cases hj
      rw [AConn.raw, hs] at h0
      exact h0
    | succ d ih =>
      have hn := r.next (t + d)
      cases ha : r.act (t + d) with
      | none =>
        rw [ha] at hn
        rw [← Nat.add_assoc, show r.at_ (t + d + 1) = r.at_ (t + d) from hn]
        exact ih
      | some a =>
        rw [ha] at hn
        obtain ⟨cd, hcd, -⟩ := r.conns hc (u := t + d) (by omega)
        refine resting_step (P := fun j x => j = k → P x) (fun j => ?_) (fun j x x' m h1 h2 h3 => hE x x' m (h1 h3) h2) (fun j c w hc hw => locked hT hR (r.after (t + d)) hc hw)
          (fun j cj hj he => by subst he; exact hk (t + d) (by omega) cj hj) ih ⟨fun _ _ _ h => h, fun offer grow growOk x e he => ?_, fun j env e x hx he => ?_⟩ hn
        · by_cases hj : j = k
          · exact { write := fun h1 h2 _ => hP.write h1 (h2 hj), flush := fun h1 h2 _ => hP.flush h1 (h2 hj), read := fun h1 h2 _ => hP.read h1 (h2 hj), drop := fun h2 _ => hP.drop (h2 hj) }
          · exact { write := fun _ _ h => absurd h hj, flush := fun _ _ h => absurd h hj, read := fun _ _ h => absurd h hj, drop := fun _ h => absurd h hj }
        · have := (List.getElem?_eq_some_iff.1 hcd).1
          omega
        · subst he
          exact hch (t + d) (by omega) env (by rw [ha, e]) x (hx rfl)
  obtain ⟨d, rfl⟩ := Nat.le.dest hu
  have := (key d k c' conn hc' hs fun w hw => by rw [hl] at hw; cases hw).2 rfl
  rw [AConn.raw, hs]
  exact this

end Verif
