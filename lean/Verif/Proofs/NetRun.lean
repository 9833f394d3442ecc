import Verif.Proofs.NetWake
import Verif.Props.ThreadPool

/-! What holds in every state that a server can reach, and along its runs. -/

namespace Verif

variable {σ : Type} {prof : Profile} {rt : Router σ}

/-- When no worker is left while the pool is used, each has crashed. -/
theorem Pool.Inv.all_crashed {n : Nat} {s : Pool} (h : s.Inv n) (ho : s.owner = .using) (hc : s.open = false) : s.crashed.length = n := by
  rw [h.crashes, ← h.len]
  apply sumW_eq_length
  intro w hw
  have hd : w.alive = false := by
    rw [Pool.open, List.any_eq_false] at hc
    simpa using hc w hw
  cases w with
  | crashed => rfl
  | failed =>
    have := (h.poison (.inr hw)).1
    rw [ho] at this
    cases this
  | exited =>
    obtain ⟨i, hi⟩ := List.mem_iff_getElem?.1 hw
    have h1 := sumW_le (f := Worker.ends) hi
    rw [← h.terms] at h1
    have h2 : .terminate ∈ s.taken := List.count_pos_iff.1 (by simpa [Worker.ends] using h1)
    obtain ⟨js, k, h3, h4⟩ := h.shape
    rw [ho] at h4
    change k = 0 at h4
    subst h4
    rw [h.msgs] at h3
    have h5 : Msg.terminate ∈ js.map Msg.job ++ List.replicate 0 .terminate := by rw [← h3]; simp [h2]
    simp at h5
  | _ => cases hd

/-- While fewer jobs have panicked than there are workers, the event loop runs. -/
structure Net.Inv (n : Nat) (s : Net σ) : Prop where
  base : s.Base n
  told : s.Told
  up : s.pool.owner = .using ∨ s.pool.crashed.length = n

/-- The steps are steps of the pool, or do nothing to it. -/
theorem NStep.pool {s s' : Net σ} (h : NStep prof rt s s') :
    s'.pool = s.pool ∨ s.pool.step .execute = some s'.pool ∨ ∃ w b, s.pool.step (.work w b) = some s'.pool := by
  cases h with
  | execute _ _ _ hp => exact .inr (.inl hp)
  | fail _ hp => exact .inr (.inl hp)
  | work _ hp => exact .inr (.inr ⟨_, _, hp⟩)
  | enterPoisoned _ _ _ _ _ hp => exact .inr (.inr ⟨_, _, hp⟩)
  | go _ _ _ ha =>
    cases ha with
    | crash _ _ _ hp => exact .inr (.inr ⟨_, _, hp⟩)
    | crashAsk _ _ _ hp => exact .inr (.inr ⟨_, _, hp⟩)
    | leave _ hp => exact .inr (.inr ⟨_, _, hp⟩)
    | _ => exact .inl rfl
  | _ => exact .inl rfl

theorem work_crashed {p p' : Pool} {w : Nat} {b : Bool} (h : p.step (.work w b) = some p') : p.crashed.length ≤ p'.crashed.length := by
  have hs := work_step (show p.work w b = some p' from h)
  cases hs <;> simp

theorem net_inv_step {n : Nat} {s s' : Net σ} (h : s.Inv n) (hs : NStep prof rt s s') : s'.Inv n := by
  have hb' := base_step h.base hs
  refine ⟨hb', told_step h.base h.told hs, ?_⟩
  rcases hs.pool with h1 | h1 | ⟨w, b, h1⟩
  · rw [h1]; exact h.up
  · rcases pool_execute h1 with ⟨h2, -⟩ | ⟨-, h2, h3⟩
    · exact .inl h2
    · right
      rw [h3]
      rcases h.up with h4 | h4
      · exact h.base.pool.inv.all_crashed h4 h2
      · exact h4
  · rw [pool_owner h1]
    rcases h.up with h4 | h4
    · exact .inl h4
    · right
      have h5 := work_crashed h1
      have h6 : s'.pool.crashed.length ≤ n := by
        have := hb'.pool.inv
        rw [this.crashes, ← this.len]
        apply sumW_length
        intro w _
        cases w <;> simp [Worker.isCrashed]
      omega

theorem net_inv_new {n : Nat} {s₀ : σ} {s : Net σ} (h : Net.new n s₀ = some s) : s.Inv n := by
  refine ⟨base_new h, told_new h, .inl ?_⟩
  unfold Net.new at h
  simp only [Option.map_eq_some_iff] at h
  obtain ⟨p, h1, rfl⟩ := h
  unfold Pool.new at h1
  split at h1 <;> cases h1
  rfl

theorem Net.Reach.inv {n : Nat} {s₀ : σ} {s : Net σ} (h : Net.Reach prof rt n s₀ s) : s.Inv n := by
  induction h with
  | new h => exact net_inv_new h
  | step _ hs ih => exact net_inv_step ih (step_nstep hs)

/-- While the server runs, what waits on an open connection will be looked at. -/
theorem Net.Inv.will_read {n : Nat} {s : Net σ} (h : s.Inv n) (hc : s.pool.crashed.length < n) {k : Nat} (ho : s.Open k) (hw : s.Waiting k) :
    s.Edge k ∨ k ∈ s.batch ∨ (∃ j a : Nat, s.jobs[j]? = some (k, a) ∧ .job j ∈ s.pool.queue) ∨ ∃ w, s.WillRead w k := by
  obtain ⟨c, hk, hi, hl⟩ := ho
  obtain ⟨c', conn, hk', hs, ha⟩ := hw
  rw [hk] at hk'; cases hk'
  have hu : s.pool.owner = .using := by
    rcases h.up with h1 | h1
    · exact h1
    · omega
  have hd : c.drained < c.arrived.length := by
    have h1 := (h.told.conn k c hk).drained
    rcases Nat.lt_or_ge c.drained c.arrived.length with h2 | h2
    · exact h2
    · exact absurd ((h.told.conn k c hk).quiet conn hs (by omega)) ha
  rcases h.told.told hu k c hk hi with h1 | h1 | ⟨j, h1⟩
  · exact .inl ⟨c, hk, h1⟩
  · exact .inr (.inl h1)
  · have hj : j ∈ s.pool.submitted := by
      have h2 := (List.getElem?_eq_some_iff.1 h1).1
      rw [h.base.jobs] at h2
      unfold Pool.submitted at h2 ⊢
      rw [h.base.pool.inv.ids]
      exact List.mem_range.2 h2
    rcases C40_not_lost h.base.pool hc j hj with h2 | ⟨x, h2, h3⟩ | h2 | h2
    · exact .inr (.inr (.inl ⟨j, _, h1, h2⟩))
    · obtain ⟨w, hw⟩ := List.mem_iff_getElem?.1 h2
      refine .inr (.inr (.inr ⟨w, j, _, h1, ?_⟩))
      rcases h3 with rfl | rfl | rfl
      · exact .inl hw
      · exact .inr (.inl hw)
      · refine .inr (.inr ⟨hw, fun hp => ?_⟩)
        have := h.told.left w j k _ c h1 hk hw hp hl
        omega
    · have := h.told.done j k _ c h1 hk h2 hl
      omega
    · rw [h.told.dead j k _ c h1 hk h2] at hl
      cases hl

/-! ## Runs -/

/-- What only grows. -/
theorem NStep.mono {n : Nat} {s s' : Net σ} (hi : s.Inv n) (h : NStep prof rt s s') {k : Nat} {c : NConn σ} (hc : s.conns[k]? = some c) :
    ∃ c', s'.conns[k]? = some c' ∧ c.arrived.length ≤ c'.arrived.length ∧
      (c'.drained = c.drained ∨ c'.drained = c'.arrived.length ∧ c.drained ≤ c'.drained) := by
  have set : ∀ {s' : Net σ} {k' : Nat} {d d' : NConn σ}, s.conns[k']? = some d → s'.conns = (s.setConn k' d').conns →
      d.arrived.length ≤ d'.arrived.length → (d'.drained = d.drained ∨ d'.drained = d'.arrived.length ∧ d.drained ≤ d'.drained) →
      ∃ c', s'.conns[k]? = some c' ∧ c.arrived.length ≤ c'.arrived.length ∧
        (c'.drained = c.drained ∨ c'.drained = c'.arrived.length ∧ c.drained ≤ c'.drained) := by
    intro s' k' d d' hd he h1 h2
    rw [he]
    simp only [Net.setConn, List.getElem?_set]
    by_cases hk : k' = k
    · subst hk
      rw [hc] at hd; cases hd
      exact ⟨d', by simp [(List.getElem?_eq_some_iff.1 hc).1], h1, h2⟩
    · exact ⟨c, by simp [hk, hc], Nat.le_refl _, .inl rfl⟩
  cases h with
  | accept => exact ⟨c, by dsimp only; rw [List.getElem?_append_left (List.getElem?_eq_some_iff.1 hc).1]; exact hc, Nat.le_refl _, .inl rfl⟩
  | arrive hd => exact set hd rfl (by simp) (.inl rfl)
  | notify hd => exact set hd rfl (Nat.le_refl _) (.inl rfl)
  | poll =>
    simp only [List.getElem?_mapIdx, hc, Option.map_some, Option.some.injEq, exists_eq_left']
    split <;> exact ⟨Nat.le_refl _, .inl rfl⟩
  | skip => exact ⟨c, hc, Nat.le_refl _, .inl rfl⟩
  | remove hd => exact set hd rfl (Nat.le_refl _) (.inl rfl)
  | execute => exact ⟨c, hc, Nat.le_refl _, .inl rfl⟩
  | fail => exact ⟨c, hc, Nat.le_refl _, .inl rfl⟩
  | work => exact ⟨c, hc, Nat.le_refl _, .inl rfl⟩
  | enterPoisoned _ hd => exact set hd rfl (Nat.le_refl _) (.inl rfl)
  | enterGone _ hd => exact set hd rfl (Nat.le_refl _) (.inl rfl)
  | enter _ hd => exact set hd rfl (Nat.le_refl _) (.inl rfl)
  | @go w k' d _ _ hd _ ha =>
    cases ha with
    | @move p slot e hm =>
      refine set hd rfl (Nat.le_refl _) ?_
      have h2 := (hm.told (hi.told.conn k' d hd)).2.1
      dsimp only
      generalize s.phase w = q at hm
      generalize d.slot = x at hm
      generalize d.arrived.length = a at hm
      generalize d.drained = e' at hm h2
      cases hm with
      | notReady => exact .inr ⟨rfl, h2⟩
      | _ => exact .inl rfl
    | _ => exact set hd rfl (Nat.le_refl _) (.inl rfl)

theorem NStep.jobs {s s' : Net σ} (h : NStep prof rt s s') {j : Nat} {x : Nat × Nat} (hj : s.jobs[j]? = some x) : s'.jobs[j]? = some x := by
  cases h with
  | execute => dsimp only; rw [List.getElem?_append_left (List.getElem?_eq_some_iff.1 hj).1]; exact hj
  | go _ _ _ ha => cases ha <;> exact hj
  | _ => exact hj

/-- What becomes of an event that was reported. -/
theorem NStep.batch {s s' : Net σ} (h : NStep prof rt s s') {k : Nat} {c : NConn σ} (hc : s.conns[k]? = some c) (hk : k ∈ s.batch) :
    s'.pool.owner ≠ .using ∨ ¬ s'.Open k ∨ (∃ j : Nat, s'.jobs[j]? = some (k, c.arrived.length)) ∨
      k ∈ s'.batch ∧ s'.batch.length ≤ s.batch.length := by
  cases h with
  | poll hb => rw [hb] at hk; cases hk
  | @skip k' b d hd hi hb =>
    rcases hb with hb | hb
    · rw [hb] at hk ⊢; exact .inr (.inr (.inr ⟨hk, Nat.le_refl _⟩))
    · rw [hb] at hk ⊢
      rcases List.mem_cons.1 hk with rfl | hk
      · refine .inr (.inl ?_)
        rintro ⟨e, h1, h2, -⟩
        dsimp only at h1
        rw [hd] at h1; cases h1
        rw [hi] at h2; cases h2
      · exact .inr (.inr (.inr ⟨hk, by simp⟩))
  | @remove k' b d hd hb =>
    rcases hb with hb | hb
    · rw [hb] at hk ⊢; exact .inr (.inr (.inr ⟨hk, Nat.le_refl _⟩))
    · rw [hb] at hk ⊢
      rcases List.mem_cons.1 hk with rfl | hk
      · refine .inr (.inl ?_)
        rintro ⟨e, h1, h2, -⟩
        rcases setConn_get (s := { s with batch := b }) hd h1 with ⟨-, rfl⟩ | ⟨hne, -⟩
        · cases h2
        · exact absurd rfl hne
      · exact .inr (.inr (.inr ⟨hk, by simp [Net.setConn]⟩))
  | @execute k' b d pool hd hi hb hp ho =>
    rcases hb with hb | hb
    · rw [hb] at hk ⊢; exact .inr (.inr (.inr ⟨hk, Nat.le_refl _⟩))
    · rw [hb] at hk ⊢
      rcases List.mem_cons.1 hk with rfl | hk
      · rw [hc] at hd; cases hd
        exact .inr (.inr (.inl ⟨s.jobs.length, by simp⟩))
      · exact .inr (.inr (.inr ⟨hk, by simp⟩))
  | fail _ _ ho => exact .inl ho
  | go _ _ _ ha => cases ha <;> exact .inr (.inr (.inr ⟨hk, Nat.le_refl _⟩))
  | _ => exact .inr (.inr (.inr ⟨hk, Nat.le_refl _⟩))

variable {n : Nat} {s₀ : σ}

theorem Net.Run.nstep (r : Net.Run prof rt n s₀) (t : Nat) : r.at_ (t + 1) = r.at_ t ∨ NStep prof rt (r.at_ t) (r.at_ (t + 1)) := by
  have h := r.next t
  cases ha : r.act t with
  | none => rw [ha] at h; exact .inl h
  | some a => rw [ha] at h; exact .inr (step_nstep h)

theorem Net.Run.inv (r : Net.Run prof rt n s₀) (t : Nat) : (r.at_ t).Inv n := by
  induction t with
  | zero => exact net_inv_new r.start
  | succ t ih =>
    rcases r.nstep t with h | h
    · rw [h]; exact ih
    · exact net_inv_step ih h

theorem Net.Run.pool_next (r : Net.Run prof rt n s₀) (t : Nat) : ∃ a : Option Act, match a with
    | none => (r.at_ (t + 1)).pool = (r.at_ t).pool
    | some a => (r.at_ t).pool.step a = some (r.at_ (t + 1)).pool := by
  rcases r.nstep t with h | h
  · exact ⟨none, by rw [h]⟩
  · rcases h.pool with h | h | ⟨w, b, h⟩
    · exact ⟨none, h⟩
    · exact ⟨some .execute, h⟩
    · exact ⟨some (.work w b), h⟩

/-- The run of its thread pool. -/
noncomputable def Net.Run.poolRun (r : Net.Run prof rt n s₀) : Pool.Run n where
  at_ t := (r.at_ t).pool
  act t := Classical.choose (r.pool_next t)
  start := by
    have h := r.start
    unfold Net.new at h
    simp only [Option.map_eq_some_iff] at h
    obtain ⟨p, h1, h2⟩ := h
    rw [← h2]; exact h1
  next t := Classical.choose_spec (r.pool_next t)

theorem Net.Run.poolRun_act (r : Net.Run prof rt n s₀) {t w : Nat}
    (h : (r.at_ (t + 1)).pool.workers[w]? ≠ (r.at_ t).pool.workers[w]?) : ∃ b, r.poolRun.act t = some (.work w b) := by
  have hn := r.poolRun.next t
  cases ha : r.poolRun.act t with
  | none =>
    rw [ha] at hn
    exact absurd (congrArg (fun p : Pool => p.workers[w]?) hn) h
  | some a =>
    rw [ha] at hn
    rcases step_cases hn with ⟨i, b, rfl, hs⟩ | hs
    · by_cases hi : i = w
      · exact ⟨b, by rw [hi]⟩
      · exact absurd (work_other hs hi) h
    · exact absurd (by rw [show (r.at_ (t + 1)).pool.workers = (r.at_ t).pool.workers from own_workers hs]) h

/-- Along a run something changes at a step. -/
theorem exists_change {P : Nat → Prop} {t t' : Nat} (h : t ≤ t') (h0 : P t) (h1 : ¬ P t') : ∃ u ≥ t, P u ∧ ¬ P (u + 1) := by
  induction t' with
  | zero =>
    have : t = 0 := by omega
    subst this
    exact absurd h0 h1
  | succ t' ih =>
    by_cases hp : P t'
    · by_cases ht : t ≤ t'
      · exact ⟨t', ht, hp, h1⟩
      · have : t = t' + 1 := by omega
        subst this
        exact absurd h0 h1
    · by_cases ht : t ≤ t'
      · exact ih ht hp
      · have : t = t' + 1 := by omega
        subst this
        exact absurd h0 h1

theorem work_changes {p p' : Pool} {w : Nat} {b : Bool} (h : p.step (.work w b) = some p') : p'.workers[w]? ≠ p.workers[w]? := by
  have hs := work_step (show p.work w b = some p' from h)
  cases hs <;> (rename_i hw; have h0 := ‹p.workers[w]? = some _›; have := (List.getElem?_eq_some_iff.1 h0).1; rw [h0]; simp [this])

theorem Net.Run.pool_fair (r : Net.Run prof rt n s₀) (hf : r.Fair) : r.poolRun.Fair := by
  intro w t hc
  by_cases hr : ∃ t' ≥ t, ∃ j, (r.at_ t').pool.workers[w]? = some (.running j)
  · obtain ⟨t', h1, j, h2⟩ := hr
    obtain ⟨t'', h3, h4⟩ := hf.returns t' w j h2
    obtain ⟨u, h5, h6, h7⟩ := exists_change (P := fun t => (r.at_ t).pool.workers[w]? = some (.running j)) h3 h2 h4
    obtain ⟨b, h8⟩ := r.poolRun_act (t := u) (w := w) (by rw [h6]; exact h7)
    exact ⟨u, by omega, b, h8⟩
  · have hn : ∀ t' ≥ t, ∀ j, (r.at_ t').pool.workers[w]? ≠ some (.running j) := fun t' h1 j h2 => hr ⟨t', h1, j, h2⟩
    obtain ⟨t', h1, h2⟩ := hf.workers t w (by
      intro t' h1
      obtain ⟨p, hp⟩ := hc t' h1
      have hp' : (r.at_ t').pool.work w false ≠ none := by
        intro h0
        apply hp
        revert h0
        show (r.at_ t').pool.work w false = none → (r.at_ t').pool.work w p = none
        unfold Pool.work
        split <;> try exact id
        next j hj => exact absurd hj (hn t' h1 j)
      simp only [Net.step]
      split
      · next j hj => exact absurd hj (hn t' h1 j)
      · intro h0
        exact hp' (by simpa [Pool.step] using h0))
    have h3 := r.next t'
    rw [h2] at h3
    simp only [Net.step] at h3
    split at h3
    · cases h3
    · simp only [Option.map_eq_some_iff] at h3
      obtain ⟨p, h4, h5⟩ := h3
      obtain ⟨b, h6⟩ := r.poolRun_act (t := t') (w := w) (by rw [← h5]; exact work_changes h4)
      exact ⟨t', h1, b, h6⟩

theorem Net.Run.mono (r : Net.Run prof rt n s₀) {t k : Nat} {c : NConn σ} (hc : (r.at_ t).conns[k]? = some c) (d : Nat) :
    ∃ c', (r.at_ (t + d)).conns[k]? = some c' ∧ c.arrived.length ≤ c'.arrived.length ∧ c.drained ≤ c'.drained := by
  induction d with
  | zero => exact ⟨c, hc, Nat.le_refl _, Nat.le_refl _⟩
  | succ d ih =>
    obtain ⟨c', h1, h2, h3⟩ := ih
    rcases r.nstep (t + d) with h | h
    · exact ⟨c', by rw [← Nat.add_assoc, h]; exact h1, h2, h3⟩
    · obtain ⟨c'', h4, h5, h6⟩ := h.mono (r.inv _) h1
      exact ⟨c'', h4, by omega, by omega⟩

theorem Net.Run.jobs (r : Net.Run prof rt n s₀) {t j : Nat} {x : Nat × Nat} (hj : (r.at_ t).jobs[j]? = some x) (d : Nat) :
    (r.at_ (t + d)).jobs[j]? = some x := by
  induction d with
  | zero => exact hj
  | succ d ih =>
    rcases r.nstep (t + d) with h | h
    · rw [← Nat.add_assoc, h]; exact ih
    · exact h.jobs ih

theorem Net.Run.using (r : Net.Run prof rt n s₀) (hc : ∀ t, (r.at_ t).pool.crashed.length < n) (t : Nat) : (r.at_ t).pool.owner = .using := by
  rcases (r.inv t).up with h | h
  · exact h
  · have := hc t; omega

theorem dispatch_batch {s s' : Net σ} {b : Bool} (hn : s.step prof rt (.dispatch b) = some s') : s'.batch.length < s.batch.length := by
  simp only [Net.step] at hn
  split at hn
  · cases hn
  · next k' ks hb =>
    rw [hb]
    unfold Net.onEvent at hn
    repeat' split at hn
    all_goals first | (cases hn; done) | (cases hn; simp [Net.setConn])

/-- An event that was reported leads to a job. -/
theorem Net.Run.batch_job (r : Net.Run prof rt n s₀) (hf : r.Fair) (hcr : ∀ t, (r.at_ t).pool.crashed.length < n) {k t₀ : Nat} {c₀ : NConn σ}
    (hc₀ : (r.at_ t₀).conns[k]? = some c₀) (m t : Nat) (ht : t₀ ≤ t) (hk : k ∈ (r.at_ t).batch) (hm : (r.at_ t).batch.length ≤ m) :
    ∃ t' ≥ t, ¬ (r.at_ t').Open k ∨ ∃ j a : Nat, (r.at_ t').jobs[j]? = some (k, a) ∧ c₀.arrived.length ≤ a := by
  induction m generalizing t with
  | zero =>
    have : (r.at_ t).batch = [] := List.length_eq_zero_iff.1 (by omega)
    rw [this] at hk; cases hk
  | succ m ih =>
    obtain ⟨t', h1, b, h2⟩ := hf.dispatched t (fun h => by rw [h] at hk; cases hk)
    have key : ∀ d, (∃ u ≥ t, ¬ (r.at_ u).Open k ∨ ∃ j a : Nat, (r.at_ u).jobs[j]? = some (k, a) ∧ c₀.arrived.length ≤ a) ∨
        k ∈ (r.at_ (t + d)).batch ∧ (r.at_ (t + d)).batch.length ≤ m + 1 := by
      intro d
      induction d with
      | zero => exact .inr ⟨hk, hm⟩
      | succ d ihd =>
        rcases ihd with h | ⟨h3, h4⟩
        · exact .inl h
        · rcases r.nstep (t + d) with h | h
          · rw [← Nat.add_assoc, h]; exact .inr ⟨h3, h4⟩
          · obtain ⟨c, hc, h5, -⟩ := r.mono hc₀ (t + d - t₀)
            rw [show t₀ + (t + d - t₀) = t + d by omega] at hc
            rcases h.batch hc h3 with h6 | h6 | ⟨j, h6⟩ | ⟨h6, h7⟩
            · exact absurd (r.using hcr _) h6
            · exact .inl ⟨t + d + 1, by omega, .inl h6⟩
            · exact .inl ⟨t + d + 1, by omega, .inr ⟨j, _, h6, h5⟩⟩
            · exact .inr ⟨h6, by rw [← Nat.add_assoc]; omega⟩
    rcases key (t' - t) with h | ⟨h3, h4⟩
    · exact h
    · rw [show t + (t' - t) = t' by omega] at h3 h4
      have hn := r.next t'
      rw [h2] at hn
      rcases r.nstep t' with h | h
      · exfalso
        have hl := dispatch_batch hn
        rw [h] at hl
        omega
      · obtain ⟨c, hc, h5, -⟩ := r.mono hc₀ (t' - t₀)
        rw [show t₀ + (t' - t₀) = t' by omega] at hc
        rcases h.batch hc h3 with h6 | h6 | ⟨j, h6⟩ | ⟨h6, h7⟩
        · exact absurd (r.using hcr _) h6
        · exact ⟨t' + 1, by omega, .inl h6⟩
        · exact ⟨t' + 1, by omega, .inr ⟨j, _, h6, h5⟩⟩
        · have hl := dispatch_batch hn
          obtain ⟨u, h8, h9⟩ := ih (t' + 1) (by omega) h6 (by omega)
          exact ⟨u, by omega, h9⟩

/-- Whatever has arrived at some time is looked at some time later, or the connection is closed. -/
theorem Net.Run.drains (r : Net.Run prof rt n s₀) (hf : r.Fair) (hcr : ∀ t, (r.at_ t).pool.crashed.length < n) {k t : Nat} {c : NConn σ}
    (hc : (r.at_ t).conns[k]? = some c) : ∃ t' ≥ t, ¬ (r.at_ t').Open k ∨ ∃ c', (r.at_ t').conns[k]? = some c' ∧ c.arrived.length ≤ c'.drained := by
  by_cases ho : (r.at_ t).Open k
  · have hjob : ∃ t' ≥ t, ¬ (r.at_ t').Open k ∨ ∃ j a : Nat, (r.at_ t').jobs[j]? = some (k, a) ∧ c.arrived.length ≤ a := by
      obtain ⟨c', h1, h2, h3⟩ := ho
      rw [hc] at h1; cases h1
      rcases (r.inv t).told.told (r.using hcr t) k c hc h2 with h4 | h4 | ⟨j, h4⟩
      · obtain ⟨t', h5, ks, h6, h7⟩ := hf.polled t k ⟨c, hc, h4⟩
        have hn := r.next t'
        rw [h6] at hn
        simp only [Net.step] at hn
        split at hn
        · simp only [Option.some.injEq] at hn
          obtain ⟨u, h8, h9⟩ := r.batch_job hf hcr hc _ (t' + 1) (by omega) (by rw [← hn]; exact h7) (Nat.le_refl _)
          exact ⟨u, by omega, h9⟩
        · cases hn
      · exact r.batch_job hf hcr hc _ t (Nat.le_refl _) h4 (Nat.le_refl _)
      · exact ⟨t, Nat.le_refl _, .inr ⟨j, _, h4, Nat.le_refl _⟩⟩
    obtain ⟨t', h1, h2 | ⟨j, a, h2, h3⟩⟩ := hjob
    · exact ⟨t', h1, .inl h2⟩
    · have hj : j ∈ (r.poolRun.at_ t').submitted := by
        have h4 := (List.getElem?_eq_some_iff.1 h2).1
        rw [(r.inv t').base.jobs] at h4
        show j ∈ (r.at_ t').pool.submitted
        unfold Pool.submitted at h4 ⊢
        rw [(r.inv t').base.pool.inv.ids]
        exact List.mem_range.2 h4
      obtain ⟨u, h5, h6⟩ := job_ends r.poolRun (r.pool_fair hf) hcr hj
      obtain ⟨c', h7, -⟩ := r.mono hc (u - t)
      rw [show t + (u - t) = u by omega] at h7
      have h8 := r.jobs h2 (u - t')
      rw [show t' + (u - t') = u by omega] at h8
      refine ⟨u, by omega, ?_⟩
      by_cases hl : Net.isLive c'.slot = true
      · right
        refine ⟨c', h7, ?_⟩
        rcases h6 with h6 | h6
        · have := (r.inv u).told.done j k a c' h8 h7 h6 hl
          omega
        · rw [(r.inv u).told.dead j k a c' h8 h7 h6] at hl
          cases hl
      · left
        rintro ⟨d, h9, -, h10⟩
        rw [h7] at h9; cases h9
        exact hl h10
  · exact ⟨t, Nat.le_refl _, .inl ho⟩

/-- At some time nothing is waiting. -/
theorem Net.Run.quiet (r : Net.Run prof rt n s₀) (hf : r.Fair) (hcr : ∀ t, (r.at_ t).pool.crashed.length < n) (k t : Nat) :
    ∃ t' ≥ t, ¬ (r.at_ t').Open k ∨ ¬ (r.at_ t').Waiting k := by
  cases hc : (r.at_ t).conns[k]? with
  | none => exact ⟨t, Nat.le_refl _, .inl (fun ⟨c, h, _⟩ => by rw [hc] at h; cases h)⟩
  | some c =>
    have quiet : ∀ u c', (r.at_ u).conns[k]? = some c' → c'.drained = c'.arrived.length → ¬ (r.at_ u).Waiting k := by
      rintro u c' h1 h2 ⟨d, conn, h3, h4, h5⟩
      rw [h1] at h3; cases h3
      exact h5 (((r.inv u).told.conn k c' h1).quiet conn h4 h2)
    obtain ⟨t', h1, h2 | ⟨c', h2, h3⟩⟩ := r.drains hf hcr hc
    · exact ⟨t', h1, .inl h2⟩
    · by_cases hd : c.drained = c.arrived.length
      · exact ⟨t, Nat.le_refl _, .inr (quiet t c hc hd)⟩
      · have hlt : c.drained < c.arrived.length := by
          have := ((r.inv t).told.conn k c hc).drained
          omega
        obtain ⟨u, h4, ⟨d, h5, h6⟩, h7⟩ := exists_change (P := fun t => ∃ d, (r.at_ t).conns[k]? = some d ∧ d.drained < c.arrived.length) h1
          ⟨c, hc, hlt⟩ (by rintro ⟨d, h4, h5⟩; rw [h2] at h4; cases h4; omega)
        rcases r.nstep u with h | h
        · rw [h] at h7; exact absurd ⟨d, h5, h6⟩ h7
        · obtain ⟨d', h8, h9, h10⟩ := h.mono (r.inv u) h5
          refine ⟨u + 1, by omega, .inr (quiet _ d' h8 ?_)⟩
          rcases h10 with h10 | h10
          · exact absurd ⟨d', h8, by omega⟩ h7
          · exact h10.1

end Verif
