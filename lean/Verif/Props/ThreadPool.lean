import Verif.Proofs.ThreadPool

/-! C40 to C42: the thread pool. -/

namespace Verif

/-! ## C40 -/

theorem Pool.Inv.taken_prefix {n : Nat} {s : Pool} (h : s.Inv n) : s.taken <+: s.sent :=
  ⟨s.lost ++ s.queue, by rw [h.msgs, List.append_assoc]⟩

theorem jobsOf_prefix {a b : List Msg} (h : a <+: b) : jobsOf a <+: jobsOf b := by
  obtain ⟨c, rfl⟩ := h
  exact ⟨jobsOf c, (jobsOf_append _ _).symm⟩

theorem Pool.Inv.counts {n : Nat} {s : Pool} (h : s.Inv n) (j : Nat) :
    s.submitted.count j ≤ 1 ∧ (jobsOf s.taken).count j ≤ s.submitted.count j ∧ s.started.count j ≤ (jobsOf s.taken).count j ∧
      s.finished.count j + s.crashed.count j ≤ s.started.count j := by
  refine ⟨?_, (jobsOf_prefix h.taken_prefix).sublist.count_le j, ?_, ?_⟩
  · unfold Pool.submitted
    rw [h.ids]
    exact List.nodup_iff_count.1 List.nodup_range j
  · have := h.started j; omega
  · have := h.running j; omega

/-- C40: each job is called at most once, and only if it was submitted; it returns or panics at most once. -/
theorem C40_at_most_once {n : Nat} {s : Pool} (h : Pool.Reach n s) :
    s.submitted.Nodup ∧ s.started.Nodup ∧ (∀ j ∈ s.started, j ∈ s.submitted) ∧ (s.finished ++ s.crashed).Nodup ∧
      ∀ j ∈ s.finished ++ s.crashed, j ∈ s.started := by
  have hc := h.inv.counts
  refine ⟨List.nodup_iff_count.2 fun j => (hc j).1, List.nodup_iff_count.2 fun j => ?_, fun j hj => ?_,
    List.nodup_iff_count.2 fun j => ?_, fun j hj => ?_⟩
  · have := hc j; omega
  · have := hc j
    have := List.count_pos_iff.2 hj
    exact List.count_pos_iff.1 (by omega)
  · have := hc j
    rw [List.count_append]; omega
  · have := hc j
    have := List.count_pos_iff.2 hj
    rw [List.count_append] at this
    exact List.count_pos_iff.1 (by omega)

theorem sumW_two {f : Worker → Nat} {ws : List Worker} {i k : Nat} {x y : Worker} (hx : ws[i]? = some x) (hy : ws[k]? = some y)
    (hik : i ≠ k) : f x + f y ≤ sumW f ws := by
  induction ws generalizing i k with
  | nil => simp at hx
  | cons w ws ih =>
    cases i with
    | zero =>
      cases k with
      | zero => exact absurd rfl hik
      | succ k =>
        simp only [List.getElem?_cons_zero, Option.some.injEq, List.getElem?_cons_succ] at hx hy
        subst hx
        have := sumW_le (f := f) hy
        simp only [sumW, List.map_cons, List.sum_cons] at this ⊢
        omega
    | succ i =>
      cases k with
      | zero =>
        simp only [List.getElem?_cons_zero, Option.some.injEq, List.getElem?_cons_succ] at hx hy
        subst hy
        have := sumW_le (f := f) hx
        simp only [sumW, List.map_cons, List.sum_cons] at this ⊢
        omega
      | succ k =>
        simp only [List.getElem?_cons_succ] at hx hy
        have := ih hx hy (by omega)
        simp only [sumW, List.map_cons, List.sum_cons] at this ⊢
        omega

/-- C40: a job is run by one worker only, and is not run again. -/
theorem C40_one_worker {n : Nat} {s : Pool} (h : Pool.Reach n s) {i k j : Nat} (hi : s.workers[i]? = some (.running j)) :
    (s.workers[k]? = some (.running j) → k = i) ∧ j ∉ s.finished ∧ j ∉ s.crashed := by
  have hc := h.inv.counts j
  have hr := h.inv.running j
  have h1 := sumW_le (f := Worker.run j) hi
  simp only [Worker.run, if_true] at h1
  refine ⟨fun hk => ?_, fun hf => ?_, fun hf => ?_⟩
  · by_cases hik : i = k
    · exact hik.symm
    · have := sumW_two (f := Worker.run j) hi hk hik
      simp only [Worker.run, if_true] at this
      omega
  · have := List.count_pos_iff.2 hf; omega
  · have := List.count_pos_iff.2 hf; omega

/-- C40: the workers receive the jobs in the order in which they were submitted. -/
theorem C40_received_in_order_partial {n : Nat} {s : Pool} (h : Pool.Reach n s) : jobsOf s.taken <+: s.submitted :=
  jobsOf_prefix h.inv.taken_prefix

/-- The jobs received by a worker but not called yet. -/
def Worker.pendList : Worker → List Nat
  | .received m | .matching m => jobsOf [m]
  | _ => []

/-- C40: with one worker the jobs are called in the order in which they were submitted. -/
theorem C40_started_in_order_partial {s : Pool} (h : Pool.Reach 1 s) : s.started <+: s.submitted := by
  have key : ∃ w, s.workers = [w] ∧ jobsOf s.taken = s.started ++ w.pendList := by
    induction h with
    | new h => cases h; exact ⟨.idle, rfl, rfl⟩
    | step _ hs ih =>
      obtain ⟨w, h1, h2⟩ := ih
      rcases step_cases hs with ⟨i, p, -, hs⟩ | hs
      · have hi : i = 0 := by
          obtain ⟨w', _, h3, -, -⟩ := work_self hs
          have := (List.getElem?_eq_some_iff.1 h3).1
          rw [h1] at this
          simpa using this
        subst hi
        cases hs <;> simp_all [Worker.pendList, jobsOf_append]
      · rw [own_workers hs]
        refine ⟨w, h1, ?_⟩
        cases hs <;> exact h2
  obtain ⟨w, -, h2⟩ := key
  exact (show s.started <+: jobsOf s.taken from ⟨w.pendList, h2.symm⟩).trans (C40_received_in_order_partial h)

/-- Runs the pool. -/
def Pool.runActs (s : Pool) : List Act → Option Pool
  | [] => some s
  | a :: as => (s.step a).bind fun s => s.runActs as

theorem Pool.runActs_reach {n : Nat} {s s' : Pool} {as : List Act} (h : Pool.Reach n s) (hs : s.runActs as = some s') : Pool.Reach n s' := by
  induction as generalizing s with
  | nil => cases hs; exact h
  | cons a as ih =>
    simp only [Pool.runActs, Option.bind_eq_some_iff] at hs
    obtain ⟨s1, h1, h2⟩ := hs
    exact ih (.step h h1) h2

theorem Pool.reach_of {n : Nat} {as : List Act} {s' : Pool} (hs : (Pool.new n).bind (fun s => s.runActs as) = some s') : Pool.Reach n s' := by
  rw [Option.bind_eq_some_iff] at hs
  obtain ⟨s, h1, h2⟩ := hs
  exact Pool.runActs_reach (.new h1) h2

/-- C40 fails as far as the order of the calls goes: with two workers the second job can be called before the first. The first
worker has received the first job and released the mutex, but has not called the job yet. -/
theorem C40_started_order_false : ∃ s, Pool.Reach 2 s ∧ s.submitted = [0, 1] ∧ s.started = [1, 0] :=
  ⟨_, Pool.reach_of (as := [.execute, .execute, .work 0 false, .work 0 false, .work 0 false, .work 1 false, .work 1 false, .work 1 false,
    .work 1 false, .work 0 false]) rfl, rfl, rfl⟩

theorem Worker.run_pos {j : Nat} {w : Worker} (h : 0 < w.run j) : w = .running j := by
  cases w with
  | running k =>
    simp only [Worker.run] at h
    split at h
    · next hk => rw [hk]
    · cases h
  | _ => cases h

theorem Worker.pend_pos {j : Nat} {w : Worker} (h : 0 < w.pend j) : w = .received (.job j) ∨ w = .matching (.job j) := by
  cases w with
  | received m =>
    cases m with
    | terminate => cases h
    | job k =>
      simp only [Worker.pend] at h
      split at h
      · next hk => exact .inl (by rw [hk])
      · cases h
  | matching m =>
    cases m with
    | terminate => cases h
    | job k =>
      simp only [Worker.pend] at h
      split at h
      · next hk => exact .inr (by rw [hk])
      · cases h
  | _ => cases h

/-- C40: unless as many jobs have panicked as there are workers, no job is lost: each is in the channel, with a worker, or
has ended. -/
theorem C40_not_lost {n : Nat} {s : Pool} (h : Pool.Reach n s) (hc : s.crashed.length < n) :
    ∀ j ∈ s.submitted, .job j ∈ s.queue ∨ (∃ w ∈ s.workers, w = .received (.job j) ∨ w = .matching (.job j) ∨ w = .running j) ∨
      j ∈ s.finished ∨ j ∈ s.crashed := by
  intro j hj
  have hi := h.inv
  have hl : jobsOf s.lost = [] := by
    by_cases hl : jobsOf s.lost = []
    · exact hl
    · have := hi.lostJobs hl; omega
  unfold Pool.submitted at hj
  rw [hi.msgs, jobsOf_append, jobsOf_append, hl, List.append_nil, List.mem_append] at hj
  rcases hj with hj | hj
  · right
    have h1 := List.count_pos_iff.2 hj
    rw [hi.started j] at h1
    rcases Nat.eq_zero_or_pos (sumW (Worker.pend j) s.workers) with h0 | h0
    · rw [hi.running j] at h1
      rcases Nat.eq_zero_or_pos (sumW (Worker.run j) s.workers) with h2 | h2
      · right
        rcases Nat.eq_zero_or_pos (s.finished.count j) with h3 | h3
        · exact .inr (List.count_pos_iff.1 (by omega))
        · exact .inl (List.count_pos_iff.1 h3)
      · left
        obtain ⟨i, x, h3, h4⟩ := sumW_pos h2
        exact ⟨x, List.mem_iff_getElem?.2 ⟨i, h3⟩, .inr (.inr (Worker.run_pos h4))⟩
    · left
      obtain ⟨i, x, h3, h4⟩ := sumW_pos h0
      refine ⟨x, List.mem_iff_getElem?.2 ⟨i, h3⟩, ?_⟩
      rcases Worker.pend_pos h4 with rfl | rfl <;> simp
  · left
    simp only [jobsOf, List.mem_filterMap] at hj
    obtain ⟨m, h1, h2⟩ := hj
    cases m with
    | job k => cases h2; exact h1
    | terminate => cases h2

/-! ### Every job runs -/

theorem all_eventually {P : Nat → Nat → Prop} {n t : Nat} (h : ∀ i < n, ∃ T ≥ t, ∀ t' ≥ T, P i t') : ∃ T ≥ t, ∀ i < n, ∀ t' ≥ T, P i t' := by
  induction n with
  | zero => exact ⟨t, Nat.le_refl _, fun i hi => absurd hi (by omega)⟩
  | succ n ih =>
    obtain ⟨T, h1, h2⟩ := ih fun i hi => h i (by omega)
    obtain ⟨T', h3, h4⟩ := h n (by omega)
    refine ⟨max T T', by omega, fun i hi t' ht => ?_⟩
    rcases Nat.lt_succ_iff_lt_or_eq.1 hi with hi | rfl
    · exact h2 i hi t' (by omega)
    · exact h4 t' (by omega)

namespace Pool.Run

variable {n : Nat} (r : Pool.Run n)

/-- A worker that does not stop comes back to its loop. -/
theorem gets_idle (hf : r.Fair) {t i : Nat} {w : Worker} (hw : (r.at_ t).workers[i]? = some w) (hr : w ≠ .receiving)
    (ha : ∀ t' ≥ t, ∀ w, (r.at_ t').workers[i]? = some w → w.alive = true) : ∃ t' ≥ t, (r.at_ t').workers[i]? = some .idle := by
  have run : ∀ t₁ ≥ t, ∀ j, (r.at_ t₁).workers[i]? = some (.running j) → ∃ t' ≥ t, (r.at_ t').workers[i]? = some .idle := by
    intro t₁ h1 j h2
    obtain ⟨t', h3, ⟨h4, -⟩ | ⟨h4, -⟩⟩ := r.acts_running hf h2
    · exact ⟨t', by omega, h4⟩
    · exact absurd (ha t' (by omega) _ h4) (by decide)
  have mat : ∀ t₁ ≥ t, ∀ m, (r.at_ t₁).workers[i]? = some (.matching m) → ∃ t' ≥ t, (r.at_ t').workers[i]? = some .idle := by
    intro t₁ h1 m h2
    cases m with
    | job j =>
      obtain ⟨t', h3, h4⟩ := r.acts_matching hf h2
      exact run t' (by omega) j h4
    | terminate =>
      obtain ⟨t', h3, h4⟩ := r.acts_terminate hf h2
      exact absurd (ha t' (by omega) _ h4) (by decide)
  cases w with
  | idle => exact ⟨t, Nat.le_refl _, hw⟩
  | receiving => exact absurd rfl hr
  | received m =>
    obtain ⟨t', h1, h2, -⟩ := r.acts_received hf hw
    exact mat t' (by omega) m h2
  | matching m => exact mat t (Nat.le_refl _) m hw
  | running j => exact run t (Nat.le_refl _) j hw
  | exited => exact absurd (ha t (Nat.le_refl _) _ hw) (by decide)
  | crashed => exact absurd (ha t (Nat.le_refl _) _ hw) (by decide)
  | failed => exact absurd (ha t (Nat.le_refl _) _ hw) (by decide)

/-- A message in the channel is received, or destroyed with the channel. -/
theorem pops (hf : r.Fair) {t : Nat} (hq : (r.at_ t).queue ≠ []) :
    ∃ t' ≥ t, (r.at_ t).taken.length < (r.at_ t').taken.length ∨ (r.at_ t').queue = [] := by
  by_cases hc : ∃ t' ≥ t, (r.at_ t).taken.length < (r.at_ t').taken.length ∨ (r.at_ t').queue = []
  · exact hc
  exfalso
  have nt : ∀ t' ≥ t, ¬ (r.at_ t).taken.length < (r.at_ t').taken.length := fun t' ht h => hc ⟨t', ht, .inl h⟩
  have nq : ∀ t' ≥ t, (r.at_ t').queue ≠ [] := fun t' ht h => hc ⟨t', ht, .inr h⟩
  clear hc
  -- no worker is in `recv`
  have nr : ∀ t' ≥ t, ∀ i : Nat, (r.at_ t').workers[i]? ≠ some .receiving := by
    intro t₁ ht i hi
    obtain ⟨t', h1, h2, h3⟩ := r.acts hf hi fun t' h1 h2 => by
      refine ⟨true, ?_⟩
      cases hq' : (r.at_ t').queue with
      | nil => exact absurd hq' (nq t' (by omega))
      | cons m ms => simp [Pool.work, h2, hq']
    have h4 : (r.at_ t').taken.length < (r.at_ (t' + 1)).taken.length := by
      have hne := nq t' (by omega)
      generalize r.at_ (t' + 1) = s' at h3
      cases h3 <;> simp_all
    have := (r.taken_mono (show t ≤ t' by omega)).length_le
    exact nt (t' + 1) (by omega) (by omega)
  -- the mutex gets free
  have free : ∃ T ≥ t, (r.at_ T).locked = none := by
    cases hl : (r.at_ t).locked with
    | none => exact ⟨t, Nat.le_refl _, hl⟩
    | some i =>
      obtain ⟨w, h1, h2⟩ := ((r.inv t).lock i).1 hl
      cases w with
      | receiving => exact absurd h1 (nr t (Nat.le_refl _) i)
      | received m =>
        obtain ⟨t', h3, -, h4⟩ := r.acts_received hf h1
        exact ⟨t', by omega, h4⟩
      | _ => cases h2
  obtain ⟨T, hT, hfree⟩ := free
  have free : ∀ t' ≥ T, (r.at_ t').locked = none := by
    intro t' ht
    induction t' with
    | zero => obtain rfl : T = 0 := (by omega); exact hfree
    | succ t' ih =>
      rcases Nat.lt_or_ge t' T with h1 | h1
      · obtain rfl : T = t' + 1 := by omega
        exact hfree
      · have hi := ih h1
        cases hl : (r.at_ (t' + 1)).locked with
        | none => rfl
        | some i =>
          exfalso
          obtain ⟨w, k1, k2⟩ := ((r.inv (t' + 1)).lock i).1 hl
          rcases r.moves t' with ⟨-, h2⟩ | ⟨a, ha, h2⟩
          · rw [h2, hi] at hl; cases hl
          · have hnr := nr (t' + 1) (by omega)
            rcases step_cases h2 with ⟨k, p, rfl, hs⟩ | hs
            · generalize r.at_ (t' + 1) = s' at hs hl hnr
              cases hs with
              | lock hw _ _ =>
                have hlt := (List.getElem?_eq_some_iff.1 hw).1
                exact hnr k (by simp [hlt])
              | _ => simp_all
            · generalize r.at_ (t' + 1) = s' at hs hl
              cases hs <;> simp_all
  -- some worker never stops
  have alive : ∃ i < n, ∀ t' ≥ T, ∀ w, (r.at_ t').workers[i]? = some w → w.alive = true := by
    by_cases hc : ∃ i < n, ∀ t' ≥ T, ∀ w, (r.at_ t').workers[i]? = some w → w.alive = true
    · exact hc
    exfalso
    have : ∀ i < n, ∃ T' ≥ T, ∀ t' ≥ T', ∃ w, (r.at_ t').workers[i]? = some w ∧ w.alive = false := by
      intro i hi
      by_cases hd : ∃ t' ≥ T, ∃ w, (r.at_ t').workers[i]? = some w ∧ w.alive = false
      · obtain ⟨t', h1, w, h2, h3⟩ := hd
        exact ⟨t', h1, fun t'' ht => ⟨w, r.dead_forever h2 h3 t'' ht, h3⟩⟩
      · refine absurd ⟨i, hi, fun t' ht w hw => ?_⟩ hc
        cases ha : w.alive with
        | true => rfl
        | false => exact absurd ⟨t', ht, w, hw, ha⟩ hd
    obtain ⟨T', h1, h2⟩ := all_eventually (P := fun i t' => ∃ w, (r.at_ t').workers[i]? = some w ∧ w.alive = false) this
    have ho : (r.at_ T').open = true := by
      cases ho : (r.at_ T').open with
      | true => rfl
      | false => exact absurd ((r.inv T').closed ho) (nq T' (by omega))
    obtain ⟨i, w, h3, h4⟩ := Pool.alive_of ho
    have hi : i < n := by
      have := (List.getElem?_eq_some_iff.1 h3).1
      rw [(r.inv T').len] at this
      exact this
    obtain ⟨w', h5, h6⟩ := h2 i hi T' (Nat.le_refl _)
    rw [h3] at h5
    cases h5
    rw [h4] at h6; cases h6
  obtain ⟨i, hi, ha⟩ := alive
  obtain ⟨w, hw⟩ : ∃ w, (r.at_ T).workers[i]? = some w := ⟨_, List.getElem?_eq_getElem (by rw [(r.inv T).len]; exact hi)⟩
  obtain ⟨t₁, h1, h2⟩ := r.gets_idle hf hw (by rintro rfl; exact nr T hT i hw) ha
  obtain ⟨t₂, h3, h4, h5⟩ := r.acts hf h2 fun t' ht hid => by
    refine ⟨true, ?_⟩
    simp only [Pool.work, hid, free t' (by omega)]
    simp
    split <;> simp
  have hnr := nr (t₂ + 1) (by omega) i
  have hp : (r.at_ t₂).poisoned = false := by
    cases hp : (r.at_ t₂).poisoned with
    | false => rfl
    | true => exact absurd ((r.inv t₂).poison (.inl hp)).2 (nq t₂ (by omega))
  have hlt := (List.getElem?_eq_some_iff.1 h4).1
  generalize r.at_ (t₂ + 1) = s' at h5 hnr
  cases h5 <;> simp_all

/-- A message that was sent is received, unless it is destroyed with the channel. -/
theorem received (hf : r.Fair) {t k : Nat} {m : Msg} (hk : (r.at_ t).sent[k]? = some m) :
    ∃ t' ≥ t, (r.at_ t').taken[k]? = some m ∨ m ∈ (r.at_ t').lost := by
  generalize hd : k + 1 - (r.at_ t).taken.length = d
  induction d using Nat.strongRecOn generalizing t with
  | _ d ih =>
    have hm := (r.inv t).msgs
    by_cases hlt : k < (r.at_ t).taken.length
    · refine ⟨t, Nat.le_refl _, .inl ?_⟩
      rw [hm, List.append_assoc, List.getElem?_append_left hlt] at hk
      exact hk
    · rcases Classical.em (m ∈ (r.at_ t).lost) with hl | hl
      · exact ⟨t, Nat.le_refl _, .inr hl⟩
      · have hq : (r.at_ t).queue ≠ [] := by
          intro hq
          rw [hm, hq, List.append_nil, List.getElem?_append_right (by omega)] at hk
          exact hl (List.mem_of_getElem? hk)
        obtain ⟨t', h1, h2⟩ := r.pops hf hq
        have hk' : (r.at_ t').sent[k]? = some m := by
          obtain ⟨c, hc⟩ := r.sent_mono h1
          rw [← hc, List.getElem?_append_left (List.getElem?_eq_some_iff.1 hk).1]
          exact hk
        rcases h2 with h2 | h2
        · obtain ⟨t'', h3, h4⟩ := ih (k + 1 - (r.at_ t').taken.length) (by omega) hk' rfl
          exact ⟨t'', by omega, h4⟩
        · refine ⟨t', h1, ?_⟩
          have hm' := (r.inv t').msgs
          rw [hm', h2, List.append_nil] at hk'
          by_cases hlt' : k < (r.at_ t').taken.length
          · rw [List.getElem?_append_left hlt'] at hk'
            exact .inl hk'
          · rw [List.getElem?_append_right (by omega)] at hk'
            exact .inr (List.mem_of_getElem? hk')

/-- A job that was received ends. -/
theorem ends (hf : r.Fair) {t j : Nat} (hj : j ∈ jobsOf (r.at_ t).taken) :
    ∃ t' ≥ t, j ∈ (r.at_ t').finished ∨ j ∈ (r.at_ t').crashed := by
  have run : ∀ t₁ ≥ t, ∀ i : Nat, (r.at_ t₁).workers[i]? = some (.running j) → ∃ t' ≥ t, j ∈ (r.at_ t').finished ∨ j ∈ (r.at_ t').crashed := by
    intro t₁ h1 i h2
    obtain ⟨t', h3, ⟨-, h4⟩ | ⟨-, h4⟩⟩ := r.acts_running hf h2
    · exact ⟨t', by omega, .inl h4⟩
    · exact ⟨t', by omega, .inr h4⟩
  have mat : ∀ t₁ ≥ t, ∀ i : Nat, (r.at_ t₁).workers[i]? = some (.matching (.job j)) →
      ∃ t' ≥ t, j ∈ (r.at_ t').finished ∨ j ∈ (r.at_ t').crashed := by
    intro t₁ h1 i h2
    obtain ⟨t', h3, h4⟩ := r.acts_matching hf h2
    exact run t' (by omega) i h4
  have hi := r.inv t
  have h1 := List.count_pos_iff.2 hj
  rw [hi.started j] at h1
  rcases Nat.eq_zero_or_pos (sumW (Worker.pend j) (r.at_ t).workers) with h0 | h0
  · rw [hi.running j] at h1
    rcases Nat.eq_zero_or_pos (sumW (Worker.run j) (r.at_ t).workers) with h2 | h2
    · refine ⟨t, Nat.le_refl _, ?_⟩
      rcases Nat.eq_zero_or_pos ((r.at_ t).finished.count j) with h3 | h3
      · exact .inr (List.count_pos_iff.1 (by omega))
      · exact .inl (List.count_pos_iff.1 h3)
    · obtain ⟨i, x, h3, h4⟩ := sumW_pos h2
      obtain rfl := Worker.run_pos h4
      exact run t (Nat.le_refl _) i h3
  · obtain ⟨i, x, h3, h4⟩ := sumW_pos h0
    rcases Worker.pend_pos h4 with rfl | rfl
    · obtain ⟨t', h5, h6, -⟩ := r.acts_received hf h3
      exact mat t' (by omega) i h6
    · exact mat t (Nat.le_refl _) i h3

end Pool.Run

theorem mem_jobsOf {j : Nat} {ms : List Msg} : j ∈ jobsOf ms ↔ .job j ∈ ms := by
  simp only [jobsOf, List.mem_filterMap]
  constructor
  · rintro ⟨m, h1, h2⟩
    cases m with
    | job k => cases h2; exact h1
    | terminate => cases h2
  · intro h
    exact ⟨_, h, rfl⟩

/-- Every job submitted ends, if fewer jobs panic than there are workers. -/
theorem job_ends {n : Nat} (r : Pool.Run n) (hf : r.Fair) (hc : ∀ t, (r.at_ t).crashed.length < n) {t j : Nat}
    (hj : j ∈ (r.at_ t).submitted) : ∃ t' ≥ t, j ∈ (r.at_ t').finished ∨ j ∈ (r.at_ t').crashed := by
  obtain ⟨k, hk⟩ := List.mem_iff_getElem?.1 (mem_jobsOf.1 hj)
  obtain ⟨t', h1, h2 | h2⟩ := r.received hf hk
  · obtain ⟨t'', h3, h4⟩ := r.ends hf (mem_jobsOf.2 (List.mem_of_getElem? h2))
    exact ⟨t'', by omega, h4⟩
  · have := (r.inv t').lostJobs (List.ne_nil_of_mem (mem_jobsOf.2 h2))
    have := hc t'
    omega

/-- C40: if no job panics, every job submitted is run to its end, in every fair run, whatever is submitted before and after
and also if the pool is dropped. -/
theorem C40_eventually_run {n : Nat} (r : Pool.Run n) (hf : r.Fair) (hc : ∀ t, (r.at_ t).crashed = []) {t j : Nat}
    (hj : j ∈ (r.at_ t).submitted) : ∃ t' ≥ t, j ∈ (r.at_ t').finished := by
  have hn := (r.inv 0).pos
  obtain ⟨t', h1, h2 | h2⟩ := job_ends r hf (fun t => by rw [hc t]; exact hn) hj
  · exact ⟨t', h1, h2⟩
  · rw [hc t'] at h2; cases h2

/-! ## C41 -/

/-- C41: when `drop` has returned, every worker has stopped, and every job that was submitted has been run to its end, once. -/
theorem C41_waits {n : Nat} {s : Pool} (h : Pool.Reach n s) (hd : s.owner = .dropped) :
    (∀ w ∈ s.workers, w = .exited) ∧ s.finished.Perm s.submitted ∧ s.crashed = [] ∧ s.queue = [] := by
  have hi := h.inv
  have hall : ∀ w ∈ s.workers, w = .exited := by
    intro w hw
    obtain ⟨i, hk⟩ := List.mem_iff_getElem?.1 hw
    have := (List.getElem?_eq_some_iff.1 hk).1
    rw [hi.joined n (.inr ⟨hd, rfl⟩) i (by rw [← hi.len]; exact this)] at hk
    exact (Option.some.inj hk).symm
  have hz : ∀ f : Worker → Nat, f .exited = 0 → sumW f s.workers = 0 := by
    intro f hf
    rcases Nat.eq_zero_or_pos (sumW f s.workers) with h0 | h0
    · exact h0
    · obtain ⟨i, x, h1, h2⟩ := sumW_pos h0
      rw [hall x (List.mem_of_getElem? h1), hf] at h2
      cases h2
  have hcr : s.crashed = [] := by
    have := hi.crashes
    rw [hz _ rfl] at this
    exact List.eq_nil_of_length_eq_zero this
  have hq : s.queue = [] := hi.closed (by
    rw [Pool.open, List.any_eq_false]
    intro w hw
    rw [hall w hw]
    decide)
  have hl : jobsOf s.lost = [] := by
    by_cases hl : jobsOf s.lost = []
    · exact hl
    · have := hi.lostJobs hl
      rw [hcr] at this
      have := hi.pos
      simp at *
      omega
  refine ⟨hall, List.perm_iff_count.2 fun j => ?_, hcr, hq⟩
  have h1 := hi.started j
  have h2 := hi.running j
  rw [hz _ rfl] at h1 h2
  rw [Pool.submitted, hi.msgs, hq, List.append_nil, jobsOf_append, hl, List.append_nil, h1, h2, hcr]
  simp

namespace Pool.Run

variable {n : Nat} (r : Pool.Run n)

theorem owner_persists {t : Nat} (h : r.act t ≠ some .own) (hu : (r.at_ t).owner ≠ .using) : (r.at_ (t + 1)).owner = (r.at_ t).owner := by
  rcases r.moves t with ⟨-, h2⟩ | ⟨a, ha, h2⟩
  · rw [h2]
  · cases a with
    | execute => simp [Pool.step, hu] at h2
    | drop => simp [Pool.step, hu] at h2
    | own => exact absurd ha h
    | work i p =>
      have := work_step h2
      generalize r.at_ (t + 1) = s' at this
      cases this <;> simp

/-- The owner goes on if it can as long as it is where it is. -/
theorem owner_acts (hf : r.OwnerFair) {t : Nat} {o : Owner} (ho : (r.at_ t).owner = o) (hu : o ≠ .using)
    (he : ∀ t' ≥ t, (r.at_ t').owner = o → (r.at_ t').own ≠ none) :
    ∃ t' ≥ t, (r.at_ t').owner = o ∧ OwnStep (r.at_ t') (r.at_ (t' + 1)) := by
  by_cases hc : ∃ t' ≥ t, (r.at_ t').owner = o ∧ r.act t' = some .own
  · obtain ⟨t', h1, h2, h3⟩ := hc
    refine ⟨t', h1, h2, ?_⟩
    rcases r.moves t' with ⟨h4, -⟩ | ⟨a, h4, h5⟩
    · rw [h3] at h4; cases h4
    · rw [h3] at h4; cases h4; exact own_step h5
  · exfalso
    have key : ∀ t' ≥ t, (r.at_ t').owner = o := by
      intro t' ht
      induction t' with
      | zero => obtain rfl : t = 0 := (by omega); exact ho
      | succ t' ih =>
        rcases Nat.lt_or_ge t' t with h1 | h1
        · obtain rfl : t = t' + 1 := by omega
          exact ho
        · have hi := ih h1
          rw [r.owner_persists (fun h => hc ⟨t', h1, hi, h⟩) (by rw [hi]; exact hu), hi]
    obtain ⟨t', h1, h2⟩ := hf t fun t' ht => he t' ht (key t' ht)
    exact hc ⟨t', h1, key t' h1, h2⟩

/-- Which workers have not stopped for good while `drop` sends and waits, if no job panics. -/
theorem only_exited (hc : ∀ t, (r.at_ t).crashed = []) {t i : Nat} {w : Worker} (ho : (r.at_ t).owner.hasSender = true)
    (hw : (r.at_ t).workers[i]? = some w) (hd : w.alive = false) : w = .exited := by
  have hi := r.inv t
  cases w with
  | exited => rfl
  | crashed =>
    have h1 := sumW_le (f := Worker.isCrashed) hw
    have := hi.crashes
    rw [hc t] at this
    simp [Worker.isCrashed] at *
    omega
  | failed =>
    have := (hi.poison (.inr (List.mem_of_getElem? hw))).1
    rw [ho] at this; cases this
  | _ => cases hd

theorem sends_all (hf : r.OwnerFair) (hc : ∀ t, (r.at_ t).crashed = []) {t k : Nat} (ho : (r.at_ t).owner = .sending k) :
    ∃ t' ≥ t, (r.at_ t').owner = .joining 0 := by
  induction k generalizing t with
  | zero =>
    obtain ⟨t', h1, h2, h3⟩ := r.owner_acts hf ho (by simp) fun t' _ h => by simp [Pool.own, h]
    refine ⟨t' + 1, by omega, ?_⟩
    generalize r.at_ (t' + 1) = s' at h3
    cases h3 <;> simp_all
  | succ k ih =>
    obtain ⟨t', h1, h2, h3⟩ := r.owner_acts hf ho (by simp) fun t' _ h => by
      simp only [Pool.own, h]; split <;> simp
    have hopen : (r.at_ t').open = true := by
      cases hopen : (r.at_ t').open with
      | true => rfl
      | false =>
        exfalso
        have hi := r.inv t'
        have hall : ∀ w ∈ (r.at_ t').workers, w.ends = 1 := by
          intro w hw
          obtain ⟨i, hk⟩ := List.mem_iff_getElem?.1 hw
          rw [r.only_exited hc (by rw [h2]; rfl) hk (by simpa using List.any_eq_false.1 hopen w hw)]
          rfl
        have h4 := sumW_eq_length hall
        rw [← hi.terms, hi.len] at h4
        obtain ⟨js, m, h5, h6⟩ := hi.shape
        rw [h2] at h6
        have h7 := hi.taken_prefix.sublist.count_le .terminate
        rw [h5, List.count_append, List.count_replicate_self] at h7
        have h8 : (js.map Msg.job).count .terminate = 0 := List.count_eq_zero.2 (by simp)
        simp only [Owner.Sent] at h6
        omega
    have : (r.at_ (t' + 1)).owner = .sending k := by
      generalize r.at_ (t' + 1) = s' at h3
      cases h3 <;> simp_all
    obtain ⟨t'', h4, h5⟩ := ih this
    exact ⟨t'', by omega, h5⟩

/-- The messages in the channel are all received (or destroyed with it) if no more are sent. -/
theorem drains (hf : r.Fair) {t : Nat} (hs : ∀ t' ≥ t, (r.at_ t').sent = (r.at_ t).sent) : ∃ t' ≥ t, (r.at_ t').queue = [] := by
  generalize hd : (r.at_ t).sent.length - (r.at_ t).taken.length = d
  induction d using Nat.strongRecOn generalizing t with
  | _ d ih =>
    by_cases hq : (r.at_ t).queue = []
    · exact ⟨t, Nat.le_refl _, hq⟩
    · obtain ⟨t', h1, h2 | h2⟩ := r.pops hf hq
      · have h3 := (r.inv t').taken_prefix.length_le
        rw [hs t' h1] at h3
        obtain ⟨t'', h4, h5⟩ := ih ((r.at_ t').sent.length - (r.at_ t').taken.length) (by rw [hs t' h1]; omega) (t := t')
          (fun t'' ht => by rw [hs t'' (by omega), hs t' h1]) rfl
        exact ⟨t'', by omega, h5⟩
      · exact ⟨t', h1, h2⟩

theorem joining_forever {t : Nat} (h : ∃ i, (r.at_ t).owner = .joining i) : ∀ t' ≥ t, (∃ i, (r.at_ t').owner = .joining i) ∨
    (r.at_ t').owner = .dropped ∨ (r.at_ t').owner = .panicked := by
  refine r.forever (P := fun s => (∃ i, s.owner = .joining i) ∨ s.owner = .dropped ∨ s.owner = .panicked) ?_ (.inl h)
  intro t a h hs
  rcases step_cases hs with ⟨k, p, -, hs⟩ | hs
  · generalize r.at_ (t + 1) = s' at hs
    cases hs <;> simpa using h
  · generalize r.at_ (t + 1) = s' at hs
    cases hs <;> simp_all

theorem joining_sent {t : Nat} (h : ∃ i, (r.at_ t).owner = .joining i) : ∀ t' ≥ t, (r.at_ t').sent = (r.at_ t).sent := by
  intro t' ht
  induction t' with
  | zero => obtain rfl : t = 0 := (by omega); rfl
  | succ t' ih =>
    rcases Nat.lt_or_ge t' t with h1 | h1
    · obtain rfl : t = t' + 1 := by omega
      rfl
    · rw [← ih h1]
      have hj := r.joining_forever h t' h1
      rcases r.moves t' with ⟨-, h2⟩ | ⟨a, ha, h2⟩
      · rw [h2]
      · rcases step_cases h2 with ⟨k, p, -, hs⟩ | hs
        · generalize r.at_ (t' + 1) = s' at hs
          cases hs <;> simp
        · generalize r.at_ (t' + 1) = s' at hs
          cases hs <;> simp_all

/-- While `drop` waits, every worker stops, if no job panics. -/
theorem all_exit (hf : r.Fair) (hc : ∀ t, (r.at_ t).crashed = []) {t : Nat} (hj : ∃ i, (r.at_ t).owner = .joining i)
    (hnd : ∀ t' ≥ t, (r.at_ t').owner.hasSender = true) :
    ∀ i < n, ∃ T ≥ t, ∀ t' ≥ T, (r.at_ t').workers[i]? = some .exited := by
  obtain ⟨t₁, h1, h2⟩ := r.drains hf (r.joining_sent hj)
  have hi := r.inv t₁
  have hall : ∀ w ∈ (r.at_ t₁).workers, w.ends = 1 := by
    cases hopen : (r.at_ t₁).open with
    | false =>
      intro w hw
      obtain ⟨i, hk⟩ := List.mem_iff_getElem?.1 hw
      rw [r.only_exited hc (hnd t₁ h1) hk (by simpa using List.any_eq_false.1 hopen w hw)]
      rfl
    | true =>
      have hm := hi.msgs
      rw [hi.lost_nil hopen, h2, List.append_nil, List.append_nil] at hm
      apply sumW_full
      · intro w _
        cases w with
        | received m => cases m <;> simp [Worker.ends]
        | matching m => cases m <;> simp [Worker.ends]
        | _ => simp [Worker.ends]
      · rw [← hi.terms, ← hm, hi.len, r.joining_sent hj t₁ h1]
        obtain ⟨js, m, h5, h6⟩ := (r.inv t).shape
        obtain ⟨i, hj⟩ := hj
        rw [hj] at h6
        have h8 : (js.map Msg.job).count .terminate = 0 := List.count_eq_zero.2 (by simp)
        simp only [Owner.Sent] at h6
        rw [h5, List.count_append, List.count_replicate_self]
        omega
  intro i hin
  have mat : ∀ t₂ ≥ t, (r.at_ t₂).workers[i]? = some (.matching .terminate) → ∃ T ≥ t, ∀ t' ≥ T, (r.at_ t').workers[i]? = some .exited := by
    intro t₂ h3 h4
    obtain ⟨t₃, h5, h6⟩ := r.acts_terminate hf h4
    exact ⟨t₃, by omega, r.dead_forever h6 rfl⟩
  have hw : (r.at_ t₁).workers[i]? = some _ := List.getElem?_eq_getElem (by rw [hi.len]; exact hin)
  have he := hall _ (List.mem_of_getElem? hw)
  generalize (r.at_ t₁).workers[i]'(by rw [hi.len]; exact hin) = w at hw he
  cases w with
  | exited => exact ⟨t₁, h1, r.dead_forever hw rfl⟩
  | received m =>
    cases m with
    | job j => cases he
    | terminate =>
      obtain ⟨t₂, h3, h4, -⟩ := r.acts_received hf hw
      exact mat t₂ (by omega) h4
  | matching m =>
    cases m with
    | job j => cases he
    | terminate => exact mat t₁ h1 hw
  | _ => cases he

end Pool.Run

/-- C41: if no job panics (and, by fairness, every job returns), `drop` returns. -/
theorem C41_returns {n : Nat} (r : Pool.Run n) (hf : r.Fair) (ho : r.OwnerFair) (hc : ∀ t, (r.at_ t).crashed = []) {t : Nat}
    (hd : (∃ k, (r.at_ t).owner = .sending k) ∨ ∃ i, (r.at_ t).owner = .joining i) : ∃ t' ≥ t, (r.at_ t').owner = .dropped := by
  have join : ∀ t₁ ≥ t, ∀ i, (r.at_ t₁).owner = .joining i → ∃ t' ≥ t, (r.at_ t').owner = .dropped := by
    intro t₁ h1 i h2
    by_cases hcon : ∃ t' ≥ t, (r.at_ t').owner = .dropped
    · exact hcon
    exfalso
    -- `drop` does not panic, because no worker has panicked
    have hnp : ∀ t' ≥ t₁, ∃ i, (r.at_ t').owner = .joining i := by
      intro t' ht
      induction t' with
      | zero => obtain rfl : t₁ = 0 := (by omega); exact ⟨i, h2⟩
      | succ t' ih =>
        rcases Nat.lt_or_ge t' t₁ with h3 | h3
        · obtain rfl : t₁ = t' + 1 := by omega
          exact ⟨i, h2⟩
        · obtain ⟨k, hk⟩ := ih h3
          rcases r.moves t' with ⟨-, h4⟩ | ⟨a, -, h4⟩
          · rw [h4]; exact ⟨k, hk⟩
          · have hoe := fun i w => r.only_exited hc (t := t') (i := i) (w := w) (by rw [hk]; rfl)
            have hnd : ∀ o, (r.at_ (t' + 1)).owner = o → o ≠ .dropped := by
              rintro o h5 rfl
              exact hcon ⟨t' + 1, by omega, h5⟩
            rcases step_cases h4 with ⟨_, _, -, hs⟩ | hs
            · generalize r.at_ (t' + 1) = s' at hs
              cases hs <;> simpa using ⟨k, hk⟩
            · generalize r.at_ (t' + 1) = s' at hs hnd
              cases hs with
              | dead _ hw hne ha => exact absurd (hoe _ _ hw ha) hne
              | done _ _ => exact absurd rfl (hnd _ rfl)
              | join _ _ => exact ⟨_, rfl⟩
              | _ => simp_all
    have hex := r.all_exit hf hc (hnp t₁ (Nat.le_refl _)) fun t' ht => by
      obtain ⟨k, hk⟩ := hnp t' ht
      rw [hk]; rfl
    obtain ⟨T, h3, h4⟩ := all_eventually (P := fun i t' => (r.at_ t').workers[i]? = some .exited) hex
    have hlen := fun t => (r.inv t).len
    -- from then on `drop` goes on to the end
    have last : ∀ d, ∀ t₂ ≥ T, ∀ i, (r.at_ t₂).owner = .joining i → n + 1 ≤ i + d → False := by
      intro d
      induction d with
      | zero =>
        intro t₂ h5 i h6 h7
        have h8 := (r.inv t₂).joined i (.inl h6) n (by omega)
        have := (List.getElem?_eq_some_iff.1 h8).1
        rw [hlen] at this
        omega
      | succ d ih =>
        intro t₂ h5 i h6 h7
        have en : ∀ t' ≥ t₂, (r.at_ t').owner = .joining i → (r.at_ t').own ≠ none := by
          intro t' ht h
          simp only [Pool.own, h]
          rcases Nat.lt_or_ge i n with hin | hin
          · rw [h4 i hin t' (by omega)]; simp
          · rw [List.getElem?_eq_none (by rw [hlen]; exact hin)]; simp
        obtain ⟨t₃, h8, h9, h10⟩ := r.owner_acts ho h6 (by simp) en
        have hnd : (r.at_ (t₃ + 1)).owner ≠ .dropped := fun h => hcon ⟨t₃ + 1, by omega, h⟩
        have hex3 : ∀ (k : Nat) (w : Worker), (r.at_ t₃).workers[k]? = some w → w = .exited := by
          intro k w hw
          have : k < n := by
            have := (List.getElem?_eq_some_iff.1 hw).1
            rw [hlen] at this
            exact this
          rw [h4 k this t₃ (by omega)] at hw
          exact (Option.some.inj hw).symm
        have : (r.at_ (t₃ + 1)).owner = .joining (i + 1) := by
          generalize r.at_ (t₃ + 1) = s' at h10 hnd
          cases h10 with
          | dead _ hw hne ha => exact absurd (hex3 _ _ hw) hne
          | done _ _ => exact absurd rfl hnd
          | join h11 _ =>
            rw [h9] at h11
            cases h11
            rfl
          | _ => simp_all
        exact ih (t₃ + 1) (by omega) (i + 1) this (by omega)
    obtain ⟨i', h5⟩ := hnp T h3
    exact last (n + 1) T (Nat.le_refl _) i' h5 (by omega)
  rcases hd with ⟨k, hk⟩ | ⟨i, hi⟩
  · obtain ⟨t', h1, h2⟩ := r.sends_all ho hc hk
    exact join t' h1 0 h2
  · exact join t (Nat.le_refl _) i hi

/-! ## C42 -/

/-- C42, for fewer panics than workers: every job submitted, before or after the panics, is run to its end or panics itself. -/
theorem C42_fewer_panics_partial {n : Nat} (r : Pool.Run n) (hf : r.Fair) (hc : ∀ t, (r.at_ t).crashed.length < n) {t j : Nat}
    (hj : j ∈ (r.at_ t).submitted) : ∃ t' ≥ t, j ∈ (r.at_ t').finished ∨ j ∈ (r.at_ t').crashed := job_ends r hf hc hj

/-- Once as many jobs have panicked as there are workers, nothing runs any more, and the next call of `execute` panics. -/
theorem all_crashed {n : Nat} {s : Pool} (h : Pool.Reach n s) (hc : s.crashed.length = n) :
    (s.owner = .using → ∃ s', s.step .execute = some s' ∧ s'.owner = .failed) ∧
    ∀ s', Pool.Steps s s' → s'.started = s.started ∧ s'.finished = s.finished := by
  have hi := h.inv
  have hall : ∀ w ∈ s.workers, w.isCrashed = 1 := by
    apply sumW_full
    · intro w _
      cases w <;> simp [Worker.isCrashed]
    · rw [← hi.crashes, hc, hi.len]
  have hall : ∀ w ∈ s.workers, w = .crashed := by
    intro w hw
    have := hall w hw
    cases w <;> first | rfl | cases this
  have hopen : s.open = false := by
    rw [Pool.open, List.any_eq_false]
    intro w hw
    rw [hall w hw]
    decide
  refine ⟨fun hu => ⟨{ s with owner := .failed }, by simp [Pool.step, hu, hopen], rfl⟩, ?_⟩
  intro s' hs
  have key : s'.workers = s.workers ∧ s'.started = s.started ∧ s'.finished = s.finished := by
    induction hs with
    | refl => exact ⟨rfl, rfl, rfl⟩
    | step _ ha ih =>
      obtain ⟨h1, h2, h3⟩ := ih
      rcases step_cases ha with ⟨i, p, -, hs⟩ | hs
      · exfalso
        obtain ⟨w, _, h4, -, h5⟩ := work_self hs
        rw [h1] at h4
        rw [hall w (List.mem_of_getElem? h4)] at h5
        cases h5
      · refine ⟨(own_workers hs).trans h1, ?_⟩
        rw [← h2, ← h3]
        cases hs <;> exact ⟨rfl, rfl⟩
  exact key.2

theorem crash_one {n : Nat} {s : Pool} {i : Nat} (hr : Pool.Reach n s) (hu : s.owner = .using) (hq : s.queue = []) (hl : s.locked = none)
    (hp : s.poisoned = false) (hw : s.workers[i]? = some .idle) :
    ∃ s', Pool.Reach n s' ∧ s'.owner = .using ∧ s'.queue = [] ∧ s'.locked = none ∧ s'.poisoned = false ∧
      s'.workers = s.workers.set i .crashed ∧ s'.crashed.length = s.crashed.length + 1 := by
  have hlt := (List.getElem?_eq_some_iff.1 hw).1
  have hopen : s.open = true := Pool.open_of hw rfl
  generalize hm : Msg.job (jobsOf s.sent).length = m
  have r1 : Pool.Reach n { s with queue := [m], sent := s.sent ++ [m] } :=
    .step (a := .execute) hr (by simp [Pool.step, hu, hopen, hq, ← hm])
  have r2 : Pool.Reach n { s with queue := [m], sent := s.sent ++ [m], workers := s.workers.set i .receiving, locked := some i } :=
    .step (a := .work i true) r1 (by simp [Pool.step, Pool.work, hw, hl, hp])
  have r3 : Pool.Reach n { s with queue := [], sent := s.sent ++ [m], workers := s.workers.set i (.received m), locked := some i, taken := s.taken ++ [m] } :=
    .step (a := .work i true) r2 (by simp [Pool.step, Pool.work, hlt])
  have r4 : Pool.Reach n { s with queue := [], sent := s.sent ++ [m], workers := s.workers.set i (.matching m), locked := none, taken := s.taken ++ [m] } :=
    .step (a := .work i true) r3 (by simp [Pool.step, Pool.work, hlt])
  have r5 : Pool.Reach n { s with queue := [], sent := s.sent ++ [m], workers := s.workers.set i (.running (jobsOf s.sent).length), locked := none, taken := s.taken ++ [m], started := s.started ++ [(jobsOf s.sent).length] } :=
    .step (a := .work i true) r4 (by simp [Pool.step, Pool.work, hlt, ← hm])
  refine ⟨_, .step (a := .work i true) r5 (by simp only [Pool.step, Pool.work, List.getElem?_set_self hlt]; rfl), ?_⟩
  rcases stop_queue ({ s with queue := [], sent := s.sent ++ [m], workers := s.workers.set i (.running (jobsOf s.sent).length), locked := none, taken := s.taken ++ [m], started := s.started ++ [(jobsOf s.sent).length], crashed := s.crashed ++ [(jobsOf s.sent).length] } : Pool) i .crashed with
    ⟨-, h1, -⟩ | ⟨-, h1, -⟩
  · exact ⟨by simpa using hu, by simpa using h1, by simp, by simpa using hp, by simp, by simp⟩
  · exact ⟨by simpa using hu, by simpa using h1, by simp, by simpa using hp, by simp, by simp⟩

/-- C42 fails, for every number of workers: after as many panicking jobs, the pool can be in use and the next call of
`execute` panics; no job is run any more. -/
theorem C42_panics_false {n : Nat} (hn : 0 < n) :
    ∃ s s', Pool.Reach n s ∧ s.owner = .using ∧ s.step .execute = some s' ∧ s'.owner = .failed ∧
      ∀ s'', Pool.Steps s s'' → s''.started = s.started := by
  have key : ∀ k ≤ n, ∃ s, Pool.Reach n s ∧ s.owner = .using ∧ s.queue = [] ∧ s.locked = none ∧ s.poisoned = false ∧
      (∀ i, k ≤ i → i < n → s.workers[i]? = some .idle) ∧ s.crashed.length = k := by
    intro k
    induction k with
    | zero =>
      intro _
      refine ⟨_, .new (by rw [Pool.new, if_neg (by omega)]), rfl, rfl, rfl, rfl, ?_, rfl⟩
      intro i _ hi
      simp [hi]
    | succ k ih =>
      intro hk
      obtain ⟨s, h1, h2, h3, h4, h5, h6, h7⟩ := ih (by omega)
      obtain ⟨s', g1, g2, g3, g4, g5, g6, g7⟩ := crash_one h1 h2 h3 h4 h5 (h6 k (by omega) (by omega))
      refine ⟨s', g1, g2, g3, g4, g5, ?_, by omega⟩
      intro i hi hin
      rw [g6, List.getElem?_set_ne (by omega)]
      exact h6 i (by omega) hin
  obtain ⟨s, h1, h2, -, -, -, -, h7⟩ := key n (Nat.le_refl _)
  obtain ⟨k1, k2⟩ := all_crashed h1 h7
  obtain ⟨s', h8, h9⟩ := k1 h2
  exact ⟨s, s', h1, h2, h8, h9, fun s'' hs => (k2 s'' hs).1⟩

/-- C42 fails: a job that was submitted before another one panicked can be destroyed without being run and without
anybody noticing (one worker). -/
theorem C42_lost_false : ∃ s, Pool.Reach 1 s ∧ s.owner = .using ∧ s.submitted = [0, 1] ∧ s.crashed = [0] ∧
    ∀ s', Pool.Steps s s' → 1 ∉ s'.started := by
  refine ⟨_, Pool.reach_of (as := [.execute, .execute, .work 0 false, .work 0 false, .work 0 false, .work 0 false, .work 0 true]) rfl,
    rfl, rfl, rfl, ?_⟩
  intro s' hs
  rw [((all_crashed (Pool.reach_of (as := [.execute, .execute, .work 0 false, .work 0 false, .work 0 false, .work 0 false, .work 0 true]) rfl) rfl).2 s' hs).1]
  decide

/-! ## Examples -/

/-- Runs a list of actions and then does nothing. -/
def Pool.Run.ofList {n : Nat} {s : Pool} (as : List Act) (hn : Pool.new n = some s)
    (h : ∀ t < as.length, (s.runActs (as.take t)).bind (fun s => (as[t]?).bind s.step) = s.runActs (as.take (t + 1)) ∧
      (s.runActs (as.take t)).isSome ∧ (s.runActs (as.take (t + 1))).isSome) : Pool.Run n where
  at_ t := (s.runActs (as.take t)).getD s
  act t := as[t]?
  start := by simp [hn, Pool.runActs]
  next t := by
    cases ha : as[t]? with
    | none =>
      have := List.getElem?_eq_none_iff.1 ha
      simp only
      rw [List.take_of_length_le this, List.take_of_length_le (by omega)]
    | some a =>
      have hlt := (List.getElem?_eq_some_iff.1 ha).1
      obtain ⟨h1, h2, h3⟩ := h t hlt
      obtain ⟨s1, h2⟩ := Option.isSome_iff_exists.1 h2
      obtain ⟨s2, h3⟩ := Option.isSome_iff_exists.1 h3
      rw [ha, h2, h3] at h1
      simp only [h2, h3, Option.getD_some]
      exact h1

theorem Pool.Run.ofList_fair {n : Nat} {s : Pool} {as : List Act} {hn : Pool.new n = some s} {h}
    {s' : Pool} (hs : s.runActs as = some s') (hw : ∀ i < s'.workers.length, ∀ p, s'.work i p = none) : (Pool.Run.ofList as hn h).Fair := by
  intro i t hc
  exfalso
  have hat : ∀ t' ≥ as.length, (Pool.Run.ofList as hn h).at_ t' = s' := by
    intro t' ht
    show (s.runActs (as.take t')).getD s = s'
    rw [List.take_of_length_le ht, hs]; rfl
  obtain ⟨p, hp⟩ := hc (t + as.length) (by omega)
  rw [hat _ (by omega)] at hp
  apply hp
  rcases Nat.lt_or_ge i s'.workers.length with hi | hi
  · exact hw i hi p
  · simp [Pool.work, List.getElem?_eq_none hi]

theorem Pool.Run.ofList_ownerFair {n : Nat} {s : Pool} {as : List Act} {hn : Pool.new n = some s} {h}
    {s' : Pool} (hs : s.runActs as = some s') (hw : s'.own = none) : (Pool.Run.ofList as hn h).OwnerFair := by
  intro t hc
  exfalso
  apply hc (t + as.length) (by omega)
  show ((s.runActs (as.take (t + as.length))).getD s).own = none
  rw [List.take_of_length_le (by omega), hs]
  exact hw

/-- Two workers, two jobs, and the pool is dropped. -/
def goodRun : List Act := [.execute, .execute, .work 0 false, .work 0 false, .work 0 false, .work 1 false, .work 1 false, .work 1 false,
  .work 1 false, .work 0 false, .drop, .own, .own, .own, .work 0 false, .work 0 false, .work 0 false, .work 0 false, .work 0 false,
  .work 1 false, .work 1 false, .work 1 false, .work 1 false, .work 1 false, .own, .own, .own]

/-- The conditions of `C40_eventually_run` and `C41_returns` can be met, by a run in which jobs are submitted and the pool
is dropped; and then `C41_waits` applies. -/
example : ∃ r : Pool.Run 2, r.Fair ∧ r.OwnerFair ∧ (∀ t, (r.at_ t).crashed = []) ∧ (r.at_ 2).submitted = [0, 1] ∧
    (r.at_ 11).owner = .sending 2 ∧ (r.at_ 27).owner = .dropped := by
  refine ⟨Pool.Run.ofList goodRun rfl (by decide), Pool.Run.ofList_fair rfl (by decide), Pool.Run.ofList_ownerFair rfl rfl, ?_, rfl, rfl, rfl⟩
  intro t
  rcases Nat.lt_or_ge t 27 with h | h
  · revert t; decide
  · show (((_ : Option Pool).getD _ : Pool)).crashed = []
    rw [List.take_of_length_le h]
    rfl

/-- `C40_one_worker`, `C40_not_lost` and `C40_started_in_order_partial`: a worker runs a job while another is queued. -/
example : ∃ s, Pool.Reach 1 s ∧ s.workers[0]? = some (.running 0) ∧ s.queue = [.job 1] ∧ s.started = [0] :=
  ⟨_, Pool.reach_of (as := [.execute, .execute, .work 0 false, .work 0 false, .work 0 false, .work 0 false]) rfl, rfl, rfl, rfl⟩

/-- Two workers; the first job panics, the second is run. -/
def badRun : List Act := [.execute, .execute, .work 0 false, .work 0 false, .work 0 false, .work 0 false, .work 0 true,
  .work 1 false, .work 1 false, .work 1 false, .work 1 false, .work 1 false, .work 1 false]

/-- The conditions of `C42_fewer_panics_partial` can be met with a panic. -/
example : ∃ r : Pool.Run 2, r.Fair ∧ (∀ t, (r.at_ t).crashed.length < 2) ∧ (r.at_ 2).submitted = [0, 1] ∧ (r.at_ 13).crashed = [0] := by
  refine ⟨Pool.Run.ofList badRun rfl (by decide), Pool.Run.ofList_fair rfl (by decide), ?_, rfl, rfl⟩
  intro t
  rcases Nat.lt_or_ge t 13 with h | h
  · revert t; decide
  · show (((_ : Option Pool).getD _ : Pool)).crashed.length < 2
    rw [List.take_of_length_le h]
    decide

end Verif
