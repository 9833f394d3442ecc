import Verif.Spec.ThreadPool

/-! Invariants of the thread pool. -/

namespace Verif

/-- The sum of a weight over the workers. -/
def sumW (f : Worker → Nat) (ws : List Worker) : Nat := (ws.map f).sum

theorem sumW_set {f : Worker → Nat} {ws : List Worker} {i : Nat} {x : Worker} (h : ws[i]? = some x) (y : Worker) :
    sumW f (ws.set i y) + f x = sumW f ws + f y := by
  induction ws generalizing i with
  | nil => simp at h
  | cons w ws ih =>
    cases i with
    | zero =>
      simp only [List.getElem?_cons_zero, Option.some.injEq] at h
      subst h
      simp only [sumW, List.set_cons_zero, List.map_cons, List.sum_cons]
      omega
    | succ i =>
      simp only [List.getElem?_cons_succ] at h
      have := ih h
      simp only [sumW, List.set_cons_succ, List.map_cons, List.sum_cons] at this ⊢
      omega

theorem sumW_pos {f : Worker → Nat} {ws : List Worker} (h : 0 < sumW f ws) : ∃ (i : Nat) (x : Worker), ws[i]? = some x ∧ 0 < f x := by
  induction ws with
  | nil => simp [sumW] at h
  | cons w ws ih =>
    rcases Nat.eq_zero_or_pos (f w) with h0 | h0
    · simp only [sumW, List.map_cons, List.sum_cons, h0] at h ih
      obtain ⟨i, x, h1, h2⟩ := ih (by omega)
      exact ⟨i + 1, x, by simpa using h1, h2⟩
    · exact ⟨0, w, rfl, h0⟩

theorem sumW_le {f : Worker → Nat} {ws : List Worker} {i : Nat} {x : Worker} (h : ws[i]? = some x) : f x ≤ sumW f ws := by
  induction ws generalizing i with
  | nil => simp at h
  | cons w ws ih =>
    simp only [sumW, List.map_cons, List.sum_cons] at ih ⊢
    cases i with
    | zero =>
      simp only [List.getElem?_cons_zero, Option.some.injEq] at h
      subst h
      omega
    | succ i =>
      simp only [List.getElem?_cons_succ] at h
      have := ih h
      omega

theorem sumW_length {f : Worker → Nat} {ws : List Worker} (h : ∀ w ∈ ws, f w ≤ 1) : sumW f ws ≤ ws.length := by
  induction ws with
  | nil => simp [sumW]
  | cons w ws ih =>
    simp only [sumW, List.map_cons, List.sum_cons, List.length_cons] at ih ⊢
    have := h w (by simp)
    have := ih fun w hw => h w (by simp [hw])
    omega

theorem sumW_full {f : Worker → Nat} {ws : List Worker} (h : ∀ w ∈ ws, f w ≤ 1) (hs : sumW f ws = ws.length) : ∀ w ∈ ws, f w = 1 := by
  induction ws with
  | nil => simp
  | cons w ws ih =>
    have h1 := h w (by simp)
    have h2 := sumW_length fun w hw => h w (List.mem_cons_of_mem _ hw)
    simp only [sumW, List.map_cons, List.sum_cons, List.length_cons] at ih hs h2
    intro w' hw'
    rcases List.mem_cons.1 hw' with rfl | hw'
    · omega
    · exact ih (fun w hw => h w (by simp [hw])) (by omega) w' hw'

theorem sumW_eq_length {f : Worker → Nat} {ws : List Worker} (h : ∀ w ∈ ws, f w = 1) : sumW f ws = ws.length := by
  induction ws with
  | nil => simp [sumW]
  | cons w ws ih =>
    simp only [sumW, List.map_cons, List.sum_cons, List.length_cons] at ih ⊢
    have := h w (by simp)
    have := ih fun w hw => h w (by simp [hw])
    omega

theorem sumW_zero {f : Worker → Nat} {ws : List Worker} (h : sumW f ws = 0) : ∀ w ∈ ws, f w = 0 := by
  intro w hw
  obtain ⟨i, hi⟩ := List.mem_iff_getElem?.1 hw
  have := sumW_le (f := f) hi
  omega

theorem sumW_congr {f g : Worker → Nat} {ws : List Worker} (h : ∀ w ∈ ws, f w = g w) : sumW f ws = sumW g ws := by
  induction ws with
  | nil => rfl
  | cons w ws ih =>
    simp only [sumW, List.map_cons, List.sum_cons] at ih ⊢
    rw [h w (by simp), ih fun w hw => h w (by simp [hw])]

theorem sumW_replicate (f : Worker → Nat) (n : Nat) (w : Worker) : sumW f (List.replicate n w) = n * f w := by
  induction n with
  | zero => simp [sumW]
  | succ n ih =>
    simp only [sumW, List.replicate_succ, List.map_cons, List.sum_cons] at ih ⊢
    rw [ih, Nat.succ_mul]
    omega

section

variable (s : Pool) (i : Nat) (w : Worker)

@[simp] theorem stop_workers : (s.stop i w).workers = s.workers.set i w := by unfold Pool.stop; dsimp only; split <;> rfl
@[simp] theorem stop_locked : (s.stop i w).locked = s.locked := by unfold Pool.stop; dsimp only; split <;> rfl
@[simp] theorem stop_poisoned : (s.stop i w).poisoned = s.poisoned := by unfold Pool.stop; dsimp only; split <;> rfl
@[simp] theorem stop_owner : (s.stop i w).owner = s.owner := by unfold Pool.stop; dsimp only; split <;> rfl
@[simp] theorem stop_sent : (s.stop i w).sent = s.sent := by unfold Pool.stop; dsimp only; split <;> rfl
@[simp] theorem stop_taken : (s.stop i w).taken = s.taken := by unfold Pool.stop; dsimp only; split <;> rfl
@[simp] theorem stop_started : (s.stop i w).started = s.started := by unfold Pool.stop; dsimp only; split <;> rfl
@[simp] theorem stop_finished : (s.stop i w).finished = s.finished := by unfold Pool.stop; dsimp only; split <;> rfl
@[simp] theorem stop_crashed : (s.stop i w).crashed = s.crashed := by unfold Pool.stop; dsimp only; split <;> rfl

theorem stop_queue : (∃ w' ∈ s.workers.set i w, w'.alive = true) ∧ (s.stop i w).queue = s.queue ∧ (s.stop i w).lost = s.lost ∨
    (∀ w' ∈ s.workers.set i w, w'.alive = false) ∧ (s.stop i w).queue = [] ∧ (s.stop i w).lost = s.lost ++ s.queue := by
  unfold Pool.stop
  dsimp only
  split
  · next h => exact .inl ⟨by simpa [Pool.open, List.any_eq_true] using h, rfl, rfl⟩
  · next h => exact .inr ⟨by simpa [Pool.open, List.any_eq_true] using h, rfl, rfl⟩

end

/-- The steps of a worker. -/
inductive WorkStep (s : Pool) (i : Nat) : Pool → Prop
  | lock : s.workers[i]? = some .idle → s.locked = none → s.poisoned = false →
      WorkStep s i { s with workers := s.workers.set i .receiving, locked := some i }
  | bad : s.workers[i]? = some .idle → s.locked = none → s.poisoned = true → WorkStep s i (s.stop i .failed)
  | take {m : Msg} {ms : List Msg} : s.workers[i]? = some .receiving → s.queue = m :: ms →
      WorkStep s i { s with workers := s.workers.set i (.received m), queue := ms, taken := s.taken ++ [m] }
  | fail : s.workers[i]? = some .receiving → s.queue = [] → s.owner.hasSender = false →
      WorkStep s i { s.stop i .failed with locked := none, poisoned := true }
  | release {m : Msg} : s.workers[i]? = some (.received m) → WorkStep s i { s with workers := s.workers.set i (.matching m), locked := none }
  | begin {j : Nat} : s.workers[i]? = some (.matching (.job j)) →
      WorkStep s i { s with workers := s.workers.set i (.running j), started := s.started ++ [j] }
  | exit : s.workers[i]? = some (.matching .terminate) → WorkStep s i (s.stop i .exited)
  | crash {j : Nat} : s.workers[i]? = some (.running j) →
      WorkStep s i (({ s with crashed := s.crashed ++ [j] } : Pool).stop i .crashed)
  | finish {j : Nat} : s.workers[i]? = some (.running j) →
      WorkStep s i { s with workers := s.workers.set i .idle, finished := s.finished ++ [j] }

theorem work_step {s s' : Pool} {i : Nat} {p : Bool} (h : s.work i p = some s') : WorkStep s i s' := by
  unfold Pool.work at h
  split at h
  · next hw =>
    split at h
    · cases h
    · next hl =>
      split at h
      · next hp => cases h; exact .bad hw (by simpa using hl) hp
      · next hp => cases h; exact .lock hw (by simpa using hl) (by simpa using hp)
  · next hw =>
    split at h
    · next hq => cases h; exact .take hw hq
    · next hq =>
      split at h
      · cases h
      · next ho => cases h; exact .fail hw hq (by simpa using ho)
  · next hw => cases h; exact .release hw
  · next hw => cases h; exact .begin hw
  · next hw => cases h; exact .exit hw
  · next hw =>
    split at h
    · cases h; exact .crash hw
    · cases h; exact .finish hw
  · cases h

/-- The steps of the owner. -/
inductive OwnStep (s : Pool) : Pool → Prop
  | execute : s.owner = .using → s.open = true →
      OwnStep s { s with queue := s.queue ++ [.job (jobsOf s.sent).length], sent := s.sent ++ [.job (jobsOf s.sent).length] }
  | refused : s.owner = .using → s.open = false → OwnStep s { s with owner := .failed }
  | drop : s.owner = .using → OwnStep s { s with owner := .sending s.workers.length }
  | all : s.owner = .sending 0 → OwnStep s { s with owner := .joining 0 }
  | send {k : Nat} : s.owner = .sending (k + 1) → s.open = true →
      OwnStep s { s with queue := s.queue ++ [.terminate], sent := s.sent ++ [.terminate], owner := .sending k }
  | unsent {k : Nat} : s.owner = .sending (k + 1) → s.open = false → OwnStep s { s with owner := .panicked }
  | done {i : Nat} : s.owner = .joining i → s.workers[i]? = none → OwnStep s { s with owner := .dropped }
  | join {i : Nat} : s.owner = .joining i → s.workers[i]? = some .exited → OwnStep s { s with owner := .joining (i + 1) }
  | dead {i : Nat} {w : Worker} : s.owner = .joining i → s.workers[i]? = some w → w ≠ .exited → w.alive = false →
      OwnStep s { s with owner := .panicked }

theorem own_step {s s' : Pool} (h : s.own = some s') : OwnStep s s' := by
  unfold Pool.own at h
  split at h
  · next ho => cases h; exact .all ho
  · next ho =>
    split at h
    · next hp => cases h; exact .send ho hp
    · next hp => cases h; exact .unsent ho (by simpa using hp)
  · next ho =>
    split at h
    · next hw => cases h; exact .done ho hw
    · next hw => cases h; exact .join ho hw
    · next w hne hw =>
      split at h
      · cases h
      · next ha => cases h; exact .dead ho hw (by rintro rfl; exact hne rfl) (by simpa using ha)
  · cases h

theorem step_cases {s s' : Pool} {a : Act} (h : s.step a = some s') : (∃ i p, a = .work i p ∧ WorkStep s i s') ∨ OwnStep s s' := by
  cases a with
  | execute =>
    simp only [Pool.step] at h
    split at h
    · next ho =>
      cases h
      split
      · next hp => exact .inr (.execute ho hp)
      · next hp => exact .inr (.refused ho (by simpa using hp))
    · cases h
  | drop =>
    simp only [Pool.step] at h
    split at h
    · next ho => cases h; exact .inr (.drop ho)
    · cases h
  | own => exact .inr (own_step h)
  | work i p => exact .inl ⟨i, p, rfl, work_step h⟩

/-- Weights of workers. -/
def Worker.pend (j : Nat) : Worker → Nat
  | .received (.job k) | .matching (.job k) => if k = j then 1 else 0
  | _ => 0

def Worker.run (j : Nat) : Worker → Nat
  | .running k => if k = j then 1 else 0
  | _ => 0

def Worker.ends : Worker → Nat
  | .received .terminate | .matching .terminate | .exited => 1
  | _ => 0

def Worker.isCrashed : Worker → Nat
  | .crashed => 1
  | _ => 0

def Worker.holds : Worker → Nat
  | .receiving | .received _ => 1
  | _ => 0

theorem jobsOf_append (a b : List Msg) : jobsOf (a ++ b) = jobsOf a ++ jobsOf b := by simp [jobsOf]

@[simp] theorem jobsOf_job (j : Nat) (ms : List Msg) : jobsOf (.job j :: ms) = j :: jobsOf ms := rfl
@[simp] theorem jobsOf_terminate (ms : List Msg) : jobsOf (.terminate :: ms) = jobsOf ms := rfl
@[simp] theorem jobsOf_nil : jobsOf [] = [] := rfl

/-- How many `Terminate`s the owner has sent. -/
def Owner.Sent (n k : Nat) : Owner → Prop
  | .using | .failed => k = 0
  | .sending k' => k + k' = n
  | .joining _ | .dropped => k = n
  | .panicked => True

/-- What always holds of a pool of `n` workers. -/
structure Pool.Inv (n : Nat) (s : Pool) : Prop where
  pos : 0 < n
  len : s.workers.length = n
  /-- The worker that holds the mutex. -/
  lock : ∀ i, s.locked = some i ↔ ∃ w, s.workers[i]? = some w ∧ w.holds = 1
  msgs : s.sent = s.taken ++ s.lost ++ s.queue
  closed : s.open = false → s.queue = []
  lostClosed : s.lost ≠ [] → s.open = false
  ids : jobsOf s.sent = List.range (jobsOf s.sent).length
  /-- First jobs, then `Terminate`s, as many as the owner has sent. -/
  shape : ∃ (js : List Nat) (k : Nat), s.sent = js.map Msg.job ++ List.replicate k .terminate ∧ s.owner.Sent n k
  started : ∀ j, (jobsOf s.taken).count j = s.started.count j + sumW (Worker.pend j) s.workers
  running : ∀ j, s.started.count j = s.finished.count j + s.crashed.count j + sumW (Worker.run j) s.workers
  crashes : s.crashed.length = sumW Worker.isCrashed s.workers
  terms : s.taken.count .terminate = sumW Worker.ends s.workers
  poison : (s.poisoned = true ∨ .failed ∈ s.workers) → s.owner.hasSender = false ∧ s.queue = []
  joined : ∀ k, (s.owner = .joining k ∨ s.owner = .dropped ∧ k = n) → ∀ j < k, s.workers[j]? = some .exited
  lostJobs : jobsOf s.lost ≠ [] → s.crashed.length = n

theorem no_jobs_after {js : List Nat} {k : Nat} {a b : List Msg} (h : js.map Msg.job ++ List.replicate k .terminate = a ++ b)
    (ha : .terminate ∈ a) : jobsOf b = [] := by
  induction js generalizing a with
  | nil =>
    have : ∀ m ∈ b, m = .terminate := by
      intro m hm
      have : m ∈ List.replicate k Msg.terminate := by
        rw [List.map_nil, List.nil_append] at h
        rw [h]; simp [hm]
      exact (List.mem_replicate.1 this).2
    clear h ha
    induction b with
    | nil => rfl
    | cons m b ih =>
      obtain rfl := this m (by simp)
      exact ih fun m hm => this m (by simp [hm])
  | cons j js ih =>
    cases a with
    | nil => cases ha
    | cons m a =>
      simp only [List.map_cons, List.cons_append, List.cons.injEq] at h
      obtain ⟨rfl, h⟩ := h
      exact ih h (by simpa using ha)

theorem Pool.open_of {s : Pool} {i : Nat} {w : Worker} (h : s.workers[i]? = some w) (ha : w.alive = true) : s.open = true :=
  List.any_eq_true.2 ⟨w, List.mem_iff_getElem?.2 ⟨i, h⟩, ha⟩

theorem Pool.alive_of {s : Pool} (h : s.open = true) : ∃ (i : Nat) (w : Worker), s.workers[i]? = some w ∧ w.alive = true := by
  obtain ⟨w, h1, h2⟩ := List.any_eq_true.1 h
  obtain ⟨i, hi⟩ := List.mem_iff_getElem?.1 h1
  exact ⟨i, w, hi, h2⟩

/-- Once a worker was told to stop, no job is left in the channel. -/
theorem Pool.Inv.noJobs {n : Nat} {s : Pool} (h : s.Inv n) {i : Nat} {w : Worker} (hw : s.workers[i]? = some w) (he : w.ends = 1) :
    jobsOf s.queue = [] := by
  have h1 := sumW_le (f := Worker.ends) hw
  rw [he, ← h.terms] at h1
  obtain ⟨js, k, h2, -⟩ := h.shape
  rw [h.msgs, List.append_assoc] at h2
  have := no_jobs_after h2.symm (List.count_pos_iff.1 h1)
  rw [jobsOf_append, List.append_eq_nil_iff] at this
  exact this.2

/-- While a job is in the channel, workers stop only by a panic of a job. -/
theorem Pool.Inv.onlyCrashed {n : Nat} {s : Pool} (h : s.Inv n) (hj : jobsOf s.queue ≠ []) {i : Nat} {w : Worker}
    (hw : s.workers[i]? = some w) (ha : w.alive = false) : w = .crashed := by
  cases w with
  | crashed => rfl
  | exited => exact absurd (h.noJobs hw rfl) hj
  | failed =>
    have := (h.poison (.inr (List.mem_iff_getElem?.2 ⟨i, hw⟩))).2
    rw [this] at hj
    exact absurd rfl hj
  | _ => cases ha

theorem mem_set_of {ws : List Worker} {i : Nat} {x y w : Worker} (h : ws[i]? = some x) (hw : w ∈ ws.set i y) : w = y ∨ w ∈ ws := by
  rcases List.mem_or_eq_of_mem_set hw with h | h
  · exact .inr h
  · exact .inl h

theorem lock_set {s : Pool} {n i : Nat} {x y : Worker} (h : s.Inv n) (hx : s.workers[i]? = some x) (hxy : x.holds = y.holds) :
    ∀ j, s.locked = some j ↔ ∃ w, (s.workers.set i y)[j]? = some w ∧ w.holds = 1 := by
  intro j
  rw [h.lock j, List.getElem?_set]
  by_cases hij : i = j
  · subst hij
    have hlt : i < s.workers.length := (List.getElem?_eq_some_iff.1 hx).1
    simp only [hx, Option.some.injEq, if_true, hlt]
    constructor
    · rintro ⟨w, rfl, hw⟩; exact ⟨y, rfl, by rw [← hxy]; exact hw⟩
    · rintro ⟨w, rfl, hw⟩; exact ⟨x, rfl, by rw [hxy]; exact hw⟩
  · simp only [hij, if_false]

theorem lock_none {s : Pool} {n i : Nat} {x y : Worker} (h : s.Inv n) (hx : s.workers[i]? = some x) (h1 : x.holds = 1) (h0 : y.holds = 0) :
    ∀ j, (none : Option Nat) = some j ↔ ∃ w, (s.workers.set i y)[j]? = some w ∧ w.holds = 1 := by
  intro j
  constructor
  · intro h; cases h
  · rintro ⟨w, h2, h3⟩
    rw [List.getElem?_set] at h2
    have hi := (h.lock i).2 ⟨x, hx, h1⟩
    by_cases hij : i = j
    · subst hij
      have hlt : i < s.workers.length := (List.getElem?_eq_some_iff.1 hx).1
      simp only [if_true, hlt, Option.some.injEq] at h2
      subst h2
      omega
    · simp only [hij, if_false] at h2
      have := (h.lock j).2 ⟨w, h2, h3⟩
      rw [hi] at this
      exact absurd (Option.some.inj this) hij

theorem lock_some {s : Pool} {n i : Nat} {x y : Worker} (h : s.Inv n) (hx : s.workers[i]? = some x) (hl : s.locked = none) (h1 : y.holds = 1) :
    ∀ j, some i = some j ↔ ∃ w, (s.workers.set i y)[j]? = some w ∧ w.holds = 1 := by
  intro j
  have hlt : i < s.workers.length := (List.getElem?_eq_some_iff.1 hx).1
  rw [List.getElem?_set]
  constructor
  · intro h
    cases h
    exact ⟨y, by simp [hlt], h1⟩
  · rintro ⟨w, h2, h3⟩
    by_cases hij : i = j
    · rw [hij]
    · simp only [hij, if_false] at h2
      have := (h.lock j).2 ⟨w, h2, h3⟩
      rw [hl] at this
      cases this

/-- A step of worker `i` that leaves it alive keeps what holds of the others. -/
theorem open_set {s : Pool} {i : Nat} {x y : Worker} (hx : s.workers[i]? = some x) (hy : y.alive = true) (s' : Pool)
    (hs : s'.workers = s.workers.set i y) : s'.open = true := by
  have hlt : i < s.workers.length := (List.getElem?_eq_some_iff.1 hx).1
  exact Pool.open_of (i := i) (by rw [hs, List.getElem?_set]; simp [hlt]) hy

theorem joined_set {s : Pool} {n i : Nat} {x y : Worker} (h : s.Inv n) (hx : s.workers[i]? = some x) (ha : x.alive = true) :
    ∀ k, (s.owner = .joining k ∨ s.owner = .dropped ∧ k = n) → ∀ j < k, (s.workers.set i y)[j]? = some .exited := by
  intro k hk j hj
  have := h.joined k hk j hj
  rw [List.getElem?_set]
  by_cases hij : i = j
  · subst hij
    rw [hx] at this
    cases this
    cases ha
  · simp only [hij, if_false, this]

theorem closed_stop {s : Pool} {i : Nat} {w : Worker} {p : Bool} {l : Option Nat} :
    ({ s.stop i w with poisoned := p, locked := l } : Pool).open = false → (s.stop i w).queue = [] := by
  intro hc
  rcases stop_queue s i w with ⟨⟨w', h1, h2⟩, -, -⟩ | ⟨-, h2, -⟩
  · exfalso
    rw [show ({ s.stop i w with poisoned := p, locked := l } : Pool).open = true from
      List.any_eq_true.2 ⟨w', by simpa using h1, h2⟩] at hc
    cases hc
  · exact h2

/-- A worker stops. -/
theorem inv_stop {n : Nat} {s : Pool} {i : Nat} {x y : Worker} {l : Option Nat} {p : Bool} {c : List Nat} (h : s.Inv n)
    (hw : s.workers[i]? = some x) (ha : x.alive = true) (hy : y.alive = false)
    (hl : ∀ j, l = some j ↔ ∃ w, (s.workers.set i y)[j]? = some w ∧ w.holds = 1)
    (hpend : ∀ j, x.pend j = 0 ∧ y.pend j = 0) (hrun : ∀ j, x.run j + s.crashed.count j = c.count j ∧ y.run j = 0)
    (hcr : s.crashed.length + y.isCrashed = c.length) (hends : x.ends = y.ends)
    (hj : jobsOf s.queue ≠ [] → y = .crashed)
    (hf : p = true ∨ y = .failed → s.owner.hasSender = false ∧ s.queue = []) (hp : s.poisoned = true → p = true) :
    ({ ({ s with crashed := c } : Pool).stop i y with locked := l, poisoned := p } : Pool).Inv n := by
  have hx0 : x.isCrashed = 0 := by cases x <;> first | rfl | cases ha
  have hopen : s.open = true := Pool.open_of hw ha
  have hlost : s.lost = [] := by
    cases hl : s.lost with
    | nil => rfl
    | cons a b => rw [h.lostClosed (by simp [hl])] at hopen; cases hopen
  have hq := stop_queue { s with crashed := c } i y
  have hcrash : c.length = sumW Worker.isCrashed (s.workers.set i y) := by
    have := sumW_set (f := Worker.isCrashed) hw y
    have := h.crashes
    omega
  refine ⟨h.pos, by simpa using h.len, by simpa using hl, ?_, closed_stop, ?_, by simpa using h.ids, by simpa using h.shape, ?_, ?_,
    by simpa using hcrash, ?_, ?_, by simpa using joined_set h hw ha, ?_⟩
  · dsimp only
    rw [stop_sent, stop_taken]
    rcases hq with ⟨-, h1, h2⟩ | ⟨-, h1, h2⟩
    · rw [h1, h2]; exact h.msgs
    · rw [h1, h2, List.append_nil, ← List.append_assoc]; exact h.msgs
  · dsimp only
    intro hc
    rcases hq with ⟨-, h1, h2⟩ | ⟨h0, h1, h2⟩
    · exact absurd (h2.trans hlost) hc
    · exact List.any_eq_false.2 fun w hw => by simpa using h0 w (by simpa using hw)
  · intro j
    have := sumW_set (f := Worker.pend j) hw y
    have := hpend j
    have := h.started j
    simp only [stop_taken, stop_started, stop_workers]
    omega
  · intro j
    have := sumW_set (f := Worker.run j) hw y
    have := hrun j
    have := h.running j
    simp only [stop_crashed, stop_started, stop_workers, stop_finished]
    omega
  · have := sumW_set (f := Worker.ends) hw y
    have := h.terms
    simp only [stop_taken, stop_workers]
    omega
  · intro hc
    have : p = true ∨ y = .failed ∨ .failed ∈ s.workers := by
      rcases hc with hc | hc
      · exact .inl hc
      · simp only [stop_workers] at hc
        rcases mem_set_of hw hc with hc | hc
        · exact .inr (.inl hc.symm)
        · exact .inr (.inr hc)
    have h3 : s.owner.hasSender = false ∧ s.queue = [] := by
      rcases this with h3 | h3 | h3
      · exact hf (.inl h3)
      · exact hf (.inr h3)
      · exact h.poison (.inr h3)
    refine ⟨by simpa using h3.1, ?_⟩
    rcases hq with ⟨-, h1, -⟩ | ⟨-, h1, -⟩
    · exact h1.trans h3.2
    · exact h1
  · intro hc
    dsimp only at hc ⊢
    rw [stop_crashed]
    dsimp only
    rcases hq with ⟨-, h1, h2⟩ | ⟨h0, h1, h2⟩
    · rw [h2] at hc
      exact absurd (by rw [show ({ s with crashed := c } : Pool).lost = s.lost from rfl, hlost]; rfl) hc
    · rw [h2, jobsOf_append] at hc
      dsimp only at hc
      rw [hlost] at hc
      have hc : jobsOf s.queue ≠ [] := by simpa using hc
      have := hj hc
      subst this
      rw [hcrash, ← h.len]
      have hlen : s.workers.length = (s.workers.set i .crashed).length := by simp
      rw [hlen]
      apply sumW_eq_length
      intro w hm
      have hd := h0 w hm
      rcases mem_set_of hw hm with rfl | hm
      · rfl
      · obtain ⟨k, hk⟩ := List.mem_iff_getElem?.1 hm
        rw [h.onlyCrashed hc hk hd]; rfl

theorem inv_work {n : Nat} {s s' : Pool} {i : Nat} (h : s.Inv n) (hs : WorkStep s i s') : s'.Inv n := by
  cases hs with
  | lock hw hl hp =>
    have hS : ∀ f : Worker → Nat, f .idle = 0 → f .receiving = 0 → sumW f (s.workers.set i .receiving) = sumW f s.workers := by
      intro f h1 h2
      have := sumW_set (f := f) hw .receiving
      omega
    have ho : s.open = true := Pool.open_of hw rfl
    refine ⟨h.pos, by simpa using h.len, lock_some h hw hl rfl, h.msgs, ?_, ?_, h.ids, h.shape, ?_, ?_, ?_, ?_, ?_, joined_set h hw rfl, h.lostJobs⟩
    · intro hc; rw [open_set hw (y := .receiving) rfl _ rfl] at hc; cases hc
    · intro hc; rw [h.lostClosed hc] at ho; cases ho
    · intro j; rw [hS _ rfl rfl]; exact h.started j
    · intro j; rw [hS _ rfl rfl]; exact h.running j
    · rw [hS _ rfl rfl]; exact h.crashes
    · rw [hS _ rfl rfl]; exact h.terms
    · rintro (hc | hc)
      · exact h.poison (.inl hc)
      · rcases mem_set_of hw hc with hc | hc
        · cases hc
        · exact h.poison (.inr hc)
  | @take m ms hw hq =>
    have ho : s.open = true := Pool.open_of hw rfl
    have hl : s.lost = [] := by
      cases hl : s.lost with
      | nil => rfl
      | cons a b => rw [h.lostClosed (by simp [hl])] at ho; cases ho
    refine ⟨h.pos, by simpa using h.len, lock_set h hw rfl, ?_, ?_, ?_, h.ids, h.shape, ?_, ?_, ?_, ?_, ?_, joined_set h hw rfl, h.lostJobs⟩
    · show s.sent = _
      rw [h.msgs, hl, hq]
      simp
    · intro hc; rw [open_set hw (y := .received m) rfl _ rfl] at hc; cases hc
    · intro hc; exact absurd hl hc
    · intro j
      have := sumW_set (f := Worker.pend j) hw (.received m)
      have h2 := h.started j
      show (jobsOf (s.taken ++ [m])).count j = _
      cases m with
      | job k =>
        simp only [jobsOf_append, jobsOf_job, jobsOf_nil, List.count_append, List.count_cons, List.count_nil, Worker.pend, beq_iff_eq] at this ⊢
        omega
      | terminate =>
        simp only [jobsOf_append, jobsOf_terminate, jobsOf_nil, List.append_nil, Worker.pend] at this ⊢
        omega
    · intro j
      have := sumW_set (f := Worker.run j) hw (.received m)
      have h2 := h.running j
      simp only [Worker.run] at this
      show s.started.count j = _
      dsimp only
      omega
    · have := sumW_set (f := Worker.isCrashed) hw (.received m)
      have h2 := h.crashes
      simp only [Worker.isCrashed] at this
      dsimp only
      omega
    · have := sumW_set (f := Worker.ends) hw (.received m)
      have h2 := h.terms
      cases m with
      | job k =>
        simp only [Worker.ends, List.count_append, List.count_cons, List.count_nil] at this ⊢
        simp
        omega
      | terminate =>
        simp only [Worker.ends, List.count_append, List.count_cons, List.count_nil] at this ⊢
        simp
        omega
    · rintro (hc | hc)
      · have := h.poison (.inl hc)
        rw [hq] at this
        cases this.2
      · rcases mem_set_of hw hc with hc | hc
        · cases hc
        · have := h.poison (.inr hc)
          rw [hq] at this
          cases this.2
  | @release m hw =>
    refine ⟨h.pos, by simpa using h.len, lock_none h hw rfl rfl, h.msgs, ?_, ?_, h.ids, h.shape, ?_, ?_, ?_, ?_, ?_, joined_set h hw rfl, h.lostJobs⟩
    · intro hc; rw [open_set hw (y := .matching m) rfl _ rfl] at hc; cases hc
    · intro hc; have := h.lostClosed hc; rw [Pool.open_of hw rfl] at this; cases this
    · intro j
      have := sumW_set (f := Worker.pend j) hw (.matching m)
      have h2 := h.started j
      cases m <;> simp only [Worker.pend] at this <;> dsimp only <;> omega
    · intro j
      have := sumW_set (f := Worker.run j) hw (.matching m)
      have h2 := h.running j
      simp only [Worker.run] at this
      dsimp only
      omega
    · have := sumW_set (f := Worker.isCrashed) hw (.matching m)
      have h2 := h.crashes
      simp only [Worker.isCrashed] at this
      dsimp only
      omega
    · have := sumW_set (f := Worker.ends) hw (.matching m)
      have h2 := h.terms
      cases m <;> simp only [Worker.ends] at this <;> dsimp only <;> omega
    · rintro (hc | hc)
      · exact h.poison (.inl hc)
      · rcases mem_set_of hw hc with hc | hc
        · cases hc
        · exact h.poison (.inr hc)
  | @begin k hw =>
    refine ⟨h.pos, by simpa using h.len, lock_set h hw rfl, h.msgs, ?_, ?_, h.ids, h.shape, ?_, ?_, ?_, ?_, ?_, joined_set h hw rfl, h.lostJobs⟩
    · intro hc; rw [open_set hw (y := .running k) rfl _ rfl] at hc; cases hc
    · intro hc; have := h.lostClosed hc; rw [Pool.open_of hw rfl] at this; cases this
    · intro j
      have := sumW_set (f := Worker.pend j) hw (.running k)
      have h2 := h.started j
      simp only [Worker.pend] at this
      dsimp only
      try simp only [List.count_append, List.count_cons, List.count_nil, beq_iff_eq]
      omega
    · intro j
      have := sumW_set (f := Worker.run j) hw (.running k)
      have h2 := h.running j
      simp only [Worker.run] at this
      dsimp only
      try simp only [List.count_append, List.count_cons, List.count_nil, beq_iff_eq]
      omega
    · have := sumW_set (f := Worker.isCrashed) hw (.running k)
      have h2 := h.crashes
      simp only [Worker.isCrashed] at this
      dsimp only
      omega
    · have := sumW_set (f := Worker.ends) hw (.running k)
      have h2 := h.terms
      simp only [Worker.ends] at this
      dsimp only
      omega
    · rintro (hc | hc)
      · exact h.poison (.inl hc)
      · rcases mem_set_of hw hc with hc | hc
        · cases hc
        · exact h.poison (.inr hc)
  | @finish k hw =>
    refine ⟨h.pos, by simpa using h.len, lock_set h hw rfl, h.msgs, ?_, ?_, h.ids, h.shape, ?_, ?_, ?_, ?_, ?_, joined_set h hw rfl, h.lostJobs⟩
    · intro hc; rw [open_set hw (y := .idle) rfl _ rfl] at hc; cases hc
    · intro hc; have := h.lostClosed hc; rw [Pool.open_of hw rfl] at this; cases this
    · intro j
      have := sumW_set (f := Worker.pend j) hw (.idle)
      have h2 := h.started j
      simp only [Worker.pend] at this
      dsimp only
      try simp only [List.count_append, List.count_cons, List.count_nil, beq_iff_eq]
      omega
    · intro j
      have := sumW_set (f := Worker.run j) hw (.idle)
      have h2 := h.running j
      simp only [Worker.run] at this
      dsimp only
      try simp only [List.count_append, List.count_cons, List.count_nil, beq_iff_eq]
      omega
    · have := sumW_set (f := Worker.isCrashed) hw (.idle)
      have h2 := h.crashes
      simp only [Worker.isCrashed] at this
      dsimp only
      omega
    · have := sumW_set (f := Worker.ends) hw (.idle)
      have h2 := h.terms
      simp only [Worker.ends] at this
      dsimp only
      omega
    · rintro (hc | hc)
      · exact h.poison (.inl hc)
      · rcases mem_set_of hw hc with hc | hc
        · cases hc
        · exact h.poison (.inr hc)
  | bad hw hl hp =>
    have hq := h.poison (.inl hp)
    have := inv_stop (y := .failed) (l := s.locked) (p := s.poisoned) (c := s.crashed) h hw rfl rfl (lock_set h hw rfl)
      (fun _ => ⟨rfl, rfl⟩) (fun _ => ⟨by simp [Worker.run], rfl⟩) rfl rfl (fun hj => absurd (by rw [hq.2]; rfl) hj) (fun _ => hq) id
    have he : ({ s.stop i .failed with locked := s.locked, poisoned := s.poisoned } : Pool) = s.stop i .failed := by
      unfold Pool.stop; dsimp only; split <;> rfl
    exact he ▸ this
  | fail hw hq ho =>
    exact inv_stop (y := .failed) (l := none) (p := true) (c := s.crashed) h hw rfl rfl (lock_none h hw rfl rfl)
      (fun _ => ⟨rfl, rfl⟩) (fun _ => ⟨by simp [Worker.run], rfl⟩) rfl rfl (fun hj => absurd (by rw [hq]; rfl) hj) (fun _ => ⟨ho, hq⟩)
      (fun _ => rfl)
  | exit hw =>
    have := inv_stop (y := .exited) (l := s.locked) (p := s.poisoned) (c := s.crashed) h hw rfl rfl (lock_set h hw rfl)
      (fun _ => ⟨rfl, rfl⟩) (fun _ => ⟨by simp [Worker.run], rfl⟩) rfl rfl (fun hj => absurd (h.noJobs hw rfl) hj)
      (fun hf => h.poison (.inl (by simpa using hf))) id
    have he : ({ s.stop i .exited with locked := s.locked, poisoned := s.poisoned } : Pool) = s.stop i .exited := by
      unfold Pool.stop; dsimp only; split <;> rfl
    exact he ▸ this
  | @crash j hw =>
    have := inv_stop (y := .crashed) (l := s.locked) (p := s.poisoned) (c := s.crashed ++ [j]) h hw rfl rfl (lock_set h hw rfl)
      (fun _ => ⟨rfl, rfl⟩) (fun k => ⟨by simp only [Worker.run, List.count_append, List.count_cons, List.count_nil, beq_iff_eq]; omega, rfl⟩)
      (by simp [Worker.isCrashed]) rfl (fun _ => rfl) (fun hf => h.poison (.inl (by simpa using hf))) id
    have he : ({ ({ s with crashed := s.crashed ++ [j] } : Pool).stop i .crashed with locked := s.locked, poisoned := s.poisoned } : Pool) =
        ({ s with crashed := s.crashed ++ [j] } : Pool).stop i .crashed := by
      unfold Pool.stop; dsimp only; split <;> rfl
    exact he ▸ this

theorem Pool.Inv.lost_nil {n : Nat} {s : Pool} (h : s.Inv n) (ho : s.open = true) : s.lost = [] := by
  cases hl : s.lost with
  | nil => rfl
  | cons a b => rw [h.lostClosed (by simp [hl])] at ho; cases ho

/-- The owner changes its state only. -/
theorem inv_owner {n : Nat} {s : Pool} {o : Owner} (h : s.Inv n) (hs : ∀ k, s.owner.Sent n k → o.Sent n k)
    (ho : s.owner.hasSender = false → o.hasSender = false)
    (hj : ∀ k, (o = .joining k ∨ o = .dropped ∧ k = n) → ∀ j < k, s.workers[j]? = some .exited) : ({ s with owner := o } : Pool).Inv n := by
  obtain ⟨js, k, h1, h2⟩ := h.shape
  exact ⟨h.pos, h.len, h.lock, h.msgs, h.closed, h.lostClosed, h.ids, ⟨js, k, h1, hs k h2⟩, h.started, h.running, h.crashes, h.terms,
    fun hc => ⟨ho (h.poison hc).1, (h.poison hc).2⟩, hj, h.lostJobs⟩

/-- The owner sends a message. -/
theorem inv_send {n : Nat} {s : Pool} {o : Owner} {m : Msg} (h : s.Inv n) (hopen : s.open = true)
    (hm : m = .terminate ∨ m = .job (jobsOf s.sent).length ∧ ∀ k, s.owner.Sent n k → k = 0)
    (hs : ∀ k, s.owner.Sent n k → o.Sent n (k + if m = .terminate then 1 else 0)) (hso : s.owner.hasSender = true)
    (hj : ∀ k, o ≠ .joining k ∧ o ≠ .dropped) :
    ({ s with queue := s.queue ++ [m], sent := s.sent ++ [m], owner := o } : Pool).Inv n := by
  obtain ⟨js, k, h1, h2⟩ := h.shape
  refine ⟨h.pos, h.len, h.lock, ?_, ?_, h.lostClosed, ?_, ?_, h.started, h.running, h.crashes, h.terms, ?_, ?_, h.lostJobs⟩
  · show s.sent ++ [m] = _
    rw [h.msgs, List.append_assoc]
  · intro hc
    have hc : s.open = false := hc
    rw [hopen] at hc; cases hc
  · rcases hm with rfl | ⟨rfl, -⟩
    · have := h.ids
      simpa [jobsOf_append] using this
    · have := h.ids
      simp only [jobsOf_append, jobsOf_job, jobsOf_nil, List.length_append, List.length_cons, List.length_nil, List.range_succ]
      rw [← this]
  · have h3 := hs k h2
    rcases hm with rfl | ⟨rfl, hk⟩
    · exact ⟨js, k + 1, by rw [h1]; simp [List.replicate_succ'], by simpa using h3⟩
    · obtain rfl := hk k h2
      exact ⟨js ++ [(jobsOf s.sent).length], 0, by dsimp only; rw [h1]; simp, by simpa using h3⟩
  · intro hc
    have := (h.poison hc).1
    rw [hso] at this
    cases this
  · rintro k (hk | ⟨hk, -⟩)
    · exact absurd hk (hj k).1
    · exact absurd hk (hj k).2

theorem inv_own {n : Nat} {s s' : Pool} (h : s.Inv n) (hs : OwnStep s s') : s'.Inv n := by
  cases hs with
  | execute ho hp =>
    have := inv_send (o := s.owner) h hp (.inr ⟨rfl, by rw [ho]; exact fun _ => id⟩) (by simp) (by rw [ho]; rfl) (by simp [ho])
    exact this
  | refused ho hp => exact inv_owner h (by rw [ho]; exact fun _ => id) (by rw [ho]; exact id) (by simp)
  | drop ho =>
    refine inv_owner h ?_ (by rw [ho]; exact id) (by simp)
    rw [ho]
    rintro k rfl
    simp [Owner.Sent, h.len]
  | all ho =>
    refine inv_owner h (by rw [ho]; exact fun _ => id) (by rw [ho]; exact id) ?_
    rintro k (hk | ⟨hk, -⟩)
    · cases hk; exact fun j hj => absurd hj (by omega)
    · cases hk
  | @send k ho hp =>
    refine inv_send h hp (.inl rfl) ?_ (by rw [ho]; rfl) (by simp)
    rw [ho]
    intro k' hk'
    simp only [Owner.Sent, if_true] at hk' ⊢
    omega
  | unsent ho hp => exact inv_owner h (fun _ _ => trivial) (fun _ => rfl) (by simp)
  | @done i ho hw =>
    refine inv_owner h (by rw [ho]; exact fun _ => id) (by rw [ho]; simp [Owner.hasSender]) ?_
    rintro k (hk | ⟨-, rfl⟩)
    · cases hk
    · intro j hj
      have : s.workers.length ≤ i := by simpa using hw
      exact h.joined i (.inl ho) j (by have := h.len; omega)
  | @join i ho hw =>
    refine inv_owner h (by rw [ho]; exact fun _ => id) (by rw [ho]; exact id) ?_
    rintro k (hk | ⟨hk, -⟩)
    · cases hk
      intro j hj
      rcases Nat.lt_succ_iff_lt_or_eq.1 hj with hj | rfl
      · exact h.joined i (.inl ho) j hj
      · exact hw
    · cases hk
  | dead ho hw hne ha => exact inv_owner h (fun _ _ => trivial) (fun _ => rfl) (by simp)

theorem inv_new {n : Nat} {s : Pool} (h : Pool.new n = some s) : s.Inv n := by
  unfold Pool.new at h
  split at h
  · cases h
  · next hn =>
    cases h
    have hw : ∀ (i : Nat) (w : Worker), (List.replicate n Worker.idle)[i]? = some w → w = .idle := by
      intro i w hw
      simp only [List.getElem?_replicate] at hw
      split at hw
      · exact (Option.some.inj hw).symm
      · cases hw
    refine ⟨by omega, by simp, ?_, rfl, fun _ => rfl, by simp, rfl, ⟨[], 0, rfl, rfl⟩, ?_, ?_, ?_, ?_, ?_, by simp, by simp⟩
    · intro i
      constructor
      · intro h; cases h
      · rintro ⟨w, h1, h2⟩
        obtain rfl := hw i w h1
        cases h2
    · intro j; rw [sumW_replicate]; rfl
    · intro j; rw [sumW_replicate]; rfl
    · rw [sumW_replicate]; rfl
    · rw [sumW_replicate]; rfl
    · rintro (h | h)
      · cases h
      · simp at h

theorem inv_step {n : Nat} {s s' : Pool} {a : Act} (h : s.Inv n) (hs : s.step a = some s') : s'.Inv n := by
  rcases step_cases hs with ⟨i, p, -, hs⟩ | hs
  · exact inv_work h hs
  · exact inv_own h hs

theorem Pool.Reach.inv {n : Nat} {s : Pool} (h : Pool.Reach n s) : s.Inv n := by
  induction h with
  | new h => exact inv_new h
  | step _ hs ih => exact inv_step ih hs

theorem Pool.Run.reach {n : Nat} (r : Pool.Run n) (t : Nat) : Pool.Reach n (r.at_ t) := by
  induction t with
  | zero => exact .new r.start
  | succ t ih =>
    have := r.next t
    cases ha : r.act t with
    | none => rw [ha] at this; dsimp only at this; rw [this]; exact ih
    | some a => rw [ha] at this; exact .step ih this

/-! ## Runs -/

namespace Pool.Run

variable {n : Nat} (r : Pool.Run n)

theorem inv (t : Nat) : (r.at_ t).Inv n := (r.reach t).inv

theorem moves (t : Nat) : (r.act t = none ∧ r.at_ (t + 1) = r.at_ t) ∨ ∃ a, r.act t = some a ∧ (r.at_ t).step a = some (r.at_ (t + 1)) := by
  have := r.next t
  cases ha : r.act t with
  | none => rw [ha] at this; exact .inl ⟨rfl, this⟩
  | some a => rw [ha] at this; exact .inr ⟨a, rfl, this⟩

theorem works {t i : Nat} {p : Bool} (h : r.act t = some (.work i p)) : WorkStep (r.at_ t) i (r.at_ (t + 1)) := by
  rcases r.moves t with ⟨h1, -⟩ | ⟨a, h1, h2⟩
  · rw [h] at h1; cases h1
  · rw [h] at h1; cases h1; exact work_step h2

/-- A property that steps keep holds from then on. -/
theorem forever {P : Pool → Prop} (hP : ∀ t a, P (r.at_ t) → (r.at_ t).step a = some (r.at_ (t + 1)) → P (r.at_ (t + 1))) {t : Nat}
    (h : P (r.at_ t)) : ∀ t' ≥ t, P (r.at_ t') := by
  intro t' ht
  induction t' with
  | zero => obtain rfl : t = 0 := (by omega); exact h
  | succ t' ih =>
    rcases Nat.lt_or_ge t' t with h1 | h1
    · obtain rfl : t = t' + 1 := by omega
      exact h
    · rcases r.moves t' with ⟨-, h2⟩ | ⟨a, -, h2⟩
      · rw [h2]; exact ih h1
      · exact hP _ _ (ih h1) h2

end Pool.Run

theorem work_other {s s' : Pool} {i k : Nat} (h : WorkStep s k s') (hk : k ≠ i) : s'.workers[i]? = s.workers[i]? := by
  cases h <;> simp [hk]

theorem own_workers {s s' : Pool} (h : OwnStep s s') : s'.workers = s.workers := by cases h <;> rfl

/-- What a step of its own makes of a worker. -/
theorem work_self {s s' : Pool} {i : Nat} (h : WorkStep s i s') :
    ∃ w w', s.workers[i]? = some w ∧ s'.workers[i]? = some w' ∧ w.alive = true := by
  cases h <;> (rename_i hw; exact ⟨_, _, ‹s.workers[i]? = some _›, by
    have := (List.getElem?_eq_some_iff.1 ‹s.workers[i]? = some _›).1
    simp [this]; rfl, rfl⟩)

theorem step_dead {s s' : Pool} {a : Act} {i : Nat} {w : Worker} (h : s.step a = some s') (hw : s.workers[i]? = some w)
    (hd : w.alive = false) : s'.workers[i]? = some w := by
  rcases step_cases h with ⟨k, p, -, hs⟩ | hs
  · by_cases hk : k = i
    · subst hk
      obtain ⟨w', _, h1, -, h2⟩ := work_self hs
      rw [hw] at h1
      cases h1
      rw [hd] at h2; cases h2
    · rw [work_other hs hk]; exact hw
  · rw [own_workers hs]; exact hw

theorem step_taken {s s' : Pool} {a : Act} (h : s.step a = some s') : s.taken <+: s'.taken := by
  rcases step_cases h with ⟨k, p, -, hs⟩ | hs
  · cases hs <;> simp
  · cases hs <;> exact List.prefix_refl _

theorem step_sent {s s' : Pool} {a : Act} (h : s.step a = some s') : s.sent <+: s'.sent := by
  rcases step_cases h with ⟨k, p, -, hs⟩ | hs
  · cases hs <;> simp
  · cases hs <;> simp

theorem step_finished {s s' : Pool} {a : Act} (h : s.step a = some s') : s.finished <+: s'.finished := by
  rcases step_cases h with ⟨k, p, -, hs⟩ | hs
  · cases hs <;> simp
  · cases hs <;> exact List.prefix_refl _

theorem step_crashed {s s' : Pool} {a : Act} (h : s.step a = some s') : s.crashed <+: s'.crashed := by
  rcases step_cases h with ⟨k, p, -, hs⟩ | hs
  · cases hs <;> simp
  · cases hs <;> exact List.prefix_refl _

theorem step_started {s s' : Pool} {a : Act} (h : s.step a = some s') : s.started <+: s'.started := by
  rcases step_cases h with ⟨k, p, -, hs⟩ | hs
  · cases hs <;> simp
  · cases hs <;> exact List.prefix_refl _

namespace Pool.Run

variable {n : Nat} (r : Pool.Run n)

theorem dead_forever {t i : Nat} {w : Worker} (h : (r.at_ t).workers[i]? = some w) (hd : w.alive = false) :
    ∀ t' ≥ t, (r.at_ t').workers[i]? = some w :=
  r.forever (P := fun s => s.workers[i]? = some w) (fun _ _ h hs => step_dead hs h hd) h

theorem taken_mono {t t' : Nat} (h : t ≤ t') : (r.at_ t).taken <+: (r.at_ t').taken :=
  r.forever (P := fun s => (r.at_ t).taken <+: s.taken) (fun _ _ h hs => h.trans (step_taken hs)) (List.prefix_refl _) t' h

theorem sent_mono {t t' : Nat} (h : t ≤ t') : (r.at_ t).sent <+: (r.at_ t').sent :=
  r.forever (P := fun s => (r.at_ t).sent <+: s.sent) (fun _ _ h hs => h.trans (step_sent hs)) (List.prefix_refl _) t' h

/-- A worker that can act as long as it is where it is does act. -/
theorem acts (hf : r.Fair) {t i : Nat} {w : Worker} (hw : (r.at_ t).workers[i]? = some w)
    (he : ∀ t' ≥ t, (r.at_ t').workers[i]? = some w → (r.at_ t').CanWork i) :
    ∃ t' ≥ t, (r.at_ t').workers[i]? = some w ∧ WorkStep (r.at_ t') i (r.at_ (t' + 1)) := by
  by_cases hc : ∃ t' ≥ t, (r.at_ t').workers[i]? = some w ∧ ∃ p, r.act t' = some (.work i p)
  · obtain ⟨t', h1, h2, p, h3⟩ := hc
    exact ⟨t', h1, h2, r.works h3⟩
  · exfalso
    have key : ∀ t' ≥ t, (r.at_ t').workers[i]? = some w := by
      intro t' ht
      induction t' with
      | zero => obtain rfl : t = 0 := (by omega); exact hw
      | succ t' ih =>
        rcases Nat.lt_or_ge t' t with h1 | h1
        · obtain rfl : t = t' + 1 := by omega
          exact hw
        · have hi := ih h1
          rcases r.moves t' with ⟨-, h2⟩ | ⟨a, ha, h2⟩
          · rw [h2]; exact hi
          · rcases step_cases h2 with ⟨k, p, rfl, hs⟩ | hs
            · by_cases hk : k = i
              · subst hk
                exact absurd ⟨t', h1, hi, p, ha⟩ hc
              · rw [work_other hs hk]; exact hi
            · rw [own_workers hs]; exact hi
    obtain ⟨t', h1, p, h2⟩ := hf i t fun t' ht => he t' ht (key t' ht)
    exact hc ⟨t', h1, key t' h1, p, h2⟩

theorem acts_received (hf : r.Fair) {t i : Nat} {m : Msg} (hw : (r.at_ t).workers[i]? = some (.received m)) :
    ∃ t' > t, (r.at_ t').workers[i]? = some (.matching m) ∧ (r.at_ t').locked = none := by
  obtain ⟨t', h1, h2, h3⟩ := r.acts hf hw fun t' _ h => ⟨true, by simp [Pool.work, h]⟩
  refine ⟨t' + 1, by omega, ?_⟩
  have hlt := (List.getElem?_eq_some_iff.1 h2).1
  generalize r.at_ (t' + 1) = s' at h3
  cases h3 <;> (rename_i hh; try (rw [h2] at hh)) <;> simp_all

theorem acts_matching (hf : r.Fair) {t i j : Nat} (hw : (r.at_ t).workers[i]? = some (.matching (.job j))) :
    ∃ t' > t, (r.at_ t').workers[i]? = some (.running j) := by
  obtain ⟨t', h1, h2, h3⟩ := r.acts hf hw fun t' _ h => ⟨true, by simp [Pool.work, h]⟩
  refine ⟨t' + 1, by omega, ?_⟩
  have hlt := (List.getElem?_eq_some_iff.1 h2).1
  generalize r.at_ (t' + 1) = s' at h3
  cases h3 <;> simp_all

theorem acts_terminate (hf : r.Fair) {t i : Nat} (hw : (r.at_ t).workers[i]? = some (.matching .terminate)) :
    ∃ t' > t, (r.at_ t').workers[i]? = some .exited := by
  obtain ⟨t', h1, h2, h3⟩ := r.acts hf hw fun t' _ h => ⟨true, by simp [Pool.work, h]⟩
  refine ⟨t' + 1, by omega, ?_⟩
  have hlt := (List.getElem?_eq_some_iff.1 h2).1
  generalize r.at_ (t' + 1) = s' at h3
  cases h3 <;> simp_all

theorem acts_running (hf : r.Fair) {t i j : Nat} (hw : (r.at_ t).workers[i]? = some (.running j)) :
    ∃ t' > t, (r.at_ t').workers[i]? = some .idle ∧ j ∈ (r.at_ t').finished ∨
      (r.at_ t').workers[i]? = some .crashed ∧ j ∈ (r.at_ t').crashed := by
  obtain ⟨t', h1, h2, h3⟩ := r.acts hf hw fun t' _ h => ⟨true, by simp [Pool.work, h]⟩
  refine ⟨t' + 1, by omega, ?_⟩
  have hlt := (List.getElem?_eq_some_iff.1 h2).1
  generalize r.at_ (t' + 1) = s' at h3
  cases h3 <;> simp_all

end Pool.Run

end Verif
