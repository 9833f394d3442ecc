import Verif.Spec.Net
import Verif.Proofs.Trace
import Verif.Proofs.ThreadPool
import Verif.Proofs.RefineParse

/-! The steps of the server, case by case, and what always holds. -/

namespace Verif

variable {σ : Type} {prof : Profile} {rt : Router σ}

/-- A step of a handler on its connection alone. -/
inductive Move (prof : Profile) : Phase → Slot Rd Nbw → Nat → Nat → Phase → Slot Rd Nbw → Nat → Prop
  | flushErr {c : Conn Rd Nbw} {e : IoError} {wr : Nbw} {a d : Nat} : Write.flush c.writer = (.error e, wr) →
      Move prof .flushing (.live c) a d .leaving (.gone { c with writer := wr }) d
  | flushOk {c : Conn Rd Nbw} {wr : Nbw} {a d : Nat} : Write.flush c.writer = (.ok (), wr) →
      Move prof .flushing (.live c) a d .reading (.live { c with writer := wr }) d
  | ready {c c' : Conn Rd Nbw} {q : Request} {a d : Nat} : c.readRequest prof = (.ready q, c') →
      Move prof .reading (.live c) a d (.asked q) (.live c') d
  | notReady {c c' : Conn Rd Nbw} {a d : Nat} : c.readRequest prof = (.notReady, c') →
      Move prof .reading (.live c) a d .leaving (.live c') a
  | closed {c c' : Conn Rd Nbw} {a d : Nat} : c.readRequest prof = (.closed, c') →
      Move prof .reading (.live c) a d .leaving (.gone c') d
  | refused {c c' : Conn Rd Nbw} {e : ReadRequestError} {x : IoRes} {wr : Nbw} {a d : Nat} : c.readRequest prof = (.error e, c') →
      writeErrorResponse c'.writer = (x, wr) → x ≠ .diverge →
      Move prof .reading (.live c) a d .leaving (.gone { c' with writer := wr }) d
  | wrote {c : Conn Rd Nbw} {q : Request} {r : ListenerResult} {wr : Nbw} {a d : Nat} : writeAnswer c.writer r = (.ok, wr) →
      shouldCloseAfterResponse q = false → Move prof (.reply q r) (.live c) a d .reading (.live { c with writer := wr }) d
  | asked {c : Conn Rd Nbw} {q : Request} {r : ListenerResult} {wr : Nbw} {a d : Nat} : writeAnswer c.writer r = (.ok, wr) →
      shouldCloseAfterResponse q = true → Move prof (.reply q r) (.live c) a d .leaving (.gone { c with writer := wr }) d
  | failed {c : Conn Rd Nbw} {q : Request} {r : ListenerResult} {e : IoError} {wr : Nbw} {a d : Nat} :
      writeAnswer c.writer r = (.err e, wr) → Move prof (.reply q r) (.live c) a d .leaving (.gone { c with writer := wr }) d

/-- The steps of a handler that has the mutex. -/
inductive Advance (prof : Profile) (rt : Router σ) (s : Net σ) (w k : Nat) (c : NConn σ) : Net σ → Prop
  | move {p : Phase} {slot : Slot Rd Nbw} {d : Nat} : Move prof (s.phase w) c.slot c.arrived.length c.drained p slot d →
      Advance prof rt s w k c ((s.setConn k { c with slot := slot, drained := d }).setPhase w p)
  | ask {q : Request} {a : ListenerResult} {conn : Conn Rd Nbw} : s.phase w = .asked q → c.slot = .live conn →
      (rt.result q s.state).1 = some a →
      Advance prof rt s w k c (({ s with asks := s.asks ++ [(k, q, s.state)], state := (rt.result q s.state).2 }.setConn k
        { c with seen := c.seen ++ [(q, s.state)] }).setPhase w (.reply q a))
  | crash {conn conn' : Conn Rd Nbw} {pool : Pool} : s.phase w = .reading → c.slot = .live conn →
      conn.readRequest prof = (.panic, conn') → s.pool.step (.work w true) = some pool →
      Advance prof rt s w k c { s.setConn k { c with slot := .poisoned conn', lock := none } with pool }
  | crashAsk {q : Request} {conn : Conn Rd Nbw} {pool : Pool} : s.phase w = .asked q → c.slot = .live conn →
      (rt.result q s.state).1 = none → s.pool.step (.work w true) = some pool →
      Advance prof rt s w k c { { s with asks := s.asks ++ [(k, q, s.state)], state := (rt.result q s.state).2 }.setConn k
        { c with seen := c.seen ++ [(q, s.state)], slot := .poisoned conn, lock := none } with pool }
  | leave {pool : Pool} : s.phase w = .leaving → s.pool.step (.work w false) = some pool →
      Advance prof rt s w k c { (s.setConn k { c with lock := none }).setPhase w .enter with pool }

theorem advance_cases {s s' : Net σ} {w k : Nat} {c : NConn σ} (h : Net.advance prof rt s w k c = some s') :
    Advance prof rt s w k c s' := by
  unfold Net.advance at h
  split at h
  · next hp hs =>
    split at h
    · next hf => cases h; exact .move (by rw [hp, hs]; exact .flushErr hf)
    · next hf => cases h; exact .move (by rw [hp, hs]; exact .flushOk hf)
  · next hp hs =>
    split at h
    · next hf => cases h; exact .move (by rw [hp, hs]; exact .ready hf)
    · next hf => cases h; exact .move (by rw [hp, hs]; exact .notReady hf)
    · next hf => cases h; exact .move (by rw [hp, hs]; exact .closed hf)
    · next hf =>
      split at h
      · cases h
      · next x wr hne hx =>
        cases h
        exact .move (by rw [hp, hs]; exact .refused hf hx hne)
    · next hf =>
      simp only [Net.crash, Option.map_eq_some_iff] at h
      obtain ⟨pool, h1, h2⟩ := h
      subst h2
      exact .crash hp hs hf h1
    · cases h
  · next hp hs =>
    dsimp only at h
    split at h
    · next hr =>
      simp only [Net.crash, Option.map_eq_some_iff] at h
      obtain ⟨pool, h1, h2⟩ := h
      subst h2
      exact .crashAsk hp hs hr h1
    · next hr => cases h; exact .ask hp hs hr
  · next hp hs =>
    split at h
    · next hf =>
      split at h
      · next hc => cases h; exact .move (by rw [hp, hs]; exact .asked hf hc)
      · next hc => cases h; exact .move (by rw [hp, hs]; exact .wrote hf (by simpa using hc))
    · next hf => cases h; exact .move (by rw [hp, hs]; exact .failed hf)
    · cases h
  · next hp =>
    simp only [Option.map_eq_some_iff] at h
    obtain ⟨pool, h1, h2⟩ := h
    subst h2
    exact .leave hp h1
  · cases h

/-- The steps of the server. -/
inductive NStep (prof : Profile) (rt : Router σ) (s : Net σ) : Net σ → Prop
  | accept {offer : Nat → Nat} {grow : Nat → Nat → Nat} {growOk : ∀ c n, c ≤ grow c n} {flushes : List (Option IoError)} :
      NStep prof rt s { s with conns := s.conns ++ [Net.fresh offer grow growOk flushes] }
  | arrive {k : Nat} {ev : Ev} {c : NConn σ} {conn : Conn Rd Nbw} : s.conns[k]? = some c → c.slot = .live conn → ev ≠ .err .wouldBlock →
      NStep prof rt s (s.setConn k { c with slot := Net.receive ev c.slot, edge := true, arrived := c.arrived ++ [ev] })
  | notify {k : Nat} {c : NConn σ} : s.conns[k]? = some c → NStep prof rt s (s.setConn k { c with edge := true })
  | poll {ks : List Nat} : s.batch = [] → NStep prof rt s
      { s with batch := ks, conns := s.conns.mapIdx fun k c => if k ∈ ks then { c with edge := false } else c }
  | skip {k : Nat} {b : List Nat} {c : NConn σ} : s.conns[k]? = some c → c.inTable = false → (s.batch = b ∨ s.batch = k :: b) →
      NStep prof rt s { s with batch := b }
  | remove {k : Nat} {b : List Nat} {c : NConn σ} : s.conns[k]? = some c → (s.batch = b ∨ s.batch = k :: b) →
      NStep prof rt s ({ s with batch := b }.setConn k { c with inTable := false })
  | execute {k : Nat} {b : List Nat} {c : NConn σ} {pool : Pool} : s.conns[k]? = some c → c.inTable = true →
      (s.batch = b ∨ s.batch = k :: b) → s.pool.step .execute = some pool → pool.owner = .using →
      NStep prof rt s { s with batch := b, pool, jobs := s.jobs ++ [(k, c.arrived.length)] }
  | fail {k : Nat} {b : List Nat} {pool : Pool} :
      (s.batch = b ∨ s.batch = k :: b) → s.pool.step .execute = some pool → pool.owner ≠ .using →
      NStep prof rt s { s with batch := b, pool }
  | work {w : Nat} {pool : Pool} : (∀ j, s.pool.workers[w]? ≠ some (.running j)) → s.pool.step (.work w false) = some pool →
      NStep prof rt s { s.setPhase w .enter with pool }
  | enterPoisoned {w k : Nat} {c : NConn σ} {conn : Conn Rd Nbw} {evs : List WEv} {pool : Pool} : s.handled w = some k → s.conns[k]? = some c →
      s.phase w = .enter → c.lock = none → c.slot = .poisoned conn → s.pool.step (.work w true) = some pool →
      NStep prof rt s { s.setConn k { c with wakes := c.wakes ++ [evs] } with pool }
  | enterGone {w k : Nat} {c : NConn σ} {conn : Conn Rd Nbw} {evs : List WEv} : s.handled w = some k → s.conns[k]? = some c →
      s.phase w = .enter → c.lock = none → c.slot = .gone conn →
      NStep prof rt s ((s.setConn k { c with lock := some w, wakes := c.wakes ++ [evs] }).setPhase w .leaving)
  | enter {w k : Nat} {c : NConn σ} {conn : Conn Rd Nbw} {evs : List WEv} : s.handled w = some k → s.conns[k]? = some c →
      s.phase w = .enter → c.lock = none → c.slot = .live conn →
      NStep prof rt s ((s.setConn k { c with slot := c.slot.wake evs, lock := some w, wakes := c.wakes ++ [evs] }).setPhase w .flushing)
  | go {w k : Nat} {c : NConn σ} {s' : Net σ} : s.handled w = some k → s.conns[k]? = some c → c.lock = some w →
      Advance prof rt s w k c s' → NStep prof rt s s'

theorem onEvent_cases {s s' : Net σ} {k : Nat} {cl : Bool} {b : List Nat} (hb : s.batch = b ∨ s.batch = k :: b)
    (h : ({ s with batch := b } : Net σ).onEvent k cl = some s') : NStep prof rt s s' := by
  unfold Net.onEvent at h
  split at h
  · cases h
  · next c hc =>
    split at h
    · next hi => cases h; exact .skip hc (by simpa using hi) hb
    · next hi =>
      split at h
      · cases h; exact .remove hc hb
      · split at h
        · cases h
        · next pool hp =>
          cases h
          by_cases ho : pool.owner = .using
          · simp only [if_pos ho]
            exact .execute hc (by simpa using hi) hb hp ho
          · simp only [if_neg ho]
            exact .fail hb hp ho

theorem step_nstep {s s' : Net σ} {a : NAct} (h : s.step prof rt a = some s') : NStep prof rt s s' := by
  cases a with
  | accept => cases h; exact .accept
  | arrive k ev =>
    simp only [Net.step] at h
    split at h
    · cases h
    · next c hc =>
      split at h
      · next hl =>
        cases h
        simp only [Bool.and_eq_true, bne_iff_ne, ne_eq] at hl
        cases hs : c.slot with
        | live conn => rw [← hs]; exact .arrive hc hs hl.2
        | gone conn => rw [hs] at hl; simp [Net.isLive] at hl
        | poisoned conn => rw [hs] at hl; simp [Net.isLive] at hl
      · cases h
  | notify k =>
    simp only [Net.step] at h
    split at h
    · cases h
    · next c hc => cases h; exact .notify hc
  | poll ks =>
    simp only [Net.step] at h
    split at h
    · next hb => cases h; exact .poll hb.1
    · cases h
  | dispatch cl =>
    simp only [Net.step] at h
    split at h
    · cases h
    · next hb => exact onEvent_cases (.inr hb) h
  | stray k cl => exact onEvent_cases (b := s.batch) (.inl rfl) h
  | work w =>
    simp only [Net.step] at h
    split at h
    · cases h
    · next hn =>
      simp only [Option.map_eq_some_iff] at h
      obtain ⟨pool, h1, h2⟩ := h
      subst h2
      exact .work hn h1
  | lock w evs =>
    simp only [Net.step] at h
    split at h
    · cases h
    · next k hk =>
      split at h
      · cases h
      · next c hc =>
        split at h
        · next hp =>
          unfold Net.enter at h
          split at h
          · next hs =>
            simp only [Option.map_eq_some_iff] at h
            obtain ⟨pool, h1, h2⟩ := h
            subst h2
            exact .enterPoisoned hk hc hp.1 hp.2 hs h1
          · next hs => cases h; exact .enterGone hk hc hp.1 hp.2 hs
          · next hs => cases h; rw [← hs]; exact .enter hk hc hp.1 hp.2 hs
        · cases h
  | go w =>
    simp only [Net.step] at h
    split at h
    · cases h
    · next k hk =>
      split at h
      · cases h
      · next c hc =>
        split at h
        · next hl => exact .go hk hc hl (advance_cases h)
        · cases h

/-! ### Workers, jobs and mutexes -/

theorem handled_iff {s : Net σ} {w k : Nat} :
    s.handled w = some k ↔ ∃ j a, s.pool.workers[w]? = some (.running j) ∧ s.jobs[j]? = some (k, a) := by
  unfold Net.handled
  split
  · next j hj =>
    rw [hj]
    simp only [Option.map_eq_some_iff, Option.some.injEq, Worker.running.injEq]
    constructor
    · rintro ⟨⟨k', a⟩, h1, rfl⟩
      exact ⟨j, a, rfl, h1⟩
    · rintro ⟨j', a, rfl, h⟩
      exact ⟨_, h, rfl⟩
  · next hn =>
    simp only [reduceCtorEq, false_iff, not_exists, not_and]
    intro j a h
    exact absurd h (hn j)

theorem handled_congr {s s' : Net σ} {w : Nat} (hw : s'.pool.workers[w]? = s.pool.workers[w]?) (hj : s'.jobs = s.jobs) :
    s'.handled w = s.handled w := by
  unfold Net.handled
  rw [hw, hj]

theorem handled_none {s : Net σ} {w : Nat} (h : ∀ j, s.pool.workers[w]? ≠ some (.running j)) : s.handled w = none := by
  unfold Net.handled
  split
  · next j hj => exact absurd hj (h j)
  · rfl

theorem Pool.Inv.running_lt {n : Nat} {s : Pool} (h : s.Inv n) {i j : Nat} (hw : s.workers[i]? = some (.running j)) :
    j < s.submitted.length := by
  have h1 : 0 < sumW (Worker.run j) s.workers := by
    have := sumW_le (f := Worker.run j) hw
    simp only [Worker.run, if_true] at this
    omega
  have h2 := h.running j
  have h3 := h.started j
  have h4 : j ∈ jobsOf s.taken := List.count_pos_iff.1 (by omega)
  have h5 : j ∈ jobsOf s.sent := by
    rw [h.msgs, jobsOf_append, jobsOf_append]
    simp [h4]
  rw [h.ids] at h5
  exact List.mem_range.1 h5

/-- What submitting a job does to the pool. -/
theorem pool_execute {p p' : Pool} (h : p.step .execute = some p') :
    (p'.owner = .using ∧ p.open = true ∧
      p' = { p with queue := p.queue ++ [.job (jobsOf p.sent).length], sent := p.sent ++ [.job (jobsOf p.sent).length] }) ∨
    (p'.owner ≠ .using ∧ p.open = false ∧ p' = { p with owner := .failed }) := by
  simp only [Pool.step] at h
  split at h
  · next ho =>
    cases h
    split
    · next hp => exact .inl ⟨ho, hp, rfl⟩
    · next hp => exact .inr ⟨by simp, by simpa using hp, rfl⟩
  · cases h

/-- What a worker that is in a job does to the pool. -/
theorem pool_running {p p' : Pool} {w j : Nat} {b : Bool} (hw : p.workers[w]? = some (.running j)) (h : p.step (.work w b) = some p') :
    (b = false ∧ p' = { p with workers := p.workers.set w .idle, finished := p.finished ++ [j] }) ∨
    (b = true ∧ p' = ({ p with crashed := p.crashed ++ [j] } : Pool).stop w .crashed) := by
  simp only [Pool.step, Pool.work, hw] at h
  cases b with
  | false => cases h; exact .inl ⟨rfl, rfl⟩
  | true => cases h; exact .inr ⟨rfl, rfl⟩

/-- What a worker that is not in a job does. -/
theorem pool_work {p p' : Pool} {w : Nat} {b : Bool} (hn : ∀ j, p.workers[w]? ≠ some (.running j)) (h : p.step (.work w b) = some p') :
    p'.finished = p.finished ∧ p'.crashed = p.crashed ∧ p'.sent = p.sent ∧ (∀ i, i ≠ w → p'.workers[i]? = p.workers[i]?) := by
  have hs := work_step (show p.work w b = some p' from h)
  have ho : ∀ i, i ≠ w → p'.workers[i]? = p.workers[i]? := fun i hi => work_other hs (fun h => hi h.symm)
  cases hs with
  | crash hw => exact absurd hw (hn _)
  | finish hw => exact absurd hw (hn _)
  | _ => exact ⟨by simp, by simp, by simp, ho⟩

theorem pool_owner {p p' : Pool} {w : Nat} {b : Bool} (h : p.step (.work w b) = some p') : p'.owner = p.owner := by
  have hs := work_step (show p.work w b = some p' from h)
  cases hs <;> simp

/-- What always holds of workers, jobs and mutexes. -/
structure Net.Base (n : Nat) (s : Net σ) : Prop where
  pool : Pool.Reach n s.pool
  jobs : s.jobs.length = s.pool.submitted.length
  conns : ∀ (j k a : Nat), s.jobs[j]? = some (k, a) → k < s.conns.length
  lock : ∀ (k w : Nat) c, s.conns[k]? = some c → (c.lock = some w ↔ s.Uses w k)

theorem Move.phase {p p' : Phase} {x x' : Slot Rd Nbw} {a d d' : Nat} (h : Move prof p x a d p' x' d') : p' ≠ .enter := by
  cases h <;> simp

theorem setConn_get {s : Net σ} {k k' : Nat} {c c' d : NConn σ} (hc : s.conns[k]? = some c) (h : (s.setConn k c').conns[k']? = some d) :
    k' = k ∧ d = c' ∨ k' ≠ k ∧ s.conns[k']? = some d := by
  have hk := (List.getElem?_eq_some_iff.1 hc).1
  simp only [Net.setConn, List.getElem?_set] at h
  by_cases hkk : k = k'
  · subst hkk
    simp only [if_true, hk] at h
    exact .inl ⟨rfl, (Option.some.inj h).symm⟩
  · simp only [hkk, if_false] at h
    exact .inr ⟨fun h => hkk h.symm, h⟩

/-- The mutexes when one connection changes but neither its mutex nor what the workers do. -/
theorem Net.Base.same {n : Nat} {s s' : Net σ} (h : s.Base n) (hp : s'.pool = s.pool) (hj : s'.jobs = s.jobs) (hph : s'.phase = s.phase)
    (hl : s'.conns.length = s.conns.length) (hc : ∀ (k : Nat) c', s'.conns[k]? = some c' → ∃ c, s.conns[k]? = some c ∧ c'.lock = c.lock) :
    s'.Base n where
  pool := by rw [hp]; exact h.pool
  jobs := by rw [hp, hj]; exact h.jobs
  conns := by rw [hj, hl]; exact h.conns
  lock k w c hk := by
    obtain ⟨c₀, h1, h2⟩ := hc k c hk
    rw [h2, h.lock k w c₀ h1]
    unfold Net.Uses
    rw [handled_congr (s' := s') (by rw [hp]) hj, hph]

theorem base_new {n : Nat} {s₀ : σ} {s : Net σ} (h : Net.new n s₀ = some s) : s.Base n := by
  unfold Net.new at h
  simp only [Option.map_eq_some_iff] at h
  obtain ⟨p, h1, rfl⟩ := h
  refine ⟨.new h1, ?_, by simp, by simp⟩
  unfold Pool.new at h1
  split at h1
  · cases h1
  · cases h1; rfl

theorem base_setPhase {n : Nat} {s s' : Net σ} {w k : Nat} {c c' : NConn σ} {p : Phase} (h : s.Base n) (hk : s.handled w = some k)
    (hc : s.conns[k]? = some c) (hl : c.lock = some w) (hl' : c'.lock = some w) (hp : p ≠ .enter) (e1 : s'.pool = s.pool)
    (e2 : s'.jobs = s.jobs) (e3 : s'.phase = (s.setPhase w p).phase) (e4 : s'.conns = (s.setConn k c').conns) : s'.Base n where
  pool := by rw [e1]; exact h.pool
  jobs := by rw [e1, e2]; exact h.jobs
  conns := by rw [e2, e4]; simpa [Net.setConn] using h.conns
  lock k' w' d hd := by
    rw [e4] at hd
    have hh : s'.handled w' = s.handled w' := handled_congr (by rw [e1]) e2
    unfold Net.Uses
    rw [hh, e3]
    have hu := (h.lock k w c hc).1 hl
    rcases setConn_get hc hd with ⟨rfl, rfl⟩ | ⟨hne, hd⟩
    · rw [hl', ← hl, h.lock _ _ _ hc]
      unfold Net.Uses
      by_cases hw : w' = w
      · subst hw
        simp only [Net.setPhase, if_true]
        exact ⟨fun h => ⟨h.1, hp⟩, fun _ => hu⟩
      · simp only [Net.setPhase, hw, if_false]
    · rw [h.lock _ _ _ hd]
      unfold Net.Uses
      by_cases hw : w' = w
      · subst hw
        rw [hk]
        simp only [Option.some.injEq, Ne.symm hne, false_and]
      · simp only [Net.setPhase, hw, if_false]

/-- A worker gets a mutex. -/
theorem base_enter {n : Nat} {s s' : Net σ} {w k k' w' : Nat} {c c' d : NConn σ} {p : Phase} (h : s.Base n) (hk : s.handled w = some k)
    (hc : s.conns[k]? = some c) (hp : s.phase w = .enter) (hl : c.lock = none) (hpe : p ≠ .enter)
    (hd : ((s.setConn k c').setPhase w p).conns[k']? = some d) (hl' : c'.lock = some w)
    (e1 : s'.pool = s.pool) (e2 : s' = (s.setConn k c').setPhase w p) : d.lock = some w' ↔ s'.Uses w' k' := by
  have hh : s'.handled w' = s.handled w' := handled_congr (by rw [e1]) (by rw [e2]; rfl)
  unfold Net.Uses
  rw [hh, e2]
  rcases setConn_get hc hd with ⟨rfl, rfl⟩ | ⟨hne, hd⟩
  · rw [hl']
    by_cases hw : w' = w
    · subst hw
      simp [Net.setPhase, hk, hpe]
    · simp only [Net.setPhase, hw, if_false, Option.some.injEq, Ne.symm hw, false_iff]
      intro hu
      have := (h.lock k' w' c hc).2 hu
      rw [hl] at this
      cases this
  · rw [h.lock _ _ _ hd]
    unfold Net.Uses
    by_cases hw : w' = w
    · subst hw
      rw [hk]
      simp only [Option.some.injEq, Ne.symm hne, false_and]
    · simp only [Net.setPhase, hw, if_false]
      rfl

/-- A worker leaves: it releases the mutex and ends its job or itself. -/
theorem base_leave {n : Nat} {s s' : Net σ} {w k : Nat} {c c' : NConn σ} {b : Bool} (h : s.Base n) (hk : s.handled w = some k)
    (hc : s.conns[k]? = some c) (hl : c.lock = some w ∨ c.lock = none ∧ s.phase w = .enter) (hl' : c'.lock = none) (hp : s.pool.step (.work w b) = some s'.pool)
    (e2 : s'.jobs = s.jobs) (e3 : ∀ w', w' ≠ w → s'.phase w' = s.phase w') (e4 : s'.conns = (s.setConn k c').conns) : s'.Base n := by
  obtain ⟨j, a, hj, hjk⟩ := handled_iff.1 hk
  have hlt := (List.getElem?_eq_some_iff.1 hj).1
  have hw : s'.handled w = none ∧ ∀ w', w' ≠ w → s'.handled w' = s.handled w' := by
    rcases pool_running hj hp with ⟨-, he⟩ | ⟨-, he⟩
    · exact ⟨handled_none (by rw [he]; simp [hlt]), fun w' hw' => handled_congr (by rw [he]; simp [Ne.symm hw']) e2⟩
    · exact ⟨handled_none (by rw [he]; simp [hlt]), fun w' hw' => handled_congr (by rw [he]; simp [Ne.symm hw']) e2⟩
  refine ⟨h.pool.step hp, ?_, by rw [e2, e4]; simpa [Net.setConn] using h.conns, ?_⟩
  · have : s'.pool.sent = s.pool.sent := by
      rcases pool_running hj hp with ⟨-, he⟩ | ⟨-, he⟩ <;> simp [he]
    rw [e2, h.jobs]
    simp only [Pool.submitted, this]
  · intro k' w' d hd
    rw [e4] at hd
    unfold Net.Uses
    by_cases hww : w' = w
    · subst hww
      rw [hw.1]
      simp only [reduceCtorEq, false_and, iff_false]
      rcases setConn_get hc hd with ⟨rfl, rfl⟩ | ⟨hne, hd⟩
      · rw [hl']; simp
      · rw [h.lock _ _ _ hd]
        unfold Net.Uses
        rw [hk]
        simp only [Option.some.injEq, Ne.symm hne, false_and, not_false_eq_true]
    · rw [hw.2 w' hww, e3 w' hww]
      rcases setConn_get hc hd with ⟨rfl, rfl⟩ | ⟨hne, hd⟩
      · rw [hl']
        simp only [reduceCtorEq, false_iff]
        have := (h.lock k' w' c hc).2
        unfold Net.Uses at this
        intro hu
        have := this hu
        rcases hl with hl | ⟨hl, -⟩
        · rw [hl] at this; exact hww (Option.some.inj this).symm
        · rw [hl] at this; cases this
      · rw [h.lock _ _ _ hd]
        rfl

theorem base_step {n : Nat} {s s' : Net σ} (h : s.Base n) (hs : NStep prof rt s s') : s'.Base n := by
  cases hs with
  | @accept offer grow growOk =>
    refine ⟨h.pool, h.jobs, fun j k a hj => ?_, fun k w c hc => ?_⟩
    · have := h.conns j k a hj
      simp only [List.length_append]; omega
    · by_cases hk : k < s.conns.length
      · dsimp only at hc
        rw [List.getElem?_append_left hk] at hc
        exact h.lock k w c hc
      · dsimp only at hc
        rw [List.getElem?_append_right (by omega)] at hc
        have hz : k - s.conns.length = 0 := by
          have := (List.getElem?_eq_some_iff.1 hc).1
          simp at this
          omega
        rw [hz] at hc
        cases hc
        simp only [Net.fresh, reduceCtorEq, false_iff]
        rintro ⟨h1, -⟩
        obtain ⟨j, a, -, h2⟩ := handled_iff.1 h1
        exact hk (h.conns j k a h2)
  | @arrive k ev c conn hc hs he =>
    refine h.same rfl rfl rfl (by simp [Net.setConn]) fun k' d hd => ?_
    rcases setConn_get hc hd with ⟨rfl, rfl⟩ | ⟨hne, hd⟩
    · exact ⟨c, hc, rfl⟩
    · exact ⟨d, hd, rfl⟩
  | @notify k c hc =>
    refine h.same rfl rfl rfl (by simp [Net.setConn]) fun k' d hd => ?_
    rcases setConn_get hc hd with ⟨rfl, rfl⟩ | ⟨hne, hd⟩
    · exact ⟨c, hc, rfl⟩
    · exact ⟨d, hd, rfl⟩
  | @poll ks hb =>
    refine h.same rfl rfl rfl (by simp) fun k' d hd => ?_
    simp only [List.getElem?_mapIdx, Option.map_eq_some_iff] at hd
    obtain ⟨c, h1, rfl⟩ := hd
    refine ⟨c, h1, ?_⟩
    split <;> rfl
  | skip hc hi hb => exact h.same rfl rfl rfl rfl fun k d hd => ⟨d, hd, rfl⟩
  | @remove k b c hc hb =>
    refine h.same rfl rfl rfl (by simp [Net.setConn]) fun k' d hd => ?_
    rcases setConn_get (s := { s with batch := b }) hc hd with ⟨rfl, rfl⟩ | ⟨hne, hd⟩
    · exact ⟨c, hc, rfl⟩
    · exact ⟨d, hd, rfl⟩
  | @execute k b c pool hc hi hb hp ho =>
    rcases pool_execute hp with ⟨-, -, he⟩ | ⟨hn, -⟩
    · refine ⟨h.pool.step hp, ?_, ?_, ?_⟩
      · simp [he, Pool.submitted, jobsOf_append]
        exact h.jobs
      · intro j k' a hj
        dsimp only at hj ⊢
        by_cases hjl : j < s.jobs.length
        · rw [List.getElem?_append_left hjl] at hj
          exact h.conns j k' a hj
        · rw [List.getElem?_append_right (by omega)] at hj
          have hz : j - s.jobs.length = 0 := by
            have := (List.getElem?_eq_some_iff.1 hj).1
            simp at this
            omega
          rw [hz] at hj
          cases hj
          exact (List.getElem?_eq_some_iff.1 hc).1
      · intro k' w d hd
        rw [h.lock k' w d hd]
        unfold Net.Uses
        rw [handled_iff, handled_iff]
        have hw : pool.workers = s.pool.workers := by rw [he]
        dsimp only
        rw [hw]
        refine and_congr_left fun _ => ⟨?_, ?_⟩
        · rintro ⟨j, a, h1, h2⟩
          exact ⟨j, a, h1, by rw [List.getElem?_append_left (List.getElem?_eq_some_iff.1 h2).1]; exact h2⟩
        · rintro ⟨j, a, h1, h2⟩
          have := h.pool.inv.running_lt h1
          rw [List.getElem?_append_left (by rw [h.jobs]; exact this)] at h2
          exact ⟨j, a, h1, h2⟩
    · exact absurd ho hn
  | @fail k b pool hb hp ho =>
    rcases pool_execute hp with ⟨hn, -⟩ | ⟨-, -, he⟩
    · exact absurd hn ho
    · refine ⟨h.pool.step hp, ?_, h.conns, fun k' w d hd => ?_⟩
      · simp only [he, Pool.submitted]; exact h.jobs
      · rw [h.lock k' w d hd]
        unfold Net.Uses
        have hh := handled_congr (s := s) (s' := { s with batch := b, pool }) (w := w) (by simp only [he]) rfl
        rw [hh]
  | @work w pool hn hp =>
    obtain ⟨-, -, h3, h4⟩ := pool_work hn hp
    refine ⟨h.pool.step hp, by simp only [Pool.submitted, h3]; exact h.jobs, h.conns, fun k w' d hd => ?_⟩
    rw [h.lock k w' d hd]
    unfold Net.Uses
    by_cases hw : w' = w
    · subst hw
      rw [handled_none hn]
      simp [Net.setPhase]
    · have hh := handled_congr (s := s) (s' := { s.setPhase w .enter with pool }) (h4 w' hw) rfl
      rw [hh]
      simp [Net.setPhase, hw]
  | @enterPoisoned w k c conn evs pool hk hc hp hl hsl hpool =>
    exact base_leave (s := s) (c' := { c with wakes := c.wakes ++ [evs] }) h hk hc (.inr ⟨hl, hp⟩) hl hpool rfl (fun _ _ => rfl) rfl
  | @enterGone w k c conn evs hk hc hp hl hsl =>
    refine ⟨h.pool, h.jobs, by simpa [Net.setConn, Net.setPhase] using h.conns, fun k' w' d hd => ?_⟩
    exact base_enter h hk hc hp hl (by simp) hd rfl rfl rfl
  | @enter w k c conn evs hk hc hp hl hsl =>
    refine ⟨h.pool, h.jobs, by simpa [Net.setConn, Net.setPhase] using h.conns, fun k' w' d hd => ?_⟩
    exact base_enter h hk hc hp hl (by simp) hd rfl rfl rfl
  | @go w k c s' hk hc hl ha =>
    cases ha with
    | move hm => exact base_setPhase h hk hc hl (by exact hl) hm.phase rfl rfl rfl rfl
    | ask => exact base_setPhase h hk hc hl (by exact hl) (by simp) rfl rfl rfl rfl
    | crash _ _ _ hp => exact base_leave h hk hc (.inl hl) rfl hp rfl (fun _ _ => rfl) rfl
    | crashAsk _ _ _ hp => exact base_leave h hk hc (.inl hl) rfl hp rfl (fun _ _ => rfl) rfl
    | leave _ hp => exact base_leave h hk hc (.inl hl) rfl hp rfl (fun w' hw => by simp [Net.setPhase, Net.setConn, hw]) rfl

end Verif
