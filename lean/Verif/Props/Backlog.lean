import Verif.Props.Outage
import Verif.Proofs.NetAny

/-!
C87: how many jobs wait in the queue of the thread pool. `execute` puts each job into a channel without a bound, thread_pool.rs 51-54, and the
event loop calls it for each event, server.rs 61-65, whether or not a job for the same connection is waiting already.
-/

namespace Verif

variable {σ : Type} {prof : Profile} {rt : Router σ} {s₀ : σ}

/-- One worker is in the listeners with a request of the only connection, the others wait for its mutex, and `m` jobs for it wait in the queue. -/
structure Piled (q : Request) (n m : Nat) (s : Net σ) : Prop where
  asks : s.asks = []
  len : s.pool.workers.length = n
  run : ∀ w, w < n → s.pool.workers[w]? = some (.running w)
  asked : s.phase 0 = .asked q
  enter : ∀ w, 0 < w → s.phase w = .enter
  owner : s.pool.owner = .using
  sent : (jobsOf s.pool.sent).length = n + m
  jobs : s.jobs.length = n + m
  job : ∀ j, j < n + m → s.jobs[j]?.map Prod.fst = some 0
  queue : s.pool.queue = (List.range' n m).map .job
  batch : s.batch = []
  conns : ∃ (c : NConn σ) (conn : Conn Rd Nbw), s.conns = [c] ∧ c.slot = .live conn ∧ c.lock = some 0 ∧ c.inTable = true

theorem Gathered.piled {text : Bytes} {q : Request} (hq : FittingRequest text q) {n : Nat} (hn : 0 < n) {s : Net σ}
    (h : Gathered s₀ text n n s) : ∃ s', s.runActs prof rt [.lock 0 [], .go 0, .go 0] = some s' ∧ Piled q n 0 s' := by
  obtain ⟨h1, h2, -, h4, h5, h6, h7, h8, h9, h10, h11, h12, h13, h14, c, conn, rest, h15, h16, h17, h18, h19, h20, h21, h22, h23⟩ := h
  obtain ⟨pool, jobs, phase, conns, batch, state, asks⟩ := s
  obtain ⟨workers, locked, poisoned, queue, owner, sent, taken, lost, started, finished, crashed⟩ := pool
  obtain ⟨slot, lock, inTable, edge, first, arrived, wakes, seen, drained⟩ := c
  obtain ⟨reader, ⟨buf, pos, cap, grow, growOk, sock⟩, parser⟩ := conn
  simp only at h1 h2 h4 h5 h6 h7 h8 h9 h10 h11 h12 h13 h14 h15 h16 h17 h18 h19 h20 h21 h22 h23
  subst h4 h5 h6 h7 h12 h13 h15 h16 h17 h18 h14 h20 h21 h22 h23
  obtain ⟨r', h24, -⟩ := C04_request_accepted prof hq h19
  have hj := h10 0 hn
  have hw := h2 0 hn
  have hlt : 0 < workers.length := by omega
  have hw' : workers[0] = .running 0 := by rw [List.getElem?_eq_getElem hlt] at hw; exact Option.some.inj hw
  have hf : Write.flush (⟨[], 0, cap, grow, growOk, ⟨[], [], []⟩⟩ : Nbw) = (.ok (), ⟨[], 0, cap, grow, growOk, ⟨[], [], []⟩⟩) := rfl
  simp [Net.runActs, Net.step, Net.handled, Net.enter, Net.advance, Slot.wake, Net.setConn, Net.setPhase, hw', hj, h11, hlt, hf, Conn.readRequest, h24]
  refine ⟨rfl, h1, h2, rfl, fun w h0 => ?_, rfl, h8, h9, h10, rfl, rfl, _, _, rfl, rfl, rfl, rfl⟩
  simp [show w ≠ 0 by omega]

/-- Another byte, another job. -/
theorem Piled.next {q : Request} {n m : Nat} (hn : 0 < n) {s : Net σ} (h : Piled q n m s) (b : UInt8) :
    ∃ s', s.runActs prof rt [.arrive 0 (.data [b]), .poll [0], .dispatch false] = some s' ∧ Piled q n (m + 1) s' := by
  obtain ⟨h1, h2, h3, h4, h5, h6, h7, h8, h9, h10, h11, c, conn, h15, h16, h17, h18⟩ := h
  obtain ⟨pool, jobs, phase, conns, batch, state, asks⟩ := s
  obtain ⟨workers, locked, poisoned, queue, owner, sent, taken, lost, started, finished, crashed⟩ := pool
  obtain ⟨slot, lock, inTable, edge, first, arrived, wakes, seen, drained⟩ := c
  simp only at h1 h2 h3 h4 h5 h6 h7 h8 h9 h10 h11 h15 h16 h17 h18
  subst h1 h6 h10 h11 h15 h16 h17 h18
  have hop : (workers.any Worker.alive) = true := by
    rw [List.any_eq_true]
    exact ⟨.running 0, List.mem_of_getElem? (h3 0 hn), rfl⟩
  have hd : (Ev.data [b] != Ev.err IoError.wouldBlock) = true := rfl
  simp [Net.runActs, Net.step, Net.isLive, Net.receive, Net.setConn, Net.onEvent, Pool.step, Pool.open, hop, hd, -List.any_eq_true]
  refine ⟨rfl, h2, h3, h4, h5, rfl, ?_, by simp [h8]; omega, fun j hj => ?_, ?_, rfl, _, _, rfl, rfl, rfl, rfl⟩
  · simp [jobsOf] at h7 ⊢
    omega
  · by_cases hji : j = n + m
    · simp [hji, ← h8]
    · simpa [List.getElem?_append_left (show j < jobs.length by omega)] using h9 j (by omega)
  · dsimp only
    rw [h7, List.range'_concat]
    simp

/-- C87 does not hold: while the listeners are busy with one request of a client, and all other workers wait for the mutex of the same
connection, this one connection fills the queue with as many jobs as the client likes, whatever the number of workers. -/
theorem C87_queue_false (prof : Profile) (rt : Router σ) (s₀ : σ) {text : Bytes} {q : Request} (hq : FittingRequest text q)
    {n : Nat} (hn : 0 < n) (m : Nat) : ∃ s, Net.Reach prof rt n s₀ s ∧ s.asks = [] ∧ s.pool.workers.length = n ∧ s.conns.length = 1 ∧
      s.handled 0 = some 0 ∧ s.phase 0 = .asked q ∧ (∀ w, 0 < w → w < n → s.Blocked w 0) ∧ s.pool.queue.length = m ∧
      (∀ x ∈ s.pool.queue, ∃ j a, x = .job j ∧ s.jobs[j]? = some (0, a)) := by
  have : ∃ s, Net.Reach prof rt n s₀ s ∧ Piled q n m s := by
    induction m with
    | zero =>
      obtain ⟨s1, h1, h2⟩ := gathered_all prof rt s₀ hq.text_ne hn (Nat.le_refl n)
      obtain ⟨s2, h3, h4⟩ := h2.piled (prof := prof) (rt := rt) hq hn
      exact ⟨s2, Net.reach_runActs h1 h3, h4⟩
    | succ m ih =>
      obtain ⟨s1, h1, h2⟩ := ih
      obtain ⟨s2, h3, h4⟩ := h2.next (prof := prof) (rt := rt) hn 120
      exact ⟨s2, Net.reach_runActs h1 h3, h4⟩
  obtain ⟨s, h, hp⟩ := this
  obtain ⟨c, conn, hc, hl, hk, -⟩ := hp.conns
  have hh : ∀ w, w < n → s.handled w = some 0 := fun w hw => by
    simp only [Net.handled, hp.run w hw]
    exact hp.job w (by omega)
  refine ⟨s, h, hp.asks, hp.len, by simp [hc], hh 0 hn, hp.asked, fun w h0 hw => ⟨hh w hw, hp.enter w h0, c, 0, by simp [hc], hk, by omega⟩,
    by simp [hp.queue], fun x hx => ?_⟩
  rw [hp.queue] at hx
  obtain ⟨j, hj, rfl⟩ := List.mem_map.1 hx
  have hj' : j < n + m := by have := List.mem_range'_1.1 hj; omega
  obtain ⟨⟨k, a⟩, h1, h2⟩ := Option.map_eq_some_iff.1 (hp.job j hj')
  cases h2
  exact ⟨j, a, rfl, h1⟩

example : FittingRequest b!"GET / HTTP/1.1\r\n\r\n" ⟨b!"/", .get, HeaderMap.fromPairs [], []⟩ := fitting_of (prof := ⟨true⟩) (by decide +kernel)

theorem Pool.work_queue {s s' : Pool} {i : Nat} {p : Bool} (h : s.step (.work i p) = some s') : s'.queue.length ≤ s.queue.length := by
  simp only [Pool.step, Pool.work] at h
  split at h
  · split at h
    · cases h
    · split at h
      · cases h; unfold Pool.stop; dsimp only; split <;> simp
      · cases h; simp
  · split at h
    · next hq => cases h; simp [hq]
    · split at h
      · cases h
      · cases h; unfold Pool.stop; dsimp only; split <;> simp
  · cases h; simp
  · cases h; simp
  · cases h; unfold Pool.stop; dsimp only; split <;> simp
  · split at h
    · cases h; unfold Pool.stop; dsimp only; split <;> simp
    · cases h; simp
  · cases h

theorem Net.queue_le_step {s s' : Net σ} (h : NStep prof rt s s') (hi : s.pool.queue.length ≤ s.jobs.length) : s'.pool.queue.length ≤ s'.jobs.length := by
  have hx : ∀ {pool : Pool}, s.pool.step .execute = some pool →
      pool.queue.length ≤ s.jobs.length + 1 ∧ (pool.owner ≠ .using → pool.queue.length ≤ s.jobs.length) := by
    intro pool hp
    simp only [Pool.step] at hp
    split at hp
    · next ho =>
      cases hp
      split
      · exact ⟨by simpa using hi, fun h => absurd ho h⟩
      · exact ⟨Nat.le_succ_of_le hi, fun _ => hi⟩
    · cases hp
  cases h with
  | execute _ _ _ hp _ => simpa using (hx hp).1
  | fail _ hp ho => exact (hx hp).2 ho
  | work _ hp => exact Nat.le_trans (Pool.work_queue hp) hi
  | enterPoisoned _ _ _ _ _ hp => exact Nat.le_trans (Pool.work_queue hp) hi
  | go _ _ _ ha =>
    cases ha with
    | move => exact hi
    | ask => exact hi
    | crash _ _ _ hp => exact Nat.le_trans (Pool.work_queue hp) hi
    | crashAsk _ _ _ hp => exact Nat.le_trans (Pool.work_queue hp) hi
    | leave _ hp => exact Nat.le_trans (Pool.work_queue hp) hi
  | _ => exact hi

/-- The operating system will report connection `k`. -/
def Net.edgeOf (s : Net σ) (k : Nat) : Nat := (s.conns[k]?.map fun c => c.edge.toNat).getD 0

/-- What the jobs of connection `k` are bounded by. -/
def Net.Weighed (s : Net σ) (k r : Nat) : Prop :=
  s.jobsFor k + s.batch.count k + s.edgeOf k ≤ (if k < s.conns.length then 1 else 0) + r

theorem Net.edgeOf_set {s : Net σ} {i : Nat} {c c' : NConn σ} (hc : s.conns[i]? = some c) (h : c'.edge = c.edge) (k : Nat) :
    (s.setConn i c').edgeOf k = s.edgeOf k := by
  unfold Net.edgeOf Net.setConn
  dsimp only
  by_cases hik : i = k
  · subst hik
    obtain ⟨hlt, -⟩ := List.getElem?_eq_some_iff.1 hc
    rw [List.getElem?_set_self hlt, hc]
    simp [h]
  · rw [List.getElem?_set_ne hik]

theorem Net.Weighed.set {s s' : Net σ} {k r i : Nat} {c c' : NConn σ} (h : s.Weighed k r) (hc : s.conns[i]? = some c) (hj : s'.jobs = s.jobs)
    (hb : s'.batch = s.batch) (hs : s'.conns = s.conns.set i c') (he : c'.edge = c.edge) : s'.Weighed k r := by
  have h1 : s'.edgeOf k = s.edgeOf k := by
    rw [← Net.edgeOf_set hc he k]
    unfold Net.edgeOf
    rw [hs]
    rfl
  unfold Net.Weighed Net.jobsFor at *
  rw [hj, hb, h1, hs, List.length_set]
  exact h

theorem Net.Weighed.advance {s s' : Net σ} {k r w i : Nat} {c : NConn σ} (h : s.Weighed k r) (hc : s.conns[i]? = some c)
    (ha : Advance prof rt s w i c s') : s'.Weighed k r := by
  cases ha with
  | _ => exact h.set hc rfl rfl rfl rfl

theorem Net.Weighed.event {s s' : Net σ} {k r i : Nat} {b : List Nat} {cl : Bool} (hb : s.batch = i :: b) (h : s.Weighed k r)
    (hs : ({ s with batch := b } : Net σ).onEvent i cl = some s') : s'.Weighed k r := by
  have h1 : b.count k ≤ s.batch.count k := by rw [hb]; exact List.count_le_count_cons
  unfold Net.onEvent at hs
  split at hs
  · cases hs
  · next c hc =>
    split at hs
    · cases hs
      exact Nat.le_trans (Nat.add_le_add_right (Nat.add_le_add_left h1 _) _) h
    · split at hs
      · cases hs
        have h2 := Net.edgeOf_set (s := { s with batch := b }) (c' := { c with inTable := false }) hc rfl k
        unfold Net.Weighed
        rw [h2]
        simp only [Net.setConn, List.length_set]
        exact Nat.le_trans (Nat.add_le_add_right (Nat.add_le_add_left h1 _) _) h
      · split at hs
        · cases hs
        · next pool hp =>
          cases hs
          unfold Net.Weighed Net.jobsFor Net.edgeOf at *
          rw [hb, List.count_cons] at h
          dsimp only
          split
          · rw [List.countP_append, List.countP_singleton]
            dsimp only
            omega
          · omega

theorem Net.Weighed.step {s s' : Net σ} {k r : Nat} {a : NAct} (h : s.Weighed k r) (hs : s.step prof rt a = some s')
    (hd : ∀ ks, a = .poll ks → ks.Nodup) (hn : ∀ i cl, a ≠ .stray i cl) : s'.Weighed k (r + (a.wakes k).toNat) := by
  cases a with
  | accept offer grow growOk flushes =>
    cases hs
    unfold Net.Weighed Net.jobsFor Net.edgeOf at *
    dsimp only [NAct.wakes, Bool.toNat_false]
    rw [List.length_append, List.length_singleton]
    by_cases h1 : k < s.conns.length
    · rw [List.getElem?_append_left h1]
      rw [if_pos h1] at h
      rw [if_pos (by omega)]
      exact h
    · rw [if_neg h1, List.getElem?_eq_none (by omega)] at h
      rw [List.getElem?_append_right (by omega)]
      by_cases h2 : k = s.conns.length
      · subst h2
        simp [Net.fresh] at h ⊢
        omega
      · rw [List.getElem?_eq_none (by simp; omega), if_neg (by omega)]
        exact h
  | arrive i ev =>
    simp only [Net.step] at hs
    split at hs
    · cases hs
    · next c hc =>
      split at hs
      · cases hs
        by_cases hik : i = k
        · subst hik
          obtain ⟨hlt, -⟩ := List.getElem?_eq_some_iff.1 hc
          unfold Net.Weighed Net.jobsFor Net.edgeOf at *
          simp [Net.setConn, hlt, NAct.wakes] at h ⊢
          omega
        · unfold Net.Weighed Net.jobsFor Net.edgeOf at *
          simp [Net.setConn, hik, NAct.wakes, beq_false_of_ne hik] at h ⊢
          exact h
      · cases hs
  | notify i =>
    simp only [Net.step] at hs
    split at hs
    · cases hs
    · next c hc =>
      cases hs
      by_cases hik : i = k
      · subst hik
        obtain ⟨hlt, -⟩ := List.getElem?_eq_some_iff.1 hc
        unfold Net.Weighed Net.jobsFor Net.edgeOf at *
        simp [Net.setConn, hlt, NAct.wakes] at h ⊢
        omega
      · unfold Net.Weighed Net.jobsFor Net.edgeOf at *
        simp [Net.setConn, hik, NAct.wakes, beq_false_of_ne hik] at h ⊢
        exact h
  | poll ks =>
    simp only [Net.step] at hs
    split at hs
    · next hp =>
      cases hs
      have h1 := List.nodup_iff_count.1 (hd ks rfl) k
      unfold Net.Weighed Net.jobsFor Net.edgeOf at *
      rw [hp.1] at h
      dsimp only [NAct.wakes, Bool.toNat_false]
      rw [List.getElem?_mapIdx, List.length_mapIdx]
      by_cases hk : k ∈ ks
      · have h2 := hp.2.2 k hk
        cases hc : s.conns[k]? with
        | none => rw [hc] at h2; cases h2
        | some c =>
          rw [hc] at h h2
          simp at h2
          simp [h2, hk] at h ⊢
          omega
      · rw [List.count_eq_zero_of_not_mem hk]
        simp [hk] at h ⊢
        exact h
    · cases hs
  | dispatch cl =>
    simp only [Net.step] at hs
    split at hs
    · cases hs
    · next hb => exact h.event hb hs
  | stray i cl => exact absurd rfl (hn i cl)
  | work w =>
    simp only [Net.step] at hs
    split at hs
    · cases hs
    · obtain ⟨pool, -, rfl⟩ := Option.map_eq_some_iff.1 hs
      exact h
  | lock w evs =>
    simp only [Net.step] at hs
    split at hs
    · cases hs
    · next i hi =>
      split at hs
      · cases hs
      · next c hc =>
        split at hs
        · unfold Net.enter at hs
          split at hs
          · obtain ⟨pool, -, rfl⟩ := Option.map_eq_some_iff.1 hs
            exact h.set hc rfl rfl rfl rfl
          · cases hs; exact h.set hc rfl rfl rfl rfl
          · cases hs; exact h.set hc rfl rfl rfl rfl
        · cases hs
  | go w =>
    simp only [Net.step] at hs
    split at hs
    · cases hs
    · next i hi =>
      split at hs
      · cases hs
      · next c hc =>
        split at hs
        · exact h.advance hc (advance_cases hs)
        · cases hs

/-- C87 in part: no more jobs wait than were submitted; and for each connection no more are submitted than the operating system had
reasons to report it: at first, since it can be written to, when something arrives, and when it can be written to again. (Nothing is assumed
about the schedule; each call of `poll` returns a connection at most once, and no event of an old socket is taken for one of a new.) -/
theorem C87_reasons_partial {as : List NAct} {n : Nat} {s : Net σ} (h : Net.after prof rt n s₀ as = some s)
    (hd : ∀ ks, .poll ks ∈ as → ks.Nodup) (hn : ∀ i cl, .stray i cl ∉ as) :
    s.pool.queue.length ≤ s.jobs.length ∧ ∀ k, s.jobsFor k ≤ 1 + as.countP (NAct.wakes k) := by
  unfold Net.after at h
  obtain ⟨s1, h1, h2⟩ := Option.bind_eq_some_iff.1 h
  have h3 : s1.jobs = [] ∧ s1.batch = [] ∧ s1.conns = [] ∧ s1.pool.queue = [] := by
    simp only [Net.new, Option.map_eq_some_iff] at h1
    obtain ⟨p, hp, rfl⟩ := h1
    simp only [Pool.new] at hp
    split at hp <;> cases hp
    exact ⟨rfl, rfl, rfl, rfl⟩
  clear h h1
  constructor
  · have h4 : s1.pool.queue.length ≤ s1.jobs.length := by simp [h3]
    clear h3 hd hn
    induction as generalizing s1 with
    | nil => cases h2; exact h4
    | cons a as ih =>
      obtain ⟨s2, h5, h6⟩ := Option.bind_eq_some_iff.1 h2
      exact ih s2 h6 (Net.queue_le_step (step_nstep h5) h4)
  · intro k
    have h4 : s1.Weighed k 0 := by simp [Net.Weighed, Net.jobsFor, Net.edgeOf, h3]
    suffices ∀ r, s1.Weighed k r → s.Weighed k (r + as.countP (NAct.wakes k)) by
      have h5 := this 0 h4
      unfold Net.Weighed at h5
      split at h5 <;> omega
    clear h3 h4
    induction as generalizing s1 with
    | nil => cases h2; exact fun r h => h
    | cons a as ih =>
      intro r hr
      obtain ⟨s2, h5, h6⟩ := Option.bind_eq_some_iff.1 h2
      have h7 := hr.step h5 (fun ks hk => hd ks (by simp [hk])) (fun i cl hk => hn i cl (by simp [hk]))
      have h8 := ih (fun ks hk => hd ks (List.mem_cons_of_mem _ hk)) (fun i cl hk => hn i cl (List.mem_cons_of_mem _ hk)) s2 h6 _ h7
      rw [List.countP_cons]
      cases hw : a.wakes k with
      | false => rw [hw] at h8; simpa using h8
      | true =>
        rw [hw] at h8
        rw [show r + (List.countP (NAct.wakes k) as + if (true = true) then 1 else 0) = r + true.toNat + List.countP (NAct.wakes k) as by simp; omega]
        exact h8

/-- The bound is reached: two pieces of input arrive one after the other, and three jobs are submitted. -/
example : ((Net.after (σ := Unit) ⟨true⟩ panicking 1 () [.accept (fun n => n) (fun c n => c + n) (by omega) [], .poll [0], .dispatch false,
    .arrive 0 (.data [71]), .poll [0], .dispatch false, .arrive 0 (.data [69]), .poll [0], .dispatch false]).map
      fun s => (s.jobsFor 0, s.pool.queue.length)) = some (3, 3) := by decide +kernel

/-! ## Streams of any kind -/

section

variable {T : Type} [RawIO T]

/-- What a step of a handler does to the rest of the server. -/
structure ANet.Framed (s : ANet T σ) (k : Nat) (c : AConn T) (s' : ANet T σ) : Prop where
  jobs : s'.jobs = s.jobs
  batch : s'.batch = s.batch
  conns : ∃ c', s'.conns = s.conns.set k c' ∧ c'.edge = c.edge
  queue : s'.pool.queue.length ≤ s.pool.queue.length

omit [RawIO T] in
theorem unlessHung_framed {s s' t : ANet T σ} {k : Nat} {c : AConn T} {r : Shared (ServerStack T)} (h : ANet.unlessHung r t = some s') (ht : s.Framed k c t) :
    s.Framed k c s' := by
  unfold ANet.unlessHung at h
  split at h <;> cases h
  exact ht

theorem ANet.advance_framed {s s' : ANet T σ} {w k rounds : Nat} {c : AConn T} (h : s.advance prof rt w k c rounds = some s') : s.Framed k c s' := by
  have hc : ∀ {t : ANet T σ} {conn : SharedConn (ServerStack T)}, t.crash w k c conn = some s' → t.jobs = s.jobs → t.batch = s.batch →
      t.conns = s.conns → t.pool = s.pool → s.Framed k c s' := by
    intro t conn h5 h1 h2 h3 h4
    obtain ⟨pool, h6, rfl⟩ := Option.map_eq_some_iff.1 h5
    rw [h4] at h6
    refine ⟨h1, h2, ⟨{ c with slot := .poisoned (ANet.droppedConn conn), lock := none }, ?_, rfl⟩, Pool.work_queue h6⟩
    rw [← h3]
    rfl
  unfold ANet.advance at h
  split at h
  · split at h
    · exact unlessHung_framed h ⟨rfl, rfl, ⟨_, rfl, rfl⟩, Nat.le_refl _⟩
    · exact unlessHung_framed h ⟨rfl, rfl, ⟨_, rfl, rfl⟩, Nat.le_refl _⟩
  · split at h
    · cases h; exact ⟨rfl, rfl, ⟨_, rfl, rfl⟩, Nat.le_refl _⟩
    · cases h; exact ⟨rfl, rfl, ⟨_, rfl, rfl⟩, Nat.le_refl _⟩
    · cases h; exact ⟨rfl, rfl, ⟨_, rfl, rfl⟩, Nat.le_refl _⟩
    · split at h
      · cases h
      · exact unlessHung_framed h ⟨rfl, rfl, ⟨_, rfl, rfl⟩, Nat.le_refl _⟩
    · exact hc h rfl rfl rfl rfl
    · cases h
  · dsimp only at h
    split at h
    · exact hc h rfl rfl rfl rfl
    · cases h; exact ⟨rfl, rfl, ⟨_, rfl, rfl⟩, Nat.le_refl _⟩
  · split at h
    · split at h
      · exact unlessHung_framed h ⟨rfl, rfl, ⟨_, rfl, rfl⟩, Nat.le_refl _⟩
      · exact unlessHung_framed h ⟨rfl, rfl, ⟨_, rfl, rfl⟩, Nat.le_refl _⟩
    · exact unlessHung_framed h ⟨rfl, rfl, ⟨_, rfl, rfl⟩, Nat.le_refl _⟩
    · cases h
  · obtain ⟨pool, h6, rfl⟩ := Option.map_eq_some_iff.1 h
    exact ⟨rfl, rfl, ⟨_, rfl, rfl⟩, Pool.work_queue h6⟩
  · cases h

omit [RawIO T] in
theorem Pool.execute_queue {s pool : Pool} (hp : s.step .execute = some pool) :
    pool.queue.length ≤ s.queue.length + 1 ∧ (pool.owner ≠ .using → pool.queue.length ≤ s.queue.length) := by
  simp only [Pool.step] at hp
  split at hp
  · next ho =>
    cases hp
    split
    · exact ⟨by simp, fun h => absurd ho h⟩
    · exact ⟨Nat.le_succ _, fun _ => Nat.le_refl _⟩
  · cases hp

/-- The operating system will report connection `k`. -/
def ANet.edgeOf (s : ANet T σ) (k : Nat) : Nat := (s.conns[k]?.map fun c => c.edge.toNat).getD 0

/-- What the jobs of connection `k`, and the queue, are bounded by. -/
def ANet.Weighed (s : ANet T σ) (k r : Nat) : Prop :=
  s.pool.queue.length ≤ s.jobs.length ∧ s.jobsFor k + s.batch.count k + s.edgeOf k ≤ (if k < s.conns.length then 1 else 0) + r

omit [RawIO T] in
theorem ANet.Weighed.set {s s' : ANet T σ} {k r i : Nat} {c : AConn T} (h : s.Weighed k r) (hc : s.conns[i]? = some c) (hf : s.Framed i c s') :
    s'.Weighed k r := by
  obtain ⟨hj, hb, ⟨c', hs, he⟩, hq⟩ := hf
  have h1 : s'.edgeOf k = s.edgeOf k := by
    unfold ANet.edgeOf
    rw [hs]
    by_cases hik : i = k
    · subst hik
      obtain ⟨hlt, -⟩ := List.getElem?_eq_some_iff.1 hc
      rw [List.getElem?_set_self hlt, hc]
      simp [he]
    · rw [List.getElem?_set_ne hik]
  unfold ANet.Weighed ANet.jobsFor at *
  rw [hj, hb, h1, hs, List.length_set]
  exact ⟨Nat.le_trans hq h.1, h.2⟩

omit [RawIO T] in
theorem ANet.Weighed.event {s s' : ANet T σ} {k r i : Nat} {b : List Nat} {cl : Bool} (hb : s.batch = i :: b) (h : s.Weighed k r)
    (hs : ({ s with batch := b } : ANet T σ).onEvent i cl = some s') : s'.Weighed k r := by
  have h0 : ({ s with batch := b } : ANet T σ).Weighed k r ∧
      s.jobsFor k + (b.count k + if i == k then 1 else 0) + s.edgeOf k ≤ (if k < s.conns.length then 1 else 0) + r := by
    obtain ⟨h1, h2⟩ := h
    rw [hb, List.count_cons] at h2
    refine ⟨⟨h1, ?_⟩, h2⟩
    unfold ANet.jobsFor ANet.edgeOf at *
    dsimp only
    omega
  unfold ANet.onEvent at hs
  split at hs
  · cases hs
  · next c hc =>
    split at hs
    · cases hs
      exact h0.1
    · split at hs
      · cases hs
        exact h0.1.set hc ⟨rfl, rfl, ⟨_, rfl, rfl⟩, Nat.le_refl _⟩
      · split at hs
        · cases hs
        · next pool hp =>
          cases hs
          have h1 := Pool.execute_queue hp
          have h2 := h.1
          unfold ANet.Weighed ANet.jobsFor ANet.edgeOf at *
          dsimp only at h1 ⊢
          by_cases ho : pool.owner = .using
          · rw [if_pos ho, List.count_append, List.length_append, List.count_singleton]
            simp only [List.length_singleton]
            exact ⟨by omega, by omega⟩
          · rw [if_neg ho]
            have := h1.2 ho
            exact ⟨by omega, by omega⟩

theorem ANet.Weighed.step {s s' : ANet T σ} {k r : Nat} {a : AAct T} (h : s.Weighed k r) (hs : s.step prof rt a = some s')
    (hd : ∀ ks, a = .poll ks → ks.Nodup) (hn : ∀ i cl, a ≠ .stray i cl) : s'.Weighed k (r + (a.reports k).toNat) := by
  cases a with
  | accept offer grow growOk t =>
    cases hs
    refine ⟨h.1, ?_⟩
    replace h := h.2
    unfold ANet.jobsFor ANet.edgeOf at *
    dsimp only [AAct.reports, Bool.toNat_false]
    rw [List.length_append, List.length_singleton]
    by_cases h1 : k < s.conns.length
    · rw [List.getElem?_append_left h1]
      rw [if_pos h1] at h
      rw [if_pos (by omega)]
      exact h
    · rw [if_neg h1, List.getElem?_eq_none (by omega)] at h
      rw [List.getElem?_append_right (by omega)]
      by_cases h2 : k = s.conns.length
      · subst h2
        simp [ANet.fresh] at h ⊢
        omega
      · rw [List.getElem?_eq_none (by simp; omega), if_neg (by omega)]
        exact h
  | change i env =>
    simp only [ANet.step] at hs
    split at hs
    · cases hs
    · next c hc =>
      cases hs
      exact h.set hc ⟨rfl, rfl, ⟨_, rfl, rfl⟩, Nat.le_refl _⟩
  | notify i =>
    simp only [ANet.step] at hs
    split at hs
    · cases hs
    · next c hc =>
      cases hs
      refine ⟨h.1, ?_⟩
      replace h := h.2
      by_cases hik : i = k
      · subst hik
        obtain ⟨hlt, -⟩ := List.getElem?_eq_some_iff.1 hc
        unfold ANet.jobsFor ANet.edgeOf at *
        simp [ANet.setConn, hlt, AAct.reports] at h ⊢
        omega
      · unfold ANet.jobsFor ANet.edgeOf at *
        simp [ANet.setConn, hik, AAct.reports, beq_false_of_ne hik] at h ⊢
        exact h
  | poll ks =>
    simp only [ANet.step] at hs
    split at hs
    · next hp =>
      cases hs
      refine ⟨h.1, ?_⟩
      replace h := h.2
      have h1 := List.nodup_iff_count.1 (hd ks rfl) k
      unfold ANet.jobsFor ANet.edgeOf at *
      rw [hp.1] at h
      dsimp only [AAct.reports, Bool.toNat_false]
      rw [List.getElem?_mapIdx, List.length_mapIdx]
      by_cases hk : k ∈ ks
      · have h2 := hp.2.2 k hk
        cases hc : s.conns[k]? with
        | none => rw [hc] at h2; cases h2
        | some c =>
          rw [hc] at h h2
          simp at h2
          simp [h2, hk] at h ⊢
          omega
      · rw [List.count_eq_zero_of_not_mem hk]
        simp [hk] at h ⊢
        exact h
    · cases hs
  | dispatch cl =>
    simp only [ANet.step] at hs
    split at hs
    · cases hs
    · next hb => exact h.event hb hs
  | stray i cl => exact absurd rfl (hn i cl)
  | work w =>
    simp only [ANet.step] at hs
    split at hs
    · cases hs
    · obtain ⟨pool, hp, rfl⟩ := Option.map_eq_some_iff.1 hs
      exact ⟨Nat.le_trans (Pool.work_queue hp) h.1, h.2⟩
  | lock w =>
    simp only [ANet.step] at hs
    split at hs
    · cases hs
    · next i hi =>
      split at hs
      · cases hs
      · next c hc =>
        split at hs
        · unfold ANet.enter at hs
          split at hs
          · obtain ⟨pool, hp, rfl⟩ := Option.map_eq_some_iff.1 hs
            exact ⟨Nat.le_trans (Pool.work_queue hp) h.1, h.2⟩
          · cases hs; exact h.set hc ⟨rfl, rfl, ⟨_, rfl, rfl⟩, Nat.le_refl _⟩
          · cases hs; exact h.set hc ⟨rfl, rfl, ⟨_, rfl, rfl⟩, Nat.le_refl _⟩
        · cases hs
  | go w rounds =>
    simp only [ANet.step] at hs
    split at hs
    · cases hs
    · next i hi =>
      split at hs
      · cases hs
      · next c hc =>
        split at hs
        · exact h.set hc (ANet.advance_framed hs)
        · cases hs

/-- C87 in part, over streams of any kind, so also over TLS: no more jobs wait than were submitted, and for each connection no more are
submitted than it was put on the list of ready sockets of the operating system, at first and later. (Conditions as in `C87_reasons_partial`.) -/
theorem C87_any_reasons_partial {as : List (AAct T)} {n : Nat} {s₁ s : ANet T σ} (h1 : ANet.new n s₀ = some s₁) (h2 : s₁.run prof rt as = some s)
    (hd : ∀ ks, .poll ks ∈ as → ks.Nodup) (hn : ∀ i cl, .stray i cl ∉ as) :
    s.pool.queue.length ≤ s.jobs.length ∧ ∀ k, s.jobsFor k ≤ 1 + as.countP (AAct.reports k) := by
  suffices ∀ k, s.Weighed k (0 + as.countP (AAct.reports k)) by
    refine ⟨(this 0).1, fun k => ?_⟩
    have h5 := (this k).2
    split at h5 <;> omega
  intro k
  have h4 : s₁.Weighed k 0 := by
    simp only [ANet.new, Option.map_eq_some_iff] at h1
    obtain ⟨p, hp, rfl⟩ := h1
    simp only [Pool.new] at hp
    split at hp <;> cases hp
    simp [ANet.Weighed, ANet.jobsFor, ANet.edgeOf]
  clear h1
  generalize 0 = r at h4 ⊢
  induction as generalizing s₁ r with
  | nil => cases h2; exact h4
  | cons a as ih =>
    obtain ⟨s2, h5, h6⟩ := Option.bind_eq_some_iff.1 h2
    have h7 := h4.step h5 (fun ks hk => hd ks (by simp [hk])) (fun i cl hk => hn i cl (by simp [hk]))
    have h8 := ih h6 (fun ks hk => hd ks (List.mem_cons_of_mem _ hk)) (fun i cl hk => hn i cl (List.mem_cons_of_mem _ hk)) _ h7
    rw [List.countP_cons]
    cases hw : a.reports k with
    | false => rw [hw] at h8; simpa using h8
    | true =>
      rw [hw] at h8
      rw [show r + (List.countP (AAct.reports k) as + if (true = true) then 1 else 0) = r + true.toNat + List.countP (AAct.reports k) as by simp; omega]
      exact h8

/-- The bound is reached over TLS, whatever the state of the session. -/
example (t : TlsStream) : (((ANet.new (T := TlsStream) 1 ()).bind fun s => s.run ⟨true⟩ panicking [.accept (fun n => n) (fun c n => c + n) (by omega) t, .poll [0],
    .dispatch false, .notify 0, .poll [0], .dispatch false]).map fun s => (s.jobsFor 0, s.pool.queue.length)) = some (2, 2) := rfl

/-- The first `i` of `n` workers are at the mutex of the only connection. -/
structure AGathered (n i : Nat) (s : ANet T σ) : Prop where
  len : s.pool.workers.length = n
  run : ∀ w, w < i → s.pool.workers[w]? = some (.running w)
  idle : ∀ w, i ≤ w → w < n → s.pool.workers[w]? = some .idle
  queue : s.pool.queue = []
  locked : s.pool.locked = none
  poisoned : s.pool.poisoned = false
  owner : s.pool.owner = .using
  sent : (jobsOf s.pool.sent).length = i
  jobs : s.jobs = List.replicate i 0
  phase : ∀ w, s.phase w = .enter
  batch : s.batch = []
  conns : ∃ (c : AConn T) (conn : SharedConn (ServerStack T)), s.conns = [c] ∧ c.slot = .live conn ∧ c.lock = none ∧ c.inTable = true

theorem AGathered.next {n i : Nat} {s : ANet T σ} (h : AGathered n i s) (hi : i < n) :
    ∃ s', s.run prof rt [.notify 0, .poll [0], .dispatch false, .work i, .work i, .work i, .work i] = some s' ∧ AGathered n (i + 1) s' := by
  obtain ⟨h1, h2, h3, h4, h5, h6, h7, h8, h9, h11, h12, c, conn, h15, h16, h17, h18⟩ := h
  obtain ⟨pool, jobs, phase, conns, batch, state, asks⟩ := s
  obtain ⟨workers, locked, poisoned, queue, owner, sent, taken, lost, started, finished, crashed⟩ := pool
  obtain ⟨slot, lock, inTable, edge⟩ := c
  simp only at h1 h2 h3 h4 h5 h6 h7 h8 h9 h11 h12 h15 h16 h17 h18
  subst h4 h5 h6 h7 h12 h15 h16 h17 h18 h9
  have hw := h3 i (Nat.le_refl _) hi
  have hop : (workers.any Worker.alive) = true := by
    rw [List.any_eq_true]
    exact ⟨.idle, List.mem_of_getElem? hw, rfl⟩
  have hlt : i < workers.length := by omega
  have hw' : workers[i] = .idle := by rw [List.getElem?_eq_getElem hlt] at hw; exact Option.some.inj hw
  simp [ANet.run, ANet.step, ANet.setConn, ANet.onEvent, Pool.step, Pool.open, hop, Pool.work, hw', ANet.setPhase, hlt, -List.any_eq_true]
  refine ⟨by simpa using h1, fun w hw => ?_, fun w hw hn => ?_, rfl, rfl, rfl, rfl, ?_, ?_, fun w => ?_, rfl, _, _, rfl, rfl, rfl, rfl⟩
  · by_cases hwi : w = i
    · subst hwi
      simp [hlt, h8]
    · simpa [show i ≠ w by omega] using h2 w (by omega)
  · simpa [show i ≠ w by omega] using h3 w (by omega) hn
  · simp [jobsOf] at h8 ⊢
    omega
  · simp [List.replicate_succ']
  · dsimp only
    split
    · rfl
    · exact h11 w

/-- One worker is in a handler of the only connection, the others wait for its mutex, and `m` jobs for it wait in the queue. -/
structure APiled (n m : Nat) (s : ANet T σ) : Prop where
  len : s.pool.workers.length = n
  run : ∀ w, w < n → s.pool.workers[w]? = some (.running w)
  uses : s.phase 0 = .flushing
  enter : ∀ w, 0 < w → s.phase w = .enter
  owner : s.pool.owner = .using
  sent : (jobsOf s.pool.sent).length = n + m
  jobs : s.jobs = List.replicate (n + m) 0
  queue : s.pool.queue = (List.range' n m).map .job
  batch : s.batch = []
  conns : ∃ (c : AConn T), s.conns = [c] ∧ c.lock = some 0 ∧ c.inTable = true

theorem AGathered.piled {n : Nat} (hn : 0 < n) {s : ANet T σ} (h : AGathered n n s) : ∃ s', s.run prof rt [.lock 0] = some s' ∧ APiled n 0 s' := by
  obtain ⟨h1, h2, -, h4, h5, h6, h7, h8, h9, h11, h12, c, conn, h15, h16, h17, h18⟩ := h
  obtain ⟨pool, jobs, phase, conns, batch, state, asks⟩ := s
  obtain ⟨workers, locked, poisoned, queue, owner, sent, taken, lost, started, finished, crashed⟩ := pool
  obtain ⟨slot, lock, inTable, edge⟩ := c
  simp only at h1 h2 h4 h5 h6 h7 h8 h9 h11 h12 h15 h16 h17 h18
  subst h4 h5 h6 h7 h12 h15 h16 h17 h18 h9
  have hw := h2 0 hn
  have hlt : 0 < workers.length := by omega
  have hw' : workers[0] = .running 0 := by rw [List.getElem?_eq_getElem hlt] at hw; exact Option.some.inj hw
  simp [ANet.run, ANet.step, ANet.handled, ANet.enter, ANet.setConn, ANet.setPhase, hw', h11, hlt, hn]
  refine ⟨h1, h2, rfl, fun w h0 => ?_, rfl, h8, rfl, rfl, rfl, _, rfl, rfl, rfl⟩
  simp [show w ≠ 0 by omega]

theorem APiled.next {n m : Nat} (hn : 0 < n) {s : ANet T σ} (h : APiled n m s) :
    ∃ s', s.run prof rt [.notify 0, .poll [0], .dispatch false] = some s' ∧ APiled n (m + 1) s' := by
  obtain ⟨h2, h3, h4, h5, h6, h7, h8, h10, h11, c, h15, h17, h18⟩ := h
  obtain ⟨pool, jobs, phase, conns, batch, state, asks⟩ := s
  obtain ⟨workers, locked, poisoned, queue, owner, sent, taken, lost, started, finished, crashed⟩ := pool
  obtain ⟨slot, lock, inTable, edge⟩ := c
  simp only at h2 h3 h4 h5 h6 h7 h8 h10 h11 h15 h17 h18
  subst h6 h8 h10 h11 h15 h17 h18
  have hop : (workers.any Worker.alive) = true := by
    rw [List.any_eq_true]
    exact ⟨.running 0, List.mem_of_getElem? (h3 0 hn), rfl⟩
  simp [ANet.run, ANet.step, ANet.setConn, ANet.onEvent, Pool.step, Pool.open, hop, -List.any_eq_true]
  refine ⟨h2, h3, h4, h5, rfl, ?_, ?_, ?_, rfl, _, rfl, rfl, rfl⟩
  · simp [jobsOf] at h7 ⊢
    omega
  · simp [← Nat.add_assoc, List.replicate_succ']
  · dsimp only
    rw [h7, List.range'_concat]
    simp

theorem ANet.run_trans {s t u : ANet T σ} {as bs : List (AAct T)} (h1 : s.run prof rt as = some t) (h2 : t.run prof rt bs = some u) :
    s.run prof rt (as ++ bs) = some u := by
  rw [ANet.run_append, h1]
  exact h2

/-- C87 does not hold over streams of any kind, so neither over TLS: while one worker is in a handler of a connection, whatever its stream, and all
others wait for its mutex, readiness of this one connection fills the queue with any number of jobs. -/
theorem C87_any_queue_false (prof : Profile) (rt : Router σ) (s₀ : σ) (t : T) {n : Nat} (hn : 0 < n) (m : Nat) : ∃ (as : List (AAct T)) (s₁ s : ANet T σ),
      ANet.new n s₀ = some s₁ ∧ s₁.run prof rt as = some s ∧ s.pool.workers.length = n ∧ s.conns.length = 1 ∧
      (∃ c, s.conns[0]? = some c ∧ c.lock = some 0) ∧ (∀ w, w < n → s.handled w = some 0 ∧ (s.phase w = .enter ↔ 0 < w)) ∧
      s.pool.queue.length = m ∧ (∀ x ∈ s.pool.queue, ∃ j, x = .job j ∧ s.jobs[j]? = some 0) := by
  have hg : ∀ i, i ≤ n → ∃ (as : List (AAct T)) (s₁ s : ANet T σ), ANet.new n s₀ = some s₁ ∧ s₁.run prof rt as = some s ∧ AGathered n i s := by
    intro i
    induction i with
    | zero =>
      intro _
      refine ⟨[.accept (fun n => n) (fun c n => c + n) (by omega) t], _, _, by simp [ANet.new, Pool.new, show n ≠ 0 by omega]; rfl, rfl, ?_⟩
      refine ⟨by simp, by simp, fun w _ hw => by simp [hw], rfl, rfl, rfl, rfl, rfl, rfl, fun _ => rfl, rfl, _, _, rfl, rfl, rfl, rfl⟩
    | succ i ih =>
      intro hi
      obtain ⟨as, s₁, s, h1, h2, h3⟩ := ih (by omega)
      obtain ⟨s', h4, h5⟩ := h3.next (prof := prof) (rt := rt) (by omega)
      exact ⟨_, s₁, s', h1, ANet.run_trans h2 h4, h5⟩
  have hp : ∃ (as : List (AAct T)) (s₁ s : ANet T σ), ANet.new n s₀ = some s₁ ∧ s₁.run prof rt as = some s ∧ APiled n m s := by
    induction m with
    | zero =>
      obtain ⟨as, s₁, s, h1, h2, h3⟩ := hg n (Nat.le_refl n)
      obtain ⟨s', h4, h5⟩ := h3.piled (prof := prof) (rt := rt) hn
      exact ⟨_, s₁, s', h1, ANet.run_trans h2 h4, h5⟩
    | succ m ih =>
      obtain ⟨as, s₁, s, h1, h2, h3⟩ := ih
      obtain ⟨s', h4, h5⟩ := h3.next (prof := prof) (rt := rt) hn
      exact ⟨_, s₁, s', h1, ANet.run_trans h2 h4, h5⟩
  obtain ⟨as, s₁, s, h1, h2, h⟩ := hp
  obtain ⟨c, hc, hl, -⟩ := h.conns
  refine ⟨as, s₁, s, h1, h2, h.len, by simp [hc], ⟨c, by simp [hc], hl⟩, fun w hw => ⟨?_, ?_⟩, by simp [h.queue], fun x hx => ?_⟩
  · simp only [ANet.handled, h.run w hw, h.jobs]
    simp [show w < n + m by omega]
  · by_cases h0 : w = 0
    · subst h0
      simp [h.uses]
    · simp [h.enter w (by omega), show 0 < w by omega]
  · rw [h.queue] at hx
    obtain ⟨j, hj, rfl⟩ := List.mem_map.1 hx
    have := List.mem_range'_1.1 hj
    exact ⟨j, rfl, by rw [h.jobs]; simp [show j < n + m by omega]⟩

/-- For example over a stream that was just accepted by `listen_https`. -/
example (cipher : Cipher) : ∃ (as : List (AAct TlsStream)) (s₁ s : ANet TlsStream Unit), ANet.new 4 () = some s₁ ∧ s₁.run ⟨true⟩ panicking as = some s ∧
    s.conns.length = 1 ∧ s.pool.queue.length = 1000000 := by
  obtain ⟨as, s₁, s, h1, h2, -, h3, -, -, h4, -⟩ := C87_any_queue_false ⟨true⟩ panicking () (TlsStream.new cipher false [] ⟨[], [], []⟩) (n := 4) (by decide) 1000000
  exact ⟨as, s₁, s, h1, h2, h3, h4⟩

end

end Verif
