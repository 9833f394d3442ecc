import Verif.Proofs.Lifecycle
import Verif.Props.Progress

/-!
C73: how `listen_http` starts and ends.
-/

namespace Verif

variable {σ : Type} {prof : Profile} {rt : Router σ} {n : Nat} {os : StartError} {s₀ : σ}

/-- C73, the start: with an address that is none, or without threads, `listen_http` panics. Otherwise it serves, unless the operating system reports an
error; then it begins to return this error. -/
theorem C73_start (ok : Bool) (n : Nat) (os : StartError) (s₀ : σ) :
    (Life.start ok n os s₀ = none ↔ ok = false ∨ n = 0) ∧
      ∀ l, Life.start ok n os s₀ = some l → l.net.conns = [] ∧ l.net.pool.workers = List.replicate n .idle ∧ l.net.pool.queue = [] ∧
        l.stage = (match os with | none => .serving | some e => .ending e) := by
  cases ok with
  | false => exact ⟨by simp [Life.start], by simp [Life.start]⟩
  | true =>
    cases n with
    | zero => exact ⟨by simp [Life.start, Net.new, Pool.new], by simp [Life.start, Net.new, Pool.new]⟩
    | succ n =>
      cases os with
      | none =>
        refine ⟨by simp [Life.start, Net.new, Pool.new], fun l hl => ?_⟩
        cases hl
        exact ⟨rfl, rfl, rfl, rfl⟩
      | some e =>
        refine ⟨by simp [Life.start, Net.new, Pool.new, Life.dropPool, Pool.step], fun l hl => ?_⟩
        cases hl
        exact ⟨rfl, rfl, rfl, rfl⟩

/-- C73 (partial: `poll` never reports an error): the server does not stop. -/
theorem C73_serves_partial (r : Life.Run prof rt n none s₀) (h : ∀ t e, r.act t ≠ some (.pollFails e)) (t : Nat) : (r.at_ t).stage = .serving := by
  induction t with
  | zero =>
    obtain ⟨-, s, -, ⟨-, h2⟩ | ⟨e, p, h2, -⟩⟩ := Life.start_cases r.start
    · rw [h2]
    · cases h2
  | succ t ih =>
    have hn := r.next t
    cases ha : r.act t with
    | none => rw [ha] at hn; dsimp only at hn; rw [hn]; exact ih
    | some a =>
      rw [ha] at hn
      rcases Life.step_cases hn with ⟨b, -, -, h2, -⟩ | ⟨e, p, h2, -⟩ | ⟨p, -, h2, -⟩
      · rw [h2]; exact ih
      · subst h2; exact absurd ha (h t e)
      · exact absurd ih h2

/-- C73: once `poll` has failed there is no way back: nothing more is accepted, and no handler is submitted for what arrives. -/
theorem C73_no_return {l l' : Life σ} (h : Life.Steps prof rt l l') {e : IoError} (he : l.stage = .ending e) :
    l'.stage = .ending e ∧ l'.net.jobs = l.net.jobs ∧ l'.net.conns.length = l.net.conns.length := by
  induction h with
  | refl => exact ⟨he, rfl, rfl⟩
  | step _ hs ih =>
    obtain ⟨h1, h2⟩ := Life.step_ending hs ih.1
    exact ⟨h1, by rw [h2.jobs, ih.2.1], by rw [h2.length, ih.2.2]⟩

theorem Life.outcome_returned {l : Life σ} {e : IoError} (h : l.outcome = some (.returned e)) : l.stage = .ending e ∧ l.net.pool.owner = .dropped := by
  unfold Life.outcome at h
  split at h
  · next h1 h2 => cases h; exact ⟨h1, h2⟩
  · cases h
  · cases h

/-- Once the event loop has ended no connection is in the table. -/
theorem Life.Reach.table {l : Life σ} (h : Life.Reach prof rt n os s₀ l) (hs : l.stage ≠ .serving) : ∀ c ∈ l.net.conns, c.inTable = false := by
  induction h with
  | start h =>
    obtain ⟨-, s, h1, ⟨-, rfl⟩ | ⟨e, p, -, h2, rfl⟩⟩ := Life.start_cases h
    · exact absurd rfl hs
    · unfold Net.new at h1
      simp only [Option.map_eq_some_iff] at h1
      obtain ⟨p, -, rfl⟩ := h1
      simp
  | @step l l' a h0 hst ih =>
    rcases Life.step_cases hst with ⟨b, rfl, h1, h2, h3⟩ | ⟨e, p, -, -, -, h1, rfl⟩ | ⟨p, -, h1, -, rfl⟩
    · have h4 := h3 (by rw [← h2]; exact hs)
      have ih := ih (by rw [← h2]; exact hs)
      intro c hc
      obtain ⟨k, hk⟩ := List.mem_iff_getElem?.1 hc
      obtain ⟨d, h5, h6⟩ := (Net.step_table h4 h1).table hk
      rw [h6]; exact ih d (List.mem_of_getElem? h5)
    · intro c hc
      simp only [Life.dropTable, List.mem_map] at hc
      obtain ⟨d, -, rfl⟩ := hc
      rfl
    · exact ih h1

/-- C73: when `listen_http` has returned, every worker has stopped, every handler that was submitted has run to its end, and every connection is closed; and
from every connection that was open until then everything was read that had arrived when a handler was last submitted for it. -/
theorem C73_finished {l : Life σ} (h : Life.Reach prof rt n os s₀ l) {e : IoError} (ho : l.outcome = some (.returned e)) :
    (∀ w ∈ l.net.pool.workers, w = .exited) ∧ l.net.pool.finished.Perm (List.range l.net.jobs.length) ∧ (∀ k, ¬ l.Held k) ∧
      (∀ c ∈ l.net.conns, c.lock = none) ∧
      ∀ (j k : Nat) c conn, l.net.jobs[j]? = some (k, c.arrived.length) → l.net.conns[k]? = some c → c.slot = .live conn → conn.reader.src.atoms = [] := by
  obtain ⟨h1, h2⟩ := Life.outcome_returned ho
  have hs := h.solid
  obtain ⟨h3, h4, h5, h6⟩ := C41_waits hs.base.pool h2
  have hsub : l.net.pool.submitted = List.range l.net.jobs.length := by
    rw [hs.base.jobs]; exact hs.base.pool.inv.ids
  refine ⟨h3, by rw [← hsub]; exact h4, ?_, ?_, ?_⟩
  · rintro k (⟨c, h7, h8⟩ | ⟨j, a, h7, h8 | ⟨w, h8, h9⟩⟩)
    · rw [h.table (by rw [h1]; simp) c (List.mem_of_getElem? h7)] at h8; cases h8
    · rw [h6] at h8; cases h8
    · rw [h3 w h8] at h9; simp at h9
  · intro c hc
    obtain ⟨k, hk⟩ := List.mem_iff_getElem?.1 hc
    cases hl : c.lock with
    | none => rfl
    | some w =>
      obtain ⟨h7, -⟩ := (hs.base.lock k w c hk).1 hl
      obtain ⟨j, a, h8, -⟩ := handled_iff.1 h7
      have := h3 _ (List.mem_of_getElem? h8)
      cases this
  · intro j k c conn hj hk hsl
    have hf : j ∈ l.net.pool.finished := by
      rw [h4.mem_iff, hsub]
      exact List.mem_range.2 (List.getElem?_eq_some_iff.1 hj).1
    have h7 := hs.told.done j k _ c hj hk hf (by rw [hsl]; rfl)
    have h8 := hs.told.conn k c hk
    exact h8.quiet conn hsl (Nat.le_antisymm h8.drained h7)

/-- C73 (partial: for connections that the server did not close before, and responses in parts of at most `N` bytes): when `listen_http` has returned, every request
was answered that had arrived when a handler was last submitted for its connection. The answers were sent, or else lie in the buffer and are lost. -/
theorem C73_answered_partial {N : Nat} {l : Life σ} (h : Life.Reach prof rt n os s₀ l) {e : IoError} (ho : l.outcome = some (.returned e))
    {j k : Nat} {c : NConn σ} {conn : Conn Rd Nbw} (hj : l.net.jobs[j]? = some (k, c.arrived.length)) (hk : l.net.conns[k]? = some c) (hs : c.slot = .live conn)
    (hN : 28 ≤ N) (hrt : ∀ a ∈ asksOn k l.net.asks, ∀ r, rt.Says a r → r.PartsLe N) {ms : List (Bytes × Request)} (hms : ∀ m ∈ ms, FittingRequest m.1 m.2)
    (hb : Brings c.arrived (ms.flatMap Prod.fst)) (hall : bytesOf (c.arrived.flatMap Ev.atoms) = ms.flatMap Prod.fst) (hw : ∀ evs ∈ c.wakes, Tidy N 4096 evs) :
    (asksOn k l.net.asks).map Prod.fst = ms.map Prod.snd ∧ AnsweredIn rt (asksOn k l.net.asks) (conn.writer.sock.sent ++ conn.writer.pending) := by
  obtain ⟨-, -, -, h1, h2⟩ := C73_finished h ho
  exact serial_answered h.solid.serial hk (h.solid.first hk) (h1 c (List.mem_of_getElem? hk)) hs (h2 j k c conn hj hk hs) hN hrt hms hb hall hw

/-- C73 is false where a handler has panicked at any time before: `listen_http` does not return the error then; if it ends, it panics itself. -/
theorem C73_panicked_false {l : Life σ} (h : Life.Reach prof rt n os s₀ l) (hc : l.net.pool.crashed ≠ []) (e : IoError) : l.outcome ≠ some (.returned e) := by
  intro ho
  exact hc (C41_waits h.solid.base.pool (Life.outcome_returned ho).2).2.2.1

/-! ## It does end -/

theorem Life.Run.reach (r : Life.Run prof rt n os s₀) (t : Nat) : Life.Reach prof rt n os s₀ (r.at_ t) := by
  induction t with
  | zero => exact .start r.start
  | succ t ih =>
    have hn := r.next t
    cases ha : r.act t with
    | none => rw [ha] at hn; dsimp only at hn; rw [hn]; exact ih
    | some a => rw [ha] at hn; exact ih.step hn

theorem Life.Run.pool_next (r : Life.Run prof rt n os s₀) (t : Nat) : ∃ a : Option Act, match a with
    | none => (r.at_ (t + 1)).net.pool = (r.at_ t).net.pool
    | some a => (r.at_ t).net.pool.step a = some (r.at_ (t + 1)).net.pool := by
  have hn := r.next t
  cases ha : r.act t with
  | none => rw [ha] at hn; dsimp only at hn; exact ⟨none, by rw [hn]⟩
  | some a =>
    rw [ha] at hn
    rcases Life.step_cases hn with ⟨b, -, h1, -, -⟩ | ⟨e, p, -, -, -, h1, h2⟩ | ⟨p, -, -, h1, h2⟩
    · rcases (step_nstep h1).pool with h | h | ⟨w, b, h⟩
      · exact ⟨none, h⟩
      · exact ⟨some .execute, h⟩
      · exact ⟨some (.work w b), h⟩
    · exact ⟨some .drop, by rw [h2]; exact h1⟩
    · exact ⟨some .own, by rw [h2]; exact h1⟩

/-- The run of its thread pool, which begins one step earlier. -/
noncomputable def Life.Run.poolRun (r : Life.Run prof rt n os s₀) : Pool.Run n where
  at_
    | 0 => { workers := List.replicate n .idle, locked := none, poisoned := false, queue := [], owner := .using }
    | t + 1 => (r.at_ t).net.pool
  act
    | 0 => match os with
      | none => none
      | some _ => some .drop
    | t + 1 => Classical.choose (r.pool_next t)
  start := by
    obtain ⟨-, s, h1, -⟩ := Life.start_cases r.start
    unfold Net.new at h1
    simp only [Option.map_eq_some_iff] at h1
    obtain ⟨p, h1, -⟩ := h1
    unfold Pool.new at h1 ⊢
    split at h1
    · cases h1
    · next hn => rw [if_neg hn]
  next
    | 0 => by
      obtain ⟨-, s, h1, h2⟩ := Life.start_cases r.start
      unfold Net.new at h1
      simp only [Option.map_eq_some_iff] at h1
      obtain ⟨p, h1, rfl⟩ := h1
      unfold Pool.new at h1
      split at h1
      · cases h1
      · cases h1
        rcases h2 with ⟨rfl, h2⟩ | ⟨e, p, rfl, h2, h3⟩
        · dsimp only
          rw [h2]
        · dsimp only
          rw [h3]
          exact h2
    | t + 1 => Classical.choose_spec (r.pool_next t)

theorem Life.Run.poolRun_act (r : Life.Run prof rt n os s₀) {t w : Nat}
    (h : (r.at_ (t + 1)).net.pool.workers[w]? ≠ (r.at_ t).net.pool.workers[w]?) : ∃ b, r.poolRun.act (t + 1) = some (.work w b) := by
  have hn := r.poolRun.next (t + 1)
  cases ha : r.poolRun.act (t + 1) with
  | none =>
    rw [ha] at hn
    exact absurd (congrArg (fun p : Pool => p.workers[w]?) hn) h
  | some a =>
    rw [ha] at hn
    rcases Verif.step_cases hn with ⟨i, b, rfl, hs⟩ | hs
    · by_cases hi : i = w
      · exact ⟨b, by rw [hi]⟩
      · exact absurd (work_other hs hi) h
    · exact absurd (by rw [show (r.at_ (t + 1)).net.pool.workers = (r.at_ t).net.pool.workers from own_workers hs]) h

theorem Life.Run.pool_fair (r : Life.Run prof rt n os s₀) (hf : r.Fair) : r.poolRun.Fair := by
  intro w t hc
  by_cases hr : ∃ t' ≥ t, ∃ j, (r.at_ t').net.pool.workers[w]? = some (.running j)
  · obtain ⟨t', h1, j, h2⟩ := hr
    obtain ⟨t'', h3, h4⟩ := hf.returns t' w j h2
    obtain ⟨u, h5, h6, h7⟩ := exists_change (P := fun t => (r.at_ t).net.pool.workers[w]? = some (.running j)) h3 h2 h4
    obtain ⟨b, h8⟩ := r.poolRun_act (t := u) (w := w) (by rw [h6]; exact h7)
    exact ⟨u + 1, by omega, b, h8⟩
  · have hn : ∀ t' ≥ t, ∀ j, (r.at_ t').net.pool.workers[w]? ≠ some (.running j) := fun t' h1 j h2 => hr ⟨t', h1, j, h2⟩
    obtain ⟨t', h1, h2⟩ := hf.workers t w (by
      intro t' h1
      obtain ⟨p, hp⟩ := hc (t' + 1) (by omega)
      have hp' : (r.at_ t').net.pool.work w false ≠ none := by
        intro h0
        apply hp
        revert h0
        show (r.at_ t').net.pool.work w false = none → (r.at_ t').net.pool.work w p = none
        unfold Pool.work
        split <;> try exact id
        next j hj => exact absurd hj (hn t' h1 j)
      simp only [Life.step, NAct.ofLoop, Bool.false_eq_true, and_false, if_false, Net.step]
      split
      · next j hj => exact absurd hj (hn t' h1 j)
      · intro h0
        exact hp' (by simpa [Pool.step] using h0))
    have h3 := r.next t'
    rw [h2] at h3
    rcases Life.step_cases h3 with ⟨b, hb, h4, -, -⟩ | ⟨e, p, hb, -⟩ | ⟨p, hb, -⟩
    · cases hb
      simp only [Net.step] at h4
      split at h4
      · cases h4
      · simp only [Option.map_eq_some_iff] at h4
        obtain ⟨p, h4, h5⟩ := h4
        obtain ⟨b, h6⟩ := r.poolRun_act (t := t') (w := w) (by rw [← h5]; exact work_changes h4)
        exact ⟨t' + 1, by omega, b, h6⟩
    · cases hb
    · cases hb

theorem Life.Run.ending (r : Life.Run prof rt n os s₀) {t : Nat} {e : IoError} (he : (r.at_ t).stage = .ending e) (d : Nat) : (r.at_ (t + d)).stage = .ending e := by
  induction d with
  | zero => exact he
  | succ d ih =>
    have hn := r.next (t + d)
    cases ha : r.act (t + d) with
    | none => rw [ha] at hn; dsimp only at hn; rw [show t + (d + 1) = t + d + 1 from rfl, hn]; exact ih
    | some a => rw [ha] at hn; exact (Life.step_ending hn ih).1

/-- When the event loop ends, the owner of the pool begins to drop it. -/
theorem Life.Run.began (r : Life.Run prof rt n os s₀) {t : Nat} (hs : (r.at_ t).stage ≠ .serving) : ∃ t₀ ≤ t, ∃ k, (r.at_ t₀).net.pool.owner = .sending k := by
  induction t with
  | zero =>
    obtain ⟨-, s, h1, ⟨-, h2⟩ | ⟨e, p, -, h2, h3⟩⟩ := Life.start_cases r.start
    · exact absurd (by rw [h2]) hs
    · exact ⟨0, Nat.le_refl _, _, by rw [h3, (drop_only h2).2.2]⟩
  | succ t ih =>
    by_cases h0 : (r.at_ t).stage = .serving
    · have hn := r.next t
      cases ha : r.act t with
      | none => rw [ha] at hn; dsimp only at hn; rw [hn] at hs; exact absurd h0 hs
      | some a =>
        rw [ha] at hn
        rcases Life.step_cases hn with ⟨b, -, -, h2, -⟩ | ⟨e, p, -, -, -, h2, h3⟩ | ⟨p, -, h2, -⟩
        · rw [h2] at hs; exact absurd h0 hs
        · exact ⟨t + 1, Nat.le_refl _, _, by rw [h3, (drop_only h2).2.2]⟩
        · exact absurd h0 h2
    · obtain ⟨t₀, h1, h2⟩ := ih h0
      exact ⟨t₀, by omega, h2⟩

theorem own_owner {p p' : Pool} (h : p.own = some p') : p'.owner ≠ p.owner := by
  unfold Pool.own at h
  split at h
  · next ho => cases h; rw [ho]; simp
  · next k ho =>
    split at h <;> cases h
    · rw [ho]; simp
    · rw [ho]; simp
  · next ho =>
    split at h
    · cases h; rw [ho]; simp
    · cases h; rw [ho]; simp
    · split at h
      · cases h
      · cases h; rw [ho]; simp
  · cases h

/-- While it serves, the pool is used. -/
theorem Life.Reach.owner_serving {l : Life σ} (h : Life.Reach prof rt n os s₀ l) (hs : l.stage = .serving) : l.net.pool.owner = .using ∨ l.net.pool.owner = .failed := by
  induction h with
  | start h =>
    obtain ⟨-, s, h1, ⟨-, rfl⟩ | ⟨e, p, -, h2, rfl⟩⟩ := Life.start_cases h
    · unfold Net.new at h1
      simp only [Option.map_eq_some_iff] at h1
      obtain ⟨p, h1, rfl⟩ := h1
      unfold Pool.new at h1
      split at h1 <;> cases h1
      exact .inl rfl
    · cases hs
  | @step l l' a h0 hst ih =>
    rcases Life.step_cases hst with ⟨b, rfl, h1, h2, h3⟩ | ⟨e, p, -, -, -, h1, rfl⟩ | ⟨p, -, h1, h2, rfl⟩
    · have ih := ih (by rw [← h2]; exact hs)
      rcases (step_nstep h1).pool with h | h | ⟨w, b, h⟩
      · rw [h]; exact ih
      · rcases pool_execute h with ⟨h, -⟩ | ⟨-, -, h⟩
        · exact .inl h
        · rw [h]; exact .inr rfl
      · rw [pool_owner h]; exact ih
    · cases hs
    · exact absurd hs h1

/-- C73: if the threads go on and no handler panics, then `listen_http` does return the error that `poll`, or something before it, has reported. -/
theorem C73_returns (r : Life.Run prof rt n os s₀) (hf : r.Fair) (hc : ∀ t, (r.at_ t).net.pool.crashed = []) {t : Nat} {e : IoError}
    (he : (r.at_ t).stage = .ending e) : ∃ t' ≥ t, (r.at_ t').outcome = some (.returned e) := by
  have hcr : ∀ t, (r.poolRun.at_ t).crashed = [] := by
    intro t
    cases t with
    | zero => rfl
    | succ t => exact hc t
  have hstage : ∀ t' ≥ t, (r.at_ t').stage = .ending e := fun t' ht => by
    obtain ⟨d, rfl⟩ := Nat.exists_eq_add_of_le ht
    exact r.ending he d
  have hown : r.poolRun.OwnerFair := by
    intro u hu
    have hst : ∀ t' ≥ u, (r.at_ t').stage ≠ .serving := fun t' ht hs => by
      have h1 := hu (t' + 1) (by omega)
      apply h1
      show (r.at_ t').net.pool.own = none
      unfold Pool.own
      rcases (r.reach t').owner_serving hs with h | h <;> rw [h]
    obtain ⟨t', h1, h2⟩ := hf.owner u (fun t' ht => by
      have h1 : (r.at_ t').net.pool.own ≠ none := hu (t' + 1) (by omega)
      simp only [Life.step, if_neg (hst t' ht)]
      simpa using h1)
    refine ⟨t' + 1, by omega, ?_⟩
    have h3 := r.next t'
    rw [h2] at h3
    rcases Life.step_cases h3 with ⟨b, hb, -⟩ | ⟨e, p, hb, -⟩ | ⟨p, -, -, h4, h5⟩
    · cases hb
    · cases hb
    have h6 : (r.at_ (t' + 1)).net.pool = p := by rw [h5]
    have hne : p.owner ≠ (r.at_ t').net.pool.owner := own_owner h4
    have hn := r.poolRun.next (t' + 1)
    have hx : r.poolRun.at_ (t' + 1) = (r.at_ t').net.pool := rfl
    have hy : r.poolRun.at_ (t' + 1 + 1) = p := h6
    cases ha : r.poolRun.act (t' + 1) with
    | none => rw [ha, hx, hy] at hn; dsimp only at hn; exact absurd (by rw [hn]) hne
    | some a =>
      rw [ha, hx, hy] at hn
      dsimp only at hn
      cases a with
      | own => rfl
      | work w b => exact absurd (pool_owner hn) hne
      | execute =>
        exfalso
        simp only [Pool.step] at hn
        split at hn
        · next ho => unfold Pool.own at h4; rw [ho] at h4; cases h4
        · cases hn
      | drop =>
        exfalso
        unfold Pool.own at h4; rw [(drop_only hn).2.1] at h4; cases h4
  have hdrop : ∃ t' ≥ t + 1, (r.poolRun.at_ t').owner = .dropped := by
    obtain ⟨t₀, h0, h1⟩ := r.began (by rw [he]; simp)
    obtain ⟨t', h2, h3⟩ := C41_returns r.poolRun (r.pool_fair hf) hown hcr (t := t₀ + 1) (.inl h1)
    refine ⟨t' + (t + 1), by omega, ?_⟩
    refine r.poolRun.forever (P := fun s => s.owner = .dropped) ?_ h3 _ (by omega)
    intro t a h hs
    rcases Verif.step_cases hs with ⟨k, p, -, hs⟩ | hs
    · generalize r.poolRun.at_ (t + 1) = s' at hs
      cases hs <;> simpa using h
    · generalize r.poolRun.at_ (t + 1) = s' at hs
      cases hs <;> simp_all
  obtain ⟨t', h1, h2⟩ := hdrop
  obtain ⟨u, rfl⟩ : ∃ u, t' = u + 1 := ⟨t' - 1, by omega⟩
  refine ⟨u, by omega, ?_⟩
  unfold Life.outcome
  rw [hstage u (by omega), show (r.at_ u).net.pool.owner = .dropped from h2]

/-! ## Witnesses -/

/-- A number of steps. -/
def Life.runActs (prof : Profile) (rt : Router σ) (l : Life σ) : List LAct → Option (Life σ)
  | [] => some l
  | a :: as => (l.step prof rt a).bind fun l => Life.runActs prof rt l as

theorem Life.runActs_append (l : Life σ) (as bs : List LAct) :
    l.runActs prof rt (as ++ bs) = (l.runActs prof rt as).bind fun l => l.runActs prof rt bs := by
  induction as generalizing l with
  | nil => rfl
  | cons a as ih =>
    simp only [List.cons_append, Life.runActs]
    cases l.step prof rt a with
    | none => rfl
    | some l' => exact ih l'

theorem Life.runActs_reach {as : List LAct} {l l' : Life σ} (hl : Life.Reach prof rt n os s₀ l) (h : l.runActs prof rt as = some l') :
    Life.Reach prof rt n os s₀ l' := by
  induction as generalizing l with
  | nil => cases h; exact hl
  | cons a as ih =>
    obtain ⟨l2, h3, h4⟩ := Option.bind_eq_some_iff.1 h
    exact ih (hl.step h3) h4

/-- The state after a number of steps from the beginning. -/
def Life.after (prof : Profile) (rt : Router σ) (n : Nat) (os : StartError) (s₀ : σ) (as : List LAct) : Option (Life σ) :=
  (Life.start true n os s₀).bind fun l => l.runActs prof rt as

theorem Life.reach_of {as : List LAct} {l : Life σ} (h : Life.after prof rt n os s₀ as = some l) : Life.Reach prof rt n os s₀ l := by
  obtain ⟨l1, h1, h2⟩ := Option.bind_eq_some_iff.1 h
  exact Life.runActs_reach (.start h1) h2

/-- A run that stops. -/
def Life.Run.ofList {l : Life σ} (as : List LAct) (hn : Life.start true n os s₀ = some l) (h : (l.runActs prof rt as).isSome = true) : Life.Run prof rt n os s₀ where
  at_ t := (l.runActs prof rt (as.take t)).getD l
  act t := as[t]?
  start := by simp [hn, Life.runActs]
  next t := by
    cases ha : as[t]? with
    | none =>
      have := List.getElem?_eq_none_iff.1 ha
      simp only
      rw [List.take_of_length_le this, List.take_of_length_le (by omega)]
    | some a =>
      have h1 : as.take (t + 1) = as.take t ++ [a] := by
        rw [List.take_add_one, ha]; rfl
      have h2 : (l.runActs prof rt (as.take (t + 1))).isSome = true := by
        obtain ⟨l', h'⟩ := Option.isSome_iff_exists.1 h
        rw [← List.take_append_drop (t + 1) as, Life.runActs_append] at h'
        obtain ⟨l'', h3, -⟩ := Option.bind_eq_some_iff.1 h'
        rw [h3]; rfl
      obtain ⟨l2, h3⟩ := Option.isSome_iff_exists.1 h2
      simp only [h3, Option.getD_some]
      rw [h1, Life.runActs_append] at h3
      obtain ⟨l1, h4, h5⟩ := Option.bind_eq_some_iff.1 h3
      rw [h4]
      simp only [Life.runActs, Option.bind_eq_some_iff] at h5
      obtain ⟨l3, h6, h7⟩ := h5
      cases h7
      exact h6

/-- What a worker that has got a handler does with a request that has arrived. -/
def serveOne : List LAct := [.net (.work 0), .net (.work 0), .net (.work 0), .net (.work 0), .net (.lock 0 [.accept 100]), .net (.go 0), .net (.go 0), .net (.go 0),
  .net (.go 0), .net (.go 0), .net (.go 0)]

/-- The pool of one worker is dropped. -/
def shutDown : List LAct := [.own, .own, .net (.work 0), .net (.work 0), .net (.work 0), .net (.work 0), .own, .own]

/-- A client connects and sends a request. -/
def connects (k : Nat) : List LAct := [.net (.accept (fun n => n) (fun c n => c + n) (by omega) []), .net (.arrive k (.data aRequest.1))]

/-- C73 is false: a signal that comes while the event loop waits (`poll` then reports an error and does not retry) ends the server, whatever it is doing: nothing
is accepted any more, and `listen_http` goes on to return. In particular a client whose request has arrived gets no answer but a closed connection. -/
theorem C73_interrupted_false :
    (∀ {l : Life σ}, Life.Reach prof rt n os s₀ l → l.stage = .serving → l.net.batch = [] → l.net.pool.owner = .using →
      ∃ l', l.step prof rt (.pollFails .interrupted) = some l' ∧ ∀ l'', Life.Steps prof rt l' l'' → l''.stage = .ending .interrupted ∧ l''.net.jobs = l.net.jobs) ∧
    ∃ l : Life Unit, Life.Reach prof ([] : Router Unit) 1 none () l ∧ l.outcome = some (.returned .interrupted) ∧ l.net.asks = [] ∧ ¬ l.Held 0 ∧
      ∃ c conn, l.net.conns[0]? = some c ∧ c.arrived = [.data aRequest.1] ∧ c.slot = .live conn ∧ conn.writer.total = [] := by
  constructor
  · intro l _ h1 h2 h3
    refine ⟨⟨{ Life.dropTable l.net with pool := { l.net.pool with owner := .sending l.net.pool.workers.length } }, .ending .interrupted⟩, ?_, ?_⟩
    · simp [Life.step, h1, h2, Life.dropPool, Life.dropTable, Pool.step, h3]
    · intro l'' hs
      obtain ⟨h4, h5, -⟩ := C73_no_return hs rfl
      exact ⟨h4, h5⟩
  · have hf : (Life.after prof ([] : Router Unit) 1 none () (connects 0 ++ [.pollFails .interrupted] ++ shutDown)).any (fun l =>
        l.outcome == some (.returned .interrupted) && l.net.asks.isEmpty && l.net.conns[0]?.any fun c => c.arrived == [.data aRequest.1] &&
          Net.isLive c.slot && c.slot.conn.writer.total == []) = true := by
      rcases prof with ⟨_ | _⟩ <;> decide +kernel
    cases hl : Life.after prof ([] : Router Unit) 1 none () (connects 0 ++ [.pollFails .interrupted] ++ shutDown) with
    | none => rw [hl] at hf; cases hf
    | some l =>
      rw [hl] at hf
      simp only [Option.any_some, Bool.and_eq_true, beq_iff_eq, List.isEmpty_iff] at hf
      obtain ⟨⟨h1, h2⟩, h3⟩ := hf
      have hr := Life.reach_of hl
      refine ⟨l, hr, h1, h2, (C73_finished hr h1).2.2.1 0, ?_⟩
      cases hc : l.net.conns[0]? with
      | none => rw [hc] at h3; cases h3
      | some c =>
        rw [hc] at h3
        simp only [Option.any_some, Bool.and_eq_true, beq_iff_eq] at h3
        cases hs : c.slot with
        | live conn => exact ⟨c, conn, rfl, h3.1.1, hs, by have := h3.2; rw [hs] at this; exact this⟩
        | gone _ => rw [hs] at h3; simp [Net.isLive] at h3
        | poisoned _ => rw [hs] at h3; simp [Net.isLive] at h3

/-- Two clients; the request of the first makes a listener panic, the handler of the second still runs when `poll` fails. -/
def oneCrashes : List LAct := connects 0 ++ [.net (.poll [0]), .net (.dispatch false)] ++ serveOne.take 8 ++ connects 1 ++
  [.net (.poll [1]), .net (.dispatch false), .net (.work 1), .net (.work 1), .net (.work 1), .net (.work 1), .pollFails .interrupted, .own, .own, .own, .own]

/-- The end of a server on which a handler has panicked: `listen_http` panics while another handler still runs. -/
theorem C73_panics_false : ∃ l : Life Unit, Life.Reach prof panicking 2 none () l ∧ l.outcome = some .panicked ∧ l.net.pool.workers = [.crashed, .running 1] := by
  have hf : (Life.after prof panicking 2 none () oneCrashes).any (fun l => l.outcome == some .panicked && l.net.pool.workers == [.crashed, .running 1]) = true := by
    rcases prof with ⟨_ | _⟩ <;> decide +kernel
  cases hl : Life.after prof panicking 2 none () oneCrashes with
  | none => rw [hl] at hf; cases hf
  | some l =>
    rw [hl] at hf
    simp only [Option.any_some, Bool.and_eq_true, beq_iff_eq] at hf
    exact ⟨l, Life.reach_of hl, hf.1, hf.2⟩

/-- A request has arrived and a handler was submitted for it when `poll` fails. -/
def lastRequest : List LAct := connects 0 ++ [.net (.poll [0]), .net (.dispatch false), .pollFails .interrupted] ++ serveOne ++ shutDown

theorem lastRequest_facts : (Life.after prof ([] : Router Unit) 1 none () lastRequest).any (fun l => l.outcome == some (.returned .interrupted) &&
    l.net.jobs == [(0, 1)] && l.net.pool.workers == [.exited] && l.net.pool.owner == .dropped && l.net.pool.crashed == [] && l.net.conns[0]?.any fun c => c.arrived == [.data aRequest.1] && c.wakes == [[.accept 100]] &&
      Net.isLive c.slot && c.slot.conn.writer.sock.sent == b!"HTTP/1.1 404 Not Found\r\n\r\n") = true := by
  rcases prof with ⟨_ | _⟩ <;> decide +kernel

/-- The conditions of `C73_finished` and `C73_answered_partial` can be met. -/
example : ∃ l : Life Unit, Life.Reach prof ([] : Router Unit) 1 none () l ∧ l.outcome = some (.returned .interrupted) ∧
    ∃ c conn, l.net.jobs[0]? = some (0, c.arrived.length) ∧ l.net.conns[0]? = some c ∧ c.slot = .live conn ∧ c.arrived = [.data aRequest.1] ∧
      conn.writer.sock.sent = b!"HTTP/1.1 404 Not Found\r\n\r\n" := by
  have hf := lastRequest_facts (prof := prof)
  cases hl : Life.after prof ([] : Router Unit) 1 none () lastRequest with
  | none => rw [hl] at hf; cases hf
  | some l =>
    rw [hl] at hf
    simp only [Option.any_some, Bool.and_eq_true, beq_iff_eq] at hf
    obtain ⟨⟨⟨⟨⟨h1, h2⟩, -⟩, -⟩, -⟩, h3⟩ := hf
    refine ⟨l, Life.reach_of hl, h1, ?_⟩
    cases hc : l.net.conns[0]? with
    | none => rw [hc] at h3; cases h3
    | some c =>
      rw [hc] at h3
      simp only [Option.any_some, Bool.and_eq_true, beq_iff_eq] at h3
      cases hs : c.slot with
      | live conn => exact ⟨c, conn, by rw [h2, h3.1.1.1]; rfl, rfl, hs, h3.1.1.1, by have := h3.2; rw [hs] at this; exact this⟩
      | gone _ => rw [hs] at h3; simp [Net.isLive] at h3
      | poisoned _ => rw [hs] at h3; simp [Net.isLive] at h3

theorem Life.Run.ofList_end {l : Life σ} {as : List LAct} {hn : Life.start true n os s₀ = some l} {h : (l.runActs prof rt as).isSome = true} {p : Life σ → Bool}
    (hend : (l.runActs prof rt as).all p) (t : Nat) (ht : as.length ≤ t) : p ((Life.Run.ofList as hn h).at_ t) = true := by
  obtain ⟨l', hl'⟩ := Option.isSome_iff_exists.1 h
  show p ((l.runActs prof rt (as.take t)).getD l) = true
  rw [List.take_of_length_le ht, hl']
  rw [hl'] at hend
  exact hend

/-- The conditions of `C73_returns` can be met. -/
example : ∃ r : Life.Run prof ([] : Router Unit) 1 none (), r.Fair ∧ (∀ t, (r.at_ t).net.pool.crashed = []) ∧ ∃ t, (r.at_ t).stage = .ending .interrupted := by
  have hok : ((Life.start true 1 none ()).get rfl |>.runActs prof ([] : Router Unit) lastRequest).isSome = true := by
    rcases prof with ⟨_ | _⟩ <;> decide +kernel
  have hend := fun t ht => Life.Run.ofList_end (hn := (rfl : Life.start true 1 none () = some ((Life.start true 1 none ()).get rfl))) (h := hok)
    (p := fun l => l.net.pool.workers == [.exited] && l.net.pool.owner == .dropped && l.stage == .ending .interrupted && l.net.pool.crashed == [])
    (by rcases prof with ⟨_ | _⟩ <;> decide +kernel) t ht
  simp only [Bool.and_eq_true, beq_iff_eq] at hend
  refine ⟨Life.Run.ofList lastRequest rfl hok, ⟨?_, ?_, ?_⟩, ?_, lastRequest.length, (hend _ (Nat.le_refl _)).1.2⟩
  · intro t w hc
    exfalso
    obtain ⟨⟨⟨h1, h2⟩, h3⟩, -⟩ := hend (t + lastRequest.length) (by omega)
    refine hc (t + lastRequest.length) (by omega) ?_
    simp only [Life.step, Net.step, Pool.step, Pool.work, h1]
    cases w with
    | zero => simp [NAct.ofLoop]
    | succ w => simp [NAct.ofLoop]
  · intro t w j hr
    obtain ⟨⟨⟨h1, h2⟩, h3⟩, -⟩ := hend (t + lastRequest.length) (by omega)
    refine ⟨t + lastRequest.length, by omega, ?_⟩
    rw [h1]
    cases w <;> simp
  · intro t hc
    exfalso
    obtain ⟨⟨⟨h1, h2⟩, h3⟩, -⟩ := hend (t + lastRequest.length) (by omega)
    refine hc (t + lastRequest.length) (by omega) ?_
    simp [Life.step, h3, Pool.own, h2]
  · intro t
    rcases Nat.lt_or_ge t lastRequest.length with ht | ht
    · have hall : ∀ t < lastRequest.length, (((Life.start true 1 none ()).get rfl).runActs prof ([] : Router Unit) (lastRequest.take t)).all
          fun l => l.net.pool.crashed == [] := by
        rcases prof with ⟨_ | _⟩ <;> decide +kernel
      have h1 := hall t ht
      show ((((Life.start true 1 none ()).get rfl).runActs prof ([] : Router Unit) (lastRequest.take t)).getD _).net.pool.crashed = []
      cases hx : ((Life.start true 1 none ()).get rfl).runActs prof ([] : Router Unit) (lastRequest.take t) with
      | none => rfl
      | some l => rw [hx] at h1; simpa using h1
    · exact (hend t ht).2

end Verif
