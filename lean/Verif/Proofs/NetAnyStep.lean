import Verif.Proofs.NetAny
import Verif.Proofs.NetRun
import Verif.Props.NetAny
import Verif.Spec.NetAnyRun

/-! One step of the whole server over streams of any kind. -/

namespace Verif

variable {T σ : Type} {prof : Profile} {rt : Router σ}

/-- What a step does to all but the streams. After a handler has looked at the stream of a connection that is as `P` says, and given it back, it is as `E` says. -/
inductive AStep (P E : T → Prop) (s : ANet T σ) : ANet T σ → Prop
  | accept {x : AConn T} : AStep P E s { s with conns := s.conns ++ [x] }
  | conn {k : Nat} {c c' : AConn T} : s.conns[k]? = some c → c'.slot.isLive = c.slot.isLive → c'.inTable = c.inTable → c'.lock = c.lock → AStep P E s (s.setConn k c')
  | poll {ks : List Nat} : s.batch = [] → AStep P E s { s with batch := ks, conns := s.conns.mapIdx fun k c => if k ∈ ks then { c with edge := false } else c }
  | skip {k : Nat} {b : List Nat} {c : AConn T} : s.conns[k]? = some c → c.inTable = false → (s.batch = b ∨ s.batch = k :: b) → AStep P E s { s with batch := b }
  | remove {k : Nat} {b : List Nat} {c : AConn T} : s.conns[k]? = some c → (s.batch = b ∨ s.batch = k :: b) →
      AStep P E s ({ s with batch := b }.setConn k { c with inTable := false })
  | execute {k : Nat} {b : List Nat} {c : AConn T} {pool : Pool} : s.conns[k]? = some c → c.inTable = true → (s.batch = b ∨ s.batch = k :: b) → s.pool.step .execute = some pool →
      pool.owner = .using → AStep P E s { s with batch := b, pool, jobs := s.jobs ++ [k] }
  | fail {b : List Nat} {pool : Pool} : s.pool.step .execute = some pool → pool.owner ≠ .using → AStep P E s { s with batch := b, pool }
  | work {w : Nat} {pool : Pool} : (∀ j, s.pool.workers[w]? ≠ some (.running j)) → s.pool.step (.work w false) = some pool → AStep P E s { s.setPhase w .enter with pool }
  | enterPoisoned {w k : Nat} {c : AConn T} {pool : Pool} : s.handled w = some k → s.conns[k]? = some c → c.slot.isLive = false → s.pool.step (.work w true) = some pool → AStep P E s { s with pool }
  | enter {w k : Nat} {c : AConn T} {p : Phase} : s.handled w = some k → s.conns[k]? = some c → (p = .leaving → c.slot.isLive = false) → c.lock = none →
      AStep P E s ((s.setConn k { c with lock := some w }).setPhase w p)
  | move {w k : Nat} {c c' : AConn T} {p : Phase} {asks : List (Nat × Request × σ)} {state : σ} : s.handled w = some k → s.conns[k]? = some c → c.slot.isLive = true → c'.inTable = c.inTable → c'.lock = c.lock → s.asks <+: asks →
      (P c.raw → p = .leaving → c'.slot.isLive = false ∨ E c'.raw) → AStep P E s { (s.setConn k c').setPhase w p with asks, state }
  | crash {w k : Nat} {c c' : AConn T} {pool : Pool} {asks : List (Nat × Request × σ)} {state : σ} : s.handled w = some k → s.conns[k]? = some c → c'.slot.isLive = false → c'.inTable = c.inTable → c'.lock = none → s.asks <+: asks →
      s.pool.step (.work w true) = some pool → AStep P E s { s.setConn k c' with pool, asks, state }
  | leave {w k : Nat} {c : AConn T} {pool : Pool} : s.handled w = some k → s.conns[k]? = some c → s.phase w = .leaving → s.pool.step (.work w false) = some pool →
      AStep P E s { (s.setConn k { c with lock := none }).setPhase w .enter with pool }

section

variable {P E : T → Prop}

theorem onEvent_astep {s t : ANet T σ} {k : Nat} {b : List Nat} {closed : Bool} (hb : s.batch = b ∨ s.batch = k :: b) (h : ({ s with batch := b } : ANet T σ).onEvent k closed = some t) : AStep P E s t := by
  unfold ANet.onEvent at h
  split at h
  · cases h
  · next c hc =>
    split at h
    · next hi =>
      cases h
      exact .skip hc (by simpa using hi) hb
    · next hi =>
      split at h
      · cases h
        exact .remove hc hb
      · split at h
        · cases h
        · next pool hp =>
          cases h
          by_cases ho : pool.owner = .using
          · simp only [if_pos ho]
            exact .execute hc (by simpa using hi) hb hp ho
          · simp only [if_neg ho]
            exact .fail hp ho

theorem changed_live (env : T → T) (l : Slot (Shared (ServerStack T)) Unit) : (ANet.changed env l).isLive = l.isLive := by cases l <;> rfl

end

section

variable [RawIO T] {P E : Traced T → Prop}

theorem step_astep (hP : RawKeeps P) (hE : ∀ (t t' : Traced T) n, P t → RawIO.read t n = (.error .wouldBlock, t') → E t') {s t : ANet (Traced T) σ} {a : AAct (Traced T)}
    (e : s.step prof rt a = some t) : AStep P E s t := by
  cases a with
  | accept offer grow growOk x => cases e; exact .accept
  | change k env =>
    simp only [ANet.step] at e
    split at e
    · cases e
    · next c hc => cases e; exact .conn hc (changed_live _ _) rfl rfl
  | notify k =>
    simp only [ANet.step] at e
    split at e
    · cases e
    · next c hc => cases e; exact .conn hc rfl rfl rfl
  | poll ks =>
    simp only [ANet.step] at e
    split at e
    · next h => cases e; exact .poll h.1
    · cases e
  | dispatch closed =>
    simp only [ANet.step] at e
    split at e
    · cases e
    · next k ks hb => exact onEvent_astep (.inr hb) e
  | stray k closed => exact onEvent_astep (s := s) (.inl rfl) e
  | work w =>
    simp only [ANet.step] at e
    split at e
    · cases e
    · next hn =>
      obtain ⟨pool, hp, rfl⟩ := Option.map_eq_some_iff.1 e
      exact .work (fun j hj => hn j hj) hp
  | lock w =>
    simp only [ANet.step] at e
    split at e
    · cases e
    · next k hw =>
      split at e
      · cases e
      · next c hc =>
        split at e
        · next hcond =>
          unfold ANet.enter at e
          split at e
          · next hs =>
            obtain ⟨pool, hp, rfl⟩ := Option.map_eq_some_iff.1 e
            exact .enterPoisoned hw hc (by rw [hs]; rfl) hp
          · next hs =>
            cases e
            exact .enter hw hc (fun _ => by rw [hs]; rfl) hcond.2
          · cases e
            exact .enter hw hc nofun hcond.2
        · cases e
  | go w rounds =>
    simp only [ANet.step] at e
    split at e
    · cases e
    · next k hw =>
      split at e
      · cases e
      · next c hc =>
        split at e
        · have hgone : ∀ (x y : SharedConn (ServerStack (Traced T))) (p : Phase), c.slot = .live y → AStep P E s ((s.setConn k { c with slot := .gone x }).setPhase w p) := fun x y p h =>
            AStep.move hw hc (by rw [h]; rfl) rfl rfl (List.prefix_refl _) fun _ _ => .inl rfl
          have hlive : ∀ (x y : SharedConn (ServerStack (Traced T))) (p : Phase), c.slot = .live y → (P y.reader.stream.val.inner.val.inner → p = .leaving → E x.reader.stream.val.inner.val.inner) →
              AStep P E s ((s.setConn k { c with slot := .live x }).setPhase w p) := fun x y p h hx =>
            AStep.move hw hc (by rw [h]; rfl) rfl rfl (List.prefix_refl _) fun h1 h2 => .inr (hx (by rw [AConn.raw, h] at h1; exact h1) h2)
          have hcrash : ∀ (s₁ : ANet (Traced T) σ) (x : SharedConn (ServerStack (Traced T))) asks state, s.asks <+: asks → s₁ = { s with asks, state } → ∀ t, s₁.crash w k c x = some t → AStep P E s t := by
            rintro _ x asks state hpre rfl t ht
            obtain ⟨pool, hp, rfl⟩ := Option.map_eq_some_iff.1 ht
            exact AStep.crash (c' := { c with slot := .poisoned (ANet.droppedConn x), lock := none }) hw hc rfl rfl rfl hpre hp
          unfold ANet.advance at e
          split at e
          · next hs =>
            split at e
            · rw [← (unlessHung_some e).2]
              exact hgone _ _ _ hs
            · rw [← (unlessHung_some e).2]
              exact hlive _ _ _ hs nofun
          · next hs =>
            split at e
            · cases e
              exact hlive _ _ _ hs nofun
            · next hr =>
              cases e
              exact hlive _ _ _ hs fun hp _ => (readRequest_rest hP hE (by exact hp) hr).2
            · cases e
              exact hgone _ _ _ hs
            · split at e
              · cases e
              · rw [← (unlessHung_some e).2]
                exact hgone _ _ _ hs
            · exact hcrash s _ s.asks s.state (List.prefix_refl _) rfl _ e
            · cases e
          · next hs =>
            dsimp only at e
            split at e
            · exact hcrash _ _ _ _ (List.prefix_append _ _) rfl _ e
            · cases e
              exact AStep.move (c' := c) hw hc (by rw [hs]; rfl) rfl rfl (List.prefix_append _ _) nofun
          · next hs =>
            split at e
            · split at e
              · rw [← (unlessHung_some e).2]
                exact hgone _ _ _ hs
              · rw [← (unlessHung_some e).2]
                exact hlive _ _ _ hs nofun
            · rw [← (unlessHung_some e).2]
              exact hgone _ _ _ hs
            · cases e
          · next hp =>
            obtain ⟨pool, h1, rfl⟩ := Option.map_eq_some_iff.1 e
            exact .leave hw hc hp h1
          · cases e
        · cases e

end

/-! ## What the steps do -/

section

variable {P E : T → Prop} {s t : ANet T σ}

theorem AStep.pool (h : AStep P E s t) : t.pool = s.pool ∨ s.pool.step .execute = some t.pool ∨ ∃ w b, s.pool.step (.work w b) = some t.pool := by
  cases h with
  | execute _ _ _ hp => exact .inr (.inl hp)
  | fail hp => exact .inr (.inl hp)
  | work _ hp => exact .inr (.inr ⟨_, _, hp⟩)
  | enterPoisoned _ _ _ hp => exact .inr (.inr ⟨_, _, hp⟩)
  | crash _ _ _ _ _ _ hp => exact .inr (.inr ⟨_, _, hp⟩)
  | leave _ _ _ hp => exact .inr (.inr ⟨_, _, hp⟩)
  | _ => exact .inl rfl

theorem AStep.jobs (h : AStep P E s t) {j k : Nat} (hj : s.jobs[j]? = some k) : t.jobs[j]? = some k := by
  cases h with
  | execute => dsimp only; rw [List.getElem?_append_left (List.getElem?_eq_some_iff.1 hj).1]; exact hj
  | _ => exact hj

/-- How a connection changes. -/
structure AConn.Goes (c c' : AConn T) : Prop where
  live : c'.slot.isLive = true → c.slot.isLive = true
  inTable : c'.inTable = true → c.inTable = true

theorem AStep.conns (h : AStep P E s t) {k : Nat} {c : AConn T} (hc : s.conns[k]? = some c) : ∃ c', t.conns[k]? = some c' ∧ c.Goes c' := by
  have set : ∀ {t : ANet T σ} {k' : Nat} {d d' : AConn T}, s.conns[k']? = some d → t.conns = (s.setConn k' d').conns → d.Goes d' → ∃ c', t.conns[k]? = some c' ∧ c.Goes c' := by
    intro t k' d d' hd he h1
    rw [he]
    simp only [ANet.setConn, List.getElem?_set]
    by_cases hk : k' = k
    · subst hk
      rw [hc] at hd; cases hd
      exact ⟨d', by simp [(List.getElem?_eq_some_iff.1 hc).1], h1⟩
    · exact ⟨c, by simp [hk, hc], id, id⟩
  cases h with
  | accept => exact ⟨c, by dsimp only; rw [List.getElem?_append_left (List.getElem?_eq_some_iff.1 hc).1]; exact hc, id, id⟩
  | conn hd h1 h2 => exact set hd rfl ⟨by rw [h1]; exact id, by rw [h2]; exact id⟩
  | poll =>
    simp only [List.getElem?_mapIdx, hc, Option.map_some, Option.some.injEq, exists_eq_left']
    split <;> exact ⟨id, id⟩
  | remove hd => exact set hd rfl ⟨id, nofun⟩
  | enter _ hd => exact set hd rfl ⟨id, id⟩
  | move _ hd h1 h2 => exact set hd rfl ⟨fun _ => h1, by rw [h2]; exact id⟩
  | crash _ hd h1 h2 => exact set hd rfl ⟨fun h => (by rw [h1] at h; cases h), by rw [h2]; exact id⟩
  | leave _ hd => exact set hd rfl ⟨id, id⟩
  | _ => exact ⟨c, hc, id, id⟩

theorem AStep.lock (h : AStep P E s t) {k w : Nat} {c c' : AConn T} (hc : s.conns[k]? = some c) (hl : c.lock = some w) (hc' : t.conns[k]? = some c') : c'.lock = some w ∨ c'.lock = none := by
  have set : ∀ {t : ANet T σ} {k' : Nat} {d d' : AConn T}, s.conns[k']? = some d → t.conns = (s.setConn k' d').conns → (d.lock = some w → d'.lock = some w ∨ d'.lock = none) →
      t.conns[k]? = some c' → c'.lock = some w ∨ c'.lock = none := by
    intro t k' d d' hd he h1 h2
    rw [he] at h2
    simp only [ANet.setConn, List.getElem?_set] at h2
    by_cases hk : k' = k
    · subst hk
      rw [hc] at hd; cases hd
      simp only [if_true, if_pos (List.getElem?_eq_some_iff.1 hc).1] at h2
      cases h2
      exact h1 hl
    · rw [if_neg hk, hc] at h2
      cases h2
      exact .inl hl
  cases h with
  | accept =>
    dsimp only at hc'
    rw [List.getElem?_append_left (List.getElem?_eq_some_iff.1 hc).1, hc] at hc'
    cases hc'
    exact .inl hl
  | conn hd _ _ h1 => exact set hd rfl (fun h => .inl (h1.trans h)) hc'
  | poll =>
    simp only [List.getElem?_mapIdx, hc, Option.map_some, Option.some.injEq] at hc'
    subst hc'
    split <;> exact .inl hl
  | @remove k' b d hd => exact set (d' := { d with inTable := false }) hd rfl (fun h => .inl h) hc'
  | enter _ hd _ h1 => exact set hd rfl (fun h => by rw [h1] at h; cases h) hc'
  | move _ hd _ _ h1 => exact set hd rfl (fun h => .inl (h1.trans h)) hc'
  | crash _ hd _ _ h1 => exact set hd rfl (fun _ => .inr h1) hc'
  | leave _ hd => exact set hd rfl (fun _ => .inr rfl) hc'
  | _ =>
    dsimp only at hc'
    first
    | (rw [hc] at hc'; cases hc'; exact .inl hl)
    | (simp only [ANet.setPhase] at hc'; rw [hc] at hc'; cases hc'; exact .inl hl)

theorem AStep.asks (h : AStep P E s t) : s.asks <+: t.asks := by
  cases h with
  | move _ _ _ _ _ h => exact h
  | crash _ _ _ _ _ h => exact h
  | _ => exact List.prefix_refl _

/-- What becomes of an event that was reported. -/
theorem AStep.batch (h : AStep P E s t) {k : Nat} (hk : k ∈ s.batch) :
    t.pool.owner ≠ .using ∨ ¬ t.Open k ∨ (t.jobs = s.jobs ++ [k] ∧ s.pool.step .execute = some t.pool) ∨ k ∈ t.batch ∧ t.batch.length ≤ s.batch.length := by
  cases h with
  | poll hb => rw [hb] at hk; cases hk
  | @skip k' b d hd hi hb =>
    rcases hb with hb | hb
    · rw [hb] at hk ⊢; exact .inr (.inr (.inr ⟨hk, Nat.le_refl _⟩))
    · rw [hb] at hk ⊢
      rcases List.mem_cons.1 hk with rfl | hk
      · refine .inr (.inl ?_)
        rintro ⟨e, conn, h1, h2, -⟩
        dsimp only at h1
        rw [hd] at h1; cases h1
        rw [hi] at h2; cases h2
      · exact .inr (.inr (.inr ⟨hk, by simp⟩))
  | @remove k' b d hd hb =>
    rcases hb with hb | hb
    · rw [hb] at hk ⊢; exact .inr (.inr (.inr ⟨hk, Nat.le_refl _⟩))
    · rw [hb] at hk ⊢
      rcases List.mem_cons.1 hk with rfl | hk
      · refine .inr (.inl ?_)
        rintro ⟨e, conn, h1, h2, -⟩
        simp only [ANet.setConn, List.getElem?_set, if_true] at h1
        split at h1
        · cases h1; cases h2
        · cases h1
      · exact .inr (.inr (.inr ⟨hk, by simp [ANet.setConn]⟩))
  | @execute k' b d pool hd _ hb hp ho =>
    rcases hb with hb | hb
    · rw [hb] at hk ⊢; exact .inr (.inr (.inr ⟨hk, Nat.le_refl _⟩))
    · rw [hb] at hk ⊢
      rcases List.mem_cons.1 hk with rfl | hk
      · exact .inr (.inr (.inl ⟨rfl, hp⟩))
      · exact .inr (.inr (.inr ⟨hk, by simp⟩))
  | fail _ ho => exact .inl ho
  | _ => exact .inr (.inr (.inr ⟨hk, Nat.le_refl _⟩))

theorem work_begins {p p' : Pool} {v w j : Nat} {b : Bool} (h : p.step (.work v b) = some p') (h0 : p.workers[w]? ≠ some (.running j)) (h1 : p'.workers[w]? = some (.running j)) :
    v = w ∧ p.workers[w]? = some (.matching (.job j)) := by
  have hs := work_step (show p.work v b = some p' from h)
  by_cases hv : v = w
  · subst hv
    refine ⟨rfl, ?_⟩
    cases hs
    case begin hw =>
      have := (List.getElem?_eq_some_iff.1 hw).1
      simp only [List.getElem?_set, if_true, if_pos this, Option.some.injEq, Worker.running.injEq] at h1
      rw [hw, h1]
    all_goals
      rename_i hw
      have hw := ‹p.workers[v]? = some _›
      have := (List.getElem?_eq_some_iff.1 hw).1
      simp [List.getElem?_set, this] at h1
  · rw [work_other hs hv] at h1
    exact absurd h1 h0

theorem execute_workers {p p' : Pool} (h : p.step .execute = some p') : p'.workers = p.workers := by
  rcases pool_execute h with ⟨-, -, rfl⟩ | ⟨-, -, rfl⟩ <;> rfl

theorem ANet.handled_some {w k : Nat} (h : s.handled w = some k) : ∃ j : Nat, s.pool.workers[w]? = some (.running j) ∧ s.jobs[j]? = some k := by
  unfold ANet.handled at h
  split at h
  · next j hj => exact ⟨j, hj, h⟩
  · cases h

/-- A worker that begins a job is at the beginning of a handler. -/
theorem AStep.begins (h : AStep P E s t) {w j : Nat} (h0 : s.pool.workers[w]? ≠ some (.running j)) (h1 : t.pool.workers[w]? = some (.running j)) : t.phase w = .enter := by
  have no : ∀ {v k : Nat} {b : Bool} {pool : Pool}, s.handled v = some k → s.pool.step (.work v b) = some pool → pool.workers[w]? = some (.running j) → False := by
    intro v k b pool hv hp hw
    obtain ⟨rfl, h2⟩ := work_begins hp h0 hw
    obtain ⟨i, h3, -⟩ := ANet.handled_some hv
    rw [h2] at h3
    cases h3
  cases h with
  | execute _ _ _ hp =>
    rw [execute_workers hp] at h1
    exact absurd h1 h0
  | fail hp =>
    rw [execute_workers hp] at h1
    exact absurd h1 h0
  | work hn hp =>
    obtain ⟨rfl, -⟩ := work_begins hp h0 h1
    simp [ANet.setPhase]
  | enterPoisoned hw _ _ hp => exact (no hw hp h1).elim
  | crash hw _ _ _ _ _ hp => exact (no hw hp h1).elim
  | leave hw _ _ hp => exact (no hw hp h1).elim
  | _ => exact absurd h1 h0

/-- A handler comes to its end because the connection was closed, or because there is nothing to read. -/
theorem AStep.leaving (h : AStep P E s t) {w j k : Nat} (hj : s.jobs[j]? = some k) (h0 : s.pool.workers[w]? = some (.running j)) (h1 : t.pool.workers[w]? = some (.running j)) (hp : t.phase w = .leaving)
    (hk : ∀ c, s.conns[k]? = some c → P c.raw) : s.phase w = .leaving ∨ ∃ c, t.conns[k]? = some c ∧ (c.slot.isLive = false ∨ E c.raw) := by
  have hh : s.handled w = some k := by rw [ANet.handled, h0]; exact hj
  have ph : ∀ {v : Nat} {p : Phase}, (if w = v then p else s.phase w) = .leaving → s.phase w = .leaving ∨ w = v ∧ p = .leaving := by
    intro v p h
    split at h
    · next hv => exact .inr ⟨hv, h⟩
    · exact .inl h
  cases h with
  | work hn _ =>
    rcases ph hp with h2 | ⟨-, h2⟩
    · exact .inl h2
    · cases h2
  | enter hw hc h2 =>
    rcases ph hp with h3 | ⟨rfl, h3⟩
    · exact .inl h3
    · rw [hh] at hw
      cases hw
      exact .inr ⟨_, List.getElem?_set_self (List.getElem?_eq_some_iff.1 hc).1, .inl (h2 h3)⟩
  | move hw hc _ _ _ _ h2 =>
    rcases ph hp with h3 | ⟨rfl, h3⟩
    · exact .inl h3
    · rw [hh] at hw
      cases hw
      exact .inr ⟨_, List.getElem?_set_self (List.getElem?_eq_some_iff.1 hc).1, h2 (hk _ hc) h3⟩
  | leave =>
    rcases ph hp with h2 | ⟨-, h2⟩
    · exact .inl h2
    · cases h2
  | _ => exact .inl hp

/-- A handler ends where it comes to its end, or the connection is closed. -/
theorem AStep.ends (h : AStep P E s t) {w j k : Nat} (hj : s.jobs[j]? = some k) (h0 : s.pool.workers[w]? = some (.running j)) (h1 : t.pool.workers[w]? ≠ some (.running j)) :
    s.phase w = .leaving ∨ ∃ c, t.conns[k]? = some c ∧ c.slot.isLive = false := by
  have hh : s.handled w = some k := by rw [ANet.handled, h0]; exact hj
  have same : ∀ {v : Nat} {b : Bool} {pool : Pool}, s.pool.step (.work v b) = some pool → pool.workers[w]? ≠ some (.running j) → v = w := by
    intro v b pool hp hw
    have hs := work_step (show s.pool.work v b = some pool from hp)
    apply Classical.byContradiction
    intro hv
    exact hw (by rw [work_other hs hv]; exact h0)
  cases h with
  | execute _ _ _ hp =>
    rw [execute_workers hp] at h1
    exact absurd h0 h1
  | fail hp =>
    rw [execute_workers hp] at h1
    exact absurd h0 h1
  | work hn hp =>
    obtain rfl := same hp h1
    exact absurd h0 (hn j)
  | enterPoisoned hw hc hl hp =>
    obtain rfl := same hp h1
    rw [hh] at hw
    cases hw
    exact .inr ⟨_, hc, hl⟩
  | crash hw hc hl _ _ _ hp =>
    obtain rfl := same hp h1
    rw [hh] at hw
    cases hw
    exact .inr ⟨_, List.getElem?_set_self (List.getElem?_eq_some_iff.1 hc).1, hl⟩
  | leave hw hc hl hp =>
    obtain rfl := same hp h1
    exact .inl hl
  | _ => exact absurd h0 h1

end

end Verif
