import Verif.Proofs.NetAnyCloses

/-!
Connections that nothing holds any more.
-/

namespace Verif

variable {T σ : Type} {prof : Profile} {rt : Router σ} {n : Nat} {s₀ : σ}

theorem others_set {s : ANet T σ} {k : Nat} {c : AConn T} {x : Nat} (hx : x ≠ k) : (s.setConn k c).conns[x]? = s.conns[x]? := List.getElem?_set_ne (Ne.symm hx)

theorem others_hung {r : Shared (ServerStack T)} {s t u : ANet T σ} (h : ANet.unlessHung r s = some t) {x : Nat} (hs : s.conns[x]? = u.conns[x]?) : t.conns[x]? = u.conns[x]? := by
  unfold ANet.unlessHung at h
  split at h
  · cases h
  · cases h; exact hs

variable [RawIO T]

theorem others_crash {s t : ANet T σ} {w k : Nat} {c : AConn T} {conn : SharedConn (ServerStack T)} (h : s.crash w k c conn = some t) {x : Nat} (hx : x ≠ k) : t.conns[x]? = s.conns[x]? := by
  obtain ⟨p, -, rfl⟩ := Option.map_eq_some_iff.1 h
  exact others_set hx

/-- A handler changes its own connection only. -/
theorem others_advance {s t : ANet T σ} {w k rounds : Nat} {c : AConn T} (h : ANet.advance prof rt s w k c rounds = some t) {x : Nat} (hx : x ≠ k) : t.conns[x]? = s.conns[x]? := by
  have hs := fun (c : AConn T) => others_set (s := s) (c := c) hx
  unfold ANet.advance at h
  split at h
  · split at h <;> exact others_hung h (hs _)
  · split at h
    · cases h; exact hs _
    · cases h; exact hs _
    · cases h; exact hs _
    · split at h
      · cases h
      · exact others_hung h (hs _)
    · exact others_crash h hx
    · cases h
  · dsimp only at h
    split at h
    · exact others_crash h hx
    · cases h; exact hs _
  · split at h
    · split at h <;> exact others_hung h (hs _)
    · exact others_hung h (hs _)
    · cases h
  · obtain ⟨p, -, rfl⟩ := Option.map_eq_some_iff.1 h
    exact hs _
  · cases h

theorem ended_not_running {p : Pool} (hi : p.Inv n) {j : Nat} (hj : j ∈ p.finished ∨ j ∈ p.crashed) (w : Nat) : p.workers[w]? ≠ some (.running j) := by
  intro hw
  have h1 := hi.counts j
  have h2 := hi.running j
  have h3 := sumW_le (f := Worker.run j) hw
  have h4 : Worker.run j (.running j) = 1 := by simp [Worker.run]
  have h5 : 0 < p.finished.count j + p.crashed.count j := by
    rcases hj with hj | hj
    · have := List.count_pos_iff.2 hj; omega
    · have := List.count_pos_iff.2 hj; omega
  omega

theorem unheld_unused (hT : RawIO.Honest T) (hR : RawIO.ReadsWithin T) {as : List (AAct T)} {s : ANet (Traced T) σ} (h : ANet.after prof rt n s₀ as = some s) {k : Nat} (hu : s.Unheld k) (w : Nat) :
    s.handled w ≠ some k := by
  intro hw
  obtain ⟨c, -, -, h1⟩ := hu
  obtain ⟨j, h2, h3⟩ := ANet.handled_some hw
  obtain ⟨s', g1, g2⟩ := C78_any hT hR h
  exact ended_not_running (g2.pool ▸ g1.inv.base.pool.inv) (h1 j h3) w h2

theorem unheld_step {s t : ANet (Traced T) σ} {a : AAct (Traced T)} (e : s.step prof rt a = some t) {k : Nat} (hu : s.Unheld k) : t.Unheld k := by
  have h := step_astep (P := fun _ => True) (E := fun _ => True) keeps_true (fun _ _ _ _ _ => trivial) e
  obtain ⟨c, h1, h2, h3⟩ := hu
  obtain ⟨c', h4, h5⟩ := h.conns h1
  refine ⟨c', h4, ?_, fun j hj => ?_⟩
  · cases hb : c'.inTable with
    | false => rfl
    | true => rw [h5.inTable hb] at h2; cases h2
  · have ih := h3 j (h.removed h1 h2 hj)
    have key : ∀ {a : Act}, s.pool.step a = some t.pool → j ∈ t.pool.finished ∨ j ∈ t.pool.crashed :=
      fun hp => ih.imp (fun h => (step_finished hp).subset h) (fun h => (step_crashed hp).subset h)
    rcases h.pool with h1 | h1 | ⟨w, b, h1⟩
    · rw [h1]; exact ih
    · exact key h1
    · exact key h1

omit [RawIO T] in
theorem slot_event {s t : ANet T σ} {k x : Nat} {closed : Bool} (e : s.onEvent k closed = some t) : t.conns[x]?.map AConn.slot = s.conns[x]?.map AConn.slot := by
  unfold ANet.onEvent at e
  split at e
  · cases e
  · next c hc =>
    split at e
    · cases e; rfl
    · split at e
      · cases e
        simp only [ANet.setConn, List.getElem?_set]
        split
        · next h => subst h; rw [if_pos (List.getElem?_eq_some_iff.1 hc).1, hc]; rfl
        · rfl
      · split at e <;> cases e
        rfl

/-- A step leaves a connection that no worker handles as it is, but for its stream, when that is what the step is about. -/
theorem slot_step {s t : ANet T σ} {a : AAct T} (e : s.step prof rt a = some t) {k : Nat} (hk : k < s.conns.length) (hw : ∀ w, s.handled w ≠ some k) (ha : ∀ env, a ≠ .change k env) :
    t.conns[k]?.map AConn.slot = s.conns[k]?.map AConn.slot := by
  cases a with
  | accept offer grow growOk x =>
    cases e
    dsimp only
    rw [List.getElem?_append_left hk]
  | change i env =>
    have hi : k ≠ i := fun h => ha env (by rw [h])
    simp only [ANet.step] at e
    split at e
    · cases e
    · cases e; rw [others_set hi]
  | notify i =>
    simp only [ANet.step] at e
    split at e
    · cases e
    · next c hc =>
      cases e
      simp only [ANet.setConn, List.getElem?_set]
      split
      · next h => subst h; rw [if_pos hk, hc]; rfl
      · rfl
  | poll ks =>
    simp only [ANet.step] at e
    split at e
    · cases e
      simp only [List.getElem?_mapIdx, Option.map_map]
      congr 1
      funext c
      simp only [Function.comp_apply]
      split <;> rfl
    · cases e
  | dispatch closed =>
    simp only [ANet.step] at e
    split at e
    · cases e
    · next i ks hb => exact slot_event (s := { s with batch := ks }) e
  | stray i closed => exact slot_event e
  | work w =>
    simp only [ANet.step] at e
    split at e
    · cases e
    · obtain ⟨p, -, rfl⟩ := Option.map_eq_some_iff.1 e
      rfl
  | lock w =>
    simp only [ANet.step] at e
    split at e
    · cases e
    · next i hi =>
      have hik : k ≠ i := fun h => hw w (by rw [hi, h])
      split at e
      · cases e
      · split at e
        · unfold ANet.enter at e
          split at e
          · obtain ⟨p, -, rfl⟩ := Option.map_eq_some_iff.1 e
            rfl
          · cases e; exact congrArg _ (others_set hik)
          · cases e; exact congrArg _ (others_set hik)
        · cases e
  | go w rounds =>
    simp only [ANet.step] at e
    split at e
    · cases e
    · next i hi =>
      have hik : k ≠ i := fun h => hw w (by rw [hi, h])
      split at e
      · cases e
      · split at e
        · rw [others_advance e hik]
        · cases e

/-! ## Connections that a handler has dropped -/

theorem asksOn_cons_ne {k i : Nat} {as : List (Nat × Request × σ)} {a : Request × σ} (h : k ≠ i) : asksOn k (as ++ [(i, a)]) = asksOn k as := asksOn_other (Ne.symm h)

theorem asks_crash {s t : ANet T σ} {w k : Nat} {c : AConn T} {conn : SharedConn (ServerStack T)} (h : s.crash w k c conn = some t) : t.asks = s.asks := by
  obtain ⟨p, -, rfl⟩ := Option.map_eq_some_iff.1 h
  rfl

omit [RawIO T] in
theorem asks_hung {r : Shared (ServerStack T)} {s t : ANet T σ} (h : ANet.unlessHung r s = some t) : t.asks = s.asks := by
  unfold ANet.unlessHung at h
  split at h
  · cases h
  · cases h; rfl

/-- A handler asks the router about requests of its own connection only. -/
theorem asks_advance {s t : ANet T σ} {w k rounds : Nat} {c : AConn T} (h : ANet.advance prof rt s w k c rounds = some t) {x : Nat} (hx : x ≠ k) : asksOn x t.asks = asksOn x s.asks := by
  unfold ANet.advance at h
  split at h
  · split at h <;> rw [asks_hung h] <;> rfl
  · split at h
    · cases h; rfl
    · cases h; rfl
    · cases h; rfl
    · split at h
      · cases h
      · rw [asks_hung h]; rfl
    · rw [asks_crash h]
    · cases h
  · dsimp only at h
    split at h
    · rw [asks_crash h]; exact asksOn_cons_ne hx
    · cases h; exact asksOn_cons_ne hx
  · split at h
    · split at h <;> rw [asks_hung h] <;> rfl
    · rw [asks_hung h]; rfl
    · cases h
  · obtain ⟨p, -, rfl⟩ := Option.map_eq_some_iff.1 h
    rfl
  · cases h

omit [RawIO T] in
theorem asks_event {s t : ANet T σ} {k : Nat} {closed : Bool} (e : s.onEvent k closed = some t) : t.asks = s.asks := by
  unfold ANet.onEvent at e
  split at e
  · cases e
  · split at e
    · cases e; rfl
    · split at e
      · cases e; rfl
      · split at e <;> cases e
        rfl

/-- A step leaves a connection that a handler has dropped as it is, but for its stream, when that is what the step is about; and the router is not asked about requests of it. -/
theorem dead_step {s t : ANet T σ} {a : AAct T} (e : s.step prof rt a = some t) {k : Nat} {c : AConn T} (hc : s.conns[k]? = some c) (hd : c.slot.isLive = false) :
    asksOn k t.asks = asksOn k s.asks ∧ ∃ c', t.conns[k]? = some c' ∧ (c'.slot = c.slot ∨ ∃ env, a = .change k env ∧ c'.slot = ANet.changed env c.slot) := by
  have hk := (List.getElem?_eq_some_iff.1 hc).1
  have same : t.conns[k]?.map AConn.slot = s.conns[k]?.map AConn.slot → ∃ c', t.conns[k]? = some c' ∧ (c'.slot = c.slot ∨ ∃ env, a = .change k env ∧ c'.slot = ANet.changed env c.slot) := by
    intro h
    rw [hc] at h
    obtain ⟨c', h1, h2⟩ := Option.map_eq_some_iff.1 h
    exact ⟨c', h1, .inl h2⟩
  have upd : ∀ {i : Nat} {d d' : AConn T}, s.conns[i]? = some d → t.conns = s.conns.set i d' → (i = k → d'.slot = d.slot) → t.conns[k]?.map AConn.slot = s.conns[k]?.map AConn.slot := by
    intro i d d' h1 h3 h2
    rw [h3, List.getElem?_set]
    split
    · next h => subst h; rw [if_pos hk, h1]; exact congrArg some (h2 rfl)
    · rfl
  cases a with
  | accept offer grow growOk x =>
    cases e
    exact ⟨rfl, same (by dsimp only; rw [List.getElem?_append_left hk])⟩
  | change i env =>
    simp only [ANet.step] at e
    split at e
    · cases e
    · next d hi =>
      cases e
      refine ⟨rfl, ?_⟩
      by_cases hik : i = k
      · subst hik
        rw [hc] at hi; cases hi
        exact ⟨{ c with slot := ANet.changed env c.slot }, by simp only [ANet.setConn, List.getElem?_set_self hk], .inr ⟨env, rfl, rfl⟩⟩
      · exact same (upd hi rfl (fun h => absurd h hik))
  | notify i =>
    simp only [ANet.step] at e
    split at e
    · cases e
    · next d hi =>
      cases e
      exact ⟨rfl, same (upd hi rfl (fun _ => rfl))⟩
  | poll ks =>
    simp only [ANet.step] at e
    split at e
    · cases e
      refine ⟨rfl, same ?_⟩
      simp only [List.getElem?_mapIdx, Option.map_map]
      congr 1
      funext c
      simp only [Function.comp_apply]
      split <;> rfl
    · cases e
  | dispatch closed =>
    simp only [ANet.step] at e
    split at e
    · cases e
    · next i ks hb => exact ⟨congrArg _ (asks_event (s := { s with batch := ks }) e), same (slot_event (s := { s with batch := ks }) e)⟩
  | stray i closed => exact ⟨congrArg _ (asks_event e), same (slot_event e)⟩
  | work w =>
    simp only [ANet.step] at e
    split at e
    · cases e
    · obtain ⟨p, -, rfl⟩ := Option.map_eq_some_iff.1 e
      exact ⟨rfl, same rfl⟩
  | lock w =>
    simp only [ANet.step] at e
    split at e
    · cases e
    · next i hi =>
      split at e
      · cases e
      · next d hd' =>
        split at e
        · unfold ANet.enter at e
          split at e
          · obtain ⟨p, -, rfl⟩ := Option.map_eq_some_iff.1 e
            exact ⟨rfl, same rfl⟩
          · next hs => cases e; exact ⟨rfl, same (upd hd' rfl (fun _ => rfl))⟩
          · next hs => cases e; exact ⟨rfl, same (upd hd' rfl (fun _ => rfl))⟩
        · cases e
  | go w rounds =>
    simp only [ANet.step] at e
    split at e
    · cases e
    · next i hi =>
      split at e
      · cases e
      · next d hd' =>
        split at e
        · by_cases hik : k = i
          · subst hik
            rw [hc] at hd'; cases hd'
            unfold ANet.advance at e
            split at e
            · next hs => rw [hs] at hd; cases hd
            · next hs => rw [hs] at hd; cases hd
            · next hs => rw [hs] at hd; cases hd
            · next hs => rw [hs] at hd; cases hd
            · obtain ⟨p, -, rfl⟩ := Option.map_eq_some_iff.1 e
              exact ⟨rfl, same (upd hc rfl (fun _ => rfl))⟩
            · cases e
          · exact ⟨asks_advance e hik, same (by rw [others_advance e hik])⟩
        · cases e

/-- What was written on a connection: what its stream has taken, and what is in the buffer. -/
def AConn.written (c : AConn (Traced T)) : Bytes := c.raw.put ++ c.slot.conn.reader.stream.val.buf.drop c.slot.conn.reader.stream.val.pos

omit [RawIO T] in
theorem written_changed {c c' : AConn (Traced T)} {env : T → T} (h : c'.slot = ANet.changed (fun t : Traced T => { t with raw := env t.raw }) c.slot) : c'.written = c.written := by
  unfold AConn.written AConn.raw
  rw [h]
  cases c.slot <;> rfl

omit [RawIO T] in
theorem log_changed {c c' : AConn (Traced T)} {env : T → T} (h : c'.slot = ANet.changed (fun t : Traced T => { t with raw := env t.raw }) c.slot) : c'.raw.log = c.raw.log := by
  unfold AConn.raw
  rw [h]
  cases c.slot <;> rfl

/-- A connection that a handler has dropped stays so, with what was asked, answered and read on it. -/
theorem ANet.Run.dead_log (r : ANet.Run T prof rt n s₀) {t t' k : Nat} (h : t ≤ t') {c : AConn (Traced T)} (hc : (r.at_ t).conns[k]? = some c) (hd : c.slot.isLive = false) :
    asksOn k (r.at_ t').asks = asksOn k (r.at_ t).asks ∧ ∃ c', (r.at_ t').conns[k]? = some c' ∧ c'.slot.isLive = false ∧ c'.written = c.written ∧ c'.raw.log = c.raw.log := by
  obtain ⟨d, rfl⟩ := Nat.exists_eq_add_of_le h
  clear h
  induction d with
  | zero => exact ⟨rfl, c, hc, hd, rfl, rfl⟩
  | succ d ih =>
    obtain ⟨h1, c', h2, h3, h4, h5⟩ := ih
    have hn := r.next (t + d)
    cases ha : r.act (t + d) with
    | none =>
      rw [ha] at hn
      rw [← Nat.add_assoc, hn]
      exact ⟨h1, c', h2, h3, h4, h5⟩
    | some a =>
      rw [ha] at hn
      obtain ⟨g1, c'', g2, g3⟩ := dead_step hn h2 h3
      refine ⟨g1.trans h1, c'', g2, ?_⟩
      rcases g3 with g3 | ⟨env, g3, g4⟩
      · exact ⟨by rw [g3]; exact h3, by rw [← h4]; unfold AConn.written AConn.raw; rw [g3], by rw [← h5]; unfold AConn.raw; rw [g3]⟩
      · cases a <;> cases g3
        exact ⟨by rw [g4, changed_live]; exact h3, (written_changed g4).trans h4, (log_changed g4).trans h5⟩

theorem ANet.Run.dead (r : ANet.Run T prof rt n s₀) {t t' k : Nat} (h : t ≤ t') {c : AConn (Traced T)} (hc : (r.at_ t).conns[k]? = some c) (hd : c.slot.isLive = false) :
    asksOn k (r.at_ t').asks = asksOn k (r.at_ t).asks ∧ ∃ c', (r.at_ t').conns[k]? = some c' ∧ c'.slot.isLive = false ∧ c'.written = c.written := by
  obtain ⟨h1, c', h2, h3, h4, -⟩ := r.dead_log h hc hd
  exact ⟨h1, c', h2, h3, h4⟩

end Verif
