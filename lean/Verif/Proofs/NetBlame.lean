import Verif.Proofs.NetRun
import Verif.Proofs.Panic

/-! Why workers of the server end. -/

namespace Verif

variable {σ : Type} {prof : Profile} {rt : Router σ}

/-- A listener panicked at a request of connection `k`, or the parsers can panic. -/
def Net.Blamed (prof : Profile) (rt : Router σ) (s : Net σ) (k : Nat) : Prop :=
  prof.overflowChecks = true ∨ ∃ q st, (k, q, st) ∈ s.asks ∧ (rt.result q st).1 = none

structure Net.Blame (prof : Profile) (rt : Router σ) (s : Net σ) : Prop where
  crashed : ∀ j ∈ s.pool.crashed, ∃ k a, s.jobs[j]? = some (k, a) ∧ s.Blamed prof rt k
  slot : ∀ (k : Nat) c conn, s.conns[k]? = some c → c.slot = .poisoned conn → s.Blamed prof rt k

theorem NStep.asks {s s' : Net σ} (h : NStep prof rt s s') : ∀ a ∈ s.asks, a ∈ s'.asks := by
  intro a ha
  cases h with
  | go _ _ _ hg => cases hg <;> simp [Net.setConn, Net.setPhase, ha]
  | _ => simpa [Net.setConn, Net.setPhase] using ha

theorem NStep.blamed {s s' : Net σ} (h : NStep prof rt s s') {k : Nat} (hb : s.Blamed prof rt k) : s'.Blamed prof rt k := by
  rcases hb with hb | ⟨q, st, h1, h2⟩
  · exact .inl hb
  · exact .inr ⟨q, st, h.asks _ h1, h2⟩

theorem readRequest_panic {c c' : Conn Rd Nbw} (h : c.readRequest prof = (.panic, c')) : prof.overflowChecks = true := by
  unfold Conn.readRequest at h
  split at h
  · cases h
  · split at h
    · cases h
    · split at h <;> cases h
  · cases h
  · next hp => exact (request_panic hp).1
  · cases h

theorem pool_crashed {p p' : Pool} {w : Nat} {b : Bool} (h : p.step (.work w b) = some p') :
    p'.crashed = p.crashed ∨ ∃ j, p.workers[w]? = some (.running j) ∧ p'.crashed = p.crashed ++ [j] := by
  have hs := work_step (show p.work w b = some p' from h)
  cases hs with
  | crash hw => exact .inr ⟨_, hw, by simp⟩
  | _ => exact .inl (by simp)

theorem Move.not_poisoned {p p' : Phase} {x : Slot Rd Nbw} {c : Conn Rd Nbw} {a d d' : Nat} (h : Move prof p x a d p' (.poisoned c) d') : False := by
  cases h

theorem blame_step {n : Nat} {s s' : Net σ} (hb : s.Base n) (hi : s.Blame prof rt) (h : NStep prof rt s s') : s'.Blame prof rt := by
  have old : ∀ j ∈ s.pool.crashed, ∃ k a, s'.jobs[j]? = some (k, a) ∧ s'.Blamed prof rt k := by
    intro j hj
    obtain ⟨k, a, h1, h2⟩ := hi.crashed j hj
    exact ⟨k, a, h.jobs h1, h.blamed h2⟩
  have worker : ∀ {w k : Nat}, s.handled w = some k → (∃ b, s.pool.step (.work w b) = some s'.pool) → s'.Blamed prof rt k →
      ∀ j ∈ s'.pool.crashed, ∃ k a, s'.jobs[j]? = some (k, a) ∧ s'.Blamed prof rt k := by
    intro w k hk ⟨b, hp⟩ hbl j hj
    rcases pool_crashed hp with h1 | ⟨j', h1, h2⟩
    · rw [h1] at hj; exact old j hj
    · rw [h2, List.mem_append] at hj
      rcases hj with hj | hj
      · exact old j hj
      · simp only [List.mem_singleton] at hj
        subst hj
        obtain ⟨j'', a, h3, h4⟩ := handled_iff.1 hk
        rw [h1] at h3; cases h3
        exact ⟨k, a, h.jobs h4, hbl⟩
  have slots : ∀ {k : Nat} {c c' : NConn σ}, s.conns[k]? = some c → s'.conns = (s.setConn k c').conns →
      (∀ conn, c'.slot = .poisoned conn → s'.Blamed prof rt k) →
      ∀ (k : Nat) c conn, s'.conns[k]? = some c → c.slot = .poisoned conn → s'.Blamed prof rt k := by
    intro k c c' hc he hp k' d conn hd hs
    rw [he] at hd
    rcases setConn_get hc hd with ⟨rfl, rfl⟩ | ⟨-, hd⟩
    · exact hp conn hs
    · exact h.blamed (hi.slot k' d conn hd hs)
  cases h with
  | accept =>
    refine ⟨old, ?_⟩
    intro k c conn hk hs
    dsimp only at hk
    rw [List.getElem?_append] at hk
    split at hk
    · exact hi.slot k c conn hk hs
    · cases hd : k - s.conns.length with
      | zero => rw [hd] at hk; cases hk; cases hs
      | succ m => rw [hd] at hk; cases hk
  | @arrive k ev c cn hc hl =>
    refine ⟨old, slots hc rfl ?_⟩
    intro conn hs
    rw [hl] at hs
    simp [Net.receive] at hs
  | notify hc => exact ⟨old, slots hc rfl fun conn hs => hi.slot _ _ conn hc hs⟩
  | @poll ks =>
    refine ⟨old, ?_⟩
    intro k c conn hk hs
    dsimp only at hk
    rw [List.getElem?_mapIdx, Option.map_eq_some_iff] at hk
    obtain ⟨d, hd, rfl⟩ := hk
    refine hi.slot k d conn hd ?_
    split at hs <;> exact hs
  | skip => exact ⟨old, hi.slot⟩
  | remove hc => exact ⟨old, slots hc rfl fun conn hs => hi.slot _ _ conn hc hs⟩
  | execute hc hin hbt hp ho =>
    refine ⟨fun j hj => old j ?_, hi.slot⟩
    rcases pool_execute hp with ⟨-, -, h1⟩ | ⟨-, -, h1⟩
    · rw [h1] at hj; exact hj
    · rw [h1] at hj; exact hj
  | fail hbt hp ho =>
    refine ⟨fun j hj => old j ?_, hi.slot⟩
    rcases pool_execute hp with ⟨-, -, h1⟩ | ⟨-, -, h1⟩
    · rw [h1] at hj; exact hj
    · rw [h1] at hj; exact hj
  | work hn hp =>
    refine ⟨fun j hj => old j ?_, hi.slot⟩
    have := (pool_work hn hp).2.1
    dsimp only at hj
    rw [this] at hj; exact hj
  | enterPoisoned hk hc hph hl hs hp =>
    have hbl := hi.slot _ _ _ hc hs
    exact ⟨worker hk ⟨_, hp⟩ hbl, slots hc rfl fun conn _ => hbl⟩
  | enterGone hk hc hph hl hs =>
    refine ⟨old, slots hc rfl fun conn hs' => ?_⟩
    rw [hs] at hs'; cases hs'
  | enter hk hc hph hl hs =>
    refine ⟨old, slots hc rfl fun conn hs' => ?_⟩
    rw [hs] at hs'; cases hs'
  | @go w k c s' hk hc hl ha =>
    cases ha with
    | move hm =>
      refine ⟨old, slots hc rfl fun conn hs' => ?_⟩
      dsimp only at hs'
      subst hs'
      exact hm.not_poisoned.elim
    | ask hph hs =>
      refine ⟨old, slots hc rfl fun conn hs' => ?_⟩
      rw [hs] at hs'; cases hs'
    | crash hph hs hr hp =>
      exact ⟨worker hk ⟨_, hp⟩ (.inl (readRequest_panic hr)), slots hc rfl fun _ _ => .inl (readRequest_panic hr)⟩
    | @crashAsk q conn pool hph hs hr hp =>
      have hbl : (k, q, s.state) ∈ s.asks ++ [(k, q, s.state)] := by simp
      exact ⟨worker hk ⟨_, hp⟩ (.inr ⟨_, _, hbl, hr⟩), slots hc rfl fun _ _ => .inr ⟨_, _, hbl, hr⟩⟩
    | leave hph hp =>
      refine ⟨?_, slots hc rfl fun conn hs' => hi.slot _ _ conn hc hs'⟩
      intro j hj
      dsimp only at hj
      obtain ⟨j', a, h3, h4⟩ := handled_iff.1 hk
      rcases pool_running h3 hp with ⟨-, h5⟩ | ⟨h5, -⟩
      · rw [h5] at hj; exact old j hj
      · cases h5

theorem Net.Reach.blame {n : Nat} {s₀ : σ} {s : Net σ} (h : Net.Reach prof rt n s₀ s) : s.Blame prof rt := by
  induction h with
  | new h =>
    unfold Net.new at h
    simp only [Option.map_eq_some_iff] at h
    obtain ⟨p, h1, rfl⟩ := h
    unfold Pool.new at h1
    split at h1
    · cases h1
    · cases h1; exact ⟨by simp, by simp⟩
  | step hr hs ih => exact blame_step hr.inv.base ih (step_nstep hs)

end Verif
