import Verif.Spec.Lifecycle
import Verif.Proofs.NetIdle
import Verif.Proofs.NetRun

/-! What holds of a call of `listen_http` from its start to its end. -/

namespace Verif

variable {σ : Type} {prof : Profile} {rt : Router σ} {n : Nat} {os : StartError} {s₀ : σ}

/-- What holds of the server also after the end of the event loop. -/
structure Net.Solid (prof : Profile) (rt : Router σ) (n : Nat) (s : Net σ) : Prop where
  base : s.Base n
  told : s.Told
  serial : s.SerialAll prof rt
  first : ∀ {k : Nat} {c : NConn σ}, s.conns[k]? = some c → ∃ offer grow growOk flushes, c.first = (Net.fresh offer grow growOk flushes : NConn σ).first

theorem Net.Reach.solid {s : Net σ} (h : Net.Reach prof rt n s₀ s) : s.Solid prof rt n := ⟨h.inv.base, h.inv.told, h.serial, h.first⟩

theorem Net.Solid.step {s s' : Net σ} (h : s.Solid prof rt n) (hs : NStep prof rt s s') : s'.Solid prof rt n := by
  refine ⟨base_step h.base hs, told_step h.base h.told hs, serial_step h.base h.told h.serial hs, fun hc => ?_⟩
  rcases hs.first hc with ⟨d, h1, h2⟩ | ⟨offer, grow, growOk, flushes, rfl⟩
  · rw [h2]; exact h.first h1
  · exact ⟨offer, grow, growOk, flushes, rfl⟩

/-- The pool changes only as far as its owner is concerned. -/
structure Pool.OnlyOwner (p p' : Pool) : Prop where
  workers : p'.workers = p.workers
  submitted : p'.submitted = p.submitted
  finished : p'.finished = p.finished
  crashed : p'.crashed = p.crashed
  owner : p'.owner ≠ .using

theorem own_only {p p' : Pool} (h : p.own = some p') : p.OnlyOwner p' := by
  unfold Pool.own at h
  split at h
  · cases h; exact ⟨rfl, rfl, rfl, rfl, by simp⟩
  · split at h <;> cases h
    · exact ⟨rfl, by simp [Pool.submitted, jobsOf], rfl, rfl, by simp⟩
    · exact ⟨rfl, rfl, rfl, rfl, by simp⟩
  · split at h
    · cases h; exact ⟨rfl, rfl, rfl, rfl, by simp⟩
    · cases h; exact ⟨rfl, rfl, rfl, rfl, by simp⟩
    · split at h
      · cases h
      · cases h; exact ⟨rfl, rfl, rfl, rfl, by simp⟩
  · cases h

theorem drop_only {p p' : Pool} (h : p.step .drop = some p') : p.OnlyOwner p' ∧ p.owner = .using ∧ p' = { p with owner := .sending p.workers.length } := by
  simp only [Pool.step] at h
  split at h
  · next ho => cases h; exact ⟨⟨rfl, rfl, rfl, rfl, by simp⟩, ho, rfl⟩
  · cases h

theorem Net.Solid.only {s : Net σ} (h : s.Solid prof rt n) {p : Pool} (hr : Pool.Reach n p) (ho : s.pool.OnlyOwner p) : ({ s with pool := p } : Net σ).Solid prof rt n := by
  have hu : ∀ w k, ({ s with pool := p } : Net σ).Uses w k ↔ s.Uses w k := by
    intro w k
    simp only [Net.Uses, Net.handled, ho.workers]
  refine ⟨⟨hr, by rw [ho.submitted]; exact h.base.jobs, h.base.conns, fun k w c hc => by rw [hu]; exact h.base.lock k w c hc⟩,
    ⟨h.told.conn, fun h1 => absurd h1 ho.owner, h.told.before, ?_, ?_, ?_⟩, ⟨h.serial.conn, h.serial.seen, h.serial.known⟩, h.first⟩
  · intro w j k a c hj hc hw
    dsimp only at hw
    rw [ho.workers] at hw
    exact h.told.left w j k a c hj hc hw
  · intro j k a c hj hc hf
    dsimp only at hf
    rw [ho.finished] at hf
    exact h.told.done j k a c hj hc hf
  · intro j k a c hj hc hf
    dsimp only at hf
    rw [ho.crashed] at hf
    exact h.told.dead j k a c hj hc hf

theorem Net.Solid.dropTable {s : Net σ} (h : s.Solid prof rt n) : (Life.dropTable s).Solid prof rt n := by
  have hget : ∀ (k : Nat) c, (Life.dropTable s).conns[k]? = some c → ∃ d, s.conns[k]? = some d ∧ c = { d with inTable := false } := by
    intro k c hc
    simp only [Life.dropTable, List.getElem?_map, Option.map_eq_some_iff] at hc
    obtain ⟨d, h1, h2⟩ := hc
    exact ⟨d, h1, h2.symm⟩
  refine ⟨⟨h.base.pool, h.base.jobs, fun j k a hj => ?_, fun k w c hc => ?_⟩, ⟨?_, ?_, ?_, ?_, ?_, ?_⟩, ⟨?_, ?_, ?_⟩, ?_⟩
  · have := h.base.conns j k a hj
    simpa [Life.dropTable] using this
  · obtain ⟨d, h1, rfl⟩ := hget k c hc
    exact h.base.lock k w d h1
  · intro k c hc
    obtain ⟨d, h1, rfl⟩ := hget k c hc
    have := h.told.conn k d h1
    exact ⟨this.drained, this.noWait, this.quiet⟩
  · intro _ k c hc hi
    obtain ⟨d, h1, rfl⟩ := hget k c hc
    cases hi
  · intro j k a c hj hc
    obtain ⟨d, h1, rfl⟩ := hget k c hc
    exact h.told.before j k a d hj h1
  · intro w j k a c hj hc
    obtain ⟨d, h1, rfl⟩ := hget k c hc
    exact h.told.left w j k a d hj h1
  · intro j k a c hj hc
    obtain ⟨d, h1, rfl⟩ := hget k c hc
    exact h.told.done j k a d hj h1
  · intro j k a c hj hc
    obtain ⟨d, h1, rfl⟩ := hget k c hc
    exact h.told.dead j k a d hj h1
  · intro k c hc
    obtain ⟨d, h1, rfl⟩ := hget k c hc
    have h2 := h.serial.conn k d h1
    exact ⟨h2.lims, h2.empty, h2.run⟩
  · intro k c hc
    obtain ⟨d, h1, rfl⟩ := hget k c hc
    exact h.serial.seen k d h1
  · intro a ha
    have := h.serial.known a ha
    simpa [Life.dropTable] using this
  · intro k c hc
    obtain ⟨d, h1, rfl⟩ := hget k c hc
    have h2 := h.first h1
    exact h2

/-- Every step is one of the server or of the owner of its pool. -/
theorem Life.step_cases {l l' : Life σ} {a : LAct} (h : l.step prof rt a = some l') :
    (∃ b, a = .net b ∧ l.net.step prof rt b = some l'.net ∧ l'.stage = l.stage ∧ (l.stage ≠ .serving → b.ofLoop = false)) ∨
    (∃ e p, a = .pollFails e ∧ l.stage = .serving ∧ l.net.batch = [] ∧ l.net.pool.step .drop = some p ∧ l' = ⟨{ Life.dropTable l.net with pool := p }, .ending e⟩) ∨
    ∃ p, a = .own ∧ l.stage ≠ .serving ∧ l.net.pool.own = some p ∧ l' = { l with net := { l.net with pool := p } } := by
  cases a with
  | net b =>
    left
    simp only [Life.step] at h
    split at h
    · cases h
    · next hc =>
      simp only [Option.map_eq_some_iff] at h
      obtain ⟨s, h1, rfl⟩ := h
      exact ⟨b, rfl, h1, rfl, fun h2 => by simpa [h2] using hc⟩
  | pollFails e =>
    right; left
    simp only [Life.step] at h
    split at h
    · next hc =>
      simp only [Life.dropPool, Option.map_eq_some_iff] at h
      obtain ⟨s, ⟨p, h1, rfl⟩, rfl⟩ := h
      exact ⟨e, p, rfl, hc.1, hc.2, h1, rfl⟩
    · cases h
  | own =>
    right; right
    simp only [Life.step] at h
    split at h
    · cases h
    · next hc =>
      simp only [Option.map_eq_some_iff] at h
      obtain ⟨p, h1, rfl⟩ := h
      exact ⟨p, rfl, hc, h1, rfl⟩

theorem Life.start_cases {ok : Bool} {l : Life σ} (h : Life.start ok n os s₀ = some l) :
    ok = true ∧ ∃ s, Net.new n s₀ = some s ∧ (os = none ∧ l = ⟨s, .serving⟩ ∨
      ∃ e p, os = some e ∧ s.pool.step .drop = some p ∧ l = ⟨{ s with pool := p }, .ending e⟩) := by
  unfold Life.start at h
  split at h
  · next hok =>
    refine ⟨hok, ?_⟩
    obtain ⟨s, h1, h2⟩ := Option.bind_eq_some_iff.1 h
    refine ⟨s, h1, ?_⟩
    split at h2
    · cases h2; exact .inl ⟨rfl, rfl⟩
    · next e =>
      simp only [Life.dropPool, Option.map_eq_some_iff] at h2
      obtain ⟨s', ⟨p, h3, rfl⟩, rfl⟩ := h2
      exact .inr ⟨e, p, rfl, h3, rfl⟩
  · cases h

theorem Life.Reach.solid {l : Life σ} (h : Life.Reach prof rt n os s₀ l) : l.net.Solid prof rt n := by
  induction h with
  | start h =>
    obtain ⟨-, s, h1, ⟨-, rfl⟩ | ⟨e, p, -, h2, rfl⟩⟩ := Life.start_cases h
    · exact (Net.Reach.new (rt := rt) (prof := prof) h1).solid
    · have h3 := (Net.Reach.new (rt := rt) (prof := prof) h1).solid
      exact h3.only (h3.base.pool.step h2) (drop_only h2).1
  | step _ hs ih =>
    rcases Life.step_cases hs with ⟨b, -, h1, -, -⟩ | ⟨e, p, -, -, -, h1, rfl⟩ | ⟨p, -, -, h1, rfl⟩
    · exact ih.step (step_nstep h1)
    · have h2 := ih.dropTable
      exact h2.only (p := p) (ih.base.pool.step h1) (drop_only h1).1
    · exact ih.only (ih.base.pool.step (a := .own) h1) (own_only h1)

/-- What the event loop does not do leaves jobs, number of connections and table as they are. -/
structure Net.SameTable (s s' : Net σ) : Prop where
  jobs : s'.jobs = s.jobs
  length : s'.conns.length = s.conns.length
  table : ∀ {k : Nat} {c : NConn σ}, s'.conns[k]? = some c → ∃ d, s.conns[k]? = some d ∧ c.inTable = d.inTable

theorem Net.SameTable.set {s s' : Net σ} {k : Nat} {c c' : NConn σ} (hk : s.conns[k]? = some c) (hj : s'.jobs = s.jobs) (hc : s'.conns = s.conns.set k c')
    (hi : c'.inTable = c.inTable) : s.SameTable s' := by
  refine ⟨hj, by rw [hc, List.length_set], fun {k' d} hd => ?_⟩
  rw [hc] at hd
  rcases setConn_get (s := s) hk (show (s.setConn k c').conns[k']? = some d from hd) with ⟨rfl, rfl⟩ | ⟨-, h⟩
  · exact ⟨c, hk, hi⟩
  · exact ⟨d, h, rfl⟩

theorem Net.step_table {s s' : Net σ} {b : NAct} (hb : b.ofLoop = false) (h : s.step prof rt b = some s') : s.SameTable s' := by
  cases b with
  | accept => cases hb
  | poll => cases hb
  | dispatch => cases hb
  | stray => cases hb
  | arrive k ev =>
    simp only [Net.step] at h
    split at h
    · cases h
    · next c hc =>
      split at h
      · have := Option.some.inj h; subst this; exact .set hc rfl rfl rfl
      · cases h
  | notify k =>
    simp only [Net.step] at h
    split at h
    · cases h
    · next c hc => have := Option.some.inj h; subst this; exact .set hc rfl rfl rfl
  | work w =>
    simp only [Net.step] at h
    split at h
    · cases h
    · simp only [Option.map_eq_some_iff] at h
      obtain ⟨p, -, h5⟩ := h
      subst h5
      exact ⟨rfl, rfl, fun hc => ⟨_, hc, rfl⟩⟩
  | lock w evs =>
    simp only [Net.step] at h
    split at h
    · cases h
    · split at h
      · cases h
      · next c hc =>
        split at h
        · unfold Net.enter at h
          split at h
          · simp only [Option.map_eq_some_iff] at h
            obtain ⟨p, -, h5⟩ := h
            subst h5
            exact .set hc rfl rfl rfl
          · have := Option.some.inj h; subst this; exact .set hc rfl rfl rfl
          · have := Option.some.inj h; subst this; exact .set hc rfl rfl rfl
        · cases h
  | go w =>
    simp only [Net.step] at h
    split at h
    · cases h
    · split at h
      · cases h
      · next c hc =>
        split at h
        · have ha := advance_cases h
          cases ha <;> exact .set hc rfl rfl rfl
        · cases h

/-- Once the event loop has ended nothing is submitted, accepted or put in the table. -/
theorem Life.step_ending {l l' : Life σ} {a : LAct} (h : l.step prof rt a = some l') {e : IoError} (he : l.stage = .ending e) :
    l'.stage = .ending e ∧ l.net.SameTable l'.net := by
  rcases Life.step_cases h with ⟨b, -, h1, h2, h3⟩ | ⟨e', p, -, h1, -, -, -⟩ | ⟨p, -, -, -, rfl⟩
  · exact ⟨by rw [h2, he], Net.step_table (h3 (by rw [he]; simp)) h1⟩
  · rw [he] at h1; cases h1
  · exact ⟨he, rfl, rfl, fun hc => ⟨_, hc, rfl⟩⟩

end Verif
