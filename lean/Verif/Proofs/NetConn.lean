import Verif.Proofs.NetSerial

/-!
Invariants of single connections: what is kept by everything that happens to a connection holds of it in every reachable state.
-/

namespace Verif

variable {σ : Type} {prof : Profile} {rt : Router σ} {n : Nat} {s₀ : σ}

/-- `P`, about an open connection, what has arrived on it, the requests that were read from it, and where the handler that has its mutex is, is kept. -/
structure Kept (prof : Profile) (rt : Router σ) (P : Conn Rd Nbw → List Ev → List (Request × σ) → Option Phase → Prop) : Prop where
  fresh : ∀ offer grow growOk flushes, P (Conn.new ⟨[], ⟨4096, by decide, offer, [], []⟩⟩ (Nbw.withCapacity 4096 grow growOk ⟨[], flushes, []⟩)) [] [] none
  arrive : ∀ c arr seen p ev, ev ≠ .err .wouldBlock → P c arr seen p →
    P { c with reader := { c.reader with src := { c.reader.src with evs := c.reader.src.evs ++ [ev] } } } (arr ++ [ev]) seen p
  enter : ∀ c arr seen evs, P c arr seen none → P { c with writer := { c.writer with sock := { c.writer.sock with evs } } } arr seen (some .flushing)
  move : ∀ c c' arr seen p p' d d', Move prof p (.live c) arr.length d p' (.live c') d' → P c arr seen (some p) → P c' arr seen (some p')
  ask : ∀ c arr seen q s a, (rt.result q s).1 = some a → P c arr seen (some (.asked q)) → P c arr (seen ++ [(q, s)]) (some (.reply q a))
  leave : ∀ c arr seen, P c arr seen (some .leaving) → P c arr seen none

variable {P : Conn Rd Nbw → List Ev → List (Request × σ) → Option Phase → Prop}

/-- It holds of every open connection. -/
def Net.All (P : Conn Rd Nbw → List Ev → List (Request × σ) → Option Phase → Prop) (s : Net σ) : Prop :=
  ∀ (k : Nat) c conn, s.conns[k]? = some c → c.slot = .live conn → P conn c.arrived c.seen (s.at_ c)

theorem Net.All.set {s s' : Net σ} {k : Nat} {c c' : NConn σ} (h : s.All P) (hc : s.conns[k]? = some c)
    (e4 : s'.conns = (s.setConn k c').conns) (hs : ∀ conn, c'.slot = .live conn → P conn c'.arrived c'.seen (s'.at_ c'))
    (hp : ∀ (k' : Nat) (d : NConn σ), k' ≠ k → s.conns[k']? = some d → s'.at_ d = s.at_ d) : s'.All P := by
  intro k' d conn hd hl
  rw [e4] at hd
  rcases setConn_get hc hd with ⟨rfl, rfl⟩ | ⟨hne, hd⟩
  · exact hs conn hl
  · rw [hp k' d hne hd]; exact h k' d conn hd hl

theorem Kept.step (hP : Kept prof rt P) {s s' : Net σ} (hb : s.Base n) (h : s.All P) (hs : NStep prof rt s s') : s'.All P := by
  cases hs with
  | @accept offer grow growOk =>
    intro k c conn hk hl
    dsimp only at hk
    rw [List.getElem?_append] at hk
    split at hk
    · exact h k c conn hk hl
    · cases hd : k - s.conns.length with
      | zero => rw [hd] at hk; cases hk; cases hl; exact hP.fresh _ _ _ _
      | succ m => rw [hd] at hk; cases hk
  | @arrive k ev c cn hc hsl he =>
    refine h.set hc rfl (fun conn hl => ?_) (fun _ _ _ _ => rfl)
    rw [hsl] at hl
    simp only [Net.receive] at hl
    cases hl
    exact hP.arrive _ _ _ _ _ he (h k c cn hc hsl)
  | @notify k c hc => exact h.set hc rfl (fun conn hl => h k c conn hc hl) (fun _ _ _ _ => rfl)
  | @poll ks =>
    intro k c conn hk hl
    dsimp only at hk
    rw [List.getElem?_mapIdx, Option.map_eq_some_iff] at hk
    obtain ⟨d, hd, rfl⟩ := hk
    have := h k d conn hd (by split at hl <;> exact hl)
    split
    · exact this
    · exact this
  | skip => exact h
  | @remove k b c hc hbt => exact h.set hc rfl (fun conn hl => h k c conn hc hl) (fun _ _ _ _ => rfl)
  | execute => exact h
  | fail => exact h
  | @work w pool hn hp =>
    intro k c conn hc hl
    have h2 : Net.at_ { s.setPhase w .enter with pool } c = s.at_ c := by
      unfold Net.at_
      cases hl : c.lock with
      | none => rfl
      | some w' =>
        have hu := (hb.lock k w' c hc).1 hl
        obtain ⟨j, a, h3, -⟩ := handled_iff.1 hu.1
        have hww : w' ≠ w := by
          rintro rfl
          exact hn j h3
        simp [Net.setPhase, hww]
    rw [h2]; exact h k c conn hc hl
  | @enterPoisoned w k c conn evs pool hk hc hp hl hsl hpool =>
    refine h.set hc rfl (fun conn hl => ?_) (fun _ _ _ _ => rfl)
    rw [hsl] at hl; cases hl
  | @enterGone w k c conn evs hk hc hp hl hsl =>
    refine h.set hc rfl (fun conn hl => ?_) (fun k' d hne hd => at_other hb hk hne hd _)
    rw [hsl] at hl; cases hl
  | @enter w k c conn evs hk hc hp hl hsl =>
    have h1 := h k c conn hc hsl
    unfold Net.at_ at h1
    rw [hl] at h1
    refine h.set hc rfl (fun conn' hl' => ?_) (fun k' d hne hd => at_other hb hk hne hd _)
    rw [hsl] at hl'
    cases hl'
    simp only [Net.at_, Net.setPhase, Option.map_some, if_true]
    exact hP.enter _ _ _ evs h1
  | @go w k c s' hk hc hl ha =>
    have h1 := h k c
    unfold Net.at_ at h1
    rw [hl] at h1
    cases ha with
    | @move p slot d hm =>
      refine h.set hc rfl (fun conn' hl' => ?_) (fun k' d hne hd => at_other hb hk hne hd _)
      simp only [Net.at_, Net.setPhase, hl, Option.map_some, if_true]
      dsimp only at hl'
      subst hl'
      cases hcs : c.slot with
      | live conn =>
        rw [hcs] at hm
        exact hP.move _ _ _ _ _ _ _ _ hm (h1 conn hc hcs)
      | _ => rw [hcs] at hm; generalize s.phase w = ph at hm; cases hm
    | ask hph hsl hr =>
      refine h.set hc rfl (fun conn' hl' => ?_) (fun k' d hne hd => at_other hb hk hne hd _)
      simp only [Net.at_, Net.setPhase, hl, Option.map_some, if_true]
      have h2 := h1 conn' hc hl'
      simp only [Option.map_some, hph] at h2
      exact hP.ask _ _ _ _ _ _ hr h2
    | crash hph hsl hr hp => exact h.set hc rfl nofun (fun _ _ _ _ => rfl)
    | crashAsk hph hsl hr hp => exact h.set hc rfl nofun (fun _ _ _ _ => rfl)
    | leave hph hp =>
      refine h.set hc rfl (fun conn' hl' => ?_) (fun k' d hne hd => at_other hb hk hne hd _)
      have h2 := h1 conn' hc hl'
      simp only [Option.map_some, hph] at h2
      exact hP.leave _ _ _ h2

theorem Net.Reach.kept (hP : Kept prof rt P) {s : Net σ} (h : Net.Reach prof rt n s₀ s) : s.Base n ∧ s.All P := by
  induction h with
  | new h =>
    refine ⟨base_new h, ?_⟩
    unfold Net.new at h
    simp only [Option.map_eq_some_iff] at h
    obtain ⟨p, h1, rfl⟩ := h
    intro k c conn hk
    simp at hk
  | step hr hs ih => exact ⟨base_step ih.1 (step_nstep hs), hP.step ih.1 ih.2 (step_nstep hs)⟩

end Verif
