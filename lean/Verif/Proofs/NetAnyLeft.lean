import Verif.Proofs.NetAny

/-!
What is known of the raw streams of connections that the server has dropped.
-/

namespace Verif

variable {T σ : Type} [RawIO T] {prof : Profile} {rt : Router σ}

/-- The raw streams of connections that were not dropped are as `L` says, those of connections that were dropped are as `D` says. -/
def AConn.Split (L D : Traced T → Prop) (c : AConn (Traced T)) : Prop := (∃ x, c.slot = .live x ∧ Conn.Fine L x) ∨ (∀ x, c.slot ≠ .live x) ∧ D c.raw

/-- The same for all connections. -/
def ANet.Split (L D : Nat → Traced T → Prop) (s : ANet (Traced T) σ) : Prop := ∀ (k : Nat) (c : AConn (Traced T)), s.conns[k]? = some c → c.Split (L k) (D k)

omit [RawIO T] in
theorem ANet.Split.upd {L D : Nat → Traced T → Prop} {s t : ANet (Traced T) σ} (h : s.Split L D) {k : Nat} {c : AConn (Traced T)} (hc : t.conns = s.conns.set k c) (hd : c.Split (L k) (D k)) : t.Split L D := by
  intro j d hj
  rw [hc, List.getElem?_set] at hj
  split at hj
  · next he =>
    subst he
    split at hj
    · cases hj; exact hd
    · cases hj
  · exact h j d hj

omit [RawIO T] in
theorem AConn.Split.live {L D : Traced T → Prop} {c : AConn (Traced T)} (h : c.Split L D) {x : SharedConn (ServerStack (Traced T))} (hs : c.slot = .live x) : Conn.Fine L x := by
  rcases h with ⟨y, h1, h2⟩ | ⟨h1, -⟩
  · rw [hs] at h1; cases h1; exact h2
  · exact absurd hs (h1 x)

omit [RawIO T] in
theorem split_event {L D : Nat → Traced T → Prop} {s t : ANet (Traced T) σ} (h : s.Split L D) {k : Nat} {closed : Bool} (e : s.onEvent k closed = some t) : t.Split L D := by
  unfold ANet.onEvent at e
  split at e
  · cases e
  · next c hc =>
    split at e
    · cases e; exact h
    · split at e
      · cases e
        exact h.upd (c := { c with inTable := false }) rfl (h k c hc)
      · split at e
        · cases e
        · cases e
          exact h

/-- What a handler does keeps the raw stream of a connection as `L` says until it drops the connection. -/
theorem advance_split {L D : Nat → Traced T → Prop} (hT : RawIO.Honest T) (hR : RawIO.ReadsWithin T) (hL : ∀ k, RawUses (L k)) (hD : ∀ k t, L k t → D k (RawIO.dropped t)) {s t : ANet (Traced T) σ}
    (hl : s.Split L D) {w k rounds : Nat} {c : AConn (Traced T)} (hc : s.conns[k]? = some c) (h : ANet.advance prof rt s w k c rounds = some t) : t.Split L D := by
  have hlc := hl k c hc
  have gone : ∀ {conn : SharedConn (ServerStack (Traced T))} (p : Phase), Conn.Fine (L k) conn → ((s.setConn k { c with slot := .gone (ANet.droppedConn conn) }).setPhase w p).Split L D := fun p hx =>
    hl.upd (k := k) rfl (.inr ⟨nofun, hD k _ hx.inv⟩)
  have live : ∀ {conn : SharedConn (ServerStack (Traced T))} (p : Phase), Conn.Fine (L k) conn → ((s.setConn k { c with slot := .live conn }).setPhase w p).Split L D := fun p hx =>
    hl.upd (k := k) rfl (.inl ⟨_, rfl, hx⟩)
  unfold ANet.advance at h
  split at h
  · next conn hp hs =>
    have hfc := hlc.live hs
    have hV := serverViews_lawful (Er := .any) hT hR (hL k) errsIn_any (hfc.rounds rounds).grow conn.reader.offer
    obtain ⟨k1, k2⟩ := hV.flush1 (hfc.rounds rounds).good
    dsimp only at k1 k2
    generalize Write.flush { conn.reader with rounds } = x at h k1 k2
    obtain ⟨x, r⟩ := x
    cases x with
    | error e =>
      obtain ⟨hh, rfl⟩ := unlessHung_some h
      exact gone _ (put_rel (hfc.rounds rounds) k1 (k2 hh)).1
    | ok u =>
      obtain ⟨hh, rfl⟩ := unlessHung_some h
      exact live _ (put_rel (hfc.rounds rounds) k1 (k2 hh)).1
  · next conn hp hs =>
    have hfc := hlc.live hs
    generalize hr : ({ conn with reader := { conn.reader with rounds } } : SharedConn (ServerStack (Traced T))).readRequest prof = x at h
    obtain ⟨o, conn'⟩ := x
    have ho : o ≠ .diverge := by
      rintro rfl
      cases h
    have a1 := (read_rel hT hR (hL k) (errsIn_any (P := L k)) (hfc.rounds rounds) hr ho).1
    cases o with
    | ready q => cases h; exact live _ a1
    | notReady => cases h; exact live _ a1
    | closed => cases h; exact gone _ a1
    | error e =>
      dsimp only at h
      have hV := serverViews_lawful (Er := .any) hT hR (hL k) errsIn_any a1.grow conn'.reader.offer
      have hA := hV.writeError (x := conn'.reader) a1.good
      generalize writeErrorResponse conn'.reader = A at h hA
      obtain ⟨x, r⟩ := A
      have hx : x ≠ .diverge := by
        rintro rfl
        cases h
      have h : ANet.unlessHung r ((s.setConn k { c with slot := .gone (ANet.droppedConn { conn' with reader := r }) }).setPhase w .leaving) = some t := by
        cases x <;> first | exact h | cases h
      obtain ⟨hh, rfl⟩ := unlessHung_some h
      exact gone _ (put_rel a1 hA.step (hA.same hx hh)).1
    | panic =>
      obtain ⟨pool, h1, rfl⟩ := Option.map_eq_some_iff.1 h
      exact hl.upd (k := k) rfl (.inr ⟨nofun, hD k _ a1.inv⟩)
    | diverge => exact absurd rfl ho
  · next q conn hp hs =>
    dsimp only at h
    have hfc := hlc.live hs
    cases ha : (rt.result q s.state).1 with
    | none =>
      rw [ha] at h
      obtain ⟨pool, h1, rfl⟩ := Option.map_eq_some_iff.1 h
      exact hl.upd (k := k) rfl (.inr ⟨nofun, hD k _ hfc.inv⟩)
    | some a =>
      rw [ha] at h
      cases h
      exact hl.upd (k := k) (c := c) rfl (hl k c hc)
  · next q a conn hp hs =>
    have hfc := hlc.live hs
    have hV := serverViews_lawful (Er := .any) hT hR (hL k) errsIn_any (hfc.rounds rounds).grow conn.reader.offer
    have hA := hV.answer a (hfc.rounds rounds).good
    rw [writeAnswer_put] at h
    dsimp only at hA
    generalize putAnswer { conn.reader with rounds } a = A at h hA
    obtain ⟨x, r⟩ := A
    cases x with
    | ok =>
      dsimp only at h
      split at h
      · obtain ⟨hh, rfl⟩ := unlessHung_some h
        exact gone _ (put_rel (G := fun w => putAnswer w a) (hfc.rounds rounds) hA.step (hA.same nofun hh)).1
      · obtain ⟨hh, rfl⟩ := unlessHung_some h
        exact live _ (put_rel (G := fun w => putAnswer w a) (hfc.rounds rounds) hA.step (hA.same nofun hh)).1
    | err e =>
      obtain ⟨hh, rfl⟩ := unlessHung_some h
      exact gone _ (put_rel (G := fun w => putAnswer w a) (hfc.rounds rounds) hA.step (hA.same nofun hh)).1
    | diverge => cases h
  · obtain ⟨pool, h1, rfl⟩ := Option.map_eq_some_iff.1 h
    exact hl.upd (k := k) (c := { c with lock := none }) rfl (hl k c hc)
  · cases h

omit [RawIO T] in
theorem AConn.Split.imp {L L' D D' : Traced T → Prop} {c : AConn (Traced T)} (h : c.Split L D) (hL : ∀ t, L t → L' t) (hD : ∀ t, D t → D' t) : c.Split L' D' := by
  rcases h with ⟨x, h1, h2⟩ | ⟨h1, h2⟩
  · exact .inl ⟨x, h1, h2.cap, h2.grow, hL _ h2.inv⟩
  · exact .inr ⟨h1, hD _ h2⟩

theorem split_step {L L' D D' : Nat → Traced T → Prop} (hT : RawIO.Honest T) (hR : RawIO.ReadsWithin T) (hL : ∀ k, RawUses (L k)) (hD : ∀ k t, L k t → D k (RawIO.dropped t)) {s t : ANet (Traced T) σ}
    (hl : s.Split L D) {a : AAct T} (ha : a.Leads L L' s.conns.length) (hs : ∀ j t, (∀ env, a ≠ .change j env) → D j t → D' j t) (hch : ∀ k env, a = .change k env → ∀ t, D k t → D' k { t with raw := env t.raw })
    (e : s.step prof rt a.traced = some t) : t.Split L' D' := by
  have key : (∀ k env, a ≠ .change k env) → t.Split L D → t.Split L' D' := fun hn h k c hc => (h k c hc).imp (fun t => ha.same k t fun env => hn k env) (fun t => hs k t fun env => hn k env)
  cases a with
  | accept offer grow growOk x =>
    cases e
    intro k c h1
    dsimp only at h1
    by_cases hk : k < s.conns.length
    · rw [List.getElem?_append_left hk] at h1
      exact (hl k c h1).imp (fun t => ha.same k t fun _ => nofun) (fun t => hs k t fun _ => nofun)
    · rw [List.getElem?_append_right (by omega)] at h1
      obtain ⟨hj, rfl⟩ : k - s.conns.length = 0 ∧ ANet.fresh offer grow ⟨x, [], []⟩ = c := by
        cases hj : k - s.conns.length with
        | zero => rw [hj] at h1; exact ⟨rfl, Option.some.inj h1⟩
        | succ j => rw [hj] at h1; cases h1
      obtain rfl : k = s.conns.length := by omega
      exact .inl ⟨_, rfl, rfl, growOk, ha.new _ _ _ _ rfl⟩
  | change k env =>
    simp only [AAct.traced, ANet.step] at e
    split at e
    · cases e
    · next c hc =>
      cases e
      have h := hl k c hc
      intro j d hd
      have hd : (s.conns.set k _)[j]? = some d := hd
      by_cases hj : j = k
      · subst hj
        rw [List.getElem?_set_self (List.getElem?_eq_some_iff.1 hc).1] at hd
        cases hd
        rcases h with ⟨x, h1, h2⟩ | ⟨h1, h2⟩
        · exact .inl ⟨ANet.changedConn (fun t => { t with raw := env t.raw }) x, by dsimp only; rw [h1]; rfl, h2.cap, h2.grow, ha.change j env rfl _ h2.inv⟩
        · unfold AConn.raw at h2
          cases hsl : c.slot with
          | live x => exact absurd hsl (h1 x)
          | gone x => rw [hsl] at h2; exact .inr ⟨(by dsimp only; exact nofun), hch j env rfl _ h2⟩
          | poisoned x => rw [hsl] at h2; exact .inr ⟨(by dsimp only; exact nofun), hch j env rfl _ h2⟩
      · rw [List.getElem?_set_ne (Ne.symm hj)] at hd
        exact (hl j d hd).imp (fun t => ha.same j t fun env' he => hj (by cases he; rfl)) (fun t => hs j t fun env' he => hj (by cases he; rfl))
  | notify k =>
    refine key nofun ?_
    simp only [AAct.traced, ANet.step] at e
    split at e
    · cases e
    · next c hc =>
      cases e
      exact hl.upd (c := { c with edge := true }) rfl (hl k c hc)
  | poll ks =>
    refine key nofun ?_
    simp only [AAct.traced, ANet.step] at e
    split at e
    · cases e
      intro k c h1
      simp only [List.getElem?_mapIdx] at h1
      obtain ⟨d, h4, rfl⟩ := Option.map_eq_some_iff.1 h1
      split <;> exact hl k d h4
    · cases e
  | dispatch closed =>
    refine key nofun ?_
    simp only [AAct.traced, ANet.step] at e
    split at e
    · cases e
    · next k ks _ => exact split_event (s := { s with batch := ks }) hl e
  | stray k closed => exact key nofun <| split_event hl (show s.onEvent k closed = some t from e)
  | work w =>
    refine key nofun ?_
    simp only [AAct.traced, ANet.step] at e
    split at e
    · cases e
    · obtain ⟨pool, -, rfl⟩ := Option.map_eq_some_iff.1 e
      exact hl
  | lock w =>
    refine key nofun ?_
    simp only [AAct.traced, ANet.step] at e
    split at e
    · cases e
    · next k hw =>
      split at e
      · cases e
      · next c hc =>
        split at e
        · unfold ANet.enter at e
          split at e
          · obtain ⟨pool, -, rfl⟩ := Option.map_eq_some_iff.1 e
            exact hl
          · cases e
            exact hl.upd (k := k) (c := { c with lock := some w }) rfl (hl k c hc)
          · cases e
            exact hl.upd (k := k) (c := { c with lock := some w }) rfl (hl k c hc)
        · cases e
  | go w rounds =>
    refine key nofun ?_
    simp only [AAct.traced, ANet.step] at e
    split at e
    · cases e
    · next k hw =>
      split at e
      · cases e
      · next c hc =>
        split at e
        · exact advance_split hT hR hL hD hl hc e
        · cases e

/-- At any time the raw streams of connections are as `L` says until they are dropped and as `D` says afterwards. -/
theorem split_hist {L D : List (AAct T) → Nat → Traced T → Prop} (hT : RawIO.Honest T) (hR : RawIO.ReadsWithin T) (hL : ∀ hist k, RawUses (L hist k)) (hD : ∀ hist k t, L hist k t → D hist k (RawIO.dropped t)) {nw : Nat} {s₀ : σ}
    {as : List (AAct T)} (ha : ∀ pre a post, as = pre ++ a :: post → a.Leads (L pre) (L (pre ++ [a])) (AAct.accepted pre)) (hs : ∀ pre a post, as = pre ++ a :: post → ∀ j t, (∀ env, a ≠ .change j env) → D pre j t → D (pre ++ [a]) j t)
    (hch : ∀ pre k env post, as = pre ++ .change k env :: post → ∀ t, D pre k t → D (pre ++ [.change k env]) k { t with raw := env t.raw }) {s : ANet (Traced T) σ} (h : ANet.after prof rt nw s₀ as = some s) : s.Split (L as) (D as) := by
  obtain ⟨s₁, h1, h2⟩ := Option.bind_eq_some_iff.1 h
  obtain ⟨pool, h3, rfl⟩ := Option.map_eq_some_iff.1 h1
  suffices key : ∀ (bs hist : List (AAct T)) (s t : ANet (Traced T) σ), hist ++ bs = as → s.conns.length = AAct.accepted hist → s.Split (L hist) (D hist) → s.run prof rt (bs.map AAct.traced) = some t → t.Split (L as) (D as) from
    key as [] _ _ rfl rfl (fun k c hc => by cases hc) h2
  clear h h1 h2 h3
  intro bs
  induction bs with
  | nil =>
    intro hist s t he _ hl h
    rw [List.append_nil] at he
    subst he
    cases h
    exact hl
  | cons a bs ih =>
    intro hist s t he hn hl h
    rw [List.map_cons, ANet.run] at h
    obtain ⟨s₁, h1, h2⟩ := Option.bind_eq_some_iff.1 h
    refine ih (hist ++ [a]) s₁ t (by rw [← he]; simp) (by rw [ANet.step_length h1, hn, AAct.accepted_append, AAct.accepted_traced]) ?_ h2
    exact split_step hT hR (hL hist) (hD hist) hl (by rw [hn]; exact ha hist a bs he.symm) (hs hist a bs he.symm) (fun k env e => by subst e; exact hch hist k env bs he.symm) h1

end Verif
