import Verif.Proofs.TlsOrderly
import Verif.Proofs.TlsFree
import Verif.Proofs.NetAnyLeft
import Verif.Proofs.NetIdle
import Verif.Props.WholeSystem
import Verif.Props.Memory
import Verif.Props.TlsServer

/-! C78: the whole server over streams of any kind, and over TLS. -/

namespace Verif

section

variable {T σ : Type} [RawIO T] {P E : Traced T → Prop} {prof : Profile} {rt : Router σ} {nw : Nat} {s₀ : σ} {as : List (AAct T)} {s : ANet (Traced T) σ}

/-- C78: whatever kind of streams the connections are, as long as a write takes no more than it was given and a read returns no more than it was asked for: on every schedule, and
however the streams change, what the server does it also does on some schedule over scripted streams, where all is as `Verif.Model.Net` says. Workers, jobs, questions to the router, the
states of the connections, what was read and what was written are the same. -/
theorem C78_any (hT : RawIO.Honest T) (hR : RawIO.ReadsWithin T) (h : ANet.after prof rt nw s₀ as = some s) : ∃ s', Net.Reach prof rt nw s₀ s' ∧ s.Alike s' := by
  obtain ⟨-, s', h1, h2⟩ := any_reach (P := fun _ => True) hT hR { write := fun _ _ => trivial, flush := fun _ _ => trivial, read := fun _ _ => trivial, drop := fun _ => trivial }
    errsIn_any (fun a _ => by cases a <;> simp [AAct.Allowed]) h
  exact ⟨s', h1, h2.alike⟩

omit [RawIO T] in
theorem ANet.Alike.handled {s' : Net σ} (h : s.Alike s') (w : Nat) : s'.handled w = s.handled w := by
  unfold Net.handled ANet.handled
  rw [h.pool, ← h.jobs]
  simp only [List.getElem?_map]
  cases s.pool.workers[w]? with
  | none => rfl
  | some x => cases x <;> rfl

/-- C78: over streams of any kind, at most one worker uses a connection at a time: it has the mutex of the connection. -/
theorem C78_exclusive (hT : RawIO.Honest T) (hR : RawIO.ReadsWithin T) (h : ANet.after prof rt nw s₀ as = some s) {w k : Nat} (hw : s.handled w = some k) (hp : s.phase w ≠ .enter) :
    ∃ c, s.conns[k]? = some c ∧ c.lock = some w := by
  obtain ⟨s', h1, h2⟩ := C78_any hT hR h
  have hw' : s'.Uses w k := ⟨(h2.handled w).trans hw, by rw [h2.phase]; exact hp⟩
  obtain ⟨j, a, h3, h4⟩ := handled_iff.1 hw'.1
  have hk := h1.inv.base.conns j k a h4
  have h5 := (h1.inv.base.lock k w _ (List.getElem?_eq_getElem hk)).2 hw'
  have hk' : k < s.conns.length := by rw [← h2.length]; exact hk
  obtain ⟨n, h6, h7⟩ := h2.conns k _ (List.getElem?_eq_getElem hk')
  refine ⟨_, List.getElem?_eq_getElem hk', ?_⟩
  rw [List.getElem?_eq_getElem hk] at h6
  cases h6
  rw [← h7.lock, h5]

theorem locked (hT : RawIO.Honest T) (hR : RawIO.ReadsWithin T) (h : ANet.after prof rt nw s₀ as = some s) {w k : Nat} {c : AConn (Traced T)} (hc : s.conns[k]? = some c) (hl : c.lock = some w) :
    s.handled w = some k ∧ s.phase w ≠ .enter := by
  obtain ⟨s', h1, h2⟩ := C78_any hT hR h
  obtain ⟨n, h3, h4⟩ := h2.conns k c hc
  have := (h1.inv.base.lock k w n h3).1 (by rw [h4.lock, hl])
  exact ⟨by rw [← h2.handled]; exact this.1, by rw [← h2.phase]; exact this.2⟩

/-- C78: over streams of any kind, the listeners' state is what the router makes of it, asked about the requests of all connections one after the other. -/
theorem C78_asks (hT : RawIO.Honest T) (hR : RawIO.ReadsWithin T) (h : ANet.after prof rt nw s₀ as = some s) : Asked rt s₀ s.asks s.state := by
  obtain ⟨s', h1, h2⟩ := C78_any hT hR h
  rw [← h2.asks, ← h2.state]
  exact (C43_asks h1).1

/-- C78 (partial: as `C55_blame_partial`): over streams of any kind, a worker that ended by a panic was handling a connection on which a listener had panicked, or (only in debug builds) a
parser. Nothing a stream does, or says of itself, ends a worker. -/
theorem C78_blame_partial (hT : RawIO.Honest T) (hR : RawIO.ReadsWithin T) (h : ANet.after prof rt nw s₀ as = some s) {j : Nat} (hj : j ∈ s.pool.crashed) :
    ∃ k, s.jobs[j]? = some k ∧ (prof.overflowChecks = true ∨ ∃ q st, (k, q, st) ∈ s.asks ∧ (rt.result q st).1 = none) := by
  obtain ⟨s', h1, h2⟩ := C78_any hT hR h
  obtain ⟨k, a, h3, h4⟩ := C55_blame_partial h1 (h2.pool ▸ hj)
  exact ⟨k, by rw [← h2.jobs, List.getElem?_map, h3]; rfl, by rw [← h2.asks]; exact h4⟩

/-- C78 (partial: as `C55_release_partial`): in release builds, if no listener panics, no worker ends and the event loop goes on, over streams of any kind. -/
theorem C78_release_partial (hT : RawIO.Honest T) (hR : RawIO.ReadsWithin T) (h : ANet.after ⟨false⟩ rt nw s₀ as = some s) (hr : ∀ q st, (rt.result q st).1 ≠ none) :
    s.pool.crashed = [] ∧ s.pool.owner = .using := by
  obtain ⟨s', h1, h2⟩ := C78_any hT hR h
  rw [← h2.pool]
  exact C55_release_partial h1 hr

theorem bytesOf_told (es : List Ev) : bytesOf ((Ev.told es).flatMap Ev.atoms) = bytesOf (es.flatMap Ev.atoms) := by
  induction es with
  | nil => rfl
  | cons e es ih =>
    rw [List.flatMap_cons, bytesOf_app, ← ih, Ev.told, List.filter_cons]
    by_cases he : e = .err .wouldBlock
    · subst he
      rfl
    · rw [if_pos (by simpa using he), List.flatMap_cons, bytesOf_app]
      rfl

theorem CutWell.told {log : List Ev} (h : CutWell log) : CutWell (Ev.told log) :=
  h.filter _ fun ev _ hf => by
    obtain rfl : ev = .err .wouldBlock := by simpa using hf
    rfl

theorem brings_told {log : List Ev} {w : Bytes} (hlog : ∀ ev ∈ log, ev = .err .wouldBlock ∨ ∃ b, ev = .data b ∧ b ≠ []) (hc : AnyCut w) (hgot : log.flatMap Ev.bytes <+: w) :
    Brings (Ev.told log) w := by
  refine ⟨⟨fun ev he => ?_, (hc.cutWell hgot).told⟩, by rw [bytesOf_told, bytesOf_got]; exact hgot⟩
  obtain ⟨h3, h4⟩ := List.mem_filter.1 he
  rcases hlog ev h3 with rfl | ⟨b, rfl, hb⟩
  · simp at h4
  · exact ⟨b, rfl, hb⟩

/-- C78 (partial: as `C66_kept_partial`): over streams of any kind, what an open connection keeps of its input is bounded by what was read from it, and 3 MiB; when overflow is checked by 10 MiB in any
case; and of its output it keeps no more than all answers to the requests read so far. -/
theorem C78_kept_partial (hT : RawIO.Honest T) (hR : RawIO.ReadsWithin T) (h : ANet.after prof rt nw s₀ as = some s) {k : Nat} {c : AConn (Traced T)} {conn : SharedConn (ServerStack (Traced T))}
    (hc : s.conns[k]? = some c) (hs : c.slot = .live conn) :
    (conn.parser.getD .new).memory ≤ received c.raw.log + 3 * 1024 * 1024 ∧
    (prof.overflowChecks = true → (conn.parser.getD .new).memory ≤ 10 * 1024 * 1024) ∧
    conn.reader.stream.val.buf.length ≤ answered rt (asksOn k s.asks) := by
  obtain ⟨s', h1, h2⟩ := C78_any hT hR h
  obtain ⟨n, h3, h4⟩ := h2.conns k c hc
  have h5 := h4.slot
  rw [hs] at h5
  generalize hn : n.slot = l at h5
  cases h5 with
  | live h6 =>
    obtain ⟨g1, g2, -, g3⟩ := C66_kept_partial h1 h3 hn
    rw [h6.parser] at g1 g2
    rw [h6.buf, (C43_asks h1).2 k n h3, h2.asks] at g3
    refine ⟨?_, g2, g3⟩
    rwa [received, h4.arrived, bytesOf_told, ← received] at g1

/-! ## Connections that nobody uses -/

/-- Nothing that was read is left unparsed, and the stream is as it is after it has said that it has nothing to read. -/
def AtRest (E : Traced T → Prop) (c : SharedConn (ServerStack (Traced T))) : Prop := c.reader.stream.val.inner.val.buf = [] ∧ E c.reader.stream.val.inner.val.inner

/-- Connections that nobody uses, or that are being given back, are at rest. -/
def ANet.Resting (E : Nat → Traced T → Prop) (s : ANet (Traced T) σ) : Prop := ∀ (k : Nat) (c : AConn (Traced T)) (conn : SharedConn (ServerStack (Traced T))), s.conns[k]? = some c → c.slot = .live conn →
  (∀ w, c.lock = some w → s.phase w = .leaving) → AtRest (E k) conn

omit [RawIO T] in
theorem ANet.Resting.upd {E : Nat → Traced T → Prop} {s t : ANet (Traced T) σ} (h : s.Resting E) {k : Nat} {c' : AConn (Traced T)} (hc : t.conns = s.conns.set k c')
    (hp : ∀ j c w, j ≠ k → s.conns[j]? = some c → c.lock = some w → t.phase w = .leaving → s.phase w = .leaving)
    (hk : ∀ conn, c'.slot = .live conn → (∀ w, c'.lock = some w → t.phase w = .leaving) → AtRest (E k) conn) : t.Resting E := by
  intro j c conn h1 h2 h3
  rw [hc] at h1
  by_cases hj : j = k
  · subst hj
    rw [List.getElem?_set_self'] at h1
    cases hs : s.conns[j]? with
    | none => rw [hs] at h1; cases h1
    | some x => rw [hs] at h1; cases h1; exact hk conn h2 h3
  · rw [List.getElem?_set_ne (Ne.symm hj)] at h1
    exact h j c conn h1 h2 fun w hw => hp j c w hj h1 hw (h3 w hw)

theorem readRequest_rest {P : Traced T → Prop} (hP : RawKeeps P) (hE : ∀ (t t' : Traced T) n, P t → RawIO.read t n = (.error .wouldBlock, t') → E t') {c c' : SharedConn (ServerStack (Traced T))}
    (hp : P c.reader.stream.val.inner.val.inner) (h : c.readRequest prof = (.notReady, c')) : AtRest E c' := by
  have h1 := (server_quits (T := Traced T) ⟨hP.read⟩).stops.request prof (c.parser.getD .new) (r := c.reader) hp
  unfold Conn.readRequest at h
  generalize RequestParser.parse prof (c.parser.getD .new) c.reader = x at h h1
  obtain ⟨o, r⟩ := x
  cases o with
  | io p e =>
    by_cases he : e = .wouldBlock
    · subst he
      cases h
      obtain ⟨h2, t, n, h4, h3⟩ := h1.2 _ rfl
      exact ⟨h2, hE _ _ _ h4 h3⟩
    · simp only [if_neg he] at h
      by_cases hc : isClosed p e
      · simp only [if_pos hc] at h
        cases h
      · simp only [if_neg hc] at h
        cases h
  | _ => cases h

omit [RawIO T] in
theorem resting_event {E : Nat → Traced T → Prop} {s t : ANet (Traced T) σ} (h : s.Resting E) {k : Nat} {closed : Bool} (e : s.onEvent k closed = some t) : t.Resting E := by
  unfold ANet.onEvent at e
  split at e
  · cases e
  · next c hc =>
    split at e
    · cases e
      exact h
    · split at e
      · cases e
        exact h.upd (c' := { c with inTable := false }) rfl (fun _ _ _ _ _ _ hp => hp) fun conn h1 h2 => h k c conn hc h1 h2
      · split at e
        · cases e
        · cases e
          exact h

theorem resting_step {P E : Nat → Traced T → Prop} (hP : ∀ k, RawKeeps (P k)) (hE : ∀ k (t t' : Traced T) n, P k t → RawIO.read t n = (.error .wouldBlock, t') → E k t') {s t : ANet (Traced T) σ}
    (hl : ∀ k c w, s.conns[k]? = some c → c.lock = some w → s.handled w = some k ∧ s.phase w ≠ .enter) (hp : ∀ k c, s.conns[k]? = some c → P k c.raw) (h : s.Resting E) {a : AAct T}
    (ha : a.Leads E E s.conns.length) (e : s.step prof rt a.traced = some t) : t.Resting E := by
  cases a with
  | accept offer grow growOk x =>
    cases e
    intro k c conn h1 h2 h3
    dsimp only at h1
    by_cases hk : k < s.conns.length
    · rw [List.getElem?_append_left hk] at h1
      exact h k c conn h1 h2 h3
    · rw [List.getElem?_append_right (by omega)] at h1
      obtain ⟨hk', rfl⟩ : k - s.conns.length = 0 ∧ ANet.fresh offer grow ⟨x, [], []⟩ = c := by
        cases hj : k - s.conns.length with
        | zero => rw [hj] at h1; exact ⟨rfl, Option.some.inj h1⟩
        | succ j => rw [hj] at h1; cases h1
      obtain rfl : k = s.conns.length := by omega
      cases h2
      exact ⟨rfl, ha.new _ _ _ _ rfl⟩
  | change k env =>
    simp only [AAct.traced, ANet.step] at e
    split at e
    · cases e
    · next c hc =>
      cases e
      refine h.upd (c' := { c with slot := ANet.changed (fun t => { t with raw := env t.raw }) c.slot }) rfl (fun _ _ _ _ _ _ hp => hp) fun conn h1 h2 => ?_
      dsimp only at h1
      cases hs : c.slot with
      | live x =>
        rw [hs] at h1
        cases h1
        have := h k c x hc hs h2
        exact ⟨this.1, ha.change _ _ rfl _ this.2⟩
      | gone x => rw [hs] at h1; cases h1
      | poisoned x => rw [hs] at h1; cases h1
  | notify k =>
    simp only [AAct.traced, ANet.step] at e
    split at e
    · cases e
    · next c hc =>
      cases e
      exact h.upd (c' := { c with edge := true }) rfl (fun _ _ _ _ _ _ hp => hp) fun conn h1 h2 => h k c conn hc h1 h2
  | poll ks =>
    simp only [AAct.traced, ANet.step] at e
    split at e
    · cases e
      intro k c conn h1 h2 h3
      simp only [List.getElem?_mapIdx] at h1
      obtain ⟨d, h4, rfl⟩ := Option.map_eq_some_iff.1 h1
      refine h k d conn h4 ?_ fun w hw => h3 w ?_
      · split at h2 <;> exact h2
      · split <;> exact hw
    · cases e
  | dispatch closed =>
    simp only [AAct.traced, ANet.step] at e
    split at e
    · cases e
    · next k ks _ => exact resting_event (s := { s with batch := ks }) h e
  | stray k closed => exact resting_event h (show s.onEvent k closed = some t from e)
  | work w =>
    simp only [AAct.traced, ANet.step] at e
    split at e
    · cases e
    · obtain ⟨pool, -, rfl⟩ := Option.map_eq_some_iff.1 e
      intro k c conn h1 h2 h3
      refine h k c conn h1 h2 fun v hv => ?_
      have := h3 v hv
      simp only [ANet.setPhase] at this
      split at this
      · cases this
      · exact this
  | lock w =>
    simp only [AAct.traced, ANet.step] at e
    split at e
    · cases e
    · next k hw =>
      split at e
      · cases e
      · next c hc =>
        split at e
        · next hcond =>
          have hph : ∀ (p : Phase) j d v, j ≠ k → s.conns[j]? = some d → d.lock = some v → (s.setPhase w p).phase v = .leaving → s.phase v = .leaving := by
            intro p j d v hj hd hv hp
            simp only [ANet.setPhase] at hp
            split at hp
            · next hv' =>
              subst hv'
              have := (hl j d v hd hv).1
              rw [hw] at this
              exact absurd (Option.some.inj this).symm hj
            · exact hp
          unfold ANet.enter at e
          split at e
          · obtain ⟨pool, -, rfl⟩ := Option.map_eq_some_iff.1 e
            exact h
          · next hs =>
            cases e
            refine h.upd (k := k) (c' := { c with lock := some w }) rfl (hph .leaving) fun conn h1 h2 => ?_
            dsimp only at h1
            rw [hs] at h1
            cases h1
          · next hs =>
            cases e
            refine h.upd (k := k) (c' := { c with lock := some w }) rfl (hph .flushing) fun conn h1 h2 => ?_
            have := h2 w rfl
            simp [ANet.setPhase] at this
        · cases e
  | go w rounds =>
    simp only [AAct.traced, ANet.step] at e
    split at e
    · cases e
    · next k hw =>
      split at e
      · cases e
      · next c hc =>
        split at e
        · next hlk =>
          have hph : ∀ (p : Phase) j d v, j ≠ k → s.conns[j]? = some d → d.lock = some v → (s.setPhase w p).phase v = .leaving → s.phase v = .leaving := by
            intro p j d v hj hd hv hp
            simp only [ANet.setPhase] at hp
            split at hp
            · next hv' =>
              subst hv'
              have := (hl j d v hd hv).1
              rw [hw] at this
              exact absurd (Option.some.inj this).symm hj
            · exact hp
          have hgone : ∀ (x : SharedConn (ServerStack (Traced T))) (p : Phase), ((s.setConn k { c with slot := .gone x }).setPhase w p).Resting E := fun x p =>
            h.upd (k := k) rfl (hph p) fun conn h1 _ => by cases h1
          have hlive : ∀ (x : SharedConn (ServerStack (Traced T))) (p : Phase), (p = .leaving → AtRest (E k) x) → ((s.setConn k { c with slot := .live x }).setPhase w p).Resting E := fun x p hx =>
            h.upd (k := k) rfl (hph p) fun conn h1 h2 => by
              cases h1
              have := h2 w hlk
              simp only [ANet.setPhase, if_true] at this
              exact hx this
          have hcrash : ∀ (s₁ : ANet (Traced T) σ) (x : SharedConn (ServerStack (Traced T))), s₁.conns = s.conns → s₁.phase = s.phase → ∀ t, s₁.crash w k c x = some t → t.Resting E := by
            intro s₁ x h1 h2 t ht
            obtain ⟨pool, -, rfl⟩ := Option.map_eq_some_iff.1 ht
            exact h.upd (k := k) (c' := { c with slot := .poisoned (ANet.droppedConn x), lock := none }) (by simp [ANet.setConn, h1]) (fun _ _ _ _ _ _ hp => by rw [← h2]; exact hp) fun conn h1 _ => by cases h1
          unfold ANet.advance at e
          split at e
          · split at e
            · rw [← (unlessHung_some e).2]
              exact hgone _ _
            · rw [← (unlessHung_some e).2]
              exact hlive _ _ nofun
          · next hs =>
            split at e
            · cases e
              exact hlive _ _ nofun
            · next hr =>
              cases e
              have hpk := hp k c hc
              rw [AConn.raw, hs] at hpk
              exact hlive _ _ fun _ => readRequest_rest (hP k) (hE k) (by exact hpk) hr
            · cases e
              exact hgone _ _
            · split at e
              · cases e
              · rw [← (unlessHung_some e).2]
                exact hgone _ _
            · exact hcrash s _ rfl rfl _ e
            · cases e
          · next hp hs =>
            dsimp only at e
            split at e
            · exact hcrash { s with asks := s.asks ++ [(k, _, s.state)], state := (rt.result _ s.state).2 } _ rfl rfl _ e
            · cases e
              refine h.upd (k := k) (c' := c) rfl (hph _) fun conn h1 h2 => ?_
              have := h2 w hlk
              simp [ANet.setPhase] at this
          · split at e
            · split at e
              · rw [← (unlessHung_some e).2]
                exact hgone _ _
              · rw [← (unlessHung_some e).2]
                exact hlive _ _ nofun
            · rw [← (unlessHung_some e).2]
              exact hgone _ _
            · cases e
          · next hp =>
            obtain ⟨pool, -, rfl⟩ := Option.map_eq_some_iff.1 e
            exact h.upd (k := k) (c' := { c with lock := none }) rfl (hph .enter) fun conn h1 _ => h k c conn hc h1 fun v hv => by
              rw [hlk] at hv
              cases hv
              exact hp
          · cases e
        · cases e

theorem after_snoc {a : AAct T} (h : ANet.after prof rt nw s₀ (as ++ [a]) = some s) : ∃ s₁, ANet.after prof rt nw s₀ as = some s₁ ∧ s₁.step prof rt a.traced = some s := by
  obtain ⟨s₂, h1, h2⟩ := Option.bind_eq_some_iff.1 h
  have hrun : ∀ (bs : List (AAct (Traced T))) (s₂ : ANet (Traced T) σ), s₂.run prof rt (bs ++ [a.traced]) = some s → ∃ s₁, s₂.run prof rt bs = some s₁ ∧ s₁.step prof rt a.traced = some s := by
    intro bs
    induction bs with
    | nil =>
      intro s₂ h
      obtain ⟨s₃, h3, h4⟩ := Option.bind_eq_some_iff.1 h
      cases h4
      exact ⟨s₂, rfl, h3⟩
    | cons b bs ih =>
      intro s₂ h
      obtain ⟨s₃, h3, h4⟩ := Option.bind_eq_some_iff.1 h
      obtain ⟨s₁, h5, h6⟩ := ih s₃ h4
      exact ⟨s₁, by rw [ANet.run, h3]; exact h5, h6⟩
  rw [List.map_append] at h2
  obtain ⟨s₁, h3, h4⟩ := hrun _ _ h2
  exact ⟨s₁, by rw [ANet.after, h1]; exact h3, h4⟩

theorem resting (hT : RawIO.Honest T) (hR : RawIO.ReadsWithin T) (hE : ∀ (t t' : Traced T) n, RawIO.read t n = (.error .wouldBlock, t') → E t') (ha : ∀ a ∈ as, a.Allowed E) (h : ANet.after prof rt nw s₀ as = some s) : s.Resting fun _ => E := by
  obtain ⟨bs, rfl⟩ : ∃ bs : List (AAct T), as = bs.reverse := ⟨as.reverse, by simp⟩
  induction bs generalizing s with
  | nil =>
    obtain ⟨s₁, h1, h2⟩ := Option.bind_eq_some_iff.1 h
    obtain ⟨pool, -, rfl⟩ := Option.map_eq_some_iff.1 h1
    cases h2
    intro k c conn hc
    cases hc
  | cons a bs ih =>
    rw [List.reverse_cons] at h
    obtain ⟨s₁, h1, h2⟩ := after_snoc h
    have ha' := ha a (by simp)
    refine resting_step (P := fun _ _ => True) (fun _ => { write := fun _ _ => trivial, flush := fun _ _ => trivial, read := fun _ _ => trivial, drop := fun _ => trivial }) (fun _ t t' n _ => hE t t' n)
      (fun k c w hc hw => locked hT hR h1 hc hw) (fun _ _ _ => trivial) (ih (fun a hm => ha a (by simp only [List.reverse_cons, List.mem_append]; exact .inl hm)) h1)
      ⟨fun _ _ _ h => h, fun _ _ _ _ e => ?_, fun _ _ e => ?_⟩ h2
    · subst e; exact ha'
    · subst e; exact ha'

theorem wouldBlock_last {t t' : Traced T} {n : Nat} (h : RawIO.read t n = (.error .wouldBlock, t')) : t'.log.getLast? = some (.err .wouldBlock) := by
  simp only [RawIO.read] at h
  generalize RawIO.read t.raw n = y at h
  obtain ⟨y, t₁⟩ := y
  cases y with
  | ok b => cases h
  | error e =>
    obtain ⟨h4, h5⟩ := Prod.mk.inj h
    cases h4
    rw [← h5]
    simp

/-- C78: at any time, over streams of any kind, when no worker holds the mutex of an open connection, nothing that the server has read from the connection is left to be parsed, and the last thing
its stream said was `WouldBlock`, unless it has not been asked yet. (The poll in poll.rs 39 is edge-triggered.) -/
theorem C78_waits (hT : RawIO.Honest T) (hR : RawIO.ReadsWithin T) (h : ANet.after prof rt nw s₀ as = some s) {k : Nat} {c : AConn (Traced T)} {conn : SharedConn (ServerStack (Traced T))}
    (hc : s.conns[k]? = some c) (hl : c.lock = none) (hs : c.slot = .live conn) :
    conn.reader.stream.val.inner.val.buf = [] ∧ (c.raw.log = [] ∨ c.raw.log.getLast? = some (.err .wouldBlock)) := by
  have := resting (E := fun t => t.log = [] ∨ t.log.getLast? = some (.err .wouldBlock)) hT hR (fun t t' n e => .inr (wouldBlock_last e))
    (fun a _ => by cases a <;> simp [AAct.Allowed]) h k c conn hc hs fun w hw => by rw [hl] at hw; cases hw
  rw [AConn.raw, hs]
  exact this

/-! ## What is asked and answered -/

/-- On a connection that nobody uses, and on which everything was read, all complete requests were asked about, and there is none in the rest. -/
theorem idle_rest {s : Net σ} (h : Net.Reach prof rt nw s₀ s) {k : Nat} {c : NConn σ} (hc : s.conns[k]? = some c) (hl : c.lock = none)
    {conn : Conn Rd Nbw} (hs : c.slot = .live conn) (ha : conn.reader.src.atoms = []) {N : Nat}
    (hN : 28 ≤ N) (hrt : ∀ a ∈ asksOn k s.asks, ∀ r, rt.Says a r → r.PartsLe N)
    {ms : List (Bytes × Request)} (hms : ∀ m ∈ ms, FittingRequest m.1 m.2) (hi : .err .interrupted ∉ c.arrived) (hcut : CutWell c.arrived)
    (hb : bytesOf (c.arrived.flatMap Ev.atoms) <+: ms.flatMap Prod.fst) (hw : ∀ evs ∈ c.wakes, Tidy N 4096 evs) :
    ∃ ms₁ rest, ms₁ <+: ms ∧ bytesOf (c.arrived.flatMap Ev.atoms) = ms₁.flatMap Prod.fst ++ rest ∧ (∀ w q, FittingRequest w q → ¬ w <+: rest) ∧
      (asksOn k s.asks).map Prod.fst = ms₁.map Prod.snd ∧ AnsweredIn rt (asksOn k s.asks) conn.writer.total := by
  have h' := h.serial
  rw [← h'.seen k c hc] at hrt ⊢
  obtain ⟨evs, h2, h3⟩ := h'.runs hc hl
  have hfol : (rt.limited N).strict.Follows rt c.seen := fun q s ss hm => by rw [strict_follows _ c.seen q s ss hm, limited_same (hrt _ hm)]
  obtain ⟨slot, h4, h5⟩ := h3 _ hfol []
  rw [List.append_nil] at h4
  obtain ⟨offer, grow, growOk, flushes, hfirst⟩ := h.first hc
  have hah : (c.first.receiving evs).reader.Ahead (evs.flatMap Ev.atoms) := by
    rw [hfirst]
    exact ⟨rfl, rfl⟩
  obtain ⟨qs, out, s₁, r₁, tail, k1, k2, k3, k0, -, k5, k6⟩ := handleAll_sound (prof := prof) (strict_parts (limited_parts hN rt)) (s := c.seen)
    (c := c.first.receiving evs) hah.1 (by rw [hfirst]; exact .inr rfl) (cap := 4096) (by rw [hfirst]; exact Nat.le_refl _) hw
    (r₀ := (c.first.receiving evs).reader) (by rw [hfirst]; exact inProgress_new prof _)
  rw [hs] at h5
  cases h5 with
  | @live c' _ hsame =>
  have hl' : c'.reader.Ahead [] := ⟨by rw [hsame.lims]; exact (h'.conn k c hc).lims conn hs, by rw [hsame.input, ha]⟩
  have hmild : (c.first.receiving evs).Mild (evs.flatMap Ev.atoms) :=
    ⟨by rw [hfirst]; simp [Conn.receiving, Net.fresh, Conn.new, RequestParser.new, MsgState.Framed], _, hah, [], rfl, by simp⟩
  obtain ⟨-, as, g1, used, g2, g3⟩ := handleAll_mild hmild h4
  obtain rfl : as = [] := by rw [← g1.2, hl'.2]
  rw [List.append_nil] at g2
  have hbr : Brings c.arrived (ms.flatMap Prod.fst) := by
    refine ⟨⟨fun ev he => ?_, hcut⟩, hb⟩
    have he' := he
    rw [← h2] at he
    obtain ⟨he1, he2⟩ := List.mem_filter.1 he
    rcases log_mild (by rw [g2]; exact g3) he1 with ⟨b, rfl, hb⟩ | rfl | rfl
    · exact ⟨b, rfl, hb⟩
    · simp at he2
    · exact absurd he' hi
  obtain ⟨hsm, hby⟩ := hbr.events h2
  obtain ⟨-, k7, k8, -, k9⟩ := k6 c' (by rw [h4])
  rw [h4] at k7
  dsimp only at k7
  subst k7
  obtain ⟨ms₁, ms₂, as', e1, e2, e3, e4, e5, e6⟩ := heard_conform k1 hms hah hsm (by rw [hby]; exact hb)
  obtain ⟨as₁, d1, d2, d3⟩ := strict_served k2
  refine ⟨ms₁, bytesOf as', ⟨ms₂, e1.symm⟩, by rw [← hby, e6], fun w q hq => k9.idle e3 e4 hl' hq, by rw [d1, List.append_nil, d2, e2], ?_⟩
  have : (c.first.receiving evs).writer.total = [] := by rw [hfirst]; rfl
  rw [← hsame.writer, k8, this, List.nil_append]
  have := d3 [] .nil
  rw [List.append_nil] at this
  exact this.congr fun a ha => by rw [limited_same (hrt a ha)]

omit [RawIO T] in
theorem rel_tidy {F : Future} {c : AConn (Traced T)} {n : NConn σ} {E : Errs} (h : AConn.Rel E F c n) (hE : ¬ E.write .interrupted) : ∀ evs ∈ n.wakes, Tidy 4096 4096 evs :=
  fun evs he => ⟨fun hi => hE (h.wakes evs he _ hi _ rfl), .inr (Nat.le_refl _)⟩

omit [RawIO T] in
theorem rel_tidy_all {Er : Nat → Errs} {F : Nat → Future} {s' : Net σ} (h2 : ANet.Rel Er F s s') {k : Nat} (hE : ¬ (Er k).write .interrupted) {c : AConn (Traced T)} (hc : s.conns[k]? = some c) :
    ∀ n, s'.conns[k]? = some n → ∀ evs ∈ n.wakes, Tidy 4096 4096 evs := fun n hn => by
  obtain ⟨n', h3, h4⟩ := h2.all.conns k c hc
  rw [hn] at h3
  cases h3
  exact rel_tidy h4 hE

/-- The parts of some responses are not longer than some number. -/
theorem parts_bound (as : List (Request × σ)) : ∃ N, 28 ≤ N ∧ ∀ a ∈ as, ∀ r, rt.Says a r → r.PartsLe N := by
  have mono : ∀ {r : Response} {n m : Nat}, r.PartsLe n → n ≤ m → r.PartsLe m := fun {r n m} h hm =>
    ⟨by have := h.1; omega, by have := h.2.1; omega, by have := h.2.2.1; omega, fun p hp => ⟨by have := (h.2.2.2.1 p hp).1; omega, by have := (h.2.2.2.1 p hp).2; omega⟩, by have := h.2.2.2.2; omega⟩
  have one : ∀ r : Response, ∃ N, r.PartsLe N := by
    intro r
    have hl : ∀ l : List (Header × Bytes), ∃ N, ∀ p ∈ l, p.1.asStr.length ≤ N ∧ p.2.length ≤ N := by
      intro l
      induction l with
      | nil => exact ⟨0, fun p hp => (List.not_mem_nil hp).elim⟩
      | cons x l ih =>
        obtain ⟨N, h⟩ := ih
        refine ⟨N + x.1.asStr.length + x.2.length, fun p hp => ?_⟩
        rcases List.mem_cons.1 hp with rfl | hp
        · exact ⟨by omega, by omega⟩
        · have := h p hp
          exact ⟨by omega, by omega⟩
    obtain ⟨N, h⟩ := hl r.headers.flat
    exact ⟨N + 8 + (natDec r.status.code).length + r.status.reason.length + r.body.length, by omega, by omega, by omega, fun p hp => ⟨by have := (h p hp).1; omega, by have := (h p hp).2; omega⟩, by omega⟩
  induction as with
  | nil => exact ⟨28, Nat.le_refl _, fun a ha => (List.not_mem_nil ha).elim⟩
  | cons a as ih =>
    obtain ⟨N, h1, h2⟩ := ih
    by_cases hr : ∃ r, rt.Says a r
    · obtain ⟨r, hr⟩ := hr
      obtain ⟨M, h3⟩ := one r
      refine ⟨N + M, by omega, fun b hb r' hr' => ?_⟩
      rcases List.mem_cons.1 hb with rfl | hb
      · have : r' = r := by rcases hr with hr | hr <;> rcases hr' with hr' | hr' <;> rw [hr] at hr' <;> cases hr' <;> rfl
        subst this
        exact mono h3 (by omega)
      · exact mono (h2 b hb r' hr') (by omega)
    · refine ⟨N, h1, fun b hb r' hr' => ?_⟩
      rcases List.mem_cons.1 hb with rfl | hb
      · exact absurd ⟨r', hr'⟩ hr
      · exact h2 b hb r' hr'

omit [RawIO T] in
theorem rel_served {Er : Nat → Errs} {F : Nat → Future} {s' : Net σ} (h1 : Net.Reach prof rt nw s₀ s') (h2 : ANet.Rel Er F s s') {k N : Nat} {c : AConn (Traced T)} (hc : s.conns[k]? = some c) (hN : 28 ≤ N) (hw : ∀ n, s'.conns[k]? = some n → ∀ evs ∈ n.wakes, Tidy N 4096 evs)
    (hrt : ∀ a ∈ asksOn k s.asks, ∀ r, rt.Says a r → r.PartsLe N) {ms : List (Bytes × Request)} (hms : ∀ m ∈ ms, FittingRequest m.1 m.2) (hb : Brings (Ev.told c.raw.log) (ms.flatMap Prod.fst)) :
    (asksOn k s.asks).map Prod.fst <+: ms.map Prod.snd ∧ ∃ out, AnsweredIn rt (asksOn k s.asks) out ∧ c.raw.put <+: out := by
  obtain ⟨n, h3, h4⟩ := h2.all.conns k c hc
  have h5 := C60_server_partial h1 h3 hN (by rw [h2.asks]; exact hrt) hms (by rw [h4.arrived]; exact hb) (hw n h3)
  rw [h2.asks] at h5
  have h6 : n.slot.conn.writer.sock.sent = c.raw.put := by
    have := h4.slot
    rw [AConn.raw]
    generalize c.slot = l at this
    generalize n.slot = l' at this
    cases this with
    | live x _ => exact x.sent
    | gone x => exact x.sent
    | poisoned x => exact x.sent
  rw [h6] at h5
  exact h5

theorem rel_answered (hT : RawIO.Honest T) (hR : RawIO.ReadsWithin T) (h : ANet.after prof rt nw s₀ as = some s) {Er : Nat → Errs} {F : Nat → Future} {s' : Net σ} (h1 : Net.Reach prof rt nw s₀ s') (h2 : ANet.Rel Er F s s') {k N : Nat} {c : AConn (Traced T)} {conn : SharedConn (ServerStack (Traced T))} (hc : s.conns[k]? = some c)
    (hl : c.lock = none) (hs : c.slot = .live conn) (hN : 28 ≤ N) (hw : ∀ n, s'.conns[k]? = some n → ∀ evs ∈ n.wakes, Tidy N 4096 evs) (hrt : ∀ a ∈ asksOn k s.asks, ∀ r, rt.Says a r → r.PartsLe N) {ms : List (Bytes × Request)} (hms : ∀ m ∈ ms, FittingRequest m.1 m.2)
    (hi : .err .interrupted ∉ c.raw.log) (hcut : CutWell c.raw.log) (hgot : c.raw.got <+: ms.flatMap Prod.fst) :
    ∃ ms₁ rest out, ms₁ <+: ms ∧ c.raw.got = ms₁.flatMap Prod.fst ++ rest ∧ (∀ w q, FittingRequest w q → ¬ w <+: rest) ∧ (asksOn k s.asks).map Prod.fst = ms₁.map Prod.snd ∧
      AnsweredIn rt (asksOn k s.asks) out ∧ c.raw.put ++ conn.reader.stream.val.buf.drop conn.reader.stream.val.pos = out := by
  obtain ⟨n, h3, h4⟩ := h2.all.conns k c hc
  have h5 := h4.slot
  rw [hs] at h5
  generalize hn : n.slot = l at h5
  cases h5 with
  | live h6 =>
    next m ws =>
    have hgb : bytesOf (c.raw.log.flatMap Ev.atoms) = c.raw.got := bytesOf_got _
    have hmem : ∀ ev, ev ∈ n.arrived → ev ∈ c.raw.log := fun ev he => by
      rw [h4.arrived] at he
      exact (List.mem_filter.1 he).1
    have hna : bytesOf (n.arrived.flatMap Ev.atoms) = c.raw.got := by rw [h4.arrived, bytesOf_told, hgb]
    obtain ⟨ms₁, rest, g1, g2, g3, g4, g5⟩ := idle_rest h1 h3 (by rw [h4.lock, hl]) hn (by rw [h6.unread, (C78_waits hT hR h hc hl hs).1]; rfl) hN (by rw [h2.asks]; exact hrt) hms
      (fun he => hi (hmem _ he)) (by rw [h4.arrived]; exact hcut.told) (by rw [hna]; exact hgot) (hw n h3)
    rw [hna] at g2
    rw [h2.asks] at g4 g5
    refine ⟨ms₁, rest, _, g1, g2, g3, g4, g5, ?_⟩
    rw [Nbw.total, Nbw.pending, h6.buf, h6.pos, h6.sent, AConn.raw, hs]
    rfl

theorem never_errs (hE : ∀ (f : Nat) (t t' : T) (b : Bytes), Wr.write f t b ≠ some (.error .interrupted, t')) : ErrsIn (T := T) (fun _ => True) .calm := by
  refine ⟨fun _ _ _ => trivial, fun {f t t' b e} _ hw he => ?_, fun _ _ => trivial⟩
  subst he
  obtain ⟨⟨y, t₁⟩, h1, h2⟩ := Option.map_eq_some_iff.1 hw
  cases y with
  | ok n => cases h2
  | error e =>
    cases h2
    exact hE _ _ _ _ h1

/-- C78 (partial: for responses in parts of at most 4096 bytes, streams that are never interrupted, and reads that do not cut a character): at every time, on every schedule of the event loop, of the
workers and of the clients, over streams of any kind: if what was read from a connection is the beginning of the texts of some requests, the router was asked about the first of these requests, each
once and in order, and what was written to the stream is the beginning of its answers. -/
theorem C78_served_partial (hT : RawIO.Honest T) (hR : RawIO.ReadsWithin T) (hE : ∀ (f : Nat) (t t' : T) (b : Bytes), Wr.write f t b ≠ some (.error .interrupted, t'))
    (h : ANet.after prof rt nw s₀ as = some s) {k : Nat} {c : AConn (Traced T)} (hc : s.conns[k]? = some c) (hrt : ∀ a ∈ asksOn k s.asks, ∀ r, rt.Says a r → r.PartsLe 4096)
    {ms : List (Bytes × Request)} (hms : ∀ m ∈ ms, FittingRequest m.1 m.2) (hb : Brings (Ev.told c.raw.log) (ms.flatMap Prod.fst)) :
    (asksOn k s.asks).map Prod.fst <+: ms.map Prod.snd ∧ ∃ out, AnsweredIn rt (asksOn k s.asks) out ∧ c.raw.put <+: out := by
  obtain ⟨-, s', h1, h2⟩ := any_reach hT hR { write := fun _ _ => trivial, flush := fun _ _ => trivial, read := fun _ _ => trivial, drop := fun _ => trivial } (never_errs hE)
    (fun a _ => by cases a <;> simp [AAct.Allowed]) h
  exact rel_served h1 h2 hc (by decide) (rel_tidy_all h2 (fun h => h rfl) hc) hrt hms hb

/-- C78 (partial: for responses in parts of at most 4096 bytes, streams that are never interrupted, and reads that do not cut a character): at every time, over streams of any kind: if what was read from
a connection is the beginning of the texts of some requests, and the connection is open and no worker holds its mutex, the router was asked about all requests that came whole, and no other, in order,
and the answers have been written or are held to be written: there is no further request in the rest. -/
theorem C78_answered_partial (hT : RawIO.Honest T) (hR : RawIO.ReadsWithin T) (hE : ∀ (f : Nat) (t t' : T) (b : Bytes), Wr.write f t b ≠ some (.error .interrupted, t'))
    (h : ANet.after prof rt nw s₀ as = some s) {k : Nat} {c : AConn (Traced T)} {conn : SharedConn (ServerStack (Traced T))} (hc : s.conns[k]? = some c) (hl : c.lock = none) (hs : c.slot = .live conn)
    (hrt : ∀ a ∈ asksOn k s.asks, ∀ r, rt.Says a r → r.PartsLe 4096) {ms : List (Bytes × Request)} (hms : ∀ m ∈ ms, FittingRequest m.1 m.2)
    (hi : .err .interrupted ∉ c.raw.log) (hcut : CutWell c.raw.log) (hgot : c.raw.got <+: ms.flatMap Prod.fst) :
    ∃ ms₁ rest out, ms₁ <+: ms ∧ c.raw.got = ms₁.flatMap Prod.fst ++ rest ∧ (∀ w q, FittingRequest w q → ¬ w <+: rest) ∧ (asksOn k s.asks).map Prod.fst = ms₁.map Prod.snd ∧
      AnsweredIn rt (asksOn k s.asks) out ∧ c.raw.put ++ conn.reader.stream.val.buf.drop conn.reader.stream.val.pos = out := by
  obtain ⟨-, s', h1, h2⟩ := any_reach hT hR { write := fun _ _ => trivial, flush := fun _ _ => trivial, read := fun _ _ => trivial, drop := fun _ => trivial } (never_errs hE)
    (fun a _ => by cases a <;> simp [AAct.Allowed]) h
  exact rel_answered hT hR h h1 h2 hc hl hs (by decide) (rel_tidy_all h2 (fun h => h rfl) hc) hrt hms hi hcut hgot

end

/-! ## Over TLS -/

section

variable {σ : Type} {prof : Profile} {rt : Router σ} {nw : Nat} {s₀ : σ} {Er : Nat → Errs}

/-- What holds of the stream of a connection, given its cipher and all that has arrived, whatever happens below it that is allowed after what has happened before. -/
structure TlsLeads (K : Nat → Cipher → List TlsEv → Traced TlsStream → Prop) (Ok : List HttpsAct → HttpsAct → Prop) : Prop where
  new : ∀ pre offer grow growOk cipher evs flushes, Ok pre (.accept offer grow growOk cipher evs flushes) →
    K (HttpsAct.given pre).length cipher [] ⟨.new cipher false [] ⟨evs, flushes, []⟩, [], []⟩
  arrive : ∀ pre k es, Ok pre (.arrive k es) → ∀ cipher input t, (HttpsAct.given pre)[k]? = some (cipher, input) → K k cipher input t →
    K k cipher (input ++ es) { t with raw := { t.raw with input := t.raw.input ++ es } }
  room : ∀ pre k evs flushes, Ok pre (.room k evs flushes) → ∀ cipher input t, (HttpsAct.given pre)[k]? = some (cipher, input) → K k cipher input t → K k cipher input { t with raw := { t.raw with sock := { t.raw.sock with evs, flushes } } }

/-- The same, and the operations of the stream preserve it. -/
structure TlsStays (K : Nat → Cipher → List TlsEv → Traced TlsStream → Prop) (Ok : List HttpsAct → HttpsAct → Prop) (Er : Nat → Errs) : Prop extends TlsLeads K Ok where
  keeps : ∀ k cipher input, RawKeeps (K k cipher input)
  errs : ∀ k cipher input, ErrsIn (K k cipher input) (Er k)

theorem given_snoc (hs : List HttpsAct) (a : HttpsAct) : HttpsAct.given (hs ++ [a]) = match a with
    | .accept _ _ _ cipher _ _ => HttpsAct.given hs ++ [(cipher, [])]
    | .arrive k es => (HttpsAct.given hs).modify k fun x => (x.1, x.2 ++ es)
    | _ => HttpsAct.given hs := by
  unfold HttpsAct.given
  rw [List.foldl_append]
  rfl

theorem given_length (hs : List HttpsAct) : (HttpsAct.given hs).length = AAct.accepted (hs.map HttpsAct.act) := by
  obtain ⟨bs, rfl⟩ : ∃ bs : List HttpsAct, hs = bs.reverse := ⟨hs.reverse, by simp⟩
  induction bs with
  | nil => rfl
  | cons a bs ih =>
    rw [List.reverse_cons, given_snoc, List.map_append, AAct.accepted_append]
    cases a <;> simp [ih, AAct.accepted, HttpsAct.act]

/-- What holds of the stream of connection `k` after as many of `hs` as there are in `hist`. -/
def TlsHist (K : Nat → Cipher → List TlsEv → Traced TlsStream → Prop) (hs : List HttpsAct) (hist : List (AAct TlsStream)) (k : Nat) (t : Traced TlsStream) : Prop :=
  ∃ cipher input, (HttpsAct.given (hs.take hist.length))[k]? = some (cipher, input) ∧ K k cipher input t

theorem TlsStays.hist {K : Nat → Cipher → List TlsEv → Traced TlsStream → Prop} {Ok : List HttpsAct → HttpsAct → Prop} (hK : TlsStays K Ok Er) (hs : List HttpsAct) (hist : List (AAct TlsStream)) (k : Nat) :
    RawKeeps (TlsHist K hs hist k) where
  write := fun e ⟨cipher, input, h1, h2⟩ => ⟨cipher, input, h1, (hK.keeps k cipher input).write e h2⟩
  flush := fun e ⟨cipher, input, h1, h2⟩ => ⟨cipher, input, h1, (hK.keeps k cipher input).flush e h2⟩
  read := fun e ⟨cipher, input, h1, h2⟩ => ⟨cipher, input, h1, (hK.keeps k cipher input).read e h2⟩
  drop := fun ⟨cipher, input, h1, h2⟩ => ⟨cipher, input, h1, (hK.keeps k cipher input).drop h2⟩

theorem TlsLeads.leads {K : Nat → Cipher → List TlsEv → Traced TlsStream → Prop} {Ok : List HttpsAct → HttpsAct → Prop} (hK : TlsLeads K Ok) {hs : List HttpsAct} (hok : ∀ pre a post, hs = pre ++ a :: post → Ok pre a)
    (pre : List (AAct TlsStream)) (a : AAct TlsStream) (post : List (AAct TlsStream)) (he : hs.map HttpsAct.act = pre ++ a :: post) :
    a.Leads (TlsHist K hs pre) (TlsHist K hs (pre ++ [a])) (AAct.accepted pre) := by
  unfold TlsHist
  obtain ⟨pre', r, rfl, rfl, h2⟩ := List.map_eq_append_iff.1 he
  obtain ⟨x, post', rfl, rfl, rfl⟩ := List.map_eq_cons_iff.1 h2
  have e1 : (pre' ++ x :: post').take (pre'.map HttpsAct.act).length = pre' := by simp
  have e2 : (pre' ++ x :: post').take (pre'.map HttpsAct.act ++ [x.act]).length = pre' ++ [x] := by
    rw [List.length_append, List.length_map, List.take_append, List.take_of_length_le (by omega)]
    simp
  have hx := hok pre' x post' rfl
  rw [e1, e2, ← given_length, given_snoc]
  refine ⟨fun j t hj ⟨cipher, input, h1, h2⟩ => ⟨cipher, input, ?_, h2⟩, fun offer grow growOk t e => ?_, fun k env e t ⟨cipher, input, h1, h3⟩ => ?_⟩
  · cases x with
    | accept => dsimp only; rw [List.getElem?_append_left (List.getElem?_eq_some_iff.1 h1).1, h1]
    | arrive k es =>
      dsimp only
      rw [List.getElem?_modify]
      have : k ≠ j := by
        rintro rfl
        exact hj _ rfl
      simp [this, h1]
    | _ => exact h1
  · cases x with
    | accept offer' grow' growOk' cipher evs flushes =>
      cases e
      exact ⟨cipher, [], by simp, hK.new _ _ _ _ _ _ _ hx⟩
    | _ => cases e
  · cases x with
    | arrive k' es =>
      cases e
      exact ⟨cipher, input ++ es, by dsimp only; rw [List.getElem?_modify]; simp [h1], hK.arrive _ _ _ hx _ _ _ h1 h3⟩
    | room k' evs flushes =>
      cases e
      exact ⟨cipher, input, h1, hK.room _ _ _ _ hx _ _ _ h1 h3⟩
    | _ => cases e

theorem https_reach {K : Nat → Cipher → List TlsEv → Traced TlsStream → Prop} {Ok : List HttpsAct → HttpsAct → Prop} (hK : TlsStays K Ok Er) {hs : List HttpsAct} (hok : ∀ pre a post, hs = pre ++ a :: post → Ok pre a) {s : ANet (Traced TlsStream) σ}
    (h : ANet.after prof rt nw s₀ (hs.map HttpsAct.act) = some s) :
    (∀ (k : Nat) (c : AConn (Traced TlsStream)), s.conns[k]? = some c → ∃ cipher input, (HttpsAct.given hs)[k]? = some (cipher, input) ∧ K k cipher input c.raw) ∧
      ∃ s', Net.Reach prof rt nw s₀ s' ∧ ANet.Rel Er (fun _ => ([], [])) s s' := by
  have key := any_reach_hist (Er := Er) (P := TlsHist K hs) tls_honest tls_within (hK.hist hs)
    (fun hist k => ⟨fun ⟨cipher, input, h1, h2⟩ => (hK.errs k cipher input).read h2, fun ⟨cipher, input, h1, h2⟩ => (hK.errs k cipher input).write h2, fun ⟨cipher, input, h1, h2⟩ => (hK.errs k cipher input).flush h2⟩)
    (as := hs.map HttpsAct.act) (hK.leads hok) h
  refine ⟨fun k c hc => ?_, key.2⟩
  have := (key.1 k c hc).inv
  rw [TlsHist, show (hs.map HttpsAct.act).length = hs.length by simp, List.take_length] at this
  exact this

theorem inv_arrive {cipher : Cipher} {input : List TlsEv} {t : Traced TlsStream} (h : TlsStream.Inv cipher input t.got t.put t.raw) (es : List TlsEv) :
    TlsStream.Inv cipher (input ++ es) t.got t.put { t.raw with input := t.raw.input ++ es } := by
  obtain ⟨u, h1, h2⟩ := h.heard
  exact ⟨h.cipher, h.log, ⟨u, by rw [h1, List.append_assoc], h2⟩, h.plain, h.wire, h.early⟩

theorem inv_room {cipher : Cipher} {input : List TlsEv} {t : Traced TlsStream} (h : TlsStream.Inv cipher input t.got t.put t.raw) (evs : List WEv) (flushes : List (Option IoError)) :
    TlsStream.Inv cipher input t.got t.put { t.raw with sock := { t.raw.sock with evs, flushes } } := ⟨h.cipher, h.log, h.heard, h.plain, h.wire, h.early⟩

theorem inv_stays : TlsStays (fun _ cipher input t => TlsStream.Inv cipher input t.got t.put t.raw) (fun _ _ => True) fun _ => .any where
  keeps _ cipher input := tls_keeps cipher input
  errs _ cipher input := errsIn_any
  new _ _ _ _ cipher evs fl _ := TlsStream.Inv.new cipher false [] evs fl
  arrive _ _ es _ cipher input t _ h := inv_arrive h es
  room _ _ evs fl _ cipher input t _ h := inv_room h evs fl

theorem rooms_snoc (hs : List HttpsAct) (a : HttpsAct) : HttpsAct.rooms (hs ++ [a]) = match a with
    | .accept _ _ _ _ evs _ => HttpsAct.rooms hs ++ [evs]
    | .room k evs _ => (HttpsAct.rooms hs).modify k fun x => x ++ evs
    | _ => HttpsAct.rooms hs := by
  unfold HttpsAct.rooms
  rw [List.foldl_append]
  rfl

theorem rooms_length (hs : List HttpsAct) : (HttpsAct.rooms hs).length = (HttpsAct.given hs).length := by
  obtain ⟨bs, rfl⟩ : ∃ bs : List HttpsAct, hs = bs.reverse := ⟨hs.reverse, by simp⟩
  induction bs with
  | nil => rfl
  | cons a bs ih =>
    rw [List.reverse_cons, given_snoc, rooms_snoc]
    cases a <;> simp [ih]

/-- What was given to a connection stays given. -/
theorem given_grows {pre : List HttpsAct} {k : Nat} {cipher : Cipher} {input : List TlsEv} (h : (HttpsAct.given pre)[k]? = some (cipher, input)) (post : List HttpsAct) :
    ∃ es, (HttpsAct.given (pre ++ post))[k]? = some (cipher, input ++ es) := by
  induction post generalizing pre input with
  | nil => exact ⟨[], by simpa using h⟩
  | cons a post ih =>
    have h1 : ∃ es, (HttpsAct.given (pre ++ [a]))[k]? = some (cipher, input ++ es) := by
      rw [given_snoc]
      cases a with
      | accept => exact ⟨[], by dsimp only; rw [List.getElem?_append_left (List.getElem?_eq_some_iff.1 h).1, h, List.append_nil]⟩
      | arrive j es =>
        dsimp only
        rw [List.getElem?_modify, h]
        by_cases hj : j = k
        · exact ⟨es, by simp [hj]⟩
        · exact ⟨[], by simp [hj]⟩
      | _ => exact ⟨[], by simpa using h⟩
    obtain ⟨es, h1⟩ := h1
    obtain ⟨es', h2⟩ := ih h1
    exact ⟨es ++ es', by rw [← List.append_assoc, ← h2]; simp⟩

theorem rooms_grow {pre : List HttpsAct} {k : Nat} {evs : List WEv} (h : (HttpsAct.rooms pre)[k]? = some evs) (post : List HttpsAct) :
    ∃ es, (HttpsAct.rooms (pre ++ post))[k]? = some (evs ++ es) := by
  induction post generalizing pre evs with
  | nil => exact ⟨[], by simpa using h⟩
  | cons a post ih =>
    have h1 : ∃ es, (HttpsAct.rooms (pre ++ [a]))[k]? = some (evs ++ es) := by
      rw [rooms_snoc]
      cases a with
      | accept => exact ⟨[], by dsimp only; rw [List.getElem?_append_left (List.getElem?_eq_some_iff.1 h).1, h, List.append_nil]⟩
      | room j es fl =>
        dsimp only
        rw [List.getElem?_modify, h]
        by_cases hj : j = k
        · exact ⟨es, by simp [hj]⟩
        · exact ⟨[], by simp [hj]⟩
      | _ => exact ⟨[], by simpa using h⟩
    obtain ⟨es, h1⟩ := h1
    obtain ⟨es', h2⟩ := ih h1
    exact ⟨es ++ es', by rw [← List.append_assoc, ← h2]; simp⟩

/-- What stays so of one connection, if what arrives at its socket is as `G` says and what its socket does is as `W` says. -/
theorem https_reach_one {K : Cipher → List TlsEv → Traced TlsStream → Prop} {E : Errs} {G : List TlsEv → Prop} {W : WEv → Prop} {k₀ : Nat}
    (keeps : ∀ cipher input, RawKeeps (K cipher input)) (errs : ∀ cipher input, ErrsIn (K cipher input) E)
    (new : ∀ cipher evs flushes, (∀ e ∈ evs, W e) → K cipher [] ⟨.new cipher false [] ⟨evs, flushes, []⟩, [], []⟩)
    (arrive : ∀ cipher input es t, G (input ++ es) → K cipher input t → K cipher (input ++ es) { t with raw := { t.raw with input := t.raw.input ++ es } })
    (room : ∀ cipher input evs flushes t, (∀ e ∈ evs, W e) → K cipher input t → K cipher input { t with raw := { t.raw with sock := { t.raw.sock with evs, flushes } } })
    (hG : ∀ u v, G (u ++ v) → G u) {hs : List HttpsAct} (hgiven : ∀ cipher input, (HttpsAct.given hs)[k₀]? = some (cipher, input) → G input)
    (hrooms : ∀ evs, (HttpsAct.rooms hs)[k₀]? = some evs → ∀ e ∈ evs, W e) {s : ANet (Traced TlsStream) σ} (h : ANet.after prof rt nw s₀ (hs.map HttpsAct.act) = some s) :
    (∀ (c : AConn (Traced TlsStream)), s.conns[k₀]? = some c → ∃ cipher input, (HttpsAct.given hs)[k₀]? = some (cipher, input) ∧ K cipher input c.raw) ∧
      ∃ s' Er, Net.Reach prof rt nw s₀ s' ∧ ANet.Rel Er (fun _ => ([], [])) s s' ∧ Er k₀ = E := by
  have hst : TlsStays (fun k cipher input t => k = k₀ → K cipher input t)
      (fun pre a => (∀ cipher input, (HttpsAct.given (pre ++ [a]))[k₀]? = some (cipher, input) → G input) ∧ ∀ evs, (HttpsAct.rooms (pre ++ [a]))[k₀]? = some evs → ∀ e ∈ evs, W e)
      (fun k => if k = k₀ then E else .any) := by
    refine ⟨⟨?_, ?_, ?_⟩, fun k cipher input => { write := fun e h hk => (keeps cipher input).write e (h hk), flush := fun e h hk => (keeps cipher input).flush e (h hk), read := fun e h hk => (keeps cipher input).read e (h hk), drop := fun h hk => (keeps cipher input).drop (h hk) },
      fun k cipher input => ?_⟩
    · intro pre offer grow growOk cipher evs fl hok hk
      refine new cipher evs fl (hok.2 evs ?_)
      rw [rooms_snoc]
      dsimp only
      rw [← hk, ← rooms_length]
      simp
    · rintro pre k es hok cipher input t hg ht rfl
      refine arrive cipher input es t (hok.1 cipher _ ?_) (ht rfl)
      rw [given_snoc]
      dsimp only
      rw [List.getElem?_modify, hg]
      simp
    · rintro pre k evs fl hok cipher input t hg ht rfl
      refine room cipher input evs fl t (fun e he => ?_) (ht rfl)
      have hlt := (List.getElem?_eq_some_iff.1 hg).1
      rw [← rooms_length] at hlt
      refine hok.2 ((HttpsAct.rooms pre)[k] ++ evs) ?_ e (List.mem_append_right _ he)
      rw [rooms_snoc]
      dsimp only
      rw [List.getElem?_modify, List.getElem?_eq_getElem hlt]
      simp
    · by_cases hk : k = k₀
      · rw [if_pos hk]
        exact (errs cipher input).of fun t ht => ht hk
      · rw [if_neg hk]
        exact errsIn_any
  obtain ⟨h1, s', h2, h3⟩ := https_reach hst (hs := hs) (fun pre a post e => by
    have e : hs = (pre ++ [a]) ++ post := by simp [e]
    refine ⟨fun cipher input hg => ?_, fun evs hr ev he => ?_⟩
    · obtain ⟨es, h1⟩ := given_grows hg post
      rw [← e] at h1
      exact hG _ _ (hgiven _ _ h1)
    · obtain ⟨es, h1⟩ := rooms_grow hr post
      rw [← e] at h1
      exact hrooms _ h1 ev (List.mem_append_left _ he)) h
  refine ⟨fun c hc => ?_, s', _, h2, h3, if_pos rfl⟩
  obtain ⟨cipher, input, g1, g2⟩ := h1 k₀ c hc
  exact ⟨cipher, input, g1, g2 rfl⟩

/-- The same if the socket is never interrupted. -/
theorem calm_reach {hs : List HttpsAct} {k : Nat} (hcalm : HttpsAct.Calm k hs) {s : ANet (Traced TlsStream) σ} (h : ANet.after prof rt nw s₀ (hs.map HttpsAct.act) = some s) :
    (∀ (c : AConn (Traced TlsStream)), s.conns[k]? = some c → ∃ cipher input, (HttpsAct.given hs)[k]? = some (cipher, input) ∧ TlsKept cipher input c.raw) ∧
      ∃ s' Er, Net.Reach prof rt nw s₀ s' ∧ ANet.Rel Er (fun _ => ([], [])) s s' ∧ Er k = .calm :=
  https_reach_one (G := fun input => .err .interrupted ∉ input) (W := fun e => e ≠ .err .interrupted) tlsKept_keeps (fun cipher input => (tls_calm_errs cipher input).of fun _ ht => ht.1)
    (fun cipher evs fl h => ⟨⟨TlsStream.Inv.new cipher false [] evs fl, by simp [TlsStream.new], fun hm => h _ hm rfl⟩, by simp⟩)
    (fun cipher input es t he h => ⟨⟨inv_arrive h.1.1 es, by
      simp only [List.mem_append, not_or] at he ⊢
      exact ⟨h.1.2.1, he.2⟩, h.1.2.2⟩, h.2⟩)
    (fun cipher input evs fl t he h => ⟨⟨inv_room h.1.1 evs fl, h.1.2.1, fun hm => he _ hm rfl⟩, h.2⟩)
    (fun u v h hm => h (List.mem_append_left _ hm)) hcalm.input (fun evs hr e he hi => hcalm.room evs hr (hi ▸ he)) h

/-- What stays so of a connection whose peer is orderly. -/
def TlsTidy (cipher : Cipher) (input : List TlsEv) (t : Traced TlsStream) : Prop :=
  TlsStream.Inv cipher input t.got t.put t.raw ∧ TlsEv.Orderly true input ∧ ∀ e, .err e ∈ t.raw.sock.evs → e = .wouldBlock

theorem TlsTidy.orderly {cipher : Cipher} {input : List TlsEv} {t : Traced TlsStream} (h : TlsTidy cipher input t) : t.raw.Orderly := by
  obtain ⟨u, h1, h2⟩ := h.1.heard
  have h3 := h.2.1
  rw [h1] at h3
  obtain ⟨g1, g2, g3⟩ := TlsEv.Orderly.heard (x := ⟨true, [], false, false⟩) h3 rfl rfl
  rw [h2] at g1 g2 g3
  exact ⟨g1, g2, g3, h.2.2, fun hh => (h.1.early hh).1⟩

theorem tlsTidy_keeps (cipher : Cipher) (input : List TlsEv) : RawKeeps (TlsTidy cipher input) where
  write {f w w' b x} e h := by
    refine ⟨(tls_keeps cipher input).write e h.1, h.2.1, ?_⟩
    have := TlsStream.write_orderly h.orderly b
    obtain ⟨⟨y, t⟩, h1, h2⟩ := Option.map_eq_some_iff.1 e
    have h1 : (y, t) = w.raw.write b := (Option.some.inj h1).symm
    rw [← h1] at this
    cases y <;> (cases h2; exact this.1.evs)
  flush {f w w' x} e h := by
    refine ⟨(tls_keeps cipher input).flush e h.1, h.2.1, ?_⟩
    obtain ⟨y, h1, h2⟩ := Option.map_eq_some_iff.1 e
    cases h2
    have h1 : y = w.raw.flush := (Option.some.inj h1).symm
    subst h1
    exact (TlsStream.flush_orderly h.orderly).1.evs
  read {t t' n x} e h := by
    refine ⟨(tls_keeps cipher input).read e h.1, h.2.1, ?_⟩
    have := (TlsStream.read_orderly h.orderly n).1.1.evs
    simp only [RawIO.read] at e
    generalize t.raw.read n = y at this e
    obtain ⟨y, t₁⟩ := y
    cases y <;> (cases e; exact this)
  drop {t} h := ⟨(tls_keeps cipher input).drop h.1, h.2.1, (TlsStream.flush_orderly (t := { t.raw with sess := t.raw.sess.sendCloseNotify }) ⟨h.orderly.good, h.orderly.here, h.orderly.input, h.orderly.evs, h.orderly.early⟩).1.evs⟩

theorem tlsTidy_errs (cipher : Cipher) (input : List TlsEv) : ErrsIn (TlsTidy cipher input) .full := by
  refine ⟨fun {t n e} h hn hr => ?_, fun {f t t' b e} h hw => ?_, fun {f t t' e} h hw => ?_⟩
  · obtain ⟨h1, h2⟩ := TlsStream.read_orderly h.orderly n
    simp only [RawIO.read] at hr
    generalize t.raw.read n = y at h1 h2 hr
    obtain ⟨y, t₁⟩ := y
    cases y with
    | ok b =>
      have hr := List.append_cancel_left hr
      simp only [List.cons.injEq, and_true] at hr
      exact .inr ⟨b, hr.symm, h2 hn b rfl⟩
    | error er =>
      have hr := List.append_cancel_left hr
      simp only [List.cons.injEq, and_true] at hr
      have := h1.2 er rfl
      subst this
      exact .inl hr.symm
  · have := TlsStream.write_orderly h.orderly b
    obtain ⟨⟨y, t₁⟩, h1, h2⟩ := Option.map_eq_some_iff.1 hw
    have h1 : (y, t₁) = t.raw.write b := (Option.some.inj h1).symm
    rw [← h1] at this
    cases y with
    | ok n => cases h2
    | error er =>
      cases h2
      exact this.2 e rfl
  · have := TlsStream.flush_orderly h.orderly
    obtain ⟨⟨y, t₁⟩, h1, h2⟩ := Option.map_eq_some_iff.1 hw
    have h1 : (y, t₁) = t.raw.flush := (Option.some.inj h1).symm
    rw [← h1] at this
    cases h2
    exact this.2 e rfl

/-- The same if the peer is orderly. -/
theorem orderly_reach {hs : List HttpsAct} {k : Nat} (hord : HttpsAct.Orderly k hs) {s : ANet (Traced TlsStream) σ} (h : ANet.after prof rt nw s₀ (hs.map HttpsAct.act) = some s) :
    (∀ (c : AConn (Traced TlsStream)), s.conns[k]? = some c → ∃ cipher input, (HttpsAct.given hs)[k]? = some (cipher, input) ∧ TlsTidy cipher input c.raw) ∧
      ∃ s' Er, Net.Reach prof rt nw s₀ s' ∧ ANet.Rel Er (fun _ => ([], [])) s s' ∧ Er k = .full :=
  https_reach_one (G := TlsEv.Orderly true) (W := fun ev => ∀ e, ev = .err e → e = .wouldBlock) tlsTidy_keeps tlsTidy_errs
    (fun cipher evs fl h => ⟨TlsStream.Inv.new cipher false [] evs fl, trivial, fun e he => h _ he e rfl⟩)
    (fun cipher input es t he h => ⟨inv_arrive h.1 es, he, h.2.2⟩)
    (fun cipher input evs fl t he h => ⟨inv_room h.1 evs fl, h.2.1, fun e hm => he _ hm e rfl⟩)
    (fun u v h => h.append) hord.input (fun evs hr ev he e hi => hord.room evs hr e (hi ▸ he)) h

/-- Every read from the session of an orderly peer that returned has brought something, or there was nothing at the time. -/
theorem orderly_log {hs : List HttpsAct} {k : Nat} (hord : HttpsAct.Orderly k hs) {s : ANet (Traced TlsStream) σ} (h : ANet.after prof rt nw s₀ (hs.map HttpsAct.act) = some s)
    {c : AConn (Traced TlsStream)} (hc : s.conns[k]? = some c) : ∀ ev ∈ c.raw.log, ev = .err .wouldBlock ∨ ∃ b, ev = .data b ∧ b ≠ [] := by
  obtain ⟨-, s', Er, h1, h2, hE⟩ := orderly_reach hord h
  obtain ⟨n, h3, h4⟩ := h2.all.conns k c hc
  rw [hE] at h4
  intro ev he
  by_cases hw : ev = .err .wouldBlock
  · exact .inl hw
  · exact h4.brought ev (by rw [h4.arrived]; exact List.mem_filter.2 ⟨he, by simpa using hw⟩)

/-- A new parser waits if there is nothing to read. -/
theorem blank_waits {c : Conn Rd Nbw} (hp : c.parser.getD .new = .new) (hr : c.reader.Ahead []) : ∃ r, c.readRequest prof = (.notReady, { c with reader := r, parser := some .new }) ∧ r.Ahead [] := by
  rcases parse_idle prof (p := .new) trivial with h | h | h
  · obtain ⟨r, h1, h2⟩ := h c.reader [] hr (.inl rfl)
    refine ⟨r, ?_, h2⟩
    unfold Conn.readRequest
    rw [hp, h1]
    rfl
  · exfalso
    obtain ⟨r, h1, -⟩ := h ⟨[], ⟨1, by decide, id, [], []⟩⟩ [] ⟨rfl, rfl⟩
    have : (RequestParser.parse prof .new (⟨[], ⟨1, by decide, id, [], []⟩⟩ : Rd)).1 = .io .new .wouldBlock := by rcases prof with ⟨_ | _⟩ <;> rfl
    rw [h1] at this
    cases this
  · exfalso
    obtain ⟨r, h1, -⟩ := h ⟨[], ⟨1, by decide, id, [], []⟩⟩ [] ⟨rfl, rfl⟩
    have : (RequestParser.parse prof .new (⟨[], ⟨1, by decide, id, [], []⟩⟩ : Rd)).1 = .io .new .wouldBlock := by rcases prof with ⟨_ | _⟩ <;> rfl
    rw [h1] at this
    cases this

/-- A connection on which nothing has arrived: its parser is new, and nothing was asked or written. -/
theorem blank {s : Net σ} (h : Net.Reach prof rt nw s₀ s) {k : Nat} {c : NConn σ} {conn : Conn Rd Nbw} (hc : s.conns[k]? = some c) (hs : c.slot = .live conn) (ha : c.arrived = []) :
    conn.parser.getD .new = .new ∧ conn.reader.Ahead [] ∧ conn.writer.buf.drop conn.writer.pos = [] ∧ c.seen = [] ∧ (∀ q a, s.at_ c ≠ some (.reply q a)) := by
  have := (h.kept (P := fun c arr seen p => arr = [] → c.parser.getD .new = .new ∧ c.reader.Ahead [] ∧ c.writer.buf.drop c.writer.pos = [] ∧ seen = [] ∧ (∀ q a, p ≠ some (.reply q a)) ∧ ∀ q, p ≠ some (.asked q)) {
    fresh := fun _ _ _ _ _ => ⟨rfl, ⟨rfl, rfl⟩, rfl, rfl, nofun, nofun⟩
    arrive := fun _ _ _ _ _ _ _ h => by simp at h
    enter := fun _ _ _ _ h ha => ⟨(h ha).1, (h ha).2.1, (h ha).2.2.1, (h ha).2.2.2.1, nofun, nofun⟩
    move := fun c c' arr seen p p' d d' hm h ha => by
      obtain ⟨h1, h2, h3, h4, h5, h6⟩ := h ha
      obtain ⟨r, k1, k2⟩ := blank_waits (prof := prof) h1 h2
      cases hm with
      | flushOk e =>
        refine ⟨h1, h2, ?_, h4, nofun, nofun⟩
        have := nbw_idle_held c.writer h3
        rw [e] at this
        exact this
      | ready e => rw [k1] at e; cases e
      | notReady e =>
        rw [k1] at e
        cases e
        exact ⟨rfl, k2, h3, h4, nofun, nofun⟩
      | wrote e => exact absurd rfl (h5 _ _)
    ask := fun _ _ _ _ _ _ _ h ha => absurd rfl ((h ha).2.2.2.2.2 _)
    leave := fun _ _ _ h ha => ⟨(h ha).1, (h ha).2.1, (h ha).2.2.1, (h ha).2.2.2.1, nofun, nofun⟩ }).2 k c conn hc hs ha
  exact ⟨this.1, this.2.1, this.2.2.1, this.2.2.2.1, this.2.2.2.2.1⟩

/-- There are no errors but that there is nothing to read, and no write fails. -/
def Errs.roomy : Errs := ⟨Errs.full.read, fun _ => False, Errs.full.flush⟩

/-- What holds of the streams when they are written to: the one whose socket always takes more has done its handshake. -/
def TlsReady (k₀ : Nat) (hs : List HttpsAct) (hist : List (AAct TlsStream)) (k : Nat) (t : Traced TlsStream) : Prop :=
  TlsHist (fun k cipher input t => k = k₀ → TlsTidy cipher input t) hs hist k t ∧ (k = k₀ → t.raw.Free)

theorem roomy_kinds (k₀ : Nat) (hs : List HttpsAct) (hist : List (AAct TlsStream)) (k : Nat) :
    Kinds (TlsHist (fun k cipher input t => k = k₀ → TlsTidy cipher input t) hs hist k) (TlsReady k₀ hs hist k) (fun t => k = k₀ ∧ t.raw.sock.evs = []) (if k = k₀ then .roomy else .any) := by
  have hK : RawKeeps (TlsHist (fun k cipher input t => k = k₀ → TlsTidy cipher input t) hs hist k) := {
    write := fun e ⟨cipher, input, h1, h2⟩ => ⟨cipher, input, h1, fun hk => (tlsTidy_keeps cipher input).write e (h2 hk)⟩
    flush := fun e ⟨cipher, input, h1, h2⟩ => ⟨cipher, input, h1, fun hk => (tlsTidy_keeps cipher input).flush e (h2 hk)⟩
    read := fun e ⟨cipher, input, h1, h2⟩ => ⟨cipher, input, h1, fun hk => (tlsTidy_keeps cipher input).read e (h2 hk)⟩
    drop := fun ⟨cipher, input, h1, h2⟩ => ⟨cipher, input, h1, fun hk => (tlsTidy_keeps cipher input).drop (h2 hk)⟩ }
  by_cases hk : k = k₀
  · rw [if_pos hk]
    refine ⟨hK, ⟨fun ⟨c, i, h1, h2⟩ => (tlsTidy_errs c i).read (h2 hk), fun _ _ => trivial, fun ⟨c, i, h1, h2⟩ => (tlsTidy_errs c i).flush (h2 hk)⟩, {
      write := fun hb e h => ⟨hK.write e h.1, fun hk => free_uses.write hb e (h.2 hk)⟩
      flush := fun e h => ⟨hK.flush e h.1, fun hk => free_uses.flush e (h.2 hk)⟩
      read := fun e h => ⟨hK.read e h.1, fun hk => free_uses.read e (h.2 hk)⟩ },
      ⟨fun ⟨⟨c, i, h1, h2⟩, _⟩ => (tlsTidy_errs c i).read (h2 hk), fun {f t t' b e} h hw => .inr ⟨hk, ?_⟩, fun ⟨⟨c, i, h1, h2⟩, _⟩ => (tlsTidy_errs c i).flush (h2 hk), {
        write := fun hb e h => ⟨h.1, full_keeps.write hb e h.2⟩
        flush := fun e h => ⟨h.1, full_keeps.flush e h.2⟩
        read := fun e h => ⟨h.1, full_keeps.read e h.2⟩ }⟩, fun {t} h => ⟨h.1, ?_⟩⟩
    · have h3 := (h.2 hk).takes b
      obtain ⟨⟨y, t₁⟩, h1, h2⟩ := Option.map_eq_some_iff.1 hw
      have h1 : (y, t₁) = t.raw.write b := (Option.some.inj h1).symm
      rw [← h1] at h3
      cases y with
      | ok n => cases h2
      | error er =>
        cases h2
        exact h3.resolve_right nofun
    · have := TlsStream.parks_evs (t := { t.raw with sess := t.raw.sess.sendCloseNotify }) (TlsStream.flush_parks (TlsStream.of_self _))
      dsimp only at this
      rw [h.2] at this
      exact List.suffix_nil.1 this
  · rw [if_neg hk]
    exact ⟨hK, ⟨fun _ _ _ => trivial, fun _ _ => trivial, fun _ _ => trivial⟩, {
      write := fun hb e h => ⟨hK.write e h.1, fun hk' => absurd hk' hk⟩
      flush := fun e h => ⟨hK.flush e h.1, fun hk' => absurd hk' hk⟩
      read := fun e h => ⟨hK.read e h.1, fun hk' => absurd hk' hk⟩ },
      ⟨fun _ _ _ => trivial, fun _ _ => .inl trivial, fun _ _ => trivial, {
        write := fun hb e h => absurd h.1 hk
        flush := fun e h => absurd h.1 hk
        read := fun e h => absurd h.1 hk }⟩, fun h => absurd h.1 hk⟩

theorem HttpsAct.Orderly.before {k : Nat} {pre post : List HttpsAct} (h : HttpsAct.Orderly k (pre ++ post)) : HttpsAct.Orderly k pre where
  input cipher input hg := by
    obtain ⟨es, h1⟩ := given_grows hg post
    exact (h.input _ _ h1).append
  room evs hr e he := by
    obtain ⟨es, h1⟩ := rooms_grow hr post
    exact h.room _ h1 e (List.mem_append_left _ he)

theorem told_nil {log : List Ev} (h : ∀ ev ∈ log, ev = .err .wouldBlock ∨ ∃ b, ev = .data b ∧ b ≠ []) (hg : log.flatMap Ev.bytes = []) : Ev.told log = [] := by
  refine List.filter_eq_nil_iff.2 fun ev he => ?_
  rcases h ev he with rfl | ⟨b, rfl, hb⟩
  · simp
  · exfalso
    exact hb (List.flatMap_eq_nil_iff.1 hg _ he)

/-- A handler writes to the connection only after its handshake. -/
theorem orderly_ready {hs : List HttpsAct} {k : Nat} (hord : HttpsAct.Orderly k hs) {s : ANet (Traced TlsStream) σ} (h : ANet.after prof rt nw s₀ (hs.map HttpsAct.act) = some s)
    (hr : ∀ c, s.conns[k]? = some c → ∀ e ∈ c.raw.raw.sock.evs, ∃ m, e = .accept m) {w : Nat} {c : AConn (Traced TlsStream)} {conn : SharedConn (ServerStack (Traced TlsStream))} (hc : s.conns[k]? = some c) (hl : c.lock = some w)
    (hsl : c.slot = .live conn) :
    (s.phase w = .flushing → (Conn.raw conn).raw.Free ∨ conn.reader.stream.val.buf.drop conn.reader.stream.val.pos = []) ∧ (∀ q a, s.phase w = .reply q a → (Conn.raw conn).raw.Free) ∧
    ∀ rounds e conn', s.phase w = .reading → ({ conn with reader := { conn.reader with rounds } } : SharedConn (ServerStack (Traced TlsStream))).readRequest prof = (.error e, conn') → (Conn.raw conn').raw.Free := by
  have hraw : c.raw = Conn.raw conn := by rw [AConn.raw, hsl]; rfl
  obtain ⟨htidy, s', Er, h1, h2, hE⟩ := orderly_reach hord h
  obtain ⟨cipher, input, -, ht⟩ := htidy c hc
  have hev := hr c hc
  rw [hraw] at ht hev
  obtain ⟨n, h3, h4⟩ := h2.all.conns k c hc
  have h5 := h4.slot
  rw [hsl] at h5
  generalize hm : n.slot = l at h5
  cases h5 with
  | @live _ m ws h6 h7 =>
  have hlog := orderly_log hord h hc
  have hblank : (Conn.raw conn).got = [] → _ := fun hg => blank h1 h3 hm (by rw [h4.arrived]; exact told_nil hlog (by rw [hraw]; exact hg))
  have hcase : (Conn.raw conn).raw.Free ∨ (Conn.raw conn).got = [] := by
    cases hh : (Conn.raw conn).raw.sess.handshaking with
    | false => exact .inl ⟨hh, hev⟩
    | true => exact .inr (ht.1.early hh).2.1
  refine ⟨fun _ => hcase.imp_right fun hg => ?_, fun q a hp => hcase.resolve_right fun hg => ?_, fun rounds e conn' hp hq => ?_⟩
  · have := (hblank hg).2.2.1
    rwa [h6.buf, h6.pos] at this
  · refine (hblank hg).2.2.2.2 q a ?_
    rw [Net.at_, h4.lock, hl, h2.phase, Option.map_some, hp]
  · have hcap : Conn.Fine (fun _ : Traced TlsStream => True) conn := by
      have := (any_reach (P := fun _ => True) tls_honest tls_within { write := fun _ _ => trivial, flush := fun _ _ => trivial, read := fun _ _ => trivial, drop := fun _ => trivial }
        errsIn_any (fun a _ => by cases a <;> simp [AAct.Allowed]) h).1 k c hc
      rwa [hsl] at this
    have hF : Conn.Fine (TlsTidy cipher input) { conn with reader := { conn.reader with rounds } } := ⟨hcap.cap, hcap.grow, ht⟩
    have hF' : Conn.Fine (fun t : Traced TlsStream => ∀ e ∈ t.raw.sock.evs, ∃ m, e = .accept m) { conn with reader := { conn.reader with rounds } } := ⟨hcap.cap, hcap.grow, hev⟩
    have hev' := (read_rel (E := .any) tls_honest tls_within roomy_keeps errsIn_any hF' hq nofun).1.inv
    obtain ⟨g1, es, g2, g3, g4⟩ := read_rel tls_honest tls_within (tlsTidy_keeps cipher input) (tlsTidy_errs cipher input) hF hq nofun
    refine ⟨Bool.eq_false_iff.2 fun hh => ?_, hev'⟩
    have hgot := (g1.inv.1.early hh).2.1
    have hg2 : (Conn.raw conn').log = (Conn.raw conn).log ++ es := g2
    have hgot' : (Conn.raw conn').log.flatMap Ev.bytes = [] := hgot
    rw [hg2, List.flatMap_append, List.append_eq_nil_iff] at hgot'
    obtain ⟨b1, b2, -⟩ := hblank hgot'.1
    obtain ⟨n', g5, -⟩ := g4 ws ([], []).2 m ⟨⟨h6.parser, h6.lims, h6.unread, h6.buf, h6.pos, h6.cap, h6.sent⟩, h6.grow, h6.evs, h6.flushes⟩
    rw [told_nil (fun ev he => g3 ev he) hgot'.2, List.append_nil] at g5
    obtain ⟨r, g6, -⟩ := blank_waits (prof := prof) b1 b2
    rw [g6] at g5
    cases g5

/-- The same if the peer is orderly, and the socket always takes more: then no write fails. -/
theorem roomy_reach {hs : List HttpsAct} {k : Nat} (hord : HttpsAct.Orderly k hs) (hr : HttpsAct.Roomy prof rt nw s₀ k hs) {s : ANet (Traced TlsStream) σ} (h : ANet.after prof rt nw s₀ (hs.map HttpsAct.act) = some s) :
    ∃ s' Er, Net.Reach prof rt nw s₀ s' ∧ ANet.Rel Er (fun _ => ([], [])) s s' ∧ Er k = .roomy := by
  have hleads : TlsLeads (fun k' cipher input t => k' = k → TlsTidy cipher input t) (fun pre a => HttpsAct.Orderly k (pre ++ [a])) := by
    refine ⟨?_, ?_, ?_⟩
    · intro pre offer grow growOk cipher evs fl hok hk
      refine ⟨TlsStream.Inv.new cipher false [] evs fl, trivial, fun e he => hok.room evs ?_ e he⟩
      rw [rooms_snoc]
      dsimp only
      rw [← hk, ← rooms_length]
      simp
    · rintro pre k es hok cipher input t hg ht rfl
      refine ⟨inv_arrive (ht rfl).1 es, hok.input cipher _ ?_, (ht rfl).2.2⟩
      rw [given_snoc]
      dsimp only
      rw [List.getElem?_modify, hg]
      simp
    · rintro pre k evs fl hok cipher input t hg ht rfl
      refine ⟨inv_room (ht rfl).1 evs fl, (ht rfl).2.1, fun e he => ?_⟩
      have hlt := (List.getElem?_eq_some_iff.1 hg).1
      rw [← rooms_length] at hlt
      refine hok.room ((HttpsAct.rooms pre)[k] ++ evs) ?_ e (List.mem_append_right _ he)
      rw [rooms_snoc]
      dsimp only
      rw [List.getElem?_modify, List.getElem?_eq_getElem hlt]
      simp
  have hready : ∀ pre a post u u', hs.map HttpsAct.act = pre ++ a :: post → ANet.after prof rt nw s₀ pre = some u → ANet.after prof rt nw s₀ (pre ++ [a]) = some u' →
      u.Fine (TlsHist (fun k' cipher input t => k' = k → TlsTidy cipher input t) hs pre) → u.Ready prof (TlsReady k hs pre) ∧ u'.Unspoilt fun j t => j = k ∧ t.raw.sock.evs = [] := by
    intro pre a post u u' he hu hu' hf
    obtain ⟨pre', r, e1, rfl, e2⟩ := List.map_eq_append_iff.1 he
    obtain ⟨x, post', rfl, rfl, rfl⟩ := List.map_eq_cons_iff.1 e2
    have hp : pre' <+: hs := ⟨_, e1.symm⟩
    have hp' : pre' ++ [x] <+: hs := ⟨post', by rw [e1]; simp⟩
    refine ⟨fun w j c conn hw hc hl hsl => ?_, fun j c hc hb => ?_⟩
    · have hfc := hf j c hc
      rw [hsl] at hfc
      have hfc : Conn.Fine _ conn := hfc
      by_cases hj : j = k
      · subst hj
        have key := orderly_ready (by rw [e1] at hord; exact hord.before) hu (fun c hc => (hr pre' hp u hu c hc).2) hc hl hsl
        refine ⟨fun hq => (key.1 hq).imp_left fun hx => ⟨hfc.inv, fun _ => hx⟩, fun q a hq => ⟨hfc.inv, fun _ => key.2.1 q a hq⟩, fun rounds e conn' hq hx => ⟨?_, fun _ => key.2.2 rounds e conn' hq hx⟩⟩
        exact (read_rel (E := .any) tls_honest tls_within (roomy_kinds j hs (pre'.map HttpsAct.act) j).keeps errsIn_any (hfc.rounds rounds) hx nofun).1.inv
      · refine ⟨fun hq => .inl ⟨hfc.inv, fun h => absurd h hj⟩, fun q a hq => ⟨hfc.inv, fun h => absurd h hj⟩, fun rounds e conn' hq hx => ⟨?_, fun h => absurd h hj⟩⟩
        exact (read_rel (E := .any) tls_honest tls_within (roomy_kinds k hs (pre'.map HttpsAct.act) j).keeps errsIn_any (hfc.rounds rounds) hx nofun).1.inv
    · have hu'' : ANet.after prof rt nw s₀ ((pre' ++ [x]).map HttpsAct.act) = some u' := by rw [List.map_append]; exact hu'
      have := (hr _ hp' u' hu'' c (by rw [← hb.1]; exact hc)).1
      exact this hb.2
  obtain ⟨-, s', h1, h2⟩ := any_reach_to (Er := fun j => if j = k then .roomy else .any) (P := TlsHist _ hs) (Q := TlsReady k hs) (Bad := fun j t => j = k ∧ t.raw.sock.evs = []) tls_honest tls_within (roomy_kinds k hs)
    (hleads.leads fun pre a post e => by
      rw [e, show pre ++ a :: post = (pre ++ [a]) ++ post by simp] at hord
      exact hord.before) hready h
  exact ⟨s', _, h1, h2, if_pos rfl⟩

/-- What is known of a connection if the responses fit: the sockets over which the server would do the same are free before the first time they are full, or its buffer has room for every part. -/
theorem calm_fits {hs : List HttpsAct} {k : Nat} (hcalm : HttpsAct.Calm k hs) {s : ANet (Traced TlsStream) σ} (h : ANet.after prof rt nw s₀ (hs.map HttpsAct.act) = some s) {c : AConn (Traced TlsStream)} (hc : s.conns[k]? = some c)
    (hrt : HttpsAct.Fits prof rt nw s₀ k hs s) :
    ∃ s' Er N, Net.Reach prof rt nw s₀ s' ∧ ANet.Rel Er (fun _ => ([], [])) s s' ∧ 28 ≤ N ∧ (∀ n, s'.conns[k]? = some n → ∀ evs ∈ n.wakes, Tidy N 4096 evs) ∧ ∀ a ∈ asksOn k s.asks, ∀ r, rt.Says a r → r.PartsLe N := by
  rcases hrt with hrt | ⟨hord, hr⟩
  · obtain ⟨-, s', Er, h1, h2, hE⟩ := calm_reach hcalm h
    exact ⟨s', Er, 4096, h1, h2, by decide, rel_tidy_all h2 (by rw [hE]; exact fun h => h rfl) hc, hrt⟩
  · obtain ⟨s', Er, h1, h2, hE⟩ := roomy_reach hord hr h
    obtain ⟨N, h3, h4⟩ := parts_bound (rt := rt) (asksOn k s.asks)
    refine ⟨s', Er, N, h1, h2, h3, fun n hn evs he => ?_, h4⟩
    obtain ⟨n', h5, h6⟩ := h2.all.conns k c hc
    rw [hn] at h5
    cases h5
    rw [hE] at h6
    have hno : ∀ e, .err e ∉ evs := fun e hm => h6.wakes evs he _ hm e rfl
    exact ⟨hno _, .inl fun pre post e => absurd (by rw [e]; simp) (hno .wouldBlock)⟩

/-- The same for orderly peers: and these sockets at worst have no room. -/
theorem orderly_fits {hs : List HttpsAct} {k : Nat} (hord : HttpsAct.Orderly k hs) {s : ANet (Traced TlsStream) σ} (h : ANet.after prof rt nw s₀ (hs.map HttpsAct.act) = some s) {c : AConn (Traced TlsStream)} (hc : s.conns[k]? = some c)
    (hrt : HttpsAct.Fits prof rt nw s₀ k hs s) :
    ∃ s' Er N, Net.Reach prof rt nw s₀ s' ∧ ANet.Rel Er (fun _ => ([], [])) s s' ∧ (Er k).flush = Errs.full.flush ∧ (∀ e, (Er k).write e → e = .wouldBlock) ∧ 28 ≤ N ∧
      (∀ n, s'.conns[k]? = some n → ∀ evs ∈ n.wakes, Tidy N 4096 evs) ∧ ∀ a ∈ asksOn k s.asks, ∀ r, rt.Says a r → r.PartsLe N := by
  rcases hrt with hrt | ⟨-, hr⟩
  · obtain ⟨-, s', Er, h1, h2, hE⟩ := orderly_reach hord h
    exact ⟨s', Er, 4096, h1, h2, by rw [hE], by rw [hE]; exact fun e h => h, by decide, rel_tidy_all h2 (by rw [hE]; simp [Errs.full]) hc, hrt⟩
  · obtain ⟨s', Er, h1, h2, hE⟩ := roomy_reach hord hr h
    obtain ⟨N, h3, h4⟩ := parts_bound (rt := rt) (asksOn k s.asks)
    refine ⟨s', Er, N, h1, h2, by rw [hE]; rfl, by rw [hE]; exact nofun, h3, fun n hn evs he => ?_, h4⟩
    obtain ⟨n', h5, h6⟩ := h2.all.conns k c hc
    rw [hn] at h5
    cases h5
    rw [hE] at h6
    have hno : ∀ e, .err e ∉ evs := fun e hm => h6.wakes evs he _ hm e rfl
    exact ⟨hno _, .inl fun pre post e => absurd (by rw [e]; simp) (hno .wouldBlock)⟩

theorem came_grows (u v : List TlsEv) : TlsEv.plain u <+: TlsEv.plain (u ++ v) := by
  unfold TlsEv.plain
  rw [List.foldl_append]
  generalize u.foldl TlsHeard.step _ = h
  induction v generalizing h with
  | nil => exact List.prefix_refl _
  | cons e v ih =>
    refine List.IsPrefix.trans ?_ (ih (h.step e))
    cases e with
    | records =>
      unfold TlsHeard.step
      dsimp only
      split
      · exact List.prefix_refl _
      · dsimp only
        split
        · exact List.prefix_refl _
        · exact List.prefix_append _ _
    | _ => exact List.prefix_refl _

/-- C78: at every time, on every schedule, and whatever arrives at the sockets and whatever they do, for every connection of a server started with `listen_https`: what the server has read of the connection is a
beginning of the plain text that has arrived at its own socket; and what has been sent on the socket, and what the session holds to be sent, is what the cipher makes of the items the session has sealed,
in order, and the plain text in them is what the server has written, all of it and nothing else. -/
theorem C78_tls {hs : List HttpsAct} {s : ANet (Traced TlsStream) σ} (h : ANet.after prof rt nw s₀ (hs.map HttpsAct.act) = some s) {k : Nat} {c : AConn (Traced TlsStream)} (hc : s.conns[k]? = some c) :
    ∃ cipher input, (HttpsAct.given hs)[k]? = some (cipher, input) ∧ c.raw.got <+: TlsEv.plain input ∧
      c.raw.raw.sock.sent ++ c.raw.raw.sess.out = cipher.wire 0 c.raw.raw.sess.log ∧ c.raw.raw.sess.log.flatMap TlsItem.plain = c.raw.put := by
  obtain ⟨cipher, input, h1, h2⟩ := (https_reach inv_stays (fun _ _ _ _ => trivial) h).1 k c hc
  refine ⟨cipher, input, h1, ?_, by rw [h2.wire, h2.cipher], h2.log⟩
  obtain ⟨u, h3, h4⟩ := h2.heard
  rw [h3]
  refine List.IsPrefix.trans ?_ (came_grows u _)
  rw [TlsEv.plain, h4]
  change _ <+: c.raw.raw.sess.came
  rw [← h2.plain]
  exact List.prefix_append _ _

/-- The session of a connection in use: nothing closed it yet. -/
def TlsUnclosed (_ : Nat) (cipher : Cipher) (input : List TlsEv) (t : Traced TlsStream) : Prop := TlsStream.Inv cipher input t.got t.put t.raw ∧ .closeNotify ∉ t.raw.sess.log

theorem unclosed_leads : TlsLeads TlsUnclosed fun _ _ => True where
  new _ _ _ _ cipher evs fl _ := ⟨TlsStream.Inv.new cipher false [] evs fl, by simp [TlsStream.new, TlsSession.new]⟩
  arrive _ _ es _ cipher input t _ h := ⟨inv_arrive h.1 es, h.2⟩
  room _ _ evs fl _ cipher input t _ h := ⟨inv_room h.1 evs fl, h.2⟩

theorem unclosed_hist (hs : List HttpsAct) (hist : List (AAct TlsStream)) (k : Nat) : RawUses (TlsHist TlsUnclosed hs hist k) where
  write := fun b e ⟨cipher, input, h1, h2⟩ => ⟨cipher, input, h1, (tls_uses cipher input (may := (· ≠ []))).write b e h2⟩
  flush := fun e ⟨cipher, input, h1, h2⟩ => ⟨cipher, input, h1, (tls_uses cipher input (may := (· ≠ []))).flush e h2⟩
  read := fun e ⟨cipher, input, h1, h2⟩ => ⟨cipher, input, h1, (tls_uses cipher input (may := (· ≠ []))).read e h2⟩

/-- The session sealed one close_notify, after all that was written and before nothing but what the session itself has to say. -/
def TlsClosed (t : Traced TlsStream) : Prop :=
  ∃ l l', t.raw.sess.log = l ++ .closeNotify :: l' ∧ .closeNotify ∉ l ∧ l.flatMap TlsItem.plain = t.put ∧ ∀ y ∈ l', y = .reply ∨ y = .alert

/-- C78: at every time, on every schedule, for every connection of a server started with `listen_https`: while the server has the connection, the session has sealed no close_notify. If a handler has not put it back, because
it was closed, because of an error, because the client asked for it, or because a listener panicked, the session has sealed exactly one close_notify, after all that the server has written and before nothing but what the
session itself has to say. -/
theorem C78_close_notify {hs : List HttpsAct} {s : ANet (Traced TlsStream) σ} (h : ANet.after prof rt nw s₀ (hs.map HttpsAct.act) = some s) {k : Nat} {c : AConn (Traced TlsStream)} (hc : s.conns[k]? = some c) :
    (∀ conn, c.slot = .live conn → .closeNotify ∉ c.raw.raw.sess.log) ∧
    ((∀ conn, c.slot ≠ .live conn) → ∃ l l', c.raw.raw.sess.log = l ++ .closeNotify :: l' ∧ .closeNotify ∉ l ∧ l.flatMap TlsItem.plain = c.raw.put ∧ ∀ y ∈ l', y = .reply ∨ y = .alert) := by
  have key := split_hist (L := TlsHist TlsUnclosed hs) (D := fun _ _ => TlsClosed) tls_honest tls_within (unclosed_hist hs) (fun hist k t ⟨cipher, input, h1, h2⟩ => by
      obtain ⟨l, h3, h4⟩ := h2.1.drop_log
      exact ⟨t.raw.sess.log, l, h3, h2.2, h2.1.log, h4⟩) (unclosed_leads.leads fun _ _ _ _ => trivial) (fun _ _ _ _ _ _ _ ht => ht) (fun pre k env post he t ht => by
      obtain ⟨a, -, he⟩ := List.mem_map.1 (show AAct.change k env ∈ hs.map HttpsAct.act by rw [he]; simp)
      cases a <;> cases he <;> exact ht) h k c hc
  refine ⟨fun conn hl => ?_, fun hl => ?_⟩
  · rcases key with ⟨x, h1, h2⟩ | ⟨h1, -⟩
    · obtain ⟨cipher, input, -, h3⟩ := h2.inv
      rw [AConn.raw, h1]
      exact h3.2
    · exact absurd hl (h1 conn)
  · rcases key with ⟨x, h1, -⟩ | ⟨-, h2⟩
    · exact absurd h1 (hl x)
    · exact h2

/-- C78 (partial: for responses in parts of at most 4096 bytes, or an orderly peer and a socket that always takes more; a socket that is never interrupted, and requests that may be cut anywhere, see `AnyCut`): at every time, on every schedule, whatever happens on the other connections, for every connection of a server started
with `listen_https` that has not failed: if the plain text that has arrived at its socket is a beginning of the texts of some requests, the router was asked about the first of these requests, each once and in order; and what
was sent on the socket is a beginning of what the cipher makes of items the plain text in which is a beginning of the answers. -/
theorem C78_tls_served_partial {hs : List HttpsAct} {k : Nat} (hcalm : HttpsAct.Calm k hs) {s : ANet (Traced TlsStream) σ} (h : ANet.after prof rt nw s₀ (hs.map HttpsAct.act) = some s) {c : AConn (Traced TlsStream)}
    (hc : s.conns[k]? = some c) (hrt : HttpsAct.Fits prof rt nw s₀ k hs s) {cipher : Cipher} {input : List TlsEv} (hg : (HttpsAct.given hs)[k]? = some (cipher, input))
    (hlog : ∀ ev ∈ c.raw.log, ev = .err .wouldBlock ∨ ∃ b, ev = .data b ∧ b ≠ []) {ms : List (Bytes × Request)} (hms : ∀ m ∈ ms, FittingRequest m.1 m.2 ∧ AnyCut m.1)
    (hcame : TlsEv.plain input <+: ms.flatMap Prod.fst) :
    (asksOn k s.asks).map Prod.fst <+: ms.map Prod.snd ∧
      ∃ out items, AnsweredIn rt (asksOn k s.asks) out ∧ items.flatMap TlsItem.plain <+: out ∧ c.raw.raw.sock.sent <+: cipher.wire 0 items := by
  obtain ⟨c', i', g1, g2, g3, g4⟩ := C78_tls h hc
  rw [hg] at g1
  cases g1
  obtain ⟨s', Er, N, h1, h2, hN, hw, hrt⟩ := calm_fits hcalm h hc hrt
  have hgot := g2.trans hcame
  have hb : Brings (Ev.told c.raw.log) (ms.flatMap Prod.fst) := brings_told hlog (anyCut_all hms) hgot
  obtain ⟨h5, out, h6, h7⟩ := rel_served h1 h2 hc hN hw hrt (fun m hm => (hms m hm).1) hb
  exact ⟨h5, out, _, h6, by rw [g4]; exact h7, by rw [← g3]; exact List.prefix_append _ _⟩

/-- C78: at every time, for every open connection of a server started with `listen_https` whose mutex no worker holds: the server has parsed all that it has read, and if the session has nothing to send, the server has read all the plain text in what the
session has read from the socket. -/
theorem C78_tls_waits {hs : List HttpsAct} {s : ANet (Traced TlsStream) σ} (h : ANet.after prof rt nw s₀ (hs.map HttpsAct.act) = some s) {k : Nat} {c : AConn (Traced TlsStream)}
    {conn : SharedConn (ServerStack (Traced TlsStream))} (hc : s.conns[k]? = some c) (hl : c.lock = none) (hs' : c.slot = .live conn) :
    conn.reader.stream.val.inner.val.buf = [] ∧ (c.raw.raw.sess.out = [] → ∃ cipher used, (HttpsAct.given hs)[k]? = some (cipher, used ++ c.raw.raw.input) ∧ c.raw.got = TlsEv.plain used) := by
  have h1 := resting (E := fun t => t.raw.sess.out ≠ [] ∨ t.raw.sess.plain = []) tls_honest tls_within (fun t t' n e => by
      have h1 := TlsStream.read_parks (t := t.raw) (i := t.raw.input) (e := t.raw.sock.evs) ⟨List.suffix_refl _, List.suffix_refl _⟩ n
      simp only [RawIO.read] at e
      generalize t.raw.read n = y at e h1
      obtain ⟨y, t₁⟩ := y
      cases y with
      | ok b => cases e
      | error er =>
        obtain ⟨h4, h5⟩ := Prod.mk.inj e
        cases h4
        rw [← h5]
        exact (h1.2 rfl).elim (fun x => .inl x.1) fun x => .inr x.2.1)
    (fun a ha => by
      obtain ⟨x, -, rfl⟩ := List.mem_map.1 ha
      cases x <;> simp [AAct.Allowed, HttpsAct.act, TlsStream.new, TlsSession.new]) h k c conn hc hs' fun w hw => by rw [hl] at hw; cases hw
  refine ⟨h1.1, fun ho => ?_⟩
  obtain ⟨cipher, input, g1, g2⟩ := (https_reach inv_stays (fun _ _ _ _ => trivial) h).1 k c hc
  obtain ⟨u, h3, h4⟩ := g2.heard
  refine ⟨cipher, u, by rw [g1, h3], ?_⟩
  have h5 : c.raw.raw.sess.out ≠ [] ∨ c.raw.raw.sess.plain = [] := by
    have := h1.2
    rw [AConn.raw, hs']
    exact this
  rcases h5 with h5 | h5
  · exact absurd ho h5
  · rw [TlsEv.plain, h4]
    change _ = c.raw.raw.sess.came
    rw [← g2.plain, h5, List.append_nil]

/-- C78 (partial: for responses in parts of at most 4096 bytes, or an orderly peer and a socket that always takes more; a socket that is never interrupted, and requests that may be cut anywhere, see `AnyCut`): at every time, for every open connection of a server started with `listen_https` whose mutex no worker
holds, and whose session has nothing to send: if the plain text that has come is a beginning of the texts of some requests, the router was asked about all requests that the session has read whole, and no other, in order; the answers
have been sealed and sent, or are held to be sealed. -/
theorem C78_tls_answered_partial {hs : List HttpsAct} {k : Nat} (hcalm : HttpsAct.Calm k hs) {s : ANet (Traced TlsStream) σ} (h : ANet.after prof rt nw s₀ (hs.map HttpsAct.act) = some s) {c : AConn (Traced TlsStream)}
    {conn : SharedConn (ServerStack (Traced TlsStream))} (hc : s.conns[k]? = some c) (hl : c.lock = none) (hs' : c.slot = .live conn) (ho : c.raw.raw.sess.out = [])
    (hrt : HttpsAct.Fits prof rt nw s₀ k hs s) {cipher : Cipher} {used : List TlsEv} (hg : (HttpsAct.given hs)[k]? = some (cipher, used ++ c.raw.raw.input))
    {ms : List (Bytes × Request)} (hms : ∀ m ∈ ms, FittingRequest m.1 m.2 ∧ AnyCut m.1) (hcame : TlsEv.plain used <+: ms.flatMap Prod.fst) :
    ∃ ms₁ rest out, ms₁ <+: ms ∧ TlsEv.plain used = ms₁.flatMap Prod.fst ++ rest ∧ (∀ w q, FittingRequest w q → ¬ w <+: rest) ∧ (asksOn k s.asks).map Prod.fst = ms₁.map Prod.snd ∧
      AnsweredIn rt (asksOn k s.asks) out ∧ c.raw.raw.sess.log.flatMap TlsItem.plain ++ conn.reader.stream.val.buf.drop conn.reader.stream.val.pos = out ∧
      c.raw.raw.sock.sent = cipher.wire 0 c.raw.raw.sess.log := by
  obtain ⟨-, h1⟩ := C78_tls_waits h hc hl hs'
  obtain ⟨c₁, u, g1, g2⟩ := h1 ho
  rw [hg] at g1
  obtain ⟨rfl, g0⟩ := Prod.mk.inj (Option.some.inj g1)
  obtain rfl := List.append_cancel_right g0
  obtain ⟨c₂, i₂, g3, -, g4, g5⟩ := C78_tls h hc
  rw [hg] at g3
  cases g3
  obtain ⟨hk, -⟩ := calm_reach hcalm h
  obtain ⟨s', Er, N, h3, h4, hN, hw, hrt⟩ := calm_fits hcalm h hc hrt
  obtain ⟨c₃, i₃, g6, g7⟩ := hk c hc
  have hgot : c.raw.got <+: ms.flatMap Prod.fst := by rw [g2]; exact hcame
  obtain ⟨ms₁, rest, out, k1, k2, k3, k4, k5, k6⟩ := rel_answered tls_honest tls_within h h3 h4 hc hl hs' hN hw hrt (fun m hm => (hms m hm).1) g7.2
    ((anyCut_all hms).cutWell hgot) hgot
  refine ⟨ms₁, rest, out, k1, by rw [← g2]; exact k2, k3, k4, k5, by rw [g5]; exact k6, ?_⟩
  rw [← g4, ho, List.append_nil]

/-- C78 (partial: for responses in parts of at most 4096 bytes, or a socket that always takes more, and requests that may be cut anywhere, see `AnyCut`): at every time, for every connection of a server started with `listen_https` whose mutex no worker holds: if the peer is orderly, what it has sent is a
beginning of the texts of some requests that do not ask for the connection to be closed, and no listener panicked when asked about them, then the server has not closed the connection; and every read from its session that returned has
brought something, or there was nothing at the time. -/
theorem C78_tls_open_partial {hs : List HttpsAct} {k : Nat} (hord : HttpsAct.Orderly k hs) {s : ANet (Traced TlsStream) σ} (h : ANet.after prof rt nw s₀ (hs.map HttpsAct.act) = some s)
    {c : AConn (Traced TlsStream)} (hc : s.conns[k]? = some c) (hl : c.lock = none) (hrt : HttpsAct.Fits prof rt nw s₀ k hs s) (hnp : ∀ a ∈ asksOn k s.asks, (rt.result a.1 a.2).1 ≠ none)
    {cipher : Cipher} {input : List TlsEv} (hg : (HttpsAct.given hs)[k]? = some (cipher, input))
    {ms : List (Bytes × Request)} (hms : ∀ m ∈ ms, FittingRequest m.1 m.2 ∧ AnyCut m.1 ∧ ¬ CloseAsked m.2) (hcame : TlsEv.plain input <+: ms.flatMap Prod.fst) :
    (∃ conn, c.slot = .live conn) ∧ ∀ ev ∈ c.raw.log, ev = .err .wouldBlock ∨ ∃ b, ev = .data b ∧ b ≠ [] := by
  obtain ⟨s', Er, N, h1, h2, hE, hwr, hN, hw, hrt⟩ := orderly_fits hord h hc hrt
  obtain ⟨n, h3, h4⟩ := h2.all.conns k c hc
  have hlog := orderly_log hord h hc
  refine ⟨?_, hlog⟩
  obtain ⟨c', i', g1, g2, -⟩ := C78_tls h hc
  rw [hg] at g1
  cases g1
  have hgot := g2.trans hcame
  have hb : Brings (Ev.told c.raw.log) (ms.flatMap Prod.fst) := brings_told hlog (anyCut_all fun m hm => ⟨(hms m hm).1, (hms m hm).2.1⟩) hgot
  obtain ⟨conn, h5⟩ := stays_open h1 h3 (h4.lock.trans hl) hN (by rw [h2.asks]; exact fun a ha => ⟨hrt a ha, hnp a ha⟩) (ms := ms) (fun m hm => ⟨(hms m hm).1, (hms m hm).2.2⟩) (by rw [h4.arrived]; exact hb)
    (fun evs he => ⟨hw n h3 evs he, fun e hm => hwr e (h4.wakes evs he _ hm e rfl)⟩) (fun e he => by
      have := h4.slips e he
      rwa [hE] at this)
  have h6 := h4.slot
  rw [h5] at h6
  cases hsl : c.slot with
  | live conn => exact ⟨conn, rfl⟩
  | gone x => rw [hsl] at h6; cases h6
  | poisoned x => rw [hsl] at h6; cases h6

end

/-- One worker serves a request that comes over TLS, and waits for the rest of another one. -/
def oneSecret : List HttpsAct := [.accept (fun n => n) (fun c n => c + n) (by omega) toyCipher [.accept 100, .accept 100] [], .arrive 0 [.records true [] false true],
  .arrive 0 [.records false (b!"GET /a HTTP/1.1\r\n\r\nGET") false false], .poll [0], .dispatch false, .work 0, .work 0, .work 0, .work 0, .lock 0, .go 0 9, .go 0 9, .go 0 9, .go 0 9, .go 0 9, .go 0 9, .work 0]

/-- The same with a request after which the connection is closed. -/
def lastSecret : List HttpsAct := [.accept (fun n => n) (fun c n => c + n) (by omega) toyCipher [.accept 100, .accept 100, .accept 100] [], .arrive 0 [.records true [] false true],
  .arrive 0 [.records false (b!"GET /a HTTP/1.1\r\nconnection: close\r\n\r\n") false false], .poll [0], .dispatch false, .work 0, .work 0, .work 0, .work 0, .lock 0, .go 0 9, .go 0 9, .go 0 9, .go 0 9, .go 0 9]

/-- What can be seen of a server with one connection over TLS. -/
structure SecretSight where
  asked : List Bytes
  state : Nat
  live : Bool
  free : Bool
  got : Bytes
  put : Bytes
  sent : Bytes
  out : Bytes
  log : List Ev
  deriving DecidableEq

def secretSight (s : ANet (Traced TlsStream) Nat) : Option SecretSight :=
  s.conns[0]?.map fun c => ⟨s.asks.map fun a => a.2.1.uri, s.state, c.slot.isLive, c.lock == none, c.raw.got, c.raw.put, c.raw.raw.sock.sent, c.raw.raw.sess.out, c.raw.log⟩

theorem secret_run (prof : Profile) : (ANet.after prof counter 1 0 (oneSecret.map HttpsAct.act)).bind secretSight =
    some ⟨[b!"/a"], 1, true, true, b!"GET /a HTTP/1.1\r\n\r\nGET", b!"HTTP/1.1 200 OK\r\n\r\nhi", [0, 2, 1, 1] ++ b!"HTTP/1.1 200 OK\r\n\r\nhi", [], [.data (b!"GET /a HTTP/1.1\r\n\r\nGET"), .err .wouldBlock]⟩ := by
  rcases prof with ⟨_ | _⟩ <;> decide +kernel

theorem last_secret_run (prof : Profile) : (ANet.after prof counter 1 0 (lastSecret.map HttpsAct.act)).bind secretSight =
    some ⟨[b!"/a"], 1, false, true, b!"GET /a HTTP/1.1\r\nconnection: close\r\n\r\n", b!"HTTP/1.1 200 OK\r\n\r\nhi", [0, 2, 1, 1] ++ b!"HTTP/1.1 200 OK\r\n\r\nhi" ++ [2, 4], [],
      [.data (b!"GET /a HTTP/1.1\r\nconnection: close\r\n\r\n")]⟩ := by
  rcases prof with ⟨_ | _⟩ <;> decide +kernel

/-- The hypotheses of C78_close_notify can be met: the client asks for the end of the connection, is answered, and gets a close_notify (the last two bytes). -/
example (prof : Profile) : ∃ (s : ANet (Traced TlsStream) Nat) (c : AConn (Traced TlsStream)), ANet.after prof counter 1 0 (lastSecret.map HttpsAct.act) = some s ∧ s.conns[0]? = some c ∧ (∀ conn, c.slot ≠ .live conn) ∧
    c.raw.raw.sock.sent = [0, 2, 1, 1] ++ b!"HTTP/1.1 200 OK\r\n\r\nhi" ++ [2, 4] := by
  obtain ⟨s, h1, h2⟩ := Option.bind_eq_some_iff.1 (last_secret_run prof)
  obtain ⟨c, h3, h4⟩ := Option.map_eq_some_iff.1 h2
  simp only [SecretSight.mk.injEq] at h4
  obtain ⟨-, -, a2, -, -, -, a5, -, -⟩ := h4
  refine ⟨s, c, h1, h3, fun conn hs => ?_, a5⟩
  rw [hs] at a2
  cases a2

/-- The hypotheses of the theorems of C78 can be met: of a server started with `listen_https` after a request was answered. -/
example (prof : Profile) : ∃ (s : ANet (Traced TlsStream) Nat) (c : AConn (Traced TlsStream)) (conn : SharedConn (ServerStack (Traced TlsStream))) (used : List TlsEv) (ms : List (Bytes × Request)),
    HttpsAct.Calm 0 oneSecret ∧ HttpsAct.Orderly 0 oneSecret ∧ ANet.after prof counter 1 0 (oneSecret.map HttpsAct.act) = some s ∧ s.conns[0]? = some c ∧ c.lock = none ∧ c.slot = .live conn ∧ c.raw.raw.sess.out = [] ∧
    (∀ a ∈ asksOn 0 s.asks, (∀ r, counter.Says a r → r.PartsLe 4096) ∧ (counter.result a.1 a.2).1 ≠ none) ∧ (HttpsAct.given oneSecret)[0]? = some (toyCipher, used ++ c.raw.raw.input) ∧
    (∀ m ∈ ms, FittingRequest m.1 m.2 ∧ AnyCut m.1 ∧ ¬ CloseAsked m.2) ∧ TlsEv.plain (used ++ c.raw.raw.input) <+: ms.flatMap Prod.fst ∧ TlsEv.plain used <+: ms.flatMap Prod.fst ∧
    (∀ ev ∈ c.raw.log, ev = .err .wouldBlock ∨ ∃ b, ev = .data b ∧ b ≠ []) ∧ s.asks.length = 1 := by
  have h := secret_run prof
  obtain ⟨s, h1, h2⟩ := Option.bind_eq_some_iff.1 h
  obtain ⟨c, h3, h4⟩ := Option.map_eq_some_iff.1 h2
  simp only [SecretSight.mk.injEq] at h4
  obtain ⟨a1, -, a2, a3, a4, -, -, a5, a6⟩ := h4
  have hg : (HttpsAct.given oneSecret)[0]? = some (toyCipher, [.records true [] false true, .records false (b!"GET /a HTTP/1.1\r\n\r\nGET") false false]) := rfl
  have hl : c.lock = none := by simpa using a3
  cases hs : c.slot with
  | gone x => rw [hs] at a2; cases a2
  | poisoned x => rw [hs] at a2; cases a2
  | live conn =>
    obtain ⟨-, h5⟩ := C78_tls_waits h1 h3 hl hs
    obtain ⟨cipher, used, h6, h7⟩ := h5 a5
    rw [hg] at h6
    obtain ⟨rfl, -⟩ := Prod.mk.inj (Option.some.inj h6)
    refine ⟨s, c, conn, used, [aRequest, aRequest], ?_, ?_, h1, h3, hl, hs, a5, fun a _ => ⟨fun r hr => ?_, ?_⟩, hg.trans h6, fun m hm => ?_, ?_, ?_, ?_, ?_⟩
    · refine ⟨fun cipher input h => ?_, fun evs h => ?_⟩
      · rw [hg] at h
        cases h
        simp
      · cases h
        simp
    · refine ⟨fun cipher input h => ?_, fun evs h => ?_⟩
      · rw [hg] at h
        cases h
        simp [TlsEv.Orderly]
      · cases h
        simp
    · obtain ⟨q, st⟩ := a
      simp only [Router.Says, counter_result] at hr
      rcases hr with hr | hr <;> cases hr
      exact ⟨by decide, by decide, by decide, by simp [HeaderMap.flat], by decide⟩
    · rw [counter_result]
      simp
    · obtain rfl : m = aRequest := by simpa using hm
      exact ⟨aRequest_fits, anyCut_ascii (by decide), by simp [CloseAsked, aRequest, HeaderMap.get]⟩
    · rw [← Prod.mk.inj (Option.some.inj h6) |>.2]
      decide
    · rw [← h7, a4]
      decide
    · rw [a6]
      simp
    · have := congrArg List.length a1
      simpa using this

/-- A stream for an example: what can be read, and what was written. -/
structure Duplex where
  inp : Bytes
  out : Bytes

instance : RawIO Duplex where
  write _ t b := some (.ok b.length, { t with out := t.out ++ b })
  flush _ t := some (.ok (), t)
  read t n := if t.inp = [] then (.error .wouldBlock, t) else (.ok (t.inp.take n), { t with inp := t.inp.drop n })

theorem duplex_honest : RawIO.Honest Duplex := by
  intro f t t' b n h
  cases h
  exact Nat.le_refl _

/-- One worker serves a request that comes over such a stream, and waits for the rest of another one. -/
def onePlain : List (AAct Duplex) := [.accept (fun n => n) (fun c n => c + n) (by omega) ⟨[], []⟩, .change 0 (fun t => { t with inp := t.inp ++ b!"GET /a HTTP/1.1\r\n\r\nGET" }),
  .poll [0], .dispatch false, .work 0, .work 0, .work 0, .work 0, .lock 0, .go 0 9, .go 0 9, .go 0 9, .go 0 9, .go 0 9, .go 0 9, .work 0]

/-- What can be seen of a server with one connection over such a stream. -/
structure PlainSight where
  asked : Nat
  live : Bool
  free : Bool
  got : Bytes
  put : Bytes
  log : List Ev
  deriving DecidableEq

def plainSight (s : ANet (Traced Duplex) Nat) : Option PlainSight :=
  s.conns[0]?.map fun c => ⟨s.asks.length, c.slot.isLive, c.lock == none, c.raw.got, c.raw.put, c.raw.log⟩

theorem plain_run (prof : Profile) : (ANet.after prof counter 1 0 onePlain).bind plainSight =
    some ⟨1, true, true, b!"GET /a HTTP/1.1\r\n\r\nGET", b!"HTTP/1.1 200 OK\r\n\r\nhi", [.data (b!"GET /a HTTP/1.1\r\n\r\nGET"), .err .wouldBlock]⟩ := by
  rcases prof with ⟨_ | _⟩ <;> decide +kernel

/-- The hypotheses of the theorems of C78 about streams of any kind can be met. -/
example (prof : Profile) : ∃ (s : ANet (Traced Duplex) Nat) (c : AConn (Traced Duplex)) (conn : SharedConn (ServerStack (Traced Duplex))) (ms : List (Bytes × Request)),
    RawIO.Honest Duplex ∧ RawIO.ReadsWithin Duplex ∧ (∀ (f : Nat) (t t' : Duplex) (b : Bytes), Wr.write f t b ≠ some (.error .interrupted, t')) ∧
    ANet.after prof counter 1 0 onePlain = some s ∧ s.conns[0]? = some c ∧ c.lock = none ∧ c.slot = .live conn ∧
    (∀ a ∈ asksOn 0 s.asks, ∀ r, counter.Says a r → r.PartsLe 4096) ∧ (∀ m ∈ ms, FittingRequest m.1 m.2) ∧ .err .interrupted ∉ c.raw.log ∧
    CutWell c.raw.log ∧ c.raw.got <+: ms.flatMap Prod.fst ∧ Brings (Ev.told c.raw.log) (ms.flatMap Prod.fst) ∧ s.asks.length = 1 := by
  obtain ⟨s, h1, h2⟩ := Option.bind_eq_some_iff.1 (plain_run prof)
  obtain ⟨c, h3, h4⟩ := Option.map_eq_some_iff.1 h2
  simp only [PlainSight.mk.injEq] at h4
  obtain ⟨a1, a2, a3, a4, -, a5⟩ := h4
  cases hs : c.slot with
  | gone x => rw [hs] at a2; cases a2
  | poisoned x => rw [hs] at a2; cases a2
  | live conn =>
    refine ⟨s, c, conn, [aRequest, aRequest], duplex_honest, ?_, nofun, h1, h3, by simpa using a3, hs, fun a _ r hr => ?_, fun m hm => ?_, by rw [a5]; simp, ?_, ?_, ?_, a1⟩
    · intro t t' n b h
      simp only [RawIO.read] at h
      split at h <;> cases h
      exact List.length_take_le _ _
    · obtain ⟨q, st⟩ := a
      simp only [Router.Says, counter_result] at hr
      rcases hr with hr | hr <;> cases hr
      exact ⟨by decide, by decide, by decide, by simp [HeaderMap.flat], by decide⟩
    · obtain rfl : m = aRequest := by simpa using hm
      exact aRequest_fits
    · rw [a5]
      exact (anyCut_ascii (w := b!"GET /a HTTP/1.1\r\n\r\nGET") (by decide)).cutWell (by decide)
    · rw [a4]
      decide
    · have e : Ev.told c.raw.log = [.data (b!"GET /a HTTP/1.1\r\n\r\nGET")] := by rw [a5]; decide
      rw [e]
      refine ⟨.safe fun ev he => ⟨_, by simpa using he, by decide, safeCut_ascii (by decide)⟩, by decide⟩

end Verif
