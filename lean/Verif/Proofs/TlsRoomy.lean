import Verif.Proofs.TlsFree
import Verif.Props.NetAny

/-!
A TLS server whose sockets always take more keeps nothing back.
-/

namespace Verif

theorem wub_takes {f r : Nat} {w w' : WriteableReader (BufR TracedTls)} {b : Bytes} {pos : Nat} {x : Except IoError Nat} (h : w.val.inner.raw.Free) (e : writeUntilBlocked f r w b pos = some (x, w')) :
    w'.val.inner.raw.sock.evs = [] ∨ x = .ok (pos + b.length) := by
  cases r with
  | zero =>
    unfold writeUntilBlocked at e
    split at e
    · next hb => cases e; exact .inr (by rw [hb]; rfl)
    · cases e
  | succ r =>
    unfold writeUntilBlocked at e
    split at e
    · next hb => cases e; exact .inr (by rw [hb]; rfl)
    · next hb =>
      have key : ∀ y w₁, Wr.write f w b = some (y, w₁) → w₁.val.inner.raw.sock.evs = [] ∨ y = .ok b.length := by
        intro y w₁ hw
        obtain ⟨z, h1, h2⟩ := Option.map_eq_some_iff.1 hw
        obtain ⟨v, h3, h4⟩ := Option.map_eq_some_iff.1 h1
        obtain rfl : w.val.inner.raw.write b = v := Option.some.inj h3
        have := h.takes b
        have ht : (InnerMut.inner w.val : TracedTls).raw.write b = w.val.inner.raw.write b := rfl
        generalize w.val.inner.raw.write b = v at h4 this
        obtain ⟨v, t⟩ := v
        cases v <;> (cases h4; cases h2; exact this)
      split at e
      · cases e
      · next n w₁ hw =>
        rcases key _ _ hw with h1 | h1
        · exact .inl (full_uses.writeable.wub (fun _ hb => hb) e h1)
        · cases h1
          rw [List.drop_length] at e
          cases r <;> (simp only [writeUntilBlocked, if_true] at e; cases e; exact .inr rfl)
      · next e' w₁ hw =>
        cases e
        rcases key _ _ hw with h1 | h1
        · exact .inl h1
        · cases h1

/-- A flush leaves nothing in the writer, or the socket takes no more now. -/
theorem flush_drains {f : Nat} {s s' : ServerStack TracedTls} {x : Except IoError Unit} (h : s.val.inner.val.inner.raw.Free) (e : Wr.flush f s = some (x, s')) :
    s'.val.inner.val.inner.raw.sock.evs = [] ∨ heldBack s' = [] := by
  obtain ⟨⟨y, w⟩, h1, h2⟩ := Option.map_eq_some_iff.1 e
  cases h2
  have hbuf : ∀ y w₁, s.val.flushBuf f = some (y, w₁) → w₁.inner.val.inner.raw.sock.evs = [] ∨ w₁.buf.drop w₁.pos = [] := by
    intro y w₁ hw
    obtain ⟨⟨z, t⟩, h3, h4⟩ := Option.map_eq_some_iff.1 hw
    rcases wub_takes h h3 with h5 | h5
    · left
      cases z with
      | error e => cases h4; exact h5
      | ok n =>
        dsimp only at h4
        split at h4 <;> (cases h4; exact h5)
    · right
      subst h5
      dsimp only at h4
      rw [if_pos (by rw [List.length_drop]; omega)] at h4
      cases h4
      rfl
  change s.val.flush f = _ at h1
  unfold NbWriter.flush at h1
  split at h1
  · cases h1
  · next e' w₁ hw =>
    cases h1
    exact hbuf _ _ hw
  · next w₁ hw =>
    have hk := hbuf _ _ hw
    obtain ⟨⟨z, t⟩, h3, h4⟩ := Option.map_eq_some_iff.1 h1
    have h5 : w₁.inner.val.inner.raw.sock.evs = [] → t.val.inner.raw.sock.evs = [] := full_uses.writeable.flush h3
    rcases hk with hk | hk
    · left
      have h6 := h5 hk
      split at h4 <;> (next hx => cases hx; cases h4; exact h6)
    · right
      split at h4 <;> (cases h4; exact hk)

/-- A flush of an empty writer leaves it empty. -/
theorem flush_empty {f : Nat} {s s' : ServerStack TracedTls} {x : Except IoError Unit} (h : heldBack s = []) (e : Wr.flush f s = some (x, s')) : heldBack s' = [] := by
  obtain ⟨⟨y, w⟩, h1, h2⟩ := Option.map_eq_some_iff.1 e
  cases h2
  change s.val.flush f = _ at h1
  have hb : s.val.flushBuf f = some (.ok (), { s.val with pos := 0, buf := [] }) := by
    unfold NbWriter.flushBuf
    rw [show s.val.buf.drop s.val.pos = [] from h]
    have hle : s.val.buf.length ≤ s.val.pos := List.drop_eq_nil_iff.1 h
    cases f <;> simp [writeUntilBlocked, hle]
  unfold NbWriter.flush at h1
  rw [hb] at h1
  obtain ⟨⟨z, t⟩, h3, h4⟩ := Option.map_eq_some_iff.1 h1
  split at h4 <;> (cases h4; rfl)

/-- Reading does not touch the writer. -/
theorem held_quits : Quits (S := ServerStack TracedTls) (fun s => heldBack s = []) (fun _ => True) where
  fillBuf h := ⟨h, fun _ => trivial⟩
  consume _ h := h
  read _ h := ⟨h, fun _ => trivial⟩

/-! ## Answers -/

/-- An answer that was written was flushed at the end. -/
theorem putAnswer_flushed {W : Type} [Write W] {K : W → Prop} (hK : WriteKeeps K) (a : ListenerResult) {w w' : W} (h : K w) (e : putAnswer w a = (.ok, w')) : ∃ w₁, K w₁ ∧ Write.flush w₁ = (.ok (), w') := by
  have hthen : ∀ {x : IoRes × W} {k : W → IoRes × W}, Write.andThen x k = (.ok, w') → K x.2 → ∃ w, K w ∧ k w = (.ok, w') := by
    rintro ⟨_ | _ | _, w⟩ k e h
    · exact ⟨w, h, e⟩
    · cases e
    · cases e
  have hres : ∀ {w : W}, Write.res (Write.flush w) = (.ok, w') → Write.flush w = (.ok (), w') := by
    intro w e
    generalize Write.flush w = x at e
    obtain ⟨_ | _, w⟩ := x
    · cases e
    · cases e; rfl
  have hr : ∀ r, writeResponse w r = (.ok, w') → ∃ w₁, K w₁ ∧ Write.flush w₁ = (.ok (), w') := by
    intro r e
    obtain ⟨w₁, h1, e⟩ := hthen e (hK.fmt _ h)
    obtain ⟨w₁, h1, e⟩ := hthen e (hK.headerLines _ h1)
    obtain ⟨w₁, h1, e⟩ := hthen e (keeps_res (hK.write _ h1))
    obtain ⟨w₁, h1, e⟩ := hthen e (keeps_res (hK.write _ h1))
    exact ⟨w₁, h1, hres e⟩
  cases a with
  | sendResponse r => exact hr r e
  | sendResponseArc r => exact hr r e
  | next =>
    obtain ⟨w₁, h1, e⟩ := hthen e (hK.writeAllLoop _ _ h)
    exact ⟨w₁, h1, hres e⟩

/-- After an answer was written nothing is left in the writer, or the socket takes no more now. -/
theorem answer_drains {a : ListenerResult} {r r' : Shared (ServerStack TracedTls)} (h : r.stream.val.inner.val.inner.raw.Free) (e : writeAnswer r a = (.ok, r')) :
    r'.stream.val.inner.val.inner.raw.sock.evs = [] ∨ heldBack r'.stream = [] := by
  rw [writeAnswer_put] at e
  obtain ⟨w₁, h1, h2⟩ := putAnswer_flushed (free_uses.writeable.nb fun _ hb => hb).readable.shared a h e
  simp only [Write.flush] at h2
  split at h2
  · next hf => cases h2; exact flush_drains h1 hf
  · cases h2

/-! ## The server -/

variable {σ : Type} {prof : Profile} {rt : Router σ} {nw : Nat} {s₀ : σ}

/-- The writer of connection `k` holds nothing back while it is open. -/
def ANet.Drained (k : Nat) (s : ANet TracedTls σ) : Prop := ∀ (c : AConn TracedTls) (conn : SharedConn (ServerStack TracedTls)), s.conns[k]? = some c → c.slot = .live conn → heldBack conn.reader.stream = []

theorem ANet.Drained.upd {k j : Nat} {s t : ANet TracedTls σ} (h : s.Drained k) {c' : AConn TracedTls} (hc : t.conns = s.conns.set j c')
    (hk : j = k → ∀ conn, c'.slot = .live conn → heldBack conn.reader.stream = []) : t.Drained k := by
  intro c conn h1 h2
  rw [hc] at h1
  by_cases hj : j = k
  · subst hj
    rw [List.getElem?_set_self'] at h1
    cases hs : s.conns[j]? with
    | none => rw [hs] at h1; cases h1
    | some x => rw [hs] at h1; cases h1; exact hk rfl conn h2
  · rw [List.getElem?_set_ne hj] at h1
    exact h c conn h1 h2

theorem drained_event {k j : Nat} {s t : ANet TracedTls σ} (h : s.Drained k) {closed : Bool} (e : s.onEvent j closed = some t) : t.Drained k := by
  unfold ANet.onEvent at e
  split at e
  · cases e
  · next c hc =>
    split at e
    · cases e
      exact h
    · split at e
      · cases e
        exact h.upd (c' := { c with inTable := false }) rfl fun hj conn h1 => h c conn (hj ▸ hc) h1
      · split at e
        · cases e
        · cases e
          exact h

theorem drained_step {k : Nat} {s t : ANet TracedTls σ} (h : s.Drained k) {a : AAct TlsStream} (e : s.step prof rt a.traced = some t)
    (hfree : ∀ c conn w q a, s.conns[k]? = some c → c.lock = some w → s.phase w = .reply q a → c.slot = .live conn → conn.reader.stream.val.inner.val.inner.raw.Free)
    (hroom : ∀ c conn, t.conns[k]? = some c → c.slot = .live conn → conn.reader.stream.val.inner.val.inner.raw.sock.evs ≠ []) : t.Drained k := by
  cases a with
  | accept offer grow growOk x =>
    cases e
    intro c conn h1 h2
    dsimp only at h1
    by_cases hk : k < s.conns.length
    · rw [List.getElem?_append_left hk] at h1
      exact h c conn h1 h2
    · rw [List.getElem?_append_right (by omega)] at h1
      obtain rfl := List.mem_singleton.1 (List.mem_of_getElem? h1)
      cases h2
      rfl
  | change j env =>
    simp only [AAct.traced, ANet.step] at e
    split at e
    · cases e
    · next c hc =>
      cases e
      refine h.upd (c' := { c with slot := ANet.changed (fun t => { t with raw := env t.raw }) c.slot }) rfl fun hj conn h1 => ?_
      dsimp only at h1
      cases hs : c.slot with
      | live x =>
        rw [hs] at h1
        cases h1
        exact h c x (hj ▸ hc) hs
      | gone x => rw [hs] at h1; cases h1
      | poisoned x => rw [hs] at h1; cases h1
  | notify j =>
    simp only [AAct.traced, ANet.step] at e
    split at e
    · cases e
    · next c hc =>
      cases e
      exact h.upd (c' := { c with edge := true }) rfl fun hj conn h1 => h c conn (hj ▸ hc) h1
  | poll ks =>
    simp only [AAct.traced, ANet.step] at e
    split at e
    · cases e
      intro c conn h1 h2
      simp only [List.getElem?_mapIdx] at h1
      obtain ⟨d, h4, rfl⟩ := Option.map_eq_some_iff.1 h1
      refine h d conn h4 ?_
      split at h2 <;> exact h2
    · cases e
  | dispatch closed =>
    simp only [AAct.traced, ANet.step] at e
    split at e
    · cases e
    · next j ks _ => exact drained_event (s := { s with batch := ks }) h e
  | stray j closed => exact drained_event h (show s.onEvent j closed = some t from e)
  | work w =>
    simp only [AAct.traced, ANet.step] at e
    split at e
    · cases e
    · obtain ⟨pool, -, rfl⟩ := Option.map_eq_some_iff.1 e
      exact h
  | lock w =>
    simp only [AAct.traced, ANet.step] at e
    split at e
    · cases e
    · next j hw =>
      split at e
      · cases e
      · next c hc =>
        split at e
        · unfold ANet.enter at e
          split at e
          · obtain ⟨pool, -, rfl⟩ := Option.map_eq_some_iff.1 e
            exact h
          · cases e
            exact h.upd (c' := { c with lock := some w }) rfl fun hj conn h1 => h c conn (hj ▸ hc) h1
          · cases e
            exact h.upd (c' := { c with lock := some w }) rfl fun hj conn h1 => h c conn (hj ▸ hc) h1
        · cases e
  | go w rounds =>
    simp only [AAct.traced, ANet.step] at e
    split at e
    · cases e
    · next j hw =>
      split at e
      · cases e
      · next c hc =>
        split at e
        · next hlk =>
          have hgone : ∀ (x : SharedConn (ServerStack TracedTls)) (p : Phase), ((s.setConn j { c with slot := .gone x }).setPhase w p).Drained k := fun x p =>
            h.upd (j := j) rfl fun _ conn h1 => by cases h1
          have hlive : ∀ (x : SharedConn (ServerStack TracedTls)) (p : Phase), (j = k → heldBack x.reader.stream = []) → ((s.setConn j { c with slot := .live x }).setPhase w p).Drained k := fun x p hx =>
            h.upd (j := j) rfl fun hj conn h1 => by
              cases h1
              exact hx hj
          have hcrash : ∀ (s₁ : ANet TracedTls σ) (x : SharedConn (ServerStack TracedTls)), s₁.conns = s.conns → ∀ t, s₁.crash w j c x = some t → t.Drained k := by
            intro s₁ x h1 t ht
            obtain ⟨pool, -, rfl⟩ := Option.map_eq_some_iff.1 ht
            exact h.upd (j := j) (c' := { c with slot := .poisoned (ANet.droppedConn x), lock := none }) (by simp [ANet.setConn, h1]) fun _ conn h1 => by cases h1
          have hread : ∀ conn x conn', j = k → c.slot = .live conn → ({ conn with reader := { conn.reader with rounds } } : SharedConn (ServerStack TracedTls)).readRequest prof = (x, conn') → heldBack conn'.reader.stream = [] := by
            intro conn x conn' hj hs hr
            have h1 := (held_quits.stops.request prof (conn.parser.getD .new) (r := { conn.reader with rounds }) (h c conn (hj ▸ hc) hs)).1
            unfold Conn.readRequest at hr
            dsimp only at hr
            generalize RequestParser.parse prof (conn.parser.getD .new) { conn.reader with rounds } = y at hr h1
            obtain ⟨o, r⟩ := y
            cases o with
            | io p e =>
              dsimp only at hr
              split at hr
              · cases hr; exact h1
              · split at hr <;> (cases hr; exact h1)
            | _ => cases hr; exact h1
          unfold ANet.advance at e
          split at e
          · next conn hp hs =>
            split at e
            · rw [← (unlessHung_some e).2]
              exact hgone _ _
            · next r hf =>
              rw [← (unlessHung_some e).2]
              refine hlive _ _ fun hj => ?_
              simp only [Write.flush] at hf
              split at hf
              · next hx =>
                cases hf
                exact flush_empty (s := conn.reader.stream) (h c conn (hj ▸ hc) hs) hx
              · cases hf
          · next conn hp hs =>
            split at e
            · next hr => cases e; exact hlive _ _ fun hj => hread _ _ _ hj hs hr
            · next hr => cases e; exact hlive _ _ fun hj => hread _ _ _ hj hs hr
            · cases e
              exact hgone _ _
            · split at e
              · cases e
              · rw [← (unlessHung_some e).2]
                exact hgone _ _
            · exact hcrash s _ rfl _ e
            · cases e
          · next hp hs =>
            dsimp only at e
            split at e
            · exact hcrash { s with asks := s.asks ++ [(j, _, s.state)], state := (rt.result _ s.state).2 } _ rfl _ e
            · cases e
              exact h.upd (j := j) (c' := c) rfl fun hj conn h1 => h c conn (hj ▸ hc) h1
          · next q a conn hp hs =>
            split at e
            · next r hwa =>
              split at e
              · rw [← (unlessHung_some e).2]
                exact hgone _ _
              · have he := (unlessHung_some e).2
                rw [← he]
                refine hlive _ _ fun hj => ?_
                subst hj
                rcases answer_drains (r := { conn.reader with rounds }) (hfree c conn w q a hc hlk hp hs) hwa with h1 | h1
                · refine absurd h1 (hroom { c with slot := .live { conn with reader := r } } _ ?_ rfl)
                  rw [← he]
                  simp only [ANet.setPhase, ANet.setConn, List.getElem?_set_self']
                  rw [hc]
                  rfl
                · exact h1
            · rw [← (unlessHung_some e).2]
              exact hgone _ _
            · cases e
          · obtain ⟨pool, -, rfl⟩ := Option.map_eq_some_iff.1 e
            exact h.upd (j := j) (c' := { c with lock := none }) rfl fun hj conn h1 => h c conn (hj ▸ hc) h1
          · cases e
        · cases e

/-- A handler that is writing an answer has read a request. -/
theorem reply_asked {s : Net σ} (h : Net.Reach prof rt nw s₀ s) {k w : Nat} {c : NConn σ} {conn : Conn Rd Nbw} {q : Request} {a : ListenerResult} (hc : s.conns[k]? = some c) (hs : c.slot = .live conn)
    (hl : c.lock = some w) (hp : s.phase w = .reply q a) : asksOn k s.asks ≠ [] := by
  have := (h.kept (P := fun _ _ seen p => ∀ q a, p = some (.reply q a) → seen ≠ []) {
    fresh := fun _ _ _ _ q a h => by cases h
    arrive := fun _ _ _ _ _ _ h => h
    enter := fun _ _ _ _ _ q a h => by cases h
    move := fun _ _ _ _ _ _ _ _ hm _ q a hp' => by cases hp'; cases hm
    ask := fun _ _ _ _ _ _ _ _ q a _ => by simp
    leave := fun _ _ _ _ q a h => by cases h }).2 k c conn hc hs q a (by rw [Net.at_, hl, Option.map_some, hp])
  rwa [(C43_asks h).2 k c hc] at this

end Verif
