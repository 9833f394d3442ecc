import Verif.Proofs.Waiting
import Verif.Props.WholeSystem

/-!
A connection that nobody uses, and on which everything was read: all its requests have been answered.
-/

namespace Verif

variable {σ : Type} {prof : Profile} {rt : Router σ} {n N : Nat} {s₀ : σ}

theorem Heard.split {r r' r'' : Rd} {qs qs' : List Request} (h : Heard prof r qs r') (h' : Heard prof r' qs' r'') : Heard prof r (qs ++ qs') r'' :=
  h.append h'

/-- A connection stays open unless the socket fails, a client asks for it, what is read is no request or a listener panics. -/
theorem handleAll_open (hrt : rt.PartsLe N) {es : List (List WEv)} {c : Conn Rd Nbw} {s : σ} (hl : c.reader.lims = [])
    (hw : c.writer.Ok) {cap : Nat} (hcap : cap ≤ c.writer.cap) (hes : ∀ evs ∈ es, Tidy N cap evs)
    (hok : ∀ evs ∈ es, ∀ e, .err e ∈ evs → e = .wouldBlock) (hfl : ∀ e, some e ∈ c.writer.sock.flushes → e = .wouldBlock)
    {r₀ : Rd} (hi : InProgress prof r₀ (c.parser.getD .new) c.reader)
    (hclean : ∀ qs r₁, Heard prof r₀ qs r₁ → (∀ q ∈ qs, ¬ CloseAsked q) ∧
      ∀ o r', Calls (RequestParser.parse prof) .new r₁ o r' → (∀ p, o ≠ .io p .wouldBlock) → ∃ q, o = .done q) :
    (∃ c', (handleAll prof rt es (.live c) s).1 = .live c') ∨
      ∃ qs out s₁ q, Served rt s qs out s₁ ∧ rt.result q s₁ = (none, (handleAll prof rt es (.live c) s).2) := by
  induction es generalizing c s r₀ with
  | nil => exact .inl ⟨c, rfl⟩
  | cons evs es ih =>
    have hw' := orderly_wake hw hcap (hes evs (by simp))
    have hnf : ∀ e, ¬ Nbw.Faulty { c.writer with sock := { c.writer.sock with evs } } e := by
      rintro e ⟨h1, h2 | h2⟩
      · exact h1 (hok evs (by simp) e h2)
      · exact h1 (hfl e h2)
    simp only [handleAll, Slot.wake]
    rcases handle_trace (prof := prof) hrt (s := s) (c := { c with writer := { c.writer with sock := { c.writer.sock with evs } } }) hl hw' with
      ⟨e, w, h1, -⟩ | ⟨e, c', s', qs, out, s₁, p₁, r₁, h1, h2, h3, h4, h5, h6⟩
    · exact absurd h1 (hnf e)
    · rw [h1]
      obtain ⟨r₂, g1, g2⟩ := h3.heard hi
      have bad : ∀ {o : Out RequestParser Request} {r' : Rd}, RequestParser.parse prof p₁ r₁ = (o, r') → (∀ p, o ≠ .io p .wouldBlock) → ∃ q, o = .done q :=
        fun h hn => (hclean qs r₂ g1).2 _ _ (g2.calls (.last h)) hn
      cases h6 with
      | @keep _ p' e1 e2 e3 e4 =>
        have hl₁ := h3.lims hl
        have h7 := parse_lims (prof := prof) (p := p₁) hl₁
        rw [e1] at h7
        simp only [finish]
        rcases ih (c := c') (s := s') (r₀ := r₂) h7 e3.ok (Nat.le_trans hcap h2.cap) (fun e he => hes e (by simp [he])) (fun e he => hok e (by simp [he]))
          (fun e he => hfl e (h2.flushes.mem he)) (by rw [e2]; exact g2.pause e1)
          (fun qs' r' hh => by
            obtain ⟨k1, k2⟩ := hclean (qs ++ qs') r' (g1.append hh)
            exact ⟨fun q hq => k1 q (by simp [hq]), k2⟩) with h8 | ⟨qs', out', s₂, q, h8, h9⟩
        · exact .inl h8
        · exact .inr ⟨qs ++ qs', out ++ out', s₂, q, h5.append h8, h9⟩
      | @asked _ q a _ e1 e2 e3 e4 e5 =>
        exact absurd e3 ((hclean (qs ++ [q]) _ (g1.append (.cons (g2.calls (.last e1)) .nil))).1 q (by simp))
      | failed _ _ e3 => exact absurd e3 (hnf _)
      | closed e1 e2 e3 e4 e5 =>
        obtain ⟨q, h⟩ := bad e1 (by rintro p h; cases h; exact e2 rfl)
        cases h
      | bad e1 e2 =>
        rcases e1 with ⟨e, e1⟩ | ⟨p', e, e1, e3, e4⟩
        · obtain ⟨q, h⟩ := bad e1 (by simp)
          cases h
        · obtain ⟨q, h⟩ := bad e1 (by rintro p h; cases h; exact e3 rfl)
          cases h
      | parserPanic e1 e2 e3 =>
        obtain ⟨q, h⟩ := bad e1 (by simp)
        cases h
      | @listenerPanic _ q s' e1 e2 e3 e4 =>
        refine .inr ⟨qs, out, s₁, q, h5, ?_⟩
        simp only [finish]
        rw [handleAll_poisoned]
        exact e2

theorem during_eq (rt : Router σ) (q : Request) (ss : List (Request × σ)) : rt.during.result q ss = match ss with
    | [] => (none, [])
    | (q', s) :: ss => if q' = q then ((rt.result q s).1, ss) else (none, []) := by
  cases ss with
  | nil => exact during_nil rt q
  | cons a ss =>
    obtain ⟨q', s⟩ := a
    dsimp only
    split
    · next h => subst h; exact during_result rt [(q', s)] _ _ _ (by simp)
    · next h => exact during_other rt h s ss

theorem during_parts (h : rt.PartsLe N) : rt.during.PartsLe N := by
  refine ⟨h.1, fun q ss r s' hr => ?_⟩
  rw [during_eq] at hr
  cases ss with
  | nil => simp at hr
  | cons a ss =>
    obtain ⟨q', s⟩ := a
    dsimp only at hr
    split at hr
    · refine h.2 q s r (rt.result q s).2 ?_
      simp only [Prod.mk.injEq] at hr
      rcases hr with ⟨hr, -⟩ | ⟨hr, -⟩
      · exact .inl (Prod.ext hr rfl)
      · exact .inr (Prod.ext hr rfl)
    · simp at hr

theorem during_served {as ss : List (Request × σ)} {qs : List Request} {out : Bytes} (h : Served rt.during as qs out ss) : ss <:+ as := by
  generalize hr : rt.during = D at h
  induction h with
  | nil => exact List.suffix_refl _
  | @cons s s₁ s₂ q qs a out h1 h2 ih =>
    subst hr
    rw [during_eq] at h1
    cases s with
    | nil => cases h1
    | cons x s =>
      obtain ⟨q', st⟩ := x
      dsimp only at h1
      split at h1
      · simp only [Prod.mk.injEq] at h1
        obtain ⟨-, rfl⟩ := h1
        exact ih.trans (List.suffix_cons _ _)
      · cases h1

/-- A connection that nobody uses is open, unless the socket failed, the client asked for it or a listener panicked. -/
theorem stays_open {s : Net σ} (h : Net.Reach prof rt n s₀ s) {k : Nat} {c : NConn σ} (hc : s.conns[k]? = some c) (hl : c.lock = none)
    (hN : 28 ≤ N) (hrt : ∀ a ∈ asksOn k s.asks, (∀ r, rt.Says a r → r.PartsLe N) ∧ (rt.result a.1 a.2).1 ≠ none)
    {ms : List (Bytes × Request)} (hms : ∀ m ∈ ms, FittingRequest m.1 m.2 ∧ ¬ CloseAsked m.2) (hb : Brings c.arrived (ms.flatMap Prod.fst))
    (hw : ∀ evs ∈ c.wakes, Tidy N 4096 evs ∧ ∀ e, .err e ∈ evs → e = .wouldBlock)
    (hfl : ∀ e, some e ∈ c.first.writer.sock.flushes → e = .wouldBlock) : ∃ conn, c.slot = .live conn := by
  rw [← h.serial.seen k c hc] at hrt
  obtain ⟨evs, h2, h3⟩ := C43_serial h hc hl
  have hfol : (rt.limited N).during.Follows rt c.seen := fun q s ss hm => by
    rw [during_result (rt.limited N) c.seen q s ss hm, limited_same (hrt _ hm).1]
  obtain ⟨slot, h4, h5⟩ := h3 _ hfol [(⟨[], .get, [], []⟩, s₀)]
  obtain ⟨offer, grow, growOk, flushes, hfirst⟩ := h.first hc
  obtain ⟨hsm, hby⟩ := hb.events h2
  have hah : (c.first.receiving evs).reader.Ahead (evs.flatMap Ev.atoms) := by
    rw [hfirst]
    exact ⟨rfl, rfl⟩
  have hop := handleAll_open (prof := prof) (during_parts (limited_parts hN rt)) (s := c.seen ++ [(⟨[], .get, [], []⟩, s₀)]) (es := c.wakes)
    (c := c.first.receiving evs) hah.1 (by rw [hfirst]; exact .inr rfl) (cap := 4096) (by rw [hfirst]; exact Nat.le_refl _) (fun e he => (hw e he).1)
    (fun e he => (hw e he).2) hfl
    (r₀ := (c.first.receiving evs).reader) (by rw [hfirst]; exact inProgress_new prof _)
    (by
      intro qs r₁ hh
      obtain ⟨ms₁, ms₂, as', e1, e2, e3, e4, e5, -⟩ := heard_conform hh (fun m hm => (hms m hm).1) hah hsm (by rw [hby]; exact hb.text)
      refine ⟨?_, ?_⟩
      · intro q hq
        rw [e2] at hq
        obtain ⟨m, hm, rfl⟩ := List.mem_map.1 hq
        exact (hms m (by rw [e1]; simp [hm])).2
      · intro o r' hcalls hn
        cases ms₂ with
        | nil =>
          exact ⟨_, (conform_one aRequest_fits (z := []) e3 e4 (by
            have := List.prefix_nil.1 e5; rw [this]; exact List.nil_prefix) hcalls hn).1⟩
        | cons m ms₂ =>
          exact ⟨_, (conform_one (hms m (by rw [e1]; simp)).1 (z := ms₂.flatMap Prod.fst) e3 e4 (by simpa using e5) hcalls hn).1⟩)
  rw [h4] at hop
  rcases hop with ⟨c', hc'⟩ | ⟨qs, out, s₁, q, g1, g2⟩
  · dsimp only at hc'
    subst hc'
    cases hcs : c.slot with
    | live conn => exact ⟨conn, rfl⟩
    | gone _ => rw [hcs] at h5; cases h5
    | poisoned _ => rw [hcs] at h5; cases h5
  · exfalso
    have g3 := during_served g1
    rw [during_eq] at g2
    cases s₁ with
    | nil => simp at g2
    | cons a ss =>
      obtain ⟨q', st⟩ := a
      dsimp only at g2
      split at g2
      · next hq =>
        subst hq
        simp only [Prod.mk.injEq] at g2
        obtain ⟨g2, rfl⟩ := g2
        obtain ⟨pre, g4⟩ := g3
        have g5 : c.seen = pre ++ [(q', st)] := by
          have : (pre ++ [(q', st)]) ++ [(⟨[], .get, [], []⟩, s₀)] = c.seen ++ [(⟨[], .get, [], []⟩, s₀)] := by rw [← g4]; simp
          exact (List.append_cancel_right this).symm
        have g6 := hrt (q', st) (by rw [g5]; simp)
        rw [limited_same g6.1] at g2
        exact g6.2 g2
      · simp at g2

/-- On a connection that nobody uses, and on which everything was read, all complete requests were asked about. -/
theorem serial_answered {s : Net σ} (h : s.SerialAll prof rt) {k : Nat} {c : NConn σ} (hc : s.conns[k]? = some c)
    (hf : ∃ offer grow growOk flushes, c.first = (Net.fresh offer grow growOk flushes : NConn σ).first) (hl : c.lock = none)
    {conn : Conn Rd Nbw} (hs : c.slot = .live conn) (ha : conn.reader.src.atoms = [])
    (hN : 28 ≤ N) (hrt : ∀ a ∈ asksOn k s.asks, ∀ r, rt.Says a r → r.PartsLe N)
    {ms : List (Bytes × Request)} (hms : ∀ m ∈ ms, FittingRequest m.1 m.2) (hb : Brings c.arrived (ms.flatMap Prod.fst))
    (hall : bytesOf (c.arrived.flatMap Ev.atoms) = ms.flatMap Prod.fst) (hw : ∀ evs ∈ c.wakes, Tidy N 4096 evs) :
    (asksOn k s.asks).map Prod.fst = ms.map Prod.snd ∧ AnsweredIn rt (asksOn k s.asks) conn.writer.total := by
  rw [← h.seen k c hc] at hrt ⊢
  suffices hlim : c.seen.map Prod.fst = ms.map Prod.snd ∧ AnsweredIn (rt.limited N) c.seen conn.writer.total by
    exact ⟨hlim.1, hlim.2.congr fun a ha => by rw [limited_same (hrt a ha)]⟩
  obtain ⟨evs, h2, h3⟩ := h.runs hc hl
  have hfol : (rt.limited N).strict.Follows rt c.seen := fun q s ss hm => by rw [strict_follows _ c.seen q s ss hm, limited_same (hrt _ hm)]
  obtain ⟨slot, h4, h5⟩ := h3 _ hfol []
  rw [List.append_nil] at h4
  obtain ⟨offer, grow, growOk, flushes, hfirst⟩ := hf
  obtain ⟨hsm, hby⟩ := hb.events h2
  have hah : (c.first.receiving evs).reader.Ahead (evs.flatMap Ev.atoms) := by
    rw [hfirst]
    exact ⟨rfl, rfl⟩
  obtain ⟨qs, out, s₁, r₁, tail, k1, k2, k3, k0, -, k5, k6⟩ := handleAll_sound (prof := prof) (strict_parts (limited_parts hN rt)) (s := c.seen)
    (c := c.first.receiving evs) hah.1 (by rw [hfirst]; exact .inr rfl) (cap := 4096) (by rw [hfirst]; exact Nat.le_refl _) hw
    (r₀ := (c.first.receiving evs).reader) (by rw [hfirst]; exact inProgress_new prof _)
  rw [hs] at h5
  cases h5 with
  | @live c' _ hsame =>
  obtain ⟨-, k7, k8, -, k9⟩ := k6 c' (by rw [h4])
  rw [h4] at k7
  dsimp only at k7
  subst k7
  obtain ⟨ms₁, ms₂, as', e1, e2, e3, e4, e5, e6⟩ := heard_conform k1 hms hah hsm (by rw [hby]; exact hb.text)
  have hnil : ms₂ = [] := by
    cases ms₂ with
    | nil => rfl
    | cons m ms₂ =>
      exfalso
      have hl' : c'.reader.Ahead [] := ⟨by rw [hsame.lims]; have := ((h.conn k c hc).lims conn hs); exact this, by rw [hsame.input, ha]⟩
      refine k9.idle e3 e4 hl' (hms m (by rw [e1]; simp)) ?_
      rw [hby, hall, e1, List.flatMap_append] at e6
      rw [← List.append_cancel_left e6, List.flatMap_cons]
      exact List.prefix_append _ _
  subst hnil
  obtain ⟨as₁, d1, d2, d3⟩ := strict_served k2
  refine ⟨by rw [d1, List.append_nil, d2, e2, e1, List.append_nil], ?_⟩
  have : (c.first.receiving evs).writer.total = [] := by rw [hfirst]; rfl
  rw [← hsame.writer, k8, this, List.nil_append]
  simpa using d3 [] .nil


theorem idle_answered {s : Net σ} (h : Net.Reach prof rt n s₀ s) {k : Nat} {c : NConn σ} (hc : s.conns[k]? = some c) (hl : c.lock = none)
    {conn : Conn Rd Nbw} (hs : c.slot = .live conn) (ha : conn.reader.src.atoms = [])
    (hN : 28 ≤ N) (hrt : ∀ a ∈ asksOn k s.asks, ∀ r, rt.Says a r → r.PartsLe N)
    {ms : List (Bytes × Request)} (hms : ∀ m ∈ ms, FittingRequest m.1 m.2) (hb : Brings c.arrived (ms.flatMap Prod.fst))
    (hall : bytesOf (c.arrived.flatMap Ev.atoms) = ms.flatMap Prod.fst) (hw : ∀ evs ∈ c.wakes, Tidy N 4096 evs) :
    (asksOn k s.asks).map Prod.fst = ms.map Prod.snd ∧ AnsweredIn rt (asksOn k s.asks) conn.writer.total :=
  serial_answered h.serial hc (h.first hc) hl hs ha hN hrt hms hb hall hw

end Verif
