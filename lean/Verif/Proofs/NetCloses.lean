import Verif.Proofs.NetSettle
import Verif.Proofs.Smoothly
import Verif.Spec.Closes

/-!
How connections end: why one that nobody uses is closed, and that one that should end does.
-/

namespace Verif

variable {σ : Type} {prof : Profile} {rt : Router σ} {n N : Nat} {s₀ : σ}

/-- How the handlers of a connection leave it in the end, if they do not leave it open and the socket does not fail: what was read since `r₀`, with the listeners in
state `s`, and what was written after `acc`. -/
inductive LifeEnds (prof : Profile) (rt : Router σ) (r₀ : Rd) (s : σ) (acc : Bytes) : Slot Rd Nbw → σ → Prop
  | asked {c : Conn Rd Nbw} {qs : List Request} {q : Request} {out : Bytes} {r₁ : Rd} {s₁ : σ} : Heard prof r₀ (qs ++ [q]) r₁ → (∀ q ∈ qs, ¬ CloseAsked q) → CloseAsked q →
      Served rt s (qs ++ [q]) out s₁ → c.writer.total = acc ++ out → LifeEnds prof rt r₀ s acc (.gone c) s₁
  | closed {c : Conn Rd Nbw} {qs : List Request} {out : Bytes} {r₁ r' : Rd} {s₁ : σ} {p : RequestParser} {e : IoError} : Heard prof r₀ qs r₁ → (∀ q ∈ qs, ¬ CloseAsked q) →
      Served rt s qs out s₁ → Calls (RequestParser.parse prof) .new r₁ (.io p e) r' → e ≠ .wouldBlock ∧ isClosed p e = true → c.writer.total = acc ++ out → LifeEnds prof rt r₀ s acc (.gone c) s₁
  | bad {c : Conn Rd Nbw} {qs : List Request} {out : Bytes} {r₁ r' : Rd} {s₁ : σ} {o : Out RequestParser Request} : Heard prof r₀ qs r₁ → (∀ q ∈ qs, ¬ CloseAsked q) →
      Served rt s qs out s₁ → Calls (RequestParser.parse prof) .new r₁ o r' → ((∃ e, o = .perr e) ∨ ∃ p e, o = .io p e ∧ e ≠ .wouldBlock) →
      c.writer.total = acc ++ out ++ badRequestResponse → LifeEnds prof rt r₀ s acc (.gone c) s₁
  | parserPanic {c : Conn Rd Nbw} {qs : List Request} {out : Bytes} {r₁ r' : Rd} {s₁ : σ} : Heard prof r₀ qs r₁ → (∀ q ∈ qs, ¬ CloseAsked q) →
      Served rt s qs out s₁ → Calls (RequestParser.parse prof) .new r₁ .panic r' → LifeEnds prof rt r₀ s acc (.poisoned c) s₁
  | listenerPanic {c : Conn Rd Nbw} {qs : List Request} {q : Request} {out : Bytes} {s₁ s' : σ} : Served rt s qs out s₁ → rt.result q s₁ = (none, s') →
      LifeEnds prof rt r₀ s acc (.poisoned c) s'

theorem LifeEnds.after {r₀ r₁ : Rd} {s s₁ s' : σ} {acc out : Bytes} {x : Slot Rd Nbw} {qs : List Request} (h : LifeEnds prof rt r₁ s₁ (acc ++ out) x s')
    (h1 : Heard prof r₀ qs r₁) (h2 : ∀ q ∈ qs, ¬ CloseAsked q) (h3 : Served rt s qs out s₁) : LifeEnds prof rt r₀ s acc x s' := by
  have app : ∀ {qs' : List Request}, (∀ q ∈ qs', ¬ CloseAsked q) → ∀ q ∈ qs ++ qs', ¬ CloseAsked q :=
    fun h q hq => (List.mem_append.1 hq).elim (h2 q) (h q)
  cases h with
  | asked g1 g2 g3 g4 g5 =>
    have a := h1.append g1
    have b := h3.append g4
    rw [← List.append_assoc] at a b
    exact .asked a (app g2) g3 b (by rw [g5, List.append_assoc])
  | closed g1 g2 g3 g4 g5 g6 => exact .closed (h1.append g1) (app g2) (h3.append g3) g4 g5 (by rw [g6, List.append_assoc])
  | bad g1 g2 g3 g4 g5 g6 => exact .bad (h1.append g1) (app g2) (h3.append g3) g4 g5 (by rw [g6]; simp)
  | parserPanic g1 g2 g3 g4 => exact .parserPanic (h1.append g1) (app g2) (h3.append g3) g4
  | listenerPanic g1 g2 => exact .listenerPanic (h3.append g1) g2

theorem handleAll_ends (hrt : rt.PartsLe N) {es : List (List WEv)} {c : Conn Rd Nbw} {s : σ} (hl : c.reader.lims = [])
    (hw : c.writer.Ok) {cap : Nat} (hcap : cap ≤ c.writer.cap) (hes : ∀ evs ∈ es, Tidy N cap evs)
    (hok : ∀ evs ∈ es, ∀ e, .err e ∈ evs → e = .wouldBlock) (hfl : ∀ e, some e ∈ c.writer.sock.flushes → e = .wouldBlock)
    {r₀ : Rd} (hi : InProgress prof r₀ (c.parser.getD .new) c.reader) :
    (∃ c', (handleAll prof rt es (.live c) s).1 = .live c') ∨
      LifeEnds prof rt r₀ s c.writer.total (handleAll prof rt es (.live c) s).1 (handleAll prof rt es (.live c) s).2 := by
  induction es generalizing c s r₀ with
  | nil => exact .inl ⟨c, rfl⟩
  | cons evs es ih =>
    have hw' := orderly_wake hw hcap (hes evs (by simp))
    have hnf : ∀ e, ¬ Nbw.Faulty { c.writer with sock := { c.writer.sock with evs } } e := by
      rintro e ⟨h1, h2 | h2⟩
      · exact h1 (hok evs (by simp) e h2)
      · exact h1 (hfl e h2)
    have ht : ({ c.writer with sock := { c.writer.sock with evs } } : Nbw).total = c.writer.total := rfl
    simp only [handleAll, Slot.wake]
    rcases handle_trace (prof := prof) hrt (s := s) (c := { c with writer := { c.writer with sock := { c.writer.sock with evs } } }) hl hw' with
      ⟨e, w, h1, -⟩ | ⟨e, c', s', qs, out, s₁, p₁, r₁, h1, h2, h3, h4, h5, h6⟩
    · exact absurd h1 (hnf e)
    · rw [h1]
      obtain ⟨r₂, g1, g2⟩ := h3.heard hi
      cases h6 with
      | @keep _ p' e1 e2 e3 e4 =>
        have hl₁ := h3.lims hl
        have h7 := parse_lims (prof := prof) (p := p₁) hl₁
        rw [e1] at h7
        simp only [finish]
        rcases ih (c := c') (s := s') (r₀ := r₂) h7 e3.ok (Nat.le_trans hcap h2.cap) (fun e he => hes e (by simp [he])) (fun e he => hok e (by simp [he]))
          (fun e he => hfl e (h2.flushes.mem he)) (by rw [e2]; exact g2.pause e1) with h8 | h8
        · exact .inl h8
        · rw [e4] at h8
          exact .inr (h8.after g1 h4 h5)
      | @asked _ q a _ e1 e2 e3 e4 e5 =>
        right
        simp only [finish]
        rw [handleAll_gone]
        exact .asked (g1.append (.cons (g2.calls (.last e1)) .nil)) h4 e3 (h5.append (by simpa using Served.cons e2 .nil)) (by rw [e5, ht, List.append_assoc])
      | failed _ _ e3 => exact absurd e3 (hnf _)
      | closed e1 e2 e3 e4 e5 =>
        right
        simp only [finish]
        rw [handleAll_gone]
        exact .closed g1 h4 h5 (g2.calls (.last e1)) ⟨e2, e3⟩ e5
      | bad e1 e2 =>
        right
        simp only [finish]
        rw [handleAll_gone]
        have e4 : c'.writer.total = c.writer.total ++ out ++ badRequestResponse := by
          rcases e2 with ⟨-, e3⟩ | ⟨e, e3, -⟩
          · exact e3
          · exact absurd e3 (hnf e)
        rcases e1 with ⟨e, e1⟩ | ⟨p', e, e1, e3, -⟩
        · exact .bad g1 h4 h5 (g2.calls (.last e1)) (.inl ⟨e, rfl⟩) e4
        · exact .bad g1 h4 h5 (g2.calls (.last e1)) (.inr ⟨p', e, rfl, e3⟩) e4
      | parserPanic e1 e2 e3 =>
        right
        simp only [finish]
        rw [handleAll_poisoned]
        exact .parserPanic g1 h4 h5 (g2.calls (.last e1))
      | @listenerPanic _ q s' e1 e2 e3 e4 =>
        right
        simp only [finish]
        rw [handleAll_poisoned]
        exact .listenerPanic h5 e2

theorem during_answers {as ss : List (Request × σ)} {qs : List Request} {out : Bytes} (h : Served rt.during as qs out ss) :
    ∃ as', as = as' ++ ss ∧ as'.map Prod.fst = qs ∧ AnsweredIn rt as' out := by
  generalize hr : rt.during = D at h
  induction h with
  | nil => exact ⟨[], rfl, rfl, .nil⟩
  | @cons s s₁ s₂ q qs a out h1 h2 ih =>
    subst hr
    rw [during_eq] at h1
    cases s with
    | nil => cases h1
    | cons x s =>
      obtain ⟨q', st⟩ := x
      dsimp only at h1
      split at h1
      · next hq =>
        subst hq
        simp only [Prod.mk.injEq] at h1
        obtain ⟨h1, rfl⟩ := h1
        obtain ⟨as', i1, i2, i3⟩ := ih
        exact ⟨(q', st) :: as', by rw [i1]; rfl, by simp [i2], .cons h1 i3⟩
      · cases h1

/-- How a connection that nobody uses is, if the socket did not fail and no listener panicked: what was read since `r₀`, and what was asked. -/
inductive Stands (prof : Profile) (rt : Router σ) (r₀ : Rd) (as : List (Request × σ)) : Slot Rd Nbw → Prop
  | live {c : Conn Rd Nbw} {qs : List Request} {r₁ r' : Rd} {p : RequestParser} : Heard prof r₀ qs r₁ → (∀ q ∈ qs, ¬ CloseAsked q) → InProgress prof r₁ p r' →
      r'.Ahead c.reader.src.atoms → Stands prof rt r₀ as (.live c)
  | asked {c : Conn Rd Nbw} {qs : List Request} {q : Request} {r₁ : Rd} : Heard prof r₀ (qs ++ [q]) r₁ → (∀ q ∈ qs, ¬ CloseAsked q) → CloseAsked q →
      as.map Prod.fst = qs ++ [q] → AnsweredIn rt as c.writer.total → Stands prof rt r₀ as (.gone c)
  | closed {c : Conn Rd Nbw} {qs : List Request} {r₁ r' : Rd} {p : RequestParser} {e : IoError} : Heard prof r₀ qs r₁ → (∀ q ∈ qs, ¬ CloseAsked q) →
      as.map Prod.fst = qs → AnsweredIn rt as c.writer.total → Calls (RequestParser.parse prof) .new r₁ (.io p e) r' → e ≠ .wouldBlock ∧ isClosed p e = true → Stands prof rt r₀ as (.gone c)
  | bad {c : Conn Rd Nbw} {qs : List Request} {out : Bytes} {r₁ r' : Rd} {o : Out RequestParser Request} : Heard prof r₀ qs r₁ → (∀ q ∈ qs, ¬ CloseAsked q) →
      as.map Prod.fst = qs → AnsweredIn rt as out → Calls (RequestParser.parse prof) .new r₁ o r' → ((∃ e, o = .perr e) ∨ ∃ p e, o = .io p e ∧ e ≠ .wouldBlock) →
      c.writer.total = out ++ badRequestResponse → Stands prof rt r₀ as (.gone c)
  | panic {c : Conn Rd Nbw} {qs : List Request} {r₁ r' : Rd} : Heard prof r₀ qs r₁ → (∀ q ∈ qs, ¬ CloseAsked q) →
      Calls (RequestParser.parse prof) .new r₁ .panic r' → Stands prof rt r₀ as (.poisoned c)

theorem stands {s : Net σ} (h : Net.Reach prof rt n s₀ s) {k : Nat} {c : NConn σ} (hc : s.conns[k]? = some c) (hl : c.lock = none)
    (hN : 28 ≤ N) (hrt : ∀ a ∈ asksOn k s.asks, (∀ r, rt.Says a r → r.PartsLe N) ∧ (rt.result a.1 a.2).1 ≠ none)
    (hw : ∀ evs ∈ c.wakes, Tidy N 4096 evs ∧ ∀ e, .err e ∈ evs → e = .wouldBlock)
    (hfl : ∀ e, some e ∈ c.first.writer.sock.flushes → e = .wouldBlock) :
    ∃ (evs : List Ev) (r₀ : Rd), evs.filter (· ≠ .err .wouldBlock) = c.arrived ∧ r₀.Ahead (evs.flatMap Ev.atoms) ∧ Stands prof rt r₀ (asksOn k s.asks) c.slot := by
  rw [← h.serial.seen k c hc] at hrt ⊢
  obtain ⟨evs, h2, h3⟩ := C43_serial h hc hl
  have hfol : (rt.limited N).during.Follows rt c.seen := fun q s ss hm => by
    rw [during_result (rt.limited N) c.seen q s ss hm, limited_same (hrt _ hm).1]
  obtain ⟨slot, h4, h5⟩ := h3 _ hfol [(⟨[], .get, [], []⟩, s₀)]
  obtain ⟨offer, grow, growOk, flushes, hfirst⟩ := h.first hc
  have hah : (c.first.receiving evs).reader.Ahead (evs.flatMap Ev.atoms) := by
    rw [hfirst]
    exact ⟨rfl, rfl⟩
  refine ⟨evs, _, h2, hah, ?_⟩
  have hpw : (c.first.receiving evs).writer.Ok := by rw [hfirst]; exact .inr rfl
  have hcap : 4096 ≤ (c.first.receiving evs).writer.cap := by rw [hfirst]; exact Nat.le_refl _
  have htot : (c.first.receiving evs).writer.total = [] := by rw [hfirst]; rfl
  have hnew : InProgress prof (c.first.receiving evs).reader ((c.first.receiving evs).parser.getD .new) (c.first.receiving evs).reader := by
    rw [hfirst]; exact inProgress_new prof _
  have hans : ∀ {qs : List Request} {out : Bytes}, Served (rt.limited N).during (c.seen ++ [(⟨[], .get, [], []⟩, s₀)]) qs out [(⟨[], .get, [], []⟩, s₀)] →
      c.seen.map Prod.fst = qs ∧ AnsweredIn rt c.seen out := by
    intro qs out hsv
    obtain ⟨as', i1, i2, i3⟩ := during_answers hsv
    obtain rfl := List.append_cancel_right i1
    exact ⟨i2, i3.congr fun a ha => by rw [limited_same (hrt a ha).1]⟩
  rcases handleAll_ends (prof := prof) (during_parts (limited_parts hN rt)) (s := c.seen ++ [(⟨[], .get, [], []⟩, s₀)]) (es := c.wakes)
    (c := c.first.receiving evs) hah.1 hpw hcap (fun e he => (hw e he).1) (fun e he => (hw e he).2) hfl hnew with ⟨c', hc'⟩ | he
  · obtain ⟨qs, out, s₁, r₁, tail, k1, k2, k3, k0, -, k5, k6⟩ := handleAll_sound (prof := prof) (during_parts (limited_parts hN rt)) (s := c.seen ++ [(⟨[], .get, [], []⟩, s₀)])
      (c := c.first.receiving evs) hah.1 hpw hcap (fun e he => (hw e he).1) hnew
    obtain ⟨-, -, -, k7, k8⟩ := k6 c' hc'
    rw [h4] at hc'
    dsimp only at hc'
    subst hc'
    generalize hcs : c.slot = x at h5
    cases h5 with
    | @live _ conn hsame =>
      exact .live k1 k7 k8 ⟨by rw [hsame.lims]; exact (h.serial.conn k c hc).lims conn hcs, hsame.input⟩
  · rw [h4, htot] at he
    dsimp only at he
    generalize c.slot = x at h5
    cases he with
    | asked g1 g2 g3 g4 g5 =>
      cases h5 with
      | @gone _ conn hsame =>
        obtain ⟨i1, i2⟩ := hans g4
        exact .asked g1 g2 g3 i1 (by rw [← hsame.writer, g5]; exact i2)
    | closed g1 g2 g3 g4 g5 g6 =>
      cases h5 with
      | @gone _ conn hsame =>
        obtain ⟨i1, i2⟩ := hans g3
        exact .closed g1 g2 i1 (by rw [← hsame.writer, g6]; exact i2) g4 g5
    | bad g1 g2 g3 g4 g5 g6 =>
      cases h5 with
      | @gone _ conn hsame =>
        obtain ⟨i1, i2⟩ := hans g3
        exact .bad g1 g2 i1 i2 g4 g5 (by rw [← hsame.writer, g6]; rfl)
    | parserPanic g1 g2 g3 g4 =>
      cases h5 with
      | @poisoned _ conn hsame => exact .panic g1 g2 g4
    | @listenerPanic _ qs q out s₁ _ g1 g2 =>
      exfalso
      have g3 := during_served g1
      rw [during_eq] at g2
      cases s₁ with
      | nil => simp at g2
      | cons a ss =>
        obtain ⟨q', st⟩ := a
        dsimp only at g2
        split at g2
        · next hq =>
          subst hq
          simp only [Prod.mk.injEq] at g2
          obtain ⟨g2, rfl⟩ := g2
          obtain ⟨pre, g4⟩ := g3
          have g5 : c.seen = pre ++ [(q', st)] := by
            have : (pre ++ [(q', st)]) ++ [(⟨[], .get, [], []⟩, s₀)] = c.seen ++ [(⟨[], .get, [], []⟩, s₀)] := by rw [← g4]; simp
            exact (List.append_cancel_right this).symm
          have g6 := hrt (q', st) (by rw [g5]; simp)
          rw [limited_same g6.1] at g2
          exact g6.2 g2
        · simp at g2

/-! ## A connection that is closed stays so -/

theorem asksOn_other {k k' : Nat} {as : List (Nat × Request × σ)} {a : Request × σ} (h : k' ≠ k) : asksOn k (as ++ [(k', a)]) = asksOn k as := by
  simp [asksOn, h]

theorem NStep.shut {s s' : Net σ} (h : NStep prof rt s s') {k : Nat} {c : NConn σ} (hc : s.conns[k]? = some c) (hs : Net.isLive c.slot = false) :
    (∃ c', s'.conns[k]? = some c' ∧ c'.slot = c.slot) ∧ asksOn k s'.asks = asksOn k s.asks := by
  have hkl := (List.getElem?_eq_some_iff.1 hc).1
  have dead : ∀ {conn : Conn Rd Nbw}, c.slot ≠ .live conn := fun h => by rw [h] at hs; simp [Net.isLive] at hs
  have set : ∀ {s' : Net σ} {k' : Nat} {d d' : NConn σ}, s.conns[k']? = some d → s'.conns = (s.setConn k' d').conns →
      (k' = k → d'.slot = d.slot) → ∃ c', s'.conns[k]? = some c' ∧ c'.slot = c.slot := by
    intro s' k' d d' hd he h1
    rw [he]
    simp only [Net.setConn, List.getElem?_set]
    by_cases hk : k' = k
    · subst hk
      rw [hc] at hd; cases hd
      exact ⟨d', by simp [hkl], h1 rfl⟩
    · exact ⟨c, by simp [hk, hc], rfl⟩
  have other : ∀ {k' : Nat} {d : NConn σ} {conn : Conn Rd Nbw}, s.conns[k']? = some d → d.slot = .live conn → k' ≠ k := by
    rintro k' d conn hd hl rfl
    rw [hc] at hd; cases hd
    exact dead hl
  cases h with
  | accept => exact ⟨⟨c, by dsimp only; rw [List.getElem?_append_left hkl]; exact hc, rfl⟩, rfl⟩
  | arrive hd hl => exact ⟨set hd rfl fun h => absurd h (other hd hl), rfl⟩
  | notify hd => exact ⟨set hd rfl fun _ => rfl, rfl⟩
  | @poll ks => exact ⟨⟨if k ∈ ks then { c with edge := false } else c, by simp [List.getElem?_mapIdx, hc], by split <;> rfl⟩, rfl⟩
  | skip => exact ⟨⟨c, hc, rfl⟩, rfl⟩
  | remove hd => exact ⟨set hd rfl fun _ => rfl, rfl⟩
  | execute => exact ⟨⟨c, hc, rfl⟩, rfl⟩
  | fail => exact ⟨⟨c, hc, rfl⟩, rfl⟩
  | work => exact ⟨⟨c, hc, rfl⟩, rfl⟩
  | enterPoisoned _ hd => exact ⟨set hd rfl fun _ => rfl, rfl⟩
  | enterGone _ hd => exact ⟨set hd rfl fun _ => rfl, rfl⟩
  | enter _ hd _ _ hl => exact ⟨set hd rfl fun h => absurd h (other hd hl), rfl⟩
  | go _ hd _ ha =>
    cases ha with
    | move hm =>
      refine ⟨set hd rfl ?_, rfl⟩
      rintro rfl
      rw [hc] at hd; cases hd
      exfalso
      generalize c.slot = x at hm hs
      generalize s.phase _ = ph at hm
      cases hm <;> simp [Net.isLive] at hs
    | ask _ hl =>
      have hk := other hd hl
      exact ⟨set hd rfl fun h => absurd h hk, asksOn_other hk⟩
    | crash _ hl => exact ⟨set hd rfl fun h => absurd h (other hd hl), rfl⟩
    | crashAsk _ hl =>
      have hk := other hd hl
      exact ⟨set hd rfl fun h => absurd h hk, asksOn_other hk⟩
    | leave => exact ⟨set hd rfl fun _ => rfl, rfl⟩

theorem Net.Run.shut (r : Net.Run prof rt n s₀) {t t' k : Nat} (h : t ≤ t') {c : NConn σ} (hc : (r.at_ t).conns[k]? = some c) (hs : Net.isLive c.slot = false) :
    (∃ c', (r.at_ t').conns[k]? = some c' ∧ c'.slot = c.slot) ∧ asksOn k (r.at_ t').asks = asksOn k (r.at_ t).asks := by
  obtain ⟨d, rfl⟩ := Nat.exists_eq_add_of_le h
  induction d with
  | zero => exact ⟨⟨c, hc, rfl⟩, rfl⟩
  | succ d ih =>
    obtain ⟨⟨c', h1, h2⟩, h3⟩ := ih (by omega)
    rcases r.nstep (t + d) with h | h
    · rw [← Nat.add_assoc, h]; exact ⟨⟨c', h1, h2⟩, h3⟩
    · obtain ⟨⟨c'', h4, h5⟩, h6⟩ := h.shut h1 (by rw [h2]; exact hs)
      exact ⟨⟨c'', h4, by rw [h5, h2]⟩, by rw [← Nat.add_assoc, h6, h3]⟩

/-! ## Requests, and then one that asks for the end, or none -/

/-- Nobody uses the connection, and all was read of a text that begins with requests of which only the last asks for the end: it has been closed, after answering all of these. -/
theorem Stands.asked_text {r₀ : Rd} {as : List (Request × σ)} {x : Slot Rd Nbw} (h : Stands prof rt r₀ as x) {evs : List Atom}
    {ms : List (Bytes × Request)} (hms : ∀ m ∈ ms, FittingRequest m.1 m.2 ∧ ¬ CloseAsked m.2) {w : Bytes} {q : Request} (hq : FittingRequest w q) (hcl : CloseAsked q)
    (he : ∀ conn, x = .live conn → conn.reader.src.atoms = [] ∧ ms.flatMap Prod.fst ++ w <+: bytesOf evs)
    (hr : r₀.Ahead evs) (hsm : Smooth evs) {z : Bytes} (htext : bytesOf evs <+: ms.flatMap Prod.fst ++ w ++ z) :
    ∃ conn, x = .gone conn ∧ as.map Prod.fst = ms.map Prod.snd ++ [q] ∧ AnsweredIn rt as conn.writer.total := by
  have hfit : ∀ m ∈ ms ++ [(w, q)], FittingRequest m.1 m.2 := by
    intro m hm
    rcases List.mem_append.1 hm with hm | hm
    · exact (hms m hm).1
    · rw [List.mem_singleton.1 hm]; exact hq
  have hcat : (ms ++ [(w, q)]).flatMap Prod.fst = ms.flatMap Prod.fst ++ w := by simp
  -- where none of what was read asks for the end, there is a request that was not read
  have part : ∀ {qs : List Request} {r₁ : Rd}, Heard prof r₀ qs r₁ → (∀ q ∈ qs, ¬ CloseAsked q) →
      ∃ (m : Bytes × Request) (z' : Bytes) (as' : List Atom), FittingRequest m.1 m.2 ∧ r₁.Ahead as' ∧ Smooth as' ∧ bytesOf as' <+: m.1 ++ z' ∧
        (ms.flatMap Prod.fst ++ w <+: bytesOf evs → m.1 <+: bytesOf as') := by
    intro qs r₁ hh hno
    rcases heard_first hh hfit hr hsm (z := z) (by rw [hcat]; exact htext) with ⟨ms₁, ms₂, as', e1, e2, e3, e4, e5, e6⟩ | ⟨q', qs', r', r'', as', e1, -⟩
    · cases ms₂ with
      | nil =>
        rw [List.append_nil] at e1
        exact absurd hcl (hno q (by rw [e2, ← e1]; simp))
      | cons m ms₂ =>
        refine ⟨m, ms₂.flatMap Prod.fst ++ z, as', hfit m (by rw [e1]; simp), e3, e4, by simpa using e5, fun hall => ?_⟩
        rw [← hcat, e1, e6, List.flatMap_append, List.prefix_append_right_inj, List.flatMap_cons] at hall
        exact (List.prefix_append _ _).trans hall
    · exact absurd hcl (hno q (by rw [e1]; simp))
  have nope : ∀ {qs : List Request} {r₁ r' : Rd} {o : Out RequestParser Request}, Heard prof r₀ qs r₁ → (∀ q ∈ qs, ¬ CloseAsked q) →
      Calls (RequestParser.parse prof) .new r₁ o r' → (∀ p, o ≠ .io p .wouldBlock) → (∀ q, o ≠ .done q) → False := by
    intro qs r₁ r' o hh hno hc ho hd
    obtain ⟨m, z', as', h1, h2, h3, h4, -⟩ := part hh hno
    exact hd _ (conform_one h1 h2 h3 h4 hc ho).1
  cases h with
  | live h1 h2 h3 h4 =>
    exfalso
    obtain ⟨m, z', as', g1, g2, g3, -, g4⟩ := part h1 h2
    rw [(he _ rfl).1] at h4
    exact h3.idle g2 g3 h4 g1 (g4 (he _ rfl).2)
  | @asked conn qs q' r₁ h1 h2 h3 h4 h5 =>
    refine ⟨conn, rfl, ?_, h5⟩
    rw [h4]
    rcases heard_first h1 hfit hr hsm (z := z) (by rw [hcat]; exact htext) with ⟨ms₁, ms₂, as', e1, e2, -⟩ | ⟨q'', qs', r', r'', as', e1, -⟩
    · rcases List.eq_nil_or_concat ms₂ with rfl | ⟨ms₂, m, rfl⟩
      · rw [List.append_nil] at e1
        rw [e2, ← e1]
        simp
      · exfalso
        rw [List.concat_eq_append, ← List.append_assoc] at e1
        obtain ⟨e1, -⟩ := List.append_inj' e1 rfl
        have : q' ∈ ms₁.map Prod.snd := by rw [← e2]; simp
        obtain ⟨m', hm', rfl⟩ := List.mem_map.1 this
        exact (hms m' (by rw [e1]; simp [hm'])).2 h3
    · exfalso
      have : q ∈ qs := by
        have h6 := congrArg List.dropLast e1
        rw [List.dropLast_concat] at h6
        rw [h6, List.dropLast_append_of_ne_nil (by simp)]
        simp
      exact h2 q this hcl
  | closed h1 h2 _ _ h5 h6 => exact (nope h1 h2 h5 (by rintro p h; cases h; exact h6.1 rfl) (by simp)).elim
  | bad h1 h2 _ _ h5 h6 =>
    refine (nope h1 h2 h5 ?_ ?_).elim
    · rintro p rfl
      rcases h6 with ⟨e, h⟩ | ⟨p, e, h, h'⟩
      · cases h
      · cases h; exact h' rfl
    · rintro q rfl
      rcases h6 with ⟨e, h⟩ | ⟨p, e, h, -⟩ <;> cases h
  | panic h1 h2 h3 => exact (nope h1 h2 h3 (by simp) (by simp)).elim

/-- The same where something that is no request follows on the requests: one more answer says so. -/
theorem Stands.refused_text {r₀ : Rd} {as : List (Request × σ)} {x : Slot Rd Nbw} (h : Stands prof rt r₀ as x) {evs : List Atom}
    {ms : List (Bytes × Request)} (hms : ∀ m ∈ ms, FittingRequest m.1 m.2 ∧ ¬ CloseAsked m.2) {b : Bytes} (hb : Refused prof b)
    (he : ∀ conn, x = .live conn → conn.reader.src.atoms = [] ∧ ms.flatMap Prod.fst ++ b <+: bytesOf evs)
    (hr : r₀.Ahead evs) (hsm : Smooth evs) {z : Bytes} (htext : bytesOf evs <+: ms.flatMap Prod.fst ++ b ++ z) :
    ∃ conn out, x = .gone conn ∧ as.map Prod.fst = ms.map Prod.snd ∧ AnsweredIn rt as out ∧ conn.writer.total = out ++ badRequestResponse := by
  have hfit : ∀ m ∈ ms, FittingRequest m.1 m.2 := fun m hm => (hms m hm).1
  obtain ⟨e₀, hd⟩ := hb.decides
  rw [List.append_assoc] at htext
  have part : ∀ {qs : List Request} {r₁ : Rd}, Heard prof r₀ qs r₁ →
      ∃ (ms₁ : List (Bytes × Request)) (w z' : Bytes) (o : Out RequestParser Request) (as' : List Atom), qs = ms₁.map Prod.snd ∧ Decides prof w o ∧ r₁.Ahead as' ∧ Smooth as' ∧ bytesOf as' <+: w ++ z' ∧
        (ms.flatMap Prod.fst ++ b <+: bytesOf evs → w <+: bytesOf as') ∧ (ms₁ <+: ms ∧ (∃ q, o = .done q) ∨ ms₁ = ms ∧ ∃ e, o = .perr e) := by
    intro qs r₁ hh
    rcases heard_first hh hfit hr hsm htext with ⟨ms₁, ms₂, as', e1, e2, e3, e4, e5, e6⟩ | ⟨q', qs', r', r'', as', e1, e2, e3, e4, e5⟩
    · have hall' : ms.flatMap Prod.fst ++ b <+: bytesOf evs → ms₂.flatMap Prod.fst ++ b <+: bytesOf as' := fun hall => by
        rw [e1, e6, List.flatMap_append, List.append_assoc, List.prefix_append_right_inj] at hall
        exact hall
      cases ms₂ with
      | nil => exact ⟨ms₁, b, z, _, as', e2, hd, e3, e4, by simpa using e5, fun hall => by simpa using hall' hall, .inr ⟨by rw [e1, List.append_nil], _, rfl⟩⟩
      | cons m ms₂ =>
        refine ⟨ms₁, m.1, ms₂.flatMap Prod.fst ++ (b ++ z), _, as', e2, (hfit m (by rw [e1]; simp)).decides, e3, e4, by simpa using e5, fun hall => ?_, .inl ⟨⟨_, e1.symm⟩, _, rfl⟩⟩
        have hall := hall' hall
        rw [List.flatMap_cons, List.append_assoc] at hall
        exact (List.prefix_append _ _).trans hall
    · obtain ⟨h, -⟩ := conform_text hd e3 e4 e5 e2 (by simp)
      cases h
  have comes : ∀ {qs : List Request} {r₁ r' : Rd} {o : Out RequestParser Request}, Heard prof r₀ qs r₁ →
      Calls (RequestParser.parse prof) .new r₁ o r' → (∀ p, o ≠ .io p .wouldBlock) → (∀ q, o ≠ .done q) → qs = ms.map Prod.snd ∧ ∃ e, o = .perr e := by
    intro qs r₁ r' o hh hc ho hn
    obtain ⟨ms₁, w, z', o', as', e1, e2, e3, e4, e5, -, e6⟩ := part hh
    obtain ⟨rfl, -⟩ := conform_text e2 e3 e4 e5 hc ho
    rcases e6 with ⟨-, q, rfl⟩ | ⟨rfl, h⟩
    · exact absurd rfl (hn q)
    · exact ⟨e1, h⟩
  cases h with
  | live h1 h2 h3 h4 =>
    exfalso
    obtain ⟨ms₁, w, z', o, as', -, g1, g2, g3, -, g4, -⟩ := part h1
    rw [(he _ rfl).1] at h4
    exact h3.undecided g2 g3 h4 g1 (g4 (he _ rfl).2)
  | @asked conn qs q' r₁ h1 h2 h3 h4 h5 =>
    exfalso
    obtain ⟨ms₁, w, z', o, as', e1, -, -, -, -, -, e2⟩ := part h1
    have : ms₁ <+: ms := by
      rcases e2 with ⟨h, -⟩ | ⟨rfl, -⟩
      · exact h
      · exact List.prefix_refl _
    have hm : q' ∈ ms₁.map Prod.snd := by rw [← e1]; simp
    obtain ⟨m', hm', rfl⟩ := List.mem_map.1 hm
    exact (hms m' (this.subset hm')).2 h3
  | closed h1 h2 _ _ h5 h6 =>
    obtain ⟨-, e, h⟩ := comes h1 h5 (by rintro p h; cases h; exact h6.1 rfl) (by simp)
    cases h
  | @bad conn qs out _ _ _ h1 h2 h3 h4 h5 h6 h7 =>
    obtain ⟨i1, -⟩ := comes h1 h5 (by
      rintro p rfl
      rcases h6 with ⟨e, h⟩ | ⟨p, e, h, h'⟩
      · cases h
      · cases h; exact h' rfl) (by
      rintro q rfl
      rcases h6 with ⟨e, h⟩ | ⟨p, e, h, -⟩ <;> cases h)
    exact ⟨conn, out, rfl, by rw [h3, i1], h4, h7⟩
  | panic h1 h2 h3 =>
    obtain ⟨-, e, h⟩ := comes h1 h3 (by simp) (by simp)
    cases h

/-! ## Runs -/

/-- There is a time when nobody uses the connection and all of the text has been read. -/
theorem Net.Run.finds (r : Net.Run prof rt n s₀) (hg : r.Going) (he : r.Ends) (hcr : ∀ t, (r.at_ t).pool.crashed.length < n) {k : Nat} (hs : r.Steady N k) {w z : Bytes}
    (hc : r.Comes k w z) : ∃ T c, (r.at_ T).conns[k]? = some c ∧ ∃ (r₀ : Rd) (evs : List Atom), Stands prof rt r₀ (asksOn k (r.at_ T).asks) c.slot ∧
      (∀ conn, c.slot = .live conn → conn.reader.src.atoms = []) ∧ r₀.Ahead evs ∧ Smooth evs ∧ bytesOf evs <+: w ++ z ∧ w <+: bytesOf evs := by
  obtain ⟨t₀, c₀, hc₀, hall⟩ := hc.all
  obtain ⟨T₁, hT₁⟩ := r.settles hg he hcr ⟨t₀, c₀, hc₀⟩ hs.stays
  obtain ⟨c₁, h1, -⟩ := r.mono hc₀ (max t₀ T₁ - t₀)
  rw [show t₀ + (max t₀ T₁ - t₀) = max t₀ T₁ by omega] at h1
  obtain ⟨T, h2, c, h3, h4⟩ := r.unused hg he h1
  obtain ⟨c', h5, h6⟩ := hT₁ T (by omega)
  rw [h3] at h5; cases h5
  obtain ⟨evs, r₀, h7, h8, h9⟩ := stands (r.reach T) h3 h4 hs.size (hs.listeners T) (hs.socket T c h3) (hs.flushes T c h3)
  obtain ⟨hsm, hby⟩ := (hc.text T c h3).events h7
  refine ⟨T, c, h3, r₀, _, h9, h6, h8, hsm, by rw [hby]; exact (hc.text T c h3).text, ?_⟩
  obtain ⟨c', h10, x, hx⟩ := r.arrivedPrefix (show t₀ ≤ T by omega) hc₀
  rw [h3] at h10; cases h10
  rw [hby, ← hx, List.flatMap_append, bytesOf_app]
  exact hall.trans (List.prefix_append _ _)

/-! ## The end of the stream -/

/-- On a connection that nobody uses, that is open and on which all was read, the stream has neither ended nor failed. -/
theorem idle_mild {s : Net σ} (h : Net.Reach prof rt n s₀ s) {k : Nat} {c : NConn σ} (hc : s.conns[k]? = some c) (hl : c.lock = none)
    {conn : Conn Rd Nbw} (hs : c.slot = .live conn) (ha : conn.reader.src.atoms = []) {ev : Ev} (hev : ev ∈ c.arrived) : ¬ ev.Final := by
  obtain ⟨evs, h2, h3⟩ := C43_serial h hc hl
  obtain ⟨slot, h4, h5⟩ := h3 _ (during_result rt _) []
  obtain ⟨offer, grow, growOk, flushes, hfirst⟩ := h.first hc
  rw [hs] at h5
  cases h5 with
  | @live c' _ hsame =>
  have hm : (c.first.receiving evs).Mild (evs.flatMap Ev.atoms) := by
    rw [hfirst]
    exact ⟨by simp [Net.fresh, Conn.receiving, Conn.new, RequestParser.new, MsgState.Framed], _, ⟨rfl, rfl⟩, [], rfl, by simp⟩
  obtain ⟨-, as, h6, used, h7, h8⟩ := handleAll_mild hm h4
  obtain rfl : as = [] := by rw [← h6.2, hsame.input, ha]
  rw [List.append_nil] at h7
  have hmem : ev ∈ evs := by rw [← h2] at hev; exact (List.mem_filter.1 hev).1
  intro hf
  cases ev with
  | data b =>
    have : b = [] := hf
    subst this
    rcases h8 .eof (by rw [← h7]; exact List.mem_flatMap.2 ⟨_, hmem, by simp [Ev.atoms]⟩) with ⟨b, h⟩ | h | h <;> cases h
  | err e =>
    obtain ⟨g1, g2⟩ := hf
    rcases h8 (.err e) (by rw [← h7]; exact List.mem_flatMap.2 ⟨_, hmem, by simp [Ev.atoms]⟩) with ⟨b, h⟩ | h | h
    · cases h
    · cases h; exact g2 rfl
    · cases h; exact g1 rfl

/-! ## A connection that the event loop has dropped -/

theorem NStep.removed {s s' : Net σ} (h : NStep prof rt s s') {k : Nat} {c : NConn σ} (hc : s.conns[k]? = some c) (hi : c.inTable = false) :
    (∃ c', s'.conns[k]? = some c' ∧ c'.inTable = false) ∧ ∀ j a : Nat, s'.jobs[j]? = some (k, a) → s.jobs[j]? = some (k, a) := by
  have hkl := (List.getElem?_eq_some_iff.1 hc).1
  have set : ∀ {s' : Net σ} {k' : Nat} {d d' : NConn σ}, s.conns[k']? = some d → s'.conns = (s.setConn k' d').conns →
      (d.inTable = false → d'.inTable = false) → ∃ c', s'.conns[k]? = some c' ∧ c'.inTable = false := by
    intro s' k' d d' hd he h1
    rw [he]
    simp only [Net.setConn, List.getElem?_set]
    by_cases hk : k' = k
    · subst hk
      rw [hc] at hd; cases hd
      exact ⟨d', by simp [hkl], h1 hi⟩
    · exact ⟨c, by simp [hk, hc], hi⟩
  cases h with
  | accept => exact ⟨⟨c, by dsimp only; rw [List.getElem?_append_left hkl]; exact hc, hi⟩, fun _ _ h => h⟩
  | arrive hd => exact ⟨set hd rfl id, fun _ _ h => h⟩
  | notify hd => exact ⟨set hd rfl id, fun _ _ h => h⟩
  | @poll ks => exact ⟨⟨if k ∈ ks then { c with edge := false } else c, by simp [List.getElem?_mapIdx, hc], by split <;> exact hi⟩, fun _ _ h => h⟩
  | skip => exact ⟨⟨c, hc, hi⟩, fun _ _ h => h⟩
  | remove hd => exact ⟨set hd rfl fun _ => rfl, fun _ _ h => h⟩
  | @execute k' _ d _ hd ht =>
    refine ⟨⟨c, hc, hi⟩, fun j a h => ?_⟩
    dsimp only at h
    rcases Nat.lt_or_ge j s.jobs.length with hj | hj
    · rw [List.getElem?_append_left hj] at h; exact h
    · rw [List.getElem?_append_right hj] at h
      have h1 := List.mem_of_getElem? h
      simp only [List.mem_singleton, Prod.mk.injEq] at h1
      obtain ⟨rfl, -⟩ := h1
      rw [hc] at hd; cases hd
      rw [hi] at ht; cases ht
  | fail => exact ⟨⟨c, hc, hi⟩, fun _ _ h => h⟩
  | work => exact ⟨⟨c, hc, hi⟩, fun _ _ h => h⟩
  | enterPoisoned _ hd => exact ⟨set hd rfl id, fun _ _ h => h⟩
  | enterGone _ hd => exact ⟨set hd rfl id, fun _ _ h => h⟩
  | enter _ hd => exact ⟨set hd rfl id, fun _ _ h => h⟩
  | go _ hd _ ha => cases ha <;> exact ⟨set hd rfl id, fun _ _ h => h⟩

theorem Net.Run.removed (r : Net.Run prof rt n s₀) {t t' k : Nat} (h : t ≤ t') {c : NConn σ} (hc : (r.at_ t).conns[k]? = some c) (hi : c.inTable = false) :
    (∃ c', (r.at_ t').conns[k]? = some c' ∧ c'.inTable = false) ∧ ∀ j a : Nat, (r.at_ t').jobs[j]? = some (k, a) → (r.at_ t).jobs[j]? = some (k, a) := by
  obtain ⟨d, rfl⟩ := Nat.exists_eq_add_of_le h
  induction d with
  | zero => exact ⟨⟨c, hc, hi⟩, fun _ _ h => h⟩
  | succ d ih =>
    obtain ⟨⟨c', h1, h2⟩, h3⟩ := ih (by omega)
    rcases r.nstep (t + d) with h | h
    · rw [← Nat.add_assoc, h]; exact ⟨⟨c', h1, h2⟩, h3⟩
    · obtain ⟨h4, h5⟩ := h.removed h1 h2
      exact ⟨h4, fun j a h => h3 j a (h5 j a h)⟩

theorem Net.Run.ended (r : Net.Run prof rt n s₀) {t t' j : Nat} (h : t ≤ t') (hj : j ∈ (r.at_ t).pool.finished ∨ j ∈ (r.at_ t).pool.crashed) :
    j ∈ (r.at_ t').pool.finished ∨ j ∈ (r.at_ t').pool.crashed := by
  obtain ⟨d, rfl⟩ := Nat.exists_eq_add_of_le h
  clear h
  induction d with
  | zero => exact hj
  | succ d ih =>
    rcases r.nstep (t + d) with h | h
    · rw [← Nat.add_assoc, h]; exact ih
    · have key : ∀ {a : Act}, (r.at_ (t + d)).pool.step a = some (r.at_ (t + d + 1)).pool → j ∈ (r.at_ (t + d + 1)).pool.finished ∨ j ∈ (r.at_ (t + d + 1)).pool.crashed :=
        fun hp => ih.imp (fun h => (step_finished hp).subset h) (fun h => (step_crashed hp).subset h)
      rcases h.pool with h1 | h1 | ⟨w, b, h1⟩
      · rw [← Nat.add_assoc, h1]; exact ih
      · exact key h1
      · exact key h1

/-- Once the event loop has dropped a connection, all handlers that got it end. -/
theorem Net.Run.dropped (r : Net.Run prof rt n s₀) (hf : r.Fair) (hcr : ∀ t, (r.at_ t).pool.crashed.length < n) {t k : Nat} {c : NConn σ} (hc : (r.at_ t).conns[k]? = some c)
    (hi : c.inTable = false) : ∃ T, ∀ t' ≥ T, (r.at_ t').Closed k := by
  have hL : ∀ L, ∃ T ≥ t, ∀ j a : Nat, j < L → (r.at_ t).jobs[j]? = some (k, a) → j ∈ (r.at_ T).pool.finished ∨ j ∈ (r.at_ T).pool.crashed := by
    intro L
    induction L with
    | zero => exact ⟨t, Nat.le_refl _, fun j a h => by omega⟩
    | succ L ih =>
      obtain ⟨T, h1, h2⟩ := ih
      by_cases hj : ∃ a, (r.at_ t).jobs[L]? = some (k, a)
      · obtain ⟨a, hj⟩ := hj
        have hs : L ∈ (r.poolRun.at_ t).submitted := by
          have h4 := (List.getElem?_eq_some_iff.1 hj).1
          rw [(r.inv t).base.jobs] at h4
          show L ∈ (r.at_ t).pool.submitted
          unfold Pool.submitted at h4 ⊢
          rw [(r.inv t).base.pool.inv.ids]
          exact List.mem_range.2 h4
        obtain ⟨u, h5, h6⟩ := job_ends r.poolRun (r.pool_fair hf) hcr hs
        refine ⟨max T u, by omega, fun j a hl hja => ?_⟩
        by_cases hjl : j = L
        · subst hjl; exact r.ended (show u ≤ max T u by omega) h6
        · exact r.ended (show T ≤ max T u by omega) (h2 j a (by omega) hja)
      · refine ⟨T, h1, fun j a hl hja => ?_⟩
        by_cases hjl : j = L
        · subst hjl; exact absurd ⟨a, hja⟩ hj
        · exact h2 j a (by omega) hja
  obtain ⟨T, h1, h2⟩ := hL (r.at_ t).jobs.length
  refine ⟨T, fun t' ht => ?_⟩
  obtain ⟨⟨c', h3, h4⟩, h5⟩ := r.removed (show t ≤ t' by omega) hc hi
  exact ⟨c', h3, .inr ⟨h4, fun j a hj => r.ended ht (h2 j a (List.getElem?_eq_some_iff.1 (h5 j a hj)).1 (h5 j a hj))⟩⟩

end Verif
