import Verif.Proofs.Conform
import Verif.Props.Net
import Verif.Spec.EndToEnd

/-!
The whole server, for connections on which requests of the grammar arrive.
-/

namespace Verif

variable {σ τ : Type} {prof : Profile}

/-! ## What has been sent stays sent -/

section Grows

variable {W : Type} [Write W] {P : W → Prop} (hw : ∀ w b, P w → P (Write.write w b).2) (hf : ∀ w, P w → P (Write.flush w).2)

include hw in
theorem writeAllLoop_grows (f : Nat) (w : W) (b : Bytes) (h : P w) : P (Write.writeAllLoop f w b).2 := by
  induction f generalizing w b with
  | zero => cases b <;> exact h
  | succ f ih =>
    cases b with
    | nil => exact h
    | cons c b =>
      have h1 := hw w (c :: b) h
      rw [Write.writeAllLoop]
      · generalize Write.write w (c :: b) = y at h1
        split
        · exact h1
        · exact ih _ _ h1
        · exact ih _ _ h1
        · exact h1
      · simp

include hw in
theorem fmt_grows (w : W) (ps : List Bytes) (h : P w) : P (Write.fmt w ps).2 := by
  induction ps generalizing w with
  | nil => exact h
  | cons p ps ih =>
    have h1 : P (Write.writeAll w p).2 := writeAllLoop_grows hw _ w p h
    rw [Write.fmt]
    generalize Write.writeAll w p = y at h1
    split
    · exact ih _ h1
    · exact h1

theorem andThen_grows {x : IoRes × W} {k : W → IoRes × W} (h : P x.2) (hk : ∀ w, P w → P (k w).2) : P (Write.andThen x k).2 := by
  unfold Write.andThen
  split
  · exact hk _ h
  · exact h

theorem res_grows {α : Type} {x : Except IoError α × W} (h : P x.2) : P (Write.res x).2 := by
  unfold Write.res
  split <;> exact h

include hw in
theorem headerLines_grows (w : W) (hs : List (Header × Bytes)) (h : P w) : P (Write.headerLines w hs).2 := by
  induction hs generalizing w with
  | nil => exact h
  | cons a hs ih => exact andThen_grows (fmt_grows hw _ _ h) ih

include hw hf in
theorem writeResponse_grows (w : W) (r : Response) (h : P w) : P (writeResponse w r).2 :=
  andThen_grows (fmt_grows hw _ _ h) fun _ h => andThen_grows (headerLines_grows hw _ _ h) fun _ h =>
    andThen_grows (res_grows (hw _ _ h)) fun _ h => andThen_grows (res_grows (hw _ _ h)) fun _ h => res_grows (hf _ h)

include hw hf in
theorem short_grows (w : W) (b : Bytes) (h : P w) : P (Write.andThen (Write.writeAll w b) fun w => Write.res (Write.flush w)).2 :=
  andThen_grows (writeAllLoop_grows hw _ w b h) fun w h => res_grows (hf w h)

include hw hf in
theorem writeAnswer_grows (w : W) (a : ListenerResult) (h : P w) : P (writeAnswer w a).2 := by
  cases a with
  | next => exact short_grows hw hf _ _ h
  | sendResponse r => exact writeResponse_grows hw hf _ _ h
  | sendResponseArc r => exact writeResponse_grows hw hf _ _ h

include hw hf in
theorem loop_grows {R : Type} [Reader R] {rt : Router τ} (f : Nat) (c : Conn R W) (s : τ) (h : P c.writer) : P (respondLoop prof rt f c s).2.1.writer := by
  induction f generalizing c s with
  | zero => exact h
  | succ f ih =>
    have hc : (c.readRequest prof).2.writer = c.writer := by
      unfold Conn.readRequest
      split
      · rfl
      · split
        · rfl
        · split <;> rfl
      all_goals rfl
    rw [respondLoop]
    generalize c.readRequest prof = y at hc
    obtain ⟨x, c'⟩ := y
    dsimp only at hc
    rw [← hc] at h
    cases x with
    | ready q =>
      dsimp only
      rw [wrfr]
      generalize rt.result q s = z
      obtain ⟨a, s'⟩ := z
      cases a with
      | none => exact h
      | some a =>
        have h1 := writeAnswer_grows hw hf c'.writer a h
        dsimp only
        generalize writeAnswer c'.writer a = v at h1
        obtain ⟨v, w'⟩ := v
        cases v with
        | ok =>
          dsimp only
          split
          · exact h1
          · exact ih _ _ h1
        | _ => exact h1
    | error e =>
      have h1 : P (writeErrorResponse c'.writer).2 := short_grows hw hf _ _ h
      dsimp only
      generalize writeErrorResponse c'.writer = v at h1
      obtain ⟨v, w'⟩ := v
      cases v <;> exact h1
    | _ => exact h

end Grows

theorem wub_grows (s : Sock) (b : Bytes) : s.sent <+: (s.writeUntilBlocked b).2.sent := by
  rw [wub_sent]; exact List.prefix_append _ _

theorem flushBuf_grows (w : Nbw) : w.sock.sent <+: w.flushBuf.2.sock.sent := by
  have h := wub_grows w.sock (w.buf.drop w.pos)
  unfold Nbw.flushBuf
  generalize w.sock.writeUntilBlocked (w.buf.drop w.pos) = y at h
  obtain ⟨x, k⟩ := y
  cases x with
  | error e => exact h
  | ok a => dsimp only; split <;> exact h

theorem nbw_write_grows {b₀ : Bytes} (w : Nbw) (b : Bytes) (h : b₀ <+: w.sock.sent) : b₀ <+: (Write.write w b).2.sock.sent := by
  change b₀ <+: (w.write b).2.sock.sent
  unfold Nbw.write
  split
  · have h1 := h.trans (flushBuf_grows w)
    generalize w.flushBuf = y at h1
    obtain ⟨x, w'⟩ := y
    cases x with
    | error e => exact h1
    | ok u =>
      dsimp only
      split
      · have h2 := h1.trans (wub_grows w'.sock b)
        generalize w'.sock.writeUntilBlocked b = z at h2
        obtain ⟨z, k⟩ := z
        cases z <;> exact h2
      · exact h1
  · exact h

theorem nbw_flush_grows {b₀ : Bytes} (w : Nbw) (h : b₀ <+: w.sock.sent) : b₀ <+: (Write.flush w).2.sock.sent := by
  change b₀ <+: w.flush.2.sock.sent
  unfold Nbw.flush
  have h1 := h.trans (flushBuf_grows w)
  generalize w.flushBuf = y at h1
  obtain ⟨x, w'⟩ := y
  cases x with
  | error e => exact h1
  | ok u =>
    dsimp only [Nbw.flushInner, Sock.flush]
    split
    · next h2 => split at h2 <;> cases h2 <;> exact h1
    · next h2 => split at h2 <;> cases h2 <;> exact h1

theorem finish_sent {R W : Type} (x : LoopEnd × Conn R W × τ) : (finish x).2.1.conn = x.2.1 := by
  obtain ⟨e, c, s⟩ := x
  cases e <;> rfl

/-- What a handler has sent so far is the beginning of what it has sent in the end. -/
theorem rest_grows {rt : Router τ} (p : Option Phase) (x : Slot AR Nbw) (s : τ) :
    x.conn.writer.sock.sent <+: (Net.rest prof rt p x s).1.conn.writer.sock.sent := by
  have hw : ∀ (w : Nbw) b, x.conn.writer.sock.sent <+: w.sock.sent → x.conn.writer.sock.sent <+: (Write.write w b).2.sock.sent :=
    fun w b => nbw_write_grows w b
  have hf : ∀ w : Nbw, x.conn.writer.sock.sent <+: w.sock.sent → x.conn.writer.sock.sent <+: (Write.flush w).2.sock.sent :=
    fun w => nbw_flush_grows w
  have hl : ∀ f (c : Conn AR Nbw) (s : τ), x.conn.writer.sock.sent <+: c.writer.sock.sent →
      x.conn.writer.sock.sent <+: (respondLoop prof rt f c s).2.1.writer.sock.sent :=
    fun f c s h => loop_grows (P := fun w => x.conn.writer.sock.sent <+: w.sock.sent) hw hf f c s h
  have ht : ∀ f q (c : Conn AR Nbw) (y : Option IoRes × Nbw × τ), x.conn.writer.sock.sent <+: y.2.1.sock.sent →
      x.conn.writer.sock.sent <+: (loopTail prof rt f q c y).2.1.writer.sock.sent := by
    intro f q c y h
    unfold loopTail
    split
    · split
      · exact h
      · exact hl _ _ _ h
    all_goals exact h
  cases x with
  | gone c =>
    rcases p with _ | p
    · exact List.prefix_refl _
    · cases p <;> exact List.prefix_refl _
  | poisoned c =>
    rcases p with _ | p
    · exact List.prefix_refl _
    · cases p <;> exact List.prefix_refl _
  | live c =>
    rcases p with _ | p
    · exact List.prefix_refl _
    cases p with
    | enter => exact List.prefix_refl _
    | leaving => exact List.prefix_refl _
    | flushing =>
      have h1 := hf c.writer (List.prefix_refl _)
      simp only [Net.rest]
      cases hy : Write.flush c.writer with
      | mk y w =>
      rw [hy] at h1
      cases y with
      | error e => simp only [handle, hy]; exact h1
      | ok u =>
        rw [handle_flushed hy, finish_sent]
        exact hl _ _ _ h1
    | reading => simp only [Net.rest]; rw [finish_sent]; exact hl _ _ _ (List.prefix_refl _)
    | asked q =>
      simp only [Net.rest]
      rw [finish_sent]
      refine ht _ _ _ _ ?_
      rw [wrfr]
      generalize rt.result q s = z
      obtain ⟨a, s'⟩ := z
      cases a with
      | none => exact List.prefix_refl _
      | some a => exact writeAnswer_grows (P := fun w => (Slot.live c).conn.writer.sock.sent <+: w.sock.sent) hw hf c.writer a (List.prefix_refl _)
    | reply q a =>
      simp only [Net.rest]
      rw [finish_sent]
      refine ht _ _ _ _ ?_
      exact writeAnswer_grows (P := fun w => (Slot.live c).conn.writer.sock.sent <+: w.sock.sent) hw hf c.writer a (List.prefix_refl _)

/-! ## Connections -/

variable {rt : Router σ} {n : Nat} {s₀ : σ}

theorem NStep.first {s s' : Net σ} (h : NStep prof rt s s') {k : Nat} {c : NConn σ} (hc : s'.conns[k]? = some c) :
    (∃ d, s.conns[k]? = some d ∧ c.first = d.first) ∨ ∃ offer grow growOk flushes, c = Net.fresh offer grow growOk flushes := by
  have set : ∀ {s' : Net σ} {k' : Nat} {d d' : NConn σ}, s.conns[k']? = some d → s'.conns[k]? = some c →
      s'.conns = (s.setConn k' d').conns → d'.first = d.first → ∃ d, s.conns[k]? = some d ∧ c.first = d.first := by
    intro s' k' d d' hd hc he h1
    rw [he] at hc
    simp only [Net.setConn, List.getElem?_set] at hc
    by_cases hk : k' = k
    · subst hk
      rw [if_pos rfl] at hc
      split at hc
      · cases hc; exact ⟨d, hd, h1⟩
      · cases hc
    · rw [if_neg hk] at hc
      exact ⟨c, hc, rfl⟩
  cases h with
  | accept =>
    dsimp only at hc
    rw [List.getElem?_append] at hc
    split at hc
    · exact .inl ⟨c, hc, rfl⟩
    · rename_i offer grow growOk flushes _
      rw [List.getElem?_singleton] at hc
      split at hc
      · cases hc; exact .inr ⟨offer, grow, growOk, flushes, rfl⟩
      · cases hc
  | arrive hd => exact .inl (set hd hc rfl rfl)
  | notify hd => exact .inl (set hd hc rfl rfl)
  | poll =>
    simp only [List.getElem?_mapIdx, Option.map_eq_some_iff] at hc
    obtain ⟨d, h1, h2⟩ := hc
    refine .inl ⟨d, h1, ?_⟩
    rw [← h2]
    split <;> rfl
  | skip => exact .inl ⟨c, hc, rfl⟩
  | remove hd => exact .inl (set hd hc rfl rfl)
  | execute => exact .inl ⟨c, hc, rfl⟩
  | fail => exact .inl ⟨c, hc, rfl⟩
  | work => exact .inl ⟨c, hc, rfl⟩
  | enterPoisoned _ hd => exact .inl (set hd hc rfl rfl)
  | enterGone _ hd => exact .inl (set hd hc rfl rfl)
  | enter _ hd => exact .inl (set hd hc rfl rfl)
  | go _ hd _ ha =>
    cases ha with
    | move => exact .inl (set hd hc rfl rfl)
    | ask => exact .inl (set hd hc rfl rfl)
    | crash => exact .inl (set hd hc rfl rfl)
    | crashAsk => exact .inl (set hd hc rfl rfl)
    | leave => exact .inl (set hd hc rfl rfl)

theorem Net.Reach.first {s : Net σ} (h : Net.Reach prof rt n s₀ s) : ∀ {k : Nat} {c : NConn σ}, s.conns[k]? = some c →
    ∃ offer grow growOk flushes, c.first = (Net.fresh offer grow growOk flushes : NConn σ).first := by
  induction h with
  | new h =>
    intro k c hc
    unfold Net.new at h
    simp only [Option.map_eq_some_iff] at h
    obtain ⟨p, h1, rfl⟩ := h
    cases hc
  | step h hs ih =>
    intro k c hc
    rcases (step_nstep hs).first hc with ⟨d, h1, h2⟩ | ⟨offer, grow, growOk, flushes, rfl⟩
    · rw [h2]; exact ih h1
    · exact ⟨offer, grow, growOk, flushes, rfl⟩

/-! ## What arrives -/

theorem bytesOf_events (as : List Ev) (h : ∀ ev ∈ as, ev = .err .wouldBlock ∨ ∃ b, ev = .data b ∧ b ≠ []) :
    bytesOf (as.flatMap Ev.atoms) = bytesOf ((as.filter (· ≠ .err .wouldBlock)).flatMap Ev.atoms) := by
  induction as with
  | nil => rfl
  | cons a as ih =>
    rw [List.flatMap_cons, bytesOf_app, ih fun ev he => h ev (by simp [he])]
    rcases h a (by simp) with rfl | ⟨b, rfl, hb⟩
    · simp [Ev.atoms, bytesOf]
    · rw [List.filter_cons_of_pos (by simp), List.flatMap_cons, bytesOf_app]

/-- A pause in what some events bring is one of them. -/
theorem pause_event {evs : List Ev} (h : ∀ ev ∈ evs, ev = .err .wouldBlock ∨ ∃ b, ev = .data b ∧ b ≠ []) {pre post : List Atom}
    (e : evs.flatMap Ev.atoms = pre ++ WB :: post) : ∃ l, l <+: evs ∧ pre = l.flatMap Ev.atoms := by
  induction evs generalizing pre with
  | nil => simp at e
  | cons ev evs ih =>
    rw [List.flatMap_cons] at e
    have h' : ∀ ev ∈ evs, ev = .err .wouldBlock ∨ ∃ b, ev = .data b ∧ b ≠ [] := fun ev he => h ev (by simp [he])
    rcases List.append_eq_append_iff.1 e with ⟨z, h1, h2⟩ | ⟨z, h1, h2⟩
    · obtain ⟨l, h3, h4⟩ := ih h' h2
      exact ⟨ev :: l, by simpa using h3, by rw [h1, h4, List.flatMap_cons]⟩
    · rcases h ev (by simp) with rfl | ⟨b, rfl, hb⟩
      · cases pre with
        | nil => exact ⟨[], List.nil_prefix, rfl⟩
        | cons a pre =>
          simp only [Ev.atoms, List.cons_append, List.cons.injEq] at h1
          obtain ⟨h0, h1⟩ := h1
          have : z = [] ∧ pre = [] := by
            have := h1.symm
            rw [List.append_eq_nil_iff] at this
            exact this.symm
          obtain ⟨rfl, rfl⟩ := this
          rw [List.nil_append] at h2
          obtain ⟨l, h3, h4⟩ := ih h' (pre := []) h2.symm
          refine ⟨.err .wouldBlock :: l, by simpa using h3, ?_⟩
          rw [List.flatMap_cons, ← h4]
          simp [Ev.atoms, ← h0]
      · cases z with
        | nil =>
          rw [List.append_nil] at h1
          rw [List.nil_append] at h2
          obtain ⟨l, h3, h4⟩ := ih h' (pre := []) h2.symm
          exact ⟨.data b :: l, by simpa using h3, by rw [List.flatMap_cons, ← h4, ← h1, List.append_nil]⟩
        | cons a z =>
          simp only [List.cons_append, List.cons.injEq] at h2
          obtain ⟨rfl, -⟩ := h2
          have hm : WB ∈ Ev.atoms (.data b) := by rw [h1]; simp
          cases b with
          | nil => exact absurd rfl hb
          | cons c b => simp [Ev.atoms, WB] at hm

theorem smooth_cuts {evs : List Ev} (h : ∀ ev ∈ evs, ev = .err .wouldBlock ∨ ∃ b, ev = .data b ∧ b ≠ [])
    (hc : ∀ l, l <+: evs → Harmless (bytesOf (l.flatMap Ev.atoms))) : Smooth (evs.flatMap Ev.atoms) := by
  refine ⟨fun a ha => ?_, fun pre post e => ?_, hc evs (List.prefix_refl _)⟩
  · obtain ⟨ev, he, ha⟩ := List.mem_flatMap.1 ha
    rcases h ev he with rfl | ⟨b, rfl, hb⟩
    · simp only [Ev.atoms, List.mem_singleton] at ha
      exact .inl ha
    · rw [show Ev.atoms (.data b) = b.map .byte from by cases b <;> first | exact absurd rfl hb | rfl] at ha
      obtain ⟨c, -, rfl⟩ := List.mem_map.1 ha
      exact .inr ⟨c, rfl⟩
  · obtain ⟨l, h1, rfl⟩ := pause_event h e
    exact hc l h1

theorem safeCut_events {evs : List Ev} (h : ∀ ev ∈ evs, ev = .err .wouldBlock ∨ ∃ b, ev = .data b ∧ b ≠ [] ∧ SafeCut (b.map .byte)) :
    SafeCut (evs.flatMap Ev.atoms) := by
  induction evs with
  | nil => exact .nil
  | cons ev evs ih =>
    rw [List.flatMap_cons]
    refine SafeCut.append ?_ (ih fun ev he => h ev (by simp [he]))
    rcases h ev (by simp) with rfl | ⟨b, rfl, hb, hs⟩
    · exact SafeCut.nil.of_bytes rfl
    · rw [show Ev.atoms (.data b) = b.map .byte from by cases b <;> first | exact absurd rfl hb | rfl]
      exact hs

theorem SafeCut.harmless {as : List Atom} (h : SafeCut as) : Harmless (bytesOf as) := .line (h.of_bytes (bytesOf_bytes _).symm)

theorem smooth_events {evs : List Ev} (h : ∀ ev ∈ evs, ev = .err .wouldBlock ∨ ∃ b, ev = .data b ∧ b ≠ [] ∧ SafeCut (b.map .byte)) :
    Smooth (evs.flatMap Ev.atoms) :=
  smooth_cuts (fun ev he => (h ev he).imp id fun ⟨b, e1, e2, _⟩ => ⟨b, e1, e2⟩) fun _ hl =>
    (safeCut_events fun ev he => h ev (hl.subset he)).harmless

theorem bytesOf_got (es : List Ev) : bytesOf (es.flatMap Ev.atoms) = es.flatMap Ev.bytes := by
  induction es with
  | nil => rfl
  | cons e es ih =>
    rw [List.flatMap_cons, List.flatMap_cons, bytesOf_app, ih]
    congr 1
    cases e with
    | err e => rfl
    | data b => cases b with
      | nil => rfl
      | cons x b => exact bytesOf_map (x :: b)

theorem CutWell.harmless {l : List Ev} (h : CutWell l) : Harmless (bytesOf (l.flatMap Ev.atoms)) := by
  rw [bytesOf_got]
  exact h l (List.prefix_refl _)

theorem CutWell.prefix {l l' : List Ev} (h : CutWell l) (hp : l' <+: l) : CutWell l' := fun x hx => h x (hx.trans hp)

/-- Pauses do not matter. -/
theorem CutWell.filter {log : List Ev} (h : CutWell log) (p : Ev → Bool) (hp : ∀ ev ∈ log, p ev = false → Ev.bytes ev = []) : CutWell (log.filter p) := by
  intro l hl
  obtain ⟨l', h1, h2⟩ : ∃ l', l' <+: log ∧ l'.flatMap Ev.bytes = l.flatMap Ev.bytes := by
    clear h
    induction log generalizing l with
    | nil =>
      obtain rfl : l = [] := by simpa using hl
      exact ⟨[], List.prefix_refl _, rfl⟩
    | cons e log ih =>
      have hp' : ∀ ev ∈ log, p ev = false → Ev.bytes ev = [] := fun ev he => hp ev (by simp [he])
      by_cases he : p e = true
      · rw [List.filter_cons_of_pos he] at hl
        cases l with
        | nil => exact ⟨[], List.nil_prefix, rfl⟩
        | cons x l =>
          rw [List.cons_prefix_cons] at hl
          obtain ⟨rfl, hl⟩ := hl
          obtain ⟨l', h1, h2⟩ := ih hp' l hl
          exact ⟨x :: l', by simpa using h1, by simp [h2]⟩
      · rw [List.filter_cons_of_neg he] at hl
        obtain ⟨l', h1, h2⟩ := ih hp' l hl
        exact ⟨e :: l', by simpa using h1, by simp [h2, hp e (by simp) (by simpa using he)]⟩
  rw [← h2]
  exact h l' h1

theorem CutWell.unfilter {log : List Ev} {p : Ev → Bool} (h : CutWell (log.filter p)) (hp : ∀ ev ∈ log, p ev = false → Ev.bytes ev = []) : CutWell log := by
  intro l hl
  obtain ⟨m, rfl⟩ := hl
  have h1 := h (l.filter p) (by rw [List.filter_append]; exact List.prefix_append _ _)
  have h2 : (l.filter p).flatMap Ev.bytes = l.flatMap Ev.bytes := by
    have hp' : ∀ ev ∈ l, p ev = false → Ev.bytes ev = [] := fun ev he => hp ev (by simp [he])
    clear h h1 hp
    induction l with
    | nil => rfl
    | cons e l ih =>
      have h3 := ih fun ev he => hp' ev (by simp [he])
      by_cases he : p e = true
      · rw [List.filter_cons_of_pos he]; simp [h3]
      · rw [List.filter_cons_of_neg he, List.flatMap_cons, h3, hp' e (by simp) (by simpa using he), List.nil_append]
  rwa [h2] at h1

theorem CutWell.smooth {evs : List Ev} (h : CutWell evs) (ho : ∀ ev ∈ evs, ev = .err .wouldBlock ∨ ∃ b, ev = .data b ∧ b ≠ []) : Smooth (evs.flatMap Ev.atoms) :=
  smooth_cuts ho fun _ hl => (h.prefix hl).harmless

theorem cutWell_safe {log : List Ev} (h : ∀ ev ∈ log, ev = .err .wouldBlock ∨ ∃ b, ev = .data b ∧ b ≠ [] ∧ SafeCut (b.map .byte)) : CutWell log := by
  intro l hl
  rw [← bytesOf_got]
  exact (safeCut_events fun ev he => h ev (hl.subset he)).harmless

theorem Pieces.safe {arrived : List Ev} (h : ∀ ev ∈ arrived, ∃ b, ev = .data b ∧ b ≠ [] ∧ SafeCut (b.map .byte)) : Pieces arrived :=
  ⟨fun ev he => (h ev he).imp fun _ hb => ⟨hb.1, hb.2.1⟩, cutWell_safe fun ev he => .inr (h ev he)⟩

theorem Pieces.prefix {l l' : List Ev} (h : Pieces l) (hp : l' <+: l) : Pieces l' := ⟨fun ev he => h.data ev (hp.subset he), h.cuts.prefix hp⟩

theorem AnyCut.cutWell {w : Bytes} (h : AnyCut w) {log : List Ev} (hl : log.flatMap Ev.bytes <+: w) : CutWell log := by
  intro l ⟨m, hm⟩
  refine h _ (List.IsPrefix.trans ?_ hl)
  rw [← hm, List.flatMap_append]
  exact List.prefix_append _ _

theorem AnyCut.prefix {w w' : Bytes} (h : AnyCut w) (hp : w' <+: w) : AnyCut w' := fun p hp' => h p (hp'.trans hp)

/-- ASCII text may be cut anywhere. -/
theorem anyCut_ascii {w : Bytes} (h : ∀ b ∈ w, b < 128) : AnyCut w :=
  fun p hp => .line (safeCut_ascii fun c hc => h c (hp.subset (by rwa [bytesOf_bytes] at hc)))

theorem anyCut_all {ms : List (Bytes × Request)} (h : ∀ m ∈ ms, FittingRequest m.1 m.2 ∧ AnyCut m.1) : AnyCut (ms.flatMap Prod.fst) := by
  induction ms with
  | nil =>
    intro p hp
    obtain rfl : p = [] := by simpa using hp
    exact .nil
  | cons m ms ih =>
    intro p hp
    rw [List.flatMap_cons] at hp
    by_cases hl : p.length ≤ m.1.length
    · exact (h m (by simp)).2 p (List.prefix_of_prefix_length_le hp (List.prefix_append _ _) hl)
    · obtain ⟨x, rfl⟩ := List.prefix_of_prefix_length_le (List.prefix_append _ _) hp (by omega : m.1.length ≤ p.length)
      exact .after (h m (by simp)).1 (ih (fun m hm => h m (by simp [hm])) x (by rwa [List.prefix_append_right_inj] at hp))

/-- What arrives on a connection, as the handlers see it. -/
theorem Brings.events {arrived evs : List Ev} {w : Bytes} (hb : Brings arrived w) (h2 : evs.filter (· ≠ .err .wouldBlock) = arrived) :
    Smooth (evs.flatMap Ev.atoms) ∧ bytesOf (evs.flatMap Ev.atoms) = bytesOf (arrived.flatMap Ev.atoms) := by
  have hpieces : ∀ ev ∈ evs, ev = .err .wouldBlock ∨ ∃ b, ev = .data b ∧ b ≠ [] := by
    intro ev he
    by_cases hw : ev = .err .wouldBlock
    · exact .inl hw
    · exact .inr (hb.pieces.data ev (by rw [← h2]; exact List.mem_filter.2 ⟨he, by simpa using hw⟩))
  refine ⟨CutWell.smooth (CutWell.unfilter (p := (· ≠ .err .wouldBlock)) (by rw [h2]; exact hb.pieces.cuts) ?_) hpieces, ?_⟩
  · intro ev _ hf
    obtain rfl : ev = .err .wouldBlock := by simpa using hf
    rfl
  · rw [bytesOf_events evs hpieces, h2]

end Verif
