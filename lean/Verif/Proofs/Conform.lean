import Verif.Props.Serving
import Verif.Spec.Cuts

/-!
A stream that brings requests of the grammar one after the other, in any pieces that do not cut a character of a line, is read as these requests.
-/

namespace Verif

variable {prof : Profile}

/-- Bytes and pauses only, no pause loses anything, and neither would one at the end. -/
structure Smooth (as : List Atom) : Prop where
  only : ∀ a ∈ as, a = WB ∨ ∃ b, a = .byte b
  pauses : ∀ pre post, as = pre ++ WB :: post → Harmless (bytesOf pre)
  all : Harmless (bytesOf as)

theorem bytesOf_app (as bs : List Atom) : bytesOf (as ++ bs) = bytesOf as ++ bytesOf bs := by
  induction as with
  | nil => rfl
  | cons a as ih => cases a <;> simp [bytesOf, ih]

theorem bytesOf_bytes (b : Bytes) : bytesOf (b.map .byte) = b := by
  induction b with
  | nil => rfl
  | cons b bs ih => simp [bytesOf, ih]

theorem bytesOf_pauses (k : Nat) : bytesOf (List.replicate k WB) = [] := by
  induction k with
  | zero => rfl
  | succ k ih => simp only [List.replicate_succ]; exact ih

theorem SafeCut.of_bytes {as bs : List Atom} (h : SafeCut as) (e : bytesOf as = bytesOf bs) : SafeCut bs := by
  intro x hx hn
  exact h x (by rw [e]; exact hx) hn

theorem Smooth.pause {as : List Atom} (h : Smooth as) (k : Nat) : Smooth (as ++ List.replicate k WB) := by
  refine ⟨?_, ?_, by rw [bytesOf_app, bytesOf_pauses, List.append_nil]; exact h.all⟩
  · intro a ha
    rcases List.mem_append.1 ha with ha | ha
    · exact h.only a ha
    · exact .inl (List.eq_of_mem_replicate ha)
  · intro pre post e
    rcases List.append_eq_append_iff.1 e with ⟨x, h1, h2⟩ | ⟨x, h1, h2⟩
    · subst h1
      rw [bytesOf_app]
      have : bytesOf x = [] := by
        have h3 := congrArg bytesOf h2
        rw [bytesOf_pauses, bytesOf_app] at h3
        exact (List.append_eq_nil_iff.1 h3.symm).1
      rw [this, List.append_nil]
      exact h.all
    · cases x with
      | nil =>
        rw [List.append_nil] at h1
        rw [← h1]
        exact h.all
      | cons a x =>
        simp only [List.cons_append, List.cons.injEq] at h2
        obtain ⟨rfl, -⟩ := h2
        exact h.pauses pre x h1

/-- Up to the end of some text, in pieces. -/
theorem split_pieces {as : List Atom} (ho : ∀ a ∈ as, a = WB ∨ ∃ b, a = .byte b) {P : Bytes → Prop}
    (hc : ∀ pre post, as = pre ++ WB :: post → P (bytesOf pre)) {w : Bytes} (hw : w ≠ []) (hp : w <+: bytesOf as) :
    ∃ (ps : List Bytes) (last : Bytes) (rest : List Atom), as = spaced (ps.map fun a => a.map .byte) (last.map .byte ++ rest) ∧ last ≠ [] ∧
      ps.flatten ++ last = w ∧ bytesOf as = w ++ bytesOf rest ∧ rest <:+ as ∧ ∀ l a m, ps = l ++ a :: m → P (l.flatten ++ a) := by
  induction as generalizing w P with
  | nil => exact absurd (List.prefix_nil.1 hp) hw
  | cons a as ih =>
    have ho' : ∀ a ∈ as, a = WB ∨ ∃ b, a = .byte b := fun a ha => ho a (by simp [ha])
    rcases ho a (by simp) with rfl | ⟨b, rfl⟩
    · obtain ⟨ps, last, rest, h1, h2, h3, h4, h5, h6⟩ := ih ho' (P := P) (fun pre post e => hc (WB :: pre) post (by rw [e]; rfl)) hw hp
      refine ⟨[] :: ps, last, rest, by rw [h1]; rfl, h2, h3, h4, h5.trans (List.suffix_cons _ _), ?_⟩
      intro l a m e
      cases l with
      | nil => cases e; exact hc [] as rfl
      | cons x l =>
        simp only [List.cons_append, List.cons.injEq] at e
        obtain ⟨rfl, e⟩ := e
        exact h6 l a m e
    · cases w with
      | nil => exact absurd rfl hw
      | cons c w =>
        simp only [bytesOf, List.cons_prefix_cons] at hp
        obtain ⟨rfl, hp⟩ := hp
        by_cases hn : w = []
        · subst hn
          exact ⟨[], [c], as, rfl, by simp, rfl, by simp [bytesOf], List.suffix_cons _ _, by simp⟩
        · obtain ⟨ps, last, rest, h1, h2, h3, h4, h5, h6⟩ := ih ho' (P := fun u => P (c :: u))
            (fun pre post e => hc (.byte c :: pre) post (by rw [e]; rfl)) hn hp
          cases ps with
          | nil =>
            refine ⟨[], c :: last, rest, by rw [h1]; rfl, by simp, by rw [← h3]; rfl, by simp [bytesOf, h4], h5.trans (List.suffix_cons _ _), by simp⟩
          | cons p ps =>
            refine ⟨(c :: p) :: ps, last, rest, by rw [h1]; rfl, h2, by rw [← h3]; rfl, by simp [bytesOf, h4], h5.trans (List.suffix_cons _ _), ?_⟩
            intro l a m e
            cases l with
            | nil =>
              cases e
              exact h6 [] p ps rfl
            | cons x l =>
              simp only [List.cons_append, List.cons.injEq] at e
              obtain ⟨rfl, e⟩ := e
              exact h6 (p :: l) a m (by rw [e]; rfl)

/-! ## Parse calls with more to come -/

theorem calls_det {r r₁ r₂ : Rd} {p : RequestParser} {o₁ o₂ : Out RequestParser Request}
    (h₁ : Calls (RequestParser.parse prof) p r o₁ r₁) (h₂ : Calls (RequestParser.parse prof) p r o₂ r₂)
    (n₁ : ∀ s, o₁ ≠ .io s .wouldBlock) (n₂ : ∀ s, o₂ ≠ .io s .wouldBlock) : o₁ = o₂ ∧ r₁ = r₂ := by
  induction h₁ with
  | last h =>
    cases h₂ with
    | last h' => rw [h] at h'; cases h'; exact ⟨rfl, rfl⟩
    | pause h' _ => rw [h] at h'; cases h'; exact absurd rfl (n₁ _)
  | pause h _ ih =>
    cases h₂ with
    | last h' => rw [h] at h'; cases h'; exact absurd rfl (n₂ _)
    | pause h' h2 => rw [h] at h'; cases h'; exact ih h2 n₁

theorem parse_ahead {p : RequestParser} {r r' : Rd} {o : Out RequestParser Request} {as : List Atom} (h : RequestParser.parse prof p r = (o, r'))
    (hr : r.Ahead as) : ∃ as', r'.Ahead as' ∧ RequestParser.parse prof p (⟨[], as⟩ : AR) = (o, ⟨[], as'⟩) := by
  have h1 := requestParse_abs prof p r
  rw [h, hr.abs] at h1
  have h2 := parse_lims (prof := prof) (p := p) hr.1
  rw [h] at h2
  dsimp only at h2
  exact ⟨_, ⟨h2, rfl⟩, by rw [h1]; simp only [absOut, Rd.abs, h2]⟩

theorem parse_of_ahead {p : RequestParser} {o : Out RequestParser Request} {as as' : List Atom}
    (h : RequestParser.parse prof p (⟨[], as⟩ : AR) = (o, ⟨[], as'⟩)) {r : Rd} (hr : r.Ahead as) :
    ∃ r', RequestParser.parse prof p r = (o, r') ∧ r'.Ahead as' := by
  have h1 := requestParse_abs prof p r
  rw [hr.abs, h] at h1
  generalize RequestParser.parse prof p r = y at h1
  obtain ⟨o', r'⟩ := y
  simp only [absOut, Prod.mk.injEq] at h1
  obtain ⟨rfl, h1⟩ := h1
  exact ⟨r', rfl, Rd.ahead_abs h1.symm⟩

theorem firstPause (as : List Atom) : WB ∉ as ∨ ∃ pre post, as = pre ++ WB :: post ∧ WB ∉ pre := by
  induction as with
  | nil => exact .inl (by simp)
  | cons a as ih =>
    by_cases ha : a = WB
    · exact .inr ⟨[], as, by rw [ha]; rfl, by simp⟩
    · rcases ih with h | ⟨pre, post, h1, h2⟩
      · exact .inl (by simp only [List.mem_cons, not_or]; exact ⟨fun e => ha e.symm, h⟩)
      · exact .inr ⟨a :: pre, post, by rw [h1]; rfl, by simp only [List.mem_cons, not_or]; exact ⟨fun e => ha e.symm, h2⟩⟩

/-- A call that pauses does so at the first pause, or at the end. -/
theorem parse_pauses {p p' : RequestParser} {as as' : List Atom} (h : RequestParser.parse prof p (⟨[], as⟩ : AR) = (.io p' .wouldBlock, ⟨[], as'⟩)) :
    ∃ k, ∀ X, RequestParser.parse prof p (⟨[], as ++ (List.replicate k WB ++ X)⟩ : AR) = (.io p' .wouldBlock, ⟨[], as' ++ X⟩) := by
  rcases firstPause as with hn | ⟨pre, post, rfl, hn⟩
  · obtain ⟨h1, -⟩ := request_block [] hn h
    dsimp only at h1
    subst h1
    exact ⟨1, fun X => by simpa using (request_block X hn h).2⟩
  · refine ⟨0, fun X => ?_⟩
    cases hp : RequestParser.parse prof p (⟨[], pre⟩ : AR) with
    | mk o r =>
    by_cases ho : ∃ s, o = .io s .wouldBlock
    · obtain ⟨s, rfl⟩ := ho
      have h1 := (request_block post hn hp).2
      rw [h] at h1
      simp only [Prod.mk.injEq, Out.io.injEq, AR.mk.injEq] at h1
      obtain ⟨⟨rfl, -⟩, h2, rfl⟩ := h1
      have h3 := (request_block (as' ++ X) hn hp).2
      rw [← h2] at h3
      simpa using h3
    · have h1 := request_append (WB :: post) hp (fun s e => ho ⟨s, e⟩)
      rw [h] at h1
      exact absurd ⟨p', (Prod.mk.inj h1).1.symm⟩ ho

theorem calls_more {p : RequestParser} {r r' : Rd} {o : Out RequestParser Request} (h : Calls (RequestParser.parse prof) p r o r')
    (ho : ∀ s, o ≠ .io s .wouldBlock) {as : List Atom} (hr : r.Ahead as) :
    ∃ as' k, r'.Ahead as' ∧ ∀ X (s : Rd), s.Ahead (as ++ (List.replicate k WB ++ X)) →
      ∃ s', Calls (RequestParser.parse prof) p s o s' ∧ s'.Ahead (as' ++ X) := by
  induction h generalizing as with
  | last h =>
    obtain ⟨as', h1, h2⟩ := parse_ahead h hr
    refine ⟨as', 0, h1, fun X s hs => ?_⟩
    obtain ⟨s', h3, h4⟩ := parse_of_ahead (request_append X h2 ho) (by simpa using hs)
    exact ⟨s', .last h3, h4⟩
  | pause h _ ih =>
    obtain ⟨as₁, h1, h2⟩ := parse_ahead h hr
    obtain ⟨k, h3⟩ := parse_pauses h2
    obtain ⟨as', j, h4, h5⟩ := ih ho h1
    refine ⟨as', k + j, h4, fun X s hs => ?_⟩
    obtain ⟨s₁, h6, h7⟩ := parse_of_ahead (h3 (List.replicate j WB ++ X)) (by
      rw [← List.append_assoc (List.replicate k WB), List.replicate_append_replicate]; exact hs)
    obtain ⟨s', h8, h9⟩ := h5 X s₁ h7
    exact ⟨s', .pause h6 h8, h9⟩

/-! ## Requests of the grammar -/

theorem Refused.decides {b : Bytes} (h : Refused prof b) : ∃ e, Decides prof b (.perr e) := by
  obtain ⟨r, r', e, h1, h2, h3⟩ := h
  have hne : b ≠ [] := by
    rintro rfl
    obtain ⟨e, h⟩ := Refused.run (prof := prof) ⟨r, r', e, h1, h2, h3⟩ []
    obtain ⟨s, r, h'⟩ := unfinished_nil.waits (prof := prof) (List.prefix_refl [])
    rw [show ([] : Bytes).map Atom.byte ++ [] = ([] : Bytes).map .byte from rfl, h'] at h
    cases h
  refine ⟨e, hne, by simp, fun {s rest} hs => ?_⟩
  obtain ⟨as', h4, h5⟩ := parse_ahead h2 h1
  obtain rfl : as' = [] := by rw [← h4.2, h3.2]
  obtain ⟨s', h6, h7⟩ := parse_of_ahead (request_append rest h5 (by simp)) hs
  exact ⟨s', h6, h7⟩

/-- A harmless pause within a text that is decided only at its end. -/
theorem Harmless.within {l a y : Bytes} {o : Out RequestParser Request} (hq : Decides prof (l ++ a ++ y) o) (hy : y ≠ []) (h : Harmless (l ++ a)) :
    SafeCut (a.map .byte) ∨ ∃ (c : UInt8) (Y : List Atom) (q : Request) (t t' : Rd), isCont c = false ∧ t.Ahead ((l.map .byte ++ a.map .byte) ++ .byte c :: Y) ∧ RequestParser.parse prof .new t = (.done q, t') := by
  generalize hu : l ++ a = u at h
  cases h with
  | line h =>
    subst hu
    rw [List.map_append] at h
    exact .inl h.right
  | @next p' x c q hf hc =>
    subst hu
    obtain ⟨t, ht⟩ := Rd.exists_ahead ((l ++ a ++ c :: x).map .byte ++ [])
    obtain ⟨t', h1, -⟩ := C04_request_accepted prof hf ht
    exact .inr ⟨c, x.map .byte, q, t, t', hc, by simpa using ht, h1⟩
  | @after w' p' q hf hp =>
    exfalso
    have := hq.unique (p := []) (p' := p' ++ y) (hf.decides (prof := prof)) (by rw [hu]; simp)
    exact hy (List.append_eq_nil_iff.1 this.symm).2

/-- A text is read in pieces as in one. -/
theorem Decides.pieces {w : Bytes} {o : Out RequestParser Request} (hq : Decides prof w o) {ps : List Bytes} {last : Bytes} (hlast : last ≠ [])
    (e : ps.flatten ++ last = w) (hps : ∀ l a m, ps = l ++ a :: m → Harmless (l.flatten ++ a)) {rest : List Atom} {r : Rd}
    (hr : r.Ahead (spaced (ps.map fun a => a.map .byte) (last.map .byte ++ rest))) :
    ∃ r', Calls (RequestParser.parse prof) .new r o r' ∧ r'.Ahead rest := by
  obtain ⟨s, hs⟩ := Rd.exists_ahead (w.map .byte ++ rest)
  obtain ⟨s', h1, h2⟩ := hq.2.2 hs
  refine C02_pauses_next_partial (prof := prof) (o := o) (s := s) (s' := s') ?_ h1 hq.2.1 h2 ?_ ?_ hr
  · rw [← e] at hs
    simpa [List.map_flatten] using hs
  · have := List.length_pos_iff.2 hlast
    simp only [List.length_append, List.length_map]; omega
  · intro l a m e'
    obtain ⟨l, m', rfl, rfl, h3⟩ := List.map_eq_append_iff.1 e'
    obtain ⟨a, m, rfl, rfl, rfl⟩ := List.map_eq_cons_iff.1 h3
    refine ⟨by simp, ?_⟩
    have hy : l.flatten ++ a ++ (m.flatten ++ last) = w := by rw [← e]; simp
    have := Harmless.within (prof := prof) (l := l.flatten) (a := a) (y := m.flatten ++ last) (o := o) (by rw [hy]; exact hq) (by simp [hlast])
      (hps l a m rfl)
    simpa [List.map_flatten] using this

theorem conform_text {w z : Bytes} {o₀ : Out RequestParser Request} (hq : Decides prof w o₀) {r r' : Rd} {as : List Atom} (hr : r.Ahead as) (hs : Smooth as)
    (hp : bytesOf as <+: w ++ z) {o : Out RequestParser Request} (h : Calls (RequestParser.parse prof) .new r o r')
    (ho : ∀ s, o ≠ .io s .wouldBlock) : o = o₀ ∧ ∃ as', r'.Ahead as' ∧ Smooth as' ∧ bytesOf as = w ++ bytesOf as' := by
  obtain ⟨as', k, h1, h2⟩ := calls_more h ho hr
  have hd := hq
  obtain ⟨hw, hne, hq⟩ := hq
  obtain ⟨x, hx⟩ : ∃ x, (x = [] ∨ bytesOf as ++ x = w) ∧ w <+: bytesOf as ++ x := by
    by_cases hl : w.length ≤ (bytesOf as).length
    · exact ⟨[], .inl rfl, by rw [List.append_nil]; exact List.prefix_of_prefix_length_le (List.prefix_append _ _) hp hl⟩
    · obtain ⟨x, hx⟩ := List.prefix_of_prefix_length_le hp (List.prefix_append _ _) (by omega)
      exact ⟨x, .inr hx, by rw [hx]; exact List.prefix_refl _⟩
  obtain ⟨hx1, hx2⟩ := hx
  have hsk := hs.pause k
  have hb : bytesOf (as ++ List.replicate k WB) = bytesOf as := by rw [bytesOf_app, bytesOf_pauses, List.append_nil]
  obtain ⟨s, hsa⟩ := Rd.exists_ahead (as ++ (List.replicate k WB ++ x.map .byte))
  obtain ⟨s', h3, h4⟩ := h2 _ s hsa
  -- the pauses of the longer stream are those of the shorter one
  obtain ⟨ps, last, rest, e1, e2, e3, e4, e6, e5⟩ : ∃ (ps : List Bytes) (last : Bytes) (rest : List Atom),
      as ++ (List.replicate k WB ++ x.map .byte) = spaced (ps.map fun a => a.map .byte) (last.map .byte ++ rest) ∧ last ≠ [] ∧
      ps.flatten ++ last = w ∧ bytesOf as ++ x = w ++ bytesOf rest ∧ rest <:+ as ++ (List.replicate k WB ++ x.map .byte) ∧
      ∀ l a m, ps = l ++ a :: m → Harmless (l.flatten ++ a) := by
    have := split_pieces (P := Harmless) (as := as ++ (List.replicate k WB ++ x.map .byte)) (w := w) ?_ ?_ hw ?_
    · rw [bytesOf_app, bytesOf_app, bytesOf_pauses, bytesOf_bytes, List.nil_append] at this
      exact this
    · intro a ha
      rw [← List.append_assoc] at ha
      rcases List.mem_append.1 ha with ha | ha
      · exact hsk.only a ha
      · obtain ⟨b, -, rfl⟩ := List.mem_map.1 ha
        exact .inr ⟨b, rfl⟩
    · intro pre post e
      rw [← List.append_assoc] at e
      rcases List.append_eq_append_iff.1 e with ⟨y, e1, e2⟩ | ⟨y, e1, e2⟩
      · have : WB ∈ x.map Atom.byte := by rw [e2]; simp
        simp at this
      · cases y with
        | nil =>
          have : WB ∈ x.map Atom.byte := by rw [List.nil_append] at e2; rw [← e2]; simp
          simp at this
        | cons a y =>
          simp only [List.cons_append, List.cons.injEq] at e2
          obtain ⟨rfl, -⟩ := e2
          exact hsk.pauses pre y e1
    · rw [bytesOf_app, bytesOf_app, bytesOf_pauses, bytesOf_bytes, List.nil_append]
      exact hx2
  obtain ⟨s'', h5, h6⟩ := hd.pieces (rest := rest) e2 e3 e5 (r := s) (by rw [← e1]; exact hsa)
  obtain ⟨rfl, rfl⟩ := calls_det h3 h5 ho (fun p => hne p _)
  refine ⟨rfl, as', h1, ?_⟩
  have e7 : rest = as' ++ x.map .byte := by rw [← h6.2, h4.2]
  subst e7
  rw [bytesOf_app, bytesOf_bytes] at e4
  have hx0 : x = [] := by
    rcases hx1 with rfl | hx1
    · rfl
    · rw [hx1] at e4
      have := congrArg List.length e4
      simp only [List.length_append] at this
      exact List.length_eq_zero_iff.1 (by omega)
  subst hx0
  simp only [List.map_nil, List.append_nil] at e4 e6
  obtain ⟨t, ht⟩ := e6
  have htw : bytesOf t = w := by
    have := hb
    rw [← ht, bytesOf_app, e4] at this
    exact List.append_cancel_right this
  refine ⟨⟨fun a ha => hsk.only a (by rw [← ht]; simp [ha]), fun pre post e => ?_, ?_⟩, e4⟩
  · have := hsk.pauses (t ++ pre) post (by rw [← ht, e, List.append_assoc])
    rw [bytesOf_app, htw] at this
    exact this.shift hd
  · have := hsk.all
    rw [← ht, bytesOf_app, htw] at this
    exact this.shift hd

theorem conform_one {w z : Bytes} {q : Request} (hq : FittingRequest w q) {r r' : Rd} {as : List Atom} (hr : r.Ahead as) (hs : Smooth as)
    (hp : bytesOf as <+: w ++ z) {o : Out RequestParser Request} (h : Calls (RequestParser.parse prof) .new r o r')
    (ho : ∀ s, o ≠ .io s .wouldBlock) : o = .done q ∧ ∃ as', r'.Ahead as' ∧ Smooth as' ∧ bytesOf as = w ++ bytesOf as' :=
  conform_text hq.decides hr hs hp h ho

/-- Requests read from a stream that brings some requests of the grammar and then any other text: they are the first of these, or all of these and more. -/
theorem heard_first {r r₁ : Rd} {qs : List Request} (h : Heard prof r qs r₁) : ∀ {ms : List (Bytes × Request)} {z : Bytes} {as : List Atom},
    (∀ m ∈ ms, FittingRequest m.1 m.2) → r.Ahead as → Smooth as → bytesOf as <+: ms.flatMap Prod.fst ++ z →
    (∃ ms₁ ms₂ as', ms = ms₁ ++ ms₂ ∧ qs = ms₁.map Prod.snd ∧ r₁.Ahead as' ∧ Smooth as' ∧ bytesOf as' <+: ms₂.flatMap Prod.fst ++ z ∧
      bytesOf as = ms₁.flatMap Prod.fst ++ bytesOf as') ∨
    ∃ q qs' r' r'' as', qs = ms.map Prod.snd ++ q :: qs' ∧ Calls (RequestParser.parse prof) .new r' (.done q) r'' ∧ r'.Ahead as' ∧ Smooth as' ∧ bytesOf as' <+: z := by
  induction h with
  | nil => exact fun {ms z as} _ hr hs hp => .inl ⟨[], ms, as, rfl, rfl, hr, hs, hp, rfl⟩
  | @cons r r₁ r' q qs hc _ ih =>
    intro ms z as hms hr hs hp
    cases ms with
    | nil => exact .inr ⟨q, qs, r, r₁, as, rfl, hc, hr, hs, by simpa using hp⟩
    | cons m ms =>
      obtain ⟨h1, as', h2, h3, h4⟩ := conform_one (hms m (by simp)) (z := ms.flatMap Prod.fst ++ z) hr hs (by simpa using hp) hc (by simp)
      cases h1
      rw [List.flatMap_cons, h4, List.append_assoc, List.prefix_append_right_inj] at hp
      rcases ih (fun x hx => hms x (by simp [hx])) h2 h3 hp with ⟨ms₁, ms₂, as'', i1, i2, i3, i4, i5, i6⟩ | ⟨q, qs', s, s', as'', i1, i2⟩
      · exact .inl ⟨m :: ms₁, ms₂, as'', by rw [i1]; rfl, by rw [i2]; rfl, i3, i4, i5, by rw [h4, i6]; simp⟩
      · exact .inr ⟨q, qs', s, s', as'', by rw [i1]; rfl, i2⟩

theorem heard_conform {r r₁ : Rd} {qs : List Request} (h : Heard prof r qs r₁) : ∀ {ms : List (Bytes × Request)} {as : List Atom},
    (∀ m ∈ ms, FittingRequest m.1 m.2) → r.Ahead as → Smooth as → bytesOf as <+: ms.flatMap Prod.fst →
    ∃ ms₁ ms₂ as', ms = ms₁ ++ ms₂ ∧ qs = ms₁.map Prod.snd ∧ r₁.Ahead as' ∧ Smooth as' ∧ bytesOf as' <+: ms₂.flatMap Prod.fst ∧
      bytesOf as = ms₁.flatMap Prod.fst ++ bytesOf as' := by
  induction h with
  | nil => exact fun {ms as} _ hr hs hp => ⟨[], ms, as, rfl, rfl, hr, hs, hp, rfl⟩
  | @cons r r₁ r' q qs hc _ ih =>
    intro ms as hms hr hs hp
    cases ms with
    | nil =>
      obtain ⟨h1, as', -, -, h2⟩ := conform_one aRequest_fits (z := []) hr hs (by
        have := List.prefix_nil.1 hp; rw [this]; exact List.nil_prefix) hc (by simp)
      rw [List.prefix_nil.1 hp] at h2
      have h3 := (List.append_eq_nil_iff.1 h2.symm).1
      exact absurd h3 (by decide)
    | cons m ms =>
      obtain ⟨h1, as', h2, h3, h4⟩ := conform_one (hms m (by simp)) (z := ms.flatMap Prod.fst) hr hs (by simpa using hp) hc (by simp)
      cases h1
      rw [List.flatMap_cons, h4, List.prefix_append_right_inj] at hp
      obtain ⟨ms₁, ms₂, as'', i1, i2, i3, i4, i5, i6⟩ := ih (fun x hx => hms x (by simp [hx])) h2 h3 hp
      exact ⟨m :: ms₁, ms₂, as'', by rw [i1]; rfl, by rw [i2]; rfl, i3, i4, i5, by rw [h4, i6]; simp⟩

theorem conform_noRequest {r : Rd} {ms : List (Bytes × Request)} (hms : ∀ m ∈ ms, FittingRequest m.1 m.2) {as : List Atom}
    (hr : r.Ahead as) (hs : Smooth as) (hp : bytesOf as <+: ms.flatMap Prod.fst) : ¬ NoRequest prof r := by
  rintro ⟨o, r', hc, ho⟩
  have hn : ∀ s, o ≠ .io s .wouldBlock := by
    rintro s rfl
    rcases ho with ⟨e, ho⟩ | ⟨p, e, ho, he⟩
    · cases ho
    · cases ho; exact he.1 rfl
  have hd : ∃ q, o = .done q := by
    cases ms with
    | nil =>
      obtain ⟨h1, -⟩ := conform_one aRequest_fits (z := []) hr hs (by
        have := List.prefix_nil.1 hp; rw [this]; exact List.nil_prefix) hc hn
      exact ⟨_, h1⟩
    | cons m ms =>
      obtain ⟨h1, -⟩ := conform_one (hms m (by simp)) (z := ms.flatMap Prod.fst) hr hs (by simpa using hp) hc hn
      exact ⟨_, h1⟩
  obtain ⟨q, rfl⟩ := hd
  rcases ho with ⟨e, ho⟩ | ⟨p, e, ho, he⟩ <;> cases ho

end Verif
