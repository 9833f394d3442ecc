import Verif.Proofs.SharedParse

/-!
Writing to a stream that is read and written, and to the writing part.
-/

namespace Verif

open Write

namespace Views

variable {S W : Type}

/-- Writing led from `x` to `y`. -/
structure WStep (V : Views S W) (x y : Shared S) : Prop where
  lims : y.lims = x.lims
  offer : y.offer = x.offer
  rounds : y.rounds = x.rounds
  writes : V.Writes x.stream y.stream
  hung : y.hung = false → x.hung = false

/-- What `G` does with the writing part is what came out. -/
structure FolW (V : Views S W) (x : Shared S) (G : W → IoRes × W) (res : IoRes × Shared S) : Prop where
  step : V.WStep x res.2
  same : res.1 ≠ .diverge → res.2.hung = false → ∃ es fl, V.Did res.2.stream es fl ∧ ∀ rest frest, G (V.wr x.stream (es ++ rest) (fl ++ frest)) = (res.1, V.wr res.2.stream rest frest)

variable {V : Views S W} {x y z : Shared S}

theorem WStep.refl (h : V.Good x) : V.WStep x x := ⟨rfl, rfl, rfl, .refl h.ok, id⟩

theorem WStep.trans (h : V.WStep x y) (h' : V.WStep y z) : V.WStep x z :=
  ⟨h'.lims.trans h.lims, h'.offer.trans h.offer, h'.rounds.trans h.rounds, h.writes.trans h'.writes, fun k => h.hung (h'.hung k)⟩

theorem WStep.good (h : V.WStep x y) (hg : V.Good x) : V.Good y := ⟨h.writes.ok, h.offer.trans hg.offer⟩

theorem FolW.same' (hg : V.Good x) {G : W → IoRes × W} {o : IoRes} (h : o ≠ .diverge → ∀ w, G w = (o, w)) : V.FolW x G (o, x) :=
  ⟨.refl hg, fun hd _ => ⟨[], [], .nil, fun _ _ => h hd _⟩⟩

theorem FolW.andThen {G : W → IoRes × W} {res : IoRes × Shared S} (h : V.FolW x G res) (hg : V.Good x) {k : Shared S → IoRes × Shared S}
    {K : W → IoRes × W} (hk : ∀ y, V.Good y → V.FolW y K (k y)) : V.FolW x (fun w => Write.andThen (G w) K) (Write.andThen res k) := by
  obtain ⟨h1, h2⟩ := h
  obtain ⟨o, y⟩ := res
  cases o with
  | ok =>
    obtain ⟨i1, i2⟩ := hk y (h1.good hg)
    refine ⟨h1.trans i1, fun hd hh => ?_⟩
    obtain ⟨es', fl', e', i3⟩ := i2 hd hh
    obtain ⟨es, fl, e, h3⟩ := h2 (by simp) (i1.hung hh)
    refine ⟨es ++ es', fl ++ fl', (e.later i1.writes.did).append e', fun rest frest => ?_⟩
    simp only [List.append_assoc, h3, Write.andThen, i3]
  | err e =>
    refine ⟨h1, fun hd hh => ?_⟩
    obtain ⟨es, fl, e, h3⟩ := h2 hd hh
    exact ⟨es, fl, e, fun rest frest => by simp only [h3, Write.andThen]⟩
  | diverge => exact ⟨h1, fun hd _ => absurd rfl hd⟩

variable [BufRead S] [Wr S] [Write W]

theorem Lawful.write1 (hV : V.Lawful) (hg : V.Good x) (b : Bytes) : V.WStep x (Write.write x b).2 ∧ ((Write.write x b).2.hung = false →
    ∃ es, (∀ e ∈ es, V.did (Write.write x b).2.stream e) ∧ ∀ rest fl, Write.write (V.wr x.stream (es ++ rest) fl) b = ((Write.write x b).1, V.wr (Write.write x b).2.stream rest fl)) := by
  show V.WStep x (match Wr.write x.rounds x.stream b with
    | some (y, stream) => ((y, { x with stream }) : Except IoError Nat × Shared S)
    | none => (.error .other, { x with hung := true })).2 ∧ ((match Wr.write x.rounds x.stream b with
    | some (y, stream) => ((y, { x with stream }) : Except IoError Nat × Shared S)
    | none => (.error .other, { x with hung := true })).2.hung = false → ∃ es, (∀ e ∈ es, V.did (match Wr.write x.rounds x.stream b with
    | some (y, stream) => ((y, { x with stream }) : Except IoError Nat × Shared S)
    | none => (.error .other, { x with hung := true })).2.stream e) ∧ ∀ rest fl, Write.write (V.wr x.stream (es ++ rest) fl) b = ((match Wr.write x.rounds x.stream b with
    | some (y, stream) => ((y, { x with stream }) : Except IoError Nat × Shared S)
    | none => (.error .other, { x with hung := true })).1, V.wr (match Wr.write x.rounds x.stream b with
    | some (y, stream) => ((y, { x with stream }) : Except IoError Nat × Shared S)
    | none => (.error .other, { x with hung := true })).2.stream rest fl))
  cases h : Wr.write x.rounds x.stream b with
  | none => exact ⟨⟨rfl, rfl, rfl, .refl hg.ok, fun k => by cases k⟩, fun k => by cases k⟩
  | some q =>
    obtain ⟨h1, h2⟩ := hV.write _ _ _ _ _ hg.ok h
    exact ⟨⟨rfl, rfl, rfl, h1, id⟩, fun _ => h2⟩

theorem Lawful.flush1 (hV : V.Lawful) (hg : V.Good x) : V.WStep x (Write.flush x).2 ∧ ((Write.flush x).2.hung = false →
    ∃ es fl, V.Did (Write.flush x).2.stream es fl ∧ ∀ rest frest, Write.flush (V.wr x.stream (es ++ rest) (fl ++ frest)) = ((Write.flush x).1, V.wr (Write.flush x).2.stream rest frest)) := by
  show V.WStep x (match Wr.flush x.rounds x.stream with
    | some (y, stream) => ((y, { x with stream }) : Except IoError Unit × Shared S)
    | none => (.error .other, { x with hung := true })).2 ∧ ((match Wr.flush x.rounds x.stream with
    | some (y, stream) => ((y, { x with stream }) : Except IoError Unit × Shared S)
    | none => (.error .other, { x with hung := true })).2.hung = false → ∃ es fl, V.Did (match Wr.flush x.rounds x.stream with
    | some (y, stream) => ((y, { x with stream }) : Except IoError Unit × Shared S)
    | none => (.error .other, { x with hung := true })).2.stream es fl ∧ ∀ rest frest, Write.flush (V.wr x.stream (es ++ rest) (fl ++ frest)) = ((match Wr.flush x.rounds x.stream with
    | some (y, stream) => ((y, { x with stream }) : Except IoError Unit × Shared S)
    | none => (.error .other, { x with hung := true })).1, V.wr (match Wr.flush x.rounds x.stream with
    | some (y, stream) => ((y, { x with stream }) : Except IoError Unit × Shared S)
    | none => (.error .other, { x with hung := true })).2.stream rest frest))
  cases h : Wr.flush x.rounds x.stream with
  | none => exact ⟨⟨rfl, rfl, rfl, .refl hg.ok, fun k => by cases k⟩, fun k => by cases k⟩
  | some q =>
    obtain ⟨h1, h2⟩ := hV.flush _ _ _ _ hg.ok h
    exact ⟨⟨rfl, rfl, rfl, h1, id⟩, fun _ => h2⟩

theorem Lawful.writeRes (hV : V.Lawful) (hg : V.Good x) (b : Bytes) : V.FolW x (fun w => res (Write.write w b)) (res (Write.write x b)) := by
  obtain ⟨h1, h2⟩ := hV.write1 hg b
  generalize Write.write x b = q at *
  obtain ⟨_ | _, y⟩ := q
  all_goals
    refine ⟨h1, fun _ hh => ?_⟩
    obtain ⟨es, e, h3⟩ := h2 hh
    exact ⟨es, [], .writes e, fun rest frest => by simp only [List.nil_append, h3, res]⟩

theorem Lawful.flushRes (hV : V.Lawful) (hg : V.Good x) : V.FolW x (fun w => res (Write.flush w)) (res (Write.flush x)) := by
  obtain ⟨h1, h2⟩ := hV.flush1 hg
  generalize Write.flush x = q at *
  obtain ⟨_ | _, y⟩ := q
  all_goals
    refine ⟨h1, fun _ hh => ?_⟩
    obtain ⟨es, fl, e, h3⟩ := h2 hh
    exact ⟨es, fl, e, fun rest frest => by simp only [h3, res]⟩

theorem Lawful.writeAllLoop (hV : V.Lawful) (f : Nat) (b : Bytes) (hg : V.Good x) : V.FolW x (fun w => Write.writeAllLoop f w b) (Write.writeAllLoop f x b) := by
  induction f generalizing x b with
  | zero =>
    cases b with
    | nil => exact .same' hg fun _ _ => rfl
    | cons c t => exact .same' hg fun hd => absurd rfl hd
  | succ f ih =>
    cases b with
    | nil => exact .same' hg fun _ _ => rfl
    | cons c t =>
      obtain ⟨h1, h2⟩ := hV.write1 hg (c :: t)
      generalize hG : (fun w : W => Write.writeAllLoop (f + 1) w (c :: t)) = G
      simp only [Write.writeAllLoop]
      generalize Write.write x (c :: t) = q at *
      obtain ⟨o, y⟩ := q
      dsimp only at h1 h2
      have go : ∀ d, V.FolW y (fun w => Write.writeAllLoop f w d) (Write.writeAllLoop f y d) := fun d => ih d (h1.good hg)
      have more : ∀ d, (∀ w w' : W, Write.write w (c :: t) = (o, w') → Write.writeAllLoop (f + 1) w (c :: t) = Write.writeAllLoop f w' d) →
          V.FolW x G (Write.writeAllLoop f y d) := by
        subst hG
        intro d hw
        obtain ⟨g1, g2⟩ := go d
        refine ⟨h1.trans g1, fun hd hh => ?_⟩
        obtain ⟨es', fl', e', g3⟩ := g2 hd hh
        obtain ⟨es, e, h3⟩ := h2 (g1.hung hh)
        refine ⟨es ++ es', fl', ((Did.writes e).later g1.writes.did).append e', fun rest frest => ?_⟩
        rw [List.append_assoc]
        exact (hw _ _ (h3 _ _)).trans (g3 _ _)
      have stop : ∀ r, (∀ w w' : W, Write.write w (c :: t) = (o, w') → Write.writeAllLoop (f + 1) w (c :: t) = (r, w')) →
          V.FolW x G (r, y) := by
        subst hG
        intro r hw
        refine ⟨h1, fun _ hh => ?_⟩
        obtain ⟨es, e, h3⟩ := h2 hh
        exact ⟨es, [], .writes e, fun rest frest => hw _ _ (h3 _ _)⟩
      cases o with
      | ok n =>
        cases n with
        | zero => exact stop _ fun w w' h => by simp only [Write.writeAllLoop, h]
        | succ n => exact more _ fun w w' h => by simp only [Write.writeAllLoop, h]
      | error e =>
        cases e with
        | interrupted => exact more _ fun w w' h => by simp only [Write.writeAllLoop, h]
        | _ => exact stop _ fun w w' h => by simp only [Write.writeAllLoop, h]

theorem Lawful.writeAll (hV : V.Lawful) (hg : V.Good x) (b : Bytes) : V.FolW x (fun w => Write.writeAll w b) (Write.writeAll x b) := by
  obtain ⟨h1, h2⟩ := hV.writeAllLoop (x.rounds + b.length + 1) b hg
  refine ⟨h1, fun hd hh => ?_⟩
  obtain ⟨es, fl, e, h3⟩ := h2 hd hh
  refine ⟨es, fl, e, fun rest frest => ?_⟩
  have h4 := h3 rest frest
  generalize V.wr x.stream (es ++ rest) (fl ++ frest) = w at *
  have e1 := Write.writeAllLoop_more _ w b (by rw [h4]; exact hd) _ (Nat.le_max_left (x.rounds + b.length + 1) (Write.rounds w + b.length + 1))
  have e2 := Write.writeAllLoop_more _ w b (hV.returns w b) _ (Nat.le_max_right (x.rounds + b.length + 1) (Write.rounds w + b.length + 1))
  show Write.writeAllLoop (Write.rounds w + b.length + 1) w b = _
  rw [← e2, e1]
  exact h4

theorem Lawful.fmt (hV : V.Lawful) (ps : List Bytes) (hg : V.Good x) : V.FolW x (fun w => Write.fmt w ps) (Write.fmt x ps) := by
  induction ps generalizing x with
  | nil => exact .same' hg fun _ _ => rfl
  | cons p ps ih =>
    have e : ∀ {W : Type} [Write W] (w : W), Write.fmt w (p :: ps) = Write.andThen (Write.writeAll w p) fun w => Write.fmt w ps := by
      intro W _ w
      simp only [Write.fmt, Write.andThen]
    simp only [e]
    exact (hV.writeAll hg p).andThen hg fun y hy => ih hy

theorem Lawful.headerLines (hV : V.Lawful) (hs : List (Header × Bytes)) (hg : V.Good x) : V.FolW x (fun w => Write.headerLines w hs) (Write.headerLines x hs) := by
  induction hs generalizing x with
  | nil => exact .same' hg fun _ _ => rfl
  | cons p hs ih => exact (hV.fmt _ hg).andThen hg fun y hy => ih hy

theorem Lawful.writeResponse (hV : V.Lawful) (r : Response) (hg : V.Good x) : V.FolW x (fun w => Verif.writeResponse w r) (Verif.writeResponse x r) :=
  (hV.fmt _ hg).andThen hg fun _ h => (hV.headerLines _ h).andThen h fun _ h => (hV.writeRes h _).andThen h fun _ h =>
    (hV.writeRes h _).andThen h fun _ h => hV.flushRes h

theorem Lawful.writeRequest (hV : V.Lawful) (r : Request) (hg : V.Good x) : V.FolW x (fun w => Verif.writeRequest w r) (Verif.writeRequest x r) :=
  (hV.fmt _ hg).andThen hg fun _ h => (hV.headerLines _ h).andThen h fun _ h => (hV.writeAll h _).andThen h fun _ h =>
    (hV.writeAll h _).andThen h fun _ h => hV.flushRes h

theorem Lawful.writeError (hV : V.Lawful) (hg : V.Good x) : V.FolW x writeErrorResponse (writeErrorResponse x) :=
  (hV.writeAll hg _).andThen hg fun _ h => hV.flushRes h

theorem Lawful.writeNotFound (hV : V.Lawful) (hg : V.Good x) :
    V.FolW x (fun w => Write.andThen (Write.writeAll w notFoundResponse) fun w => res (Write.flush w))
      (Write.andThen (Write.writeAll x notFoundResponse) fun w => res (Write.flush w)) :=
  (hV.writeAll hg _).andThen hg fun _ h => hV.flushRes h

end Views

end Verif
