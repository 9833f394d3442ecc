import Verif.Proofs.SharedHandle
import Verif.Proofs.RawInv

/-!
The buffered streams of the server and of the client, seen as two parts.
-/

namespace Verif

/-- A writer under a buffer, seen as a socket that does what was done. -/
structure WrLaw {I : Type} [Wr I] (put : I → Bytes) (Good : I → Prop) (Kept : I → I → Prop) (did : I → WEv → Prop) (slip : IoError → Prop) (may : Bytes → Prop) : Prop where
  refl : ∀ i, Kept i i
  trans : ∀ {i j k}, Kept i j → Kept j k → Kept i k
  later : ∀ {i j e}, Kept i j → did i e → did j e
  write : ∀ {f i b x i'}, may b → Good i → Wr.write f i b = some (x, i') →
    (Good i' ∧ Kept i i') ∧ ∃ e, did i' e ∧ ∀ rest fl, (Sock.mk (e :: rest) fl (put i)).write b = (x, ⟨rest, fl, put i'⟩)
  flush : ∀ {f i x i'}, Good i → Wr.flush f i = some (x, i') → (Good i' ∧ Kept i i') ∧ ∃ o, (∀ e, o = some e → slip e) ∧ ∀ rest fl, (Sock.mk rest (o :: fl) (put i)).flush = (x, ⟨rest, fl, put i'⟩)

section

variable {I : Type} [Wr I] {put : I → Bytes} {Good : I → Prop} {Kept : I → I → Prop} {did : I → WEv → Prop} {slip : IoError → Prop} {may : Bytes → Prop}

theorem writeLoop_cons (fl : List (Option IoError)) (e : WEv) (es : List WEv) (sent : Bytes) {b : Bytes} (hb : b ≠ []) : Sock.writeLoop fl (e :: es) sent b =
    match (Sock.mk (e :: es) fl sent).write b with
    | (.error e, s) => (if e = .wouldBlock then .ok 0 else .error e, s)
    | (.ok n, s) => ((Sock.writeLoop fl s.evs s.sent (b.drop n)).1.map (· + n), (Sock.writeLoop fl s.evs s.sent (b.drop n)).2) := by
  obtain ⟨c, t, rfl⟩ := List.exists_cons_of_ne_nil hb
  cases e with
  | err e => rfl
  | accept n =>
    have hd : (c :: t).drop n = (c :: t).drop (min n (c :: t).length) := by
      by_cases hn : n ≤ (c :: t).length
      · rw [Nat.min_eq_left hn]
      · rw [Nat.min_eq_right (by omega), List.drop_length, List.drop_eq_nil_of_le (by omega)]
    simp only [Sock.writeLoop, Sock.write]
    rw [hd]

theorem WrLaw.until (h : WrLaw put Good Kept did slip may) (hm : ∀ b, b ≠ [] → may b) {f r : Nat} {i i' : I} {b : Bytes} {pos : Nat} {x : Except IoError Nat} (hi : Good i)
    (e : writeUntilBlocked f r i b pos = some (x, i')) :
    (Good i' ∧ Kept i i') ∧ ∃ es y, (∀ e ∈ es, did i' e) ∧ x = Except.map (pos + ·) y ∧ ∀ rest fl, Sock.writeLoop fl (es ++ rest) (put i) b = (y, ⟨rest, fl, put i'⟩) := by
  induction r generalizing i b pos with
  | zero =>
    unfold writeUntilBlocked at e
    split at e
    · next hb =>
      cases e
      subst hb
      exact ⟨⟨hi, h.refl _⟩, [], .ok 0, (by simp), rfl, fun rest fl => by simp only [Sock.writeLoop, List.nil_append]⟩
    · cases e
  | succ r ih =>
    unfold writeUntilBlocked at e
    split at e
    · next hb =>
      cases e
      subst hb
      exact ⟨⟨hi, h.refl _⟩, [], .ok 0, (by simp), rfl, fun rest fl => by simp only [Sock.writeLoop, List.nil_append]⟩
    · next hb =>
      split at e
      · cases e
      · next n i₁ hw =>
        obtain ⟨⟨g1, h1⟩, ev, d1, h2⟩ := h.write (hm _ hb) hi hw
        obtain ⟨⟨g2, i1⟩, es, y, d2, i2, i3⟩ := ih g1 e
        refine ⟨⟨g2, h.trans h1 i1⟩, ev :: es, y.map (· + n), List.forall_mem_cons.2 ⟨h.later i1 d1, d2⟩, ?_, fun rest fl => ?_⟩
        · rw [i2]
          cases y with
          | error e => rfl
          | ok k =>
            show Except.ok _ = Except.ok _
            congr 1
            show pos + n + k = pos + (k + n)
            omega
        · rw [List.cons_append, writeLoop_cons _ _ _ _ hb, h2]
          dsimp only
          rw [i3]
      · next er i₁ hw =>
        cases e
        obtain ⟨h1, ev, d1, h2⟩ := h.write (hm _ hb) hi hw
        refine ⟨h1, [ev], if er = .wouldBlock then .ok 0 else .error er, by simpa using d1, ?_, fun rest fl => ?_⟩
        · split <;> rfl
        · rw [List.cons_append, writeLoop_cons _ _ _ _ hb, h2]
          rfl

/-- A writer of the server over any writer, seen as one over a socket. -/
def NbWriter.over (put : I → Bytes) (grow : Nat → Nat → Nat) (hg : ∀ c n, c ≤ grow c n) (w : NbWriter I) (ws : List WEv) (fl : List (Option IoError)) : Nbw :=
  ⟨w.buf, w.pos, w.cap, grow, hg, ⟨ws, fl, put w.inner⟩⟩

variable {grow : Nat → Nat → Nat} {hg : ∀ c n, c ≤ grow c n}

theorem WrLaw.nb_flushBuf (h : WrLaw put Good Kept did slip may) (hm : ∀ b, b ≠ [] → may b) {f : Nat} {w w' : NbWriter I} {x : Except IoError Unit} (hi : Good w.inner) (e : w.flushBuf f = some (x, w')) :
    (Good w'.inner ∧ Kept w.inner w'.inner) ∧ w'.grow = w.grow ∧ ∃ es, (∀ e ∈ es, did w'.inner e) ∧ ∀ rest fl, (w.over put grow hg (es ++ rest) fl).flushBuf = (x, w'.over put grow hg rest fl) := by
  unfold NbWriter.flushBuf at e
  obtain ⟨⟨y, t⟩, h1, h2⟩ := Option.map_eq_some_iff.1 e
  obtain ⟨k, es, z, d1, h3, h4⟩ := h.until hm hi h1
  have key : ∀ rest fl, (w.over put grow hg (es ++ rest) fl).sock.writeUntilBlocked (w.buf.drop w.pos) = (y, ⟨rest, fl, put t⟩) := by
    intro rest fl
    refine (h4 rest fl).trans ?_
    rw [h3]
    cases z with
    | error e => rfl
    | ok k => simp only [Except.map, Nat.zero_add]
  cases y with
  | error e =>
    cases h2
    refine ⟨k, rfl, es, d1, fun rest fl => ?_⟩
    simp only [Nbw.flushBuf]
    rw [show (w.over put grow hg (es ++ rest) fl).sock.writeUntilBlocked ((w.over put grow hg (es ++ rest) fl).buf.drop (w.over put grow hg (es ++ rest) fl).pos) = _ from key rest fl]
    rfl
  | ok n =>
    dsimp only at h2
    split at h2
    all_goals
      next hn =>
      cases h2
      refine ⟨k, rfl, es, d1, fun rest fl => ?_⟩
      simp only [Nbw.flushBuf]
      rw [show (w.over put grow hg (es ++ rest) fl).sock.writeUntilBlocked ((w.over put grow hg (es ++ rest) fl).buf.drop (w.over put grow hg (es ++ rest) fl).pos) = _ from key rest fl]
      first
      | exact if_pos hn
      | exact if_neg hn

omit [Wr I] in
theorem NbWriter.push_over {w : NbWriter I} (hw : w.grow = grow) (b : Bytes) (ws : List WEv) (fl : List (Option IoError)) :
    (w.over put grow hg ws fl).push b = (w.push b).over put grow hg ws fl := by
  subst hw
  rfl

theorem WrLaw.nb_write (h : WrLaw put Good Kept did slip may) (hm : ∀ b, b ≠ [] → may b) {f : Nat} {w w' : NbWriter I} {b : Bytes} {x : Except IoError Nat} (hi : Good w.inner) (hw : w.grow = grow)
    (e : w.write f b = some (x, w')) :
    (Good w'.inner ∧ Kept w.inner w'.inner) ∧ w'.grow = grow ∧ ∃ es, (∀ e ∈ es, did w'.inner e) ∧ ∀ rest fl, (w.over put grow hg (es ++ rest) fl).write b = (x, w'.over put grow hg rest fl) := by
  unfold NbWriter.write at e
  split at e
  · next hc =>
    have hc' : ∀ ws fl, (w.over put grow hg ws fl).buf.length + b.length > (w.over put grow hg ws fl).cap := fun _ _ => hc
    split at e
    · cases e
    · next er w₁ hf =>
      cases e
      obtain ⟨⟨g1, k⟩, g, es, d1, h1⟩ := h.nb_flushBuf hm (hg := hg) hi hf
      refine ⟨⟨g1, k⟩, g.trans hw, es, d1, fun rest fl => ?_⟩
      unfold Nbw.write
      rw [if_pos (hc' _ _), h1]
    · next w₁ hf =>
      obtain ⟨⟨g1, k⟩, g, es, d1, h1⟩ := h.nb_flushBuf hm (hg := hg) hi hf
      have g := g.trans hw
      split at e
      · next hp =>
        obtain ⟨⟨y, t⟩, h2, h3⟩ := Option.map_eq_some_iff.1 e
        obtain ⟨⟨g2, k'⟩, es', z, d2, h4, h5⟩ := h.until hm g1 h2
        have key : ∀ rest fl, (w₁.over put grow hg (es' ++ rest) fl).sock.writeUntilBlocked b = (y, ⟨rest, fl, put t⟩) := by
          intro rest fl
          refine (h5 rest fl).trans ?_
          rw [h4]
          cases z with
          | error e => rfl
          | ok k => simp only [Except.map, Nat.zero_add]
        have hp' : ∀ rest fl, (w₁.over put grow hg (es' ++ rest) fl).pos = 0 ∧ b.length > (w₁.over put grow hg (es' ++ rest) fl).cap := fun _ _ => hp
        cases y with
        | error er =>
          cases h3
          refine ⟨⟨g2, h.trans k k'⟩, g, es ++ es', List.forall_mem_append.2 ⟨fun e he => h.later k' (d1 e he), d2⟩, fun rest fl => ?_⟩
          unfold Nbw.write
          rw [if_pos (hc' _ _), List.append_assoc, h1]
          dsimp only
          rw [if_pos (hp' rest fl), key]
          rfl
        | ok n =>
          cases h3
          refine ⟨⟨g2, h.trans k k'⟩, g, es ++ es', List.forall_mem_append.2 ⟨fun e he => h.later k' (d1 e he), d2⟩, fun rest fl => ?_⟩
          unfold Nbw.write
          rw [if_pos (hc' _ _), List.append_assoc, h1]
          dsimp only
          rw [if_pos (hp' rest fl), key]
          exact congrArg (fun z => (Except.ok b.length, z)) (NbWriter.push_over (w := { w₁ with inner := t }) g (b.drop n) rest fl)
      · next hp =>
        cases e
        refine ⟨⟨g1, k⟩, g, es, d1, fun rest fl => ?_⟩
        have hp' : ¬ ((w₁.over put grow hg rest fl).pos = 0 ∧ b.length > (w₁.over put grow hg rest fl).cap) := hp
        unfold Nbw.write
        rw [if_pos (hc' _ _), h1]
        dsimp only
        rw [if_neg hp', NbWriter.push_over g]
  · next hc =>
    cases e
    refine ⟨⟨hi, h.refl _⟩, hw, [], (by simp), fun rest fl => ?_⟩
    have hc' : ¬ (w.over put grow hg ([] ++ rest) fl).buf.length + b.length > (w.over put grow hg ([] ++ rest) fl).cap := hc
    unfold Nbw.write
    rw [if_neg hc']
    exact congrArg (fun z => (Except.ok b.length, z)) (NbWriter.push_over hw b rest fl)

theorem WrLaw.nb_flush (h : WrLaw put Good Kept did slip may) (hm : ∀ b, b ≠ [] → may b) {f : Nat} {w w' : NbWriter I} {x : Except IoError Unit} (hi : Good w.inner) (hw : w.grow = grow)
    (e : w.flush f = some (x, w')) :
    (Good w'.inner ∧ Kept w.inner w'.inner) ∧ w'.grow = grow ∧ ∃ es fl, ((∀ e ∈ es, did w'.inner e) ∧ ∀ e, some e ∈ fl → slip e) ∧ ∀ rest frest, (w.over put grow hg (es ++ rest) (fl ++ frest)).flush = (x, w'.over put grow hg rest frest) := by
  unfold NbWriter.flush at e
  split at e
  · cases e
  · next er w₁ hf =>
    cases e
    obtain ⟨⟨g1, k⟩, g, es, d1, h1⟩ := h.nb_flushBuf hm (hg := hg) hi hf
    refine ⟨⟨g1, k⟩, g.trans hw, es, [], ⟨d1, by simp⟩, fun rest fl => ?_⟩
    unfold Nbw.flush
    rw [h1]
    rfl
  · next w₁ hf =>
    obtain ⟨⟨g1, k⟩, g, es, d1, h1⟩ := h.nb_flushBuf hm (hg := hg) hi hf
    have g := g.trans hw
    unfold NbWriter.flushInner at e
    obtain ⟨⟨y, t⟩, h2, h3⟩ := Option.map_eq_some_iff.1 e
    obtain ⟨⟨g2, k'⟩, o, ho, h4⟩ := h.flush g1 h2
    have fin : ∀ rest frest, (w.over put grow hg (es ++ rest) ([o] ++ frest)).flush =
        match (y, (⟨rest, frest, put t⟩ : Sock)) with
        | (.error .wouldBlock, sock) => (.ok (), { w₁.over put grow hg rest frest with sock })
        | (x, sock) => (x, { w₁.over put grow hg rest frest with sock }) := by
      intro rest frest
      unfold Nbw.flush
      rw [h1]
      unfold Nbw.flushInner
      dsimp only
      rw [show (w₁.over put grow hg rest ([o] ++ frest)).sock.flush = _ from h4 rest frest]
      cases y with
      | ok u => rfl
      | error er => cases er <;> rfl
    refine ⟨⟨?_, h.trans k ?_⟩, ?_, es, [o], ⟨?_, fun e he => ho e (List.mem_singleton.1 he).symm⟩, fun rest frest => (fin rest frest).trans ?_⟩
    all_goals
      cases y with
      | ok u => cases h3; first | exact g2 | exact k' | exact g | exact fun e he => h.later k' (d1 e he) | rfl
      | error er => cases er <;> (cases h3; first | exact g2 | exact k' | exact g | exact fun e he => h.later k' (d1 e he) | rfl)

/-- A writer of the client over any writer, seen as one over a socket. -/
def StdWriter.over (put : I → Bytes) (w : StdWriter I) (ws : List WEv) (fl : List (Option IoError)) : BufW := ⟨w.buf, w.cap, ⟨ws, fl, put w.inner⟩⟩

theorem flushLoop_cons (fl : List (Option IoError)) (cap : Nat) (e : WEv) (es : List WEv) (sent : Bytes) {b : Bytes} (hb : b ≠ []) : BufW.flushLoop fl cap (e :: es) sent b =
    match (Sock.mk (e :: es) fl sent).write b with
    | (.error e, s) => if e = .interrupted then BufW.flushLoop fl cap s.evs s.sent b else (.error e, ⟨b, cap, s⟩)
    | (.ok n, s) => if n = 0 then (.error .writeZero, ⟨b, cap, s⟩) else BufW.flushLoop fl cap s.evs s.sent (b.drop n) := by
  obtain ⟨c, t, rfl⟩ := List.exists_cons_of_ne_nil hb
  cases e with
  | err e => rfl
  | accept n =>
    have hd : (c :: t).drop n = (c :: t).drop (min n (c :: t).length) := by
      by_cases hn : n ≤ (c :: t).length
      · rw [Nat.min_eq_left hn]
      · rw [Nat.min_eq_right (by omega), List.drop_length, List.drop_eq_nil_of_le (by omega)]
    simp only [BufW.flushLoop, Sock.write]
    rw [hd]
    by_cases hn : n = 0
    · subst hn
      simp
    · rw [if_neg hn, if_neg (by simp only [List.length_cons]; omega)]

theorem WrLaw.std_flushBuf (h : WrLaw put Good Kept did slip may) (hm : ∀ b, b ≠ [] → may b) {f r : Nat} {w w' : StdWriter I} {x : Except IoError Unit} (hi : Good w.inner) (e : w.flushBuf f r = some (x, w')) :
    (Good w'.inner ∧ Kept w.inner w'.inner) ∧ w'.cap = w.cap ∧ ∃ es, (∀ e ∈ es, did w'.inner e) ∧ ∀ rest fl, (w.over put (es ++ rest) fl).flushBuf = (x, w'.over put rest fl) := by
  induction r generalizing w with
  | zero =>
    unfold StdWriter.flushBuf at e
    split at e
    · next hb =>
      cases e
      refine ⟨⟨hi, h.refl _⟩, rfl, [], (by simp), fun rest fl => ?_⟩
      unfold BufW.flushBuf StdWriter.over
      rw [hb]
      simp only [BufW.flushLoop, List.nil_append]
    · cases e
  | succ r ih =>
    unfold StdWriter.flushBuf at e
    split at e
    · next hb =>
      cases e
      refine ⟨⟨hi, h.refl _⟩, rfl, [], (by simp), fun rest fl => ?_⟩
      unfold BufW.flushBuf StdWriter.over
      rw [hb]
      simp only [BufW.flushLoop, List.nil_append]
    · next hb =>
      split at e
      · cases e
      · next n t hw =>
        obtain ⟨⟨g1, h1⟩, ev, d1, h2⟩ := h.write (hm _ hb) hi hw
        split at e
        · next hn =>
          cases e
          refine ⟨⟨g1, h1⟩, rfl, [ev], by simpa using d1, fun rest fl => ?_⟩
          refine (flushLoop_cons fl w.cap ev rest (put w.inner) hb).trans ?_
          rw [h2]
          exact if_pos hn
        · next hn =>
          obtain ⟨⟨g2, i1⟩, i2, es, d2, i3⟩ := ih g1 e
          refine ⟨⟨g2, h.trans h1 i1⟩, i2, ev :: es, List.forall_mem_cons.2 ⟨h.later i1 d1, d2⟩, fun rest fl => ?_⟩
          refine (flushLoop_cons fl w.cap ev (es ++ rest) (put w.inner) hb).trans ?_
          rw [h2]
          exact (if_neg hn).trans (i3 rest fl)
      · next er t hw =>
        obtain ⟨⟨g1, h1⟩, ev, d1, h2⟩ := h.write (hm _ hb) hi hw
        split at e
        · next hn =>
          obtain ⟨⟨g2, i1⟩, i2, es, d2, i3⟩ := ih g1 e
          refine ⟨⟨g2, h.trans h1 i1⟩, i2, ev :: es, List.forall_mem_cons.2 ⟨h.later i1 d1, d2⟩, fun rest fl => ?_⟩
          refine (flushLoop_cons fl w.cap ev (es ++ rest) (put w.inner) hb).trans ?_
          rw [h2]
          exact (if_pos hn).trans (i3 rest fl)
        · next hn =>
          cases e
          refine ⟨⟨g1, h1⟩, rfl, [ev], by simpa using d1, fun rest fl => ?_⟩
          refine (flushLoop_cons fl w.cap ev rest (put w.inner) hb).trans ?_
          rw [h2]
          exact if_neg hn

theorem WrLaw.std_write (h : WrLaw put Good Kept did slip may) (hm : ∀ b, may b) {f : Nat} {w w' : StdWriter I} {b : Bytes} {x : Except IoError Nat} (hi : Good w.inner)
    (e : w.write f b = some (x, w')) :
    (Good w'.inner ∧ Kept w.inner w'.inner) ∧ w'.cap = w.cap ∧ ∃ es, (∀ e ∈ es, did w'.inner e) ∧ ∀ rest fl, (w.over put (es ++ rest) fl).write b = (x, w'.over put rest fl) := by
  unfold StdWriter.write at e
  split at e
  · next hc =>
    cases e
    exact ⟨⟨hi, h.refl _⟩, rfl, [], (by simp), fun rest fl => if_pos hc⟩
  · next hc =>
    have hc' : ∀ ws fl, ¬ (w.over put ws fl).buf.length + b.length < (w.over put ws fl).cap := fun _ _ => hc
    have first : ∀ {q : Except IoError Unit × StdWriter I}, (if w.buf.length + b.length > w.cap then w.flushBuf f f else some (.ok (), w)) = some q →
        (Good q.2.inner ∧ Kept w.inner q.2.inner) ∧ q.2.cap = w.cap ∧ ∃ es, (∀ e ∈ es, did q.2.inner e) ∧ ∀ rest fl, (if (w.over put (es ++ rest) fl).buf.length + b.length > (w.over put (es ++ rest) fl).cap then
          (w.over put (es ++ rest) fl).flushBuf else (.ok (), w.over put (es ++ rest) fl)) = (q.1, q.2.over put rest fl) := by
      intro q hq
      split at hq
      · next hp =>
        obtain ⟨k, g, es, d1, h1⟩ := h.std_flushBuf (fun b _ => hm b) hi hq
        exact ⟨k, g, es, d1, fun rest fl => (if_pos hp).trans (h1 rest fl)⟩
      · next hp =>
        cases hq
        exact ⟨⟨hi, h.refl _⟩, rfl, [], (by simp), fun rest fl => if_neg hp⟩
    split at e
    · cases e
    · next er w₁ hf =>
      cases e
      obtain ⟨⟨g1, k⟩, g, es, d1, h1⟩ := first hf
      refine ⟨⟨g1, k⟩, g, es, d1, fun rest fl => ?_⟩
      unfold BufW.write
      rw [if_neg (hc' _ _), h1]
    · next w₁ hf =>
      obtain ⟨⟨g1, k⟩, g, es, d1, h1⟩ := first hf
      dsimp only at g1 k g h1
      split at e
      · next hp =>
        obtain ⟨⟨y, t⟩, h2, h3⟩ := Option.map_eq_some_iff.1 e
        cases h3
        obtain ⟨⟨g2, k'⟩, ev, d2, h4⟩ := h.write (hm _) g1 h2
        refine ⟨⟨g2, h.trans k k'⟩, g, es ++ [ev], List.forall_mem_append.2 ⟨fun e he => h.later k' (d1 e he), by simpa using d2⟩, fun rest fl => ?_⟩
        have hp' : ∀ ws fl, b.length ≥ (w₁.over put ws fl).cap := fun _ _ => hp
        unfold BufW.write
        rw [if_neg (hc' _ _), List.append_assoc, h1]
        dsimp only
        rw [if_pos (hp' _ _), show (w₁.over put ([ev] ++ rest) fl).sock.write b = _ from h4 rest fl]
        rfl
      · next hp =>
        cases e
        refine ⟨⟨g1, k⟩, g, es, d1, fun rest fl => ?_⟩
        have hp' : ∀ ws fl, ¬ b.length ≥ (w₁.over put ws fl).cap := fun _ _ => hp
        unfold BufW.write
        rw [if_neg (hc' _ _), h1]
        dsimp only
        rw [if_neg (hp' _ _)]
        rfl

theorem WrLaw.std_flush (h : WrLaw put Good Kept did slip may) (hm : ∀ b, b ≠ [] → may b) {f : Nat} {w w' : StdWriter I} {x : Except IoError Unit} (hi : Good w.inner)
    (e : w.flush f = some (x, w')) :
    (Good w'.inner ∧ Kept w.inner w'.inner) ∧ w'.cap = w.cap ∧ ∃ es fl, ((∀ e ∈ es, did w'.inner e) ∧ ∀ e, some e ∈ fl → slip e) ∧ ∀ rest frest, (w.over put (es ++ rest) (fl ++ frest)).flush = (x, w'.over put rest frest) := by
  unfold StdWriter.flush at e
  split at e
  · cases e
  · next er w₁ hf =>
    cases e
    obtain ⟨⟨g1, k⟩, g, es, d1, h1⟩ := h.std_flushBuf hm hi hf
    refine ⟨⟨g1, k⟩, g, es, [], ⟨d1, by simp⟩, fun rest fl => ?_⟩
    unfold BufW.flush
    rw [h1]
    rfl
  · next w₁ hf =>
    obtain ⟨⟨g1, k⟩, g, es, d1, h1⟩ := h.std_flushBuf hm hi hf
    obtain ⟨⟨y, t⟩, h2, h3⟩ := Option.map_eq_some_iff.1 e
    cases h3
    obtain ⟨⟨g2, k'⟩, o, ho, h4⟩ := h.flush g1 h2
    refine ⟨⟨g2, h.trans k k'⟩, g, es, [o], ⟨fun e he => h.later k' (d1 e he), fun e he => ho e (List.mem_singleton.1 he).symm⟩, fun rest frest => ?_⟩
    unfold BufW.flush
    rw [h1]
    dsimp only
    rw [show (w₁.over put rest ([o] ++ frest)).sock.flush = _ from h4 rest frest]
    rfl

end

/-! ### The raw stream -/

/-- What `read` may bring, and the errors that `write` and `flush` may return. -/
structure Errs where
  read : Ev → Prop
  write : IoError → Prop
  flush : IoError → Prop

/-- Any error. -/
def Errs.any : Errs := ⟨fun _ => True, fun _ => True, fun _ => True⟩

/-- A `write` is not interrupted. -/
def Errs.calm : Errs := ⟨fun _ => True, fun e => e ≠ .interrupted, fun _ => True⟩

/-- There are no errors but that there is nothing to read, or no room to write. -/
def Errs.full : Errs := ⟨fun e => e = .err .wouldBlock ∨ ∃ b, e = .data b ∧ b ≠ [], fun e => e = .wouldBlock, fun e => e = .wouldBlock⟩

section

variable {T : Type} [RawIO T] {P Bad : Traced T → Prop} {Er : Errs} {may : Bytes → Prop}

/-- What writing leaves as it is. -/
structure RawKept (Bad : Traced T → Prop) (i j : WriteableReader (BufR (Traced T))) : Prop where
  cap : j.val.cap = i.val.cap
  buf : j.val.buf = i.val.buf
  log : j.val.inner.log = i.val.inner.log
  bad : Bad i.val.inner → Bad j.val.inner

/-- What `read` of the raw stream brings, and the errors that its `write` and `flush` return, are as `Er` says. -/
structure ErrsIn (P : Traced T → Prop) (Er : Errs) : Prop where
  read : ∀ {t : Traced T} {n : Nat} {e : Ev}, P t → 0 < n → (RawIO.read t n).2.log = t.log ++ [e] → Er.read e
  write : ∀ {f : Nat} {t t' : Traced T} {b : Bytes} {e : IoError}, P t → Wr.write f t b = some (.error e, t') → Er.write e
  flush : ∀ {f : Nat} {t t' : Traced T} {e : IoError}, P t → Wr.flush f t = some (.error e, t') → Er.flush e

theorem ErrsIn.of {P' : Traced T → Prop} (h : ErrsIn P Er) (hP : ∀ t, P' t → P t) : ErrsIn P' Er :=
  ⟨fun ht => h.read (hP _ ht), fun ht => h.write (hP _ ht), fun ht => h.flush (hP _ ht)⟩

theorem errsIn_any : ErrsIn P .any := ⟨fun _ _ _ => trivial, fun _ _ => trivial, fun _ _ => trivial⟩

/-- The same, but a `write` may also fail as it likes if the stream is `Bad` from then on. -/
structure ErrsTo (P Bad : Traced T → Prop) (Er : Errs) : Prop where
  read : ∀ {t : Traced T} {n : Nat} {e : Ev}, P t → 0 < n → (RawIO.read t n).2.log = t.log ++ [e] → Er.read e
  write : ∀ {f : Nat} {t t' : Traced T} {b : Bytes} {e : IoError}, P t → Wr.write f t b = some (.error e, t') → Er.write e ∨ Bad t'
  flush : ∀ {f : Nat} {t t' : Traced T} {e : IoError}, P t → Wr.flush f t = some (.error e, t') → Er.flush e
  bad : RawFull Bad

theorem ErrsIn.to (h : ErrsIn P Er) : ErrsTo P (fun _ => False) Er :=
  ⟨h.read, fun hp e => .inl (h.write hp e), h.flush, { write := fun _ _ => id, flush := fun _ => id, read := fun _ => id }⟩

theorem rawLaw (hT : RawIO.Honest T) (hP : RawMay may P) (hE : ErrsTo P Bad Er) :
    WrLaw (I := WriteableReader (BufR (Traced T))) (fun w => w.val.inner.put) (fun w => P w.val.inner) (RawKept Bad) (fun w e => ∀ er, e = .err er → Er.write er ∨ Bad w.val.inner) Er.flush may where
  refl _ := ⟨rfl, rfl, rfl, id⟩
  trans h h' := ⟨h'.cap.trans h.cap, h'.buf.trans h.buf, h'.log.trans h.log, fun k => h'.bad (h.bad k)⟩
  later h k er he := (k er he).imp id h.bad
  write {f i b x i'} hb hi e := by
    obtain ⟨⟨y, t⟩, h1, h2⟩ := Option.map_eq_some_iff.1 e
    cases h2
    have h1 : Wr.write f i.val.inner b = some (y, t) := h1
    have hp : P t := hP.write hb h1 hi
    have hq : Bad i.val.inner → Bad t := hE.bad.write trivial h1
    obtain ⟨⟨z, r⟩, h3, h4⟩ := Option.map_eq_some_iff.1 h1
    cases z with
    | error er =>
      cases h4
      refine ⟨⟨hp, rfl, rfl, rfl, hq⟩, .err er, fun er' h => ?_, fun rest fl => rfl⟩
      cases h
      exact hE.write hi h1
    | ok n =>
      cases h4
      have hn := hT _ _ _ _ _ h3
      refine ⟨⟨hp, rfl, rfl, rfl, hq⟩, .accept n, (fun er' h => by cases h), fun rest fl => ?_⟩
      simp only [Sock.write, Nat.min_eq_left hn]
      rfl
  flush {f i x i'} hi e := by
    obtain ⟨⟨y, t⟩, h1, h2⟩ := Option.map_eq_some_iff.1 e
    cases h2
    have h1 : Wr.flush f i.val.inner = some (y, t) := h1
    have hp : P t := hP.flush h1 hi
    have hq : Bad i.val.inner → Bad t := hE.bad.flush h1
    obtain ⟨⟨z, r⟩, h3, h4⟩ := Option.map_eq_some_iff.1 h1
    cases h4
    cases z with
    | error er => exact ⟨⟨hp, rfl, rfl, rfl, hq⟩, some er, (fun e he => by cases he; exact hE.flush hi h1), fun rest fl => rfl⟩
    | ok n => exact ⟨⟨hp, rfl, rfl, rfl, hq⟩, none, nofun, fun rest fl => rfl⟩

/-- What reading leaves as it is, and what it brings. -/
structure RawGot (P Bad : Traced T → Prop) (Er : Errs) (i j : BufR (Traced T)) (es : List Ev) : Prop where
  cap : j.cap = i.cap
  put : j.inner.put = i.inner.put
  log : j.inner.log = i.inner.log ++ es
  inv : P i.inner → P j.inner
  got : P i.inner → ∀ e ∈ es, Er.read e
  bad : Bad i.inner → Bad j.inner

/-- The reading part. -/
def BufR.over (s : BufR (Traced T)) (cap : Nat) (hc : 0 < cap) (offer : Nat → Nat) (es : List Ev) : Src := ⟨cap, hc, offer, s.buf, es⟩

variable {cap : Nat} {hc : 0 < cap} {offer : Nat → Nat}

theorem raw_read (hR : RawIO.ReadsWithin T) (hP : RawMay may P) (i : Traced T) (n : Nat) : ∃ e, (RawIO.read i n).2.put = i.put ∧
    (RawIO.read i n).2.log = i.log ++ [e] ∧ (P i → P (RawIO.read i n).2) ∧ ∀ rest, rawRead n (e :: rest) = ((RawIO.read i n).1, rest) := by
  have hp : P i → P (RawIO.read i n).2 := hP.read (x := (RawIO.read i n).1) rfl
  simp only [RawIO.read] at hp ⊢
  cases h : RawIO.read i.raw n with
  | mk x r =>
  rw [h] at hp
  cases x with
  | error e => exact ⟨.err e, rfl, rfl, hp, fun rest => rfl⟩
  | ok b =>
    refine ⟨.data b, rfl, rfl, hp, fun rest => ?_⟩
    simp only [rawRead, if_pos (hR _ _ _ _ h)]

theorem bufr_fill (hR : RawIO.ReadsWithin T) (hP : RawMay may P) (hE : ErrsTo P Bad Er) (s : BufR (Traced T)) (hs : s.cap = cap) : ∃ es, RawGot P Bad Er s s.fillBuf.2 es ∧
    ∀ rest, (s.over cap hc offer (es ++ rest)).fillBuf = (s.fillBuf.1, s.fillBuf.2.over cap hc offer rest) := by
  unfold BufR.fillBuf
  split
  · next hb =>
    obtain ⟨e, h1, h2, h3, h4⟩ := raw_read hR hP s.inner s.cap
    have hg : P s.inner → ∀ x ∈ [e], Er.read x := fun hp x hx => by
      obtain rfl : x = e := by simpa using hx
      exact hE.read hp (hs ▸ hc) h2
    cases hx : RawIO.read s.inner s.cap with
    | mk x t =>
    rw [hx] at h1 h2 h3 h4
    have hb' : ∀ ws, (s.over cap hc offer ws).buf = [] := fun _ => hb
    have h4 : ∀ rest, rawRead (s.over cap hc offer ([e] ++ rest)).cap (s.over cap hc offer ([e] ++ rest)).evs = (x, rest) := by
      intro rest
      subst hs
      exact h4 rest
    cases x with
    | error er =>
      refine ⟨[e], ⟨rfl, h1, by simpa using h2, h3, hg, hE.bad.read hx⟩, fun rest => ?_⟩
      unfold Src.fillBuf
      rw [if_pos (hb' _), h4]
      rfl
    | ok b =>
      refine ⟨[e], ⟨rfl, h1, by simpa using h2, h3, hg, hE.bad.read hx⟩, fun rest => ?_⟩
      unfold Src.fillBuf
      rw [if_pos (hb' _), h4]
      rfl
  · next hb => exact ⟨[], ⟨rfl, rfl, by simp, id, by simp, id⟩, fun rest => if_neg hb⟩

theorem bufr_reads (hR : RawIO.ReadsWithin T) (hP : RawMay may P) (hE : ErrsTo P Bad Er) (s : BufR (Traced T)) (hs : s.cap = cap) (n : Nat) : ∃ es, RawGot P Bad Er s (s.read n).2 es ∧
    ∀ rest, (s.over cap hc offer (es ++ rest)).read n = ((s.read n).1, (s.read n).2.over cap hc offer rest) := by
  unfold BufR.read
  split
  · next hb =>
    obtain ⟨e, h1, h2, h3, h4⟩ := raw_read hR hP s.inner n
    have hg : P s.inner → ∀ x ∈ [e], Er.read x := fun hp x hx => by
      obtain rfl : x = e := by simpa using hx
      exact hE.read hp (by have := hb.2; omega) h2
    cases hx : RawIO.read s.inner n with
    | mk x t =>
    rw [hx] at h1 h2 h3 h4
    have hb' : ∀ ws, (s.over cap hc offer ws).buf = [] ∧ (s.over cap hc offer ws).cap ≤ n := fun _ => ⟨hb.1, hs ▸ hb.2⟩
    refine ⟨[e], ⟨rfl, h1, by simpa using h2, h3, hg, hE.bad.read hx⟩, fun rest => ?_⟩
    unfold Src.read
    rw [if_pos (hb' _), show rawRead n (s.over cap hc offer ([e] ++ rest)).evs = _ from h4 rest]
    cases x <;> rfl
  · next hb =>
    have hb' : ∀ ws, ¬ ((s.over cap hc offer ws).buf = [] ∧ (s.over cap hc offer ws).cap ≤ n) := fun _ h => hb ⟨h.1, hs ▸ h.2⟩
    obtain ⟨es, h1, h2⟩ := bufr_fill (hc := hc) (offer := offer) hR hP hE s hs
    cases hx : s.fillBuf with
    | mk x t =>
    rw [hx] at h1 h2
    cases x with
    | error er =>
      refine ⟨es, h1, fun rest => ?_⟩
      unfold Src.read
      rw [if_neg (hb' _), h2]
    | ok b =>
      refine ⟨es, ⟨h1.cap, h1.put, h1.log, h1.inv, h1.got, h1.bad⟩, fun rest => ?_⟩
      unfold Src.read
      rw [if_neg (hb' _), h2]
      rfl

/-! ### The streams -/

/-- The stream of a connection of the server, in two parts. -/
def serverViewsTo (P Bad : Traced T → Prop) (Er : Errs) (grow : Nat → Nat → Nat) (hg : ∀ c n, c ≤ grow c n) (offer : Nat → Nat) : Views (ServerStack (Traced T)) Nbw where
  offer := offer
  ok s := s.val.inner.val.cap = 4096 ∧ s.val.grow = grow ∧ P s.val.inner.val.inner
  rd s es := s.val.inner.val.over 4096 (by decide) offer es
  wr s ws fl := s.val.over (fun w => w.val.inner.put) grow hg ws fl
  log s := s.val.inner.val.inner.log
  got := Er.read
  did s e := ∀ er, e = .err er → Er.write er ∨ Bad s.val.inner.val.inner
  slip := Er.flush

/-- The stream of a connection of the client, in two parts. -/
def clientViewsTo (P Bad : Traced T → Prop) (Er : Errs) (offer : Nat → Nat) : Views (ClientStack (Traced T)) BufW where
  offer := offer
  ok s := s.val.inner.val.cap = 8192 ∧ P s.val.inner.val.inner
  rd s es := s.val.inner.val.over 8192 (by decide) offer es
  wr s ws fl := s.val.over (fun w => w.val.inner.put) ws fl
  log s := s.val.inner.val.inner.log
  got := Er.read
  did s e := ∀ er, e = .err er → Er.write er ∨ Bad s.val.inner.val.inner
  slip := Er.flush

/-- The same, when a `write` fails only as `Er` says. -/
abbrev serverViews (P : Traced T → Prop) (Er : Errs) (grow : Nat → Nat → Nat) (hg : ∀ c n, c ≤ grow c n) (offer : Nat → Nat) : Views (ServerStack (Traced T)) Nbw :=
  serverViewsTo P (fun _ => False) Er grow hg offer

abbrev clientViews (P : Traced T → Prop) (Er : Errs) (offer : Nat → Nat) : Views (ClientStack (Traced T)) BufW := clientViewsTo P (fun _ => False) Er offer

theorem serverViewsTo_lawful (hT : RawIO.Honest T) (hR : RawIO.ReadsWithin T) (hP : RawUses P) (hE : ErrsTo P Bad Er) {grow : Nat → Nat → Nat} (hg : ∀ c n, c ≤ grow c n) (offer : Nat → Nat) :
    (serverViewsTo P Bad Er grow hg offer).Lawful where
  offer _ _ := rfl
  fillBuf s hs := by
    obtain ⟨es, h1, h2⟩ := bufr_fill (hc := by decide) (offer := offer) hR hP hE s.val.inner.val hs.1
    refine ⟨es, ⟨⟨h1.cap.trans hs.1, hs.2.1, h1.inv hs.2.2⟩, fun a b => ?_, h1.log, h1.got hs.2.2, fun e k er he => (k er he).imp id h1.bad⟩, h2⟩
    exact congrArg (fun p => (⟨s.val.buf, s.val.pos, s.val.cap, grow, hg, ⟨a, b, p⟩⟩ : Nbw)) h1.put
  consume s n hs := ⟨⟨hs, fun _ _ => rfl, by simp; rfl, by simp, fun _ => id⟩, fun _ => rfl⟩
  read s n hs := by
    obtain ⟨es, h1, h2⟩ := bufr_reads (hc := by decide) (offer := offer) hR hP hE s.val.inner.val hs.1 n
    refine ⟨es, ⟨⟨h1.cap.trans hs.1, hs.2.1, h1.inv hs.2.2⟩, fun a b => ?_, h1.log, h1.got hs.2.2, fun e k er he => (k er he).imp id h1.bad⟩, h2⟩
    exact congrArg (fun p => (⟨s.val.buf, s.val.pos, s.val.cap, grow, hg, ⟨a, b, p⟩⟩ : Nbw)) h1.put
  write f s b x s' hs e := by
    obtain ⟨⟨y, t⟩, h1, h2⟩ := Option.map_eq_some_iff.1 e
    cases h2
    obtain ⟨⟨i, k⟩, g, es, d, h3⟩ := (rawLaw hT hP hE).nb_write (fun _ hb => hb) (hg := hg) hs.2.2 hs.2.1 h1
    refine ⟨⟨⟨k.cap.trans hs.1, g, i⟩, fun es => ?_, k.log, fun e k' er he => (k' er he).imp id k.bad⟩, es, d, h3⟩
    exact congrArg (fun p => (⟨4096, by decide, offer, p, es⟩ : Src)) k.buf
  flush f s x s' hs e := by
    obtain ⟨⟨y, t⟩, h1, h2⟩ := Option.map_eq_some_iff.1 e
    cases h2
    obtain ⟨⟨i, k⟩, g, es, fl, d, h3⟩ := (rawLaw hT hP hE).nb_flush (fun _ hb => hb) (hg := hg) hs.2.2 hs.2.1 h1
    refine ⟨⟨⟨k.cap.trans hs.1, g, i⟩, fun es => ?_, k.log, fun e k' er he => (k' er he).imp id k.bad⟩, es, fl, d, h3⟩
    exact congrArg (fun p => (⟨4096, by decide, offer, p, es⟩ : Src)) k.buf
  returns w b := writeAll_ends w b

theorem clientViewsTo_lawful (hT : RawIO.Honest T) (hR : RawIO.ReadsWithin T) (hP : RawFull P) (hE : ErrsTo P Bad Er) (offer : Nat → Nat) : (clientViewsTo P Bad Er offer).Lawful where
  offer _ _ := rfl
  fillBuf s hs := by
    obtain ⟨es, h1, h2⟩ := bufr_fill (hc := by decide) (offer := offer) hR hP hE s.val.inner.val hs.1
    refine ⟨es, ⟨⟨h1.cap.trans hs.1, h1.inv hs.2⟩, fun a b => ?_, h1.log, h1.got hs.2, fun e k er he => (k er he).imp id h1.bad⟩, h2⟩
    exact congrArg (fun p => (⟨s.val.buf, s.val.cap, ⟨a, b, p⟩⟩ : BufW)) h1.put
  consume s n hs := ⟨⟨hs, fun _ _ => rfl, by simp; rfl, by simp, fun _ => id⟩, fun _ => rfl⟩
  read s n hs := by
    obtain ⟨es, h1, h2⟩ := bufr_reads (hc := by decide) (offer := offer) hR hP hE s.val.inner.val hs.1 n
    refine ⟨es, ⟨⟨h1.cap.trans hs.1, h1.inv hs.2⟩, fun a b => ?_, h1.log, h1.got hs.2, fun e k er he => (k er he).imp id h1.bad⟩, h2⟩
    exact congrArg (fun p => (⟨s.val.buf, s.val.cap, ⟨a, b, p⟩⟩ : BufW)) h1.put
  write f s b x s' hs e := by
    obtain ⟨⟨y, t⟩, h1, h2⟩ := Option.map_eq_some_iff.1 e
    cases h2
    obtain ⟨⟨i, k⟩, g, es, d, h3⟩ := (rawLaw hT hP hE).std_write (fun _ => trivial) hs.2 h1
    refine ⟨⟨⟨k.cap.trans hs.1, i⟩, fun es => ?_, k.log, fun e k' er he => (k' er he).imp id k.bad⟩, es, d, h3⟩
    exact congrArg (fun p => (⟨8192, by decide, offer, p, es⟩ : Src)) k.buf
  flush f s x s' hs e := by
    obtain ⟨⟨y, t⟩, h1, h2⟩ := Option.map_eq_some_iff.1 e
    cases h2
    obtain ⟨⟨i, k⟩, g, es, fl, d, h3⟩ := (rawLaw hT hP hE).std_flush (fun _ _ => trivial) hs.2 h1
    refine ⟨⟨⟨k.cap.trans hs.1, i⟩, fun es => ?_, k.log, fun e k' er he => (k' er he).imp id k.bad⟩, es, fl, d, h3⟩
    exact congrArg (fun p => (⟨8192, by decide, offer, p, es⟩ : Src)) k.buf
  returns w b := writeAll_ends w b

theorem serverViews_lawful (hT : RawIO.Honest T) (hR : RawIO.ReadsWithin T) (hP : RawUses P) (hE : ErrsIn P Er) {grow : Nat → Nat → Nat} (hg : ∀ c n, c ≤ grow c n) (offer : Nat → Nat) :
    (serverViews P Er grow hg offer).Lawful := serverViewsTo_lawful hT hR hP hE.to hg offer

theorem clientViews_lawful (hT : RawIO.Honest T) (hR : RawIO.ReadsWithin T) (hP : RawFull P) (hE : ErrsIn P Er) (offer : Nat → Nat) : (clientViews P Er offer).Lawful :=
  clientViewsTo_lawful hT hR hP hE.to offer

/-- What was written to a stream that fails only as `Er` says. -/
theorem did_never {es : List WEv} (h : ∀ e ∈ es, ∀ er, e = .err er → Er.write er ∨ False) : ∀ e ∈ es, ∀ er, e = .err er → Er.write er := fun e he er hr => (h e he er hr).resolve_right id

end

end Verif
