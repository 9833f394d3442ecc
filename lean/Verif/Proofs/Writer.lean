import Verif.Spec.Writing

/-!
What the non-blocking writer does with the bytes it is given.
-/

namespace Verif

/-! ## The loop -/

theorem writeLoop_evs (fl : List (Option IoError)) (evs : List WEv) (sent b : Bytes) :
    (Sock.writeLoop fl evs sent b).2.flushes = fl ∧ (Sock.writeLoop fl evs sent b).2.evs <:+ evs := by
  induction evs generalizing sent b with
  | nil => cases b <;> simp [Sock.writeLoop]
  | cons x es ih =>
    cases b with
    | nil => simp [Sock.writeLoop]
    | cons c t =>
      cases x with
      | err e => simp [Sock.writeLoop]
      | accept n =>
        obtain ⟨h1, h2⟩ := ih (sent ++ (c :: t).take n) ((c :: t).drop n)
        exact ⟨by simpa [Sock.writeLoop] using h1, by simpa [Sock.writeLoop] using h2.trans (List.suffix_cons _ _)⟩

/-- What is sent, and the result. -/
theorem writeLoop_spec (fl : List (Option IoError)) (evs : List WEv) (sent b : Bytes) :
    (Sock.writeLoop fl evs sent b).2.sent = sent ++ b.take (room evs) ∧
    (Sock.writeLoop fl evs sent b).1 =
      if b.length ≤ room evs ∨ firstErr evs = .wouldBlock then .ok (min (room evs) b.length) else .error (firstErr evs) := by
  induction evs generalizing sent b with
  | nil => cases b <;> simp [Sock.writeLoop, room, firstErr]
  | cons x es ih =>
    cases b with
    | nil => simp [Sock.writeLoop]
    | cons c t =>
      cases x with
      | err e => simp [Sock.writeLoop, room, firstErr]
      | accept n =>
        obtain ⟨h1, h2⟩ := ih (sent ++ (c :: t).take n) ((c :: t).drop n)
        simp only [Sock.writeLoop]
        have er : room (.accept n :: es) = n + room es := rfl
        have ef : firstErr (.accept n :: es) = firstErr es := rfl
        refine ⟨?_, ?_⟩
        · rw [h1, List.append_assoc, er, List.take_add]
        · rw [h2, er, ef]
          by_cases hc : (c :: t).length ≤ n + room es ∨ firstErr es = .wouldBlock
          · rw [if_pos hc, if_pos (hc.imp_left fun h => by rw [List.length_drop]; omega), List.length_drop]
            simp only [Except.map, Except.ok.injEq]; omega
          · rw [if_neg hc, if_neg (fun h => hc (h.imp_left fun h => by rw [List.length_drop] at h; omega))]; rfl

theorem room_le_of_blocked {evs : List WEv} {b : Bytes} (h : ¬ b.length ≤ room evs) : min (room evs) b.length = room evs := by
  omega

/-- Whatever the socket does, a prefix of the bytes is sent. -/
theorem wub_sent (s : Sock) (b : Bytes) : (s.writeUntilBlocked b).2.sent = s.sent ++ b.take (room s.evs) :=
  (writeLoop_spec _ _ _ _).1

theorem wub_res (s : Sock) (b : Bytes) : (s.writeUntilBlocked b).1 =
    if b.length ≤ room s.evs ∨ firstErr s.evs = .wouldBlock then .ok (min (room s.evs) b.length) else .error (firstErr s.evs) :=
  (writeLoop_spec _ _ _ _).2

theorem firstErr_mem {evs : List WEv} (h : firstErr evs ≠ .wouldBlock) : .err (firstErr evs) ∈ evs := by
  induction evs with
  | nil => exact absurd rfl h
  | cons x es ih =>
    cases x with
    | err e => simp [firstErr]
    | accept n => simpa [firstErr] using ih h

/-- If the loop stopped because the socket is full, it stays full. -/
theorem sticky_room {fl : List (Option IoError)} {evs : List WEv} (h : Sticky evs) {sent b : Bytes}
    (hb : ¬ b.length ≤ room evs) (he : firstErr evs = .wouldBlock) :
    room (Sock.writeLoop fl evs sent b).2.evs = 0 := by
  have key : ∀ es : List WEv, (∀ n, .accept n ∉ es) → room es = 0 := by
    intro es h
    cases es with
    | nil => rfl
    | cons x es =>
      cases x with
      | err e => rfl
      | accept n => exact absurd (by simp) (h n)
  induction evs generalizing sent b with
  | nil => cases b <;> rfl
  | cons x es ih =>
    cases b with
    | nil => simp at hb
    | cons c t =>
      cases x with
      | err e =>
        simp only [firstErr] at he
        subst he
        simp only [Sock.writeLoop]
        exact key es (h [] es rfl)
      | accept n =>
        simp only [Sock.writeLoop]
        refine ih ?_ ?_ (by simpa [firstErr] using he)
        · intro pre post hp; exact h (.accept n :: pre) post (by simp [hp])
        · simp only [room] at hb; simp only [List.length_drop]; omega

theorem Sticky.suffix {evs evs' : List WEv} (h : Sticky evs) (hs : evs' <:+ evs) : Sticky evs' := by
  obtain ⟨p, rfl⟩ := hs
  intro pre post he
  exact h (p ++ pre) post (by simp [he])

/-! ## One operation -/

theorem flushBuf_eq (w : Nbw) (hw : w.Ok) :
    (w.flushBuf.2.sock = (w.sock.writeUntilBlocked w.pending).2 ∧ w.flushBuf.2.cap = w.cap ∧ w.flushBuf.2.Ok) ∧
    w.flushBuf.2.sock.sent = w.sock.sent ++ w.pending.take (room w.sock.evs) ∧
    (if w.pending.length ≤ room w.sock.evs ∨ firstErr w.sock.evs = .wouldBlock then
      w.flushBuf.1 = .ok () ∧ w.flushBuf.2.pending = w.pending.drop (room w.sock.evs) ∧
        (w.pending.length ≤ room w.sock.evs → w.flushBuf.2.buf = [] ∧ w.flushBuf.2.pos = 0)
    else w.flushBuf.1 = .error (firstErr w.sock.evs) ∧ w.flushBuf.2.buf = w.buf ∧ w.flushBuf.2.pos = w.pos) := by
  have h1 := wub_sent w.sock w.pending
  have h2 := wub_res w.sock w.pending
  unfold Nbw.flushBuf
  rw [show w.buf.drop w.pos = w.pending from rfl]
  generalize hx : w.sock.writeUntilBlocked w.pending = x at h1 h2
  obtain ⟨r, s⟩ := x
  dsimp only at h1 h2
  split at h2
  · rename_i hc
    subst h2
    rw [if_pos hc]
    dsimp only
    have hlen : w.pending.length = w.buf.length - w.pos := by simp [Nbw.pending]
    split
    · rename_i hp
      refine ⟨⟨rfl, rfl, .inr rfl⟩, h1, rfl, ?_, fun _ => ⟨rfl, rfl⟩⟩
      have : w.pending.length ≤ room w.sock.evs := by omega
      rw [List.drop_eq_nil_of_le this]; rfl
    · rename_i hp
      refine ⟨⟨rfl, rfl, .inl (by dsimp only; omega)⟩, h1, rfl, ?_, ?_⟩
      · have : min (room w.sock.evs) w.pending.length = room w.sock.evs := by omega
        simp only [Nbw.pending, List.drop_drop, this] at *
      · intro h
        rcases hw with hw | hw <;> omega
  · rename_i hc
    subst h2
    rw [if_neg hc]
    exact ⟨⟨rfl, rfl, hw⟩, h1, rfl, rfl, rfl⟩

theorem push_pending (w : Nbw) (hw : w.Ok) (b : Bytes) : (w.push b).pending = w.pending ++ b ∧ (w.push b).Ok ∧
    (w.push b).sock = w.sock ∧ w.cap ≤ (w.push b).cap := by
  refine ⟨?_, ?_, rfl, ?_⟩
  · have : w.pos ≤ w.buf.length := by rcases hw with h | h <;> omega
    simp only [Nbw.push, Nbw.pending]
    rw [List.drop_append_of_le_length this]
  · rcases hw with h | h
    · exact .inl (by simp only [Nbw.push, List.length_append]; omega)
    · exact .inr h
  · simp only [Nbw.push]
    split
    · exact Nat.le_refl _
    · exact w.growOk _ _

/-- The three things a successful `write` can do: buffer the data behind what is pending, after sending a
part of that; send everything pending and a part of the data; or, when the socket was full and is not any
more, send a part of the data before what is pending. -/
theorem write_cases (w : Nbw) (hw : w.Ok) (d : Bytes) :
    ((w.write d).2.Ok ∧ w.cap ≤ (w.write d).2.cap ∧ (w.write d).2.sock.evs <:+ w.sock.evs ∧
      (w.write d).2.sock.flushes = w.sock.flushes) ∧
    (((w.write d).1 = .ok d.length ∧
      ((∃ j, (w.write d).2.sock.sent = w.sock.sent ++ w.pending.take j ∧ (w.write d).2.pending = w.pending.drop j ++ d) ∨
       (∃ k, (w.write d).2.sock.sent = w.sock.sent ++ w.pending ++ d.take k ∧ (w.write d).2.pending = d.drop k) ∨
       (w.cap < d.length ∧ w.pending ≠ [] ∧ room w.sock.evs = 0 ∧ firstErr w.sock.evs = .wouldBlock ∧
         ∃ k, k = room w.flushBuf.2.sock.evs ∧
          (w.write d).2.sock.sent = w.sock.sent ++ d.take k ∧ (w.write d).2.pending = w.pending ++ d.drop k))) ∨
     (∃ e, (w.write d).1 = .error e ∧ .err e ∈ w.sock.evs ∧ e ≠ .wouldBlock ∧
      ((∃ j, (w.write d).2.sock.sent = w.sock.sent ++ w.pending.take j) ∨
       (∃ k, (w.write d).2.sock.sent = w.sock.sent ++ w.pending ++ d.take k) ∨
       (w.cap < d.length ∧ w.pending ≠ [] ∧ room w.sock.evs = 0 ∧ firstErr w.sock.evs = .wouldBlock ∧
        (w.write d).2.sock.sent = w.sock.sent ++ d.take (room w.flushBuf.2.sock.evs))))) := by
  unfold Nbw.write
  by_cases h1 : w.buf.length + d.length > w.cap
  · rw [if_pos h1]
    obtain ⟨⟨f1, f2, f3⟩, f4, f5⟩ := flushBuf_eq w hw
    have fe := writeLoop_evs w.sock.flushes w.sock.evs w.sock.sent w.pending
    rw [show Sock.writeLoop w.sock.flushes w.sock.evs w.sock.sent w.pending = w.sock.writeUntilBlocked w.pending from rfl,
      ← f1] at fe
    generalize hx : w.flushBuf = x at f1 f2 f3 f4 f5 fe
    obtain ⟨r, w1⟩ := x
    dsimp only at f1 f2 f3 f4 f5 fe
    by_cases hc : w.pending.length ≤ room w.sock.evs ∨ firstErr w.sock.evs = .wouldBlock
    · rw [if_pos hc] at f5
      obtain ⟨rfl, f6, f7⟩ := f5
      dsimp only
      by_cases h2 : w1.pos = 0 ∧ d.length > w1.cap
      · rw [if_pos h2]
        have g1 := wub_sent w1.sock d
        have g2 := wub_res w1.sock d
        have ge := writeLoop_evs w1.sock.flushes w1.sock.evs w1.sock.sent d
        rw [show Sock.writeLoop w1.sock.flushes w1.sock.evs w1.sock.sent d = w1.sock.writeUntilBlocked d from rfl] at ge
        generalize hy : w1.sock.writeUntilBlocked d = y at g1 g2 ge
        obtain ⟨r, s⟩ := y
        dsimp only at g1 g2 ge
        have hsuf : s.evs <:+ w.sock.evs := ge.2.trans fe.2
        have hfl : s.flushes = w.sock.flushes := by rw [ge.1, fe.1]
        -- what is pending after the flush
        have hpend : w1.pending = [] ∧ w1.sock.sent = w.sock.sent ++ w.pending ∨
            (w.pending ≠ [] ∧ room w.sock.evs = 0 ∧ firstErr w.sock.evs = .wouldBlock ∧ w1.pending = w.pending ∧
              w1.sock.sent = w.sock.sent) ∨ (w1.pending = [] ∧ w1.sock.sent = w.sock.sent ++ w.pending) := by
          by_cases h3 : w.pending.length ≤ room w.sock.evs
          · left
            exact ⟨by rw [f6, List.drop_eq_nil_of_le h3], by rw [f4, List.take_of_length_le h3]⟩
          · right; left
            have hb : firstErr w.sock.evs = .wouldBlock := by rcases hc with h | h; exact absurd h h3; exact h
            have hpos : room w.sock.evs = 0 := by
              have hb1 := congrArg Nbw.pos (congrArg Prod.snd hx)
              unfold Nbw.flushBuf at hb1
              have q := wub_res w.sock w.pending
              rw [if_pos hc] at q
              rw [show w.buf.drop w.pos = w.pending from rfl] at hb1
              generalize w.sock.writeUntilBlocked w.pending = z at hb1 q
              obtain ⟨r, s⟩ := z
              dsimp only at q
              subst q
              dsimp only at hb1
              have hl : w.pending.length = w.buf.length - w.pos := by simp [Nbw.pending]
              rw [if_neg (by omega)] at hb1
              dsimp only at hb1
              omega
            refine ⟨?_, hpos, hb, ?_, ?_⟩
            · intro hn; rw [hn] at h3; simp at h3
            · rw [f6, hpos]; rfl
            · rw [f4, hpos]; simp
        have hOk : ({ w1 with sock := s } : Nbw).Ok := f3
        by_cases hd : d.length ≤ room w1.sock.evs ∨ firstErr w1.sock.evs = .wouldBlock
        · rw [if_pos hd] at g2
          subst g2
          dsimp only
          obtain ⟨p1, p2, p3, p4⟩ := push_pending { w1 with sock := s } hOk (d.drop (min (room w1.sock.evs) d.length))
          have hdrop : d.drop (min (room w1.sock.evs) d.length) = d.drop (room w1.sock.evs) := by
            by_cases h : room w1.sock.evs ≤ d.length
            · rw [Nat.min_eq_left h]
            · rw [Nat.min_eq_right (by omega), List.drop_length, List.drop_eq_nil_of_le (by omega)]
          refine ⟨⟨p2, ?_, ?_, ?_⟩, .inl ⟨rfl, ?_⟩⟩
          · rw [← f2]; exact p4
          · rw [p3]; exact hsuf
          · rw [p3]; exact hfl
          · rw [p1, p3, hdrop]
            have e1 : ({ w1 with sock := s } : Nbw).pending = w1.pending := rfl
            rw [e1]
            dsimp only
            rcases hpend with ⟨q1, q2⟩ | ⟨q0, q1, q2, q3, q4⟩ | ⟨q1, q2⟩
            · right; left
              exact ⟨room w1.sock.evs, by rw [g1, q2], by rw [q1]; simp⟩
            · right; right
              exact ⟨by omega, q0, q1, q2, room w1.sock.evs, rfl, by rw [g1, q4], by rw [q3]⟩
            · right; left
              exact ⟨room w1.sock.evs, by rw [g1, q2], by rw [q1]; simp⟩
        · rw [if_neg hd] at g2
          subst g2
          dsimp only
          have hne : firstErr w1.sock.evs ≠ .wouldBlock := fun h => hd (.inr h)
          refine ⟨⟨f3, by rw [← f2]; exact Nat.le_refl _, hsuf, hfl⟩, .inr ⟨_, rfl, fe.2.mem (firstErr_mem hne), hne, ?_⟩⟩
          rcases hpend with ⟨q1, q2⟩ | ⟨q0, q1, q2, q3, q4⟩ | ⟨q1, q2⟩
          · right; left
            exact ⟨room w1.sock.evs, by rw [g1, q2]⟩
          · right; right
            exact ⟨by omega, q0, q1, q2, by rw [g1, q4]⟩
          · right; left
            exact ⟨room w1.sock.evs, by rw [g1, q2]⟩
      · rw [if_neg h2]
        obtain ⟨p1, p2, p3, p4⟩ := push_pending w1 f3 d
        refine ⟨⟨p2, by rw [← f2]; exact p4, by rw [p3]; exact fe.2, by rw [p3]; exact fe.1⟩, .inl ⟨rfl, .inl ⟨room w.sock.evs, ?_, ?_⟩⟩⟩
        · rw [p3]; exact f4
        · rw [p1, f6]
    · rw [if_neg hc] at f5
      obtain ⟨rfl, f6, f7⟩ := f5
      have hne : firstErr w.sock.evs ≠ .wouldBlock := fun h => hc (.inr h)
      dsimp only
      exact ⟨⟨f3, by rw [f2]; exact Nat.le_refl _, fe.2, fe.1⟩,
        .inr ⟨_, rfl, firstErr_mem hne, hne, .inl ⟨room w.sock.evs, f4⟩⟩⟩
  · rw [if_neg h1]
    obtain ⟨p1, p2, p3, p4⟩ := push_pending w hw d
    exact ⟨⟨p2, p4, by rw [p3]; exact List.suffix_refl _, by rw [p3]⟩, .inl ⟨rfl, .inl ⟨0, by rw [p3]; simp, by rw [p1]; simp⟩⟩⟩

theorem flush_cases (w : Nbw) (hw : w.Ok) :
    (w.flush.2.Ok ∧ w.cap ≤ w.flush.2.cap ∧ w.flush.2.sock.evs <:+ w.sock.evs ∧ w.flush.2.sock.flushes <:+ w.sock.flushes) ∧
    w.flush.2.sock.sent = w.sock.sent ++ w.pending.take (room w.sock.evs) ∧
    (w.pending.length ≤ room w.sock.evs ∨ firstErr w.sock.evs = .wouldBlock →
      w.flush.2.pending = w.pending.drop (room w.sock.evs) ∧
        ((∀ e, w.sock.flushes.head? = some (some e) → e = .wouldBlock) → w.flush.1 = .ok ())) ∧
    ((w.flush.1 = .ok () ∧ (w.pending.length ≤ room w.sock.evs ∨ firstErr w.sock.evs = .wouldBlock) ∧
      w.flush.2.pending = w.pending.drop (room w.sock.evs)) ∨
     (∃ e, w.flush.1 = .error e ∧ e ≠ .wouldBlock ∧ (.err e ∈ w.sock.evs ∨ some e ∈ w.sock.flushes))) := by
  obtain ⟨⟨f1, f2, f3⟩, f4, f5⟩ := flushBuf_eq w hw
  have fe := writeLoop_evs w.sock.flushes w.sock.evs w.sock.sent w.pending
  rw [show Sock.writeLoop w.sock.flushes w.sock.evs w.sock.sent w.pending = w.sock.writeUntilBlocked w.pending from rfl,
    ← f1] at fe
  unfold Nbw.flush
  generalize hx : w.flushBuf = x at f1 f2 f3 f4 f5 fe
  obtain ⟨r, w1⟩ := x
  dsimp only at f1 f2 f3 f4 f5 fe
  by_cases hc : w.pending.length ≤ room w.sock.evs ∨ firstErr w.sock.evs = .wouldBlock
  · rw [if_pos hc] at f5
    obtain ⟨rfl, f6, f7⟩ := f5
    dsimp only
    unfold Nbw.flushInner Sock.flush
    rw [fe.1]
    rcases hfl : w.sock.flushes with _ | ⟨_ | e, fs⟩
    · dsimp only
      exact ⟨⟨f3, by rw [← f2]; exact Nat.le_refl _, fe.2, by rw [fe.1, hfl]; exact List.suffix_refl _⟩, f4, fun _ => ⟨f6, fun _ => rfl⟩, .inl ⟨rfl, hc, f6⟩⟩
    · dsimp only
      exact ⟨⟨f3, by rw [← f2]; exact Nat.le_refl _, fe.2, List.suffix_cons _ _⟩, f4, fun _ => ⟨f6, fun _ => rfl⟩, .inl ⟨rfl, hc, f6⟩⟩
    · by_cases he : e = .wouldBlock
      · subst he
        dsimp only
        exact ⟨⟨f3, by rw [← f2]; exact Nat.le_refl _, fe.2, List.suffix_cons _ _⟩, f4, fun _ => ⟨f6, fun _ => rfl⟩, .inl ⟨rfl, hc, f6⟩⟩
      · cases e <;> first
          | exact absurd rfl he
          | exact ⟨⟨f3, by rw [← f2]; exact Nat.le_refl _, fe.2, List.suffix_cons _ _⟩, f4, fun _ => ⟨f6, fun h => absurd (h _ rfl) he⟩, .inr ⟨_, rfl, he, .inr (by simp)⟩⟩
  · rw [if_neg hc] at f5
    obtain ⟨rfl, f6, f7⟩ := f5
    have hne : firstErr w.sock.evs ≠ .wouldBlock := fun h => hc (.inr h)
    dsimp only
    exact ⟨⟨f3, by rw [f2]; exact Nat.le_refl _, fe.2, by rw [fe.1]; exact List.suffix_refl _⟩, f4, fun h => absurd h hc,
      .inr ⟨_, rfl, hne, .inl (firstErr_mem hne)⟩⟩

/-! ## Writing in order -/

/-- `w'` is `w` some time later. -/
structure Nbw.Later (w w' : Nbw) : Prop where
  evs : w'.sock.evs <:+ w.sock.evs
  flushes : w'.sock.flushes <:+ w.sock.flushes
  sent : w.sock.sent <+: w'.sock.sent
  cap : w.cap ≤ w'.cap

theorem Nbw.Later.refl (w : Nbw) : w.Later w := ⟨List.suffix_refl _, List.suffix_refl _, List.prefix_refl _, Nat.le_refl _⟩

theorem Nbw.Later.trans {a b c : Nbw} (h : a.Later b) (h' : b.Later c) : a.Later c :=
  ⟨h'.evs.trans h.evs, h'.flushes.trans h.flushes, h.sent.trans h'.sent, Nat.le_trans h.cap h'.cap⟩

theorem Nbw.Later.faulty {w w' : Nbw} (h : w.Later w') {e : IoError} (hf : w'.Faulty e) : w.Faulty e :=
  ⟨hf.1, hf.2.imp h.evs.mem h.flushes.mem⟩

/-- The effect of writing `d`: it is appended, or an error of the socket is reported and what was sent is a
beginning of what should be. -/
def Nbw.Wrote (n : Nat) (w : Nbw) (d : Bytes) (x : IoRes × Nbw) : Prop :=
  w.Later x.2 ∧
  ((x.1 = .ok ∧ x.2.Orderly n ∧ x.2.total = w.total ++ d) ∨
    (∃ e, x.1 = .err e ∧ w.Faulty e ∧ x.2.sock.sent <+: w.total ++ d))

theorem Nbw.Wrote.andThen {n : Nat} {w : Nbw} {d d' : Bytes} {x : IoRes × Nbw} {k : Nbw → IoRes × Nbw}
    (h : w.Wrote n d x) (hk : ∀ w' : Nbw, w'.Orderly n → w'.Wrote n d' (k w')) : w.Wrote n (d ++ d') (Write.andThen x k) := by
  obtain ⟨r, w1⟩ := x
  obtain ⟨hl, ⟨rfl, h2, h3⟩ | ⟨e, rfl, h2, h3⟩⟩ := h
  · obtain ⟨k1, k2⟩ := hk w1 h2
    refine ⟨hl.trans k1, ?_⟩
    rcases k2 with ⟨k2, k3, k4⟩ | ⟨e, k2, k3, k4⟩
    · exact .inl ⟨k2, k3, by simp only [Write.andThen]; rw [k4, h3, List.append_assoc]⟩
    · refine .inr ⟨e, k2, hl.faulty k3, ?_⟩
      dsimp only at h3
      simpa [h3, Write.andThen] using k4
  · refine ⟨hl, .inr ⟨e, rfl, h2, ?_⟩⟩
    simp only [Write.andThen]
    exact h3.trans ⟨d', by simp⟩

theorem Nbw.Wrote.nil {n : Nat} {w : Nbw} (hw : w.Orderly n) : w.Wrote n [] (.ok, w) :=
  ⟨.refl w, .inl ⟨rfl, hw, by simp⟩⟩

theorem take_prefix (d : Bytes) (k : Nat) : d.take k <+: d := List.take_prefix k d

theorem write_orderly {n : Nat} {w : Nbw} (hw : w.Orderly n) {d : Bytes} (hd : d.length ≤ n) :
    w.Wrote n d (Write.res (Write.write w d)) ∧
      ((Write.write w d).1 = .ok d.length ∨ ∃ e, (Write.write w d).1 = .error e ∧ e ≠ .interrupted) := by
  obtain ⟨⟨c1, c2, c3, c4⟩, c5⟩ := write_cases w hw.ok d
  have hin : ¬ (w.cap < d.length ∧ w.pending ≠ [] ∧ room w.sock.evs = 0 ∧ firstErr w.sock.evs = .wouldBlock ∧
      0 < room w.flushBuf.2.sock.evs) := by
    rintro ⟨h1, h2, h3, h4, h5⟩
    rcases hw.order with h | h
    · have := sticky_room (fl := w.sock.flushes) h (sent := w.sock.sent) (b := w.pending) (by
        rw [h3]; intro hl; exact h2 (List.length_eq_zero_iff.1 (by omega))) h4
      have f1 := (flushBuf_eq w hw.ok).1.1
      rw [f1] at h5
      exact absurd this (by unfold Sock.writeUntilBlocked at h5; omega)
    · omega
  show w.Wrote n d (Write.res (w.write d)) ∧ _
  rw [show Write.write w d = w.write d from rfl]
  generalize hx : w.write d = x at c1 c2 c3 c4 c5
  obtain ⟨r, w'⟩ := x
  dsimp only at c1 c2 c3 c4 c5
  have hO : w'.Orderly n := ⟨c1, fun h => hw.calm (c3.mem h), hw.order.imp (fun h => h.suffix c3) fun h => Nat.le_trans h c2⟩
  rcases c5 with ⟨rfl, c6⟩ | ⟨e, rfl, c6, c7, c8⟩
  · refine ⟨?_, .inl rfl⟩
    show w.Wrote n d (.ok, w')
    rcases c6 with ⟨j, s1, s2⟩ | ⟨k, s1, s2⟩ | ⟨s0, s1, s2, s3, k, rfl, s4, s5⟩
    · exact ⟨⟨c3, by rw [c4]; exact List.suffix_refl _, by rw [s1]; exact List.prefix_append _ _, c2⟩,
        .inl ⟨rfl, hO, by simp [Nbw.total, s1, s2, ← List.append_assoc, List.take_append_drop]; simp [List.append_assoc]⟩⟩
    · exact ⟨⟨c3, by rw [c4]; exact List.suffix_refl _, by rw [s1, List.append_assoc]; exact List.prefix_append _ _, c2⟩,
        .inl ⟨rfl, hO, by simp [Nbw.total, s1, s2]⟩⟩
    · have hz : room w.flushBuf.2.sock.evs = 0 := by
        rcases Nat.eq_zero_or_pos (room w.flushBuf.2.sock.evs) with h | h
        · exact h
        · exact absurd ⟨s0, s1, s2, s3, h⟩ hin
      rw [hz] at s4 s5
      exact ⟨⟨c3, by rw [c4]; exact List.suffix_refl _, by rw [s4]; exact List.prefix_append _ _, c2⟩,
        .inl ⟨rfl, hO, by simp [Nbw.total, s4, s5]⟩⟩
  · refine ⟨?_, .inr ⟨e, rfl, fun h => hw.calm (h ▸ c6)⟩⟩
    show w.Wrote n d (.err e, w')
    have key : w.sock.sent <+: w'.sock.sent ∧ w'.sock.sent <+: w.total ++ d := by
      rcases c8 with ⟨j, s1⟩ | ⟨k, s1⟩ | ⟨s0, s1, s2, s3, s4⟩
      · rw [s1]
        exact ⟨List.prefix_append _ _, ⟨w.pending.drop j ++ d, by simp [Nbw.total, ← List.append_assoc]; simp [List.append_assoc]⟩⟩
      · rw [s1]
        exact ⟨by rw [List.append_assoc]; exact List.prefix_append _ _, ⟨d.drop k, by simp [Nbw.total, List.append_assoc]⟩⟩
      · have hz : room w.flushBuf.2.sock.evs = 0 := by
          rcases Nat.eq_zero_or_pos (room w.flushBuf.2.sock.evs) with h | h
          · exact h
          · exact absurd ⟨s0, s1, s2, s3, h⟩ hin
        rw [s4, hz]
        exact ⟨List.prefix_append _ _, ⟨w.pending ++ d, by simp [Nbw.total]⟩⟩
    exact ⟨⟨c3, by rw [c4]; exact List.suffix_refl _, key.1, c2⟩, .inr ⟨e, rfl, ⟨c7, .inl c6⟩, key.2⟩⟩

theorem flush_orderly {n : Nat} {w : Nbw} (hw : w.Orderly n) : w.Wrote n [] (Write.res (Write.flush w)) := by
  obtain ⟨⟨c1, c2, c3, c4⟩, c5, -, c6⟩ := flush_cases w hw.ok
  show w.Wrote n [] (Write.res w.flush)
  generalize hx : w.flush = x at c1 c2 c3 c4 c5 c6
  obtain ⟨r, w'⟩ := x
  dsimp only at c1 c2 c3 c4 c5 c6
  have hl : w.Later w' := ⟨c3, c4, by rw [c5]; exact List.prefix_append _ _, c2⟩
  rcases c6 with ⟨rfl, -, c8⟩ | ⟨e, rfl, c7, c8⟩
  · refine ⟨hl, .inl ⟨rfl, ⟨c1, fun h => hw.calm (c3.mem h), hw.order.imp (fun h => h.suffix c3) fun h => Nat.le_trans h c2⟩, ?_⟩⟩
    simp [Write.res, Nbw.total, c5, c8, List.append_assoc, List.take_append_drop]
  · refine ⟨hl, .inr ⟨e, rfl, ⟨c7, c8⟩, ?_⟩⟩
    simp only [Write.res, c5]
    exact ⟨w.pending.drop (room w.sock.evs), by simp [Nbw.total, List.append_assoc, List.take_append_drop]⟩

theorem writeAll_orderly {n : Nat} {w : Nbw} (hw : w.Orderly n) {d : Bytes} (hd : d.length ≤ n) :
    w.Wrote n d (Write.writeAll w d) := by
  obtain ⟨h1, h2⟩ := write_orderly hw hd
  unfold Write.writeAll
  cases d with
  | nil => simpa [Write.writeAllLoop] using Nbw.Wrote.nil hw
  | cons c t =>
    simp only [Write.writeAllLoop]
    generalize hx : Write.write w (c :: t) = x at h1 h2
    obtain ⟨r, w'⟩ := x
    rcases h2 with rfl | ⟨e, rfl, he⟩
    · simp only [List.length_cons, List.drop_succ_cons, List.drop_length]
      rw [show Write.writeAllLoop (Write.rounds w + (t.length + 1)) w' [] = (.ok, w') by
        cases (Write.rounds w + (t.length + 1)) <;> rfl]
      exact h1
    · cases e <;> first | exact absurd rfl he | exact h1

theorem fmt_orderly {n : Nat} {w : Nbw} (hw : w.Orderly n) {ps : List Bytes} (hd : ∀ p ∈ ps, p.length ≤ n) :
    w.Wrote n ps.flatten (Write.fmt w ps) := by
  induction ps generalizing w with
  | nil => simpa [Write.fmt] using Nbw.Wrote.nil hw
  | cons p ps ih =>
    have h := (writeAll_orderly hw (hd p (by simp))).andThen (k := fun w => Write.fmt w ps)
      fun w' hw' => ih hw' (fun q hq => hd q (by simp [hq]))
    rw [show Write.fmt w (p :: ps) = Write.andThen (Write.writeAll w p) fun w => Write.fmt w ps by
      simp only [Write.fmt, Write.andThen]]
    simpa using h

theorem headerLines_orderly {n : Nat} {w : Nbw} (hw : w.Orderly n) {hs : List (Header × Bytes)} (h2 : 2 ≤ n)
    (hd : ∀ p ∈ hs, p.1.asStr.length ≤ n ∧ p.2.length ≤ n) :
    w.Wrote n (hs.flatMap fun p => p.1.asStr ++ b!": " ++ p.2 ++ b!"\r\n") (Write.headerLines w hs) := by
  induction hs generalizing w with
  | nil => simpa [Write.headerLines] using Nbw.Wrote.nil hw
  | cons p hs ih =>
    obtain ⟨k, v⟩ := p
    have hp := hd (k, v) (by simp)
    have h := (fmt_orderly hw (ps := [k.asStr, b!": ", v, CRLF]) (by
      intro p hp'
      simp only [List.mem_cons, List.not_mem_nil, or_false] at hp'
      rcases hp' with rfl | rfl | rfl | rfl
      · exact hp.1
      · exact h2
      · exact hp.2
      · exact h2)).andThen (k := fun w => Write.headerLines w hs) fun w' hw' => ih hw' (fun q hq => hd q (by simp [hq]))
    simpa [Write.headerLines, CRLF, List.append_assoc] using h

theorem flat_lines (m : HeaderMap) : (m.flat.flatMap fun p => p.1.asStr ++ b!": " ++ p.2 ++ b!"\r\n") =
    m.flatMap fun e => e.2.flatMap fun v => e.1.asStr ++ b!": " ++ v ++ b!"\r\n" := by
  simp only [HeaderMap.flat, List.flatMap_assoc, List.flatMap_map]

theorem writeResponse_orderly {n : Nat} {w : Nbw} (hw : w.Orderly n) {r : Response} (hr : r.PartsLe n) :
    w.Wrote n (responseBytes r) (writeResponse w r) := by
  obtain ⟨h8, h1, h2, h3, h4⟩ := hr
  have e : responseBytes r = [b!"HTTP/1.1", [SP], natDec r.status.code, [SP], r.status.reason, CRLF].flatten ++
      ((r.headers.flat.flatMap fun p => p.1.asStr ++ b!": " ++ p.2 ++ b!"\r\n") ++ (CRLF ++ (r.body ++ []))) := by
    rw [flat_lines]
    simp [responseBytes, CRLF, SP, CR, LF]
  rw [e]
  unfold writeResponse
  refine (fmt_orderly hw ?_).andThen fun w hw => (headerLines_orderly hw (by omega) h3).andThen fun w hw =>
    ((write_orderly (d := CRLF) hw (show 2 ≤ n by omega)).1).andThen fun w hw => ((write_orderly hw h4).1).andThen fun w hw => flush_orderly hw
  intro p hp
  simp only [List.mem_cons, List.not_mem_nil, or_false] at hp
  rcases hp with rfl | rfl | rfl | rfl | rfl | rfl
  · exact h8
  · simp; omega
  · exact h1
  · simp; omega
  · exact h2
  · show 2 ≤ n; omega

/-! ## Nothing is lost -/

/-- After a success the bytes held and sent are those before and `d`, in some order. -/
def Nbw.Kept (w : Nbw) (d : Bytes) (x : IoRes × Nbw) : Prop :=
  x.1 = .ok → x.2.Ok ∧ .err .interrupted ∉ x.2.sock.evs ∧ x.2.total.Perm (w.total ++ d)

theorem Nbw.Kept.andThen {w : Nbw} {d d' : Bytes} {x : IoRes × Nbw} {k : Nbw → IoRes × Nbw}
    (h : w.Kept d x) (hk : ∀ w' : Nbw, w'.Ok → .err .interrupted ∉ w'.sock.evs → w'.Kept d' (k w')) :
    w.Kept (d ++ d') (Write.andThen x k) := by
  obtain ⟨r, w1⟩ := x
  intro hx
  cases r with
  | ok =>
    obtain ⟨h1, h2, h3⟩ := h rfl
    obtain ⟨k1, k2, k3⟩ := hk w1 h1 h2 hx
    refine ⟨k1, k2, k3.trans ?_⟩
    rw [← List.append_assoc]
    exact h3.append_right d'
  | err e => cases hx
  | diverge => cases hx

theorem write_perm {w : Nbw} (hw : w.Ok) {d : Bytes} {n : Nat} (h : (w.write d).1 = .ok n) :
    n = d.length ∧ (w.write d).2.total.Perm (w.total ++ d) := by
  obtain ⟨-, c⟩ := write_cases w hw d
  rcases c with ⟨c1, c2⟩ | ⟨e, c1, -⟩
  · refine ⟨by rw [h] at c1; cases c1; rfl, ?_⟩
    rcases c2 with ⟨j, s1, s2⟩ | ⟨k, s1, s2⟩ | ⟨-, -, -, -, k, -, s1, s2⟩
    · refine .of_eq ?_
      simp only [Nbw.total, s1, s2]
      simp only [← List.append_assoc]
      rw [List.append_assoc w.sock.sent, List.take_append_drop]
    · refine .of_eq ?_
      simp only [Nbw.total, s1, s2]
      simp only [List.append_assoc, List.take_append_drop]
    · simp only [Nbw.total, s1, s2, List.append_assoc]
      refine List.Perm.append_left _ ?_
      have h1 : (d.take k ++ (w.pending ++ d.drop k)).Perm (w.pending ++ (d.take k ++ d.drop k)) := by
        simp only [← List.append_assoc]
        exact List.perm_append_comm.append_right _
      simpa using h1
  · rw [h] at c1; cases c1

theorem write_kept {w : Nbw} (hw : w.Ok) (hi : .err .interrupted ∉ w.sock.evs) (d : Bytes) :
    w.Kept d (Write.res (Write.write w d)) := by
  intro h
  obtain ⟨⟨c1, -, c3, -⟩, c⟩ := write_cases w hw d
  have hp := fun n => write_perm hw (d := d) (n := n)
  rw [show Write.write w d = w.write d from rfl] at h ⊢
  generalize w.write d = x at h c1 c3 hp
  obtain ⟨r, w'⟩ := x
  cases r with
  | ok n => exact ⟨c1, fun h => hi (c3.mem h), (hp n rfl).2⟩
  | error e => cases h

theorem flush_kept {w : Nbw} (hw : w.Ok) (hi : .err .interrupted ∉ w.sock.evs) : w.Kept [] (Write.res (Write.flush w)) := by
  intro h
  obtain ⟨⟨c1, -, c3, -⟩, c5, -, c⟩ := flush_cases w hw
  rw [show Write.flush w = w.flush from rfl] at h ⊢
  generalize w.flush = x at h c1 c3 c5 c
  obtain ⟨r, w'⟩ := x
  cases r with
  | error e => cases h
  | ok n =>
    rcases c with ⟨-, -, c8⟩ | ⟨e, c8, -⟩
    · refine ⟨c1, fun h => hi (c3.mem h), .of_eq ?_⟩
      dsimp only at c5 c8
      simp [Write.res, Nbw.total, c5, c8, List.append_assoc, List.take_append_drop]
    · cases c8

theorem writeAll_kept {w : Nbw} (hw : w.Ok) (hi : .err .interrupted ∉ w.sock.evs) (d : Bytes) :
    w.Kept d (Write.writeAll w d) := by
  have h1 := write_kept hw hi d
  obtain ⟨-, c⟩ := write_cases w hw d
  unfold Write.writeAll
  cases d with
  | nil => intro; exact ⟨hw, hi, by simp [Write.writeAllLoop]⟩
  | cons a t =>
    simp only [Write.writeAllLoop]
    rw [show Write.write w (a :: t) = w.write (a :: t) from rfl] at h1 ⊢
    generalize hx : w.write (a :: t) = x at h1 c
    obtain ⟨r, w'⟩ := x
    rcases c with ⟨rfl, -⟩ | ⟨e, rfl, he, -⟩
    · simp only [List.length_cons, List.drop_succ_cons, List.drop_length]
      rw [show Write.writeAllLoop (Write.rounds w + (t.length + 1)) w' [] = (.ok, w') by
        cases (Write.rounds w + (t.length + 1)) <;> rfl]
      exact h1
    · cases e <;> first | exact absurd he hi | (intro h; cases h)

theorem fmt_kept {w : Nbw} (hw : w.Ok) (hi : .err .interrupted ∉ w.sock.evs) (ps : List Bytes) :
    w.Kept ps.flatten (Write.fmt w ps) := by
  induction ps generalizing w with
  | nil => intro; exact ⟨hw, hi, by simp [Write.fmt]⟩
  | cons p ps ih =>
    have h := (writeAll_kept hw hi p).andThen (k := fun w => Write.fmt w ps) fun w' h1 h2 => ih h1 h2
    rw [show Write.fmt w (p :: ps) = Write.andThen (Write.writeAll w p) fun w => Write.fmt w ps by
      simp only [Write.fmt, Write.andThen]]
    simpa using h

theorem headerLines_kept {w : Nbw} (hw : w.Ok) (hi : .err .interrupted ∉ w.sock.evs) (hs : List (Header × Bytes)) :
    w.Kept (hs.flatMap fun p => p.1.asStr ++ b!": " ++ p.2 ++ b!"\r\n") (Write.headerLines w hs) := by
  induction hs generalizing w with
  | nil => intro; exact ⟨hw, hi, by simp [Write.headerLines]⟩
  | cons p hs ih =>
    obtain ⟨k, v⟩ := p
    have h := (fmt_kept hw hi [k.asStr, b!": ", v, CRLF]).andThen (k := fun w => Write.headerLines w hs) fun w' h1 h2 => ih h1 h2
    simpa [Write.headerLines, CRLF, List.append_assoc] using h

theorem responseBytes_parts (r : Response) : responseBytes r =
    [b!"HTTP/1.1", [SP], natDec r.status.code, [SP], r.status.reason, CRLF].flatten ++
      ((r.headers.flat.flatMap fun p => p.1.asStr ++ b!": " ++ p.2 ++ b!"\r\n") ++ (CRLF ++ (r.body ++ []))) := by
  rw [flat_lines]
  simp [responseBytes, CRLF, SP, CR, LF]

theorem writeResponse_kept {w : Nbw} (hw : w.Ok) (hi : .err .interrupted ∉ w.sock.evs) (r : Response) :
    w.Kept (responseBytes r) (writeResponse w r) := by
  rw [responseBytes_parts]
  unfold writeResponse
  exact (fmt_kept hw hi _).andThen fun w h1 h2 => (headerLines_kept h1 h2 _).andThen fun w h1 h2 =>
    (write_kept h1 h2 _).andThen fun w h1 h2 => (write_kept h1 h2 _).andThen fun w h1 h2 => flush_kept h1 h2

/-! ## `write_all` ends -/

/-- What every writer here does: it reports no more bytes than it was given, and interruptions use up the
script. -/
class LawfulWrite (W : Type) [Write W] where
  ok : ∀ (w : W) (b : Bytes) (n : Nat) (w' : W), Write.write w b = (.ok n, w') → Write.rounds w' ≤ Write.rounds w
  interrupted : ∀ (w : W) (b : Bytes) (w' : W), Write.write w b = (.error .interrupted, w') → Write.rounds w' < Write.rounds w

theorem writeAllLoop_ends {W : Type} [Write W] [LawfulWrite W] (f : Nat) (w : W) (b : Bytes)
    (h : Write.rounds w + b.length < f) : (Write.writeAllLoop f w b).1 ≠ .diverge := by
  induction f generalizing w b with
  | zero => omega
  | succ f ih =>
    cases b with
    | nil => simp [Write.writeAllLoop]
    | cons c t =>
      simp only [Write.writeAllLoop]
      generalize hx : Write.write w (c :: t) = x
      obtain ⟨r, w'⟩ := x
      cases r with
      | ok n =>
        have := LawfulWrite.ok w _ n w' hx
        cases n with
        | zero => simp
        | succ n =>
          refine ih w' _ ?_
          simp only [List.length_drop, List.length_cons] at h ⊢
          omega
      | error e =>
        cases e <;> try simp
        exact ih w' _ (by have := LawfulWrite.interrupted w _ w' hx; omega)

theorem writeAll_ends {W : Type} [Write W] [LawfulWrite W] (w : W) (b : Bytes) : (Write.writeAll w b).1 ≠ .diverge :=
  writeAllLoop_ends _ w b (by omega)

theorem writeLoop_int {fl : List (Option IoError)} {evs : List WEv} {sent b : Bytes} {e : IoError} {s : Sock}
    (h : Sock.writeLoop fl evs sent b = (.error e, s)) : s.evs.length < evs.length := by
  induction evs generalizing sent b e with
  | nil => cases b <;> simp [Sock.writeLoop] at h
  | cons x es ih =>
    cases b with
    | nil => simp [Sock.writeLoop] at h
    | cons c t =>
      cases x with
      | err e' =>
        simp only [Sock.writeLoop, Prod.mk.injEq] at h
        rw [← h.2]; simp
      | accept n =>
        simp only [Sock.writeLoop, Prod.mk.injEq] at h
        obtain ⟨h1, h2⟩ := h
        generalize hy : Sock.writeLoop fl es (sent ++ (c :: t).take n) ((c :: t).drop n) = y at h1 h2
        obtain ⟨r, s'⟩ := y
        dsimp only at h1 h2
        cases r with
        | ok m => cases h1
        | error e' =>
          cases h1
          subst h2
          have := ih hy
          simp only [List.length_cons]; omega

instance : LawfulWrite Bytes where
  ok := fun _ _ _ _ h => by cases h; exact Nat.le_refl _
  interrupted := fun _ _ _ h => by cases h

theorem flushBuf_int {w w' : Nbw} {e : IoError} (h : w.flushBuf = (.error e, w')) :
    w'.sock.evs.length < w.sock.evs.length := by
  unfold Nbw.flushBuf at h
  generalize hx : w.sock.writeUntilBlocked (w.buf.drop w.pos) = x at h
  obtain ⟨r, s⟩ := x
  cases r with
  | ok n => dsimp only at h; split at h <;> cases h
  | error e' =>
    cases h
    exact writeLoop_int hx

theorem flushBuf_evs (w : Nbw) : w.flushBuf.2.sock.evs.length ≤ w.sock.evs.length := by
  have := (writeLoop_evs w.sock.flushes w.sock.evs w.sock.sent (w.buf.drop w.pos)).2.length_le
  unfold Nbw.flushBuf Sock.writeUntilBlocked
  generalize Sock.writeLoop w.sock.flushes w.sock.evs w.sock.sent (w.buf.drop w.pos) = x at this
  obtain ⟨r, s⟩ := x
  cases r with
  | ok n => dsimp only; split <;> exact this
  | error e => exact this

instance : LawfulWrite Nbw where
  ok := fun w b n w' h => by
    show w'.sock.evs.length ≤ w.sock.evs.length
    have h : w.write b = (.ok n, w') := h
    have he := flushBuf_evs w
    unfold Nbw.write at h
    split at h
    · generalize w.flushBuf = x at h he
      obtain ⟨r, w1⟩ := x
      cases r with
      | error e => cases h
      | ok u =>
        dsimp only at h he
        split at h
        · have h2 := (writeLoop_evs w1.sock.flushes w1.sock.evs w1.sock.sent b).2.length_le
          rw [show Sock.writeLoop w1.sock.flushes w1.sock.evs w1.sock.sent b = w1.sock.writeUntilBlocked b from rfl] at h2
          generalize w1.sock.writeUntilBlocked b = y at h h2
          obtain ⟨r, s⟩ := y
          cases r with
          | error e => cases h
          | ok m =>
            cases h
            exact Nat.le_trans h2 he
        · cases h; exact he
    · cases h; exact Nat.le_refl _
  interrupted := fun w b w' h => by
    show w'.sock.evs.length < w.sock.evs.length
    have h : w.write b = (.error .interrupted, w') := h
    have he := flushBuf_evs w
    unfold Nbw.write at h
    split at h
    · generalize hx : w.flushBuf = x at h he
      obtain ⟨r, w1⟩ := x
      cases r with
      | error e => cases h; exact flushBuf_int hx
      | ok u =>
        dsimp only at h he
        split at h
        · generalize hy : w1.sock.writeUntilBlocked b = y at h
          obtain ⟨r, s⟩ := y
          cases r with
          | error e => cases h; exact Nat.lt_of_lt_of_le (writeLoop_int hy) he
          | ok m => cases h
        · cases h
    · cases h

end Verif
