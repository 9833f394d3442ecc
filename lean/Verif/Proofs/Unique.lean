import Verif.Proofs.Complete

/-!
The grammar is unambiguous and prefix-free: a stream starts with at most one message.
-/

namespace Verif

theorem line_unique {l l' a a' : Bytes} (h : LF ∉ l) (h' : LF ∉ l') (he : l ++ CRLF ++ a = l' ++ CRLF ++ a') :
    l = l' ∧ a = a' := by
  have split : ∀ {s s' t t' : Bytes}, LF ∉ s → LF ∉ s' → s ++ LF :: t = s' ++ LF :: t' → s = s' ∧ t = t' := by
    intro s s' t t' hs hs' he
    induction s generalizing s' with
    | nil =>
      cases s' with
      | nil => simpa using he
      | cons c s' => simp at he; exact absurd (by simp [he.1]) hs'
    | cons c s ih =>
      cases s' with
      | nil => simp at he; exact absurd (by simp [he.1]) hs
      | cons c' s' =>
        simp only [List.cons_append, List.cons.injEq] at he
        obtain ⟨h1, h2⟩ := ih (fun h => hs (by simp [h])) (fun h => hs' (by simp [h])) he.2
        exact ⟨by rw [he.1, h1], h2⟩
  have hcr : ∀ {s : Bytes}, LF ∉ s → LF ∉ s ++ [CR] := by
    intro s hs; simpa using ⟨hs, by decide⟩
  obtain ⟨h1, h2⟩ := split (t := a) (t' := a') (hcr h) (hcr h') (by simpa [CRLF] using he)
  exact ⟨List.append_cancel_right h1, h2⟩

theorem fields_unique_of {fs fs' : List (Bytes × Bytes)} {a a' : Bytes} (h : ∀ x ∈ fs, LF ∉ fieldLine x ∧ ¬ Occurs b!": " x.1)
    (h' : ∀ x ∈ fs', LF ∉ fieldLine x ∧ ¬ Occurs b!": " x.1) (he : fieldLines fs ++ CRLF ++ a = fieldLines fs' ++ CRLF ++ a') :
    fs = fs' ∧ a = a' := by
  have cons : ∀ (f : Bytes × Bytes) (fs : List (Bytes × Bytes)) (a : Bytes),
      fieldLines (f :: fs) ++ CRLF ++ a = fieldLine f ++ CRLF ++ (fieldLines fs ++ CRLF ++ a) := by
    intro f fs a; simp [fieldLines]
  have nil : ∀ a : Bytes, fieldLines [] ++ CRLF ++ a = [] ++ CRLF ++ a := by
    intro a; simp [fieldLines]
  induction fs generalizing fs' with
  | nil =>
    cases fs' with
    | nil => simpa [fieldLines] using he
    | cons f' fs' =>
      rw [nil, cons] at he
      have := (line_unique (by simp) (h' f' (by simp)).1 he).1
      exact absurd this.symm (fieldLine_ne_nil f')
  | cons f fs ih =>
    cases fs' with
    | nil =>
      rw [nil, cons] at he
      have := (line_unique (h f (by simp)).1 (by simp) he).1
      exact absurd this (fieldLine_ne_nil f)
    | cons f' fs' =>
      rw [cons, cons] at he
      obtain ⟨h1, h2⟩ := line_unique (h f (by simp)).1 (h' f' (by simp)).1 he
      obtain ⟨h3, h4⟩ := ih (fun x hx => h x (by simp [hx])) (fun x hx => h' x (by simp [hx])) h2
      refine ⟨?_, h4⟩
      rw [h3]
      congr 1
      have e1 := splitOnce_sep (h f (by simp)).2 f.2
      have e2 := splitOnce_sep (h' f' (by simp)).2 f'.2
      simp only [fieldLine] at h1
      rw [h1, e2] at e1
      cases f; cases f'
      simpa using e1.symm

theorem fields_unique {fs fs' : List (Bytes × Bytes)} {a a' : Bytes} (h : ∀ x ∈ fs, FieldText x)
    (h' : ∀ x ∈ fs', FieldText x) (he : fieldLines fs ++ CRLF ++ a = fieldLines fs' ++ CRLF ++ a') :
    fs = fs' ∧ a = a' :=
  fields_unique_of (fun x hx => ⟨(h x hx).line.noLf, (h x hx).first⟩) (fun x hx => ⟨(h' x hx).line.noLf, (h' x hx).first⟩) he

theorem chunk_unique {s d s' d' a a' : Bytes} (hs : s.length ≤ 510) (hu : UnsignedText 16 s d.length)
    (hs' : s'.length ≤ 510) (hu' : UnsignedText 16 s' d'.length)
    (he : s ++ CRLF ++ d ++ CRLF ++ a = s' ++ CRLF ++ d' ++ CRLF ++ a') : s = s' ∧ d = d' ∧ a = a' := by
  obtain ⟨h1, h2⟩ := line_unique (l := s) (l' := s') (a := d ++ CRLF ++ a) (a' := d' ++ CRLF ++ a')
    (unsigned_line hu hs).noLf (unsigned_line hu' hs').noLf (by simpa using he)
  subst h1
  have hlen := unsignedText_unique (by omega) hu hu'
  obtain ⟨h3, h4⟩ := List.append_inj (by simpa using h2) hlen
  exact ⟨rfl, h3, by simpa using h4⟩

theorem chunked_unique {w w' body body' a a' : Bytes} (h : ChunkedText w body) (h' : ChunkedText w' body')
    (he : w ++ a = w' ++ a') : w = w' ∧ body = body' ∧ a = a' := by
  obtain ⟨cs, last, hcs, hl, hu, rfl, rfl⟩ := h
  obtain ⟨cs', last', hcs', hl', hu', rfl, rfl⟩ := h'
  have cons : ∀ (c : Bytes × Bytes) (cs : List (Bytes × Bytes)) (l a : Bytes),
      chunkLines (c :: cs) ++ l ++ CRLF ++ CRLF ++ a =
        c.1 ++ CRLF ++ c.2 ++ CRLF ++ (chunkLines cs ++ l ++ CRLF ++ CRLF ++ a) := by
    intro c cs l a; simp [chunkLines]
  have nil : ∀ (l a : Bytes), chunkLines [] ++ l ++ CRLF ++ CRLF ++ a = l ++ CRLF ++ [] ++ CRLF ++ a := by
    intro l a; simp [chunkLines]
  have key : cs = cs' ∧ last = last' ∧ a = a' := by
    induction cs generalizing cs' with
    | nil =>
      cases cs' with
      | nil =>
        rw [nil, nil] at he
        obtain ⟨h1, -, h3⟩ := chunk_unique (d := []) (d' := []) hl hu hl' hu' he
        exact ⟨rfl, h1, h3⟩
      | cons c cs' =>
        rw [nil, cons] at he
        have hc := hcs' c (by simp)
        exact absurd (chunk_unique (d := []) hl hu hc.short hc.size he).2.1.symm hc.nonEmpty
    | cons c cs ih =>
      have hc := hcs c (by simp)
      cases cs' with
      | nil =>
        rw [nil, cons] at he
        exact absurd (chunk_unique (d' := []) hc.short hc.size hl' hu' he).2.1 hc.nonEmpty
      | cons c' cs' =>
        have hc' := hcs' c' (by simp)
        rw [cons, cons] at he
        obtain ⟨h1, h2, h3⟩ := chunk_unique hc.short hc.size hc'.short hc'.size he
        obtain ⟨h4, h5, h6⟩ := ih (fun x hx => hcs x (by simp [hx])) cs' (fun x hx => hcs' x (by simp [hx])) h3
        exact ⟨by rw [h4, Prod.ext h1 h2], h5, h6⟩
  obtain ⟨rfl, rfl, rfl⟩ := key
  exact ⟨rfl, rfl, rfl⟩

theorem body_unique {f : Framing} (hf : f ≠ .untilEof) {w w' body body' a a' : Bytes} (h : BodyText f w body)
    (h' : BodyText f w' body') (he : w ++ a = w' ++ a') : w = w' ∧ body = body' ∧ a = a' := by
  cases f with
  | untilEof => exact absurd rfl hf
  | chunked => exact chunked_unique h h' he
  | noBody =>
    obtain ⟨rfl, rfl⟩ := h
    obtain ⟨rfl, rfl⟩ := h'
    exact ⟨rfl, rfl, he⟩
  | length n =>
    obtain ⟨rfl, hn⟩ := h
    obtain ⟨rfl, hn'⟩ := h'
    obtain ⟨h1, h2⟩ := List.append_inj he (by omega)
    exact ⟨h1, h1, h2⟩

theorem message_unique {b : Bool} {l l' : Bytes} {fs fs' : List (Bytes × Bytes)} {f f' : Framing}
    {bw bw' body body' w w' a a' : Bytes} (h : MessageText l fs b f bw body w)
    (h' : MessageText l' fs' b f' bw' body' w') (hf : f ≠ .untilEof) (he : w ++ a = w' ++ a') :
    l = l' ∧ fs = fs' ∧ f = f' ∧ bw = bw' ∧ body = body' ∧ w = w' ∧ a = a' := by
  have hw := h.wire
  have hw' := h'.wire
  obtain ⟨h1, h2⟩ := line_unique (l := l) (l' := l') (a := fieldLines fs ++ CRLF ++ (bw ++ a))
    (a' := fieldLines fs' ++ CRLF ++ (bw' ++ a')) h.lineOk.noLf h'.lineOk.noLf (by
      rw [hw, hw'] at he; simpa using he)
  obtain ⟨h3, h4⟩ := fields_unique h.fields h'.fields h2
  subst h1 h3
  have h5 := C10_framing_unique h.framing h'.framing
  cases h5
  obtain ⟨rfl, h7, h8⟩ := body_unique hf h.bodyOk h'.bodyOk h4
  exact ⟨rfl, rfl, rfl, rfl, h7, by rw [hw, hw'], h8⟩

theorem Announces.request_framing {ps : List (Header × Bytes)} {f : Framing} (h : Announces ps false (.ok f)) :
    f ≠ .untilEof := by
  generalize hx : Except.ok f = x at h
  cases h with
  | none => simp at hx; simp [hx]
  | length => cases hx; simp
  | chunked => cases hx; simp
  | _ => cases hx

/-- A stream starts with at most one request. -/
theorem request_unique {w w' a a' : Bytes} {q q' : Request} (h : RequestText w q) (h' : RequestText w' q')
    (he : w ++ a = w' ++ a') : w = w' ∧ q = q' := by
  obtain ⟨l, fs, f, bw, hl, hm, hh⟩ := h
  obtain ⟨l', fs', f', bw', hl', hm', hh'⟩ := h'
  obtain ⟨rfl, rfl, rfl, rfl, hb, hw, -⟩ := message_unique hm hm' hm.framing.request_framing he
  refine ⟨hw, ?_⟩
  have := requestLine_iff.2 hl
  rw [requestLine_iff.2 hl'] at this
  cases q; cases q'
  simp_all

end Verif
