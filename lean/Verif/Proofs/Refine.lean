import Verif.Std.Io

/-!
The byte by byte reader `AR` simulates `BufReader` over a chunked stream, operation by operation.
-/

namespace Verif

theorem atoms_rawRead {n : Nat} (hn : 0 < n) (evs : List Ev) :
    match rawRead n evs with
    | (.ok [], evs') => evs.flatMap Ev.atoms = .eof :: evs'.flatMap Ev.atoms
    | (.ok b, evs') => evs.flatMap Ev.atoms = b.map .byte ++ evs'.flatMap Ev.atoms ∧ b.length ≤ n
    | (.error e, evs') => evs.flatMap Ev.atoms = .err e :: evs'.flatMap Ev.atoms ∨
        (e = .wouldBlock ∧ evs.flatMap Ev.atoms = [] ∧ evs'.flatMap Ev.atoms = []) := by
  cases evs with
  | nil => simp [rawRead]
  | cons ev es =>
    cases ev with
    | err e => simp [rawRead, Ev.atoms]
    | data b =>
      have hat : ∀ b : Bytes, b ≠ [] → Ev.atoms (.data b) = b.map .byte := by
        intro b hb
        cases b with
        | nil => exact absurd rfl hb
        | cons c t => simp [Ev.atoms]
      simp only [rawRead]
      by_cases hlen : b.length ≤ n
      · simp only [hlen, if_true]
        cases b with
        | nil => simp [Ev.atoms]
        | cons c t => exact ⟨by simp [Ev.atoms], hlen⟩
      · simp only [hlen, if_false]
        cases b with
        | nil => simp at hlen
        | cons c t =>
          obtain ⟨m, rfl⟩ : ∃ m, n = m + 1 := ⟨n - 1, by omega⟩
          have h1 : (c :: t).drop (m + 1) ≠ [] := by
            intro h0; have := congrArg List.length h0; simp at this hlen; omega
          simp only [List.take_succ_cons]
          refine ⟨?_, by simp; omega⟩
          rw [List.flatMap_cons, List.flatMap_cons, hat _ h1, hat _ (by simp)]
          simp only [List.drop_succ_cons]
          rw [← List.append_assoc, ← List.map_append, List.cons_append, List.take_append_drop]

theorem drop_length_take {α : Type} (l : List α) (n : Nat) :
    l.take n ++ l.drop (l.take n).length = l := by
  have : l.drop (l.take n).length = l.drop n := by
    rw [List.length_take]
    by_cases h : n ≤ l.length
    · rw [Nat.min_eq_left h]
    · rw [List.drop_eq_nil_of_le (by omega), List.drop_eq_nil_of_le (by omega)]
  rw [this, List.take_append_drop]

/-- What `fill_buf` does, when no limit is exhausted. -/
theorem fillBufL_spec (ls : List Nat) (h0 : 0 ∉ ls) (s : Src) :
    match Rd.fillBufL ls s with
    | (.ok [], s') => s.atoms = .eof :: s'.atoms ∧ s'.buf = []
    | (.ok b, s') => s'.atoms = s.atoms ∧ (∃ t, s'.buf = b ++ t) ∧ ∀ l ∈ ls, b.length ≤ l
    | (.error e, s') => s.atoms = .err e :: s'.atoms ∨
        (e = .wouldBlock ∧ s.atoms = [] ∧ s'.atoms = []) := by
  induction ls with
  | nil =>
    simp only [Rd.fillBufL, Src.fillBuf]
    by_cases hb : s.buf = []
    · simp only [hb, if_true]
      have := atoms_rawRead s.capPos s.evs
      revert this
      generalize rawRead s.cap s.evs = q
      rcases q with ⟨e | b, evs'⟩
      · simp [Src.atoms, hb]
      · cases b with
        | nil => simp [Src.atoms, hb]
        | cons c t => simp only [Src.atoms, hb]; rintro ⟨h, -⟩; simp [h]
    · simp only [hb, if_false]
      cases hs : s.buf with
      | nil => exact absurd hs hb
      | cons c t => simp
  | cons l ls ih =>
    have hl : l ≠ 0 := fun h => h0 (by simp [h])
    have ih := ih (fun h => h0 (List.mem_cons_of_mem _ h))
    simp only [Rd.fillBufL, hl, if_false]
    revert ih
    generalize Rd.fillBufL ls s = q
    rcases q with ⟨e | b, s'⟩
    · simp
    · cases b with
      | nil => simp
      | cons c t =>
        obtain ⟨m, rfl⟩ : ∃ m, l = m + 1 := ⟨l - 1, by omega⟩
        simp only [List.take_succ_cons]
        rintro ⟨h1, ⟨u, h2⟩, h3⟩
        refine ⟨h1, ⟨t.drop m ++ u, ?_⟩, ?_⟩
        · rw [h2]; simp [← List.append_assoc]
        · intro l hl
          simp only [List.mem_cons] at hl
          rcases hl with rfl | hl
          · simp; omega
          · have := h3 l hl; simp at this ⊢; omega

theorem fillBufL_limit (ls : List Nat) (h0 : 0 ∈ ls) (s : Src) :
    Rd.fillBufL ls s = (.error .limitReached, s) := by
  induction ls with
  | nil => simp at h0
  | cons l ls ih =>
    simp only [Rd.fillBufL]
    by_cases hl : l = 0
    · simp [hl]
    · have : 0 ∈ ls := by simpa [Ne.symm hl] using h0
      simp [hl, ih this]

theorem consumeL_eq (ls : List Nat) (s : Src) (n : Nat) (h : ∀ l ∈ ls, n ≤ l) :
    Rd.consumeL ls s n = (ls.map (· - n), s.consume n) := by
  induction ls with
  | nil => simp [Rd.consumeL]
  | cons l ls ih =>
    have h1 : min n l = n := Nat.min_eq_left (h l (by simp))
    simp [Rd.consumeL, h1, ih (fun l hl => h l (List.mem_cons_of_mem _ hl))]

theorem readL_limit (ls : List Nat) (h0 : 0 ∈ ls) (s : Src) (n : Nat) :
    Rd.readL ls s n = (.error .limitReached, ls, s) := by
  induction ls generalizing n with
  | nil => simp at h0
  | cons l ls ih =>
    simp only [Rd.readL]
    by_cases hl : l = 0
    · simp [hl]
    · have : 0 ∈ ls := by simpa [Ne.symm hl] using h0
      simp [hl, ih this]

/-- What `read` does, when no limit is exhausted. -/
theorem readL_spec (ls : List Nat) (h0 : 0 ∉ ls) (s : Src) (n : Nat) (hn : 0 < n) :
    match Rd.readL ls s n with
    | (.ok [], ls', s') => s.atoms = .eof :: s'.atoms ∧ ls' = ls ∧ s'.offer = s.offer
    | (.ok b, ls', s') => s.atoms = b.map .byte ++ s'.atoms ∧ ls' = ls.map (· - b.length) ∧
        b.length ≤ n ∧ (∀ l ∈ ls, b.length ≤ l) ∧ s'.offer = s.offer
    | (.error e, ls', s') => ls' = ls ∧ (s.atoms = .err e :: s'.atoms ∨
        (e = .wouldBlock ∧ s.atoms = [] ∧ s'.atoms = [])) ∧ s'.offer = s.offer := by
  induction ls generalizing n with
  | nil =>
    simp only [Rd.readL, Src.read]
    by_cases hbc : s.buf = [] ∧ s.cap ≤ n
    · have hb := hbc
      rw [if_pos hbc]
      have := atoms_rawRead hn s.evs
      revert this
      generalize rawRead n s.evs = q
      rcases q with ⟨e | b, evs'⟩
      · simp [Src.atoms, hb.1]
      · cases b with
        | nil => simp [Src.atoms, hb.1]
        | cons c t => simp only [Src.atoms, hb.1]; rintro ⟨h, h'⟩; simp [h]; simpa using h'
    · rw [if_neg hbc]
      simp only [Src.fillBuf]
      by_cases hb : s.buf = []
      · simp only [hb, if_true]
        have := atoms_rawRead s.capPos s.evs
        revert this
        generalize rawRead s.cap s.evs = q
        rcases q with ⟨e | b, evs'⟩
        · simp [Src.atoms, hb]
        · cases b with
          | nil => simp [Src.atoms, hb, Src.consume]
          | cons c t =>
            obtain ⟨m, rfl⟩ : ∃ m, n = m + 1 := ⟨n - 1, by omega⟩
            have hd := drop_length_take (c :: t) (m + 1)
            simp only [List.take_succ_cons] at hd
            simp only [Src.atoms, List.take_succ_cons]; rintro ⟨h, -⟩
            simp only [h, Src.consume]
            refine ⟨?_, by simp, by simp; omega, by simp, trivial⟩
            rw [hb, List.map_nil, List.nil_append, ← List.append_assoc (List.map Atom.byte (c :: List.take m t)),
              ← List.map_append, hd]
      · simp only [hb, if_false]
        cases hs : s.buf with
        | nil => exact absurd hs hb
        | cons c t =>
          obtain ⟨m, rfl⟩ : ∃ m, n = m + 1 := ⟨n - 1, by omega⟩
          have hd := drop_length_take (c :: t) (m + 1)
          simp only [List.take_succ_cons] at hd
          simp only [Src.atoms, hs, List.take_succ_cons, Src.consume]
          refine ⟨?_, by simp, by simp; omega, by simp, trivial⟩
          rw [← List.append_assoc, ← List.map_append, hd]
  | cons l ls ih =>
    have hl : l ≠ 0 := fun h => h0 (by simp [h])
    have ih := ih (fun h => h0 (List.mem_cons_of_mem _ h)) (min n l) (by omega)
    simp only [Rd.readL, hl, if_false]
    revert ih
    generalize Rd.readL ls s (min n l) = q
    rcases q with ⟨e | b, ls', s'⟩
    · simp
    · cases b with
      | nil => simp +contextual
      | cons c t =>
        simp only
        rintro ⟨h1, h2, h3, h4, h5⟩
        refine ⟨h1, by simp [h2], by omega, ?_, h5⟩
        intro l' hl'
        simp only [List.mem_cons] at hl'
        rcases hl' with rfl | hl'
        · omega
        · exact h4 l' hl'

/-! ### The byte by byte functions on a run of bytes -/

theorem map_sub_one (ls : List Nat) (n : Nat) :
    (AR.dec ls).map (· - n) = ls.map (· - (n + 1)) := by
  simp only [AR.dec, List.map_map]
  apply List.map_congr_left
  intro a _
  simp; omega

theorem zero_not_mem_dec (ls : List Nat) (n : Nat) (h : ∀ l ∈ ls, n + 1 ≤ l) :
    0 ∉ ls ∧ ∀ l ∈ AR.dec ls, n ≤ l := by
  constructor
  · intro h0; have := h 0 h0; omega
  · intro l hl
    simp only [AR.dec, List.mem_map] at hl
    obtain ⟨a, ha, rfl⟩ := hl
    have := h a ha; omega

/-- `scan` runs over bytes other than the delimiter. -/
theorem scan_bytes (d : UInt8) (b : Bytes) (ls : List Nat) (as : List Atom) (hb : d ∉ b)
    (hl : ∀ l ∈ ls, b.length ≤ l) :
    AR.scan d ls (b.map .byte ++ as) =
      ((AR.scan d (ls.map (· - b.length)) as).1,
        b ++ (AR.scan d (ls.map (· - b.length)) as).2.1,
        (AR.scan d (ls.map (· - b.length)) as).2.2) := by
  induction b generalizing ls with
  | nil => simp
  | cons c t ih =>
    obtain ⟨h0, h1⟩ := zero_not_mem_dec ls t.length (by simpa using hl)
    have hc : c ≠ d := fun h => hb (by simp [h])
    simp only [List.map_cons, List.cons_append, AR.scan, h0, if_false, hc]
    rw [ih (AR.dec ls) (fun h => hb (List.mem_cons_of_mem _ h)) h1]
    simp only [map_sub_one, List.length_cons]

theorem takeN_bytes (n : Nat) (b : Bytes) (ls : List Nat) (as : List Atom) (hn : b.length ≤ n)
    (hl : ∀ l ∈ ls, b.length ≤ l) :
    AR.takeN n ls (b.map .byte ++ as) =
      ((AR.takeN (n - b.length) (ls.map (· - b.length)) as).1,
        b ++ (AR.takeN (n - b.length) (ls.map (· - b.length)) as).2.1,
        (AR.takeN (n - b.length) (ls.map (· - b.length)) as).2.2) := by
  induction b generalizing n ls with
  | nil => simp
  | cons c t ih =>
    obtain ⟨m, rfl⟩ : ∃ m, n = m + 1 := ⟨n - 1, by simp at hn; omega⟩
    obtain ⟨h0, h1⟩ := zero_not_mem_dec ls t.length (by simpa using hl)
    simp only [List.map_cons, List.cons_append, AR.takeN, h0, if_false]
    rw [ih m (AR.dec ls) (by simpa using hn) h1]
    simp [map_sub_one, List.length_cons]

theorem drain_bytes (b : Bytes) (ls : List Nat) (as : List Atom)
    (hl : ∀ l ∈ ls, b.length ≤ l) :
    AR.drain ls (b.map .byte ++ as) =
      ((AR.drain (ls.map (· - b.length)) as).1,
        b ++ (AR.drain (ls.map (· - b.length)) as).2.1,
        (AR.drain (ls.map (· - b.length)) as).2.2) := by
  induction b generalizing ls with
  | nil => simp
  | cons c t ih =>
    obtain ⟨h0, h1⟩ := zero_not_mem_dec ls t.length (by simpa using hl)
    simp only [List.map_cons, List.cons_append, AR.drain, h0, if_false]
    rw [ih (AR.dec ls) h1]
    simp only [map_sub_one, List.length_cons]

theorem memchr_none {d : UInt8} {b : Bytes} (h : Rd.memchr d b = none) : d ∉ b := by
  induction b with
  | nil => simp
  | cons c t ih =>
    simp only [Rd.memchr] at h
    by_cases hc : c = d
    · simp [hc] at h
    · simp [hc] at h; simp [Ne.symm hc, ih h]

theorem memchr_some {d : UInt8} {b : Bytes} {i : Nat} (h : Rd.memchr d b = some i) :
    ∃ u, d ∉ u ∧ u.length = i ∧ b.take (i + 1) = u ++ [d] ∧ b = u ++ d :: b.drop (i + 1) := by
  induction b generalizing i with
  | nil => simp [Rd.memchr] at h
  | cons c t ih =>
    simp only [Rd.memchr] at h
    by_cases hc : c = d
    · simp [hc] at h; subst h; exact ⟨[], by simp [hc]⟩
    · simp [hc] at h
      obtain ⟨j, hj, rfl⟩ := h
      obtain ⟨u, h1, h2, h3, h4⟩ := ih hj
      refine ⟨c :: u, by simp [Ne.symm hc, h1], by simp [h2], by simp [h3], ?_⟩
      simp only [List.drop_succ_cons, List.cons_append]
      exact congrArg (c :: ·) h4

/-! ### Loops -/

theorem readUntil_refines (d : UInt8) (f : Nat) (acc : Bytes) (ls : List Nat) (s : Src)
    (hf : s.atoms.length < f) :
    let q := Rd.readUntil d f acc ls s
    let a := AR.scan d ls s.atoms
    q.1 = a.1 ∧ q.2.1 = acc ++ a.2.1 ∧ q.2.2.1 = a.2.2.1 ∧ q.2.2.2.atoms = a.2.2.2 := by
  induction f generalizing acc ls s with
  | zero => omega
  | succ f ih =>
    by_cases h0 : 0 ∈ ls
    · have : AR.scan d ls s.atoms = (.err .limitReached, [], ls, s.atoms) := by
        cases s.atoms <;> simp [AR.scan, h0]
      simp [Rd.readUntil, fillBufL_limit ls h0, this]
    · have hfill := fillBufL_spec ls h0 s
      simp only [Rd.readUntil]
      revert hfill
      generalize Rd.fillBufL ls s = q
      rcases q with ⟨e | b, s'⟩
      · rintro (h | ⟨rfl, h1, h2⟩)
        · rw [h]
          by_cases he : e = .interrupted
          · subst he
            have := ih acc ls s' (by rw [h] at hf; simp at hf; omega)
            simpa [AR.scan, h0] using this
          · cases e <;> first | (exact absurd rfl he) | simp [AR.scan, h0]
        · simp [h1, AR.scan, h0, h2]
      · cases b with
        | nil =>
          rintro ⟨h1, h2⟩
          have hc : Rd.consumeL ls s' 0 = (ls.map (· - 0), s'.consume 0) :=
            consumeL_eq ls s' 0 (by simp)
          have hs' : (s'.consume 0).atoms = s'.atoms := by simp [Src.consume, Src.atoms]
          simp [Rd.memchr, h1, AR.scan, h0, hc, hs']
        | cons c t =>
          simp only
          rintro ⟨h1, ⟨u, h2⟩, h3⟩
          have hat : ∀ n ≤ (c :: t).length, (s'.consume n).atoms =
              ((c :: t).drop n).map .byte ++ (u.map .byte ++ s'.evs.flatMap Ev.atoms) := by
            intro n hn
            simp only [Src.consume, Src.atoms, h2]
            rw [List.drop_append_of_le_length hn]
            simp
          have hs : s.atoms = (c :: t).map .byte ++ (u.map .byte ++ s'.evs.flatMap Ev.atoms) := by
            rw [← h1]; simp [Src.atoms, h2]
          cases hm : Rd.memchr d (c :: t) with
          | none =>
            have hd := memchr_none hm
            rw [consumeL_eq ls s' _ h3]
            simp only [List.length_cons, Nat.add_one_ne_zero, if_false]
            have ha := hat (c :: t).length (Nat.le_refl _)
            rw [List.drop_length] at ha
            simp only [List.map_nil, List.nil_append] at ha
            have hlen : (s'.consume (t.length + 1)).atoms.length < f := by
              have h4 : (s'.consume (t.length + 1)).atoms.length + (t.length + 1) = s.atoms.length := by
                have := ha
                simp only [List.length_cons] at this
                rw [this, hs]; simp; omega
              omega
            have := ih (acc ++ c :: t) (ls.map (· - (t.length + 1))) _ hlen
            rw [hs, scan_bytes d (c :: t) ls _ hd h3]
            simp only [List.length_cons] at ha ⊢
            rw [ha] at this
            simpa using this
          | some i =>
            obtain ⟨w, hw1, hw2, hw3, hw4⟩ := memchr_some hm
            have hlen : i + 1 ≤ (c :: t).length := by
              rw [hw4]; simp; omega
            have hall : ∀ l ∈ ls, i + 1 ≤ l := fun l hl => Nat.le_trans hlen (h3 l hl)
            dsimp only
            rw [consumeL_eq ls s' _ hall]
            have ha := hat (i + 1) hlen
            have hs2 : s.atoms = w.map .byte ++ (.byte d :: (s'.consume (i + 1)).atoms) := by
              rw [ha, hs]
              conv => lhs; rw [hw4]
              simp
            rw [hs2, scan_bytes d w ls _ hw1 (fun l hl => by have := hall l hl; omega)]
            have h00 : 0 ∉ ls.map (· - w.length) := by
              intro h
              simp only [List.mem_map] at h
              obtain ⟨a, ha, ha'⟩ := h
              have := hall a ha
              omega
            simp only [AR.scan, h00, if_false, if_true]
            refine ⟨trivial, by rw [hw3], ?_, trivial⟩
            simp only [AR.dec, List.map_map]
            apply List.map_congr_left
            intro a _
            simp [hw2]; omega

theorem readIntoLoop_refines (size f : Nat) (acc : Bytes) (ls : List Nat) (s : Src)
    (hf : s.atoms.length < f) :
    let q := Rd.readIntoLoop size f acc ls s
    let a := AR.takeN (size - acc.length) ls s.atoms
    q.1 = a.1 ∧ q.2.1 = acc ++ a.2.1 ∧ q.2.2.1 = a.2.2.1 ∧ q.2.2.2.atoms = a.2.2.2 := by
  induction f generalizing acc ls s with
  | zero => omega
  | succ f ih =>
    simp only [Rd.readIntoLoop]
    by_cases hlt : acc.length < size
    · rw [if_pos hlt]
      obtain ⟨m, hm⟩ : ∃ m, size - acc.length = m + 1 := ⟨size - acc.length - 1, by omega⟩
      by_cases h0 : 0 ∈ ls
      · simp [hm, readL_limit ls h0, AR.takeN, h0]
      · have hread := readL_spec ls h0 s (size - acc.length) (by omega)
        revert hread
        generalize Rd.readL ls s (size - acc.length) = q
        rcases q with ⟨e | b, ls', s'⟩
        · rintro ⟨rfl, h | ⟨rfl, h1, h2⟩, -⟩
          · simp [hm, AR.takeN, h0, h]
          · simp [hm, AR.takeN, h0, h1, h2]
        · cases b with
          | nil => rintro ⟨h, rfl, -⟩; simp [hm, AR.takeN, h0, h]
          | cons c t =>
            simp only
            rintro ⟨h1, h2, h3, h4, -⟩
            rw [h1, takeN_bytes _ (c :: t) ls _ h3 h4, ← h2]
            have := ih (acc ++ c :: t) ls' s' (by rw [h1] at hf; simp at hf; omega)
            have he : size - (acc ++ c :: t).length = size - acc.length - (c :: t).length := by
              simp; omega
            rw [he] at this
            simpa using this
    · have : size - acc.length = 0 := by omega
      rw [if_neg hlt]
      simp [this, AR.takeN]

theorem readToEndLoop_refines (f : Nat) (acc : Bytes) (ls : List Nat) (s : Src)
    (hf : s.atoms.length < f) :
    let q := Rd.readToEndLoop f acc ls s
    let a := AR.drain ls s.atoms
    q.1 = a.1 ∧ q.2.1 = acc ++ a.2.1 ∧ q.2.2.1 = a.2.2.1 ∧ q.2.2.2.atoms = a.2.2.2 := by
  induction f generalizing acc ls s with
  | zero => omega
  | succ f ih =>
    simp only [Rd.readToEndLoop]
    by_cases h0 : 0 ∈ ls
    · have : AR.drain ls s.atoms = (.err .limitReached, [], ls, s.atoms) := by
        cases s.atoms <;> simp [AR.drain, h0]
      simp [readL_limit ls h0, this]
    · have hread := readL_spec ls h0 s (s.offer acc.length + 1) (by omega)
      revert hread
      generalize Rd.readL ls s (s.offer acc.length + 1) = q
      rcases q with ⟨e | b, ls', s'⟩
      · rintro ⟨rfl, h | ⟨rfl, h1, h2⟩, -⟩
        · rw [h]
          by_cases he : e = .interrupted
          · subst he
            have := ih acc ls' s' (by rw [h] at hf; simp at hf; omega)
            simpa [AR.drain, h0] using this
          · cases e <;> first | (exact absurd rfl he) | simp [AR.drain, h0]
        · simp [AR.drain, h0, h1, h2]
      · cases b with
        | nil => rintro ⟨h, rfl, -⟩; simp [AR.drain, h0, h]
        | cons c t =>
          simp only
          rintro ⟨h1, h2, h3, h4, -⟩
          rw [h1, drain_bytes (c :: t) ls _ h4, ← h2]
          have := ih (acc ++ c :: t) ls' s' (by rw [h1] at hf; simp at hf; omega)
          simpa using this

/-! ### The operations of the class commute with `Rd.abs` -/

open Reader

theorem abs_push (l : Nat) (r : Rd) : (push l r).abs = push l r.abs := rfl
theorem abs_pop (r : Rd) : (pop r).abs = pop r.abs := rfl
theorem abs_fuel (r : Rd) : fuel r = fuel r.abs := rfl

/-- Map the reader in a result. -/
def mapRd {α β : Type} (q : α × β × Rd) : α × β × AR := (q.1, q.2.1, q.2.2.abs)

theorem abs_readUntilLf (r : Rd) : readUntilLf r.abs = mapRd (readUntilLf r) := by
  have h := readUntil_refines LF (r.src.atoms.length + 1) [] r.lims r.src (by omega)
  simp only [List.nil_append] at h
  obtain ⟨h1, h2, h3, h4⟩ := h
  simp [readUntilLf, mapRd, Rd.abs, h1, h2, h3, h4]

theorem abs_readInto (size : Nat) (d : Bytes) (r : Rd) :
    readInto size d r.abs = mapRd (readInto size d r) := by
  obtain ⟨h1, h2, h3, h4⟩ := readIntoLoop_refines size (r.src.atoms.length + 1) d r.lims r.src (by omega)
  simp [readInto, mapRd, Rd.abs, h1, h2, h3, h4]

theorem abs_readToEnd (d : Bytes) (r : Rd) :
    readToEnd d r.abs = mapRd (readToEnd d r) := by
  obtain ⟨h1, h2, h3, h4⟩ := readToEndLoop_refines (r.src.atoms.length + 1) d r.lims r.src (by omega)
  simp [readToEnd, mapRd, Rd.abs, h1, h2, h3, h4]

end Verif
