import Verif.Proofs.SlowChunks

/-!
A chunked body in which one chunk is repeated.
-/

namespace Verif

variable {prof : Profile}

theorem bytes_paused {n : Nat} {d b : Bytes} {ls : List Nat} (hn : d.length + b.length < n) (hls : ∀ x ∈ ls, b.length < x) {Y : List Atom} (hY : Y = [] ∨ ∃ post, Y = WB :: post) :
    BytesDeframer.parse ⟨n, d⟩ (⟨ls, b.map .byte ++ Y⟩ : AR) = (.io ⟨n, d ++ b⟩ .wouldBlock, ⟨ls.map (· - b.length), Y.tail⟩) := by
  have h0 : 0 ∉ ls.map (· - b.length) := by
    intro h0
    obtain ⟨x, hx, h0⟩ := List.mem_map.1 h0
    have := hls x hx
    omega
  simp only [BytesDeframer.parse, Reader.readInto]
  rw [takeN_bytes _ b ls _ (by omega) fun x hx => Nat.le_of_lt (hls x hx)]
  obtain ⟨k, hk⟩ : ∃ k, n - d.length - b.length = k + 1 := ⟨n - d.length - b.length - 1, by omega⟩
  rw [hk]
  rcases hY with rfl | ⟨post, rfl⟩
  · rw [takeN_nil h0]; simp
  · rw [WB, takeN_err h0]; simp

theorem bytes_limited {n : Nat} {d b : Bytes} {l : Nat} (hn : d.length + l < n) (hl : l ≤ b.length) (Y : List Atom) :
    BytesDeframer.parse ⟨n, d⟩ (⟨[l], b.map .byte ++ Y⟩ : AR) = (.io ⟨n, d ++ b.take l⟩ .limitReached, ⟨[0], (b.drop l).map .byte ++ Y⟩) := by
  have hs : b.map Atom.byte ++ Y = (b.take l).map .byte ++ ((b.drop l).map .byte ++ Y) := by
    rw [← List.append_assoc, ← List.map_append, List.take_append_drop]
  have ht : (b.take l).length = l := by rw [List.length_take]; omega
  simp only [BytesDeframer.parse, Reader.readInto]
  rw [hs, takeN_bytes _ (b.take l) _ _ (by omega) (by simp [ht]), ht]
  obtain ⟨k, hk⟩ : ∃ k, n - d.length - l = k + 1 := ⟨n - d.length - l - 1, by omega⟩
  rw [hk, takeN_zero' (by simp)]
  simp

/-- Less than the rest of a line has no line feed. -/
theorem OneLine.part {ln i u x : Bytes} (h : OneLine ln) (e : i ++ u = ended ln) (hx : x <+: u) (hlt : x.length < u.length) : OneLine x := by
  obtain ⟨u₀, rfl, e', ha⟩ := SectionLine.rest h e (by rintro rfl; simp at hlt)
  intro c hc
  have : x <+: u₀ := List.prefix_of_prefix_length_le hx (List.prefix_append _ _) (by simp at hlt; omega)
  exact ha c (by simp [this.subset hc])

/-- The size line and the data of a chunk. -/
structure SectionChunk (sz data : Bytes) : Prop where
  text : OneLine sz
  short : sz.length ≤ 510
  pos : 0 < data.length
  size : parseChunkSize sz = .ok data.length

/-- The chunk on the wire. -/
abbrev wired (sz data : Bytes) : Bytes := ended sz ++ ended data

theorem wired_length (sz data : Bytes) : (wired sz data).length = sz.length + data.length + 4 := by
  rw [wired, List.length_append, ended_length, ended_length]; omega

/-- The parser within a chunk of which `i` was read and `u` is to come; `j` is 1 once the data is part of the body. -/
inductive InChunk (sz data : Bytes) : ChunkState → Nat → Bytes → Bytes → Prop
  | size {l u : Bytes} : l ++ u = ended sz → u ≠ [] → InChunk sz data (.size l) 0 l (u ++ ended data)
  | data {d d' : Bytes} : d ++ d' = data → d' ≠ [] → InChunk sz data (.data ⟨data.length, d⟩) 0 (ended sz ++ d) (d' ++ CRLF)
  | crlf {l u : Bytes} : l ++ u = CRLF → u ≠ [] → InChunk sz data (.tailingCrlf l false) 1 (ended sz ++ data ++ l) u

theorem InChunk.whole {sz data i u : Bytes} {st : ChunkState} {j : Nat} (h : InChunk sz data st j i u) : i ++ u = wired sz data ∧ u ≠ [] ∧ st ≠ .finished ∧
    (j = 0 ∧ i.length ≤ sz.length + 1 + data.length ∨ j = 1 ∧ sz.length + 2 + data.length ≤ i.length ∧ i.length ≤ sz.length + 3 + data.length) := by
  cases h with
  | size e hu =>
    have hl := congrArg List.length e
    have := List.length_pos_iff.2 hu
    rw [List.length_append, ended_length] at hl
    exact ⟨by rw [← List.append_assoc, e], by simp [hu], nofun, .inl ⟨rfl, by omega⟩⟩
  | data e hd =>
    have hl := congrArg List.length e
    have := List.length_pos_iff.2 hd
    rw [List.length_append] at hl
    refine ⟨by rw [List.append_assoc, ← List.append_assoc _ _ CRLF, e], by simp [hd], nofun, .inl ⟨rfl, ?_⟩⟩
    rw [List.length_append, ended_length]
    omega
  | crlf e hu =>
    have hl := congrArg List.length e
    have := List.length_pos_iff.2 hu
    rw [List.length_append, show CRLF.length = 2 from rfl] at hl
    refine ⟨by rw [List.append_assoc, e, List.append_assoc], hu, nofun, .inr ⟨rfl, ?_⟩⟩
    rw [List.length_append, List.length_append, ended_length]
    omega

/-- What the parser does with the next part `v` of a chunk. -/
structure ChunkPhase (prof : Profile) (sz data : Bytes) (st : ChunkState) (j : Nat) (i u v : Bytes) : Prop where
  ne : v ≠ []
  pre : v <+: u
  found {lim : Nat} (B : Bytes) (Y : List Atom) : v.length ≤ lim → ∃ st₁ j₁ i₁ u₁ B₁ m₁, crun prof ⟨B, st⟩ ⟨[lim], v.map .byte ++ Y⟩ = crun prof ⟨B₁, st₁⟩ ⟨[lim - v.length], Y⟩ ∧ InChunk sz data st₁ j₁ i₁ u₁ ∧
    i ++ v = again m₁ (wired sz data) ++ i₁ ∧ (∀ K w, v ++ w <+: u ++ again K (wired sz data) → w <+: u₁ ++ again K (wired sz data)) ∧ B₁.length + data.length * j = B.length + data.length * (m₁ + j₁)
  paused {lim : Nat} (B : Bytes) {x : Bytes} {Y : List Atom} : x <+: v → x.length < v.length → x.length < lim → (Y = [] ∨ ∃ post, Y = WB :: post) →
    ∃ st' u', crun prof ⟨B, st⟩ ⟨[lim], x.map .byte ++ Y⟩ = (.io ⟨B, st'⟩ .wouldBlock, ⟨[lim - x.length], Y.tail⟩) ∧ InChunk sz data st' j (i ++ x) u'
  limited {lim : Nat} (B : Bytes) {bs : Bytes} (Y : List Atom) : bs.take lim <+: v → lim < v.length → lim ≤ bs.length → ∃ p x rest, crun prof ⟨B, st⟩ ⟨[lim], bs.map .byte ++ Y⟩ = (.io p .limitReached, ⟨[x], rest⟩)

theorem take_length_lt {bs : Bytes} {lim : Nat} {v : Bytes} (h : lim < v.length) : (bs.take lim).length < v.length := by rw [List.length_take]; omega

theorem size_phase {sz data l u : Bytes} (h : SectionChunk sz data) (e : l ++ u = ended sz) (hu : u ≠ []) : ChunkPhase prof sz data (.size l) 0 l (u ++ ended data) u where
  ne := hu
  pre := List.prefix_append _ _
  found := by
    intro lim B Y hl
    refine ⟨.data ⟨data.length, []⟩, 0, ended sz, ended data, B, 0, ?_, ?_, by rw [e]; simp [again], fun K w hw => ?_, by simp⟩
    · rw [crun_cont _ _ _ (by simp)]
      simp only [chunkStep, sizeState]
      rw [crlf_found h.text h.short e hu (by intro x hx; rw [List.mem_singleton.1 hx]; exact hl)]
      simp only [Out.bind, h.size, Out.cont, List.map_cons, List.map_nil]
    · have := InChunk.data (sz := sz) (data := data) (d := []) (d' := data) rfl (List.length_pos_iff.1 h.pos)
      simpa using this
    · rw [List.append_assoc] at hw
      exact (List.prefix_append_right_inj u).1 hw
  paused := by
    intro lim B x Y hx hlt hlim hY
    have hlen := congrArg List.length e
    have hs := h.short
    rw [List.length_append, ended_length] at hlen
    obtain ⟨u', rfl⟩ := hx
    refine ⟨.size (l ++ x), u' ++ ended data, ?_, .size (by rw [List.append_assoc]; exact e) (by rintro rfl; simp at hlt)⟩
    rw [crun_cont _ _ _ (by simp)]
    simp only [chunkStep, sizeState]
    rw [crlf_paused (h.text.part e (List.prefix_append _ _) hlt) (by omega) (by intro y hy; rw [List.mem_singleton.1 hy]; exact hlim) hY]
    simp only [Out.bind, Out.cont, List.map_cons, List.map_nil, id]
  limited := by
    intro lim B bs Y hx hlt hlim
    have hlen := congrArg List.length e
    have hs := h.short
    rw [List.length_append, ended_length] at hlen
    refine ⟨⟨B, .size (l ++ bs.take lim)⟩, 0, (bs.drop lim).map .byte ++ Y, ?_⟩
    rw [crun_cont _ _ _ (by simp)]
    simp only [chunkStep, sizeState]
    rw [crlf_limited (h.text.part e hx (take_length_lt hlt)) (by omega) hlim]
    simp only [Out.bind, Out.cont, id]

theorem crlf_phase {sz data l u : Bytes} (h : SectionChunk sz data) (e : l ++ u = CRLF) (hu : u ≠ []) : ChunkPhase prof sz data (.tailingCrlf l false) 1 (ended sz ++ data ++ l) u u where
  ne := hu
  pre := List.prefix_refl _
  found := by
    intro lim B Y hl
    refine ⟨.size [], 0, [], wired sz data, B, 1, ?_, .size (u := ended sz) rfl (by simp [ended, CRLF]), ?_, fun K w hw => ?_, by simp⟩
    · rw [crun_cont _ _ _ (by simp)]
      simp only [chunkStep, tailingCrlfState]
      rw [crlf_found (ln := []) nofun (by simp) e hu (by intro x hx; rw [List.mem_singleton.1 hx]; exact hl)]
      simp only [Out.bind, Out.cont, ne_eq, not_true_eq_false, if_false, Bool.false_eq_true, List.map_cons, List.map_nil]
    · rw [List.append_assoc, e]
      simp [again]
    · exact ((List.prefix_append_right_inj u).1 hw).trans (again_grows _ _)
  paused := by
    intro lim B x Y hx hlt hlim hY
    have hlen := congrArg List.length e
    rw [List.length_append, show CRLF.length = 2 from rfl] at hlen
    obtain ⟨u', rfl⟩ := hx
    refine ⟨.tailingCrlf (l ++ x) false, u', ?_, ?_⟩
    · rw [crun_cont _ _ _ (by simp)]
      simp only [chunkStep, tailingCrlfState]
      rw [crlf_paused (OneLine.part (ln := []) nofun e (List.prefix_append _ _) hlt) (by omega) (by intro y hy; rw [List.mem_singleton.1 hy]; exact hlim) hY]
      simp only [Out.bind, Out.cont, List.map_cons, List.map_nil, id]
    · rw [List.append_assoc]
      exact .crlf (by rw [List.append_assoc]; exact e) (by rintro rfl; simp at hlt)
  limited := by
    intro lim B bs Y hx hlt hlim
    have hlen := congrArg List.length e
    rw [List.length_append, show CRLF.length = 2 from rfl] at hlen
    refine ⟨⟨B, .tailingCrlf (l ++ bs.take lim) false⟩, 0, (bs.drop lim).map .byte ++ Y, ?_⟩
    rw [crun_cont _ _ _ (by simp)]
    simp only [chunkStep, tailingCrlfState]
    rw [crlf_limited (OneLine.part (ln := []) nofun e hx (take_length_lt hlt)) (by omega) hlim]
    simp only [Out.bind, Out.cont, id]

theorem data_phase {sz data d d' : Bytes} (h : SectionChunk sz data) (e : d ++ d' = data) (hd : d' ≠ []) : ChunkPhase prof sz data (.data ⟨data.length, d⟩) 0 (ended sz ++ d) (d' ++ CRLF) d' where
  ne := hd
  pre := List.prefix_append _ _
  found := by
    intro lim B Y hl
    have hlen := congrArg List.length e
    rw [List.length_append] at hlen
    have hne : data.isEmpty = false := by
      cases data with
      | nil => exact absurd h.pos (by simp)
      | cons => rfl
    refine ⟨.tailingCrlf [] false, 1, ended sz ++ data, CRLF, B ++ data, 0, ?_, ?_, by rw [List.append_assoc, e]; simp [again], fun K w hw => ?_, by simp⟩
    · rw [crun_cont _ _ _ (by simp)]
      simp only [chunkStep, dataState]
      rw [bytes_finish hlen (by intro x hx; rw [List.mem_singleton.1 hx]; exact hl), e]
      simp only [Out.bind, Out.cont, hne, decN, List.map_cons, List.map_nil]
    · have := InChunk.crlf (sz := sz) (data := data) (l := []) (u := CRLF) rfl (by simp [CRLF])
      simpa using this
    · rw [List.append_assoc] at hw
      exact (List.prefix_append_right_inj d').1 hw
  paused := by
    intro lim B x Y hx hlt hlim hY
    have hlen := congrArg List.length e
    rw [List.length_append] at hlen
    obtain ⟨u', rfl⟩ := hx
    refine ⟨.data ⟨data.length, d ++ x⟩, u' ++ CRLF, ?_, ?_⟩
    · rw [crun_cont _ _ _ (by simp)]
      simp only [chunkStep, dataState]
      rw [bytes_paused (by omega) (by intro y hy; rw [List.mem_singleton.1 hy]; exact hlim) hY]
      simp only [Out.bind, Out.cont, List.map_cons, List.map_nil, id]
    · rw [List.append_assoc]
      exact .data (by rw [List.append_assoc]; exact e) (by rintro rfl; simp at hlt)
  limited := by
    intro lim B bs Y hx hlt hlim
    have hlen := congrArg List.length e
    rw [List.length_append] at hlen
    refine ⟨⟨B, .data ⟨data.length, d ++ bs.take lim⟩⟩, 0, (bs.drop lim).map .byte ++ Y, ?_⟩
    rw [crun_cont _ _ _ (by simp)]
    simp only [chunkStep, dataState]
    rw [bytes_limited (by omega) hlim]
    simp only [Out.bind, Out.cont, id]

theorem InChunk.phase {sz data i u : Bytes} {st : ChunkState} {j : Nat} (hf : SectionChunk sz data) (h : InChunk sz data st j i u) : ∃ v, ChunkPhase prof sz data st j i u v := by
  cases h with
  | size e hu => exact ⟨_, size_phase hf e hu⟩
  | data e hd => exact ⟨_, data_phase hf e hd⟩
  | crlf e hu => exact ⟨_, crlf_phase hf e hu⟩

/-- One call on a body that consists of one chunk again and again. -/
theorem chunks_call {sz data : Bytes} (hf : SectionChunk sz data) {K : Nat} (k : Nat) : ∀ {bs i u B : Bytes} {st : ChunkState} {j lim : Nat} {Y : List Atom}, bs.length ≤ k → InChunk sz data st j i u →
    bs <+: u ++ again K (wired sz data) →
    (lim ≤ bs.length → ∃ p x rest, crun prof ⟨B, st⟩ ⟨[lim], bs.map .byte ++ Y⟩ = (.io p .limitReached, ⟨[x], rest⟩)) ∧
    (bs.length < lim → (Y = [] ∨ ∃ post, Y = WB :: post) → ∃ m i' u' j' st' B' x, InChunk sz data st' j' i' u' ∧ i ++ bs = again m (wired sz data) ++ i' ∧
      B'.length + data.length * j = B.length + data.length * (m + j') ∧ crun prof ⟨B, st⟩ ⟨[lim], bs.map .byte ++ Y⟩ = (.io ⟨B', st'⟩ .wouldBlock, ⟨[x], Y.tail⟩)) := by
  induction k using Nat.strongRecOn with
  | ind k ih =>
  intro bs i u B st j lim Y hk hin hp
  obtain ⟨v, hv⟩ := hin.phase (prof := prof) hf
  have hvpos := List.length_pos_iff.2 hv.ne
  have hvp : v <+: u ++ again K (wired sz data) := hv.pre.trans (List.prefix_append _ _)
  by_cases hd : v <+: bs ∧ v.length ≤ lim
  · obtain ⟨⟨bs', rfl⟩, hvl⟩ := hd
    obtain ⟨st₁, j₁, i₁, u₁, B₁, m₁, h1, h2, h3, h4, h5⟩ := hv.found B (bs'.map .byte ++ Y) hvl
    simp only [List.length_append] at hk ⊢
    obtain ⟨i1, i2⟩ := ih bs'.length (by omega) (bs := bs') (B := B₁) (lim := lim - v.length) (Y := Y) (Nat.le_refl _) h2 (h4 _ _ hp)
    rw [List.map_append, List.append_assoc, h1]
    refine ⟨fun hlim => i1 (by omega), fun hlim hY => ?_⟩
    obtain ⟨m, i', u', j', st', B', x, k1, k2, k3, k4⟩ := i2 (by omega) hY
    refine ⟨m₁ + m, i', u', j', st', B', x, k1, ?_, ?_, k4⟩
    · rw [← List.append_assoc, h3, List.append_assoc, k2, again_add, List.append_assoc]
    · rw [Nat.mul_add] at h5 k3 ⊢
      rw [Nat.mul_add]
      omega
  · refine ⟨fun hlim => ?_, fun hlim hY => ?_⟩
    · have h3 : lim < v.length := Nat.lt_of_not_le fun h => hd ⟨List.prefix_of_prefix_length_le hvp hp (by omega), h⟩
      exact hv.limited B Y (List.prefix_of_prefix_length_le ((List.take_prefix _ _).trans hp) hvp (Nat.le_of_lt (take_length_lt h3))) h3 hlim
    · have h3 : bs.length < v.length := Nat.lt_of_not_le fun h => hd ⟨List.prefix_of_prefix_length_le hvp hp h, by omega⟩
      obtain ⟨st', u', h1, h2⟩ := hv.paused B (List.prefix_of_prefix_length_le hp hvp (by omega)) h3 hlim hY
      exact ⟨0, _, u', j, st', B, _, h2, by simp [again], by simp, h1⟩

/-! ## The header section before it -/

/-- The line that comes next, of the fields still to come. -/
def curLine : List (Bytes × Bytes) → Bytes
  | [] => CRLF
  | f :: _ => ended (fieldLine f)

/-- The headers with some more. -/
def addAll (hs : HeaderMap) (fs : List (Bytes × Bytes)) : HeaderMap := (fieldMap fs).foldl (fun m p => m.addHeader p.1 p.2) hs

/-- What the lines of some fields count. -/
def lineSum (fs : List (Bytes × Bytes)) : Nat := (fs.map fun f => (fieldLine f).length).sum

theorem curLine_pos (r : List (Bytes × Bytes)) : 0 < (curLine r).length := by
  cases r with
  | nil => simp [curLine, CRLF]
  | cons f r => rw [curLine, ended_length]; omega

theorem fieldLines_cons (f : Bytes × Bytes) (r : List (Bytes × Bytes)) : fieldLines (f :: r) = ended (fieldLine f) ++ fieldLines r := by simp [fieldLines, ended]

theorem fieldLines_append (r₁ r₂ : List (Bytes × Bytes)) : fieldLines (r₁ ++ r₂) = fieldLines r₁ ++ fieldLines r₂ := by simp [fieldLines]

theorem lineSum_le (r : List (Bytes × Bytes)) : lineSum r ≤ (fieldLines r).length := by
  induction r with
  | nil => simp [lineSum]
  | cons f r ih =>
    rw [fieldLines_cons, List.length_append, ended_length]
    simp only [lineSum, List.map_cons, List.sum_cons] at ih ⊢
    omega

/-- One call in a header section. -/
theorem heads_call (r : List (Bytes × Bytes)) : (∀ f ∈ r, FieldText f ∧ OneLine (fieldLine f)) → ∀ {i w : Bytes} {hs : HeaderMap} {rd lim : Nat}, i ++ w = fieldLines r ++ CRLF → i.length < (curLine r).length →
    (w.length ≤ lim → ∀ Y, hrun prof ⟨i, hs, rd⟩ ⟨[lim], w.map .byte ++ Y⟩ = (.done (addAll hs r), ⟨[lim - w.length], Y⟩)) ∧
    (∀ {bs : Bytes} {Y : List Atom}, bs <+: w → bs.length < w.length → bs.length < lim → (Y = [] ∨ ∃ post, Y = WB :: post) → ∃ r₁ r₂ i' w' x, r = r₁ ++ r₂ ∧ i' ++ w' = fieldLines r₂ ++ CRLF ∧
      i'.length < (curLine r₂).length ∧ i ++ bs = fieldLines r₁ ++ i' ∧ hrun prof ⟨i, hs, rd⟩ ⟨[lim], bs.map .byte ++ Y⟩ = (.io ⟨i', addAll hs r₁, rd + lineSum r₁⟩ .wouldBlock, ⟨[x], Y.tail⟩)) := by
  induction r with
  | nil =>
    intro _ i w hs rd lim e hi
    have e' : i ++ w = ended [] := e
    have hlen := congrArg List.length e'
    rw [List.length_append, ended_length, List.length_nil] at hlen
    have hw : w ≠ [] := by
      rintro rfl
      rw [show (curLine []).length = 2 from rfl] at hi
      rw [List.length_nil] at hlen
      omega
    refine ⟨fun hl Y => ?_, fun {bs Y} hb hlt hl hY => ?_⟩
    · rw [hrun_eq]
      simp only
      rw [crlf_found (ln := []) nofun (by simp) e' hw (by intro x hx; rw [List.mem_singleton.1 hx]; exact hl)]
      simp [addAll, fieldMap]
    · obtain ⟨w', rfl⟩ := hb
      rw [List.length_append] at hlen hlt
      refine ⟨[], [], i ++ bs, w', lim - bs.length, rfl, by rw [List.append_assoc]; exact e, ?_, by simp [fieldLines], ?_⟩
      · rw [show (curLine []).length = 2 from rfl, List.length_append]; omega
      · rw [hrun_eq]
        simp only
        rw [crlf_paused (OneLine.part (ln := []) nofun e' (List.prefix_append _ _) (by simpa using hlt)) (by omega) (by intro x hx; rw [List.mem_singleton.1 hx]; exact hl) hY]
        simp [addAll, fieldMap, lineSum]
  | cons f r ih =>
    intro hf i w hs rd lim e hi
    obtain ⟨hft, hfo⟩ := hf f (by simp)
    have hshort := hft.line.short
    rw [fieldLines_cons, List.append_assoc] at e
    obtain ⟨u, hu⟩ : i <+: ended (fieldLine f) := List.prefix_of_prefix_length_le (l₃ := ended (fieldLine f) ++ (fieldLines r ++ CRLF)) (by rw [← e]; exact List.prefix_append _ _) (List.prefix_append _ _) (Nat.le_of_lt hi)
    rw [← hu, List.append_assoc] at e
    have ew : w = u ++ (fieldLines r ++ CRLF) := List.append_cancel_left e
    have hune : u ≠ [] := by
      rintro rfl
      have := congrArg List.length hu
      rw [List.append_nil] at this
      rw [curLine] at hi
      omega
    have hupos := List.length_pos_iff.2 hune
    have hlen := congrArg List.length hu
    rw [List.length_append, ended_length] at hlen
    have hwl : w.length = u.length + (fieldLines r ++ CRLF).length := by rw [ew, List.length_append]
    have step : u.length ≤ lim → ∀ X, hrun prof ⟨i, hs, rd⟩ ⟨[lim], u.map .byte ++ X⟩ = hrun prof ⟨[], hs.addHeader (Header.ofStr f.1) f.2, rd + (fieldLine f).length⟩ ⟨[lim - u.length], X⟩ := by
      intro hl X
      rw [hrun_eq]
      simp only
      rw [crlf_found hfo hshort hu hune (by intro x hx; rw [List.mem_singleton.1 hx]; exact hl)]
      simp [fieldLine_ne_nil f, parseHeader_field hft]
    obtain ⟨i1, i2⟩ := ih (fun f hf' => hf f (by simp [hf'])) (i := []) (w := fieldLines r ++ CRLF) (hs := hs.addHeader (Header.ofStr f.1) f.2) (rd := rd + (fieldLine f).length) (lim := lim - u.length) rfl (curLine_pos r)
    refine ⟨fun hl Y => ?_, fun {bs Y} hb hlt hl hY => ?_⟩
    · rw [ew, List.map_append, List.append_assoc, step (by omega), i1 (by omega), List.length_append (as := u), Nat.sub_sub]
      rfl
    · by_cases hd : u <+: bs
      · obtain ⟨bs', rfl⟩ := hd
        rw [List.length_append] at hlt hl
        rw [ew] at hb
        obtain ⟨r₁, r₂, i', w', x, k1, k2, k3, k4, k5⟩ := i2 ((List.prefix_append_right_inj u).1 hb) (by omega) (by omega) hY
        refine ⟨f :: r₁, r₂, i', w', x, by rw [k1]; rfl, k2, k3, ?_, ?_⟩
        · rw [← List.append_assoc, hu, fieldLines_cons, List.append_assoc (ended (fieldLine f)), ← k4]; rfl
        · rw [List.map_append, List.append_assoc, step (by omega), k5]
          simp only [lineSum, List.map_cons, List.sum_cons, Nat.add_assoc]
          rfl
      · rw [ew] at hb
        have h3 : bs.length < u.length := Nat.lt_of_not_le fun h => hd (List.prefix_of_prefix_length_le (List.prefix_append _ _) hb h)
        obtain ⟨u', rfl⟩ : bs <+: u := List.prefix_of_prefix_length_le hb (List.prefix_append _ _) (by omega)
        rw [List.length_append] at hlen
        refine ⟨[], f :: r, i ++ bs, u' ++ (fieldLines r ++ CRLF), lim - bs.length, rfl, ?_, ?_, by simp [fieldLines], ?_⟩
        · rw [fieldLines_cons, List.append_assoc (ended _), ← hu]; simp only [List.append_assoc]
        · rw [curLine, ended_length, List.length_append]
          rw [List.length_append] at h3
          omega
        · rw [hrun_eq]
          simp only
          rw [crlf_paused (hfo.part hu (List.prefix_append _ _) h3) (by rw [List.length_append] at h3; omega) (by intro x hx; rw [List.mem_singleton.1 hx]; exact hl) hY]
          simp [addAll, fieldMap, lineSum]

/-! ## Whole requests -/

theorem request_mrun (prof : Profile) (p : RequestParser) (a : AR) : RequestParser.parse prof p a = match mrun prof parseRequestLine false p a with
    | (o, r) => (o.bind id fun ((m, u), hs, b) => .done ⟨u, m, hs, b⟩, r) := rfl

/-- The first line is complete. -/
theorem request_line_done (prof : Profile) {fl c u : Bytes} (hfl : OneLine fl) (hs : fl.length ≤ 510) {t : Method × Bytes} (ht : parseRequestLine fl = .ok t) (e : c ++ u = ended fl) (hu : u ≠ []) (as : List Atom) :
    RequestParser.parse prof (.firstLine c) (⟨[], u.map .byte ++ as⟩ : AR) = RequestParser.parse prof (.headers t .new) ⟨[], as⟩ := by
  have : mrun prof parseRequestLine false (.firstLine c) (⟨[], u.map .byte ++ as⟩ : AR) = mrun prof parseRequestLine false (.headers t .new) ⟨[], as⟩ := by
    rw [mrun_cont _ _ _ _ _ rfl]
    simp only [msgStep, firstLineState]
    rw [crlf_found hfl hs e hu (by simp)]
    simp only [Out.bind, ht, List.map_nil, Out.cont]
  rw [request_mrun, this, ← request_mrun]

/-- The header section is complete. -/
theorem request_heads_done {t : Method × Bytes} {p : HeadersParser} {hs : HeaderMap} {bp : BodyParser} {as rest : List Atom} {x : Nat} (hp : p.read ≤ 4096) (hb : BodyParser.new hs false = .ok bp)
    (h : hrun prof p ⟨[4096 - p.read], as⟩ = (.done hs, ⟨[x], rest⟩)) : RequestParser.parse prof (.headers t p) (⟨[], as⟩ : AR) = RequestParser.parse prof (.body t hs bp) ⟨[], rest⟩ := by
  have : mrun prof parseRequestLine false (.headers t p) (⟨[], as⟩ : AR) = mrun prof parseRequestLine false (.body t hs bp) ⟨[], rest⟩ := by
    rw [mrun_cont _ _ _ _ _ rfl]
    simp only [msgStep, headersState]
    rw [headersParse_eq, sub_le prof (show p.read ≤ maxHeadersSize from hp)]
    simp only [show maxHeadersSize = 4096 from rfl, h, Out.bind, List.tail_cons, hb, Out.cont]
  rw [request_mrun, this, ← request_mrun]

/-- The parser after it has read `c` of a request with a chunked body, one chunk being repeated; `P` holds of the number of chunks whose data is part of the body. -/
inductive Chunking (P : Nat → Prop) (l : Bytes) (fs : List (Bytes × Bytes)) (sz data : Bytes) (t : Method × Bytes) : RequestParser → Bytes → Prop
  | first {c u : Bytes} : c ++ u = ended l → u ≠ [] → Chunking P l fs sz data t (.firstLine c) c
  | heads {r₁ r₂ : List (Bytes × Bytes)} {i w : Bytes} : fs = r₁ ++ r₂ → i ++ w = fieldLines r₂ ++ CRLF → i.length < (curLine r₂).length →
      Chunking P l fs sz data t (.headers t ⟨i, addAll [] r₁, lineSum r₁⟩) (ended l ++ (fieldLines r₁ ++ i))
  | chunks {k j : Nat} {i u B : Bytes} {st : ChunkState} : InChunk sz data st j i u → B.length = data.length * (k + j) → P (k + j) →
      Chunking P l fs sz data t (.body t (addAll [] fs) (.chunked ⟨B, st⟩)) (ended l ++ (fieldLines fs ++ (CRLF ++ (again k (wired sz data) ++ i))))

/-- The number of chunks stays within the limit. -/
theorem chunks_within {M n s q d k m j j' a a' b : Nat} (hn : 0 < n) (h1 : n * q + d = M) (h2 : d < n) (h3 : d ≤ 1) (hk : k + j ≤ q) (hj : j = 0 ∧ a ≤ s + 1 + n ∨ j = 1 ∧ s + 2 + n ≤ a ∧ a ≤ s + 3 + n)
    (hj' : j' = 0 ∧ a' ≤ s + 1 + n ∨ j' = 1 ∧ s + 2 + n ≤ a' ∧ a' ≤ s + 3 + n) (hb : b < M - n * (k + j)) (h : a + b = m * (s + n + 4) + a') : k + m + j' ≤ q := by
  refine Nat.le_of_not_lt fun hlt => ?_
  have e0 : n * (q + 1) ≤ n * (k + m + j') := Nat.mul_le_mul_left n hlt
  rw [Nat.mul_add n (k + m) j', Nat.mul_add n k m, Nat.mul_add n q 1, Nat.mul_one] at e0
  rw [Nat.mul_add n k j] at hb
  have e1 : m * (s + n + 4) = m * s + n * m + m * 4 := by rw [Nat.mul_add, Nat.mul_add, Nat.mul_comm n m]
  have e2 : m = 0 ∨ 1 ≤ m ∧ s ≤ m * s := by
    rcases Nat.eq_zero_or_pos m with h | h
    · exact .inl h
    · exact .inr ⟨h, Nat.le_mul_of_pos_left s h⟩
  rcases hj with ⟨rfl, hj⟩ | ⟨rfl, hj, hj₂⟩ <;> rcases hj' with ⟨rfl, hj'⟩ | ⟨rfl, hj', hj₂'⟩ <;> simp only [Nat.mul_zero, Nat.mul_one, Nat.add_zero] at * <;>
    (rcases e2 with rfl | ⟨e2, e3⟩
     · simp only [Nat.mul_zero, Nat.zero_mul, Nat.add_zero] at *; omega
     · omega)

/-- One call in a body of such chunks. -/
theorem repeated_call {sz data : Bytes} (hf : SectionChunk sz data) {q d : Nat} (hdiv : data.length * q + d = 3 * 1024 * 1024) (hd : d < data.length) (hmod : d ≤ 1) {k j : Nat} (hk : k + j ≤ q) {st : ChunkState} {i u B : Bytes}
    (hin : InChunk sz data st j i u) (hB : B.length = data.length * (k + j)) {bs z : Bytes} (hp : bs <+: u ++ again (q - k) (wired sz data) ++ z) {Y : List Atom} (hY : Y = [] ∨ ∃ post, Y = WB :: post) :
    (∃ p x rest, crun prof ⟨B, st⟩ ⟨[3 * 1024 * 1024 - B.length], bs.map .byte ++ Y⟩ = (.io p .limitReached, ⟨[x], rest⟩)) ∨
    ∃ k' j' i' u' st' B' x, k' + j' ≤ q ∧ InChunk sz data st' j' i' u' ∧ B'.length = data.length * (k' + j') ∧ again k (wired sz data) ++ i ++ bs = again k' (wired sz data) ++ i' ∧
      crun prof ⟨B, st⟩ ⟨[3 * 1024 * 1024 - B.length], bs.map .byte ++ Y⟩ = (.io ⟨B', st'⟩ .wouldBlock, ⟨[x], Y.tail⟩) := by
  obtain ⟨hw, hu, -, hj⟩ := hin.whole
  have hupos := List.length_pos_iff.2 hu
  have hn := hf.pos
  generalize hlimdef : 3 * 1024 * 1024 - B.length = lim
  have hroom : lim ≤ (u ++ again (q - k) (wired sz data)).length := by
    obtain ⟨y, hy⟩ : ∃ y, q = k + y := ⟨q - k, by omega⟩
    have e1 : data.length * q = data.length * k + data.length * y := by rw [hy, Nat.mul_add]
    have e2 : data.length * y ≤ (again (q - k) (wired sz data)).length := by
      rw [again_length, wired_length, show q - k = y by omega, Nat.mul_comm]
      exact Nat.mul_le_mul_left _ (by omega)
    have e3 : data.length * (k + j) = data.length * k + data.length * j := Nat.mul_add ..
    rw [List.length_append]
    omega
  have hin' : ∀ x : Bytes, x <+: bs → x.length ≤ lim → x <+: u ++ again (q - k) (wired sz data) := fun x hx hl =>
    List.prefix_of_prefix_length_le (hx.trans hp) (List.prefix_append _ _) (by omega)
  by_cases hlim : lim ≤ bs.length
  · have hl : (bs.take lim).length = lim := by rw [List.length_take]; omega
    obtain ⟨h, -⟩ := chunks_call (prof := prof) hf _ (B := B) (lim := lim) (Y := (bs.drop lim).map .byte ++ Y) (Nat.le_refl _) hin (hin' (bs.take lim) (List.take_prefix _ _) (by omega))
    rw [← List.append_assoc, ← List.map_append, List.take_append_drop] at h
    exact .inl (h (by omega))
  · obtain ⟨-, h⟩ := chunks_call (prof := prof) hf _ (B := B) (lim := lim) (Y := Y) (Nat.le_refl _) hin (hin' _ (List.prefix_refl _) (by omega))
    obtain ⟨m, i', u', j', st', B', x, k1, k2, k3, k4⟩ := h (by omega) hY
    have hl := congrArg List.length k2
    rw [List.length_append, List.length_append, again_length, wired_length] at hl
    refine .inr ⟨k + m, j', i', u', st', B', x, ?_, k1, ?_, ?_, k4⟩
    · exact chunks_within hn hdiv hd hmod hk hj k1.whole.2.2.2 (by rw [← hB, hlimdef]; omega) hl
    · rw [Nat.mul_add] at hB k3 ⊢
      rw [Nat.mul_add]
      omega
    · rw [again_add, List.append_assoc, k2, List.append_assoc]

theorem addAll_all (fs : List (Bytes × Bytes)) : addAll [] fs = HeaderMap.fromPairs (fieldMap fs) := rfl

theorem addAll_append (hs : HeaderMap) (r₁ r₂ : List (Bytes × Bytes)) : addAll (addAll hs r₁) r₂ = addAll hs (r₁ ++ r₂) := by simp [addAll, fieldMap]

/-- A request whose chunked body repeats one chunk. -/
structure Chunked (l : Bytes) (fs : List (Bytes × Bytes)) (sz data : Bytes) (t : Method × Bytes) : Prop where
  text : OneLine l
  short : l.length ≤ 510
  line : parseRequestLine l = .ok t
  fields : ∀ f ∈ fs, FieldText f ∧ OneLine (fieldLine f)
  few : (fieldLines fs).length + 2 ≤ 4096
  framing : BodyParser.new (addAll [] fs) false = .ok (.chunked ⟨[], .size []⟩)
  chunk : SectionChunk sz data

section
variable {l : Bytes} {fs : List (Bytes × Bytes)} {sz data : Bytes} {t : Method × Bytes}

/-- What a call does, if the bytes up to the first pause are `bs`. -/
abbrev CallOn (prof : Profile) (l : Bytes) (fs : List (Bytes × Bytes)) (sz data : Bytes) (t : Method × Bytes) (p : RequestParser) (c bs : Bytes) (Y : List Atom) : Prop :=
  (∃ p' as', RequestParser.parse prof p (⟨[], bs.map .byte ++ Y⟩ : AR) = (.io p' .limitReached, ⟨[], as'⟩)) ∨
    ∃ p', RequestParser.parse prof p (⟨[], bs.map .byte ++ Y⟩ : AR) = (.io p' .wouldBlock, ⟨[], Y.tail⟩) ∧ Chunking (· ≤ 3 * 1024 * 1024 / data.length) l fs sz data t p' (c ++ bs)

theorem chunks_stage (h : Chunked l fs sz data t) (hmod : 3 * 1024 * 1024 % data.length ≤ 1) {k j : Nat} {i u B : Bytes} {st : ChunkState} (hin : InChunk sz data st j i u) (hB : B.length = data.length * (k + j)) (hk : k + j ≤ 3 * 1024 * 1024 / data.length)
    {bs z : Bytes} (hp : bs <+: u ++ again (3 * 1024 * 1024 / data.length - k) (wired sz data) ++ z) {Y : List Atom} (hY : Y = [] ∨ ∃ post, Y = WB :: post) :
    CallOn prof l fs sz data t (.body t (addAll [] fs) (.chunked ⟨B, st⟩)) (ended l ++ (fieldLines fs ++ (CRLF ++ (again k (wired sz data) ++ i)))) bs Y := by
  obtain ⟨m, v⟩ := t
  have hdiv := Nat.div_add_mod (3 * 1024 * 1024) data.length
  have hle : B.length ≤ 3 * 1024 * 1024 := by
    have := Nat.mul_le_mul_left data.length hk
    omega
  have hsub := sub_le prof hle
  rcases repeated_call (prof := prof) h.chunk hdiv (Nat.mod_lt _ h.chunk.pos) hmod hk hin hB hp hY with ⟨p, x, rest, h1⟩ | ⟨k', j', i', u', st', B', x, h1, h2, h3, h4, h5⟩
  · exact .inl ⟨_, _, body_chunk hsub h1⟩
  · refine .inr ⟨_, body_chunk hsub h5, ?_⟩
    have e : ended l ++ (fieldLines fs ++ (CRLF ++ (again k (wired sz data) ++ i))) ++ bs = ended l ++ (fieldLines fs ++ (CRLF ++ (again k' (wired sz data) ++ i'))) := by
      rw [← h4]
      simp only [List.append_assoc]
    rw [e]
    exact .chunks h2 h3 h1

theorem heads_stage (h : Chunked l fs sz data t) (hmod : 3 * 1024 * 1024 % data.length ≤ 1) {r₁ r₂ : List (Bytes × Bytes)} {i w : Bytes} (e : fs = r₁ ++ r₂) (hi : i ++ w = fieldLines r₂ ++ CRLF) (hlt : i.length < (curLine r₂).length)
    {bs z : Bytes} (hp : bs <+: w ++ again (3 * 1024 * 1024 / data.length + 1) (wired sz data) ++ z) {Y : List Atom} (hY : Y = [] ∨ ∃ post, Y = WB :: post) :
    CallOn prof l fs sz data t (.headers t ⟨i, addAll [] r₁, lineSum r₁⟩) (ended l ++ (fieldLines r₁ ++ i)) bs Y := by
  have hfew := h.few
  have hsum := lineSum_le r₁
  have hwl := congrArg List.length hi
  rw [e, fieldLines_append, List.length_append] at hfew
  rw [List.length_append, List.length_append, show CRLF.length = 2 from rfl] at hwl
  obtain ⟨h1, h2⟩ := heads_call (prof := prof) r₂ (fun f hf => h.fields f (by rw [e]; simp [hf])) (hs := addAll [] r₁) (rd := lineSum r₁) (lim := 4096 - lineSum r₁) hi hlt
  by_cases hd : w <+: bs
  · obtain ⟨bs', rfl⟩ := hd
    rw [List.append_assoc] at hp
    have hp' := (List.prefix_append_right_inj w).1 hp
    have e1 := h1 (by omega) (bs'.map .byte ++ Y)
    rw [addAll_append, ← e] at e1
    have e2 := request_heads_done (prof := prof) (t := t) (p := ⟨i, addAll [] r₁, lineSum r₁⟩) (by simp only; omega) h.framing e1
    rw [again_succ] at hp'
    have := chunks_stage (prof := prof) h hmod (k := 0) (j := 0) (B := []) (.size (l := []) (u := ended sz) rfl (by simp [ended, CRLF])) (by simp) (Nat.zero_le _) (bs := bs') (z := z) hp' hY
    have e3 : ended l ++ (fieldLines r₁ ++ i) ++ (w ++ bs') = ended l ++ (fieldLines fs ++ (CRLF ++ (again 0 (wired sz data) ++ []))) ++ bs' := by
      rw [e, fieldLines_append]
      simp only [List.append_assoc, again, List.replicate_zero, List.flatten_nil, List.nil_append]
      rw [← List.append_assoc i, hi]
      simp only [List.append_assoc]
    unfold CallOn at this ⊢
    rw [e3, List.map_append, List.append_assoc, e2]
    exact this
  · rw [List.append_assoc] at hp
    have h3 : bs.length < w.length := Nat.lt_of_not_le fun h => hd (List.prefix_of_prefix_length_le (List.prefix_append _ _) hp h)
    obtain ⟨r, r', i', w', x, k1, k2, k3, k4, k5⟩ := h2 (List.prefix_of_prefix_length_le hp (List.prefix_append _ _) (by omega)) h3 (by omega) hY
    refine .inr ⟨_, request_headers (p := ⟨i, addAll [] r₁, lineSum r₁⟩) (by simp only; omega) k5, ?_⟩
    have e1 : ended l ++ (fieldLines r₁ ++ i) ++ bs = ended l ++ (fieldLines (r₁ ++ r) ++ i') := by
      rw [fieldLines_append]
      simp only [List.append_assoc]
      rw [k4]
    have e2 : lineSum r₁ + lineSum r = lineSum (r₁ ++ r) := by simp [lineSum]
    rw [e1, addAll_append, e2]
    exact .heads (by rw [e, k1, List.append_assoc]) k2 k3

theorem first_stage (h : Chunked l fs sz data t) (hmod : 3 * 1024 * 1024 % data.length ≤ 1) {c u : Bytes} (hc : c ++ u = ended l) (hu : u ≠ []) {bs z : Bytes}
    (hp : bs <+: u ++ (fieldLines fs ++ CRLF ++ again (3 * 1024 * 1024 / data.length + 1) (wired sz data)) ++ z) {Y : List Atom} (hY : Y = [] ∨ ∃ post, Y = WB :: post) :
    CallOn prof l fs sz data t (.firstLine c) c bs Y := by
  rw [List.append_assoc] at hp
  by_cases hd : u <+: bs
  · obtain ⟨bs', rfl⟩ := hd
    have hp' := (List.prefix_append_right_inj u).1 hp
    have := heads_stage (prof := prof) h hmod (r₁ := []) (r₂ := fs) (i := []) rfl rfl (curLine_pos fs) hp' hY
    have e : c ++ (u ++ bs') = ended l ++ (fieldLines [] ++ []) ++ bs' := by
      rw [← List.append_assoc, hc]
      simp [fieldLines]
    unfold CallOn at this ⊢
    rw [e, List.map_append, List.append_assoc, request_line_done prof h.text h.short h.line hc hu]
    exact this
  · have h3 : bs.length < u.length := Nat.lt_of_not_le fun h => hd (List.prefix_of_prefix_length_le (List.prefix_append _ _) hp h)
    obtain ⟨u', rfl⟩ : bs <+: u := List.prefix_of_prefix_length_le hp (List.prefix_append _ _) (by omega)
    have hu' : u' ≠ [] := by rintro rfl; simp at h3
    exact .inr ⟨_, request_line_pauses prof h.text h.short hc hu' hY, .first (by rw [List.append_assoc]; exact hc) hu'⟩

/-- Chunks without an end, of a size that divides the limit or one less. -/
theorem Chunked.hopeless (h : Chunked l fs sz data t) (hmod : 3 * 1024 * 1024 % data.length ≤ 1) (prof : Profile) :
    Hopeless prof (ended l ++ (fieldLines fs ++ CRLF ++ again (3 * 1024 * 1024 / data.length + 1) (wired sz data))) := by
  refine hopeless_of (S := Chunking (· ≤ 3 * 1024 * 1024 / data.length) l fs sz data t) (.first (u := ended l) rfl (by simp [ended, CRLF])) ?_ ?_
  · intro p c hS
    cases hS with
    | @first _ u hc hu =>
      have := congrArg List.length hc
      have := List.length_pos_iff.2 hu
      rw [List.length_append] at *
      omega
    | @heads r₁ r₂ i w e hi hlt =>
      have hl := congrArg List.length hi
      have hr : (curLine r₂).length ≤ (fieldLines r₂ ++ CRLF).length := by
        cases r₂ with
        | nil => simp [curLine, fieldLines]
        | cons f r => rw [curLine, fieldLines_cons]; simp only [List.length_append]; omega
      rw [e, fieldLines_append]
      simp only [List.length_append] at *
      omega
    | @chunks k j i u B st hin hB hk =>
      obtain ⟨hw, hu, -⟩ := hin.whole
      have hl := congrArg List.length hw
      have := List.length_pos_iff.2 hu
      rw [show 3 * 1024 * 1024 / data.length + 1 = k + (3 * 1024 * 1024 / data.length - k + 1) by omega, again_add, again_succ]
      simp only [List.length_append (as := i)] at hl
      simp only [List.length_append (as := ended l), List.length_append (as := fieldLines fs), List.length_append (as := fieldLines fs ++ CRLF), List.length_append (as := CRLF), List.length_append (as := again _ _),
        List.length_append (as := wired sz data)]
      omega
  · intro p c as z hS ho hp
    obtain ⟨bs, Y, hY, e, eb, es⟩ := upto_pause ho
    rw [eb] at hp ⊢
    rw [e] at es ⊢
    have hp' : c ++ bs <+: ended l ++ (fieldLines fs ++ CRLF ++ again (3 * 1024 * 1024 / data.length + 1) (wired sz data)) ++ z := by
      refine List.IsPrefix.trans ?_ hp
      rw [← List.append_assoc]
      exact List.prefix_append _ _
    have key : CallOn prof l fs sz data t p c bs Y := by
      clear hp eb es e ho
      cases hS with
      | @first _ u hc hu =>
        rw [← hc, List.append_assoc, List.append_assoc, List.prefix_append_right_inj, ← List.append_assoc] at hp'
        exact first_stage h hmod hc hu hp' hY
      | @heads r₁ r₂ i w e hi hlt =>
        have e₁ : fieldLines fs ++ CRLF = fieldLines r₁ ++ (i ++ w) := by rw [e, fieldLines_append, hi, List.append_assoc]
        rw [e₁] at hp'
        simp only [List.append_assoc (ended l), List.append_assoc (fieldLines r₁), List.append_assoc i, List.prefix_append_right_inj] at hp'
        exact heads_stage h hmod e hi hlt hp' hY
      | @chunks k j i u B st hin hB hk =>
        have e₁ : again (3 * 1024 * 1024 / data.length + 1) (wired sz data) = again k (wired sz data) ++ (i ++ (u ++ again (3 * 1024 * 1024 / data.length - k) (wired sz data))) := by
          rw [← List.append_assoc i, hin.whole.1, ← again_succ, ← again_add]
          congr 1
          omega
        rw [e₁] at hp'
        simp only [List.append_assoc (ended l), List.append_assoc (fieldLines fs), List.append_assoc CRLF, List.append_assoc (again k (wired sz data)), List.append_assoc i, List.prefix_append_right_inj] at hp'
        exact chunks_stage h hmod hin hB hk hp' hY
    rcases key with h1 | ⟨p', h1, h2⟩
    · exact .inl h1
    · exact .inr ⟨p', c ++ bs, Y.tail, h1, h2, by rw [List.append_assoc], es⟩

end

theorem chunked_of {m : Method} {u l : Bytes} {fs : List (Bytes × Bytes)} {c : Bytes × Bytes} (h1 : RequestLine m u l) (h2 : LineText l) (h3 : ∀ f ∈ fs, FieldText f) (h4 : ∀ x ∈ l ++ fieldLines fs, x < 128)
    (h5 : (fieldLines fs).length + 2 ≤ 4096) (h6 : Announces (fieldMap fs) false (.ok .chunked)) (h7 : ChunkText c) : Chunked l fs c.1 c.2 (m, u) := by
  have hlf : ∀ f ∈ fs, OneLine (fieldLine f) := fun f hf x hx => ⟨h4 x (by simp only [fieldLines, List.mem_append, List.mem_flatMap]; exact .inr ⟨f, hf, .inl hx⟩), by rintro rfl; exact (h3 f hf).line.noLf hx⟩
  exact ⟨fun x hx => ⟨h4 x (by simp [hx]), by rintro rfl; exact h2.noLf hx⟩, h2.short, requestLine_iff.2 h1, fun f hf => ⟨h3 f hf, hlf f hf⟩, h5, parser_announces h6,
    ⟨fun x hx => by have := unsigned_ascii h7.size x hx; exact ⟨by rw [UInt8.lt_iff_toNat_lt]; simp; omega, by rintro rfl; simp [LF] at this⟩, h7.short, List.length_pos_iff.2 h7.nonEmpty, parseChunkSize_text h7.size h7.max⟩⟩

theorem Interminable.hopeless {b : Bytes} (h : Interminable b) (prof : Profile) : Hopeless prof b := by
  cases h with
  | line h hl => exact h.hopeless hl
  | @fields m u l f h1 h2 h3 h4 h5 =>
    refine SectionLine.hopeless (fl := l) (fun c hc => ⟨h4 c (by simp [hc]), ?_⟩) h2.short (requestLine_iff.2 h1) ⟨fun c hc => ⟨h4 c (by simp [hc]), ?_⟩, List.length_pos_iff.2 (fieldLine_ne_nil f), h3.line.short, _, parseHeader_field h3⟩ h5 prof
    · rintro rfl; exact h2.noLf hc
    · rintro rfl; exact h3.line.noLf hc
  | @chunks m u l fs c h1 h2 h3 h4 h5 h6 h7 h8 => exact Chunked.hopeless (chunked_of h1 h2 h3 h4 h5 h6 h7) h8 prof

end Verif
