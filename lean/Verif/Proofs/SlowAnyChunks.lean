import Verif.Proofs.EndlessChunks
import Verif.Proofs.SlowLines

/-!
A chunked body in which one chunk is repeated, one byte at a time.
-/

namespace Verif

variable {prof : Profile} {l : Bytes} {fs : List (Bytes × Bytes)} {sz data : Bytes} {t : Method × Bytes}

/-- The parser after it has read `c`, whatever the number of chunks. -/
abbrev SlowAt (l : Bytes) (fs : List (Bytes × Bytes)) (sz data : Bytes) (t : Method × Bytes) : RequestParser → Bytes → Prop := Chunking (fun _ => True) l fs sz data t

theorem slow_chunks_stage (h : Chunked l fs sz data t) {k j K : Nat} {i u B : Bytes} {st : ChunkState} (hin : InChunk sz data st j i u) (hB : B.length = data.length * (k + j)) {lim : Nat}
    (hl : prof.sub (3 * 1024 * 1024) B.length = some lim) (h2 : 2 ≤ lim) {bs : Bytes} (hb : bs.length ≤ 1) (hp : bs <+: u ++ again K (wired sz data)) :
    ∃ p', RequestParser.parse prof (.body t (addAll [] fs) (.chunked ⟨B, st⟩)) (⟨[], bs.map .byte⟩ : AR) = (.io p' .wouldBlock, ⟨[], []⟩) ∧
      SlowAt l fs sz data t p' (ended l ++ (fieldLines fs ++ (CRLF ++ (again k (wired sz data) ++ i))) ++ bs) := by
  obtain ⟨m, v⟩ := t
  obtain ⟨m', i', u', j', st', B', x, k1, k2, k3, k4⟩ := (chunks_call (prof := prof) h.chunk _ (B := B) (lim := lim) (Y := []) (Nat.le_refl _) hin hp).2 (by omega) (.inl rfl)
  rw [List.append_nil] at k4
  refine ⟨_, body_chunk hl k4, ?_⟩
  have e : ended l ++ (fieldLines fs ++ (CRLF ++ (again k (wired sz data) ++ i))) ++ bs = ended l ++ (fieldLines fs ++ (CRLF ++ (again (k + m') (wired sz data) ++ i'))) := by
    rw [again_add]
    simp only [List.append_assoc (ended l), List.append_assoc (fieldLines fs), List.append_assoc CRLF, List.append_assoc (again _ _)]
    rw [k2]
  rw [e]
  refine .chunks k1 ?_ trivial
  rw [Nat.mul_add] at hB k3 ⊢
  rw [Nat.mul_add]
  omega

theorem slow_heads_stage (h : Chunked l fs sz data t) {r₁ r₂ : List (Bytes × Bytes)} {i w : Bytes} (e : fs = r₁ ++ r₂) (hi : i ++ w = fieldLines r₂ ++ CRLF) (hlt : i.length < (curLine r₂).length) {K : Nat}
    {bs : Bytes} (hb : bs.length ≤ 1) (hp : bs <+: w ++ again K (wired sz data)) :
    ∃ p', RequestParser.parse prof (.headers t ⟨i, addAll [] r₁, lineSum r₁⟩) (⟨[], bs.map .byte⟩ : AR) = (.io p' .wouldBlock, ⟨[], []⟩) ∧ SlowAt l fs sz data t p' (ended l ++ (fieldLines r₁ ++ i) ++ bs) := by
  have hfew := h.few
  have hsum := lineSum_le r₁
  have hwl := congrArg List.length hi
  rw [e, fieldLines_append, List.length_append] at hfew
  rw [List.length_append, List.length_append, show CRLF.length = 2 from rfl] at hwl
  obtain ⟨h1, h2⟩ := heads_call (prof := prof) r₂ (fun f hf => h.fields f (by rw [e]; simp [hf])) (hs := addAll [] r₁) (rd := lineSum r₁) (lim := 4096 - lineSum r₁) hi hlt
  by_cases hd : w <+: bs
  · obtain ⟨bs', rfl⟩ := hd
    rw [List.length_append] at hb
    have hp' := (List.prefix_append_right_inj w).1 hp
    have e1 := h1 (by omega) (bs'.map .byte)
    rw [addAll_append, ← e] at e1
    have e2 := request_heads_done (prof := prof) (t := t) (p := ⟨i, addAll [] r₁, lineSum r₁⟩) (by simp only; omega) h.framing e1
    obtain ⟨p', g1, g2⟩ := slow_chunks_stage (prof := prof) h (k := 0) (j := 0) (B := []) (.size (l := []) (u := ended sz) rfl (by simp [ended, CRLF])) (by simp) (sub_le prof (Nat.zero_le _)) (by decide) (bs := bs')
      (by omega) (hp'.trans (again_grows K (wired sz data)))
    have e3 : ended l ++ (fieldLines r₁ ++ i) ++ (w ++ bs') = ended l ++ (fieldLines fs ++ (CRLF ++ (again 0 (wired sz data) ++ []))) ++ bs' := by
      rw [e, fieldLines_append]
      simp only [List.append_assoc, again, List.replicate_zero, List.flatten_nil, List.nil_append]
      rw [← List.append_assoc i, hi]
      simp only [List.append_assoc]
    rw [e3, List.map_append, e2]
    exact ⟨p', g1, g2⟩
  · have h3 : bs.length < w.length := Nat.lt_of_not_le fun h => hd (List.prefix_of_prefix_length_le (List.prefix_append _ _) hp h)
    obtain ⟨r, r', i', w', x, k1, k2, k3, k4, k5⟩ := h2 (Y := []) (List.prefix_of_prefix_length_le hp (List.prefix_append _ _) (by omega)) h3 (by omega) (.inl rfl)
    rw [List.append_nil] at k5
    refine ⟨_, request_headers (p := ⟨i, addAll [] r₁, lineSum r₁⟩) (by simp only; omega) k5, ?_⟩
    have e1 : ended l ++ (fieldLines r₁ ++ i) ++ bs = ended l ++ (fieldLines (r₁ ++ r) ++ i') := by
      rw [fieldLines_append]
      simp only [List.append_assoc]
      rw [k4]
    have e2 : lineSum r₁ + lineSum r = lineSum (r₁ ++ r) := by simp [lineSum]
    rw [e1, addAll_append, e2]
    exact .heads (by rw [e, k1, List.append_assoc]) k2 k3

theorem slow_first_stage (h : Chunked l fs sz data t) {c u : Bytes} (hc : c ++ u = ended l) (hu : u ≠ []) {K : Nat} {bs : Bytes} (hb : bs.length ≤ 1)
    (hp : bs <+: u ++ (fieldLines fs ++ CRLF ++ again K (wired sz data))) :
    ∃ p', RequestParser.parse prof (.firstLine c) (⟨[], bs.map .byte⟩ : AR) = (.io p' .wouldBlock, ⟨[], []⟩) ∧ SlowAt l fs sz data t p' (c ++ bs) := by
  by_cases hd : u <+: bs
  · obtain ⟨bs', rfl⟩ := hd
    rw [List.length_append] at hb
    have hp' := (List.prefix_append_right_inj u).1 hp
    obtain ⟨p', g1, g2⟩ := slow_heads_stage (prof := prof) h (r₁ := []) (r₂ := fs) (i := []) rfl rfl (curLine_pos fs) (bs := bs') (by omega) hp'
    have e : c ++ (u ++ bs') = ended l ++ (fieldLines [] ++ []) ++ bs' := by
      rw [← List.append_assoc, hc]
      simp [fieldLines]
    rw [e, List.map_append, request_line_done prof h.text h.short h.line hc hu]
    exact ⟨p', g1, g2⟩
  · have h3 : bs.length < u.length := Nat.lt_of_not_le fun h => hd (List.prefix_of_prefix_length_le (List.prefix_append _ _) hp h)
    obtain ⟨u', rfl⟩ : bs <+: u := List.prefix_of_prefix_length_le hp (List.prefix_append _ _) (by omega)
    have hu' : u' ≠ [] := by rintro rfl; simp at h3
    have := request_line_pauses prof h.text h.short hc hu' (Y := []) (.inl rfl)
    rw [List.append_nil] at this
    exact ⟨_, this, .first (by rw [List.append_assoc]; exact hc) hu'⟩

/-- The request up to the body. -/
abbrev headOf (l : Bytes) (fs : List (Bytes × Bytes)) : Bytes := ended l ++ (fieldLines fs ++ CRLF)

/-- Where the parser is, by the number of bytes it has read. -/
theorem SlowAt.where {p : RequestParser} {c : Bytes} (h : SlowAt l fs sz data t p c) : c.length < (headOf l fs).length ∨
    ∃ k j i u B st, InChunk sz data st j i u ∧ B.length = data.length * (k + j) ∧ c = ended l ++ (fieldLines fs ++ (CRLF ++ (again k (wired sz data) ++ i))) ∧ p = .body t (addAll [] fs) (.chunked ⟨B, st⟩) ∧
      c.length = (headOf l fs).length + (k * (sz.length + data.length + 4) + i.length) := by
  cases h with
  | @first _ u hc hu =>
    have h1 := congrArg List.length hc
    have := List.length_pos_iff.2 hu
    rw [headOf, List.length_append (as := ended l)]
    rw [List.length_append (as := c)] at h1
    exact .inl (by omega)
  | @heads r₁ r₂ i w e hi hlt =>
    have hr : (curLine r₂).length ≤ (fieldLines r₂ ++ CRLF).length := by
      cases r₂ with
      | nil => simp [curLine, fieldLines]
      | cons f r => rw [curLine, fieldLines_cons]; simp only [List.length_append]; omega
    rw [headOf, e, fieldLines_append]
    simp only [List.length_append] at *
    exact .inl (by omega)
  | @chunks k j i u B st hin hB _ =>
    refine .inr ⟨k, j, i, u, B, st, hin, hB, rfl, rfl, ?_⟩
    rw [List.length_append (as := ended l), List.length_append (as := fieldLines fs), List.length_append (as := CRLF), List.length_append (as := again _ _), again_length, wired_length, headOf, List.length_append (as := ended l), List.length_append (as := fieldLines fs)]
    omega

/-- Such a request, one byte at a time, as long as there are two bytes to go to the limit whenever a call begins. -/
theorem slow_run (h : Chunked l fs sz data t) {Q : Nat} (hk : ∀ q ≤ Q, ∃ lim, prof.sub (3 * 1024 * 1024) (data.length * q) = some lim ∧ 2 ≤ lim) (bs : Bytes) : ∀ {c : Bytes} {p : RequestParser}, SlowAt l fs sz data t p c →
    c ++ bs <+: headOf l fs ++ again (Q + 1) (wired sz data) → (c ++ bs).length ≤ (headOf l fs).length + (Q * (sz.length + data.length + 4) + (sz.length + 2 + data.length)) →
    ∃ p', Slowly prof p bs p' ∧ SlowAt l fs sz data t p' (c ++ bs) := by
  induction bs with
  | nil => intro c p hS _ _; exact ⟨p, .nil, by rw [List.append_nil]; exact hS⟩
  | cons b bs ih =>
    intro c p hS hp hlen
    have hp₁ : c ++ [b] <+: headOf l fs ++ again (Q + 1) (wired sz data) := by
      refine List.IsPrefix.trans ?_ hp
      exact (List.prefix_append_right_inj c).2 ⟨bs, rfl⟩
    have hlt : c.length < (headOf l fs).length + (Q * (sz.length + data.length + 4) + (sz.length + 2 + data.length)) := by
      rw [List.length_append, List.length_cons] at hlen
      omega
    have step : ∃ p', RequestParser.parse prof p (⟨[], [.byte b]⟩ : AR) = (.io p' .wouldBlock, ⟨[], []⟩) ∧ SlowAt l fs sz data t p' (c ++ [b]) := by
      have hw := hS.where
      cases hS with
      | @first _ u hc hu =>
        rw [headOf, ← hc, List.append_assoc, List.append_assoc, List.prefix_append_right_inj] at hp₁
        exact slow_first_stage h hc hu (bs := [b]) (by simp) hp₁
      | @heads r₁ r₂ i w e hi hcur =>
        have e₁ : headOf l fs = ended l ++ (fieldLines r₁ ++ (i ++ w)) := by rw [headOf, e, fieldLines_append, hi, List.append_assoc (fieldLines r₁)]
        rw [e₁] at hp₁
        simp only [List.append_assoc (ended l), List.append_assoc (fieldLines r₁), List.append_assoc i, List.prefix_append_right_inj] at hp₁
        exact slow_heads_stage h e hi hcur (bs := [b]) (by simp) hp₁
      | @chunks k j i u B st hin hB _ =>
        obtain ⟨hwhole, -, -, hj⟩ := hin.whole
        have hcl : (ended l ++ (fieldLines fs ++ (CRLF ++ (again k (wired sz data) ++ i)))).length = (headOf l fs).length + (k * (sz.length + data.length + 4) + i.length) := by
          rw [List.length_append (as := ended l), List.length_append (as := fieldLines fs), List.length_append (as := CRLF), List.length_append (as := again _ _), again_length, wired_length, headOf, List.length_append (as := ended l), List.length_append (as := fieldLines fs)]
          omega
        rw [hcl] at hlt
        have hkq : k ≤ Q := by
          refine Nat.le_of_not_lt fun hkq => ?_
          have := Nat.mul_le_mul_right (sz.length + data.length + 4) (show Q + 1 ≤ k from hkq)
          rw [Nat.add_mul, Nat.one_mul] at this
          omega
        have hkj : k + j ≤ Q := by
          rcases Nat.lt_or_eq_of_le hkq with hkq | rfl
          · omega
          · omega
        obtain ⟨lim, hl, h2⟩ := hk _ hkj
        have e₁ : again (Q + 1) (wired sz data) = again k (wired sz data) ++ (i ++ (u ++ again (Q - k) (wired sz data))) := by
          rw [← List.append_assoc i, hwhole, ← again_succ, ← again_add]
          congr 1
          omega
        rw [e₁, headOf] at hp₁
        simp only [List.append_assoc (ended l), List.append_assoc (fieldLines fs), List.append_assoc CRLF, List.append_assoc (again k (wired sz data)), List.append_assoc i, List.prefix_append_right_inj] at hp₁
        exact slow_chunks_stage h hin hB (by rw [hB]; exact hl) h2 (bs := [b]) (by simp) hp₁
    obtain ⟨p₁, g1, g2⟩ := step
    have e : c ++ b :: bs = c ++ [b] ++ bs := by simp
    rw [e] at hp hlen ⊢
    obtain ⟨p', k1, k2⟩ := ih g2 hp hlen
    exact ⟨p', .cons (fun X => (request_block X (by simp [WB]) g1).2) k1, k2⟩

end Verif
