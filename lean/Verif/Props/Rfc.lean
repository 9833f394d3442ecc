import Verif.Spec.Rfc
import Verif.Props.Message

/-!
C63: the server reads requests as HTTP/1.1 says.
-/

namespace Verif

theorem fold_eq (t : Bytes) : Rfc.fold t = lower t := by
  unfold Rfc.fold lower lowerByte
  refine List.map_congr_left fun b _ => ?_
  simp [Bool.and_eq_true, decide_eq_true_eq]

theorem ofStr_standard {t n : Bytes} (hn : n ∈ standardNames) (hl : lower n = n) : Header.ofStr t = .standard n ↔ Rfc.fold t = n := by
  rw [fold_eq]
  unfold Header.ofStr
  dsimp only
  split
  · constructor
    · intro h; cases h; rfl
    · rintro rfl; rfl
  · next h =>
    constructor
    · intro h; cases h
    · rintro rfl; exact absurd hn h

theorem find_fields {fs : List (Bytes × Bytes)} {n : Bytes} {k : Header} (hk : ∀ t, Header.ofStr t = k ↔ Rfc.fold t = n) :
    ((fieldMap fs).find? fun p => p.1 = k).map Prod.snd = (fs.filter fun f => Rfc.fold f.1 = n).head?.map Prod.snd := by
  induction fs with
  | nil => rfl
  | cons f fs ih =>
    simp only [fieldMap, List.map_cons, List.find?_cons, List.filter_cons] at ih ⊢
    by_cases h : Rfc.fold f.1 = n
    · simp [h, (hk f.1).2 h]
    · have : ¬ Header.ofStr f.1 = k := fun h' => h ((hk _).1 h')
      simp only [h, this, decide_false, Bool.false_eq_true, if_false]
      exact ih

theorem no_fields {fs : List (Bytes × Bytes)} {n : Bytes} {k : Header} (hk : ∀ t, Header.ofStr t = k ↔ Rfc.fold t = n)
    (h : fs.filter (fun f => Rfc.fold f.1 = n) = []) : ∀ p ∈ fieldMap fs, p.1 ≠ k := by
  intro p hp hpk
  obtain ⟨f, hf, rfl⟩ := List.mem_map.1 hp
  have := List.filter_eq_nil_iff.1 h f hf
  exact this (by simpa using (hk _).1 hpk)

theorem cl_iff (t : Bytes) : Header.ofStr t = Header.contentLength ↔ Rfc.fold t = b!"content-length" := ofStr_standard (by decide) (by decide)
theorem te_iff (t : Bytes) : Header.ofStr t = Header.transferEncoding ↔ Rfc.fold t = b!"transfer-encoding" := ofStr_standard (by decide) (by decide)

theorem u8_forall {p : UInt8 → Bool} (h : ∀ n < 256, p (UInt8.ofNat n) = true) (b : UInt8) : p b = true := by
  have := h b.toNat b.toNat_lt
  rwa [UInt8.ofNat_toNat] at this

theorem tchar_range {b : UInt8} (h : Rfc.tchar b = true) : 33 ≤ b ∧ b ≤ 126 ∧ b ≠ 58 ∧ b ≠ 44 := by
  have := u8_forall (p := fun b => !Rfc.tchar b || decide (33 ≤ b ∧ b ≤ 126 ∧ b ≠ 58 ∧ b ≠ 44)) (by decide +kernel) b
  simpa [h] using this

theorem content_ne {b : UInt8} (h : Rfc.content b = true) : b ≠ 10 ∧ b ≠ 13 := by
  have := u8_forall (p := fun b => !Rfc.content b || decide (b ≠ 10 ∧ b ≠ 13)) (by decide +kernel) b
  simpa [h] using this

theorem Rfc.Token.ascii {t : Bytes} (h : Rfc.Token t) : ∀ c ∈ t, c < 128 := fun c hc => by
  have := (tchar_range (h.2 c hc)).2.1
  have h1 : c.toNat ≤ 126 := this
  show c.toNat < 128
  omega

theorem trim_of {v : Bytes} (h : Rfc.FieldValue v) : Rfc.trim v = v := by
  have h1 : v.dropWhile Rfc.blank = v := by
    cases v with
    | nil => rfl
    | cons b v => rw [List.dropWhile_cons, if_neg (by simp [h.first b rfl])]
  have h2 : v.reverse.dropWhile Rfc.blank = v.reverse := by
    cases hv : v.reverse with
    | nil => rfl
    | cons b t =>
      rw [List.dropWhile_cons, if_neg]
      rw [h.last b (by rw [← List.head?_reverse, hv]; rfl)]; simp
  rw [Rfc.trim, h1, h2, List.reverse_reverse]

theorem commas_of {v : Bytes} (h : (44 : UInt8) ∉ v) : Rfc.commas v = [v] := by
  induction v with
  | nil => rfl
  | cons b v ih =>
    rw [Rfc.commas, if_neg (fun hb => h (by simp [hb])), ih (fun hv => h (by simp [hv]))]

theorem values_one {fs : List (Bytes × Bytes)} {n f v : Bytes} (h : fs.filter (fun f => Rfc.fold f.1 = n) = [(f, v)]) (hv : Rfc.FieldValue v) (hc : (44 : UInt8) ∉ v) :
    Rfc.values fs n = [v] := by
  simp only [Rfc.values, h, List.flatMap_cons, List.flatMap_nil, List.append_nil, commas_of hc, List.map_cons, List.map_nil, trim_of hv]

theorem values_none {fs : List (Bytes × Bytes)} {n : Bytes} (h : fs.filter (fun f => Rfc.fold f.1 = n) = []) : Rfc.values fs n = [] := by
  simp only [Rfc.values, h, List.flatMap_nil]

theorem section_of {fs : List (Bytes × Bytes)} (h : ∀ f ∈ fs, Rfc.Token f.1 ∧ Rfc.FieldValue f.2) : Rfc.Section fs (fieldLines fs) := by
  induction fs with
  | nil => exact .nil
  | cons f fs ih =>
    refine .cons ⟨(h f (by simp)).1, (h f (by simp)).2, [32], [], by decide, by simp, ?_⟩ (ih fun x hx => h x (by simp [hx]))
    simp [fieldLine]

theorem method_token (x : Method) : Rfc.Token x.text := by cases x <;> exact ⟨by decide, by decide⟩

theorem numeral_value {v : Bytes} {n : Nat} (h : Numeral 10 v n) : (44 : UInt8) ∉ v := by
  intro hm
  have := numeral_digits h 44 hm
  simp at this

/-- A plain request is a request. -/
theorem Rfc.Plain.request {w : Bytes} {m : Rfc.Message} (h : Rfc.Plain w m) : Rfc.RequestOf w m := by
  obtain ⟨⟨x, hx⟩, ⟨ht, ht'⟩, -, hf, -, version, bw, hv, hw, hb⟩ := h
  have hval : ∀ {n f v}, m.fields.filter (fun f => Rfc.fold f.1 = n) = [(f, v)] → Rfc.FieldValue v := by
    intro n f v h
    have : (f, v) ∈ m.fields := (List.mem_filter.1 (by rw [h]; simp : (f, v) ∈ m.fields.filter (fun f => Rfc.fold f.1 = n))).1
    exact (hf _ this).2.1
  have hline : Rfc.RequestLine m (m.method ++ [SP] ++ m.target ++ [SP] ++ version) := ⟨version, hv, by rw [← hx]; exact method_token x, ht, ht', rfl⟩
  have hsec := section_of (fs := m.fields) fun f h => ⟨(hf f h).1, (hf f h).2.1⟩
  rcases hb with ⟨h1, h2, h3, h4⟩ | ⟨f, v, h1, h2, h3, -, h5⟩ | ⟨f, h1, h2, -, cs, z, h4, h5, -, h6, h7⟩
  · exact ⟨_, _, .noBody, bw, hline, hsec, .none (values_none h2) (values_none h1), ⟨h3, h4⟩, hw⟩
  · have hvs := values_one h1 (hval h1) (numeral_value h3)
    exact ⟨_, _, .length m.body.length, bw, hline, hsec, .length (v := v) (values_none h2) (by simp [hvs]) (by simp [hvs]) h3, ⟨h5, rfl⟩, hw⟩
  · refine ⟨_, _, .chunked, bw, hline, hsec, .chunked (cs := []) (c := b!"chunked") (values_one h2 (hval h2) (by decide)) (by decide), ?_, hw⟩
    show Rfc.Chunked bw m.body
    rw [h6, h7]
    clear h6 h7 hw
    induction cs with
    | nil =>
      have := Rfc.Chunked.last (z := z) (e := []) h5 (.inl rfl) .nil
      simpa [chunkLines, chunkData] using this
    | cons c cs ih =>
      have := Rfc.Chunked.chunk (z := c.1) (e := []) (d := c.2) (h4 c (by simp)).1 (h4 c (by simp)).2.2 (.inl rfl) (ih fun x hx => h4 x (by simp [hx]))
      simpa [chunkLines, chunkData] using this

theorem Rfc.Plain.fits {w : Bytes} {m : Rfc.Message} (h : Rfc.Plain w m) : ∃ q, Rfc.Means m q ∧ FittingRequest w q := by
  obtain ⟨⟨x, hx⟩, ⟨ht, ht'⟩, hl, hf, hs, version, bw, hv, hw, hb⟩ := h
  have hvl : version.length = 8 ∧ (∀ c ∈ version, c < 128) ∧ LF ∉ version := by
    rcases hv with rfl | rfl <;> decide
  have hta : ∀ c ∈ m.target, c < 128 ∧ c ≠ SP ∧ c ≠ LF := by
    intro c hc
    obtain ⟨h1, h2⟩ := ht' c hc
    have h1' : 33 ≤ c.toNat := h1
    have h2' : c.toNat ≤ 126 := h2
    refine ⟨show c.toNat < 128 by omega, ?_, ?_⟩ <;> (rintro rfl; exact absurd h1' (by decide))
  have hline : LineText (m.method ++ [SP] ++ m.target ++ [SP] ++ version) := by
    have hm : ∀ c ∈ m.method, c < 128 ∧ c ≠ LF := by
      rw [← hx]; cases x <;> decide
    refine ⟨?_, utf8_ascii ?_, ?_⟩
    · simp only [List.mem_append, List.mem_cons, List.not_mem_nil, or_false]
      rintro ((((h | h) | h) | h) | h)
      · exact (hm _ h).2 rfl
      · cases h
      · exact (hta _ h).2.2 rfl
      · cases h
      · exact hvl.2.2 h
    · simp only [List.mem_append, List.mem_cons, List.not_mem_nil, or_false]
      rintro c ((((h | rfl) | h) | rfl) | h)
      · exact (hm _ h).1
      · decide
      · exact (hta _ h).1
      · decide
      · exact hvl.2.1 _ h
    · simp only [List.length_append, List.length_cons, List.length_nil]; omega
  have hfields : ∀ f ∈ m.fields, FieldText f := by
    intro f hm
    obtain ⟨h1, h2, h3, h4⟩ := hf f hm
    refine ⟨⟨?_, ?_, h4⟩, ?_⟩
    · simp only [fieldLine, List.mem_append]
      rintro ((h | h) | h)
      · have := (tchar_range (h1.2 _ h)).1
        exact absurd this (by decide)
      · exact absurd h (by decide)
      · exact (content_ne (h2.bytes _ h)).1 rfl
    · rw [fieldLine, utf8_append (utf8_ascii fun c hc => ?_)]
      · exact h3
      · rcases List.mem_append.1 hc with hc | hc
        · exact h1.ascii c hc
        · simp only [List.mem_cons, List.not_mem_nil, or_false] at hc
          rcases hc with rfl | rfl <;> decide
    · rintro ⟨a, b, hab⟩
      have : (58 : UInt8) ∈ f.1 := by rw [hab]; simp
      exact (tchar_range (h1.2 _ this)).2.2.1 rfl
  have hreq : Verif.RequestLine x m.target (m.method ++ [SP] ++ m.target ++ [SP] ++ version) :=
    ⟨version, [], hv, fun h => (hta _ h).2.1 rfl, .inl rfl, by rw [hx]; simp⟩
  have hval : ∀ {n f v}, m.fields.filter (fun f => Rfc.fold f.1 = n) = [(f, v)] → Rfc.FieldValue v := by
    intro n f v h
    have : (f, v) ∈ m.fields := (List.mem_filter.1 (by rw [h]; simp : (f, v) ∈ m.fields.filter (fun f => Rfc.fold f.1 = n))).1
    exact (hf _ this).2.1
  refine ⟨⟨m.target, x, HeaderMap.fromPairs (fieldMap m.fields), m.body⟩, ⟨hx, rfl, rfl, rfl⟩, m.method ++ [SP] ++ m.target ++ [SP] ++ version, m.fields, ?_⟩
  rcases hb with ⟨h1, h2, h3, h4⟩ | ⟨f, v, h1, h2, h3, h4, h5⟩ | ⟨f, h1, h2, h3, cs, z, h4, h5, h6, h7, h8⟩
  · refine ⟨.noBody, bw, hreq, ⟨hline, hfields, .none (no_fields cl_iff h1) (fun v hv => ?_), ⟨h3, h4⟩, hw⟩, rfl, hs, trivial⟩
    rw [find_fields te_iff, h2] at hv; cases hv
  · exact ⟨.length m.body.length, bw, hreq, ⟨hline, hfields, .length (v := v) (by rw [find_fields cl_iff, h1]; rfl) (.inl h3) (by omega), ⟨h5, rfl⟩, hw⟩, rfl, hs, h4⟩
  · refine ⟨.chunked, bw, hreq, ⟨hline, hfields, .chunked (v := b!"chunked") (no_fields cl_iff h1) (by rw [find_fields te_iff, h2]; rfl) ⟨[], [], by decide⟩, ?_, hw⟩, rfl, hs, h3⟩
    refine ⟨cs, z, fun c hc => ⟨(h4 c hc).2.1, .inl (h4 c hc).1, (h4 c hc).2.2, ?_⟩, h6, .inl h5, h7, h8⟩
    have : c.2.length ≤ bw.length := by
      obtain ⟨a, b, rfl⟩ := List.append_of_mem hc
      rw [h7]
      simp only [chunkLines, List.flatMap_append, List.flatMap_cons, List.length_append]
      omega
    omega

/-- C63 (partial: requests in the plainest form, see `Rfc.Plain`): the server reads a request as RFC 9112 says: method, target, fields and body are what the request says, and it
ends where the request ends. -/
theorem C63_plain_partial (prof : Profile) {w : Bytes} {m : Rfc.Message} (h : Rfc.Plain w m) {r : Rd} {rest : List Atom} (hr : r.Ahead (w.map .byte ++ rest)) :
    Rfc.RequestOf w m ∧ ∃ q r', Rfc.Means m q ∧ RequestParser.parse prof .new r = (.done q, r') ∧ r'.Ahead rest := by
  obtain ⟨q, h1, h2⟩ := h.fits
  obtain ⟨r', h3, h4⟩ := C04_request_accepted prof h2 hr
  exact ⟨h.request, q, r', h1, h3, h4⟩

theorem filter_two {α : Type} {p q : α → Bool} {l : List α} (hd : ∀ x, p x = true → q x = true → False) (h : (l.filter fun x => p x || q x).length ≤ 1) :
    (l.filter p = [] ∨ l.filter q = []) ∧ (l.filter p).length ≤ 1 ∧ (l.filter q).length ≤ 1 := by
  induction l with
  | nil => simp
  | cons a l ih =>
    have hz : (l.filter fun x => p x || q x) = [] → l.filter p = [] ∧ l.filter q = [] := by
      intro h
      rw [List.filter_eq_nil_iff] at h
      refine ⟨List.filter_eq_nil_iff.2 fun x hx hp => h x hx (by simp [hp]), List.filter_eq_nil_iff.2 fun x hx hp => h x hx (by simp [hp])⟩
    simp only [List.filter_cons] at h ⊢
    by_cases hp : p a <;> by_cases hq : q a
    all_goals simp only [hp, hq, Bool.or_true, Bool.or_false, Bool.false_eq_true, if_true, if_false, List.length_cons] at h ⊢
    · exact (hd a hp hq).elim
    · obtain ⟨h1, h2⟩ := hz (List.length_eq_zero_iff.1 (by omega))
      simp [h1, h2]
    · obtain ⟨h1, h2⟩ := hz (List.length_eq_zero_iff.1 (by omega))
      simp [h1, h2]
    · exact ih h

/-- C63 (partial: unless the text is contrary to RFC 9112 in one of the ways listed with `Rfc.Clean`): what the server accepts is a request according to RFC 9112, and says what it says. -/
theorem C63_sound_partial (prof : Profile) {w : Bytes} {q : Request} {r r' : Rd} {rest : List Atom} (hr : r.Ahead (w.map .byte ++ rest))
    (h : RequestParser.parse prof .new r = (.done q, r')) (hr' : r'.Ahead rest) :
    ∃ line fs f bw, RequestLine q.method q.uri line ∧ MessageText line fs false f bw q.body w ∧ (Rfc.Clean line fs f bw → ∃ m, Rfc.RequestOf w m ∧ Rfc.Means m q) := by
  obtain ⟨line, fs, f, bw, h1, h2, h3, -⟩ := (C04_request_accepted_iff prof hr).1 ⟨r', h, hr'⟩
  refine ⟨line, fs, f, bw, h1, h2, fun hc => ⟨⟨q.method.text, q.uri, fs, q.body⟩, ?_, rfl, rfl, h3, rfl⟩⟩
  have hline : Rfc.RequestLine ⟨q.method.text, q.uri, fs, q.body⟩ line := by
    obtain ⟨m, u, ⟨v, hv, hu, hl⟩, hu', hu''⟩ := hc.strict
    obtain ⟨v', x, hv', hq, hx, hl'⟩ := h1
    have e1 : splitByte SP line = [m.text, u, v] := by
      rw [hl, show m.text ++ [SP] ++ u ++ [SP] ++ v = m.text ++ SP :: (u ++ SP :: v) by simp, splitByte_more (method_noSp m), splitByte_more hu, splitByte_last (version_noSp hv)]
    rcases hx with rfl | ⟨t, rfl⟩
    · rw [hl', show q.method.text ++ [SP] ++ q.uri ++ [SP] ++ v' ++ [] = q.method.text ++ SP :: (q.uri ++ SP :: v') by simp, splitByte_more (method_noSp _), splitByte_more hq,
        splitByte_last (version_noSp hv')] at e1
      injection e1 with e2 e3
      injection e3 with e3 e4
      exact ⟨v', hv', method_token _, by rw [show q.uri = u from e3]; exact hu', by rw [show q.uri = u from e3]; exact hu'', by simpa using hl'⟩
    · rw [hl', show q.method.text ++ [SP] ++ q.uri ++ [SP] ++ v' ++ SP :: t = q.method.text ++ SP :: (q.uri ++ SP :: (v' ++ SP :: t)) by simp, splitByte_more (method_noSp _), splitByte_more hq,
        splitByte_more (version_noSp hv')] at e1
      injection e1 with e2 e3
      injection e3 with e3 e4
      injection e4 with e4 e5
      exact absurd e5 (splitByte_ne_nil _ _)
  have hsec := section_of (fs := fs) hc.fields
  obtain ⟨hx, hcl, hte⟩ := filter_two (l := fs) (p := fun f => Rfc.fold f.1 = b!"content-length") (q := fun f => Rfc.fold f.1 = b!"transfer-encoding")
    (by intro x h1 h2; simp only [decide_eq_true_eq] at h1 h2; rw [h1] at h2; exact absurd h2 (by decide)) (by simpa using hc.one)
  have hone : ∀ {n : Bytes} {v : Bytes}, (fs.filter fun f => Rfc.fold f.1 = n).length ≤ 1 → (fs.filter fun f => Rfc.fold f.1 = n).head?.map Prod.snd = some v →
      ∃ k, fs.filter (fun f => Rfc.fold f.1 = n) = [(k, v)] ∧ (k, v) ∈ fs ∧ Rfc.fold k = n := by
    intro n v h1 h2
    cases hl : fs.filter (fun f => Rfc.fold f.1 = n) with
    | nil => rw [hl] at h2; cases h2
    | cons x l =>
      rw [hl] at h1 h2
      have : l = [] := by simpa using h1
      subst this
      obtain ⟨k, v'⟩ := x
      obtain rfl : v' = v := Option.some.inj h2
      have hm : (k, v') ∈ fs.filter (fun f => Rfc.fold f.1 = n) := by rw [hl]; simp
      exact ⟨k, rfl, (List.mem_filter.1 hm).1, by simpa using (List.mem_filter.1 hm).2⟩
  refine ⟨line, fieldLines fs, f, bw, hline, hsec, ?_⟩
  have hwire := h2.wire
  have hbody := h2.bodyOk
  have hfr := h2.framing
  generalize hf : (Except.ok f : Except ParsingError Framing) = ef at hfr
  cases hfr with
  | @length v n k1 k2 k3 =>
    cases hf
    rw [find_fields cl_iff] at k1
    obtain ⟨k, e1, e2, e3⟩ := hone hcl k1
    have hnum : Numeral 10 v n := by
      rcases k2 with k2 | ⟨t, rfl, -⟩
      · exact k2
      · exact absurd rfl (hc.sign _ e2 e3)
    have hv := values_one e1 (hc.fields _ e2).2 (numeral_value hnum)
    have ht : fs.filter (fun f => Rfc.fold f.1 = b!"transfer-encoding") = [] := by
      rcases hx with hx | hx
      · rw [e1] at hx; cases hx
      · exact hx
    exact ⟨.length (v := v) (values_none ht) (by simp [hv]) (by simp [hv]) hnum, hbody, hwire⟩
  | tooLarge => cases hf
  | badLength => cases hf
  | @chunked v k1 k2 k3 =>
    cases hf
    rw [find_fields te_iff] at k2
    obtain ⟨k, e1, e2, e3⟩ := hone hte k2
    have : v = b!"chunked" := hc.coding _ e2 e3
    subst this
    refine ⟨.chunked (cs := []) (c := b!"chunked") (values_one e1 (hc.fields _ e2).2 (by decide)) (by decide), ?_, hwire⟩
    obtain ⟨cs, last, j1, -, j3, j4, j5⟩ := hbody
    obtain ⟨j6, j7⟩ := hc.chunks rfl cs last j1 j4
    show Rfc.Chunked bw q.body
    have hlast : Numeral 16 last 0 := by
      rcases j3 with j3 | ⟨t, rfl, -⟩
      · exact j3
      · exact absurd rfl j7
    rw [j4, j5]
    clear j4 j5 hwire h2
    induction cs with
    | nil =>
      have := Rfc.Chunked.last (z := last) (e := []) hlast (.inl rfl) .nil
      simpa [chunkLines, chunkData] using this
    | cons c cs ih =>
      have hc1 : Numeral 16 c.1 c.2.length := by
        rcases (j1 c (by simp)).size with h | ⟨t, h, -⟩
        · exact h
        · exact absurd (by rw [h]; rfl) (j6 c (by simp))
      have := Rfc.Chunked.chunk (z := c.1) (e := []) (d := c.2) hc1 (j1 c (by simp)).nonEmpty (.inl rfl)
        (ih (fun x hx => j1 x (by simp [hx])) (fun x hx => j6 x (by simp [hx])))
      simpa [chunkLines, chunkData] using this
  | none k1 k2 =>
    cases hf
    have h1 : fs.filter (fun f => Rfc.fold f.1 = b!"content-length") = [] := by
      refine List.filter_eq_nil_iff.2 fun f hf he => ?_
      exact k1 (Header.ofStr f.1, f.2) (List.mem_map.2 ⟨f, hf, rfl⟩) ((cl_iff _).2 (by simpa using he))
    have h2 : fs.filter (fun f => Rfc.fold f.1 = b!"transfer-encoding") = [] := by
      cases hl : fs.filter (fun f => Rfc.fold f.1 = b!"transfer-encoding") with
      | nil => rfl
      | cons x l =>
        exfalso
        have hm : x ∈ fs.filter (fun f => Rfc.fold f.1 = b!"transfer-encoding") := by rw [hl]; simp
        have hv := hc.coding x (List.mem_filter.1 hm).1 (by simpa using (List.mem_filter.1 hm).2)
        refine k2 x.2 (by rw [find_fields te_iff, hl]; rfl) ⟨[], [], by rw [hv]; rfl⟩
    exact ⟨.none (values_none h2) (values_none h1), hbody, hwire⟩

theorem numeral_of {radix : Nat} {s : Bytes} {n : Nat} (hr : radix ≤ 36) (hs : s ≠ []) (h : digitsVal radix s 0 = some n) : Numeral radix s n := (digitsVal_iff hr hs).1 h

theorem Rfc.FieldValue.of {v : Bytes} (h : v.all Rfc.content = true) (h1 : v.head?.all (fun b => !Rfc.blank b) = true) (h2 : v.getLast?.all (fun b => !Rfc.blank b) = true) : Rfc.FieldValue v where
  bytes := by simpa using h
  first := by intro b hb; rw [hb] at h1; simpa using h1
  last := by intro b hb; rw [hb] at h2; simpa using h2

/-- Plain requests: without a body, … -/
example : Rfc.Plain b!"GET / HTTP/1.1\r\nHost: x y\r\n\r\n" ⟨b!"GET", b!"/", [(b!"Host", b!"x y")], []⟩ where
  method := ⟨.get, rfl⟩
  target := by decide
  lineSize := by decide
  fields := by
    intro f hf
    obtain rfl := List.mem_singleton.1 hf
    exact ⟨⟨by decide, by decide⟩, .of (by decide) (by decide) (by decide), by decide +kernel, by decide⟩
  size := by decide
  text := ⟨b!"HTTP/1.1", [], .inr rfl, by decide, .inl ⟨by decide, by decide, rfl, rfl⟩⟩

/-- … with a Content-Length, … -/
example : Rfc.Plain b!"PUT /a HTTP/1.0\r\nContent-Length: 3\r\n\r\nabc" ⟨b!"PUT", b!"/a", [(b!"Content-Length", b!"3")], b!"abc"⟩ where
  method := ⟨.put, rfl⟩
  target := by decide
  lineSize := by decide
  fields := by
    intro f hf
    obtain rfl := List.mem_singleton.1 hf
    exact ⟨⟨by decide, by decide⟩, .of (by decide) (by decide) (by decide), by decide +kernel, by decide⟩
  size := by decide
  text := ⟨b!"HTTP/1.0", b!"abc", .inl rfl, by decide, .inr (.inl ⟨b!"Content-Length", b!"3", by decide, by decide, numeral_of (by decide) (by decide) (by decide), by decide, rfl⟩)⟩

/-- … and chunked. -/
example : Rfc.Plain b!"POST /a HTTP/1.1\r\nTransfer-Encoding: chunked\r\n\r\n3\r\nabc\r\n0\r\n\r\n"
    ⟨b!"POST", b!"/a", [(b!"Transfer-Encoding", b!"chunked")], b!"abc"⟩ where
  method := ⟨.post, rfl⟩
  target := by decide
  lineSize := by decide
  fields := by
    intro f hf
    obtain rfl := List.mem_singleton.1 hf
    exact ⟨⟨by decide, by decide⟩, .of (by decide) (by decide) (by decide), by decide +kernel, by decide⟩
  size := by decide
  text := ⟨b!"HTTP/1.1", b!"3\r\nabc\r\n0\r\n\r\n", .inr rfl, by decide, .inr (.inr ⟨b!"Transfer-Encoding", by decide, by decide, by decide, [(b!"3", b!"abc")], b!"0",
    by intro c hc; obtain rfl := List.mem_singleton.1 hc; exact ⟨numeral_of (by decide) (by decide) (by decide), by decide, by decide⟩,
    numeral_of (by decide) (by decide) (by decide), by decide, by decide, by decide⟩)⟩

/-- A request that is clean, so that `C63_sound_partial` says something about it. -/
example : Rfc.Clean b!"PUT /a HTTP/1.1" [(b!"Content-Length", b!"3")] (.length 3) b!"abc" where
  strict := ⟨.put, b!"/a", ⟨b!"HTTP/1.1", .inr rfl, by decide, by decide⟩, by decide, by decide⟩
  fields := by
    intro f hf
    obtain rfl := List.mem_singleton.1 hf
    exact ⟨⟨by decide, by decide⟩, .of (by decide) (by decide) (by decide)⟩
  one := by decide
  coding := by decide
  sign := by decide
  chunks := by intro h; cases h

/-! ## The text determines what it says -/

theorem cr_split {a b x y : Bytes} (ha : CR ∉ a) (hb : CR ∉ b) (h : a ++ CRLF ++ x = b ++ CRLF ++ y) : a = b ∧ x = y := by
  induction a generalizing b with
  | nil =>
    cases b with
    | nil => exact ⟨rfl, by simpa using h⟩
    | cons c b =>
      simp only [List.nil_append, List.cons_append, List.cons.injEq] at h
      exact absurd h.1 (fun hc => hb (by simp [← hc]))
  | cons c a ih =>
    cases b with
    | nil =>
      simp only [List.nil_append, List.cons_append, List.cons.injEq] at h
      exact absurd h.1 (fun hc => ha (by simp [hc]))
    | cons d b =>
      simp only [List.cons_append, List.cons.injEq] at h
      obtain ⟨h1, h2⟩ := ih (b := b) (fun hm => ha (by simp [hm])) (fun hm => hb (by simp [hm])) (by simpa using h.2)
      exact ⟨by rw [h.1, h1], h2⟩

theorem blank_ne {b : UInt8} (h : Rfc.blank b = true) : b ≠ 10 ∧ b ≠ 13 := content_ne (by simp [Rfc.content, h])

theorem Rfc.FieldLine.noCr {f : Bytes × Bytes} {l : Bytes} (h : Rfc.FieldLine f l) : CR ∉ l ∧ l ≠ [] := by
  obtain ⟨o₁, o₂, h1, h2, rfl⟩ := h.text
  refine ⟨?_, by simp⟩
  simp only [List.mem_append, List.mem_cons, List.not_mem_nil, or_false]
  rintro ((((h3 | h3) | h3) | h3) | h3)
  · exact absurd (tchar_range (h.name.2 _ h3)).1 (by decide)
  · cases h3
  · exact (blank_ne (h1 _ h3)).2 rfl
  · exact (content_ne (h.value.bytes _ h3)).2 rfl
  · exact (blank_ne (h2 _ h3)).2 rfl

theorem Rfc.Section.step {fs : List (Bytes × Bytes)} {sw z l rest : Bytes} (h : Rfc.Section fs sw) (hl : CR ∉ l) (hn : l ≠ []) (he : sw ++ CRLF ++ z = l ++ CRLF ++ rest) :
    ∃ f fs' sw', fs = f :: fs' ∧ Rfc.FieldLine f l ∧ Rfc.Section fs' sw' ∧ sw' ++ CRLF ++ z = rest := by
  cases h with
  | nil => exact absurd (cr_split (by simp) hl he).1.symm hn
  | @cons f fs line w h1 h2 =>
    obtain ⟨h3, h4⟩ := cr_split (x := w ++ CRLF ++ z) h1.noCr.1 hl (by simpa using he)
    subst h3
    exact ⟨f, fs, w, rfl, h1, h2, h4⟩

theorem Rfc.Section.stop {fs : List (Bytes × Bytes)} {sw z rest : Bytes} (h : Rfc.Section fs sw) (he : sw ++ CRLF ++ z = CRLF ++ rest) : fs = [] ∧ z = rest := by
  cases h with
  | nil => exact ⟨rfl, by simpa using he⟩
  | @cons f fs line w h1 h2 =>
    exact absurd (cr_split (a := line) (b := []) (x := w ++ CRLF ++ z) (y := rest) h1.noCr.1 (by simp) (by simpa using he)).1 h1.noCr.2

theorem Rfc.RequestOf.first {w x l rest : Bytes} {m : Rfc.Message} (h : Rfc.RequestOf w m) (hl : CR ∉ l) (he : w ++ x = l ++ CRLF ++ rest) :
    Rfc.RequestLine m l ∧ ∃ sw f bw, Rfc.Section m.fields sw ∧ Rfc.Framed m.fields f ∧ Rfc.BodyOf f bw m.body ∧ sw ++ CRLF ++ (bw ++ x) = rest := by
  obtain ⟨line, sw, f, bw, h1, h2, h3, h4, rfl⟩ := h
  have hcr : CR ∉ line := by
    obtain ⟨v, hv, hm, -, ht, rfl⟩ := h1
    simp only [List.mem_append, List.mem_cons, List.not_mem_nil, or_false]
    rintro ((((h | h) | h) | h) | h)
    · exact absurd (tchar_range (hm.2 _ h)).1 (by decide)
    · cases h
    · exact absurd (ht _ h).1 (by decide)
    · cases h
    · rcases hv with rfl | rfl <;> exact absurd h (by decide)
  obtain ⟨h5, h6⟩ := cr_split (x := sw ++ CRLF ++ bw ++ x) hcr hl (by simpa using he)
  subst h5
  exact ⟨h1, sw, f, bw, h2, h3, h4, by simpa using h6⟩

theorem dropWhile_all {p : UInt8 → Bool} {a b : Bytes} (h : ∀ x ∈ a, p x = true) : (a ++ b).dropWhile p = b.dropWhile p := by
  induction a with
  | nil => rfl
  | cons c a ih => rw [List.cons_append, List.dropWhile_cons, if_pos (h c (by simp)), ih fun x hx => h x (by simp [hx])]

theorem trim_blanks {o₁ v o₂ : Bytes} (h1 : ∀ b ∈ o₁, Rfc.blank b = true) (h2 : ∀ b ∈ o₂, Rfc.blank b = true) (hv : Rfc.FieldValue v) : Rfc.trim (o₁ ++ v ++ o₂) = v := by
  rcases v with _ | ⟨b, v⟩
  · rw [List.append_nil, Rfc.trim, ← List.append_nil (o₁ ++ o₂), dropWhile_all (by simp only [List.mem_append]; rintro x (hx | hx); exact h1 x hx; exact h2 x hx)]
    rfl
  · have h3 : (o₁ ++ (b :: v) ++ o₂).dropWhile Rfc.blank = (b :: v) ++ o₂ := by
      rw [List.append_assoc, dropWhile_all h1, List.cons_append, List.dropWhile_cons, if_neg (by simp [hv.first b rfl])]
    have h4 := trim_of hv
    rw [Rfc.trim] at h4
    rw [Rfc.trim, h3, List.reverse_append, dropWhile_all (fun x hx => h2 x (List.mem_reverse.1 hx))]
    rw [List.dropWhile_cons, if_neg (by simp [hv.first b rfl])] at h4
    exact h4

/-- A line says one thing. -/
theorem Rfc.FieldLine.eq {f : Bytes × Bytes} {n t : Bytes} (h : Rfc.FieldLine f (n ++ 58 :: t)) (hn : (58 : UInt8) ∉ n) : f = (n, Rfc.trim t) ∧ Rfc.Token n := by
  obtain ⟨o₁, o₂, h1, h2, h3⟩ := h.text
  have key : ∀ {a b x y : Bytes}, (58 : UInt8) ∉ a → (58 : UInt8) ∉ b → a ++ 58 :: x = b ++ 58 :: y → a = b ∧ x = y := by
    intro a b x y ha hb he
    induction a generalizing b with
    | nil =>
      cases b with
      | nil => exact ⟨rfl, by simpa using he⟩
      | cons c b =>
        simp only [List.nil_append, List.cons_append, List.cons.injEq] at he
        exact absurd he.1 (fun hc => hb (by simp [← hc]))
    | cons c a ih =>
      cases b with
      | nil =>
        simp only [List.nil_append, List.cons_append, List.cons.injEq] at he
        exact absurd he.1 (fun hc => ha (by simp [hc]))
      | cons d b =>
        simp only [List.cons_append, List.cons.injEq] at he
        obtain ⟨h1, h2⟩ := ih (fun hm => ha (by simp [hm])) (fun hm => hb (by simp [hm])) he.2
        exact ⟨by rw [he.1, h1], h2⟩
  obtain ⟨h4, h5⟩ := key (y := o₁ ++ f.2 ++ o₂) hn (fun hm => (tchar_range (h.name.2 _ hm)).2.2.1 rfl) (by simpa using h3)
  refine ⟨?_, by rw [h4]; exact h.name⟩
  rw [h4, h5, trim_blanks h1 h2 h.value]

/-! ## Where the server reads otherwise -/


/-- Executable form of the conditions on fields. -/
theorem fieldValue_of {v : Bytes} (h : (v.all Rfc.content && v.head?.all (fun b => !Rfc.blank b) && v.getLast?.all fun b => !Rfc.blank b) = true) : Rfc.FieldValue v := by
  simp only [Bool.and_eq_true, List.all_eq_true] at h
  refine ⟨h.1.1, fun b hb => ?_, fun b hb => ?_⟩
  · have := h.1.2; rw [hb] at this; simpa using this
  · have := h.2; rw [hb] at this; simpa using this

theorem token_of {t : Bytes} (h : (!t.isEmpty && t.all Rfc.tchar) = true) : Rfc.Token t := by
  simp only [Bool.and_eq_true, List.all_eq_true] at h
  exact ⟨by simpa using h.1, h.2⟩

/-- A request with both Transfer-Encoding and Content-Length. -/
def bothText : Bytes := b!"POST / HTTP/1.1\r\nTransfer-Encoding: chunked\r\nContent-Length: 4\r\n\r\n17\r\nGET /admin HTTP/1.1\r\n\r\n\r\n0\r\n\r\n"

/-- C63 is false if both Transfer-Encoding and Content-Length are given: RFC 9112 6.3 says that Transfer-Encoding counts, so this is one request for `/`; the server goes by Content-Length, and
takes a part of the body for a second request, for `/admin`. (Request smuggling.) -/
theorem C63_both_false (prof : Profile) : ∃ m : Rfc.Message, Rfc.RequestOf bothText m ∧ m.target = b!"/" ∧
    ∀ r : Rd, r.Ahead (bothText.map .byte) → ∃ q q' r' r'', RequestParser.parse prof .new r = (.done q, r') ∧ RequestParser.parse prof .new r' = (.done q', r'') ∧
      q'.uri = b!"/admin" := by
  refine ⟨⟨b!"POST", b!"/", [(b!"Transfer-Encoding", b!"chunked"), (b!"Content-Length", b!"4")], b!"GET /admin HTTP/1.1\r\n\r\n"⟩, ?_, rfl, ?_⟩
  · refine ⟨b!"POST / HTTP/1.1", b!"Transfer-Encoding: chunked\r\nContent-Length: 4\r\n", .chunked, b!"17\r\nGET /admin HTTP/1.1\r\n\r\n\r\n0\r\n\r\n",
      ⟨b!"HTTP/1.1", .inr rfl, token_of rfl, by decide, by decide, rfl⟩, ?_, .chunked (cs := []) (c := b!"chunked") (by decide) (by decide), ?_, by decide +kernel⟩
    · exact section_of (fs := [(b!"Transfer-Encoding", b!"chunked"), (b!"Content-Length", b!"4")]) (by
        simp only [List.mem_cons, List.not_mem_nil, or_false]
        rintro f (rfl | rfl)
        · exact ⟨token_of (by decide), fieldValue_of (by decide)⟩
        · exact ⟨token_of (by decide), fieldValue_of (by decide)⟩)
    · exact .chunk (z := b!"17") (e := []) (d := b!"GET /admin HTTP/1.1\r\n\r\n") (numeral_of (by decide) (by decide) (by decide)) (by decide) (.inl rfl)
        (.last (z := b!"0") (e := []) (tw := []) (numeral_of (by decide) (by decide) (by decide)) (.inl rfl) .nil)
  · intro r hr
    obtain ⟨r', h1, h2⟩ := requestParse_of (prof := prof) (p := .new) (o := .done ⟨b!"/", .post, HeaderMap.fromPairs [(Header.transferEncoding, b!"chunked"), (Header.contentLength, b!"4")], b!"17\r\n"⟩)
      (rest := b!"GET /admin HTTP/1.1\r\n\r\n\r\n0\r\n\r\n".map .byte) hr (by rcases prof with ⟨_ | _⟩ <;> decide +kernel)
    obtain ⟨r'', h3, -⟩ := requestParse_of (prof := prof) (p := .new) (o := .done ⟨b!"/admin", .get, [], []⟩) (rest := b!"\r\n0\r\n\r\n".map .byte) h2
      (by rcases prof with ⟨_ | _⟩ <;> decide +kernel)
    exact ⟨_, _, r', r'', h1, h3, rfl⟩

/-- The text of a request with this field. -/
def oneField (line body : Bytes) : Bytes := b!"POST / HTTP/1.1\r\n" ++ line ++ b!"\r\n\r\n" ++ body

theorem oneField_not {l body : Bytes} (hl : CR ∉ l) (hn : l ≠ []) (h : ∀ f fr, Rfc.FieldLine f l → ¬ Rfc.Framed [f] fr) {w x : Bytes} (he : w ++ x = oneField l body) (m : Rfc.Message) :
    ¬ Rfc.RequestOf w m := by
  intro hm
  obtain ⟨-, sw, f, bw, h1, h2, -, h4⟩ := hm.first (l := b!"POST / HTTP/1.1") (by decide) (rest := l ++ CRLF ++ (CRLF ++ body)) (by rw [he]; simp [oneField])
  obtain ⟨g, gs, sw', h5, h6, h7, h8⟩ := h1.step hl hn h4
  obtain ⟨h9, -⟩ := h7.stop h8
  subst h9
  rw [h5] at h2
  exact h g f h6 h2

/-- C63 is false of a Content-Length with a sign: the request has to be refused, but is accepted. -/
theorem C63_sign_false (prof : Profile) : (∀ w x m, w ++ x = oneField b!"Content-Length: +1" b!"x" → ¬ Rfc.RequestOf w m) ∧
    ∀ r : Rd, r.Ahead ((oneField b!"Content-Length: +1" b!"x").map .byte) → ∃ q r', RequestParser.parse prof .new r = (.done q, r') ∧ q.body = b!"x" := by
  refine ⟨fun w x m he => oneField_not (by decide) (by decide) (fun f fr hf hfr => ?_) he m, fun r hr => ?_⟩
  · obtain ⟨rfl, -⟩ := hf.eq (n := b!"Content-Length") (t := b!" +1") (by decide)
    cases hfr with
    | @chunked cs c h1 h2 =>
      rw [show Rfc.values [(b!"Content-Length", Rfc.trim b!" +1")] b!"transfer-encoding" = [] by decide] at h1
      simp at h1
    | @length v n h1 h2 h3 h4 =>
      have := h3 b!"+1" (by decide)
      subst this
      exact numeral_no_plus (by decide) h4
    | none h1 h2 => exact absurd h2 (by decide)
  · obtain ⟨r', h1, -⟩ := requestParse_of (prof := prof) (p := .new) (o := .done ⟨b!"/", .post, HeaderMap.fromPairs [(Header.contentLength, b!"+1")], b!"x"⟩)
      (rest := []) hr (by rcases prof with ⟨_ | _⟩ <;> decide +kernel)
    exact ⟨_, r', h1, rfl⟩

/-- C63 is false of a blank between field name and colon: RFC 9112 5.1 says that the request has to be refused; the server takes the name with the blank for another field, so that the body becomes
the next request. -/
theorem C63_name_false (prof : Profile) : (∀ w x m, w ++ x = oneField b!"Content-Length : 23" b!"GET /admin HTTP/1.1\r\n\r\n" → ¬ Rfc.RequestOf w m) ∧
    ∀ r : Rd, r.Ahead ((oneField b!"Content-Length : 23" b!"GET /admin HTTP/1.1\r\n\r\n").map .byte) → ∃ q q' r' r'', RequestParser.parse prof .new r = (.done q, r') ∧
      RequestParser.parse prof .new r' = (.done q', r'') ∧ q'.uri = b!"/admin" := by
  refine ⟨fun w x m he => oneField_not (by decide) (by decide) (fun f fr hf hfr => ?_) he m, fun r hr => ?_⟩
  · obtain ⟨-, h⟩ := hf.eq (n := b!"Content-Length ") (t := b!" 23") (by decide)
    exact absurd (h.2 32 (by decide)) (by decide)
  · obtain ⟨r', h1, h2⟩ := requestParse_of (prof := prof) (p := .new) (o := .done ⟨b!"/", .post, HeaderMap.fromPairs [(Header.ofStr b!"Content-Length ", b!"23")], []⟩)
      (rest := b!"GET /admin HTTP/1.1\r\n\r\n".map .byte) hr (by rcases prof with ⟨_ | _⟩ <;> decide +kernel)
    obtain ⟨r'', h3, -⟩ := requestParse_of (prof := prof) (p := .new) (o := .done ⟨b!"/admin", .get, [], []⟩) (rest := []) h2
      (by rcases prof with ⟨_ | _⟩ <;> decide +kernel)
    exact ⟨_, _, r', r'', h1, h3, rfl⟩

/-- C63 is false of two different values of Content-Length: the request has to be refused; the server goes by the first. -/
theorem C63_lengths_false (prof : Profile) : ∃ w, (∀ w' x m, w' ++ x = w → ¬ Rfc.RequestOf w' m) ∧
    ∀ r : Rd, r.Ahead (w.map .byte) → ∃ q q' r' r'', RequestParser.parse prof .new r = (.done q, r') ∧ RequestParser.parse prof .new r' = (.done q', r'') ∧ q'.uri = b!"/admin" := by
  refine ⟨b!"POST / HTTP/1.1\r\nContent-Length: 0\r\nContent-Length: 23\r\n\r\nGET /admin HTTP/1.1\r\n\r\n", fun w' x m he hm => ?_, fun r hr => ?_⟩
  · obtain ⟨-, sw, f, bw, h1, h2, -, h4⟩ := hm.first (l := b!"POST / HTTP/1.1") (by decide)
      (rest := b!"Content-Length: 0" ++ CRLF ++ (b!"Content-Length: 23" ++ CRLF ++ (CRLF ++ b!"GET /admin HTTP/1.1\r\n\r\n"))) he
    obtain ⟨g, gs, sw', h5, h6, h7, h8⟩ := h1.step (by decide) (by decide) h4
    obtain ⟨g', gs', sw'', h9, h10, h11, h12⟩ := h7.step (by decide) (by decide) h8
    obtain ⟨h13, -⟩ := h11.stop h12
    obtain ⟨rfl, -⟩ := h6.eq (n := b!"Content-Length") (t := b!" 0") (by decide)
    obtain ⟨rfl, -⟩ := h10.eq (n := b!"Content-Length") (t := b!" 23") (by decide)
    rw [h5, h9, h13] at h2
    cases h2 with
    | @chunked cs c h1 h2 =>
      rw [show Rfc.values [(b!"Content-Length", Rfc.trim b!" 0"), (b!"Content-Length", Rfc.trim b!" 23")] b!"transfer-encoding" = [] by decide] at h1
      simp at h1
    | @length v n h1 h2 h3 h4 =>
      have k1 := h3 b!"0" (by decide)
      have k2 := h3 b!"23" (by decide)
      rw [← k1] at k2; cases k2
    | none h1 h2 => exact absurd h2 (by decide)
  · obtain ⟨r', h1, h2⟩ := requestParse_of (prof := prof) (p := .new)
      (o := .done ⟨b!"/", .post, HeaderMap.fromPairs [(Header.contentLength, b!"0"), (Header.contentLength, b!"23")], []⟩)
      (rest := b!"GET /admin HTTP/1.1\r\n\r\n".map .byte) hr (by rcases prof with ⟨_ | _⟩ <;> decide +kernel)
    obtain ⟨r'', h3, -⟩ := requestParse_of (prof := prof) (p := .new) (o := .done ⟨b!"/admin", .get, [], []⟩) (rest := []) h2
      (by rcases prof with ⟨_ | _⟩ <;> decide +kernel)
    exact ⟨_, _, r', r'', h1, h3, rfl⟩

/-- A request with one field and a chunked body. -/
theorem chunked_request {n v body : Bytes} (hn : Rfc.Token n) (hv : Rfc.FieldValue v) (hfr : Rfc.Framed [(n, v)] .chunked) {bw : Bytes} (hb : Rfc.Chunked bw body) :
    Rfc.RequestOf (oneField (n ++ b!": " ++ v) bw) ⟨b!"POST", b!"/", [(n, v)], body⟩ :=
  ⟨b!"POST / HTTP/1.1", n ++ b!": " ++ v ++ b!"\r\n", .chunked, bw, ⟨b!"HTTP/1.1", .inr rfl, token_of rfl, show b!"/" ≠ [] by decide,
      show ∀ b ∈ b!"/", 33 ≤ b ∧ b ≤ 126 by decide, rfl⟩,
    by
      have := section_of (fs := [(n, v)]) (by simpa using ⟨hn, hv⟩)
      simpa [fieldLines, fieldLine] using this, hfr, hb, by simp [oneField]⟩

/-- C63 is false of the name of the coding in upper case, which RFC 9112 7 says means the same: the server does not see that there is a body, and tries to read it as the next request. -/
theorem C63_case_false (prof : Profile) : ∃ m : Rfc.Message, Rfc.RequestOf (oneField b!"Transfer-Encoding: Chunked" b!"1\r\nx\r\n0\r\n\r\n") m ∧ m.body = b!"x" ∧
    ∀ r : Rd, r.Ahead ((oneField b!"Transfer-Encoding: Chunked" b!"1\r\nx\r\n0\r\n\r\n").map .byte) →
      ∃ q r', RequestParser.parse prof .new r = (.done q, r') ∧ q.body = [] ∧ r'.Ahead (b!"1\r\nx\r\n0\r\n\r\n".map .byte) := by
  refine ⟨_, chunked_request (n := b!"Transfer-Encoding") (v := b!"Chunked") (body := b!"x") (token_of (by decide)) (fieldValue_of (by decide))
    (.chunked (cs := []) (c := b!"Chunked") (by decide) (by decide)) ?_, rfl, fun r hr => ?_⟩
  · exact .chunk (z := b!"1") (e := []) (d := b!"x") (numeral_of (by decide) (by decide) (by decide)) (by decide) (.inl rfl)
      (.last (z := b!"0") (e := []) (tw := []) (numeral_of (by decide) (by decide) (by decide)) (.inl rfl) .nil)
  · obtain ⟨r', h1, h2⟩ := requestParse_of (prof := prof) (p := .new) (o := .done ⟨b!"/", .post, HeaderMap.fromPairs [(Header.transferEncoding, b!"Chunked")], []⟩)
      (rest := b!"1\r\nx\r\n0\r\n\r\n".map .byte) hr (by rcases prof with ⟨_ | _⟩ <;> decide +kernel)
    exact ⟨_, r', h1, rfl, h2⟩

/-- C63 is false of a transfer coding whose name only contains `chunked`: the request has to be refused, but its body is decoded. -/
theorem C63_coding_false (prof : Profile) : (∀ w x m, w ++ x = oneField b!"Transfer-Encoding: notchunked" b!"1\r\nx\r\n0\r\n\r\n" → ¬ Rfc.RequestOf w m) ∧
    ∀ r : Rd, r.Ahead ((oneField b!"Transfer-Encoding: notchunked" b!"1\r\nx\r\n0\r\n\r\n").map .byte) → ∃ q r', RequestParser.parse prof .new r = (.done q, r') ∧ q.body = b!"x" := by
  refine ⟨fun w x m he => oneField_not (by decide) (by decide) (fun f fr hf hfr => ?_) he m, fun r hr => ?_⟩
  · obtain ⟨rfl, -⟩ := hf.eq (n := b!"Transfer-Encoding") (t := b!" notchunked") (by decide)
    cases hfr with
    | @chunked cs c h1 h2 =>
      rw [show Rfc.values [(b!"Transfer-Encoding", Rfc.trim b!" notchunked")] b!"transfer-encoding" = [] ++ [b!"notchunked"] by decide] at h1
      have := List.append_inj_right' h1 rfl
      cases this
      exact absurd h2 (by decide)
    | length h1 => exact absurd h1 (by decide)
    | none h1 => exact absurd h1 (by decide)
  · obtain ⟨r', h1, -⟩ := requestParse_of (prof := prof) (p := .new) (o := .done ⟨b!"/", .post, HeaderMap.fromPairs [(Header.transferEncoding, b!"notchunked")], b!"x"⟩)
      (rest := []) hr (by rcases prof with ⟨_ | _⟩ <;> decide +kernel)
    exact ⟨_, r', h1, rfl⟩

/-- C63: correct requests are refused: a field without blank after the colon, a chunk extension, and a trailer field. -/
theorem C63_refused_false (prof : Profile) : ∀ w ∈ [b!"GET / HTTP/1.1\r\nHost:x\r\n\r\n", oneField b!"Transfer-Encoding: chunked" b!"1;a=b\r\nx\r\n0\r\n\r\n",
      oneField b!"Transfer-Encoding: chunked" b!"1\r\nx\r\n0\r\nA: b\r\n\r\n"],
    (∃ m, Rfc.RequestOf w m) ∧ ∀ r : Rd, r.Ahead (w.map .byte) → ∃ e r', RequestParser.parse prof .new r = (.perr e, r') := by
  intro w hw
  simp only [List.mem_cons, List.not_mem_nil, or_false] at hw
  have hx : Rfc.Framed [(b!"Transfer-Encoding", b!"chunked")] .chunked := .chunked (cs := []) (c := b!"chunked") (by decide) (by decide)
  rcases hw with rfl | rfl | rfl
  · refine ⟨⟨⟨b!"GET", b!"/", [(b!"Host", b!"x")], []⟩, b!"GET / HTTP/1.1", b!"Host:x\r\n", .noBody, [], ⟨b!"HTTP/1.1", .inr rfl, token_of rfl, by decide, by decide, rfl⟩,
      .cons (line := b!"Host:x") (w := []) ⟨token_of (by decide), fieldValue_of (by decide), [], [], by simp, by simp, rfl⟩ .nil, .none (by decide) (by decide), ⟨rfl, rfl⟩, rfl⟩, fun r hr => ?_⟩
    obtain ⟨r', h1, -⟩ := requestParse_of (prof := prof) (p := .new) (o := .perr .badSyntax) (rest := b!"\r\n".map .byte) hr (by rcases prof with ⟨_ | _⟩ <;> decide +kernel)
    exact ⟨_, r', h1⟩
  · refine ⟨⟨_, chunked_request (n := b!"Transfer-Encoding") (v := b!"chunked") (body := b!"x") (token_of (by decide)) (fieldValue_of (by decide)) hx
      (.chunk (z := b!"1") (e := b!";a=b") (d := b!"x") (numeral_of (by decide) (by decide) (by decide)) (by decide) (.inr ⟨b!"a=b", rfl, by decide⟩)
      (.last (z := b!"0") (e := []) (tw := []) (numeral_of (by decide) (by decide) (by decide)) (.inl rfl) .nil))⟩, fun r hr => ?_⟩
    obtain ⟨r', h1, -⟩ := requestParse_of (prof := prof) (p := .new) (o := .perr .invalidChunkSize) (rest := b!"x\r\n0\r\n\r\n".map .byte) hr (by rcases prof with ⟨_ | _⟩ <;> decide +kernel)
    exact ⟨_, r', h1⟩
  · refine ⟨⟨_, chunked_request (n := b!"Transfer-Encoding") (v := b!"chunked") (body := b!"x") (token_of (by decide)) (fieldValue_of (by decide)) hx
      (.chunk (z := b!"1") (e := []) (d := b!"x") (numeral_of (by decide) (by decide) (by decide)) (by decide) (.inl rfl)
      (.last (z := b!"0") (e := []) (tw := b!"A: b\r\n") (fs := [(b!"A", b!"b")]) (numeral_of (by decide) (by decide) (by decide)) (.inl rfl)
        (section_of (fs := [(b!"A", b!"b")]) (by simpa using ⟨token_of (by decide), fieldValue_of (by decide)⟩))))⟩, fun r hr => ?_⟩
    obtain ⟨r', h1, -⟩ := requestParse_of (prof := prof) (p := .new) (o := .perr .badSyntax) (rest := b!"\r\n".map .byte) hr (by rcases prof with ⟨_ | _⟩ <;> decide +kernel)
    exact ⟨_, r', h1⟩

end Verif
