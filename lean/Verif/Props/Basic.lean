import Verif.Spec.Registry
import Verif.Proofs.Text
import Verif.Proofs.Numeral
import Verif.Spec.Grammar

/-!
C10 (which framing a body uses), C18 (header names), C19 (header map), C20 (first lines), C21
(methods and statuses).
-/

namespace Verif

/-! ## C18 -/

/-- C18: two texts denote the same header exactly if they differ at most in the case of letters. -/
theorem C18_header_equal_iff_same_text (s t : Bytes) :
    Header.ofStr s = Header.ofStr t ↔ SameText s t := by
  rw [← lower_eq_iff]
  unfold Header.ofStr
  simp only
  split <;> split <;> simp_all
  all_goals (intro h; simp_all)

/-- C18: the text of a header is the lower case spelling of the text it was made from. -/
theorem C18_header_text_is_lower_case (s : Bytes) :
    SameText s (Header.ofStr s).asStr ∧ NoUpper (Header.ofStr s).asStr := by
  have : (Header.ofStr s).asStr = lower s := by
    unfold Header.ofStr
    simp only
    split <;> rfl
  rw [this]
  exact ⟨lower_same s, lower_noUpper s⟩

/-- C18: converting the text of a header back gives the same header. -/
theorem C18_header_text_round_trip (s : Bytes) :
    Header.ofStr (Header.ofStr s).asStr = Header.ofStr s := by
  have h := (C18_header_text_is_lower_case s).1
  rw [C18_header_equal_iff_same_text]
  rw [← lower_eq_iff] at h ⊢
  exact h.symm

/-- C18: the predefined headers are what their texts convert to, and they are pairwise different. -/
theorem C18_predefined_headers :
    (∀ s ∈ standardNames, Header.ofStr s = .standard s) ∧ standardNames.Nodup ∧
      Header.ofStr b!"Connection" = Header.connection ∧
      Header.ofStr b!"Content-Length" = Header.contentLength ∧
      Header.ofStr b!"Content-Type" = Header.contentType ∧
      Header.ofStr b!"Transfer-Encoding" = Header.transferEncoding := by
  refine ⟨?_, ?_, ?_, ?_, ?_, ?_⟩ <;> decide +kernel

example : Header.ofStr b!"X-FOO" = Header.ofStr b!"x-Foo" ∧
    Header.ofStr b!"X-FOO" ≠ Header.ofStr b!"x-foo2" := by decide

/-! ## C19 -/

/-- C19: after any additions, a header has exactly the values added under it, in order; a header never
added has none. -/
theorem C19_lookup_after_additions (ps : List (Header × Bytes)) (k : Header) :
    (HeaderMap.fromPairs ps).get k =
      match (ps.filter fun p => p.1 = k).map Prod.snd with
      | [] => none
      | v :: vs => some (v :: vs) := by
  rw [HeaderMap.get_fromPairs, HeaderMap.valuesOf]
  split
  · rename_i h; rw [h]
  · rename_i h
    split
    · contradiction
    · rename_i h'; rw [h']

/-- C19: adding to any map appends one value under the key and touches nothing else. -/
theorem C19_addition (m : HeaderMap) (k : Header) (v : Bytes) :
    (m.addHeader k v).get k = some ((m.get k).getD [] ++ [v]) ∧
      ∀ k', k' ≠ k → (m.addHeader k v).get k' = m.get k' := by
  constructor
  · simp [HeaderMap.get_addHeader]
  · intro k' h; simp [HeaderMap.get_addHeader, h]

/-- C19: the first value of a header is the first one added. -/
theorem C19_first_value (ps : List (Header × Bytes)) (k : Header) :
    (HeaderMap.fromPairs ps).getFirst k = (ps.find? fun p => p.1 = k).map Prod.snd :=
  HeaderMap.getFirst_fromPairs ps k

/-- C19: a header contains a value exactly if the value was added under it. -/
theorem C19_contains_value (ps : List (Header × Bytes)) (k : Header) (v : Bytes) :
    (HeaderMap.fromPairs ps).containsHeaderValue k v = true ↔ (k, v) ∈ ps := by
  unfold HeaderMap.containsHeaderValue
  rw [HeaderMap.get_fromPairs]
  have hm : v ∈ HeaderMap.valuesOf ps k ↔ (k, v) ∈ ps := by
    simp only [HeaderMap.valuesOf, List.mem_map, List.mem_filter, decide_eq_true_eq]
    constructor
    · rintro ⟨⟨a, b⟩, ⟨h1, rfl⟩, rfl⟩; exact h1
    · intro h; exact ⟨(k, v), ⟨h, rfl⟩, rfl⟩
  rw [← hm]
  by_cases h : HeaderMap.valuesOf ps k = [] <;> simp [h]

example : (HeaderMap.fromPairs [(.custom b!"a", b!"1"), (.custom b!"b", b!"2"), (.custom b!"a", b!"3")]).get
    (.custom b!"a") = some [b!"1", b!"3"] := by decide

/-! ## C20 -/

/-- The outcome of a request line, given its fields. -/
inductive RequestLineOutcome : List Bytes → Except ParsingError (Method × Bytes) → Prop
  | tooShort {fs : List Bytes} : fs.length < 3 → RequestLineOutcome fs (.error .badSyntax)
  | badVersion {m u v : Bytes} {fs : List Bytes} : v ≠ b!"HTTP/1.0" → v ≠ b!"HTTP/1.1" →
      RequestLineOutcome (m :: u :: v :: fs) (.error .invalidHttpVersion)
  | badMethod {m u v : Bytes} {fs : List Bytes} : (v = b!"HTTP/1.0" ∨ v = b!"HTTP/1.1") →
      m ∉ [b!"GET", b!"POST", b!"DELETE", b!"PUT"] →
      RequestLineOutcome (m :: u :: v :: fs) (.error .unrecognizedMethod)
  | ok {t u v : Bytes} {fs : List Bytes} (m : Method) : (v = b!"HTTP/1.0" ∨ v = b!"HTTP/1.1") →
      t = m.text → RequestLineOutcome (t :: u :: v :: fs) (.ok (m, u))

theorem tryFromStr_some {s : Bytes} {m : Method} (h : Method.tryFromStr s = some m) : s = m.text := by
  unfold Method.tryFromStr at h
  repeat' split at h
  all_goals (cases h; try assumption)

theorem tryFromStr_text (m : Method) : Method.tryFromStr m.text = some m := by
  cases m <;> decide

theorem tryFromStr_none {s : Bytes} (h : Method.tryFromStr s = none) :
    s ∉ [b!"GET", b!"POST", b!"DELETE", b!"PUT"] := by
  unfold Method.tryFromStr at h
  repeat' split at h
  all_goals first | (cases h; done) | simp_all

theorem versionSupported_iff {v : Bytes} :
    versionSupported v = true ↔ v = b!"HTTP/1.0" ∨ v = b!"HTTP/1.1" := by
  unfold versionSupported http10 http11
  simp only [Bool.or_eq_true, decide_eq_true_eq]
  exact or_comm

/-- C20: the outcome of parsing a request line is the documented one. -/
theorem C20_request_line (line : Bytes) {fs : List Bytes} (h : Fields line fs) :
    RequestLineOutcome fs (parseRequestLine line) := by
  unfold parseRequestLine
  rw [h.splitByte_eq]
  split
  · rename_i m u v rest
    by_cases hv : versionSupported v = true
    · simp only [hv, Bool.true_eq_false, if_false]
      rw [versionSupported_iff] at hv
      cases hm : Method.tryFromStr m with
      | some m' => exact .ok m' hv (tryFromStr_some hm)
      | none => exact .badMethod hv (tryFromStr_none hm)
    · have h2 : versionSupported v = false := by simpa using hv
      simp only [h2, if_true]
      rw [versionSupported_iff] at hv
      simp only [not_or] at hv
      exact .badVersion hv.1 hv.2
  · rename_i hfs
    apply RequestLineOutcome.tooShort
    match fs, hfs with
    | [], _ => simp
    | [_], _ => simp
    | [_, _], _ => simp
    | a :: b :: c :: d, hfs => exact absurd rfl (hfs a b c d)

/-- The outcome of a status line, given its fields. -/
inductive StatusLineOutcome : List Bytes → Except ParsingError Status → Prop
  | tooShort {fs : List Bytes} : fs.length < 2 → StatusLineOutcome fs (.error .badSyntax)
  | badVersion {v c : Bytes} {fs : List Bytes} : v ≠ b!"HTTP/1.0" → v ≠ b!"HTTP/1.1" →
      StatusLineOutcome (v :: c :: fs) (.error .invalidHttpVersion)
  | badCode {v c : Bytes} {fs : List Bytes} : (v = b!"HTTP/1.0" ∨ v = b!"HTTP/1.1") →
      (∀ s ∈ statusTable, ¬ UnsignedText 10 c s.code) →
      StatusLineOutcome (v :: c :: fs) (.error .invalidStatusCode)
  | ok {v c : Bytes} {fs : List Bytes} (s : Status) : (v = b!"HTTP/1.0" ∨ v = b!"HTTP/1.1") →
      s ∈ statusTable → UnsignedText 10 c s.code → StatusLineOutcome (v :: c :: fs) (.ok s)

theorem fromCode_some {c : Nat} {s : Status} (h : Status.fromCode c = some s) :
    s ∈ statusTable ∧ s.code = c := by
  unfold Status.fromCode at h
  exact ⟨List.mem_of_find?_eq_some h, by simpa using List.find?_some h⟩

theorem fromCode_none {c : Nat} (h : Status.fromCode c = none) : ∀ s ∈ statusTable, s.code ≠ c := by
  unfold Status.fromCode at h
  intro s hs
  simpa using List.find?_eq_none.1 h s hs

theorem fromCode_table : ∀ s ∈ statusTable, Status.fromCode s.code = some s := by decide +kernel

theorem table_codes : ∀ s ∈ statusTable, s.code < u16Bound := by decide +kernel

/-- C20: the outcome of parsing a status line is the documented one; the reason phrase is ignored. -/
theorem C20_status_line (line : Bytes) {fs : List Bytes} (h : Fields line fs) :
    StatusLineOutcome fs (parseStatusLine line) := by
  unfold parseStatusLine
  rw [h.splitByte_eq]
  split
  · rename_i v c rest
    by_cases hv : versionSupported v = true
    · simp only [hv, Bool.true_eq_false, if_false]
      rw [versionSupported_iff] at hv
      cases hc : parseUnsigned 10 u16Bound c with
      | none =>
        refine .badCode hv fun s hs ht => ?_
        have := (parseUnsigned_iff (by omega)).2 ⟨ht, table_codes s hs⟩
        rw [hc] at this; cases this
      | some n =>
        have hn := (parseUnsigned_iff (by omega)).1 hc
        cases hs : Status.fromCode n with
        | none =>
          simp only [hs]
          refine .badCode hv fun s hs' ht => ?_
          exact fromCode_none hs s hs' (unsignedText_unique (by omega) ht hn.1)
        | some s =>
          obtain ⟨h1, h2⟩ := fromCode_some hs
          simp only [hs]
          exact .ok s hv h1 (h2 ▸ hn.1)
    · have h2 : versionSupported v = false := by simpa using hv
      simp only [h2, if_true]
      rw [versionSupported_iff] at hv
      simp only [not_or] at hv
      exact .badVersion hv.1 hv.2
  · rename_i hfs
    apply StatusLineOutcome.tooShort
    match fs, hfs with
    | [], _ => simp
    | [_], _ => simp
    | a :: b :: d, hfs => exact absurd rfl (hfs a b d)

/-- C20: every line has fields, and only one list of them, so the two theorems above determine the
outcome of every line. -/
theorem C20_fields_exist_unique (line : Bytes) : ∃ fs, Fields line fs ∧ ∀ fs', Fields line fs' → fs' = fs :=
  ⟨_, splitByte_fields line, fun _ h => h.splitByte_eq.symm⟩

/-- C20: the outcome is determined by the fields. -/
theorem C20_request_outcome_unique {fs : List Bytes} {o o' : Except ParsingError (Method × Bytes)}
    (h : RequestLineOutcome fs o) (h' : RequestLineOutcome fs o') : o = o' := by
  have text_mem : ∀ m : Method, m.text ∈ [b!"GET", b!"POST", b!"DELETE", b!"PUT"] := by
    intro m; cases m <;> decide
  have text_inj : ∀ m m' : Method, m.text = m'.text → m = m' := by
    intro m m'; cases m <;> cases m' <;> decide
  cases h with
  | tooShort h =>
    cases h' with
    | tooShort => rfl
    | _ => simp at h; omega
  | badVersion h1 h2 =>
    cases h' with
    | tooShort h => simp at h; omega
    | badVersion => rfl
    | badMethod h => rcases h with h | h <;> contradiction
    | ok _ h => rcases h with h | h <;> contradiction
  | badMethod h1 h2 =>
    cases h' with
    | tooShort h => simp at h; omega
    | badVersion => rcases h1 with h | h <;> contradiction
    | badMethod => rfl
    | ok m _ ht => exact absurd (ht ▸ text_mem m) h2
  | ok m h1 h2 =>
    cases h' with
    | tooShort h => simp at h; omega
    | badVersion => rcases h1 with h | h <;> contradiction
    | badMethod _ h => exact absurd (h2 ▸ text_mem m) h
    | ok m' _ h => rw [text_inj m m' (h2.symm.trans h)]

/-- C20: likewise for status lines. -/
theorem C20_status_outcome_unique {fs : List Bytes} {o o' : Except ParsingError Status}
    (h : StatusLineOutcome fs o) (h' : StatusLineOutcome fs o') : o = o' := by
  cases h with
  | tooShort h =>
    cases h' with
    | tooShort => rfl
    | _ => simp at h; omega
  | badVersion h1 h2 =>
    cases h' with
    | tooShort h => simp at h; omega
    | badVersion => rfl
    | badCode h => rcases h with h | h <;> contradiction
    | ok _ h => rcases h with h | h <;> contradiction
  | badCode h1 h2 =>
    cases h' with
    | tooShort h => simp at h; omega
    | badVersion => rcases h1 with h | h <;> contradiction
    | badCode => rfl
    | ok s _ hs ht => exact absurd ht (h2 s hs)
  | ok s h1 hs ht =>
    cases h' with
    | tooShort h => simp at h; omega
    | badVersion => rcases h1 with h | h <;> contradiction
    | badCode _ h => exact absurd ht (h s hs)
    | ok s' _ hs' ht' =>
      have := fromCode_table s hs
      rw [unsignedText_unique (by omega) ht ht', fromCode_table s' hs'] at this
      cases this; rfl

example : Fields b!"GET /a HTTP/1.1" [b!"GET", b!"/a", b!"HTTP/1.1"] := splitByte_fields _

/-! ## C21 -/

/-- C21: a text parses as a method exactly if it is that method's text. -/
theorem C21_method_text (s : Bytes) (m : Method) : Method.tryFromStr s = some m ↔ s = m.text :=
  ⟨tryFromStr_some, fun h => h ▸ tryFromStr_text m⟩

/-- C21: different methods have different texts. -/
theorem C21_method_text_injective {m m' : Method} (h : m.text = m'.text) : m = m' := by
  have := tryFromStr_text m
  rw [h, tryFromStr_text] at this
  exact (Option.some.inj this).symm

/-- C21: looking up a code finds exactly the predefined status with that code. -/
theorem C21_status_lookup (c : Nat) (s : Status) :
    Status.fromCode c = some s ↔ s ∈ statusTable ∧ s.code = c :=
  ⟨fromCode_some, fun ⟨h1, h2⟩ => h2 ▸ fromCode_table s h1⟩

/-- C21: a code is unknown exactly if no predefined status has it. -/
theorem C21_status_unknown (c : Nat) : Status.fromCode c = none ↔ ∀ s ∈ statusTable, s.code ≠ c := by
  refine ⟨fromCode_none, fun h => ?_⟩
  cases hc : Status.fromCode c with
  | none => rfl
  | some s => exact absurd (fromCode_some hc).2 (h s (fromCode_some hc).1)

/-- C21: the table has 60 statuses with pairwise different three-digit codes. -/
theorem C21_status_table : statusTable.length = 60 ∧ (statusTable.map Status.code).Nodup ∧
    ∀ s ∈ statusTable, 200 ≤ s.code ∧ s.code ≤ 599 := by
  refine ⟨?_, ?_, ?_⟩ <;> decide +kernel

/-- C21: the reason of each status is the phrase of the registry, or that of the few codes it does not have, in capitals. -/
theorem C21_reasons : ∀ s ∈ statusTable, ∃ p, (s.code, p) ∈ Spec.registry ++ Spec.unregistered ∧ s.reason = p.map Spec.capital := by
  have h : ∀ s ∈ statusTable, ((Spec.registry ++ Spec.unregistered).any fun x => x.1 = s.code && s.reason = x.2.map Spec.capital) = true := by
    decide +kernel
  intro s hs
  obtain ⟨⟨c, p⟩, hx, he⟩ := List.any_eq_true.1 (h s hs)
  simp only [Bool.and_eq_true, decide_eq_true_eq] at he
  exact ⟨p, he.1 ▸ hx, he.2⟩

/-- C21: every registered final status code is known, but for 425. -/
theorem C21_registered (c : Nat) (p : Bytes) (h : (c, p) ∈ Spec.registry) : (∃ s, Status.fromCode c = some s) ↔ c ≠ 425 := by
  have hd : ∀ x ∈ Spec.registry, (Status.fromCode x.1).isSome = decide (x.1 ≠ 425) := by decide +kernel
  have := hd _ h
  rw [← Option.isSome_iff_exists, this, decide_eq_true_eq]

example : Status.fromCode 404 = some ⟨404, b!"NOT FOUND"⟩ ∧ Status.fromCode 405 ≠ none ∧
    Status.fromCode 100 = none := by decide

/-! ## C10 -/

/-- The body parser used for a framing. -/
def Framing.parser : Framing → BodyParser
  | .length n => .withSize ⟨n, []⟩
  | .chunked => .chunked ⟨[], .size []⟩
  | .untilEof => .untilEof []
  | .noBody => .empty

/-- C10: for every list of received headers, the body is delimited as documented. -/
theorem C10_framing (ps : List (Header × Bytes)) (isResponse : Bool) :
    ∃ o, Announces ps isResponse o ∧
      BodyParser.new (HeaderMap.fromPairs ps) isResponse = o.map Framing.parser := by
  unfold BodyParser.new getContentLength isChunkedTransferEncoding
  rw [C19_first_value, C19_first_value]
  cases hcl : (ps.find? fun p => p.1 = Header.contentLength).map Prod.snd with
  | some v =>
    simp only [Option.map_some]
    cases hp : parseUnsigned 10 usizeBound v with
    | none =>
      refine ⟨_, .badLength hcl fun n hn => ?_, rfl⟩
      rcases Nat.lt_or_ge n (2 ^ 64) with h | h
      · have := (parseUnsigned_iff (radix := 10) (by omega)).2 ⟨hn, h⟩
        rw [hp] at this; cases this
      · exact h
    | some n =>
      obtain ⟨h1, h2⟩ := (parseUnsigned_iff (radix := 10) (by omega)).1 hp
      simp only [maxBodySize]
      by_cases h : n > 3 * 1024 * 1024
      · exact ⟨_, .tooLarge hcl h1 h h2, by simp only [h, if_true]; rfl⟩
      · exact ⟨_, .length hcl h1 (by omega), by simp only [h, if_false]; rfl⟩
  | none =>
    have hno : ∀ p ∈ ps, p.1 ≠ Header.contentLength := by
      simpa using hcl
    simp only [Option.map_none]
    cases hte : (ps.find? fun p => p.1 = Header.transferEncoding).map Prod.snd with
    | some v =>
      simp only [Option.map_some, Option.getD_some]
      by_cases hc : containsStr v b!"chunked" = true
      · exact ⟨_, .chunked hno hte (occurs_iff.1 hc), by simp only [hc, if_true]; rfl⟩
      · refine ⟨_, .none hno fun v' hv' ho => ?_, ?_⟩
        · rw [hte] at hv'; cases hv'; exact hc (occurs_iff.2 ho)
        · simp only [hc]; cases isResponse <;> rfl
    | none =>
      refine ⟨_, .none hno fun v' hv' => ?_, ?_⟩
      · rw [hte] at hv'; cases hv'
      · simp only [Option.map_none, Option.getD_none]; cases isResponse <;> rfl

/-- C10: the headers announce exactly one thing. -/
theorem C10_framing_unique {ps : List (Header × Bytes)} {isResponse : Bool} {o o' : Except ParsingError Framing}
    (h : Announces ps isResponse o) (h' : Announces ps isResponse o') : o = o' := by
  have nocl : ∀ {v : Bytes}, (∀ p ∈ ps, p.1 ≠ Header.contentLength) →
      (ps.find? fun p => p.1 = Header.contentLength).map Prod.snd = some v → False := by
    intro v h1 h2
    have : ps.find? (fun p => p.1 = Header.contentLength) = none := by simpa using h1
    rw [this] at h2; cases h2
  cases h with
  | length h1 h2 h3 =>
    cases h' with
    | length g1 g2 g3 => cases h1.symm.trans g1; rw [unsignedText_unique (by omega) h2 g2]
    | tooLarge g1 g2 g3 => cases h1.symm.trans g1; have := unsignedText_unique (by omega) h2 g2; omega
    | badLength g1 g2 => cases h1.symm.trans g1; have := g2 _ h2; omega
    | chunked g1 => exact (nocl g1 h1).elim
    | none g1 => exact (nocl g1 h1).elim
  | tooLarge h1 h2 h3 h4 =>
    cases h' with
    | length g1 g2 g3 => cases h1.symm.trans g1; have := unsignedText_unique (by omega) h2 g2; omega
    | tooLarge g1 g2 g3 => rfl
    | badLength g1 g2 => cases h1.symm.trans g1; have := g2 _ h2; omega
    | chunked g1 => exact (nocl g1 h1).elim
    | none g1 => exact (nocl g1 h1).elim
  | badLength h1 h2 =>
    cases h' with
    | length g1 g2 g3 => cases h1.symm.trans g1; have := h2 _ g2; omega
    | tooLarge g1 g2 g3 => cases h1.symm.trans g1; have := h2 _ g2; omega
    | badLength g1 g2 => rfl
    | chunked g1 => exact (nocl g1 h1).elim
    | none g1 => exact (nocl g1 h1).elim
  | chunked h1 h2 h3 =>
    cases h' with
    | length g1 => exact (nocl h1 g1).elim
    | tooLarge g1 => exact (nocl h1 g1).elim
    | badLength g1 => exact (nocl h1 g1).elim
    | chunked g1 => rfl
    | none g1 g2 => exact (g2 _ h2 h3).elim
  | none h1 h2 =>
    cases h' with
    | length g1 => exact (nocl h1 g1).elim
    | tooLarge g1 => exact (nocl h1 g1).elim
    | badLength g1 => exact (nocl h1 g1).elim
    | chunked g1 g2 g3 => exact (h2 _ g2 g3).elim
    | none => rfl

example : Announces [(Header.transferEncoding, b!"gzip, chunked"), (Header.contentLength, b!"+12"),
    (Header.contentLength, b!"7")] false (.ok (.length 12)) := by
  refine .length (v := b!"+12") (by decide) ?_ (by decide)
  exact ((parseUnsigned_iff (radix := 10) (bound := usizeBound) (by omega)).1 (by decide)).1

end Verif
