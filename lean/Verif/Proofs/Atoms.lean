import Verif.Proofs.Refine
import Verif.Spec.Input

/-!
What `scan`, `takeN` and `drain` do to a list of atoms.
-/

namespace Verif

/-- Only bytes. -/
def Pure (as : List Atom) : Prop := ∃ b : Bytes, as = b.map .byte

theorem bytesOf_append (a b : List Atom) : bytesOf (a ++ b) = bytesOf a ++ bytesOf b := by
  induction a with
  | nil => rfl
  | cons x t ih => cases x <;> simp [bytesOf, ih]

theorem bytesOf_map (b : Bytes) : bytesOf (b.map .byte) = b := by
  induction b with
  | nil => rfl
  | cons x t ih => simp [bytesOf, ih]

theorem quiet_map (b : Bytes) : Quiet (b.map .byte) := by
  intro a ha
  simp only [List.mem_map] at ha
  obtain ⟨x, -, rfl⟩ := ha
  exact .inl ⟨x, rfl⟩

theorem quiet_nil : Quiet [] := by simp [Quiet]

theorem quiet_cons {a : Atom} {as : List Atom} :
    Quiet (a :: as) ↔ ((∃ b, a = .byte b) ∨ a = .err .interrupted) ∧ Quiet as := by
  simp [Quiet]

theorem quiet_append {a b : List Atom} : Quiet (a ++ b) ↔ Quiet a ∧ Quiet b := by
  simp only [Quiet, List.mem_append]
  constructor
  · intro h; exact ⟨fun x hx => h x (.inl hx), fun x hx => h x (.inr hx)⟩
  · rintro ⟨h1, h2⟩ x (hx | hx)
    · exact h1 x hx
    · exact h2 x hx

/-- Count `n` bytes against every limit. -/
def decN (n : Nat) (ls : List Nat) : List Nat := ls.map (· - n)

@[simp] theorem decN_nil (n : Nat) : decN n [] = [] := rfl
@[simp] theorem decN_cons (n l : Nat) (ls : List Nat) : decN n (l :: ls) = (l - n) :: decN n ls := rfl
@[simp] theorem decN_zero (ls : List Nat) : decN 0 ls = ls := by simp [decN]
theorem dec_eq (ls : List Nat) : AR.dec ls = decN 1 ls := rfl
theorem decN_decN (m n : Nat) (ls : List Nat) : decN m (decN n ls) = decN (n + m) ls := by
  simp only [decN, List.map_map]
  apply List.map_congr_left
  intro a _; simp; omega
theorem decN_tail (n : Nat) (ls : List Nat) : (decN n ls).tail = decN n ls.tail := by
  cases ls <;> simp [decN]
theorem zero_not_mem {ls : List Nat} : 0 ∉ ls ↔ ∀ l ∈ ls, 0 < l := by
  constructor
  · intro h l hl
    rcases Nat.eq_zero_or_pos l with h0 | h0
    · subst h0; exact absurd hl h
    · exact h0
  · intro h h0; exact absurd (h 0 h0) (by omega)
theorem zero_not_mem_decN {ls : List Nat} {n : Nat} : 0 ∉ decN n ls ↔ ∀ l ∈ ls, n < l := by
  rw [zero_not_mem]
  simp only [decN, List.mem_map]
  constructor
  · intro h l hl; have := h (l - n) ⟨l, hl, rfl⟩; omega
  · rintro h _ ⟨l, hl, rfl⟩; have := h l hl; omega

/-! Equations -/

theorem scan_zero (d : UInt8) {ls : List Nat} (h : 0 ∈ ls) (as : List Atom) :
    AR.scan d ls as = (.err .limitReached, [], ls, as) := by
  cases as <;> simp [AR.scan, h]

theorem scan_nil (d : UInt8) {ls : List Nat} (h : 0 ∉ ls) :
    AR.scan d ls [] = (.err .wouldBlock, [], ls, []) := by simp [AR.scan, h]

theorem scan_delim (d : UInt8) {ls : List Nat} (h : 0 ∉ ls) (as : List Atom) :
    AR.scan d ls (.byte d :: as) = (.ok, [d], decN 1 ls, as) := by simp [AR.scan, h, dec_eq]

theorem scan_byte {d b : UInt8} (hb : b ≠ d) {ls : List Nat} (h : 0 ∉ ls) (as : List Atom) :
    AR.scan d ls (.byte b :: as) = ((AR.scan d (decN 1 ls) as).1, b :: (AR.scan d (decN 1 ls) as).2.1,
      (AR.scan d (decN 1 ls) as).2.2) := by
  simp only [AR.scan, h, hb, if_false, dec_eq]

theorem scan_eof (d : UInt8) {ls : List Nat} (h : 0 ∉ ls) (as : List Atom) :
    AR.scan d ls (.eof :: as) = (.ok, [], ls, as) := by simp [AR.scan, h]

theorem scan_int (d : UInt8) {ls : List Nat} (h : 0 ∉ ls) (as : List Atom) :
    AR.scan d ls (.err .interrupted :: as) = AR.scan d ls as := by simp [AR.scan, h]

theorem scan_err (d : UInt8) {e : IoError} (he : e ≠ .interrupted) {ls : List Nat} (h : 0 ∉ ls)
    (as : List Atom) : AR.scan d ls (.err e :: as) = (.err e, [], ls, as) := by
  cases e <;> first | exact absurd rfl he | simp [AR.scan, h]

theorem takeN_zero' {n : Nat} {ls : List Nat} (h : 0 ∈ ls) (as : List Atom) :
    AR.takeN (n + 1) ls as = (.err .limitReached, [], ls, as) := by simp [AR.takeN, h]

theorem takeN_nil {n : Nat} {ls : List Nat} (h : 0 ∉ ls) :
    AR.takeN (n + 1) ls [] = (.err .wouldBlock, [], ls, []) := by simp [AR.takeN, h]

theorem takeN_byte {n : Nat} {ls : List Nat} (h : 0 ∉ ls) (b : UInt8) (as : List Atom) :
    AR.takeN (n + 1) ls (.byte b :: as) = ((AR.takeN n (decN 1 ls) as).1,
      b :: (AR.takeN n (decN 1 ls) as).2.1, (AR.takeN n (decN 1 ls) as).2.2) := by
  simp only [AR.takeN, h, if_false, dec_eq]

theorem takeN_eof {n : Nat} {ls : List Nat} (h : 0 ∉ ls) (as : List Atom) :
    AR.takeN (n + 1) ls (.eof :: as) = (.err .unexpectedEof, [], ls, as) := by simp [AR.takeN, h]

theorem takeN_err {n : Nat} {ls : List Nat} (h : 0 ∉ ls) (e : IoError) (as : List Atom) :
    AR.takeN (n + 1) ls (.err e :: as) = (.err e, [], ls, as) := by simp [AR.takeN, h]

theorem drain_zero {ls : List Nat} (h : 0 ∈ ls) (as : List Atom) :
    AR.drain ls as = (.err .limitReached, [], ls, as) := by
  cases as <;> simp [AR.drain, h]

theorem drain_nil {ls : List Nat} (h : 0 ∉ ls) :
    AR.drain ls [] = (.err .wouldBlock, [], ls, []) := by simp [AR.drain, h]

theorem drain_byte (b : UInt8) {ls : List Nat} (h : 0 ∉ ls) (as : List Atom) :
    AR.drain ls (.byte b :: as) = ((AR.drain (decN 1 ls) as).1, b :: (AR.drain (decN 1 ls) as).2.1,
      (AR.drain (decN 1 ls) as).2.2) := by
  simp only [AR.drain, h, if_false, dec_eq]

theorem drain_eof {ls : List Nat} (h : 0 ∉ ls) (as : List Atom) :
    AR.drain ls (.eof :: as) = (.ok, [], ls, as) := by simp [AR.drain, h]

theorem drain_int {ls : List Nat} (h : 0 ∉ ls) (as : List Atom) :
    AR.drain ls (.err .interrupted :: as) = AR.drain ls as := by simp [AR.drain, h]

theorem drain_err {e : IoError} (he : e ≠ .interrupted) {ls : List Nat} (h : 0 ∉ ls)
    (as : List Atom) : AR.drain ls (.err e :: as) = (.err e, [], ls, as) := by
  cases e <;> first | exact absurd rfl he | simp [AR.drain, h]

theorem mem_decN_one {l : Nat} {ls : List Nat} (hl : l ∈ ls) : l - 1 ∈ decN 1 ls := by
  simp only [decN, List.mem_map]; exact ⟨l, hl, rfl⟩

/-- How `scan` ended. -/
inductive ScanEnd (d : UInt8) (pre as' : List Atom) (ls' : List Nat) : IoRes → Bytes → List Atom → Prop
  | found : Quiet pre → d ∉ bytesOf pre →
      ScanEnd d pre as' ls' .ok (bytesOf pre ++ [d]) (pre ++ .byte d :: as')
  | eof : Quiet pre → d ∉ bytesOf pre → 0 ∉ ls' →
      ScanEnd d pre as' ls' .ok (bytesOf pre) (pre ++ .eof :: as')
  | err (e : IoError) : Quiet pre → d ∉ bytesOf pre → 0 ∉ ls' → e ≠ .interrupted →
      ScanEnd d pre as' ls' (.err e) (bytesOf pre) (pre ++ .err e :: as')
  | limit : Quiet pre → d ∉ bytesOf pre → 0 ∈ ls' →
      ScanEnd d pre as' ls' (.err .limitReached) (bytesOf pre) (pre ++ as')
  | out : Quiet pre → d ∉ bytesOf pre → 0 ∉ ls' → as' = [] →
      ScanEnd d pre as' ls' (.err .wouldBlock) (bytesOf pre) pre

theorem ScanEnd.cons_byte {d b : UInt8} {pre as' : List Atom} {ls' : List Nat} {o : IoRes} {bs : Bytes}
    {as : List Atom} (hb : b ≠ d) (h : ScanEnd d pre as' ls' o bs as) :
    ScanEnd d (.byte b :: pre) as' ls' o (b :: bs) (.byte b :: as) := by
  have hq : ∀ {pre}, Quiet pre → Quiet (.byte b :: pre) := fun h => quiet_cons.2 ⟨.inl ⟨b, rfl⟩, h⟩
  have hd : ∀ {pre}, d ∉ bytesOf pre → d ∉ bytesOf (.byte b :: pre) := by
    intro pre h; simp [bytesOf, Ne.symm hb, h]
  cases h with
  | found h1 h2 => exact .found (hq h1) (hd h2)
  | eof h1 h2 h3 => exact .eof (hq h1) (hd h2) h3
  | err e h1 h2 h3 h4 => exact .err e (hq h1) (hd h2) h3 h4
  | limit h1 h2 h3 => exact .limit (hq h1) (hd h2) h3
  | out h1 h2 h3 h4 => exact .out (hq h1) (hd h2) h3 h4

theorem ScanEnd.cons_int {d : UInt8} {pre as' : List Atom} {ls' : List Nat} {o : IoRes} {bs : Bytes}
    {as : List Atom} (h : ScanEnd d pre as' ls' o bs as) :
    ScanEnd d (.err .interrupted :: pre) as' ls' o bs (.err .interrupted :: as) := by
  have hq : ∀ {pre}, Quiet pre → Quiet (.err .interrupted :: pre) :=
    fun h => quiet_cons.2 ⟨.inr rfl, h⟩
  cases h with
  | found h1 h2 => exact .found (pre := .err .interrupted :: pre) (hq h1) h2
  | eof h1 h2 h3 => exact .eof (pre := .err .interrupted :: pre) (hq h1) h2 h3
  | err e h1 h2 h3 h4 => exact .err (pre := .err .interrupted :: pre) e (hq h1) h2 h3 h4
  | limit h1 h2 h3 => exact .limit (pre := .err .interrupted :: pre) (hq h1) h2 h3
  | out h1 h2 h3 h4 => exact .out (pre := .err .interrupted :: pre) (hq h1) h2 h3 h4

/-- Every result of `scan` is one of the five endings, and counts its bytes against the limits. -/
theorem scan_spec (d : UInt8) (ls : List Nat) (as : List Atom) :
    ∃ pre, ScanEnd d pre (AR.scan d ls as).2.2.2 (AR.scan d ls as).2.2.1 (AR.scan d ls as).1
        (AR.scan d ls as).2.1 as ∧
      (AR.scan d ls as).2.2.1 = decN (AR.scan d ls as).2.1.length ls ∧
      ∀ l ∈ ls, (AR.scan d ls as).2.1.length ≤ l := by
  induction as generalizing ls with
  | nil =>
    by_cases h0 : 0 ∈ ls
    · rw [scan_zero d h0]
      exact ⟨[], .limit quiet_nil (by simp [bytesOf]) h0, by simp, by simp⟩
    · rw [scan_nil d h0]
      exact ⟨[], .out quiet_nil (by simp [bytesOf]) h0 rfl, by simp, by simp⟩
  | cons a as ih =>
    by_cases h0 : 0 ∈ ls
    · rw [scan_zero d h0]
      exact ⟨[], .limit quiet_nil (by simp [bytesOf]) h0, by simp, by simp⟩
    · have hpos := zero_not_mem.1 h0
      cases a with
      | byte b =>
        by_cases hb : b = d
        · subst hb
          rw [scan_delim b h0]
          exact ⟨[], .found (pre := []) quiet_nil (by simp [bytesOf]), by simp,
            fun l hl => by have := hpos l hl; simp; omega⟩
        · rw [scan_byte hb h0]
          obtain ⟨pre, h1, h2, h3⟩ := ih (decN 1 ls)
          refine ⟨.byte b :: pre, h1.cons_byte hb, ?_, ?_⟩
          · simp only [h2, decN_decN, List.length_cons]
            rw [Nat.add_comm]
          · intro l hl
            have := h3 (l - 1) (mem_decN_one hl)
            have := hpos l hl
            simp only [List.length_cons]; omega
      | eof =>
        rw [scan_eof d h0]
        exact ⟨[], .eof (pre := []) quiet_nil (by simp [bytesOf]) h0, by simp, by simp⟩
      | err e =>
        by_cases he : e = .interrupted
        · subst he
          rw [scan_int d h0]
          obtain ⟨pre, h1, h2, h3⟩ := ih ls
          exact ⟨.err .interrupted :: pre, h1.cons_int, h2, h3⟩
        · rw [scan_err d he h0]
          exact ⟨[], .err (pre := []) e quiet_nil (by simp [bytesOf]) h0 he, by simp, by simp⟩

/-- `scan` runs over a quiet stretch without the delimiter. -/
theorem scan_quiet (d : UInt8) (pre : List Atom) (ls : List Nat) (as : List Atom) (hq : Quiet pre)
    (hd : d ∉ bytesOf pre) (hl : ∀ l ∈ ls, (bytesOf pre).length < l) :
    AR.scan d ls (pre ++ as) =
      ((AR.scan d (decN (bytesOf pre).length ls) as).1,
        bytesOf pre ++ (AR.scan d (decN (bytesOf pre).length ls) as).2.1,
        (AR.scan d (decN (bytesOf pre).length ls) as).2.2) := by
  induction pre generalizing ls with
  | nil => simp [bytesOf]
  | cons a t ih =>
    obtain ⟨ha, ht⟩ := quiet_cons.1 hq
    have h0 : 0 ∉ ls := zero_not_mem.2 fun l hl' => by have := hl l hl'; omega
    rcases ha with ⟨b, rfl⟩ | rfl
    · have hb : b ≠ d := fun h => hd (by simp [bytesOf, h])
      rw [List.cons_append, scan_byte hb h0, ih (decN 1 ls) ht (fun h => hd (by simp [bytesOf, h]))]
      · simp only [bytesOf, List.length_cons, decN_decN, Nat.add_comm 1, List.cons_append]
      · intro l hl'
        simp only [decN, List.mem_map] at hl'
        obtain ⟨x, hx, rfl⟩ := hl'
        have := hl x hx
        simp [bytesOf] at this; omega
    · rw [List.cons_append, scan_int d h0, ih ls ht hd hl]
      simp only [bytesOf]

/-- How `takeN n` ended. -/
inductive TakeEnd (n : Nat) (b : Bytes) (as' : List Atom) (ls' : List Nat) : IoRes → List Atom → Prop
  | full : b.length = n → TakeEnd n b as' ls' .ok (b.map .byte ++ as')
  | eof : b.length < n → 0 ∉ ls' → TakeEnd n b as' ls' (.err .unexpectedEof) (b.map .byte ++ .eof :: as')
  | err (e : IoError) : b.length < n → 0 ∉ ls' →
      TakeEnd n b as' ls' (.err e) (b.map .byte ++ .err e :: as')
  | limit : b.length < n → 0 ∈ ls' → TakeEnd n b as' ls' (.err .limitReached) (b.map .byte ++ as')
  | out : b.length < n → 0 ∉ ls' → as' = [] → TakeEnd n b as' ls' (.err .wouldBlock) (b.map .byte)

theorem TakeEnd.cons {n : Nat} {b : Bytes} {as' : List Atom} {ls' : List Nat} {o : IoRes}
    {as : List Atom} (c : UInt8) (h : TakeEnd n b as' ls' o as) :
    TakeEnd (n + 1) (c :: b) as' ls' o (.byte c :: as) := by
  cases h with
  | full h => exact .full (b := c :: b) (by simp [h])
  | eof h h1 => exact .eof (b := c :: b) (by simp [h]) h1
  | err e h h1 => exact .err (b := c :: b) e (by simp [h]) h1
  | limit h h1 => exact .limit (b := c :: b) (by simp [h]) h1
  | out h h1 h2 => exact .out (b := c :: b) (by simp [h]) h1 h2

theorem takeN_spec (n : Nat) (ls : List Nat) (as : List Atom) :
    TakeEnd n (AR.takeN n ls as).2.1 (AR.takeN n ls as).2.2.2 (AR.takeN n ls as).2.2.1
        (AR.takeN n ls as).1 as ∧
      (AR.takeN n ls as).2.2.1 = decN (AR.takeN n ls as).2.1.length ls ∧
      ∀ l ∈ ls, (AR.takeN n ls as).2.1.length ≤ l := by
  induction n generalizing ls as with
  | zero => simp only [AR.takeN]; exact ⟨.full (b := []) rfl, by simp, by simp⟩
  | succ n ih =>
    by_cases h0 : 0 ∈ ls
    · rw [takeN_zero' h0]
      exact ⟨.limit (b := []) (by simp) h0, by simp, by simp⟩
    · have hpos := zero_not_mem.1 h0
      cases as with
      | nil => rw [takeN_nil h0]; exact ⟨.out (b := []) (by simp) h0 rfl, by simp, by simp⟩
      | cons a as =>
        cases a with
        | byte b =>
          rw [takeN_byte h0]
          obtain ⟨h1, h2, h3⟩ := ih (decN 1 ls) as
          refine ⟨h1.cons b, ?_, ?_⟩
          · simp only [h2, decN_decN, List.length_cons]
            rw [Nat.add_comm]
          · intro l hl
            have := h3 (l - 1) (mem_decN_one hl)
            have := hpos l hl
            simp only [List.length_cons]; omega
        | eof => rw [takeN_eof h0]; exact ⟨.eof (b := []) (by simp) h0, by simp, by simp⟩
        | err e => rw [takeN_err h0]; exact ⟨.err (b := []) e (by simp) h0, by simp, by simp⟩

/-- How `drain` ended. -/
inductive DrainEnd (pre as' : List Atom) (ls' : List Nat) : IoRes → Bytes → List Atom → Prop
  | eof : Quiet pre → 0 ∉ ls' → DrainEnd pre as' ls' .ok (bytesOf pre) (pre ++ .eof :: as')
  | err (e : IoError) : Quiet pre → 0 ∉ ls' → e ≠ .interrupted →
      DrainEnd pre as' ls' (.err e) (bytesOf pre) (pre ++ .err e :: as')
  | limit : Quiet pre → 0 ∈ ls' → DrainEnd pre as' ls' (.err .limitReached) (bytesOf pre) (pre ++ as')
  | out : Quiet pre → 0 ∉ ls' → as' = [] → DrainEnd pre as' ls' (.err .wouldBlock) (bytesOf pre) pre

theorem DrainEnd.cons {pre as' : List Atom} {ls' : List Nat} {o : IoRes} {bs : Bytes}
    {as : List Atom} (b : UInt8) (h : DrainEnd pre as' ls' o bs as) :
    DrainEnd (.byte b :: pre) as' ls' o (b :: bs) (.byte b :: as) := by
  have hq : ∀ {pre}, Quiet pre → Quiet (.byte b :: pre) := fun h => quiet_cons.2 ⟨.inl ⟨b, rfl⟩, h⟩
  cases h with
  | eof h1 h3 => exact .eof (pre := .byte b :: pre) (hq h1) h3
  | err e h1 h3 h4 => exact .err (pre := .byte b :: pre) e (hq h1) h3 h4
  | limit h1 h3 => exact .limit (pre := .byte b :: pre) (hq h1) h3
  | out h1 h3 h4 => exact .out (pre := .byte b :: pre) (hq h1) h3 h4

theorem DrainEnd.cons_int {pre as' : List Atom} {ls' : List Nat} {o : IoRes} {bs : Bytes}
    {as : List Atom} (h : DrainEnd pre as' ls' o bs as) :
    DrainEnd (.err .interrupted :: pre) as' ls' o bs (.err .interrupted :: as) := by
  have hq : ∀ {pre}, Quiet pre → Quiet (.err .interrupted :: pre) :=
    fun h => quiet_cons.2 ⟨.inr rfl, h⟩
  cases h with
  | eof h1 h3 => exact .eof (pre := .err .interrupted :: pre) (hq h1) h3
  | err e h1 h3 h4 => exact .err (pre := .err .interrupted :: pre) e (hq h1) h3 h4
  | limit h1 h3 => exact .limit (pre := .err .interrupted :: pre) (hq h1) h3
  | out h1 h3 h4 => exact .out (pre := .err .interrupted :: pre) (hq h1) h3 h4

theorem drain_spec (ls : List Nat) (as : List Atom) :
    ∃ pre, DrainEnd pre (AR.drain ls as).2.2.2 (AR.drain ls as).2.2.1 (AR.drain ls as).1
        (AR.drain ls as).2.1 as ∧
      (AR.drain ls as).2.2.1 = decN (AR.drain ls as).2.1.length ls ∧
      ∀ l ∈ ls, (AR.drain ls as).2.1.length ≤ l := by
  induction as generalizing ls with
  | nil =>
    by_cases h0 : 0 ∈ ls
    · rw [drain_zero h0]
      exact ⟨[], .limit quiet_nil h0, by simp, by simp⟩
    · rw [drain_nil h0]
      exact ⟨[], .out quiet_nil h0 rfl, by simp, by simp⟩
  | cons a as ih =>
    by_cases h0 : 0 ∈ ls
    · rw [drain_zero h0]
      exact ⟨[], .limit quiet_nil h0, by simp, by simp⟩
    · have hpos := zero_not_mem.1 h0
      cases a with
      | byte b =>
        rw [drain_byte b h0]
        obtain ⟨pre, h1, h2, h3⟩ := ih (decN 1 ls)
        refine ⟨.byte b :: pre, h1.cons b, ?_, ?_⟩
        · simp only [h2, decN_decN, List.length_cons]
          rw [Nat.add_comm]
        · intro l hl
          have := h3 (l - 1) (mem_decN_one hl)
          have := hpos l hl
          simp only [List.length_cons]; omega
      | eof => rw [drain_eof h0]; exact ⟨[], .eof (pre := []) quiet_nil h0, by simp, by simp⟩
      | err e =>
        by_cases he : e = .interrupted
        · subst he
          rw [drain_int h0]
          obtain ⟨pre, h1, h2, h3⟩ := ih ls
          exact ⟨.err .interrupted :: pre, h1.cons_int, h2, h3⟩
        · rw [drain_err he h0]
          exact ⟨[], .err (pre := []) e quiet_nil h0 he, by simp, by simp⟩

theorem drain_quiet (pre : List Atom) (ls : List Nat) (as : List Atom) (hq : Quiet pre)
    (hl : ∀ l ∈ ls, (bytesOf pre).length < l) :
    AR.drain ls (pre ++ as) =
      ((AR.drain (decN (bytesOf pre).length ls) as).1,
        bytesOf pre ++ (AR.drain (decN (bytesOf pre).length ls) as).2.1,
        (AR.drain (decN (bytesOf pre).length ls) as).2.2) := by
  induction pre generalizing ls with
  | nil => simp [bytesOf]
  | cons a t ih =>
    obtain ⟨ha, ht⟩ := quiet_cons.1 hq
    have h0 : 0 ∉ ls := zero_not_mem.2 fun l hl' => by have := hl l hl'; omega
    rcases ha with ⟨b, rfl⟩ | rfl
    · rw [List.cons_append, drain_byte b h0, ih (decN 1 ls) ht]
      · simp only [bytesOf, List.length_cons, decN_decN, Nat.add_comm 1, List.cons_append]
      · intro l hl'
        simp only [decN, List.mem_map] at hl'
        obtain ⟨x, hx, rfl⟩ := hl'
        have := hl x hx
        simp [bytesOf] at this; omega
    · rw [List.cons_append, drain_int h0, ih ls ht hl]
      simp only [bytesOf]

end Verif
