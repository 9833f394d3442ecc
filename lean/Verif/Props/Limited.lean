import Verif.Proofs.Refine
import Verif.Proofs.Atoms
import Verif.Spec.Input

/-!
C89: a limited reader passes on exactly the bytes up to its limits. About `ErrorTake`
(`src/parse/error_take.rs`) by itself, whatever is done with it.
-/

namespace Verif

/-- What a user of a reader can do with it: read into a destination of `n + 1` bytes, or look at what
is buffered (`fill_buf`) and use up to `n` bytes of that (`consume`). -/
inductive ReadOp
  | read (n : Nat)
  | use (n : Nat)

/-- `ErrorTake::read`, `fill_buf` and `consume`, `src/parse/error_take.rs` 35-49, through all the limits
of the reader. `consume` is only called with at most what `fill_buf` returned, as `BufRead` asks. -/
def ReadOp.run : ReadOp → Rd → Except IoError Bytes × Rd
  | .read n, r =>
    match Rd.readL r.lims r.src (n + 1) with
    | (o, ls, s) => (o, ⟨ls, s⟩)
  | .use n, r =>
    match Rd.fillBufL r.lims r.src with
    | (.ok b, s) =>
      match Rd.consumeL r.lims s (b.take n).length with
      | (ls, s) => (.ok (b.take n), ⟨ls, s⟩)
    | (.error e, s) => (.error e, ⟨r.lims, s⟩)

/-- One operation after the other, also after errors. -/
def ReadOp.runs : List ReadOp → Rd → List (Except IoError Bytes) × Rd
  | [], r => ([], r)
  | op :: ops, r =>
    match op.run r with
    | (o, r) => match runs ops r with
      | (os, r) => (o :: os, r)

/-- The bytes of a result. -/
def gotten : Except IoError Bytes → Bytes
  | .ok b => b
  | .error _ => []

/-- The most bytes that an operation can deliver. -/
def ReadOp.asks : ReadOp → Nat
  | .read n => n + 1
  | .use n => n

theorem ReadOp.run_limit (op : ReadOp) {r : Rd} (h : 0 ∈ r.lims) : op.run r = (.error .limitReached, r) := by
  cases op with
  | read n => simp [ReadOp.run, readL_limit _ h]
  | use n => simp [ReadOp.run, fillBufL_limit _ h]

/-- What one operation does while no limit is used up. -/
theorem ReadOp.run_spec (op : ReadOp) {r : Rd} (h : 0 ∉ r.lims) :
    ∃ passed, r.src.atoms = passed ++ (op.run r).2.src.atoms ∧
      bytesOf passed = gotten (op.run r).1 ∧
      (op.run r).2.lims = r.lims.map (· - (gotten (op.run r).1).length) ∧
      (∀ l ∈ r.lims, (gotten (op.run r).1).length ≤ l) ∧
      (∀ e, (op.run r).1 = .error e → passed = [.err e] ∨ e = .wouldBlock) := by
  cases op with
  | read n =>
    have := readL_spec r.lims h r.src (n + 1) (by omega)
    revert this
    simp only [ReadOp.run]
    generalize Rd.readL r.lims r.src (n + 1) = q
    rcases q with ⟨e | b, ls, s⟩
    · rintro ⟨rfl, h1, -⟩
      rcases h1 with h1 | ⟨rfl, h1, h2⟩
      · exact ⟨[.err e], by simp [h1], by simp [bytesOf, gotten], by simp [gotten], by simp [gotten], by simp⟩
      · exact ⟨[], by simp [h1, h2], by simp [bytesOf, gotten], by simp [gotten], by simp [gotten], by simp⟩
    · cases b with
      | nil =>
        rintro ⟨h1, rfl, -⟩
        exact ⟨[.eof], by simp [h1], by simp [bytesOf, gotten], by simp [gotten], by simp [gotten], by simp⟩
      | cons c t =>
        rintro ⟨h1, rfl, -, h2, -⟩
        exact ⟨(c :: t).map .byte, h1, by simp only [bytesOf_map, gotten], by simp only [gotten], by simpa only [gotten] using h2, by simp⟩
  | use n =>
    have := fillBufL_spec r.lims h r.src
    revert this
    simp only [ReadOp.run]
    generalize Rd.fillBufL r.lims r.src = q
    rcases q with ⟨e | b, s⟩
    · rintro (h1 | ⟨rfl, h1, h2⟩)
      · exact ⟨[.err e], by simp [h1], by simp [bytesOf, gotten], by simp [gotten], by simp [gotten], by simp⟩
      · exact ⟨[], by simp [h1, h2], by simp [bytesOf, gotten], by simp [gotten], by simp [gotten], by simp⟩
    · have hle : (b.take n).length ≤ b.length := by simp; omega
      cases b with
      | nil =>
        rintro ⟨h1, h2⟩
        refine ⟨[.eof], ?_⟩
        have h3 : (s.consume 0).atoms = s.atoms := by simp [Src.consume, Src.atoms]
        simp [consumeL_eq, h1, h3, bytesOf, gotten]
      | cons c t =>
        rintro ⟨h1, ⟨u, hu⟩, h2⟩
        have h3 : ∀ l ∈ r.lims, ((c :: t).take n).length ≤ l := fun l hl => Nat.le_trans hle (h2 l hl)
        simp only [consumeL_eq _ _ _ h3]
        refine ⟨((c :: t).take n).map .byte, ?_, by simp only [bytesOf_map, gotten], by simp only [gotten], by simpa only [gotten] using h3, by simp⟩
        have hd := drop_length_take (c :: t) n
        have h4 : (((c :: t) ++ u).drop ((c :: t).take n).length) = (c :: t).drop ((c :: t).take n).length ++ u :=
          List.drop_append_of_le_length hle
        rw [← h1]
        simp only [Src.atoms, Src.consume, hu, h4]
        rw [← List.append_assoc, ← List.map_append, ← List.append_assoc, hd]

/-- **C89**. Whatever is read through any limits: what is delivered are the next bytes of the stream in
order, none left out, none twice; the stream is left right behind them; in total they are at most as many
as each of the limits; and each limit has been lowered by their number. -/
theorem C89_delivered (ops : List ReadOp) (r : Rd) :
    ∃ passed, r.src.atoms = passed ++ (ReadOp.runs ops r).2.src.atoms ∧
      bytesOf passed = (ReadOp.runs ops r).1.flatMap gotten ∧
      (ReadOp.runs ops r).2.lims = r.lims.map (· - ((ReadOp.runs ops r).1.flatMap gotten).length) ∧
      ∀ l ∈ r.lims, ((ReadOp.runs ops r).1.flatMap gotten).length ≤ l := by
  induction ops generalizing r with
  | nil => exact ⟨[], by simp [ReadOp.runs], by simp [ReadOp.runs, bytesOf], by simp [ReadOp.runs], by simp [ReadOp.runs]⟩
  | cons op ops ih =>
    by_cases h0 : 0 ∈ r.lims
    · have h1 := op.run_limit h0
      obtain ⟨p, a, b, c, d⟩ := ih r
      refine ⟨p, ?_⟩
      simp only [ReadOp.runs, h1, List.flatMap_cons, gotten, List.nil_append]
      exact ⟨a, b, c, d⟩
    · obtain ⟨p, a, b, c, d, -⟩ := op.run_spec h0
      obtain ⟨p', a', b', c', d'⟩ := ih (op.run r).2
      refine ⟨p ++ p', ?_⟩
      simp only [ReadOp.runs, List.flatMap_cons, List.length_append]
      refine ⟨by rw [a, a', List.append_assoc], by rw [bytesOf_append, b, b'], ?_, ?_⟩
      · rw [c', c, List.map_map]
        apply List.map_congr_left
        intro l _
        simp only [Function.comp]
        omega
      · intro l hl
        have h1 := d l hl
        have h2 := d' (l - (gotten (op.run r).1).length) (by rw [c]; exact List.mem_map.2 ⟨l, hl, rfl⟩)
        omega

/-- **C89**. As soon as as many bytes were delivered as one of the limits allows, everything fails with
"read limit reached" (also if the stream ends there), and nothing more is taken from the stream. -/
theorem C89_reached (ops : List ReadOp) (r : Rd) {l : Nat} (hl : l ∈ r.lims)
    (h : ((ReadOp.runs ops r).1.flatMap gotten).length = l) (op : ReadOp) :
    op.run (ReadOp.runs ops r).2 = (.error .limitReached, (ReadOp.runs ops r).2) := by
  obtain ⟨-, -, -, c, -⟩ := C89_delivered ops r
  apply op.run_limit
  rw [c]
  exact List.mem_map.2 ⟨l, hl, by omega⟩

/-- **C89**. And not before: where the stream itself has no such error, the error means that exactly as
many bytes were delivered as one of the limits allows. -/
theorem C89_not_before (ops : List ReadOp) (r : Rd) (hs : .err .limitReached ∉ r.src.atoms) (op : ReadOp)
    (h : (op.run (ReadOp.runs ops r).2).1 = .error .limitReached) :
    ((ReadOp.runs ops r).1.flatMap gotten).length ∈ r.lims := by
  obtain ⟨p, a, -, c, d⟩ := C89_delivered ops r
  by_cases h0 : 0 ∈ (ReadOp.runs ops r).2.lims
  · rw [c] at h0
    obtain ⟨l, hl, h1⟩ := List.mem_map.1 h0
    have := d l hl
    have : ((ReadOp.runs ops r).1.flatMap gotten).length = l := by omega
    rw [this]; exact hl
  · obtain ⟨p', a', -, -, -, e⟩ := op.run_spec h0
    rcases e _ h with h1 | h1
    · rw [a, a', h1] at hs
      simp at hs
    · simp at h1

theorem readL_free (ls : List Nat) (s : Src) (n : Nat) (h0 : 0 ∉ ls) (h : ∀ l ∈ ls, n ≤ l) :
    (Rd.readL ls s n).1 = (s.read n).1 ∧ (Rd.readL ls s n).2.2 = (s.read n).2 := by
  induction ls with
  | nil => simp [Rd.readL]
  | cons l ls ih =>
    have hl : l ≠ 0 := fun h => h0 (by simp [h])
    have ih := ih (fun h => h0 (List.mem_cons_of_mem _ h)) (fun l hl => h l (List.mem_cons_of_mem _ hl))
    simp only [Rd.readL, hl, if_false, Nat.min_eq_left (h l (by simp))]
    revert ih
    generalize Rd.readL ls s n = q
    rcases q with ⟨e | b, ls', s'⟩ <;> exact id

theorem fillBufL_free (ls : List Nat) (s : Src) (n : Nat) (h0 : 0 ∉ ls) (h : ∀ l ∈ ls, n ≤ l) :
    (Rd.fillBufL ls s).2 = s.fillBuf.2 ∧
      (Rd.fillBufL ls s).1.map (List.take n) = s.fillBuf.1.map (List.take n) := by
  induction ls with
  | nil => simp [Rd.fillBufL]
  | cons l ls ih =>
    have hl : l ≠ 0 := fun h => h0 (by simp [h])
    have ih := ih (fun h => h0 (List.mem_cons_of_mem _ h)) (fun l hl => h l (List.mem_cons_of_mem _ hl))
    simp only [Rd.fillBufL, hl, if_false]
    revert ih
    generalize Rd.fillBufL ls s = q
    rcases q with ⟨e | b, s'⟩
    · exact id
    · rintro ⟨a, b⟩
      refine ⟨a, ?_⟩
      rw [← b]
      simp [Except.map, List.take_take, Nat.min_eq_left (h l (by simp))]

/-- Below the limits one operation does what it does without them. -/
theorem ReadOp.run_free (op : ReadOp) (r : Rd) (h0 : 0 ∉ r.lims) (h : ∀ l ∈ r.lims, op.asks ≤ l) :
    (op.run r).1 = (op.run ⟨[], r.src⟩).1 ∧ (op.run r).2.src = (op.run ⟨[], r.src⟩).2.src := by
  cases op with
  | read n =>
    have := readL_free r.lims r.src (n + 1) h0 h
    simpa [ReadOp.run, Rd.readL] using this
  | use n =>
    have := fillBufL_free r.lims r.src n h0 h
    simp only [ReadOp.run, Rd.fillBufL]
    revert this
    generalize Rd.fillBufL r.lims r.src = q
    generalize r.src.fillBuf = q'
    rcases q with ⟨e | b, s⟩ <;> rcases q' with ⟨e' | b', s'⟩
    · rintro ⟨h1, h2⟩
      simp only [Except.map, Except.error.injEq] at h2
      exact ⟨by simp [h2], h1⟩
    · rintro ⟨h1, h2⟩; simp [Except.map] at h2
    · rintro ⟨h1, h2⟩; simp [Except.map] at h2
    · rintro ⟨h1, h2⟩
      simp only [Except.map, Except.ok.injEq] at h2
      have h3 : ∀ l ∈ r.lims, (b'.take n).length ≤ l := fun l hl => by
        have := h l hl; simp only [ReadOp.asks] at this; simp; omega
      subst h1
      simp only [h2, consumeL_eq _ _ _ h3, Rd.consumeL, and_self]

theorem ReadOp.run_asks (op : ReadOp) (r : Rd) (h0 : 0 ∉ r.lims) : (gotten (op.run r).1).length ≤ op.asks := by
  cases op with
  | read n =>
    have := readL_spec r.lims h0 r.src (n + 1) (by omega)
    revert this
    simp only [ReadOp.run, ReadOp.asks]
    generalize Rd.readL r.lims r.src (n + 1) = q
    rcases q with ⟨e | b, ls, s⟩
    · simp [gotten]
    · cases b with
      | nil => simp [gotten]
      | cons c t => rintro ⟨-, -, h, -⟩; simpa only [gotten] using h
  | use n =>
    simp only [ReadOp.run, ReadOp.asks]
    generalize Rd.fillBufL r.lims r.src = q
    rcases q with ⟨e | b, s⟩
    · simp [gotten]
    · simp [gotten]; omega

/-- **C89**. As long as less is asked for than each of the limits allows, the limits make no difference:
the results are the same, and the stream is left in the same state, as without them. -/
theorem C89_below (ops : List ReadOp) (r : Rd) (h : ∀ l ∈ r.lims, (ops.map ReadOp.asks).sum < l) :
    (ReadOp.runs ops r).1 = (ReadOp.runs ops ⟨[], r.src⟩).1 ∧
      (ReadOp.runs ops r).2.src = (ReadOp.runs ops ⟨[], r.src⟩).2.src := by
  induction ops generalizing r with
  | nil => simp [ReadOp.runs]
  | cons op ops ih =>
    simp only [List.map_cons, List.sum_cons] at h
    have h0 : 0 ∉ r.lims := fun h' => by have := h 0 h'; omega
    obtain ⟨a, b⟩ := op.run_free r h0 (fun l hl => by have := h l hl; omega)
    obtain ⟨-, -, -, c, -⟩ := op.run_spec h0
    have d := op.run_asks r h0
    obtain ⟨-, -, -, c', -⟩ := op.run_spec (r := ⟨[], r.src⟩) (by simp)
    have e := ih (op.run r).2 (fun l hl => by
      rw [c] at hl
      obtain ⟨m, hm, rfl⟩ := List.mem_map.1 hl
      have := h m hm
      omega)
    have h1 : (op.run ⟨[], r.src⟩).2 = ⟨[], (op.run r).2.src⟩ := by
      rw [b]
      have : (op.run ⟨[], r.src⟩).2.lims = [] := by rw [c']; simp
      cases hq : (op.run ⟨[], r.src⟩).2
      rw [hq] at this
      simp only at this
      rw [this]
    simp only [ReadOp.runs, h1, ← a, e.1, e.2, and_self]

/-- Non-vacuity: under limits of 5 and 3 over a stream of 2 and 4 bytes, three bytes are delivered, in
pieces; then the limit is reached, although three more bytes are there. -/
def limitedRun : List (Except IoError Bytes) × Rd :=
  ReadOp.runs [.read 9, .use 0, .use 7, .read 9]
    ⟨[5, 3], ⟨8, by decide, fun _ => 0, [], [.data b!"ab", .data b!"cdef"]⟩⟩

example : limitedRun.1 = [.ok b!"ab", .ok [], .ok b!"c", .error .limitReached] ∧
    limitedRun.2.lims = [2, 0] ∧ limitedRun.2.src.buf = b!"def" :=
  ⟨rfl, rfl, rfl⟩

/-- Below the limits: the end of the stream is passed on. -/
example : (ReadOp.runs [.read 1, .read 1] ⟨[5], ⟨8, by decide, fun _ => 0, [], [.data b!"ab", .data []]⟩⟩).1 =
    [.ok b!"ab", .ok []] := rfl

/-- At the limit: the end of the stream is not seen. -/
example : (ReadOp.runs [.read 1, .read 1] ⟨[2], ⟨8, by decide, fun _ => 0, [], [.data b!"ab", .data []]⟩⟩).1 =
    [.ok b!"ab", .error .limitReached] := rfl

/-- What is left behind by a loop that reads through limits: it `got` some bytes. -/
def Limited (r : Rd) (got : Bytes) (o : IoRes) (r' : Rd) : Prop :=
  (∃ passed, r.src.atoms = passed ++ r'.src.atoms ∧ bytesOf passed = got) ∧
    r'.lims = r.lims.map (· - got.length) ∧ (∀ l ∈ r.lims, got.length ≤ l) ∧
    (.err .limitReached ∉ r.src.atoms → o = .err .limitReached → got.length ∈ r.lims)

/-- One operation that goes on, then the rest of the loop. -/
theorem Limited.step (op : ReadOp) {r r' : Rd} {got : Bytes} {o : IoRes} (h0 : 0 ∉ r.lims)
    (h : Limited (op.run r).2 got o r') : Limited r (gotten (op.run r).1 ++ got) o r' := by
  obtain ⟨p, a, b, c, d, -⟩ := op.run_spec h0
  obtain ⟨⟨p', a', b'⟩, c', d', e'⟩ := h
  refine ⟨⟨p ++ p', by rw [a, a', List.append_assoc], by rw [bytesOf_append, b, b']⟩, ?_, ?_, ?_⟩
  · rw [c', c, List.map_map, List.length_append]
    apply List.map_congr_left
    intro l _
    simp only [Function.comp]
    omega
  · intro l hl
    have h1 := d l hl
    have h2 := d' (l - (gotten (op.run r).1).length) (by rw [c]; exact List.mem_map.2 ⟨l, hl, rfl⟩)
    rw [List.length_append]
    omega
  · intro hs ho
    have h1 := e' (fun hm => hs (by rw [a]; exact List.mem_append_right _ hm)) ho
    rw [c] at h1
    obtain ⟨l, hl, h2⟩ := List.mem_map.1 h1
    have := d l hl
    rw [List.length_append, show (gotten (op.run r).1).length + got.length = l by omega]
    exact hl

/-- One operation with which the loop ends. -/
theorem Limited.last (op : ReadOp) (r : Rd) (o : IoRes)
    (ho : o = .err .limitReached → (op.run r).1 = .error .limitReached) :
    Limited r (gotten (op.run r).1) o (op.run r).2 := by
  by_cases h0 : 0 ∈ r.lims
  · rw [op.run_limit h0]
    refine ⟨⟨[], by simp, by simp [gotten, bytesOf]⟩, by simp [gotten], by simp [gotten], ?_⟩
    intro _ _
    simpa [gotten] using h0
  · obtain ⟨p, a, b, c, d, e⟩ := op.run_spec h0
    refine ⟨⟨p, a, b⟩, c, d, ?_⟩
    intro hs h
    rcases e _ (ho h) with h1 | h1
    · rw [a, h1] at hs; simp at hs
    · simp at h1

/-- **C89**. `read_to_end` through limits, as in the test of `error_take.rs`: what it collects are the next
bytes of the stream, at most as many as each limit allows. If it fails with "read limit reached" then they
are as many as one of the limits allows, and if it succeeds then they are fewer than each of them. -/
theorem C89_read_to_end (f : Nat) (acc : Bytes) (r : Rd) :
    ∃ got, (Rd.readToEndLoop f acc r.lims r.src).2.1 = acc ++ got ∧
      Limited r got (Rd.readToEndLoop f acc r.lims r.src).1
        ⟨(Rd.readToEndLoop f acc r.lims r.src).2.2.1, (Rd.readToEndLoop f acc r.lims r.src).2.2.2⟩ ∧
      ((Rd.readToEndLoop f acc r.lims r.src).1 = .ok → ∀ l ∈ r.lims, got.length < l) := by
  induction f generalizing acc r with
  | zero =>
    refine ⟨[], by simp [Rd.readToEndLoop], ⟨⟨[], by simp [Rd.readToEndLoop], rfl⟩, by simp [Rd.readToEndLoop], by simp, ?_⟩, ?_⟩
    · simp [Rd.readToEndLoop]
    · simp [Rd.readToEndLoop]
  | succ f ih =>
    have hl := Limited.last (.read (r.src.offer acc.length)) r
    have hs := @Limited.step (.read (r.src.offer acc.length)) r
    have hz : 0 ∈ r.lims → Rd.readL r.lims r.src (r.src.offer acc.length + 1) = (.error .limitReached, r.lims, r.src) :=
      fun h => readL_limit _ h _ _
    have hc : 0 ∉ r.lims → _ := fun h => (ReadOp.read (r.src.offer acc.length)).run_spec (r := r) h
    simp only [ReadOp.run] at hl hs hc
    simp only [Rd.readToEndLoop]
    revert hl hs hz hc
    generalize Rd.readL r.lims r.src (r.src.offer acc.length + 1) = q
    rcases q with ⟨e | b, ls, s⟩
    · intro hl hs hz hc
      by_cases he : e = .interrupted
      · subst he
        have h0 : 0 ∉ r.lims := fun h => by have := hz h; simp at this
        obtain ⟨got, a, b, c⟩ := ih acc ⟨ls, s⟩
        refine ⟨got, a, hs h0 b, ?_⟩
        obtain ⟨-, -, -, h1, -⟩ := hc h0
        simp only [gotten, List.length_nil, Nat.sub_zero, List.map_id'] at h1
        simpa [h1] using c
      · refine ⟨[], ?_⟩
        have h2 := hl (.err e) (by simp)
        cases e <;> first
          | exact absurd rfl he
          | exact ⟨by simp, h2, by simp⟩
    · intro hl hs hz hc
      have h0 : 0 ∉ r.lims := fun h => by have := hz h; simp at this
      obtain ⟨-, -, -, h1, h2, -⟩ := hc h0
      simp only [gotten] at h1 h2
      by_cases hb : b.length = 0
      · have : b = [] := List.eq_nil_of_length_eq_zero hb
        subst this
        refine ⟨[], by simp, by simpa [gotten] using hl .ok (by simp), ?_⟩
        intro _ l hm
        simp only [List.length_nil]
        exact Nat.pos_of_ne_zero (fun h => h0 (h ▸ hm))
      · simp only [hb, if_false]
        obtain ⟨got, a, c, d⟩ := ih (acc ++ b) ⟨ls, s⟩
        refine ⟨b ++ got, by rw [a, List.append_assoc], hs h0 c, ?_⟩
        intro ho l hm
        have h3 := d ho (l - b.length) (by rw [h1]; exact List.mem_map.2 ⟨l, hm, rfl⟩)
        rw [List.length_append]
        omega

/-- Non-vacuity: the test of `error_take.rs`, with a limit of 5. -/
example : (Rd.readToEndLoop 9 [] [5] ⟨8, by decide, fun _ => 2, [], [.data b!"blah", .data b!"blah"]⟩).1 = .err .limitReached ∧
    (Rd.readToEndLoop 9 [] [5] ⟨8, by decide, fun _ => 2, [], [.data b!"blah", .data b!"blah"]⟩).2.1 = b!"blahb" :=
  ⟨rfl, rfl⟩

/-- **C89**. `read_until` (of which `read_line` is made) through limits: what it takes are the next bytes of
the stream, at most as many as each limit allows, up to and with the delimiter and nothing behind it. It
succeeds without a delimiter only at the end of a stream that ends below each of the limits. -/
theorem C89_read_until (d : UInt8) (f : Nat) (acc : Bytes) (r : Rd) :
    ∃ got, (Rd.readUntil d f acc r.lims r.src).2.1 = acc ++ got ∧
      Limited r got (Rd.readUntil d f acc r.lims r.src).1
        ⟨(Rd.readUntil d f acc r.lims r.src).2.2.1, (Rd.readUntil d f acc r.lims r.src).2.2.2⟩ ∧
      ((Rd.readUntil d f acc r.lims r.src).1 = .ok →
        (∃ u, d ∉ u ∧ got = u ++ [d]) ∨ (d ∉ got ∧ ∀ l ∈ r.lims, got.length < l)) ∧
      ((Rd.readUntil d f acc r.lims r.src).1 ≠ .ok → d ∉ got) := by
  induction f generalizing acc r with
  | zero =>
    refine ⟨[], by simp [Rd.readUntil], ⟨⟨[], by simp [Rd.readUntil], rfl⟩, by simp [Rd.readUntil], by simp, ?_⟩, ?_, ?_⟩ <;>
      simp [Rd.readUntil]
  | succ f ih =>
    have hl := fun n => Limited.last (.use n) r
    have hs := fun n => @Limited.step (.use n) r
    have hz : 0 ∈ r.lims → Rd.fillBufL r.lims r.src = (.error .limitReached, r.src) := fun h => fillBufL_limit _ h _
    have hc : ∀ n, 0 ∉ r.lims → _ := fun n h => (ReadOp.use n).run_spec (r := r) h
    simp only [ReadOp.run] at hl hs hc
    simp only [Rd.readUntil]
    revert hl hs hz hc
    generalize Rd.fillBufL r.lims r.src = q
    rcases q with ⟨e | b, s⟩
    · intro hl hs hz hc
      by_cases he : e = .interrupted
      · subst he
        have h0 : 0 ∉ r.lims := fun h => by have := hz h; simp at this
        obtain ⟨got, a, b, c⟩ := ih acc ⟨r.lims, s⟩
        exact ⟨got, a, hs 0 h0 b, c⟩
      · refine ⟨[], ?_⟩
        have h2 := hl 0 (.err e) (by simp)
        cases e <;> first
          | exact absurd rfl he
          | exact ⟨by simp, h2, by simp, by simp⟩
    · intro hl hs hz hc
      have h0 : 0 ∉ r.lims := fun h => by have := hz h; simp at this
      cases hm : Rd.memchr d b with
      | some i =>
        obtain ⟨u, h1, h2, h3, -⟩ := memchr_some hm
        have h4 : (b.take (i + 1)).length = i + 1 := by rw [h3]; simp [h2]
        have h5 := hl (i + 1) .ok (by simp)
        simp only [h4, gotten] at h5
        simp only [hm]
        exact ⟨b.take (i + 1), rfl, h5, fun _ => .inl ⟨u, h1, h3⟩, fun h => absurd rfl h⟩
      | none =>
        have h1 := memchr_none hm
        have h2 := hl b.length .ok (by simp)
        obtain ⟨-, -, -, h3, h4, -⟩ := hc b.length h0
        have h5 := @hs b.length
        simp only [List.take_length, gotten] at h2 h3 h4 h5
        simp only [hm]
        by_cases hb : b.length = 0
        · have : b = [] := List.eq_nil_of_length_eq_zero hb
          subst this
          simp only [List.length_nil, if_true]
          refine ⟨[], rfl, h2, fun _ => .inr ⟨by simp, ?_⟩, fun h => absurd rfl h⟩
          intro l hm
          simp only [List.length_nil]
          exact Nat.pos_of_ne_zero (fun h => h0 (h ▸ hm))
        · simp only [hb, if_false]
          obtain ⟨got, a, c, g, k⟩ := ih (acc ++ b) ⟨(Rd.consumeL r.lims s b.length).1, (Rd.consumeL r.lims s b.length).2⟩
          refine ⟨b ++ got, by rw [a, List.append_assoc], h5 h0 c, ?_, ?_⟩
          · intro ho
            rcases g ho with ⟨u, g1, g2⟩ | ⟨g1, g2⟩
            · exact .inl ⟨b ++ u, by simp [h1, g1], by rw [g2, List.append_assoc]⟩
            · refine .inr ⟨by simp [h1, g1], ?_⟩
              intro l hm
              have := g2 (l - b.length) (by rw [h3]; exact List.mem_map.2 ⟨l, hm, rfl⟩)
              rw [List.length_append]
              omega
          · intro ho
            simp [h1, k ho]

/-- Non-vacuity: a line below the limit, and one that reaches it. -/
example : (Rd.readUntil LF 9 [] [5] ⟨8, by decide, fun _ => 2, [], [.data b!"ab", .data b!"c\nd"]⟩).2.1 = b!"abc\n" ∧
    (Rd.readUntil LF 9 [] [3] ⟨8, by decide, fun _ => 2, [], [.data b!"ab", .data b!"c\nd"]⟩).1 = .err .limitReached ∧
    (Rd.readUntil LF 9 [] [3] ⟨8, by decide, fun _ => 2, [], [.data b!"ab", .data b!"c\nd"]⟩).2.1 = b!"abc" :=
  ⟨rfl, rfl, rfl⟩

/-- **C89**. `BytesDeframer::read` through limits (`src/parse/deframe/bytes.rs` 19-33), from wherever it
stopped before: what it takes are the next bytes of the stream, and with them it has all it needs if it
succeeds, and less otherwise; it never takes more. -/
theorem C89_read_bytes (size : Nat) (f : Nat) (acc : Bytes) (hacc : acc.length ≤ size) (r : Rd) :
    ∃ got, (Rd.readIntoLoop size f acc r.lims r.src).2.1 = acc ++ got ∧
      Limited r got (Rd.readIntoLoop size f acc r.lims r.src).1
        ⟨(Rd.readIntoLoop size f acc r.lims r.src).2.2.1, (Rd.readIntoLoop size f acc r.lims r.src).2.2.2⟩ ∧
      (acc ++ got).length ≤ size ∧
      ((Rd.readIntoLoop size f acc r.lims r.src).1 = .ok → (acc ++ got).length = size) ∧
      (∀ e, (Rd.readIntoLoop size f acc r.lims r.src).1 = .err e → (acc ++ got).length < size) := by
  induction f generalizing acc r with
  | zero =>
    refine ⟨[], by simp [Rd.readIntoLoop], ⟨⟨[], by simp [Rd.readIntoLoop], rfl⟩, by simp [Rd.readIntoLoop], by simp, ?_⟩, by simpa, ?_, ?_⟩ <;>
      simp [Rd.readIntoLoop]
  | succ f ih =>
    by_cases hlt : acc.length < size
    · have hn : size - acc.length - 1 + 1 = size - acc.length := by omega
      have hl := Limited.last (.read (size - acc.length - 1)) r
      have hs := @Limited.step (.read (size - acc.length - 1)) r
      have hz : 0 ∈ r.lims → Rd.readL r.lims r.src (size - acc.length) = (.error .limitReached, r.lims, r.src) :=
        fun h => readL_limit _ h _ _
      have hk : 0 ∉ r.lims → _ := fun h => (ReadOp.read (size - acc.length - 1)).run_asks r h
      simp only [ReadOp.run, ReadOp.asks, hn] at hl hs hk
      simp only [Rd.readIntoLoop, hlt, if_true]
      revert hl hs hz hk
      generalize Rd.readL r.lims r.src (size - acc.length) = q
      rcases q with ⟨e | b, ls, s⟩
      · intro _ hl _ _
        exact ⟨[], by simp, hl (.err e) (by simp), by simpa using hacc, by simp, by simp [hlt]⟩
      · intro hz hl hs hk
        have h0 : 0 ∉ r.lims := fun h => by have := hz h; simp at this
        have h1 := hk h0
        simp only [gotten] at h1
        by_cases hb : b.length = 0
        · have : b = [] := List.eq_nil_of_length_eq_zero hb
          subst this
          simp only [List.length_nil, if_true]
          exact ⟨[], by simp, hl (.err .unexpectedEof) (by simp), by simpa using hacc, by simp, by simp [hlt]⟩
        · simp only [hb, if_false]
          obtain ⟨got, a, c, d, e, g⟩ := ih (acc ++ b) (by rw [List.length_append]; omega) ⟨ls, s⟩
          rw [List.append_assoc] at a d e
          simp only [List.append_assoc] at g
          exact ⟨b ++ got, a, hs h0 c, d, e, g⟩
    · simp only [Rd.readIntoLoop, hlt, if_false]
      exact ⟨[], by simp, ⟨⟨[], by simp, rfl⟩, by simp, by simp, by simp⟩, by simpa, fun _ => by simp; omega, by simp⟩

/-- Non-vacuity: five bytes below a limit of five. -/
example : (Rd.readIntoLoop 5 9 [] [5] ⟨8, by decide, fun _ => 2, [], [.data b!"blah", .data b!"blah"]⟩).1 = .ok ∧
    (Rd.readIntoLoop 5 9 [] [5] ⟨8, by decide, fun _ => 2, [], [.data b!"blah", .data b!"blah"]⟩).2.1 = b!"blahb" :=
  ⟨rfl, rfl⟩

end Verif
