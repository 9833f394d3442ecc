import Verif.Spec.Table

/-!
C27 to C30: the connection table and the event loop.
-/

namespace Verif

variable {T : Type}

/-- The invariant of the slab. -/
structure Slab.Ok (s : Slab T) : Prop where
  nodup : s.openSlots.Nodup
  free : ∀ k, k ∈ s.openSlots ↔ s.data[k]? = some none

theorem Slab.Ok.lt {s : Slab T} (h : s.Ok) {k : Nat} (hk : k ∈ s.openSlots) : k < s.data.length := by
  have := (h.free k).1 hk
  exact (List.getElem?_eq_some_iff.1 this).1

theorem Slab.get_set {s : Slab T} {k : Nat} (hk : k < s.data.length) (v : Option T) (o : List Nat) (j : Nat) :
    (⟨s.data.set k v, o⟩ : Slab T).get j = if j = k then v else s.get j := by
  unfold Slab.get
  by_cases h : j = k
  · subst h; simp [List.getElem?_set_self hk]
  · simp [List.getElem?_set_ne (Ne.symm h), h]

theorem Slab.Ok.new : (Slab.new : Slab T).Ok := ⟨by simp [Slab.new], by simp [Slab.new]⟩

theorem Slab.Ok.insert {s : Slab T} (h : s.Ok) (x : T) : ∃ s', s.insert x = some (s', s.nextKey) ∧ s'.Ok ∧
    s.get s.nextKey = none ∧ ∀ j, s'.get j = if j = s.nextKey then some x else s.get j := by
  unfold Slab.insert Slab.nextKey
  cases ho : s.openSlots with
  | nil =>
    refine ⟨_, rfl, ⟨by simp, ?_⟩, ?_, ?_⟩
    · intro k
      simp only [List.not_mem_nil, false_iff]
      intro hk
      rw [List.getElem?_append] at hk
      split at hk
      · have := (h.free k).2 hk; rw [ho] at this; cases this
      · cases hi : k - s.data.length with
        | zero => rw [hi] at hk; simp at hk
        | succ n => rw [hi] at hk; simp at hk
    · simp [Slab.get]
    · intro j
      show (⟨s.data ++ [some x], []⟩ : Slab T).get j = if j = s.data.length then some x else s.get j
      simp only [Slab.get]
      rw [List.getElem?_append]
      by_cases hj : j < s.data.length
      · rw [if_pos hj, if_neg (by omega)]
      · rw [if_neg hj]
        by_cases he : j = s.data.length
        · subst he; simp
        · rw [if_neg he, List.getElem?_eq_none (by simp; omega), List.getElem?_eq_none (by omega)]
  | cons i o =>
    have hi : i < s.data.length := h.lt (by simp [ho])
    have hf := (h.free i).1 (by simp [ho])
    have hn := h.nodup
    rw [ho, List.nodup_cons] at hn
    refine ⟨⟨s.data.set i (some x), o⟩, by simp [hi], ⟨hn.2, ?_⟩, by simp [Slab.get, hf], fun j => ?_⟩
    · intro k
      by_cases hk : k = i
      · subst hk
        simp [List.getElem?_set_self hi, hn.1]
      · rw [List.getElem?_set_ne (Ne.symm hk), ← h.free k, ho]
        simp [hk]
    · exact Slab.get_set hi _ _ j

theorem Slab.Ok.remove {s : Slab T} (h : s.Ok) (k : Nat) : (s.remove k).2.Ok ∧ (s.remove k).1 = s.get k ∧
    (∀ j, (s.remove k).2.get j = if j = k then none else s.get j) ∧ (s.get k = none → (s.remove k).2 = s) := by
  unfold Slab.remove
  cases hd : s.data[k]? with
  | none =>
    refine ⟨h, by simp [Slab.get, hd], fun j => ?_, fun _ => rfl⟩
    by_cases hj : j = k
    · subst hj; simp [Slab.get, hd]
    · simp [hj]
  | some v =>
    cases v with
    | none =>
      refine ⟨h, by simp [Slab.get, hd], fun j => ?_, fun _ => rfl⟩
      by_cases hj : j = k
      · subst hj; simp [Slab.get, hd]
      · simp [hj]
    | some x =>
      have hk : k < s.data.length := (List.getElem?_eq_some_iff.1 hd).1
      refine ⟨⟨?_, fun j => ?_⟩, by simp [Slab.get, hd], fun j => Slab.get_set hk _ _ _, by simp [Slab.get, hd]⟩
      · refine List.nodup_cons.2 ⟨fun hm => ?_, h.nodup⟩
        have := (h.free k).1 hm
        rw [hd] at this; cases this
      · by_cases hj : j = k
        · subst hj; simp [List.getElem?_set_self hk]
        · rw [List.getElem?_set_ne (Ne.symm hj), ← h.free j]
          simp [hj]

theorem SlabAfter.ok {h : List (TableOp T)} {s : Slab T} (hs : SlabAfter h s) : s.Ok := by
  induction hs with
  | new => exact .new
  | @insert h s s' x k _ hi ih =>
    obtain ⟨s1, h1, h2, -⟩ := ih.insert x
    rw [hi] at h1; cases h1; exact h2
  | @remove h s s' k o _ hr ih =>
    have := (ih.remove k).1
    rw [hr] at this; exact this

/-! ## C27 -/

/-- C27: after any operations a lookup gives what a finite map would give. -/
theorem C27_lookup {h : List (TableOp T)} {s : Slab T} (hs : SlabAfter h s) (k : Nat) : s.get k = holds k h := by
  induction hs generalizing k with
  | new => rfl
  | @insert h s s' x key hs hi ih =>
    obtain ⟨s1, h1, -, -, h4⟩ := hs.ok.insert x
    rw [hi] at h1; cases h1
    rw [h4, holds, ih]
  | @remove h s s' key o hs hr ih =>
    have h3 := (hs.ok.remove key).2.2.1 k
    rw [hr] at h3
    rw [h3, holds, ih]

/-- C27: insertion never panics, and the key it uses was free, so nothing is overwritten. -/
theorem C27_insert {h : List (TableOp T)} {s : Slab T} (hs : SlabAfter h s) (x : T) :
    ∃ s' k, s.insert x = some (s', k) ∧ holds k h = none := by
  obtain ⟨s1, h1, -, h3, -⟩ := hs.ok.insert x
  exact ⟨s1, _, h1, by rw [← C27_lookup hs]; exact h3⟩

/-- C27: removal answers what was held, and removing what is not there changes nothing. -/
theorem C27_remove {h : List (TableOp T)} {s : Slab T} (hs : SlabAfter h s) (k : Nat) :
    (s.remove k).1 = holds k h ∧ (holds k h = none → (s.remove k).2 = s) := by
  obtain ⟨-, h2, -, h4⟩ := hs.ok.remove k
  rw [← C27_lookup hs]
  exact ⟨h2, h4⟩

/-- Insert, insert, remove the first, insert: the freed slot is used again. -/
example : SlabAfter [.inserted 0 3, .removed 0 (some 1), .inserted 1 2, .inserted 0 (1 : Nat)]
    ⟨[some 3, some 2], []⟩ :=
  .insert (.remove (.insert (.insert .new rfl) rfl) rfl) rfl

/-! ## C28 -/

/-- C28: the key announced is the key used. -/
theorem C28_next_key {h : List (TableOp T)} {s s' : Slab T} {x : T} {k : Nat} (hs : SlabAfter h s)
    (hi : s.insert x = some (s', k)) : k = s.nextKey := by
  obtain ⟨s1, h1, -⟩ := hs.ok.insert x
  rw [hi] at h1; cases h1; rfl

/-- The number of elements in a slab. -/
def Slab.live (s : Slab T) : Nat := (s.data.filter Option.isSome).length

theorem filter_set_length {k : Nat} {l : List (Option T)} {v w : Option T} (h : l[k]? = some v) :
    ((l.set k w).filter Option.isSome).length + v.isSome.toNat = (l.filter Option.isSome).length + w.isSome.toNat := by
  induction l generalizing k with
  | nil => simp at h
  | cons a l ih =>
    cases k with
    | zero =>
      simp only [List.getElem?_cons_zero, Option.some.injEq] at h
      subst h
      cases a <;> cases w <;> simp <;> omega
    | succ k =>
      have := ih (k := k) (by simpa using h)
      cases a <;> simp <;> omega

theorem SlabAfter.counts {h : List (TableOp T)} {s : Slab T} (hs : SlabAfter h s) :
    s.live = liveCount h ∧ s.live + s.openSlots.length = s.data.length ∧ s.data.length = peak h := by
  induction hs with
  | new => simp [Slab.live, Slab.new, liveCount, peak]
  | @insert h s s' x key hs hi ih =>
    obtain ⟨h1, h2, h3⟩ := ih
    unfold Slab.insert at hi
    cases ho : s.openSlots with
    | nil =>
      rw [ho] at hi
      simp only [Option.some.injEq, Prod.mk.injEq] at hi
      obtain ⟨rfl, rfl⟩ := hi
      simp only [ho, List.length_nil] at h2
      simp only [Slab.live] at h1 h2
      simp only [Slab.live, liveCount, peak, List.filter_append, List.length_append, List.length_nil, List.length_cons,
        List.filter_cons, Option.isSome_some, if_true, List.filter_nil]
      omega
    | cons i o =>
      rw [ho] at hi
      have hl : i < s.data.length := hs.ok.lt (by simp [ho])
      simp only [hl, if_true, Option.some.injEq, Prod.mk.injEq] at hi
      obtain ⟨rfl, rfl⟩ := hi
      have hf := filter_set_length (w := some x) ((hs.ok.free i).1 (by simp [ho]))
      simp [Slab.live, liveCount, peak, ho] at h1 h2 hf ⊢
      omega
  | @remove h s s' key o hs hr ih =>
    obtain ⟨h1, h2, h3⟩ := ih
    unfold Slab.remove at hr
    cases hd : s.data[key]? with
    | none =>
      rw [hd] at hr; cases hr
      simp only [liveCount, peak]
      omega
    | some v =>
      cases v with
      | none =>
        rw [hd] at hr; cases hr
        simp only [liveCount, peak]
        omega
      | some x =>
        rw [hd] at hr; cases hr
        have hf := filter_set_length (w := none) hd
        simp [Slab.live, liveCount, peak] at h1 h2 hf ⊢
        omega

/-- C28: keys stay below the largest number of elements ever held at the same time. -/
theorem C28_key_bound {h : List (TableOp T)} {s : Slab T} (hs : SlabAfter h s) {k : Nat} (hk : holds k h ≠ none) :
    k < peak h := by
  rw [← C27_lookup hs] at hk
  rw [← hs.counts.2.2]
  refine Nat.lt_of_not_le fun hle => hk ?_
  simp [Slab.get, List.getElem?_eq_none hle]

/-- C28: the count of operations is the number of elements. -/
theorem C28_count {h : List (TableOp T)} {s : Slab T} (hs : SlabAfter h s) :
    (s.data.filter Option.isSome).length = liveCount h := hs.counts.1

example : peak [.inserted 0 3, .removed 0 (some 1), .inserted 1 2, .inserted 0 (1 : Nat)] = 2 := by decide

/-! ## C29 -/

variable {C : Type}

/-- The streams that were accepted and registered. -/
def Accept.registered : Accept C → Option C
  | .ok c true => some c
  | _ => none

/-- The element put into a table by an operation. -/
def TableOp.put : TableOp T → Option T
  | .inserted _ x => some x
  | .removed _ _ => none

theorem acceptAll_run {h : List (TableOp C)} {s : Slab C} (hs : SlabAfter h s) (as : List (Accept C)) :
    ∃ s' ops, acceptAll as s = some s' ∧ SlabAfter (ops ++ h) s' ∧
      ops.reverse.map TableOp.put = (as.filterMap Accept.registered).map some := by
  induction as generalizing h s with
  | nil => exact ⟨s, [], rfl, hs, rfl⟩
  | cons a as ih =>
    cases a with
    | err => simpa [acceptAll, List.filterMap_cons, Accept.registered] using ih hs
    | ok c b =>
      cases b with
      | false => simpa [acceptAll, List.filterMap_cons, Accept.registered] using ih hs
      | true =>
        obtain ⟨s1, k, h1, -⟩ := C27_insert hs c
        obtain ⟨s', ops, h2, h3, h4⟩ := ih (SlabAfter.insert hs h1)
        refine ⟨s', ops ++ [.inserted k c], by simp [acceptAll, h1, h2], by simpa using h3, ?_⟩
        simp only [List.reverse_append, List.map_append, h4, List.filterMap_cons, Accept.registered]
        simp [TableOp.put]

/-- C29: handling an event never panics. An event with the listener's token only adds the streams that were
accepted and could be registered, in order, and calls nothing. A hang-up removes the connection held
under its token, if any, and calls nothing. Any other event calls `on_io_ready` on the connection held under
its token at that time, if any, and on nothing else, and leaves the table alone. -/
theorem C29_dispatch {h : List (TableOp C)} {s : Slab C} (hs : SlabAfter h s) (e : PollEvent C) :
    ∃ s' called ops, onEvent e s = some (s', called) ∧ SlabAfter (ops ++ h) s' ∧
      (e.token = listenerToken → called = none ∧
        ops.reverse.map TableOp.put = (e.accepts.filterMap Accept.registered).map some) ∧
      (e.token ≠ listenerToken → e.writeClosed = true → called = none ∧ ops = [.removed e.token (holds e.token h)]) ∧
      (e.token ≠ listenerToken → e.writeClosed = false → called = holds e.token h ∧ ops = [] ∧ s' = s) := by
  unfold onEvent
  by_cases ht : e.token = listenerToken
  · obtain ⟨s', ops, h1, h2, h3⟩ := acceptAll_run hs e.accepts
    exact ⟨s', none, ops, by simp [ht, h1], h2, fun _ => ⟨rfl, h3⟩, fun h => absurd ht h, fun h => absurd ht h⟩
  · by_cases hw : e.writeClosed = true
    · refine ⟨(s.remove e.token).2, none, [.removed e.token (holds e.token h)], by simp [ht, hw], ?_,
        fun h => absurd h ht, fun _ _ => ⟨rfl, rfl⟩, fun _ h => absurd hw (by simp [h])⟩
      exact .remove hs (Prod.ext (C27_remove hs e.token).1 rfl)
    · refine ⟨s, s.get e.token, [], by simp [ht, hw], hs, fun h => absurd h ht, fun _ h => absurd h hw,
        fun _ _ => ⟨C27_lookup hs _, rfl, rfl⟩⟩

/-- C29: the listener's token fits in 64 bits, and is never the key of a connection, as long as fewer than 2^64 connections are
open at the same time. -/
theorem C29_listener_token {h : List (TableOp C)} {s : Slab C} (hs : SlabAfter h s) (hp : peak h < 2 ^ 64) :
    listenerToken < 2 ^ 64 ∧ holds listenerToken h = none := by
  refine ⟨by simp [listenerToken], ?_⟩
  cases hh : holds listenerToken h with
  | none => rfl
  | some c =>
    have := C28_key_bound hs (k := listenerToken) (by rw [hh]; simp)
    simp only [listenerToken] at this
    omega

/-- C29: any sequence of events is handled without panic. -/
theorem C29_no_panic (es : List (PollEvent C)) {h : List (TableOp C)} {s : Slab C} (hs : SlabAfter h s) :
    ∃ s' calls ops, onEvents es s = some (s', calls) ∧ SlabAfter (ops ++ h) s' := by
  induction es generalizing h s with
  | nil => exact ⟨s, [], [], rfl, hs⟩
  | cons e es ih =>
    obtain ⟨s1, c, ops, h1, h2, -⟩ := C29_dispatch hs e
    obtain ⟨s2, cs, ops2, h3, h4⟩ := ih h2
    exact ⟨s2, c.toList ++ cs, ops2 ++ ops, by simp [onEvents, h1, h3], by simpa using h4⟩

/-- A failed registration and an accept error leave the table unchanged; two connections; an event for each;
the first hangs up; an event for it reaches nobody. -/
example : onEvents [⟨listenerToken, false, [.ok 10 false, .err, .ok 11 true, .ok 12 true]⟩, ⟨1, false, []⟩, ⟨0, false, []⟩,
    ⟨0, true, []⟩, ⟨0, false, []⟩] Slab.new = some (⟨[none, some 12], [0]⟩, [12, (11 : Nat)]) := by decide

/-! ## C30 -/

/-- Connections `n`, `n+1`, … that come one after the other: each is accepted, becomes readable once under
the token it was registered with, and is then closed by the server, so that no event comes any more. -/
def shortVisits : Nat → Nat → List (PollEvent Nat)
  | 0, _ => []
  | m + 1, n => ⟨listenerToken, false, [.ok n true]⟩ :: ⟨n, false, []⟩ :: shortVisits m (n + 1)

theorem shortVisits_run (m n : Nat) (hn : n + m < listenerToken) :
    onEvents (shortVisits m n) ⟨(List.range n).map some, []⟩ =
      some (⟨(List.range (n + m)).map some, []⟩, (List.range m).map (n + ·)) := by
  induction m generalizing n with
  | zero => simp [shortVisits, onEvents]
  | succ m ih =>
    have h1 : onEvent ⟨listenerToken, false, [.ok n true]⟩ (⟨(List.range n).map some, []⟩ : Slab Nat) =
        some (⟨(List.range (n + 1)).map some, []⟩, none) := by
      simp [onEvent, acceptAll, Slab.insert, List.range_succ]
    have h2 : onEvent ⟨n, false, []⟩ (⟨(List.range (n + 1)).map some, []⟩ : Slab Nat) =
        some (⟨(List.range (n + 1)).map some, []⟩, some n) := by
      have : n ≠ listenerToken := by omega
      simp [onEvent, this, Slab.get]
    have h3 := ih (n + 1) (by omega)
    simp only [shortVisits, onEvents, h1, h2, h3, Option.bind_some, Option.map_some, Option.toList_none, Option.toList_some,
      List.nil_append]
    rw [show n + 1 + m = n + (m + 1) by omega]
    congr 2
    rw [List.range_succ_eq_map]
    simp [Function.comp_def, Nat.add_comm, Nat.add_left_comm]

/-- C30 is false: a connection closed by the server never leaves the table, because the table only learns
of hang-ups by the client. After `m` short visits, never two at a time, the table has `m` entries, and
each visit got a new slot. -/
theorem C30_server_close_false (m : Nat) (hm : m < listenerToken) :
    ∃ s, onEvents (shortVisits m 0) Slab.new = some (s, List.range m) ∧ s.live = m ∧ s.data.length = m := by
  have := shortVisits_run m 0 (by omega)
  refine ⟨⟨(List.range m).map some, []⟩, by simpa [Slab.new] using this, ?_, by simp⟩
  simp only [Slab.live, List.filter_map, Function.comp_def, Option.isSome_some, List.length_map]
  rw [List.filter_eq_self.2 (fun _ _ => rfl), List.length_range]

/-- C30 for connections ended by the client (partial: not those closed by the server): a hang-up frees the
slot, and the next connection gets it. -/
theorem C30_hang_up_partial {h : List (TableOp C)} {s : Slab C} (hs : SlabAfter h s) {k : Nat} {c : C} (accepts : List (Accept C))
    (hk : k ≠ listenerToken) (hh : holds k h = some c) :
    ∃ s', onEvent ⟨k, true, accepts⟩ s = some (s', none) ∧ s'.live + 1 = s.live ∧ s'.nextKey = k := by
  refine ⟨(s.remove k).2, by simp [onEvent, hk], ?_⟩
  have hg : s.get k = some c := by rw [C27_lookup hs]; exact hh
  unfold Slab.get at hg
  unfold Slab.remove
  cases hd : s.data[k]? with
  | none => rw [hd] at hg; cases hg
  | some v =>
    cases v with
    | none => rw [hd] at hg; cases hg
    | some x =>
      have hf := filter_set_length (w := none) hd
      simp at hf
      exact ⟨by simp only [Slab.live]; omega, rfl⟩

example : onEvents (shortVisits 3 0) Slab.new = some (⟨[some 0, some 1, some 2], []⟩, [0, 1, 2]) := by decide

/-! ## C53 -/

/-- C53 is false: a socket that is still registered after its connection was dropped from the table (a
worker still holds it) keeps its token, the token is given to a new connection, and the next hang-up event
of the old socket drops the new connection. -/
theorem C53_stale_token_false : ∃ l : Loop Nat, LoopAfter false l (.drop 1 (some 2)) := by
  let r1 : List (Nat × Nat) := [(1, 0)]
  let r2 : List (Nat × Nat) := [(2, 0), (1, 0)]
  have h1 : LoopAfter false (⟨⟨[some 1], []⟩, r1⟩ : Loop Nat) .other :=
    .step .start (.accept (c := 1) (by simp) rfl)
  have h2 : LoopAfter false (⟨⟨[none], [0]⟩, r1⟩ : Loop Nat) (.drop 1 (some 1)) :=
    .step h1 (.hangUp (l := ⟨⟨[some 1], []⟩, r1⟩) (c := 1) (t := 0) (regs := r1) (by simp [r1]) (by simp))
  have h3 : LoopAfter false (⟨⟨[some 2], []⟩, r2⟩ : Loop Nat) .other :=
    .step h2 (.accept (c := 2) (by simp [r1]) rfl)
  exact ⟨⟨⟨[none], [0]⟩, r2⟩, .step h3 (.hangUp (l := ⟨⟨[some 2], []⟩, r2⟩) (c := 1) (t := 0) (regs := r2) (by simp [r2]) (by simp))⟩

/-- The same for readiness: an event of the old socket is dispatched to the new connection. -/
theorem C53_stale_ready_false : ∃ l : Loop Nat, LoopAfter false l (.call 1 (some 2)) := by
  have h1 : LoopAfter false (⟨⟨[some 1], []⟩, [(1, 0)]⟩ : Loop Nat) .other :=
    .step .start (.accept (c := 1) (by simp) rfl)
  have h2 : LoopAfter false (⟨⟨[none], [0]⟩, [(1, 0)]⟩ : Loop Nat) (.drop 1 (some 1)) :=
    .step h1 (.hangUp (l := ⟨⟨[some 1], []⟩, [(1, 0)]⟩) (c := 1) (t := 0) (by simp) (by simp))
  have h3 : LoopAfter false (⟨⟨[some 2], []⟩, [(2, 0), (1, 0)]⟩ : Loop Nat) .other :=
    .step h2 (.accept (c := 2) (by simp) rfl)
  exact ⟨_, .step h3 (.ready (l := ⟨⟨[some 2], []⟩, [(2, 0), (1, 0)]⟩) (c := 1) (t := 0) (by simp))⟩

/-- C53 (partial: if no worker holds a connection when it is dropped from the table, so that its socket is
closed at once): events of a socket reach its own connection only. -/
theorem C53_prompt_partial {l : Loop C} {a : LoopAct C} (h : LoopAfter true l a) :
    (∀ socket conn, a = .call socket conn → conn = some socket) ∧
      (∀ socket conn, a = .drop socket conn → conn = some socket) := by
  suffices l.slab.Ok ∧ (∀ c t, (c, t) ∈ l.registered → l.slab.get t = some c) ∧
      (∀ socket conn, a = .call socket conn → conn = some socket) ∧
      (∀ socket conn, a = .drop socket conn → conn = some socket) from this.2.2
  induction h with
  | start => exact ⟨.new, by simp, by simp, by simp⟩
  | @step l l' a a' _ hst ih =>
    obtain ⟨hok, hreg, -, -⟩ := ih
    cases hst with
    | @accept c s' k hc hi =>
      obtain ⟨s1, h1, h2, h3, h4⟩ := hok.insert c
      rw [hi] at h1; cases h1
      refine ⟨h2, ?_, by simp, by simp⟩
      intro c' t' hm
      simp only [List.mem_cons, Prod.mk.injEq] at hm
      rw [h4]
      rcases hm with ⟨rfl, rfl⟩ | hm
      · simp
      · have := hreg c' t' hm
        rw [if_neg]
        · exact this
        · rintro rfl
          rw [h3] at this; cases this
    | @ready c t hm =>
      refine ⟨hok, hreg, ?_, by simp⟩
      rintro socket conn ⟨⟩
      exact hreg c t hm
    | @hangUp c t regs hm hr =>
      obtain ⟨h1, h2, h3, -⟩ := hok.remove t
      refine ⟨h1, ?_, by simp, ?_⟩
      · intro c' t' hm'
        obtain ⟨h5, h6⟩ := (hr _).1 hm'
        rw [h3, if_neg (h6 rfl)]
        exact hreg c' t' h5
      · rintro socket conn ⟨⟩
        rw [h2]
        exact hreg c t hm
    | @closed regs hr => exact ⟨hok, fun c t hm => hreg c t (hr _ hm), by simp, by simp⟩

/-- Such histories exist: accept, ready. -/
example : LoopAfter true (⟨⟨[some 1], []⟩, [(1, 0)]⟩ : Loop Nat) (.call 1 (some 1)) :=
  .step (.step .start (.accept (c := 1) (by simp) rfl)) (.ready (l := ⟨⟨[some 1], []⟩, [(1, 0)]⟩) (t := 0) (by simp))

end Verif
