import Verif.Model.AcceptLoop
import Verif.Props.Table

/-!
C59: trouble with accepting connections does not stop the server.
-/

namespace Verif

variable {C : Type}

/-- The results of `accept` from call `i` on until it reports `WouldBlock`, looking at `f` calls. -/
def untilBlocked (rs : Nat → AcceptResult C) : Nat → Nat → List (Accept C)
  | 0, _ => []
  | f + 1, i =>
    match rs i with
    | .wouldBlock => []
    | .got a => a :: untilBlocked rs f (i + 1)

/-- An event with the results of `accept` until it reports `WouldBlock`. -/
def LiveEvent.upTo (f : Nat) (e : LiveEvent C) : PollEvent C := ⟨e.token, e.writeClosed, untilBlocked e.accepts f 0⟩

theorem acceptLoop_returns (rs : Nat → AcceptResult C) : ∀ (f i : Nat) (s : Slab C), (∃ n, n < f ∧ rs (i + n) = .wouldBlock) →
    acceptLoop rs f i s = some (acceptAll (untilBlocked rs f i) s) := by
  intro f
  induction f with
  | zero => rintro i s ⟨n, hn, -⟩; omega
  | succ f ih =>
    rintro i s ⟨n, hn, hb⟩
    unfold acceptLoop untilBlocked
    cases hi : rs i with
    | wouldBlock => simp [acceptAll]
    | got a =>
      have hn' : ∃ n, n < f ∧ rs (i + 1 + n) = .wouldBlock := by
        cases n with
        | zero => simp [hi] at hb
        | succ n => exact ⟨n, by omega, by rw [← hb]; congr 1; omega⟩
      cases a with
      | err => simpa [acceptAll] using ih (i + 1) s hn'
      | ok c b =>
        cases b with
        | false => simpa [acceptAll] using ih (i + 1) s hn'
        | true =>
          simp only [acceptAll]
          cases s.insert c with
          | none => rfl
          | some x => simpa using ih (i + 1) x.1 hn'

/-- C59 (partial: if, whenever the listener is ready, `accept` reports `WouldBlock` at some time): the events are all handled, as C29 says:
errors of `accept` and streams that cannot be registered change nothing. -/
theorem C59_handled_partial {es : List (LiveEvent C)} (hb : ∀ e ∈ es, e.token = listenerToken → ∃ n, e.accepts n = .wouldBlock) (s : Slab C) :
    ∃ f₀, ∀ f, f₀ ≤ f → onLiveEvents f es s = some (onEvents (es.map (LiveEvent.upTo f)) s) := by
  have hf : ∃ f₀, ∀ e ∈ es, e.token = listenerToken → ∃ n, n < f₀ ∧ e.accepts n = .wouldBlock := by
    induction es with
    | nil => exact ⟨0, by simp⟩
    | cons e es ih =>
      obtain ⟨f₀, h⟩ := ih fun e he => hb e (by simp [he])
      by_cases ht : e.token = listenerToken
      · obtain ⟨n, hn⟩ := hb e (by simp) ht
        refine ⟨f₀ + n + 1, fun e' he' ht' => ?_⟩
        rcases List.mem_cons.1 he' with rfl | he'
        · exact ⟨n, by omega, hn⟩
        · obtain ⟨m, h1, h2⟩ := h e' he' ht'
          exact ⟨m, by omega, h2⟩
      · refine ⟨f₀, fun e' he' ht' => ?_⟩
        rcases List.mem_cons.1 he' with rfl | he'
        · exact absurd ht' ht
        · exact h e' he' ht'
  obtain ⟨f₀, hf⟩ := hf
  refine ⟨f₀, fun f hle => ?_⟩
  clear hb
  induction es generalizing s with
  | nil => rfl
  | cons e es ih =>
    have he : onLiveEvent f e s = some (onEvent (e.upTo f) s) := by
      unfold onLiveEvent onEvent
      by_cases ht : e.token = listenerToken
      · obtain ⟨n, h1, h2⟩ := hf e (by simp) ht
        simp only [ht, LiveEvent.upTo, if_true]
        rw [acceptLoop_returns _ _ _ _ ⟨n, by omega, by simpa using h2⟩]
        rfl
      · cases hw : e.writeClosed <;> simp [LiveEvent.upTo, ht, hw]
    simp only [onLiveEvents, he, List.map_cons, onEvents]
    cases onEvent (e.upTo f) s with
    | none => rfl
    | some x =>
      simp only [Option.bind_some]
      rw [ih x.1 fun e' he' => hf e' (by simp [he'])]
      rfl

/-- `accept` finds a connection, then fails (a connection was aborted), then reports `WouldBlock`; the event of the connection already there is handled. -/
example : ∃ f₀, ∀ f, f₀ ≤ f →
    onLiveEvents f [⟨listenerToken, false, fun i => if i = 0 then .got (.ok 11 true) else if i = 1 then .got .err else .wouldBlock⟩, ⟨0, false, fun _ => .wouldBlock⟩]
      ⟨[some 10], []⟩ = some (onEvents ([⟨listenerToken, false, fun i => if i = 0 then .got (.ok 11 true) else if i = 1 then .got .err else .wouldBlock⟩,
        ⟨0, false, fun _ => .wouldBlock⟩].map (LiveEvent.upTo f)) (⟨[some 10], []⟩ : Slab Nat)) :=
  C59_handled_partial (fun e he _ => by
    simp only [List.mem_cons, List.not_mem_nil, or_false] at he
    rcases he with rfl | rfl
    · exact ⟨2, rfl⟩
    · exact ⟨0, rfl⟩) _

example : onLiveEvents 5 [⟨listenerToken, false, fun i => if i = 0 then .got (.ok 11 true) else if i = 1 then .got .err else .wouldBlock⟩, ⟨0, false, fun _ => .wouldBlock⟩]
    ⟨[some 10], []⟩ = some (some (⟨[some 10, some 11], []⟩, [(10 : Nat)])) := by decide

/-- `accept` that goes on failing keeps the event loop in `listen_until_blocked`, whatever else happened before. -/
theorem acceptLoop_stuck {rs : Nat → AcceptResult C} {n : Nat} (hb : ∀ i, i < n → rs i ≠ .wouldBlock) (he : ∀ i, n ≤ i → rs i = .got .err)
    {h : List (TableOp C)} {s : Slab C} (hs : SlabAfter h s) (f : Nat) : acceptLoop rs f 0 s = none := by
  have key : ∀ (f i : Nat) (h : List (TableOp C)) (s : Slab C), SlabAfter h s → acceptLoop rs f i s = none := by
    intro f
    induction f with
    | zero => intros; rfl
    | succ f ih =>
      intro i h s hs
      unfold acceptLoop
      cases hi : rs i with
      | wouldBlock =>
        by_cases hn : i < n
        · exact absurd hi (hb i hn)
        · rw [he i (by omega)] at hi; cases hi
      | got a =>
        cases a with
        | err => exact ih _ _ _ hs
        | ok c b =>
          cases b with
          | false => exact ih _ _ _ hs
          | true =>
            obtain ⟨s1, k, h1, -⟩ := C27_insert hs c
            simp only [h1]
            exact ih _ _ _ (.insert hs h1)
  exact key f 0 h s hs

/-- C59 is false: once `accept` fails again and again (as it does when the process has no file descriptors left: the connection stays in the
queue, and `accept` reports the error at each call, not `WouldBlock`), `listen_until_blocked` never returns. Whatever the table holds,
whatever was accepted before, and whatever other events `poll` delivered, none that comes after is ever handled: connections
that are open get no answer any more, and hang-ups are not noticed, although these would free descriptors. -/
theorem C59_stuck_false {rs : Nat → AcceptResult C} {n : Nat} (hb : ∀ i, i < n → rs i ≠ .wouldBlock) (he : ∀ i, n ≤ i → rs i = .got .err)
    {h : List (TableOp C)} {s : Slab C} (hs : SlabAfter h s) (w : Bool) (es : List (LiveEvent C)) (f : Nat) :
    onLiveEvents f (⟨listenerToken, w, rs⟩ :: es) s = none := by
  simp only [onLiveEvents, onLiveEvent, if_true, acceptLoop_stuck hb he hs f, Option.map_none]

/-- One connection is accepted, then `accept` fails for ever; the first connection is ready. -/
example (f : Nat) : onLiveEvents f [⟨listenerToken, false, fun i => if i = 0 then .got (.ok 11 true) else .got .err⟩, ⟨0, false, fun _ => .wouldBlock⟩]
    (Slab.new : Slab Nat) = none :=
  C59_stuck_false (n := 1) (fun i hi => by simp [show i = 0 by omega]) (fun i hi => by simp [show i ≠ 0 by omega]) .new _ _ f

end Verif
