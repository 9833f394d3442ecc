import Verif.Props.Progress

/-!
C44: without a bound on what arrives it is false. A client that sends one request after the other keeps a worker for ever.
-/

namespace Verif

variable {σ : Type} {prof : Profile} {rt : Router σ} {n : Nat} {s₀ : σ}

/-- The run that tries to do `f t` at time `t`, and does nothing if that is impossible. -/
def Net.Run.trying (prof : Profile) (rt : Router σ) (s : Net σ) (hs : Net.new n s₀ = some s) (f : Nat → NAct) : Net.Run prof rt n s₀ where
  at_ := Nat.rec s fun t s => (s.step prof rt (f t)).getD s
  act t := if ((Nat.rec s (fun t s => (s.step prof rt (f t)).getD s) t : Net σ).step prof rt (f t)).isSome then some (f t) else none
  start := hs
  next t := by
    dsimp only
    generalize (Nat.rec s (fun t s => (s.step prof rt (f t)).getD s) t : Net σ) = x
    cases h : x.step prof rt (f t) <;> simp [h]

theorem Net.Run.trying_step {s : Net σ} {hs : Net.new n s₀ = some s} {f : Nat → NAct} {t : Nat} {s' : Net σ}
    (h : ((Net.Run.trying prof rt s hs f).at_ t).step prof rt (f t) = some s') :
    (Net.Run.trying prof rt s hs f).at_ (t + 1) = s' ∧ (Net.Run.trying prof rt s hs f).act t = some (f t) := by
  constructor
  · show (((Net.Run.trying prof rt s hs f).at_ t).step prof rt (f t)).getD _ = s'
    rw [h]; rfl
  · show (if (((Net.Run.trying prof rt s hs f).at_ t).step prof rt (f t)).isSome then some (f t) else none) = _
    rw [h]; rfl

/-- The socket takes nothing. -/
def Nbw.Full (w : Nbw) : Prop := w.sock.evs = [] ∧ w.sock.flushes = []

theorem writeLoop_full (fl : List (Option IoError)) (sent b : Bytes) : Sock.writeLoop fl [] sent b = (.ok 0, ⟨[], fl, sent⟩) := by cases b <;> rfl

theorem Nbw.Full.flushBuf {w : Nbw} (h : w.Full) : (w.flushBuf).1 = .ok () ∧ (w.flushBuf).2.Full := by
  unfold Nbw.flushBuf Sock.writeUntilBlocked
  rw [h.1, writeLoop_full]
  dsimp only
  split <;> exact ⟨rfl, rfl, h.2⟩

theorem Nbw.Full.flush {w : Nbw} (h : w.Full) : (w.flush).1 = .ok () ∧ (w.flush).2.Full := by
  obtain ⟨h1, h2⟩ := h.flushBuf
  unfold Nbw.flush
  generalize w.flushBuf = x at h1 h2
  obtain ⟨x, w'⟩ := x
  cases h1
  unfold Nbw.flushInner Sock.flush
  dsimp only at h2 ⊢
  rw [h2.2]
  exact ⟨rfl, h2.1, h2.2⟩

theorem Nbw.Full.push {w : Nbw} (h : w.Full) (b : Bytes) : (w.push b).Full := h

theorem Nbw.Full.write {w : Nbw} (h : w.Full) (b : Bytes) : (w.write b).1 = .ok b.length ∧ (w.write b).2.Full := by
  unfold Nbw.write
  split
  · obtain ⟨h1, h2⟩ := h.flushBuf
    generalize w.flushBuf = x at h1 h2
    obtain ⟨x, w'⟩ := x
    cases h1
    dsimp only at h2 ⊢
    split
    · unfold Sock.writeUntilBlocked
      rw [h2.1, writeLoop_full]
      exact ⟨rfl, rfl, h2.2⟩
    · exact ⟨rfl, h2⟩
  · exact ⟨rfl, h⟩

theorem Nbw.Full.writeAll {w : Nbw} (h : w.Full) {b : Bytes} (hb : b ≠ []) : (Write.writeAll w b).1 = .ok ∧ (Write.writeAll w b).2.Full := by
  obtain ⟨h1, h2⟩ := h.write b
  unfold Write.writeAll
  rw [Write.writeAllLoop.eq_def]
  obtain ⟨x, b, rfl⟩ := List.exists_cons_of_ne_nil hb
  dsimp only
  rw [show Write.write w (x :: b) = w.write (x :: b) from rfl]
  generalize w.write (x :: b) = y at h1 h2
  obtain ⟨y, w'⟩ := y
  cases h1
  simp only [List.length_cons, List.drop_succ_cons, List.drop_length]
  rw [Write.writeAllLoop.eq_def]
  exact ⟨rfl, h2⟩

theorem Nbw.Full.answer {w : Nbw} (h : w.Full) : ∃ w', writeAnswer w .next = (.ok, w') ∧ w'.Full := by
  obtain ⟨h1, h2⟩ := h.writeAll (b := notFoundResponse) (by decide)
  unfold writeAnswer
  dsimp only
  generalize Write.writeAll w notFoundResponse = x at h1 h2
  obtain ⟨x, w'⟩ := x
  cases h1
  obtain ⟨h3, h4⟩ := Nbw.Full.flush (w := w') h2
  refine ⟨w'.flush.2, ?_, h4⟩
  simp only [Write.andThen]
  rw [show Write.flush w' = w'.flush from rfl]
  generalize w'.flush = y at h3
  obtain ⟨y, w''⟩ := y
  cases h3
  rfl

/-- What holds again and again: the worker is about to read the next request of connection 0, which is there; something waits on connection 1. -/
structure Net.Busy (s : Net Unit) : Prop where
  workers : s.pool.workers = [.running 0]
  owner : s.pool.owner = .using
  crashed : s.pool.crashed = []
  jobs : ∃ a, s.jobs[0]? = some (0, a)
  phase : s.phase 0 = .reading
  batch : s.batch = []
  conns : ∃ c₀ c₁ conn conn₁, s.conns = [c₀, c₁] ∧ c₀.slot = .live conn ∧ conn.parser.getD .new = .new ∧ conn.reader.Ahead (aRequest.1.map .byte) ∧ conn.writer.Full ∧
    c₀.lock = some 0 ∧ c₀.inTable = true ∧ c₀.edge = false ∧ c₁.edge = false ∧ c₁.inTable = true ∧ c₁.slot = .live conn₁ ∧ conn₁.reader.src.atoms ≠ []

/-- What happens again and again. -/
def busyCycle : List NAct := [.go 0, .arrive 0 (.data aRequest.1), .poll [0], .dispatch false, .go 0, .go 0]

theorem Net.Busy.cycle {s : Net Unit} (h : s.Busy) : ∃ s₁ s₂ s₃ s₄ s₅ s₆, s.step prof [] (.go 0) = some s₁ ∧ s₁.step prof [] (.arrive 0 (.data aRequest.1)) = some s₂ ∧
    s₂.step prof [] (.poll [0]) = some s₃ ∧ s₃.step prof [] (.dispatch false) = some s₄ ∧ s₄.step prof [] (.go 0) = some s₅ ∧ s₅.step prof [] (.go 0) = some s₆ ∧ s₆.Busy ∧
    ∀ x ∈ [s, s₁, s₂, s₃, s₄, s₅], x.pool.workers = [.running 0] ∧ x.pool.crashed = [] ∧ x.phase 0 ≠ .enter ∧ x.Open 1 ∧ x.Waiting 1 ∧ ¬ x.Edge 1 ∧ x.conns.length = 2 := by
  obtain ⟨⟨ws, lk, po, qu, ow, se, ta, lo, st, fi, cr⟩, jobs, phase, conns, batch, u, asks⟩ := s
  obtain ⟨h1, h2, h3, ⟨a, h4⟩, h5, h6, c₀, c₁, ⟨rd, wr, pa⟩, conn₁, h7, h8, h9, h10, h11, h12, h13, h14, h15, h16, h17, h18⟩ := h
  dsimp only at *
  subst h1 h2 h3 h6 h7
  obtain ⟨q', hr, hr'⟩ := C04_request_accepted prof aRequest_fits (rest := []) (r := rd) (by simpa using h10)
  obtain ⟨c0s, c0l, c0t, c0e, c0f, c0a, c0w, c0n, c0d⟩ := c₀
  dsimp only at *
  subst h8 h12 h13 h14
  obtain ⟨w', k1, k2⟩ := h11.answer
  obtain ⟨js, rfl⟩ : ∃ js, jobs = (0, a) :: js := by
    cases jobs with
    | nil => cases h4
    | cons x js => cases h4; exact ⟨js, rfl⟩
  have hread : Conn.readRequest prof ⟨rd, wr, pa⟩ = (.ready aRequest.2, ⟨q', wr, none⟩) := by
    simp only [Conn.readRequest, h9, hr]
  refine ⟨_, _, _, _, _, _,
    (by simp only [Net.step, Net.handled, List.getElem?_cons_zero, h4, Option.map_some, if_true, Net.advance, h5, hread]; rfl),
    (by simp [Net.step, Net.setConn, Net.setPhase, Net.isLive, Net.receive]; rfl),
    (by simp [Net.step]; rfl),
    (by simp [Net.step, Net.onEvent, Pool.step, Pool.open, Worker.alive]; rfl),
    (by simp [Net.step, Net.handled, Net.advance, Router.result, Router.resultInternal, Net.setConn, Net.setPhase]; rfl),
    (by simp [Net.step, Net.handled, Net.advance, k1, Net.setConn, Net.setPhase, shouldCloseAfterResponse]; rfl), ?_, ?_⟩
  · refine ⟨rfl, rfl, rfl, ⟨_, rfl⟩, by simp, rfl, _, _, _, _, rfl, rfl, rfl, ⟨hr'.1, ?_⟩, k2, rfl, rfl, rfl, h15, h16, h17, h18⟩
    have := hr'.2
    simp only [Src.atoms] at this ⊢
    rw [List.flatMap_append, ← List.append_assoc, this]
    simp [Ev.atoms]
    rfl
  · have hc : ∀ x : Net Unit, x.conns[1]? = some c₁ → x.Open 1 ∧ x.Waiting 1 ∧ ¬ x.Edge 1 := by
      intro x hx
      refine ⟨⟨c₁, hx, h16, by rw [h17]; rfl⟩, ⟨c₁, conn₁, hx, h17, h18⟩, ?_⟩
      rintro ⟨c, hc, hc'⟩
      rw [hx] at hc; cases hc
      rw [h15] at hc'; cases hc'
    intro x hx
    simp only [List.mem_cons, List.not_mem_nil, or_false] at hx
    rcases hx with rfl | rfl | rfl | rfl | rfl | rfl <;>
      exact ⟨rfl, rfl, by first | (show phase 0 ≠ _; rw [h5]; exact nofun) | (exact nofun), (hc _ rfl).1, (hc _ rfl).2.1, (hc _ rfl).2.2, rfl⟩

/-- How it begins: two clients connect and send a request each; both are put into the queue, and the worker takes the first. -/
def busyStart : List NAct := [.accept (fun n => n) (fun c n => c + n) (by omega) [], .accept (fun n => n) (fun c n => c + n) (by omega) [], .arrive 0 (.data aRequest.1), .arrive 1 (.data aRequest.1),
  .poll [0, 1], .dispatch false, .dispatch false, .work 0, .work 0, .work 0, .work 0, .lock 0 [], .go 0]

def busyRun (prof : Profile) : Net.Run prof ([] : Router Unit) 1 () := Net.Run.trying prof [] ((Net.new 1 ()).get rfl) rfl fun t =>
  busyStart[t]?.getD (busyCycle[(t - 13) % 6]?.getD (.go 0))

theorem pair_of_length {α : Type} {l : List α} (h : l.length = 2) : ∃ a b, l = [a, b] := by
  match l, h with
  | [a, b], _ => exact ⟨a, b, rfl⟩

/-- `Net.Busy` as a computation. -/
theorem Net.Busy.of {s : Net Unit} (h : (s.pool.workers = [.running 0] ∧ s.pool.owner = .using ∧ s.pool.crashed = [] ∧
      s.jobs[0]? = some (0, 1) ∧ s.phase 0 = .reading ∧ s.batch = [] ∧ s.conns.length = 2) ∧
      s.conns[0]?.all (fun c => (c.slot matches .live _) && c.slot.conn.parser == some .new && c.slot.conn.reader.lims == [] &&
        c.slot.conn.reader.src.atoms == aRequest.1.map .byte && c.slot.conn.writer.sock == ⟨[], [], []⟩ && c.lock == some 0 && c.inTable && !c.edge) = true ∧
      s.conns[1]?.all (fun c => (c.slot matches .live _) && !c.slot.conn.reader.src.atoms.isEmpty && c.inTable && !c.edge) = true) : s.Busy := by
  obtain ⟨⟨h1, h2, h3, h4, h5, h6, h7⟩, h8, h9⟩ := h
  refine ⟨h1, h2, h3, ⟨1, h4⟩, h5, h6, ?_⟩
  obtain ⟨c₀, c₁, hc⟩ := pair_of_length h7
  rw [hc] at h8 h9
  simp only [List.getElem?_cons_zero, List.getElem?_cons_succ, Option.all_some, Bool.and_eq_true, beq_iff_eq, Bool.not_eq_true', List.isEmpty_eq_false_iff] at h8 h9
  obtain ⟨⟨⟨⟨⟨⟨⟨g1, g2⟩, g3⟩, g4⟩, g5⟩, g6⟩, g7⟩, g8⟩ := h8
  obtain ⟨⟨⟨f1, f2⟩, f3⟩, f4⟩ := h9
  cases hs : c₀.slot with
  | live conn =>
    cases hs₁ : c₁.slot with
    | live conn₁ =>
      rw [hs] at g2 g3 g4 g5
      rw [hs₁] at f2
      exact ⟨c₀, c₁, conn, conn₁, hc, hs, by rw [show conn.parser = some .new from g2]; rfl, ⟨g3, g4⟩,
        ⟨by rw [show conn.writer.sock = _ from g5], by rw [show conn.writer.sock = _ from g5]⟩, g6, g7, g8, f4, f3, hs₁, f2⟩
    | _ => rw [hs₁] at f1; cases f1
  | _ => rw [hs] at g1; cases g1

theorem busy_start : ((busyRun prof).at_ 13).Busy := by
  refine Net.Busy.of ?_
  obtain ⟨_ | _⟩ := prof <;> decide +kernel

theorem busy_round {m : Nat} (h : ((busyRun prof).at_ (13 + 6 * m)).Busy) : ((busyRun prof).at_ (13 + 6 * (m + 1))).Busy ∧
    (busyRun prof).act (13 + 6 * m) = some (.go 0) ∧ (busyRun prof).act (13 + 6 * m + 2) = some (.poll [0]) ∧ (busyRun prof).act (13 + 6 * m + 3) = some (.dispatch false) ∧
    ∀ i < 6, ((busyRun prof).at_ (13 + 6 * m + i)).pool.workers = [.running 0] ∧ ((busyRun prof).at_ (13 + 6 * m + i)).pool.crashed = [] ∧
      ((busyRun prof).at_ (13 + 6 * m + i)).phase 0 ≠ .enter ∧ ((busyRun prof).at_ (13 + 6 * m + i)).Open 1 ∧ ((busyRun prof).at_ (13 + 6 * m + i)).Waiting 1 ∧
      ¬ ((busyRun prof).at_ (13 + 6 * m + i)).Edge 1 ∧ ((busyRun prof).at_ (13 + 6 * m + i)).conns.length = 2 := by
  obtain ⟨s₁, s₂, s₃, s₄, s₅, s₆, h1, h2, h3, h4, h5, h6, h7, h8⟩ := h.cycle (prof := prof)
  have hf : ∀ i < 6, (busyStart[13 + 6 * m + i]?.getD (busyCycle[(13 + 6 * m + i - 13) % 6]?.getD (.go 0))) = busyCycle[i]?.getD (.go 0) := by
    intro i hi
    rw [List.getElem?_eq_none (by simp [busyStart]; omega), show (13 + 6 * m + i - 13) % 6 = i by omega]
    rfl
  have hs : ∀ i < 6, ∀ s', ((busyRun prof).at_ (13 + 6 * m + i)).step prof [] (busyCycle[i]?.getD (.go 0)) = some s' →
      (busyRun prof).at_ (13 + 6 * m + (i + 1)) = s' ∧ (busyRun prof).act (13 + 6 * m + i) = some (busyCycle[i]?.getD (.go 0)) := by
    intro i hi s' h
    rw [← hf i hi] at h ⊢
    exact Net.Run.trying_step h
  obtain ⟨e1, a1⟩ := hs 0 (by omega) _ h1
  rw [← e1] at h2
  obtain ⟨e2, a2⟩ := hs 1 (by omega) _ h2
  rw [← e2] at h3
  obtain ⟨e3, a3⟩ := hs 2 (by omega) _ h3
  rw [← e3] at h4
  obtain ⟨e4, a4⟩ := hs 3 (by omega) _ h4
  rw [← e4] at h5
  obtain ⟨e5, a5⟩ := hs 4 (by omega) _ h5
  rw [← e5] at h6
  obtain ⟨e6, a6⟩ := hs 5 (by omega) _ h6
  refine ⟨by rw [← e6] at h7; exact h7, a1, a3, a4, ?_⟩
  rw [← e1, ← e2, ← e3, ← e4, ← e5] at h8
  intro i hi
  refine h8 _ ?_
  match i, hi with
  | 0, _ | 1, _ | 2, _ | 3, _ | 4, _ | 5, _ => simp

theorem busy_all (m : Nat) : ((busyRun prof).at_ (13 + 6 * m)).Busy := by
  induction m with
  | zero => exact busy_start
  | succ m ih => exact (busy_round ih).1

theorem busy_later {t : Nat} (ht : 13 ≤ t) : ((busyRun prof).at_ t).pool.workers = [.running 0] ∧ ((busyRun prof).at_ t).pool.crashed = [] ∧
    ((busyRun prof).at_ t).phase 0 ≠ .enter ∧ ((busyRun prof).at_ t).Open 1 ∧ ((busyRun prof).at_ t).Waiting 1 ∧ ¬ ((busyRun prof).at_ t).Edge 1 ∧ ((busyRun prof).at_ t).conns.length = 2 := by
  have := (busy_round (busy_all (prof := prof) ((t - 13) / 6))).2.2.2.2 ((t - 13) % 6) (by omega)
  rwa [show 13 + 6 * ((t - 13) / 6) + (t - 13) % 6 = t by omega] at this

theorem busy_before : ∀ t ≤ 13, ((busyRun prof).at_ t).pool.crashed = [] ∧ ((busyRun prof).at_ t).conns.length ≤ 2 ∧ (((busyRun prof).at_ t).edgeB 1 = true → t ≤ 4) := by
  obtain ⟨_ | _⟩ := prof <;> decide +kernel

theorem busy_poll : (busyRun prof).act 4 = some (.poll [0, 1]) := by
  obtain ⟨s', hs'⟩ : ∃ s', ((busyRun prof).at_ 4).step prof [] (.poll [0, 1]) = some s' := by
    refine Option.isSome_iff_exists.1 ?_
    obtain ⟨_ | _⟩ := prof <;> decide +kernel
  exact (Net.Run.trying_step (t := 4) hs').2

theorem busy_going : (busyRun prof).Going where
  polled t k h := by
    by_cases hk : k = 0
    · obtain ⟨-, -, h1, -⟩ := busy_round (busy_all (prof := prof) t)
      exact ⟨_, by omega, _, h1, by simp [hk]⟩
    · have hk2 : k < 2 := by
        obtain ⟨c, h1, -⟩ := h
        have := (List.getElem?_eq_some_iff.1 h1).1
        rcases Nat.lt_or_ge t 13 with ht | ht
        · have := (busy_before (prof := prof) t (by omega)).2.1; omega
        · have := (busy_later (prof := prof) ht).2.2.2.2.2.2; omega
      have hk1 : k = 1 := by omega
      subst hk1
      rcases Nat.lt_or_ge t 13 with ht | ht
      · obtain ⟨-, -, h1⟩ := busy_before (prof := prof) t (by omega)
        exact ⟨4, h1 (Net.edge_iff.2 h), _, busy_poll, by simp⟩
      · exact absurd h (busy_later ht).2.2.2.2.2.1
  dispatched t h := by
    obtain ⟨-, -, -, h1, -⟩ := busy_round (busy_all (prof := prof) t)
    exact ⟨_, by omega, _, h1⟩
  workers t w h := by
    refine absurd ?_ (h (t + 13) (by omega))
    obtain ⟨h1, -⟩ := busy_later (prof := prof) (t := t + 13) (by omega)
    unfold Net.step
    rw [h1]
    cases w with
    | zero => rfl
    | succ w => simp [Pool.step, Pool.work, h1]
  goes t w h := by
    cases w with
    | zero =>
      obtain ⟨-, h1, -⟩ := busy_round (busy_all (prof := prof) t)
      exact ⟨_, by omega, h1⟩
    | succ w =>
      refine absurd ?_ (h (t + 13) (by omega))
      obtain ⟨h1, -⟩ := busy_later (prof := prof) (t := t + 13) (by omega)
      simp [Net.step, Net.handled, h1]
  locks t w h := by
    obtain ⟨t', h1, evs, h2⟩ := h (t + 13) (by omega)
    refine absurd ?_ h2
    obtain ⟨h3, -, h4, -⟩ := busy_later (prof := prof) (t := t') (by omega)
    simp only [Net.step]
    cases w with
    | zero =>
      split
      · rfl
      · split
        · rfl
        · rw [if_neg (fun h => h4 h.1)]
    | succ w => simp [Net.handled, h3]

/-- C44 is false of clients that send without end, although operating system, event loop and workers go on and no handler panics: while the server reads the requests of one connection the worker is not
given back, so with one worker one client that sends the next request before the last is answered keeps everyone else waiting for ever. -/
theorem C44_busy_false : ∃ r : Net.Run prof ([] : Router Unit) 1 (), r.Going ∧ (∀ t, (r.at_ t).pool.crashed = []) ∧
    ∀ t ≥ 13, (r.at_ t).Open 1 ∧ (r.at_ t).Waiting 1 := by
  refine ⟨busyRun prof, busy_going, fun t => ?_, fun t ht => ⟨(busy_later ht).2.2.2.1, (busy_later ht).2.2.2.2.1⟩⟩
  rcases Nat.lt_or_ge t 13 with ht | ht
  · exact (busy_before t (by omega)).1
  · exact (busy_later ht).2.1

end Verif
