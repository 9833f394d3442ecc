import Verif.Proofs.Memory
import Verif.Props.Busy

/-!
C66: how much the server keeps for a connection.
-/

namespace Verif

variable {σ : Type} {prof : Profile} {rt : Router σ} {n : Nat} {s₀ : σ}

/-- C66 (partial: the bounds depend on what was received and on the answers): whatever happens on any number of connections, a connection that is open keeps
of its input no more than arrived on it, and 3 MiB that were announced; when overflow is checked no more than 10 MiB in any case. The same holds of the
request that is being handled. Of its output it keeps no more than all the answers to the requests read so far. -/
theorem C66_kept_partial {s : Net σ} (h : Net.Reach prof rt n s₀ s) {k : Nat} {c : NConn σ} {conn : Conn Rd Nbw} (hc : s.conns[k]? = some c) (hs : c.slot = .live conn) :
    (conn.parser.getD .new).memory ≤ received c.arrived + 3 * 1024 * 1024 ∧
    (prof.overflowChecks = true → (conn.parser.getD .new).memory ≤ 10 * 1024 * 1024) ∧
    (∀ w q, c.lock = some w → (s.phase w = .asked q ∨ ∃ a, s.phase w = .reply q a) →
      q.memory ≤ received c.arrived ∧ (prof.overflowChecks = true → q.memory ≤ 10 * 1024 * 1024)) ∧
    conn.writer.buf.length ≤ answered rt c.seen := by
  have hf := (h.kept frugal_kept).2 k c conn hc hs
  obtain ⟨single, w, h1, h2⟩ := hf.parser
  obtain ⟨h3, h4⟩ := RequestSt.memory h1
  refine ⟨by omega, h4, ?_, by have := hf.writer; omega⟩
  intro w q hl hp
  refine hf.request q ?_
  unfold Net.at_
  rw [hl]
  rcases hp with hp | ⟨a, hp⟩ <;> simp [hp, Phase.request]

/-- The conditions of `C66_kept_partial` can be met: a worker has read a request. -/
example : ∃ s, Net.Reach prof ([] : Router Unit) 1 () s ∧ ∃ c conn q, s.conns[0]? = some c ∧ c.slot = .live conn ∧ c.lock = some 0 ∧ s.phase 0 = .asked q := by
  have h : (Net.after prof ([] : Router Unit) 1 () (oneRequest.take 11)).any (fun s => (match s.phase 0 with | .asked _ => true | _ => false) &&
      s.conns[0]?.any fun c => c.lock == some 0 && Net.isLive c.slot) = true := by obtain ⟨_ | _⟩ := prof <;> decide +kernel
  cases hs : Net.after prof ([] : Router Unit) 1 () (oneRequest.take 11) with
  | none => rw [hs] at h; cases h
  | some s =>
    rw [hs, Option.any_some, Bool.and_eq_true] at h
    obtain ⟨h1, h2⟩ := h
    cases hp : s.phase 0 with
    | asked q =>
      cases hc : s.conns[0]? with
      | none => rw [hc] at h2; cases h2
      | some c =>
        rw [hc, Option.any_some, Bool.and_eq_true, beq_iff_eq] at h2
        cases hl : c.slot with
        | live conn => exact ⟨s, Net.reach_of hs, c, conn, q, hc, hl, h2.1, hp⟩
        | _ => rw [hl] at h2; cases h2.2
    | _ => rw [hp] at h1; cases h1

/-- A number of 404 responses, one after the other. -/
def Refusals : Nat → Nbw → Nbw → Prop
  | 0, w, w' => w' = w
  | n + 1, w, w' => ∃ w₁, writeAnswer w .next = (.ok, w₁) ∧ Refusals n w₁ w'

/-- A worker is about to read the next of `m` requests that have arrived. -/
structure Net.Piped (m : Nat) (wr : Nbw) (s : Net Unit) : Prop where
  workers : s.pool.workers = [.running 0]
  jobs : ∃ a, s.jobs[0]? = some (0, a)
  phase : s.phase 0 = .reading
  conns : ∃ c₀ conn, s.conns = [c₀] ∧ c₀.slot = .live conn ∧ conn.parser.getD .new = .new ∧
    conn.reader.Ahead ((List.replicate m aRequest.1).flatten.map .byte) ∧ conn.writer = wr ∧ c₀.lock = some 0

theorem Net.Piped.next {s : Net Unit} {m : Nat} {wr wr' : Nbw} (h : s.Piped (m + 1) wr) (hw : writeAnswer wr .next = (.ok, wr')) :
    ∃ s₁ s₂ s₃, s.step prof [] (.go 0) = some s₁ ∧ s₁.step prof [] (.go 0) = some s₂ ∧ s₂.step prof [] (.go 0) = some s₃ ∧ s₃.Piped m wr' := by
  obtain ⟨⟨ws, lk, po, qu, ow, se, ta, lo, st, fi, cr⟩, jobs, phase, conns, batch, u, asks⟩ := s
  obtain ⟨h1, ⟨a, h4⟩, h5, c₀, ⟨rd, wr, pa⟩, h7, h8, h9, h10, h11, h12⟩ := h
  dsimp only at *
  subst h1 h7 h11
  obtain ⟨q', hr, hr'⟩ := C04_request_accepted prof aRequest_fits (rest := (List.replicate m aRequest.1).flatten.map .byte) (r := rd)
    (by rw [List.replicate_succ, List.flatten_cons, List.map_append] at h10; exact h10)
  obtain ⟨c0s, c0l, c0t, c0e, c0f, c0a, c0w, c0n, c0d⟩ := c₀
  dsimp only at *
  subst h8 h12
  obtain ⟨js, rfl⟩ : ∃ js, jobs = (0, a) :: js := by
    cases jobs with
    | nil => cases h4
    | cons x js => cases h4; exact ⟨js, rfl⟩
  have hread : Conn.readRequest prof ⟨rd, wr, pa⟩ = (.ready aRequest.2, ⟨q', wr, none⟩) := by
    simp only [Conn.readRequest, h9, hr]
  refine ⟨_, _, _,
    (by simp only [Net.step, Net.handled, List.getElem?_cons_zero, h4, Option.map_some, if_true, Net.advance, h5, hread]; rfl),
    (by simp [Net.step, Net.handled, Net.advance, Router.result, Router.resultInternal, Net.setConn, Net.setPhase]; rfl),
    (by simp [Net.step, Net.handled, Net.advance, hw, Net.setConn, Net.setPhase, shouldCloseAfterResponse]; rfl), ?_⟩
  exact ⟨rfl, ⟨_, rfl⟩, by simp, _, _, rfl, rfl, rfl, hr', rfl, rfl⟩

theorem Net.Piped.all {s : Net Unit} {m : Nat} {wr wr' : Nbw} (hr : Net.Reach prof [] n () s) (h : s.Piped m wr) (hw : Refusals m wr wr') :
    ∃ s', Net.Reach prof [] n () s' ∧ s'.Piped 0 wr' := by
  induction m generalizing s wr with
  | zero => cases hw; exact ⟨s, hr, h⟩
  | succ m ih =>
    obtain ⟨w₁, h1, h2⟩ := hw
    obtain ⟨s₁, s₂, s₃, e1, e2, e3, e4⟩ := h.next (prof := prof) h1
    exact ih (((hr.step e1).step e2).step e3) e4 h2

/-- The buffer of a writer as `Vec` lets it grow. -/
def doubling (c n : Nat) : Nat := max (2 * c) n

/-- A new writer, with what the socket will do. -/
def freshWriter (evs : List WEv) : Nbw := Nbw.withCapacity 4096 doubling (by intro c n; simp only [doubling]; omega) ⟨evs, [], []⟩

/-- A client connects and sends `data`; a worker is given the connection. -/
def pipeStart (data : Bytes) (evs : List WEv) : List NAct :=
  [.accept (fun n => n) doubling (by intro c n; simp only [doubling]; omega) [], .arrive 0 (.data data), .poll [0], .dispatch false, .work 0, .work 0, .work 0, .work 0, .lock 0 evs, .go 0]

theorem pipeline (m : Nat) (evs : List WEv) {wr : Nbw} (hw : Refusals (m + 1) (freshWriter evs) wr) :
    ∃ s c conn, Net.Reach prof ([] : Router Unit) 1 () s ∧ s.conns[0]? = some c ∧ c.slot = .live conn ∧ conn.writer = wr := by
  have hne : (List.replicate (m + 1) aRequest.1).flatten ≠ [] := by
    rw [List.replicate_succ, List.flatten_cons]
    exact fun h => absurd (List.append_eq_nil_iff.1 h).1 (by decide)
  have hat : ∀ b : Bytes, b ≠ [] → Ev.atoms (.data b) = b.map .byte := by
    intro b hb
    cases b with
    | nil => exact absurd rfl hb
    | cons x b => rfl
  obtain ⟨s, h1, h2⟩ : ∃ s, Net.after prof ([] : Router Unit) 1 () (pipeStart (List.replicate (m + 1) aRequest.1).flatten evs) = some s ∧
      s.Piped (m + 1) (freshWriter evs) := by
    rcases evs with _ | ⟨_ | _, _⟩
    all_goals
      refine ⟨_, rfl, ?_⟩
      refine ⟨rfl, ⟨_, rfl⟩, rfl, _, _, rfl, rfl, rfl, ⟨rfl, ?_⟩, rfl, rfl⟩
      show _ ++ List.flatMap Ev.atoms (_ ++ [Ev.data _]) = _
      rw [List.flatMap_append, List.flatMap_cons, List.flatMap_nil, hat _ hne]
      simp [Conn.new]
  obtain ⟨s', h3, h4⟩ := Net.Piped.all (Net.reach_of h1) h2 hw
  obtain ⟨c, conn, g1, g2, -, -, g3, -⟩ := h4.conns
  exact ⟨s', c, conn, h3, by rw [g1]; rfl, g2, g3⟩

theorem refusal_of {w w₁ w₂ : Nbw} (h₁ : w.write notFoundResponse = (.ok 26, w₁)) (h₂ : w₁.flush = (.ok (), w₂)) : writeAnswer w .next = (.ok, w₂) := by
  have h3 : Write.writeAll w notFoundResponse = (.ok, w₁) := by
    unfold Write.writeAll
    rw [Write.writeAllLoop.eq_def]
    dsimp only [notFoundResponse] at h₁ ⊢
    rw [show Write.write w _ = w.write _ from rfl, h₁]
    rfl
  unfold writeAnswer
  dsimp only
  rw [h3]
  simp only [Write.andThen]
  rw [show Write.flush w₁ = w₁.flush from rfl, h₂]
  rfl

/-- The socket takes nothing: what is written stays in the buffer. -/
theorem Nbw.Full.grows {w : Nbw} (h : w.Full) (hp : w.pos = 0) :
    ∃ w', writeAnswer w .next = (.ok, w') ∧ w'.Full ∧ w'.pos = 0 ∧ w'.buf = w.buf ++ notFoundResponse := by
  have hf : ∀ w : Nbw, w.Full → w.pos = 0 → w.flushBuf = (.ok (), w) := by
    rintro ⟨buf, pos, cap, gr, go, evs, fl, se⟩ ⟨h1, h2⟩ h3
    dsimp only at h1 h2 h3
    subst h1 h2 h3
    unfold Nbw.flushBuf Sock.writeUntilBlocked
    rw [writeLoop_full]
    cases buf <;> simp
  have hfl : ∀ w : Nbw, w.Full → w.pos = 0 → w.flush = (.ok (), w) := by
    intro w h1 h2
    unfold Nbw.flush
    rw [hf w h1 h2]
    obtain ⟨buf, pos, cap, gr, go, evs, fl, se⟩ := w
    obtain ⟨-, h3⟩ := h1
    dsimp only at h3
    subst h3
    rfl
  have hw : w.write notFoundResponse = (.ok 26, w.push notFoundResponse) := by
    unfold Nbw.write
    split
    · rw [hf w h hp]
      dsimp only
      split
      · unfold Sock.writeUntilBlocked
        rw [h.1, writeLoop_full]
        obtain ⟨buf, pos, cap, gr, go, evs, fl, se⟩ := w
        obtain ⟨h3, -⟩ := h
        dsimp only at h3
        subst h3
        rfl
      · rfl
    · rfl
  exact ⟨_, refusal_of hw (hfl _ (h.push _) hp), h.push _, hp, rfl⟩

theorem Nbw.Full.refuses {w : Nbw} (h : w.Full) (hp : w.pos = 0) (m : Nat) :
    ∃ w', Refusals m w w' ∧ w'.pos = 0 ∧ w'.buf.length = w.buf.length + 26 * m := by
  induction m generalizing w with
  | zero => exact ⟨w, rfl, hp, rfl⟩
  | succ m ih =>
    obtain ⟨w₁, h1, h2, h3, h4⟩ := h.grows hp
    obtain ⟨w', h5, h6, h7⟩ := ih h2 h3
    refine ⟨w', ⟨w₁, h1, h5⟩, h6, ?_⟩
    rw [h7, h4, List.length_append, show notFoundResponse.length = 26 from rfl]
    omega

/-- C66 (false: no bound for the output): a client that sends requests and never reads makes the server keep as much as the client likes. -/
theorem C66_output_false (N : Nat) :
    ∃ s c conn, Net.Reach prof ([] : Router Unit) 1 () s ∧ s.conns[0]? = some c ∧ c.slot = .live conn ∧ N ≤ conn.writer.pending.length := by
  obtain ⟨w', h1, h2, h3⟩ := Nbw.Full.refuses (w := freshWriter []) ⟨rfl, rfl⟩ rfl (N + 1)
  obtain ⟨s, c, conn, g1, g2, g3, g4⟩ := pipeline (prof := prof) N [] h1
  refine ⟨s, c, conn, g1, g2, g3, ?_⟩
  rw [g4, Nbw.pending, h2, List.drop_zero, h3]
  omega

/-- All but the last byte of the buffer was sent. -/
structure Nbw.Behind (w : Nbw) : Prop where
  flushes : w.sock.flushes = []
  pos : w.pos + 1 = w.buf.length
  some : 1 ≤ w.pos

/-- The same writer, with a socket that will do `evs`. -/
def Nbw.facing (w : Nbw) (evs : List WEv) : Nbw := { w with sock := { w.sock with evs } }

theorem writeLoop_some (fl : List (Option IoError)) (es : List WEv) (sent b : Bytes) (k : Nat) (h : k < b.length) :
    Sock.writeLoop fl (.accept k :: .err .wouldBlock :: es) sent b = (.ok k, ⟨es, fl, sent ++ b.take k⟩) := by
  cases b with
  | nil => exact absurd h (Nat.not_lt_zero _)
  | cons x b =>
    rw [Sock.writeLoop]
    obtain ⟨y, d, hd⟩ : ∃ y d, (x :: b).drop k = y :: d := by
      cases hd : (x :: b).drop k with
      | nil =>
        have := congrArg List.length hd
        rw [List.length_drop] at this
        simp only [List.length_nil] at this
        omega
      | cons y d => exact ⟨y, d, rfl⟩
    rw [hd, Sock.writeLoop.eq_def]
    simp only [if_true, Except.map, Nat.zero_add]
    rw [Nat.min_eq_left (by omega)]

theorem writeLoop_none (fl : List (Option IoError)) (es : List WEv) (sent b : Bytes) (h : 0 < b.length) :
    Sock.writeLoop fl (.err .wouldBlock :: es) sent b = (.ok 0, ⟨es, fl, sent⟩) := by
  cases b with
  | nil => exact absurd h (Nat.not_lt_zero _)
  | cons x b => rfl

/-- The socket takes `k` bytes, but not all. -/
theorem flush_some {w : Nbw} (k : Nat) (es : List WEv) (h : w.pos + k < w.buf.length) (hf : w.sock.flushes = []) :
    (w.facing (.accept k :: .err .wouldBlock :: es)).flush =
      (.ok (), { w with pos := w.pos + k, sock := ⟨es, [], w.sock.sent ++ (w.buf.drop w.pos).take k⟩ }) := by
  unfold Nbw.flush Nbw.flushBuf Sock.writeUntilBlocked Nbw.facing
  dsimp only
  rw [writeLoop_some _ _ _ _ _ (by rw [List.length_drop]; omega)]
  dsimp only
  rw [if_neg (by omega), hf]
  rfl

theorem Nbw.Behind.round {w : Nbw} (h : w.Behind) :
    ∃ (e : List WEv) (w₁ : Nbw), w₁.Behind ∧ w₁.buf.length = w.buf.length + 26 ∧ ∀ es, writeAnswer (w.facing (e ++ es)) .next = (.ok, w₁.facing es) := by
  obtain ⟨buf, pos, cap, gr, go, evs, fl, se⟩ := w
  obtain ⟨h1, h2, h3⟩ := h
  dsimp only at h1 h2 h3
  subst h1
  by_cases hc : buf.length + 26 > cap
  · refine ⟨[.err .wouldBlock, .accept 26, .err .wouldBlock], { (Nbw.push ⟨buf, pos, cap, gr, go, [], [], se⟩ notFoundResponse) with pos := pos + 26, sock := ⟨[], [], se ++ ((buf ++ notFoundResponse).drop pos).take 26⟩ }, ⟨rfl, ?_, ?_⟩, ?_, fun es => ?_⟩
    · simp only [Nbw.push, List.length_append, show notFoundResponse.length = 26 from rfl]; omega
    · show 1 ≤ pos + 26; omega
    · simp only [Nbw.push, List.length_append, show notFoundResponse.length = 26 from rfl]
    · refine refusal_of (w₁ := (Nbw.push ⟨buf, pos, cap, gr, go, [], [], se⟩ notFoundResponse).facing (.accept 26 :: .err .wouldBlock :: es)) ?_ ?_
      · unfold Nbw.write
        rw [if_pos (by exact hc)]
        unfold Nbw.flushBuf Sock.writeUntilBlocked Nbw.facing
        dsimp only [List.cons_append, List.nil_append]
        rw [writeLoop_none _ _ _ _ (by rw [List.length_drop]; omega)]
        dsimp only
        rw [if_neg (by omega)]
        dsimp only
        rw [if_neg (by omega)]
        rfl
      · rw [flush_some _ _ (by simp only [Nbw.push, List.length_append, show notFoundResponse.length = 26 from rfl]; omega) rfl]
        rfl
  · refine ⟨[.accept 26, .err .wouldBlock], { (Nbw.push ⟨buf, pos, cap, gr, go, [], [], se⟩ notFoundResponse) with pos := pos + 26, sock := ⟨[], [], se ++ ((buf ++ notFoundResponse).drop pos).take 26⟩ }, ⟨rfl, ?_, ?_⟩, ?_, fun es => ?_⟩
    · simp only [Nbw.push, List.length_append, show notFoundResponse.length = 26 from rfl]; omega
    · show 1 ≤ pos + 26; omega
    · simp only [Nbw.push, List.length_append, show notFoundResponse.length = 26 from rfl]
    · refine refusal_of (w₁ := (Nbw.push ⟨buf, pos, cap, gr, go, [], [], se⟩ notFoundResponse).facing (.accept 26 :: .err .wouldBlock :: es)) ?_ ?_
      · unfold Nbw.write
        rw [if_neg (by exact hc)]
        rfl
      · rw [flush_some _ _ (by simp only [Nbw.push, List.length_append, show notFoundResponse.length = 26 from rfl]; omega) rfl]
        rfl

theorem Nbw.Behind.rounds {w : Nbw} (h : w.Behind) (m : Nat) :
    ∃ (evs : List WEv) (w' : Nbw), Refusals m (w.facing evs) w' ∧ w'.Behind ∧ w'.buf.length = w.buf.length + 26 * m := by
  induction m generalizing w with
  | zero => exact ⟨[], _, rfl, ⟨h.flushes, h.pos, h.some⟩, rfl⟩
  | succ m ih =>
    obtain ⟨e, w₁, h1, h2, h3⟩ := h.round
    obtain ⟨es, w', h4, h5, h6⟩ := ih h1
    exact ⟨e ++ es, w', ⟨_, h3 es, h4⟩, h5, by omega⟩

/-- C66 (false: what was sent is not given up): a client that reads, but stays one byte behind, makes the server keep everything it ever sent on the connection. -/
theorem C66_sent_kept_false (N : Nat) :
    ∃ s c conn, Net.Reach prof ([] : Router Unit) 1 () s ∧ s.conns[0]? = some c ∧ c.slot = .live conn ∧ conn.writer.pending.length = 1 ∧ N ≤ conn.writer.buf.length := by
  have hb : Nbw.Behind { (Nbw.push (freshWriter []) notFoundResponse) with pos := 25, sock := ⟨[], [], notFoundResponse.take 25⟩ } := ⟨rfl, rfl, by decide⟩
  obtain ⟨evs, w', h1, h2, h3⟩ := hb.rounds N
  have hr : Refusals (N + 1) (freshWriter (.accept 25 :: .err .wouldBlock :: evs)) w' := ⟨_, rfl, h1⟩
  obtain ⟨s, c, conn, g1, g2, g3, g4⟩ := pipeline (prof := prof) N _ hr
  refine ⟨s, c, conn, g1, g2, g3, ?_, ?_⟩
  · rw [g4, Nbw.pending, List.length_drop]
    have := h2.pos
    omega
  · rw [g4, h3]
    omega

/-- C66 (false: no more than was received): 43 bytes are enough to make the server take nearly 3 MiB, before the first byte of the body arrives. -/
theorem C66_announced_false : ∃ s c conn, Net.Reach prof ([] : Router Unit) 1 () s ∧ s.conns[0]? = some c ∧ c.slot = .live conn ∧ received c.arrived = 43 ∧
    3145727 ≤ (conn.parser.getD .new).memory := by
  have h : (Net.after prof ([] : Router Unit) 1 () (pipeStart b!"GET / HTTP/1.1\r\ncontent-length: 3145727\r\n\r\n" [] ++ [.go 0])).any (fun s => s.conns[0]?.any fun c => received c.arrived == 43 && match c.slot with
      | .live conn => decide (3145727 ≤ (conn.parser.getD .new).memory)
      | _ => false) = true := by obtain ⟨_ | _⟩ := prof <;> decide +kernel
  cases hs : Net.after prof ([] : Router Unit) 1 () (pipeStart b!"GET / HTTP/1.1\r\ncontent-length: 3145727\r\n\r\n" [] ++ [.go 0]) with
  | none => rw [hs] at h; cases h
  | some s =>
    rw [hs, Option.any_some] at h
    cases hc : s.conns[0]? with
    | none => rw [hc] at h; cases h
    | some c =>
      rw [hc, Option.any_some, Bool.and_eq_true, beq_iff_eq] at h
      cases hl : c.slot with
      | live conn => rw [hl] at h; exact ⟨s, c, conn, Net.reach_of hs, hc, hl, h.1, of_decide_eq_true h.2⟩
      | _ => rw [hl] at h; cases h.2

end Verif
