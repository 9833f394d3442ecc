import Verif.Proofs.NetRun

/-! Handlers of one connection, on any schedule, do what they would do one after the other. -/

namespace Verif

variable {σ τ : Type} {prof : Profile}

/-- A connection, byte by byte, with more to read. -/
def Conn.at {W : Type} (c : Conn Rd W) (X : List Atom) : Conn AR W := ⟨⟨c.reader.lims, c.reader.src.atoms ++ X⟩, c.writer, c.parser⟩

def Slot.at {W : Type} (X : List Atom) : Slot Rd W → Slot AR W
  | .live c => .live (c.at X)
  | .gone c => .gone (c.at X)
  | .poisoned c => .poisoned (c.at X)

theorem parse_at {p : RequestParser} {r r' : Rd} {o : Out RequestParser Request} (h : RequestParser.parse prof p r = (o, r'))
    (ho : ∀ s, o ≠ .io s .wouldBlock) (X : List Atom) :
    RequestParser.parse prof p (⟨r.lims, r.src.atoms ++ X⟩ : AR) = (o, ⟨r'.lims, r'.src.atoms ++ X⟩) := by
  have h1 := requestParse_abs prof p r
  rw [h] at h1
  exact request_append X h1 ho

theorem parse_at_block {p p' : RequestParser} {r r' : Rd} (h : RequestParser.parse prof p r = (.io p' .wouldBlock, r'))
    (hw : WB ∉ r.src.atoms) (X : List Atom) :
    RequestParser.parse prof p (⟨r.lims, r.src.atoms ++ WB :: X⟩ : AR) = (.io p' .wouldBlock, ⟨r'.lims, r'.src.atoms ++ X⟩) := by
  have h1 := requestParse_abs prof p r
  rw [h] at h1
  obtain ⟨h2, h3⟩ := request_block X hw h1
  rw [show r'.src.atoms = [] from h2]
  exact h3

theorem readRequest_at {W : Type} {c c' : Conn Rd W} {x : ReadRequestResult} (h : c.readRequest prof = (x, c')) (hx : x ≠ .notReady) (X : List Atom) :
    (c.at X).readRequest prof = (x, c'.at X) := by
  unfold Conn.readRequest at h ⊢
  split at h
  · next he =>
    cases h
    rw [show RequestParser.parse prof ((c.at X).parser.getD .new) (c.at X).reader = _ from parse_at he (by simp) X]
    rfl
  · next p e r he =>
    split at h
    · cases h; exact absurd rfl hx
    · next hne =>
      rw [show RequestParser.parse prof ((c.at X).parser.getD .new) (c.at X).reader = _ from
        parse_at he (by intro s; simp; intro _; exact hne) X]
      dsimp only
      rw [if_neg hne]
      split at h
      · next hc => cases h; rw [if_pos hc]; rfl
      · next hc => cases h; rw [if_neg hc]; rfl
  all_goals
    next he =>
    cases h
    rw [show RequestParser.parse prof ((c.at X).parser.getD .new) (c.at X).reader = _ from parse_at he (by simp) X]
    rfl

theorem readRequest_at_block {W : Type} {c c' : Conn Rd W} (h : c.readRequest prof = (.notReady, c')) (hw : WB ∉ c.reader.src.atoms) (X : List Atom) :
    (c.at (WB :: X)).readRequest prof = (.notReady, c'.at X) := by
  unfold Conn.readRequest at h ⊢
  split at h
  · cases h
  · next p e r he =>
    split at h
    · next hwb =>
      subst hwb
      cases h
      rw [show RequestParser.parse prof ((c.at (WB :: X)).parser.getD .new) (c.at (WB :: X)).reader = _ from parse_at_block he hw X]
      rfl
    · split at h <;> cases h
  all_goals cases h

theorem readRequest_lims {W : Type} {c c' : Conn Rd W} {x : ReadRequestResult} (h : c.readRequest prof = (x, c')) (hl : c.reader.lims = []) :
    c'.reader.lims = [] ∧ c'.reader.src.atoms.length ≤ c.reader.src.atoms.length ∧ c'.writer = c.writer := by
  have h1 := parse_lims (prof := prof) (p := c.parser.getD .new) hl
  have h2 := parse_le (prof := prof) (p := c.parser.getD .new) (r := c.reader)
  unfold Conn.readRequest at h
  split at h
  · next he => cases h; rw [he] at h1 h2; exact ⟨h1, h2, rfl⟩
  · next he =>
    rw [he] at h1 h2
    split at h
    · cases h; exact ⟨h1, h2, rfl⟩
    · split at h <;> (cases h; exact ⟨h1, h2, rfl⟩)
  all_goals (next he => cases h; rw [he] at h1 h2; exact ⟨h1, h2, rfl⟩)

/-! ## The number of rounds does not matter -/

theorem ar_takes {r r' : AR} {q : Request} (hl : r.lims = []) (h : RequestParser.parse prof .new r = (.done q, r')) :
    r'.atoms.length < r.atoms.length := by
  obtain ⟨x, hx⟩ := Rd.exists_ahead r.atoms
  have h1 := requestParse_abs prof .new x
  rw [hx.abs, show (⟨[], r.atoms⟩ : AR) = r by rw [← hl], h] at h1
  have h2 := request_takes (prof := prof) (r := x) (r' := (RequestParser.parse prof .new x).2) (q := q) hx.1 (by
    have := congrArg Prod.fst h1
    exact Prod.ext this.symm rfl)
  have h3 := congrArg (fun y => y.2.atoms) h1
  rw [hx.2] at h2
  change r'.atoms = _ at h3
  rw [h3]
  exact h2

theorem ar_lims {p : RequestParser} {r : AR} (hl : r.lims = []) : (RequestParser.parse prof p r).2.lims = [] := by
  obtain ⟨x, hx⟩ := Rd.exists_ahead r.atoms
  have h1 := requestParse_abs prof p x
  rw [hx.abs, show (⟨[], r.atoms⟩ : AR) = r by rw [← hl]] at h1
  rw [h1]
  exact parse_lims hx.1

/-- What follows a request. -/
def loopTail {R W : Type} [Reader R] [Write W] (prof : Profile) (rt : Router τ) (f : Nat) (q : Request) (c : Conn R W) :
    Option IoRes × W × τ → LoopEnd × Conn R W × τ
  | (some .ok, w, s) =>
    if shouldCloseAfterResponse q then (.drop, { c with writer := w }, s) else respondLoop prof rt f { c with writer := w } s
  | (some (.err _), w, s) => (.drop, { c with writer := w }, s)
  | (some .diverge, w, s) => (.diverge, { c with writer := w }, s)
  | (none, w, s) => (.panic, { c with writer := w }, s)

theorem respondLoop_ready {R W : Type} [Reader R] [Write W] {rt : Router τ} {f : Nat} {c c' : Conn R W} {q : Request} {s : τ}
    (h : c.readRequest prof = (.ready q, c')) :
    respondLoop prof rt (f + 1) c s = loopTail prof rt f q c' (writeResponseFromRouter rt c'.writer q s) := by
  rw [respondLoop, h]
  dsimp only
  generalize writeResponseFromRouter rt c'.writer q s = x
  unfold loopTail
  split <;> rfl

theorem loopTail_congr {R W : Type} [Reader R] [Write W] {rt : Router τ} {f f' : Nat} {q : Request} {c : Conn R W} (x : Option IoRes × W × τ)
    (h : ∀ (w : W) (s : τ), respondLoop prof rt f { c with writer := w } s = respondLoop prof rt f' { c with writer := w } s) :
    loopTail prof rt f q c x = loopTail prof rt f' q c x := by
  unfold loopTail
  split
  · rw [h]
  all_goals rfl

theorem loop_fuel {W : Type} [Write W] {rt : Router τ} {f f' : Nat} {c : Conn AR W} {s : τ} (hl : c.reader.lims = [])
    (hf : c.reader.atoms.length + (if c.parser.getD .new = .new then 0 else 1) < f)
    (hf' : c.reader.atoms.length + (if c.parser.getD .new = .new then 0 else 1) < f') :
    respondLoop prof rt f c s = respondLoop prof rt f' c s := by
  induction f generalizing c s f' with
  | zero => omega
  | succ f ih =>
    cases f' with
    | zero => omega
    | succ f' =>
      cases hr : c.readRequest prof with
      | mk x c' =>
      cases x with
      | ready q =>
        rw [respondLoop_ready hr, respondLoop_ready hr]
        apply loopTail_congr
        intro w s
        have hp : ∃ r, RequestParser.parse prof (c.parser.getD .new) c.reader = (.done q, r) ∧ c' = ⟨r, c.writer, none⟩ := by
          unfold Conn.readRequest at hr
          split at hr
          · next he => cases hr; exact ⟨_, he, rfl⟩
          · split at hr
            · cases hr
            · split at hr <;> cases hr
          all_goals cases hr
        obtain ⟨r, hp, rfl⟩ := hp
        have h1 := ar_lims (prof := prof) (p := c.parser.getD .new) hl
        have h2 := (requestParse_progress prof (c.parser.getD .new) c.reader).2
        rw [hp] at h1 h2
        have h3 : c.parser.getD .new = .new → r.atoms.length < c.reader.atoms.length := by
          intro hn
          rw [hn] at hp
          exact ar_takes hl hp
        refine ih (c := ⟨r, w, none⟩) h1 ?_ ?_
        · simp only [Option.getD_none, if_true, Nat.add_zero]
          split at hf
          · next hn => have := h3 hn; omega
          · dsimp only at h2; omega
        · simp only [Option.getD_none, if_true, Nat.add_zero]
          split at hf'
          · next hn => have := h3 hn; omega
          · dsimp only at h2; omega
      | notReady => rw [respondLoop, respondLoop, hr]
      | error e => rw [respondLoop, respondLoop, hr]
      | closed => rw [respondLoop, respondLoop, hr]
      | panic => rw [respondLoop, respondLoop, hr]
      | diverge => rw [respondLoop, respondLoop, hr]

/-! ## Bytes and pieces -/

theorem conn_at_nil_read {W : Type} (c : Conn Rd W) :
    (c.at []).readRequest prof = ((c.readRequest prof).1, (c.readRequest prof).2.at []) := by
  have h1 := requestParse_abs prof (c.parser.getD .new) c.reader
  unfold Conn.readRequest
  rw [show (c.at []).reader = c.reader.abs by simp [Conn.at, Rd.abs], show (c.at []).parser = c.parser from rfl, h1]
  unfold absOut
  generalize RequestParser.parse prof (c.parser.getD .new) c.reader = y
  obtain ⟨o, r⟩ := y
  cases o with
  | io p e =>
    dsimp only
    split
    · simp [Conn.at, Rd.abs]
    · split <;> simp [Conn.at, Rd.abs]
  | _ => simp [Conn.at, Rd.abs]

theorem respondLoop_at_nil {W : Type} [Write W] {rt : Router τ} (f : Nat) (c : Conn Rd W) (s : τ) :
    respondLoop prof rt f (c.at []) s =
      ((respondLoop prof rt f c s).1, (respondLoop prof rt f c s).2.1.at [], (respondLoop prof rt f c s).2.2) := by
  induction f generalizing c s with
  | zero => rfl
  | succ f ih =>
    have hr := conn_at_nil_read (prof := prof) c
    cases hx : c.readRequest prof with
    | mk x c' =>
    rw [hx] at hr
    cases x with
    | ready q =>
      rw [respondLoop_ready hr, respondLoop_ready hx]
      dsimp only
      rw [show (c'.at []).writer = c'.writer from rfl]
      generalize writeResponseFromRouter rt c'.writer q s = y
      unfold loopTail
      split
      · next w s =>
        split
        · rfl
        · exact ih { c' with writer := w } s
      all_goals rfl
    | error e =>
      rw [respondLoop, respondLoop, hr, hx]
      dsimp only
      rw [show (c'.at []).writer = c'.writer from rfl]
      generalize writeErrorResponse c'.writer = y
      obtain ⟨y, w⟩ := y
      cases y <;> rfl
    | _ => rw [respondLoop, respondLoop, hr, hx]

theorem handle_at_nil {W : Type} [Write W] {rt : Router τ} (x : Slot Rd W) (s : τ) :
    handle prof rt (x.at []) s = ((handle prof rt x s).1, (handle prof rt x s).2.1.at [], (handle prof rt x s).2.2) := by
  cases x with
  | gone c => rfl
  | poisoned c => rfl
  | live c =>
    simp only [Slot.at, handle, show (c.at []).writer = c.writer from rfl]
    generalize Write.flush c.writer = y
    obtain ⟨y, w⟩ := y
    cases y with
    | error e => rfl
    | ok u =>
      dsimp only
      have h1 := respondLoop_at_nil (prof := prof) (rt := rt) (Reader.fuel c.reader) ({ c with writer := w }) s
      have h2 : respondToRequests prof rt ({ c.at [] with writer := w }) s = respondLoop prof rt (Reader.fuel c.reader) (Conn.at { c with writer := w } []) s := by
        unfold respondToRequests
        congr 1
        simp [Conn.at, Reader.fuel]
      rw [h2, h1]
      unfold respondToRequests
      dsimp only
      generalize respondLoop prof rt (Reader.fuel c.reader) ({ c with writer := w }) s = z
      obtain ⟨e, c', s'⟩ := z
      cases e <;> rfl

theorem wake_at (evs : List WEv) (x : Slot Rd Nbw) (X : List Atom) : (x.wake evs).at X = (x.at X).wake evs := by cases x <;> rfl

theorem handleAll_at_nil {rt : Router τ} (es : List (List WEv)) (x : Slot Rd Nbw) (s : τ) :
    handleAll prof rt es (x.at []) s = ((handleAll prof rt es x s).1.at [], (handleAll prof rt es x s).2) := by
  induction es generalizing x s with
  | nil => rfl
  | cons e es ih =>
    simp only [handleAll]
    rw [← wake_at, handle_at_nil]
    exact ih _ _

theorem same_of_at {W : Type} {x y : Slot Rd W} (h : x.at [] = y.at []) : x.Same y := by
  cases x <;> cases y <;> simp only [Slot.at, Slot.live.injEq, Slot.gone.injEq, Slot.poisoned.injEq, reduceCtorEq] at h
  all_goals
    simp only [Conn.at, Conn.mk.injEq, AR.mk.injEq, List.append_nil] at h
    constructor
    exact ⟨h.2.1, h.2.2, h.1.1, h.1.2⟩

/-! ## The handlers of one connection -/

theorem handleAll_snoc {R : Type} [Reader R] {rt : Router τ} (es : List (List WEv)) (e : List WEv) (x : Slot R Nbw) (s : τ) :
    handleAll prof rt (es ++ [e]) x s =
      (handle prof rt ((handleAll prof rt es x s).1.wake e) (handleAll prof rt es x s).2).2 := by
  induction es generalizing x s with
  | nil => rfl
  | cons e' es ih => simp only [List.cons_append, handleAll]; exact ih _ _

theorem during_result (rt : Router σ) (as : List (Request × σ)) : rt.during.Follows rt as := by
  intro q s ss _
  unfold Router.during
  unfold Router.result
  simp only [Router.resultInternal, show startsWith q.uri [] = true by cases q.uri <;> rfl, if_true]
  cases (Router.resultInternal q.uri q rt s).1 with
  | none => rfl
  | some a => cases a <;> rfl

theorem wrfr {W : Type} [Write W] (rt : Router τ) (w : W) (q : Request) (s : τ) : writeResponseFromRouter rt w q s =
    match rt.result q s with
    | (none, s) => (none, w, s)
    | (some a, s) => (some (writeAnswer w a).1, (writeAnswer w a).2, s) := by
  unfold writeResponseFromRouter
  generalize rt.result q s = y
  obtain ⟨a, s⟩ := y
  cases a with
  | none => rfl
  | some a => cases a <;> rfl

/-- What a handler that is at `p` does from there on. -/
def Net.rest (prof : Profile) (rt : Router τ) : Option Phase → Slot AR Nbw → τ → Slot AR Nbw × τ
  | some .flushing, .live c, s => (handle prof rt (.live c) s).2
  | some .reading, .live c, s => (finish (respondToRequests prof rt c s)).2
  | some (.asked q), .live c, s =>
    (finish (loopTail prof rt (Reader.fuel c.reader) q c (writeResponseFromRouter rt c.writer q s))).2
  | some (.reply q a), .live c, s =>
    (finish (loopTail prof rt (Reader.fuel c.reader) q c (some (writeAnswer c.writer a).1, (writeAnswer c.writer a).2, s))).2
  | _, slot, s => (slot, s)

/-- Where the handler that holds the mutex of a connection is. -/
def Net.at_ (s : Net σ) (c : NConn σ) : Option Phase := c.lock.map s.phase

/-- What the handlers did so far, and the one that is running will do, is what they would do one after the other. -/
structure NConn.Serial (prof : Profile) (rt : Router σ) (c : NConn σ) (p : Option Phase) : Prop where
  lims : ∀ conn, c.slot = .live conn → conn.reader.lims = []
  empty : c.first.reader.src.atoms = []
  run : ∃ evs : List Ev, evs.filter (· ≠ .err .wouldBlock) = c.arrived ∧ ∀ D, Router.Follows D rt c.seen → ∀ X fut,
    handleAll prof D c.wakes (.live (c.first.at (evs.flatMap Ev.atoms ++ X))) (c.seen ++ fut) = Net.rest prof D p (c.slot.at X) fut

variable {rt : Router σ}

theorem NConn.Serial.enter {c : NConn σ} (h : c.Serial prof rt none) (evs : List WEv) (p : Phase)
    (hp : (∃ conn, c.slot = .live conn) ∧ p = .flushing ∨ (∃ conn, c.slot = .gone conn) ∧ p = .leaving) (l : Option Nat) :
    ({ c with slot := c.slot.wake evs, lock := l, wakes := c.wakes ++ [evs] } : NConn σ).Serial prof rt (some p) := by
  obtain ⟨h1, h0, es, h2, h3⟩ := h
  refine ⟨?_, h0, es, h2, ?_⟩
  · intro conn hc
    cases hs : c.slot with
    | live d =>
      simp only [hs, Slot.wake, Slot.live.injEq] at hc
      rw [← hc]
      exact h1 d hs
    | gone d => simp [hs, Slot.wake] at hc
    | poisoned d => simp [hs, Slot.wake] at hc
  · intro D hD X fut
    dsimp only
    rw [handleAll_snoc, h3 D hD X fut, wake_at]
    rcases hp with ⟨⟨conn, hs⟩, rfl⟩ | ⟨⟨conn, hs⟩, rfl⟩
    · rw [hs]; rfl
    · rw [hs]; rfl

theorem NConn.Serial.poisoned {c : NConn σ} (h : c.Serial prof rt none) (evs : List WEv) {conn : Conn Rd Nbw} (hp : c.slot = .poisoned conn) :
    ({ c with wakes := c.wakes ++ [evs] } : NConn σ).Serial prof rt none := by
  obtain ⟨h1, h0, es, h2, h3⟩ := h
  refine ⟨h1, h0, es, h2, ?_⟩
  intro D hD X fut
  dsimp only
  rw [handleAll_snoc, h3 D hD X fut, hp]
  rfl

theorem receive_at (ev : Ev) {conn : Conn Rd Nbw} (X : List Atom) :
    (Net.receive ev (.live conn)).at X = .live (conn.at (ev.atoms ++ X)) := by
  simp [Net.receive, Slot.at, Conn.at, Src.atoms]

theorem NConn.Serial.arrive {c : NConn σ} {p : Option Phase} (h : c.Serial prof rt p) {ev : Ev} (he : ev ≠ .err .wouldBlock) {conn : Conn Rd Nbw}
    (hs : c.slot = .live conn) : ({ c with slot := Net.receive ev c.slot, edge := true, arrived := c.arrived ++ [ev] } : NConn σ).Serial prof rt p := by
  obtain ⟨h1, h0, es, h2, h3⟩ := h
  refine ⟨?_, h0, es ++ [ev], ?_, ?_⟩
  · intro d hd
    simp only [hs, Net.receive, Slot.live.injEq] at hd
    rw [← hd]
    exact h1 conn hs
  · rw [List.filter_append, h2]; simp [he]
  · intro D hD X fut
    have := h3 D hD (ev.atoms ++ X) fut
    dsimp only
    rw [hs, receive_at]
    rw [hs] at this
    simp only [List.flatMap_append, List.flatMap_singleton, List.append_assoc]
    exact this

theorem finish_keep {R W : Type} {c : Conn R W} {s : τ} : (finish (.keep, c, s)).2 = (.live c, s) := rfl
theorem finish_drop {R W : Type} {c : Conn R W} {s : τ} : (finish (.drop, c, s)).2 = (.gone c, s) := rfl

theorem respond_fuel {W : Type} [Write W] {rt : Router τ} (c : Conn AR W) (s : τ) :
    ∃ f, respondToRequests prof rt c s = respondLoop prof rt (f + 1) c s ∧ f = 3 * c.reader.atoms.length + 7 := by
  exact ⟨3 * c.reader.atoms.length + 7, rfl, rfl⟩

theorem handle_flushed {R : Type} [Reader R] {rt : Router τ} {c : Conn R Nbw} {w : Nbw} {s : τ} (h : Write.flush c.writer = (.ok (), w)) :
    handle prof rt (.live c) s = finish (respondToRequests prof rt { c with writer := w } s) := by
  simp only [handle, h]
  generalize respondToRequests prof rt { c with writer := w } s = y
  obtain ⟨e, c', s'⟩ := y
  cases e <;> rfl

theorem NConn.Serial.move {c : NConn σ} {p p' : Phase} {x : Slot Rd Nbw} {d : Nat} (hm : Move prof p c.slot c.arrived.length c.drained p' x d)
    (hok : c.Ok) (h : c.Serial prof rt (some p)) : ({ c with slot := x, drained := d } : NConn σ).Serial prof rt (some p') := by
  obtain ⟨h1, h0, es, h2, h3⟩ := h
  have hw := hok.noWait
  generalize hs : c.slot = y at hm h1 h3 hw
  generalize c.arrived.length = a at hm
  generalize c.drained = e at hm
  cases hm with
  | @flushErr conn wr _ _ _ hf =>
    refine ⟨by simp, h0, es, h2, fun D hD X fut => ?_⟩
    rw [h3 D hD X fut]
    simp only [Net.rest, Slot.at, handle]
    rw [show (conn.at X).writer = conn.writer from rfl, hf]
    rfl
  | @flushOk conn wr _ _ hf =>
    refine ⟨?_, h0, es, h2, fun D hD X fut => ?_⟩
    · rintro _ ⟨⟩; exact h1 conn rfl
    · rw [h3 D hD X fut]
      simp only [Net.rest, Slot.at]
      rw [handle_flushed (c := conn.at X) hf]
      rfl
  | @ready conn conn' q _ _ hr =>
    have h4 := readRequest_lims hr (h1 conn rfl)
    refine ⟨?_, h0, es, h2, fun D hD X fut => ?_⟩
    · rintro _ ⟨⟩; exact h4.1
    · rw [h3 D hD X fut]
      simp only [Net.rest, Slot.at]
      obtain ⟨f, h5, h6⟩ := respond_fuel (prof := prof) (rt := D) (conn.at X) fut
      rw [h5, respondLoop_ready (readRequest_at hr (by simp) X)]
      congr 2
      apply loopTail_congr
      intro w s
      have hp : conn'.parser = none := by
        unfold Conn.readRequest at hr
        split at hr
        · cases hr; rfl
        · split at hr
          · cases hr
          · split at hr <;> cases hr
        all_goals cases hr
      refine loop_fuel (c := { conn'.at X with writer := w }) h4.1 ?_ ?_
      · simp only [Conn.at, hp, Option.getD_none, if_true, h6, List.length_append]
        omega
      · simp only [Conn.at, hp, Option.getD_none, if_true, Reader.fuel, List.length_append]
        omega
  | @notReady conn conn' _ _ hr =>
    have h4 := readRequest_lims hr (h1 conn rfl)
    refine ⟨?_, h0, es ++ [.err .wouldBlock], ?_, fun D hD X fut => ?_⟩
    · rintro _ ⟨⟩; exact h4.1
    · rw [List.filter_append, h2]; simp
    · have h5 := h3 D hD (WB :: X) fut
      simp only [List.flatMap_append, List.flatMap_singleton, List.append_assoc, Ev.atoms]
      rw [show ([Atom.err .wouldBlock] ++ X) = WB :: X from rfl, h5]
      simp only [Net.rest, Slot.at]
      obtain ⟨f, h6, -⟩ := respond_fuel (prof := prof) (rt := D) (conn.at (WB :: X)) fut
      rw [h6, respondLoop, readRequest_at_block hr (hw conn rfl) X]
      rfl
  | @closed conn conn' _ _ hr =>
    refine ⟨by simp, h0, es, h2, fun D hD X fut => ?_⟩
    rw [h3 D hD X fut]
    simp only [Net.rest, Slot.at]
    obtain ⟨f, h6, -⟩ := respond_fuel (prof := prof) (rt := D) (conn.at X) fut
    rw [h6, respondLoop, readRequest_at hr (by simp) X]
    rfl
  | @refused conn conn' e y wr _ _ hr hx hne =>
    refine ⟨by simp, h0, es, h2, fun D hD X fut => ?_⟩
    rw [h3 D hD X fut]
    simp only [Net.rest, Slot.at]
    obtain ⟨f, h6, -⟩ := respond_fuel (prof := prof) (rt := D) (conn.at X) fut
    rw [h6, respondLoop, readRequest_at hr (by simp) X]
    dsimp only
    rw [show (conn'.at X).writer = conn'.writer from rfl, hx]
    cases y with
    | diverge => exact absurd rfl hne
    | _ => rfl
  | @wrote conn q r wr _ _ hx hc =>
    refine ⟨?_, h0, es, h2, fun D hD X fut => ?_⟩
    · rintro _ ⟨⟩; exact h1 conn rfl
    · rw [h3 D hD X fut]
      simp only [Net.rest, Slot.at]
      rw [show (conn.at X).writer = conn.writer from rfl, hx]
      simp only [loopTail, hc]
      rfl
  | @asked conn q r wr _ _ hx hc =>
    refine ⟨by simp, h0, es, h2, fun D hD X fut => ?_⟩
    rw [h3 D hD X fut]
    simp only [Net.rest, Slot.at]
    rw [show (conn.at X).writer = conn.writer from rfl, hx]
    simp only [loopTail, hc]
    rfl
  | @failed conn q r e wr _ _ hx =>
    refine ⟨by simp, h0, es, h2, fun D hD X fut => ?_⟩
    rw [h3 D hD X fut]
    simp only [Net.rest, Slot.at]
    rw [show (conn.at X).writer = conn.writer from rfl, hx]
    rfl

theorem NConn.Serial.ask {c : NConn σ} {q : Request} {s : σ} {a : ListenerResult} (h : c.Serial prof rt (some (.asked q))) {conn : Conn Rd Nbw}
    (hs : c.slot = .live conn) (ha : (rt.result q s).1 = some a) :
    ({ c with seen := c.seen ++ [(q, s)] } : NConn σ).Serial prof rt (some (.reply q a)) := by
  obtain ⟨h1, h0, es, h2, h3⟩ := h
  refine ⟨h1, h0, es, h2, fun D hD X fut => ?_⟩
  have := h3 D (fun q s ss h => hD q s ss (List.mem_append_left _ h)) X ((q, s) :: fut)
  dsimp only
  rw [List.append_assoc]
  simp only [List.singleton_append]
  rw [this, hs]
  simp only [Net.rest, Slot.at]
  rw [wrfr, hD q s fut (by simp), ha]

theorem NConn.Serial.crashAsk {c : NConn σ} {q : Request} {s : σ} (h : c.Serial prof rt (some (.asked q))) {conn : Conn Rd Nbw}
    (hs : c.slot = .live conn) (ha : (rt.result q s).1 = none) :
    ({ c with seen := c.seen ++ [(q, s)], slot := .poisoned conn, lock := none } : NConn σ).Serial prof rt none := by
  obtain ⟨h1, h0, es, h2, h3⟩ := h
  refine ⟨by simp, h0, es, h2, fun D hD X fut => ?_⟩
  have := h3 D (fun q s ss h => hD q s ss (List.mem_append_left _ h)) X ((q, s) :: fut)
  dsimp only
  rw [List.append_assoc]
  simp only [List.singleton_append]
  rw [this, hs]
  simp only [Net.rest, Slot.at]
  rw [wrfr, hD q s fut (by simp), ha]
  rfl

theorem NConn.Serial.crash {c : NConn σ} (h : c.Serial prof rt (some .reading)) {conn conn' : Conn Rd Nbw}
    (hs : c.slot = .live conn) (hr : conn.readRequest prof = (.panic, conn')) :
    ({ c with slot := .poisoned conn', lock := none } : NConn σ).Serial prof rt none := by
  obtain ⟨h1, h0, es, h2, h3⟩ := h
  refine ⟨by simp, h0, es, h2, fun D hD X fut => ?_⟩
  dsimp only
  rw [h3 D hD X fut, hs]
  simp only [Net.rest, Slot.at]
  obtain ⟨f, h6, -⟩ := respond_fuel (prof := prof) (rt := D) (conn.at X) fut
  rw [h6, respondLoop, readRequest_at hr (by simp) X]
  rfl

theorem NConn.Serial.leave {c : NConn σ} (h : c.Serial prof rt (some .leaving)) : ({ c with lock := none } : NConn σ).Serial prof rt none := by
  obtain ⟨h1, h0, es, h2, h3⟩ := h
  refine ⟨h1, h0, es, h2, fun D hD X fut => ?_⟩
  dsimp only
  rw [h3 D hD X fut]
  cases c.slot <;> rfl

/-- A part of the connection that does not matter here changes. -/
theorem NConn.Serial.congr {c c' : NConn σ} {p : Option Phase} (h : c.Serial prof rt p) (e1 : c'.slot = c.slot) (e2 : c'.first = c.first)
    (e3 : c'.arrived = c.arrived) (e4 : c'.wakes = c.wakes) (e5 : c'.seen = c.seen) : c'.Serial prof rt p := by
  obtain ⟨h1, h0, es, h2, h3⟩ := h
  exact ⟨by rw [e1]; exact h1, by rw [e2]; exact h0, es, by rw [e3]; exact h2, by rw [e1, e2, e4, e5]; exact h3⟩

theorem fresh_serial (offer : Nat → Nat) (grow : Nat → Nat → Nat) (growOk : ∀ c n, c ≤ grow c n) (flushes : List (Option IoError)) :
    (Net.fresh offer grow growOk flushes : NConn σ).Serial prof rt none := by
  refine ⟨?_, rfl, [], rfl, fun D hD X fut => ?_⟩
  · rintro conn ⟨⟩; rfl
  · rfl

/-- What always holds of what was done. -/
structure Net.SerialAll (prof : Profile) (rt : Router σ) (s : Net σ) : Prop where
  conn : ∀ (k : Nat) (c : NConn σ), s.conns[k]? = some c → c.Serial prof rt (s.at_ c)
  seen : ∀ (k : Nat) (c : NConn σ), s.conns[k]? = some c → c.seen = asksOn k s.asks
  known : ∀ a ∈ s.asks, a.1 < s.conns.length

theorem serial_set {s s' : Net σ} {k : Nat} {c c' : NConn σ} (h : s.SerialAll prof rt) (hc : s.conns[k]? = some c)
    (e4 : s'.conns = (s.setConn k c').conns) (hs : c'.Serial prof rt (s'.at_ c'))
    (hp : ∀ (k' : Nat) (d : NConn σ), k' ≠ k → s.conns[k']? = some d → s'.at_ d = s.at_ d)
    (ha : s'.asks = s.asks ∧ c'.seen = c.seen ∨ ∃ q st, s'.asks = s.asks ++ [(k, q, st)] ∧ c'.seen = c.seen ++ [(q, st)]) : s'.SerialAll prof rt where
  conn k' d hd := by
    rw [e4] at hd
    rcases setConn_get hc hd with ⟨rfl, rfl⟩ | ⟨hne, hd⟩
    · exact hs
    · rw [hp k' d hne hd]; exact h.conn k' d hd
  seen k' d hd := by
    rw [e4] at hd
    rcases setConn_get hc hd with ⟨rfl, rfl⟩ | ⟨hne, hd⟩
    · rcases ha with ⟨h1, h2⟩ | ⟨q, st, h1, h2⟩
      · rw [h1, h2]; exact h.seen k' c hc
      · rw [h1, h2, h.seen k' c hc]; simp [asksOn]
    · rcases ha with ⟨h1, h2⟩ | ⟨q, st, h1, h2⟩
      · rw [h1]; exact h.seen k' d hd
      · rw [h1, h.seen k' d hd]; simp [asksOn, Ne.symm hne]
  known a hm := by
    have hlen : s'.conns.length = s.conns.length := by rw [e4]; simp [Net.setConn]
    rw [hlen]
    rcases ha with ⟨h1, h2⟩ | ⟨q, st, h1, h2⟩
    · rw [h1] at hm; exact h.known a hm
    · rw [h1] at hm
      rcases List.mem_append.1 hm with hm | hm
      · exact h.known a hm
      · rw [List.mem_singleton] at hm
        subst hm
        exact (List.getElem?_eq_some_iff.1 hc).1

/-- Only the worker that has the mutex of a connection is at it. -/
theorem at_other {n : Nat} {s : Net σ} (hb : s.Base n) {w k k' : Nat} {d : NConn σ} (hk : s.handled w = some k) (hne : k' ≠ k)
    (hd : s.conns[k']? = some d) (p : Phase) : d.lock.map (s.setPhase w p).phase = d.lock.map s.phase := by
  cases hl : d.lock with
  | none => rfl
  | some w' =>
    have hu := (hb.lock k' w' d hd).1 hl
    have hww : w' ≠ w := by
      rintro rfl
      have := hu.1
      rw [hk] at this
      cases this
      exact hne rfl
    simp [Net.setPhase, hww]

theorem serial_step {n : Nat} {s s' : Net σ} (hb : s.Base n) (ht : s.Told) (h : s.SerialAll prof rt) (hs : NStep prof rt s s') : s'.SerialAll prof rt := by
  cases hs with
  | @accept offer grow growOk flushes =>
    have key : ∀ (k : Nat) c, (s.conns ++ [Net.fresh offer grow growOk flushes])[k]? = some c →
        s.conns[k]? = some c ∨ k = s.conns.length ∧ c = Net.fresh offer grow growOk flushes := by
      intro k c hc
      by_cases hk : k < s.conns.length
      · rw [List.getElem?_append_left hk] at hc
        exact .inl hc
      · rw [List.getElem?_append_right (by omega)] at hc
        have hz : k - s.conns.length = 0 := by
          have := (List.getElem?_eq_some_iff.1 hc).1
          simp at this
          omega
        rw [hz] at hc
        cases hc
        exact .inr ⟨by omega, rfl⟩
    refine ⟨?_, ?_, ?_⟩
    · intro k c hc
      rcases key k c hc with h1 | ⟨rfl, rfl⟩
      · exact h.conn k c h1
      · exact fresh_serial _ _ _ _
    · intro k c hc
      rcases key k c hc with h1 | ⟨rfl, rfl⟩
      · exact h.seen k c h1
      · show [] = _
        symm
        simp only [asksOn, List.map_eq_nil_iff, List.filter_eq_nil_iff]
        intro a ha
        have := h.known a ha
        simp; omega
    · intro a ha
      have := h.known a ha
      simp; omega
  | @arrive k ev c conn hc hsl he =>
    exact serial_set h hc rfl ((h.conn k c hc).arrive he hsl) (fun _ _ _ _ => rfl) (.inl ⟨rfl, rfl⟩)
  | @notify k c hc => exact serial_set h hc rfl ((h.conn k c hc).congr rfl rfl rfl rfl rfl) (fun _ _ _ _ => rfl) (.inl ⟨rfl, rfl⟩)
  | @poll ks hbt =>
    have key : ∀ (k : Nat) d, (s.conns.mapIdx fun k c => if k ∈ ks then { c with edge := false } else c)[k]? = some d →
        ∃ c, s.conns[k]? = some c ∧ d = if k ∈ ks then { c with edge := false } else c := by
      intro k d hd
      simp only [List.getElem?_mapIdx, Option.map_eq_some_iff] at hd
      obtain ⟨c, h1, rfl⟩ := hd
      exact ⟨c, h1, rfl⟩
    refine ⟨?_, ?_, ?_⟩
    · intro k d hd
      obtain ⟨c, hc, rfl⟩ := key k d hd
      split
      · exact (h.conn k c hc).congr rfl rfl rfl rfl rfl
      · exact h.conn k c hc
    · intro k d hd
      obtain ⟨c, hc, rfl⟩ := key k d hd
      have := h.seen k c hc
      split <;> exact this
    · intro a ha
      have := h.known a ha
      simpa using this
  | skip => exact ⟨h.conn, h.seen, h.known⟩
  | @remove k b c hc hbt =>
    exact serial_set h hc rfl ((h.conn k c hc).congr rfl rfl rfl rfl rfl) (fun _ _ _ _ => rfl) (.inl ⟨rfl, rfl⟩)
  | execute => exact ⟨h.conn, h.seen, h.known⟩
  | fail => exact ⟨h.conn, h.seen, h.known⟩
  | @work w pool hn hp =>
    refine ⟨?_, h.seen, h.known⟩
    intro k c hc
    have h1 := h.conn k c hc
    have h2 : Net.at_ { s.setPhase w .enter with pool } c = s.at_ c := by
      unfold Net.at_
      cases hl : c.lock with
      | none => rfl
      | some w' =>
        have hu := (hb.lock k w' c hc).1 hl
        obtain ⟨j, a, h3, -⟩ := handled_iff.1 hu.1
        have hww : w' ≠ w := by
          rintro rfl
          exact hn j h3
        simp [Net.setPhase, hww]
    rw [h2]; exact h1
  | @enterPoisoned w k c conn evs pool hk hc hp hl hsl hpool =>
    have h1 := h.conn k c hc
    unfold Net.at_ at h1
    rw [hl] at h1
    refine serial_set h hc rfl ?_ (fun _ _ _ _ => rfl) (.inl ⟨rfl, rfl⟩)
    have h2 := h1.poisoned evs hsl
    unfold Net.at_
    dsimp only
    rw [hl]
    exact h2.congr rfl rfl rfl rfl rfl
  | @enterGone w k c conn evs hk hc hp hl hsl =>
    have h1 := h.conn k c hc
    unfold Net.at_ at h1
    rw [hl] at h1
    refine serial_set h hc rfl ?_ (fun k' d hne hd => at_other hb hk hne hd _) (.inl ⟨rfl, rfl⟩)
    have h2 := h1.enter evs .leaving (.inr ⟨⟨conn, hsl⟩, rfl⟩) (some w)
    simp only [Net.at_, Net.setPhase, Option.map_some, if_true]
    refine h2.congr ?_ rfl rfl rfl rfl
    dsimp only
    rw [hsl]; rfl
  | @enter w k c conn evs hk hc hp hl hsl =>
    have h1 := h.conn k c hc
    unfold Net.at_ at h1
    rw [hl] at h1
    refine serial_set h hc rfl ?_ (fun k' d hne hd => at_other hb hk hne hd _) (.inl ⟨rfl, rfl⟩)
    have h2 := h1.enter evs .flushing (.inl ⟨⟨conn, hsl⟩, rfl⟩) (some w)
    simp only [Net.at_, Net.setPhase, Option.map_some, if_true]
    exact h2
  | @go w k c s' hk hc hl ha =>
    have h1 := h.conn k c hc
    unfold Net.at_ at h1
    rw [hl] at h1
    cases ha with
    | @move p slot d hm =>
      refine serial_set h hc rfl ?_ (fun k' d hne hd => at_other hb hk hne hd _) (.inl ⟨rfl, rfl⟩)
      have h2 := NConn.Serial.move hm (ht.conn k c hc) h1
      simp only [Net.at_, Net.setPhase, hl, Option.map_some, if_true]
      exact h2.congr rfl rfl rfl rfl rfl
    | ask hph hsl hr =>
      refine serial_set h hc rfl ?_ (fun k' d hne hd => at_other hb hk hne hd _) (.inr ⟨_, _, rfl, rfl⟩)
      simp only [Option.map_some, hph] at h1
      simp only [Net.at_, Net.setPhase, hl, Option.map_some, if_true]
      exact (h1.ask hsl hr).congr rfl rfl rfl rfl rfl
    | crash hph hsl hr hp =>
      refine serial_set h hc rfl ?_ (fun _ _ _ _ => rfl) (.inl ⟨rfl, rfl⟩)
      simp only [Option.map_some, hph] at h1
      exact h1.crash hsl hr
    | crashAsk hph hsl hr hp =>
      refine serial_set h hc rfl ?_ (fun _ _ _ _ => rfl) (.inr ⟨_, _, rfl, rfl⟩)
      simp only [Option.map_some, hph] at h1
      exact h1.crashAsk hsl hr
    | leave hph hp =>
      refine serial_set h hc rfl ?_ (fun k' d hne hd => at_other hb hk hne hd _) (.inl ⟨rfl, rfl⟩)
      simp only [Option.map_some, hph] at h1
      exact h1.leave

end Verif
