import Verif.Props.Net
import Verif.Proofs.NetRun
import Verif.Props.Stream

/-! Every handler returns, unless what it reads never ends. -/

namespace Verif

variable {σ : Type} {prof : Profile} {rt : Router σ}

/-- While a handler is not about to leave, it has an open connection. -/
def Net.Inside (s : Net σ) : Prop :=
  ∀ (k w : Nat) (c : NConn σ), s.conns[k]? = some c → c.lock = some w → s.phase w ≠ .leaving → Net.isLive c.slot = true

theorem Move.inside {p p' : Phase} {x x' : Slot Rd Nbw} {a d d' : Nat} (h : Move prof p x a d p' x' d') : p' ≠ .leaving → Net.isLive x' = true := by
  cases h <;> simp [Net.isLive]

theorem handled_lock {n : Nat} {s : Net σ} (hb : s.Base n) {k k' w : Nat} {c : NConn σ} (hk : s.handled w = some k) (hc : s.conns[k']? = some c)
    (hl : c.lock = some w) : k' = k := by
  have := ((hb.lock k' w c hc).1 hl).1
  rw [hk] at this
  exact (Option.some.inj this).symm

theorem inside_step {n : Nat} {s s' : Net σ} (hb : s.Base n) (h : s.Inside) (hs : NStep prof rt s s') : s'.Inside := by
  have hb' := base_step hb hs
  have set : ∀ {k : Nat} {c c' : NConn σ}, s.conns[k]? = some c → s'.conns = (s.setConn k c').conns → c'.lock = c.lock → c'.slot = c.slot →
      s'.phase = s.phase → s'.Inside := by
    intro k c c' hc he h1 h2 h3 k' w d hd hl hp
    rw [he] at hd
    rw [h3] at hp
    rcases setConn_get hc hd with ⟨rfl, rfl⟩ | ⟨-, hd⟩
    · rw [h2]; rw [h1] at hl; exact h _ w c hc hl hp
    · exact h _ w d hd hl hp
  have pha : ∀ {k w : Nat} {c c' : NConn σ} {p : Phase}, s.conns[k]? = some c → s.handled w = some k → s'.conns = (s.setConn k c').conns →
      s'.phase = (s.setPhase w p).phase → (c'.lock = none ∨ c'.lock = some w ∧ (p ≠ .leaving → Net.isLive c'.slot = true)) → s'.Inside := by
    intro k w c c' p hc hk he h3 h1 k' w' d hd hl hp
    rw [he] at hd
    rw [h3] at hp
    rcases setConn_get hc hd with ⟨rfl, rfl⟩ | ⟨hne, hd⟩
    · rcases h1 with h1 | ⟨h1, h2⟩
      · rw [h1] at hl; cases hl
      · rw [h1] at hl
        cases hl
        exact h2 (by simpa [Net.setPhase] using hp)
    · have hww : w' ≠ w := by
        rintro rfl
        exact hne (handled_lock hb hk hd hl)
      exact h _ w' d hd hl (by simpa [Net.setPhase, hww] using hp)
  cases hs with
  | accept =>
    intro k w c hk hl hp
    dsimp only at hk
    rw [List.getElem?_append] at hk
    split at hk
    · exact h k w c hk hl hp
    · cases hd : k - s.conns.length with
      | zero => rw [hd] at hk; cases hk; rfl
      | succ m => rw [hd] at hk; cases hk
  | @arrive k ev c cn hc hl =>
    intro k' w d hd hl' hp
    rcases setConn_get hc hd with ⟨rfl, rfl⟩ | ⟨-, hd⟩
    · rw [hl]; rfl
    · exact h _ w d hd hl' hp
  | notify hc => exact set hc rfl rfl rfl rfl
  | @poll ks =>
    intro k w c hk hl hp
    dsimp only at hk
    rw [List.getElem?_mapIdx, Option.map_eq_some_iff] at hk
    obtain ⟨d, hd, rfl⟩ := hk
    have := h k w d hd
    split at hl <;> simp_all
  | skip => exact h
  | remove hc => exact set hc rfl rfl rfl rfl
  | execute => exact h
  | fail => exact h
  | @work w pool hw hp =>
    intro k w' c hk hl hph
    by_cases hww : w' = w
    · subst hww
      exact absurd (by simp [Net.setPhase]) ((hb'.lock k w' c hk).1 hl).2
    · exact h k w' c hk hl (by simpa [Net.setPhase, hww] using hph)
  | enterPoisoned hk hc hph hl hs hp => exact set hc rfl rfl rfl rfl
  | enterGone hk hc hph hl hs => exact pha hc hk rfl rfl (.inr ⟨rfl, by simp⟩)
  | enter hk hc hph hl hs => exact pha hc hk rfl rfl (.inr ⟨rfl, by intro _; rw [hs]; rfl⟩)
  | @go w k c s' hk hc hl ha =>
    have same : s.phase = (s.setPhase w (s.phase w)).phase := by funext w'; simp only [Net.setPhase]; split <;> simp_all
    cases ha with
    | move hm => exact pha hc hk rfl rfl (.inr ⟨hl, hm.inside⟩)
    | ask hph hs => exact pha hc hk rfl rfl (.inr ⟨hl, by intro _; rw [hs]; rfl⟩)
    | crash hph hs hr hp => exact pha hc hk rfl same (.inl rfl)
    | crashAsk hph hs hr hp => exact pha hc hk rfl same (.inl rfl)
    | leave hph hp => exact pha hc hk rfl rfl (.inl rfl)

theorem Net.Run.inside {n : Nat} {s₀ : σ} (r : Net.Run prof rt n s₀) (t : Nat) : (r.at_ t).Inside := by
  induction t with
  | zero =>
    have h := r.start
    unfold Net.new at h
    simp only [Option.map_eq_some_iff] at h
    obtain ⟨p, h1, h2⟩ := h
    rw [← h2]
    intro k w c hk
    simp at hk
  | succ t ih =>
    rcases r.nstep t with h | h
    · rw [h]; exact ih
    · exact inside_step (r.inv t).base ih h

/-! ## A handler can always go on -/

theorem andThen_ne_diverge {W : Type} {x : IoRes × W} {k : W → IoRes × W} (hx : x.1 ≠ .diverge) (hk : ∀ w, (k w).1 ≠ .diverge) :
    (Write.andThen x k).1 ≠ .diverge := by
  obtain ⟨y, w⟩ := x
  cases y with
  | ok => exact hk w
  | _ => exact hx

theorem res_ne_diverge {W τ : Type} (x : Except IoError τ × W) : (Write.res x).1 ≠ .diverge := by
  obtain ⟨y, w⟩ := x
  cases y <;> simp [Write.res]

theorem fmt_ne_diverge (w : Nbw) (bs : List Bytes) : (Write.fmt w bs).1 ≠ .diverge := by
  induction bs generalizing w with
  | nil => simp [Write.fmt]
  | cons b bs ih =>
    have := writeAll_ends w b
    rw [Write.fmt]
    split
    · exact ih _
    · next h => 
      rintro h'
      exact this h'

theorem headerLines_ne_diverge (w : Nbw) (hs : List (Header × Bytes)) : (Write.headerLines w hs).1 ≠ .diverge := by
  induction hs generalizing w with
  | nil => simp [Write.headerLines]
  | cons h hs ih =>
    obtain ⟨k, v⟩ := h
    exact andThen_ne_diverge (fmt_ne_diverge _ _) ih

theorem writeResponse_ne_diverge (w : Nbw) (r : Response) : (writeResponse w r).1 ≠ .diverge :=
  andThen_ne_diverge (fmt_ne_diverge _ _) fun _ => andThen_ne_diverge (headerLines_ne_diverge _ _) fun _ =>
    andThen_ne_diverge (res_ne_diverge _) fun _ => andThen_ne_diverge (res_ne_diverge _) fun _ => res_ne_diverge _

theorem writeAnswer_ne_diverge (w : Nbw) (a : ListenerResult) : (writeAnswer w a).1 ≠ .diverge := by
  cases a with
  | sendResponse r => exact writeResponse_ne_diverge w r
  | sendResponseArc r => exact writeResponse_ne_diverge w r
  | next => exact andThen_ne_diverge (writeAll_ends _ _) fun _ => res_ne_diverge _

theorem writeError_ne_diverge (w : Nbw) : (writeErrorResponse w).1 ≠ .diverge :=
  andThen_ne_diverge (writeAll_ends _ _) fun _ => res_ne_diverge _

theorem readRequest_ends (c : Conn Rd Nbw) : (c.readRequest prof).1 ≠ .diverge := by
  have h := (C17_request_parse_returns prof (c.parser.getD .new) c.reader).1
  unfold Conn.readRequest
  cases hx : RequestParser.parse prof (c.parser.getD .new) c.reader with
  | mk o r =>
  rw [hx] at h
  cases o with
  | io p e => dsimp only; split <;> (try split) <;> simp
  | diverge => exact absurd rfl h
  | _ => simp

theorem run_possible {p : Pool} {w j : Nat} (b : Bool) (hw : p.workers[w]? = some (.running j)) : ∃ p', p.step (.work w b) = some p' := by
  simp only [Pool.step, Pool.work, hw]
  cases b <;> exact ⟨_, rfl⟩

theorem go_possible {n : Nat} {s : Net σ} (hb : s.Base n) (hi : s.Inside) {k w : Nat} {c : NConn σ} (hc : s.conns[k]? = some c) (hl : c.lock = some w) :
    s.step prof rt (.go w) ≠ none := by
  obtain ⟨h1, h2⟩ := (hb.lock k w c hc).1 hl
  obtain ⟨j, a, h3, h4⟩ := handled_iff.1 h1
  have hlive := hi k w c hc hl
  obtain ⟨pf, hpf⟩ := run_possible false h3
  obtain ⟨pt, hpt⟩ := run_possible true h3
  simp only [Net.step, h1, hc, hl, if_true]
  unfold Net.advance
  cases hp : s.phase w with
  | enter => exact absurd hp h2
  | leaving => dsimp only; rw [hpf]; simp
  | flushing =>
    have h5 := hlive (by rw [hp]; simp)
    cases hs : c.slot with
    | live conn => dsimp only; split <;> simp
    | _ => rw [hs] at h5; cases h5
  | reading =>
    have h5 := hlive (by rw [hp]; simp)
    cases hs : c.slot with
    | live conn =>
      have h6 := readRequest_ends (prof := prof) conn
      dsimp only
      cases hr : conn.readRequest prof with
      | mk x conn' =>
      rw [hr] at h6
      cases x with
      | error e =>
        have h7 := writeError_ne_diverge conn'.writer
        dsimp only
        split
        · next h8 => rw [h8] at h7; exact absurd rfl h7
        · simp
      | panic => dsimp only [Net.crash]; rw [hpt]; simp
      | diverge => exact absurd rfl h6
      | _ => simp
    | _ => rw [hs] at h5; cases h5
  | asked q =>
    have h5 := hlive (by rw [hp]; simp)
    cases hs : c.slot with
    | live conn =>
      dsimp only
      split
      · simp [Net.crash, hpt]
      · simp
    | _ => rw [hs] at h5; cases h5
  | reply q a =>
    have h5 := hlive (by rw [hp]; simp)
    cases hs : c.slot with
    | live conn =>
      have h7 := writeAnswer_ne_diverge conn.writer a
      dsimp only
      split
      · split <;> simp
      · simp
      · next h8 => rw [h8] at h7; exact absurd rfl h7
    | _ => rw [hs] at h5; cases h5

/-! ## Each step of a handler brings it nearer to its end -/

/-- How much a handler can still read. -/
def Slot.pending (x : Slot Rd Nbw) : Nat := x.conn.reader.src.atoms.length + if x.conn.parser.getD .new = .new then 0 else 1

/-- A bound on the steps of a handler. -/
def Phase.bound : Phase → Slot Rd Nbw → Nat
  | .enter, _ => 0
  | .flushing, x => 3 * x.pending + 4
  | .reading, x => 3 * x.pending + 3
  | .asked _, x => 3 * x.pending + 5
  | .reply _ _, x => 3 * x.pending + 4
  | .leaving, _ => 0

theorem Move.bound {p p' : Phase} {x x' : Slot Rd Nbw} {a d d' : Nat} (h : Move prof p x a d p' x' d')
    (hl : ∀ conn, x = .live conn → conn.reader.lims = []) : p'.bound x' < p.bound x := by
  cases h with
  | flushErr => simp [Phase.bound]
  | flushOk => exact Nat.lt_succ_self _
  | @ready c c' q _ _ hr =>
    have hl := hl c rfl
    unfold Conn.readRequest at hr
    have hle := (C17_request_parse_returns prof (c.parser.getD .new) c.reader).2
    cases hp : RequestParser.parse prof (c.parser.getD .new) c.reader with
    | mk o r =>
    rw [hp] at hr hle
    dsimp only at hle
    cases o with
    | done q' =>
      cases hr
      simp only [Phase.bound, Slot.pending, Slot.conn, Option.getD_none, if_true]
      by_cases hn : c.parser.getD .new = RequestParser.new
      · rw [hn] at hp
        have := request_takes hl hp
        simp only [hn, if_true]
        omega
      · simp only [hn, if_false]
        omega
    | io p e => dsimp only at hr; split at hr <;> (try split at hr) <;> cases hr
    | _ => cases hr
  | notReady => simp [Phase.bound]
  | closed => simp [Phase.bound]
  | refused => simp [Phase.bound]
  | wrote => exact Nat.lt_succ_self _
  | asked => simp [Phase.bound]
  | failed => simp [Phase.bound]

/-- Worker `w` still has the mutex of connection `k`. -/
def Net.Keeps (s : Net σ) (k w b : Nat) : Prop := ∃ c, s.conns[k]? = some c ∧ c.lock = some w ∧ (s.phase w).bound c.slot ≤ b

/-- Worker `w` has released the mutex of connection `k`. -/
def Net.Left (s : Net σ) (k w : Nat) : Prop := ∃ c, s.conns[k]? = some c ∧ c.lock = none ∧ ∀ j, s.pool.workers[w]? ≠ some (.running j)

theorem Advance.held {s s' : Net σ} {k w : Nat} {c : NConn σ} (h : Advance prof rt s w k c s') (hk : s.handled w = some k)
    (hc : s.conns[k]? = some c) (hl : c.lock = some w) (hlim : ∀ conn, c.slot = .live conn → conn.reader.lims = []) :
    (∃ b, b < (s.phase w).bound c.slot ∧ s'.Keeps k w b) ∨ s'.Left k w := by
  have hkl := (List.getElem?_eq_some_iff.1 hc).1
  have got : ∀ d : NConn σ, (s.setConn k d).conns[k]? = some d := fun d => by simp [Net.setConn, hkl]
  obtain ⟨j, a, h3, h4⟩ := handled_iff.1 hk
  have hwl := (List.getElem?_eq_some_iff.1 h3).1
  cases h with
  | move hm => exact .inl ⟨_, hm.bound hlim, _, got _, hl, by simp [Net.setPhase]⟩
  | ask hph hs =>
    refine .inl ⟨_, ?_, _, got _, hl, Nat.le_refl _⟩
    simp [Net.setPhase, hph, Phase.bound]
  | crash hph hs hr hp =>
    rcases pool_running h3 hp with ⟨h, -⟩ | ⟨-, rfl⟩
    · cases h
    · exact .inr ⟨_, got _, rfl, by intro i; dsimp only [Pool.stop]; split <;> simp [hwl]⟩
  | crashAsk hph hs hr hp =>
    rcases pool_running h3 hp with ⟨h, -⟩ | ⟨-, rfl⟩
    · cases h
    · exact .inr ⟨_, got _, rfl, by intro i; dsimp only [Pool.stop]; split <;> simp [hwl]⟩
  | leave hph hp =>
    rcases pool_running h3 hp with ⟨-, rfl⟩ | ⟨h, -⟩
    · exact .inr ⟨_, got _, rfl, by simp [hwl]⟩
    · cases h

theorem NStep.held {n : Nat} {s s' : Net σ} (h : NStep prof rt s s') (hb : s.Base n) {k w : Nat} {c : NConn σ} (hc : s.conns[k]? = some c)
    (hl : c.lock = some w) (hlim : ∀ conn, c.slot = .live conn → conn.reader.lims = [])
    (harr : ∀ c', s'.conns[k]? = some c' → c'.arrived.length ≤ c.arrived.length) :
    s'.Keeps k w ((s.phase w).bound c.slot) ∨ s'.Left k w := by
  obtain ⟨hk, hph⟩ := (hb.lock k w c hc).1 hl
  obtain ⟨j, a, h3, h4⟩ := handled_iff.1 hk
  have hkl := (List.getElem?_eq_some_iff.1 hc).1
  have set : ∀ {k' : Nat} {d d' : NConn σ}, s.conns[k']? = some d → s'.conns = (s.setConn k' d').conns → s'.phase w = s.phase w →
      (k' = k → d'.lock = d.lock ∧ d'.slot = d.slot) → s'.Keeps k w ((s.phase w).bound c.slot) := by
    intro k' d d' hd he h1 h2
    by_cases hkk : k' = k
    · subst hkk
      rw [hc] at hd; cases hd
      obtain ⟨h5, h6⟩ := h2 rfl
      exact ⟨d', by rw [he]; simp [Net.setConn, hkl], by rw [h5, hl], by rw [h1, h6]; exact Nat.le_refl _⟩
    · exact ⟨c, by rw [he]; simp [Net.setConn, hkk, hc], hl, by rw [h1]; exact Nat.le_refl _⟩
  have same : s'.conns = s.conns → s'.phase w = s.phase w → s'.Keeps k w ((s.phase w).bound c.slot) :=
    fun h1 h2 => ⟨c, by rw [h1]; exact hc, hl, by rw [h2]; exact Nat.le_refl _⟩
  cases h with
  | accept => exact .inl ⟨c, by dsimp only; rw [List.getElem?_append_left hkl]; exact hc, hl, Nat.le_refl _⟩
  | @arrive k' ev d cn hd hs =>
    refine .inl (set hd rfl rfl ?_)
    rintro rfl
    rw [hc] at hd; cases hd
    have := harr _ (by simp only [Net.setConn]; rw [List.getElem?_set_self hkl])
    simp only [List.length_append, List.length_cons, List.length_nil] at this
    omega
  | notify hd => exact .inl (set hd rfl rfl fun _ => ⟨rfl, rfl⟩)
  | @poll ks =>
    refine .inl ⟨if k ∈ ks then { c with edge := false } else c, by simp [List.getElem?_mapIdx, hc], ?_, ?_⟩
    · split <;> exact hl
    · split <;> exact Nat.le_refl _
  | skip => exact .inl (same rfl rfl)
  | remove hd => exact .inl (set hd rfl rfl fun _ => ⟨rfl, rfl⟩)
  | execute => exact .inl (same rfl rfl)
  | fail => exact .inl (same rfl rfl)
  | @work w' pool hw hp =>
    have : w ≠ w' := by rintro rfl; exact hw j h3
    exact .inl (same rfl (by simp [Net.setPhase, this]))
  | enterPoisoned hk' hd hph' hl' hs hp => exact .inl (set hd rfl rfl fun _ => ⟨rfl, rfl⟩)
  | @enterGone w' k' d _ _ hk' hd hph' hl' hs =>
    have h5 : w ≠ w' := by rintro rfl; exact hph hph'
    refine .inl (set hd rfl (by simp [Net.setPhase, Net.setConn, h5]) ?_)
    rintro rfl
    rw [hc] at hd; cases hd
    rw [hl] at hl'; cases hl'
  | @enter w' k' d _ _ hk' hd hph' hl' hs =>
    have h5 : w ≠ w' := by rintro rfl; exact hph hph'
    refine .inl (set hd rfl (by simp [Net.setPhase, Net.setConn, h5]) ?_)
    rintro rfl
    rw [hc] at hd; cases hd
    rw [hl] at hl'; cases hl'
  | @go w' k' d s' hk' hd hl' ha =>
    by_cases hww : w' = w
    · subst hww
      rw [hk] at hk'; cases hk'
      rw [hc] at hd; cases hd
      rcases ha.held hk hc hl hlim with ⟨b, h5, c', h6, h7, h8⟩ | h5
      · exact .inl ⟨c', h6, h7, by omega⟩
      · exact .inr h5
    · have hkk : k' ≠ k := by
        rintro rfl
        rw [hc] at hd; cases hd
        rw [hl] at hl'; cases hl'; exact hww rfl
      have hww' : w ≠ w' := fun h => hww h.symm
      left
      cases ha with
      | move hm => exact set hd rfl (by simp [Net.setPhase, Net.setConn, hww']) fun h => absurd h hkk
      | ask hph hs => exact set hd rfl (by simp [Net.setPhase, Net.setConn, hww']) fun h => absurd h hkk
      | crash hph hs hr hp => exact set hd rfl rfl fun h => absurd h hkk
      | crashAsk hph hs hr hp => exact set hd rfl rfl fun h => absurd h hkk
      | leave hph hp => exact set hd rfl (by simp [Net.setPhase, Net.setConn, hww']) fun h => absurd h hkk

/-! ## Runs -/

variable {n : Nat} {s₀ : σ}

theorem Net.Run.reach (r : Net.Run prof rt n s₀) (t : Nat) : Net.Reach prof rt n s₀ (r.at_ t) := by
  induction t with
  | zero => exact .new r.start
  | succ t ih =>
    have h := r.next t
    cases ha : r.act t with
    | none => rw [ha] at h; rw [h]; exact ih
    | some a => rw [ha] at h; exact ih.step h

/-- A sequence that grows and is bounded stays the same from some time on. -/
theorem eventually_const {f : Nat → Nat} {m : Nat} (hm : ∀ t, f t ≤ f (t + 1)) (hb : ∀ t, f t ≤ m) : ∃ T, ∀ t ≥ T, f t = f T := by
  have mono : ∀ t d, f t ≤ f (t + d) := by
    intro t d
    induction d with
    | zero => exact Nat.le_refl _
    | succ d ih => exact Nat.le_trans ih (hm _)
  have key : ∀ d t, m - f t ≤ d → ∃ T, ∀ t ≥ T, f t = f T := by
    intro d
    induction d with
    | zero =>
      intro t h
      refine ⟨t, fun u hu => ?_⟩
      have h1 := mono t (u - t)
      rw [show t + (u - t) = u by omega] at h1
      have := hb u
      omega
    | succ d ih =>
      intro t h
      by_cases hc : ∀ u ≥ t, f u = f t
      · exact ⟨t, hc⟩
      · simp only [Classical.not_forall] at hc
        obtain ⟨u, hu, hne⟩ := hc
        have h1 := mono t (u - t)
        rw [show t + (u - t) = u by omega] at h1
        have := hb u
        exact ih u (by omega)
  exact key _ 0 (Nat.le_refl _)

/-- From some time on nothing arrives on a connection any more. -/
theorem Net.Run.Ends.silent {r : Net.Run prof rt n s₀} (he : r.Ends) (k : Nat) :
    ∃ T, ∀ t ≥ T, ∀ c c', (r.at_ t).conns[k]? = some c → (r.at_ (t + 1)).conns[k]? = some c' → c'.arrived.length ≤ c.arrived.length := by
  obtain ⟨m, hm⟩ := he k
  let f : Nat → Nat := fun t => match (r.at_ t).conns[k]? with
    | some c => c.arrived.length
    | none => 0
  have hf : ∀ t c, (r.at_ t).conns[k]? = some c → f t = c.arrived.length := fun t c h => by simp only [f, h]
  obtain ⟨T, hT⟩ := eventually_const (f := f) (m := m) (by
    intro t
    cases hc : (r.at_ t).conns[k]? with
    | none => simp only [f, hc]; exact Nat.zero_le _
    | some c =>
      obtain ⟨c', h1, h2, -⟩ := r.mono hc 1
      rw [hf t c hc, hf (t + 1) c' h1]; exact h2) (by
    intro t
    cases hc : (r.at_ t).conns[k]? with
    | none => simp only [f, hc]; exact Nat.zero_le _
    | some c => rw [hf t c hc]; exact hm t c hc)
  refine ⟨T, fun t ht c c' h1 h2 => ?_⟩
  rw [← hf t c h1, ← hf (t + 1) c' h2, hT t ht, hT (t + 1) (by omega)]
  exact Nat.le_refl _

/-- A handler that has the mutex of a connection on which nothing arrives any more releases it. -/
theorem Net.Run.releases (r : Net.Run prof rt n s₀) (hg : r.Going) {k T : Nat}
    (hT : ∀ t ≥ T, ∀ c c', (r.at_ t).conns[k]? = some c → (r.at_ (t + 1)).conns[k]? = some c' → c'.arrived.length ≤ c.arrived.length) (w : Nat) :
    ∀ b t, T ≤ t → (r.at_ t).Keeps k w b → ∃ t' ≥ t, (r.at_ t').Left k w := by
  have next : ∀ b t, T ≤ t → (r.at_ t).Keeps k w b → (r.at_ (t + 1)).Keeps k w b ∨ (r.at_ (t + 1)).Left k w := by
    intro b t ht ⟨c, h1, h2, h3⟩
    rcases r.nstep t with h | h
    · rw [h]; exact .inl ⟨c, h1, h2, h3⟩
    · rcases h.held (r.inv t).base h1 h2 ((r.reach t).serial.conn k c h1).lims (fun c' h4 => hT t ht c c' h1 h4) with ⟨c', h4, h5, h6⟩ | h4
      · exact .inl ⟨c', h4, h5, by omega⟩
      · exact .inr h4
  intro b
  induction b using Nat.strongRecOn with
  | ind b ih =>
    intro t ht hk
    by_cases hleft : ∃ t' ≥ t, (r.at_ t').Left k w
    · exact hleft
    · have always : ∀ d, (r.at_ (t + d)).Keeps k w b := by
        intro d
        induction d with
        | zero => exact hk
        | succ d ihd =>
          rcases next b (t + d) (by omega) ihd with h | h
          · exact h
          · exact absurd ⟨t + d + 1, by omega, h⟩ hleft
      obtain ⟨u, h1, h2⟩ := hg.goes t w (by
        intro t' h1
        obtain ⟨c, h2, h3, -⟩ := always (t' - t)
        rw [show t + (t' - t) = t' by omega] at h2
        exact go_possible (r.inv t').base (r.inside t') h2 h3)
      obtain ⟨c, h3, h4, h5⟩ := always (u - t)
      rw [show t + (u - t) = u by omega] at h3 h5
      have hn := r.next u
      rw [h2] at hn
      have hh := ((r.inv u).base.lock k w c h3).1 h4
      simp only [Net.step, hh.1, h3, h4, if_true] at hn
      rcases (advance_cases hn).held hh.1 h3 h4 ((r.reach u).serial.conn k c h3).lims with ⟨b', h6, h7⟩ | h6
      · obtain ⟨t', h8, h9⟩ := ih b' (by omega) (u + 1) (by omega) h7
        exact ⟨t', by omega, h9⟩
      · exact ⟨u + 1, by omega, h6⟩

/-- Every handler returns. -/
theorem Net.Run.returns (r : Net.Run prof rt n s₀) (hg : r.Going) (he : r.Ends) (t w j : Nat) (hw : (r.at_ t).pool.workers[w]? = some (.running j)) :
    ∃ t' ≥ t, (r.at_ t').pool.workers[w]? ≠ some (.running j) := by
  by_cases hall : ∃ t' ≥ t, (r.at_ t').pool.workers[w]? ≠ some (.running j)
  · exact hall
  · have always : ∀ t' ≥ t, (r.at_ t').pool.workers[w]? = some (.running j) := fun t' h1 => Classical.byContradiction fun h2 => hall ⟨t', h1, h2⟩
    exfalso
    have hjl : j < (r.at_ t).jobs.length := by
      have := (r.inv t).base.pool.inv.running_lt hw
      rw [(r.inv t).base.jobs]; exact this
    obtain ⟨⟨k, a⟩, hj⟩ : ∃ x, (r.at_ t).jobs[j]? = some x := ⟨_, List.getElem?_eq_getElem hjl⟩
    obtain ⟨T₀, hT₀⟩ := he.silent k
    have hjob : ∀ t' ≥ t, (r.at_ t').handled w = some k := by
      intro t' h1
      have := r.jobs hj (t' - t)
      rw [show t + (t' - t) = t' by omega] at this
      exact handled_iff.2 ⟨j, a, always t' h1, this⟩
    have hconn : ∀ t' ≥ t, ∃ c, (r.at_ t').conns[k]? = some c := by
      intro t' h1
      have h2 := r.jobs hj (t' - t)
      rw [show t + (t' - t) = t' by omega] at h2
      exact ⟨_, List.getElem?_eq_getElem ((r.inv t').base.conns j k a h2)⟩
    -- it never has the mutex
    have hno : ∀ t' ≥ t, T₀ ≤ t' → ∀ c, (r.at_ t').conns[k]? = some c → c.lock ≠ some w := by
      intro t' h1 h2 c h3 h4
      obtain ⟨u, h5, c', h6, h7, h8⟩ := r.releases hg hT₀ w _ t' h2 ⟨c, h3, h4, Nat.le_refl _⟩
      exact h8 j (always u (by omega))
    have hent : ∀ t' ≥ t, T₀ ≤ t' → (r.at_ t').phase w = .enter := by
      intro t' h1 h2
      obtain ⟨c, h3⟩ := hconn t' h1
      exact Classical.byContradiction fun h4 => hno t' h1 h2 c h3 (((r.inv t').base.lock k w c h3).2 ⟨hjob t' h1, h4⟩)
    have hfree : ∀ t' ≥ max t T₀, ∃ t'' ≥ t', ∃ evs, (r.at_ t'').step prof rt (.lock w evs) ≠ none := by
      intro t' h1
      have h1' : t ≤ t' ∧ T₀ ≤ t' := by omega
      obtain ⟨u, h2, c, h3, h4⟩ : ∃ u ≥ t', ∃ c, (r.at_ u).conns[k]? = some c ∧ c.lock = none := by
        obtain ⟨c, h2⟩ := hconn t' h1'.1
        cases hl : c.lock with
        | none => exact ⟨t', Nat.le_refl _, c, h2, hl⟩
        | some w' =>
          obtain ⟨u, h5, c', h6, h7, -⟩ := r.releases hg hT₀ w' _ t' h1'.2 ⟨c, h2, hl, Nat.le_refl _⟩
          exact ⟨u, h5, c', h6, h7⟩
      refine ⟨u, h2, [], ?_⟩
      simp only [Net.step, hjob u (by omega), h3, h4, hent u (by omega) (by omega), and_self, if_true]
      unfold Net.enter
      obtain ⟨p, hp⟩ := run_possible true (always u (by omega))
      split <;> simp [hp]
    obtain ⟨u, h1, evs, h2⟩ := hg.locks _ w hfree
    have h1' : t ≤ u ∧ T₀ ≤ u := by omega
    have hn := r.next u
    rw [h2] at hn
    obtain ⟨c, h3⟩ := hconn u h1'.1
    simp only [Net.step, hjob u h1'.1, h3] at hn
    split at hn
    · unfold Net.enter at hn
      split at hn
      · simp only [Option.map_eq_some_iff] at hn
        obtain ⟨p, h4, h5⟩ := hn
        have h6 := always (u + 1) (by omega)
        rw [← h5] at h6
        rcases pool_running (always u h1'.1) h4 with ⟨h, -⟩ | ⟨-, rfl⟩
        · cases h
        · have hwl := (List.getElem?_eq_some_iff.1 (always u h1'.1)).1
          dsimp only [Pool.stop] at h6
          split at h6 <;> simp [hwl] at h6
      · exact absurd (hent (u + 1) (by omega) (by omega)) (by rw [← Option.some.inj hn]; simp [Net.setPhase])
      · exact absurd (hent (u + 1) (by omega) (by omega)) (by rw [← Option.some.inj hn]; simp [Net.setPhase])
    · cases hn

theorem Net.Run.fair (r : Net.Run prof rt n s₀) (hg : r.Going) (he : r.Ends) : r.Fair :=
  ⟨hg.polled, hg.dispatched, hg.workers, r.returns hg he⟩

end Verif
