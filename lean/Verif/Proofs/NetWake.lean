import Verif.Proofs.Net
import Verif.Proofs.Frame

/-! No wake-up is lost: what always holds. -/

namespace Verif

variable {σ : Type} {prof : Profile} {rt : Router σ}

/-- What holds of a connection by itself. -/
structure NConn.Ok (c : NConn σ) : Prop where
  drained : c.drained ≤ c.arrived.length
  noWait : ∀ conn, c.slot = .live conn → WB ∉ conn.reader.src.atoms
  quiet : ∀ conn, c.slot = .live conn → c.drained = c.arrived.length → conn.reader.src.atoms = []

/-- What always holds of events and jobs. -/
structure Net.Told (s : Net σ) : Prop where
  conn : ∀ (k : Nat) (c : NConn σ), s.conns[k]? = some c → c.Ok
  told : s.pool.owner = .using → ∀ (k : Nat) (c : NConn σ), s.conns[k]? = some c → c.inTable = true →
    c.edge = true ∨ k ∈ s.batch ∨ ∃ j : Nat, s.jobs[j]? = some (k, c.arrived.length)
  before : ∀ (j k : Nat) (a : Nat) (c : NConn σ), s.jobs[j]? = some (k, a) → s.conns[k]? = some c → a ≤ c.arrived.length
  left : ∀ (w j k : Nat) (a : Nat) (c : NConn σ), s.jobs[j]? = some (k, a) → s.conns[k]? = some c → s.pool.workers[w]? = some (.running j) →
    s.phase w = .leaving → Net.isLive c.slot = true → a ≤ c.drained
  done : ∀ (j k : Nat) (a : Nat) (c : NConn σ), s.jobs[j]? = some (k, a) → s.conns[k]? = some c → j ∈ s.pool.finished → Net.isLive c.slot = true →
    a ≤ c.drained
  dead : ∀ (j k : Nat) (a : Nat) (c : NConn σ), s.jobs[j]? = some (k, a) → s.conns[k]? = some c → j ∈ s.pool.crashed → Net.isLive c.slot = false

theorem told_set {s s' : Net σ} {k : Nat} {c c' : NConn σ} (h : s.Told) (hc : s.conns[k]? = some c)
    (e1 : s'.pool = s.pool) (e2 : s'.jobs = s.jobs) (e4 : s'.conns = (s.setConn k c').conns)
    (hok : c'.Ok) (harr : c.arrived.length ≤ c'.arrived.length)
    (htold : s.pool.owner = .using → c'.inTable = true → c'.edge = true ∨ k ∈ s'.batch ∨ ∃ j : Nat, s.jobs[j]? = some (k, c'.arrived.length))
    (hb : ∀ k', k' ≠ k → k' ∈ s.batch → k' ∈ s'.batch) (hdr : c.drained ≤ c'.drained)
    (hlive : Net.isLive c'.slot = true → Net.isLive c.slot = true)
    (hleave : ∀ (w j k' : Nat) a, s.pool.workers[w]? = some (.running j) → s.jobs[j]? = some (k', a) → s'.phase w = .leaving →
      s.phase w = .leaving ∨ k' = k ∧ (Net.isLive c'.slot = true → a ≤ c'.drained)) : s'.Told where
  conn k' d hd := by
    rw [e4] at hd
    rcases setConn_get hc hd with ⟨rfl, rfl⟩ | ⟨hne, hd⟩
    · exact hok
    · exact h.conn k' d hd
  told ho k' d hd hi := by
    rw [e4] at hd
    rw [e1] at ho
    rcases setConn_get hc hd with ⟨rfl, rfl⟩ | ⟨hne, hd⟩
    · rw [e2]; exact htold ho hi
    · rcases h.told ho k' d hd hi with h1 | h1 | h1
      · exact .inl h1
      · exact .inr (.inl (hb k' hne h1))
      · rw [e2]; exact .inr (.inr h1)
  before j k' a d hj hd := by
    rw [e4] at hd
    rw [e2] at hj
    rcases setConn_get hc hd with ⟨rfl, rfl⟩ | ⟨hne, hd⟩
    · exact Nat.le_trans (h.before j k' a c hj hc) harr
    · exact h.before j k' a d hj hd
  left w j k' a d hj hd hw hp hl := by
    rw [e4] at hd
    rw [e2] at hj
    rw [e1] at hw
    rcases hleave w j k' a hw hj hp with h1 | ⟨rfl, h1⟩
    · rcases setConn_get hc hd with ⟨rfl, rfl⟩ | ⟨hne, hd⟩
      · exact Nat.le_trans (h.left w j k' a c hj hc hw h1 (hlive hl)) hdr
      · exact h.left w j k' a d hj hd hw h1 hl
    · rcases setConn_get hc hd with ⟨-, rfl⟩ | ⟨hne, hd⟩
      · exact h1 hl
      · exact absurd rfl hne
  done j k' a d hj hd hf hl := by
    rw [e4] at hd
    rw [e2] at hj
    rw [e1] at hf
    rcases setConn_get hc hd with ⟨rfl, rfl⟩ | ⟨hne, hd⟩
    · exact Nat.le_trans (h.done j k' a c hj hc hf (hlive hl)) hdr
    · exact h.done j k' a d hj hd hf hl
  dead j k' a d hj hd hf := by
    rw [e4] at hd
    rw [e2] at hj
    rw [e1] at hf
    rcases setConn_get hc hd with ⟨rfl, rfl⟩ | ⟨hne, hd⟩
    · cases hl : Net.isLive d.slot with
      | false => rfl
      | true => rw [h.dead j k' a c hj hc hf] at hlive; exact absurd (hlive hl) (by simp)
    · exact h.dead j k' a d hj hd hf

/-- The end of a job. -/
theorem told_end {n : Nat} {s s' : Net σ} {w k : Nat} {c c' : NConn σ} {b : Bool} (h : s.Told) (hk : s.handled w = some k)
    (hc : s.conns[k]? = some c) (hp : s.pool.step (.work w b) = some s'.pool) (e2 : s'.jobs = s.jobs) (e3 : ∀ w', w' ≠ w → s'.phase w' = s.phase w')
    (e4 : s'.conns = (s.setConn k c').conns) (eb : s'.batch = s.batch) (ea : c'.arrived = c.arrived) (ed : c'.drained = c.drained)
    (ei : c'.inTable = c.inTable) (ee : c'.edge = c.edge)
    (hs : b = true ∧ Net.isLive c'.slot = false ∨ b = false ∧ s.phase w = .leaving ∧ c'.slot = c.slot) : s'.Told := by
  obtain ⟨j₀, a₀, hj₀, hjk⟩ := handled_iff.1 hk
  have hlt := (List.getElem?_eq_some_iff.1 hj₀).1
  have hlive : Net.isLive c'.slot = true → Net.isLive c.slot = true := by
    rcases hs with ⟨-, h⟩ | ⟨-, -, h⟩
    · rw [h]; simp
    · rw [h]; exact id
  have hworkers : ∀ (w' j : Nat), s'.pool.workers[w']? = some (.running j) → w' ≠ w ∧ s.pool.workers[w']? = some (.running j) := by
    intro w' j hw'
    have hne : w' ≠ w := by
      rintro rfl
      rcases pool_running hj₀ hp with ⟨-, he⟩ | ⟨-, he⟩ <;> (rw [he] at hw'; simp [hlt] at hw')
    refine ⟨hne, ?_⟩
    rcases pool_running hj₀ hp with ⟨-, he⟩ | ⟨-, he⟩ <;> (rw [he] at hw'; simpa [Ne.symm hne] using hw')
  refine ⟨?_, ?_, ?_, ?_, ?_, ?_⟩
  · intro k' d hd
    rw [e4] at hd
    rcases setConn_get hc hd with ⟨rfl, rfl⟩ | ⟨hne, hd⟩
    · have hok := h.conn k' c hc
      refine ⟨by rw [ea, ed]; exact hok.drained, ?_, ?_⟩
      · intro conn hconn
        rcases hs with ⟨-, h⟩ | ⟨-, -, h⟩
        · rw [hconn] at h; cases h
        · exact hok.noWait conn (by rw [← h, hconn])
      · intro conn hconn
        rcases hs with ⟨-, h⟩ | ⟨-, -, h⟩
        · rw [hconn] at h; cases h
        · rw [ea, ed]; exact hok.quiet conn (by rw [← h, hconn])
    · exact h.conn k' d hd
  · intro ho k' d hd hi
    rw [pool_owner hp] at ho
    rw [e4] at hd
    rw [eb, e2]
    rcases setConn_get hc hd with ⟨rfl, rfl⟩ | ⟨hne, hd⟩
    · rw [ee, ea]; exact h.told ho k' c hc (by rw [← ei]; exact hi)
    · exact h.told ho k' d hd hi
  · intro j k' a d hj hd
    rw [e4] at hd
    rw [e2] at hj
    rcases setConn_get hc hd with ⟨rfl, rfl⟩ | ⟨hne, hd⟩
    · rw [ea]; exact h.before j k' a c hj hc
    · exact h.before j k' a d hj hd
  · intro w' j k' a d hj hd hw' hph hl
    obtain ⟨hne, hw⟩ := hworkers w' j hw'
    rw [e4] at hd
    rw [e2] at hj
    rw [e3 w' hne] at hph
    rcases setConn_get hc hd with ⟨rfl, rfl⟩ | ⟨hne, hd⟩
    · rw [ed]; exact h.left w' j k' a c hj hc hw hph (hlive hl)
    · exact h.left w' j k' a d hj hd hw hph hl
  · intro j k' a d hj hd hf hl
    rw [e4] at hd
    rw [e2] at hj
    have hf' : j ∈ s.pool.finished ∨ b = false ∧ j = j₀ := by
      rcases pool_running hj₀ hp with ⟨hb, he⟩ | ⟨-, he⟩
      · rw [he] at hf
        simp only [List.mem_append, List.mem_singleton] at hf
        exact hf.imp id fun h => ⟨hb, h⟩
      · rw [he] at hf
        exact .inl (by simpa using hf)
    rcases hf' with hf' | ⟨hb, rfl⟩
    · rcases setConn_get hc hd with ⟨rfl, rfl⟩ | ⟨hne, hd⟩
      · rw [ed]; exact h.done j k' a c hj hc hf' (hlive hl)
      · exact h.done j k' a d hj hd hf' hl
    · rcases hs with ⟨hb', -⟩ | ⟨-, hph, -⟩
      · rw [hb] at hb'; cases hb'
      · rcases setConn_get hc hd with ⟨rfl, rfl⟩ | ⟨hne, hd⟩
        · rw [ed]; exact h.left w j k' a c hj hc hj₀ hph (hlive hl)
        · exact h.left w j k' a d hj hd hj₀ hph hl
  · intro j k' a d hj hd hf
    rw [e4] at hd
    rw [e2] at hj
    have hf' : j ∈ s.pool.crashed ∨ b = true ∧ j = j₀ := by
      rcases pool_running hj₀ hp with ⟨-, he⟩ | ⟨hb, he⟩
      · rw [he] at hf
        exact .inl (by simpa using hf)
      · rw [he] at hf
        simp only [stop_crashed, List.mem_append, List.mem_singleton] at hf
        exact hf.imp id fun h => ⟨hb, h⟩
    rcases setConn_get hc hd with ⟨rfl, rfl⟩ | ⟨hne, hd⟩
    · rcases hs with ⟨-, h'⟩ | ⟨hb', -, h'⟩
      · exact h'
      · rcases hf' with hf' | ⟨hb, -⟩
        · rw [h']; exact h.dead j k' a c hj hc hf'
        · rw [hb'] at hb; cases hb
    · rcases hf' with hf' | ⟨hb, rfl⟩
      · exact h.dead j k' a d hj hd hf'
      · rw [hjk] at hj
        cases hj
        exact absurd rfl hne

theorem Pool.Inv.finished_lt {n : Nat} {s : Pool} (h : s.Inv n) {j : Nat} (hj : j ∈ s.finished ∨ j ∈ s.crashed) : j < s.submitted.length := by
  have h2 := h.running j
  have h3 := h.started j
  have hpos : 0 < s.finished.count j + s.crashed.count j := by
    rcases hj with hj | hj
    · have := List.count_pos_iff.2 hj; omega
    · have := List.count_pos_iff.2 hj; omega
  have h4 : j ∈ jobsOf s.taken := List.count_pos_iff.1 (by omega)
  have h5 : j ∈ jobsOf s.sent := by
    rw [h.msgs, jobsOf_append, jobsOf_append]
    simp [h4]
  rw [h.ids] at h5
  exact List.mem_range.1 h5

/-- A request read, or the lack of one. -/
theorem readRequest_atoms {c c' : Conn Rd Nbw} {x : ReadRequestResult} (h : c.readRequest prof = (x, c')) :
    c'.reader.src.atoms <:+ c.reader.src.atoms ∧ (x = .notReady → WB ∉ c.reader.src.atoms → c'.reader.src.atoms = []) := by
  have hr : c'.reader = (RequestParser.parse prof (c.parser.getD .new) c.reader).2 := by
    unfold Conn.readRequest at h
    split at h
    · next he => cases h; simp [he]
    · next he =>
      split at h
      · cases h; simp [he]
      · split at h <;> (cases h; simp [he])
    all_goals (next he => cases h; simp [he])
  have habs := requestParse_abs prof (c.parser.getD .new) c.reader
  have hsuf := request_suffix prof (c.parser.getD .new) c.reader.abs
  refine ⟨?_, ?_⟩
  · rw [habs] at hsuf
    rw [hr]; exact hsuf
  · rintro rfl hw
    have : ∃ p, (RequestParser.parse prof (c.parser.getD .new) c.reader).1 = .io p .wouldBlock := by
      unfold Conn.readRequest at h
      split at h
      · cases h
      · next p e r he =>
        split at h
        · next hwb => exact ⟨p, by rw [he, hwb]⟩
        · split at h <;> cases h
      all_goals cases h
    obtain ⟨p, hp⟩ := this
    have h1 : RequestParser.parse prof (c.parser.getD .new) (⟨c.reader.lims, c.reader.src.atoms⟩ : AR) =
        (.io p .wouldBlock, (RequestParser.parse prof (c.parser.getD .new) c.reader).2.abs) := by
      have := habs
      unfold absOut at this
      rw [hp] at this
      exact this
    have := (request_block [] hw h1).1
    rw [hr]; exact this

theorem ok_live {c c' : NConn σ} {conn conn' : Conn Rd Nbw} (h : c.Ok) (hs : c.slot = .live conn) (hs' : c'.slot = .live conn')
    (ha : c'.arrived = c.arrived) (hd : c'.drained = c.drained) (hr : conn'.reader.src.atoms <:+ conn.reader.src.atoms) : c'.Ok := by
  refine ⟨by rw [ha, hd]; exact h.drained, ?_, ?_⟩
  · intro x hx
    rw [hs'] at hx; cases hx
    exact fun hm => h.noWait conn hs (hr.subset hm)
  · intro x hx he
    rw [hs'] at hx; cases hx
    rw [ha, hd] at he
    rw [h.quiet conn hs he] at hr
    exact List.suffix_nil.1 hr

theorem ok_closed {c c' : NConn σ} (h : c.Ok) (hs : Net.isLive c'.slot = false) (ha : c'.arrived = c.arrived) (hd : c'.drained = c.drained) : c'.Ok := by
  refine ⟨by rw [ha, hd]; exact h.drained, ?_, ?_⟩ <;> (intro conn hc; rw [hc] at hs; cases hs)

/-- What a handler does on its connection. -/
theorem Move.told {c : NConn σ} {p p' : Phase} {x : Slot Rd Nbw} {d : Nat} (h : Move prof p c.slot c.arrived.length c.drained p' x d) (hok : c.Ok) :
    ({ c with slot := x, drained := d } : NConn σ).Ok ∧ c.drained ≤ d ∧ (Net.isLive x = true → Net.isLive c.slot = true) ∧
      (p' = .leaving → Net.isLive x = true → d = c.arrived.length) := by
  generalize hs : c.slot = y at h
  generalize ha : c.arrived.length = a at h
  generalize hd : c.drained = e at h
  cases h with
  | flushErr hf => subst hd; exact ⟨ok_closed hok rfl rfl rfl, Nat.le_refl _, by simp [Net.isLive], by simp [Net.isLive]⟩
  | flushOk hf => subst hd; exact ⟨ok_live hok hs rfl rfl rfl (List.suffix_refl _), Nat.le_refl _, by simp [Net.isLive], by simp⟩
  | ready hr => subst hd; exact ⟨ok_live hok hs rfl rfl rfl (readRequest_atoms hr).1, Nat.le_refl _, by simp [Net.isLive], by simp⟩
  | @notReady conn conn' _ _ hr =>
    subst hd ha
    have h0 := (readRequest_atoms hr).2 rfl (hok.noWait conn hs)
    refine ⟨⟨Nat.le_refl _, ?_, ?_⟩, hok.drained, by simp [Net.isLive], fun _ _ => rfl⟩
    · rintro x ⟨⟩; rw [h0]; simp
    · rintro x ⟨⟩ -; exact h0
  | closed hr => subst hd; exact ⟨ok_closed hok rfl rfl rfl, Nat.le_refl _, by simp [Net.isLive], by simp [Net.isLive]⟩
  | refused hr => subst hd; exact ⟨ok_closed hok rfl rfl rfl, Nat.le_refl _, by simp [Net.isLive], by simp [Net.isLive]⟩
  | wrote => subst hd; exact ⟨ok_live hok hs rfl rfl rfl (List.suffix_refl _), Nat.le_refl _, by simp [Net.isLive], by simp⟩
  | asked => subst hd; exact ⟨ok_closed hok rfl rfl rfl, Nat.le_refl _, by simp [Net.isLive], by simp [Net.isLive]⟩
  | failed => subst hd; exact ⟨ok_closed hok rfl rfl rfl, Nat.le_refl _, by simp [Net.isLive], by simp [Net.isLive]⟩

theorem told_new {n : Nat} {s₀ : σ} {s : Net σ} (h : Net.new n s₀ = some s) : s.Told := by
  unfold Net.new at h
  simp only [Option.map_eq_some_iff] at h
  obtain ⟨p, h1, rfl⟩ := h
  refine ⟨?_, ?_, ?_, ?_, ?_, ?_⟩ <;> simp

theorem told_step {n : Nat} {s s' : Net σ} (hb : s.Base n) (h : s.Told) (hs : NStep prof rt s s') : s'.Told := by
  have lt_jobs : ∀ {j : Nat}, (∃ w : Nat, s.pool.workers[w]? = some (.running j)) ∨ j ∈ s.pool.finished ∨ j ∈ s.pool.crashed → j < s.jobs.length := by
    intro j hj
    rw [hb.jobs]
    rcases hj with ⟨w, hw⟩ | hj
    · exact hb.pool.inv.running_lt hw
    · exact hb.pool.inv.finished_lt hj
  cases hs with
  | @accept offer grow growOk flushes =>
    have key : ∀ (k : Nat) c, (s.conns ++ [Net.fresh offer grow growOk flushes])[k]? = some c →
        s.conns[k]? = some c ∨ k = s.conns.length ∧ c = Net.fresh offer grow growOk flushes := by
      intro k c hc
      by_cases hk : k < s.conns.length
      · rw [List.getElem?_append_left hk] at hc
        exact .inl hc
      · rw [List.getElem?_append_right (by omega)] at hc
        have hz : k - s.conns.length = 0 := by
          have := (List.getElem?_eq_some_iff.1 hc).1
          simp at this
          omega
        rw [hz] at hc
        cases hc
        exact .inr ⟨by omega, rfl⟩
    have old : ∀ {j k a : Nat} {c : NConn σ}, s.jobs[j]? = some (k, a) → (s.conns ++ [Net.fresh offer grow growOk flushes])[k]? = some c →
        s.conns[k]? = some c := by
      intro j k a c hj hc
      rcases key k c hc with h1 | ⟨rfl, -⟩
      · exact h1
      · exact absurd (hb.conns j _ a hj) (by omega)
    refine ⟨?_, ?_, ?_, ?_, ?_, ?_⟩
    · intro k c hc
      rcases key k c hc with h1 | ⟨rfl, rfl⟩
      · exact h.conn k c h1
      · refine ⟨Nat.zero_le _, ?_, ?_⟩
        · rintro conn ⟨⟩; simp [Conn.new, Src.atoms]
        · rintro conn ⟨⟩ -; simp [Conn.new, Src.atoms]
    · intro ho k c hc hi
      rcases key k c hc with h1 | ⟨rfl, rfl⟩
      · exact h.told ho k c h1 hi
      · exact .inl rfl
    · intro j k a c hj hc
      exact h.before j k a c hj (old hj hc)
    · intro w j k a c hj hc
      exact h.left w j k a c hj (old hj hc)
    · intro j k a c hj hc
      exact h.done j k a c hj (old hj hc)
    · intro j k a c hj hc
      exact h.dead j k a c hj (old hj hc)
  | @arrive k ev c conn hc hsl he =>
    have hok := h.conn k c hc
    refine told_set h hc rfl rfl rfl ?_ ?_ (fun _ _ => .inl rfl) (fun _ _ h => h) (Nat.le_refl _) ?_ (fun _ _ _ _ _ _ h => .inl h)
    · refine ⟨?_, ?_, ?_⟩
      · simp only [List.length_append]
        have := hok.drained
        omega
      · intro x hx
        simp only [hsl, Net.receive, Slot.live.injEq] at hx
        subst hx
        simp only [Src.atoms, List.flatMap_append, List.flatMap_singleton, ← List.append_assoc, List.mem_append, not_or]
        refine ⟨?_, ?_⟩
        · have := hok.noWait conn hsl
          simpa [Src.atoms] using this
        · cases ev with
          | err e =>
            simp only [Ev.atoms, List.mem_singleton, WB, Atom.err.injEq]
            rintro rfl
            exact he rfl
          | data b => cases b <;> simp [Ev.atoms, WB]
      · intro x hx heq
        simp only [List.length_append, List.length_singleton] at heq
        have := hok.drained
        omega
    · simp
    · rw [hsl]; simp [Net.isLive]
  | @notify k c hc =>
    exact told_set h hc rfl rfl rfl ⟨(h.conn k c hc).drained, (h.conn k c hc).noWait, (h.conn k c hc).quiet⟩ (Nat.le_refl _) (fun _ _ => .inl rfl)
      (fun _ _ h => h) (Nat.le_refl _) id (fun _ _ _ _ _ _ h => .inl h)
  | @poll ks hbt =>
    have key : ∀ (k : Nat) d, (s.conns.mapIdx fun k c => if k ∈ ks then { c with edge := false } else c)[k]? = some d →
        ∃ c, s.conns[k]? = some c ∧ d = if k ∈ ks then { c with edge := false } else c := by
      intro k d hd
      simp only [List.getElem?_mapIdx, Option.map_eq_some_iff] at hd
      obtain ⟨c, h1, rfl⟩ := hd
      exact ⟨c, h1, rfl⟩
    refine ⟨?_, ?_, ?_, ?_, ?_, ?_⟩
    · intro k d hd
      obtain ⟨c, hc, rfl⟩ := key k d hd
      have := h.conn k c hc
      split
      · exact ⟨this.drained, this.noWait, this.quiet⟩
      · exact this
    · intro ho k d hd hi
      obtain ⟨c, hc, rfl⟩ := key k d hd
      by_cases hk : k ∈ ks
      · exact .inr (.inl hk)
      · simp only [hk, if_false] at hi ⊢
        rcases h.told ho k c hc hi with h1 | h1 | h1
        · exact .inl h1
        · rw [hbt] at h1; cases h1
        · exact .inr (.inr h1)
    · intro j k a d hj hd
      obtain ⟨c, hc, rfl⟩ := key k d hd
      have := h.before j k a c hj hc
      split <;> exact this
    · intro w j k a d hj hd hw hp hl
      obtain ⟨c, hc, rfl⟩ := key k d hd
      have := h.left w j k a c hj hc hw hp (by revert hl; split <;> exact id)
      split <;> exact this
    · intro j k a d hj hd hf hl
      obtain ⟨c, hc, rfl⟩ := key k d hd
      have := h.done j k a c hj hc hf (by revert hl; split <;> exact id)
      split <;> exact this
    · intro j k a d hj hd hf
      obtain ⟨c, hc, rfl⟩ := key k d hd
      have := h.dead j k a c hj hc hf
      split <;> exact this
  | @skip k b c hc hi hbt =>
    refine ⟨h.conn, ?_, h.before, h.left, h.done, h.dead⟩
    intro ho k' d hd hi'
    rcases h.told ho k' d hd hi' with h1 | h1 | h1
    · exact .inl h1
    · rcases hbt with h2 | h2
      · rw [h2] at h1; exact .inr (.inl h1)
      · rw [h2] at h1
        rcases List.mem_cons.1 h1 with rfl | h1
        · dsimp only at hd
          rw [hc] at hd; cases hd
          rw [hi] at hi'; cases hi'
        · exact .inr (.inl h1)
    · exact .inr (.inr h1)
  | @remove k b c hc hbt =>
    refine told_set (s := s) (k := k) (c := c) h hc rfl rfl rfl ⟨(h.conn k c hc).drained, (h.conn k c hc).noWait, (h.conn k c hc).quiet⟩ (Nat.le_refl _) (by simp)
      ?_ (Nat.le_refl _) id (fun _ _ _ _ _ _ h => .inl h)
    intro k' hne h1
    rcases hbt with h2 | h2
    · rw [h2] at h1; exact h1
    · rw [h2] at h1
      rcases List.mem_cons.1 h1 with rfl | h1
      · exact absurd rfl hne
      · exact h1
  | @execute k b c pool hc hi hbt hp ho =>
    rcases pool_execute hp with ⟨-, -, he⟩ | ⟨hn, -⟩
    · have old : ∀ {j : Nat} {x : Nat × Nat}, (s.jobs ++ [(k, c.arrived.length)])[j]? = some x → s.jobs[j]? = some x ∨ j = s.jobs.length ∧ x = (k, c.arrived.length) := by
        intro j x hj
        by_cases hjl : j < s.jobs.length
        · rw [List.getElem?_append_left hjl] at hj
          exact .inl hj
        · rw [List.getElem?_append_right (by omega)] at hj
          have hz : j - s.jobs.length = 0 := by
            have := (List.getElem?_eq_some_iff.1 hj).1
            simp at this
            omega
          rw [hz] at hj
          cases hj
          exact .inr ⟨by omega, rfl⟩
      refine ⟨h.conn, ?_, ?_, ?_, ?_, ?_⟩
      · intro ho k' d hd hi'
        replace ho : s.pool.owner = .using := by dsimp only at ho; rw [he] at ho; exact ho
        by_cases hk : k' = k
        · subst hk
          dsimp only at hd
          rw [hc] at hd; cases hd
          exact .inr (.inr ⟨s.jobs.length, by simp⟩)
        · rcases h.told ho k' d hd hi' with h1 | h1 | ⟨j, h1⟩
          · exact .inl h1
          · rcases hbt with h2 | h2
            · rw [h2] at h1; exact .inr (.inl h1)
            · rw [h2] at h1
              rcases List.mem_cons.1 h1 with rfl | h1
              · exact absurd rfl hk
              · exact .inr (.inl h1)
          · exact .inr (.inr ⟨j, by rw [List.getElem?_append_left (List.getElem?_eq_some_iff.1 h1).1]; exact h1⟩)
      · intro j k' a d hj hd
        rcases old hj with h1 | ⟨rfl, h1⟩
        · exact h.before j k' a d h1 hd
        · cases h1
          dsimp only at hd
          rw [hc] at hd; cases hd
          exact Nat.le_refl _
      · intro w j k' a d hj hd hw hph hl
        dsimp only at hw
        rw [he] at hw
        rcases old hj with h1 | ⟨rfl, h1⟩
        · exact h.left w j k' a d h1 hd hw hph hl
        · exact absurd (lt_jobs (.inl ⟨w, hw⟩)) (by omega)
      · intro j k' a d hj hd hf hl
        dsimp only at hf
        rw [he] at hf
        rcases old hj with h1 | ⟨rfl, h1⟩
        · exact h.done j k' a d h1 hd hf hl
        · exact absurd (lt_jobs (.inr (.inl hf))) (by omega)
      · intro j k' a d hj hd hf
        dsimp only at hf
        rw [he] at hf
        rcases old hj with h1 | ⟨rfl, h1⟩
        · exact h.dead j k' a d h1 hd hf
        · exact absurd (lt_jobs (.inr (.inr hf))) (by omega)
    · exact absurd ho hn
  | @fail k b pool hbt hp ho =>
    rcases pool_execute hp with ⟨hy, -⟩ | ⟨-, -, he⟩
    · exact absurd hy ho
    · refine ⟨h.conn, fun hy => absurd hy ho, h.before, ?_, ?_, ?_⟩
      · intro w j k a d hj hd hw
        exact h.left w j k a d hj hd (by dsimp only at hw; rw [he] at hw; exact hw)
      · intro j k a d hj hd hf
        exact h.done j k a d hj hd (by dsimp only at hf; rw [he] at hf; exact hf)
      · intro j k a d hj hd hf
        exact h.dead j k a d hj hd (by dsimp only at hf; rw [he] at hf; exact hf)
  | @work w pool hn hp =>
    obtain ⟨h1, h2, h3, h4⟩ := pool_work hn hp
    refine ⟨h.conn, fun ho => h.told (by rw [← pool_owner hp]; exact ho), h.before, ?_, ?_, ?_⟩
    · intro w' j k a d hj hd hw hph hl
      by_cases hww : w' = w
      · subst hww
        simp [Net.setPhase] at hph
      · simp only [Net.setPhase, hww, if_false] at hph
        exact h.left w' j k a d hj hd (by rw [← h4 w' hww]; exact hw) hph hl
    · intro j k a d hj hd hf
      exact h.done j k a d hj hd (by rw [← h1]; exact hf)
    · intro j k a d hj hd hf
      exact h.dead j k a d hj hd (by rw [← h2]; exact hf)
  | @enterPoisoned w k c conn evs pool hk hc hp hl hsl hpool =>
    exact told_end (n := n) (s := s) (c' := { c with wakes := c.wakes ++ [evs] }) h hk hc hpool rfl (fun _ _ => rfl) rfl rfl rfl rfl rfl rfl
      (.inl ⟨rfl, by simp [hsl, Net.isLive]⟩)
  | @enterGone w k c conn evs hk hc hp hl hsl =>
    refine told_set h hc rfl rfl rfl ⟨(h.conn k c hc).drained, (h.conn k c hc).noWait, (h.conn k c hc).quiet⟩ (Nat.le_refl _) (fun ho => h.told ho k c hc) (fun _ _ h => h)
      (Nat.le_refl _) id ?_
    intro w' j k' a hw hj hph
    by_cases hww : w' = w
    · subst hww
      obtain ⟨j', a', h1, h2⟩ := handled_iff.1 hk
      rw [hw] at h1; cases h1
      rw [hj] at h2; cases h2
      exact .inr ⟨rfl, by simp [hsl, Net.isLive]⟩
    · simp only [Net.setPhase, hww, if_false] at hph
      exact .inl hph
  | @enter w k c conn evs hk hc hp hl hsl =>
    refine told_set h hc rfl rfl rfl ?_ (Nat.le_refl _) (fun ho => h.told ho k c hc) (fun _ _ h => h) (Nat.le_refl _) ?_ ?_
    · exact ok_live (h.conn k c hc) hsl (conn' := { conn with writer := { conn.writer with sock := { conn.writer.sock with evs } } }) (by simp only [hsl]; rfl) rfl rfl (List.suffix_refl _)
    · rw [hsl]; simp [Net.isLive]
    · intro w' j k' a hw hj hph
      by_cases hww : w' = w
      · subst hww
        simp [Net.setPhase] at hph
      · simp only [Net.setPhase, hww, if_false] at hph
        exact .inl hph
  | @go w k c s' hk hc hl ha =>
    cases ha with
    | @move p slot d hm =>
      obtain ⟨h1, h2, h3, h4⟩ := hm.told (h.conn k c hc)
      refine told_set h hc rfl rfl rfl h1 (Nat.le_refl _) (fun ho => h.told ho k c hc) (fun _ _ h => h) h2 h3 ?_
      intro w' j k' a hw hj hph
      by_cases hww : w' = w
      · subst hww
        simp only [Net.setPhase, if_true] at hph
        obtain ⟨j', a', h5, h6⟩ := handled_iff.1 hk
        rw [hw] at h5; cases h5
        rw [hj] at h6; cases h6
        refine .inr ⟨rfl, fun hlv => ?_⟩
        have := h4 hph hlv
        dsimp only
        rw [this]
        exact h.before j _ a c hj hc
      · simp only [Net.setPhase, hww, if_false] at hph
        exact .inl hph
    | ask hph' hsl hr =>
      refine told_set h hc rfl rfl rfl ⟨(h.conn k c hc).drained, (h.conn k c hc).noWait, (h.conn k c hc).quiet⟩ (Nat.le_refl _) (fun ho => h.told ho k c hc) (fun _ _ h => h)
        (Nat.le_refl _) id ?_
      intro w' j k' a hw hj hph
      by_cases hww : w' = w
      · subst hww
        simp [Net.setPhase] at hph
      · simp only [Net.setPhase, hww, if_false] at hph
        exact .inl hph
    | crash _ hsl _ hp => exact told_end (n := n) h hk hc hp rfl (fun _ _ => rfl) rfl rfl rfl rfl rfl rfl (.inl ⟨rfl, rfl⟩)
    | crashAsk _ hsl _ hp => exact told_end (n := n) h hk hc hp rfl (fun _ _ => rfl) rfl rfl rfl rfl rfl rfl (.inl ⟨rfl, rfl⟩)
    | leave hph hp =>
      exact told_end (n := n) h hk hc hp rfl (fun w' hw => by simp [Net.setPhase, Net.setConn, hw]) rfl rfl rfl rfl rfl rfl (.inr ⟨rfl, hph, rfl⟩)

end Verif
