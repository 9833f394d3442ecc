import Verif.Proofs.NetReturn
import Verif.Proofs.NetIdle
import Verif.Proofs.NetBlame
import Verif.Spec.Progress

/-!
When nothing arrives any more, everything is read and answered.
-/

namespace Verif

variable {σ : Type} {prof : Profile} {rt : Router σ} {n N : Nat} {s₀ : σ}

/-- Nothing is left to be read. -/
def NConn.Empty (c : NConn σ) : Prop := ∀ conn, c.slot = .live conn → conn.reader.src.atoms = []

theorem readRequest_writer {c c' : Conn Rd Nbw} {x : ReadRequestResult} (h : c.readRequest prof = (x, c')) : c'.writer = c.writer := by
  have hc : (c.readRequest prof).2.writer = c.writer := by
    unfold Conn.readRequest
    split
    · rfl
    · split
      · rfl
      · split <;> rfl
    all_goals rfl
  rw [h] at hc
  exact hc

theorem Move.keeps {p p' : Phase} {x x' : Slot Rd Nbw} {a d d' : Nat} (h : Move prof p x a d p' x' d') :
    x.conn.writer.sock.sent <+: x'.conn.writer.sock.sent ∧
      ((∀ conn, x = .live conn → conn.reader.src.atoms = []) → ∀ conn, x' = .live conn → conn.reader.src.atoms = []) := by
  have hr : ∀ {c c' : Conn Rd Nbw} {y : ReadRequestResult}, c.readRequest prof = (y, c') → c.reader.src.atoms = [] → c'.reader.src.atoms = [] := by
    intro c c' y h h0
    have := (readRequest_atoms h).1
    rw [h0] at this
    exact List.suffix_nil.1 this
  have hw : ∀ {w w' : Nbw} {a : ListenerResult} {y : IoRes}, writeAnswer w a = (y, w') → w.sock.sent <+: w'.sock.sent := by
    intro w w' a y h
    have := writeAnswer_grows (P := fun v : Nbw => w.sock.sent <+: v.sock.sent) (fun v b => nbw_write_grows v b) (fun v => nbw_flush_grows v) w a (List.prefix_refl _)
    rw [h] at this
    exact this
  have hf : ∀ {w w' : Nbw} {y : Except IoError Unit}, Write.flush w = (y, w') → w.sock.sent <+: w'.sock.sent := by
    intro w w' y h
    have := nbw_flush_grows w (List.prefix_refl _)
    rw [h] at this
    exact this
  cases h with
  | flushErr h => exact ⟨hf h, by simp⟩
  | flushOk h => exact ⟨hf h, fun h0 conn he => by have := h0 _ rfl; cases he; exact this⟩
  | ready h => exact ⟨by simp only [Slot.conn, readRequest_writer h]; exact List.prefix_refl _, fun h0 conn he => by cases he; exact hr h (h0 _ rfl)⟩
  | notReady h => exact ⟨by simp only [Slot.conn, readRequest_writer h]; exact List.prefix_refl _, fun h0 conn he => by cases he; exact hr h (h0 _ rfl)⟩
  | closed h => exact ⟨by simp only [Slot.conn, readRequest_writer h]; exact List.prefix_refl _, by simp⟩
  | @refused c c' e x wr _ _ h h2 =>
    refine ⟨?_, by simp⟩
    have h3 : c'.writer.sock.sent <+: (writeErrorResponse c'.writer).2.sock.sent :=
      short_grows (P := fun v : Nbw => c'.writer.sock.sent <+: v.sock.sent) (fun v b => nbw_write_grows v b) (fun v => nbw_flush_grows v) c'.writer _ (List.prefix_refl _)
    rw [h2, readRequest_writer h] at h3
    exact h3
  | wrote h => exact ⟨hw h, fun h0 conn he => by have := h0 _ rfl; cases he; exact this⟩
  | asked h => exact ⟨hw h, by simp⟩
  | failed h => exact ⟨hw h, by simp⟩

theorem NStep.keeps {s s' : Net σ} (h : NStep prof rt s s') {k : Nat} {c : NConn σ} (hc : s.conns[k]? = some c) :
    ∃ c', s'.conns[k]? = some c' ∧ c.slot.conn.writer.sock.sent <+: c'.slot.conn.writer.sock.sent ∧
      (c'.arrived.length ≤ c.arrived.length → c.Empty → c'.Empty) := by
  have hkl := (List.getElem?_eq_some_iff.1 hc).1
  have set : ∀ {s' : Net σ} {k' : Nat} {d d' : NConn σ}, s.conns[k']? = some d → s'.conns = (s.setConn k' d').conns →
      d.slot.conn.writer.sock.sent <+: d'.slot.conn.writer.sock.sent → (d'.arrived.length ≤ d.arrived.length → d.Empty → d'.Empty) →
      ∃ c', s'.conns[k]? = some c' ∧ c.slot.conn.writer.sock.sent <+: c'.slot.conn.writer.sock.sent ∧
        (c'.arrived.length ≤ c.arrived.length → c.Empty → c'.Empty) := by
    intro s' k' d d' hd he h1 h2
    rw [he]
    simp only [Net.setConn, List.getElem?_set]
    by_cases hk : k' = k
    · subst hk
      rw [hc] at hd; cases hd
      exact ⟨d', by simp [hkl], h1, h2⟩
    · exact ⟨c, by simp [hk, hc], List.prefix_refl _, fun _ h => h⟩
  have rfl' : ∀ {b : Bytes}, b <+: b := List.prefix_refl _
  cases h with
  | accept => exact ⟨c, by dsimp only; rw [List.getElem?_append_left hkl]; exact hc, rfl', fun _ h => h⟩
  | @arrive k' ev d cn hd hs =>
    refine set hd rfl ?_ ?_
    · rw [hs]; exact rfl'
    · intro h
      simp only [List.length_append, List.length_cons, List.length_nil] at h
      omega
  | notify hd => exact set hd rfl rfl' fun _ h => h
  | poll =>
    simp only [List.getElem?_mapIdx, hc, Option.map_some, Option.some.injEq, exists_eq_left']
    split <;> exact ⟨rfl', fun _ h => h⟩
  | skip => exact ⟨c, hc, rfl', fun _ h => h⟩
  | remove hd => exact set hd rfl rfl' fun _ h => h
  | execute => exact ⟨c, hc, rfl', fun _ h => h⟩
  | fail => exact ⟨c, hc, rfl', fun _ h => h⟩
  | work => exact ⟨c, hc, rfl', fun _ h => h⟩
  | enterPoisoned _ hd => exact set hd rfl rfl' fun _ h => h
  | enterGone _ hd => exact set hd rfl rfl' fun _ h => h
  | enter _ hd _ _ hs =>
    refine set hd rfl ?_ ?_
    · rw [hs]; exact rfl'
    · intro _ h0 conn he
      rw [hs] at he
      have := h0 _ hs
      cases he
      exact this
  | go _ hd _ ha =>
    cases ha with
    | move hm =>
      obtain ⟨h1, h2⟩ := hm.keeps
      exact set hd rfl h1 fun _ h0 => h2 h0
    | ask hph hs => exact set hd rfl rfl' fun _ h => h
    | crash hph hs hr hp =>
      refine set hd rfl ?_ fun _ _ conn he => by cases he
      rw [hs]
      simp only [Slot.conn, readRequest_writer hr]
      exact rfl'
    | crashAsk hph hs hr hp =>
      refine set hd rfl ?_ fun _ _ conn he => by cases he
      rw [hs]; exact rfl'
    | leave hph hp => exact set hd rfl rfl' fun _ h => h

theorem NStep.arrivedPrefix {s s' : Net σ} (h : NStep prof rt s s') {k : Nat} {c : NConn σ} (hc : s.conns[k]? = some c) :
    ∃ c', s'.conns[k]? = some c' ∧ c.arrived <+: c'.arrived := by
  have hkl := (List.getElem?_eq_some_iff.1 hc).1
  have set : ∀ {s' : Net σ} {k' : Nat} {d d' : NConn σ}, s.conns[k']? = some d → s'.conns = (s.setConn k' d').conns → d.arrived <+: d'.arrived →
      ∃ c', s'.conns[k]? = some c' ∧ c.arrived <+: c'.arrived := by
    intro s' k' d d' hd he h1
    rw [he]
    simp only [Net.setConn, List.getElem?_set]
    by_cases hk : k' = k
    · subst hk
      rw [hc] at hd; cases hd
      exact ⟨d', by simp [hkl], h1⟩
    · exact ⟨c, by simp [hk, hc], List.prefix_refl _⟩
  have rfl' : ∀ {b : List Ev}, b <+: b := List.prefix_refl _
  cases h with
  | accept => exact ⟨c, by dsimp only; rw [List.getElem?_append_left hkl]; exact hc, rfl'⟩
  | arrive hd hs => exact set hd rfl (List.prefix_append _ _)
  | notify hd => exact set hd rfl rfl'
  | poll =>
    simp only [List.getElem?_mapIdx, hc, Option.map_some, Option.some.injEq, exists_eq_left']
    split <;> exact rfl'
  | skip => exact ⟨c, hc, rfl'⟩
  | remove hd => exact set hd rfl rfl'
  | execute => exact ⟨c, hc, rfl'⟩
  | fail => exact ⟨c, hc, rfl'⟩
  | work => exact ⟨c, hc, rfl'⟩
  | enterPoisoned _ hd => exact set hd rfl rfl'
  | enterGone _ hd => exact set hd rfl rfl'
  | enter _ hd => exact set hd rfl rfl'
  | go _ hd _ ha => cases ha <;> exact set hd rfl rfl'

theorem NStep.asksPrefix {s s' : Net σ} (h : NStep prof rt s s') : s.asks <+: s'.asks := by
  cases h with
  | go _ _ _ hg => cases hg <;> simp [Net.setConn, Net.setPhase]
  | _ => simp [Net.setConn, Net.setPhase]

theorem asksOn_prefix {k : Nat} {as bs : List (Nat × Request × σ)} (h : as <+: bs) : asksOn k as <+: asksOn k bs := by
  unfold asksOn
  obtain ⟨x, rfl⟩ := h
  simp

/-! ## Runs -/

theorem Net.Run.asksPrefix (r : Net.Run prof rt n s₀) {t t' : Nat} (h : t ≤ t') : (r.at_ t).asks <+: (r.at_ t').asks := by
  obtain ⟨d, rfl⟩ := Nat.exists_eq_add_of_le h
  induction d with
  | zero => exact List.prefix_refl _
  | succ d ih =>
    refine (ih (by omega)).trans ?_
    rcases r.nstep (t + d) with h | h
    · rw [← Nat.add_assoc, h]; exact List.prefix_refl _
    · exact h.asksPrefix

theorem Net.Run.sentPrefix (r : Net.Run prof rt n s₀) {t t' k : Nat} (h : t ≤ t') {c : NConn σ} (hc : (r.at_ t).conns[k]? = some c) :
    ∃ c', (r.at_ t').conns[k]? = some c' ∧ c.slot.conn.writer.sock.sent <+: c'.slot.conn.writer.sock.sent := by
  obtain ⟨d, rfl⟩ := Nat.exists_eq_add_of_le h
  induction d with
  | zero => exact ⟨c, hc, List.prefix_refl _⟩
  | succ d ih =>
    obtain ⟨c', h1, h2⟩ := ih (by omega)
    rcases r.nstep (t + d) with h | h
    · exact ⟨c', by rw [← Nat.add_assoc, h]; exact h1, h2⟩
    · obtain ⟨c'', h3, h4, -⟩ := h.keeps h1
      exact ⟨c'', h3, h2.trans h4⟩

theorem Net.Run.arrivedPrefix (r : Net.Run prof rt n s₀) {t t' k : Nat} (h : t ≤ t') {c : NConn σ} (hc : (r.at_ t).conns[k]? = some c) :
    ∃ c', (r.at_ t').conns[k]? = some c' ∧ c.arrived <+: c'.arrived := by
  obtain ⟨d, rfl⟩ := Nat.exists_eq_add_of_le h
  induction d with
  | zero => exact ⟨c, hc, List.prefix_refl _⟩
  | succ d ih =>
    obtain ⟨c', h1, h2⟩ := ih (by omega)
    rcases r.nstep (t + d) with h | h
    · exact ⟨c', by rw [← Nat.add_assoc, h]; exact h1, h2⟩
    · obtain ⟨c'', h3, h4⟩ := h.arrivedPrefix h1
      exact ⟨c'', h3, h2.trans h4⟩

/-- From some time on everything that has arrived was read. -/
theorem Net.Run.settles (r : Net.Run prof rt n s₀) (hg : r.Going) (he : r.Ends) (hcr : ∀ t, (r.at_ t).pool.crashed.length < n) {k : Nat}
    (hk : ∃ t c, (r.at_ t).conns[k]? = some c) (hin : ∀ t c, (r.at_ t).conns[k]? = some c → c.inTable = true) :
    ∃ T, ∀ t ≥ T, ∃ c, (r.at_ t).conns[k]? = some c ∧ c.Empty := by
  obtain ⟨T₀, hT₀⟩ := he.silent k
  obtain ⟨t₀, c₀, hc₀⟩ := hk
  obtain ⟨T, h1, h2⟩ := r.quiet (r.fair hg he) hcr k (max t₀ T₀)
  have h1' : t₀ ≤ T ∧ T₀ ≤ T := by omega
  obtain ⟨c, h3, -⟩ := r.mono hc₀ (T - t₀)
  rw [show t₀ + (T - t₀) = T by omega] at h3
  refine ⟨T, fun t ht => ?_⟩
  obtain ⟨d, rfl⟩ := Nat.exists_eq_add_of_le ht
  clear ht
  induction d with
  | zero =>
    refine ⟨c, h3, fun conn hs => ?_⟩
    rcases h2 with h2 | h2
    · exact absurd ⟨c, h3, hin T c h3, by rw [hs]; rfl⟩ h2
    · exact Classical.byContradiction fun h4 => h2 ⟨c, conn, h3, hs, h4⟩
  | succ d ih =>
    obtain ⟨c', h4, h5⟩ := ih
    rcases r.nstep (T + d) with h | h
    · exact ⟨c', by rw [← Nat.add_assoc, h]; exact h4, h5⟩
    · obtain ⟨c'', h6, -, h7⟩ := h.keeps h4
      exact ⟨c'', h6, h7 (hT₀ (T + d) (by omega) c' c'' h4 h6) h5⟩

/-- Again and again nobody uses a connection on which nothing arrives any more. -/
theorem Net.Run.unused (r : Net.Run prof rt n s₀) (hg : r.Going) (he : r.Ends) {k t : Nat} {c : NConn σ} (hc : (r.at_ t).conns[k]? = some c) :
    ∃ t' ≥ t, ∃ c', (r.at_ t').conns[k]? = some c' ∧ c'.lock = none := by
  obtain ⟨T₀, hT₀⟩ := he.silent k
  obtain ⟨c₁, h1, -⟩ := r.mono hc (max t T₀ - t)
  rw [show t + (max t T₀ - t) = max t T₀ by omega] at h1
  cases hl : c₁.lock with
  | none => exact ⟨_, by omega, c₁, h1, hl⟩
  | some w =>
    obtain ⟨u, h2, c₂, h3, h4, -⟩ := r.releases hg hT₀ w _ (max t T₀) (by omega) ⟨c₁, h1, hl, Nat.le_refl _⟩
    exact ⟨u, by omega, c₂, h3, h4⟩

theorem AnsweredIn.unique {as : List (Request × σ)} {o o' : Bytes} (h : AnsweredIn rt as o) (h' : AnsweredIn rt as o') : o = o' := by
  induction h generalizing o' with
  | nil => cases h'; rfl
  | cons h1 _ ih =>
    cases h' with
    | cons h2 h3 => rw [h1] at h2; cases h2; rw [ih h3]
    | panic h2 => rw [h1] at h2; cases h2
  | panic h1 =>
    cases h' with
    | cons h2 h3 => rw [h1] at h2; cases h2
    | panic h2 => rfl

/-- From some time on all requests have been asked about, and whenever nobody uses the connection all answers are sent or in its buffer. -/
theorem Net.Run.answers (r : Net.Run prof rt n s₀) (hg : r.Going) (he : r.Ends) (hcr : ∀ t, (r.at_ t).pool.crashed.length < n) {k : Nat}
    {ms : List (Bytes × Request)} (hs : r.Sends N k ms) :
    ∃ T as out, as.map Prod.fst = ms.map Prod.snd ∧ AnsweredIn rt as out ∧ ∀ t ≥ T, asksOn k (r.at_ t).asks = as ∧ ∃ c, (r.at_ t).conns[k]? = some c ∧
      c.slot.conn.writer.sock.sent <+: out ∧ (c.lock = none → (∃ conn, c.slot = .live conn) ∧ c.slot.conn.writer.total = out) := by
  obtain ⟨t₀, c₀, hc₀, hall⟩ := hs.all
  obtain ⟨T₁, hT₁⟩ := r.settles hg he hcr ⟨t₀, c₀, hc₀⟩ hs.stays
  have hidle : ∀ t ≥ max t₀ T₁, ∀ c, (r.at_ t).conns[k]? = some c → c.lock = none → (∃ conn, c.slot = .live conn) ∧
      (asksOn k (r.at_ t).asks).map Prod.fst = ms.map Prod.snd ∧ AnsweredIn rt (asksOn k (r.at_ t).asks) c.slot.conn.writer.total := by
    intro t ht c hc hl
    have ht' : t₀ ≤ t ∧ T₁ ≤ t := by omega
    obtain ⟨conn, hconn⟩ := stays_open (r.reach t) hc hl hs.size (hs.listeners t) hs.requests (hs.text t c hc) (hs.socket t c hc) (hs.flushes t c hc)
    obtain ⟨c', h1, h2⟩ := hT₁ t ht'.2
    rw [hc] at h1; cases h1
    have harr : bytesOf (c.arrived.flatMap Ev.atoms) = ms.flatMap Prod.fst := by
      obtain ⟨c', h1, h3⟩ := r.arrivedPrefix ht'.1 hc₀
      rw [hc] at h1; cases h1
      refine List.IsPrefix.eq_of_length_le (hs.text t c hc).text ?_
      rw [← hall]
      obtain ⟨x, hx⟩ := h3
      rw [← hx, List.flatMap_append, bytesOf_app]
      simp
    obtain ⟨h3, h4⟩ := idle_answered (r.reach t) hc hl hconn (h2 conn hconn) hs.size (fun a ha => (hs.listeners t a ha).1)
      (fun m hm => (hs.requests m hm).1) (hs.text t c hc) harr (fun e he => (hs.socket t c hc e he).1)
    exact ⟨⟨conn, hconn⟩, h3, by rw [hconn]; exact h4⟩
  obtain ⟨c₁, h1, -⟩ := r.mono hc₀ (max t₀ T₁ - t₀)
  rw [show t₀ + (max t₀ T₁ - t₀) = max t₀ T₁ by omega] at h1
  obtain ⟨T, h2, c₂, h3, h4⟩ := r.unused hg he h1
  obtain ⟨h5, h6, h7⟩ := hidle T h2 c₂ h3 h4
  refine ⟨T, _, _, h6, h7, fun t ht => ?_⟩
  obtain ⟨c, h8, -⟩ := r.sentPrefix ht h3
  have hser := C60_server_partial (r.reach t) h8 hs.size (fun a ha => (hs.listeners t a ha).1) (fun m hm => (hs.requests m hm).1) (hs.text t c h8)
    (fun e he => (hs.socket t c h8 e he).1)
  have hasks : asksOn k (r.at_ t).asks = asksOn k (r.at_ T).asks := by
    symm
    refine List.IsPrefix.eq_of_length_le (asksOn_prefix (r.asksPrefix ht)) ?_
    have h9 := hser.1.length_le
    have h10 := congrArg List.length h6
    simp only [List.length_map] at h9 h10
    omega
  obtain ⟨out, h9, h10⟩ := hser.2
  rw [hasks] at h9
  cases h9.unique h7
  refine ⟨hasks, c, h8, h10, fun hl => ?_⟩
  obtain ⟨k1, k2, k3⟩ := hidle t (by omega) c h8 hl
  rw [hasks] at k3
  exact ⟨k1, k3.unique h7⟩

/-! ## The buffer is sent -/

theorem flush_sent (w : Nbw) : w.flush.2.sock.sent = w.sock.sent ++ w.pending.take (room w.sock.evs) := by
  have h1 := wub_sent w.sock (w.buf.drop w.pos)
  have hin : ∀ v : Nbw, v.flushInner.2.sock.sent = v.sock.sent := by
    intro v
    unfold Nbw.flushInner Sock.flush
    split <;> (next h => split at h <;> cases h <;> rfl)
  have hb : w.flushBuf.2.sock = (w.sock.writeUntilBlocked (w.buf.drop w.pos)).2 := by
    unfold Nbw.flushBuf
    generalize w.sock.writeUntilBlocked (w.buf.drop w.pos) = y
    obtain ⟨y, sk⟩ := y
    cases y with
    | error e => rfl
    | ok m => dsimp only; split <;> rfl
  unfold Nbw.flush
  generalize w.flushBuf = y at hb
  obtain ⟨y, w'⟩ := y
  dsimp only at hb
  cases y with
  | error e => dsimp only; rw [hb, h1]; rfl
  | ok u => dsimp only; rw [hin, hb, h1]; rfl

/-- Worker `w` is about to flush the buffer of connection `k`, and all that was written is `out`. -/
def Net.Flushes (s : Net σ) (k w : Nat) (out : Bytes) : Prop := ∃ c conn, s.conns[k]? = some c ∧ c.lock = some w ∧ s.phase w = .flushing ∧
  c.slot = .live conn ∧ conn.writer.total = out ∧ conn.writer.pending.length ≤ room conn.writer.sock.evs

theorem NStep.flushes {s s' : Net σ} (h : NStep prof rt s s') (hb : s.Base n) {k w : Nat} {out : Bytes} (hf : s.Flushes k w out)
    (harr : ∀ c c', s.conns[k]? = some c → s'.conns[k]? = some c' → c'.arrived.length ≤ c.arrived.length) :
    s'.Flushes k w out ∨ ∃ c', s'.conns[k]? = some c' ∧ c'.slot.conn.writer.sock.sent = out := by
  obtain ⟨c, conn, hc, hl, hp, hs, ht, hr⟩ := hf
  obtain ⟨hk, hph⟩ := (hb.lock k w c hc).1 hl
  obtain ⟨j, a, h3, h4⟩ := handled_iff.1 hk
  have hkl := (List.getElem?_eq_some_iff.1 hc).1
  have set : ∀ {k' : Nat} {d d' : NConn σ}, s.conns[k']? = some d → s'.conns = (s.setConn k' d').conns → s'.phase w = s.phase w →
      (k' = k → d'.lock = d.lock ∧ d'.slot = d.slot) → s'.Flushes k w out := by
    intro k' d d' hd he h1 h2
    by_cases hkk : k' = k
    · subst hkk
      rw [hc] at hd; cases hd
      obtain ⟨h5, h6⟩ := h2 rfl
      exact ⟨d', conn, by rw [he]; simp [Net.setConn, hkl], by rw [h5, hl], by rw [h1, hp], by rw [h6, hs], ht, hr⟩
    · exact ⟨c, conn, by rw [he]; simp [Net.setConn, hkk, hc], hl, by rw [h1, hp], hs, ht, hr⟩
  have same : s'.conns = s.conns → s'.phase w = s.phase w → s'.Flushes k w out :=
    fun h1 h2 => ⟨c, conn, by rw [h1]; exact hc, hl, by rw [h2, hp], hs, ht, hr⟩
  cases h with
  | accept => exact .inl ⟨c, conn, by dsimp only; rw [List.getElem?_append_left hkl]; exact hc, hl, hp, hs, ht, hr⟩
  | @arrive k' ev d cn hd hs' =>
    refine .inl (set hd rfl rfl ?_)
    rintro rfl
    rw [hc] at hd; cases hd
    have := harr _ _ hc (by simp only [Net.setConn]; rw [List.getElem?_set_self hkl])
    simp only [List.length_append, List.length_cons, List.length_nil] at this
    omega
  | notify hd => exact .inl (set hd rfl rfl fun _ => ⟨rfl, rfl⟩)
  | @poll ks =>
    refine .inl ⟨if k ∈ ks then { c with edge := false } else c, conn, by simp [List.getElem?_mapIdx, hc], ?_, hp, ?_, ht, hr⟩
    · split <;> exact hl
    · split <;> exact hs
  | skip => exact .inl (same rfl rfl)
  | remove hd => exact .inl (set hd rfl rfl fun _ => ⟨rfl, rfl⟩)
  | execute => exact .inl (same rfl rfl)
  | fail => exact .inl (same rfl rfl)
  | @work w' pool hw hp' =>
    have : w ≠ w' := by rintro rfl; exact hw j h3
    exact .inl (same rfl (by simp [Net.setPhase, this]))
  | enterPoisoned hk' hd hph' hl' hs' hp' => exact .inl (set hd rfl rfl fun _ => ⟨rfl, rfl⟩)
  | @enterGone w' k' d _ _ hk' hd hph' hl' hs' =>
    have h5 : w ≠ w' := by rintro rfl; exact hph hph'
    refine .inl (set hd rfl (by simp [Net.setPhase, Net.setConn, h5]) ?_)
    rintro rfl
    rw [hc] at hd; cases hd
    rw [hl] at hl'; cases hl'
  | @enter w' k' d _ _ hk' hd hph' hl' hs' =>
    have h5 : w ≠ w' := by rintro rfl; exact hph hph'
    refine .inl (set hd rfl (by simp [Net.setPhase, Net.setConn, h5]) ?_)
    rintro rfl
    rw [hc] at hd; cases hd
    rw [hl] at hl'; cases hl'
  | @go w' k' d s' hk' hd hl' ha =>
    by_cases hww : w' = w
    · subst hww
      rw [hk] at hk'; cases hk'
      rw [hc] at hd; cases hd
      right
      have hfl : ∀ {y : Except IoError Unit} {wr : Nbw}, Write.flush conn.writer = (y, wr) → wr.sock.sent = out := by
        intro y wr h
        have h5 := flush_sent conn.writer
        rw [show conn.writer.flush = (y, wr) from h] at h5
        dsimp only at h5
        rw [h5, List.take_of_length_le hr, ← ht]
        rfl
      cases ha with
      | @move p' slot d' hm =>
        refine ⟨_, by simp only [Net.setConn, Net.setPhase]; rw [List.getElem?_set_self hkl], ?_⟩
        dsimp only
        rw [hp, hs] at hm
        cases hm with
        | flushErr h => exact hfl h
        | flushOk h => exact hfl h
      | ask hph' => rw [hp] at hph'; cases hph'
      | crash hph' => rw [hp] at hph'; cases hph'
      | crashAsk hph' => rw [hp] at hph'; cases hph'
      | leave hph' => rw [hp] at hph'; cases hph'
    · have hkk : k' ≠ k := by
        rintro rfl
        rw [hc] at hd; cases hd
        rw [hl] at hl'; cases hl'; exact hww rfl
      have hww' : w ≠ w' := fun h => hww h.symm
      left
      cases ha with
      | move hm => exact set hd rfl (by simp [Net.setPhase, Net.setConn, hww']) fun h => absurd h hkk
      | ask hph hs => exact set hd rfl (by simp [Net.setPhase, Net.setConn, hww']) fun h => absurd h hkk
      | crash hph hs hr hp => exact set hd rfl rfl fun h => absurd h hkk
      | crashAsk hph hs hr hp => exact set hd rfl rfl fun h => absurd h hkk
      | leave hph hp => exact set hd rfl (by simp [Net.setPhase, Net.setConn, hww']) fun h => absurd h hkk

theorem Net.Run.sends (r : Net.Run prof rt n s₀) (hg : r.Going) (he : r.Ends) (hcr : ∀ t, (r.at_ t).pool.crashed.length < n) {k : Nat}
    {ms : List (Bytes × Request)} (hs : r.Sends N k ms) (htk : r.Takes k) :
    ∃ T as out, as.map Prod.fst = ms.map Prod.snd ∧ AnsweredIn rt as out ∧ ∀ t ≥ T, asksOn k (r.at_ t).asks = as ∧ ∃ c, (r.at_ t).conns[k]? = some c ∧
      c.slot.conn.writer.sock.sent = out := by
  obtain ⟨T, as, out, h1, h2, h3⟩ := r.answers hg he hcr hs
  obtain ⟨T₀, hT₀⟩ := he.silent k
  suffices hx : ∃ t ≥ T, ∃ c, (r.at_ t).conns[k]? = some c ∧ c.slot.conn.writer.sock.sent = out by
    obtain ⟨t, h4, c, h5, h6⟩ := hx
    refine ⟨t, as, out, h1, h2, fun u hu => ⟨(h3 u (by omega)).1, ?_⟩⟩
    obtain ⟨c', h7, h8⟩ := r.sentPrefix hu h5
    obtain ⟨-, c'', h9, h10, -⟩ := h3 u (by omega)
    rw [h7] at h9; cases h9
    rw [h6] at h8
    exact ⟨c', h7, h10.eq_of_length_le h8.length_le⟩
  obtain ⟨-, c₀, hc₀, -⟩ := h3 (max T T₀) (by omega)
  obtain ⟨t₁, ht₁, c₁, hc₁, hl₁⟩ := r.unused hg he hc₀
  obtain ⟨-, c₁', k1, -, k2⟩ := h3 t₁ (by omega)
  rw [hc₁] at k1; cases k1
  obtain ⟨-, k3⟩ := k2 hl₁
  by_cases hp : c₁.slot.conn.writer.pending = []
  · exact ⟨t₁, by omega, c₁, hc₁, by rw [← k3]; simp [Nbw.total, hp]⟩
  · obtain ⟨t₂, ht₂, w, evs, c₂, ha, hh, hc₂, hroom⟩ := htk t₁ c₁ hc₁ hl₁ hp
    have hn := r.next t₂
    rw [ha] at hn
    simp only [Net.step, hh, hc₂] at hn
    split at hn
    · next hpl =>
      obtain ⟨-, c₂', k1, -, k2⟩ := h3 t₂ (by omega)
      rw [hc₂] at k1; cases k1
      obtain ⟨⟨conn, hconn⟩, k4⟩ := k2 hpl.2
      have hkl := (List.getElem?_eq_some_iff.1 hc₂).1
      have hfl : (r.at_ (t₂ + 1)).Flushes k w out := by
        rw [hconn] at hroom k4
        unfold Net.enter at hn
        simp only [hconn] at hn
        rw [← Option.some.inj hn]
        refine ⟨_, _, by simp only [Net.setConn, Net.setPhase]; rw [List.getElem?_set_self hkl], rfl, by simp [Net.setPhase], rfl, ?_, ?_⟩
        · exact k4
        · exact hroom
      by_cases hx : ∃ t ≥ T, ∃ c, (r.at_ t).conns[k]? = some c ∧ c.slot.conn.writer.sock.sent = out
      · exact hx
      · exfalso
        have always : ∀ d, (r.at_ (t₂ + 1 + d)).Flushes k w out := by
          intro d
          induction d with
          | zero => exact hfl
          | succ d ih =>
            rcases r.nstep (t₂ + 1 + d) with h | h
            · rw [← Nat.add_assoc, h]; exact ih
            · rcases h.flushes (r.inv _).base ih (fun c c' => hT₀ _ (by omega) c c') with h5 | ⟨c', h5, h6⟩
              · exact h5
              · exact absurd ⟨_, by omega, c', h5, h6⟩ hx
        obtain ⟨c, conn', h5, h6, -⟩ := hfl
        obtain ⟨u, h7, c', h8, h9, h10⟩ := r.releases hg hT₀ w _ (t₂ + 1) (by omega) ⟨c, h5, h6, Nat.le_refl _⟩
        obtain ⟨d, rfl⟩ := Nat.exists_eq_add_of_le h7
        obtain ⟨c'', conn'', h11, h12, -⟩ := always d
        rw [h8] at h11; cases h11
        rw [h9] at h12; cases h12
    · cases hn

end Verif
