import Verif.Spec.Sent
import Verif.Proofs.Memory

/-!
What the requests that listeners see are made of: an invariant of open connections, and one of all connections.
-/

namespace Verif

variable {σ : Type} {prof : Profile} {rt : Router σ} {n : Nat} {s₀ : σ}

/-- What has arrived, as bytes. -/
abbrev sentOn (arr : List Ev) : Bytes := bytesOf (arr.flatMap Ev.atoms)

/-- The request that was read and not yet asked about. -/
def Phase.unasked : Option Phase → List Request
  | some (.asked q) => [q]
  | _ => []

/-- The requests read so far, the beginning of one that is being read, and what is left to read are made of what has arrived. -/
structure Traces (prof : Profile) (c : Conn Rd Nbw) (arr : List Ev) (seen : List (Request × σ)) (p : Option Phase) : Prop where
  lims : c.reader.lims = []
  made : ∃ (ms : List (Bytes × Request)) (single : Bool) (w : Bytes), ms.map Prod.snd = seen.map Prod.fst ++ Phase.unasked p ∧ (∀ m ∈ ms, RequestText m.1 m.2) ∧ RequestSt prof single (c.parser.getD .new) w ∧
    (ms.flatMap Prod.fst ++ (w ++ bytesOf c.reader.src.atoms)).Sublist (sentOn arr) ∧
    ((∀ b ∈ sentOn arr, b < 128) → ms.flatMap Prod.fst ++ (w ++ bytesOf c.reader.src.atoms) = sentOn arr)

theorem readRequest_made {c c' : Conn Rd Nbw} {x : ReadRequestResult} {single : Bool} {w : Bytes} (hl : c.reader.lims = []) (hst : RequestSt prof single (c.parser.getD .new) w)
    (h : c.readRequest prof = (x, c')) (hx : x = .notReady ∨ ∃ q, x = .ready q) :
    c'.reader.lims = [] ∧ ∃ single' w', RequestSt prof single' (c'.parser.getD .new) w' ∧
      (x = .notReady → (w' ++ bytesOf c'.reader.src.atoms).Sublist (w ++ bytesOf c.reader.src.atoms) ∧
        ((∀ b ∈ bytesOf c.reader.src.atoms, b < 128) → w' ++ bytesOf c'.reader.src.atoms = w ++ bytesOf c.reader.src.atoms)) ∧
      ∀ q, x = .ready q → ∃ t, RequestText t q ∧ t ++ (w' ++ bytesOf c'.reader.src.atoms) = w ++ bytesOf c.reader.src.atoms := by
  refine ⟨(readRequest_lims h hl).1, ?_⟩
  unfold Conn.readRequest at h
  have ha := requestParse_ahead (prof := prof) (p := c.parser.getD .new) (Rd.ahead_self hl)
  cases hq : RequestParser.parse prof (c.parser.getD .new) c.reader with
  | mk o r =>
  rw [hq] at h ha
  obtain ⟨h1, h2⟩ := request_run hst ha
  cases o with
  | done q =>
    cases h
    obtain ⟨pre, line, fs, f, bw, e1, -, e3, e4, e5, e6⟩ := h1 q rfl
    have e7 := e1.atoms
    simp only [Rd.abs] at e7
    refine ⟨true, [], MsgSt.start prof _ false, nofun, fun q' hq' => ?_⟩
    cases hq'
    refine ⟨w ++ bytesOf pre, ⟨line, fs, f, bw, e3, e4, e5⟩, ?_⟩
    rw [e7, bytesOf_append, List.nil_append, List.append_assoc]
  | io p e =>
    dsimp only at h
    split at h
    · next he =>
      subst he
      cases h
      obtain ⟨pre, k, d, e1, e2, e3, e4, -⟩ := h2 p _ rfl (by decide)
      have e7 := e1.atoms
      simp only [Rd.abs] at e7
      refine ⟨false, w ++ k, e4, fun _ => ?_, nofun⟩
      rw [e7, bytesOf_append, e2, List.append_assoc, List.append_assoc]
      refine ⟨(List.Sublist.refl _).append ((List.Sublist.refl _).append (List.sublist_append_right _ _)), fun ha => ?_⟩
      rcases e3 with rfl | e3
      · rfl
      · rw [utf8_ascii fun b hb => ha b (by simp [hb])] at e3
        cases e3
    · split at h <;> cases h <;> rcases hx with hx | ⟨q, hx⟩ <;> cases hx
  | _ => cases h; rcases hx with hx | ⟨q, hx⟩ <;> cases hx

theorem traces_kept : Kept prof rt (Traces (σ := σ) prof) where
  fresh offer grow growOk flushes := ⟨rfl, [], true, [], rfl, nofun, MsgSt.start prof _ false, by simp [Conn.new, Src.atoms, bytesOf, sentOn], fun _ => by simp [Conn.new, Src.atoms, bytesOf, sentOn]⟩
  arrive c arr seen p ev _ h := by
    obtain ⟨ms, s, w, h1, h2, h3, h4, h5⟩ := h.made
    have e1 : sentOn (arr ++ [ev]) = sentOn arr ++ bytesOf ev.atoms := by simp [sentOn, bytesOf_append]
    have e2 : ms.flatMap Prod.fst ++ (w ++ bytesOf ({ c.reader.src with evs := c.reader.src.evs ++ [ev] } : Src).atoms) = ms.flatMap Prod.fst ++ (w ++ bytesOf c.reader.src.atoms) ++ bytesOf ev.atoms := by
      simp [Src.atoms, bytesOf_append]
    refine ⟨h.lims, ms, s, w, h1, h2, h3, ?_, fun ha => ?_⟩
    · rw [e1]
      exact e2 ▸ h4.append (List.Sublist.refl _)
    · rw [e1] at ha ⊢
      exact e2.trans (by rw [h5 fun b hb => ha b (List.mem_append_left _ hb)])
  enter c arr seen evs h := ⟨h.lims, h.made⟩
  move c c' arr seen p p' d d' hm h := by
    obtain ⟨ms, s, w, h1, h2, h3, h4, h5⟩ := h.made
    cases hm with
    | flushOk hf => exact ⟨h.lims, h.made⟩
    | @ready _ _ q _ _ hr =>
      obtain ⟨g1, s', w', g2, -, g3⟩ := readRequest_made h.lims h3 hr (.inr ⟨_, rfl⟩)
      obtain ⟨t, g4, g5⟩ := g3 _ rfl
      refine ⟨g1, ms ++ [(t, q)], s', w', ?_, fun m hm => ?_, g2, ?_, fun ha => ?_⟩
      · rw [List.map_append, h1]
        simp [Phase.unasked]
      · rcases List.mem_append.1 hm with hm | hm
        · exact h2 m hm
        · obtain rfl := List.mem_singleton.1 hm
          exact g4
      · rw [List.flatMap_append, List.append_assoc]
        simpa [g5] using h4
      · rw [List.flatMap_append, List.append_assoc]
        simpa [g5] using h5 ha
    | notReady hr =>
      obtain ⟨g1, s', w', g2, g3, -⟩ := readRequest_made h.lims h3 hr (.inl rfl)
      refine ⟨g1, ms, s', w', h1, h2, g2, ((List.Sublist.refl _).append (g3 rfl).1).trans h4, fun ha => ?_⟩
      rw [(g3 rfl).2 fun b hb => ha b (h4.subset (by simp [hb]))]
      exact h5 ha
    | wrote hw hcl => exact ⟨h.lims, h.made⟩
  ask c arr seen q s a ha h := by
    obtain ⟨ms, s, w, h1, h2, h3, h4⟩ := h.made
    refine ⟨h.lims, ms, s, w, ?_, h2, h3, h4⟩
    simpa [Phase.unasked] using h1
  leave c arr seen h := ⟨h.lims, h.made⟩

/-- The requests that listeners were asked about are made of what has arrived, on every connection. -/
def Net.Made (s : Net σ) : Prop := ∀ (k : Nat) (c : NConn σ), s.conns[k]? = some c → MadeOf (sentOn c.arrived) (c.seen.map Prod.fst)

theorem Net.Made.set {s s' : Net σ} {k : Nat} {c c' : NConn σ} (h : s.Made) (hc : s.conns[k]? = some c) (e : s'.conns = (s.setConn k c').conns)
    (hs : MadeOf (sentOn c'.arrived) (c'.seen.map Prod.fst)) : s'.Made := by
  intro k' d hd
  rw [e] at hd
  rcases setConn_get hc hd with ⟨rfl, rfl⟩ | ⟨hne, hd⟩
  · exact hs
  · exact h k' d hd

theorem Traces.asked {c : Conn Rd Nbw} {arr : List Ev} {seen : List (Request × σ)} {q : Request} (h : Traces prof c arr seen (some (.asked q))) (st : σ) :
    MadeOf (sentOn arr) ((seen ++ [(q, st)]).map Prod.fst) := by
  obtain ⟨ms, s, w, h1, h2, h3, h4⟩ := h.made
  exact ⟨ms, by simpa [Phase.unasked] using h1, h2, (List.sublist_append_left _ _).trans h4.1, fun ha => ⟨_, h4.2 ha⟩⟩

theorem made_step {s s' : Net σ} (ht : s.All (Traces prof)) (h : s.Made) (hs : NStep prof rt s s') : s'.Made := by
  cases hs with
  | @accept offer grow growOk =>
    intro k c hk
    dsimp only at hk
    rw [List.getElem?_append] at hk
    split at hk
    · exact h k c hk
    · cases hd : k - s.conns.length with
      | zero => rw [hd] at hk; cases hk; exact ⟨[], rfl, nofun, List.nil_sublist _, fun _ => List.nil_prefix⟩
      | succ m => rw [hd] at hk; cases hk
  | @arrive k ev c cn hc hsl he =>
    refine h.set hc rfl ?_
    obtain ⟨ms, h1, h2, h3, h4⟩ := h k c hc
    have e1 : sentOn (c.arrived ++ [ev]) = sentOn c.arrived ++ bytesOf ev.atoms := by simp [sentOn, bytesOf_append]
    dsimp only
    rw [e1]
    exact ⟨ms, h1, h2, h3.trans (List.sublist_append_left _ _), fun ha => (h4 fun b hb => ha b (List.mem_append_left _ hb)).trans (List.prefix_append _ _)⟩
  | @notify k c hc => exact h.set hc rfl (h k c hc)
  | @poll ks =>
    intro k c hk
    dsimp only at hk
    rw [List.getElem?_mapIdx, Option.map_eq_some_iff] at hk
    obtain ⟨d, hd, rfl⟩ := hk
    have := h k d hd
    split
    · exact this
    · exact this
  | skip => exact h
  | @remove k b c hc hbt => exact h.set hc rfl (h k c hc)
  | execute => exact h
  | fail => exact h
  | work => exact h
  | @enterPoisoned w k c conn evs pool hk hc => exact h.set hc rfl (h k c hc)
  | @enterGone w k c conn evs hk hc => exact h.set hc rfl (h k c hc)
  | @enter w k c conn evs hk hc => exact h.set hc rfl (h k c hc)
  | @go w k c s' hk hc hl ha =>
    cases ha with
    | move => exact h.set hc rfl (h k c hc)
    | ask hph hsl hr =>
      refine h.set hc rfl ?_
      have h2 := ht k c _ hc hsl
      simp only [Net.at_, hl, Option.map_some, hph] at h2
      exact h2.asked _
    | crash => exact h.set hc rfl (h k c hc)
    | crashAsk hph hsl hr hp =>
      refine h.set hc rfl ?_
      have h2 := ht k c _ hc hsl
      simp only [Net.at_, hl, Option.map_some, hph] at h2
      exact h2.asked _
    | leave => exact h.set hc rfl (h k c hc)

theorem Net.Reach.made {s : Net σ} (h : Net.Reach prof rt n s₀ s) : s.Made := by
  induction h with
  | new h =>
    unfold Net.new at h
    simp only [Option.map_eq_some_iff] at h
    obtain ⟨p, h1, rfl⟩ := h
    intro k c hk
    simp at hk
  | step hr hs ih => exact made_step (hr.kept traces_kept).2 ih (step_nstep hs)

/-- A request has a text of at least seventeen bytes and all that it holds. -/
theorem text_cost {w : Bytes} {q : Request} (h : RequestText w q) : q.memory + 17 ≤ w.length := by
  obtain ⟨line, fs, f, bw, h1, h2, h3⟩ := h
  obtain ⟨version, extra, h4, h5, h6, rfl⟩ := h1
  have h7 := weight_fields fs
  have h8 := bodyText_le h2.bodyOk
  have h9 : 3 ≤ q.method.text.length := by cases q.method <;> decide
  have h10 : version.length = 8 := by rcases h4 with rfl | rfl <;> rfl
  rw [← h3] at h7
  rw [h2.wire]
  simp only [Request.memory, List.length_append, List.length_cons, List.length_nil, CRLF]
  omega

end Verif
