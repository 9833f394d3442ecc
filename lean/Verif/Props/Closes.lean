import Verif.Proofs.NetCloses
import Verif.Props.Progress

/-!
C85: connections that should end do end.
-/

namespace Verif

variable {σ : Type} {prof : Profile} {rt : Router σ} {n N : Nat} {s₀ : σ}

/-- C85 (partial: fewer handlers panic than there are workers; pieces that do not cut a character; the socket as in `Net.Run.Steady`): if operating system, event loop and workers go on, and a client sends requests of which only
the last asks for the connection to be closed, then from some time on the connection is closed for good, whatever comes after these requests and whatever other connections do. The router was asked about these requests and no others, each once
and in order, and what was sent, together with what was still in the buffer when the connection was dropped, is its answers. -/
theorem C85_asked_partial (r : Net.Run prof rt n s₀) (hg : r.Going) (he : r.Ends) (hcr : ∀ t, (r.at_ t).pool.crashed.length < n) {k : Nat} (hs : r.Steady N k)
    {ms : List (Bytes × Request)} (hms : ∀ m ∈ ms, FittingRequest m.1 m.2 ∧ ¬ CloseAsked m.2) {w : Bytes} {q : Request} (hq : FittingRequest w q) (hcl : CloseAsked q)
    {z : Bytes} (hc : r.Comes k (ms.flatMap Prod.fst ++ w) z) :
    ∃ T as conn, as.map Prod.fst = ms.map Prod.snd ++ [q] ∧ AnsweredIn rt as (conn.writer.sock.sent ++ conn.writer.pending) ∧
      ∀ t ≥ T, asksOn k (r.at_ t).asks = as ∧ ∃ c, (r.at_ t).conns[k]? = some c ∧ c.slot = .gone conn := by
  obtain ⟨T, c, h1, r₀, evs, h2, h3, h4, h5, h6, h7⟩ := r.finds hg he hcr hs hc
  obtain ⟨conn, h8, h9, h10⟩ := h2.asked_text hms hq hcl (fun conn h => ⟨h3 conn h, h7⟩) h4 h5 h6
  refine ⟨T, _, conn, h9, h10, fun t ht => ?_⟩
  obtain ⟨⟨c', g1, g2⟩, g3⟩ := r.shut ht h1 (by rw [h8]; rfl)
  exact ⟨g3, c', g1, by rw [g2, h8]⟩

/-- C85 (partial, as before): the same for a client that sends requests and then something that is no request: after the answers to the requests comes one that says so, and then the connection is closed for good. -/
theorem C85_refused_partial (r : Net.Run prof rt n s₀) (hg : r.Going) (he : r.Ends) (hcr : ∀ t, (r.at_ t).pool.crashed.length < n) {k : Nat} (hs : r.Steady N k)
    {ms : List (Bytes × Request)} (hms : ∀ m ∈ ms, FittingRequest m.1 m.2 ∧ ¬ CloseAsked m.2) {b : Bytes} (hb : Refused prof b)
    {z : Bytes} (hc : r.Comes k (ms.flatMap Prod.fst ++ b) z) :
    ∃ T as out conn, as.map Prod.fst = ms.map Prod.snd ∧ AnsweredIn rt as out ∧ conn.writer.sock.sent ++ conn.writer.pending = out ++ b!"HTTP/1.1 400 Bad Request\r\n\r\n" ∧
      ∀ t ≥ T, asksOn k (r.at_ t).asks = as ∧ ∃ c, (r.at_ t).conns[k]? = some c ∧ c.slot = .gone conn := by
  obtain ⟨T, c, h1, r₀, evs, h2, h3, h4, h5, h6, h7⟩ := r.finds hg he hcr hs hc
  obtain ⟨conn, out, h8, h9, h10, h11⟩ := h2.refused_text hms hb (fun conn h => ⟨h3 conn h, h7⟩) h4 h5 h6
  refine ⟨T, _, out, conn, h9, h10, h11, fun t ht => ?_⟩
  obtain ⟨⟨c', g1, g2⟩, g3⟩ := r.shut ht h1 (by rw [h8]; rfl)
  exact ⟨g3, c', g1, by rw [g2, h8]⟩

/-- C85 (partial: fewer handlers panic than there are workers): if operating system, event loop and workers go on, a connection on which the stream ends, or fails, at whatever place, is closed from some time on. Nothing is assumed about what else comes on it, what the
socket does when it is written to, or the listeners. -/
theorem C85_ended_partial (r : Net.Run prof rt n s₀) (hg : r.Going) (he : r.Ends) (hcr : ∀ t, (r.at_ t).pool.crashed.length < n) {k t : Nat} {c : NConn σ}
    (hc : (r.at_ t).conns[k]? = some c) {ev : Ev} (hev : ev ∈ c.arrived) (hf : ev.Final) : ∃ T, ∀ t' ≥ T, (r.at_ t').Closed k := by
  by_cases hin : ∀ t c, (r.at_ t).conns[k]? = some c → c.inTable = true
  · obtain ⟨T₁, hT₁⟩ := r.settles hg he hcr ⟨t, c, hc⟩ hin
    obtain ⟨c₁, h1, -⟩ := r.mono hc (max t T₁ - t)
    rw [show t + (max t T₁ - t) = max t T₁ by omega] at h1
    obtain ⟨T, h2, c₂, h3, h4⟩ := r.unused hg he h1
    obtain ⟨c', h5, h6⟩ := hT₁ T (by omega)
    rw [h3] at h5; cases h5
    obtain ⟨c', h7, h8⟩ := r.arrivedPrefix (show t ≤ T by omega) hc
    rw [h3] at h7; cases h7
    have hd : Net.isLive c₂.slot = false := by
      cases hs : c₂.slot with
      | live conn => exact absurd hf (idle_mild (r.reach T) h3 h4 hs (h6 conn hs) (h8.subset hev))
      | gone _ => rfl
      | poisoned _ => rfl
    refine ⟨T, fun t' ht => ?_⟩
    obtain ⟨⟨c', g1, g2⟩, -⟩ := r.shut ht h3 hd
    exact ⟨c', g1, .inl fun conn h => by rw [g2] at h; rw [h] at hd; simp [Net.isLive] at hd⟩
  · obtain ⟨t', c', h1, h2⟩ : ∃ t c, (r.at_ t).conns[k]? = some c ∧ c.inTable = false := by
      refine Classical.byContradiction fun h => hin fun t c hc => ?_
      cases hi : c.inTable with
      | true => rfl
      | false => exact absurd ⟨t, c, hc, hi⟩ h
    exact r.dropped (r.fair hg he) hcr h1 h2

/-- C85 (partial: fewer handlers panic than there are workers): the same for a connection that the event loop takes out of its table, as it does when the operating system reports that the client has hung up. -/
theorem C85_hangup_partial (r : Net.Run prof rt n s₀) (hg : r.Going) (he : r.Ends) (hcr : ∀ t, (r.at_ t).pool.crashed.length < n) {k t : Nat} {c : NConn σ}
    (hc : (r.at_ t).conns[k]? = some c) (hi : c.inTable = false) : ∃ T, ∀ t' ≥ T, (r.at_ t').Closed k :=
  r.dropped (r.fair hg he) hcr hc hi

/-! ## Witnesses -/

/-- One worker; on one connection come `evs`, all at once. If the client has hung up as well (`hup`), the event loop gives the connection up, and else a handler takes `m` steps. -/
def oneBatch (hup : Bool) (evs : List Ev) (m : Nat) : List NAct := .accept (fun n => n) (fun c n => c + n) (by omega) [] :: evs.map (.arrive 0) ++
  [.poll [0], .dispatch hup, .work 0] ++ if hup then [] else [.work 0, .work 0, .work 0, .lock 0 [.accept 4096]] ++ List.replicate m (.go 0) ++ [.work 0]

/-- What can be computed of such a run, for the conditions of the theorems. -/
structure OneBatch (prof : Profile) (hup : Bool) (evs : List Ev) (m : Nat) : Prop where
  ok : (((Net.new 1 ()).get rfl).runActs prof ([] : Router Unit) (oneBatch hup evs m)).isSome = true
  told : ∀ t ≤ (oneBatch hup evs m).length, (((Net.new 1 ()).get rfl).runActs prof ([] : Router Unit) ((oneBatch hup evs m).take t)).all fun s => s.conns.length ≤ 1 &&
    (!s.edgeB 0 || ((oneBatch hup evs m).drop t).any (NAct.polls 0)) && (s.batch.isEmpty || ((oneBatch hup evs m).drop t).any NAct.dispatches)
  rests : (((Net.new 1 ()).get rfl).runActs prof ([] : Router Unit) (oneBatch hup evs m)).all fun s => s.pool.workers.length ≤ 1 && s.pool.workers[0]? == some .receiving &&
    s.pool.queue.isEmpty && s.pool.owner == .using
  waits : (((Net.new 1 ()).get rfl).runActs prof ([] : Router Unit) (oneBatch hup evs m)).all fun s => s.pool.workers == [.receiving]
  conns : ∀ t ≤ (oneBatch hup evs m).length, (((Net.new 1 ()).get rfl).runActs prof ([] : Router Unit) ((oneBatch hup evs m).take t)).all fun s => s.pool.crashed.length == 0 &&
    (s.conns.length ≤ 1 && s.conns.all fun c => evs.take c.arrived.length == c.arrived && (c.inTable || hup) && (c.wakes.all fun evs => evs == [.accept 4096]) && c.first.writer.sock.flushes == [])
  all : (((Net.new 1 ()).get rfl).runActs prof ([] : Router Unit) (oneBatch hup evs m)).any (fun s => s.conns[0]?.any fun c => c.arrived == evs) = true

namespace OneBatch

variable {hup : Bool} {evs : List Ev} {m : Nat}

/-- The run, which rests when this is done. -/
def run (h : OneBatch prof hup evs m) : Net.Run prof ([] : Router Unit) 1 () := Net.Run.ofList (s := (Net.new 1 ()).get rfl) (oneBatch hup evs m) rfl h.ok

theorem going (h : OneBatch prof hup evs m) : h.run.Going := Net.Run.ofList_going (Net.Run.ofList_fair h.told h.rests) h.waits

theorem facts (h : OneBatch prof hup evs m) (t : Nat) : (h.run.at_ t).pool.crashed.length < 1 ∧ ∀ (k : Nat) (c : NConn Unit), (h.run.at_ t).conns[k]? = some c →
    k = 0 ∧ c.arrived <+: evs ∧ (hup = false → c.inTable = true) ∧ (∀ e ∈ c.wakes, e = [.accept 4096]) ∧ c.first.writer.sock.flushes = [] := by
  have := Net.Run.ofList_all (n := 1) (s₀ := ()) (hn := rfl) (h := h.ok) h.conns t
  simp only [Bool.and_eq_true, decide_eq_true_eq, List.all_eq_true, beq_iff_eq] at this
  obtain ⟨h1, h2, h3⟩ := this
  refine ⟨Nat.lt_of_le_of_lt (Nat.le_of_eq h1) Nat.zero_lt_one, fun k c hc => ?_⟩
  obtain ⟨⟨⟨h4, h5⟩, h6⟩, h7⟩ := h3 c (List.mem_of_getElem? hc)
  have h8 := (List.getElem?_eq_some_iff.1 hc).1
  have h9 : (h.run.at_ t).conns.length ≤ 1 := h2
  exact ⟨by omega, h4 ▸ List.take_prefix _ _, fun h => by simpa [h] using h5, h6, h7⟩

theorem ends (h : OneBatch prof hup evs m) : h.run.Ends := fun k => ⟨evs.length, fun t c hc => ((h.facts t).2 k c hc).2.1.length_le⟩

theorem steady (h : OneBatch prof false evs m) : h.run.Steady 4096 0 where
  size := by decide
  stays t c hc := ((h.facts t).2 0 c hc).2.2.1 rfl
  socket t c hc e he := by
    rw [((h.facts t).2 0 c hc).2.2.2.1 e he]
    exact ⟨⟨by simp, .inr (Nat.le_refl _)⟩, by simp⟩
  flushes t c hc := by rw [((h.facts t).2 0 c hc).2.2.2.2]; exact fun _ => nofun
  listeners t a ha := by
    refine ⟨fun r hr => ?_, by simp [Router.result, Router.resultInternal]⟩
    rcases hr with hr | hr <;> simp [Router.result, Router.resultInternal] at hr

theorem arrived (h : OneBatch prof hup evs m) : ∃ t c, (h.run.at_ t).conns[0]? = some c ∧ c.arrived = evs := by
  have h1 := h.all
  obtain ⟨s', hs'⟩ := Option.isSome_iff_exists.1 h.ok
  rw [hs'] at h1
  have : h.run.at_ (oneBatch hup evs m).length = s' := by
    show (((Net.new 1 ()).get rfl).runActs prof ([] : Router Unit) ((oneBatch hup evs m).take (oneBatch hup evs m).length)).getD _ = s'
    rw [List.take_of_length_le (Nat.le_refl _), hs']; rfl
  refine ⟨(oneBatch hup evs m).length, ?_⟩
  rw [this]
  simp only [Option.any_some] at h1
  cases hc : s'.conns[0]? with
  | none => rw [hc] at h1; cases h1
  | some c =>
    rw [hc] at h1
    simp only [Option.any_some, beq_iff_eq] at h1
    exact ⟨c, rfl, h1⟩

theorem comes (h : OneBatch prof hup evs m) {w z : Bytes} (hb : Brings evs (w ++ z)) (hw : w <+: bytesOf (evs.flatMap Ev.atoms)) : h.run.Comes 0 w z where
  text t c hc := by
    have h1 := ((h.facts t).2 0 c hc).2.1
    refine ⟨hb.pieces.prefix h1, List.IsPrefix.trans ?_ hb.text⟩
    obtain ⟨x, hx⟩ := h1
    rw [← hx, List.flatMap_append, bytesOf_app]
    exact List.prefix_append _ _
  all := by
    obtain ⟨t, c, h1, h2⟩ := h.arrived
    exact ⟨t, c, h1, by rw [h2]; exact hw⟩

end OneBatch

/-- A request, one that asks for the connection to be closed, and one more. -/
def closing : List Ev := [.data aRequest.1, .data (closeRequest.1 ++ aRequest.1)]

/-- A request, and then something that is none. -/
def refusing : List Ev := [.data aRequest.1, .data b!"GET /x\r\nand more"]

/-- A request, and then the end of the stream in the middle of another. -/
def ending : List Ev := [.data (aRequest.1 ++ b!"GET"), .data []]

theorem closing_batch : OneBatch prof false closing 8 := by
  constructor <;> (obtain ⟨_ | _⟩ := prof <;> decide +kernel)

theorem refusing_batch : OneBatch prof false refusing 6 := by
  constructor <;> (obtain ⟨_ | _⟩ := prof <;> decide +kernel)

theorem ending_batch : OneBatch prof false ending 6 := by
  constructor <;> (obtain ⟨_ | _⟩ := prof <;> decide +kernel)

theorem aRequest_stays : FittingRequest aRequest.1 aRequest.2 ∧ ¬ CloseAsked aRequest.2 := ⟨aRequest_fits, by rintro ⟨vs, h, -⟩; cases h⟩

theorem closing_comes : (closing_batch (prof := prof)).run.Comes 0 ([aRequest].flatMap Prod.fst ++ closeRequest.1) aRequest.1 := by
  refine closing_batch.comes ⟨?_, by decide +kernel⟩ (by decide +kernel)
  refine .safe fun ev he => ?_
  simp only [closing, List.mem_cons, List.not_mem_nil, or_false] at he
  rcases he with rfl | rfl
  · exact ⟨_, rfl, by decide, safeCut_ascii (by decide +kernel)⟩
  · exact ⟨_, rfl, by decide, safeCut_ascii (by decide +kernel)⟩

theorem refusing_comes : (refusing_batch (prof := prof)).run.Comes 0 ([aRequest].flatMap Prod.fst ++ b!"GET /x\r\n") b!"and more" := by
  refine refusing_batch.comes ⟨?_, by decide +kernel⟩ (by decide +kernel)
  refine .safe fun ev he => ?_
  simp only [refusing, List.mem_cons, List.not_mem_nil, or_false] at he
  rcases he with rfl | rfl
  · exact ⟨_, rfl, by decide, safeCut_ascii (by decide +kernel)⟩
  · exact ⟨_, rfl, by decide, safeCut_ascii (by decide +kernel)⟩

theorem refused_line (prof : Profile) : Refused prof b!"GET /x\r\n" := C35_first_line prof (l := b!"GET /x") ⟨by decide, by decide, by decide⟩ (by
      intro m u h
      have := requestLine_iff.2 h
      rw [show parseRequestLine b!"GET /x" = .error .badSyntax from rfl] at this
      cases this)

/-- A client that asks for the connection to be closed: it is closed in the end, after both requests, and not the third, were answered. -/
example : ∃ T conn, conn.writer.sock.sent ++ conn.writer.pending = b!"HTTP/1.1 404 Not Found\r\n\r\nHTTP/1.1 404 Not Found\r\n\r\n" ∧
    ∀ t ≥ T, ∃ c, ((closing_batch (prof := prof)).run.at_ t).conns[0]? = some c ∧ c.slot = .gone conn := by
  obtain ⟨T, as, conn, h1, h2, h3⟩ := C85_asked_partial (closing_batch (prof := prof)).run closing_batch.going closing_batch.ends (fun t => (closing_batch.facts t).1) closing_batch.steady (ms := [aRequest])
    (by simpa using aRequest_stays) closeRequest_fits closeRequest_asks closing_comes
  refine ⟨T, conn, ?_, fun t ht => (h3 t ht).2⟩
  match as, h1 with
  | [(q, u), (q', u')], _ =>
    generalize conn.writer.sock.sent ++ conn.writer.pending = out at h2
    cases h2 with
    | cons h h' =>
      cases h' with
      | cons h' h'' =>
        cases h''
        simp only [Router.result, Router.resultInternal, Option.some.injEq] at h h'
        subst h
        subst h'
        decide +kernel
      | panic h => simp [Router.result, Router.resultInternal] at h

/-- A client that sends something that is no request. -/
example : ∃ T conn, conn.writer.sock.sent ++ conn.writer.pending = b!"HTTP/1.1 404 Not Found\r\n\r\nHTTP/1.1 400 Bad Request\r\n\r\n" ∧
    ∀ t ≥ T, ∃ c, ((refusing_batch (prof := prof)).run.at_ t).conns[0]? = some c ∧ c.slot = .gone conn := by
  obtain ⟨T, as, out, conn, h1, h2, h3, h4⟩ := C85_refused_partial (refusing_batch (prof := prof)).run refusing_batch.going refusing_batch.ends (fun t => (refusing_batch.facts t).1) refusing_batch.steady
    (ms := [aRequest]) (by simpa using aRequest_stays) (refused_line prof) refusing_comes
  refine ⟨T, conn, ?_, fun t ht => (h4 t ht).2⟩
  rw [h3]
  match as, h1 with
  | [(q, u)], _ =>
    cases h2 with
    | cons h h' =>
      cases h'
      simp only [Router.result, Router.resultInternal, Option.some.injEq] at h
      subst h
      decide +kernel
    | panic h => simp [Router.result, Router.resultInternal] at h

/-- A client whose stream ends in the middle of a request. -/
example : ∃ T, ∀ t ≥ T, ((ending_batch (prof := prof)).run.at_ t).Closed 0 := by
  obtain ⟨t, c, h1, h2⟩ := (ending_batch (prof := prof)).arrived
  exact C85_ended_partial _ ending_batch.going ending_batch.ends (fun t => (ending_batch.facts t).1) h1 (ev := .data []) (by rw [h2]; simp [ending]) rfl

/-- A client that hangs up after a request, without the end of the stream being read. -/
def hanging : List Ev := [.data aRequest.1]

theorem hanging_batch : OneBatch prof true hanging 0 := by
  constructor <;> (obtain ⟨_ | _⟩ := prof <;> decide +kernel)

example : ∃ T, ∀ t ≥ T, ((hanging_batch (prof := prof)).run.at_ t).Closed 0 := by
  have h : (((hanging_batch (prof := prof)).run.at_ 5).conns[0]?.any fun c => !c.inTable) = true := by
    obtain ⟨_ | _⟩ := prof <;> decide +kernel
  cases hc : ((hanging_batch (prof := prof)).run.at_ 5).conns[0]? with
  | none => rw [hc] at h; cases h
  | some c =>
    rw [hc] at h
    exact C85_hangup_partial _ hanging_batch.going hanging_batch.ends (fun t => (hanging_batch.facts t).1) hc (by simpa using h)

end Verif
