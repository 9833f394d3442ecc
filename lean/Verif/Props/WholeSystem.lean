import Verif.Proofs.NetConform
import Verif.Props.EndToEnd

/-!
C60: clients and the whole server together, on every schedule.
-/

namespace Verif

variable {σ : Type} {prof : Profile} {rt : Router σ} {n N : Nat} {s₀ : σ}

/-- The router that is asked the requests of a list, and stays where it is when it is asked anything else. -/
def Router.strict (rt : Router σ) : Router (List (Request × σ)) :=
  [([], fun _ q ss => match ss with
    | [] => (none, [])
    | (q', s) :: ss => if q' = q then ((rt.result q s).1, ss) else (none, (q', s) :: ss))]

theorem strict_result (rt : Router σ) (q : Request) (ss : List (Request × σ)) : rt.strict.result q ss = match ss with
    | [] => (none, [])
    | (q', s) :: ss => if q' = q then ((rt.result q s).1, ss) else (none, (q', s) :: ss) := by
  unfold Router.strict
  unfold Router.result
  simp only [Router.resultInternal, show startsWith q.uri [] = true by cases q.uri <;> rfl, if_true]
  cases ss with
  | nil => rfl
  | cons a ss =>
    obtain ⟨q', s⟩ := a
    dsimp only
    by_cases hq : q' = q
    · simp only [if_pos hq]
      cases (Router.resultInternal q.uri q rt s).1 with
      | none => rfl
      | some a => cases a <;> rfl
    · simp only [if_neg hq]

theorem strict_follows (rt : Router σ) (as : List (Request × σ)) : rt.strict.Follows rt as := by
  intro q s ss _
  rw [strict_result]
  simp

theorem strict_parts (h : rt.PartsLe N) : rt.strict.PartsLe N := by
  refine ⟨h.1, fun q ss r s' hr => ?_⟩
  rw [strict_result] at hr
  cases ss with
  | nil => simp at hr
  | cons a ss =>
    obtain ⟨q', s⟩ := a
    dsimp only at hr
    split at hr
    · refine h.2 q s r (rt.result q s).2 ?_
      simp only [Prod.mk.injEq] at hr
      rcases hr with ⟨hr, -⟩ | ⟨hr, -⟩
      · exact .inl (Prod.ext hr rfl)
      · exact .inr (Prod.ext hr rfl)
    · simp at hr

/-- What is left of a list of which nothing was left when the handlers were through. -/
theorem strict_served {as ss : List (Request × σ)} {qs : List Request} {out : Bytes} (h : Served rt.strict as qs out ss) :
    ∃ as', as = as' ++ ss ∧ as'.map Prod.fst = qs ∧ ∀ out', AnsweredIn rt ss out' → AnsweredIn rt as (out ++ out') := by
  generalize hr : rt.strict = D at h
  induction h with
  | nil => exact ⟨[], rfl, rfl, fun out' h => h⟩
  | @cons s s₁ s₂ q qs a out h1 h2 ih =>
    subst hr
    obtain ⟨as', i1, i2, i3⟩ := ih
    rw [strict_result] at h1
    cases s with
    | nil => cases h1
    | cons x s =>
      obtain ⟨q', st⟩ := x
      dsimp only at h1
      split at h1
      · next hq =>
        subst hq
        simp only [Prod.mk.injEq] at h1
        obtain ⟨h1, rfl⟩ := h1
        exact ⟨(q', st) :: as', by rw [i1]; rfl, by simp [i2], fun out' ho => by rw [List.append_assoc]; exact .cons h1 (i3 out' ho)⟩
      · cases h1

theorem strict_nil (rt : Router σ) (q : Request) : rt.strict.result q [] = (none, []) := strict_result rt q []

theorem finish_state {W : Type} {τ : Type} (x : LoopEnd × Conn AR W × τ) : (finish x).2.2 = x.2.2 := by
  obtain ⟨e, c, s⟩ := x
  cases e <;> rfl

/-- With nothing left to be asked about, nothing is left in the end. -/
theorem rest_strict_nil (p : Option Phase) (x : Slot AR Nbw) : (Net.rest prof rt.strict p x []).2 = [] := by
  cases p with
  | none => cases x <;> rfl
  | some p =>
    cases x with
    | live c =>
      cases p with
      | flushing =>
        exact handle_none (strict_nil rt) _
      | reading => simp only [Net.rest]; rw [finish_state]; exact loop_none (strict_nil rt) _ _
      | asked q =>
        simp only [Net.rest]
        rw [finish_state, wrfr, strict_result]
        rfl
      | reply q a =>
        simp only [Net.rest]
        rw [finish_state]
        generalize writeAnswer c.writer a = y
        obtain ⟨y, w⟩ := y
        cases y with
        | ok =>
          simp only [loopTail]
          split
          · rfl
          · exact loop_none (strict_nil rt) _ _
        | _ => rfl
      | _ => rfl
    | _ => cases p <;> rfl

open Classical in
/-- The router, but it panics where its answer has a part of more than `N` bytes. -/
noncomputable def Router.limited (rt : Router σ) (N : Nat) : Router σ :=
  [([], fun _ q s => if ∀ r, rt.Says (q, s) r → r.PartsLe N then rt.result q s else (none, s))]

open Classical in
theorem limited_result (rt : Router σ) (q : Request) (s : σ) :
    (rt.limited N).result q s = if ∀ r, rt.Says (q, s) r → r.PartsLe N then rt.result q s else (none, s) := by
  have h1 : (rt.limited N).result q s = Router.resultInternal q.uri q (rt.limited N) s := rfl
  rw [h1]
  unfold Router.limited
  simp only [Router.resultInternal, show startsWith q.uri [] = true by cases q.uri <;> rfl, if_true]
  generalize (if ∀ r, rt.Says (q, s) r → r.PartsLe N then rt.result q s else (none, s)) = x
  obtain ⟨a, s'⟩ := x
  cases a with
  | none => rfl
  | some a => cases a <;> rfl

theorem limited_parts (hN : 28 ≤ N) (rt : Router σ) : (rt.limited N).PartsLe N := by
  refine ⟨hN, fun q s r s' h => ?_⟩
  rw [limited_result] at h
  split at h
  · next hp => exact hp r (h.imp (fun h => by rw [h]) fun h => by rw [h])
  · rcases h with h | h <;> cases h

theorem limited_same {q : Request} {s : σ} (h : ∀ r, rt.Says (q, s) r → r.PartsLe N) : (rt.limited N).result q s = rt.result q s := by
  rw [limited_result, if_pos h]

theorem AnsweredIn.congr {rt rt' : Router σ} {as : List (Request × σ)} {out : Bytes} (h : AnsweredIn rt as out)
    (he : ∀ a ∈ as, (rt'.result a.1 a.2).1 = (rt.result a.1 a.2).1) : AnsweredIn rt' as out := by
  induction h with
  | nil => exact .nil
  | cons h1 _ ih => exact .cons ((he _ List.mem_cons_self).trans h1) (ih fun a ha => he a (by simp [ha]))
  | panic h1 => exact .panic ((he _ List.mem_cons_self).trans h1)

/-- C60 (partial: the texts are cut at characters only, and for sockets that do not become free in the middle of an answer or parts that fit into
the buffer): at every time, on every schedule of the event loop, of the workers and of the clients, whatever happens on the other connections: if what has arrived on a
connection is the beginning of the texts of some requests, the router was asked about the first of these requests, each once and in order, and what has
been sent on the connection is the beginning of its answers. -/
theorem C60_server_partial {s : Net σ} (h : Net.Reach prof rt n s₀ s) {k : Nat} {c : NConn σ} (hc : s.conns[k]? = some c)
    (hN : 28 ≤ N) (hrt : ∀ a ∈ asksOn k s.asks, ∀ r, rt.Says a r → r.PartsLe N)
    {ms : List (Bytes × Request)} (hms : ∀ m ∈ ms, FittingRequest m.1 m.2) (hb : Brings c.arrived (ms.flatMap Prod.fst))
    (hw : ∀ evs ∈ c.wakes, Tidy N 4096 evs) :
    (asksOn k s.asks).map Prod.fst <+: ms.map Prod.snd ∧
      ∃ out, AnsweredIn rt (asksOn k s.asks) out ∧ c.slot.conn.writer.sock.sent <+: out := by
  rw [← h.serial.seen k c hc] at hrt ⊢
  suffices hlim : c.seen.map Prod.fst <+: ms.map Prod.snd ∧ ∃ out, AnsweredIn (rt.limited N) c.seen out ∧ c.slot.conn.writer.sock.sent <+: out by
    obtain ⟨h1, out, h2, h3⟩ := hlim
    exact ⟨h1, out, h2.congr fun a ha => by rw [limited_same (hrt a ha)], h3⟩
  obtain ⟨-, h0, evs, h2, h3⟩ := h.serial.conn k c hc
  have hfol : (rt.limited N).strict.Follows rt c.seen := fun q s ss hm => by rw [strict_follows _ c.seen q s ss hm, limited_same (hrt _ hm)]
  have h4 := h3 _ hfol [] []
  obtain ⟨offer, grow, growOk, flushes, hfirst⟩ := h.first hc
  have h5 : Slot.live (c.first.at (evs.flatMap Ev.atoms ++ [])) = (Slot.live (c.first.receiving evs)).at [] := by
    simp only [Src.atoms, List.append_eq_nil_iff] at h0
    simp only [Slot.at, Conn.at, Conn.receiving, Src.atoms, h0.1, h0.2, List.nil_append, List.append_nil]
  rw [h5, handleAll_at_nil, List.append_nil] at h4
  obtain ⟨hsm, hby⟩ := hb.events h2
  have hbytes : bytesOf (evs.flatMap Ev.atoms) <+: ms.flatMap Prod.fst := by
    rw [hby]
    exact hb.text
  have hah : (c.first.receiving evs).reader.Ahead (evs.flatMap Ev.atoms) := by
    rw [hfirst]
    exact ⟨rfl, rfl⟩
  obtain ⟨qs, out, s₁, r₁, tail, k1, k2, k3, k0, -, k5, -⟩ := handleAll_sound (prof := prof) (strict_parts (limited_parts hN rt)) (s := c.seen)
    (c := c.first.receiving evs) hah.1 (by rw [hfirst]; exact .inr rfl) (cap := 4096) (by rw [hfirst]; exact Nat.le_refl _) hw
    (r₀ := (c.first.receiving evs).reader) (by rw [hfirst]; exact inProgress_new prof _)
  obtain ⟨ms₁, ms₂, as', e1, e2, e3, e4, e5, -⟩ := heard_conform k1 hms hah hsm hbytes
  have hms₂ : ∀ m ∈ ms₂, FittingRequest m.1 m.2 := fun m hm => hms m (by rw [e1]; simp [hm])
  have htail : tail = [] := k3.elim id fun ⟨_, hn⟩ => absurd hn (conform_noRequest hms₂ e3 e4 e5)
  have hfin : (handleAll prof (rt.limited N).strict c.wakes (.live (c.first.receiving evs)) c.seen).2 = (Net.rest prof (rt.limited N).strict (s.at_ c) (c.slot.at []) []).2 :=
    congrArg Prod.snd h4
  have hslot : (handleAll prof (rt.limited N).strict c.wakes (.live (c.first.receiving evs)) c.seen).1.at [] = (Net.rest prof (rt.limited N).strict (s.at_ c) (c.slot.at []) []).1 :=
    congrArg Prod.fst h4
  rw [rest_strict_nil] at hfin
  rw [hfin] at k0
  have hsent : c.slot.conn.writer.sock.sent <+: out := by
    have g1 := rest_grows (prof := prof) (rt := (rt.limited N).strict) (s.at_ c) (c.slot.at []) []
    rw [← hslot] at g1
    have g2 : ∀ x : Slot Rd Nbw, (x.at []).conn.writer = x.conn.writer := fun x => by cases x <;> rfl
    rw [g2, g2] at g1
    refine g1.trans ?_
    rw [htail, List.append_nil] at k5
    have : (c.first.receiving evs).writer.total = [] := by rw [hfirst]; rfl
    rw [this, List.nil_append] at k5
    exact k5
  obtain ⟨as₁, d1, d2, d3⟩ := strict_served k2
  rcases k0 with rfl | ⟨q, r', c1, c2⟩
  · refine ⟨?_, out, ?_, hsent⟩
    · rw [d1, List.append_nil, d2, e2, e1, List.map_append]; exact List.prefix_append _ _
    · simpa using d3 [] .nil
  · rw [strict_result] at c2
    cases s₁ with
    | nil =>
      refine ⟨?_, out, ?_, hsent⟩
      · rw [d1, List.append_nil, d2, e2, e1, List.map_append]; exact List.prefix_append _ _
      · simpa using d3 [] .nil
    | cons x ss =>
      obtain ⟨q', st⟩ := x
      dsimp only at c2
      split at c2
      · next hq =>
        subst hq
        simp only [Prod.mk.injEq] at c2
        obtain ⟨c2, rfl⟩ := c2
        have hq2 : Heard prof r₁ [q'] r' := .cons c1 .nil
        obtain ⟨ms₃, ms₄, as'', e6, e7, -⟩ := heard_conform hq2 hms₂ e3 e4 e5
        refine ⟨?_, out, ?_, hsent⟩
        · rw [d1, List.map_append, d2, e2, e1, e6, List.map_cons, List.map_nil, e7]
          simp only [List.map_append, ← List.append_assoc]
          exact List.prefix_append _ _
        · simpa using d3 [] (.panic c2)
      · cases c2

/-- Where each request is answered with a response, what the answers amount to. -/
theorem AnsweredIn.responses {P : Response → Prop} {as : List (Request × σ)} {out : Bytes} (h : AnsweredIn rt as out)
    (ha : ∀ a ∈ as, ∃ r, rt.Says a r ∧ P r) :
    ∃ rs : List Response, out = rs.flatMap responseBytes ∧ rs.length = as.length ∧ (∀ r ∈ rs, P r) ∧
      ∀ es : List (Request × Response), es.map Prod.fst <+: as.map Prod.fst → es.map Prod.snd <+: rs → AnsweredFirst rt as es := by
  induction h with
  | nil =>
    refine ⟨[], rfl, rfl, by simp, fun es h1 _ => ?_⟩
    cases es with
    | nil => exact .nil
    | cons e es => simp at h1
  | @cons q s as a out h _ ih =>
    obtain ⟨rs, h1, h0, h2, h3⟩ := ih fun a ha' => ha a (by simp [ha'])
    obtain ⟨r, h4, h5⟩ := ha (q, s) (by simp)
    refine ⟨r :: rs, ?_, by simp [h0], ?_, ?_⟩
    · rw [List.flatMap_cons, ← h1]
      rcases h4 with h4 | h4 <;> (dsimp only at h4; rw [h] at h4; cases h4; rfl)
    · intro r' hr'
      rcases List.mem_cons.1 hr' with rfl | hr'
      · exact h5
      · exact h2 r' hr'
    · intro es g1 g2
      cases es with
      | nil => exact .nil
      | cons e es =>
        obtain ⟨q', r'⟩ := e
        simp only [List.map_cons, List.cons_prefix_cons] at g1 g2
        obtain ⟨rfl, g1⟩ := g1
        obtain ⟨rfl, g2⟩ := g2
        exact .cons h4 (h3 es g1 g2)
  | @panic q s h =>
    obtain ⟨r, h4, -⟩ := ha (q, s) (by simp)
    rcases h4 with h4 | h4 <;> (dsimp only at h4; rw [h] at h4; cases h4)

section
variable {F : Type} [StreamFactory F] {profC : Profile}

/-- What was sent on the streams of a connection of the client. -/
theorem history_sent {c c' : ClientConn} {f f' : F} {es : List (Request × Response)} (h : History profC c f es c' f') (hc : c = .new) :
    (∀ st ∈ c'.dropped, st.writer.sock.sent <+: st.asked.flatMap requestBytes) ∧
      ∀ st, c'.stream = some st → st.out = st.asked.flatMap requestBytes := by
  induction h with
  | nil => subst hc; exact ⟨by simp [ClientConn.new], by simp [ClientConn.new]⟩
  | @refused c₁ c₂ f f₁ f₂ q e es _ hs hn ih =>
    rcases send_cases hs with ⟨-, rfl, -⟩ | ⟨s, raws, g, hb, hk⟩
    · exact ih
    · exfalso
      rcases hk with ⟨-, -, -, rfl⟩ | ⟨-, ⟨-, -, rfl, -⟩ | ⟨raw, -, -, rfl⟩⟩ <;> cases hn
  | @answered c₁ c₂ f f₁ f₂ q r es _ hs ih =>
    rcases send_cases hs with ⟨-, -, -, ⟨e, -, h⟩ | ⟨-, h⟩⟩ | ⟨s, raws, g, hb, hk⟩
    · cases h
    · cases h
    · have hst : s.out = s.asked.flatMap requestBytes := by
        cases hb with
        | had hs => exact ih.2 s hs
        | opened hs hcr => rfl
      have hnew : ∀ s : ClientStream, s.out = s.asked.flatMap requestBytes → SendEnd.ok r = (sendRequest profC s q).1 →
          (sendRequest profC s q).2.out = (sendRequest profC s q).2.asked.flatMap requestBytes := by
        intro s hst k2
        obtain ⟨o1, -, -, -, o2⟩ := sendRequest_out profC s q
        obtain ⟨o3, o4⟩ := o2 (by rw [← k2]; simp)
        rw [ClientStream.out, o3, o4, o1, hst]
        simp
      rcases hk with ⟨-, k2, -, rfl⟩ | ⟨-, ⟨-, k2, -⟩ | ⟨raw, -, k2, rfl⟩⟩
      · exact ⟨ih.1, fun st hst' => by cases hst'; exact hnew s hst k2⟩
      · exact absurd rfl (k2 r)
      · refine ⟨fun st hm => ?_, fun st hst' => by cases hst'; exact hnew _ rfl k2⟩
        rcases List.mem_append.1 hm with hm | hm
        · exact ih.1 st hm
        · simp only [List.mem_singleton] at hm
          subst hm
          obtain ⟨o1, -, o3, -⟩ := sendRequest_out profC s q
          rw [hst, ← drop_out] at o3
          rw [drop_asked, o1, List.flatMap_append]
          exact (List.prefix_append _ _).trans (by simpa [ClientStream.out] using o3)

/-- C60 (partial: as in `C60_server_partial` and `C46_streams_partial`; the requests and the responses can be sent): a client of this library has called `send` any
number of times, on any number of streams one after the other. The exchanges are those on the streams; and on each stream that is joined to a connection of a
server of this library, which is in a state that it can reach on some schedule, with any other clients and listeners, and where what one side has sent may
have arrived at the other side in part, in any pieces: the calls returned, in order, what the router answered when it was asked about the requests of this connection. -/
theorem C60_end_to_end_partial {c' : ClientConn} {f f' : F} {es : List (Request × Response)} (h : History profC .new f es c' f')
    (hq : ∀ st ∈ c'.all, ∀ q ∈ st.asked, q.Sendable) :
    ∃ logs : List (List (Request × Response)), logs.length = c'.all.length ∧ es = logs.flatten ∧ ∀ p ∈ c'.all.zip logs,
      ∀ {σ : Type} {rt : Router σ} {prof : Profile} {n N : Nat} {s₀ : σ} {s : Net σ} {k : Nat} {c : NConn σ}, Net.Reach prof rt n s₀ s → s.conns[k]? = some c →
        p.1.Joins c → 28 ≤ N → (∀ evs ∈ c.wakes, Tidy N 4096 evs) → (∀ a ∈ asksOn k s.asks, ∀ r, rt.Says a r → r.PartsLe N) →
        (∀ a ∈ asksOn k s.asks, a.1 ∈ p.1.asked → ∃ r, rt.Says a r ∧ r.Sendable) →
        AnsweredFirst rt (asksOn k s.asks) p.2 := by
  obtain ⟨logs, l1, l2, l3⟩ := C46_streams_partial h
  refine ⟨logs, l1, l2, ?_⟩
  intro p hp σ rt prof n N s₀ s k c h1 h2 h4 hN h3 hrt ha
  obtain ⟨l4, l5⟩ := l3 p hp
  obtain ⟨st, es⟩ := p
  have hst : st ∈ c'.all := (List.of_mem_zip hp).1
  dsimp only at l4 l5 h4 ⊢
  have hsent : st.writer.sock.sent <+: st.asked.flatMap requestBytes := by
    obtain ⟨i1, i2⟩ := history_sent h rfl
    rcases List.mem_append.1 hst with hm | hm
    · exact i1 st hm
    · rw [← i2 st (by simpa using hm)]; exact List.prefix_append _ _
  have e1 : (st.asked.map fun q => (requestBytes q, q)).map Prod.snd = st.asked := by simp [Function.comp_def]
  have e2 : (st.asked.map fun q => (requestBytes q, q)).flatMap Prod.fst = st.asked.flatMap requestBytes := by simp [List.flatMap_map]
  obtain ⟨a1, out, a2, a3⟩ := C60_server_partial h1 h2 hN hrt
    (ms := st.asked.map fun q => (requestBytes q, q))
    (by
      intro m hm
      obtain ⟨q, hm', rfl⟩ := List.mem_map.1 hm
      exact (hq st hst q hm').fitting)
    ⟨h4.there.pieces, by rw [e2]; exact h4.there.text.trans hsent⟩ h3
  rw [e1] at a1
  obtain ⟨rs, b1, b0, b2, b3⟩ := a2.responses fun a hm => ha a hm (a1.mem (List.mem_map_of_mem hm))
  have hgiven : es.map Prod.snd <+: rs := by
    have := l5 (rs.map fun r => (responseBytes r, r))
      (by
        intro w hw
        obtain ⟨r, hr, rfl⟩ := List.mem_map.1 hw
        exact ⟨_, by simp, (b2 r hr).fitting⟩)
      (by
        rw [List.flatMap_map, ← b1]
        exact h4.back.trans a3)
    simpa [Function.comp_def] using this
  refine b3 es (List.prefix_of_prefix_length_le l4 a1 ?_) hgiven
  have := hgiven.length_le
  simp only [List.length_map] at this ⊢
  omega

end

/-! ## The conditions can be met -/

/-- A router for the example. -/
def aOrB : Router Unit := Router.onPrefix [] [] fun _ q s => (some (.sendResponse (.ofBody (if q.uri = b!"/a" then b!"A" else b!"B"))), s)

theorem aOrB_result (q : Request) (s : Unit) : aOrB.result q s = (some (.sendResponse (.ofBody (if q.uri = b!"/a" then b!"A" else b!"B"))), s) := by
  simp [aOrB, Router.result, Router.onPrefix, Router.resultInternal, startsWith]

/-- Two workers serve two connections; on the first two requests arrive in two pieces. -/
def twoRequests : List NAct := [.accept (fun n => n) (fun c n => c + n) (by omega) [], .accept (fun n => n) (fun c n => c + n) (by omega) [],
  .arrive 0 (.data b!"GET /a HTTP/1.1\r\n\r\nGET /"), .arrive 1 (.data b!"GET /"), .poll [0, 1], .dispatch false, .dispatch false, .work 0, .work 0, .work 0, .work 0,
  .work 1, .work 1, .work 1, .work 1, .lock 0 [.accept 10, .accept 100, .accept 100, .accept 100], .go 0, .go 0, .go 0, .lock 1 [], .arrive 0 (.data b!"b HTTP/1.1\r\n\r\n"), .go 1,
  .go 0, .go 0, .go 0, .go 0, .go 0]

/-- What the client is given on its stream. -/
def bothAnswers : RawStream where
  input := [.data (responseBytes (.ofBody b!"A")), .data (responseBytes (.ofBody b!"B"))]
  output := [.accept 10, .accept 1000, .accept 1000]

/-- The conditions of `C60_server_partial` and `C60_end_to_end_partial` can be met. -/
example (profC profS : Profile) : ∃ (c : ClientConn) (f : List CreateEnd),
    History profC .new [.ok bothAnswers] ([] ++ [(ask 97, .ofBody b!"A")] ++ [(ask 98, .ofBody b!"B")]) c f ∧
    (∀ st ∈ c.all, ∀ q ∈ st.asked, q.Sendable) ∧
    ∀ st ∈ c.all, ∃ (s : Net Unit) (k : Nat) (c : NConn Unit), Net.Reach profS aOrB 2 () s ∧ s.conns[k]? = some c ∧ st.Joins c ∧
      (∀ evs ∈ c.wakes, Tidy 28 4096 evs) ∧ (∀ a ∈ asksOn k s.asks, ∀ r, aOrB.Says a r → r.PartsLe 28) ∧
      ∀ a ∈ asksOn k s.asks, a.1 ∈ st.asked → ∃ r, aOrB.Says a r ∧ r.Sendable := by
  have h1 : (Net.after profS aOrB 2 () twoRequests).any (fun s => s.conns[0]?.any fun c =>
      c.arrived == [.data b!"GET /a HTTP/1.1\r\n\r\nGET /", .data b!"b HTTP/1.1\r\n\r\n"] &&
      c.wakes == [[.accept 10, .accept 100, .accept 100, .accept 100]] &&
      c.slot.conn.writer.sock.sent == responseBytes (.ofBody b!"A") ++ responseBytes (.ofBody b!"B")) = true := by
    rcases profS with ⟨_ | _⟩ <;> decide +kernel
  obtain ⟨s, hs⟩ : ∃ s, Net.after profS aOrB 2 () twoRequests = some s := by
    cases h : Net.after profS aOrB 2 () twoRequests with
    | none => rw [h] at h1; cases h1
    | some s => exact ⟨s, rfl⟩
  rw [hs, Option.any_some] at h1
  obtain ⟨c, hc⟩ : ∃ c, s.conns[0]? = some c := by
    cases h : s.conns[0]? with
    | none => rw [h] at h1; cases h1
    | some c => exact ⟨c, rfl⟩
  rw [hc] at h1
  simp only [Option.any_some, Bool.and_eq_true, beq_iff_eq] at h1
  obtain ⟨⟨h2, h3⟩, h4⟩ := h1
  have h5 : ∀ x : ClientConn, (x.all.map fun st => (st.asked, st.writer.sock.sent, bytesOf st.given)) =
      [([ask 97, ask 98], requestBytes (ask 97) ++ requestBytes (ask 98), responseBytes (.ofBody b!"A") ++ responseBytes (.ofBody b!"B"))] →
      ∀ st ∈ x.all, st.asked = [ask 97, ask 98] ∧ st.writer.sock.sent = requestBytes (ask 97) ++ requestBytes (ask 98) ∧
        bytesOf st.given = responseBytes (.ofBody b!"A") ++ responseBytes (.ofBody b!"B") := by
    intro x hx st hm
    have := List.mem_map_of_mem (f := fun st : ClientStream => (st.asked, st.writer.sock.sent, bytesOf st.given)) hm
    rw [hx] at this
    simpa using this
  refine ⟨_, _, .answered (.answered .nil (Prod.ext ?_ rfl)) (Prod.ext ?_ rfl), ?_, ?_⟩
  · rcases profC with ⟨_ | _⟩ <;> decide +kernel
  · rcases profC with ⟨_ | _⟩ <;> decide +kernel
  · intro st hst q hq
    obtain ⟨a1, -, -⟩ := h5 _ (by rcases profC with ⟨_ | _⟩ <;> decide +kernel) st hst
    rw [a1] at hq
    simp only [List.mem_cons, List.not_mem_nil, or_false] at hq
    rcases hq with rfl | rfl <;> exact ask_sendable _ (by decide)
  · intro st hst
    obtain ⟨-, a2, a3⟩ := h5 _ (by rcases profC with ⟨_ | _⟩ <;> decide +kernel) st hst
    refine ⟨s, 0, c, Net.reach_of hs, hc, ⟨⟨?_, ?_⟩, ?_⟩, ?_, ?_, ?_⟩
    · rw [h2]
      refine .safe fun ev he => ?_
      simp only [List.mem_cons, List.not_mem_nil, or_false] at he
      have safe : ∀ b : Bytes, (b.all fun x => decide (x < 128)) = true → SafeCut (b.map .byte) := by
        intro b hb x hx _
        rw [bytesOf_bytes] at hx
        exact utf8_ascii fun y hy => by simpa using List.all_eq_true.1 hb y (hx.mem hy)
      rcases he with rfl | rfl
      · exact ⟨_, rfl, by decide, safe _ (by decide)⟩
      · exact ⟨_, rfl, by decide, safe _ (by decide)⟩
    · rw [h2, a2]; decide +kernel
    · rw [a3, h4]; exact List.prefix_refl _
    · rw [h3]
      intro evs he
      simp only [List.mem_singleton] at he
      subst he
      exact ⟨by decide, .inr (by decide)⟩
    · intro a _ r hr
      simp only [Router.Says, aOrB_result] at hr
      rcases hr with hr | hr <;> cases hr
      split <;> exact ⟨by decide, by decide +kernel, by decide, by decide +kernel, by decide⟩
    · intro a _ _
      refine ⟨_, .inl (by rw [aOrB_result]), ?_⟩
      split <;> exact sized_sendable (by decide) (natDec_numeral _) (Nat.le_trans (natDec_length _ 7 (by decide)) (by decide)) (by decide)

end Verif
