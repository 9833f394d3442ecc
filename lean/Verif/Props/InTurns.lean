import Verif.Spec.InTurns
import Verif.Props.Progress
import Verif.Props.EndToEnd

/-! C68: the client and the server of the library do not wait for each other for ever. -/

namespace Verif

variable {σ : Type} {prof : Profile} {rt : Router σ} {n N k : Nat} {s₀ : σ}

theorem sendAll_append {F : Type} [StreamFactory F] {prof : Profile} (as bs : List Request) (c : ClientConn) (f : F) :
    (sendAll prof (as ++ bs) c f).1 = (sendAll prof as c f).1 ++ (sendAll prof bs (sendAll prof as c f).2.1 (sendAll prof as c f).2.2).1 := by
  induction as generalizing c f with
  | nil => rfl
  | cons q as ih =>
    simp only [List.cons_append, sendAll]
    rw [ih]

/-- The client, on a stream on which the responses come. -/
theorem sendAll_answers {prof : Profile} {qs : List Request} {rs : List Response} (hl : qs.length = rs.length) (hrs : ∀ r ∈ rs, r.Sendable)
    {raw : RawStream} {n : Nat} (ht : raw.Takes n) (hn : (qs.flatMap requestBytes).length ≤ n) (hin : raw.input.flatMap Ev.atoms = (rs.flatMap responseBytes).map .byte) (hne : qs ≠ []) :
    ∃ st, sendAll prof qs .new [CreateEnd.ok raw] = (rs.map .ok, ⟨some st, []⟩, []) ∧ st.writer.buf = [] ∧ st.writer.sock.sent = qs.flatMap requestBytes := by
  obtain ⟨st, i1, i2, i3, -⟩ := sendOpen_answers (prof := prof) (F := List CreateEnd) hl hrs (N := n)
    (c := ⟨some (.open raw), []⟩) (st := .open raw) rfl rfl ⟨ht.events, ht.flushes, by simpa [ClientStream.open] using ht.enough⟩
    (by simpa [ClientStream.open] using hn) (rest := []) ⟨rfl, by simpa [ClientStream.open, Src.atoms] using hin⟩ []
  refine ⟨st, ?_, i2, by simpa [ClientStream.open] using i3⟩
  cases qs with
  | nil => exact absurd rfl hne
  | cons q qs =>
    rw [← i1]
    simp only [sendAll]
    have : ClientConn.send prof .new [CreateEnd.ok raw] q = ClientConn.send prof ⟨some (.open raw), []⟩ ([] : List CreateEnd) q := by
      simp [ClientConn.send, ClientConn.new, ClientConn.connect, StreamFactory.create]
    rw [this]

theorem takers_replicate (m : Nat) : takers (List.replicate m (.accept 1)) = m := by
  induction m with
  | zero => rfl
  | succ m ih => rw [List.replicate_succ, takers, ih]

/-- If the responses to the first requests have come, their calls have returned. -/
theorem le_hears {prof : Profile} {qs : List Request} {rs : List Response} (hl : rs.length ≤ qs.length) (hrs : ∀ r ∈ rs, r.Sendable) :
    rs.length ≤ hears prof qs (rs.flatMap responseBytes) := by
  by_cases hne : rs = []
  · subst hne; exact Nat.zero_le _
  unfold hears
  have hqs : qs.take rs.length ≠ [] := by
    intro h
    have := congrArg List.length h
    rw [List.length_take, List.length_nil] at this
    have := List.length_pos_iff.2 hne
    omega
  obtain ⟨st, h, -⟩ := sendAll_answers (prof := prof) (qs := qs.take rs.length) (rs := rs) (by rw [List.length_take]; omega) hrs
    (raw := { input := if rs.flatMap responseBytes = [] then [] else [.data (rs.flatMap responseBytes)], output := List.replicate (qs.flatMap requestBytes).length (.accept 1) })
    (n := (qs.flatMap requestBytes).length) ⟨fun ev he => .inr ⟨1, by decide, List.eq_of_mem_replicate he⟩, by simp, by rw [takers_replicate]; exact Nat.le_refl _⟩
    (by
      have : (qs.flatMap requestBytes).length = ((qs.take rs.length ++ qs.drop rs.length).flatMap requestBytes).length := by rw [List.take_append_drop]
      rw [this, List.flatMap_append, List.length_append]
      omega)
    (by
      dsimp only
      split
      · rename_i h; rw [h]; rfl
      · rename_i h
        generalize rs.flatMap responseBytes = b at h
        cases b with
        | nil => exact absurd rfl h
        | cons b bs => simp [Ev.atoms])
    hqs
  conv => rhs; rw [← List.take_append_drop rs.length qs]
  rw [sendAll_append]
  rw [List.take_append_drop] 
  rw [h]
  dsimp only
  rw [List.takeWhile_append_of_pos (by
    intro x hx
    obtain ⟨r, -, rfl⟩ := List.mem_map.1 hx
    rfl), List.length_append, List.length_map]
  omega

theorem says_unique {a : Request × σ} {r r' : Response} (h : rt.Says a r) (h' : rt.Says a r') : r = r' := by
  rcases h with h | h <;> rcases h' with h' | h' <;> rw [h] at h' <;> cases h' <;> rfl

/-- What was answered are responses. -/
theorem answeredIn_says {as : List (Request × σ)} {out : Bytes} (h : AnsweredIn rt as out) (ha : ∀ a ∈ as, ∃ r, rt.Says a r ∧ r.Sendable) :
    ∃ rs, SaysAll rt as rs ∧ (∀ r ∈ rs, r.Sendable) ∧ rs.length = as.length ∧ out = rs.flatMap responseBytes := by
  induction h with
  | nil => exact ⟨[], .nil, nofun, rfl, rfl⟩
  | @cons q s as a out h1 _ ih =>
    obtain ⟨rs, h2, h3, h4, h5⟩ := ih fun a h => ha a (List.mem_cons_of_mem _ h)
    obtain ⟨r, h6, h8⟩ := ha _ List.mem_cons_self
    have h9 : answerBytes a = responseBytes r := by
      rcases h6 with h6 | h6 <;> (dsimp only at h6; rw [h6] at h1; cases h1; rfl)
    refine ⟨r :: rs, .cons h6 h2, ?_, by simp [h4], by rw [h9, h5]; rfl⟩
    intro r' hr'
    rcases List.mem_cons.1 hr' with rfl | hr'
    · exact h8
    · exact h3 _ hr'
  | @panic q s h1 =>
    obtain ⟨r, h6, -⟩ := ha _ List.mem_cons_self
    rcases h6 with h6 | h6 <;> (dsimp only at h6; rw [h6] at h1; cases h1)

theorem requestBytes_ne (q : Request) : requestBytes q ≠ [] := by
  intro h
  have := congrArg List.length h
  unfold requestBytes at this
  simp only [List.length_append, List.length_nil] at this
  have h2 : (b!" " : Bytes).length = 1 := rfl
  omega

theorem texts_prefix (qs : List Request) (i j : Nat) (h : i ≤ j) : (qs.take i).flatMap requestBytes <+: (qs.take j).flatMap requestBytes := by
  have : qs.take i = (qs.take j).take i := by rw [List.take_take, Nat.min_eq_left h]
  refine ⟨((qs.take j).drop i).flatMap requestBytes, ?_⟩
  rw [this, ← List.flatMap_append, List.take_append_drop]

/-- Some of the requests have come, and no others ever come. -/
theorem Net.Run.InTurns.sends {r : Net.Run prof rt n s₀} {profC : Profile} {qs : List Request} (h : r.InTurns profC N k qs) {j : Nat}
    (htext : ∀ t c, (r.at_ t).conns[k]? = some c → bytesOf (c.arrived.flatMap Ev.atoms) <+: (qs.take j).flatMap requestBytes)
    (hall : ∃ t c, (r.at_ t).conns[k]? = some c ∧ (qs.take j).flatMap requestBytes <+: bytesOf (c.arrived.flatMap Ev.atoms)) :
    r.Sends N k ((qs.take j).map fun q => (requestBytes q, q)) := by
  have e2 : ((qs.take j).map fun q => (requestBytes q, q)).flatMap Prod.fst = (qs.take j).flatMap requestBytes := by rw [List.flatMap_map]
  refine ⟨h.size, ?_, ?_, ?_, h.stays, h.socket, h.flushes, ?_⟩
  · intro m hm
    obtain ⟨q, h1, rfl⟩ := List.mem_map.1 hm
    have := h.requests q (List.mem_of_mem_take h1)
    exact ⟨this.1.fitting, this.2⟩
  · intro t c hc
    exact ⟨h.pieces t c hc, by rw [e2]; exact htext t c hc⟩
  · obtain ⟨t, c, hc, h1⟩ := hall
    refine ⟨t, c, hc, ?_⟩
    rw [e2]
    exact (htext t c hc).eq_of_length_le h1.length_le
  · intro t a ha
    obtain ⟨r', h1, h2, -⟩ := h.listeners t a ha
    refine ⟨fun r'' h3 => says_unique h1 h3 ▸ h2, ?_⟩
    rcases h1 with h1 | h1 <;> (rw [h1]; exact nofun)

/-- When only these requests come, they are answered. -/
theorem Net.Run.InTurns.answered {r : Net.Run prof rt n s₀} (hg : r.Going) (he : r.Ends) (hcr : ∀ t, (r.at_ t).pool.crashed.length < n) {profC : Profile} {qs : List Request}
    (h : r.InTurns profC N k qs) (htk : r.Takes k) {j : Nat}
    (htext : ∀ t c, (r.at_ t).conns[k]? = some c → bytesOf (c.arrived.flatMap Ev.atoms) <+: (qs.take j).flatMap requestBytes)
    (hall : ∃ t c, (r.at_ t).conns[k]? = some c ∧ (qs.take j).flatMap requestBytes <+: bytesOf (c.arrived.flatMap Ev.atoms)) :
    ∃ T as rs, as.map Prod.fst = qs.take j ∧ SaysAll rt as rs ∧ (∀ r ∈ rs, r.Sendable) ∧ rs.length = as.length ∧ ∀ t ≥ T, asksOn k (r.at_ t).asks = as ∧
      ∃ c, (r.at_ t).conns[k]? = some c ∧ c.slot.conn.writer.sock.sent = rs.flatMap responseBytes := by
  obtain ⟨T, as, out, h1, h2, h3⟩ := C62_sent_partial r hg he hcr (h.sends htext hall) htk
  obtain ⟨rs, h4, h5, h6, h7⟩ := answeredIn_says h2 (by
    rw [← (h3 T (Nat.le_refl _)).1]
    exact fun a ha => (h.listeners T a ha).imp fun _ h => ⟨h.1, h.2.2⟩)
  refine ⟨T, as, rs, by rw [h1]; simp [Function.comp_def], h4, h5, h6, ?_⟩
  rw [← h7]
  exact h3

theorem Net.Run.InTurns.comes {r : Net.Run prof rt n s₀} (hg : r.Going) (he : r.Ends) (hcr : ∀ t, (r.at_ t).pool.crashed.length < n) {profC : Profile} {qs : List Request}
    (h : r.InTurns profC N k qs) (htk : r.Takes k) {j : Nat} (hj : j ≤ qs.length) :
    ∃ t c, (r.at_ t).conns[k]? = some c ∧ (qs.take j).flatMap requestBytes <+: bytesOf (c.arrived.flatMap Ev.atoms) := by
  induction j with
  | zero =>
    obtain ⟨t, c, hc⟩ := h.accepted
    exact ⟨t, c, hc, List.nil_prefix⟩
  | succ j ih =>
    suffices hs : ∃ t c, (r.at_ t).conns[k]? = some c ∧ j ≤ hears profC qs c.slot.conn.writer.sock.sent by
      obtain ⟨t, c, hc, h1⟩ := hs
      obtain ⟨t', c', hc', h2⟩ := h.goesOn t c hc
      exact ⟨t', c', hc', (texts_prefix qs _ _ (by omega)).trans h2⟩
    by_cases htext : ∀ t c, (r.at_ t).conns[k]? = some c → bytesOf (c.arrived.flatMap Ev.atoms) <+: (qs.take j).flatMap requestBytes
    · obtain ⟨T, as, rs, h1, -, h3, h4, h5⟩ := h.answered hg he hcr htk htext (ih (by omega))
      obtain ⟨-, c, hc, h6⟩ := h5 T (Nat.le_refl _)
      have hl : rs.length = j := by
        have := congrArg List.length h1
        rw [List.length_map, List.length_take] at this
        omega
      refine ⟨T, c, hc, ?_⟩
      rw [h6]
      exact hl ▸ le_hears (by omega) h3
    · simp only [Classical.not_forall] at htext
      obtain ⟨t, c, hc, h1⟩ := htext
      refine ⟨t, c, hc, Nat.le_of_not_lt fun h2 => h1 ?_⟩
      exact (h.waits t c hc).trans (texts_prefix qs _ _ (by omega))

/-- C68 (partial: the conditions are in `Net.Run.InTurns`): a client of the library calls `send` again and again on one connection to a server of the library, sending each request when the answer to
the one before it has come. If the server goes on (as in C62), then every call returns: from some time on the router was asked about all requests, each once
and in order, and what the server has sent makes each call return what the router answered, in whatever pieces it comes. -/
theorem C68_conversation_partial {r : Net.Run prof rt n s₀} (hg : r.Going) (he : r.Ends) (hcr : ∀ t, (r.at_ t).pool.crashed.length < n) {profC : Profile} {qs : List Request}
    (h : r.InTurns profC N k qs) (htk : r.Takes k) :
    ∃ T as rs, as.map Prod.fst = qs ∧ SaysAll rt as rs ∧ ∀ t ≥ T, asksOn k (r.at_ t).asks = as ∧ ∃ c, (r.at_ t).conns[k]? = some c ∧
      ∀ raw : RawStream, raw.Takes (qs.flatMap requestBytes).length → raw.input.flatMap Ev.atoms = c.slot.conn.writer.sock.sent.map .byte →
        (sendAll profC qs .new [CreateEnd.ok raw]).1 = rs.map .ok := by
  have htext : ∀ t c, (r.at_ t).conns[k]? = some c → bytesOf (c.arrived.flatMap Ev.atoms) <+: (qs.take qs.length).flatMap requestBytes := by
    intro t c hc
    refine (h.waits t c hc).trans ?_
    by_cases hm : hears profC qs c.slot.conn.writer.sock.sent + 1 ≤ qs.length
    · exact texts_prefix qs _ _ hm
    · rw [List.take_of_length_le (by omega), List.take_length]; exact List.prefix_rfl
  obtain ⟨T, as, rs, h1, h2, h3, h4, h5⟩ := h.answered hg he hcr htk htext (h.comes hg he hcr htk (Nat.le_refl _))
  rw [List.take_length] at h1
  refine ⟨T, as, rs, h1, h2, fun t ht => ?_⟩
  obtain ⟨h6, c, hc, h7⟩ := h5 t ht
  refine ⟨h6, c, hc, fun raw hraw hin => ?_⟩
  rw [h7] at hin
  have hl : qs.length = rs.length := by rw [h4, ← h1, List.length_map]
  by_cases hne : qs = []
  · subst hne
    cases rs with
    | nil => rfl
    | cons => cases hl
  · obtain ⟨st, h8, -⟩ := sendAll_answers (prof := profC) hl h3 hraw (Nat.le_refl _) hin hne
    rw [h8]

/-! ## Witness -/

/-- One worker serves two requests of one client; the second comes when the first was answered. -/
def turns : List NAct := [.accept (fun n => n) (fun c n => c + n) (by omega) [], .arrive 0 (.data (requestBytes (ask 97))),
  .poll [0], .dispatch false, .work 0, .work 0, .work 0, .work 0, .lock 0 [.accept 100], .go 0, .go 0, .go 0, .go 0, .go 0, .go 0, .work 0,
  .arrive 0 (.data (requestBytes (ask 98))), .poll [0], .dispatch false, .work 0, .work 0, .work 0, .lock 0 [.accept 100],
  .go 0, .go 0, .go 0, .go 0, .go 0, .go 0, .work 0]

theorem turns_ok : ((((Net.new 1 0).get rfl).runActs prof greeter turns)).isSome = true := by obtain ⟨_ | _⟩ := prof <;> decide +kernel

def turnsRun (prof : Profile) : Net.Run prof greeter 1 0 := Net.Run.ofList (s := (Net.new 1 0).get rfl) turns rfl turns_ok

theorem turns_going : (turnsRun prof).Going := by
  refine Net.Run.ofList_going (Net.Run.ofList_fair ?_ ?_) ?_
  · obtain ⟨_ | _⟩ := prof <;> decide +kernel
  · obtain ⟨_ | _⟩ := prof <;> decide +kernel
  · obtain ⟨_ | _⟩ := prof <;> decide +kernel

/-- The first and the second response. -/
def turnOne : Response := .ofBody b!"hello"
def turnTwo : Response := .ofBody b!"hello again"

theorem turns_sendable : turnOne.Sendable ∧ turnTwo.Sendable := by
  constructor <;> exact sized_sendable (by decide) (natDec_numeral _) (Nat.le_trans (natDec_length _ 7 (by decide)) (by decide)) (by decide)

theorem turns_all {p : Net Nat → Bool} (hp : ∀ t ≤ turns.length, ((((Net.new 1 0).get rfl).runActs prof greeter (turns.take t))).all p) (t : Nat) :
    p ((turnsRun prof).at_ t) = true := Net.Run.ofList_all hp t

/-- What holds of the connections at all times. -/
theorem turns_conns (t : Nat) {k : Nat} {c : NConn Nat} (hc : ((turnsRun prof).at_ t).conns[k]? = some c) :
    (c.slot.conn.writer.sock.sent = [] ∧ (c.arrived = [] ∨ c.arrived = [.data (requestBytes (ask 97))]) ∨
      (c.slot.conn.writer.sock.sent = [turnOne].flatMap responseBytes ∨ c.slot.conn.writer.sock.sent = [turnOne, turnTwo].flatMap responseBytes) ∧
      (c.arrived = [.data (requestBytes (ask 97))] ∨ c.arrived = [.data (requestBytes (ask 97)), .data (requestBytes (ask 98))])) ∧ c.inTable = true ∧
      (∀ evs ∈ c.wakes, evs = [.accept 100]) ∧ (c.lock = none → c.slot.conn.writer.pending = []) := by
  have := turns_all (prof := prof) (p := fun s => s.conns.all fun c =>
    (c.slot.conn.writer.sock.sent == [] && (c.arrived == [] || c.arrived == [.data (requestBytes (ask 97))]) ||
      (c.slot.conn.writer.sock.sent == [turnOne].flatMap responseBytes || c.slot.conn.writer.sock.sent == [turnOne, turnTwo].flatMap responseBytes) &&
      (c.arrived == [.data (requestBytes (ask 97))] || c.arrived == [.data (requestBytes (ask 97)), .data (requestBytes (ask 98))])) && c.inTable &&
    (c.wakes.all fun evs => evs == [.accept 100]) && (c.lock.isSome || c.slot.conn.writer.pending == [])) (by obtain ⟨_ | _⟩ := prof <;> decide +kernel) t
  simp only [Bool.and_eq_true, List.all_eq_true, Bool.or_eq_true, beq_iff_eq] at this
  obtain ⟨⟨⟨h3, h4⟩, h5⟩, h6⟩ := this c (List.mem_of_getElem? hc)
  exact ⟨h3, h4, h5, fun hl => h6.resolve_left (by simp [hl])⟩

theorem turns_one (t : Nat) : ((turnsRun prof).at_ t).conns.length ≤ 1 ∧ ((turnsRun prof).at_ t).pool.crashed.length < 1 := by
  have := turns_all (prof := prof) (p := fun s => decide (s.conns.length ≤ 1) && s.pool.crashed.length == 0) (by obtain ⟨_ | _⟩ := prof <;> decide +kernel) t
  simp only [Bool.and_eq_true, decide_eq_true_eq, beq_iff_eq] at this
  omega

theorem turns_ends : (turnsRun prof).Ends := by
  intro k
  refine ⟨2, fun t c hc => ?_⟩
  rcases (turns_conns t hc).1 with ⟨-, h | h⟩ | ⟨-, h | h⟩ <;> simp [h]

theorem turns_takes : (turnsRun prof).Takes 0 := fun t _ hc hl hp => absurd ((turns_conns t hc).2.2.2 hl) hp

theorem turns_late : ∃ c, ((turnsRun prof).at_ 17).conns[0]? = some c ∧ c.arrived = [.data (requestBytes (ask 97)), .data (requestBytes (ask 98))] := by
  have h : ((turnsRun prof).at_ 17).conns[0]?.any (fun c => c.arrived == [.data (requestBytes (ask 97)), .data (requestBytes (ask 98))]) = true := by
    obtain ⟨_ | _⟩ := prof <;> decide +kernel
  cases hc : ((turnsRun prof).at_ 17).conns[0]? with
  | none => rw [hc] at h; cases h
  | some c =>
    rw [hc] at h
    simp only [Option.any_some, beq_iff_eq] at h
    exact ⟨c, rfl, h⟩

theorem turns_inTurns (profC : Profile) : (turnsRun prof).InTurns profC 28 0 [ask 97, ask 98] where
  size := Nat.le_refl _
  requests q hq := by
    simp only [List.mem_cons, List.not_mem_nil, or_false] at hq
    rcases hq with rfl | rfl <;> exact ⟨ask_sendable _ (by decide), by simp [CloseAsked, ask, HeaderMap.get]⟩
  accepted := by
    obtain ⟨c, hc, -⟩ := turns_late (prof := prof)
    exact ⟨17, c, hc⟩
  pieces t c hc := .safe fun ev he => by
    have : ev = .data (requestBytes (ask 97)) ∨ ev = .data (requestBytes (ask 98)) := by
      rcases (turns_conns t hc).1 with ⟨-, h | h⟩ | ⟨-, h | h⟩ <;> rw [h] at he <;> simp at he
      · exact .inl he
      · exact .inl he
      · exact he
    rcases this with rfl | rfl <;> exact ⟨_, rfl, by decide +kernel, safeCut_ascii (by decide +kernel)⟩
  waits t c hc := by
    rcases (turns_conns t hc).1 with ⟨-, h⟩ | ⟨h, h'⟩
    · refine List.IsPrefix.trans ?_ (texts_prefix [ask 97, ask 98] 1 _ (by omega))
      rcases h with h | h <;> rw [h] <;> decide +kernel
    · have h2 : 1 ≤ hears profC [ask 97, ask 98] c.slot.conn.writer.sock.sent := by
        rcases h with h | h <;> rw [h]
        · exact le_hears (rs := [turnOne]) (by decide) (by simp [turns_sendable])
        · exact Nat.le_trans (by decide) (le_hears (rs := [turnOne, turnTwo]) (by decide) (by simp [turns_sendable]))
      refine List.IsPrefix.trans ?_ (texts_prefix [ask 97, ask 98] 2 _ (by omega))
      rcases h' with h | h <;> rw [h] <;> decide +kernel
  goesOn t c hc := by
    obtain ⟨c', hc', h⟩ := turns_late (prof := prof)
    refine ⟨17, c', hc', ?_⟩
    rw [h]
    refine (texts_prefix [ask 97, ask 98] _ (hears profC [ask 97, ask 98] c.slot.conn.writer.sock.sent + 2) (by omega)).trans ?_
    rw [List.take_of_length_le (by simp)]
    decide +kernel
  stays t c hc := (turns_conns t hc).2.1
  socket t c hc evs he := by
    rw [(turns_conns t hc).2.2.1 evs he]
    exact ⟨⟨by simp, .inr (by decide)⟩, by simp⟩
  flushes t c hc := by
    have h := turns_all (prof := prof) (p := fun s => s.conns.all fun c => c.first.writer.sock.flushes == []) (by obtain ⟨_ | _⟩ := prof <;> decide +kernel) t
    simp only [List.all_eq_true, beq_iff_eq] at h
    rw [h c (List.mem_of_getElem? hc)]
    exact fun _ => nofun
  listeners t a _ := by
    obtain ⟨q, s⟩ := a
    refine ⟨if s = 0 then turnOne else turnTwo, .inl ?_, ?_, ?_⟩
    · show (greeter.result q s).1 = _
      rw [greeter_result]
      split <;> rfl
    · refine greeter_parts.2 q s _ (s + 1) (.inl ?_)
      rw [greeter_result]
      split <;> rfl
    · split
      · exact turns_sendable.1
      · exact turns_sendable.2

/-- The conditions of `C68_conversation_partial` can be met, by a client with two requests. -/
example (profC : Profile) : (turnsRun prof).Going ∧ (turnsRun prof).Ends ∧ (∀ t, ((turnsRun prof).at_ t).pool.crashed.length < 1) ∧
    (turnsRun prof).InTurns profC 28 0 [ask 97, ask 98] ∧ (turnsRun prof).Takes 0 :=
  ⟨turns_going, turns_ends, fun t => (turns_one t).2, turns_inTurns profC, turns_takes⟩

/-- C68 (false for requests that no listener takes): the server goes on, the request of the client comes, the router is asked, and the server has sent its whole answer, 404; but the answer has no length
and the server does not close the connection, so the call of `send` never returns. -/
theorem C68_unrouted_false (prof profC : Profile) : ∃ r : Net.Run prof ([] : Router Unit) 1 (), r.Going ∧ r.Ends ∧ (∀ t, (r.at_ t).pool.crashed.length < 1) ∧
    r.Sends 4096 0 [(requestBytes aRequest.2, aRequest.2)] ∧ r.Takes 0 ∧ aRequest.2.Sendable ∧
    (∃ T, ∀ t ≥ T, ∃ c, (r.at_ t).conns[0]? = some c ∧ c.slot.conn.writer.sock.sent = b!"HTTP/1.1 404 Not Found\r\n\r\n") ∧
    ∀ t c, (r.at_ t).conns[0]? = some c → hears profC [aRequest.2] c.slot.conn.writer.sock.sent = 0 := by
  refine ⟨slowRun prof, slow_going, slow_ends, slow_alive, ?_, slow_takes, ?_, ?_, ?_⟩
  · exact slow_sends
  · exact ask_sendable 97 (by decide)
  · exact slow_sent
  · intro t c hc
    have := slow_all (prof := prof) (p := fun s => s.conns.all fun c => c.slot.conn.writer.sock.sent == [] || c.slot.conn.writer.sock.sent == b!"HTTP/1.1 404 Not Found\r\n\r\n")
      (by obtain ⟨_ | _⟩ := prof <;> decide +kernel) t
    simp only [List.all_eq_true, Bool.or_eq_true, beq_iff_eq] at this
    rcases this c (List.mem_of_getElem? hc) with h | h <;> rw [h]
    · obtain ⟨_ | _⟩ := profC <;> decide +kernel
    · obtain ⟨_ | _⟩ := profC <;> decide +kernel

end Verif
