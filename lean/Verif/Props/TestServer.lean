import Verif.Model.TestServer
import Verif.Spec.TestServer
import Verif.Props.InTurns

/-! C82: what the integration tests of the server check holds on every schedule. -/

namespace Verif

theorem Router.on_append {σ : Type} (a b : Router σ) (ps : List (Request × Response)) (f : Request × Response → Listener σ) :
    ps.foldl (fun router m => Router.on router m.1.uri (f m)) (a ++ b) = a ++ ps.foldl (fun router m => Router.on router m.1.uri (f m)) b := by
  induction ps generalizing b with
  | nil => rfl
  | cons p ps ih =>
    simp only [List.foldl_cons, Router.on, Router.onPrefix, List.append_assoc]
    exact ih _

theorem testRouter_cons (m : Request × Response) (ms : List (Request × Response)) :
    testRouter (m :: ms) = Router.on [] m.1.uri (testListener m) ++ testRouter ms := by
  have := Router.on_append (Router.on [] m.1.uri (testListener m)) [] ms testListener
  rw [List.append_nil] at this
  exact this

theorem eq_uri {q q' : Request} (h : q.eq q' = true) : q.uri = q'.uri := by
  simp only [Request.eq, Bool.and_eq_true, beq_iff_eq] at h
  exact h.1.1.1

/-- The router gives the response of the first message with the request. -/
theorem testRouter_result (ms : List (Request × Response)) (q : Request) (s : Unit) :
    ((testRouter ms).result q s).1 = some (match ms.find? fun m => m.1.eq q with | some m => .sendResponseArc m.2 | none => .next) := by
  induction ms with
  | nil => rfl
  | cons m ms ih =>
    rw [testRouter_cons]
    simp only [Router.result, Router.on, Router.onPrefix, List.nil_append, List.cons_append, Router.resultInternal, show startsWith q.uri b!"" = true by cases q.uri <;> rfl, if_true]
    simp only [List.find?_cons]
    by_cases hu : m.1.uri = q.uri
    · rw [if_pos hu]
      unfold testListener
      cases he : m.1.eq q with
      | true => rfl
      | false => exact ih
    · rw [if_neg hu]
      have : m.1.eq q = false := by
        cases he : m.1.eq q with
        | true => exact absurd (eq_uri he) hu
        | false => rfl
      rw [this]
      exact ih

theorem mem_get {m : HeaderMap} (hw : m.WF) {e : Header × List Bytes} : m.get e.1 = some e.2 ↔ e ∈ m := by
  induction m with
  | nil => simp [HeaderMap.get]
  | cons x m ih =>
    obtain ⟨k, v⟩ := x
    obtain ⟨k', v'⟩ := e
    simp only [HeaderMap.WF, List.map_cons, List.nodup_cons] at hw
    simp only [HeaderMap.get, List.mem_cons, Prod.mk.injEq]
    by_cases h : k = k'
    · subst h
      simp only [if_true, Option.some.injEq, true_and]
      constructor
      · exact fun h => .inl h.symm
      · rintro (h | h)
        · exact h.symm
        · exact absurd (List.mem_map_of_mem h) hw.1
    · rw [if_neg h]
      simp only [show ¬ k' = k from fun e => h e.symm, false_and, false_or]
      exact ih hw.2

theorem perm_of_subset {α : Type} [DecidableEq α] {l l' : List α} (hn : l.Nodup) (hs : ∀ x ∈ l, x ∈ l') (hl : l'.length ≤ l.length) : l'.Perm l := by
  induction l generalizing l' with
  | nil =>
    cases l' with
    | nil => exact .refl _
    | cons => simp at hl
  | cons x l ih =>
    have hx := hs x (by simp)
    refine (List.perm_cons_erase hx).trans (.cons _ (ih (List.nodup_cons.1 hn).2 (fun y hy => ?_) ?_))
    · refine (List.mem_erase_of_ne ?_).2 (hs y (by simp [hy]))
      rintro rfl
      exact (List.nodup_cons.1 hn).1 hy
    · rw [List.length_erase_of_mem hx]
      simp only [List.length_cons] at hl
      omega

theorem HeaderMap.eq_iff {m m' : HeaderMap} (hw : m.WF) (hw' : m'.WF) : HeaderMap.eq m m' = true ↔ m'.Perm m := by
  simp only [HeaderMap.eq, Bool.and_eq_true, beq_iff_eq, List.all_eq_true]
  constructor
  · rintro ⟨h1, h2⟩
    refine perm_of_subset ?_ (fun e he => (mem_get hw').1 (h2 e he)) (by omega)
    refine List.Pairwise.imp ?_ (List.pairwise_map.1 hw)
    exact fun h e => h (by rw [e])
  · intro h
    exact ⟨h.length_eq.symm, fun e he => (mem_get hw').2 (h.mem_iff.2 he)⟩

theorem Request.eq_iff {q q' : Request} (hw : q.headers.WF) (hw' : q'.headers.WF) : q.eq q' = true ↔ q.Same q' := by
  simp only [Request.eq, Bool.and_eq_true, beq_iff_eq, HeaderMap.eq_iff hw hw', Request.Same]
  constructor
  · rintro ⟨⟨⟨h1, h2⟩, h3⟩, h4⟩
    exact ⟨h1.symm, h2.symm, h3, h4.symm⟩
  · rintro ⟨h1, h2, h3, h4⟩
    exact ⟨⟨⟨h1.symm, h2.symm⟩, h3⟩, h4.symm⟩

variable {messages : List (Request × Response)}

/-- What the router of the tests answers to an expected request. -/
theorem testRouter_says (hwf : ∀ m ∈ messages, m.1.headers.WF) (hcons : Consistent messages) {q : Request} (hq : q.headers.WF) {m : Request × Response} (hm : m ∈ messages) (hs : m.1.Same q) (s : Unit) :
    (testRouter messages).Says (q, s) m.2 := by
  right
  dsimp only
  rw [testRouter_result]
  cases hf : messages.find? fun m => m.1.eq q with
  | none => exact absurd ((Request.eq_iff (hwf m hm) hq).2 hs) (by simpa using List.find?_eq_none.1 hf m hm)
  | some m' =>
    have h1 := List.mem_of_find?_eq_some hf
    have h2 := (Request.eq_iff (hwf m' h1) hq).1 (by simpa using List.find?_some hf)
    have h3 : m'.1.Same m.1 := ⟨hs.1.symm.trans h2.1, hs.2.1.symm.trans h2.2.1, hs.2.2.1.symm.trans h2.2.2.1, hs.2.2.2.symm.trans h2.2.2.2⟩
    dsimp only
    rw [hcons m' h1 m hm h3]

/-- Whatever the router of the tests says is one of the responses, and it does not panic. -/
theorem testRouter_only (q : Request) (s : Unit) : ((testRouter messages).result q s).1 ≠ none ∧ ∀ r, (testRouter messages).Says (q, s) r → ∃ m ∈ messages, m.2 = r := by
  have h := testRouter_result messages q s
  refine ⟨by rw [h]; nofun, fun r hr => ?_⟩
  rcases hr with hr | hr
  · dsimp only at hr
    rw [h] at hr
    split at hr <;> cases hr
  · dsimp only at hr
    rw [h] at hr
    split at hr
    · rename_i m hm
      cases hr
      exact ⟨m, List.mem_of_find?_eq_some hm, rfl⟩
    · cases hr

theorem answeredIn_texts {σ : Type} {rt : Router σ} {as : List (Request × σ)} {out : Bytes} (h : AnsweredIn rt as out) {ps : List (Request × Response)} (hp : ps.map Prod.fst = as.map Prod.fst)
    (hs : ∀ p ∈ ps, ∀ s, rt.Says (p.1, s) p.2) : out = ps.flatMap fun p => responseBytes p.2 := by
  induction h generalizing ps with
  | nil =>
    cases ps with
    | nil => rfl
    | cons => cases hp
  | @cons q s as a out h1 _ ih =>
    cases ps with
    | nil => cases hp
    | cons p ps =>
      simp only [List.map_cons, List.cons.injEq] at hp
      have h2 := hs p (by simp) s
      rw [hp.1] at h2
      rw [List.flatMap_cons, ← ih hp.2 fun p hp => hs p (by simp [hp])]
      rcases h2 with h2 | h2 <;> (dsimp only at h2; rw [h2] at h1; cases h1; rfl)
  | @panic q s h1 =>
    cases ps with
    | nil => cases hp
    | cons p ps =>
      simp only [List.map_cons, List.cons.injEq] at hp
      have h2 := hs p (by simp) s
      rw [hp.1] at h2
      rcases h2 with h2 | h2 <;> (dsimp only at h2; rw [h2] at h1; cases h1)

theorem le_readExact (ls : List Nat) (j n : Nat) (hj : j ≤ ls.length) (h : (ls.take j).sum ≤ n) : j ≤ readExact ls n := by
  induction ls generalizing j n with
  | nil =>
    rw [List.length_nil] at hj
    omega
  | cons l ls ih =>
    cases j with
    | zero => exact Nat.zero_le _
    | succ j =>
      simp only [List.take_succ_cons, List.sum_cons] at h
      simp only [List.length_cons] at hj
      rw [readExact, if_pos (by omega)]
      exact Nat.succ_le_succ (ih j (n - l) (by omega) (by omega))

theorem flatMap_take {α : Type} (f : α → Bytes) (ps : List α) {i j : Nat} (h : i ≤ j) : (ps.take i).flatMap f <+: (ps.take j).flatMap f := by
  have : ps.take i = (ps.take j).take i := by rw [List.take_take, Nat.min_eq_left h]
  refine ⟨((ps.take j).drop i).flatMap f, ?_⟩
  rw [this, ← List.flatMap_append, List.take_append_drop]

section

variable {prof : Profile} {n N k : Nat} {r : Net.Run prof (testRouter messages) n ()} {ps : List (Request × Response)}

theorem Net.Run.Tester.sends (hx : Expected messages N ps) (h : r.Tester N k ps) {j : Nat}
    (htext : ∀ t c, (r.at_ t).conns[k]? = some c → bytesOf (c.arrived.flatMap Ev.atoms) <+: (ps.take j).flatMap fun p => requestBytes p.1)
    (hall : ∃ t c, (r.at_ t).conns[k]? = some c ∧ ((ps.take j).flatMap fun p => requestBytes p.1) <+: bytesOf (c.arrived.flatMap Ev.atoms)) :
    r.Sends N k ((ps.take j).map fun p => (requestBytes p.1, p.1)) := by
  have e2 : ((ps.take j).map fun p => (requestBytes p.1, p.1)).flatMap Prod.fst = (ps.take j).flatMap fun p => requestBytes p.1 := by rw [List.flatMap_map]
  refine ⟨hx.size, ?_, ?_, ?_, h.stays, h.socket, h.flushes, ?_⟩
  · intro m hm
    obtain ⟨p, h1, rfl⟩ := List.mem_map.1 hm
    have := h.requests p (List.mem_of_mem_take h1)
    exact ⟨this.1.fitting, this.2⟩
  · intro t c hc
    exact ⟨h.pieces t c hc, by rw [e2]; exact htext t c hc⟩
  · obtain ⟨t, c, hc, h1⟩ := hall
    refine ⟨t, c, hc, ?_⟩
    rw [e2]
    exact (htext t c hc).eq_of_length_le h1.length_le
  · intro t a _
    have h1 := testRouter_only (messages := messages) a.1 a.2
    refine ⟨fun r' h2 => ?_, h1.1⟩
    obtain ⟨m, h3, rfl⟩ := h1.2 r' h2
    exact hx.parts m h3

theorem Net.Run.Tester.answered (hx : Expected messages N ps) (hg : r.Going) (he : r.Ends) (hcr : ∀ t, (r.at_ t).pool.crashed.length < n) (h : r.Tester N k ps) (htk : r.Takes k) {j : Nat}
    (htext : ∀ t c, (r.at_ t).conns[k]? = some c → bytesOf (c.arrived.flatMap Ev.atoms) <+: (ps.take j).flatMap fun p => requestBytes p.1)
    (hall : ∃ t c, (r.at_ t).conns[k]? = some c ∧ ((ps.take j).flatMap fun p => requestBytes p.1) <+: bytesOf (c.arrived.flatMap Ev.atoms)) :
    ∃ T, ∀ t ≥ T, (asksOn k (r.at_ t).asks).map Prod.fst = (ps.take j).map Prod.fst ∧ ∃ c, (r.at_ t).conns[k]? = some c ∧ c.slot.conn.writer.sock.sent = (ps.take j).flatMap fun p => responseBytes p.2 := by
  obtain ⟨T, as, out, h1, h2, h3⟩ := C62_sent_partial r hg he hcr (h.sends hx htext hall) htk
  rw [List.map_map] at h1
  have h4 := answeredIn_texts h2 (ps := ps.take j) h1.symm fun p hp s => by
    obtain ⟨m, k1, k2, k3⟩ := hx.known p (List.mem_of_mem_take hp)
    rw [k3]
    exact testRouter_says hx.maps hx.consistent (h.requests p (List.mem_of_mem_take hp)).1.headers.wf k1 k2 s
  refine ⟨T, fun t ht => ?_⟩
  obtain ⟨h5, h6⟩ := h3 t ht
  rw [h5, ← h4]
  exact ⟨h1, h6⟩

theorem Net.Run.Tester.comes (hx : Expected messages N ps) (hg : r.Going) (he : r.Ends) (hcr : ∀ t, (r.at_ t).pool.crashed.length < n) (h : r.Tester N k ps) (htk : r.Takes k) {j : Nat} (hj : j ≤ ps.length) :
    ∃ t c, (r.at_ t).conns[k]? = some c ∧ ((ps.take j).flatMap fun p => requestBytes p.1) <+: bytesOf (c.arrived.flatMap Ev.atoms) := by
  induction j with
  | zero =>
    obtain ⟨t, c, hc⟩ := h.accepted
    exact ⟨t, c, hc, List.nil_prefix⟩
  | succ j ih =>
    suffices hs : ∃ t c, (r.at_ t).conns[k]? = some c ∧ j ≤ readExact (ps.map fun p => (responseBytes p.2).length) c.slot.conn.writer.sock.sent.length by
      obtain ⟨t, c, hc, h1⟩ := hs
      obtain ⟨t', c', hc', h2⟩ := h.goesOn t c hc
      exact ⟨t', c', hc', (flatMap_take _ ps (by omega)).trans h2⟩
    by_cases htext : ∀ t c, (r.at_ t).conns[k]? = some c → bytesOf (c.arrived.flatMap Ev.atoms) <+: (ps.take j).flatMap fun p => requestBytes p.1
    · obtain ⟨T, h5⟩ := h.answered hx hg he hcr htk htext (ih (by omega))
      obtain ⟨-, c, hc, h6⟩ := h5 T (Nat.le_refl _)
      refine ⟨T, c, hc, le_readExact _ _ _ (by rw [List.length_map]; omega) ?_⟩
      rw [h6, ← List.map_take, List.length_flatMap]
      exact Nat.le_refl _
    · simp only [Classical.not_forall] at htext
      obtain ⟨t, c, hc, h1⟩ := htext
      refine ⟨t, c, hc, Nat.le_of_not_lt fun h2 => h1 ?_⟩
      exact (h.waits t c hc).trans (flatMap_take _ ps (by omega))

/-- C82 (partial: the conditions are in `Net.Run.Tester`): with the router of the integration tests, for all messages with one response for each request, in every run of the server in which it goes on (as in C62), whatever other clients do:
a client that sends some of the requests one after the other, reading as many bytes as the expected response has before it goes on, is sent the expected responses, all of them in the end, and nothing else at any time. -/
theorem C82_tests_partial (hx : Expected messages N ps) (hg : r.Going) (he : r.Ends) (hcr : ∀ t, (r.at_ t).pool.crashed.length < n) (h : r.Tester N k ps) (htk : r.Takes k) :
    (∀ t c, (r.at_ t).conns[k]? = some c → c.slot.conn.writer.sock.sent <+: ps.flatMap fun p => responseBytes p.2) ∧
    ∃ T, ∀ t ≥ T, (asksOn k (r.at_ t).asks).map Prod.fst = ps.map Prod.fst ∧ ∃ c, (r.at_ t).conns[k]? = some c ∧ c.slot.conn.writer.sock.sent = ps.flatMap fun p => responseBytes p.2 := by
  have hT : ∃ T, ∀ t ≥ T, (asksOn k (r.at_ t).asks).map Prod.fst = ps.map Prod.fst ∧ ∃ c, (r.at_ t).conns[k]? = some c ∧ c.slot.conn.writer.sock.sent = ps.flatMap fun p => responseBytes p.2 := by
    have htext : ∀ t c, (r.at_ t).conns[k]? = some c → bytesOf (c.arrived.flatMap Ev.atoms) <+: (ps.take ps.length).flatMap fun p => requestBytes p.1 := by
      intro t c hc
      refine (h.waits t c hc).trans ?_
      by_cases hm : readExact (ps.map fun p => (responseBytes p.2).length) c.slot.conn.writer.sock.sent.length + 1 ≤ ps.length
      · exact flatMap_take _ ps hm
      · rw [List.take_of_length_le (by omega), List.take_length]; exact List.prefix_rfl
    have := h.answered hx hg he hcr htk htext (h.comes hx hg he hcr htk (Nat.le_refl _))
    rwa [List.take_length] at this
  refine ⟨fun t c hc => ?_, hT⟩
  obtain ⟨T, hT⟩ := hT
  obtain ⟨-, c', hc', h2⟩ := hT (max t T) (Nat.le_max_right ..)
  obtain ⟨c'', hc'', h3⟩ := r.sentPrefix (Nat.le_max_left t T) hc
  rw [hc'] at hc''
  cases hc''
  rw [← h2]
  exact h3

/-- C82: the requests of the tests: each client sends all the messages, some number of times. -/
theorem Expected.loops (hN : 28 ≤ N) (hwf : ∀ m ∈ messages, m.1.headers.WF) (hcons : Consistent messages) (hparts : ∀ m ∈ messages, m.2.PartsLe N) (loops : Nat) : Expected messages N (List.replicate loops messages).flatten :=
  ⟨hN, hwf, hcons, hparts, fun p hp => by
    obtain ⟨l, h1, h2⟩ := List.mem_flatten.1 hp
    rw [List.eq_of_mem_replicate h1] at h2
    exact ⟨p, h2, ⟨rfl, rfl, .refl _, rfl⟩, rfl⟩⟩

end

/-! ## Witness -/

/-- The first messages of `many_requests_with_short_headers_and_short_bodies`, http_server.rs 34-45. -/
def testOne : Request × Response := (⟨b!"/", .get, [], []⟩, ⟨.ok, [], []⟩)

/-- The second messages, http_server.rs 46-68. -/
def testTwo : Request × Response :=
  (⟨b!"/foo", .get, HeaderMap.fromPairs [(.contentLength, b!"5"), (.custom b!"custom-header", b!"custom header value")], b!"hello"⟩,
   ⟨⟨234, b!"hi"⟩, HeaderMap.fromPairs [(.contentLength, b!"7"), (.custom b!"custom-header-2", b!"custom header value 2")], b!"welcome"⟩)

theorem testOne_sendable : testOne.1.Sendable := by
  refine ⟨by decide, by decide, by decide, by decide, ⟨by simp [testOne, HeaderMap.WF], by simp [testOne], by simp [testOne], by simp [testOne], by simp [testOne]⟩, .inr ⟨⟨fun v h => ?_, fun v h => ?_⟩, rfl⟩⟩
  · obtain ⟨vs, h⟩ := h; simp [testOne] at h
  · obtain ⟨vs, h⟩ := h; simp [testOne] at h

theorem testTwo_headers : testTwo.1.headers = [(Header.contentLength, [b!"5"]), (Header.custom b!"custom-header", [b!"custom header value"])] := by decide +kernel

theorem testTwo_sendable : testTwo.1.Sendable := by
  refine ⟨by decide, by decide, by decide, by decide, ⟨(by decide : (testTwo.1.headers.map Prod.fst).Nodup), ?_, by decide, ?_, by decide⟩, .inl ⟨b!"5", ⟨[], by decide⟩, .inl (natDec_numeral 5), by decide⟩⟩
  · intro e he
    have he : e = (Header.contentLength, [b!"5"]) ∨ e = (Header.custom b!"custom-header", [b!"custom header value"]) := by simpa [testTwo_headers] using he
    rcases he with rfl | rfl
    · exact ⟨b!"Content-Length", by decide⟩
    · exact ⟨b!"custom-header", by decide +kernel⟩
  · intro e he v hv
    have he : e = (Header.contentLength, [b!"5"]) ∨ e = (Header.custom b!"custom-header", [b!"custom header value"]) := by simpa [testTwo_headers] using he
    rcases he with rfl | rfl
    · obtain rfl : v = b!"5" := by simpa using hv
      exact digits_line (natDec_numeral 5) (by decide)
    · obtain rfl : v = b!"custom header value" := by simpa using hv
      exact ⟨⟨by decide, by decide, by decide⟩, occurs_ascii (by decide)⟩

theorem test_expected (loops : Nat) : Expected [testOne, testTwo] 28 (List.replicate loops [testOne, testTwo]).flatten := by
  refine .loops (Nat.le_refl _) ?_ ?_ ?_ loops
  · intro m hm
    simp only [List.mem_cons, List.not_mem_nil, or_false] at hm
    rcases hm with rfl | rfl
    · exact testOne_sendable.headers.wf
    · exact testTwo_sendable.headers.wf
  · intro m hm m' hm' hs
    simp only [List.mem_cons, List.not_mem_nil, or_false] at hm hm'
    rcases hm with rfl | rfl <;> rcases hm' with rfl | rfl
    · rfl
    · exact absurd hs.1 (by decide)
    · exact absurd hs.1 (by decide)
    · rfl
  · intro m hm
    simp only [List.mem_cons, List.not_mem_nil, or_false] at hm
    rcases hm with rfl | rfl <;> exact ⟨by decide, by decide +kernel, by decide, by decide +kernel, by decide⟩

/-- One worker serves one round of the messages of a client. -/
def testRound : List NAct := [.accept (fun n => n) (fun c n => c + n) (by omega) [], .arrive 0 (.data (requestBytes testOne.1)),
  .poll [0], .dispatch false, .work 0, .work 0, .work 0, .work 0, .lock 0 [.accept 100], .go 0, .go 0, .go 0, .go 0, .go 0, .go 0, .work 0,
  .arrive 0 (.data (requestBytes testTwo.1)), .poll [0], .dispatch false, .work 0, .work 0, .work 0, .lock 0 [.accept 100],
  .go 0, .go 0, .go 0, .go 0, .go 0, .go 0, .work 0]

theorem test_ok (prof : Profile) : ((((Net.new 1 ()).get rfl).runActs prof (testRouter [testOne, testTwo]) testRound)).isSome = true := by obtain ⟨_ | _⟩ := prof <;> decide +kernel

def testRun (prof : Profile) : Net.Run prof (testRouter [testOne, testTwo]) 1 () := Net.Run.ofList (s := (Net.new 1 ()).get rfl) testRound rfl (test_ok prof)

variable {prof : Profile}

theorem test_going : (testRun prof).Going := by
  refine Net.Run.ofList_going (Net.Run.ofList_fair ?_ ?_) ?_
  · obtain ⟨_ | _⟩ := prof <;> decide +kernel
  · obtain ⟨_ | _⟩ := prof <;> decide +kernel
  · obtain ⟨_ | _⟩ := prof <;> decide +kernel

theorem test_all {p : Net Unit → Bool} (hp : ∀ t ≤ testRound.length, ((((Net.new 1 ()).get rfl).runActs prof (testRouter [testOne, testTwo]) (testRound.take t))).all p) (t : Nat) :
    p ((testRun prof).at_ t) = true := Net.Run.ofList_all hp t

/-- What holds of the connections at all times. -/
theorem test_conns (t : Nat) {k : Nat} {c : NConn Unit} (hc : ((testRun prof).at_ t).conns[k]? = some c) :
    (c.slot.conn.writer.sock.sent = [] ∧ (c.arrived = [] ∨ c.arrived = [.data (requestBytes testOne.1)]) ∨
      (c.slot.conn.writer.sock.sent = [testOne].flatMap (fun p => responseBytes p.2) ∨ c.slot.conn.writer.sock.sent = [testOne, testTwo].flatMap (fun p => responseBytes p.2)) ∧
      (c.arrived = [.data (requestBytes testOne.1)] ∨ c.arrived = [.data (requestBytes testOne.1), .data (requestBytes testTwo.1)])) ∧ c.inTable = true ∧
      (∀ evs ∈ c.wakes, evs = [.accept 100]) ∧ (c.lock = none → c.slot.conn.writer.pending = []) := by
  have := test_all (prof := prof) (p := fun s => s.conns.all fun c =>
    (c.slot.conn.writer.sock.sent == [] && (c.arrived == [] || c.arrived == [.data (requestBytes testOne.1)]) ||
      (c.slot.conn.writer.sock.sent == [testOne].flatMap (fun p => responseBytes p.2) || c.slot.conn.writer.sock.sent == [testOne, testTwo].flatMap (fun p => responseBytes p.2)) &&
      (c.arrived == [.data (requestBytes testOne.1)] || c.arrived == [.data (requestBytes testOne.1), .data (requestBytes testTwo.1)])) && c.inTable &&
    (c.wakes.all fun evs => evs == [.accept 100]) && (c.lock.isSome || c.slot.conn.writer.pending == [])) (by obtain ⟨_ | _⟩ := prof <;> decide +kernel) t
  simp only [Bool.and_eq_true, List.all_eq_true, Bool.or_eq_true, beq_iff_eq] at this
  obtain ⟨⟨⟨h3, h4⟩, h5⟩, h6⟩ := this c (List.mem_of_getElem? hc)
  exact ⟨h3, h4, h5, fun hl => h6.resolve_left (by simp [hl])⟩

theorem test_late : ∃ c, ((testRun prof).at_ 17).conns[0]? = some c ∧ c.arrived = [.data (requestBytes testOne.1), .data (requestBytes testTwo.1)] := by
  have h : ((testRun prof).at_ 17).conns[0]?.any (fun c => c.arrived == [.data (requestBytes testOne.1), .data (requestBytes testTwo.1)]) = true := by
    obtain ⟨_ | _⟩ := prof <;> decide +kernel
  cases hc : ((testRun prof).at_ 17).conns[0]? with
  | none => rw [hc] at h; cases h
  | some c =>
    rw [hc] at h
    simp only [Option.any_some, beq_iff_eq] at h
    exact ⟨c, rfl, h⟩

theorem test_tester : (testRun prof).Tester 28 0 (List.replicate 1 [testOne, testTwo]).flatten where
  requests p hp := by
    have hp : p = testOne ∨ p = testTwo := by simpa using hp
    rcases hp with rfl | rfl
    · exact ⟨testOne_sendable, by simp [CloseAsked, testOne, HeaderMap.get]⟩
    · exact ⟨testTwo_sendable, fun ⟨x, h, _⟩ => absurd h (by rw [show testTwo.1.headers.get Header.connection = none by decide +kernel]; nofun)⟩
  accepted := by
    obtain ⟨c, hc, -⟩ := test_late (prof := prof)
    exact ⟨17, c, hc⟩
  pieces t c hc := .safe fun ev he => by
    have : ev = .data (requestBytes testOne.1) ∨ ev = .data (requestBytes testTwo.1) := by
      rcases (test_conns t hc).1 with ⟨-, h | h⟩ | ⟨-, h | h⟩ <;> rw [h] at he <;> simp at he
      · exact .inl he
      · exact .inl he
      · exact he
    rcases this with rfl | rfl <;> exact ⟨_, rfl, by decide +kernel, safeCut_ascii (by decide +kernel)⟩
  waits t c hc := by
    rcases (test_conns t hc).1 with ⟨-, h⟩ | ⟨h, h'⟩
    · refine List.IsPrefix.trans ?_ (flatMap_take _ _ (i := 1) (by omega))
      rcases h with h | h <;> rw [h] <;> decide +kernel
    · have h2 : 1 ≤ readExact ((List.replicate 1 [testOne, testTwo]).flatten.map fun p => (responseBytes p.2).length) c.slot.conn.writer.sock.sent.length := by
        rcases h with h | h <;> rw [h] <;> decide +kernel
      refine List.IsPrefix.trans ?_ (flatMap_take _ _ (i := 2) (by omega))
      rcases h' with h | h <;> rw [h] <;> decide +kernel
  goesOn t c hc := by
    obtain ⟨c', hc', h⟩ := test_late (prof := prof)
    refine ⟨17, c', hc', ?_⟩
    rw [h]
    refine (flatMap_take _ _ (i := readExact ((List.replicate 1 [testOne, testTwo]).flatten.map fun p => (responseBytes p.2).length) c.slot.conn.writer.sock.sent.length + 1)
      (j := readExact ((List.replicate 1 [testOne, testTwo]).flatten.map fun p => (responseBytes p.2).length) c.slot.conn.writer.sock.sent.length + 2) (by omega)).trans ?_
    rw [List.take_of_length_le (by simp)]
    decide +kernel
  stays t c hc := (test_conns t hc).2.1
  socket t c hc evs he := by
    rw [(test_conns t hc).2.2.1 evs he]
    exact ⟨⟨by simp, .inr (by decide)⟩, by simp⟩
  flushes t c hc := by
    have h := test_all (prof := prof) (p := fun s => s.conns.all fun c => c.first.writer.sock.flushes == []) (by obtain ⟨_ | _⟩ := prof <;> decide +kernel) t
    simp only [List.all_eq_true, beq_iff_eq] at h
    rw [h c (List.mem_of_getElem? hc)]
    exact fun _ => nofun

/-- The conditions of `C82_tests_partial` can be met, by one client with one round of the messages of `many_requests_with_short_headers_and_short_bodies`. -/
example : Expected [testOne, testTwo] 28 (List.replicate 1 [testOne, testTwo]).flatten ∧ (testRun prof).Going ∧ (testRun prof).Ends ∧ (∀ t, ((testRun prof).at_ t).pool.crashed.length < 1) ∧
    (testRun prof).Tester 28 0 (List.replicate 1 [testOne, testTwo]).flatten ∧ (testRun prof).Takes 0 := by
  refine ⟨test_expected 1, test_going, fun k => ⟨2, fun t c hc => ?_⟩, fun t => ?_, test_tester, fun t _ hc hl hp => absurd ((test_conns t hc).2.2.2 hl) hp⟩
  · rcases (test_conns t hc).1 with ⟨-, h | h⟩ | ⟨-, h | h⟩ <;> simp [h]
  · have := test_all (prof := prof) (p := fun s => s.pool.crashed.length == 0) (by obtain ⟨_ | _⟩ := prof <;> decide +kernel) t
    rw [beq_iff_eq] at this
    omega

end Verif
