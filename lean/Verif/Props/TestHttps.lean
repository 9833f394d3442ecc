import Verif.Spec.TestHttps
import Verif.Props.TestServer
import Verif.Props.HttpsRoomy

/-! C82 over TLS: what the integration tests of the HTTPS server check holds on every schedule. -/

namespace Verif

variable {messages : List (Request × Response)} {prof : Profile} {n N k : Nat} {r : HttpsRun prof (testRouter messages) n ()} {profC : Profile} {ps : List (Request × Response)}

theorem saysAll_texts {σ : Type} {rt : Router σ} {as : List (Request × σ)} {rs : List Response} (h : SaysAll rt as rs) {ps : List (Request × Response)} (hp : as.map Prod.fst = ps.map Prod.fst)
    (hs : ∀ p ∈ ps, ∀ s, rt.Says (p.1, s) p.2) : rs = ps.map Prod.snd := by
  induction h generalizing ps with
  | nil =>
    cases ps with
    | nil => rfl
    | cons => cases hp
  | @cons a r as rs h1 _ ih =>
    cases ps with
    | nil => cases hp
    | cons p ps =>
      simp only [List.map_cons, List.cons.injEq] at hp
      obtain ⟨q, s⟩ := a
      have h2 := hs p (by simp) s
      rw [← hp.1] at h2
      rw [List.map_cons, ← ih hp.2 fun p hp => hs p (by simp [hp]), says_unique h1 h2]

namespace HttpsRun.Curl

theorem calm (h : r.Curl profC k ps) (u : Nat) : HttpsAct.Calm k (r.before u) := by
  refine ⟨fun cipher input hg hi => ?_, fun evs hg hi => ?_⟩
  · have := ((h.orderly u).input cipher input hg).errs _ hi
    cases this
  · have := (h.orderly u).room evs hg _ hi
    cases this

theorem says (hx : Expected messages N ps) (h : r.Curl profC k ps) : ∀ p ∈ ps, ∀ s, (testRouter messages).Says (p.1, s) p.2 := by
  intro p hp s
  obtain ⟨m, k1, k2, k3⟩ := hx.known p hp
  rw [k3]
  exact testRouter_says hx.maps hx.consistent (h.requests p hp).1.headers.wf k1 k2 s

/-- At every time the router was asked about the first of the requests, and what was sent is a beginning of what the cipher makes of a beginning of the answers. -/
theorem served (hx : Expected messages N ps) (h : r.Curl profC k ps) {t : Nat} {c : AConn (Traced TlsStream)} (hc : (r.run.at_ t).conns[k]? = some c) :
    (asksOn k (r.run.at_ t).asks).map Prod.fst <+: ps.map Prod.fst ∧
      ∃ cipher input items, (HttpsAct.given (r.before t))[k]? = some (cipher, input) ∧ items.flatMap TlsItem.plain <+: (ps.flatMap fun p => responseBytes p.2) ∧ c.raw.raw.sock.sent <+: cipher.wire 0 items := by
  obtain ⟨cipher, input, g1, -⟩ := (https_reach inv_stays (fun _ _ _ _ => trivial) (r.after t)).1 k c hc
  have hfit : r.Fits k := .inr ⟨h.orderly, h.roomy⟩
  obtain ⟨h1, out, items, h2, h3, h4⟩ := C78_tls_served_partial (h.calm t) (r.after t) hc (hfit.before t) g1 (orderly_log (h.orderly t) (r.after t) hc) (ms := ps.map fun p => (requestBytes p.1, p.1))
    (fun m hm => by
      obtain ⟨p, hp, rfl⟩ := List.mem_map.1 hm
      exact ⟨(h.requests p hp).1.fitting, (h.requests p hp).2.2⟩)
    (by rw [List.flatMap_map]; exact (h.text t cipher input g1).2)
  rw [List.map_map] at h1
  have h1 : (asksOn k (r.run.at_ t).asks).map Prod.fst <+: ps.map Prod.fst := h1
  refine ⟨h1, cipher, input, items, g1, h3.trans ?_, h4⟩
  have h5 : (ps.take (asksOn k (r.run.at_ t).asks).length).map Prod.fst = (asksOn k (r.run.at_ t).asks).map Prod.fst := by
    obtain ⟨more, hm⟩ := h1
    rw [List.map_take, ← hm, List.take_left' (List.length_map _)]
  rw [answeredIn_texts h2 h5 fun p hp => h.says hx p (List.mem_of_mem_take hp)]
  refine (flatMap_take _ ps (j := max (asksOn k (r.run.at_ t).asks).length ps.length) (Nat.le_max_left _ _)).trans ?_
  rw [List.take_of_length_le (Nat.le_max_right _ _)]
  exact List.prefix_rfl

theorem inTurns (hx : Expected messages N ps) (h : r.Curl profC k ps) : r.InTurns profC k (ps.map Prod.fst) where
  requests q hq := by
    obtain ⟨p, hp, rfl⟩ := List.mem_map.1 hq
    exact h.requests p hp
  accepted := h.accepted
  text t cipher input hg := by
    rw [List.flatMap_map]
    exact h.text t cipher input hg
  goesOn t c hc ho := by
    obtain ⟨t', cipher, input, h1, h2⟩ := h.goesOn t c hc ho
    refine ⟨t', cipher, input, h1, ?_⟩
    rw [← List.map_take, List.flatMap_map]
    exact h2
  lasts := h.lasts
  ready := h.ready
  orderly := h.orderly
  inTable := h.stays
  listeners u a ha := by
    obtain ⟨t, c, hc⟩ := h.accepted
    obtain ⟨c', hc', -⟩ := r.run.conns hc (u := max u t) (Nat.le_max_right _ _)
    have h1 := (asksOn_prefix (k := k) (r.run.asks (u := max u t) (t := u) (Nat.le_max_left _ _))).subset ha
    have h2 := (h.served hx hc').1.subset (List.mem_map_of_mem h1)
    obtain ⟨p, hp, hpa⟩ := List.mem_map.1 h2
    refine ⟨p.2, ?_, h.responses p hp⟩
    have := h.says hx p hp a.2
    rwa [hpa] at this
  fits := .inr ⟨h.orderly, h.roomy⟩

end HttpsRun.Curl

/-- C82 over TLS (partial: the conditions are in `HttpsRun.Curl`): with the router of the integration tests, for all messages with one response for each request, in every fair run of a server started with `listen_https` in which
fewer handlers panic than there are workers, whatever other clients do, for a client that sends some of the requests one after the other, waiting for the response each time: at every time the router was asked about the first of them, in order, and what was
sent is a beginning of what the cipher makes of records with a beginning of the expected responses; and from some time on the router was asked about all of them, and whenever no handler uses the connection, it is open, the expected responses
have been sealed, in order and nothing else, and all of it was sent; and a client of the library that reads this plain text, in whatever pieces, gets the expected responses. -/
theorem C82_tls_tests_partial (hx : Expected messages N ps) (hf : r.run.Fair) (hcr : ∀ t, (r.run.at_ t).pool.crashed.length < n) (h : r.Curl profC k ps) :
    (∀ t c, (r.run.at_ t).conns[k]? = some c → (asksOn k (r.run.at_ t).asks).map Prod.fst <+: ps.map Prod.fst ∧
      ∃ cipher input items, (HttpsAct.given (r.before t))[k]? = some (cipher, input) ∧ items.flatMap TlsItem.plain <+: (ps.flatMap fun p => responseBytes p.2) ∧ c.raw.raw.sock.sent <+: cipher.wire 0 items) ∧
    ∃ (T : Nat) (cipher : Cipher), (∃ c, (r.run.at_ T).conns[k]? = some c ∧ c.lock = none) ∧ ∀ t ≥ T, (asksOn k (r.run.at_ t).asks).map Prod.fst = ps.map Prod.fst ∧
      ∀ c, (r.run.at_ t).conns[k]? = some c → c.lock = none → (∃ conn, c.slot = .live conn) ∧ c.raw.raw.sess.log.flatMap TlsItem.plain = (ps.flatMap fun p => responseBytes p.2) ∧
        c.raw.raw.sock.sent = cipher.wire 0 c.raw.raw.sess.log ∧
        ∀ raw : RawStream, raw.Takes ((ps.flatMap fun p => requestBytes p.1)).length → raw.input.flatMap Ev.atoms = (c.raw.raw.sess.log.flatMap TlsItem.plain).map .byte →
          (sendAll profC (ps.map Prod.fst) .new [CreateEnd.ok raw]).1 = ps.map fun p => .ok p.2 := by
  refine ⟨fun t c hc => h.served hx hc, ?_⟩
  obtain ⟨T, cipher, as, rs, h1, h2, h3, h4⟩ := C68_tls_roomy_partial r hf hcr (h.inTurns hx) h.roomy
  have hrs := saysAll_texts h2 h1 (h.says hx)
  refine ⟨T, cipher, h3, fun t ht => ?_⟩
  obtain ⟨h5, h6⟩ := h4 t ht
  refine ⟨by rw [h5, h1], fun c hc hl => ?_⟩
  obtain ⟨h7, h8, h9, h10⟩ := h6 c hc hl
  rw [hrs, List.flatMap_map] at h8
  refine ⟨h7, h8, h9, fun raw hr hi => ?_⟩
  rw [h10 raw (by rw [List.flatMap_map]; exact hr) hi, hrs, List.map_map]
  rfl

/-! ## Witness -/

/-- The message of `curl_multiple_concurrent_connections_with_single_requests`, https_server.rs 118-130. -/
def curlOne : Request × Response := (⟨b!"/", .get, [], []⟩, ⟨.ok, HeaderMap.fromPairs [(.contentLength, b!"6")], b!"i work"⟩)

/-- The message of `curl_multiple_concurrent_connections_with_many_requests`, https_server.rs 92-107. -/
def curlTwo : Request × Response :=
  (⟨b!"/", .get, HeaderMap.fromPairs [(.contentLength, b!"10"), (.custom b!"random", b!"blah"), (.custom b!"hello", b!"bye")], b!"0123456789"⟩, ⟨.ok, HeaderMap.fromPairs [(.contentLength, b!"6")], b!"i work"⟩)

/-- One worker serves two requests of one client over TLS; the second comes when the first was answered. -/
def curlTurns : List HttpsAct := [.accept (fun n => n) (fun c n => c + n) (by omega) toyCipher (List.replicate 20 (.accept 100)) [], .arrive 0 [.records true [] false true],
  .arrive 0 [.records false (requestBytes curlOne.1) false false], .poll [0], .dispatch false, .work 0, .work 0, .work 0, .work 0, .lock 0, .go 0 9, .go 0 9, .go 0 9, .go 0 9, .go 0 9, .go 0 9, .work 0,
  .arrive 0 [.records false (requestBytes curlTwo.1) false false], .notify 0, .poll [0], .dispatch false, .work 0, .work 0, .work 0, .lock 0, .go 0 9, .go 0 9, .go 0 9, .go 0 9, .go 0 9, .go 0 9, .work 0]

theorem curl_ok (prof : Profile) : (ANet.after prof (testRouter [curlOne, curlTwo]) 1 () (curlTurns.map HttpsAct.act)).isSome = true := by rcases prof with ⟨_ | _⟩ <;> decide +kernel

/-- The run in which nothing happens afterwards. -/
def curlRun (prof : Profile) : HttpsRun prof (testRouter [curlOne, curlTwo]) 1 () where
  run := ANet.Run.ofList (s := (ANet.new 1 ()).get rfl) (curlTurns.map HttpsAct.act) rfl (curl_ok prof)
  act t := curlTurns[t]?
  acts t := List.getElem?_map ..

theorem curl_all {prof : Profile} (p : ANet (Traced TlsStream) Unit → Bool) (hp : ∀ t ≤ 32, (ANet.after prof (testRouter [curlOne, curlTwo]) 1 () ((curlTurns.map HttpsAct.act).take t)).all p = true)
    (t : Nat) : p ((curlRun prof).run.at_ t) = true :=
  ANet.Run.ofList_all (hn := rfl) (s := (ANet.new 1 ()).get rfl) (h := curl_ok prof) (Nat.zero_le 32) (fun t h _ => hp t h) t (Nat.zero_le _)

theorem curl_before {prof : Profile} (u : Nat) : curlTurns = (curlRun prof).before u ++ curlTurns.drop u := by
  rw [show (curlRun prof).before u = curlTurns.take u from range_get _ _, List.take_append_drop]

theorem curl_given {prof : Profile} {u : Nat} {cipher : Cipher} {input : List TlsEv} (h : (HttpsAct.given ((curlRun prof).before u))[0]? = some (cipher, input)) :
    ∃ es, input ++ es = [.records true [] false true, .records false (requestBytes curlOne.1) false false, .records false (requestBytes curlTwo.1) false false] := by
  obtain ⟨es, h⟩ := Verif.given_grows h (curlTurns.drop u)
  rw [← curl_before] at h
  simp only [curlTurns, HttpsAct.given, List.foldl_cons, List.foldl_nil, List.nil_append, List.modify_cons, if_true, List.getElem?_cons_zero, Option.some.injEq, Prod.mk.injEq] at h
  exact ⟨es, h.2.symm⟩

theorem curl_orderly {prof : Profile} (u : Nat) : HttpsAct.Orderly 0 ((curlRun prof).before u) := by
  refine ⟨fun cipher input h => ?_, fun evs h => ?_⟩
  · obtain ⟨es, h⟩ := curl_given h
    refine TlsEv.Orderly.append (v := es) ?_
    rw [h]
    simp [TlsEv.Orderly]
  · obtain ⟨es, h⟩ := rooms_grow h (curlTurns.drop u)
    rw [← curl_before] at h
    simp only [curlTurns, HttpsAct.rooms, List.foldl_cons, List.foldl_nil, List.nil_append, List.getElem?_cons_zero, Option.some.injEq] at h
    intro e he
    have : .err e ∈ evs ++ es := List.mem_append_left _ he
    rw [← h] at this
    simp [List.mem_replicate] at this

theorem curl_edge {prof : Profile} {t : Nat} (h : (((curlRun prof).run.at_ t).conns[0]?.any fun c => c.edge) = true) : ((curlRun prof).run.at_ t).Edge 0 := by
  obtain ⟨c, h1, h2⟩ := any_some h
  exact ⟨c, h1, h2⟩

theorem curlOne_sendable : curlOne.1.Sendable := testOne_sendable

theorem curlTwo_headers : curlTwo.1.headers = [(Header.contentLength, [b!"10"]), (Header.custom b!"random", [b!"blah"]), (Header.custom b!"hello", [b!"bye"])] := by decide +kernel

theorem curlTwo_sendable : curlTwo.1.Sendable := by
  refine ⟨by decide, by decide, by decide, by decide, ⟨(by decide : (curlTwo.1.headers.map Prod.fst).Nodup), ?_, by decide, ?_, by decide⟩, .inl ⟨b!"10", ⟨[], by decide⟩, .inl (natDec_numeral 10), by decide⟩⟩
  · intro e he
    have he : e = (Header.contentLength, [b!"10"]) ∨ e = (Header.custom b!"random", [b!"blah"]) ∨ e = (Header.custom b!"hello", [b!"bye"]) := by simpa [curlTwo_headers] using he
    rcases he with rfl | rfl | rfl
    · exact ⟨b!"Content-Length", by decide⟩
    · exact ⟨b!"random", by decide +kernel⟩
    · exact ⟨b!"hello", by decide +kernel⟩
  · intro e he v hv
    have he : e = (Header.contentLength, [b!"10"]) ∨ e = (Header.custom b!"random", [b!"blah"]) ∨ e = (Header.custom b!"hello", [b!"bye"]) := by simpa [curlTwo_headers] using he
    rcases he with rfl | rfl | rfl
    · obtain rfl : v = b!"10" := by simpa using hv
      exact digits_line (natDec_numeral 10) (by decide)
    · obtain rfl : v = b!"blah" := by simpa using hv
      exact ⟨⟨by decide, by decide, by decide⟩, occurs_ascii (by decide)⟩
    · obtain rfl : v = b!"bye" := by simpa using hv
      exact ⟨⟨by decide, by decide, by decide⟩, occurs_ascii (by decide)⟩

theorem curl_expected : Expected [curlOne, curlTwo] 28 [curlOne, curlTwo] := by
  have := Expected.loops (N := 28) (messages := [curlOne, curlTwo]) (Nat.le_refl _) ?_ ?_ ?_ 1
  · exact this
  · intro m hm
    simp only [List.mem_cons, List.not_mem_nil, or_false] at hm
    rcases hm with rfl | rfl
    · exact curlOne_sendable.headers.wf
    · exact curlTwo_sendable.headers.wf
  · intro m hm m' hm' hs
    simp only [List.mem_cons, List.not_mem_nil, or_false] at hm hm'
    rcases hm with rfl | rfl <;> rcases hm' with rfl | rfl
    · rfl
    · rfl
    · rfl
    · rfl
  · intro m hm
    simp only [List.mem_cons, List.not_mem_nil, or_false] at hm
    rcases hm with rfl | rfl <;> exact ⟨by decide, by decide +kernel, by decide, by decide +kernel, by decide⟩

theorem curlOne_answer : curlOne.2.Sendable := sized_sendable (by decide) (natDec_numeral 6) (by decide) (by decide)

theorem curlTwo_answer : curlTwo.2.Sendable := curlOne_answer

theorem curl_curl {prof : Profile} (profC : Profile) : (curlRun prof).Curl profC 0 [curlOne, curlTwo] where
  requests p hp := by
    simp only [List.mem_cons, List.not_mem_nil, or_false] at hp
    rcases hp with rfl | rfl
    · exact ⟨curlOne_sendable, by simp [CloseAsked, curlOne, HeaderMap.get], anyCut_ascii (by decide +kernel)⟩
    · exact ⟨curlTwo_sendable, fun ⟨x, h, _⟩ => absurd h (by rw [show curlTwo.1.headers.get Header.connection = none by decide +kernel]; nofun), anyCut_ascii (by decide +kernel)⟩
  responses p hp := by
    simp only [List.mem_cons, List.not_mem_nil, or_false] at hp
    rcases hp with rfl | rfl
    · exact curlOne_answer
    · exact curlTwo_answer
  accepted := by
    obtain ⟨c, h, -⟩ := curl_edge (prof := prof) (t := 1) (by rcases prof with ⟨_ | _⟩ <;> decide +kernel)
    exact ⟨1, c, h⟩
  text t cipher input h := by
    obtain ⟨es, h⟩ := curl_given h
    refine ⟨fun hm => ?_, (came_grows input es).trans ?_⟩
    · have := List.mem_append_left es hm
      rw [h] at this
      simp at this
    · rw [h]
      decide +kernel
  goesOn t c hc _ := by
    have h : (HttpsAct.given ((curlRun prof).before 32))[0]? =
      some (toyCipher, [.records true [] false true, .records false (requestBytes curlOne.1) false false, .records false (requestBytes curlTwo.1) false false]) := rfl
    refine ⟨32, _, _, h, ?_⟩
    refine (flatMap_take _ [curlOne, curlTwo] (j := hears profC ([curlOne, curlTwo].map Prod.fst) (c.raw.raw.sess.log.flatMap TlsItem.plain) + 2) (by omega)).trans ?_
    rw [List.take_of_length_le (by simp)]
    decide +kernel
  lasts := by
    refine ⟨32, fun u hu es h => ?_⟩
    have h : curlTurns[u]? = some (.arrive 0 es) := h
    rw [List.getElem?_eq_none (by exact hu)] at h
    cases h
  ready t es h := by
    have h : curlTurns[t]? = some (.arrive 0 es) := h
    by_cases ht : t < 3
    · exact ⟨3, ht, curl_edge (by rcases prof with ⟨_ | _⟩ <;> decide +kernel)⟩
    · refine ⟨19, Nat.lt_of_not_le fun hle => ?_, curl_edge (by rcases prof with ⟨_ | _⟩ <;> decide +kernel)⟩
      have h' : (curlTurns.drop 19)[t - 19]? = some (.arrive 0 es) := by rw [List.getElem?_drop, show 19 + (t - 19) = t by omega]; exact h
      have := List.mem_of_getElem? h'
      simp [curlTurns] at this
  orderly := curl_orderly
  stays u c hc := by
    have := curl_all (prof := prof) (fun s => s.conns.all fun c => c.inTable) (by rcases prof with ⟨_ | _⟩ <;> decide +kernel) u
    exact List.all_eq_true.1 this c (List.mem_of_getElem? hc)
  roomy u c hc := by
    have := curl_all (prof := prof) (fun s => s.conns.all fun c => !c.raw.raw.sock.evs.isEmpty && c.raw.raw.sock.evs.all fun e => match e with | .accept _ => true | _ => false)
      (by rcases prof with ⟨_ | _⟩ <;> decide +kernel) u
    have := List.all_eq_true.1 this c (List.mem_of_getElem? hc)
    simp only [Bool.and_eq_true, Bool.not_eq_true', List.all_eq_true] at this
    refine ⟨fun h => by rw [h] at this; exact absurd this.1 (by simp), fun e he => ?_⟩
    have := this.2 e he
    cases e with
    | accept m => exact ⟨m, rfl⟩
    | err e => cases this

/-- The conditions of `C82_tls_tests_partial` can be met, by a client with two messages of the tests that waits for the first response. -/
example (prof profC : Profile) : Expected [curlOne, curlTwo] 28 [curlOne, curlTwo] ∧ (curlRun prof).run.Fair ∧ (∀ t, ((curlRun prof).run.at_ t).pool.crashed.length < 1) ∧ (curlRun prof).Curl profC 0 [curlOne, curlTwo] := by
  refine ⟨curl_expected, ANet.Run.ofList_fair (hn := rfl) (h := curl_ok prof) ?_ ?_, fun t => ?_, curl_curl profC⟩
  · rcases prof with ⟨_ | _⟩ <;> decide +kernel
  · rcases prof with ⟨_ | _⟩ <;> decide +kernel
  · have := curl_all (prof := prof) (fun s => s.pool.crashed.length == 0) (by rcases prof with ⟨_ | _⟩ <;> decide +kernel) t
    rw [beq_iff_eq] at this
    omega

end Verif
