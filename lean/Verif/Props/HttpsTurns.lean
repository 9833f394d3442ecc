import Verif.Spec.HttpsTurns
import Verif.Props.NetAnyRun
import Verif.Props.InTurns

/-! C68 over TLS: an HTTPS client and an HTTPS server of the library do not wait for each other for ever. -/

namespace Verif

variable {σ : Type} {prof : Profile} {rt : Router σ} {n k : Nat} {s₀ : σ}

/-- A thing that does not happen any more after some time has a last time, or never happens. -/
theorem last_time {P : Nat → Prop} {T : Nat} (h : ∀ u ≥ T, ¬ P u) : (∀ u, ¬ P u) ∨ ∃ t, P t ∧ ∀ u > t, ¬ P u := by
  induction T with
  | zero => exact .inl fun u => h u (Nat.zero_le _)
  | succ T ih =>
    by_cases hp : P T
    · exact .inr ⟨T, hp, fun u hu => h u hu⟩
    · refine ih fun u hu => ?_
      rcases Nat.eq_or_lt_of_le hu with rfl | hu
      · exact hp
      · exact h u hu

/-- What has arrived stays. -/
theorem HttpsRun.given_grows (r : HttpsRun prof rt n s₀) {t u : Nat} (hu : t ≤ u) {cipher : Cipher} {input : List TlsEv} (h : (HttpsAct.given (r.before t))[k]? = some (cipher, input)) :
    ∃ more, (HttpsAct.given (r.before u))[k]? = some (cipher, input ++ more) := by
  obtain ⟨d, rfl⟩ := Nat.le.dest hu
  clear hu
  induction d with
  | zero => exact ⟨[], by rw [List.append_nil]; exact h⟩
  | succ d ih =>
    obtain ⟨more, ih⟩ := ih
    change (HttpsAct.given ((List.range (t + d)).filterMap r.act))[k]? = _ at ih
    rw [HttpsRun.before, ← Nat.add_assoc, List.range_succ, List.filterMap_append]
    cases ha : r.act (t + d) with
    | none =>
      simp only [List.filterMap_cons, ha, List.filterMap_nil, List.append_nil]
      exact ⟨more, ih⟩
    | some a =>
      simp only [List.filterMap_cons, ha, List.filterMap_nil]
      rw [given_snoc]
      cases a with
      | accept offer grow growOk ci evs fl =>
        dsimp only
        rw [List.getElem?_append_left (List.getElem?_eq_some_iff.1 ih).1]
        exact ⟨more, ih⟩
      | arrive j es =>
        dsimp only
        by_cases hj : j = k
        · refine ⟨more ++ es, ?_⟩
          rw [hj, List.getElem?_modify_eq, ih, ← List.append_assoc]
          rfl
        · refine ⟨more, ?_⟩
          rw [List.getElem?_modify_ne _ _ hj]
          exact ih
      | _ => exact ⟨more, ih⟩

namespace HttpsRun.InTurns

variable {r : HttpsRun prof rt n s₀} {profC : Profile} {qs : List Request}

theorem calm (h : r.InTurns profC k qs) (u : Nat) : HttpsAct.Calm k (r.before u) := by
  refine ⟨fun cipher input hg hi => ?_, fun evs hg hi => ?_⟩
  · have := ((h.orderly u).input cipher input hg).errs _ hi
    cases this
  · have := (h.orderly u).room evs hg _ hi
    cases this

theorem messages (h : r.InTurns profC k qs) : ∀ m ∈ qs.map fun q => (requestBytes q, q), FittingRequest m.1 m.2 ∧ AnyCut m.1 ∧ ¬ CloseAsked m.2 := by
  intro m hm
  obtain ⟨q, h1, rfl⟩ := List.mem_map.1 hm
  obtain ⟨h2, h3, h4⟩ := h.requests q h1
  exact ⟨h2.fitting, h4, h3⟩

theorem texts (qs : List Request) : (qs.map fun q => (requestBytes q, q)).flatMap Prod.fst = qs.flatMap requestBytes := by rw [List.flatMap_map]

/-- What has arrived, from some time on. -/
theorem given (h : r.InTurns profC k qs) : ∃ t cipher input, (∃ c, (r.run.at_ t).conns[k]? = some c) ∧ (HttpsAct.given (r.before t))[k]? = some (cipher, input) ∧ ∀ u ≥ t, ∀ es, r.act u ≠ some (.arrive k es) := by
  obtain ⟨T, hT⟩ := h.lasts
  obtain ⟨t, c, hc⟩ := h.accepted
  obtain ⟨c', hc', -⟩ := r.run.conns hc (u := max T t) (Nat.le_max_right _ _)
  obtain ⟨cipher, input, g1, -⟩ := (https_reach inv_stays (fun _ _ _ _ => trivial) (r.after (max T t))).1 k c' hc'
  exact ⟨max T t, cipher, input, ⟨c', hc'⟩, g1, fun u hu => hT u (by omega)⟩

/-- In the end all that has come was read. -/
theorem idle (h : r.InTurns profC k qs) (hsent : r.Sent k) (hf : r.run.Fair) (hcr : ∀ t, (r.run.at_ t).pool.crashed.length < n) : ∃ u cipher input, (∃ c, (r.run.at_ u).conns[k]? = some c) ∧ ∀ v ≥ u,
    (HttpsAct.given (r.before v))[k]? = some (cipher, input) ∧ ∀ c conn, (r.run.at_ v).conns[k]? = some c → c.lock = none → c.slot = .live conn → c.raw.raw.input = [] := by
  obtain ⟨t, cipher, input, ⟨c₀, hc₀⟩, g1, g2⟩ := h.given
  have hq : r.Quiet k t cipher input := ⟨⟨g1, g2, (h.text t cipher input g1).1⟩, fun u _ c conn hc hl hs => (hsent u c conn hc hl hs).1⟩
  rcases last_time (P := fun u => ∃ es, r.act u = some (.arrive k es)) (T := t) (fun u hu ⟨es, he⟩ => g2 u hu es he) with hno | ⟨t₁, ⟨es, he⟩, hlast⟩
  · refine ⟨t, cipher, input, ⟨c₀, hc₀⟩, fun v hv => ⟨hq.kept hv, fun c conn hc hl hsl => ?_⟩⟩
    have hemp : ∀ u ci i, (HttpsAct.given (r.before u))[k]? = some (ci, i) → i = [] := by
      intro u
      induction u with
      | zero => intro ci i hi; simp [HttpsRun.before, HttpsAct.given] at hi
      | succ u ih =>
        intro ci i hi
        rw [HttpsRun.before, List.range_succ, List.filterMap_append] at hi
        cases ha : r.act u with
        | none =>
          simp only [List.filterMap_cons, ha, List.filterMap_nil, List.append_nil] at hi
          exact ih _ _ hi
        | some a =>
          simp only [List.filterMap_cons, ha, List.filterMap_nil] at hi
          rw [given_snoc] at hi
          cases a with
          | accept offer grow growOk ci' evs fl =>
            dsimp only at hi
            by_cases hlt : k < (HttpsAct.given ((List.range u).filterMap r.act)).length
            · rw [List.getElem?_append_left hlt] at hi
              exact ih _ _ hi
            · rw [List.getElem?_append_right (by omega)] at hi
              have hi := List.mem_singleton.1 (List.mem_of_getElem? hi)
              exact (Prod.mk.inj hi).2
          | arrive j es =>
            dsimp only at hi
            have hj : j ≠ k := fun hj => hno u ⟨es, by rw [ha, hj]⟩
            rw [List.getElem?_modify_ne _ _ hj] at hi
            exact ih _ _ hi
          | _ => exact ih _ _ hi
    obtain ⟨w, h3, -⟩ := (hq.holds hv hc).heard
    rw [hemp t cipher input g1] at h3
    exact (List.append_eq_nil_iff.1 h3.symm).2
  · obtain ⟨t₂, ht₂, hedge⟩ := h.ready t₁ es he
    -- the last arrival is before `t`
    have hlt : t₁ < t := Nat.lt_of_not_le fun hle => g2 t₁ hle es he
    obtain ⟨cc, hcc, -⟩ := id hedge
    -- all had arrived at `t₂`
    have hq₂ : ∃ ci i, r.Quiet k t₂ ci i := by
      obtain ⟨ci, i, k1, -⟩ := (https_reach inv_stays (fun _ _ _ _ => trivial) (r.after t₂)).1 k cc hcc
      exact ⟨ci, i, ⟨k1, fun u hu es he => hlast u (by omega) ⟨es, he⟩, (h.text t₂ ci i k1).1⟩, fun u _ c conn hc hl hs => (hsent u c conn hc hl hs).1⟩
    obtain ⟨ci, i, hq₂⟩ := hq₂
    obtain ⟨u, hu, hi⟩ := hq₂.idle hf hcr (Nat.le_refl _) hedge
    obtain ⟨c₁, hc₁, -⟩ := r.run.conns hcc hu
    exact ⟨u, ci, i, ⟨c₁, hc₁⟩, fun v hv => ⟨hq₂.kept (by omega), fun c conn hc hl hsl => (hi v hv c conn hc hl hsl (h.inTable v c hc)).1⟩⟩

end HttpsRun.InTurns

/-- C68 over TLS (partial: the conditions are in `HttpsRun.InTurns`, and the server never has anything left to send when no handler runs): an HTTPS client of the library calls `send` again and again on one connection to an HTTPS server of the library; it may wait with each request until the answer
to the one before it has come. If the server goes on, then every call returns: from some time on the router was asked about all requests, each once and in order, and whenever no handler uses the connection
the server has sealed the answers, in order and nothing else, and has sent all of it; and this plain text makes each call return what the router answered, in whatever pieces it comes. -/
theorem C68_tls_conversation_partial (r : HttpsRun prof rt n s₀) (hf : r.run.Fair) (hcr : ∀ t, (r.run.at_ t).pool.crashed.length < n) {profC : Profile} {qs : List Request} (h : r.InTurns profC k qs) (hsent : r.Sent k) :
    ∃ (T : Nat) (cipher : Cipher) (as : List (Request × σ)) (rs : List Response), as.map Prod.fst = qs ∧ SaysAll rt as rs ∧ (∃ c, (r.run.at_ T).conns[k]? = some c ∧ c.lock = none) ∧ ∀ t ≥ T, asksOn k (r.run.at_ t).asks = as ∧
      ∀ c, (r.run.at_ t).conns[k]? = some c → c.lock = none → (∃ conn, c.slot = .live conn) ∧ c.raw.raw.sess.log.flatMap TlsItem.plain = rs.flatMap responseBytes ∧
        c.raw.raw.sock.sent = cipher.wire 0 c.raw.raw.sess.log ∧
        ∀ raw : RawStream, raw.Takes (qs.flatMap requestBytes).length → raw.input.flatMap Ev.atoms = (c.raw.raw.sess.log.flatMap TlsItem.plain).map .byte →
          (sendAll profC qs .new [CreateEnd.ok raw]).1 = rs.map .ok := by
  obtain ⟨u, cipher, input, ⟨c₀, hc₀⟩, hu⟩ := h.idle hsent hf hcr
  -- at every time at which no handler uses the connection
  have hone : ∀ v ≥ u, ∀ c, (r.run.at_ v).conns[k]? = some c → c.lock = none → (∃ conn, c.slot = .live conn) ∧ (asksOn k (r.run.at_ v).asks).map Prod.fst = qs ∧
      ∃ rs, SaysAll rt (asksOn k (r.run.at_ v).asks) rs ∧ (∀ r ∈ rs, r.Sendable) ∧ rs.length = qs.length ∧ c.raw.raw.sess.log.flatMap TlsItem.plain = rs.flatMap responseBytes ∧
        c.raw.raw.sock.sent = cipher.wire 0 c.raw.raw.sess.log := by
    intro v hv c hc hl
    obtain ⟨hg, hin⟩ := hu v hv
    have htext := h.text v cipher input hg
    obtain ⟨⟨conn, hsl⟩, -⟩ := C78_tls_open_partial (h.orderly v) (r.after v) hc hl (h.fits.before v) (fun a ha => by
        obtain ⟨r', k1, -⟩ := h.listeners v a ha
        rcases k1 with k1 | k1 <;> (rw [k1]; exact nofun)) hg h.messages (by rw [HttpsRun.InTurns.texts]; exact htext.2)
    refine ⟨⟨conn, hsl⟩, ?_⟩
    obtain ⟨ho, hbuf⟩ := hsent v c conn hc hl hsl
    obtain ⟨ms₁, rest, out, k1, k2, k3, k4, k5, k6, k7⟩ := C78_tls_answered_partial (h.calm v) (r.after v) hc hl hsl ho (h.fits.before v) (used := input) (by rw [hin c conn hc hl hsl, List.append_nil]; exact hg) (fun m hm => ⟨(h.messages m hm).1, (h.messages m hm).2.1⟩)
      (by rw [HttpsRun.InTurns.texts]; exact htext.2)
    rw [hbuf, List.append_nil] at k6
    obtain ⟨rs, l1, l2, l3, l4⟩ := answeredIn_says k5 (h.listeners v)
    have hms : ms₁ = (qs.take ms₁.length).map fun q => (requestBytes q, q) := by
      obtain ⟨ms₂, hms⟩ := k1
      rw [List.map_take, ← hms, List.take_left]
    have hlen : rs.length = ms₁.length := by
      rw [l3, ← List.length_map (f := Prod.fst), k4, List.length_map]
    have hle : ms₁.length ≤ qs.length := by
      have := k1.length_le
      rwa [List.length_map] at this
    have hall : ms₁.length = qs.length := by
      refine Nat.le_antisymm hle (Nat.le_of_not_lt fun hlt => ?_)
      obtain ⟨t', ci, i, m1, m2⟩ := h.goesOn v c hc ho
      -- the next request has come
      have hh : ms₁.length + 1 ≤ hears profC qs (c.raw.raw.sess.log.flatMap TlsItem.plain) + 1 := by
        rw [k6, l4]
        have := le_hears (prof := profC) (qs := qs) (rs := rs) (by omega) l2
        omega
      have m3 := (texts_prefix qs _ _ hh).trans m2
      -- it is in what has come up to now
      have m4 : TlsEv.plain i <+: TlsEv.plain input := by
        have hle : ∃ more, (HttpsAct.given (r.before (max t' v)))[k]? = some (ci, i ++ more) := r.given_grows (Nat.le_max_left _ _) m1
        obtain ⟨more, hm⟩ := hle
        rw [(hu (max t' v) (by omega)).1] at hm
        cases hm
        exact came_grows _ _
      have m5 := m3.trans m4
      rw [k2, List.take_add_one, List.flatMap_append] at m5
      have m6 : (qs.take ms₁.length).flatMap requestBytes = ms₁.flatMap Prod.fst := by
        conv => rhs; rw [hms]
        rw [HttpsRun.InTurns.texts]
      rw [m6, List.prefix_append_right_inj] at m5
      rw [List.getElem?_eq_getElem hlt] at m5
      simp only [Option.toList_some, List.flatMap_cons, List.flatMap_nil, List.append_nil] at m5
      exact k3 _ _ (h.requests _ (List.getElem_mem hlt)).1.fitting m5
    refine ⟨?_, rs, l1, l2, by omega, by rw [k6, l4], k7⟩
    rw [k4, hms, hall, List.take_length, List.map_map]
    simp [Function.comp_def]
  obtain ⟨T, hT, c, hc, hl⟩ := r.run.free tls_honest tls_within hf hc₀
  obtain ⟨-, h1, rs, h2, h3, h4, -⟩ := hone T hT c hc hl
  -- no further requests are asked about
  have hsame : ∀ t ≥ T, asksOn k (r.run.at_ t).asks = asksOn k (r.run.at_ T).asks := by
    intro t ht
    obtain ⟨c₁, hc₁, -⟩ := r.run.conns hc ht
    obtain ⟨t', ht', c₂, hc₂, hl₂⟩ := r.run.free tls_honest tls_within hf hc₁
    obtain ⟨-, h5, -⟩ := hone t' (by omega) c₂ hc₂ hl₂
    have p1 := asksOn_prefix (k := k) (r.run.asks ht)
    have p2 := asksOn_prefix (k := k) (r.run.asks (u := t') (t := t) ht')
    refine (p1.eq_of_length_le ?_).symm
    have e1 := congrArg List.length h5
    have e2 := congrArg List.length h1
    rw [List.length_map] at e1 e2
    have := p2.length_le
    omega
  refine ⟨T, cipher, _, rs, h1, h2, ⟨c, hc, hl⟩, fun t ht => ⟨hsame t ht, fun c' hc' hl' => ?_⟩⟩
  obtain ⟨h5, -, rs', h6, h7, h8, h9, h10⟩ := hone t (by omega) c' hc' hl'
  rw [hsame t ht] at h6
  have hrs : rs' = rs := by
    clear h7 h8 h9 h10 h3 h4
    generalize asksOn k (r.run.at_ T).asks = as at h2 h6
    clear h1 hsame hone
    induction h2 generalizing rs' with
    | nil => cases h6; rfl
    | cons a _ ih =>
      cases h6 with
      | cons b hb => rw [says_unique b a, ih _ hb]
  subst hrs
  refine ⟨h5, h9, h10, fun raw hraw hin => ?_⟩
  by_cases hne : qs = []
  · subst hne
    rw [List.length_nil] at h8
    rw [List.length_eq_zero_iff.1 h8]
    rfl
  · obtain ⟨st, k1, -⟩ := sendAll_answers (prof := profC) h8.symm h7 hraw (Nat.le_refl _) (by rw [hin, h9]) hne
    rw [k1]

/-! ## Witness -/

/-- One worker serves two requests of one client over TLS; the second comes when the first was answered. -/
def secretTurns : List HttpsAct := [.accept (fun n => n) (fun c n => c + n) (by omega) toyCipher (List.replicate 20 (.accept 100)) [], .arrive 0 [.records true [] false true],
  .arrive 0 [.records false (requestBytes (ask 97)) false false], .poll [0], .dispatch false, .work 0, .work 0, .work 0, .work 0, .lock 0, .go 0 9, .go 0 9, .go 0 9, .go 0 9, .go 0 9, .go 0 9, .work 0,
  .arrive 0 [.records false (requestBytes (ask 98)) false false], .notify 0, .poll [0], .dispatch false, .work 0, .work 0, .work 0, .lock 0, .go 0 9, .go 0 9, .go 0 9, .go 0 9, .go 0 9, .go 0 9, .work 0]

theorem secret_ok (prof : Profile) : (ANet.after prof greeter 1 0 (secretTurns.map HttpsAct.act)).isSome = true := by rcases prof with ⟨_ | _⟩ <;> decide +kernel

/-- The run in which nothing happens afterwards. -/
def secretRun (prof : Profile) : HttpsRun prof greeter 1 0 where
  run := ANet.Run.ofList (s := (ANet.new 1 0).get rfl) (secretTurns.map HttpsAct.act) rfl (secret_ok prof)
  act t := secretTurns[t]?
  acts t := List.getElem?_map ..

theorem secret_all {prof : Profile} (p : ANet (Traced TlsStream) Nat → Bool) (hp : ∀ t ≤ 32, (ANet.after prof greeter 1 0 ((secretTurns.map HttpsAct.act).take t)).all p = true)
    (t : Nat) : p ((secretRun prof).run.at_ t) = true :=
  ANet.Run.ofList_all (hn := rfl) (s := (ANet.new 1 0).get rfl) (h := secret_ok prof) (Nat.zero_le 32) (fun t h _ => hp t h) t (Nat.zero_le _)

theorem secret_before {prof : Profile} (u : Nat) : secretTurns = (secretRun prof).before u ++ secretTurns.drop u := by
  rw [show (secretRun prof).before u = secretTurns.take u from range_get _ _, List.take_append_drop]

theorem secret_given {prof : Profile} {u : Nat} {cipher : Cipher} {input : List TlsEv} (h : (HttpsAct.given ((secretRun prof).before u))[0]? = some (cipher, input)) :
    ∃ es, input ++ es = [.records true [] false true, .records false (requestBytes (ask 97)) false false, .records false (requestBytes (ask 98)) false false] := by
  obtain ⟨es, h⟩ := Verif.given_grows h (secretTurns.drop u)
  rw [← secret_before] at h
  simp only [secretTurns, HttpsAct.given, List.foldl_cons, List.foldl_nil, List.nil_append, List.modify_cons, if_true, List.getElem?_cons_zero, Option.some.injEq, Prod.mk.injEq] at h
  exact ⟨es, h.2.symm⟩

theorem secret_orderly {prof : Profile} (u : Nat) : HttpsAct.Orderly 0 ((secretRun prof).before u) := by
  refine ⟨fun cipher input h => ?_, fun evs h => ?_⟩
  · obtain ⟨es, h⟩ := secret_given h
    refine TlsEv.Orderly.append (v := es) ?_
    rw [h]
    simp [TlsEv.Orderly]
  · obtain ⟨es, h⟩ := rooms_grow h (secretTurns.drop u)
    rw [← secret_before] at h
    simp only [secretTurns, HttpsAct.rooms, List.foldl_cons, List.foldl_nil, List.nil_append, List.getElem?_cons_zero, Option.some.injEq] at h
    intro e he
    have : .err e ∈ evs ++ es := List.mem_append_left _ he
    rw [← h] at this
    simp [List.mem_replicate] at this

theorem secret_edge {prof : Profile} {t : Nat} (h : (((secretRun prof).run.at_ t).conns[0]?.any fun c => c.edge) = true) : ((secretRun prof).run.at_ t).Edge 0 := by
  obtain ⟨c, h1, h2⟩ := any_some h
  exact ⟨c, h1, h2⟩

theorem secret_inTurns {prof : Profile} (profC : Profile) : (secretRun prof).InTurns profC 0 [ask 97, ask 98] where
  requests q hq := by
    simp only [List.mem_cons, List.not_mem_nil, or_false] at hq
    rcases hq with rfl | rfl <;> exact ⟨ask_sendable _ (by decide), by simp [CloseAsked, ask, HeaderMap.get], anyCut_ascii (by decide +kernel)⟩
  accepted := by
    obtain ⟨c, h, -⟩ := secret_edge (prof := prof) (t := 1) (by rcases prof with ⟨_ | _⟩ <;> decide +kernel)
    exact ⟨1, c, h⟩
  text t cipher input h := by
    obtain ⟨es, h⟩ := secret_given h
    refine ⟨fun hm => ?_, (came_grows input es).trans ?_⟩
    · have := List.mem_append_left es hm
      rw [h] at this
      simp at this
    · rw [h]
      decide +kernel
  goesOn t c hc _ := by
    have h : (HttpsAct.given ((secretRun prof).before 32))[0]? =
      some (toyCipher, [.records true [] false true, .records false (requestBytes (ask 97)) false false, .records false (requestBytes (ask 98)) false false]) := rfl
    refine ⟨32, _, _, h, ?_⟩
    refine (texts_prefix [ask 97, ask 98] _ (hears profC [ask 97, ask 98] (c.raw.raw.sess.log.flatMap TlsItem.plain) + 2) (by omega)).trans ?_
    rw [List.take_of_length_le (by simp)]
    decide +kernel
  lasts := by
    refine ⟨32, fun u hu es h => ?_⟩
    have h : secretTurns[u]? = some (.arrive 0 es) := h
    rw [List.getElem?_eq_none (by exact hu)] at h
    cases h
  ready t es h := by
    have h : secretTurns[t]? = some (.arrive 0 es) := h
    by_cases ht : t < 3
    · exact ⟨3, ht, secret_edge (by rcases prof with ⟨_ | _⟩ <;> decide +kernel)⟩
    · refine ⟨19, Nat.lt_of_not_le fun hle => ?_, secret_edge (by rcases prof with ⟨_ | _⟩ <;> decide +kernel)⟩
      have h' : (secretTurns.drop 19)[t - 19]? = some (.arrive 0 es) := by rw [List.getElem?_drop, show 19 + (t - 19) = t by omega]; exact h
      have := List.mem_of_getElem? h'
      simp [secretTurns] at this
  orderly := secret_orderly
  inTable u c hc := by
    have := secret_all (prof := prof) (fun s => s.conns.all fun c => c.inTable) (by rcases prof with ⟨_ | _⟩ <;> decide +kernel) u
    exact List.all_eq_true.1 this c (List.mem_of_getElem? hc)
  listeners u a _ := by
    obtain ⟨q, s⟩ := a
    refine ⟨if s = 0 then turnOne else turnTwo, .inl ?_, ?_⟩
    · show (greeter.result q s).1 = _
      rw [greeter_result]
      split <;> rfl
    · split
      · exact turns_sendable.1
      · exact turns_sendable.2
  fits := by
    refine .inl fun u a _ resp hresp => ?_
    obtain ⟨q, s⟩ := a
    obtain ⟨-, h2, h3, h4, h5⟩ : Response.PartsLe 28 resp := by
      rcases hresp with h | h
      · exact greeter_parts.2 q s _ (s + 1) (.inl (by rw [greeter_result] at h ⊢; rw [← h]))
      · rw [greeter_result] at h
        cases h
    exact ⟨by decide, by omega, by omega, fun p hp => ⟨Nat.le_trans (h4 p hp).1 (by decide), Nat.le_trans (h4 p hp).2 (by decide)⟩, by omega⟩

/-- The conditions of `C68_tls_conversation_partial` can be met, by a client with two requests that waits for the first answer. -/
example (prof profC : Profile) : (secretRun prof).run.Fair ∧ (∀ t, ((secretRun prof).run.at_ t).pool.crashed.length < 1) ∧ (secretRun prof).InTurns profC 0 [ask 97, ask 98] ∧ (secretRun prof).Sent 0 := by
  refine ⟨ANet.Run.ofList_fair (hn := rfl) (h := secret_ok prof) ?_ ?_, fun t => ?_, secret_inTurns profC, fun u c conn hc hl hs => ?_⟩
  · rcases prof with ⟨_ | _⟩ <;> decide +kernel
  · rcases prof with ⟨_ | _⟩ <;> decide +kernel
  · have := secret_all (prof := prof) (fun s => s.pool.crashed.length == 0) (by rcases prof with ⟨_ | _⟩ <;> decide +kernel) t
    rw [beq_iff_eq] at this
    omega
  · have := secret_all (prof := prof) (fun s => s.conns.all fun c => c.lock != none || c.raw.raw.sess.out == [] && (match c.slot with | .live conn => conn.reader.stream.val.buf.drop conn.reader.stream.val.pos == [] | _ => true))
      (by rcases prof with ⟨_ | _⟩ <;> decide +kernel) u
    have := List.all_eq_true.1 this c (List.mem_of_getElem? hc)
    simpa [hl, hs] using this

end Verif
