import Verif.Proofs.NetAnyRun
import Verif.Props.Progress

/-! C80: over streams of any kind, and over TLS, what arrives is read in the end, and requests are answered in the end. -/

namespace Verif

section

variable {T σ : Type} [RawIO T] {prof : Profile} {rt : Router σ} {n : Nat} {s₀ : σ}

/-- C80: in every fair run of a server over streams of any kind in which fewer handlers panic than there are workers: when the socket of a connection is ready, then at some time later the connection is closed,
or its stream was read until it said `WouldBlock`. -/
theorem C80_looked (hT : RawIO.Honest T) (hR : RawIO.ReadsWithin T) (r : ANet.Run T prof rt n s₀) (hf : r.Fair) (hcr : ∀ t, (r.at_ t).pool.crashed.length < n) {k t : Nat} {c : AConn (Traced T)}
    (hc : (r.at_ t).conns[k]? = some c) (he : c.edge = true) :
    ∃ u ≥ t, ¬ (r.at_ u).Open k ∨ ∃ c' es, (r.at_ u).conns[k]? = some c' ∧ c'.raw.log = c.raw.log ++ es ++ [.err .wouldBlock] := by
  have hread : ∀ {x x' : Traced T} {m : Nat} {y : Except IoError Bytes}, RawIO.read x m = (y, x') → ∃ ev, x'.log = x.log ++ [ev] ∧ (y = .error .wouldBlock → ev = .err .wouldBlock) := by
    intro x x' m y h
    simp only [RawIO.read] at h
    generalize RawIO.read x.raw m = z at h
    obtain ⟨z, x₁⟩ := z
    cases z with
    | ok b =>
      obtain ⟨rfl, rfl⟩ := Prod.mk.inj h
      exact ⟨_, rfl, nofun⟩
    | error e =>
      obtain ⟨rfl, rfl⟩ := Prod.mk.inj h
      exact ⟨_, rfl, fun h => by cases h; rfl⟩
  have hP : RawKeeps (T := Traced T) fun x => ∃ es, x.log = c.raw.log ++ es := {
    write := fun {f x x' b y} h ⟨es, h1⟩ => by
      refine ⟨es, ?_⟩
      rw [← h1]
      simp only [Wr.write] at h
      obtain ⟨⟨z, raw⟩, h2, h3⟩ := Option.map_eq_some_iff.1 h
      cases z <;> (cases h3; rfl)
    flush := fun {f x x' y} h ⟨es, h1⟩ => by
      refine ⟨es, ?_⟩
      rw [← h1]
      simp only [Wr.flush] at h
      obtain ⟨z, h2, h3⟩ := Option.map_eq_some_iff.1 h
      cases h3
      rfl
    read := fun h ⟨es, h1⟩ => by
      obtain ⟨ev, h2, -⟩ := hread h
      exact ⟨es ++ [ev], by rw [h2, h1, List.append_assoc]⟩
    drop := fun h => h }
  obtain ⟨u, h1, h2⟩ := r.looked hT hR hf hcr hP (E := fun x => ∃ es, x.log = c.raw.log ++ es ++ [.err .wouldBlock]) (fun x x' m ⟨es, h1⟩ h2 => by
      obtain ⟨ev, h3, h4⟩ := hread h2
      exact ⟨es, by rw [h3, h1, h4 rfl]⟩) ⟨c, hc, he⟩ (fun u hu c' hc' => r.keeps hT hR hP hc ⟨[], by simp⟩ (fun _ _ _ _ _ h => h) hu hc')
  exact ⟨u, h1, h2.imp id fun ⟨c', h3, es, h4⟩ => ⟨c', es, h3, h4⟩⟩

end

/-! ## TLS -/

section

variable {σ : Type} {prof : Profile} {rt : Router σ} {n : Nat} {s₀ : σ}

theorem HttpsRun.before_map (r : HttpsRun prof rt n s₀) (t : Nat) : r.run.before t = (r.before t).map HttpsAct.act := by
  unfold ANet.Run.before HttpsRun.before
  rw [List.map_filterMap]
  exact congrArg (fun f => (List.range t).filterMap f) (funext r.acts)

theorem HttpsRun.after (r : HttpsRun prof rt n s₀) (t : Nat) : ANet.after prof rt n s₀ ((r.before t).map HttpsAct.act) = some (r.run.at_ t) := by
  rw [← r.before_map]
  exact r.run.after t

/-- All that has happened up to some time is what has happened up to each time before that. -/
theorem HttpsRun.before_prefix (r : HttpsRun prof rt n s₀) {u : Nat} {pre : List HttpsAct} (h : pre <+: r.before u) : ∃ v, r.before v = pre := by
  induction u with
  | zero => exact ⟨0, (List.prefix_nil.1 h).symm⟩
  | succ u ih =>
    rw [HttpsRun.before, List.range_succ, List.filterMap_append] at h
    cases ha : r.act u with
    | none =>
      simp only [List.filterMap_cons, ha, List.filterMap_nil, List.append_nil] at h
      exact ih h
    | some a =>
      simp only [List.filterMap_cons, ha, List.filterMap_nil] at h
      rcases List.prefix_concat_iff.1 h with rfl | h
      · exact ⟨u + 1, by rw [HttpsRun.before, List.range_succ, List.filterMap_append]; simp [ha]⟩
      · exact ih h

theorem HttpsRun.Fits.before {r : HttpsRun prof rt n s₀} {k : Nat} (h : r.Fits k) (u : Nat) : HttpsAct.Fits prof rt n s₀ k (r.before u) (r.run.at_ u) := by
  rcases h with h | ⟨hord, hr⟩
  · exact .inl (h u)
  · refine .inr ⟨hord u, fun pre hp s hs c hc => ?_⟩
    obtain ⟨v, rfl⟩ := r.before_prefix hp
    rw [r.after v] at hs
    cases hs
    exact hr v c hc

theorem HttpsRun.Quiet.kept {r : HttpsRun prof rt n s₀} {k t : Nat} {cipher : Cipher} {input : List TlsEv} (h : r.Quiet k t cipher input) {u : Nat} (hu : t ≤ u) :
    (HttpsAct.given (r.before u))[k]? = some (cipher, input) := by
  obtain ⟨d, rfl⟩ := Nat.le.dest hu
  clear hu
  induction d with
  | zero => exact h.given
  | succ d ih =>
    have ih : (HttpsAct.given ((List.range (t + d)).filterMap r.act))[k]? = some (cipher, input) := ih
    rw [HttpsRun.before, ← Nat.add_assoc, List.range_succ, List.filterMap_append]
    cases ha : r.act (t + d) with
    | none =>
      simp only [List.filterMap_cons, ha, List.filterMap_nil, List.append_nil]
      exact ih
    | some a =>
      simp only [List.filterMap_cons, ha, List.filterMap_nil]
      rw [given_snoc]
      cases a with
      | accept offer grow growOk ci evs fl =>
        dsimp only
        rw [List.getElem?_append_left (List.getElem?_eq_some_iff.1 ih).1]
        exact ih
      | arrive j es =>
        dsimp only
        have hj : j ≠ k := fun hj => h.all (t + d) (by omega) es (by rw [ha, hj])
        rw [List.getElem?_modify, ih]
        simp [hj]
      | _ => exact ih

theorem HttpsRun.Quiet.holds {r : HttpsRun prof rt n s₀} {k t : Nat} {cipher : Cipher} {input : List TlsEv} (h : r.Quiet k t cipher input) {u : Nat} (hu : t ≤ u)
    {c : AConn (Traced TlsStream)} (hc : (r.run.at_ u).conns[k]? = some c) : TlsStream.Inv cipher input c.raw.got c.raw.put c.raw.raw := by
  obtain ⟨ci, inp, g1, g2⟩ := (https_reach inv_stays (fun _ _ _ _ => trivial) (r.after u)).1 k c hc
  rw [h.kept hu] at g1
  cases g1
  exact g2

theorem HttpsRun.Sends.quiet {r : HttpsRun prof rt n s₀} {k t : Nat} {cipher : Cipher} {input : List TlsEv} {ms : List (Bytes × Request)} (h : r.Sends k t cipher input ms) : r.Quiet k t cipher input :=
  ⟨h.toCome, h.takes⟩

/-- When all has arrived and the socket was reported as ready, the session reads all of it. -/
theorem HttpsRun.Quiet.idle {r : HttpsRun prof rt n s₀} {k t : Nat} {cipher : Cipher} {input : List TlsEv} (hs : r.Quiet k t cipher input) (hf : r.run.Fair) (hcr : ∀ t, (r.run.at_ t).pool.crashed.length < n)
    {t' : Nat} (ht : t ≤ t') (he : (r.run.at_ t').Edge k) :
    ∃ u ≥ t', ∀ v ≥ u, ∀ c conn, (r.run.at_ v).conns[k]? = some c → c.lock = none → c.slot = .live conn → c.inTable = true → c.raw.raw.input = [] ∧ c.raw.raw.sess.out = [] := by
  obtain ⟨c₀, hc₀, -⟩ := id he
  have hP := tls_keeps cipher input
  have hE : ∀ (x x' : Traced TlsStream) m, TlsStream.Inv cipher input x.got x.put x.raw → RawIO.read x m = (.error .wouldBlock, x') → x'.raw.sess.out ≠ [] ∨ x'.raw.sess.plain = [] ∧ x'.raw.input = [] := by
    intro x x' m hx e
    have hx : .err .wouldBlock ∉ x.raw.input := fun hm => by
      obtain ⟨v, h3, -⟩ := hx.heard
      exact hs.steady (by rw [h3]; exact List.mem_append_right _ hm)
    have h1 := TlsStream.read_parks (t := x.raw) (i := x.raw.input) (e := x.raw.sock.evs) ⟨List.suffix_refl _, List.suffix_refl _⟩ m
    simp only [RawIO.read] at e
    generalize x.raw.read m = y at e h1
    obtain ⟨y, t₁⟩ := y
    cases y with
    | ok b => cases e
    | error er =>
      obtain ⟨h4, h5⟩ := Prod.mk.inj e
      cases h4
      rw [← h5]
      rcases h1.2 rfl with h6 | ⟨-, h6, h7⟩
      · exact .inl h6.1
      · refine .inr ⟨h6, ?_⟩
        rcases h7 with h7 | h7
        · exact h7
        · exact absurd (h7.subset (by simp)) hx
  obtain ⟨u, h1, h2⟩ := r.run.looked tls_honest tls_within hf hcr hP hE he fun u hu c hc => hs.holds (by omega) hc
  refine ⟨u, h1, fun v hv c conn hc hl hsl hin => ?_⟩
  have ho := hs.takes v (by omega) c conn hc hl hsl
  refine ⟨?_, ho⟩
  rcases h2 with h2 | ⟨c', h3, h4⟩
  · obtain ⟨d, hd, -⟩ := r.run.conns hc₀ (u := u) h1
    obtain ⟨d', hd', hg⟩ := r.run.conns hd hv
    rw [hc] at hd'
    cases hd'
    exfalso
    apply h2
    have hlive := hg.live (by rw [hsl]; rfl)
    cases hds : d.slot with
    | live x => exact ⟨d, x, hd, hg.inTable hin, hds⟩
    | gone x => rw [hds] at hlive; cases hlive
    | poisoned x => rw [hds] at hlive; cases hlive
  · have := r.run.rests tls_honest tls_within hP hE h3 h4 (fun v hv c hc => hs.holds (by omega) hc) (fun v hv env ha x hx => ?_) hv hc hl hsl
    · rcases this with h | h
      · exact absurd ho h
      · exact h.2
    · rw [r.acts] at ha
      cases hact : r.act v with
      | none => rw [hact] at ha; cases ha
      | some a =>
        rw [hact] at ha
        cases a with
        | arrive j es =>
          simp only [Option.map_some, HttpsAct.act, Option.some.injEq, AAct.change.injEq] at ha
          exact absurd (by rw [hact, ha.1]) (hs.all v (by omega) es)
        | room j evs fl =>
          simp only [Option.map_some, HttpsAct.act, Option.some.injEq, AAct.change.injEq] at ha
          rw [← ha.2]
          exact hx
        | _ => simp [HttpsAct.act] at ha

/-- C80 (partial: for clients that have sent all they will send, sessions that have sent everything whenever no handler uses the connection, responses in parts of at most 4096 bytes or a socket that always takes more, sockets that are never interrupted, and requests
that may be cut anywhere, see `AnyCut`): in every fair run of a server started with `listen_https` in which fewer handlers panic than there are workers, if a client sends some requests and the socket is reported as ready when all has arrived, then from some time on,
if the server has not closed the connection, the router has been asked about all of them; and whenever no handler uses the connection, it was asked about these and no other, in order, and the answers have been sealed and sent, or are held to
be sealed. -/
theorem C80_tls_answered_partial (r : HttpsRun prof rt n s₀) (hf : r.run.Fair) (hcr : ∀ t, (r.run.at_ t).pool.crashed.length < n) {k t : Nat} {cipher : Cipher} {input : List TlsEv} {ms : List (Bytes × Request)}
    (hs : r.Sends k t cipher input ms) (he : ∃ t' ≥ t, (r.run.at_ t').Edge k) :
    ∃ u, ∀ v ≥ u, (r.run.at_ v).Open k → ms.map Prod.snd <+: (asksOn k (r.run.at_ v).asks).map Prod.fst ∧
      ∀ c conn, (r.run.at_ v).conns[k]? = some c → c.lock = none → c.slot = .live conn → (asksOn k (r.run.at_ v).asks).map Prod.fst = ms.map Prod.snd ∧
        ∃ out, AnsweredIn rt (asksOn k (r.run.at_ v).asks) out ∧ c.raw.raw.sess.log.flatMap TlsItem.plain ++ conn.reader.stream.val.buf.drop conn.reader.stream.val.pos = out ∧
          c.raw.raw.sock.sent = cipher.wire 0 c.raw.raw.sess.log := by
  obtain ⟨t', ht, he⟩ := he
  obtain ⟨c₀, hc₀, -⟩ := id he
  obtain ⟨u, hu, hidle⟩ := hs.quiet.idle hf hcr ht he
  have hfree : ∀ v ≥ u, ∀ c conn, (r.run.at_ v).conns[k]? = some c → c.lock = none → c.slot = .live conn → c.inTable = true → (asksOn k (r.run.at_ v).asks).map Prod.fst = ms.map Prod.snd ∧
        ∃ out, AnsweredIn rt (asksOn k (r.run.at_ v).asks) out ∧ c.raw.raw.sess.log.flatMap TlsItem.plain ++ conn.reader.stream.val.buf.drop conn.reader.stream.val.pos = out ∧
          c.raw.raw.sock.sent = cipher.wire 0 c.raw.raw.sess.log := by
    intro v hv c conn hc hl hsl hin
    obtain ⟨h1, h2⟩ := hidle v hv c conn hc hl hsl hin
    have hg := hs.quiet.kept (u := v) (by omega)
    obtain ⟨ms₁, rest, out, k1, k2, k3, k4, k5, k6, k7⟩ := C78_tls_answered_partial (hs.calm v) (r.after v) hc hl hsl h2 (hs.fits.before v) (used := input) (by rw [h1, List.append_nil]; exact hg) hs.requests (by rw [hs.text]; exact List.prefix_refl _)
    obtain ⟨ms₂, rfl⟩ := k1
    rw [hs.text, List.flatMap_append] at k2
    have k2 := List.append_cancel_left k2
    cases ms₂ with
    | nil => exact ⟨by rw [k4, List.append_nil], out, k5, k6, k7⟩
    | cons m ms₂ =>
      exfalso
      refine k3 m.1 m.2 (hs.requests m (by simp)).1 ?_
      rw [← k2, List.flatMap_cons]
      exact List.prefix_append _ _
  obtain ⟨c₁, hc₁, -⟩ := r.run.conns hc₀ hu
  obtain ⟨u', hu', c₂, hc₂, hl₂⟩ := r.run.free tls_honest tls_within hf hc₁
  refine ⟨u', fun v hv ho => ⟨?_, fun c conn hc hl hsl => ?_⟩⟩
  · obtain ⟨c, conn, hc, hin, hsl⟩ := ho
    obtain ⟨c', hc', hg⟩ := r.run.conns hc₂ hv
    rw [hc] at hc'
    cases hc'
    have hlive := hg.live (by rw [hsl]; rfl)
    cases hds : c₂.slot with
    | live x =>
      rw [← (hfree u' hu' c₂ x hc₂ hl₂ hds (hg.inTable hin)).1]
      exact (asksOn_prefix (r.run.asks hv)).map _
    | gone x => rw [hds] at hlive; cases hlive
    | poisoned x => rw [hds] at hlive; cases hlive
  · obtain ⟨c', conn', hc', hin, -⟩ := ho
    rw [hc] at hc'
    cases hc'
    exact hfree v (by omega) c conn hc hl hsl hin

/-- C80 (partial: for clients that have sent all they will send, sessions that have sent everything whenever no handler uses the connection, responses in parts of at most 4096 bytes or a socket that always takes more, and requests that may be cut anywhere, see `AnyCut`): in every
fair run of a server started with `listen_https` in which fewer handlers panic than there are workers: if a client does the handshake, sends requests that do not ask for the connection to be closed, and does not close it, and no listener
panics, then from some time on the router was asked about all its requests; and whenever no handler uses the connection, it is open, and the router was asked about exactly these requests, in order; the answers have been sealed and sent
on the socket, or are held to be sealed. -/
theorem C80_tls_served_partial (r : HttpsRun prof rt n s₀) (hf : r.run.Fair) (hcr : ∀ t, (r.run.at_ t).pool.crashed.length < n) {k t : Nat} {cipher : Cipher} {input : List TlsEv} {ms : List (Bytes × Request)}
    (hs : r.Sends k t cipher input ms) (hst : r.Stays k ms) (he : ∃ t' ≥ t, (r.run.at_ t').Edge k) :
    ∃ u, ∀ v ≥ u, ms.map Prod.snd <+: (asksOn k (r.run.at_ v).asks).map Prod.fst ∧
      ∀ c, (r.run.at_ v).conns[k]? = some c → c.lock = none → (asksOn k (r.run.at_ v).asks).map Prod.fst = ms.map Prod.snd ∧
        ∃ conn out, c.slot = .live conn ∧ AnsweredIn rt (asksOn k (r.run.at_ v).asks) out ∧ c.raw.raw.sess.log.flatMap TlsItem.plain ++ conn.reader.stream.val.buf.drop conn.reader.stream.val.pos = out ∧
          c.raw.raw.sock.sent = cipher.wire 0 c.raw.raw.sess.log := by
  obtain ⟨u, hu⟩ := C80_tls_answered_partial r hf hcr hs he
  obtain ⟨t', ht, c₀, hc₀, -⟩ := he
  have hlive : ∀ v ≥ t, ∀ c, (r.run.at_ v).conns[k]? = some c → c.lock = none → ∃ conn, c.slot = .live conn := fun v hv c hc hl =>
    (C78_tls_open_partial (hst.orderly v) (r.after v) hc hl (hs.fits.before v) (hst.listeners v) (hs.quiet.kept hv)
      (fun m hm => ⟨(hs.requests m hm).1, (hs.requests m hm).2, hst.requests m hm⟩) (by rw [hs.text]; exact List.prefix_refl _)).1
  obtain ⟨c₁, hc₁, -⟩ := r.run.conns hc₀ (u := max u t') (Nat.le_max_right _ _)
  obtain ⟨u', hu', c₂, hc₂, hl₂⟩ := r.run.free tls_honest tls_within hf hc₁
  obtain ⟨conn₂, hs₂⟩ := hlive u' (by omega) c₂ hc₂ hl₂
  refine ⟨u', fun v hv => ⟨((hu u' (by omega) ⟨c₂, conn₂, hc₂, hst.inTable _ _ hc₂, hs₂⟩).1).trans ((asksOn_prefix (r.run.asks hv)).map _), fun c hc hl => ?_⟩⟩
  obtain ⟨conn, hsl⟩ := hlive v (by omega) c hc hl
  obtain ⟨h1, out, h2⟩ := (hu v (by omega) ⟨c, conn, hc, hst.inTable _ _ hc, hsl⟩).2 c conn hc hl hsl
  exact ⟨h1, conn, out, hsl, h2⟩

end

/-! ## Witnesses -/

section

variable {T σ : Type} [RawIO T] {prof : Profile} {rt : Router σ} {n : Nat} {s₀ : σ}

theorem after_take {as : List (AAct T)} (h : (ANet.after prof rt n s₀ as).isSome = true) (t : Nat) : ∃ s, ANet.after prof rt n s₀ (as.take t) = some s ∧
    ∀ a, as[t]? = some a → ∃ s', s.step prof rt a.traced = some s' ∧ ANet.after prof rt n s₀ (as.take (t + 1)) = some s' := by
  have hrun : ∀ (bs cs : List (AAct (Traced T))) (s : ANet (Traced T) σ), (s.run prof rt (bs ++ cs)).isSome = true → ∃ s', s.run prof rt bs = some s' ∧ (s'.run prof rt cs).isSome = true := by
    intro bs cs
    induction bs with
    | nil => exact fun s h => ⟨s, rfl, h⟩
    | cons b bs ih =>
      intro s h
      simp only [List.cons_append, ANet.run] at h ⊢
      cases hb : s.step prof rt b with
      | none => rw [hb] at h; cases h
      | some s₁ =>
        rw [hb] at h
        exact ih s₁ h
  obtain ⟨s₁, h1⟩ := Option.isSome_iff_exists.1 h
  obtain ⟨s₂, h2, h3⟩ := Option.bind_eq_some_iff.1 h1
  rw [← List.take_append_drop t as, List.map_append] at h3
  obtain ⟨s, h4, h5⟩ := hrun _ _ s₂ (by rw [h3]; rfl)
  have h6 : ANet.after prof rt n s₀ (as.take t) = some s := by
    rw [ANet.after, h2]
    exact h4
  refine ⟨s, h6, fun a ha => ?_⟩
  have hd : as.drop t = a :: as.drop (t + 1) := by
    obtain ⟨hlt, he⟩ := List.getElem?_eq_some_iff.1 ha
    rw [← he]
    exact List.drop_eq_getElem_cons hlt
  rw [hd] at h5
  simp only [List.map_cons, ANet.run] at h5
  cases hb : s.step prof rt a.traced with
  | none => rw [hb] at h5; cases h5
  | some s' =>
    refine ⟨s', rfl, ?_⟩
    rw [List.take_add_one, ha]
    exact after_then h6 hb

/-- A run that stops. -/
def ANet.Run.ofList (as : List (AAct T)) {s : ANet (Traced T) σ} (hn : ANet.new n s₀ = some s) (h : (ANet.after prof rt n s₀ as).isSome = true) : ANet.Run T prof rt n s₀ where
  at_ t := (ANet.after prof rt n s₀ (as.take t)).getD s
  act t := as[t]?
  start := by
    rw [List.take_zero, ANet.after, hn]
    rfl
  next t := by
    obtain ⟨s', h1, h2⟩ := after_take h t
    cases ha : as[t]? with
    | none =>
      have := List.getElem?_eq_none_iff.1 ha
      dsimp only
      rw [List.take_of_length_le this, List.take_of_length_le (by omega)]
    | some a =>
      obtain ⟨s'', h3, h4⟩ := h2 a ha
      dsimp only
      rw [h1, h4]
      exact h3

theorem ANet.Run.ofList_all {as : List (AAct T)} {s : ANet (Traced T) σ} {hn : ANet.new n s₀ = some s} {h : (ANet.after prof rt n s₀ as).isSome = true} {p : ANet (Traced T) σ → Bool} {t₀ : Nat} (ht₀ : t₀ ≤ as.length)
    (hp : ∀ t ≤ as.length, t₀ ≤ t → (ANet.after prof rt n s₀ (as.take t)).all p = true) (t : Nat) (ht : t₀ ≤ t) : p ((ANet.Run.ofList as hn h).at_ t) = true := by
  obtain ⟨s', h1, -⟩ := after_take h t
  show p ((ANet.after prof rt n s₀ (as.take t)).getD s) = true
  rcases Nat.lt_or_ge as.length t with hl | hl
  · have := hp as.length (Nat.le_refl _) ht₀
    rw [List.take_of_length_le (Nat.le_refl _)] at this
    rw [List.take_of_length_le (by omega)] at h1 ⊢
    rw [h1] at this ⊢
    exact this
  · have := hp t hl ht
    rw [h1] at this ⊢
    exact this

def AAct.polls (k : Nat) : AAct T → Bool
  | .poll ks => ks.contains k
  | _ => false

def AAct.dispatches : AAct T → Bool
  | .dispatch _ => true
  | _ => false

/-- A run with one connection and one worker that stops when there is nothing to do is fair. -/
theorem ANet.Run.ofList_fair {as : List (AAct T)} {s : ANet (Traced T) σ} {hn : ANet.new n s₀ = some s} {h : (ANet.after prof rt n s₀ as).isSome = true}
    (hlen : ∀ t ≤ as.length, (ANet.after prof rt n s₀ (as.take t)).all (fun s => s.conns.length ≤ 1 && (!(s.conns[0]?.any fun c => c.edge) || (as.drop t).any (AAct.polls 0)) &&
      (s.batch.isEmpty || (as.drop t).any AAct.dispatches)) = true)
    (hend : (ANet.after prof rt n s₀ as).all (fun s => s.pool.workers.length ≤ 1 && s.pool.workers[0]? == some .receiving && s.pool.queue.isEmpty && s.pool.owner == .using) = true) :
    (ANet.Run.ofList as hn h).Fair := by
  have hat : ∀ t, ((ANet.Run.ofList as hn h).at_ t).conns.length ≤ 1 ∧ ((((ANet.Run.ofList as hn h).at_ t).conns[0]?.any fun c => c.edge) = true → (as.drop t).any (AAct.polls 0) = true) ∧
      (((ANet.Run.ofList as hn h).at_ t).batch ≠ [] → (as.drop t).any AAct.dispatches = true) := by
    intro t
    obtain ⟨s', h1, -⟩ := after_take h t
    have h2 : (ANet.Run.ofList as hn h).at_ t = s' := by
      show (ANet.after prof rt n s₀ (as.take t)).getD s = s'
      rw [h1]
      rfl
    have h3 : (ANet.after prof rt n s₀ (as.take t)).all (fun s => s.conns.length ≤ 1 && (!(s.conns[0]?.any fun c => c.edge) || (as.drop t).any (AAct.polls 0)) &&
      (s.batch.isEmpty || (as.drop t).any AAct.dispatches)) = true := by
      rcases Nat.lt_or_ge as.length t with hl | hl
      · have := hlen as.length (Nat.le_refl _)
        rw [List.take_of_length_le (by omega), List.drop_of_length_le (by omega)] at this ⊢
        exact this
      · exact hlen t hl
    rw [h1] at h3
    simp only [Option.all_some, Bool.and_eq_true, Bool.or_eq_true, decide_eq_true_eq, Bool.not_eq_true', List.isEmpty_iff] at h3
    rw [h2]
    refine ⟨h3.1.1, fun he => ?_, fun hb => ?_⟩
    · rcases h3.1.2 with h4 | h4
      · rw [he] at h4; cases h4
      · exact h4
    · rcases h3.2 with h4 | h4
      · exact absurd h4 hb
      · exact h4
  have hfin : ∀ t ≥ as.length, ((ANet.Run.ofList as hn h).at_ t).pool.workers = [.receiving] ∧ ((ANet.Run.ofList as hn h).at_ t).pool.queue = [] ∧ ((ANet.Run.ofList as hn h).at_ t).pool.owner = .using := by
    intro t ht
    obtain ⟨s', hs'⟩ := Option.isSome_iff_exists.1 h
    have h2 : (ANet.Run.ofList as hn h).at_ t = s' := by
      show (ANet.after prof rt n s₀ (as.take t)).getD s = s'
      rw [List.take_of_length_le ht, hs']
      rfl
    rw [hs'] at hend
    simp only [Option.all_some, Bool.and_eq_true, decide_eq_true_eq, List.isEmpty_iff, beq_iff_eq] at hend
    rw [h2]
    refine ⟨?_, hend.1.2, hend.2⟩
    have h1 := hend.1.1.1
    have h2 := hend.1.1.2
    match hw : s'.pool.workers with
    | [] => rw [hw] at h2; cases h2
    | [x] => rw [hw] at h2; cases h2; rfl
    | _ :: _ :: _ => rw [hw] at h1; simp at h1
  refine ⟨fun t k he => ?_, fun t hb => ?_, fun t w hc => ?_, fun t w j hr => ?_⟩
  · obtain ⟨h2, h3, -⟩ := hat t
    obtain ⟨c, h4, h5⟩ := he
    have hk : k = 0 := by
      have := (List.getElem?_eq_some_iff.1 h4).1
      omega
    subst hk
    have h6 := h3 (by rw [h4]; exact h5)
    rw [List.any_eq_true] at h6
    obtain ⟨a, h6, h7⟩ := h6
    obtain ⟨i, h8⟩ := List.mem_iff_getElem?.1 h6
    rw [List.getElem?_drop] at h8
    cases a with
    | poll ks => exact ⟨t + i, by omega, ks, h8, by simpa [AAct.polls] using h7⟩
    | _ => cases h7
  · obtain ⟨-, -, h3⟩ := hat t
    have h6 := h3 hb
    rw [List.any_eq_true] at h6
    obtain ⟨a, h6, h7⟩ := h6
    obtain ⟨i, h8⟩ := List.mem_iff_getElem?.1 h6
    rw [List.getElem?_drop] at h8
    cases a with
    | dispatch b => exact ⟨t + i, by omega, b, h8⟩
    | _ => cases h7
  · exfalso
    obtain ⟨h2, h3, h4⟩ := hfin (t + as.length) (by omega)
    refine hc (t + as.length) (by omega) ?_
    simp only [ANet.step, Pool.step, Pool.work, h2, h3, h4]
    cases w with
    | zero => simp [Owner.hasSender]
    | succ w => simp
  · refine ⟨t + as.length, by omega, ?_⟩
    obtain ⟨h2, -, -⟩ := hfin (t + as.length) (by omega)
    rw [h2]
    cases w <;> simp

end

/-- A client connects over TLS and sends a request. -/
def wholeSecret : List HttpsAct := [.accept (fun n => n) (fun c n => c + n) (by omega) toyCipher [.accept 100, .accept 100] [], .arrive 0 [.records true [] false true],
  .arrive 0 [.records false aRequest.1 false false], .poll [0], .dispatch false, .work 0, .work 0, .work 0, .work 0, .lock 0, .go 0 9, .go 0 9, .go 0 9, .go 0 9, .go 0 9, .go 0 9, .work 0]

theorem whole_ok (prof : Profile) : (ANet.after prof counter 1 0 (wholeSecret.map HttpsAct.act)).isSome = true := by rcases prof with ⟨_ | _⟩ <;> decide +kernel

/-- The run in which nothing happens afterwards. -/
def wholeRun (prof : Profile) : HttpsRun prof counter 1 0 where
  run := ANet.Run.ofList (s := (ANet.new 1 0).get rfl) (wholeSecret.map HttpsAct.act) rfl (whole_ok prof)
  act t := wholeSecret[t]?
  acts t := List.getElem?_map ..

theorem any_some {α : Type} {o : Option α} {p : α → Bool} (h : o.any p = true) : ∃ a, o = some a ∧ p a = true := by
  cases o with
  | none => cases h
  | some a => exact ⟨a, rfl, h⟩

theorem whole_all {prof : Profile} (p : ANet (Traced TlsStream) Nat → Bool) (t₀ : Nat) (ht₀ : t₀ ≤ 17) (hp : ∀ t ≤ 17, t₀ ≤ t → (ANet.after prof counter 1 0 ((wholeSecret.map HttpsAct.act).take t)).all p = true)
    (t : Nat) (ht : t₀ ≤ t) : p ((wholeRun prof).run.at_ t) = true :=
  ANet.Run.ofList_all (hn := rfl) (s := (ANet.new 1 0).get rfl) (h := whole_ok prof) ht₀ hp t ht

theorem range_get {α : Type} (l : List α) (u : Nat) : (List.range u).filterMap (fun i => l[i]?) = l.take u := by
  induction u with
  | zero => rfl
  | succ u ih =>
    rw [List.range_succ, List.filterMap_append, ih, List.take_add_one]
    cases h : l[u]? <;> simp [h]

theorem whole_before {prof : Profile} (u : Nat) : wholeSecret = (wholeRun prof).before u ++ wholeSecret.drop u := by
  rw [show (wholeRun prof).before u = wholeSecret.take u from range_get _ _, List.take_append_drop]

theorem whole_orderly {prof : Profile} (u : Nat) : HttpsAct.Orderly 0 ((wholeRun prof).before u) := by
  refine ⟨fun cipher input h => ?_, fun evs h => ?_⟩
  · obtain ⟨es, h⟩ := given_grows h (wholeSecret.drop u)
    rw [← whole_before] at h
    simp only [wholeSecret, HttpsAct.given, List.foldl_cons, List.foldl_nil, List.nil_append, List.modify_cons, if_true, List.getElem?_cons_zero, Option.some.injEq, Prod.mk.injEq] at h
    refine TlsEv.Orderly.append (v := es) ?_
    rw [← h.2]
    simp [TlsEv.Orderly]
  · obtain ⟨es, h⟩ := rooms_grow h (wholeSecret.drop u)
    rw [← whole_before] at h
    simp only [wholeSecret, HttpsAct.rooms, List.foldl_cons, List.foldl_nil, List.nil_append, List.getElem?_cons_zero, Option.some.injEq] at h
    intro e he
    have : .err e ∈ evs ++ es := List.mem_append_left _ he
    rw [← h] at this
    simp at this

/-- The hypotheses of the theorems of C80 can be met: a request comes over TLS, and is answered. -/
example (prof : Profile) : ∃ r : HttpsRun prof counter 1 0, r.run.Fair ∧ (∀ t, (r.run.at_ t).pool.crashed.length < 1) ∧
    r.Sends 0 3 toyCipher [.records true [] false true, .records false aRequest.1 false false] [aRequest] ∧ r.Stays 0 [aRequest] ∧ (∃ t' ≥ 3, (r.run.at_ t').Edge 0) ∧
    (∀ t, 1 ≤ t → (r.run.at_ t).Open 0) ∧ ∃ t c, (r.run.at_ t).conns[0]? = some c ∧ c.lock = none ∧ (r.run.at_ t).asks.length = 1 ∧ c.raw.raw.sock.sent = [0, 2, 1, 1] ++ b!"HTTP/1.1 200 OK\r\n\r\nhi" := by
  refine ⟨wholeRun prof, ANet.Run.ofList_fair (hn := rfl) (h := whole_ok prof) ?_ ?_, fun t => ?_, ⟨⟨⟨rfl, fun u hu es h => ?_, by simp⟩, by decide +kernel, fun m hm => ?_, fun u => ⟨fun cipher input h hi => ?_, fun evs h hi => ?_⟩, .inl fun u a ha r hr => ?_⟩, fun u hu c conn hc hl _ => ?_⟩,
    ⟨whole_orderly, fun u c hc => ?_, fun m hm => ?_, fun u a ha => ?_⟩, ⟨3, Nat.le_refl _, ?_⟩, fun t ht => ?_, 17, ?_⟩
  · rcases prof with ⟨_ | _⟩ <;> decide +kernel
  · rcases prof with ⟨_ | _⟩ <;> decide +kernel
  · have := whole_all (prof := prof) (fun s => s.pool.crashed.length == 0) 0 (by decide) (by rcases prof with ⟨_ | _⟩ <;> decide +kernel) t (Nat.zero_le _)
    rw [beq_iff_eq] at this
    omega
  · rcases u with _ | _ | _ | u
    · omega
    · omega
    · omega
    · have h : (wholeSecret.drop 3)[u]? = some (.arrive 0 es) := h
      have := List.mem_of_getElem? h
      simp [wholeSecret] at this
  · obtain rfl : m = aRequest := by simpa using hm
    exact ⟨aRequest_fits, anyCut_ascii (by decide +kernel)⟩
  · have := ((whole_orderly (prof := prof) u).input cipher input h).errs _ hi
    cases this
  · have := (whole_orderly (prof := prof) u).room evs h _ hi
    cases this
  · obtain ⟨q, st⟩ := a
    simp only [Router.Says, counter_result] at hr
    rcases hr with hr | hr <;> cases hr
    exact ⟨by decide, by decide, by decide, by simp [HeaderMap.flat], by decide⟩
  · have := whole_all (prof := prof) (fun s => s.conns.all fun c => c.lock != none || c.raw.raw.sess.out == []) 0 (by decide)
      (by rcases prof with ⟨_ | _⟩ <;> decide +kernel) u (Nat.zero_le _)
    have := List.all_eq_true.1 this c (List.mem_of_getElem? hc)
    simpa [hl] using this
  · have := whole_all (prof := prof) (fun s => s.conns.all fun c => c.inTable) 0 (by decide) (by rcases prof with ⟨_ | _⟩ <;> decide +kernel) u (Nat.zero_le _)
    exact List.all_eq_true.1 this c (List.mem_of_getElem? hc)
  · obtain rfl : m = aRequest := by simpa using hm
    simp [CloseAsked, aRequest, HeaderMap.get]
  · rw [counter_result]
    simp
  · have h : (((wholeRun prof).run.at_ 3).conns[0]?.any fun c => c.edge) = true := by rcases prof with ⟨_ | _⟩ <;> decide +kernel
    obtain ⟨c, h1, h2⟩ := any_some h
    exact ⟨c, h1, h2⟩
  · have := whole_all (prof := prof) (fun s => s.conns[0]?.any fun c => c.inTable && c.slot.isLive) 1 (by decide) (by rcases prof with ⟨_ | _⟩ <;> decide +kernel) t ht
    obtain ⟨c, h1, h2⟩ := any_some this
    rw [Bool.and_eq_true] at h2
    cases hs : c.slot with
    | live conn => exact ⟨c, conn, h1, h2.1, hs⟩
    | gone x => rw [hs] at h2; cases h2.2
    | poisoned x => rw [hs] at h2; cases h2.2
  · have h : (((wholeRun prof).run.at_ 17).conns[0]?.any fun c => c.lock == none && ((wholeRun prof).run.at_ 17).asks.length == 1 && c.raw.raw.sock.sent == [0, 2, 1, 1] ++ b!"HTTP/1.1 200 OK\r\n\r\nhi") = true := by
      rcases prof with ⟨_ | _⟩ <;> decide +kernel
    obtain ⟨c, h1, h2⟩ := any_some h
    simp only [Bool.and_eq_true, beq_iff_eq] at h2
    exact ⟨c, h1, h2.1.1, h2.1.2, h2.2⟩

end Verif
