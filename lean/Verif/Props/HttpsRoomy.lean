import Verif.Proofs.TlsClosing
import Verif.Props.HttpsTurns

/-! C80 over sockets that always take more: whenever no handler uses a connection, the server has sent all that it has to send. -/

namespace Verif

variable {σ : Type} {prof : Profile} {rt : Router σ} {n k : Nat} {s₀ : σ}

/-- C80: in every run of a server started with `listen_https`, if the socket of a connection never fails and would always take more: whenever no handler uses the connection and it is open, its session has sent all that it has to send. -/
theorem C80_tls_roomy (r : HttpsRun prof rt n s₀) (hr : r.Roomy k) {u : Nat} {c : AConn (Traced TlsStream)} {conn : SharedConn (ServerStack (Traced TlsStream))}
    (hc : (r.run.at_ u).conns[k]? = some c) (hl : c.lock = none) (hsl : c.slot = .live conn) : c.raw.raw.sess.out = [] := by
  have hraw : ∀ {c : AConn (Traced TlsStream)} {conn}, c.slot = .live conn → c.raw = conn.reader.stream.val.inner.val.inner := fun h => by rw [AConn.raw, h]; rfl
  have key : ∀ u, (r.run.at_ u).Resting fun j x => j = k → x.raw.sess.out = [] := by
    intro u
    induction u with
    | zero =>
      obtain ⟨pool, -, h⟩ := Option.map_eq_some_iff.1 r.run.start
      intro j c conn hc
      rw [← h] at hc
      cases hc
    | succ u ih =>
      have hn := r.run.next u
      have ha := r.acts u
      cases hact : r.run.act u with
      | none =>
        rw [hact] at hn
        rw [show r.run.at_ (u + 1) = r.run.at_ u from hn]
        exact ih
      | some a =>
        rw [hact] at hn ha
        have hnext : (∀ j env, a ≠ .change j env) → (r.run.at_ (u + 1)).Resting fun j x => j = k → x.raw.sess.out = [] ∨ x.raw.sock.evs = [] := by
          intro hnc
          refine resting_step (P := fun j x => j = k → ∀ e ∈ x.raw.sock.evs, ∃ m, e = .accept m) (fun j => ?_) (fun j x x' m h1 h2 h3 => ?_) (fun j c w hc hw => locked tls_honest tls_within (r.run.after u) hc hw)
            (fun j cj hj he => by subst he; exact (hr u cj hj).2) (fun j c conn h1 h2 h3 => ⟨(ih j c conn h1 h2 h3).1, fun he => .inl ((ih j c conn h1 h2 h3).2 he)⟩)
            ⟨fun _ _ _ h => h, fun offer grow growOk x e he => ?_, fun j env e => absurd e (hnc j env)⟩ hn
          · exact {
              write := fun e h hj => (roomy_keeps.write e (h hj))
              flush := fun e h hj => (roomy_keeps.flush e (h hj))
              read := fun e h hj => (roomy_keeps.read e (h hj))
              drop := fun h hj => (roomy_keeps.drop (h hj)) }
          · have h4 := TlsStream.read_parks x.raw.of_self m
            have h5 := h1 h3
            simp only [RawIO.read] at h2
            generalize x.raw.read m = y at h2 h4
            obtain ⟨y, t⟩ := y
            cases y with
            | ok b => cases h2
            | error e =>
              cases h2
              rcases h4.2 rfl with ⟨-, h6 | h6⟩ | ⟨h6, -⟩
              · exact .inr h6
              · obtain ⟨m, h7⟩ := h5 _ (h6.mem (List.mem_cons_self ..))
                cases h7
              · exact .inl h6
          · cases hh : r.act u with
            | none => rw [hh] at ha; cases ha
            | some b =>
              rw [hh] at ha
              cases b <;> (cases ha; first | cases e; exact .inl rfl | cases e)
        by_cases hnc : ∀ j env, a ≠ .change j env
        · intro j c conn h1 h2 h3
          obtain ⟨h4, h5⟩ := hnext hnc j c conn h1 h2 h3
          refine ⟨h4, fun hj => (h5 hj).resolve_right ?_⟩
          subst hj
          rw [← hraw h2]
          exact (hr (u + 1) c h1).1
        · cases hh : r.act u with
          | none => rw [hh] at ha; cases ha
          | some b =>
            rw [hh] at ha
            have hsame : ∀ j (env : TlsStream → TlsStream), (∀ x, (env x).sess.out = x.sess.out) → a = .change j env → (r.run.at_ (u + 1)).Resting fun j x => j = k → x.raw.sess.out = [] := by
              intro j env henv hae
              subst hae
              simp only [AAct.traced, ANet.step] at hn
              split at hn
              · cases hn
              · next c hc =>
                rw [← Option.some.inj hn]
                refine ih.upd (k := j) (c' := { c with slot := ANet.changed (fun t => { t with raw := env t.raw }) c.slot }) rfl (fun _ _ _ _ _ _ hp => hp) fun conn h1 h2 => ?_
                dsimp only at h1
                cases hs : c.slot with
                | live x =>
                  rw [hs] at h1
                  cases h1
                  have := ih j c x hc hs h2
                  refine ⟨this.1, fun hj => ?_⟩
                  exact (henv _).trans (this.2 hj)
                | gone x => rw [hs] at h1; cases h1
                | poisoned x => rw [hs] at h1; cases h1
            cases b with
            | arrive j es => exact hsame j _ (fun x => rfl : ∀ x : TlsStream, ({ x with input := x.input ++ es } : TlsStream).sess.out = x.sess.out) (Option.some.inj ha)
            | room j evs fl => exact hsame j _ (fun x => rfl : ∀ x : TlsStream, ({ x with sock := { x.sock with evs, flushes := fl } } : TlsStream).sess.out = x.sess.out) (Option.some.inj ha)
            | _ => exact absurd (fun j env he => by rw [he] at ha; cases ha) hnc
  have := (key u k c conn hc hsl fun w hw => by rw [hl] at hw; cases hw).2 rfl
  rwa [hraw hsl]

/-- C80 (partial: for orderly peers): in the same case nothing is left in the writer of the connection that is still to be given to the session. -/
theorem C80_tls_drained_partial (r : HttpsRun prof rt n s₀) (hr : r.Roomy k) (hord : ∀ u, HttpsAct.Orderly k (r.before u)) {u : Nat} {c : AConn (Traced TlsStream)} {conn : SharedConn (ServerStack (Traced TlsStream))}
    (hc : (r.run.at_ u).conns[k]? = some c) (hsl : c.slot = .live conn) : conn.reader.stream.val.buf.drop conn.reader.stream.val.pos = [] := by
  have key : ∀ u, (r.run.at_ u).Drained k := by
    intro u
    induction u with
    | zero =>
      obtain ⟨pool, -, h⟩ := Option.map_eq_some_iff.1 r.run.start
      intro c conn hc
      rw [← h] at hc
      cases hc
    | succ u ih =>
      have hn := r.run.next u
      cases hact : r.run.act u with
      | none =>
        rw [hact] at hn
        rw [show r.run.at_ (u + 1) = r.run.at_ u from hn]
        exact ih
      | some a =>
        rw [hact] at hn
        refine drained_step ih hn (fun c conn w q a hc hl hp hsl => ?_) (fun c conn hc hsl => ?_)
        · exact (orderly_ready (hord u) (r.after u) (fun c hc => (hr u c hc).2) hc hl hsl).2.1 q a hp
        · have := (hr (u + 1) c hc).1
          rw [AConn.raw, hsl] at this
          exact this
  exact key u c conn hc hsl

/-- So the conditions on what the server keeps back can be replaced by one on the socket. -/
theorem HttpsRun.InTurns.sent {r : HttpsRun prof rt n s₀} {profC : Profile} {qs : List Request} (h : r.InTurns profC k qs) (hr : r.Roomy k) : r.Sent k := fun u c conn hc hl hsl =>
  ⟨C80_tls_roomy r hr hc hl hsl, C80_tls_drained_partial r hr h.orderly hc hsl⟩

/-- C68 over TLS (partial: the conditions are in `HttpsRun.InTurns`, and the socket never fails and would always take more): as `C68_tls_conversation_partial`. -/
theorem C68_tls_roomy_partial (r : HttpsRun prof rt n s₀) (hf : r.run.Fair) (hcr : ∀ t, (r.run.at_ t).pool.crashed.length < n) {profC : Profile} {qs : List Request} (h : r.InTurns profC k qs) (hr : r.Roomy k) :
    ∃ (T : Nat) (cipher : Cipher) (as : List (Request × σ)) (rs : List Response), as.map Prod.fst = qs ∧ SaysAll rt as rs ∧ (∃ c, (r.run.at_ T).conns[k]? = some c ∧ c.lock = none) ∧ ∀ t ≥ T, asksOn k (r.run.at_ t).asks = as ∧
      ∀ c, (r.run.at_ t).conns[k]? = some c → c.lock = none → (∃ conn, c.slot = .live conn) ∧ c.raw.raw.sess.log.flatMap TlsItem.plain = rs.flatMap responseBytes ∧
        c.raw.raw.sock.sent = cipher.wire 0 c.raw.raw.sess.log ∧
        ∀ raw : RawStream, raw.Takes (qs.flatMap requestBytes).length → raw.input.flatMap Ev.atoms = (c.raw.raw.sess.log.flatMap TlsItem.plain).map .byte →
          (sendAll profC qs .new [CreateEnd.ok raw]).1 = rs.map .ok := C68_tls_conversation_partial r hf hcr h (h.sent hr)

/-- C80 (partial: for clients that have sent all they will send, sockets that never fail and would always take more, and requests that may be cut anywhere, see `AnyCut`): in every fair run of a server started with `listen_https`
in which fewer handlers panic than there are workers: if a client does the handshake, sends requests that do not ask for the connection to be closed, and does not close it, and no listener panics, then from some time on the router was asked
about all its requests; and whenever no handler uses the connection, it is open, the router was asked about exactly these requests, in order, and all answers have been sealed and sent on the socket. -/
theorem C80_tls_sent_partial (r : HttpsRun prof rt n s₀) (hf : r.run.Fair) (hcr : ∀ t, (r.run.at_ t).pool.crashed.length < n) {t : Nat} {cipher : Cipher} {input : List TlsEv} {ms : List (Bytes × Request)}
    (hs : r.Texts k t cipher input ms) (hst : r.Stays k ms) (hr : r.Roomy k) (he : ∃ t' ≥ t, (r.run.at_ t').Edge k) :
    ∃ u, ∀ v ≥ u, ms.map Prod.snd <+: (asksOn k (r.run.at_ v).asks).map Prod.fst ∧
      ∀ c, (r.run.at_ v).conns[k]? = some c → c.lock = none → (asksOn k (r.run.at_ v).asks).map Prod.fst = ms.map Prod.snd ∧ (∃ conn, c.slot = .live conn) ∧
        AnsweredIn rt (asksOn k (r.run.at_ v).asks) (c.raw.raw.sess.log.flatMap TlsItem.plain) ∧ c.raw.raw.sock.sent = cipher.wire 0 c.raw.raw.sess.log := by
  obtain ⟨u, hu⟩ := C80_tls_served_partial r hf hcr ⟨hs, fun u _ c conn hc hl hsl => C80_tls_roomy r hr hc hl hsl⟩ hst he
  refine ⟨u, fun v hv => ⟨(hu v hv).1, fun c hc hl => ?_⟩⟩
  obtain ⟨h1, conn, out, h2, h3, h4, h5⟩ := (hu v hv).2 c hc hl
  rw [C80_tls_drained_partial r hr hst.orderly hc h2, List.append_nil] at h4
  exact ⟨h1, ⟨conn, h2⟩, h4 ▸ h3, h5⟩

/-- The socket of the run in which two requests are answered over TLS never fails and would always take more. -/
theorem secret_roomy (prof : Profile) : (secretRun prof).Roomy 0 := by
  intro u c hc
  have := secret_all (prof := prof) (fun s => s.conns.all fun c => !c.raw.raw.sock.evs.isEmpty && c.raw.raw.sock.evs.all fun e => match e with | .accept _ => true | _ => false)
    (by rcases prof with ⟨_ | _⟩ <;> decide +kernel) u
  have := List.all_eq_true.1 this c (List.mem_of_getElem? hc)
  simp only [Bool.and_eq_true, Bool.not_eq_true', List.all_eq_true] at this
  refine ⟨fun h => by rw [h] at this; exact absurd this.1 (by simp), fun e he => ?_⟩
  have := this.2 e he
  cases e with
  | accept m => exact ⟨m, rfl⟩
  | err e => cases this

/-- So it does not matter how long the parts of the responses are. -/
example (prof : Profile) : (secretRun prof).Fits 0 ∧ ∀ u, HttpsAct.Roomy prof greeter 1 0 0 ((secretRun prof).before u) :=
  ⟨.inr ⟨secret_orderly, secret_roomy prof⟩, fun u pre hp s hs c hc => by
    obtain ⟨v, rfl⟩ := (secretRun prof).before_prefix hp
    rw [(secretRun prof).after v] at hs
    cases hs
    exact secret_roomy prof v c hc⟩

/-- The conditions of `C68_tls_roomy_partial` can be met, by a client with two requests that waits for the first answer. -/
example (prof profC : Profile) : (secretRun prof).run.Fair ∧ (∀ t, ((secretRun prof).run.at_ t).pool.crashed.length < 1) ∧ (secretRun prof).InTurns profC 0 [ask 97, ask 98] ∧ (secretRun prof).Roomy 0 := by
  refine ⟨ANet.Run.ofList_fair (hn := rfl) (h := secret_ok prof) ?_ ?_, fun t => ?_, secret_inTurns profC, secret_roomy prof⟩
  · rcases prof with ⟨_ | _⟩ <;> decide +kernel
  · rcases prof with ⟨_ | _⟩ <;> decide +kernel
  · have := secret_all (prof := prof) (fun s => s.pool.crashed.length == 0) (by rcases prof with ⟨_ | _⟩ <;> decide +kernel) t
    rw [beq_iff_eq] at this
    omega

/-- Those of `C80_tls_sent_partial` too: all has arrived at time 18, and is reported after that. -/
example (prof : Profile) : (secretRun prof).Texts 0 18 toyCipher [.records true [] false true, .records false (requestBytes (ask 97)) false false, .records false (requestBytes (ask 98)) false false]
      [(requestBytes (ask 97), ask 97), (requestBytes (ask 98), ask 98)] ∧
    (secretRun prof).Stays 0 [(requestBytes (ask 97), ask 97), (requestBytes (ask 98), ask 98)] ∧ ∃ t' ≥ 18, ((secretRun prof).run.at_ t').Edge 0 := by
  have ht := secret_inTurns (prof := prof) prof
  refine ⟨⟨⟨rfl, fun u hu es h => ?_, by simp⟩, by decide +kernel, fun m hm => ?_, ht.calm, ht.fits⟩, ⟨secret_orderly, ht.inTable, fun m hm => (ht.messages m hm).2.2, fun u a ha => ?_⟩, ?_⟩
  · obtain ⟨d, rfl⟩ := Nat.le.dest hu
    have h' : (secretTurns.drop 18)[d]? = some (.arrive 0 es) := by rw [List.getElem?_drop]; exact h
    have := List.mem_of_getElem? h'
    simp [secretTurns] at this
  · exact ⟨(ht.messages m hm).1, (ht.messages m hm).2.1⟩
  · obtain ⟨r', k1, -⟩ := ht.listeners u a ha
    rcases k1 with k1 | k1 <;> (rw [k1]; exact nofun)
  · exact ⟨19, by omega, secret_edge (by rcases prof with ⟨_ | _⟩ <;> decide +kernel)⟩

end Verif
