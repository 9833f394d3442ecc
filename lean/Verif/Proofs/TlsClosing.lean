import Verif.Proofs.TlsRoomy

/-!
A TLS server whose sockets always take more sends all it has to send before it closes a connection.
-/

namespace Verif

/-! ## Writers that fail only if `F` -/

section

variable {W : Type} [Write W] {K F : W → Prop}

/-- As long as `K`, which stays so, the writer takes everything, or `F` holds afterwards. -/
structure Sure (K F : W → Prop) : Prop where
  keeps : WriteKeeps K
  write : ∀ {w : W} (b : Bytes), K w → F (Write.write w b).2 ∨ (Write.write w b).1 = .ok b.length
  flush : ∀ {w : W}, K w → F (Write.flush w).2 ∨ (Write.flush w).1 = .ok ()

omit [Write W] in
theorem fails_andThen {x : IoRes × W} {k : W → IoRes × W} (h : K x.2) (hx : ∀ e, x.1 = .err e → F x.2) (hk : ∀ w, K w → ∀ e, (k w).1 = .err e → F (k w).2) (e : IoError)
    (he : (Write.andThen x k).1 = .err e) : F (Write.andThen x k).2 := by
  obtain ⟨_ | _ | _, w⟩ := x
  · exact hk w h e he
  · exact hx _ rfl
  · cases he

omit [Write W] in
theorem fails_res {α : Type} {x : Except IoError α × W} {a : α} (h : F x.2 ∨ x.1 = .ok a) (e : IoError) (he : (Write.res x).1 = .err e) : F (Write.res x).2 := by
  obtain ⟨_ | _, w⟩ := x
  · exact h.resolve_right nofun
  · cases he

variable (hS : Sure K F)
include hS

theorem Sure.writeAllLoop (f : Nat) {w : W} (b : Bytes) (h : K w) (e : IoError) (he : (Write.writeAllLoop f w b).1 = .err e) : F (Write.writeAllLoop f w b).2 := by
  induction f generalizing w b with
  | zero => cases b <;> cases he
  | succ f ih =>
    cases b with
    | nil => cases he
    | cons c t =>
      simp only [Write.writeAllLoop] at he ⊢
      have h1 := hS.keeps.write (c :: t) h
      have h2 := hS.write (c :: t) h
      generalize Write.write w (c :: t) = q at h1 h2 he
      obtain ⟨_ | n, w'⟩ := q
      · next e =>
        have h2 := h2.resolve_right nofun
        cases e <;> first | exact h2 | exact ih _ h1 he
      · cases n with
        | zero => exact h2.resolve_right (by simp)
        | succ n => exact ih _ h1 he

theorem Sure.fmt (ps : List Bytes) {w : W} (h : K w) (e : IoError) (he : (Write.fmt w ps).1 = .err e) : F (Write.fmt w ps).2 := by
  induction ps generalizing w with
  | nil => cases he
  | cons p ps ih =>
    unfold Write.fmt at he ⊢
    have h1 : K (Write.writeAll w p).2 := hS.keeps.writeAllLoop _ p h
    have h2 := hS.writeAllLoop (Write.rounds w + p.length + 1) p h
    change ∀ e, (Write.writeAll w p).1 = .err e → F (Write.writeAll w p).2 at h2
    generalize Write.writeAll w p = q at h1 h2 he
    obtain ⟨_ | _ | _, w'⟩ := q
    · exact ih h1 he
    · exact h2 _ rfl
    · cases he

theorem Sure.headerLines (hs : List (Header × Bytes)) {w : W} (h : K w) (e : IoError) (he : (Write.headerLines w hs).1 = .err e) : F (Write.headerLines w hs).2 := by
  induction hs generalizing w e with
  | nil => cases he
  | cons p hs ih => exact fails_andThen (hS.keeps.fmt _ h) (hS.fmt _ h) (fun _ h e he => ih h e he) e he

theorem Sure.answer (a : ListenerResult) {w : W} (h : K w) (e : IoError) (he : (putAnswer w a).1 = .err e) : F (putAnswer w a).2 := by
  have hr : ∀ r, (writeResponse w r).1 = .err e → F (writeResponse w r).2 := fun r =>
    fails_andThen (hS.keeps.fmt _ h) (hS.fmt _ h) (fun _ h => fails_andThen (hS.keeps.headerLines _ h) (hS.headerLines _ h) (fun _ h =>
      fails_andThen (keeps_res (hS.keeps.write _ h)) (fails_res (hS.write _ h)) (fun _ h => fails_andThen (keeps_res (hS.keeps.write _ h)) (fails_res (hS.write _ h)) (fun _ h => fails_res (hS.flush h))))) e
  cases a with
  | sendResponse r => exact hr r he
  | sendResponseArc r => exact hr r he
  | next => exact fails_andThen (hS.keeps.writeAllLoop _ _ h) (hS.writeAllLoop _ _ h) (fun _ h => fails_res (hS.flush h)) e he

theorem Sure.refusal {w : W} (h : K w) (e : IoError) (he : (writeErrorResponse w).1 = .err e) : F (writeErrorResponse w).2 :=
  fails_andThen (hS.keeps.writeAllLoop _ _ h) (hS.writeAllLoop _ _ h) (fun _ h => fails_res (hS.flush h)) e he

end

/-! ## The TLS stream -/

namespace TlsStream

/-- One `complete_io` after the handshake with something to send sends everything, or the socket takes no more now. -/
theorem Free.sends {t : TlsStream} (h : t.Free) (hw : t.sess.wantsWrite = true) : t.completeIo.2.sock.evs = [] ∨ (∃ b, t.completeIo.1 = .ok b) ∧ t.completeIo.2.sess.out = [] := by
  unfold completeIo
  rw [h.1]
  unfold completeLoop
  have hp := pushOut_takes t.sock.flushes t.sock.evs t.sock.sent t.sess.out 0 h.2
  have ho : ∀ evs sent b n, (pushOut t.sock.flushes evs sent b n).1 = .ok (n + b.length) → (pushOut t.sock.flushes evs sent b n).2.2 = [] := by
    intro evs
    induction evs with
    | nil => intro sent b n hb; cases b <;> first | rfl | cases hb
    | cons ev evs ih =>
      intro sent b n hb
      cases b with
      | nil => rfl
      | cons x b =>
        cases ev with
        | accept m =>
          rw [pushOut] at hb ⊢
          · refine ih _ _ _ ?_
            rw [hb, List.length_drop]
            congr 1
            omega
          · simp
          · simp
        | err e => cases hb
  have ho := ho t.sock.evs t.sock.sent t.sess.out 0
  unfold writeTls
  dsimp only
  generalize pushOut t.sock.flushes t.sock.evs t.sock.sent t.sess.out 0 = x at hp ho
  obtain ⟨x, sock, out⟩ := x
  rcases hp with ⟨hp, e', he'⟩ | hp
  · dsimp only at he'
    subst he'
    exact .inl hp
  · dsimp only at hp ho
    have ho := ho hp
    subst hp
    have : 0 < t.sess.out.length := by
      cases ho : t.sess.out with
      | nil => rw [TlsSession.wantsWrite, ho] at hw; cases hw
      | cons => simp
    right
    simp [this, ho]

theorem Free.prior {t : TlsStream} (h : t.Free) : t.completePriorIo.2.sock.evs = [] ∨ t.completePriorIo.1 = .ok () ∧ t.completePriorIo.2.sess.out = [] := by
  unfold completePriorIo
  rw [if_neg (by rw [h.1]; simp)]
  dsimp only
  cases hw : t.sess.wantsWrite with
  | false =>
    rw [if_neg (by simp)]
    refine .inr ⟨rfl, ?_⟩
    unfold TlsSession.wantsWrite at hw
    simpa using hw
  | true =>
    rw [if_pos rfl]
    have := h.sends hw
    generalize t.completeIo = x at this
    obtain ⟨x, t'⟩ := x
    cases x with
    | error e => exact this.imp id fun h => by obtain ⟨⟨b, hb⟩, -⟩ := h; cases hb
    | ok b => exact this.imp id fun h => ⟨rfl, h.2⟩

/-- A flush after the handshake sends everything, or the socket takes no more now. -/
theorem Free.flushes {t : TlsStream} (h : t.Free) : t.flush.2.sock.evs = [] ∨ t.flush.1 = .ok () ∧ t.flush.2.sess.out = [] := by
  have h1 := h.prior
  unfold TlsStream.flush
  generalize t.completePriorIo = x at h1
  obtain ⟨x, t₁⟩ := x
  cases x with
  | error e => exact h1.imp id fun h => by cases h.1
  | ok u =>
    dsimp only at h1 ⊢
    rcases h1 with h1 | h1
    · left
      split
      · have := parks_evs (completeIo_parks (of_self t₁))
        rw [h1] at this
        generalize t₁.completeIo = y at this
        obtain ⟨y, t₂⟩ := y
        cases y <;> exact List.suffix_nil.1 this
      · exact h1
    · right
      rw [if_neg (by rw [TlsSession.wantsWrite, h1.2]; simp)]
      exact ⟨rfl, h1.2⟩

theorem Free.closes {t : TlsStream} (h : t.Free) : t.drop.sock.evs = [] ∨ t.drop.sess.out = [] := by
  have h1 : ({ t with sess := t.sess.sendCloseNotify } : TlsStream).Free := h
  exact h1.flushes.imp id And.right

end TlsStream

/-! ## The stack of the server -/

theorem nb_takes {f : Nat} {s s' : ServerStack TracedTls} {b : Bytes} {x : Except IoError Nat} (h : s.val.inner.val.inner.raw.Free) (e : Wr.write f s b = some (x, s')) :
    s'.val.inner.val.inner.raw.sock.evs = [] ∨ x = .ok b.length := by
  obtain ⟨⟨y, w⟩, h1, h2⟩ := Option.map_eq_some_iff.1 e
  cases h2
  change s.val.write f b = _ at h1
  unfold NbWriter.write at h1
  split at h1
  · split at h1
    · cases h1
    · next e' w₁ hw =>
      cases h1
      left
      obtain ⟨⟨z, t⟩, h3, h4⟩ := Option.map_eq_some_iff.1 hw
      rcases wub_takes h h3 with h5 | h5
      · cases z with
        | error e => cases h4; exact h5
        | ok n =>
          dsimp only at h4
          split at h4 <;> cases h4
      · subst h5
        dsimp only at h4
        split at h4 <;> cases h4
    · next w₁ hw =>
      have hfree : w₁.inner.val.inner.raw.Free := free_uses.writeable.nb_flushBuf (fun _ hb => hb) hw h
      split at h1
      · obtain ⟨⟨z, t⟩, h3, h4⟩ := Option.map_eq_some_iff.1 h1
        rcases wub_takes hfree h3 with h5 | h5
        · cases z with
          | error e => cases h4; exact .inl h5
          | ok n => cases h4; exact .inr rfl
        · subst h5
          cases h4
          exact .inr rfl
      · cases h1
        exact .inr rfl
  · cases h1
    exact .inr rfl

theorem nb_flushes {f : Nat} {s s' : ServerStack TracedTls} {x : Except IoError Unit} (h : s.val.inner.val.inner.raw.Free) (e : Wr.flush f s = some (x, s')) :
    s'.val.inner.val.inner.raw.sock.evs = [] ∨ x = .ok () := by
  obtain ⟨⟨y, w⟩, h1, h2⟩ := Option.map_eq_some_iff.1 e
  cases h2
  change s.val.flush f = _ at h1
  unfold NbWriter.flush at h1
  split at h1
  · cases h1
  · next e' w₁ hw =>
    cases h1
    left
    obtain ⟨⟨z, t⟩, h3, h4⟩ := Option.map_eq_some_iff.1 hw
    rcases wub_takes h h3 with h5 | h5
    · cases z with
      | error e => cases h4; exact h5
      | ok n =>
        dsimp only at h4
        split at h4 <;> cases h4
    · subst h5
      dsimp only at h4
      split at h4 <;> cases h4
  · next w₁ hw =>
    have hfree : w₁.inner.val.inner.raw.Free := free_uses.writeable.nb_flushBuf (fun _ hb => hb) hw h
    obtain ⟨⟨z, t⟩, h3, h4⟩ := Option.map_eq_some_iff.1 h1
    have key : t.val.inner.raw.sock.evs = [] ∨ z = .ok () := by
      obtain ⟨v, g1, g2⟩ := Option.map_eq_some_iff.1 h3
      obtain ⟨v', g3, g4⟩ := Option.map_eq_some_iff.1 g1
      obtain rfl : w₁.inner.val.inner.raw.flush = v' := Option.some.inj g3
      cases g4
      cases g2
      exact hfree.flushes.imp id And.left
    cases z with
    | ok u => cases h4; exact .inr rfl
    | error e =>
      have hk : t.val.inner.raw.sock.evs = [] := key.resolve_right nofun
      left
      clear key
      cases e <;> (cases h4; exact hk)

/-- After the handshake, writing to a connection fails only if the socket takes no more now. -/
theorem shared_sure : Sure (W := Shared (ServerStack TracedTls)) (fun r => r.stream.val.inner.val.inner.raw.Free) (fun r => r.stream.val.inner.val.inner.raw.sock.evs = [] ∨ r.hung = true) where
  keeps := (free_uses.writeable.nb fun _ hb => hb).readable.shared
  write {w} b h := by
    simp only [Write.write]
    split
    · next e => exact (nb_takes h e).imp .inl id
    · exact .inl (.inr rfl)
  flush {w} h := by
    simp only [Write.flush]
    split
    · next e => exact (nb_flushes h e).imp .inl id
    · exact .inl (.inr rfl)

/-- A response that says that something was no request was flushed at the end. -/
theorem refusal_flushed {W : Type} [Write W] {K : W → Prop} (hK : WriteKeeps K) {w w' : W} (h : K w) (e : writeErrorResponse w = (.ok, w')) : ∃ w₁, K w₁ ∧ Write.flush w₁ = (.ok (), w') := by
  unfold writeErrorResponse at e
  have h1 : K (Write.writeAll w badRequestResponse).2 := hK.writeAllLoop _ _ h
  generalize Write.writeAll w badRequestResponse = x at e h1
  obtain ⟨_ | _ | _, w₁⟩ := x
  · refine ⟨w₁, h1, ?_⟩
    change Write.res (Write.flush w₁) = _ at e
    generalize Write.flush w₁ = y at e
    obtain ⟨_ | _, w₂⟩ := y
    · cases e
    · cases e; rfl
  · cases e
  · cases e

theorem refusal_drains {r r' : Shared (ServerStack TracedTls)} (h : r.stream.val.inner.val.inner.raw.Free) (e : writeErrorResponse r = (.ok, r')) :
    r'.stream.val.inner.val.inner.raw.sock.evs = [] ∨ heldBack r'.stream = [] := by
  obtain ⟨w₁, h1, h2⟩ := refusal_flushed (free_uses.writeable.nb fun _ hb => hb).readable.shared h e
  simp only [Write.flush] at h2
  split at h2
  · next hf => cases h2; exact flush_drains h1 hf
  · cases h2

theorem refusal_keeps {W : Type} [Write W] {K : W → Prop} (hK : WriteKeeps K) {w : W} (h : K w) : K (writeErrorResponse w).2 :=
  keeps_andThen (hK.writeAllLoop _ _ h) fun _ h => keeps_res (hK.flush h)

/-- Writing reads nothing. -/
theorem same_log {l : List Ev} : WrMay (W := WriteableReader (BufR TracedTls)) (· ≠ []) fun w => w.val.inner.log = l where
  write {f w w' b x} _ e h := by
    obtain ⟨z, h1, h2⟩ := Option.map_eq_some_iff.1 e
    cases h2
    obtain ⟨⟨y, t⟩, -, h3⟩ := Option.map_eq_some_iff.1 h1
    cases y <;> (cases h3; exact h)
  flush {f w w' x} e h := by
    obtain ⟨z, h1, h2⟩ := Option.map_eq_some_iff.1 e
    cases h2
    obtain ⟨y, -, h3⟩ := Option.map_eq_some_iff.1 h1
    cases h3
    exact h

/-! ## The server -/

/-- What holds of all streams: only what the session has done is recorded, and the socket never fails. -/
def TlsCalm (t : TracedTls) : Prop := (∃ cipher input, TlsStream.Inv cipher input t.got t.put t.raw) ∧ ∀ e ∈ t.raw.sock.evs, ∃ m, e = .accept m

theorem tlsCalm_keeps : RawKeeps TlsCalm where
  write e h := ⟨by obtain ⟨c, i, h1⟩ := h.1; exact ⟨c, i, (tls_keeps c i).write e h1⟩, roomy_keeps.write e h.2⟩
  flush e h := ⟨by obtain ⟨c, i, h1⟩ := h.1; exact ⟨c, i, (tls_keeps c i).flush e h1⟩, roomy_keeps.flush e h.2⟩
  read e h := ⟨by obtain ⟨c, i, h1⟩ := h.1; exact ⟨c, i, (tls_keeps c i).read e h1⟩, roomy_keeps.read e h.2⟩
  drop h := ⟨by obtain ⟨c, i, h1⟩ := h.1; exact ⟨c, i, (tls_keeps c i).drop h1⟩, roomy_keeps.drop h.2⟩

/-- A stream that has delivered something has done its handshake. -/
theorem TlsCalm.free {t : TracedTls} (h : TlsCalm t) (hg : t.got ≠ []) : t.raw.Free := by
  obtain ⟨⟨c, i, h1⟩, h2⟩ := h
  exact ⟨Bool.eq_false_iff.2 fun hh => hg (h1.early hh).2.1, h2⟩

variable {σ : Type} {prof : Profile} {rt : Router σ} {nw : Nat} {s₀ : σ}

/-- What a closed connection has kept back, if anything was ever delivered on it: nothing. -/
def ConnEmptied (conn : SharedConn (ServerStack TracedTls)) : Prop :=
  conn.reader.stream.val.inner.val.inner.got ≠ [] → heldBack conn.reader.stream = [] ∧ conn.reader.stream.val.inner.val.inner.raw.sess.out = []

/-- The same for connection `k` of the server. -/
def ANet.Emptied (k : Nat) (s : ANet TracedTls σ) : Prop := ∀ (c : AConn TracedTls) (conn : SharedConn (ServerStack TracedTls)), s.conns[k]? = some c → c.slot = .gone conn ∨ c.slot = .poisoned conn → ConnEmptied conn

theorem ANet.Emptied.upd {k j : Nat} {s t : ANet TracedTls σ} (h : s.Emptied k) {c' : AConn TracedTls} (hc : t.conns = s.conns.set j c')
    (hk : j = k → t.conns[k]? = some c' → ∀ conn, c'.slot = .gone conn ∨ c'.slot = .poisoned conn → ConnEmptied conn) : t.Emptied k := by
  intro c conn h1 h2
  by_cases hj : j = k
  · have h3 := h1
    rw [hc] at h1
    subst hj
    rw [List.getElem?_set_self'] at h1
    cases hs : s.conns[j]? with
    | none => rw [hs] at h1; cases h1
    | some x => rw [hs] at h1; cases h1; exact hk rfl h3 conn h2
  · rw [hc, List.getElem?_set_ne hj] at h1
    exact h c conn h1 h2

/-- A connection of which nothing is held back when it is dropped, or whose socket takes no more. -/
theorem dropped_emptied {x : SharedConn (ServerStack TracedTls)} (h : TlsCalm x.reader.stream.val.inner.val.inner)
    (hb : x.reader.stream.val.inner.val.inner.got ≠ [] → x.reader.stream.val.inner.val.inner.raw.sock.evs = [] ∨ heldBack x.reader.stream = [])
    (hr : (ANet.droppedConn x).reader.stream.val.inner.val.inner.raw.sock.evs ≠ []) : ConnEmptied (ANet.droppedConn x) := by
  intro hg
  have hf := h.free hg
  have hs := TlsStream.parks_evs (t := { x.reader.stream.val.inner.val.inner.raw with sess := x.reader.stream.val.inner.val.inner.raw.sess.sendCloseNotify }) (TlsStream.flush_parks (TlsStream.of_self _))
  refine ⟨(hb hg).resolve_left fun h1 => hr ?_, hf.closes.resolve_left hr⟩
  dsimp only at hs
  rw [h1] at hs
  exact List.suffix_nil.1 hs

theorem emptied_event {k j : Nat} {s t : ANet TracedTls σ} (h : s.Emptied k) {closed : Bool} (e : s.onEvent j closed = some t) : t.Emptied k := by
  unfold ANet.onEvent at e
  split at e
  · cases e
  · next c hc =>
    split at e
    · cases e
      exact h
    · split at e
      · cases e
        exact h.upd (c' := { c with inTable := false }) rfl fun hj _ conn h1 => h c conn (hj ▸ hc) h1
      · split at e
        · cases e
        · cases e
          exact h

theorem emptied_step {k : Nat} {s t : ANet TracedTls σ} (h : s.Emptied k) (hd : s.Drained k) {a : AAct TlsStream} (e : s.step prof rt a.traced = some t)
    (hcalm : ∀ c conn, s.conns[k]? = some c → c.slot = .live conn → TlsCalm conn.reader.stream.val.inner.val.inner)
    (henv : ∀ j env, a = .change j env → ∀ x, (env x).sess.out = x.sess.out)
    (hfree : ∀ c conn w q a, s.conns[k]? = some c → c.lock = some w → s.phase w = .reply q a → c.slot = .live conn → conn.reader.stream.val.inner.val.inner.raw.Free)
    (hroom : ∀ c, t.conns[k]? = some c → c.raw.raw.sock.evs ≠ []) : t.Emptied k := by
  cases a with
  | accept offer grow growOk x =>
    cases e
    intro c conn h1 h2
    dsimp only at h1
    by_cases hk : k < s.conns.length
    · rw [List.getElem?_append_left hk] at h1
      exact h c conn h1 h2
    · rw [List.getElem?_append_right (by omega)] at h1
      obtain rfl := List.mem_singleton.1 (List.mem_of_getElem? h1)
      rcases h2 with h2 | h2 <;> cases h2
  | change j env =>
    simp only [AAct.traced, ANet.step] at e
    split at e
    · cases e
    · next c hc =>
      cases e
      refine h.upd (c' := { c with slot := ANet.changed (fun t => { t with raw := env t.raw }) c.slot }) rfl fun hj _ conn h1 => ?_
      dsimp only at h1
      cases hs : c.slot with
      | live x => rw [hs] at h1; rcases h1 with h1 | h1 <;> cases h1
      | gone x =>
        rw [hs] at h1
        rcases h1 with h1 | h1
        · cases h1
          intro hg
          obtain ⟨h2, h3⟩ := h c x (hj ▸ hc) (.inl hs) hg
          exact ⟨h2, (henv j env rfl _).trans h3⟩
        · cases h1
      | poisoned x =>
        rw [hs] at h1
        rcases h1 with h1 | h1
        · cases h1
        · cases h1
          intro hg
          obtain ⟨h2, h3⟩ := h c x (hj ▸ hc) (.inr hs) hg
          exact ⟨h2, (henv j env rfl _).trans h3⟩
  | notify j =>
    simp only [AAct.traced, ANet.step] at e
    split at e
    · cases e
    · next c hc =>
      cases e
      exact h.upd (c' := { c with edge := true }) rfl fun hj _ conn h1 => h c conn (hj ▸ hc) h1
  | poll ks =>
    simp only [AAct.traced, ANet.step] at e
    split at e
    · cases e
      intro c conn h1 h2
      simp only [List.getElem?_mapIdx] at h1
      obtain ⟨d, h4, rfl⟩ := Option.map_eq_some_iff.1 h1
      refine h d conn h4 ?_
      split at h2 <;> exact h2
    · cases e
  | dispatch closed =>
    simp only [AAct.traced, ANet.step] at e
    split at e
    · cases e
    · next j ks _ => exact emptied_event (s := { s with batch := ks }) h e
  | stray j closed => exact emptied_event h (show s.onEvent j closed = some t from e)
  | work w =>
    simp only [AAct.traced, ANet.step] at e
    split at e
    · cases e
    · obtain ⟨pool, -, rfl⟩ := Option.map_eq_some_iff.1 e
      exact h
  | lock w =>
    simp only [AAct.traced, ANet.step] at e
    split at e
    · cases e
    · next j hw =>
      split at e
      · cases e
      · next c hc =>
        split at e
        · unfold ANet.enter at e
          split at e
          · obtain ⟨pool, -, rfl⟩ := Option.map_eq_some_iff.1 e
            exact h
          · cases e
            exact h.upd (c' := { c with lock := some w }) rfl fun hj _ conn h1 => h c conn (hj ▸ hc) h1
          · cases e
            exact h.upd (c' := { c with lock := some w }) rfl fun hj _ conn h1 => h c conn (hj ▸ hc) h1
        · cases e
  | go w rounds =>
    simp only [AAct.traced, ANet.step] at e
    split at e
    · cases e
    · next j hw =>
      split at e
      · cases e
      · next c hc =>
        split at e
        · next hlk =>
          have hgone : ∀ (x : SharedConn (ServerStack TracedTls)) (p : Phase), (s.setConn j { c with slot := .gone (ANet.droppedConn x) }).setPhase w p = t →
              (j = k → TlsCalm x.reader.stream.val.inner.val.inner ∧
                (x.reader.stream.val.inner.val.inner.got ≠ [] → x.reader.stream.val.inner.val.inner.raw.sock.evs = [] ∨ heldBack x.reader.stream = [])) → t.Emptied k := by
            rintro x p rfl hx
            refine h.upd (j := j) rfl fun hj h0 conn h1 => ?_
            rcases h1 with h1 | h1
            · cases h1
              exact dropped_emptied (hx hj).1 (hx hj).2 (hroom _ h0)
            · cases h1
          have hlive : ∀ (x : SharedConn (ServerStack TracedTls)) (p : Phase), ((s.setConn j { c with slot := .live x }).setPhase w p).Emptied k := fun x p =>
            h.upd (j := j) rfl fun hj _ conn h1 => by
              rcases h1 with h1 | h1 <;> cases h1
          have hcrash : ∀ (s₁ : ANet TracedTls σ) (x : SharedConn (ServerStack TracedTls)), s₁.conns = s.conns → s₁.crash w j c x = some t →
              (j = k → TlsCalm x.reader.stream.val.inner.val.inner ∧ heldBack x.reader.stream = []) → t.Emptied k := by
            intro s₁ x h1 ht hx
            obtain ⟨pool, -, rfl⟩ := Option.map_eq_some_iff.1 ht
            refine h.upd (j := j) (c' := { c with slot := .poisoned (ANet.droppedConn x), lock := none }) (by simp [ANet.setConn, h1]) fun hj h0 conn h1 => ?_
            rcases h1 with h1 | h1
            · cases h1
            · cases h1
              exact dropped_emptied (hx hj).1 (fun _ => .inr (hx hj).2) (hroom _ h0)
          have hread : ∀ conn x conn', j = k → c.slot = .live conn → ({ conn with reader := { conn.reader with rounds } } : SharedConn (ServerStack TracedTls)).readRequest prof = (x, conn') →
              TlsCalm conn'.reader.stream.val.inner.val.inner ∧ heldBack conn'.reader.stream = [] := by
            intro conn x conn' hj hs hr
            have h1 := (held_quits.stops.request prof (conn.parser.getD .new) (r := { conn.reader with rounds }) (hd c conn (hj ▸ hc) hs)).1
            have h2 := ((server_quits ⟨tlsCalm_keeps.read⟩).stops.request prof (conn.parser.getD .new) (r := { conn.reader with rounds }) (hcalm c conn (hj ▸ hc) hs)).1
            unfold Conn.readRequest at hr
            dsimp only at hr
            generalize RequestParser.parse prof (conn.parser.getD .new) { conn.reader with rounds } = y at hr h1 h2
            obtain ⟨o, r⟩ := y
            cases o with
            | io p e =>
              dsimp only at hr
              split at hr
              · cases hr; exact ⟨h2, h1⟩
              · split at hr <;> (cases hr; exact ⟨h2, h1⟩)
            | _ => cases hr; exact ⟨h2, h1⟩
          have hwk : WriteKeeps (W := Shared (ServerStack TracedTls)) fun r => TlsCalm r.stream.val.inner.val.inner :=
            ((tlsCalm_keeps.may (· ≠ [])).writeable.nb fun _ hb => hb).readable.shared
          unfold ANet.advance at e
          split at e
          · next conn hp hs =>
            split at e
            · next er r hf =>
              refine hgone _ _ (unlessHung_some e).2 fun hj => ?_
              have h1 := hwk.flush (w := { conn.reader with rounds }) (hcalm c conn (hj ▸ hc) hs)
              rw [hf] at h1
              refine ⟨h1, fun _ => .inr ?_⟩
              simp only [Write.flush] at hf
              split at hf
              · next hx =>
                cases hf
                exact flush_empty (s := conn.reader.stream) (hd c conn (hj ▸ hc) hs) hx
              · cases hf
                exact hd c conn (hj ▸ hc) hs
            · rw [← (unlessHung_some e).2]
              exact hlive _ _
          · next conn hp hs =>
            split at e
            · cases e; exact hlive _ _
            · cases e; exact hlive _ _
            · next conn' hr =>
              exact hgone _ _ (Option.some.inj e) fun hj => ⟨(hread _ _ _ hj hs hr).1, fun _ => .inr (hread _ _ _ hj hs hr).2⟩
            · next er conn' hr =>
              split at e
              · cases e
              · next o r hd' hwe =>
                obtain ⟨hh, he⟩ := unlessHung_some e
                refine hgone _ _ he fun hj => ?_
                have h1 := (hread _ _ _ hj hs hr).1
                have h2 := refusal_keeps hwk h1
                have h3 := refusal_keeps (w := conn'.reader) ((same_log (l := conn'.reader.stream.val.inner.val.inner.log)).nb fun _ hb => hb).readable.shared rfl
                have h4 := refusal_drains (r := conn'.reader) (r' := r)
                have h5 := fun h => shared_sure.refusal (w := conn'.reader) h
                rw [hwe] at h2 h3 h4 h5
                refine ⟨h2, fun hg => ?_⟩
                have hfr := h1.free fun h => hg ((congrArg (List.flatMap Ev.bytes) h3).trans h)
                cases o with
                | ok => exact h4 hfr rfl
                | err er =>
                  refine .inl ((h5 hfr er rfl).resolve_right fun hu => ?_)
                  rw [hu] at hh
                  cases hh
                | diverge => exact absurd rfl hd'
            · next conn' hr => exact hcrash s _ rfl e fun hj => hread _ _ _ hj hs hr
            · cases e
          · next conn hp hs =>
            dsimp only at e
            split at e
            · exact hcrash { s with asks := s.asks ++ [(j, _, s.state)], state := (rt.result _ s.state).2 } _ rfl e fun hj => ⟨hcalm c conn (hj ▸ hc) hs, hd c conn (hj ▸ hc) hs⟩
            · cases e
              exact h.upd (j := j) (c' := c) rfl fun hj _ conn h1 => h c conn (hj ▸ hc) h1
          · next q a conn hp hs =>
            have hw := fun hj : j = k => hwk.answer a (w := { conn.reader with rounds }) (hcalm c conn (hj ▸ hc) hs)
            rw [← writeAnswer_put] at hw
            split at e
            · next r hwa =>
              rw [hwa] at hw
              split at e
              · refine hgone _ _ (unlessHung_some e).2 fun hj => ⟨hw hj, fun _ => ?_⟩
                subst hj
                exact answer_drains (r := { conn.reader with rounds }) (hfree c conn w q a hc hlk hp hs) hwa
              · rw [← (unlessHung_some e).2]
                exact hlive _ _
            · next er r hwa =>
              rw [hwa] at hw
              obtain ⟨hh, he⟩ := unlessHung_some e
              refine hgone _ _ he fun hj => ⟨hw hj, fun _ => ?_⟩
              subst hj
              have := shared_sure.answer a (w := { conn.reader with rounds }) (hfree c conn w q a hc hlk hp hs) er
              rw [← writeAnswer_put, hwa] at this
              rcases this rfl with h1 | h1
              · exact .inl h1
              · rw [h1] at hh; cases hh
            · cases e
          · obtain ⟨pool, -, rfl⟩ := Option.map_eq_some_iff.1 e
            exact h.upd (j := j) (c' := { c with lock := none }) rfl fun hj _ conn h1 => h c conn (hj ▸ hc) h1
          · cases e
        · cases e

end Verif
