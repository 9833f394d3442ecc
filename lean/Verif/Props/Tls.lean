import Verif.Proofs.Tls
import Verif.Proofs.RawInv
import Verif.Props.BufStream
import Verif.Props.Client

/-!
C67: TLS streams.
-/

namespace Verif

/-- C67: whatever a TLS stream is used for, whatever the TCP stream below finds to read and however much of what is given to it it takes: what was written to the TCP
stream, and what waits for that, are the sealed messages, in order and without loss or repetition, and the plain text in these is exactly what
`write` took; what `read` delivered, and what waits for that, is the plain text of the records that came after the handshake, in order and without loss or repetition. -/
theorem C67_streams (cipher : Cipher) (client : Bool) (input : List TlsEv) (evs : List WEv) (fl : List (Option IoError)) (os : List TlsOp) {got put : Bytes} {t : TlsStream}
    (h : TlsStream.uses os (TlsStream.new cipher client input ⟨evs, fl, []⟩) = (got, put, t)) :
    t.sock.sent ++ t.sess.out = cipher.wire 0 t.sess.log ∧ t.sess.log.flatMap TlsItem.plain = put ∧
    ∃ used, input = used ++ t.input ∧ got ++ t.sess.plain = (used.foldl TlsHeard.step ⟨true, [], false, false⟩).came := by
  have i := (TlsStream.Inv.new cipher client input evs fl).uses os
  rw [h] at i
  obtain ⟨u, h1, h2⟩ := i.heard
  refine ⟨?_, i.log, u, h1, ?_⟩
  · rw [← i.cipher]; exact i.wire
  · rw [h2]; exact i.plain

/-- C67: before the handshake is over no plain text is taken, sealed or delivered. -/
theorem C67_no_early_data (cipher : Cipher) (client : Bool) (input : List TlsEv) (evs : List WEv) (fl : List (Option IoError)) (os : List TlsOp) {got put : Bytes} {t : TlsStream}
    (h : TlsStream.uses os (TlsStream.new cipher client input ⟨evs, fl, []⟩) = (got, put, t)) (hh : t.sess.handshaking = true) :
    got = [] ∧ put = [] ∧ ∀ x ∈ t.sess.log, x.plain = [] := by
  have i := (TlsStream.Inv.new cipher client input evs fl).uses os
  rw [h] at i
  obtain ⟨-, h1, h2⟩ := i.early hh
  have h2 : put = [] := h2
  exact ⟨h1, h2, List.flatMap_eq_nil_iff.1 (i.log.trans h2)⟩

namespace TlsStream

theorem Quiet.completeIo {t : TlsStream} (h : t.Quiet) (hp : t.sess.plain = []) : t.completeIo =
    match t.input with
    | [] => (.error .wouldBlock, t)
    | .err e :: es => (.error e, { t with input := es })
    | .eof :: es => (.ok false, { t with input := es })
    | .bad :: es => refuse { t with input := es }
    | .records _ p c _ :: es => (.ok true, ⟨{ t.sess with plain := p, came := t.sess.came ++ p, peerEof := t.sess.peerEof || c }, es, t.sock⟩) := by
  obtain ⟨⟨ci, ha, pl, pe, fa, ou, lo, ca⟩, input, ⟨evs, fl, sent⟩⟩ := t
  obtain ⟨h1, h2, h3, h4⟩ := h
  dsimp only at h1 h2 h3 h4 hp
  subst h1 h2 h3 hp
  have hw : ∀ input, writeTls ⟨⟨ci, false, [], pe, false, [], lo, ca⟩, input, ⟨evs, fl, sent⟩⟩ = (.ok 0, ⟨⟨ci, false, [], pe, false, [], lo, ca⟩, input, ⟨evs, fl, sent⟩⟩) := by
    intro input
    unfold writeTls
    cases evs <;> rfl
  unfold TlsStream.completeIo
  rw [completeLoop.eq_def]
  dsimp only
  rw [hw]
  cases input with
  | nil => rfl
  | cons e es =>
    cases e with
    | err e => rfl
    | eof => rfl
    | bad => rfl
    | records a p c d =>
      obtain rfl := (h4 _ (List.mem_cons_self ..)).2 a p c d rfl
      rfl

theorem Quiet.readLoop {t : TlsStream} (h : t.Quiet) {f : Nat} (hf : t.input.length < f) (n : Nat) :
    match readLoop f t with
    | (.error e, t') => t'.Quiet ∧ rawRead n t.script = (.error e, t'.script)
    | (.ok (), t') => t'.Quiet ∧ (t'.sess.plain ≠ [] ∧ t'.script = t.script ∨
        t'.sess.plain = [] ∧ rawRead n t.script = (if t'.sess.peerEof then .error .connectionAborted else .ok [], t'.script)) := by
  induction f generalizing t with
  | zero => exact absurd hf (Nat.not_lt_zero _)
  | succ f ih =>
    unfold TlsStream.readLoop
    by_cases hp : t.sess.plain = []
    · rw [show t.sess.wantsRead = true from by unfold TlsSession.wantsRead; rw [hp]; rfl, if_pos rfl, h.completeIo hp]
      obtain ⟨s, input, sock⟩ := t
      dsimp only at hp hf ⊢
      have hs : ∀ input, script ⟨s, input, sock⟩ = plainScript s.peerEof input := by
        intro input
        unfold script
        dsimp only
        rw [if_pos hp, List.nil_append]
      rw [hs]
      cases input with
      | nil => exact ⟨h, by rw [hs]; rfl⟩
      | cons e es =>
        have hq : Quiet ⟨s, es, sock⟩ := ⟨h.done, h.good, h.out, fun e he => h.input e (List.mem_cons_of_mem _ he)⟩
        cases e with
        | err e => exact ⟨hq, by rw [hs]; rfl⟩
        | eof =>
          refine ⟨hq, .inr ⟨hp, ?_⟩⟩
          rw [hs]
          dsimp only [plainScript]
          cases s.peerEof <;> simp [rawRead]
        | bad => exact absurd rfl (h.input _ (List.mem_cons_self ..)).1
        | records a p c d =>
          dsimp only [plainScript]
          have := ih (t := ⟨{ s with plain := p, came := s.came ++ p, peerEof := s.peerEof || c }, es, sock⟩)
            ⟨h.done, h.good, h.out, hq.input⟩ (by simpa using hf)
          have hs' : script ⟨{ s with plain := p, came := s.came ++ p, peerEof := s.peerEof || c }, es, sock⟩ =
              (if p = [] then [] else [.data p]) ++ plainScript (s.peerEof || c) es := rfl
          rw [hs'] at this
          exact this
    · rw [show t.sess.wantsRead = false from by unfold TlsSession.wantsRead; simpa using hp, if_neg Bool.false_ne_true]
      exact ⟨h, .inl ⟨hp, rfl⟩⟩

/-- One read. -/
theorem Quiet.read {t : TlsStream} (h : t.Quiet) (n : Nat) : (t.read n).2.Quiet ∧ rawRead n t.script = ((t.read n).1, (t.read n).2.script) := by
  have hpr : t.completePriorIo = (.ok (), t) := by
    unfold completePriorIo TlsSession.wantsWrite
    rw [h.done]
    simp only [Bool.false_eq_true, if_false]
    rw [h.out]
    rfl
  have := h.readLoop (Nat.lt_succ_self _) n
  unfold TlsStream.read
  rw [hpr]
  dsimp only
  generalize TlsStream.readLoop (t.input.length + 1) t = x at this
  obtain ⟨x, t'⟩ := x
  cases x with
  | error e => exact this
  | ok u =>
    obtain ⟨hq, h1⟩ := this
    dsimp only at hq h1 ⊢
    have hq' : ∀ p, Quiet { t' with sess := { t'.sess with plain := p } } := fun p => ⟨hq.done, hq.good, hq.out, hq.input⟩
    unfold TlsSession.read
    rcases h1 with ⟨h1, h2⟩ | ⟨h1, h2⟩
    · rw [if_neg (fun hc => h1 hc.1)]
      refine ⟨hq' _, ?_⟩
      rw [← h2]
      unfold script
      dsimp only
      rw [if_neg h1]
      simp only [List.cons_append, List.nil_append, rawRead]
      split
      · rename_i hl
        rw [List.drop_eq_nil_of_le hl, List.take_of_length_le hl]
        rfl
      · rename_i hl
        rw [if_neg]
        · rfl
        · intro hd
          exact hl (List.drop_eq_nil_iff.1 hd)
    · rw [h2]
      by_cases hpe : t'.sess.peerEof = true
      · rw [if_pos ⟨h1, hpe⟩, if_pos hpe]
        exact ⟨hq, rfl⟩
      · rw [if_neg (fun hc => hpe hc.2), if_neg hpe]
        refine ⟨hq' _, ?_⟩
        dsimp only [script]
        rw [h1, List.take_nil, List.drop_nil]

end TlsStream

/-- Some reads. -/
def TlsStream.reads : List Nat → TlsStream → List (Except IoError Bytes)
  | [], _ => []
  | n :: ns, t => (t.read n).1 :: reads ns (t.read n).2

/-- The same for a script. -/
def rawReads : List Nat → List Ev → List (Except IoError Bytes)
  | [], _ => []
  | n :: ns, es => (rawRead n es).1 :: rawReads ns (rawRead n es).2

/-- C67 (partial: after the handshake, with nothing waiting to be sent and a peer that only sends data and perhaps closes): reading from a TLS stream is reading from
a script, as everywhere in this model. Data is data; the end of the TCP stream is an end if the peer has not closed the session, and an error if it has. -/
theorem C67_script_partial {t : TlsStream} (h : t.Quiet) (ns : List Nat) : t.reads ns = rawReads ns t.script := by
  induction ns generalizing t with
  | nil => rfl
  | cons n ns ih =>
    obtain ⟨h1, h2⟩ := h.read n
    rw [TlsStream.reads, rawReads, h2, ih h1]

/-! ## Under the buffers -/

theorem tls_honest : RawIO.Honest TlsStream := by
  intro f t t' b n h
  change some (t.write b) = _ at h
  unfold TlsStream.write at h
  generalize t.completePriorIo = x at h
  obtain ⟨x, t₁⟩ := x
  cases x with
  | error e => cases h
  | ok u => cases h; exact Nat.le_refl _

theorem TlsStream.Inv.close {cipher : Cipher} {input : List TlsEv} {got put : Bytes} {t : TlsStream} (i : TlsStream.Inv cipher input got put t) :
    TlsStream.Inv cipher input got put { t with sess := t.sess.sendCloseNotify } := ⟨i.cipher, by
    simp only [TlsSession.sendCloseNotify, TlsSession.send, List.flatMap_append, List.flatMap_cons, List.flatMap_nil, TlsItem.plain, List.append_nil]
    exact i.log, i.heard, i.plain, TlsStream.send_wire _ i.wire, i.early⟩

theorem TlsStream.Inv.drop {cipher : Cipher} {input : List TlsEv} {got put : Bytes} {t : TlsStream} (i : TlsStream.Inv cipher input got put t) :
    TlsStream.Inv cipher input got put t.drop :=
  i.close.moves (TlsStream.flush_moves _ fun hb => (i.close.early hb).1)

theorem TlsStream.Inv.drop_log {cipher : Cipher} {input : List TlsEv} {got put : Bytes} {t : TlsStream} (i : TlsStream.Inv cipher input got put t) :
    ∃ l, t.drop.sess.log = t.sess.log ++ .closeNotify :: l ∧ ∀ x ∈ l, x = .reply ∨ x = .alert := by
  obtain ⟨l, h1, h2⟩ := (TlsStream.flush_moves { t with sess := t.sess.sendCloseNotify } fun hb => (i.close.early hb).1).log
  exact ⟨l, h1.trans (by simp [TlsSession.sendCloseNotify, TlsSession.send]), fun x hx => (h2 x hx).cases⟩

theorem TlsItem.own_plain {x : TlsItem} (h : x = .reply ∨ x = .alert) : x.plain = [] := by rcases h with rfl | rfl <;> rfl

theorem tls_keeps (cipher : Cipher) (input : List TlsEv) : RawKeeps (T := Traced TlsStream) fun t => TlsStream.Inv cipher input t.got t.put t.raw where
  write {f w w' b x} e h := by
    have := h.write b
    obtain ⟨⟨y, t⟩, h1, h2⟩ := Option.map_eq_some_iff.1 e
    cases h1' : w.raw.write b with
    | mk y' t₁ =>
    rw [show Wr.write f w.raw b = some (w.raw.write b) from rfl, h1'] at h1
    cases h1
    rw [h1'] at this
    cases y with
    | error er => cases h2; exact this
    | ok n =>
      obtain ⟨rfl, h3, -⟩ := this
      cases h2
      dsimp only
      rw [List.take_length]
      exact h3
  flush {f w w' x} e h := by
    obtain ⟨y, h1, h2⟩ := Option.map_eq_some_iff.1 e
    cases h2
    have h1 : y = w.raw.flush := (Option.some.inj h1).symm
    subst h1
    exact h.moves (TlsStream.flush_moves w.raw fun hb => (h.early hb).1)
  read {t t' n x} e h := by
    have := h.read n
    simp only [RawIO.read] at e
    generalize t.raw.read n = y at this e
    obtain ⟨y, t₁⟩ := y
    cases y <;> (cases e; simpa [Traced.got, Ev.bytes] using this)
  drop h := h.drop

/-- A session that was not closed is closed by its `Drop` only. -/
theorem tls_uses (cipher : Cipher) (input : List TlsEv) {may : Bytes → Prop} : RawMay (T := Traced TlsStream) may fun t => TlsStream.Inv cipher input t.got t.put t.raw ∧ .closeNotify ∉ t.raw.sess.log where
  write {f w w' b x} _ e h := by
    refine ⟨(tls_keeps cipher input).write e h.1, ?_⟩
    have := TlsStream.write_unclosed (fun hb => (h.1.early hb).1) h.2 b
    obtain ⟨⟨y, t⟩, h1, h2⟩ := Option.map_eq_some_iff.1 e
    cases h1' : w.raw.write b with
    | mk y' t₁ =>
    rw [show Wr.write f w.raw b = some (w.raw.write b) from rfl, h1'] at h1
    cases h1
    rw [h1'] at this
    cases y <;> (cases h2; exact this)
  flush {f w w' x} e h := by
    refine ⟨(tls_keeps cipher input).flush e h.1, ?_⟩
    obtain ⟨y, h1, h2⟩ := Option.map_eq_some_iff.1 e
    cases h2
    have h1 : y = w.raw.flush := (Option.some.inj h1).symm
    subst h1
    exact (TlsStream.flush_moves w.raw fun hb => (h.1.early hb).1).unclosed h.2
  read {t t' n x} e h := by
    refine ⟨(tls_keeps cipher input).read e h.1, ?_⟩
    have := TlsStream.read_unclosed (fun hb => (h.1.early hb).1) h.2 n
    simp only [RawIO.read] at e
    generalize t.raw.read n = y at this e
    obtain ⟨y, t₁⟩ := y
    cases y <;> (cases e; exact this)

/-- C67: a buffered stream of the client over TLS, whatever it is used for and whatever happens below: what the caller takes out is a beginning of the plain text that the peer sent after
the handshake; what the caller writes is, but for what is in the buffer, the plain text of the sealed messages; these messages are what is on the TCP stream or waits for it. -/
theorem C67_client (cipher : Cipher) (input : List TlsEv) (evs : List WEv) (fl : List (Option IoError)) {f : Nat} (os : List StreamOp) {rs : List StreamRes}
    {s : ClientStack (Traced TlsStream)} (h : StreamOp.runAll f os (ClientStack.new ⟨TlsStream.new cipher true input ⟨evs, fl, []⟩, [], []⟩) = (rs, s))
    (hp : StreamView.Proper ⟨[], [], []⟩ os rs) (hn : ∀ r ∈ rs, r ≠ .never) :
    let t := s.val.inner.val.inner.raw
    (∃ used, input = used ++ t.input ∧ (StreamView.steps ⟨[], [], []⟩ os rs).taken <+: (used.foldl TlsHeard.step ⟨true, [], false, false⟩).came) ∧
    t.sess.log.flatMap TlsItem.plain ++ s.val.buf = (StreamView.steps ⟨[], [], []⟩ os rs).written ∧
    t.sock.sent ++ t.sess.out = cipher.wire 0 t.sess.log := by
  obtain ⟨h1, h2⟩ := C58_client_any tls_honest _ os h hp
  have i := (tls_keeps cipher input).client f os (s := ClientStack.new ⟨TlsStream.new cipher true input ⟨evs, fl, []⟩, [], []⟩)
    (TlsStream.Inv.new cipher true input evs fl)
  rw [h] at i
  obtain ⟨u, h3, h4⟩ := i.heard
  refine ⟨⟨u, h3, ?_⟩, ?_, ?_⟩
  · rw [h4]
    exact h1.trans ⟨_, i.plain⟩
  · rw [← h2 hn]
    rw [i.log]
  · have := i.wire
    rw [i.cipher] at this
    exact this

/-- C67 (partial: what is written only in pieces of at most 4096 bytes and while nothing fails, as in `C58_server_writes_partial`): the same for the server. -/
theorem C67_server_partial (cipher : Cipher) (input : List TlsEv) (evs : List WEv) (fl : List (Option IoError)) {f : Nat} {grow : Nat → Nat → Nat} (hg : ∀ c n, c ≤ grow c n)
    (os : List StreamOp) {rs : List StreamRes} {s : ServerStack (Traced TlsStream)}
    (h : StreamOp.runAll f os (ServerStack.new grow ⟨TlsStream.new cipher false input ⟨evs, fl, []⟩, [], []⟩) = (rs, s)) (hp : StreamView.Proper ⟨[], [], []⟩ os rs) :
    let t := s.val.inner.val.inner.raw
    (∃ used, input = used ++ t.input ∧ (StreamView.steps ⟨[], [], []⟩ os rs).taken <+: (used.foldl TlsHeard.step ⟨true, [], false, false⟩).came) ∧
    ((∀ b, .write b ∈ os → b.length ≤ 4096) → (∀ r ∈ rs, ¬ r.WriteFailed) →
      t.sess.log.flatMap TlsItem.plain ++ s.val.buf.drop s.val.pos = (StreamView.steps ⟨[], [], []⟩ os rs).written) ∧
    t.sock.sent ++ t.sess.out = cipher.wire 0 t.sess.log := by
  have h1 := C58_server_reads tls_honest hg _ os h hp
  have i := ((tls_keeps cipher input).may _).server f os (s := ServerStack.new grow ⟨TlsStream.new cipher false input ⟨evs, fl, []⟩, [], []⟩)
    (TlsStream.Inv.new cipher false input evs fl)
  have hw := fun hb hr => C58_server_writes_partial tls_honest hg _ os h hp hb hr
  rw [h] at i
  obtain ⟨u, h3, h4⟩ := i.heard
  refine ⟨⟨u, h3, ?_⟩, fun hb hr => ?_, ?_⟩
  · rw [h4]
    exact h1.trans ⟨_, i.plain⟩
  · rw [← hw hb hr]
    rw [i.log]
  · have := i.wire
    rw [i.cipher] at this
    exact this

/-! ## The end of a stream -/

/-- C67: a stream in use never seals a close_notify. When it is dropped, one is sealed after everything else, no plain text is added, and what goes to the TCP stream continues
what was there. If the handshake is over and the TCP stream takes it, all of it goes there. -/
theorem C67_drop (cipher : Cipher) (client : Bool) (input : List TlsEv) (evs : List WEv) (fl : List (Option IoError)) (os : List TlsOp) {got put : Bytes} {t : TlsStream}
    (h : TlsStream.uses os (TlsStream.new cipher client input ⟨evs, fl, []⟩) = (got, put, t)) :
    .closeNotify ∉ t.sess.log ∧ (∃ l, t.drop.sess.log = t.sess.log ++ .closeNotify :: l ∧ ∀ x ∈ l, x = .reply ∨ x = .alert) ∧ t.drop.sock.sent ++ t.drop.sess.out = cipher.wire 0 t.drop.sess.log ∧
    (∀ k es, t.sess.handshaking = false → t.sock.evs = .accept k :: es → (cipher.wire 0 (t.sess.log ++ [.closeNotify])).length ≤ t.sock.sent.length + k →
      cipher.sealed t.sess.log.length .closeNotify ≠ [] → t.drop.sock.sent = cipher.wire 0 (t.sess.log ++ [.closeNotify])) := by
  have i := (TlsStream.Inv.new cipher client input evs fl).uses os
  have u := (TlsStream.Inv.new cipher client input evs fl).uses_unclosed (by cases client <;> simp [TlsStream.new, TlsSession.new, TlsSession.send]) os
  rw [h] at i u
  dsimp only at i
  have i' := i.close
  have m := TlsStream.flush_moves { t with sess := t.sess.sendCloseNotify } fun hb => (i'.early hb).1
  refine ⟨u, i.drop_log, ?_, ?_⟩
  · have := m.wire i'.wire
    rw [m.cipher, i'.cipher] at this
    exact this
  · intro k es hh he hk hne
    have hc := i.cipher
    have hw := i.wire
    have hw' := i'.wire
    clear h i i' m u
    obtain ⟨⟨ci, ha, pl, pe, fa, ou, lo, ca⟩, input', ⟨evs', fl', sent⟩⟩ := t
    dsimp only [TlsSession.sendCloseNotify, TlsSession.send] at hc hw hw' hh he hk hne
    subst hc hh he
    rw [← hw'] at hk
    have hl : (ou ++ ci.sealed lo.length .closeNotify).length ≤ k := by simp only [List.length_append] at hk ⊢; omega
    have hne' : ou ++ ci.sealed lo.length .closeNotify ≠ [] := fun hc => hne (List.append_eq_nil_iff.1 hc).2
    rw [← hw']
    unfold TlsStream.drop TlsSession.sendCloseNotify TlsSession.send
    dsimp only
    generalize ou ++ ci.sealed lo.length .closeNotify = out at hl hne'
    obtain ⟨x, out, rfl⟩ := List.exists_cons_of_ne_nil hne'
    have hp : TlsStream.pushOut fl' (.accept k :: es) sent (x :: out) 0 = (.ok (out.length + 1), ⟨es, fl', sent ++ x :: out⟩, []) := by
      change TlsStream.pushOut fl' es (sent ++ (x :: out).take k) ((x :: out).drop k) (0 + min k (x :: out).length) = _
      rw [List.take_of_length_le hl, List.drop_eq_nil_of_le hl, TlsStream.pushOut, Nat.min_eq_right hl, List.length_cons, Nat.zero_add]
    have hcl : TlsStream.completeIo ⟨⟨ci, false, pl, pe, fa, x :: out, lo ++ [.closeNotify], ca⟩, input', ⟨.accept k :: es, fl', sent⟩⟩ =
        (.ok false, ⟨⟨ci, false, pl, pe, fa, [], lo ++ [.closeNotify], ca⟩, input', ⟨es, fl', sent ++ x :: out⟩⟩) := by
      unfold TlsStream.completeIo
      rw [TlsStream.completeLoop.eq_def]
      dsimp only [TlsStream.writeTls]
      rw [hp]
      rfl
    unfold TlsStream.flush TlsStream.completePriorIo
    dsimp only [TlsSession.wantsWrite, List.isEmpty_cons, Bool.not_false]
    simp only [Bool.false_eq_true, if_false, if_true, List.isEmpty_cons, Bool.not_false]
    rw [hcl]
    rfl

/-- C67 (false: what was written goes to the peer before the stream is dropped): if the TCP stream takes nothing at the moment, what `write` took is lost. -/
theorem C67_drop_lost_false (cipher : Cipher) (b : Bytes) (hb : b ≠ []) : ∃ t,
    TlsStream.uses [.write b] (TlsStream.new cipher false [.records true [] false false] ⟨[], [], []⟩) = ([], b, t) ∧ t.drop.sock.sent = [] := by
  obtain ⟨x, b, rfl⟩ := List.exists_cons_of_ne_nil hb
  have key : ∀ ou lo, (TlsStream.completeIo ⟨⟨cipher, false, [], false, false, ou, lo, []⟩, [], ⟨[], [], []⟩⟩).2 =
      ⟨⟨cipher, false, [], false, false, ou, lo, []⟩, [], ⟨[], [], []⟩⟩ := by
    intro ou lo
    cases ou <;> rfl
  have h1 : TlsStream.uses [.write (x :: b)] (TlsStream.new cipher false [.records true [] false false] ⟨[], [], []⟩) =
      ([], (x :: b).take (x :: b).length ++ [], (TlsStream.completeIo ⟨⟨cipher, false, [], false, false, [] ++ cipher.sealed 0 (.data (x :: b)), [.data (x :: b)], []⟩, [], ⟨[], [], []⟩⟩).2) := rfl
  rw [List.take_length, List.append_nil, key] at h1
  refine ⟨_, h1, ?_⟩
  unfold TlsStream.drop TlsStream.flush TlsStream.completePriorIo
  dsimp only [TlsSession.sendCloseNotify, TlsSession.send]
  generalize [] ++ cipher.sealed _ _ ++ cipher.sealed _ _ = ou
  cases ou <;> rfl

/-- A stream after the handshake, on which the given things come. -/
def openTls (input : List TlsEv) : TlsStream := ⟨{ TlsSession.new ⟨fun _ _ => []⟩ false with handshaking := false }, input, ⟨[], [], []⟩⟩

/-- C67 (false: what the client takes for a whole response was sent as a whole): a response without length comes, and somebody who can not read or change
what is sent ends the TCP stream in the middle of it: no close_notify comes. The client returns the part that came. -/
theorem C67_truncated_false (prof : Profile) : ∃ t : TlsStream, t.Quiet ∧ t.sess.peerEof = false ∧ (∀ a b c d, .records a b c d ∈ t.input → c = false) ∧
    ∃ (r : Response) (q : Request), (ClientConn.send prof .new [CreateEnd.ok (S := RawStream) { input := t.script, output := [.accept 100] }] q).1 = .ok r ∧ r.body = b!"hel" := by
  refine ⟨openTls [.records false b!"HTTP/1.1 200 OK\r\n\r\nhel" false false, .eof], ⟨rfl, rfl, rfl, ?_⟩, rfl, ?_, ⟨.ok, [], b!"hel"⟩, ⟨b!"/", .get, [], []⟩, ?_, rfl⟩
  · intro e he
    simp only [openTls, List.mem_cons, List.not_mem_nil, or_false] at he
    rcases he with rfl | rfl
    · exact ⟨nofun, fun a b c d h => by cases h; rfl⟩
    · exact ⟨nofun, nofun⟩
  · intro a b c d he
    simp only [openTls, List.mem_cons, List.not_mem_nil, or_false, reduceCtorEq] at he
    cases he
    rfl
  · rcases prof with ⟨_ | _⟩ <;> decide +kernel

/-- C67 (false: a response that the server ends by closing the stream can be read): the whole response comes, the server closes the session with a close_notify and then the
TCP stream, as it should. The client sends the request once more on a new stream, and if the same happens there, fails. -/
theorem C67_closed_false (prof : Profile) : ∃ t : TlsStream, t.Quiet ∧ ∃ (q : Request) (c : ClientConn) (f : List CreateEnd),
    t.input = [.records false (responseBytes ⟨.ok, [], b!"hello"⟩) false false, .records false [] true false, .eof] ∧
    ClientConn.send prof .new [CreateEnd.ok (S := RawStream) { input := t.script, output := [.accept 100] }, CreateEnd.ok { input := t.script, output := [.accept 100] }] q =
      (.err (.reading .connectionAborted), c, f) ∧ c.all.map (fun s => s.writer.sock.sent) = [requestBytes q, requestBytes q] := by
  refine ⟨openTls [.records false (responseBytes ⟨.ok, [], b!"hello"⟩) false false, .records false [] true false, .eof], ⟨rfl, rfl, rfl, ?_⟩, ⟨b!"/", .get, [], []⟩, _, _, rfl,
    Prod.ext ?_ rfl, ?_⟩
  · intro e he
    simp only [openTls, List.mem_cons, List.not_mem_nil, or_false] at he
    rcases he with rfl | rfl | rfl
    · exact ⟨nofun, fun a b c d h => by cases h; rfl⟩
    · exact ⟨nofun, fun a b c d h => by cases h; rfl⟩
    · exact ⟨nofun, nofun⟩
  · rcases prof with ⟨_ | _⟩ <;> decide +kernel
  · rcases prof with ⟨_ | _⟩ <;> decide +kernel

/-! ## Examples -/

/-- A toy cipher: a byte for the kind of record, and the text. -/
def toyCipher : Cipher := ⟨fun n x => match x with
  | .data b => n.toUInt8 :: 1 :: b
  | .reply => [n.toUInt8, 2]
  | .alert => [n.toUInt8, 3]
  | .closeNotify => [n.toUInt8, 4]⟩

theorem tls_uses_of {os : List TlsOp} {t : TlsStream} {a b c : Bytes} (h1 : (TlsStream.uses os t).1 = a) (h2 : (TlsStream.uses os t).2.1 = b)
    (h3 : (TlsStream.uses os t).2.2.sock.sent = c) : ∃ t', TlsStream.uses os t = (a, b, t') ∧ t'.sock.sent = c :=
  ⟨_, Prod.ext h1 (Prod.ext h2 rfl), h3⟩

/-- A client: hello, the answer with the end of the handshake, a request, a response. -/
example : ∃ t, TlsStream.uses [.write [65], .write [66, 67], .read 9, .read 9] (TlsStream.new toyCipher true
    [.records true [] false true, .records false [7, 8] false false] ⟨[.accept 50, .accept 50, .accept 50, .accept 50], [], []⟩) = ([7, 8], [65, 66, 67], t) ∧
    t.sock.sent = [0, 2, 1, 2, 2, 1, 65, 3, 1, 66, 67] :=
  tls_uses_of (by decide +kernel) (by decide +kernel) (by decide +kernel)

/-- The same stream dropped. -/
example : (TlsStream.uses [.write [65]] (TlsStream.new toyCipher true [.records true [] false true] ⟨[.accept 50, .accept 50, .accept 50, .accept 50], [], []⟩)).2.2.drop.sock.sent =
    [0, 2, 1, 2, 2, 1, 65, 3, 4] := by decide +kernel

/-- Reads of a quiet stream. -/
example : (openTls [.records false [7, 8] false false, .records false [] true false, .eof]).reads [1, 9, 9] = [.ok [7], .ok [8], .error .connectionAborted] := rfl

end Verif
