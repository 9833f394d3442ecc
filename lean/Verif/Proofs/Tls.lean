import Verif.Spec.Tls

/-!
What the operations of a TLS stream do to it.
-/

namespace Verif

/-- What the stream knows of its peer. -/
def TlsStream.heard (t : TlsStream) : TlsHeard := ⟨t.sess.handshaking, t.sess.came, t.sess.peerEof, t.sess.failed⟩

theorem Cipher.wire_append (c : Cipher) (i : Nat) (a b : List TlsItem) : c.wire i (a ++ b) = c.wire i a ++ c.wire (i + a.length) b := by
  induction a generalizing i with
  | nil => simp [Cipher.wire]
  | cons x a ih =>
    rw [List.cons_append, Cipher.wire, Cipher.wire, ih, List.append_assoc, List.length_cons]
    congr 3; omega

/-- What a session has to say of itself, but for the close_notify. -/
def TlsItem.Own : TlsItem → Prop
  | .reply | .alert => True
  | _ => False

theorem TlsItem.Own.plain {x : TlsItem} (h : x.Own) : x.plain = [] := by cases x <;> first | rfl | cases h

theorem TlsItem.Own.cases {x : TlsItem} (h : x.Own) : x = .reply ∨ x = .alert := by cases x <;> first | exact .inl rfl | exact .inr rfl | cases h

theorem TlsItem.Own.ne {x : TlsItem} (h : x.Own) : x ≠ .closeNotify := by rintro rfl; cases h

/-- What input and output in the background do. -/
structure TlsStream.Moves (t t' : TlsStream) : Prop where
  cipher : t'.sess.cipher = t.sess.cipher
  log : ∃ l, t'.sess.log = t.sess.log ++ l ∧ ∀ x ∈ l, x.Own
  heard : ∃ used, t.input = used ++ t'.input ∧ used.foldl TlsHeard.step t.heard = t'.heard
  plain : ∃ x, t'.sess.came = t.sess.came ++ x ∧ t'.sess.plain = t.sess.plain ++ x
  wire : t.sock.sent ++ t.sess.out = t.sess.cipher.wire 0 t.sess.log → t'.sock.sent ++ t'.sess.out = t'.sess.cipher.wire 0 t'.sess.log
  early : (t.sess.handshaking = true → t.sess.plain = []) → t'.sess.handshaking = true → t'.sess.plain = []

namespace TlsStream

theorem Moves.refl (t : TlsStream) : Moves t t := ⟨rfl, ⟨[], by simp⟩, ⟨[], rfl, rfl⟩, ⟨[], by simp⟩, id, id⟩

theorem Moves.trans {a b c : TlsStream} (h : Moves a b) (g : Moves b c) : Moves a c := by
  obtain ⟨l, h1, h2⟩ := h.log
  obtain ⟨l', g1, g2⟩ := g.log
  obtain ⟨u, h3, h4⟩ := h.heard
  obtain ⟨u', g3, g4⟩ := g.heard
  obtain ⟨x, h5, h6⟩ := h.plain
  obtain ⟨x', g5, g6⟩ := g.plain
  refine ⟨g.cipher.trans h.cipher, ⟨l ++ l', by rw [g1, h1, List.append_assoc], ?_⟩, ⟨u ++ u', by rw [h3, g3, List.append_assoc], by rw [List.foldl_append, h4, g4]⟩,
    ⟨x ++ x', by rw [g5, h5, List.append_assoc], by rw [g6, h6, List.append_assoc]⟩, fun w => g.wire (h.wire w), fun e => g.early (h.early e)⟩
  intro y hy
  rcases List.mem_append.1 hy with hy | hy
  · exact h2 y hy
  · exact g2 y hy

theorem pushOut_spec (fl : List (Option IoError)) (evs : List WEv) (sent b : Bytes) (n : Nat) :
    (pushOut fl evs sent b n).2.1.sent ++ (pushOut fl evs sent b n).2.2 = sent ++ b ∧
    ∀ k, (pushOut fl evs sent b n).1 = .ok k → (pushOut fl evs sent b n).2.2 = [] ∧ k = n + b.length := by
  induction evs generalizing sent b n with
  | nil => cases b <;> simp [pushOut]
  | cons ev evs ih =>
    cases b with
    | nil => simp [pushOut]
    | cons x b =>
      cases ev with
      | err e => simp [pushOut]
      | accept m =>
        rw [pushOut]
        · obtain ⟨h1, h2⟩ := ih (sent ++ (x :: b).take m) ((x :: b).drop m) (n + min m (x :: b).length)
          refine ⟨by rw [h1, List.append_assoc, List.take_append_drop], fun k hk => ?_⟩
          obtain ⟨h3, h4⟩ := h2 k hk
          refine ⟨h3, ?_⟩
          rw [h4, List.length_drop]
          omega
        · simp

theorem writeTls_moves (t : TlsStream) : Moves t t.writeTls.2 ∧ t.writeTls.2.input = t.input ∧ t.writeTls.2.sess.plain = t.sess.plain ∧ t.writeTls.2.heard = t.heard ∧
    ∀ n, t.writeTls.1 = .ok n → t.writeTls.2.sess.out = [] ∧ n = t.sess.out.length := by
  obtain ⟨h1, h2⟩ := pushOut_spec t.sock.flushes t.sock.evs t.sock.sent t.sess.out 0
  unfold writeTls
  generalize pushOut t.sock.flushes t.sock.evs t.sock.sent t.sess.out 0 = x at h1 h2
  obtain ⟨x, sock, out⟩ := x
  dsimp only at h1 h2 ⊢
  refine ⟨⟨rfl, ⟨[], by simp⟩, ⟨[], rfl, rfl⟩, ⟨[], by simp⟩, fun h => by dsimp only; rw [h1]; exact h, id⟩, rfl, rfl, rfl, fun n hn => ?_⟩
  obtain ⟨h3, h4⟩ := h2 n hn
  exact ⟨h3, by omega⟩

theorem lastGasp_moves (t : TlsStream) : Moves t t.lastGasp := by
  unfold lastGasp Sock.write
  cases he : t.sock.evs with
  | nil => exact ⟨rfl, ⟨[], by simp⟩, ⟨[], rfl, rfl⟩, ⟨[], by simp⟩, id, id⟩
  | cons e es =>
    cases e with
    | err e => exact ⟨rfl, ⟨[], by simp⟩, ⟨[], rfl, rfl⟩, ⟨[], by simp⟩, id, id⟩
    | accept n =>
      refine ⟨rfl, ⟨[], by simp⟩, ⟨[], rfl, rfl⟩, ⟨[], by simp⟩, fun h => ?_, id⟩
      dsimp only
      rw [← h, List.append_assoc]
      congr 1
      rcases Nat.le_total n t.sess.out.length with hn | hn
      · rw [Nat.min_eq_left hn, List.take_append_drop]
      · rw [Nat.min_eq_right hn, List.take_of_length_le hn, List.drop_length, List.append_nil]

theorem send_wire {t : TlsStream} (x : TlsItem) (h : t.sock.sent ++ t.sess.out = t.sess.cipher.wire 0 t.sess.log) :
    t.sock.sent ++ (t.sess.send x).out = t.sess.cipher.wire 0 (t.sess.send x).log := by
  unfold TlsSession.send
  dsimp only
  rw [Cipher.wire_append, ← List.append_assoc, h, Nat.zero_add, Cipher.wire, Cipher.wire, List.append_nil]

theorem refuse_moves {t t₀ : TlsStream} (h : Moves t₀ t) {u : List TlsEv} (hi : t₀.input = u ++ t.input)
    (hh : u.foldl TlsHeard.step t₀.heard = { t.heard with failed := true }) : Moves t₀ t.refuse.2 ∧ ∃ e, t.refuse.1 = .error e := by
  refine ⟨?_, _, rfl⟩
  unfold refuse
  dsimp only
  obtain ⟨l, h1, h2⟩ := h.log
  obtain ⟨x, h5, h6⟩ := h.plain
  by_cases hf : t.sess.failed
  · rw [if_pos hf]
    exact h.trans (lastGasp_moves _)
  · rw [if_neg hf]
    have : Moves t₀ { t with sess := { t.sess with failed := true }.send .alert } := by
      refine ⟨h.cipher, ⟨l ++ [.alert], by rw [← List.append_assoc, ← h1]; rfl, ?_⟩, ⟨u, hi, hh⟩, ⟨x, h5, h6⟩,
        fun w => send_wire (t := { t with sess := { t.sess with failed := true } }) .alert (h.wire w), h.early⟩
      intro y hy
      rcases List.mem_append.1 hy with hy | hy
      · exact h2 y hy
      · rw [List.mem_singleton.1 hy]; trivial
    exact this.trans (lastGasp_moves _)

theorem take_moves {t t₀ : TlsStream} (h : Moves t₀ t) {u : List TlsEv} {es : List TlsEv} {ends : Bool} {p : Bytes} {c r : Bool}
    (hi : t₀.input = u ++ .records ends p c r :: es) (hh : u.foldl TlsHeard.step t₀.heard = t.heard) (hf : t.sess.failed = false) :
    Moves t₀ ⟨t.sess.take ends p c r, es, t.sock⟩ := by
  obtain ⟨l, h1, h2⟩ := h.log
  obtain ⟨x, h5, h6⟩ := h.plain
  refine ⟨?_, ⟨if r then l ++ [.reply] else l, ?_, ?_⟩, ⟨u ++ [.records ends p c r], by rw [hi, List.append_assoc]; rfl, ?_⟩,
    ⟨if t.sess.handshaking && !ends then x else x ++ p, ?_, ?_⟩, ?_, ?_⟩
  · unfold TlsSession.take; dsimp only; split <;> exact h.cipher
  · unfold TlsSession.take
    dsimp only
    split
    · rw [← List.append_assoc, ← h1]; rfl
    · exact h1
  · intro y hy
    split at hy
    · rcases List.mem_append.1 hy with hy | hy
      · exact h2 y hy
      · rw [List.mem_singleton.1 hy]; trivial
    · exact h2 y hy
  · rw [List.foldl_append, hh, List.foldl_cons, List.foldl_nil]
    unfold TlsHeard.step TlsStream.heard TlsSession.take
    dsimp only
    rw [hf]
    cases r <;> simp [TlsSession.send]
  · unfold TlsSession.take
    dsimp only
    rw [h5]
    cases r <;> simp only [TlsSession.send, Bool.false_eq_true, if_true, if_false] <;> split <;> simp
  · unfold TlsSession.take
    dsimp only
    rw [h6]
    cases r <;> simp only [TlsSession.send, Bool.false_eq_true, if_true, if_false] <;> split <;> simp
  · intro w
    have := h.wire w
    unfold TlsSession.take
    dsimp only
    split
    · exact send_wire (t := ⟨{ t.sess with handshaking := _, plain := _, came := _, peerEof := _ }, t.input, t.sock⟩) .reply this
    · exact this
  · intro e
    have := h.early e
    unfold TlsSession.take
    dsimp only
    cases r <;> simp only [TlsSession.send, Bool.false_eq_true, if_true, if_false] <;> intro hb <;> rw [if_pos hb] <;> exact this (by simp at hb; exact hb.1)

/-- What `complete_io` does. -/
theorem completeLoop_moves (ud : Bool) (input : List TlsEv) (sess : TlsSession) (sock : Sock) (wrote didRead : Bool) :
    Moves ⟨sess, input, sock⟩ (completeLoop ud input sess sock wrote didRead).2 ∧
    (∀ r, (completeLoop ud input sess sock wrote didRead).1 = .ok r → ud = true → (sess.handshaking = true → sess.plain = []) →
      (completeLoop ud input sess sock wrote didRead).2.sess.handshaking = false) := by
  have last : ∀ {didRead : Bool} {t₀ t : TlsStream}, Moves t₀ t → t.sess.wantsRead = false →
      Moves t₀ (if t.sess.failed then t.refuse else (.ok didRead, t)).2 ∧
      (∀ r, (if t.sess.failed then t.refuse else (.ok didRead, t)).1 = .ok r → ud = true → (t₀.sess.handshaking = true → t₀.sess.plain = []) →
        (if t.sess.failed then t.refuse else (.ok didRead, t)).2.sess.handshaking = false) := by
    intro didRead t₀ t h hw
    split
    · rename_i hf
      obtain ⟨u, h1, h2⟩ := h.heard
      obtain ⟨h3, e, h4⟩ := refuse_moves h h1 (by rw [h2]; unfold heard; rw [hf])
      exact ⟨h3, fun r hr => by rw [h4] at hr; cases hr⟩
    · refine ⟨h, fun r _ _ he => ?_⟩
      cases hb : t.sess.handshaking with
      | false => rfl
      | true =>
        have := h.early he hb
        unfold TlsSession.wantsRead at hw
        rw [this] at hw
        cases hw
  induction input generalizing sess sock wrote didRead with
  | nil =>
    rw [completeLoop]
    obtain ⟨h1, h2, h3, h4, h5⟩ := writeTls_moves ⟨sess, [], sock⟩
    generalize writeTls ⟨sess, [], sock⟩ = x at *
    obtain ⟨x, t⟩ := x
    cases x with
    | error e => exact ⟨h1, fun r hr => by cases hr⟩
    | ok n =>
      dsimp only at *
      split
      · rename_i hb
        refine ⟨h1, fun r _ hu => by rw [hu] at hb; simp at hb⟩
      · split
        · exact ⟨h1, fun r hr => by cases hr⟩
        · rename_i hw
          exact last h1 (by simpa using hw)
  | cons e es ih =>
    rw [completeLoop.eq_def]
    dsimp only
    obtain ⟨h1, h2, h3, h4, h5⟩ := writeTls_moves ⟨sess, e :: es, sock⟩
    generalize writeTls ⟨sess, e :: es, sock⟩ = x at *
    obtain ⟨x, t⟩ := x
    cases x with
    | error e => exact ⟨h1, fun r hr => by cases hr⟩
    | ok n =>
      dsimp only at h1 h2 h3 h4 h5 ⊢
      split
      · rename_i hb
        refine ⟨h1, fun r _ hu => by rw [hu] at hb; simp at hb⟩
      · split
        · have hskip : ∀ {e' : TlsEv}, TlsHeard.step t.heard e' = t.heard → e' = e → Moves ⟨sess, e :: es, sock⟩ { t with input := es } := by
            intro e' hs he
            subst he
            refine ⟨h1.cipher, h1.log, ⟨[e'], rfl, ?_⟩, h1.plain, h1.wire, h1.early⟩
            rw [List.foldl_cons, List.foldl_nil, ← h4]; exact hs
          have href : (TlsHeard.step t.heard e = { t.heard with failed := true }) →
              Moves ⟨sess, e :: es, sock⟩ (refuse { t with input := es }).2 ∧ ∃ e, (refuse { t with input := es }).1 = .error e := by
            intro hs
            obtain ⟨t1, t2, t3⟩ := t
            dsimp only at h2
            subst h2
            refine ⟨?_, _, rfl⟩
            obtain ⟨l, g1, g2⟩ := h1.log
            have : Moves ⟨sess, e :: es, sock⟩ ⟨if t1.failed then t1 else { t1 with failed := true }.send .alert, es, t3⟩ := by
              split
              · rename_i hf
                refine ⟨h1.cipher, h1.log, ⟨[e], rfl, ?_⟩, h1.plain, h1.wire, h1.early⟩
                rw [List.foldl_cons, List.foldl_nil, ← h4]
                refine hs.trans ?_
                unfold heard; rw [hf]
              · refine ⟨h1.cipher, ⟨l ++ [.alert], by rw [← List.append_assoc, ← g1]; rfl, ?_⟩, ⟨[e], rfl, ?_⟩, h1.plain,
                  fun w => send_wire (t := ⟨{ t1 with failed := true }, es, t3⟩) .alert (h1.wire w), h1.early⟩
                · intro y hy
                  rcases List.mem_append.1 hy with hy | hy
                  · exact g2 y hy
                  · rw [List.mem_singleton.1 hy]; trivial
                · rw [List.foldl_cons, List.foldl_nil, ← h4]
                  exact hs
            exact this.trans (lastGasp_moves _)
          cases e with
          | err e => exact ⟨hskip rfl rfl, fun r hr => by cases hr⟩
          | eof =>
            dsimp only
            split
            · rename_i hf
              obtain ⟨g1, e, g2⟩ := href (by unfold heard TlsHeard.step; rw [hf])
              exact ⟨g1, fun r hr => by rw [g2] at hr; cases hr⟩
            · split
              · exact ⟨hskip rfl rfl, fun r hr => by cases hr⟩
              · rename_i hb
                refine ⟨hskip rfl rfl, fun r _ hu _ => ?_⟩
                rw [hu] at hb
                simpa using hb
          | bad =>
            obtain ⟨g1, e, g2⟩ := href rfl
            exact ⟨g1, fun r hr => by rw [g2] at hr; cases hr⟩
          | records ends p c r =>
            dsimp only
            split
            · rename_i hf
              obtain ⟨g1, e, g2⟩ := href (by unfold heard TlsHeard.step; dsimp only; rw [if_pos hf, hf])
              exact ⟨g1, fun r hr => by rw [g2] at hr; cases hr⟩
            · rename_i hf
              have g1 := take_moves (es := es) (ends := ends) (p := p) (c := c) (r := r) h1 (u := []) rfl (by rw [h4]; rfl) (by simpa using hf)
              split
              · rename_i hb
                obtain ⟨g2, g3⟩ := ih (t.sess.take ends p c r) t.sock (wrote || decide (0 < n)) true
                exact ⟨g1.trans g2, fun r' hr hu he => g3 r' hr hu (g1.early he)⟩
              · rename_i hb
                refine ⟨g1, fun r' _ hu _ => ?_⟩
                rw [hu] at hb
                simpa using hb
        · rename_i hw
          exact last h1 (by simpa using hw)

theorem completeIo_moves (t : TlsStream) : Moves t t.completeIo.2 ∧
    (∀ r, t.completeIo.1 = .ok r → t.sess.handshaking = true → (t.sess.handshaking = true → t.sess.plain = []) → t.completeIo.2.sess.handshaking = false) :=
  completeLoop_moves t.sess.handshaking t.input t.sess t.sock false false

theorem Moves.handshaking {t t' : TlsStream} (h : Moves t t') (ht : t.sess.handshaking = false) : t'.sess.handshaking = false := by
  obtain ⟨u, -, h2⟩ := h.heard
  have : ∀ (u : List TlsEv) (h : TlsHeard), h.handshaking = false → (u.foldl TlsHeard.step h).handshaking = false := by
    intro u
    induction u with
    | nil => exact fun h hh => hh
    | cons e u ih =>
      intro h hh
      refine ih _ ?_
      cases e with
      | records => unfold TlsHeard.step; dsimp only; split <;> simp [hh]
      | _ => exact hh
  have := this u t.heard ht
  rw [h2] at this
  exact this

theorem completePriorIo_moves (t : TlsStream) (he : t.sess.handshaking = true → t.sess.plain = []) : Moves t t.completePriorIo.2 ∧
    (t.completePriorIo.1 = .ok () → t.completePriorIo.2.sess.handshaking = false) := by
  unfold completePriorIo
  have h1 : Moves t (if t.sess.handshaking then t.completeIo else (.ok false, t)).2 ∧
      ∀ r, (if t.sess.handshaking then t.completeIo else (.ok false, t)).1 = .ok r →
        (if t.sess.handshaking then t.completeIo else (.ok false, t)).2.sess.handshaking = false := by
    obtain ⟨h1, h2⟩ := completeIo_moves t
    split
    · rename_i hb
      exact ⟨h1, fun r hr => h2 r hr hb he⟩
    · rename_i hb
      exact ⟨.refl t, fun r _ => by simpa using hb⟩
  generalize (if t.sess.handshaking then t.completeIo else (.ok false, t)) = x at h1
  obtain ⟨x, t'⟩ := x
  obtain ⟨h1, h2⟩ := h1
  cases x with
  | error e => exact ⟨h1, fun h => by cases h⟩
  | ok r =>
    have h2 := h2 r rfl
    dsimp only at h1 h2 ⊢
    have h3 : Moves t' (if t'.sess.wantsWrite then t'.completeIo else (.ok false, t')).2 := by
      split
      · exact (completeIo_moves t').1
      · exact .refl t'
    generalize (if t'.sess.wantsWrite then t'.completeIo else (.ok false, t')) = y at h3
    obtain ⟨y, t''⟩ := y
    cases y with
    | error e => exact ⟨h1.trans h3, fun h => by cases h⟩
    | ok r => exact ⟨h1.trans h3, fun _ => h3.handshaking h2⟩

theorem readLoop_moves (f : Nat) (t : TlsStream) : Moves t (readLoop f t).2 := by
  induction f generalizing t with
  | zero => exact .refl t
  | succ f ih =>
    unfold readLoop
    split
    · have := (completeIo_moves t).1
      generalize t.completeIo = x at this
      obtain ⟨x, t'⟩ := x
      cases x with
      | error e => exact this
      | ok r =>
        cases r with
        | true => exact this.trans (ih t')
        | false => exact this
    · exact .refl t

/-- What holds of a stream at all times; `got` was delivered, and `input` is what the TCP stream had to offer in the beginning. -/
structure Inv (cipher : Cipher) (input : List TlsEv) (got put : Bytes) (t : TlsStream) : Prop where
  cipher : t.sess.cipher = cipher
  log : t.sess.log.flatMap TlsItem.plain = put
  heard : ∃ used, input = used ++ t.input ∧ used.foldl TlsHeard.step ⟨true, [], false, false⟩ = t.heard
  plain : got ++ t.sess.plain = t.sess.came
  wire : t.sock.sent ++ t.sess.out = t.sess.cipher.wire 0 t.sess.log
  early : t.sess.handshaking = true → t.sess.plain = [] ∧ got = [] ∧ put = []

theorem Inv.moves {cipher : Cipher} {input : List TlsEv} {got put : Bytes} {t t' : TlsStream} (h : Inv cipher input got put t) (m : Moves t t') :
    Inv cipher input got put t' := by
  obtain ⟨u, h1, h2⟩ := h.heard
  obtain ⟨u', h3, h4⟩ := m.heard
  obtain ⟨l, h5, h6⟩ := m.log
  obtain ⟨x, h7, h8⟩ := m.plain
  refine ⟨m.cipher.trans h.cipher, ?_, ⟨u ++ u', by rw [h1, h3, List.append_assoc], by rw [List.foldl_append, h2, h4]⟩, by rw [h8, h7, ← h.plain, List.append_assoc],
    m.wire h.wire, ?_⟩
  · rw [h5, List.flatMap_append, h.log, List.flatMap_eq_nil_iff.2 fun x hx => (h6 x hx).plain, List.append_nil]
  · intro hb
    cases hh : t.sess.handshaking with
    | false => rw [m.handshaking hh] at hb; cases hb
    | true => exact ⟨m.early (fun h' => (h.early h').1) hb, (h.early hh).2⟩

theorem Inv.new (cipher : Cipher) (client : Bool) (input : List TlsEv) (evs : List WEv) (fl : List (Option IoError)) :
    Inv cipher input [] [] (TlsStream.new cipher client input ⟨evs, fl, []⟩) := by
  cases client
  · exact ⟨rfl, rfl, ⟨[], rfl, rfl⟩, rfl, rfl, fun _ => ⟨rfl, rfl, rfl⟩⟩
  · exact ⟨rfl, rfl, ⟨[], rfl, rfl⟩, rfl, by simp [TlsStream.new, TlsSession.new, TlsSession.send, Cipher.wire], fun _ => ⟨rfl, rfl, rfl⟩⟩

section

variable {cipher : Cipher} {input : List TlsEv} {got put : Bytes} {t : TlsStream}

theorem Inv.read (h : Inv cipher input got put t) (n : Nat) :
    match t.read n with
    | (.ok b, t') => Inv cipher input (got ++ b) put t'
    | (.error _, t') => Inv cipher input got put t' := by
  unfold TlsStream.read
  obtain ⟨h1, h2⟩ := completePriorIo_moves t fun hb => (h.early hb).1
  generalize t.completePriorIo = x at h1 h2
  obtain ⟨x, t₁⟩ := x
  cases x with
  | error e => exact h.moves h1
  | ok u =>
    have i1 := h.moves h1
    have h3 := readLoop_moves (t₁.input.length + 1) t₁
    dsimp only at h1 h2 ⊢
    generalize readLoop (t₁.input.length + 1) t₁ = y at h3
    obtain ⟨y, t₂⟩ := y
    cases y with
    | error e => exact i1.moves h3
    | ok u =>
      have i2 := i1.moves h3
      have hd := h3.handshaking (h2 rfl)
      dsimp only at hd i2 ⊢
      unfold TlsSession.read
      by_cases hc : t₂.sess.plain = [] ∧ t₂.sess.peerEof
      · rw [if_pos hc]
        exact ⟨i2.cipher, i2.log, i2.heard, i2.plain, i2.wire, i2.early⟩
      · rw [if_neg hc]
        refine ⟨i2.cipher, i2.log, i2.heard, ?_, i2.wire, fun hb => ?_⟩
        · dsimp only
          rw [List.append_assoc, List.take_append_drop]
          exact i2.plain
        · dsimp only at hb
          rw [hd] at hb
          cases hb

theorem Inv.write (h : Inv cipher input got put t) (b : Bytes) :
    match t.write b with
    | (.ok n, t') => n = b.length ∧ Inv cipher input got (put ++ b) t' ∧ t'.sess.handshaking = false
    | (.error _, t') => Inv cipher input got put t' := by
  unfold TlsStream.write
  obtain ⟨h1, h2⟩ := completePriorIo_moves t fun hb => (h.early hb).1
  generalize t.completePriorIo = x at h1 h2
  obtain ⟨x, t₁⟩ := x
  cases x with
  | error e => exact h.moves h1
  | ok u =>
    have i1 := h.moves h1
    have hd : t₁.sess.handshaking = false := h2 rfl
    dsimp only at h1 i1 ⊢
    have i2 : Inv cipher input got (put ++ b) { t₁ with sess := t₁.sess.write b } := by
      unfold TlsSession.write
      split
      · rename_i hb
        rw [hb, List.append_nil]
        exact i1
      · refine ⟨i1.cipher, ?_, i1.heard, i1.plain, send_wire _ i1.wire, fun hb => ?_⟩
        · simp only [TlsSession.send, List.flatMap_append, List.flatMap_cons, List.flatMap_nil, TlsItem.plain, List.append_nil]
          rw [i1.log]
        · rw [show ({ t₁ with sess := t₁.sess.send (.data b) } : TlsStream).sess.handshaking = t₁.sess.handshaking from rfl, hd] at hb
          cases hb
    have m := (completeIo_moves { t₁ with sess := t₁.sess.write b }).1
    refine ⟨rfl, i2.moves m, m.handshaking ?_⟩
    unfold TlsSession.write
    dsimp only
    split <;> exact hd

theorem flush_moves (t : TlsStream) (he : t.sess.handshaking = true → t.sess.plain = []) : Moves t t.flush.2 := by
  unfold TlsStream.flush
  obtain ⟨h1, h2⟩ := completePriorIo_moves t he
  generalize t.completePriorIo = x at h1 h2
  obtain ⟨x, t₁⟩ := x
  cases x with
  | error e => exact h1
  | ok u =>
    dsimp only at h1 ⊢
    split
    · have h3 := (completeIo_moves t₁).1
      generalize t₁.completeIo = y at h3
      obtain ⟨y, t₂⟩ := y
      cases y <;> exact h1.trans h3
    · exact h1

theorem Moves.unclosed {t t' : TlsStream} (h : Moves t t') (hc : .closeNotify ∉ t.sess.log) : .closeNotify ∉ t'.sess.log := by
  obtain ⟨l, h1, h2⟩ := h.log
  rw [h1]
  intro hm
  rcases List.mem_append.1 hm with hm | hm
  · exact hc hm
  · exact (h2 _ hm).ne rfl

theorem read_unclosed (he : t.sess.handshaking = true → t.sess.plain = []) (hc : .closeNotify ∉ t.sess.log) (n : Nat) : .closeNotify ∉ (t.read n).2.sess.log := by
  unfold TlsStream.read
  have h1 := (completePriorIo_moves t he).1.unclosed hc
  generalize t.completePriorIo = x at h1
  obtain ⟨x, t₁⟩ := x
  cases x with
  | error e => exact h1
  | ok u =>
    have h3 := (readLoop_moves (t₁.input.length + 1) t₁).unclosed h1
    dsimp only
    generalize readLoop (t₁.input.length + 1) t₁ = y at h3
    obtain ⟨y, t₂⟩ := y
    cases y with
    | error e => exact h3
    | ok u =>
      dsimp only
      unfold TlsSession.read
      split <;> exact h3

theorem write_unclosed (he : t.sess.handshaking = true → t.sess.plain = []) (hc : .closeNotify ∉ t.sess.log) (b : Bytes) : .closeNotify ∉ (t.write b).2.sess.log := by
  unfold TlsStream.write
  have h1 := (completePriorIo_moves t he).1.unclosed hc
  generalize t.completePriorIo = x at h1
  obtain ⟨x, t₁⟩ := x
  cases x with
  | error e => exact h1
  | ok u =>
    refine (completeIo_moves { t₁ with sess := t₁.sess.write b }).1.unclosed ?_
    unfold TlsSession.write
    dsimp only at h1 ⊢
    split
    · exact h1
    · simpa [TlsSession.send] using h1

theorem Inv.uses (h : Inv cipher input got put t) (os : List TlsOp) :
    Inv cipher input (got ++ (TlsStream.uses os t).1) (put ++ (TlsStream.uses os t).2.1) (TlsStream.uses os t).2.2 := by
  induction os generalizing t got put with
  | nil => simpa [TlsStream.uses] using h
  | cons o os ih =>
    cases o with
    | read n =>
      have := h.read n
      unfold TlsStream.uses
      generalize t.read n = x at this
      obtain ⟨x, t'⟩ := x
      cases x with
      | error e => exact ih this
      | ok b => have := ih this; rw [List.append_assoc] at this; exact this
    | write b =>
      have := h.write b
      unfold TlsStream.uses
      generalize t.write b = x at this
      obtain ⟨x, t'⟩ := x
      cases x with
      | error e => exact ih this
      | ok n =>
        obtain ⟨rfl, h1, -⟩ := this
        have := ih h1
        rw [List.append_assoc] at this
        dsimp only
        rw [List.take_length]
        exact this
    | flush => exact ih (h.moves (flush_moves t fun hb => (h.early hb).1))

end

theorem Inv.uses_unclosed {cipher : Cipher} {input : List TlsEv} {got put : Bytes} {t : TlsStream} (h : Inv cipher input got put t) (hc : .closeNotify ∉ t.sess.log) (os : List TlsOp) : .closeNotify ∉ (TlsStream.uses os t).2.2.sess.log := by
  induction os generalizing t got put with
  | nil => exact hc
  | cons o os ih =>
    have he : t.sess.handshaking = true → t.sess.plain = [] := fun hb => (h.early hb).1
    cases o with
    | read n =>
      have h1 := h.read n
      have h2 := read_unclosed he hc n
      unfold TlsStream.uses
      generalize t.read n = x at h1 h2
      obtain ⟨x, t'⟩ := x
      cases x <;> exact ih h1 h2
    | write b =>
      have h1 := h.write b
      have h2 := write_unclosed he hc b
      unfold TlsStream.uses
      generalize t.write b = x at h1 h2
      obtain ⟨x, t'⟩ := x
      cases x with
      | error e => exact ih h1 h2
      | ok n => exact ih h1.2.1 h2
    | flush => exact ih (h.moves (flush_moves t he)) ((flush_moves t he).unclosed hc)

end TlsStream

end Verif
