import Verif.Proofs.TlsCalm

/-!
A TLS stream whose peer is orderly, over a TCP stream that at worst has nothing to read or no room to write, does nothing worse itself.
-/

namespace Verif

namespace TlsStream

/-- The peer is orderly, and the TCP stream at worst has no room. -/
structure Orderly (t : TlsStream) : Prop where
  good : t.sess.failed = false
  here : t.sess.peerEof = false
  input : TlsEv.Orderly t.sess.handshaking t.input
  evs : ∀ e, .err e ∈ t.sock.evs → e = .wouldBlock
  early : t.sess.handshaking = true → t.sess.plain = []

/-- A result that is at worst `WouldBlock`, and an orderly stream. -/
def Orderlies {α : Type} (x : Except IoError α × TlsStream) : Prop := x.2.Orderly ∧ ∀ e, x.1 = .error e → e = .wouldBlock

theorem Orderlies.cast {α β : Type} {e : IoError} {t : TlsStream} (h : Orderlies ((.error e : Except IoError α), t)) : Orderlies ((.error e : Except IoError β), t) :=
  ⟨h.1, fun e' he => by cases he; exact h.2 e rfl⟩

theorem Orderlies.ok {α : Type} {a : α} {t : TlsStream} (h : t.Orderly) : Orderlies ((.ok a : Except IoError α), t) := ⟨h, nofun⟩

theorem pushOut_orderly (fl : List (Option IoError)) (evs : List WEv) (sent b : Bytes) (n : Nat) (h : ∀ e, .err e ∈ evs → e = .wouldBlock) :
    (∀ e, .err e ∈ (pushOut fl evs sent b n).2.1.evs → e = .wouldBlock) ∧ (∀ e, (pushOut fl evs sent b n).1 = .error e → e = .wouldBlock) ∧
      ∀ m, (pushOut fl evs sent b n).1 = .ok m → (pushOut fl evs sent b n).2.2 = [] ∧ m = n + b.length := by
  induction evs generalizing sent b n with
  | nil =>
    cases b with
    | nil => exact ⟨nofun, nofun, fun m hm => by cases hm; exact ⟨rfl, rfl⟩⟩
    | cons x b => exact ⟨nofun, fun e he => by cases he; rfl, nofun⟩
  | cons ev evs ih =>
    cases b with
    | nil =>
      refine ⟨h, nofun, fun m hm => ?_⟩
      cases hm
      exact ⟨rfl, rfl⟩
    | cons x b =>
      have h' : ∀ e, .err e ∈ evs → e = .wouldBlock := fun e he => h e (List.mem_cons_of_mem _ he)
      cases ev with
      | err e =>
        rw [pushOut]
        · exact ⟨h', fun e' he => by cases he; exact h e (List.mem_cons_self ..), nofun⟩
        · simp
      | accept m =>
        rw [pushOut]
        · obtain ⟨h1, h2, h3⟩ := ih (sent ++ (x :: b).take m) ((x :: b).drop m) (n + min m (x :: b).length) h'
          refine ⟨h1, h2, fun m' hm => ?_⟩
          obtain ⟨h4, h5⟩ := h3 m' hm
          refine ⟨h4, ?_⟩
          rw [h5, List.length_drop]
          omega
        · simp

theorem writeTls_orderly {t : TlsStream} (h : t.Orderly) : Orderlies t.writeTls ∧ t.writeTls.2.input = t.input ∧ t.writeTls.2.sess.plain = t.sess.plain ∧ t.writeTls.2.sess.handshaking = t.sess.handshaking ∧
    ∀ n, t.writeTls.1 = .ok n → t.writeTls.2.sess.out = [] ∧ n = t.sess.out.length := by
  obtain ⟨h1, h2, h3⟩ := pushOut_orderly t.sock.flushes t.sock.evs t.sock.sent t.sess.out 0 h.evs
  unfold writeTls
  generalize pushOut t.sock.flushes t.sock.evs t.sock.sent t.sess.out 0 = x at h1 h2 h3
  obtain ⟨x, sock, out⟩ := x
  exact ⟨⟨⟨h.good, h.here, h.input, h1, h.early⟩, h2⟩, rfl, rfl, rfl, fun n hn => by simpa using h3 n hn⟩

/-- Where the handshake has ended, a round returns when it has sent something or read something. -/
structure Round (t : TlsStream) (x : Except IoError Bool × TlsStream) : Prop where
  orderly : Orderlies x
  out : ∀ b, x.1 = .ok b → t.sess.handshaking = false → x.2.sess.out = []
  done : ∀ b, x.1 = .ok b → x.2.sess.handshaking = false
  read : ∀ b, x.1 = .ok b → t.sess.handshaking = false → t.sess.out = [] → t.sess.plain = [] → b = true ∧ x.2.input.length < t.input.length

theorem take_orderly {t : TlsStream} {ends close reply : Bool} {p : Bytes} {es : List TlsEv} (h : t.Orderly) (hi : t.input = .records ends p close reply :: es) :
    (⟨t.sess.take ends p close reply, es, t.sock⟩ : TlsStream).Orderly ∧ (t.sess.take ends p close reply).handshaking = (t.sess.handshaking && !ends) ∧
      (t.sess.handshaking = false → (t.sess.take ends p close reply).out = t.sess.out) := by
  have h1 := h.input
  rw [hi] at h1
  obtain ⟨rfl, h2, h3⟩ := h1
  have hearly : ∀ b, (t.sess.handshaking && !ends) = true → (if (t.sess.handshaking && !ends) = true then t.sess.plain else b) = [] := by
    intro b hb
    rw [if_pos hb]
    rw [Bool.and_eq_true] at hb
    exact h.early hb.1
  cases reply with
  | false => exact ⟨⟨h.good, by simp [TlsSession.take, h.here], h3, h.evs, hearly _⟩, rfl, fun _ => rfl⟩
  | true => exact ⟨⟨h.good, by simp [TlsSession.take, TlsSession.send, h.here], h3, h.evs, hearly _⟩, rfl, fun hh => absurd (h2 rfl) (by simp [hh])⟩

theorem completeLoop_round (ud : Bool) (input : List TlsEv) (sess : TlsSession) (sock : Sock) (wrote didRead : Bool) (h : Orderly ⟨sess, input, sock⟩) (hu : ud = sess.handshaking)
    (hw : ud = false → wrote = false) : Round ⟨sess, input, sock⟩ (completeLoop ud input sess sock wrote didRead) := by
  induction input generalizing sess sock wrote didRead with
  | nil =>
    obtain ⟨h1, h2, h3, h4, h5⟩ := writeTls_orderly h
    unfold completeLoop
    generalize writeTls ⟨sess, [], sock⟩ = x at h1 h2 h3 h4 h5
    obtain ⟨x, t⟩ := x
    cases x with
    | error e => exact ⟨h1.cast, nofun, nofun, nofun⟩
    | ok n =>
      obtain ⟨h6, rfl⟩ := h5 n rfl
      clear h5
      rename t.sess.out = [] => h5
      have ht := h1.1
      dsimp only at h2 h3 h4 h5 ht ⊢
      split
      · next hc =>
        rw [Bool.and_eq_true] at hc
        have hs : sess.handshaking = false := by rw [← hu]; simpa using hc.1
        refine ⟨.ok h1.1, fun _ _ _ => h5, fun _ _ => h4.trans hs, fun b hb _ ho _ => ?_⟩
        rw [hw (hu.trans hs)] at hc
        change sess.out = [] at ho
        simp [ho] at hc
      · split
        · exact ⟨⟨h1.1, fun e he => by cases he; rfl⟩, nofun, nofun, nofun⟩
        · next hc hr =>
          rw [if_neg (by simp [ht.good])]
          have hp : sess.plain ≠ [] := by
            rw [← h3]
            intro hp
            exact hr (by simp [TlsSession.wantsRead, hp])
          refine ⟨.ok h1.1, fun _ _ _ => h5, fun _ _ => ?_, fun _ _ _ _ hp' => absurd hp' hp⟩
          rw [h4]
          exact Bool.eq_false_iff.2 fun hh => hp (h.early hh)
  | cons ev es ih =>
    obtain ⟨h1, h2, h3, h4, h5⟩ := writeTls_orderly h
    unfold completeLoop
    generalize writeTls ⟨sess, ev :: es, sock⟩ = x at h1 h2 h3 h4 h5
    obtain ⟨x, t⟩ := x
    cases x with
    | error e => exact ⟨h1.cast, nofun, nofun, nofun⟩
    | ok n =>
      obtain ⟨h6, rfl⟩ := h5 n rfl
      clear h5
      rename t.sess.out = [] => h5
      have ht := h1.1
      dsimp only at h2 h3 h4 h5 ht ⊢
      split
      · next hc =>
        rw [Bool.and_eq_true] at hc
        have hs : sess.handshaking = false := by rw [← hu]; simpa using hc.1
        refine ⟨.ok ht, fun _ _ _ => h5, fun _ _ => h4.trans hs, fun b hb _ ho _ => ?_⟩
        rw [hw (hu.trans hs)] at hc
        change sess.out = [] at ho
        simp [ho] at hc
      · next hnw =>
        split
        · have hin := ht.input
          rw [h2] at hin
          cases ev with
          | err e =>
            obtain ⟨rfl, hin⟩ := hin
            exact ⟨⟨⟨ht.good, ht.here, hin, ht.evs, ht.early⟩, fun e he => by cases he; rfl⟩, nofun, nofun, nofun⟩
          | eof => exact hin.elim
          | bad => exact hin.elim
          | records ends p close reply =>
            dsimp only
            rw [if_neg (by simp [ht.good])]
            obtain ⟨g1, g2, g3⟩ := take_orderly ht h2
            split
            · next hc =>
              rw [Bool.and_eq_true] at hc
              have := ih _ t.sock (wrote || decide (0 < sess.out.length)) true g1 (hc.1.trans hc.2.symm) (fun hu' => by rw [hc.1] at hu'; cases hu')
              have hno : sess.handshaking = true := hu.symm.trans hc.1
              refine ⟨this.orderly, fun b _ hf => ?_, this.done, fun b _ hf => ?_⟩
              · change sess.handshaking = false at hf
                rw [hno] at hf
                cases hf
              · change sess.handshaking = false at hf
                rw [hno] at hf
                cases hf
            · next hc =>
              refine ⟨.ok g1, fun _ _ hf => (g3 (h4.trans hf)).trans h5, fun _ _ => ?_, fun b hb _ _ _ => ?_⟩
              · cases hud : ud with
                | true =>
                  rw [hud] at hc
                  simpa using hc
                | false =>
                  change (t.sess.take ends p close reply).handshaking = false
                  rw [g2, h4]
                  change (sess.handshaking && !ends) = false
                  rw [← hu, hud]
                  rfl
              · cases hb
                exact ⟨rfl, Nat.lt_succ_self _⟩
        · next hr =>
          rw [if_neg (by simp [ht.good])]
          have hp : sess.plain ≠ [] := by
            rw [← h3]
            intro hp
            exact hr (by simp [TlsSession.wantsRead, hp])
          refine ⟨.ok ht, fun _ _ _ => h5, fun _ _ => ?_, fun _ _ _ _ hp' => absurd hp' hp⟩
          rw [h4]
          exact Bool.eq_false_iff.2 fun hh => hp (h.early hh)

theorem completeIo_round {t : TlsStream} (h : t.Orderly) : Round t t.completeIo := completeLoop_round _ _ _ _ _ _ h rfl fun _ => rfl

theorem completePriorIo_orderly {t : TlsStream} (h : t.Orderly) : Orderlies t.completePriorIo ∧
    (t.completePriorIo.1 = .ok () → t.completePriorIo.2.sess.handshaking = false ∧ t.completePriorIo.2.sess.out = []) := by
  have key : Orderlies (if t.sess.handshaking then t.completeIo else (.ok false, t)) ∧
      ∀ b, (if t.sess.handshaking then t.completeIo else (.ok false, t)).1 = .ok b → (if t.sess.handshaking then t.completeIo else (.ok false, t)).2.sess.handshaking = false := by
    split
    · exact ⟨(completeIo_round h).orderly, (completeIo_round h).done⟩
    · next hh => exact ⟨.ok h, fun _ _ => by simpa using hh⟩
  unfold completePriorIo
  generalize (if t.sess.handshaking then t.completeIo else (.ok false, t)) = x at key
  obtain ⟨x, t₁⟩ := x
  obtain ⟨h1, h2⟩ := key
  cases x with
  | error e => exact ⟨h1.cast, nofun⟩
  | ok b =>
    have hd := h2 b rfl
    have key : Orderlies (if t₁.sess.wantsWrite then t₁.completeIo else (.ok false, t₁)) ∧
        ∀ b, (if t₁.sess.wantsWrite then t₁.completeIo else (.ok false, t₁)).1 = .ok b → (if t₁.sess.wantsWrite then t₁.completeIo else (.ok false, t₁)).2.sess.handshaking = false ∧
          (if t₁.sess.wantsWrite then t₁.completeIo else (.ok false, t₁)).2.sess.out = [] := by
      split
      · exact ⟨(completeIo_round h1.1).orderly, fun b hb => ⟨(completeIo_round h1.1).done b hb, (completeIo_round h1.1).out b hb hd⟩⟩
      · next hh => exact ⟨.ok h1.1, fun _ _ => ⟨hd, by simpa [TlsSession.wantsWrite] using hh⟩⟩
    dsimp only
    generalize (if t₁.sess.wantsWrite then t₁.completeIo else (.ok false, t₁)) = x at key
    obtain ⟨x, t₂⟩ := x
    obtain ⟨h3, h4⟩ := key
    cases x with
    | error e => exact ⟨h3.cast, nofun⟩
    | ok b => exact ⟨.ok h3.1, fun _ => h4 b rfl⟩

theorem readLoop_orderly (f : Nat) {t : TlsStream} (h : t.Orderly) (hd : t.sess.handshaking = false) (ho : t.sess.out = []) (hf : t.input.length < f) :
    Orderlies (readLoop f t) ∧ ((readLoop f t).1 = .ok () → (readLoop f t).2.sess.plain ≠ []) := by
  induction f generalizing t with
  | zero => omega
  | succ f ih =>
    unfold readLoop
    split
    · next hr =>
      have hp : t.sess.plain = [] := by simpa [TlsSession.wantsRead] using hr
      have h1 := completeIo_round h
      generalize t.completeIo = x at h1
      obtain ⟨x, t₁⟩ := x
      cases x with
      | error e => exact ⟨h1.orderly.cast, nofun⟩
      | ok b =>
        obtain ⟨rfl, h2⟩ := h1.read b rfl hd ho hp
        exact ih h1.orderly.1 (h1.done _ rfl) (h1.out _ rfl hd) (by change t₁.input.length < _ at h2; omega)
    · next hr => exact ⟨.ok h, fun _ hp => hr (by
        change t.sess.plain = [] at hp
        simp [TlsSession.wantsRead, hp])⟩

theorem read_orderly {t : TlsStream} (h : t.Orderly) (n : Nat) : Orderlies (t.read n) ∧ (0 < n → ∀ b, (t.read n).1 = .ok b → b ≠ []) := by
  obtain ⟨h1, h2⟩ := completePriorIo_orderly h
  unfold read
  generalize t.completePriorIo = x at h1 h2
  obtain ⟨x, t₁⟩ := x
  cases x with
  | error e => exact ⟨h1.cast, nofun⟩
  | ok u =>
    obtain ⟨h2, h3⟩ := h2 rfl
    obtain ⟨h4, h5⟩ := readLoop_orderly (t₁.input.length + 1) h1.1 h2 h3 (by simp)
    dsimp only
    generalize readLoop (t₁.input.length + 1) t₁ = x at h4 h5
    obtain ⟨x, t₂⟩ := x
    cases x with
    | error e => exact ⟨h4.cast, nofun⟩
    | ok u =>
      have hp : t₂.sess.plain ≠ [] := h5 rfl
      have hr : t₂.sess.read n = (.ok (t₂.sess.plain.take n), { t₂.sess with plain := t₂.sess.plain.drop n }) := by
        rw [TlsSession.read, if_neg fun hx => hp hx.1]
      dsimp only
      rw [hr]
      refine ⟨.ok ⟨h4.1.good, h4.1.here, h4.1.input, h4.1.evs, fun hh => absurd (h4.1.early hh) hp⟩, fun hn b hb => ?_⟩
      cases hb
      cases hpl : t₂.sess.plain with
      | nil => exact absurd hpl hp
      | cons x xs =>
        cases n with
        | zero => omega
        | succ n => simp

theorem write_orderly {t : TlsStream} (h : t.Orderly) (b : Bytes) : Orderlies (t.write b) := by
  obtain ⟨h1, -⟩ := completePriorIo_orderly h
  unfold write
  generalize t.completePriorIo = x at h1
  obtain ⟨x, t₁⟩ := x
  cases x with
  | error e => exact h1.cast
  | ok u =>
    refine .ok (completeIo_round (t := { t₁ with sess := t₁.sess.write b }) ?_).orderly.1
    unfold TlsSession.write
    have h1 := h1.1
    split
    · exact h1
    · exact ⟨h1.good, h1.here, h1.input, h1.evs, h1.early⟩

theorem flush_orderly {t : TlsStream} (h : t.Orderly) : Orderlies t.flush := by
  obtain ⟨h1, -⟩ := completePriorIo_orderly h
  unfold flush
  generalize t.completePriorIo = x at h1
  obtain ⟨x, t₁⟩ := x
  cases x with
  | error e => exact h1.cast
  | ok u =>
    dsimp only
    split
    · have h2 := (completeIo_round h1.1).orderly
      generalize t₁.completeIo = x at h2
      obtain ⟨x, t₂⟩ := x
      cases x with
      | error e => exact h2.cast
      | ok b => exact .ok h2.1
    · exact .ok h1.1

end TlsStream

theorem TlsEv.Orderly.append {h : Bool} {u v : List TlsEv} (ho : TlsEv.Orderly h (u ++ v)) : TlsEv.Orderly h u := by
  induction u generalizing h with
  | nil => exact trivial
  | cons e u ih =>
    cases e with
    | records ends p close reply => exact ⟨ho.1, ho.2.1, ih ho.2.2⟩
    | err e => exact ⟨ho.1, ih ho.2⟩
    | bad => exact ho
    | eof => exact ho

theorem TlsEv.Orderly.errs {h : Bool} {u : List TlsEv} (ho : TlsEv.Orderly h u) : ∀ e, .err e ∈ u → e = .wouldBlock := by
  induction u generalizing h with
  | nil => simp
  | cons x u ih =>
    intro e he
    rcases List.mem_cons.1 he with rfl | hm
    · exact ho.1
    · cases x with
      | records ends p close reply => exact ih ho.2.2 e hm
      | err e' => exact ih ho.2 e hm
      | bad => exact ho.elim
      | eof => exact ho.elim

theorem TlsEv.Orderly.heard {u v : List TlsEv} {x : TlsHeard} (ho : TlsEv.Orderly x.handshaking (u ++ v)) (hf : x.failed = false) (hc : x.closed = false) :
    (u.foldl TlsHeard.step x).failed = false ∧ (u.foldl TlsHeard.step x).closed = false ∧ TlsEv.Orderly (u.foldl TlsHeard.step x).handshaking v := by
  induction u generalizing x with
  | nil => exact ⟨hf, hc, ho⟩
  | cons e u ih =>
    rw [List.foldl_cons]
    cases e with
    | records ends p close reply =>
      obtain ⟨rfl, h2, h3⟩ := ho
      have hs : x.step (.records ends p false reply) = { x with handshaking := x.handshaking && !ends, came := if x.handshaking && !ends then x.came else x.came ++ p, closed := x.closed || false } := by
        rw [TlsHeard.step, if_neg (by simp [hf])]
      rw [hs]
      exact ih h3 hf (by simp [hc])
    | err e => exact ih ho.2 hf hc
    | bad => exact ho.elim
    | eof => exact ho.elim

end Verif
