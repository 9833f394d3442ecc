import Verif.Proofs.TlsBlock
import Verif.Proofs.TlsOrderly
import Verif.Proofs.SharedStack

/-!
TLS streams whose sockets never fail.
-/

namespace Verif

namespace TlsStream

/-- The handshake is done, and the socket will not fail. -/
def Free (t : TlsStream) : Prop := t.sess.handshaking = false ∧ ∀ e ∈ t.sock.evs, ∃ m, e = .accept m

theorem noerr_suffix {a b : List WEv} (h : a <:+ b) (hb : ∀ e ∈ b, ∃ m, e = .accept m) : ∀ e ∈ a, ∃ m, e = .accept m := fun e he => hb e (h.mem he)

theorem parks_evs {t : TlsStream} {α : Type} {x : Except IoError α × TlsStream} (h : Parks t.input t.sock.evs x) : x.2.sock.evs <:+ t.sock.evs := h.1.2

theorem of_self (t : TlsStream) : t.Of t.input t.sock.evs := ⟨List.suffix_refl _, List.suffix_refl _⟩

theorem Free.read {t : TlsStream} (h : t.Free) (n : Nat) : (t.read n).2.Free := by
  refine ⟨?_, noerr_suffix (parks_evs (read_parks (of_self t) n)) h.2⟩
  have h1 := (completePriorIo_moves t (by rw [h.1]; exact nofun)).1.handshaking h.1
  unfold TlsStream.read
  generalize t.completePriorIo = x at h1
  obtain ⟨x, t₁⟩ := x
  cases x with
  | error e => exact h1
  | ok u =>
    have h2 := (readLoop_moves (t₁.input.length + 1) t₁).handshaking h1
    dsimp only
    generalize readLoop (t₁.input.length + 1) t₁ = x at h2
    obtain ⟨x, t₂⟩ := x
    cases x with
    | error e => exact h2
    | ok u =>
      dsimp only
      unfold TlsSession.read
      split <;> exact h2

theorem Free.flush {t : TlsStream} (h : t.Free) : t.flush.2.Free :=
  ⟨(flush_moves t (by rw [h.1]; exact nofun)).handshaking h.1, noerr_suffix (parks_evs (flush_parks (of_self t))) h.2⟩

theorem Free.write {t : TlsStream} (h : t.Free) (b : Bytes) : (t.write b).2.Free := by
  refine ⟨?_, noerr_suffix (parks_evs (write_parks (of_self t) b)) h.2⟩
  have h1 := (completePriorIo_moves t (by rw [h.1]; exact nofun)).1.handshaking h.1
  unfold TlsStream.write
  generalize t.completePriorIo = x at h1
  obtain ⟨x, t₁⟩ := x
  cases x with
  | error e => exact h1
  | ok u =>
    refine (completeIo_moves { t₁ with sess := t₁.sess.write b }).1.handshaking ?_
    unfold TlsSession.write
    dsimp only at h1 ⊢
    split <;> exact h1

/-- If nothing fails, what cannot be sent is left because the socket takes no more now. -/
theorem pushOut_takes (fl : List (Option IoError)) (evs : List WEv) (sent b : Bytes) (n : Nat) (h : ∀ e ∈ evs, ∃ m, e = .accept m) :
    ((pushOut fl evs sent b n).2.1.evs = [] ∧ ∃ e, (pushOut fl evs sent b n).1 = .error e) ∨ (pushOut fl evs sent b n).1 = .ok (n + b.length) := by
  induction evs generalizing sent b n with
  | nil => cases b <;> simp [pushOut]
  | cons ev evs ih =>
    cases b with
    | nil => simp [pushOut]
    | cons x b =>
      obtain ⟨m, rfl⟩ := h ev (by simp)
      rw [pushOut]
      · rcases ih (sent ++ (x :: b).take m) ((x :: b).drop m) (n + min m (x :: b).length) (fun e he => h e (List.mem_cons_of_mem _ he)) with h1 | h1
        · exact .inl h1
        · refine .inr ?_
          rw [h1, List.length_drop]
          congr 1
          omega
      · simp

/-- A write after the handshake takes everything, or the socket takes no more now. -/
theorem Free.takes {t : TlsStream} (h : t.Free) (b : Bytes) : (t.write b).2.sock.evs = [] ∨ (t.write b).1 = .ok b.length := by
  have h1 : t.completePriorIo.2.sock.evs = [] ∨ t.completePriorIo.1 = .ok () := by
    unfold completePriorIo
    rw [if_neg (by rw [h.1]; simp)]
    dsimp only
    split
    · next e t' he =>
      split at he
      · next hw =>
        left
        unfold completeIo at he
        rw [h.1] at he
        unfold completeLoop at he
        have hp := pushOut_takes t.sock.flushes t.sock.evs t.sock.sent t.sess.out 0 h.2
        unfold writeTls at he
        generalize pushOut t.sock.flushes t.sock.evs t.sock.sent t.sess.out 0 = x at hp he
        obtain ⟨x, sock, out⟩ := x
        rcases hp with ⟨hp, e', he'⟩ | hp
        · dsimp only at he'
          subst he'
          cases he
          exact hp
        · dsimp only at hp
          subst hp
          have : 0 < t.sess.out.length := by
            cases ho : t.sess.out with
            | nil => rw [TlsSession.wantsWrite, ho] at hw; cases hw
            | cons => simp
          simp [this] at he
      · cases he
    · exact .inr rfl
  unfold TlsStream.write
  have h2 := completePriorIo_parks (of_self t)
  generalize t.completePriorIo = x at h1 h2
  obtain ⟨x, t₁⟩ := x
  cases x with
  | error e => exact h1.imp id nofun
  | ok u => exact .inr rfl

end TlsStream

/-! ## The stream of a connection -/

abbrev TracedTls := Traced TlsStream

/-- What the writer still has to give to the session. -/
abbrev heldBack (s : ServerStack TracedTls) : Bytes := s.val.buf.drop s.val.pos

theorem free_uses : RawUses (T := TracedTls) fun t => t.raw.Free where
  write {f w w' b x} _ e h := by
    obtain ⟨y, h1, h2⟩ := Option.map_eq_some_iff.1 e
    obtain rfl : w.raw.write b = y := Option.some.inj h1
    have := h.write b
    generalize w.raw.write b = y at h2 this
    obtain ⟨y, t⟩ := y
    cases y <;> (cases h2; exact this)
  flush {f w w' x} e h := by
    obtain ⟨y, h1, h2⟩ := Option.map_eq_some_iff.1 e
    obtain rfl : w.raw.flush = y := Option.some.inj h1
    cases h2
    exact h.flush
  read {t t' n x} e h := by
    have h1 := h.read n
    simp only [RawIO.read] at e
    generalize t.raw.read n = y at e h1
    obtain ⟨y, t₁⟩ := y
    cases y <;> (cases e; exact h1)

theorem full_keeps : RawFull (T := TracedTls) fun t => t.raw.sock.evs = [] where
  write {f w w' b x} _ e h := by
    obtain ⟨y, h1, h2⟩ := Option.map_eq_some_iff.1 e
    obtain rfl : w.raw.write b = y := Option.some.inj h1
    have := TlsStream.parks_evs (TlsStream.write_parks w.raw.of_self b)
    rw [h] at this
    generalize w.raw.write b = y at h2 this
    obtain ⟨y, t⟩ := y
    cases y <;> (cases h2; exact List.suffix_nil.1 this)
  flush {f w w' x} e h := by
    obtain ⟨y, h1, h2⟩ := Option.map_eq_some_iff.1 e
    obtain rfl : w.raw.flush = y := Option.some.inj h1
    cases h2
    have := TlsStream.parks_evs (TlsStream.flush_parks w.raw.of_self)
    rw [h] at this
    exact List.suffix_nil.1 this
  read {t t' n x} e h := by
    have h1 := TlsStream.parks_evs (TlsStream.read_parks t.raw.of_self n)
    rw [h] at h1
    simp only [RawIO.read] at e
    generalize t.raw.read n = y at e h1
    obtain ⟨y, t₁⟩ := y
    cases y <;> (cases e; exact List.suffix_nil.1 h1)

theorem full_uses : RawUses (T := TracedTls) fun t => t.raw.sock.evs = [] := { write := fun _ e => full_keeps.write trivial e, flush := full_keeps.flush, read := full_keeps.read }

/-- A socket that never fails stays so. -/
theorem roomy_keeps : RawKeeps (T := Traced TlsStream) fun t => ∀ e ∈ t.raw.sock.evs, ∃ m, e = .accept m where
  write {f w w' b x} e h := by
    obtain ⟨y, h1, h2⟩ := Option.map_eq_some_iff.1 e
    obtain rfl : w.raw.write b = y := Option.some.inj h1
    have := TlsStream.parks_evs (TlsStream.write_parks w.raw.of_self b)
    generalize w.raw.write b = y at h2 this
    obtain ⟨y, t⟩ := y
    cases y <;> (cases h2; exact TlsStream.noerr_suffix this h)
  flush {f w w' x} e h := by
    obtain ⟨y, h1, h2⟩ := Option.map_eq_some_iff.1 e
    obtain rfl : w.raw.flush = y := Option.some.inj h1
    cases h2
    exact TlsStream.noerr_suffix (TlsStream.parks_evs (TlsStream.flush_parks w.raw.of_self)) h
  read {t t' n x} e h := by
    have h1 := TlsStream.parks_evs (TlsStream.read_parks t.raw.of_self n)
    simp only [RawIO.read] at e
    generalize t.raw.read n = y at e h1
    obtain ⟨y, t₁⟩ := y
    cases y <;> (cases e; exact TlsStream.noerr_suffix h1 h)
  drop {t} h := TlsStream.noerr_suffix (TlsStream.parks_evs (t := { t.raw with sess := t.raw.sess.sendCloseNotify }) (TlsStream.flush_parks (TlsStream.of_self _))) h

end Verif
