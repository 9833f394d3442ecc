import Verif.Proofs.TlsCalm
import Verif.Spec.TlsServer

/-!
Why a TLS stream has to wait.
-/

namespace Verif

namespace TlsStream

variable {i : List TlsEv} {e : List WEv}

/-- The scripts are what remains of these. -/
def Of (i : List TlsEv) (e : List WEv) (t : TlsStream) : Prop := t.input <:+ i ∧ t.sock.evs <:+ e

/-- The same, and if the result is `WouldBlock` there is a reason. -/
def Parks (i : List TlsEv) (e : List WEv) {α : Type} (x : Except IoError α × TlsStream) : Prop := x.2.Of i e ∧ (x.1 = .error .wouldBlock → x.2.Blocked i e)

theorem Parks.cast {α β : Type} {r : IoError} {t : TlsStream} (h : Parks i e ((.error r : Except IoError α), t)) : Parks i e ((.error r : Except IoError β), t) :=
  ⟨h.1, fun k => h.2 (by cases k; rfl)⟩

theorem pushOut_parks (fl : List (Option IoError)) (evs : List WEv) (sent b : Bytes) (n : Nat) :
    (pushOut fl evs sent b n).2.1.evs <:+ evs ∧ ((pushOut fl evs sent b n).1 = .error .wouldBlock →
      (pushOut fl evs sent b n).2.2 ≠ [] ∧ ((pushOut fl evs sent b n).2.1.evs = [] ∨ .err .wouldBlock :: (pushOut fl evs sent b n).2.1.evs <:+ evs)) := by
  induction evs generalizing sent b n with
  | nil => cases b <;> simp [pushOut]
  | cons ev evs ih =>
    cases b with
    | nil => exact ⟨by simp [pushOut], by simp [pushOut]⟩
    | cons x b =>
      cases ev with
      | err er =>
        rw [pushOut]
        · exact ⟨List.suffix_cons _ _, fun h => by cases h; exact ⟨by simp, .inr (List.suffix_refl _)⟩⟩
        · simp
      | accept m =>
        rw [pushOut]
        · obtain ⟨h1, h2⟩ := ih (sent ++ (x :: b).take m) ((x :: b).drop m) (n + min m (x :: b).length)
          exact ⟨h1.trans (List.suffix_cons _ _), fun h => ⟨(h2 h).1, (h2 h).2.imp id fun k => k.trans (List.suffix_cons _ _)⟩⟩
        · simp

theorem writeTls_parks {t : TlsStream} (h : t.Of i e) : Parks i e t.writeTls ∧ t.writeTls.2.input = t.input ∧ (∀ n, t.writeTls.1 = .ok n → t.writeTls.2.sess.out = []) := by
  obtain ⟨h1, h2⟩ := pushOut_parks t.sock.flushes t.sock.evs t.sock.sent t.sess.out 0
  obtain ⟨-, h3, -, -, h4⟩ := writeTls_moves t
  refine ⟨?_, h3, fun n hn => (h4 n hn).1⟩
  unfold writeTls
  generalize pushOut t.sock.flushes t.sock.evs t.sock.sent t.sess.out 0 = x at h1 h2
  obtain ⟨x, sock, out⟩ := x
  exact ⟨⟨h.1, h1.trans h.2⟩, fun hx => .inl ⟨(h2 hx).1, (h2 hx).2.imp id fun k => k.trans h.2⟩⟩

theorem lastGasp_of {t : TlsStream} (h : t.Of i e) : t.lastGasp.Of i e := by
  obtain ⟨h1, h2⟩ := h
  unfold lastGasp Sock.write
  cases he : t.sock.evs with
  | nil => exact ⟨h1, h2⟩
  | cons ev evs =>
    rw [he] at h2
    have h' : evs <:+ e := (List.suffix_cons _ _).trans h2
    cases ev <;> exact ⟨h1, h'⟩

theorem refuse_parks {t : TlsStream} (h : t.Of i e) : Parks i e t.refuse := by
  refine ⟨lastGasp_of ?_, by simp [refuse]⟩
  split <;> exact h

theorem completeLoop_parks (ud : Bool) (input : List TlsEv) (sess : TlsSession) (sock : Sock) (wrote didRead : Bool) (h : Of i e ⟨sess, input, sock⟩) :
    Parks i e (completeLoop ud input sess sock wrote didRead) := by
  induction input generalizing sess sock wrote didRead with
  | nil =>
    obtain ⟨hw, hi, ho⟩ := writeTls_parks h
    unfold completeLoop
    generalize writeTls ⟨sess, [], sock⟩ = x at hw hi ho
    obtain ⟨x, t⟩ := x
    cases x with
    | error e => exact hw.cast
    | ok n =>
      dsimp only at hi ho ⊢
      split
      · exact ⟨hw.1, nofun⟩
      · split
        · next hr => exact ⟨hw.1, fun _ => .inr ⟨ho n rfl, by simpa [TlsSession.wantsRead] using hr, .inl hi⟩⟩
        · split
          · exact refuse_parks hw.1
          · exact ⟨hw.1, nofun⟩
  | cons ev es ih =>
    obtain ⟨hw, hi, ho⟩ := writeTls_parks h
    unfold completeLoop
    generalize writeTls ⟨sess, ev :: es, sock⟩ = x at hw hi ho
    obtain ⟨x, t⟩ := x
    cases x with
    | error e => exact hw.cast
    | ok n =>
      dsimp only at hi ho ⊢
      have hes : es <:+ i := (List.suffix_cons _ _).trans h.1
      have ht : Of i e { t with input := es } := ⟨hes, hw.1.2⟩
      split
      · exact ⟨hw.1, nofun⟩
      · split
        · next hr =>
          cases ev with
          | err er =>
            refine ⟨ht, fun hx => .inr ⟨ho n rfl, by simpa [TlsSession.wantsRead] using hr, .inr ?_⟩⟩
            cases hx
            exact h.1
          | eof =>
            dsimp only
            split
            · exact refuse_parks ht
            · split <;> exact ⟨ht, nofun⟩
          | bad => exact refuse_parks ht
          | records a b c d =>
            dsimp only
            split
            · exact refuse_parks ht
            · split
              · exact ih _ _ _ _ ⟨hes, hw.1.2⟩
              · exact ⟨⟨hes, hw.1.2⟩, nofun⟩
        · split
          · exact refuse_parks hw.1
          · exact ⟨hw.1, nofun⟩

theorem completeIo_parks {t : TlsStream} (h : t.Of i e) : Parks i e t.completeIo := completeLoop_parks _ _ _ _ _ _ h

theorem completePriorIo_parks {t : TlsStream} (h : t.Of i e) : Parks i e t.completePriorIo := by
  have key : ∀ (b : Bool) {t : TlsStream}, t.Of i e → Parks i e (if b then t.completeIo else (.ok false, t)) := by
    intro b t h
    split
    · exact completeIo_parks h
    · exact ⟨h, nofun⟩
  unfold completePriorIo
  have h1 := key t.sess.handshaking h
  generalize (if t.sess.handshaking then t.completeIo else (.ok false, t)) = x at h1
  obtain ⟨x, t₁⟩ := x
  cases x with
  | error e => exact h1.cast
  | ok b =>
    have h2 := key t₁.sess.wantsWrite h1.1
    dsimp only
    generalize (if t₁.sess.wantsWrite then t₁.completeIo else (.ok false, t₁)) = x at h2
    obtain ⟨x, t₂⟩ := x
    cases x with
    | error e => exact h2.cast
    | ok b => exact ⟨h2.1, nofun⟩

theorem readLoop_parks (f : Nat) {t : TlsStream} (h : t.Of i e) : Parks i e (readLoop f t) := by
  induction f generalizing t with
  | zero => exact ⟨h, nofun⟩
  | succ f ih =>
    unfold readLoop
    split
    · have h1 := completeIo_parks h
      generalize t.completeIo = x at h1
      obtain ⟨x, t₁⟩ := x
      cases x with
      | error e => exact h1.cast
      | ok b =>
        cases b with
        | true => exact ih h1.1
        | false => exact ⟨h1.1, nofun⟩
    · exact ⟨h, nofun⟩

theorem read_parks {t : TlsStream} (h : t.Of i e) (n : Nat) : Parks i e (t.read n) := by
  have h1 := completePriorIo_parks h
  unfold read
  generalize t.completePriorIo = x at h1
  obtain ⟨x, t₁⟩ := x
  cases x with
  | error e => exact h1.cast
  | ok u =>
    have h2 := readLoop_parks (t₁.input.length + 1) h1.1
    dsimp only
    generalize readLoop (t₁.input.length + 1) t₁ = x at h2
    obtain ⟨x, t₂⟩ := x
    cases x with
    | error e => exact h2.cast
    | ok u =>
      refine ⟨h2.1, fun hx => ?_⟩
      dsimp only at hx
      unfold TlsSession.read at hx
      split at hx <;> cases hx

theorem write_parks {t : TlsStream} (h : t.Of i e) (b : Bytes) : Parks i e (t.write b) := by
  have h1 := completePriorIo_parks h
  unfold write
  generalize t.completePriorIo = x at h1
  obtain ⟨x, t₁⟩ := x
  cases x with
  | error e => exact h1.cast
  | ok u => exact ⟨(completeIo_parks (t := { t₁ with sess := t₁.sess.write b }) h1.1).1, nofun⟩

theorem flush_parks {t : TlsStream} (h : t.Of i e) : Parks i e t.flush := by
  have h1 := completePriorIo_parks h
  unfold flush
  generalize t.completePriorIo = x at h1
  obtain ⟨x, t₁⟩ := x
  cases x with
  | error e => exact h1.cast
  | ok u =>
    dsimp only
    split
    · have h2 := completeIo_parks h1.1
      generalize t₁.completeIo = x at h2
      obtain ⟨x, t₂⟩ := x
      cases x with
      | error e => exact h2.cast
      | ok u => exact ⟨h2.1, nofun⟩
    · exact ⟨h1.1, nofun⟩

end TlsStream

end Verif
