import Verif.Proofs.TlsBlock
import Verif.Spec.ClosesAny

/-!
A TLS stream does not pass over the end of its TCP stream in silence.
-/

namespace Verif

namespace TlsStream

variable {i : List TlsEv}

/-- Of `i` something has been read, and the end was not in it. -/
def Past (i : List TlsEv) (t : TlsStream) : Prop := ∃ used, i = used ++ t.input ∧ ∀ y ∈ used, ¬ y.Final

/-- The end of the TCP stream has not been read, or it is reported. -/
def Spots (i : List TlsEv) {α : Type} (x : Except IoError α × TlsStream) : Prop := Past i x.2 ∨ ∃ e, x.1 = .error e ∧ ¬ e.Mild

/-- The end of the TCP stream was read, and there is no plain text. -/
def Ended {α : Type} (a : α) (x : Except IoError α × TlsStream) : Prop := x.1 = .ok a ∧ x.2.sess.plain = []

theorem Spots.cast {α β : Type} {r : IoError} {t : TlsStream} (h : Spots i ((.error r : Except IoError α), t)) : Spots i ((.error r : Except IoError β), t) :=
  h.imp id fun ⟨e, h1, h2⟩ => ⟨e, by cases h1; rfl, h2⟩

theorem Spots.ok {α : Type} {a : α} {t : TlsStream} (h : Spots i ((.ok a : Except IoError α), t)) : Past i t := by
  rcases h with h | ⟨e, h, -⟩
  · exact h
  · cases h

theorem Past.cons {t : TlsStream} {ev : TlsEv} {es : List TlsEv} (h : Past i t) (hi : t.input = ev :: es) (hf : ¬ ev.Final) {t' : TlsStream} (ht : t'.input = es) : Past i t' := by
  obtain ⟨used, h1, h2⟩ := h
  refine ⟨used ++ [ev], by rw [h1, hi, ht]; simp, fun y hy => ?_⟩
  rcases List.mem_append.1 hy with h | h
  · exact h2 y h
  · cases List.mem_singleton.1 h; exact hf

theorem Past.same {t t' : TlsStream} (h : Past i t) (ht : t'.input = t.input) : Past i t' := by
  obtain ⟨used, h1, h2⟩ := h
  exact ⟨used, by rw [ht]; exact h1, h2⟩

theorem refuse_spots (t : TlsStream) : Spots i t.refuse := .inr ⟨.invalidData, rfl, by rintro (h | h) <;> cases h⟩

theorem completeLoop_spots (ud : Bool) (input : List TlsEv) (sess : TlsSession) (sock : Sock) (wrote didRead : Bool) (hu : ud = true → sess.handshaking = true) (h : Past i ⟨sess, input, sock⟩) :
    Spots i (completeLoop ud input sess sock wrote didRead) ∨ ud = false ∧ Ended didRead (completeLoop ud input sess sock wrote didRead) := by
  induction input generalizing sess sock wrote didRead with
  | nil =>
    obtain ⟨-, hi, hp, hh, -⟩ := writeTls_moves ⟨sess, [], sock⟩
    unfold completeLoop
    generalize writeTls ⟨sess, [], sock⟩ = x at hi hp hh
    obtain ⟨x, t⟩ := x
    have ht : Past i t := h.same hi
    cases x with
    | error e => exact .inl (.inl ht)
    | ok n =>
      dsimp only
      split
      · exact .inl (.inl ht)
      · split
        · exact .inl (.inl ht)
        · split
          · exact .inl (refuse_spots _)
          · exact .inl (.inl ht)
  | cons ev es ih =>
    obtain ⟨-, hi, hp, hh, -⟩ := writeTls_moves ⟨sess, ev :: es, sock⟩
    unfold completeLoop
    generalize writeTls ⟨sess, ev :: es, sock⟩ = x at hi hp hh
    obtain ⟨x, t⟩ := x
    have ht : Past i t := h.same hi
    dsimp only at hi hp hh
    have hhs : t.sess.handshaking = sess.handshaking := congrArg TlsHeard.handshaking hh
    cases x with
    | error e => exact .inl (.inl ht)
    | ok n =>
      dsimp only
      split
      · exact .inl (.inl ht)
      · split
        · next hr =>
          cases ev with
          | err er =>
            by_cases hm : er.Mild
            · exact .inl (.inl (ht.cons hi (fun hf => by rcases hm with rfl | rfl; exact hf.1 rfl; exact hf.2 rfl) rfl))
            · exact .inl (.inr ⟨er, rfl, hm⟩)
          | eof =>
            dsimp only
            split
            · exact .inl (refuse_spots _)
            · split
              · exact .inl (.inr ⟨_, rfl, by rintro (h | h) <;> cases h⟩)
              · next hn =>
                refine .inr ⟨?_, rfl, by simpa [TlsSession.wantsRead] using hr⟩
                cases ud with
                | false => rfl
                | true => exact absurd (by rw [hhs, hu rfl]; rfl) hn
          | bad => exact .inl (refuse_spots _)
          | records a b c d =>
            dsimp only
            split
            · exact .inl (refuse_spots _)
            · split
              · next hc =>
                rcases ih _ _ _ _ (fun _ => by simp only [Bool.and_eq_true] at hc; exact hc.2) (ht.cons hi id rfl) with h1 | ⟨h1, h2⟩
                · exact .inl h1
                · rw [h1] at hc; cases hc
              · exact .inl (.inl (ht.cons hi id rfl))
        · split
          · exact .inl (refuse_spots _)
          · exact .inl (.inl ht)

theorem completeIo_spots {t : TlsStream} (h : Past i t) : Spots i t.completeIo ∨ t.sess.handshaking = false ∧ Ended false t.completeIo :=
  completeLoop_spots _ _ _ _ _ _ id h

/-- With something to send, and after the handshake, nothing is read. -/
theorem completeIo_sends {t : TlsStream} (ho : t.sess.out ≠ []) (hh : t.sess.handshaking = false) : t.completeIo.2.input = t.input := by
  obtain ⟨-, hi, -, -, hn⟩ := writeTls_moves t
  unfold completeIo
  rw [hh]
  unfold completeLoop
  change (writeTls ⟨t.sess, t.input, t.sock⟩).2.input = t.input at hi
  change ∀ n, (writeTls ⟨t.sess, t.input, t.sock⟩).1 = .ok n → _ at hn
  generalize writeTls ⟨t.sess, t.input, t.sock⟩ = x at hi hn
  obtain ⟨x, t₁⟩ := x
  cases x with
  | error e => exact hi
  | ok n =>
    dsimp only
    have : 0 < n := by
      rw [(hn n rfl).2]
      exact List.length_pos_iff.2 ho
    rw [if_pos (by simp [this])]
    exact hi

theorem wantsWrite_iff {s : TlsSession} : s.wantsWrite = true ↔ s.out ≠ [] := by
  unfold TlsSession.wantsWrite
  cases s.out <;> simp

theorem completePriorIo_spots {t : TlsStream} (he : t.sess.handshaking = true → t.sess.plain = []) (h : Past i t) : Spots i t.completePriorIo := by
  have h1 : Spots i (if t.sess.handshaking then t.completeIo else (.ok false, t)) ∧ ∀ r, (if t.sess.handshaking then t.completeIo else (.ok false, t)).1 = .ok r →
      (if t.sess.handshaking then t.completeIo else (.ok false, t)).2.sess.handshaking = false := by
    split
    · next hb =>
      refine ⟨?_, fun r hr => (completeIo_moves t).2 r hr hb he⟩
      rcases completeIo_spots h with h1 | ⟨h1, -⟩
      · exact h1
      · rw [hb] at h1; cases h1
    · next hb => exact ⟨.inl h, fun r _ => by simpa using hb⟩
  unfold completePriorIo
  generalize (if t.sess.handshaking then t.completeIo else (.ok false, t)) = x at h1
  obtain ⟨x, t₁⟩ := x
  obtain ⟨h1, h2⟩ := h1
  cases x with
  | error e => exact h1.cast
  | ok b =>
    have h3 : Past i (if t₁.sess.wantsWrite then t₁.completeIo else (.ok false, t₁)).2 := by
      split
      · next hw => exact h1.ok.same (completeIo_sends (wantsWrite_iff.1 hw) (h2 b rfl))
      · exact h1.ok
    dsimp only
    generalize (if t₁.sess.wantsWrite then t₁.completeIo else (.ok false, t₁)) = x at h3
    obtain ⟨x, t₂⟩ := x
    cases x <;> exact .inl h3

theorem readLoop_spots (f : Nat) {t : TlsStream} (hh : t.sess.handshaking = false) (h : Past i t) : Spots i (readLoop f t) ∨ Ended () (readLoop f t) := by
  induction f generalizing t with
  | zero => exact .inl (.inl h)
  | succ f ih =>
    unfold readLoop
    split
    · have h1 := completeIo_spots h
      have h2 := (completeIo_moves t).1.handshaking hh
      generalize t.completeIo = x at h1 h2
      obtain ⟨x, t₁⟩ := x
      cases x with
      | error e =>
        rcases h1 with h1 | ⟨-, h1, -⟩
        · exact .inl h1.cast
        · cases h1
      | ok b =>
        cases b with
        | true =>
          rcases h1 with h1 | ⟨-, h1, -⟩
          · exact ih h2 h1.ok
          · cases h1
        | false =>
          rcases h1 with h1 | ⟨-, -, h1⟩
          · exact .inl (.inl h1.ok)
          · exact .inr ⟨rfl, h1⟩
    · exact .inl (.inl h)

/-- A read that came upon the end of the TCP stream finds the end of the plain text, or fails. -/
theorem read_spots {t : TlsStream} (he : t.sess.handshaking = true → t.sess.plain = []) (h : Past i t) (n : Nat) : Spots i (t.read n) ∨ (t.read n).1 = .ok [] := by
  have h1 := completePriorIo_spots he h
  have h0 := (completePriorIo_moves t he).2
  unfold read
  generalize t.completePriorIo = x at h1 h0
  obtain ⟨x, t₁⟩ := x
  cases x with
  | error e => exact .inl h1.cast
  | ok u =>
    have h2 := readLoop_spots (t₁.input.length + 1) (h0 rfl) h1.ok
    dsimp only
    generalize readLoop (t₁.input.length + 1) t₁ = x at h2
    obtain ⟨x, t₂⟩ := x
    cases x with
    | error e =>
      rcases h2 with h2 | ⟨h2, -⟩
      · exact .inl h2.cast
      · cases h2
    | ok u =>
      dsimp only
      rcases h2 with h2 | ⟨-, h2⟩
      · exact .inl (.inl (h2.ok.same rfl))
      · dsimp only at h2
        unfold TlsSession.read
        split
        · exact .inl (.inr ⟨_, rfl, by rintro (h | h) <;> cases h⟩)
        · exact .inr (by simp [h2])

/-- A write that is not empty does not come upon the end of the TCP stream, or it fails. -/
theorem write_spots {t : TlsStream} (hs : ∀ k x, t.sess.cipher.sealed k x ≠ []) (he : t.sess.handshaking = true → t.sess.plain = []) (h : Past i t) {b : Bytes} (hb : b ≠ []) : Spots i (t.write b) := by
  have h1 := completePriorIo_spots he h
  obtain ⟨hm, h0⟩ := completePriorIo_moves t he
  have hc := hm.cipher
  unfold write
  generalize t.completePriorIo = x at h1 h0 hc
  obtain ⟨x, t₁⟩ := x
  cases x with
  | error e => exact h1.cast
  | ok u =>
    refine .inl (h1.ok.same (completeIo_sends (t := { t₁ with sess := t₁.sess.write b }) ?_ ?_))
    · dsimp only
      unfold TlsSession.write
      rw [if_neg hb]
      intro hn
      dsimp only at hc
      exact hs _ _ (hc ▸ (List.append_eq_nil_iff.1 hn).2)
    · dsimp only
      unfold TlsSession.write
      rw [if_neg hb]
      exact h0 rfl

theorem flush_spots {t : TlsStream} (he : t.sess.handshaking = true → t.sess.plain = []) (h : Past i t) : Spots i t.flush := by
  have h1 := completePriorIo_spots he h
  have h0 := (completePriorIo_moves t he).2
  unfold flush
  generalize t.completePriorIo = x at h1 h0
  obtain ⟨x, t₁⟩ := x
  cases x with
  | error e => exact h1.cast
  | ok u =>
    dsimp only
    split
    · next hw =>
      have h2 := h1.ok.same (completeIo_sends (wantsWrite_iff.1 hw) (h0 rfl))
      generalize t₁.completeIo = x at h2
      obtain ⟨x, t₂⟩ := x
      cases x <;> exact .inl h2
    · exact .inl h1.ok

end TlsStream

end Verif
