import Verif.Proofs.Tls

/-!
A TLS stream over a TCP stream that is never interrupted is never interrupted; and `read` delivers no more than there is room for.
-/

namespace Verif

namespace TlsStream

/-- Nothing in the scripts of the TCP stream is an interruption. -/
def Calm (t : TlsStream) : Prop := TlsEv.err .interrupted ∉ t.input ∧ WEv.err .interrupted ∉ t.sock.evs

/-- A result that is not an interruption, and a calm stream. -/
def Calmly {α : Type} (x : Except IoError α × TlsStream) : Prop := x.2.Calm ∧ x.1 ≠ .error .interrupted

theorem pushOut_calm (fl : List (Option IoError)) (evs : List WEv) (sent b : Bytes) (n : Nat) (h : WEv.err .interrupted ∉ evs) :
    WEv.err .interrupted ∉ (pushOut fl evs sent b n).2.1.evs ∧ (pushOut fl evs sent b n).1 ≠ .error .interrupted := by
  induction evs generalizing sent b n with
  | nil => cases b <;> simp [pushOut]
  | cons ev evs ih =>
    cases b with
    | nil => exact ⟨h, by simp [pushOut]⟩
    | cons x b =>
      have h' : WEv.err .interrupted ∉ evs := fun hm => h (List.mem_cons_of_mem _ hm)
      cases ev with
      | err e =>
        refine ⟨by simpa [pushOut] using h', ?_⟩
        rw [pushOut]
        · rintro he
          cases he
          exact h (List.mem_cons_self ..)
        · simp
      | accept m =>
        rw [pushOut]
        · exact ih _ _ _ h'
        · simp

theorem writeTls_calm {t : TlsStream} (h : t.Calm) : Calmly t.writeTls := by
  obtain ⟨h1, h2⟩ := pushOut_calm t.sock.flushes t.sock.evs t.sock.sent t.sess.out 0 h.2
  unfold writeTls
  generalize pushOut t.sock.flushes t.sock.evs t.sock.sent t.sess.out 0 = x at h1 h2
  obtain ⟨x, sock, out⟩ := x
  exact ⟨⟨h.1, h1⟩, h2⟩

theorem lastGasp_calm {t : TlsStream} (h : t.Calm) : t.lastGasp.Calm := by
  obtain ⟨h1, h2⟩ := h
  unfold lastGasp Sock.write
  cases he : t.sock.evs with
  | nil => exact ⟨h1, by simp [he]⟩
  | cons ev evs =>
    rw [he] at h2
    have h' : WEv.err .interrupted ∉ evs := fun hm => h2 (List.mem_cons_of_mem _ hm)
    cases ev <;> exact ⟨h1, h'⟩

theorem refuse_calm {t : TlsStream} (h : t.Calm) : Calmly t.refuse := by
  refine ⟨lastGasp_calm ?_, by simp [refuse]⟩
  split <;> exact h

theorem completeLoop_calm (ud : Bool) (input : List TlsEv) (sess : TlsSession) (sock : Sock) (wrote didRead : Bool) (h : Calm ⟨sess, input, sock⟩) :
    Calmly (completeLoop ud input sess sock wrote didRead) := by
  induction input generalizing sess sock wrote didRead with
  | nil =>
    have hw := writeTls_calm h
    unfold completeLoop
    generalize writeTls ⟨sess, [], sock⟩ = x at hw
    obtain ⟨x, t⟩ := x
    cases x with
    | error e => exact ⟨hw.1, fun h => hw.2 (by cases h; rfl)⟩
    | ok n =>
      dsimp only
      split
      · exact ⟨hw.1, nofun⟩
      · split
        · exact ⟨hw.1, nofun⟩
        · split
          · exact refuse_calm hw.1
          · exact ⟨hw.1, nofun⟩
  | cons ev es ih =>
    have hw := writeTls_calm h
    have hes : TlsEv.err .interrupted ∉ es := fun hm => h.1 (List.mem_cons_of_mem _ hm)
    have hev : ∀ e, ev = .err e → e ≠ .interrupted := fun e h1 h2 => h.1 (by rw [h1, h2]; exact List.mem_cons_self ..)
    unfold completeLoop
    generalize writeTls ⟨sess, ev :: es, sock⟩ = x at hw
    obtain ⟨x, t⟩ := x
    cases x with
    | error e => exact ⟨hw.1, fun h => hw.2 (by cases h; rfl)⟩
    | ok n =>
      have ht : Calm { t with input := es } := ⟨hes, hw.1.2⟩
      dsimp only
      split
      · exact ⟨hw.1, nofun⟩
      · split
        · cases ev with
          | err e =>
            refine ⟨ht, fun h => ?_⟩
            cases h
            exact hev _ rfl rfl
          | eof =>
            dsimp only
            split
            · exact refuse_calm ht
            · split <;> exact ⟨ht, nofun⟩
          | bad => exact refuse_calm ht
          | records a b c d =>
            dsimp only
            split
            · exact refuse_calm ht
            · split
              · exact ih _ _ _ _ ⟨hes, hw.1.2⟩
              · exact ⟨⟨hes, hw.1.2⟩, nofun⟩
        · split
          · exact refuse_calm hw.1
          · exact ⟨hw.1, nofun⟩

theorem completeIo_calm {t : TlsStream} (h : t.Calm) : Calmly t.completeIo := completeLoop_calm _ _ _ _ _ _ h

theorem completePriorIo_calm {t : TlsStream} (h : t.Calm) : Calmly t.completePriorIo := by
  have key : ∀ (b : Bool) {t : TlsStream}, t.Calm → Calmly (if b then t.completeIo else (.ok false, t)) := by
    intro b t h
    split
    · exact completeIo_calm h
    · exact ⟨h, nofun⟩
  unfold completePriorIo
  have h1 := key t.sess.handshaking h
  generalize (if t.sess.handshaking then t.completeIo else (.ok false, t)) = x at h1
  obtain ⟨x, t₁⟩ := x
  cases x with
  | error e => exact ⟨h1.1, fun h => h1.2 (by cases h; rfl)⟩
  | ok b =>
    have h2 := key t₁.sess.wantsWrite h1.1
    dsimp only
    generalize (if t₁.sess.wantsWrite then t₁.completeIo else (.ok false, t₁)) = x at h2
    obtain ⟨x, t₂⟩ := x
    cases x with
    | error e => exact ⟨h2.1, fun h => h2.2 (by cases h; rfl)⟩
    | ok b => exact ⟨h2.1, nofun⟩

theorem readLoop_calm (f : Nat) {t : TlsStream} (h : t.Calm) : Calmly (readLoop f t) := by
  induction f generalizing t with
  | zero => exact ⟨h, nofun⟩
  | succ f ih =>
    unfold readLoop
    split
    · have h1 := completeIo_calm h
      generalize t.completeIo = x at h1
      obtain ⟨x, t₁⟩ := x
      cases x with
      | error e => exact ⟨h1.1, fun h => h1.2 (by cases h; rfl)⟩
      | ok b =>
        cases b with
        | true => exact ih h1.1
        | false => exact ⟨h1.1, nofun⟩
    · exact ⟨h, nofun⟩

theorem read_calm {t : TlsStream} (h : t.Calm) (n : Nat) : (t.read n).2.Calm := by
  have h1 := completePriorIo_calm h
  unfold read
  generalize t.completePriorIo = x at h1
  obtain ⟨x, t₁⟩ := x
  cases x with
  | error e => exact h1.1
  | ok u =>
    have h2 := readLoop_calm (t₁.input.length + 1) h1.1
    dsimp only
    generalize readLoop (t₁.input.length + 1) t₁ = x at h2
    obtain ⟨x, t₂⟩ := x
    cases x with
    | error e => exact h2.1
    | ok u => exact h2.1

theorem read_within (t : TlsStream) (n : Nat) {b : Bytes} (h : (t.read n).1 = .ok b) : b.length ≤ n := by
  unfold read at h
  generalize t.completePriorIo = x at h
  obtain ⟨x, t₁⟩ := x
  cases x with
  | error e => cases h
  | ok u =>
    dsimp only at h
    generalize readLoop (t₁.input.length + 1) t₁ = x at h
    obtain ⟨x, t₂⟩ := x
    cases x with
    | error e => cases h
    | ok u =>
      dsimp only at h
      unfold TlsSession.read at h
      split at h
      · cases h
      · cases h
        simp only [List.length_take]
        omega

theorem write_calm {t : TlsStream} (h : t.Calm) (b : Bytes) : Calmly (t.write b) := by
  have h1 := completePriorIo_calm h
  unfold write
  generalize t.completePriorIo = x at h1
  obtain ⟨x, t₁⟩ := x
  cases x with
  | error e => exact ⟨h1.1, fun h => h1.2 (by cases h; rfl)⟩
  | ok u => exact ⟨(completeIo_calm (t := { t₁ with sess := t₁.sess.write b }) h1.1).1, nofun⟩

theorem flush_calm {t : TlsStream} (h : t.Calm) : t.flush.2.Calm := by
  have h1 := completePriorIo_calm h
  unfold flush
  generalize t.completePriorIo = x at h1
  obtain ⟨x, t₁⟩ := x
  cases x with
  | error e => exact h1.1
  | ok u =>
    dsimp only
    split
    · have h2 := completeIo_calm h1.1
      generalize t₁.completeIo = x at h2
      obtain ⟨x, t₂⟩ := x
      cases x <;> exact h2.1
    · exact h1.1

end TlsStream

end Verif
