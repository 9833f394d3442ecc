import Verif.Model.Writer

/-!
What every writing operation keeps, writing a message keeps; and the buffer of `BufWriter` never holds more than its capacity.
-/

namespace Verif

open Write

section

variable {W : Type} [Write W]

/-- The writing operations keep `I`. -/
structure WriterKeeps (I : W → Prop) : Prop where
  write : ∀ w b, I w → I (Write.write w b).2
  flush : ∀ w, I w → I (Write.flush w).2

variable {I : W → Prop} (h : WriterKeeps I)
include h

namespace WriterKeeps

theorem writeAllLoop (f : Nat) {w : W} (b : Bytes) (hw : I w) : I (Write.writeAllLoop f w b).2 := by
  induction f generalizing w b with
  | zero => cases b <;> exact hw
  | succ f ih =>
    cases b with
    | nil => exact hw
    | cons a b =>
      have := h.write w (a :: b) hw
      rw [Write.writeAllLoop.eq_3 _ _ _ (by simp)]
      generalize Write.write w (a :: b) = q at this
      obtain ⟨o, w'⟩ := q
      match o with
      | .ok 0 => exact this
      | .ok (n + 1) => exact ih _ this
      | .error e => cases e <;> first | exact this | exact ih _ this

theorem writeAll {w : W} (b : Bytes) (hw : I w) : I (Write.writeAll w b).2 := h.writeAllLoop _ b hw

theorem fmt {w : W} (ps : List Bytes) (hw : I w) : I (Write.fmt w ps).2 := by
  induction ps generalizing w with
  | nil => exact hw
  | cons p ps ih =>
    have := h.writeAll p hw
    rw [Write.fmt]
    generalize Write.writeAll w p = q at this
    obtain ⟨o, w'⟩ := q
    cases o <;> first | exact this | exact ih this

omit h [Write W] in
theorem andThen {x : IoRes × W} {k : W → IoRes × W} (hx : I x.2) (hk : ∀ w, I w → I (k w).2) : I (Write.andThen x k).2 := by
  obtain ⟨o, w⟩ := x
  cases o <;> first | exact hx | exact hk _ hx

omit h [Write W] in
theorem res {α : Type} {x : Except IoError α × W} (hx : I x.2) : I (Write.res x).2 := by
  obtain ⟨o, w⟩ := x
  cases o <;> exact hx

theorem headerLines {w : W} (hs : List (Header × Bytes)) (hw : I w) : I (Write.headerLines w hs).2 := by
  induction hs generalizing w with
  | nil => exact hw
  | cons p hs ih => exact andThen (h.fmt _ hw) fun w hw => ih hw

theorem request {w : W} (q : Request) (hw : I w) : I (writeRequest w q).2 :=
  andThen (h.fmt _ hw) fun _ hw => andThen (h.headerLines _ hw) fun _ hw => andThen (h.writeAll _ hw) fun _ hw => andThen (h.writeAll _ hw) fun _ hw => res (h.flush _ hw)

end WriterKeeps

end

/-- The buffer holds no more than it has room for. -/
def BufW.Fits (n : Nat) (w : BufW) : Prop := w.cap = n ∧ w.buf.length ≤ n

theorem bufW_flushLoop_fits (fl : List (Option IoError)) (n : Nat) (evs : List WEv) (sent b : Bytes) (hb : b.length ≤ n) : (BufW.flushLoop fl n evs sent b).2.Fits n := by
  induction evs generalizing sent b with
  | nil =>
    cases b with
    | nil => exact ⟨rfl, Nat.zero_le _⟩
    | cons a b => exact ⟨rfl, hb⟩
  | cons e es ih =>
    cases b with
    | nil => cases e <;> exact ⟨rfl, Nat.zero_le _⟩
    | cons a b =>
      cases e with
      | err e =>
        rw [BufW.flushLoop.eq_3 _ _ _ _ _ _ (by simp)]
        split
        · exact ih _ _ hb
        · exact ⟨rfl, hb⟩
      | accept k =>
        rw [BufW.flushLoop.eq_4 _ _ _ _ _ _ (by simp)]
        split
        · exact ⟨rfl, hb⟩
        · exact ih _ _ (by rw [List.length_drop]; omega)

theorem bufW_flushLoop_ok {fl : List (Option IoError)} {n : Nat} {evs : List WEv} {sent b : Bytes} {w : BufW} (h : BufW.flushLoop fl n evs sent b = (.ok (), w)) : w.buf = [] := by
  induction evs generalizing sent b with
  | nil =>
    cases b with
    | nil => cases h; rfl
    | cons a b => cases h
  | cons e es ih =>
    cases b with
    | nil => cases e <;> (cases h; rfl)
    | cons a b =>
      cases e with
      | err e =>
        rw [BufW.flushLoop.eq_3 _ _ _ _ _ _ (by simp)] at h
        split at h
        · exact ih h
        · cases h
      | accept k =>
        rw [BufW.flushLoop.eq_4 _ _ _ _ _ _ (by simp)] at h
        split at h
        · cases h
        · exact ih h

theorem bufW_flushBuf_fits {n : Nat} {w : BufW} (h : w.Fits n) : w.flushBuf.2.Fits n := by
  unfold BufW.flushBuf
  rw [h.1]
  exact bufW_flushLoop_fits _ _ _ _ _ h.2

theorem bufW_keeps_fits (n : Nat) : WriterKeeps (BufW.Fits n) where
  write w b h := by
    show (BufW.write w b).2.Fits n
    have h1 := h.1
    have h2 := h.2
    unfold BufW.write
    split
    · next hlt => exact ⟨h1, by rw [List.length_append]; omega⟩
    · next hge =>
      have key : ∀ y : Except IoError Unit × BufW, y.2.Fits n → (y.1 = .ok () → y.2.buf.length + b.length ≤ n ∨ n ≤ b.length) →
          BufW.Fits n (match y with
            | (.error e, w) => ((.error e : Except IoError Nat), w)
            | (.ok (), w) =>
              if b.length ≥ w.cap then
                let (r, sock) := w.sock.write b
                (r, { w with sock })
              else (.ok b.length, { w with buf := w.buf ++ b })).2 := by
        intro y hy hk
        obtain ⟨o, w'⟩ := y
        cases o with
        | error e => exact hy
        | ok =>
          dsimp only
          split
          · exact ⟨hy.1, hy.2⟩
          · next hc =>
            refine ⟨hy.1, ?_⟩
            have h3 : w'.cap = n := hy.1
            have := hk rfl
            dsimp only at this ⊢
            rw [List.length_append]
            omega
      refine key _ ?_ ?_
      · split
        · exact bufW_flushBuf_fits h
        · exact h
      · intro ho
        split at ho
        · next hgt =>
          rw [if_pos hgt]
          have : w.flushBuf = (.ok (), w.flushBuf.2) := Prod.ext ho rfl
          have := bufW_flushLoop_ok this
          rw [this, List.length_nil]
          omega
        · next hgt => rw [if_neg hgt]; dsimp only; omega
  flush w h := by
    show (BufW.flush w).2.Fits n
    have := bufW_flushBuf_fits h
    unfold BufW.flush
    generalize w.flushBuf = y at this
    obtain ⟨o, w'⟩ := y
    cases o
    · exact this
    · exact ⟨this.1, this.2⟩

end Verif
