import Verif.Proofs.HeaderLines

/-!
The text of the test infinite_chunked_body (tests/http_server.rs 498-522), one byte at a time.
-/

namespace Verif

variable {prof : Profile}

/-- The parser waits after each of these bytes when they come one at a time. -/
inductive Slowly (prof : Profile) : RequestParser → Bytes → RequestParser → Prop
  | nil {p : RequestParser} : Slowly prof p [] p
  | cons {p p₁ p' : RequestParser} {b : UInt8} {bs : Bytes} : (∀ X, RequestParser.parse prof p (⟨[], .byte b :: WB :: X⟩ : AR) = (.io p₁ .wouldBlock, ⟨[], X⟩)) → Slowly prof p₁ bs p' →
      Slowly prof p (b :: bs) p'

theorem Slowly.append {p p₁ p' : RequestParser} {bs bs' : Bytes} (h : Slowly prof p bs p₁) (h' : Slowly prof p₁ bs' p') : Slowly prof p (bs ++ bs') p' := by
  induction h with
  | nil => exact h'
  | cons h _ ih => exact .cons h (ih h')

/-- Running it. -/
def byteRun (prof : Profile) : RequestParser → Bytes → Option RequestParser
  | p, [] => some p
  | p, b :: bs =>
    match RequestParser.parse prof p (⟨[], [.byte b]⟩ : AR) with
    | (.io p' .wouldBlock, ⟨[], _⟩) => byteRun prof p' bs
    | _ => none

theorem byteRun_slowly {bs : Bytes} : ∀ {p p' : RequestParser}, byteRun prof p bs = some p' → Slowly prof p bs p' := by
  induction bs with
  | nil => intro p p' h; cases h; exact .nil
  | cons b bs ih =>
    intro p p' h
    unfold byteRun at h
    split at h
    · rename_i p₁ x hp
      refine .cons (fun X => ?_) (ih h)
      exact (request_block X (by simp [WB]) hp).2
    · cases h

theorem body_chunk {m : Method} {u : Bytes} {hs : HeaderMap} {p p' : ChunksParser} {lim x : Nat} {as rest : List Atom} {e : IoError} (hl : prof.sub (3 * 1024 * 1024) p.body.length = some lim)
    (h : crun prof p ⟨[lim], as⟩ = (.io p' e, ⟨[x], rest⟩)) : RequestParser.parse prof (.body (m, u) hs (.chunked p)) (⟨[], as⟩ : AR) = (.io (.body (m, u) hs (.chunked p')) e, ⟨[], rest⟩) := by
  rw [request_body, bodyParse_eq]
  simp only [BodyParser.readSoFar, maxBodySize, hl, h]
  rfl

/-- One chunk of the test. -/
def helloChunk : Bytes := b!"5\r\nhello\r\n"

theorem crun_size {B l : Bytes} {b : UInt8} (hb : OneLine [b]) (hl : l.length < 500) {lim : Nat} (h : 2 ≤ lim) (X : List Atom) :
    ∃ x, crun prof ⟨B, .size l⟩ ⟨[lim], .byte b :: WB :: X⟩ = (.io ⟨B, .size (l ++ [b])⟩ .wouldBlock, ⟨[x], X⟩) := by
  have := crlf_paused (prof := prof) (i := l) hb (by simp; omega) (lim := [lim]) (by simp; omega) (Y := WB :: X) (.inr ⟨_, rfl⟩)
  refine ⟨lim - 1, ?_⟩
  rw [crun_cont _ _ _ (by simp)]
  simp only [chunkStep, sizeState]
  rw [show (Atom.byte b :: WB :: X) = [b].map .byte ++ WB :: X from rfl, this]
  rfl

theorem crun_crlf {B l : Bytes} {b : UInt8} {last : Bool} (hb : OneLine [b]) (hl : l.length < 500) {lim : Nat} (h : 2 ≤ lim) (X : List Atom) :
    ∃ x, crun prof ⟨B, .tailingCrlf l last⟩ ⟨[lim], .byte b :: WB :: X⟩ = (.io ⟨B, .tailingCrlf (l ++ [b]) last⟩ .wouldBlock, ⟨[x], X⟩) := by
  have := crlf_paused (prof := prof) (i := l) hb (by simp; omega) (lim := [lim]) (by simp; omega) (Y := WB :: X) (.inr ⟨_, rfl⟩)
  refine ⟨lim - 1, ?_⟩
  rw [crun_cont _ _ _ (by simp)]
  simp only [chunkStep, tailingCrlfState]
  rw [show (Atom.byte b :: WB :: X) = [b].map .byte ++ WB :: X from rfl, this]
  rfl

theorem crun_sized {B : Bytes} {lim : Nat} (h : 2 ≤ lim) (X : List Atom) :
    ∃ x, crun prof ⟨B, .size b!"5\r"⟩ ⟨[lim], .byte LF :: WB :: X⟩ = (.io ⟨B, .data ⟨5, []⟩⟩ .wouldBlock, ⟨[x], X⟩) := by
  have := crlf_found (prof := prof) (ln := b!"5") (i := b!"5\r") (u := [LF]) (by unfold OneLine; decide) (by decide) (by decide) (by simp) (lim := [lim]) (by simp; omega) (WB :: X)
  refine ⟨lim - 1 - 0, ?_⟩
  rw [crun_cont _ _ _ (by simp)]
  simp only [chunkStep, sizeState]
  rw [show (Atom.byte LF :: WB :: X) = [LF].map .byte ++ WB :: X from rfl, this]
  simp only [Out.bind, show parseChunkSize b!"5" = .ok 5 from rfl, Out.cont]
  rw [crun_cont _ _ _ (by simp)]
  simp only [chunkStep, dataState]
  rw [show (WB :: X) = ([] : Bytes).map .byte ++ .err .wouldBlock :: X from rfl, bytes_pause (by simp) (by simp; omega)]
  simp [Out.bind, Out.cont, decN]

theorem crun_data {B d : Bytes} {b : UInt8} (hd : d.length < 4) {lim : Nat} (h : 2 ≤ lim) (X : List Atom) :
    ∃ x, crun prof ⟨B, .data ⟨5, d⟩⟩ ⟨[lim], .byte b :: WB :: X⟩ = (.io ⟨B, .data ⟨5, d ++ [b]⟩⟩ .wouldBlock, ⟨[x], X⟩) := by
  refine ⟨lim - 1, ?_⟩
  rw [crun_cont _ _ _ (by simp)]
  simp only [chunkStep, dataState]
  rw [show (Atom.byte b :: WB :: X) = [b].map .byte ++ .err .wouldBlock :: X from rfl, bytes_pause (by simp; omega) (by simp; omega)]
  simp [Out.bind, Out.cont, decN]

theorem crun_full {B : Bytes} {lim : Nat} (h : 2 ≤ lim) (X : List Atom) :
    ∃ x, crun prof ⟨B, .data ⟨5, b!"hell"⟩⟩ ⟨[lim], .byte 111 :: WB :: X⟩ = (.io ⟨B ++ b!"hello", .tailingCrlf [] false⟩ .wouldBlock, ⟨[x], X⟩) := by
  refine ⟨lim - 1, ?_⟩
  rw [crun_cont _ _ _ (by simp)]
  simp only [chunkStep, dataState]
  rw [show (Atom.byte 111 :: WB :: X) = [111].map .byte ++ WB :: X from rfl, bytes_finish (by decide) (by simp; omega)]
  simp only [Out.bind, Out.cont]
  rw [crun_cont _ _ _ (by simp)]
  simp only [chunkStep, tailingCrlfState]
  rw [WB, crlf_wb prof (by simp [decN]; omega)]
  simp [Out.bind, Out.cont, decN]

theorem crun_next {B : Bytes} {lim : Nat} (h : 2 ≤ lim) (X : List Atom) :
    ∃ x, crun prof ⟨B, .tailingCrlf [CR] false⟩ ⟨[lim], .byte LF :: WB :: X⟩ = (.io ⟨B, .size []⟩ .wouldBlock, ⟨[x], X⟩) := by
  have := crlf_found (prof := prof) (ln := []) (i := [CR]) (u := [LF]) (by unfold OneLine; decide) (by decide) (by decide) (by simp) (lim := [lim]) (by simp; omega) (WB :: X)
  refine ⟨lim - 1, ?_⟩
  rw [crun_cont _ _ _ (by simp)]
  simp only [chunkStep, tailingCrlfState]
  rw [show (Atom.byte LF :: WB :: X) = [LF].map .byte ++ WB :: X from rfl, this]
  simp only [Out.bind, Out.cont, ne_eq, not_true_eq_false, if_false, Bool.false_eq_true]
  rw [crun_cont _ _ _ (by simp)]
  simp only [chunkStep, sizeState]
  rw [WB, crlf_wb prof (by simp; omega)]
  simp [Out.bind, Out.cont]

/-- Where the parser is between the chunks. -/
abbrev chunkSt (hs : HeaderMap) (B : Bytes) (st : ChunkState) : RequestParser := .body (.get, b!"/") hs (.chunked ⟨B, st⟩)

theorem slow_step {hs : HeaderMap} {B B' : Bytes} {st st' : ChunkState} {b : UInt8} {lim : Nat} (hl : prof.sub (3 * 1024 * 1024) B.length = some lim) (h2 : 2 ≤ lim)
    (h : ∀ {lim : Nat}, 2 ≤ lim → ∀ X, ∃ x, crun prof ⟨B, st⟩ ⟨[lim], .byte b :: WB :: X⟩ = (.io ⟨B', st'⟩ .wouldBlock, ⟨[x], X⟩)) {bs : Bytes} {p : RequestParser} (h' : Slowly prof (chunkSt hs B' st') bs p) :
    Slowly prof (chunkSt hs B st) (b :: bs) p := by
  refine .cons (fun X => ?_) h'
  obtain ⟨x, h⟩ := h h2 X
  exact body_chunk hl h

/-- The data of a chunk. -/
theorem slow_data {hs : HeaderMap} {B : Bytes} {lim : Nat} (hl : prof.sub (3 * 1024 * 1024) B.length = some lim) (h2 : 2 ≤ lim) : Slowly prof (chunkSt hs B (.size [])) b!"5\r\nhello" (chunkSt hs (B ++ b!"hello") (.tailingCrlf [] false)) := by
  refine slow_step hl h2 (crun_size (by unfold OneLine; decide) (by decide)) ?_
  refine slow_step hl h2 (crun_size (by unfold OneLine; decide) (by decide)) ?_
  refine slow_step hl h2 crun_sized ?_
  refine slow_step hl h2 (crun_data (by decide)) ?_
  refine slow_step hl h2 (crun_data (by decide)) ?_
  refine slow_step hl h2 (crun_data (by decide)) ?_
  refine slow_step hl h2 (crun_data (by decide)) ?_
  refine slow_step hl h2 crun_full ?_
  exact .nil

/-- The end of a chunk. -/
theorem slow_end {hs : HeaderMap} {B : Bytes} {lim : Nat} (hl : prof.sub (3 * 1024 * 1024) B.length = some lim) (h2 : 2 ≤ lim) : Slowly prof (chunkSt hs B (.tailingCrlf [] false)) CRLF (chunkSt hs B (.size [])) := by
  refine slow_step hl h2 (crun_crlf (by unfold OneLine; decide) (by decide)) ?_
  refine slow_step hl h2 crun_next ?_
  exact .nil

/-- Some chunks. -/
theorem slow_chunks {hs : HeaderMap} (k : Nat) (hk : ∀ j ≤ k, ∃ lim, prof.sub (3 * 1024 * 1024) (5 * j) = some lim ∧ 2 ≤ lim) :
    Slowly prof (chunkSt hs [] (.size [])) (again k helloChunk) (chunkSt hs (again k b!"hello") (.size [])) := by
  induction k with
  | zero => exact .nil
  | succ k ih =>
    rw [again_add k 1, again_add k 1]
    have hl : ∀ j, (again j b!"hello").length = 5 * j := fun j => by rw [again_length]; simp [Nat.mul_comm]
    obtain ⟨l1, h1, h2⟩ := hk k (by omega)
    obtain ⟨l2, h3, h4⟩ := hk (k + 1) (by omega)
    refine (ih fun j hj => hk j (by omega)).append ?_
    rw [show again 1 helloChunk = b!"5\r\nhello" ++ CRLF by decide, show again 1 b!"hello" = b!"hello" by decide]
    refine (slow_data (by rw [hl]; exact h1) h2).append (slow_end ?_ h4)
    rw [← h3, ← hl (k + 1), again_add k 1]
    rfl

/-- The head of the test. -/
def helloHead : Bytes := b!"GET / HTTP/1.1\r\ntransfer-encoding: chunked\r\n\r\n"

theorem slow_head (prof : Profile) : Slowly prof .new helloHead (chunkSt (HeaderMap.fromPairs [(Header.transferEncoding, b!"chunked")]) [] (.size [])) := by
  refine byteRun_slowly ?_
  obtain ⟨_ | _⟩ := prof <;> decide +kernel

end Verif
