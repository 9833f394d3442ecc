import Verif.Spec.Grammar

/-!
Clients that never finish their request.
-/

namespace Verif

/-- What one parse call takes at most: the first line, the header section and the body. -/
def callBudget : Nat := 512 + 4096 + 3 * 1024 * 1024

/-- Far too much without an end: a first line, a header section, or anything at all that does not even begin with a whole request. -/
def Endless (bs : Bytes) : Prop :=
  (512 < bs.length ∧ LF ∉ bs) ∨ (512 + 4096 < bs.length ∧ ¬ Occurs b!"\r\n\r\n" bs) ∨
    (callBudget < bs.length ∧ ∀ t q, t <+: bs → ¬ RequestText t q)

/-- Some text over and over. -/
def again (k : Nat) (b : Bytes) : Bytes := (List.replicate k b).flatten

/-- Text of ASCII characters other than line feeds. -/
def OneLine (b : Bytes) : Prop := ∀ c ∈ b, c < 128 ∧ c ≠ LF

/-- More than a request may have, however slowly it comes: 512 characters of one line, or after the first line of a request so many times one and the same header line
that their lengths add up to more than 4096, where the length of the line is a divisor of 4096 or 4095, or after a header section that announces a chunked body so many times one and the same
chunk that there is more than 3 MiB of data, where the size of the chunk is a divisor of 3 MiB or one less. -/
inductive Interminable : Bytes → Prop
  | line {b : Bytes} : OneLine b → 512 ≤ b.length → Interminable b
  | fields {m : Method} {u l : Bytes} {f : Bytes × Bytes} : RequestLine m u l → LineText l → FieldText f → (∀ c ∈ l ++ fieldLine f, c < 128) → 4096 % (fieldLine f).length ≤ 1 →
      Interminable (l ++ CRLF ++ again (4096 / (fieldLine f).length + 1) (fieldLine f ++ CRLF))
  | chunks {m : Method} {u l : Bytes} {fs : List (Bytes × Bytes)} {c : Bytes × Bytes} : RequestLine m u l → LineText l → (∀ f ∈ fs, FieldText f) → (∀ x ∈ l ++ fieldLines fs, x < 128) →
      (fieldLines fs).length + 2 ≤ 4096 → Announces (fieldMap fs) false (.ok .chunked) → ChunkText c → 3 * 1024 * 1024 % c.2.length ≤ 1 →
      Interminable (l ++ CRLF ++ (fieldLines fs ++ CRLF ++ again (3 * 1024 * 1024 / c.2.length + 1) (c.1 ++ CRLF ++ (c.2 ++ CRLF))))

/-- What one request may take with any pauses, with overflow checks: the size line of a chunk of one byte may be padded with zeros. -/
def slowBudget : Nat := 512 + 8704 + 515 * (6 * 1024 * 1024) + 1024

/-- A beginning of a request that a server may wait with for the rest: up to 512 bytes, or more if a line has ended. With overflow checks there are also bounds after the end of the first line, and of the header section. -/
def Awaited (prof : Profile) (w : Bytes) : Prop :=
  w.length ≤ 512 ∨ LF ∈ w ∧ (prof.overflowChecks = true → w.length ≤ 512 + 8704 ∨ Occurs b!"\r\n\r\n" w ∧ w.length ≤ slowBudget)

/-- All of `sent` is the texts of the requests `qs`, one after the other, and the beginning of another with which a server may wait. -/
def AwaitedAfter (prof : Profile) (qs : List Request) (sent : Bytes) : Prop :=
  ∃ (ms : List (Bytes × Request)) (w : Bytes), ms.map Prod.snd = qs ∧ (∀ m ∈ ms, RequestText m.1 m.2) ∧ sent = ms.flatMap Prod.fst ++ w ∧ Awaited prof w

end Verif
