import Verif.Spec.Grammar

/-! Vocabulary for C81: what the requests that listeners see are made of. -/

namespace Verif

/-- The requests `qs` have texts that, one after the other, are what is left of `sent` when some bytes are left out, so that no byte is part of two of them; and if all of `sent` is ASCII, nothing is left out
before the end of the last one. -/
def MadeOf (sent : Bytes) (qs : List Request) : Prop :=
  ∃ ms : List (Bytes × Request), ms.map Prod.snd = qs ∧ (∀ m ∈ ms, RequestText m.1 m.2) ∧ (ms.flatMap Prod.fst).Sublist sent ∧ ((∀ b ∈ sent, b < 128) → ms.flatMap Prod.fst <+: sent)

end Verif
