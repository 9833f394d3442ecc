import Verif.Proofs.Pauses
import Verif.Props.Limits

/-!
C02: pausing and resuming a parse.
-/

namespace Verif

/-- C02 is false: if reading pauses inside a multi-byte character of a line, the part of the line received
before is lost, and a request that is accepted when it arrives at once is rejected. -/
theorem C02_character_false (prof : Profile) : ∃ (a b : Bytes) (q : Request),
    (∀ r : Rd, r.Ahead ((a ++ b).map .byte) →
      ∃ r', RequestParser.parse prof .new r = (.done q, r') ∧ r'.Ahead []) ∧
    ∀ r : Rd, r.Ahead (a.map .byte ++ .err .wouldBlock :: b.map .byte) →
      ∃ r', Calls (RequestParser.parse prof) .new r (.perr .invalidUtf8) r' := by
  refine ⟨b!"GET /caf" ++ [0xC3], 0xA9 :: b!" HTTP/1.1\r\n\r\n", ⟨b!"/caf" ++ [0xC3, 0xA9], .get, [], []⟩,
    fun r hr => requestParse_of hr (by rcases prof with ⟨_ | _⟩ <;> decide +kernel), fun r hr => ?_⟩
  obtain ⟨r', h, -⟩ := calls_of (requestParse_abs prof) (p := .new) (o := .perr .invalidUtf8) (rest := b!"\r\n".map .byte) 1 hr
    (by rcases prof with ⟨_ | _⟩ <;> decide +kernel)
  exact ⟨r', h⟩

/-- A limit was exceeded. -/
def isLimit {σ τ : Type} : Out σ τ → Bool
  | .io _ .limitReached => true
  | _ => false

theorem limited_of {prof : Profile} {p : RequestParser} {r : Rd} {as : List Atom} (hr : r.Ahead as)
    (h : isLimit (RequestParser.parse prof p (⟨[], as⟩ : AR)).1 = true) :
    ∃ p' r', RequestParser.parse prof p r = (.io p' .limitReached, r') := by
  rw [requestParse_ahead hr] at h
  generalize hp : RequestParser.parse prof p r = x at h
  obtain ⟨o, r'⟩ := x
  unfold isLimit at h
  split at h
  · rename_i heq
    exact ⟨_, r', by simp only at heq; rw [heq]⟩
  · cases h

/-- C02 is false the other way round: a header section that is too long when it arrives at once is accepted
when reading pauses. -/
theorem C02_headers_false (prof : Profile) : ∃ (a b : Bytes) (q : Request),
    (∀ r : Rd, r.Ahead ((a ++ b).map .byte) →
      ∃ p r', RequestParser.parse prof .new r = (.io p .limitReached, r')) ∧
    ∀ r : Rd, r.Ahead (a.map .byte ++ .err .wouldBlock :: b.map .byte) →
      ∃ r', Calls (RequestParser.parse prof) .new r (.done q) r' ∧ r'.Ahead [] := by
  obtain ⟨q, -, h⟩ := C13_paused_false prof
  refine ⟨b!"GET / HTTP/1.1\r\n" ++ fieldLines (manyFields 600), fieldLines (manyFields 90) ++ CRLF, q, fun r hr => ?_, h⟩
  refine limited_of hr ?_
  rcases prof with ⟨_ | _⟩ <;> decide +kernel

/-- C02 is false for bodies: a request with a body of 2 MiB is never accepted when it is available at once,
but is accepted when it arrives in three pieces. -/
theorem C02_body_false (prof : Profile) (x y z : Bytes) (hx : x.length = 1024 * 1024 - 1)
    (hy : y.length = 1024 * 1024 - 1) (hz : z.length = 2) :
    (∀ r : Rd, r.Ahead ((sizedHead (2 * 1024 * 1024) ++ (x ++ y ++ z)).map .byte) →
      ¬ ∃ q r', RequestParser.parse prof .new r = (.done q, r')) ∧
    ∀ r : Rd, r.Ahead ((sizedHead (2 * 1024 * 1024)).map .byte ++
        (x.map .byte ++ .err .wouldBlock :: (y.map .byte ++ .err .wouldBlock :: z.map .byte))) →
      ∃ q r', Calls (RequestParser.parse prof) .new r (.done q) r' ∧ q.body = x ++ y ++ z ∧ r'.Ahead [] := by
  have hlen : (x ++ y ++ z).length = 2 * 1024 * 1024 := by simp only [List.length_append]; omega
  refine ⟨fun r hr => ?_, fun r hr => ?_⟩
  · exact (C15_half_false prof (body := x ++ y ++ z) (by omega) (by omega)).2 r [] (by rw [hlen]; simpa using hr)
  · obtain ⟨ha, hb⟩ := sizedHead_text (body := x ++ y ++ z) (by omega)
    rw [hlen] at hb
    obtain ⟨r', h1, h2⟩ := C15_pieces_partial prof (xs := [x, y]) (last := z) (rest := []) (r := r) ha hb
      (by decide +kernel) (by simp) (by intro h; rw [h] at hz; simp at hz)
      (by intro a ha; simp only [List.mem_cons, List.not_mem_nil, or_false] at ha; rcases ha with rfl | rfl <;> omega)
      (by omega) (by
        have e : sizedHead (2 * 1024 * 1024) = b!"POST / HTTP/1.1" ++ CRLF ++
            fieldLines [(b!"Content-Length", natDec (2 * 1024 * 1024))] ++ CRLF := by
          simp [sizedHead, fieldLines, fieldLine]
        rw [e] at hr
        simpa using hr)
    exact ⟨_, r', h1, rfl, h2⟩

example : ∃ x y z : Bytes, x.length = 1024 * 1024 - 1 ∧ y.length = 1024 * 1024 - 1 ∧ z.length = 2 :=
  ⟨List.replicate (1024 * 1024 - 1) 0, List.replicate (1024 * 1024 - 1) 0, [0, 0],
    List.length_replicate, List.length_replicate, rfl⟩

/-- C02 (partial: no pause inside a character, limits apart): if calls were paused but none inside a
character, then one call with all that input, without the pauses, either exceeds a limit, or takes as much
of the input and has the same outcome (for an I/O error: the same error). -/
theorem C02_clean_calls_partial {prof : Profile} {r r₁ r' : Rd} {w rest : List Atom} {o : Out RequestParser Request}
    (h : CleanCalls (RequestParser.parse prof) RequestParser.new r w r₁ o r') (hl : r.lims = []) (h₁ : r₁.Ahead rest)
    {s : Rd} (hs : s.Ahead (w ++ rest)) :
    (∃ p s', RequestParser.parse prof .new s = (.io p .limitReached, s')) ∨
      ∃ o₁ s', RequestParser.parse prof .new s = (o₁, s') ∧ s'.lims = r'.lims ∧ s'.src.atoms = r'.src.atoms ∧
        (o₁ = o ∨ ∃ p p' e, o₁ = .io p e ∧ o = .io p' e) :=
  h.one (request_isWrap prof) hl h₁ hs

/-- The same for responses. -/
theorem C02_clean_calls_response_partial {prof : Profile} {r r₁ r' : Rd} {w rest : List Atom}
    {o : Out ResponseParser Response} (h : CleanCalls (ResponseParser.parse prof) ResponseParser.new r w r₁ o r') (hl : r.lims = [])
    (h₁ : r₁.Ahead rest) {s : Rd} (hs : s.Ahead (w ++ rest)) :
    (∃ p s', ResponseParser.parse prof .new s = (.io p .limitReached, s')) ∨
      ∃ o₁ s', ResponseParser.parse prof .new s = (o₁, s') ∧ s'.lims = r'.lims ∧ s'.src.atoms = r'.src.atoms ∧
        (o₁ = o ∨ ∃ p p' e, o₁ = .io p e ∧ o = .io p' e) :=
  h.one (response_isWrap prof) hl h₁ hs

/-- Two clean calls. -/
example (r : Rd) (hr : r.Ahead ((b!"GET /caf" ++ [0xC3, 0xA9] ++ b!" HT").map .byte ++
    .err .wouldBlock :: b!"TP/1.1\r\n\r\n".map .byte)) : ∃ r₁ r',
    CleanCalls (RequestParser.parse ⟨true⟩) RequestParser.new r ((b!"GET /caf" ++ [0xC3, 0xA9] ++ b!" HT").map .byte ++ []) r₁
      (.done ⟨b!"/caf" ++ [0xC3, 0xA9], .get, [], []⟩) r' ∧ r₁.Ahead (b!"TP/1.1\r\n\r\n".map .byte) ∧ r'.Ahead [] := by
  obtain ⟨r₁, h1, h2⟩ := requestParse_of (prof := ⟨true⟩) (p := .new) hr
    (o := .io (.firstLine (b!"GET /caf" ++ [0xC3, 0xA9] ++ b!" HT")) .wouldBlock)
    (rest := b!"TP/1.1\r\n\r\n".map .byte) (by decide +kernel)
  obtain ⟨r', h3, h4⟩ := requestParse_of (prof := ⟨true⟩) (p := .firstLine (b!"GET /caf" ++ [0xC3, 0xA9] ++ b!" HT")) h2
    (o := .done ⟨b!"/caf" ++ [0xC3, 0xA9], .get, [], []⟩) (rest := []) (by decide +kernel)
  refine ⟨r₁, r', .pause hr (by decide) h1 ?_ (.last h3), h2, h4⟩
  simp only [CleanStop]; decide +kernel

/-- C02 (partial: no pause may cut a character of a line): whatever a call does that ends otherwise than with an I/O error, calls on the same input with pauses added before its last byte do as well; a pause may also be where
some more input that begins with the beginning of a character completes the request, that is, also anywhere in a body or in the data of a chunk. -/
theorem C02_pauses_next_partial {prof : Profile} {ps : List (List Atom)} {X rest : List Atom} {s s' : Rd}
    {o : Out RequestParser Request} (hs : s.Ahead (ps.flatten ++ X)) (h : RequestParser.parse prof .new s = (o, s'))
    (ho : ∀ p e, o ≠ .io p e) (hs' : s'.Ahead rest) (hrest : rest.length < X.length)
    (hps : ∀ l a m, ps = l ++ a :: m → .err .wouldBlock ∉ a ∧
      (SafeCut a ∨ ∃ (c : UInt8) (Y : List Atom) (q : Request) (t t' : Rd), isCont c = false ∧ t.Ahead (l.flatten ++ a ++ .byte c :: Y) ∧ RequestParser.parse prof .new t = (.done q, t')))
    {r : Rd} (hr : r.Ahead (spaced ps X)) :
    ∃ r', Calls (RequestParser.parse prof) .new r o r' ∧ r'.Ahead rest := by
  have h1 := (request_isWrap prof).ahead (p := .firstLine []) hs
  rw [show RequestParser.parse prof (.firstLine []) s = (o, s') from h, hs'.abs] at h1
  refine paused_calls (request_isWrap prof) (tracks_new _ _ _) h1 ho hrest (fun l a m e => ⟨(hps l a m e).1, (hps l a m e).2.imp id ?_⟩) hr
  rintro ⟨c, Y, q, t, t', hc, ht, hp⟩
  have h2 := (request_isWrap prof).ahead (p := .firstLine []) ht
  rw [show RequestParser.parse prof (.firstLine []) t = (.done q, t') from hp] at h2
  simp only [wrap, Prod.mk.injEq] at h2
  obtain ⟨v, h3, -⟩ := Out.bind_done h2.1
  exact ⟨c, Y, v, _, hc, Prod.ext h3 rfl⟩

/-- C02 (partial: no pause may cut a character): whatever a call does that ends otherwise than with an I/O
error, calls on the same input with pauses added before its last byte do as well. -/
theorem C02_pauses_partial {prof : Profile} {ps : List (List Atom)} {X rest : List Atom} {s s' : Rd}
    {o : Out RequestParser Request} (hs : s.Ahead (ps.flatten ++ X)) (h : RequestParser.parse prof .new s = (o, s'))
    (ho : ∀ p e, o ≠ .io p e) (hs' : s'.Ahead rest) (hrest : rest.length < X.length)
    (hps : ∀ a ∈ ps, .err .wouldBlock ∉ a ∧ SafeCut a) {r : Rd} (hr : r.Ahead (spaced ps X)) :
    ∃ r', Calls (RequestParser.parse prof) .new r o r' ∧ r'.Ahead rest :=
  C02_pauses_next_partial hs h ho hs' hrest (fun l a m e => ⟨(hps a (by rw [e]; simp)).1, .inl (hps a (by rw [e]; simp)).2⟩) hr

/-- The same for responses. -/
theorem C02_pauses_response_partial {prof : Profile} {ps : List (List Atom)} {X rest : List Atom} {s s' : Rd}
    {o : Out ResponseParser Response} (hs : s.Ahead (ps.flatten ++ X)) (h : ResponseParser.parse prof .new s = (o, s'))
    (ho : ∀ p e, o ≠ .io p e) (hs' : s'.Ahead rest) (hrest : rest.length < X.length)
    (hps : ∀ a ∈ ps, .err .wouldBlock ∉ a ∧ SafeCut a) {r : Rd} (hr : r.Ahead (spaced ps X)) :
    ∃ r', Calls (ResponseParser.parse prof) .new r o r' ∧ r'.Ahead rest := by
  have h1 := (response_isWrap prof).ahead (p := .firstLine []) hs
  rw [show ResponseParser.parse prof (.firstLine []) s = (o, s') from h, hs'.abs] at h1
  exact paused_calls (response_isWrap prof) (tracks_new _ _ _) h1 ho hrest
    (fun l a m e => ⟨(hps a (by rw [e]; simp)).1, .inl (hps a (by rw [e]; simp)).2⟩) hr

/-- C02 for requests of the grammar (partial: ASCII only): a request is received whatever pauses there are
between its bytes. -/
theorem C02_request_received_partial (prof : Profile) {q : Request} {ps : List Bytes} {last : Bytes} {rest : List Atom}
    (h : FittingRequest (ps.flatten ++ last) q) (hlast : last ≠ []) (hasc : ∀ a ∈ ps, ∀ c ∈ a, c < 128) {r : Rd}
    (hr : r.Ahead (spaced (ps.map fun a => a.map .byte) (last.map .byte ++ rest))) :
    ∃ r', Calls (RequestParser.parse prof) .new r (.done q) r' ∧ r'.Ahead rest := by
  obtain ⟨s, hs⟩ := Rd.exists_ahead ((ps.flatten ++ last).map .byte ++ rest)
  obtain ⟨s', h1, h2⟩ := C04_request_accepted prof h hs
  refine C02_pauses_partial (s := s) (X := last.map .byte ++ rest) ?_ h1 (by simp) h2 ?_ ?_ hr
  · have e : (ps.map fun a => a.map Atom.byte).flatten = ps.flatten.map .byte := by
      rw [List.map_flatten]
    rw [e]
    simpa using hs
  · have := List.length_pos_iff.2 hlast
    simp only [List.length_append, List.length_map]; omega
  · intro a ha
    simp only [List.mem_map] at ha
    obtain ⟨a, ha, rfl⟩ := ha
    exact ⟨by simp, safeCut_ascii (by rw [bytesOf_map]; exact hasc a ha)⟩

example : ∃ r', Calls (RequestParser.parse ⟨true⟩) .new (Rd.sample [.data b!"G", .err .wouldBlock, .data b!"ET / H",
    .err .wouldBlock, .data b!"TTP/1.1\r\n\r", .err .wouldBlock, .data b!"\nGET"]) (.done ⟨b!"/", .get, [], []⟩) r' ∧
    r'.Ahead (b!"GET".map .byte) :=
  C02_request_received_partial ⟨true⟩ (ps := [b!"G", b!"ET / H", b!"TTP/1.1\r\n\r"]) (last := b!"\n")
    (fitting_of (prof := ⟨true⟩) (by decide +kernel)) (by decide) (by decide) ⟨rfl, by decide⟩

end Verif
