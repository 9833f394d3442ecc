import Verif.Spec.Client
import Verif.Props.RoundTrip
import Verif.Props.Limits

/-!
C45, C46, C48: what one connection of the client does.
-/

namespace Verif

section

variable {F : Type} [StreamFactory F] {prof : Profile}

/-! ## C45 -/

/-- What one attempt does to a stream. -/
theorem sendRequest_out (prof : Profile) (s : ClientStream) (q : Request) :
    (sendRequest prof s q).2.asked = s.asked ++ [q] ∧ (sendRequest prof s q).2.given = s.given ∧
    (sendRequest prof s q).2.out <+: s.out ++ requestBytes q ∧
    (∀ e, (sendRequest prof s q).1 ≠ .err (.connecting e)) ∧
    ((∀ e, (sendRequest prof s q).1 ≠ .err (.writing e)) →
      (sendRequest prof s q).2.writer.sock.sent = s.out ++ requestBytes q ∧ (sendRequest prof s q).2.writer.buf = []) := by
  have hc := C54_client_in_order s.writer q
  unfold sendRequest
  dsimp only
  generalize hw : writeRequest s.writer q = y at hc
  obtain ⟨x, w⟩ := y
  dsimp only at hc
  rcases hc with ⟨rfl, h2, h3⟩ | ⟨e, rfl, h2⟩
  · dsimp only
    generalize ResponseParser.parse prof .new s.reader = z
    obtain ⟨o, rd⟩ := z
    cases o <;> simp [ClientStream.out, h2, h3]
  · refine ⟨rfl, rfl, h2, by simp, fun h => absurd rfl (h e)⟩

theorem flushBuf_total (w : BufW) : w.flushBuf.2.sock.sent ++ w.flushBuf.2.buf = w.sock.sent ++ w.buf :=
  (flushLoop_spec w.sock.flushes w.cap w.sock.evs w.sock.sent w.buf).1

theorem drop_out (s : ClientStream) : s.drop.out = s.out := flushBuf_total s.writer

theorem drop_asked (s : ClientStream) : s.drop.asked = s.asked := rfl

theorem drop_given (s : ClientStream) : s.drop.given = s.given := rfl

theorem open_out (s : RawStream) : (ClientStream.open s).out = [] := rfl

/-- The ways `send` can go on a stream that is there. -/
theorem sendOpen_cases {c : ClientConn} {s : ClientStream} (hs : c.stream = some s) (f : F) (q : Request) {x : SendEnd}
    {c' : ClientConn} {f' : F} (h : c.sendOpen prof f q = (x, c', f')) :
    ((∀ e, (sendRequest prof s q).1 ≠ .err e) ∧ x = (sendRequest prof s q).1 ∧ f' = f ∧
      c' = ⟨some (sendRequest prof s q).2, c.dropped⟩) ∨
    (∃ e, (sendRequest prof s q).1 = .err e) ∧
      ((f' = (StreamFactory.create f).2 ∧ (∀ r, x ≠ .ok r) ∧ c' = ⟨some (sendRequest prof s q).2, c.dropped⟩ ∧
        ((∃ e, (StreamFactory.create f).1 = .err e ∧ x = .err (.connecting e)) ∨ (StreamFactory.create f).1 = .panic ∧ x = .panic)) ∨
      ∃ raw, StreamFactory.create f = (.ok raw, f') ∧ x = (sendRequest prof (.open raw) q).1 ∧
        c' = ⟨some (sendRequest prof (.open raw) q).2, c.dropped ++ [(sendRequest prof s q).2.drop]⟩) := by
  unfold ClientConn.sendOpen at h
  rw [hs] at h
  dsimp only at h
  generalize hsr : sendRequest prof s q = y at h ⊢
  obtain ⟨o, s1⟩ := y
  cases o with
  | ok r => cases h; exact .inl ⟨by simp, rfl, rfl, rfl⟩
  | panic => cases h; exact .inl ⟨by simp, rfl, rfl, rfl⟩
  | diverge => cases h; exact .inl ⟨by simp, rfl, rfl, rfl⟩
  | err e =>
    refine .inr ⟨⟨e, rfl⟩, ?_⟩
    dsimp only at h
    unfold ClientConn.retry ClientConn.connect at h
    generalize hcr : StreamFactory.create f = y at h ⊢
    obtain ⟨o, f1⟩ := y
    cases o with
    | err e => cases h; exact .inl ⟨rfl, by simp, rfl, .inl ⟨e, rfl, rfl⟩⟩
    | panic => cases h; exact .inl ⟨rfl, by simp, rfl, .inr ⟨rfl, rfl⟩⟩
    | ok raw => cases h; exact .inr ⟨raw, rfl, rfl, rfl⟩

/-- The streams and the factory as they are when the first attempt is made. -/
inductive Begun (c : ClientConn) (f : F) : ClientStream → List RawStream → F → Prop
  | had {s : ClientStream} : c.stream = some s → Begun c f s [] f
  | opened {raw : RawStream} {f₁ : F} : c.stream = none → StreamFactory.create f = (.ok raw, f₁) →
      Begun c f (.open raw) [raw] f₁

/-- The ways `send` can go. -/
theorem send_cases {c : ClientConn} {f : F} {q : Request} {x : SendEnd} {c' : ClientConn} {f' : F}
    (h : c.send prof f q = (x, c', f')) :
    (c.stream = none ∧ c' = c ∧ f' = (StreamFactory.create f).2 ∧
      ((∃ e, (StreamFactory.create f).1 = .err e ∧ x = .err (.connecting e)) ∨ (StreamFactory.create f).1 = .panic ∧ x = .panic)) ∨
    ∃ s raws f₁, Begun c f s raws f₁ ∧
     (((∀ e, (sendRequest prof s q).1 ≠ .err e) ∧ x = (sendRequest prof s q).1 ∧ f' = f₁ ∧
        c' = ⟨some (sendRequest prof s q).2, c.dropped⟩) ∨
      (∃ e, (sendRequest prof s q).1 = .err e) ∧
        ((f' = (StreamFactory.create f₁).2 ∧ (∀ r, x ≠ .ok r) ∧ c' = ⟨some (sendRequest prof s q).2, c.dropped⟩ ∧
          ((∃ e, (StreamFactory.create f₁).1 = .err e ∧ x = .err (.connecting e)) ∨ (StreamFactory.create f₁).1 = .panic ∧ x = .panic)) ∨
        ∃ raw, StreamFactory.create f₁ = (.ok raw, f') ∧ x = (sendRequest prof (.open raw) q).1 ∧
          c' = ⟨some (sendRequest prof (.open raw) q).2, c.dropped ++ [(sendRequest prof s q).2.drop]⟩)) := by
  unfold ClientConn.send at h
  cases hs : c.stream with
  | some s =>
    rw [hs] at h
    exact .inr ⟨s, [], f, .had hs, sendOpen_cases hs f q h⟩
  | none =>
    rw [hs] at h
    dsimp only at h
    unfold ClientConn.connect at h
    generalize hcr : StreamFactory.create f = y at h
    obtain ⟨o, f1⟩ := y
    cases o with
    | err e => cases h; exact .inl ⟨rfl, rfl, rfl, .inl ⟨e, rfl, rfl⟩⟩
    | panic => cases h; exact .inl ⟨rfl, rfl, rfl, .inr ⟨rfl, rfl⟩⟩
    | ok raw =>
      refine .inr ⟨.open raw, [raw], f1, .opened hs hcr, ?_⟩
      rw [hs] at h
      have := sendOpen_cases (prof := prof) (c := ⟨some (.open raw), c.dropped ++ (none.map ClientStream.drop).toList⟩) rfl f1 q h
      simpa using this

/-- C45: one call of `send` uses at most two streams: the one that was there (`old`) and those it opens (`new`), or two
that it opens. On each of them the request is written at most once, on the new ones as the first thing; what a stream was
sent is a beginning of this. Streams are opened by at most two calls of the factory, at most one if a stream was there.
The streams that were dropped before are left alone. -/
theorem C45_at_most_twice {c : ClientConn} {f : F} {q : Request} {x : SendEnd} {c' : ClientConn} {f' : F}
    (h : c.send prof f q = (x, c', f')) :
    (∃ old new : List ClientStream, c'.all = c.dropped ++ old ++ new ∧ old.length = c.stream.toList.length ∧
      old.length + new.length ≤ 2 ∧
      (∀ s s', c.stream = some s → s' ∈ old → s'.out <+: s.out ++ requestBytes q ∧ s'.asked = s.asked ++ [q]) ∧
      ∀ s' ∈ new, s'.out <+: requestBytes q ∧ s'.asked = [q]) ∧
    (f' = f ∨ f' = (StreamFactory.create f).2 ∨ c.stream = none ∧ f' = (StreamFactory.create (StreamFactory.create f).2).2) := by
  have fresh : ∀ raw, (sendRequest prof (.open raw) q).2.out <+: requestBytes q ∧ (sendRequest prof (.open raw) q).2.asked = [q] := by
    intro raw
    obtain ⟨h1, -, h3, -⟩ := sendRequest_out prof (.open raw) q
    exact ⟨by simpa [open_out] using h3, by simpa [ClientStream.open] using h1⟩
  rcases send_cases h with ⟨h1, h2, h3, -⟩ | ⟨s, raws, f₁, hb, hc⟩
  · subst h2
    exact ⟨⟨[], [], by simp [ClientConn.all, h1], by simp [h1], by simp, by simp [h1], by simp⟩, .inr (.inl h3)⟩
  · obtain ⟨k1, -, k3, -⟩ := sendRequest_out prof s q
    cases hb with
    | had hs =>
      have one : ∃ old new : List ClientStream, (⟨some (sendRequest prof s q).2, c.dropped⟩ : ClientConn).all =
          c.dropped ++ old ++ new ∧ old.length = c.stream.toList.length ∧ old.length + new.length ≤ 2 ∧
          (∀ s s', c.stream = some s → s' ∈ old → s'.out <+: s.out ++ requestBytes q ∧ s'.asked = s.asked ++ [q]) ∧
          ∀ s' ∈ new, s'.out <+: requestBytes q ∧ s'.asked = [q] := by
        refine ⟨[(sendRequest prof s q).2], [], by simp [ClientConn.all], by simp [hs], by simp, ?_, by simp⟩
        intro t t' ht ht'
        rw [hs] at ht
        cases ht
        simp only [List.mem_singleton] at ht'
        subst ht'
        exact ⟨k3, k1⟩
      rcases hc with ⟨-, -, rfl, rfl⟩ | ⟨-, ⟨rfl, -, rfl, -⟩ | ⟨raw, hr, -, rfl⟩⟩
      · exact ⟨one, .inl rfl⟩
      · exact ⟨one, .inr (.inl rfl)⟩
      · refine ⟨⟨[(sendRequest prof s q).2.drop], [(sendRequest prof (.open raw) q).2], by simp [ClientConn.all], by simp [hs],
          by simp, ?_, ?_⟩, .inr (.inl (by rw [hr]))⟩
        · intro t t' ht ht'
          rw [hs] at ht
          cases ht
          simp only [List.mem_singleton] at ht'
          subst ht'
          exact ⟨by rw [drop_out]; exact k3, k1⟩
        · intro s' hs'
          simp only [List.mem_singleton] at hs'
          subst hs'
          exact fresh raw
    | @opened raw0 _ hs hcr =>
      have e0 : f₁ = (StreamFactory.create f).2 := by rw [hcr]
      have one : ∃ old new : List ClientStream, (⟨some (sendRequest prof (.open raw0) q).2, c.dropped⟩ : ClientConn).all =
          c.dropped ++ old ++ new ∧ old.length = c.stream.toList.length ∧ old.length + new.length ≤ 2 ∧
          (∀ s s', c.stream = some s → s' ∈ old → s'.out <+: s.out ++ requestBytes q ∧ s'.asked = s.asked ++ [q]) ∧
          ∀ s' ∈ new, s'.out <+: requestBytes q ∧ s'.asked = [q] := by
        refine ⟨[], [(sendRequest prof (.open raw0) q).2], by simp [ClientConn.all], by simp [hs], by simp, by simp, ?_⟩
        intro s' hs'
        simp only [List.mem_singleton] at hs'
        subst hs'
        exact fresh raw0
      rcases hc with ⟨-, -, rfl, rfl⟩ | ⟨-, ⟨rfl, -, rfl, -⟩ | ⟨raw, hr, -, rfl⟩⟩
      · exact ⟨one, .inr (.inl e0)⟩
      · exact ⟨one, .inr (.inr ⟨hs, by rw [e0]⟩)⟩
      · refine ⟨⟨[], [(sendRequest prof (.open raw0) q).2.drop, (sendRequest prof (.open raw) q).2], by simp [ClientConn.all], by simp [hs],
          by simp, by simp, ?_⟩, .inr (.inr ⟨hs, by rw [← e0, hr]⟩)⟩
        intro s' hs'
        simp only [List.mem_cons, List.not_mem_nil, or_false] at hs'
        rcases hs' with rfl | rfl
        · exact ⟨by rw [drop_out]; exact (fresh raw0).1, (fresh raw0).2⟩
        · exact fresh raw

/-- C45: if the attempt on the stream that is there succeeds, this is the only one: the request has been sent on this stream
exactly once, after what was held before, and no other stream is opened. -/
theorem C45_once {c : ClientConn} {s s' : ClientStream} (hs : c.stream = some s) {q : Request} {r : Response}
    (h : sendRequest prof s q = (.ok r, s')) (f : F) :
    c.send prof f q = (.ok r, ⟨some s', c.dropped⟩, f) ∧ s'.writer.sock.sent = s.out ++ requestBytes q ∧ s'.writer.buf = [] := by
  have h5 := (sendRequest_out prof s q).2.2.2.2
  rw [h] at h5
  refine ⟨?_, h5 (by simp)⟩
  unfold ClientConn.send ClientConn.sendOpen
  simp only [hs, h]

/-- C45: likewise when the first stream is opened for this request: it is sent the request, exactly once, and nothing else. -/
theorem C45_once_opened {c : ClientConn} (hs : c.stream = none) {f f₁ : F} {raw : RawStream}
    (hc : StreamFactory.create f = (.ok raw, f₁)) {s' : ClientStream} {q : Request} {r : Response}
    (h : sendRequest prof (.open raw) q = (.ok r, s')) :
    c.send prof f q = (.ok r, ⟨some s', c.dropped⟩, f₁) ∧ s'.writer.sock.sent = requestBytes q ∧ s'.writer.buf = [] := by
  have h5 := (sendRequest_out prof (.open raw) q).2.2.2.2
  rw [h] at h5
  refine ⟨?_, by simpa [open_out] using h5 (by simp)⟩
  unfold ClientConn.send ClientConn.sendOpen ClientConn.connect
  simp only [hs, hc, h]
  simp

/-- C45: whenever `send` returns a response, the stream it was read from has been sent all of the request. -/
theorem C45_sent {c : ClientConn} {f : F} {q : Request} {r : Response} {c' : ClientConn} {f' : F}
    (h : c.send prof f q = (.ok r, c', f')) :
    ∃ s', c'.stream = some s' ∧ s'.writer.buf = [] ∧
      (s'.writer.sock.sent = requestBytes q ∨ ∃ s, c.stream = some s ∧ s'.writer.sock.sent = s.out ++ requestBytes q) := by
  rcases send_cases h with ⟨-, -, -, ⟨e, -, h⟩ | ⟨-, h⟩⟩ | ⟨s, raws, f₁, hb, hc⟩
  · cases h
  · cases h
  · rcases hc with ⟨h1, h2, -, rfl⟩ | ⟨-, ⟨-, h2, -⟩ | ⟨raw, -, h2, rfl⟩⟩
    · obtain ⟨k1, k2⟩ := (sendRequest_out prof s q).2.2.2.2 (fun e => h1 _)
      refine ⟨_, rfl, k2, ?_⟩
      cases hb with
      | had hs => exact .inr ⟨s, hs, k1⟩
      | opened => exact .inl (by simpa [open_out] using k1)
    · exact absurd rfl (h2 r)
    · obtain ⟨k1, k2⟩ := (sendRequest_out prof (.open raw) q).2.2.2.2 (by rw [← h2]; simp)
      exact ⟨_, rfl, k2, .inl (by simpa [open_out] using k1)⟩

end

/-- C45 for plain TCP: `TcpStream::connect` is called at most four times. -/
theorem C45_tcp {prof : Profile} {c : ClientConn} {f : TcpStreamFactory} {q : Request} {x : SendEnd} {c' : ClientConn}
    {f' : TcpStreamFactory} (h : c.send prof f q = (x, c', f')) : ∃ k ≤ 4, f'.connects = f.connects.drop k := by
  have conn : ∀ f : TcpStreamFactory, f.connect.2.connects = f.connects.drop 1 := by
    rintro ⟨z, _ | ⟨x, xs⟩⟩ <;> rfl
  have key : ∀ f : TcpStreamFactory, ∃ k ≤ 2, (StreamFactory.create f).2.connects = f.connects.drop k := by
    intro f
    show ∃ k ≤ 2, f.create.2.connects = _
    unfold TcpStreamFactory.create
    have h1 := conn f
    generalize f.connect = y at h1
    obtain ⟨o, f1⟩ := y
    cases o with
    | ok s => exact ⟨1, by omega, h1⟩
    | error e =>
      dsimp only at h1 ⊢
      have h2 := conn f1
      generalize f1.connect = y at h2
      obtain ⟨o, f2⟩ := y
      refine ⟨2, by omega, ?_⟩
      rw [h1, List.drop_drop] at h2
      cases o <;> exact h2
  rcases (C45_at_most_twice h).2 with rfl | rfl | ⟨-, rfl⟩
  · exact ⟨0, by omega, rfl⟩
  · obtain ⟨k, h1, h2⟩ := key f
    exact ⟨k, by omega, h2⟩
  · obtain ⟨k, h1, h2⟩ := key f
    obtain ⟨k', h3, h4⟩ := key (StreamFactory.create f).2
    exact ⟨k + k', by omega, by rw [h4, h2, List.drop_drop]⟩

/-! ## C48 -/

section

variable {F : Type} [StreamFactory F] {prof : Profile}

/-- C48: one attempt says what happened on the stream. -/
theorem C48_attempt (prof : Profile) (s : ClientStream) (q : Request) : AttemptSays prof s q (sendRequest prof s q).1 := by
  have hc := C54_client_in_order s.writer q
  have hp := C16_first_response_partial prof s.reader
  have hd := (C17_response_parse_returns prof .new s.reader).1
  unfold sendRequest
  dsimp only
  generalize hw : writeRequest s.writer q = y at hc
  obtain ⟨x, w⟩ := y
  dsimp only at hc
  rcases hc with ⟨rfl, -, -⟩ | ⟨e, rfl, -⟩
  · dsimp only
    generalize hz : ResponseParser.parse prof .new s.reader = z at hp hd
    obtain ⟨o, rd⟩ := z
    cases o with
    | done r => exact .ok (by rw [hw]) (by rw [hz])
    | io p e => exact .reading (by rw [hw]) (by rw [hz])
    | perr e => exact .parsing (by rw [hw]) (by rw [hz])
    | panic => exact absurd rfl hp
    | diverge => exact absurd rfl hd
  · exact .writing (by rw [hw])

/-- C48: `Connecting` is returned only if a call of the factory, the last, failed with this error. -/
theorem C48_connecting {c : ClientConn} {f : F} {q : Request} {e : IoError} {c' : ClientConn} {f' : F}
    (h : c.send prof f q = (.err (.connecting e), c', f')) :
    ∃ g, (g = f ∨ g = (StreamFactory.create f).2) ∧ StreamFactory.create g = (.err e, f') := by
  have key : ∀ g : F, f' = (StreamFactory.create g).2 →
      ((∃ e', (StreamFactory.create g).1 = .err e' ∧ SendEnd.err (.connecting e) = .err (.connecting e')) ∨
        (StreamFactory.create g).1 = .panic ∧ SendEnd.err (.connecting e) = .panic) → StreamFactory.create g = (.err e, f') := by
    rintro g h1 (⟨e', h2, h3⟩ | ⟨-, h3⟩)
    · cases h3; exact Prod.ext h2 h1.symm
    · cases h3
  rcases send_cases h with ⟨-, -, h1, h2⟩ | ⟨s, raws, f₁, hb, hc⟩
  · exact ⟨f, .inl rfl, key f h1 h2⟩
  · rcases hc with ⟨-, h2, -, -⟩ | ⟨-, ⟨h1, -, -, h2⟩ | ⟨raw, -, h2, -⟩⟩
    · exact absurd h2.symm ((sendRequest_out prof s q).2.2.2.1 e)
    · refine ⟨f₁, ?_, key f₁ h1 h2⟩
      cases hb with
      | had hs => exact .inl rfl
      | opened hs hcr => exact .inr (by rw [hcr])
    · exact absurd h2.symm ((sendRequest_out prof (.open raw) q).2.2.2.1 e)

/-- C48: any other error is that of an attempt on a stream that was opened for this request by the last call of the
factory. -/
theorem C48_other {c : ClientConn} {f : F} {q : Request} {er : RequestError} {c' : ClientConn} {f' : F}
    (h : c.send prof f q = (.err er, c', f')) (hne : ∀ e, er ≠ .connecting e) :
    ∃ g raw, (g = f ∨ g = (StreamFactory.create f).2) ∧ StreamFactory.create g = (.ok raw, f') ∧
      AttemptSays prof (.open raw) q (.err er) := by
  have no : ∀ g : F, ¬ ((∃ e', (StreamFactory.create g).1 = .err e' ∧ SendEnd.err er = .err (.connecting e')) ∨
        (StreamFactory.create g).1 = .panic ∧ SendEnd.err er = .panic) := by
    rintro g (⟨e', -, h3⟩ | ⟨-, h3⟩)
    · cases h3; exact hne e' rfl
    · cases h3
  rcases send_cases h with ⟨-, -, -, h2⟩ | ⟨s, raws, f₁, hb, hc⟩
  · exact absurd h2 (no f)
  · rcases hc with ⟨h1, h2, -, -⟩ | ⟨-, ⟨-, -, -, h2⟩ | ⟨raw, h1, h2, -⟩⟩
    · exact absurd h2.symm (h1 er)
    · exact absurd h2 (no f₁)
    · refine ⟨f₁, raw, ?_, h1, h2 ▸ C48_attempt prof _ q⟩
      cases hb with
      | had hs => exact .inl rfl
      | opened hs hcr => exact .inr (by rw [hcr])

/-- C48: a successful result is exactly the response parsed, on the stream that was there or on one opened for this
request, after all of the request was written there. -/
theorem C48_success {c : ClientConn} {f : F} {q : Request} {r : Response} {c' : ClientConn} {f' : F}
    (h : c.send prof f q = (.ok r, c', f')) :
    ∃ s, AttemptSays prof s q (.ok r) ∧ (c.stream = some s ∨
      ∃ g raw, (g = f ∨ g = (StreamFactory.create f).2) ∧ StreamFactory.create g = (.ok raw, f') ∧ s = .open raw) := by
  have no : ∀ g : F, ¬ ((∃ e', (StreamFactory.create g).1 = .err e' ∧ SendEnd.ok r = .err (.connecting e')) ∨
        (StreamFactory.create g).1 = .panic ∧ SendEnd.ok r = .panic) := by
    rintro g (⟨e', -, h3⟩ | ⟨-, h3⟩) <;> cases h3
  rcases send_cases h with ⟨-, -, -, h2⟩ | ⟨s, raws, f₁, hb, hc⟩
  · exact absurd h2 (no f)
  · rcases hc with ⟨-, h2, h3, -⟩ | ⟨-, ⟨-, -, -, h2⟩ | ⟨raw, h1, h2, -⟩⟩
    · refine ⟨s, h2 ▸ C48_attempt prof _ q, ?_⟩
      cases hb with
      | had hs => exact .inl hs
      | @opened raw0 _ hs hcr => exact .inr ⟨f, raw0, .inl rfl, by rw [hcr, h3], rfl⟩
    · exact absurd h2 (no f₁)
    · refine ⟨_, h2 ▸ C48_attempt prof _ q, .inr ⟨f₁, raw, ?_, h1, rfl⟩⟩
      cases hb with
      | had hs => exact .inl rfl
      | opened hs hcr => exact .inr (by rw [hcr])

/-- C48: `send` returns a result, unless the factory panics. -/
theorem C48_returns {c : ClientConn} {f : F} {q : Request} {x : SendEnd} {c' : ClientConn} {f' : F}
    (h : c.send prof f q = (x, c', f')) :
    (∃ r, x = .ok r) ∨ (∃ e, x = .err e) ∨
      x = .panic ∧ ∃ g, (g = f ∨ g = (StreamFactory.create f).2) ∧ (StreamFactory.create g).1 = .panic := by
  have key : ∀ s, (∃ r, (sendRequest prof s q).1 = .ok r) ∨ ∃ e, (sendRequest prof s q).1 = .err e := by
    intro s
    have := C48_attempt prof s q
    generalize (sendRequest prof s q).1 = y at this
    cases this
    · exact .inr ⟨_, rfl⟩
    · exact .inr ⟨_, rfl⟩
    · exact .inr ⟨_, rfl⟩
    · exact .inl ⟨_, rfl⟩
  have key2 : ∀ g : F, (g = f ∨ g = (StreamFactory.create f).2) → ((∃ e', (StreamFactory.create g).1 = .err e' ∧ x = .err (.connecting e')) ∨
        (StreamFactory.create g).1 = .panic ∧ x = .panic) → (∃ e, x = .err e) ∨
      x = .panic ∧ ∃ g, (g = f ∨ g = (StreamFactory.create f).2) ∧ (StreamFactory.create g).1 = .panic := by
    rintro g hg (⟨e', -, h3⟩ | ⟨h2, h3⟩)
    · exact .inl ⟨_, h3⟩
    · exact .inr ⟨h3, g, hg, h2⟩
  rcases send_cases h with ⟨-, -, -, h2⟩ | ⟨s, raws, f₁, hb, hc⟩
  · exact .inr (key2 f (.inl rfl) h2)
  · rcases hc with ⟨-, h2, -, -⟩ | ⟨-, ⟨-, -, -, h2⟩ | ⟨raw, -, h2, -⟩⟩
    · rw [h2]
      exact (key s).imp id .inl
    · refine .inr (key2 f₁ ?_ h2)
      cases hb with
      | had hs => exact .inl rfl
      | opened hs hcr => exact .inr (by rw [hcr])
    · rw [h2]
      exact (key _).imp id .inl

/-- C48: if the request can be written on the stream that is there and the input begins with a response within the limits,
`send` returns it. -/
theorem C48_answered {c : ClientConn} {s : ClientStream} (hs : c.stream = some s) {q : Request} {w : Bytes} {f : Framing}
    {t : Response} (hw : (writeRequest s.writer q).1 = .ok) (hf : FittingResponse w f t) {rest : List Atom}
    (hr : s.reader.Ahead (w.map .byte ++ if f = .untilEof then .eof :: rest else rest)) (g : F) :
    ∃ s', c.send prof g q = (.ok t, ⟨some s', c.dropped⟩, g) ∧ s'.reader.Ahead rest := by
  obtain ⟨r', h1, h2⟩ := C04_response_accepted prof hf hr
  have : sendRequest prof s q = (.ok t, { s with asked := s.asked ++ [q], reader := r', writer := (writeRequest s.writer q).2 }) := by
    unfold sendRequest
    dsimp only
    generalize hz : writeRequest s.writer q = y at hw
    obtain ⟨o, w1⟩ := y
    dsimp only at hw
    subst hw
    dsimp only
    rw [h1]
  exact ⟨_, (C45_once hs this g).1, h2⟩

end

/-! ## C46 -/

theorem response_unique {w w' a a' : Bytes} {s s' : Response} {f : Framing} (hf : f ≠ .untilEof) (h : FittingResponse w f s)
    (h' : ResponseText w' s') (he : w ++ a = w' ++ a') : w = w' ∧ s = s' := by
  obtain ⟨l, fs, bw, hl, hm, hh, -⟩ := h
  obtain ⟨l', fs', f', bw', hl', hm', hh'⟩ := h'
  obtain ⟨rfl, rfl, rfl, rfl, hb, hw, -⟩ := message_unique hm hm' hf he
  refine ⟨hw, ?_⟩
  have := statusLine_iff.2 hl
  rw [statusLine_iff.2 hl'] at this
  cases s; cases s'
  simp_all

/-- The first exchanges of a stream: what it was asked, and that the responses are what it delivered first. -/
structure Logged (s : ClientStream) (es : List (Request × Response)) (failed : List Request) (pre rest : List Atom) : Prop where
  asked : s.asked = es.map Prod.fst ++ failed
  given : s.given = pre ++ rest
  read : ∃ vs : List (Response × Bytes), vs.map Prod.fst = es.map Prod.snd ∧ (∀ p ∈ vs, ResponseText p.2 p.1) ∧
    bytesOf pre = vs.flatMap Prod.snd

theorem Logged.opened (raw : RawStream) : Logged (.open raw) [] [] [] (ClientStream.open raw).reader.src.atoms :=
  ⟨rfl, by simp [ClientStream.open, Src.atoms], [], rfl, by simp, rfl⟩

/-- An honest stream gave the right responses. -/
theorem Logged.right {ans : Request → Response} {s : ClientStream} {es : List (Request × Response)} {failed : List Request}
    {pre rest : List Atom} (h : Logged s es failed pre rest) (hh : s.Honest ans) : ∀ e ∈ es, e.2 = ans e.1 := by
  obtain ⟨vs, h1, h2, h3⟩ := h.read
  obtain ⟨ws, h4, h5, h6⟩ := hh
  obtain ⟨a, a', h7⟩ : ∃ a a', vs.flatMap Prod.snd ++ a = ws.flatMap Prod.snd ++ a' := by
    have hg : bytesOf s.given = vs.flatMap Prod.snd ++ bytesOf rest := by rw [h.given, bytesOf_append, h3]
    rw [hg] at h6
    rcases h6 with ⟨y, h6⟩ | ⟨y, h6⟩
    · exact ⟨bytesOf rest ++ y, [], by rw [List.append_nil, ← h6, List.append_assoc]⟩
    · exact ⟨bytesOf rest, y, h6.symm⟩
  rw [h.asked] at h4
  clear h3 h6 h
  induction es generalizing vs ws with
  | nil => simp
  | cons e es ih =>
    cases ws with
    | nil => simp at h4
    | cons w ws =>
      cases vs with
      | nil => simp at h1
      | cons v vs =>
        simp only [List.map_cons, List.cons_append, List.cons.injEq] at h1 h4
        simp only [List.flatMap_cons, List.append_assoc] at h7
        obtain ⟨f, hf, hfit⟩ := h5 w (by simp)
        obtain ⟨k1, k2⟩ := response_unique hf hfit (h2 v (by simp)) h7.symm
        rw [k1] at h7
        intro e' he'
        rcases List.mem_cons.1 he' with rfl | he'
        · rw [← h1.1, ← k2, h4.1]
        · exact ih vs h1.2 (fun p hp => h2 p (by simp [hp])) ws h4.2
            (fun p hp => h5 p (by simp [hp])) (List.append_cancel_left h7) e' he'

theorem ResponseText.nonempty {w : Bytes} {s : Response} (h : ResponseText w s) : w ≠ [] := by
  obtain ⟨l, fs, f, bw, hl, hm, -⟩ := h
  intro e
  have := congrArg List.length hm.wire
  simp [e, CRLF] at this

/-- The responses that were read are the first that the stream delivers. -/
theorem Logged.first {s : ClientStream} {es : List (Request × Response)} {failed : List Request} {pre rest : List Atom} (h : Logged s es failed pre rest)
    {ws : List (Bytes × Response)} (hw : ∀ w ∈ ws, ∃ f, f ≠ .untilEof ∧ FittingResponse w.1 f w.2) (hg : bytesOf s.given <+: ws.flatMap Prod.fst) :
    es.map Prod.snd <+: ws.map Prod.snd := by
  obtain ⟨vs, h1, h2, h3⟩ := h.read
  rw [h.given, bytesOf_append, h3] at hg
  obtain ⟨y, hg⟩ := hg
  rw [List.append_assoc] at hg
  generalize bytesOf rest ++ y = a at hg
  rw [← h1]
  clear h1 h3 h
  induction vs generalizing ws with
  | nil => exact List.nil_prefix
  | cons v vs ih =>
    cases ws with
    | nil =>
      simp only [List.flatMap_cons, List.flatMap_nil, List.append_eq_nil_iff] at hg
      exact absurd hg.1.1 (h2 v (by simp)).nonempty
    | cons w ws =>
      simp only [List.flatMap_cons, List.append_assoc] at hg
      obtain ⟨f, hf, hfit⟩ := hw w (by simp)
      obtain ⟨k1, k2⟩ := response_unique hf hfit (h2 v (by simp)) hg.symm
      rw [k1] at hg
      simp only [List.map_cons, k2, List.cons_prefix_cons, true_and]
      exact ih (fun w hw' => hw w (by simp [hw'])) (fun p hp => h2 p (by simp [hp])) (List.append_cancel_left hg)

section

variable {F : Type} [StreamFactory F] {prof : Profile}

/-- A successful attempt adds an exchange. -/
theorem Logged.answered {s s' : ClientStream} {es : List (Request × Response)} {pre : List Atom} {q : Request} {r : Response}
    (h : Logged s es [] pre s.reader.src.atoms) (hl : s.reader.lims = []) (hs : sendRequest prof s q = (.ok r, s')) :
    s'.reader.lims = [] ∧ ∃ pre', Logged s' (es ++ [(q, r)]) [] pre' s'.reader.src.atoms := by
  unfold sendRequest at hs
  dsimp only at hs
  generalize writeRequest s.writer q = y at hs
  obtain ⟨x, w⟩ := y
  cases x with
  | err e => cases hs
  | diverge => cases hs
  | ok =>
    dsimp only at hs
    generalize hz : ResponseParser.parse prof .new s.reader = z at hs
    obtain ⟨o, rd⟩ := z
    cases o with
    | io p e => cases hs
    | perr e => cases hs
    | panic => cases hs
    | diverge => cases hs
    | done r =>
      cases hs
      obtain ⟨p1, line, fs, f, bw, h1, -, h3, h4, h5, h6, -⟩ := responseOne_done hz hl
      refine ⟨h3, pre ++ p1, ?_, ?_, ?_⟩
      · simp [h.asked]
      · rw [h.given, h1, List.append_assoc]
      · obtain ⟨vs, e1, e2, e3⟩ := h.read
        refine ⟨vs ++ [(r, bytesOf p1)], by simp [e1], ?_, by simp [bytesOf_append, e3]⟩
        intro p hp
        rcases List.mem_append.1 hp with hp | hp
        · exact e2 p hp
        · simp only [List.mem_singleton] at hp
          subst hp
          exact ⟨line, fs, f, bw, h4, h5, h6⟩

/-- An attempt that fails leaves the exchanges before as they are. -/
theorem Logged.failed {s : ClientStream} {es : List (Request × Response)} {pre rest : List Atom} {q : Request}
    (h : Logged s es [] pre rest) : Logged (sendRequest prof s q).2 es [q] pre rest := by
  obtain ⟨h1, h2, -⟩ := sendRequest_out prof s q
  exact ⟨by simp [h1, h.asked], by rw [h2, h.given], h.read⟩

theorem Logged.drop {s : ClientStream} {es : List (Request × Response)} {fl : List Request} {pre rest : List Atom}
    (h : Logged s es fl pre rest) : Logged s.drop es fl pre rest := ⟨h.asked, h.given, h.read⟩

/-- All exchanges of a connection are those of its streams. -/
def AllLogged (c : ClientConn) (es : List (Request × Response)) : Prop :=
  ∃ (logs : List (ClientStream × List (Request × Response))) (last : List (Request × Response)),
    c.dropped = logs.map Prod.fst ∧ (∀ l ∈ logs, ∃ fl pre rest, Logged l.1 l.2 fl pre rest) ∧
    (∀ s, c.stream = some s → s.reader.lims = [] ∧ ∃ pre, Logged s last [] pre s.reader.src.atoms) ∧
    (c.stream = none → last = []) ∧ es = logs.flatMap Prod.snd ++ last

theorem history_logged {c c' : ClientConn} {f f' : F} {es : List (Request × Response)} (h : History prof c f es c' f')
    (hc : c = .new) : AllLogged c' es := by
  induction h with
  | nil =>
    subst hc
    exact ⟨[], [], rfl, by simp, by simp [ClientConn.new], fun _ => rfl, rfl⟩
  | @refused c₁ c₂ f f₁ f₂ q e es _ hs hn ih =>
    rcases send_cases hs with ⟨-, rfl, -⟩ | ⟨s, raws, g, hb, hk⟩
    · exact ih
    · exfalso
      rcases hk with ⟨-, -, -, rfl⟩ | ⟨-, ⟨-, -, rfl, -⟩ | ⟨raw, -, -, rfl⟩⟩ <;> cases hn
  | @answered c₁ c₂ f f₁ f₂ q r es _ hs ih =>
    obtain ⟨logs, last, h1, h2, h3, h4, h5⟩ := ih
    rcases send_cases hs with ⟨-, -, -, ⟨e, -, h⟩ | ⟨-, h⟩⟩ | ⟨s, raws, g, hb, hk⟩
    · cases h
    · cases h
    · have hst : s.reader.lims = [] ∧ ∃ pre, Logged s last [] pre s.reader.src.atoms := by
        cases hb with
        | had hs => exact h3 s hs
        | opened hs hcr => rw [h4 hs]; exact ⟨rfl, [], .opened _⟩
      obtain ⟨hl, pre, hlog⟩ := hst
      rcases hk with ⟨-, k2, -, rfl⟩ | ⟨-, ⟨-, k2, -⟩ | ⟨raw, -, k2, rfl⟩⟩
      · obtain ⟨m1, m2⟩ := hlog.answered (prof := prof) (r := r) (s' := (sendRequest prof s q).2) hl (Prod.ext k2.symm rfl)
        refine ⟨logs, last ++ [(q, r)], h1, h2, ?_, by simp, by simp [h5]⟩
        intro s' hs'
        cases hs'
        exact ⟨m1, m2⟩
      · exact absurd rfl (k2 r)
      · obtain ⟨m1, m2⟩ := (Logged.opened raw).answered (prof := prof) (q := q) (r := r) (s' := (sendRequest prof (.open raw) q).2) rfl
          (Prod.ext k2.symm rfl)
        refine ⟨logs ++ [((sendRequest prof s q).2.drop, last)], [(q, r)], by simp [h1], ?_, ?_, by simp, by simp [h5]⟩
        · intro l hm
          rcases List.mem_append.1 hm with hm | hm
          · exact h2 l hm
          · simp only [List.mem_singleton] at hm
            subst hm
            exact ⟨[q], pre, _, hlog.failed.drop⟩
        · intro s' hs'
          cases hs'
          exact ⟨m1, m2⟩

/-- C46 (partial: as long as every call of `send` on this connection returned a response, or failed without a stream being
there; and the answers say where they end): if the servers are honest, each call returned the response to its own request. -/
theorem C46_history_partial {ans : Request → Response} {c' : ClientConn} {f f' : F} {es : List (Request × Response)}
    (h : History prof .new f es c' f') (hh : ∀ s ∈ c'.all, s.Honest ans) : ∀ e ∈ es, e.2 = ans e.1 := by
  obtain ⟨logs, last, h1, h2, h3, h4, h5⟩ := history_logged h rfl
  subst h5
  intro e he
  rcases List.mem_append.1 he with he | he
  · obtain ⟨l, hl, he⟩ := List.mem_flatMap.1 he
    obtain ⟨fl, pre, rest, hlog⟩ := h2 l hl
    refine hlog.right (hh l.1 ?_) e he
    simp only [ClientConn.all, List.mem_append, h1]
    exact .inl (List.mem_map.2 ⟨l, hl, rfl⟩)
  · cases hs : c'.stream with
    | none => rw [h4 hs] at he; cases he
    | some s =>
      obtain ⟨-, pre, hlog⟩ := h3 s hs
      exact hlog.right (hh s (by simp [ClientConn.all, hs])) e he

/-- C46 (partial: as long as every call of `send` on this connection returned a response, or failed without a stream being there; and the answers say where
they end), for each stream: the exchanges are those on the streams, one stream after the other. On each stream they begin with the first request, and if what
the stream delivers is the beginning of the texts of some responses, these are the responses that were returned, in order. -/
theorem C46_streams_partial {c' : ClientConn} {f f' : F} {es : List (Request × Response)} (h : History prof .new f es c' f') :
    ∃ logs : List (List (Request × Response)), logs.length = c'.all.length ∧ es = logs.flatten ∧ ∀ p ∈ c'.all.zip logs, p.2.map Prod.fst <+: p.1.asked ∧
      ∀ ws : List (Bytes × Response), (∀ w ∈ ws, ∃ f, f ≠ .untilEof ∧ FittingResponse w.1 f w.2) → bytesOf p.1.given <+: ws.flatMap Prod.fst →
        p.2.map Prod.snd <+: ws.map Prod.snd := by
  obtain ⟨logs, last, h1, h2, h3, h4, h5⟩ := history_logged h rfl
  subst h5
  have key : ∀ {s : ClientStream} {es : List (Request × Response)} {failed : List Request} {pre rest : List Atom}, Logged s es failed pre rest →
      es.map Prod.fst <+: s.asked ∧ ∀ ws : List (Bytes × Response), (∀ w ∈ ws, ∃ f, f ≠ .untilEof ∧ FittingResponse w.1 f w.2) →
        bytesOf s.given <+: ws.flatMap Prod.fst → es.map Prod.snd <+: ws.map Prod.snd := fun hl => ⟨by rw [hl.asked]; exact List.prefix_append _ _, fun ws => hl.first⟩
  have hz : ∀ p ∈ (logs.map Prod.fst).zip (logs.map Prod.snd), ∃ l ∈ logs, p = l := by
    intro p hp
    rw [List.zip_map'] at hp
    obtain ⟨l, hl, rfl⟩ := List.mem_map.1 hp
    exact ⟨l, hl, rfl⟩
  cases hs : c'.stream with
  | none =>
    refine ⟨logs.map Prod.snd, by simp [ClientConn.all, hs, h1], by simp [h4 hs, List.flatMap_def], ?_⟩
    intro p hp
    simp only [ClientConn.all, hs, h1, Option.toList_none, List.append_nil] at hp
    obtain ⟨l, hl, rfl⟩ := hz p hp
    obtain ⟨fl, pre, rest, hlog⟩ := h2 p hl
    exact key hlog
  | some s =>
    refine ⟨logs.map Prod.snd ++ [last], by simp [ClientConn.all, hs, h1], by simp [List.flatMap_def], ?_⟩
    intro p hp
    simp only [ClientConn.all, hs, h1, Option.toList_some] at hp
    rw [List.zip_append (by simp)] at hp
    rcases List.mem_append.1 hp with hp | hp
    · obtain ⟨l, hl, rfl⟩ := hz p hp
      obtain ⟨fl, pre, rest, hlog⟩ := h2 p hl
      exact key hlog
    · simp only [List.zip_cons_cons, List.zip_nil_left, List.mem_singleton] at hp
      subst hp
      obtain ⟨-, pre, hlog⟩ := h3 s hs
      exact key hlog

end

theorem ofBody_fitting {body : Bytes} (hb : 2 * body.length ≤ 3 * 1024 * 1024) :
    FittingResponse (responseBytes (.ofBody body)) (.length body.length) (.ofBody body) :=
  (sized_sendable (by decide) (natDec_numeral _) (Nat.le_trans (natDec_length _ 7 (by omega)) (by decide)) hb :
    (Response.ofBody body).Sendable).fitting

/-- A server that answers every request with its URI. -/
def echo (q : Request) : Response := .ofBody q.uri

/-- Two different requests. -/
def ask (c : UInt8) : Request := ⟨[47, c], .get, [], []⟩

theorem echo_honest {s : ClientStream} {cs : List UInt8} {rest : Bytes} (h1 : s.asked = cs.map ask)
    (h2 : bytesOf s.given ++ rest = cs.flatMap fun c => responseBytes (echo (ask c))) : s.Honest echo := by
  refine ⟨cs.map fun c => (ask c, responseBytes (echo (ask c))), ?_, ?_, .inl ⟨rest, ?_⟩⟩
  · rw [h1, List.map_map]; rfl
  · intro p hp
    obtain ⟨c, -, rfl⟩ := List.mem_map.1 hp
    exact ⟨.length 2, by simp, ofBody_fitting (body := (ask c).uri) (by simp [ask])⟩
  · rw [h2, List.flatMap_map]

/-- Makes the streams honest that asked and got the listed. -/
theorem echo_all {ss : List ClientStream} {xs : List (List UInt8 × Bytes)}
    (h : ss.map (fun s => (s.asked, bytesOf s.given)) = xs.map fun x => (x.1.map ask, x.2))
    (h2 : ∀ x ∈ xs, x.2 <+: x.1.flatMap fun c => responseBytes (echo (ask c))) : ∀ s ∈ ss, s.Honest echo := by
  intro s hs
  have := List.mem_map_of_mem (f := fun s : ClientStream => (s.asked, bytesOf s.given)) hs
  rw [h] at this
  obtain ⟨x, hx, he⟩ := List.mem_map.1 this
  simp only [Prod.mk.injEq] at he
  obtain ⟨rest, hr⟩ := h2 x hx
  exact echo_honest (cs := x.1) he.1.symm (by rw [← he.2]; exact hr)

theorem echo_ne {c d : UInt8} (h : c ≠ d) : echo (ask c) ≠ echo (ask d) := by
  intro he
  have : [(47 : UInt8), c] = [47, d] := congrArg Response.body he
  exact h (by simpa using this)

/-- A stream on which a read times out first and then the responses to the listed requests arrive. -/
def late (cs : List UInt8) : RawStream where
  input := [.err .wouldBlock, .data (cs.flatMap fun c => responseBytes (echo (ask c)))]
  output := [.accept 1000, .accept 1000, .accept 1000]

/-- Two calls of `send` in a row, by what they end with. -/
theorem sends_of {prof : Profile} {f : List CreateEnd} {a b : Request} {x y : SendEnd} {P : ClientConn → Prop}
    (h1 : (ClientConn.send prof .new f a).1 = x)
    (h2 : ((ClientConn.send prof .new f a).2.1.send prof (ClientConn.send prof .new f a).2.2 b).1 = y)
    (h3 : P ((ClientConn.send prof .new f a).2.1.send prof (ClientConn.send prof .new f a).2.2 b).2.1) :
    ∃ f₁ f₂ c₁ c₂, ClientConn.send prof .new f a = (x, c₁, f₁) ∧ c₁.send prof f₁ b = (y, c₂, f₂) ∧ P c₂ :=
  ⟨_, _, _, _, Prod.ext h1 rfl, Prod.ext h2 rfl, h3⟩

/-- C46 fails: every server answers what it is asked, in order. The first call of `send` fails because the response is late
twice; the second call, for another request, then returns the response to the first. -/
theorem C46_late_false (prof : Profile) :
    ∃ (ans : Request → Response) (a b : Request), ans a ≠ ans b ∧ ∃ (f f₁ f₂ : List CreateEnd) (c₁ c₂ : ClientConn),
      ClientConn.send prof .new f a = (.err (.reading .wouldBlock), c₁, f₁) ∧ c₁.send prof f₁ b = (.ok (ans a), c₂, f₂) ∧
      ∀ s ∈ c₂.all, s.Honest ans := by
  refine ⟨echo, ask 97, ask 98, echo_ne (by decide), [.ok (late []), .ok (late [97, 98])], sends_of ?_ ?_ ?_⟩
  · rcases prof with ⟨_ | _⟩ <;> decide +kernel
  · rcases prof with ⟨_ | _⟩ <;> decide +kernel
  · exact echo_all (xs := [([97], []), ([97, 98], [97, 98].flatMap fun c => responseBytes (echo (ask c)))])
      (by rcases prof with ⟨_ | _⟩ <;> decide +kernel) (by decide +kernel)

/-- C46 fails: the response to the first request is late once, and opening another stream fails. The old stream is kept, and
the response to the first request is returned for the second. -/
theorem C46_reconnect_false (prof : Profile) :
    ∃ (ans : Request → Response) (a b : Request), ans a ≠ ans b ∧ ∃ (f f₁ f₂ : List CreateEnd) (c₁ c₂ : ClientConn),
      ClientConn.send prof .new f a = (.err (.connecting .other), c₁, f₁) ∧ c₁.send prof f₁ b = (.ok (ans a), c₂, f₂) ∧
      ∀ s ∈ c₂.all, s.Honest ans := by
  refine ⟨echo, ask 97, ask 98, echo_ne (by decide), [.ok (late [97, 98])], sends_of ?_ ?_ ?_⟩
  · rcases prof with ⟨_ | _⟩ <;> decide +kernel
  · rcases prof with ⟨_ | _⟩ <;> decide +kernel
  · exact echo_all (xs := [([97, 98], [97, 98].flatMap fun c => responseBytes (echo (ask c)))])
      (by rcases prof with ⟨_ | _⟩ <;> decide +kernel) (by decide +kernel)

/-- A stream on which the responses to the listed requests arrive. -/
def prompt (cs : List UInt8) : RawStream where
  input := [.data (cs.flatMap fun c => responseBytes (echo (ask c)))]
  output := [.accept 1000, .accept 1000, .accept 1000]

/-- The conditions of `C46_history_partial` can be met: two requests are answered on one stream, then the server closes it, and
a third is answered on another. -/
example (prof : Profile) : ∃ (c : ClientConn) (f : List CreateEnd),
    History prof .new [.ok (prompt [97, 98]), .ok (prompt [99])]
      ([] ++ [(ask 97, echo (ask 97))] ++ [(ask 98, echo (ask 98))] ++ [(ask 99, echo (ask 99))]) c f ∧
    ∀ s ∈ c.all, s.Honest echo := by
  refine ⟨_, _, .answered (.answered (.answered .nil (Prod.ext ?_ rfl)) (Prod.ext ?_ rfl)) (Prod.ext ?_ rfl), ?_⟩
  · rcases prof with ⟨_ | _⟩ <;> decide +kernel
  · rcases prof with ⟨_ | _⟩ <;> decide +kernel
  · rcases prof with ⟨_ | _⟩ <;> decide +kernel
  · exact echo_all (xs := [([97, 98, 99], [97, 98].flatMap fun c => responseBytes (echo (ask c))),
      ([99], [99].flatMap fun c => responseBytes (echo (ask c)))])
      (by rcases prof with ⟨_ | _⟩ <;> decide +kernel) (by decide +kernel)

/-- The conditions of `C45_once_opened` can be met, and of `C45_once` afterwards. -/
example (prof : Profile) : ∃ s' s'', sendRequest prof (.open (prompt [97, 98])) (ask 97) = (.ok (echo (ask 97)), s') ∧
    sendRequest prof s' (ask 98) = (.ok (echo (ask 98)), s'') := by
  refine ⟨_, _, Prod.ext ?_ rfl, Prod.ext ?_ rfl⟩
  · rcases prof with ⟨_ | _⟩ <;> decide +kernel
  · rcases prof with ⟨_ | _⟩ <;> decide +kernel

/-- Both attempts of `C45_at_most_twice` can happen. -/
example (prof : Profile) :
    (ClientConn.send prof .new [CreateEnd.ok (late []), .ok (late [97, 98])] (ask 97)).2.1.all.map ClientStream.out =
      [requestBytes (ask 97), requestBytes (ask 97)] := by
  rcases prof with ⟨_ | _⟩ <;> decide +kernel

/-- `C45_tcp`: four calls of `connect` can happen. -/
example (prof : Profile) : (ClientConn.send prof .new (⟨false, [.error .other, .ok (late []), .error .other, .error .other, .error .other]⟩ :
    TcpStreamFactory) (ask 97)).2.2.connects.length = 1 := by
  rcases prof with ⟨_ | _⟩ <;> decide +kernel

/-- Each kind of error is returned. -/
example (prof : Profile) :
    (ClientConn.send prof .new ([] : List CreateEnd) (ask 97)).1 = .err (.connecting .other) ∧
    (ClientConn.send prof .new [CreateEnd.ok (S := RawStream) ⟨[], [.err .connectionAborted], [], id⟩, .ok ⟨[], [.accept 0], [], id⟩] (ask 97)).1 =
      .err (.writing .writeZero) ∧
    (ClientConn.send prof .new [CreateEnd.ok (late []), .ok ⟨[.data b!"HTT", .data []], [.accept 1000], [], id⟩] (ask 97)).1 =
      .err (.reading .unexpectedEof) ∧
    (ClientConn.send prof .new [CreateEnd.ok (late []), .ok ⟨[.data b!"HTTP/1.1 x\r\n"], [.accept 1000], [], id⟩] (ask 97)).1 =
      .err (.responseParsing .invalidStatusCode) := by
  rcases prof with ⟨_ | _⟩ <;> decide +kernel

/-- `C48_returns`: a zero read timeout makes `send` panic. -/
example (prof : Profile) (f : TcpStreamFactory) (hf : f.timeoutZero = true) {s : RawStream} (hs : f.connects = [.ok s]) (q : Request) :
    (ClientConn.send prof .new f q).1 = .panic := by
  obtain ⟨z, l⟩ := f
  subst hf hs
  rfl

end Verif
