import Verif.Props.Stream
import Verif.Spec.Client
import Verif.Spec.ClientPool
import Verif.Props.Serving
import Verif.Proofs.NetSerial

/-!
C01 for the client and the server: how the bytes of the peer are grouped into reads makes no difference to what the calls of a connection of the client return, or to what either side sends.
-/

namespace Verif

/-- The same but for how the bytes are grouped into reads, and how buffers grow. -/
inductive CreateEnd.Alike : CreateEnd → CreateEnd → Prop
  | ok {s₁ s₂ : RawStream} : Regroup s₁.input s₂.input → s₁.output = s₂.output → s₁.flushes = s₂.flushes → Alike (.ok s₁) (.ok s₂)
  | err (e : IoError) : Alike (.err e) (.err e)
  | panic : Alike .panic .panic

/-- One by one. -/
inductive CreateEnd.AllAlike : List CreateEnd → List CreateEnd → Prop
  | nil : AllAlike [] []
  | cons {x y : CreateEnd} {xs ys : List CreateEnd} : x.Alike y → AllAlike xs ys → AllAlike (x :: xs) (y :: ys)

/-- Successive calls of `send` on one connection of the client, and what they return. -/
def ClientConn.calls (prof : Profile) : ClientConn → List CreateEnd → List Request → List SendEnd × ClientConn
  | c, _, [] => ([], c)
  | c, f, q :: qs =>
    match c.send prof f q with
    | (x, c, f) => (x :: (c.calls prof f qs).1, (c.calls prof f qs).2)

structure ClientStream.Alike (s₁ s₂ : ClientStream) : Prop where
  reader : SameInput s₁.reader s₂.reader
  writer : s₁.writer = s₂.writer
  asked : s₁.asked = s₂.asked

structure ClientConn.Alike (c₁ c₂ : ClientConn) : Prop where
  stream : (c₁.stream = none ∧ c₂.stream = none) ∨ ∃ s₁ s₂, c₁.stream = some s₁ ∧ c₂.stream = some s₂ ∧ s₁.Alike s₂
  dropped : c₁.dropped.map (fun s => (s.asked, s.writer.sock.sent)) = c₂.dropped.map fun s => (s.asked, s.writer.sock.sent)

theorem sendRequest_alike (prof : Profile) {s₁ s₂ : ClientStream} (h : s₁.Alike s₂) (q : Request) :
    (sendRequest prof s₁ q).1 = (sendRequest prof s₂ q).1 ∧ (sendRequest prof s₁ q).2.Alike (sendRequest prof s₂ q).2 := by
  obtain ⟨h1, h2, h3⟩ := h
  have h4 := C01_response_parse_ignores_grouping prof .new h1
  simp only [sendRequest, h2]
  revert h4
  generalize ResponseParser.parse prof .new s₁.reader = x
  generalize ResponseParser.parse prof .new s₂.reader = y
  obtain ⟨o, r⟩ := x
  obtain ⟨o', r'⟩ := y
  rintro ⟨rfl, h5⟩
  cases writeRequest s₂.writer q with
  | mk a w =>
    cases a with
    | err e => exact ⟨rfl, h1, rfl, by simp only [h3]⟩
    | diverge => exact ⟨rfl, h1, rfl, by simp only [h3]⟩
    | ok => cases o <;> exact ⟨rfl, h5, rfl, by simp only [h3]⟩

/-- What is said of two steps of the client: the same outcome, and what is left is alike. -/
def AlikeStep {A : Type} (x y : A × ClientConn × List CreateEnd) : Prop :=
  x.1 = y.1 ∧ x.2.1.Alike y.2.1 ∧ CreateEnd.AllAlike x.2.2 y.2.2

theorem connect_alike {c₁ c₂ : ClientConn} {f₁ f₂ : List CreateEnd} (hc : c₁.Alike c₂) (hf : CreateEnd.AllAlike f₁ f₂) :
    AlikeStep (c₁.connect f₁) (c₂.connect f₂) ∧ ((c₁.connect f₁).1 = .ok → (c₁.connect f₁).2.1.stream ≠ none) := by
  cases hf with
  | nil => exact ⟨⟨rfl, hc, .nil⟩, fun h => by cases h⟩
  | cons h1 h2 =>
    cases h1 with
    | err e => exact ⟨⟨rfl, hc, h2⟩, fun h => by cases h⟩
    | panic => exact ⟨⟨rfl, hc, h2⟩, fun h => by cases h⟩
    | @ok s₁ s₂ g1 g2 g3 =>
      refine ⟨⟨rfl, ⟨.inr ⟨_, _, rfl, rfl, ⟨rfl, ?_⟩, ?_, rfl⟩, ?_⟩, h2⟩, fun _ => by simp [ClientConn.connect, StreamFactory.create]⟩
      · simpa [Rd.pending, ClientStream.open] using g1
      · simp only [ClientStream.open, g2, g3]
      · simp only [ClientConn.connect, StreamFactory.create, List.map_append, hc.dropped]
        rcases hc.stream with ⟨e1, e2⟩ | ⟨a, b, e1, e2, e3⟩
        · rw [e1, e2]
        · rw [e1, e2]
          simp [ClientStream.drop, e3.writer, e3.asked]

theorem retry_alike (prof : Profile) {c₁ c₂ : ClientConn} {f₁ f₂ : List CreateEnd} (hc : c₁.Alike c₂) (hf : CreateEnd.AllAlike f₁ f₂) (q : Request) :
    AlikeStep (c₁.retry prof f₁ q) (c₂.retry prof f₂ q) := by
  obtain ⟨h, -⟩ := connect_alike hc hf
  unfold ClientConn.retry
  revert h
  generalize c₁.connect f₁ = x
  generalize c₂.connect f₂ = y
  obtain ⟨a, c, f⟩ := x
  obtain ⟨b, c', f'⟩ := y
  rintro ⟨rfl, h2, h3⟩
  cases a with
  | err e => exact ⟨rfl, h2, h3⟩
  | panic => exact ⟨rfl, h2, h3⟩
  | ok =>
    dsimp only at h2 h3 ⊢
    rcases h2.stream with ⟨e1, e2⟩ | ⟨s, t, e1, e2, e3⟩
    · rw [e1, e2]; exact ⟨rfl, h2, h3⟩
    · rw [e1, e2]
      obtain ⟨g1, g2⟩ := sendRequest_alike prof e3 q
      exact ⟨g1, ⟨.inr ⟨_, _, rfl, rfl, g2⟩, h2.dropped⟩, h3⟩

theorem sendOpen_alike (prof : Profile) {c₁ c₂ : ClientConn} {f₁ f₂ : List CreateEnd} (hc : c₁.Alike c₂) (hf : CreateEnd.AllAlike f₁ f₂) (q : Request) :
    AlikeStep (c₁.sendOpen prof f₁ q) (c₂.sendOpen prof f₂ q) := by
  unfold ClientConn.sendOpen
  rcases hc.stream with ⟨e1, e2⟩ | ⟨s, t, e1, e2, e3⟩
  · rw [e1, e2]; exact ⟨rfl, hc, hf⟩
  · rw [e1, e2]
    have g := sendRequest_alike prof e3 q
    dsimp only
    revert g
    generalize sendRequest prof s q = x
    generalize sendRequest prof t q = y
    obtain ⟨a, s'⟩ := x
    obtain ⟨b, t'⟩ := y
    rintro ⟨rfl, g⟩
    have hc' : ({ c₁ with stream := some s' } : ClientConn).Alike { c₂ with stream := some t' } := ⟨.inr ⟨_, _, rfl, rfl, g⟩, hc.dropped⟩
    cases a with
    | err e => exact retry_alike prof hc' hf q
    | ok r => exact ⟨rfl, hc', hf⟩
    | panic => exact ⟨rfl, hc', hf⟩
    | diverge => exact ⟨rfl, hc', hf⟩

theorem send_alike (prof : Profile) {c₁ c₂ : ClientConn} {f₁ f₂ : List CreateEnd} (hc : c₁.Alike c₂) (hf : CreateEnd.AllAlike f₁ f₂) (q : Request) :
    AlikeStep (c₁.send prof f₁ q) (c₂.send prof f₂ q) := by
  unfold ClientConn.send
  rcases hc.stream with ⟨e1, e2⟩ | ⟨s, t, e1, e2, e3⟩
  · rw [e1, e2]
    obtain ⟨h, -⟩ := connect_alike hc hf
    dsimp only
    revert h
    generalize c₁.connect f₁ = x
    generalize c₂.connect f₂ = y
    obtain ⟨a, c, f⟩ := x
    obtain ⟨b, c', f'⟩ := y
    rintro ⟨rfl, h2, h3⟩
    cases a with
    | err e => exact ⟨rfl, h2, h3⟩
    | panic => exact ⟨rfl, h2, h3⟩
    | ok => exact sendOpen_alike prof h2 h3 q
  · rw [e1, e2]
    exact sendOpen_alike prof hc hf q

/-- C01 for the client: the outcomes of all calls of `send` on a connection of the client, and what is sent on each of the streams it opens, depend on the bytes and events that are received on them and not on how they are grouped into reads. -/
theorem C01_client_ignores_grouping (prof : Profile) {f₁ f₂ : List CreateEnd} (hf : CreateEnd.AllAlike f₁ f₂) (qs : List Request) :
    (ClientConn.new.calls prof f₁ qs).1 = (ClientConn.new.calls prof f₂ qs).1 ∧
      (ClientConn.new.calls prof f₁ qs).2.all.map (fun s => (s.asked, s.writer.sock.sent)) = (ClientConn.new.calls prof f₂ qs).2.all.map fun s => (s.asked, s.writer.sock.sent) := by
  have key : ∀ (qs : List Request) (c₁ c₂ : ClientConn) (f₁ f₂ : List CreateEnd), c₁.Alike c₂ → CreateEnd.AllAlike f₁ f₂ →
      (c₁.calls prof f₁ qs).1 = (c₂.calls prof f₂ qs).1 ∧ (c₁.calls prof f₁ qs).2.Alike (c₂.calls prof f₂ qs).2 := by
    intro qs
    induction qs with
    | nil => intro c₁ c₂ f₁ f₂ hc _; exact ⟨rfl, hc⟩
    | cons q qs ih =>
      intro c₁ c₂ f₁ f₂ hc hf
      have h := send_alike prof hc hf q
      simp only [ClientConn.calls]
      revert h
      generalize c₁.send prof f₁ q = x
      generalize c₂.send prof f₂ q = y
      obtain ⟨a, c, f⟩ := x
      obtain ⟨b, c', f'⟩ := y
      rintro ⟨rfl, h2, h3⟩
      obtain ⟨g1, g2⟩ := ih c c' f f' h2 h3
      exact ⟨by dsimp only; rw [g1], g2⟩
  obtain ⟨h1, h2⟩ := key qs .new .new _ _ ⟨.inl ⟨rfl, rfl⟩, rfl⟩ hf
  refine ⟨h1, ?_⟩
  simp only [ClientConn.all, List.map_append, h2.dropped]
  rcases h2.stream with ⟨e1, e2⟩ | ⟨s, t, e1, e2, e3⟩
  · rw [e1, e2]
  · rw [e1, e2]
    simp [e3.writer, e3.asked]

/-- The condition can be met by streams that bring the same response in one piece and in three, and the call returns it. -/
example (prof : Profile) : CreateEnd.AllAlike [.ok ⟨[.data b!"HTTP/1.1 200 OK\r\ncontent-length: 2\r\n\r\nhi"], [.accept 100], [], id⟩]
      [.ok ⟨[.data b!"HTTP/1.1 2", .data b!"00 OK\r\ncontent-length: 2\r\n\r\nh", .data b!"i"], [.accept 100], [], id⟩] ∧
    (ClientConn.new.calls prof [.ok ⟨[.data b!"HTTP/1.1 2", .data b!"00 OK\r\ncontent-length: 2\r\n\r\nh", .data b!"i"], [.accept 100], [], id⟩] [⟨b!"/", .get, [], []⟩]).1 =
      [.ok ⟨⟨200, b!"OK"⟩, [(Header.contentLength, [b!"2"])], b!"hi"⟩] := by
  refine ⟨.cons (.ok ?_ rfl rfl) .nil, ?_⟩
  · refine .trans (.cut [] [] b!"HTTP/1.1 2" b!"00 OK\r\ncontent-length: 2\r\n\r\nhi" (by decide) (by decide)) ?_
    exact .cut [.data b!"HTTP/1.1 2"] [] b!"00 OK\r\ncontent-length: 2\r\n\r\nh" b!"i" (by decide) (by decide)
  · rcases prof with ⟨_ | _⟩ <;> decide +kernel

/-- The same action, but for how the bytes of the streams that are opened are grouped. -/
inductive CAct.Alike : CAct → CAct → Prop
  | call (t : Nat) (q : Request) : Alike (.call t q) (.call t q)
  | look (t : Nat) : Alike (.look t) (.look t)
  | finish (t : Nat) {f₁ f₂ : List CreateEnd} : CreateEnd.AllAlike f₁ f₂ → Alike (.finish t f₁) (.finish t f₂)

/-- One by one. -/
inductive CAct.AllAlike : List CAct → List CAct → Prop
  | nil : AllAlike [] []
  | cons {a b : CAct} {as bs : List CAct} : a.Alike b → AllAlike as bs → AllAlike (a :: as) (b :: bs)

/-- The state of the client after these actions, if they are possible one after the other. -/
def CPool.runActs (prof : Profile) : CPool → List CAct → Option CPool
  | s, [] => some s
  | s, a :: as => (s.step prof a).bind fun s => s.runActs prof as

/-- What can be seen of a call that has ended: connection, thread, request, result. -/
def Sent.seen (x : Sent) : Nat × Nat × Request × SendEnd := (x.conn, x.thread, x.request, x.result)

structure CPool.Alike (s₁ s₂ : CPool) : Prop where
  len : s₁.conns.length = s₂.conns.length
  conns : ∀ (i : Nat) (c₁ c₂ : ClientConn), s₁.conns[i]? = some c₁ → s₂.conns[i]? = some c₂ → c₁.Alike c₂
  locks : s₁.locks = s₂.locks
  threads : s₁.threads = s₂.threads
  log : s₁.log.map Sent.seen = s₂.log.map Sent.seen

/-- Both are possible or neither. -/
def CPool.BothAlike : Option CPool → Option CPool → Prop
  | some s₁, some s₂ => s₁.Alike s₂
  | none, none => True
  | _, _ => False

theorem CPool.Alike.set {s₁ s₂ : CPool} (h : s₁.Alike s₂) (i : Nat) {c₁ c₂ : ClientConn} (hc : c₁.Alike c₂) :
    (s₁.conns.set i c₁).length = (s₂.conns.set i c₂).length ∧
      ∀ (j : Nat) (d₁ d₂ : ClientConn), (s₁.conns.set i c₁)[j]? = some d₁ → (s₂.conns.set i c₂)[j]? = some d₂ → d₁.Alike d₂ := by
  refine ⟨by simp [h.len], fun j d₁ d₂ h1 h2 => ?_⟩
  rw [List.getElem?_set] at h1 h2
  by_cases hij : i = j
  · rw [if_pos hij] at h1 h2
    split at h1 <;> split at h2 <;> cases h1 <;> cases h2
    exact hc
  · rw [if_neg hij] at h1 h2
    exact h.conns j d₁ d₂ h1 h2

theorem CPool.step_alike (prof : Profile) {s₁ s₂ : CPool} (h : s₁.Alike s₂) {a b : CAct} (hab : a.Alike b) : CPool.BothAlike (s₁.step prof a) (s₂.step prof b) := by
  cases hab with
  | call t q =>
    simp only [CPool.step, h.threads]
    cases s₂.threads[t]? with
    | none => trivial
    | some x => cases x with
      | idle => exact ⟨h.len, h.conns, h.locks, by simp only [h.threads], h.log⟩
      | _ => trivial
  | look t =>
    simp only [CPool.step, h.threads, h.locks]
    cases s₂.threads[t]? with
    | none => trivial
    | some x => cases x with
      | scanning q i =>
        dsimp only
        cases s₂.locks[i]? with
        | none => exact ⟨h.len, h.conns, rfl, rfl, h.log⟩
        | some l => cases l <;> exact ⟨h.len, h.conns, rfl, rfl, h.log⟩
      | _ => trivial
  | @finish t f₁ f₂ hf =>
    simp only [CPool.step, h.threads]
    cases s₂.threads[t]? with
    | none => trivial
    | some x => cases x with
      | sending q i =>
        dsimp only
        cases h1 : s₁.conns[i]? with
        | none =>
          have h2 : s₂.conns[i]? = none := by
            rw [List.getElem?_eq_none_iff] at h1 ⊢
            have := h.len
            omega
          rw [h2]
          trivial
        | some c₁ =>
          cases h2 : s₂.conns[i]? with
          | none =>
            rw [List.getElem?_eq_none_iff] at h2
            have := (List.getElem?_eq_some_iff.1 h1).1
            have := h.len
            omega
          | some c₂ =>
            have h3 := send_alike prof (h.conns i c₁ c₂ h1 h2) hf q
            dsimp only
            revert h3
            generalize c₁.send prof f₁ q = x
            generalize c₂.send prof f₂ q = y
            obtain ⟨x, c, f⟩ := x
            obtain ⟨y, c', f'⟩ := y
            rintro ⟨rfl, h4, -⟩
            obtain ⟨h5, h6⟩ := h.set i h4
            cases x with
            | diverge => trivial
            | _ => exact ⟨h5, h6, by simp only [h.locks], by simp only [h.threads], by simp [h.log, Sent.seen]⟩
      | _ => trivial

/-- C01 for threads that share a client: on every schedule, what all calls of all threads return, and which connections they use, depend on the bytes and events that are received on the streams and not on how they are grouped into reads; so does what is possible next. -/
theorem C01_threads_ignore_grouping (prof : Profile) {as bs : List CAct} (hab : CAct.AllAlike as bs) {n m : Nat} {s : CPool} (hn : CPool.new n m = some s) :
    (s.runActs prof as).isSome = (s.runActs prof bs).isSome ∧
      ∀ s₁ s₂, s.runActs prof as = some s₁ → s.runActs prof bs = some s₂ →
        s₁.log.map Sent.seen = s₂.log.map Sent.seen ∧ s₁.threads = s₂.threads ∧ s₁.locks = s₂.locks := by
  have key : ∀ {as bs : List CAct}, CAct.AllAlike as bs → ∀ s₁ s₂ : CPool, s₁.Alike s₂ → CPool.BothAlike (s₁.runActs prof as) (s₂.runActs prof bs) := by
    intro as bs hab
    induction hab with
    | nil => intro s₁ s₂ h; exact h
    | @cons a b as bs h1 _ ih =>
      intro s₁ s₂ h
      have h2 := CPool.step_alike prof h h1
      simp only [CPool.runActs]
      revert h2
      cases s₁.step prof a with
      | none => cases s₂.step prof b with
        | none => intro; trivial
        | some y => intro h; exact h.elim
      | some x => cases s₂.step prof b with
        | none => intro h; exact h.elim
        | some y => intro h; exact ih x y h
  have hs : s.Alike s := by
    refine ⟨rfl, fun i c₁ c₂ h1 h2 => ?_, rfl, rfl, rfl⟩
    rw [h1] at h2
    cases h2
    unfold CPool.new at hn
    split at hn
    · cases hn
    · cases hn
      rw [List.getElem?_replicate] at h1
      split at h1 <;> cases h1
      exact ⟨.inl ⟨rfl, rfl⟩, rfl⟩
  have h := key hab s s hs
  revert h
  cases s.runActs prof as with
  | none => cases s.runActs prof bs with
    | none => exact fun _ => ⟨rfl, nofun⟩
    | some y => intro h; exact h.elim
  | some x => cases s.runActs prof bs with
    | none => intro h; exact h.elim
    | some y =>
      intro h
      refine ⟨rfl, fun s₁ s₂ h1 h2 => ?_⟩
      cases h1
      cases h2
      exact ⟨h.log, h.threads, h.locks⟩

/-- The conditions can be met, by a thread that gets its response in one piece or in two. -/
example (prof : Profile) : CAct.AllAlike [.call 0 ⟨b!"/", .get, [], []⟩, .look 0, .finish 0 [.ok ⟨[.data b!"HTTP/1.1 200 OK\r\ncontent-length: 2\r\n\r\nhi"], [.accept 100], [], id⟩]]
      [.call 0 ⟨b!"/", .get, [], []⟩, .look 0, .finish 0 [.ok ⟨[.data b!"HTTP/1.1 2", .data b!"00 OK\r\ncontent-length: 2\r\n\r\nhi"], [.accept 100], [], id⟩]] ∧
    ((CPool.new 1 1).bind fun s => (s.runActs prof [.call 0 ⟨b!"/", .get, [], []⟩, .look 0,
      .finish 0 [.ok ⟨[.data b!"HTTP/1.1 2", .data b!"00 OK\r\ncontent-length: 2\r\n\r\nhi"], [.accept 100], [], id⟩]]).map fun s => s.log.map Sent.seen) =
      some [(0, 0, ⟨b!"/", .get, [], []⟩, .ok ⟨⟨200, b!"OK"⟩, [(Header.contentLength, [b!"2"])], b!"hi"⟩)] := by
  refine ⟨.cons (.call ..) (.cons (.look _) (.cons (.finish _ (.cons (.ok ?_ rfl rfl) .nil)) .nil)), by rcases prof with ⟨_ | _⟩ <;> decide +kernel⟩
  exact .cut [] [] b!"HTTP/1.1 2" b!"00 OK\r\ncontent-length: 2\r\n\r\nhi" (by decide) (by decide)

/-- C01 for a connection of the server: what the successive invocations of its handler send, what they leave to be sent, whether the connection is open then, and what the listeners are asked and left with depend on the bytes and events that are received
and not on how they are grouped into reads, or on the size of the buffer. -/
theorem C01_server_ignores_grouping {σ : Type} (prof : Profile) (rt : Router σ) (wakes : List (List WEv)) {c₁ c₂ : Conn Rd Nbw} (hr : SameInput c₁.reader c₂.reader) (hw : c₁.writer = c₂.writer)
    (hp : c₁.parser = c₂.parser) (s : σ) :
    (handleAll prof rt wakes (.live c₁) s).1.Same (handleAll prof rt wakes (.live c₂) s).1 ∧ (handleAll prof rt wakes (.live c₁) s).2 = (handleAll prof rt wakes (.live c₂) s).2 := by
  have h1 := handleAll_at_nil (prof := prof) (rt := rt) wakes (.live c₁) s
  have h2 := handleAll_at_nil (prof := prof) (rt := rt) wakes (.live c₂) s
  have h3 : (Slot.live c₁).at [] = (Slot.live c₂).at [] := by
    have hl := hr.1
    have ha := hr.2.atoms
    rw [pending_atoms, pending_atoms] at ha
    simp only [Slot.at, Conn.at, hl, ha, hw, hp]
  rw [h3, h2] at h1
  exact ⟨same_of_at (Prod.mk.inj h1).1.symm, (Prod.mk.inj h1).2.symm⟩

/-- The conditions can be met: one request in one piece and in two, which is answered. -/
example (prof : Profile) : SameInput (Conn.sample [.data b!"GET /a HTTP/1.1\r\n\r\n"]).reader (Conn.sample [.data b!"GET /a H", .data b!"TTP/1.1\r\n\r\n"]).reader ∧
    (handleAll prof counter [[.accept 100]] (.live (Conn.sample [.data b!"GET /a H", .data b!"TTP/1.1\r\n\r\n"])) 5).1.conn.writer.sock.sent = b!"HTTP/1.1 200 OK\r\n\r\nhi" := by
  refine ⟨⟨rfl, ?_⟩, by rcases prof with ⟨_ | _⟩ <;> decide +kernel⟩
  exact .cut [] [] b!"GET /a H" b!"TTP/1.1\r\n\r\n" (by decide) (by decide)

end Verif
