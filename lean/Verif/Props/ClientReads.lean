import Verif.Spec.Endless
import Verif.Proofs.Within
import Verif.Proofs.ReaderInv
import Verif.Proofs.WriterInv
import Verif.Props.HttpsCalls

/-!
C86: how much a server can make the client read.
-/

namespace Verif

/-! ## Scripted streams -/

/-- At most as much was taken from the stream as the attempts may take, at most the buffer is read ahead, and at most the buffer is not sent. -/
structure ClientStream.Frugal (s : ClientStream) : Prop where
  fits : s.reader.src.Fits 8192
  lims : s.reader.lims = []
  took : ∃ pre, s.given = pre ++ s.reader.src.atoms ∧ (bytesOf pre).length ≤ s.asked.length * callBudget
  unsent : s.writer.Fits 8192

theorem frugal_open (raw : RawStream) : (ClientStream.open raw).Frugal :=
  ⟨⟨rfl, Nat.zero_le _⟩, rfl, ⟨[], rfl, Nat.zero_le _⟩, rfl, Nat.zero_le _⟩

theorem ClientStream.Frugal.drop {s : ClientStream} (h : s.Frugal) : s.drop.Frugal := ⟨h.fits, h.lims, h.took, bufW_flushBuf_fits h.unsent⟩

theorem ClientStream.Frugal.send {s : ClientStream} (h : s.Frugal) (prof : Profile) (q : Request) :
    (sendRequest prof s q).2.Frugal ∧ (sendRequest prof s q).2.asked = s.asked ++ [q] := by
  have written : ∀ w : BufW, w.Fits 8192 → ClientStream.Frugal ⟨s.reader, w, s.asked ++ [q], s.given⟩ := by
    intro w hw
    obtain ⟨pre, h1, h2⟩ := h.took
    refine ⟨h.fits, h.lims, ⟨pre, h1, ?_⟩, hw⟩
    dsimp only
    rw [List.length_append, Nat.add_mul]
    omega
  have read : ∀ w : BufW, w.Fits 8192 → ClientStream.Frugal ⟨(ResponseParser.parse prof .new s.reader).2, w, s.asked ++ [q], s.given⟩ := by
    intro w hw
    obtain ⟨pre, h1, h2⟩ := h.took
    obtain ⟨pre', k1, k2⟩ := response_within prof (r := s.reader) rfl
    refine ⟨readerKeeps_fits.response prof .new h.fits, ?_, ⟨pre ++ pre', ?_, ?_⟩, hw⟩
    · have := k1.lims
      rw [show s.reader.abs.lims = [] from h.lims] at this
      exact this
    · have : s.reader.src.atoms = pre' ++ (ResponseParser.parse prof .new s.reader).2.src.atoms := k1.atoms
      dsimp only
      rw [h1, this, List.append_assoc]
    · dsimp only
      rw [bytesOf_append, List.length_append, List.length_append, Nat.add_mul, List.length_singleton, Nat.one_mul]
      have : (bytesOf pre').length ≤ callBudget := k2
      omega
  have hw := (bufW_keeps_fits 8192).request q h.unsent
  unfold sendRequest
  dsimp only
  generalize writeRequest s.writer q = y at hw
  obtain ⟨o, w⟩ := y
  cases o with
  | err e => exact ⟨written w hw, rfl⟩
  | diverge => exact ⟨written w hw, rfl⟩
  | ok =>
    have := read w hw
    dsimp only
    generalize ResponseParser.parse prof .new s.reader = z at this
    obtain ⟨o, r⟩ := z
    cases o <;> exact ⟨this, rfl⟩

/-- The streams of a connection after `n` calls. -/
structure ClientConn.Frugal (n : Nat) (c : ClientConn) : Prop where
  streams : ∀ s ∈ c.all, s.Frugal ∧ s.asked ≠ []
  asked : (c.all.map fun s => s.asked.length).sum ≤ 2 * n

section

variable {prof : Profile} {F : Type} [StreamFactory F]

theorem ClientConn.Frugal.step {n : Nat} {c c' : ClientConn} {f f' : F} {q : Request} {x : SendEnd} (h : c.Frugal n) (hs : c.send prof f q = (x, c', f')) : c'.Frugal (n + 1) := by
  rcases send_cases hs with ⟨-, rfl, -, -⟩ | ⟨s, raws, f₁, hb, hk⟩
  · exact ⟨h.streams, by have := h.asked; omega⟩
  · have hd : ∀ s ∈ c.dropped, s.Frugal ∧ s.asked ≠ [] := fun s hs => h.streams s (List.mem_append_left _ hs)
    have hst : s.Frugal ∧ (c.dropped.map fun s => s.asked.length).sum + s.asked.length ≤ 2 * n := by
      have ha := h.asked
      cases hb with
      | had hs =>
        unfold ClientConn.all at ha
        rw [hs] at ha
        refine ⟨(h.streams s (by simp [ClientConn.all, hs])).1, ?_⟩
        simpa [List.sum_append] using ha
      | opened hs hcr =>
        unfold ClientConn.all at ha
        rw [hs] at ha
        refine ⟨frugal_open _, ?_⟩
        simpa [ClientStream.open] using ha
    obtain ⟨k1, k2⟩ := hst
    obtain ⟨k3, k4⟩ := k1.send prof q
    have hlen : (sendRequest prof s q).2.asked.length = s.asked.length + 1 := by rw [k4, List.length_append]; rfl
    have first : ClientConn.Frugal (n + 1) ⟨some (sendRequest prof s q).2, c.dropped⟩ := by
      refine ⟨?_, ?_⟩
      · intro s' hs'
        rcases List.mem_append.1 hs' with hs' | hs'
        · exact hd s' hs'
        · cases List.mem_singleton.1 hs'
          exact ⟨k3, by rw [k4]; simp⟩
      · simp only [ClientConn.all, Option.toList_some, List.map_append, List.sum_append, List.map_cons, List.map_nil, List.sum_cons, List.sum_nil, hlen]
        omega
    rcases hk with ⟨-, -, -, rfl⟩ | ⟨-, ⟨-, -, rfl, -⟩ | ⟨raw, -, -, rfl⟩⟩
    · exact first
    · exact first
    · obtain ⟨l1, l2⟩ := (frugal_open raw).send prof q
      have hlen' : (sendRequest prof (.open raw) q).2.asked.length = 1 := by rw [l2]; rfl
      refine ⟨?_, ?_⟩
      · intro s' hs'
        rcases List.mem_append.1 hs' with hs' | hs'
        · rcases List.mem_append.1 hs' with hs' | hs'
          · exact hd s' hs'
          · cases List.mem_singleton.1 hs'
            exact ⟨k3.drop, by show (sendRequest prof s q).2.asked ≠ []; rw [k4]; simp⟩
        · cases List.mem_singleton.1 hs'
          exact ⟨l1, by rw [l2]; simp⟩
      · simp only [ClientConn.all, Option.toList_some, List.map_append, List.sum_append, List.map_cons, List.map_nil, List.sum_cons, List.sum_nil, ClientStream.drop, hlen, hlen']
        omega

theorem ClientConn.Frugal.sendAll {n : Nat} {c c' : ClientConn} {f f' : F} {qs : List Request} {os : List SendEnd} (h : c.Frugal n) (hs : Verif.sendAll prof qs c f = (os, c', f')) :
    c'.Frugal (n + qs.length) := by
  induction qs generalizing n c f os with
  | nil => cases hs; exact h
  | cons q qs ih =>
    unfold Verif.sendAll at hs
    cases hc : c.send prof f q with
    | mk x y =>
    obtain ⟨c₁, f₁⟩ := y
    rw [hc] at hs
    dsimp only at hs
    cases ht : Verif.sendAll prof qs c₁ f₁ with
    | mk os' y =>
    obtain ⟨c₂, f₂⟩ := y
    rw [ht] at hs
    cases hs
    have := ih (h.step hc) ht
    rwa [List.length_cons, Nat.add_comm qs.length, ← Nat.add_assoc]

end

/-! ## Servers that send without end -/

/-- C86: a server that sends more than the first line, the header section and the body may have together. How the attempt ends is settled by what came up to there; what follows makes no
difference, and the client does not wait for it: the attempt ends with a response, with the error that a limit was reached or with an error of parsing (or before that with an error of
writing). -/
theorem C86_cut_off (prof : Profile) {bs : Bytes} (hb : 512 + 4096 + 3 * 1024 * 1024 < bs.length) :
    ∃ o : SendEnd, ((∃ r, o = .ok r) ∨ o = .err (.reading .limitReached) ∨ ∃ e, o = .err (.responseParsing e)) ∧
      ∀ (s : ClientStream) (q : Request) (rest : List Atom), s.reader.Ahead (bs.map .byte ++ rest) →
        (sendRequest prof s q).1 = o ∨ ∃ e, (sendRequest prof s q).1 = .err (.writing e) := by
  let r₀ : Rd := ⟨[], ⟨1, by decide, id, bs, []⟩⟩
  have hr₀ : r₀.Ahead (bs.map .byte) := ⟨rfl, by simp [r₀, Src.atoms]⟩
  have h1 := (response_isWrap prof).ahead (p := ResponseParser.new) hr₀
  have hret := (C17_response_parse_returns prof .new r₀).1
  have hpan := C16_first_response_partial prof r₀
  cases hx : mrun prof parseStatusLine true ResponseParser.new ⟨[], bs.map .byte⟩ with
  | mk o1 r1 =>
  have hall : ∀ (r : Rd) (rest : List Atom), r.Ahead (bs.map .byte ++ rest) → (∀ s, o1 ≠ .io s .wouldBlock) →
      (ResponseParser.parse prof .new r).1 = (ResponseParser.parse prof .new r₀).1 := by
    intro r rest hr hw
    have h2 := congrArg Prod.fst ((response_isWrap prof).ahead (p := ResponseParser.new) hr)
    have h3 := congrArg Prod.fst h1
    simp only [wrap, hx] at h3
    simp only [wrap, mrun_append rest hx hw] at h2
    exact h2.symm.trans h3
  obtain ⟨pre, k1, k2, k3⟩ := mrun_plain prof parseStatusLine true (st := ResponseParser.new) (show MsgState.Anew (MsgState.firstLine []) from rfl) []
    (allBytes_map bs) hx
  have hat : bs.map Atom.byte = pre ++ r1.atoms := k1.atoms
  have hlim : ∀ s e, o1 = .io s e → e = .limitReached := by
    intro s e he
    rcases (k3 s e he).2 with h | ⟨-, h⟩
    · exact h
    · rw [h, List.append_nil] at hat
      rw [← hat, bytesOf_map] at k2
      have : bs.length ≤ 512 + 4096 + 3 * 1024 * 1024 := k2
      omega
  have hw : ∀ s, o1 ≠ .io s .wouldBlock := fun s hs => by cases hlim s _ hs
  have h3 := congrArg Prod.fst h1
  simp only [wrap, hx] at h3
  refine ⟨(match (ResponseParser.parse prof .new r₀).1 with
    | .done r => .ok r
    | .io _ e => .err (.reading e)
    | .perr e => .err (.responseParsing e)
    | .panic => .panic
    | .diverge => .diverge), ?_, ?_⟩
  · cases ho : (ResponseParser.parse prof .new r₀).1 with
    | done r => exact .inl ⟨r, rfl⟩
    | io p e =>
      rw [ho] at h3
      obtain ⟨p', h4, -⟩ := Out.bind_io h3 (by simp)
      rw [hlim _ _ h4]
      exact .inr (.inl rfl)
    | perr e => exact .inr (.inr ⟨e, rfl⟩)
    | panic => exact absurd ho hpan
    | diverge => exact absurd ho hret
  · intro s q rest hs
    have := hall s.reader rest hs hw
    unfold sendRequest
    dsimp only
    have hd : (writeRequest s.writer q).1 ≠ .diverge := by
      rcases C54_client_in_order s.writer q with ⟨h, -⟩ | ⟨e, h, -⟩ <;> rw [h] <;> nofun
    generalize writeRequest s.writer q = y at hd
    obtain ⟨o, w⟩ := y
    cases o with
    | err e => exact .inr ⟨e, rfl⟩
    | diverge => exact absurd rfl hd
    | ok =>
      refine .inl ?_
      dsimp only
      generalize ResponseParser.parse prof .new s.reader = z at this
      obtain ⟨o, r⟩ := z
      dsimp only at this
      rw [← this]
      cases o <;> rfl

/-- The conditions of `C86_cut_off` can be met. -/
example : ∃ (bs : Bytes) (s : ClientStream), 512 + 4096 + 3 * 1024 * 1024 < bs.length ∧ s.reader.Ahead (bs.map .byte ++ []) := by
  obtain ⟨bs, hb⟩ : ∃ bs : Bytes, bs.length = 512 + 4096 + 3 * 1024 * 1024 + 1 := ⟨_, List.length_replicate (a := 97)⟩
  exact ⟨bs, ⟨⟨[], ⟨8192, by decide, id, bs, []⟩⟩, ⟨[], 8192, ⟨[], [], []⟩⟩, [], []⟩, by omega, rfl, by simp [Src.atoms]⟩

/-! ## Streams of any kind -/

section

variable {T F : Type} [RawIO T] [AnyFactory T F] {prof : Profile}

theorem ClientStream.Frugal.all {s : ClientStream} (h : s.Frugal) (he : s.reader.src.evs = []) : (bytesOf s.given).length ≤ s.asked.length * callBudget + 8192 := by
  obtain ⟨pre, h1, h2⟩ := h.took
  have := h.fits.2
  rw [h1, bytesOf_append, List.length_append, Src.atoms, he, List.flatMap_nil, List.append_nil, bytesOf_map]
  omega

theorem sum_le_sum {α : Type} {l : List α} {f g : α → Nat} (h : ∀ x ∈ l, f x ≤ g x) : (l.map f).sum ≤ (l.map g).sum := by
  induction l with
  | nil => exact Nat.le_refl _
  | cons a l ih =>
    simp only [List.map_cons, List.sum_cons]
    have h1 := h a (List.mem_cons_self ..)
    have h2 := ih fun x hx => h x (List.mem_cons_of_mem _ hx)
    omega

theorem sum_mul_right {α : Type} (l : List α) (f : α → Nat) (k : Nat) : (l.map fun x => f x * k).sum = (l.map f).sum * k := by
  induction l with
  | nil => simp
  | cons a l ih => simp only [List.map_cons, List.sum_cons, ih, Nat.add_mul]

/-- C86: a client over streams of any kind and any factory, used for any requests one after the other, however the calls end and whatever the servers send. On each stream the client reads,
for each attempt it made there, at most a first line, a header section and a body of the sizes that are allowed, and at most one buffer of 8 KiB ahead of that. Since no call makes more than two
attempts, all servers together can make the client read at most twice so much for each call. -/
theorem C86_reads (hT : RawIO.Honest T) (hR : RawIO.ReadsWithin T) (offer : Nat → Nat) (qs : List ((T → T) × Nat × Request)) {f f' : F} {os : List SendEnd} {c : AnyConn (Traced T)}
    (h : AnyConn.sendAll prof offer qs .new f = some (os, c, f')) :
    (∀ x ∈ c.all, x.traced.got.length ≤ x.asked.length * (512 + 4096 + 3 * 1024 * 1024) + 8192) ∧
      (c.all.map fun x => x.traced.got.length).sum ≤ 2 * qs.length * (512 + 4096 + 3 * 1024 * 1024 + 8192) := by
  obtain ⟨script, d, h1, h2, -⟩ := C76_client hT hR offer qs h
  have hf : d.Frugal (0 + (qs.map fun p => p.2.2).length) := ClientConn.Frugal.sendAll (c := .new) ⟨nofun, Nat.le_refl _⟩ h1
  rw [List.length_map, Nat.zero_add] at hf
  have hone : ∀ x ∈ c.all, x.traced.got.length ≤ x.asked.length * callBudget + 8192 ∧ x.asked ≠ [] := by
    intro x hx
    obtain ⟨s, k1, k2⟩ := h2.mem' hx
    obtain ⟨k3, k4⟩ := hf.streams s k1
    rw [← k2.given, ← k2.asked]
    exact ⟨k3.all k2.over, k4⟩
  refine ⟨fun x hx => (hone x hx).1, ?_⟩
  have hsum : (c.all.map fun x => x.asked.length).sum = (d.all.map fun s => s.asked.length).sum := by
    have : ∀ {xs : List (AnyStream (Traced T))} {ss : List ClientStream}, AnyStream.AllLike xs ss → (xs.map fun x => x.asked.length).sum = (ss.map fun s => s.asked.length).sum := by
      intro xs ss h
      induction h with
      | nil => rfl
      | cons h1 _ ih => simp only [List.map_cons, List.sum_cons, ih, h1.asked]
    exact this h2
  have h3 := sum_le_sum (l := c.all) (f := fun x => x.traced.got.length) (g := fun x => x.asked.length * (callBudget + 8192)) (by
    intro x hx
    obtain ⟨k1, k2⟩ := hone x hx
    have : 1 ≤ x.asked.length := List.length_pos_iff.2 k2
    rw [Nat.mul_add]
    omega)
  rw [sum_mul_right, hsum] at h3
  exact Nat.le_trans h3 (Nat.mul_le_mul_right _ hf.asked)

/-- C86: whatever the servers do, a connection holds, between its calls, at most 8 KiB that it has read ahead and at most 8 KiB that it has not sent, however many calls failed. -/
theorem C86_holds (hT : RawIO.Honest T) (hR : RawIO.ReadsWithin T) (offer : Nat → Nat) (qs : List ((T → T) × Nat × Request)) {f f' : F} {os : List SendEnd} {c : AnyConn (Traced T)}
    (h : AnyConn.sendAll prof offer qs .new f = some (os, c, f')) {x : AnyStream (Traced T)} (hx : c.stream = some x) :
    x.shared.stream.val.inner.val.buf.length ≤ 8192 ∧ x.shared.stream.val.buf.length ≤ 8192 := by
  obtain ⟨script, d, h1, h2, -⟩ := C76_client hT hR offer qs h
  have hf : d.Frugal (0 + (qs.map fun p => p.2.2).length) := ClientConn.Frugal.sendAll (c := .new) ⟨nofun, Nat.le_refl _⟩ h1
  obtain ⟨s, k1, k2⟩ := h2.mem' (show x ∈ c.all by simp [AnyConn.all, hx])
  obtain ⟨k3, -⟩ := hf.streams s k1
  rw [← k2.unread, ← k2.unsent]
  exact ⟨k3.fits.2, k3.unsent.2⟩

/-- C86: the same for each connection of a client that threads share, on every schedule. -/
theorem C86_shared (hT : RawIO.Honest T) (hR : RawIO.ReadsWithin T) {offer : Nat → Nat} {n m : Nat} {s : APool T F} (h : APool.Reach prof offer n m s) {i : Nat} {c : AnyConn (Traced T)}
    (hc : s.conns[i]? = some c) :
    (∀ x ∈ c.all, x.traced.got.length ≤ x.asked.length * (512 + 4096 + 3 * 1024 * 1024) + 8192) ∧
      (c.all.map fun x => x.traced.got.length).sum ≤ 2 * (s.sentOn i).length * (512 + 4096 + 3 * 1024 * 1024 + 8192) ∧
      ∀ x, c.stream = some x → x.shared.stream.val.inner.val.buf.length ≤ 8192 ∧ x.shared.stream.val.buf.length ≤ 8192 := by
  obtain ⟨c', script, h1, h2, -⟩ := C84_serial h (i := i) (by rw [← h.inv.conns]; exact (List.getElem?_eq_some_iff.1 hc).1)
  rw [hc] at h1
  cases h1
  have h3 := C86_reads hT hR offer _ h2
  rw [List.length_map] at h3
  exact ⟨h3.1, h3.2, fun x hx => C86_holds hT hR offer _ h2 hx⟩

end

/-- The condition of `C86_reads` can be met over TLS, with calls that are answered on two streams. -/
example (prof : Profile) : ∃ (peers : List TlsPeer) (c : AnyConn (Traced TlsStream)) (f : TlsStreamFactory) (os : List SendEnd),
    AnyConn.sendAll prof id ([(20, ask 97), (20, ask 98), (20, ask 99)].map fun e => (id, e)) .new (toyClient peers) = some (os, c, f) ∧ c.all.map (fun x => x.asked.length) = [3, 1] ∧
    ∀ x ∈ c.all, x.traced.got ≠ [] := by
  obtain ⟨c, f, h1, h2⟩ := toy_sends (prof := prof) (qs := [(20, ask 97), (20, ask 98), (20, ask 99)]) (os := [.ok (echo (ask 97)), .ok (echo (ask 98)), .ok (echo (ask 99))]) (peers := [
      toyPeer [.records true [] false true, .records false (responseBytes (echo (ask 97))) false false, .records false (responseBytes (echo (ask 98))) true false, .eof],
      toyPeer [.records true [] false true, .records false (responseBytes (echo (ask 99))) false false]])
    (seen := [⟨[ask 97, ask 98, ask 99], requestBytes (ask 97) ++ requestBytes (ask 98) ++ requestBytes (ask 99), responseBytes (echo (ask 97)) ++ responseBytes (echo (ask 98)), 0⟩,
      ⟨[ask 99], requestBytes (ask 99), responseBytes (echo (ask 99)), 0⟩])
    (by rcases prof with ⟨_ | _⟩ <;> decide +kernel)
  refine ⟨_, c, f, _, h1, ?_, fun x hx => ?_⟩
  · have := congrArg (List.map fun (e : SeenTls) => e.asked.length) h2
    rw [List.map_map] at this
    exact this
  · have := List.mem_map_of_mem (f := AnyStream.seen) hx
    rw [h2] at this
    simp only [List.mem_cons, List.not_mem_nil, or_false] at this
    rcases this with h | h <;> (rw [show x.traced.got = x.seen.got from rfl, h]; decide +kernel)

/-- The conditions of `C86_holds` can be met, with something that is held: after a call that failed as the handshake was slow, the connection holds the request. -/
example (prof : Profile) : ∃ (peers : List TlsPeer) (os : List SendEnd) (c : AnyConn (Traced TlsStream)) (f : TlsStreamFactory) (x : AnyStream (Traced TlsStream)),
    AnyConn.sendAll prof id [(id, 20, ask 97)] .new (toyClient peers) = some (os, c, f) ∧ c.stream = some x ∧ x.shared.stream.val.buf = requestBytes (ask 97) := by
  obtain ⟨⟨os, c, f⟩, h1, h2⟩ := Option.map_eq_some_iff.1 (show (AnyConn.sendAll prof id [(id, 20, ask 97)] .new (toyClient [toyPeer [.err .wouldBlock], toyPeer [.err .wouldBlock]])).map
      (fun (y : List SendEnd × AnyConn (Traced TlsStream) × TlsStreamFactory) => y.2.1.stream.map fun x => x.shared.stream.val.buf) = some (some (requestBytes (ask 97))) by
    rcases prof with ⟨_ | _⟩ <;> decide +kernel)
  obtain ⟨x, h3, h4⟩ := Option.map_eq_some_iff.1 h2
  exact ⟨_, os, c, f, x, h1, h3, h4⟩

/-- The conditions of `C86_shared` can be met: two threads, three calls, three streams. -/
example (prof : Profile) : ∃ (s : APool TlsStream TlsStreamFactory) (c : AnyConn (Traced TlsStream)), APool.Reach prof id 1 2 s ∧ s.conns[0]? = some c ∧ (s.sentOn 0).length = 3 ∧
    c.all.map (fun x => x.asked.length) = [1, 2, 2] := by
  obtain ⟨s, h1, h2⟩ := Option.map_eq_some_iff.1 (show (APool.run prof id lateThenTwo ⟨[.new], [.free], [.idle, .idle], []⟩).map
      (fun s => ((s.sentOn 0).length, s.conns.map fun c => c.all.map fun x => x.asked.length)) = some (3, [[1, 2, 2]]) by
    rcases prof with ⟨_ | _⟩ <;> decide +kernel)
  simp only [Prod.mk.injEq] at h2
  obtain ⟨h2, h4⟩ := h2
  obtain ⟨c, h5, h6⟩ := List.map_eq_singleton_iff.1 h4
  exact ⟨s, c, APool.run_reach (.new rfl) h1, by rw [h5]; rfl, h2, h6⟩

end Verif
