import Verif.Proofs.Interrupt
import Verif.Props.Client
import Verif.Props.Serving

/-!
C72: a signal that interrupts a read makes no difference.
-/

namespace Verif

open Reader

/-! ## C72 -/

/-- C72 for requests (partial: unless the interruption falls within a part of known length): a parse call ends as it would without the interruptions, and leaves
the same input. If it does not, it fails with `Interrupted` within a body announced by Content-Length or within a chunk. -/
theorem C72_request_partial (prof : Profile) (p : RequestParser) (r : Rd) :
    (∃ p', (RequestParser.parse prof p r).1 = .io p' .interrupted ∧ InSizedPart p') ∨
      ((RequestParser.parse prof p r.uninterrupted).1 = (RequestParser.parse prof p r).1 ∧
        (RequestParser.parse prof p r.uninterrupted).2.lims = (RequestParser.parse prof p r).2.lims ∧
        (RequestParser.parse prof p r.uninterrupted).2.src.atoms = calmAtoms (RequestParser.parse prof p r).2.src.atoms) := by
  have h := Sim.request sim_calm prof p (a := r.abs) (b := r.uninterrupted.abs) ⟨rfl, (atoms_uninterrupted r).symm⟩
  rcases h.calm (requestParse_progress prof p r.abs).1 with ⟨s, hs⟩ | ⟨h1, h2, h3⟩
  · left
    refine ⟨s, by rw [← hs, requestParse_abs]; rfl, ?_⟩
    have h1 : (RequestParser.parse prof p r.abs).1 = .io s .interrupted := hs
    simp only [RequestParser.parse] at h1
    obtain ⟨t, h2, rfl⟩ := Out.bind_io h1 (by simp)
    exact message_interrupted prof parseRequestLine false 5 p r.abs _ h2
  · right
    rw [requestParse_abs, requestParse_abs] at h1 h2 h3
    exact ⟨h1.symm, h2.symm, h3.symm⟩

/-- C72 for responses (partial likewise). -/
theorem C72_response_partial (prof : Profile) (p : ResponseParser) (r : Rd) :
    (∃ p', (ResponseParser.parse prof p r).1 = .io p' .interrupted ∧ InSizedPart p') ∨
      ((ResponseParser.parse prof p r.uninterrupted).1 = (ResponseParser.parse prof p r).1 ∧
        (ResponseParser.parse prof p r.uninterrupted).2.lims = (ResponseParser.parse prof p r).2.lims ∧
        (ResponseParser.parse prof p r.uninterrupted).2.src.atoms = calmAtoms (ResponseParser.parse prof p r).2.src.atoms) := by
  have h := Sim.response sim_calm prof p (a := r.abs) (b := r.uninterrupted.abs) ⟨rfl, (atoms_uninterrupted r).symm⟩
  rcases h.calm (responseParse_progress prof p r.abs).1 with ⟨s, hs⟩ | ⟨h1, h2, h3⟩
  · left
    refine ⟨s, by rw [← hs, responseParse_abs]; rfl, ?_⟩
    have h1 : (ResponseParser.parse prof p r.abs).1 = .io s .interrupted := hs
    simp only [ResponseParser.parse] at h1
    obtain ⟨t, h2, rfl⟩ := Out.bind_io h1 (by simp)
    exact message_interrupted prof parseStatusLine true 5 p r.abs _ h2
  · right
    rw [responseParse_abs, responseParse_abs] at h1 h2 h3
    exact ⟨h1.symm, h2.symm, h3.symm⟩

/-- Two connections that differ in interruptions only. -/
def CalmConn (c d : Conn Rd Nbw) : Prop :=
  d.writer = c.writer ∧ d.parser = c.parser ∧ c.reader.lims = [] ∧ d.reader.lims = [] ∧ d.reader.src.atoms = calmAtoms c.reader.src.atoms

/-- Reading a request on two such connections. -/
theorem read_calm {prof : Profile} {c d : Conn Rd Nbw} (h : CalmConn c d) :
    (∃ p, (RequestParser.parse prof (c.parser.getD .new) c.reader).1 = .io p .interrupted ∧ InSizedPart p) ∨
      ((d.readRequest prof).1 = (c.readRequest prof).1 ∧ CalmConn (c.readRequest prof).2 (d.readRequest prof).2) := by
  obtain ⟨r, w, po⟩ := c
  obtain ⟨r', w', po'⟩ := d
  obtain ⟨h1, h2, h3, h4, h5⟩ := h
  dsimp only at h1 h2 h3 h4 h5
  subst h1 h2
  have hs := Sim.request sim_calm prof (po'.getD .new) (a := r.abs) (b := r'.abs) ⟨h3.trans h4.symm, h5.symm⟩
  rcases hs.calm (requestParse_progress prof _ r.abs).1 with ⟨s, hs⟩ | ⟨h6, h7, h8⟩
  · left
    refine ⟨s, by rw [← hs, requestParse_abs]; rfl, ?_⟩
    have h1 : (RequestParser.parse prof (po'.getD .new) r.abs).1 = .io s .interrupted := hs
    simp only [RequestParser.parse] at h1
    obtain ⟨t, h2, rfl⟩ := Out.bind_io h1 (by simp)
    exact message_interrupted prof parseRequestLine false 5 _ r.abs _ h2
  · right
    rw [requestParse_abs, requestParse_abs] at h6 h7 h8
    have l1 := parse_lims (prof := prof) (p := po'.getD .new) h3
    have l2 := parse_lims (prof := prof) (p := po'.getD .new) h4
    revert h6 h7 h8 l1 l2
    unfold Conn.readRequest
    dsimp only
    generalize RequestParser.parse prof (po'.getD .new) r = x
    generalize RequestParser.parse prof (po'.getD .new) r' = y
    obtain ⟨o, a⟩ := x
    obtain ⟨o', b⟩ := y
    intro h6 h7 h8 l1 l2
    change o = o' at h6
    change calmAtoms a.src.atoms = b.src.atoms at h8
    subst h6
    cases o with
    | io p e =>
      dsimp only
      split
      · exact ⟨rfl, rfl, rfl, l1, l2, h8.symm⟩
      · split
        · exact ⟨rfl, rfl, rfl, l1, l2, h8.symm⟩
        · exact ⟨rfl, rfl, rfl, l1, l2, h8.symm⟩
    | _ => exact ⟨rfl, rfl, rfl, l1, l2, h8.symm⟩

theorem calmAtoms_length (as : List Atom) : (calmAtoms as).length ≤ as.length := List.length_filter_le _ _

/-- Reading a request takes some input, unless it was all there. -/
theorem read_takes {prof : Profile} {c c' : Conn Rd Nbw} {q : Request} (hl : c.reader.lims = []) (h : c.readRequest prof = (.ready q, c')) {f : Nat}
    (hf : c.reader.src.atoms.length + (if c.parser.getD .new = .new then 0 else 1) < f + 1) : c'.reader.src.atoms.length < f ∧ c'.parser = none := by
  obtain ⟨r, w, po⟩ := c
  unfold Conn.readRequest at h
  dsimp only at h hf hl
  have hle := parse_le (prof := prof) (p := po.getD .new) (r := r)
  cases hq : RequestParser.parse prof (po.getD .new) r with
  | mk o r1 =>
  rw [hq] at h hle
  cases o with
  | done q' =>
    simp only [Prod.mk.injEq] at h
    obtain ⟨-, rfl⟩ := h
    refine ⟨?_, rfl⟩
    by_cases hp : po.getD .new = RequestParser.new
    · rw [hp] at hq
      have := request_takes hl hq
      rw [if_pos hp] at hf
      dsimp only at this ⊢
      omega
    · rw [if_neg hp] at hf
      dsimp only at hle ⊢
      omega
  | io p e =>
    dsimp only at h
    split at h
    · cases (Prod.mk.inj h).1
    · split at h
      · cases (Prod.mk.inj h).1
      · cases (Prod.mk.inj h).1
  | _ => cases (Prod.mk.inj h).1

theorem loop_calm {σ : Type} {prof : Profile} {rt : Router σ} {f g : Nat} {c d : Conn Rd Nbw} {s : σ} (h : CalmConn c d)
    (hf : c.reader.src.atoms.length + (if c.parser.getD .new = .new then 0 else 1) < f)
    (hg : d.reader.src.atoms.length + (if d.parser.getD .new = .new then 0 else 1) < g) :
    CutShort prof rt c s ∨ ((respondLoop prof rt g d s).1 = (respondLoop prof rt f c s).1 ∧
      CalmConn (respondLoop prof rt f c s).2.1 (respondLoop prof rt g d s).2.1 ∧ (respondLoop prof rt g d s).2.2 = (respondLoop prof rt f c s).2.2) := by
  induction f generalizing c d g s with
  | zero => omega
  | succ f ih =>
    cases g with
    | zero => omega
    | succ g =>
      rcases read_calm (prof := prof) h with ⟨p, h1, h2⟩ | ⟨h1, h2⟩
      · exact .inl (.here h1 h2)
      · have tc := fun q c' (e : c.readRequest prof = (.ready q, c')) => read_takes h.2.2.1 e hf
        have td := fun q c' (e : d.readRequest prof = (.ready q, c')) => read_takes h.2.2.2.1 e hg
        have hcut : ∀ {c' : Conn Rd Nbw} {s' : σ} {q : Request} {w : Nbw}, c.readRequest prof = (.ready q, c') →
            writeResponseFromRouter rt c'.writer q s = (some .ok, w, s') → CutShort prof rt { c' with writer := w } s' → CutShort prof rt c s := .later
        rw [respondLoop, respondLoop]
        revert h1 h2 tc td hcut
        generalize c.readRequest prof = x
        generalize d.readRequest prof = y
        obtain ⟨o, c'⟩ := x
        obtain ⟨o', d'⟩ := y
        intro h1 h2 tc td hcut
        dsimp only at h1 h2
        subst h1
        cases o' with
        | ready q =>
          obtain ⟨tc1, tc2⟩ := tc q c' rfl
          obtain ⟨td1, td2⟩ := td q d' rfl
          dsimp only
          rw [h2.1]
          cases hw : writeResponseFromRouter rt c'.writer q s with
          | mk o y =>
            obtain ⟨w, s1⟩ := y
            rcases o with _ | _ | e | _
            · exact .inr ⟨rfl, ⟨rfl, h2.2⟩, rfl⟩
            · dsimp only
              by_cases hc : shouldCloseAfterResponse q = true
              · rw [if_pos hc, if_pos hc]; exact .inr ⟨rfl, ⟨rfl, h2.2⟩, rfl⟩
              · rw [if_neg hc, if_neg hc]
                rcases ih (c := { c' with writer := w }) (d := { d' with writer := w }) (s := s1) (g := g) ⟨rfl, h2.2⟩
                  (by dsimp only; rw [tc2]; simpa using tc1) (by dsimp only; rw [td2]; simpa using td1) with i | i
                · exact .inl (hcut rfl hw i)
                · exact .inr i
            · exact .inr ⟨rfl, ⟨rfl, h2.2⟩, rfl⟩
            · exact .inr ⟨rfl, ⟨rfl, h2.2⟩, rfl⟩
        | error e =>
          dsimp only
          rw [h2.1]
          cases writeErrorResponse c'.writer with
          | mk o w => cases o <;> exact .inr ⟨rfl, ⟨rfl, h2.2⟩, rfl⟩
        | _ => exact .inr ⟨rfl, h2, rfl⟩

/-- The socket of a connection. -/
def Slot.sock : Slot Rd Nbw → Sock
  | .live c => c.writer.sock
  | .gone c => c.writer.sock
  | .poisoned c => c.writer.sock

/-- Whether a connection is still there. -/
def Slot.stays : Slot Rd Nbw → Bool
  | .live _ => true
  | _ => false

/-- C72 for the server (partial: unless an interruption falls within a part of known length): the handler does what it would do without the interruptions. It ends
in the same way, sends the same bytes, leaves the listeners in the same state, and keeps the connection or not. -/
theorem C72_server_partial {σ : Type} (prof : Profile) (rt : Router σ) (c : Conn Rd Nbw) (hl : c.reader.lims = []) (s : σ) :
    CutShort prof rt { c with writer := (Write.flush c.writer).2 } s ∨
      ((handle prof rt (.live c.uninterrupted) s).1 = (handle prof rt (.live c) s).1 ∧
        (handle prof rt (.live c.uninterrupted) s).2.1.sock = (handle prof rt (.live c) s).2.1.sock ∧
        (handle prof rt (.live c.uninterrupted) s).2.1.stays = (handle prof rt (.live c) s).2.1.stays ∧
        (handle prof rt (.live c.uninterrupted) s).2.2 = (handle prof rt (.live c) s).2.2) := by
  unfold handle
  dsimp only [Conn.uninterrupted]
  cases hw : Write.flush c.writer with
  | mk x w =>
  cases x with
  | error e => right; exact ⟨rfl, rfl, rfl, rfl⟩
  | ok u =>
    dsimp only
    unfold respondToRequests
    have hf : ∀ (r : Rd) (po : Option RequestParser), r.src.atoms.length + (if po.getD .new = RequestParser.new then 0 else 1) < Reader.fuel r := by
      intro r po
      simp only [Reader.fuel]
      split <;> omega
    rcases loop_calm (prof := prof) (rt := rt) (f := Reader.fuel c.reader) (g := Reader.fuel c.reader.uninterrupted) (c := { c with writer := w })
      (d := { c with reader := c.reader.uninterrupted, writer := w }) (s := s) ⟨rfl, rfl, hl, hl, atoms_uninterrupted c.reader⟩ (hf _ _) (hf _ _) with h | ⟨h1, h2, h3⟩
    · exact .inl h
    · right
      revert h1 h2 h3
      dsimp only
      generalize respondLoop prof rt (Reader.fuel c.reader) { c with writer := w } s = x
      generalize respondLoop prof rt (Reader.fuel c.reader.uninterrupted) { c with reader := c.reader.uninterrupted, writer := w } s = y
      obtain ⟨e, c1, s1⟩ := x
      obtain ⟨e', d1, s1'⟩ := y
      intro h1 h2 h3
      dsimp only at h1 h2 h3
      subst h1 h3
      cases e' with
      | _ => exact ⟨rfl, by simp only [Slot.sock, h2.1], rfl, rfl⟩

/-- A handler does get through interruptions between and within heads. -/
example : (handle ⟨true⟩ counter (.live (Conn.sample [.err .interrupted, .data b!"GET /a HTT", .err .interrupted, .data b!"P/1.1\r\n\r\n", .err .interrupted])) 0).2.2 = 1 := by
  decide +kernel

/-- C72 is false: an interruption within the body of a request, which has arrived whole, makes the server answer 400 and close the connection, without asking any
listener. Without the interruption the request is read. -/
theorem C72_body_false (prof : Profile) : ∃ (a b : Bytes) (q : Request), FittingRequest (a ++ b) q ∧
    ∀ {σ : Type} {rt : Router σ} {n : Nat} {c : Conn Rd Nbw} (evs : List WEv) (s : σ), c.parser.getD .new = .new →
      c.reader.Ahead (a.map .byte ++ .err .interrupted :: b.map .byte) → Writable rt n c [evs] →
      ∃ c', handle prof rt ((Slot.live c).wake evs) s = (.done, .gone c', s) ∧ c'.writer.total = c.writer.total ++ badRequestResponse := by
  refine ⟨b!"POST / HTTP/1.1\r\nContent-Length: 2\r\n\r\na", b!"b", ⟨b!"/", .post, [(.ofStr b!"Content-Length", [b!"2"])], b!"ab"⟩,
    fitting_of (prof := ⟨true⟩) (by decide +kernel), ?_⟩
  intro σ rt n c evs s hp hr hw
  obtain ⟨r1, h1, h2⟩ := requestParse_of (prof := prof) (p := .new) hr
    (o := .io (.body (.post, b!"/") [(.ofStr b!"Content-Length", [b!"2"])] (.withSize ⟨2, b!"a"⟩)) .interrupted) (rest := [.byte 98])
    (by rcases prof with ⟨_ | _⟩ <;> decide +kernel)
  obtain ⟨w2, j1, j2, j3, j4⟩ := handle_reject (prof := prof) (c := { c with writer := { c.writer with sock := { c.writer.sock with evs } } }) hr.1 hw.wake hw.parts
    (.inr ⟨_, _, by rw [hp]; exact h1, by simp, by decide⟩) s
  exact ⟨⟨r1, w2, none⟩, j1, j3⟩

/-- C72 is false of the client: an interruption within the body of a response, which has arrived whole, makes `send` write the request a second time, on another stream;
for a `POST` request too. Without the interruption it is written once. -/
theorem C72_resend_false (prof : Profile) : ∃ (q : Request) (s s' t : RawStream), q.method = .post ∧
    s'.input = s.input.filter (· != .err .interrupted) ∧ s'.output = s.output ∧
    (∃ c f, ClientConn.send prof .new [CreateEnd.ok s', .ok t] q = (.ok (.ofBody b!"hi"), c, f) ∧ c.all.map ClientStream.asked = [[q]]) ∧
    ∃ c f, ClientConn.send prof .new [CreateEnd.ok s, .ok t] q = (.ok (.ofBody b!"hi"), c, f) ∧ c.all.map ClientStream.asked = [[q], [q]] := by
  refine ⟨⟨b!"/pay", .post, [], []⟩, ⟨[.data b!"HTTP/1.1 200 OK\r\ncontent-length: 2\r\n\r\nh", .err .interrupted, .data b!"i"], [.accept 1000, .accept 1000], [], id⟩,
    ⟨[.data b!"HTTP/1.1 200 OK\r\ncontent-length: 2\r\n\r\nh", .data b!"i"], [.accept 1000, .accept 1000], [], id⟩,
    ⟨[.data b!"HTTP/1.1 200 OK\r\ncontent-length: 2\r\n\r\nhi"], [.accept 1000, .accept 1000], [], id⟩, rfl, rfl, rfl,
    ⟨_, _, Prod.ext ?_ rfl, ?_⟩, ⟨_, _, Prod.ext ?_ rfl, ?_⟩⟩ <;> rcases prof with ⟨_ | _⟩ <;> decide +kernel

/-- The conditions of `C72_body_false` can be met. -/
example : ∃ c : Conn Rd Nbw, c.parser.getD .new = .new ∧ c.reader.Ahead (b!"POST / HTTP/1.1\r\nContent-Length: 2\r\n\r\na".map .byte ++ .err .interrupted :: b!"b".map .byte) ∧
    Writable counter 28 c [[.accept 100]] :=
  ⟨Conn.sample [.data b!"POST / HTTP/1.1\r\nContent-Length: 2\r\n\r\na", .err .interrupted, .data b!"b"], rfl, ⟨rfl, by decide⟩,
    sample_writable _ _ (by simp)⟩

end Verif
