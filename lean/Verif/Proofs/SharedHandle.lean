import Verif.Proofs.SharedWrite
import Verif.Props.Closing

/-!
The handler of the server and `send_request` of the client over a stream that is read and written, and over the parts.
-/

namespace Verif

open Write

/-- What is written for an answer of the router. -/
def putAnswer {W : Type} [Write W] (w : W) : ListenerResult → IoRes × W
  | .sendResponse r => writeResponse w r
  | .sendResponseArc r => writeResponse w r
  | .next => andThen (writeAll w notFoundResponse) fun w => res (flush w)

theorem wrfr_put {W σ : Type} [Write W] (rt : Router σ) (w : W) (q : Request) (s : σ) : writeResponseFromRouter rt w q s =
    match rt.result q s with
    | (none, s₁) => (none, w, s₁)
    | (some a, s₁) => (some (putAnswer w a).1, (putAnswer w a).2, s₁) := by
  unfold writeResponseFromRouter
  cases h : rt.result q s with
  | mk a s₁ =>
  cases a with
  | none => rfl
  | some a => cases a <;> rfl

namespace Views

variable {S W : Type}

/-- The parts of a connection. -/
def conn (V : Views S W) (c : SharedConn S) (es : List Ev) (ws : List WEv) (fl : List (Option IoError)) : Conn Rd W :=
  ⟨V.join c.reader es, V.wr c.reader.stream ws fl, c.parser⟩

/-- The parts of the connection of a slot. -/
def slot (V : Views S W) (l : Slot (Shared S) Unit) (es : List Ev) (ws : List WEv) (fl : List (Option IoError)) : Slot Rd W :=
  match l with
  | .live c => .live (V.conn c es ws fl)
  | .gone c => .gone (V.conn c es ws fl)
  | .poisoned c => .poisoned (V.conn c es ws fl)

/-- Reading and writing led from `x` to `y`, and the raw stream did `es` for it. -/
structure Went (V : Views S W) (x y : Shared S) (es : List Ev) : Prop where
  offer : y.offer = x.offer
  rounds : y.rounds = x.rounds
  hung : y.hung = false → x.hung = false
  ok : V.ok y.stream
  log : V.log y.stream = V.log x.stream ++ es
  did : ∀ e, V.did x.stream e → V.did y.stream e

variable {V : Views S W} {x y z : Shared S}

theorem Went.refl (h : V.Good x) : V.Went x x [] := ⟨rfl, rfl, id, h.ok, by simp, fun _ => id⟩

theorem Went.trans {es es' : List Ev} (h : V.Went x y es) (h' : V.Went y z es') : V.Went x z (es ++ es') :=
  ⟨h'.offer.trans h.offer, h'.rounds.trans h.rounds, fun k => h.hung (h'.hung k), h'.ok, by rw [h'.log, h.log]; simp, fun e he => h'.did e (h.did e he)⟩

theorem Went.good {es : List Ev} (h : V.Went x y es) (hg : V.Good x) : V.Good y := ⟨h.ok, h.offer.trans hg.offer⟩

theorem Step.went {es : List Ev} (h : V.Step x y es) : V.Went x y es := ⟨h.offer, h.rounds, fun k => h.hung ▸ k, h.reads.ok, h.reads.log, h.reads.did⟩

theorem WStep.went (h : V.WStep x y) : V.Went x y [] := ⟨h.offer, h.rounds, h.hung, h.writes.ok, by rw [h.writes.log]; simp, h.writes.did⟩

theorem Step.went_then {es : List Ev} (h : V.Step x y es) (h' : V.WStep y z) : V.Went x z es := by
  have := h.went.trans h'.went
  rwa [List.append_nil] at this

theorem WStep.join (h : V.WStep x y) (es : List Ev) : V.join y es = V.join x es := by
  unfold Views.join
  rw [h.lims, h.writes.rd]

theorem Step.wr {es : List Ev} (h : V.Step x y es) (a : List WEv) (b : List (Option IoError)) : V.wr x.stream a b = V.wr y.stream a b :=
  (h.reads.wr a b).symm

variable [BufRead S] [Wr S] [Write W]

theorem Lawful.answer (hV : V.Lawful) (a : ListenerResult) (hg : V.Good x) : V.FolW x (fun w => putAnswer w a) (putAnswer x a) := by
  cases a with
  | sendResponse r => exact hV.writeResponse r hg
  | sendResponseArc r => exact hV.writeResponse r hg
  | next => exact hV.writeNotFound hg

theorem Lawful.readRequest (hV : V.Lawful) (prof : Profile) {c c' : SharedConn S} (hg : V.Good c.reader) {o : ReadRequestResult} (h : c.readRequest prof = (o, c'))
    (hd : o ≠ .diverge) : ∃ es, V.Step c.reader c'.reader es ∧ ∀ rest ws fl, (V.conn c (es ++ rest) ws fl).readRequest prof = (o, V.conn c' rest ws fl) := by
  have h1 := hV.request hg prof (c.parser.getD .new)
  unfold Fol at h1
  unfold Conn.readRequest at h
  generalize hq : RequestParser.parse prof (c.parser.getD .new) c.reader = q at h h1
  obtain ⟨p, r⟩ := q
  have key : p ≠ .diverge := by
    rintro rfl
    cases h
    exact hd rfl
  obtain ⟨es, h2, h3⟩ := h1 key
  have h3 : ∀ rest, RequestParser.parse prof (c.parser.getD .new) (V.join c.reader (es ++ rest)) = (p, V.join r rest) := h3
  refine ⟨es, ?_⟩
  have fin : ∀ {o'} {po : Option RequestParser}, ((o', { c with reader := r, parser := po }) : ReadRequestResult × SharedConn S) = (o, c') →
      (∀ rest ws fl, (V.conn c (es ++ rest) ws fl).readRequest prof = (o', { V.conn c (es ++ rest) ws fl with reader := V.join r rest, parser := po })) →
      V.Step c.reader c'.reader es ∧ ∀ rest ws fl, (V.conn c (es ++ rest) ws fl).readRequest prof = (o, V.conn c' rest ws fl) := by
    intro o' po e k
    cases e
    refine ⟨h2, fun rest ws fl => (k rest ws fl).trans ?_⟩
    simp only [Views.conn, h2.wr]
  cases p with
  | done q => exact fin h fun rest ws fl => by simp only [Conn.readRequest, Views.conn, h3]
  | io p e =>
    dsimp only at h
    split at h
    · exact fin h fun rest ws fl => by simp only [Conn.readRequest, Views.conn, *, if_true]
    · split at h
      · exact fin h fun rest ws fl => by simp only [Conn.readRequest, Views.conn, *, if_true, if_false]
      · exact fin h fun rest ws fl => by simp only [Conn.readRequest, Views.conn, *, if_false]; rfl
  | perr e => exact fin h fun rest ws fl => by simp only [Conn.readRequest, Views.conn, h3]
  | panic => exact fin h fun rest ws fl => by simp only [Conn.readRequest, Views.conn, h3]
  | diverge => exact absurd rfl key

/-- What the loop of the handler does with the parts is what it did with the stream. -/
def FolLoop {σ : Type} (V : Views S W) (prof : Profile) (rt : Router σ) (f : Nat) (c : SharedConn S) (s : σ) (y : LoopEnd × SharedConn S × σ) : Prop :=
  y.1 ≠ .diverge → y.2.1.reader.hung = false → ∃ es ws fl, V.Did y.2.1.reader.stream ws fl ∧ V.Went c.reader y.2.1.reader es ∧
    ∀ rest wrest frest, ∀ f' ≥ f, Verif.respondLoop prof rt f' (V.conn c (es ++ rest) (ws ++ wrest) (fl ++ frest)) s = (y.1, V.conn y.2.1 rest wrest frest, y.2.2)

theorem Lawful.respondLoop {σ : Type} (hV : V.Lawful) (prof : Profile) (rt : Router σ) (f : Nat) (c : SharedConn S) (s : σ) (hg : V.Good c.reader) :
    V.FolLoop prof rt f c s (SharedConn.respondLoop prof rt f c s) := by
  induction f generalizing c s with
  | zero => exact fun hd => absurd rfl hd
  | succ f ih =>
    have key : ∀ {P : Nat → Prop}, (∀ f' ≥ f, P (f' + 1)) → ∀ f' ≥ f + 1, P f' := by
      intro P hP f' hf'
      obtain ⟨g, rfl⟩ : ∃ g, f' = g + 1 := ⟨f' - 1, by omega⟩
      exact hP g (by omega)
    generalize hy : SharedConn.respondLoop prof rt (f + 1) c s = y
    rw [SharedConn.respondLoop] at hy
    intro hd hh
    generalize hr : c.readRequest prof = r at hy
    obtain ⟨o, c₁⟩ := r
    have ho : o ≠ .diverge := by
      rintro rfl
      subst hy
      exact hd rfl
    obtain ⟨es, h1, h2⟩ := hV.readRequest prof hg hr ho
    have hg₁ : V.Good c₁.reader := h1.good hg
    cases o with
    | ready q =>
      dsimp only at hy
      rw [wrfr_put] at hy
      cases ha : rt.result q s with
      | mk a s₁ =>
      rw [ha] at hy
      cases a with
      | none =>
        subst hy
        refine ⟨es, [], [], .nil, h1.went, fun rest wrest frest => key fun f' _ => ?_⟩
        rw [Verif.respondLoop, h2]
        dsimp only
        rw [wrfr_put, ha]
        rfl
      | some a =>
        have hA := hV.answer a hg₁
        dsimp only at hy
        generalize putAnswer c₁.reader a = A at hy hA
        obtain ⟨x, w⟩ := A
        obtain ⟨a1, a2⟩ := hA
        dsimp only at a1 a2
        have conn' : ∀ rest wrest frest, (⟨(V.conn c₁ rest wrest frest).reader, V.wr w.stream wrest frest, c₁.parser⟩ : Conn Rd W) = V.conn { c₁ with reader := w } rest wrest frest := by
          intro rest wrest frest
          simp only [Views.conn, a1.join]
        cases x with
        | ok =>
          dsimp only at hy
          by_cases hc : shouldCloseAfterResponse q = true
          · rw [if_pos hc] at hy
            subst hy
            obtain ⟨ws, fl, d1, a3⟩ := a2 (by simp) hh
            refine ⟨es, ws, fl, d1, h1.went_then a1, fun rest wrest frest => key fun f' _ => ?_⟩
            rw [Verif.respondLoop, h2]
            dsimp only
            rw [wrfr_put, ha]
            dsimp only [Views.conn] at a3 ⊢
            rw [a3]
            dsimp only
            rw [if_pos hc]
            exact congrArg (fun z => (LoopEnd.drop, z, s₁)) (conn' rest wrest frest)
          · rw [if_neg hc] at hy
            obtain ⟨es', ws', fl', d2, i1, i2⟩ := ih { c₁ with reader := w } s₁ (a1.good hg₁) (by rw [hy]; exact hd) (by rw [hy]; exact hh)
            rw [hy] at d2 i1 i2
            obtain ⟨ws, fl, d1, a3⟩ := a2 (by simp) (i1.hung hh)
            refine ⟨es ++ es', ws ++ ws', fl ++ fl', (d1.later i1.did).append d2, (h1.went_then a1).trans i1, fun rest wrest frest => key fun f' hf' => ?_⟩
            rw [Verif.respondLoop, List.append_assoc, List.append_assoc, List.append_assoc, h2]
            dsimp only
            rw [wrfr_put, ha]
            dsimp only [Views.conn] at a3 ⊢
            rw [a3]
            dsimp only
            rw [if_neg hc]
            exact (congrArg (fun z => Verif.respondLoop prof rt f' z s₁) (conn' (es' ++ rest) (ws' ++ wrest) (fl' ++ frest))).trans (i2 _ _ _ f' hf')
        | err e =>
          subst hy
          obtain ⟨ws, fl, d1, a3⟩ := a2 (by simp) hh
          refine ⟨es, ws, fl, d1, h1.went_then a1, fun rest wrest frest => key fun f' _ => ?_⟩
          rw [Verif.respondLoop, h2]
          dsimp only
          rw [wrfr_put, ha]
          dsimp only [Views.conn] at a3 ⊢
          rw [a3]
          exact congrArg (fun z => (LoopEnd.drop, z, s₁)) (conn' rest wrest frest)
        | diverge =>
          subst hy
          exact absurd rfl hd
    | notReady =>
      subst hy
      refine ⟨es, [], [], .nil, h1.went, fun rest wrest frest => key fun f' _ => ?_⟩
      rw [Verif.respondLoop, h2]
      rfl
    | closed =>
      subst hy
      refine ⟨es, [], [], .nil, h1.went, fun rest wrest frest => key fun f' _ => ?_⟩
      rw [Verif.respondLoop, h2]
      rfl
    | error e =>
      dsimp only at hy
      have hA := hV.writeError hg₁
      generalize writeErrorResponse c₁.reader = A at hy hA
      obtain ⟨x, w⟩ := A
      obtain ⟨a1, a2⟩ := hA
      dsimp only at a1 a2
      have conn' : ∀ rest wrest frest, (⟨(V.conn c₁ rest wrest frest).reader, V.wr w.stream wrest frest, c₁.parser⟩ : Conn Rd W) = V.conn { c₁ with reader := w } rest wrest frest := by
        intro rest wrest frest
        simp only [Views.conn, a1.join]
      have fin : x ≠ .diverge → y = (.drop, { c₁ with reader := w }, s) → ∃ es ws fl, V.Did y.2.1.reader.stream ws fl ∧ V.Went c.reader y.2.1.reader es ∧
          ∀ rest wrest frest, ∀ f' ≥ f + 1, Verif.respondLoop prof rt f' (V.conn c (es ++ rest) (ws ++ wrest) (fl ++ frest)) s = (y.1, V.conn y.2.1 rest wrest frest, y.2.2) := by
        rintro hx rfl
        obtain ⟨ws, fl, d1, a3⟩ := a2 hx hh
        refine ⟨es, ws, fl, d1, h1.went_then a1, fun rest wrest frest => key fun f' _ => ?_⟩
        rw [Verif.respondLoop, h2]
        dsimp only [Views.conn] at a3 ⊢
        rw [a3]
        cases x with
        | diverge => exact absurd rfl hx
        | _ => exact congrArg (fun z => (LoopEnd.drop, z, s)) (conn' rest wrest frest)
      cases x with
      | diverge =>
        subst hy
        exact absurd rfl hd
      | ok => exact fin (by simp) hy.symm
      | err e => exact fin (by simp) hy.symm
    | panic =>
      subst hy
      refine ⟨es, [], [], .nil, h1.went, fun rest wrest frest => key fun f' _ => ?_⟩
      rw [Verif.respondLoop, h2]
      rfl
    | diverge => exact absurd rfl ho

theorem Lawful.sendRequest (hV : V.Lawful) (prof : Profile) (q : Request) (hg : V.Good x) {o : SendEnd} (h : Shared.sendRequest prof x q = (o, y)) (hd : o ≠ .diverge)
    (hh : y.hung = false) : ∃ es ws fl, V.Did y.stream ws fl ∧ V.Went x y es ∧ ∀ rest wrest frest,
      (match Verif.writeRequest (V.wr x.stream (ws ++ wrest) (fl ++ frest)) q with
      | (.err e, w) => (SendEnd.err (.writing e), V.join x (es ++ rest), w)
      | (.diverge, w) => (.diverge, V.join x (es ++ rest), w)
      | (.ok, w) =>
        match ResponseParser.parse prof .new (V.join x (es ++ rest)) with
        | (.done r, rd) => (.ok r, rd, w)
        | (.io _ e, rd) => (.err (.reading e), rd, w)
        | (.perr e, rd) => (.err (.responseParsing e), rd, w)
        | (.panic, rd) => (.panic, rd, w)
        | (.diverge, rd) => (.diverge, rd, w)) = (o, V.join y rest, V.wr y.stream wrest frest) := by
  unfold Shared.sendRequest at h
  obtain ⟨h1, h2⟩ := hV.writeRequest q hg
  generalize Verif.writeRequest x q = A at h h1 h2
  obtain ⟨a, x₁⟩ := A
  dsimp only at h1 h2
  cases a with
  | diverge => cases h; exact absurd rfl hd
  | err e =>
    cases h
    obtain ⟨ws, fl, d1, h3⟩ := h2 (by simp) hh
    refine ⟨[], ws, fl, d1, h1.went, fun rest wrest frest => ?_⟩
    rw [h3]
    simp only [List.nil_append, h1.join]
  | ok =>
    dsimp only at h
    have h4 := hV.response (h1.good hg) prof .new
    unfold Fol at h4
    generalize ResponseParser.parse prof .new x₁ = B at h h4
    obtain ⟨b, x₂⟩ := B
    have hb : b ≠ .diverge := by
      rintro rfl
      cases h
      exact hd rfl
    obtain ⟨es, h5, h6⟩ := h4 hb
    have h6 : ∀ rest, ResponseParser.parse prof .new (V.join x₁ (es ++ rest)) = (b, V.join x₂ rest) := h6
    have hx : y = x₂ := by
      cases b <;> cases h <;> rfl
    subst hx
    obtain ⟨ws, fl, d1, h3⟩ := h2 (by simp) (h5.went.hung hh)
    have w : V.Went x y es := by
      have := h1.went.trans h5.went
      rwa [List.nil_append] at this
    refine ⟨es, ws, fl, d1.later h5.went.did, w, fun rest wrest frest => ?_⟩
    rw [h3, ← h1.join]
    dsimp only
    rw [h6, h5.wr]
    cases b <;> cases h <;> rfl

theorem finish_inj {σ R W : Type} {y y' : LoopEnd × Conn R W × σ} (h : finish y = finish y') : y = y' := by
  obtain ⟨_ | _ | _ | _, c, s⟩ := y <;> obtain ⟨_ | _ | _ | _, c', s'⟩ := y' <;> cases h <;> rfl

theorem Lawful.handle {σ : Type} {V : Views S Nbw} (hV : V.Lawful) (prof : Profile) (rt : Router σ) {l l' : Slot (Shared S) Unit} {s s' : σ} (hg : V.Good l.conn.reader)
    (hl : ∀ c, l = .live c → c.reader.lims = []) {o : HandleEnd} (h : SharedConn.handle prof rt l s = (o, l', s')) (hd : o ≠ .diverge) (hh : l'.conn.reader.hung = false) :
    ∃ es ws fl, V.Did l'.conn.reader.stream ws fl ∧ V.Went l.conn.reader l'.conn.reader es ∧ (∀ c, l' = .live c → c.reader.lims = []) ∧
      ∀ rest wrest frest, Verif.handle prof rt (V.slot l (es ++ rest) (ws ++ wrest) (fl ++ frest)) s = (o, V.slot l' rest wrest frest, s') := by
  cases l with
  | poisoned c => cases h; exact ⟨[], [], [], .nil, .refl hg, hl, fun _ _ _ => rfl⟩
  | gone c => cases h; exact ⟨[], [], [], .nil, .refl hg, hl, fun _ _ _ => rfl⟩
  | live c =>
    unfold SharedConn.handle at h
    dsimp only at h
    change V.Good c.reader at hg
    have hl : c.reader.lims = [] := hl c rfl
    show ∃ es ws fl, V.Did l'.conn.reader.stream ws fl ∧ V.Went c.reader l'.conn.reader es ∧ (∀ c, l' = .live c → c.reader.lims = []) ∧ ∀ rest wrest frest,
      Verif.handle prof rt (.live (V.conn c (es ++ rest) (ws ++ wrest) (fl ++ frest))) s = (o, V.slot l' rest wrest frest, s')
    obtain ⟨h1, h2⟩ := hV.flush1 hg
    generalize Write.flush c.reader = A at h h1 h2
    obtain ⟨a, w⟩ := A
    dsimp only at h1 h2
    have hl1 : w.lims = [] := h1.lims.trans hl
    have conn' : ∀ rest wrest frest, (⟨V.join c.reader rest, V.wr w.stream wrest frest, c.parser⟩ : Conn Rd Nbw) = V.conn { c with reader := w } rest wrest frest := by
      intro rest wrest frest
      simp only [Views.conn, h1.join]
    cases a with
    | error e =>
      cases h
      obtain ⟨ws, fl, d1, h3⟩ := h2 hh
      refine ⟨[], ws, fl, d1, h1.went, (fun c h => by cases h), fun rest wrest frest => ?_⟩
      rw [Verif.handle]
      dsimp only [Views.conn]
      rw [h3]
      exact congrArg (fun z => (HandleEnd.done, Slot.gone z, s)) (conn' rest wrest frest)
    | ok u =>
      dsimp only at h
      have hL := hV.respondLoop prof rt w.rounds { c with reader := w } s (h1.good hg)
      generalize SharedConn.respondLoop prof rt w.rounds { c with reader := w } s = y at h hL
      obtain ⟨z, c₁, s₁⟩ := y
      have hz : z ≠ .diverge := by
        rintro rfl
        cases h
        exact hd rfl
      have hc : l'.conn.reader = c₁.reader := by
        cases z <;> cases h <;> rfl
      rw [hc] at hh ⊢
      obtain ⟨es, ws', fl', d2, i1, i2⟩ := hL hz hh
      obtain ⟨ws, fl, d1, h3⟩ := h2 (i1.hung hh)
      have w' : V.Went c.reader c₁.reader es := by
        have := h1.went.trans i1
        rwa [List.nil_append] at this
      have enough : ∀ rest wrest frest, respondToRequests prof rt (V.conn { c with reader := w } (es ++ rest) (ws' ++ wrest) (fl' ++ frest)) s =
          (z, V.conn c₁ rest wrest frest, s₁) := by
        intro rest wrest frest
        have h5 := i2 rest wrest frest
        have hk : (V.conn { c with reader := w } (es ++ rest) (ws' ++ wrest) (fl' ++ frest)).reader.lims = [] := hl1
        generalize V.conn { c with reader := w } (es ++ rest) (ws' ++ wrest) (fl' ++ frest) = k at h5 hk
        have e1 : ∀ f ≥ Reader.fuel k.reader, k.reader.src.atoms.length + (if k.parser.getD .new = .new then 0 else 1) < f := by
          intro f hf
          have : Reader.fuel k.reader = 3 * k.reader.src.atoms.length + 8 := rfl
          split <;> omega
        obtain ⟨_, _, _, g1, g2⟩ := respondLoop_ending (prof := prof) (rt := rt) (c := k) (s := s) hk (e1 _ (Nat.le_refl _))
        obtain ⟨_, _, _, g3, g4⟩ := respondLoop_ending (prof := prof) (rt := rt) (c := k) (s := s) hk (e1 _ (Nat.le_max_left (Reader.fuel k.reader) w.rounds))
        have g5 := (g1.unique g2 g3 g4).2
        rw [h5 _ (Nat.le_max_right _ _)] at g5
        exact finish_inj g5
      have all : ∀ rest wrest frest, Verif.handle prof rt (.live (V.conn c (es ++ rest) (ws ++ ws' ++ wrest) (fl ++ fl' ++ frest))) s = (o, V.slot l' rest wrest frest, s') := ?_
      refine ⟨es, ws ++ ws', fl ++ fl', (d1.later i1.did).append d2, w', fun k hk => ?_, all⟩
      · subst hk
        exact handle_lims (c := V.conn c (es ++ []) (ws ++ ws' ++ []) (fl ++ fl' ++ [])) hl (all [] [] [])
      intro rest wrest frest
      rw [Verif.handle, List.append_assoc, List.append_assoc]
      dsimp only [Views.conn]
      rw [h3]
      dsimp only
      rw [show respondToRequests prof rt ⟨V.join c.reader (es ++ rest), V.wr w.stream (ws' ++ wrest) (fl' ++ frest), c.parser⟩ s = _ from
        (congrArg (fun z => respondToRequests prof rt z s) (conn' (es ++ rest) (ws' ++ wrest) (fl' ++ frest))).trans (enough rest wrest frest)]
      cases z <;> cases h <;> rfl

end Views

end Verif
