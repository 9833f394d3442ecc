import Verif.Spec.ClientCalls
import Verif.Props.Shared
import Verif.Props.ClientNew
import Verif.Props.Once

/-!
C76: a connection of the client over streams of any kind, with its reconnecting.
-/

namespace Verif

theorem bytesOf_atoms (es : List Ev) : bytesOf (es.flatMap Ev.atoms) = es.flatMap Ev.bytes := by
  induction es with
  | nil => rfl
  | cons e es ih =>
    rw [List.flatMap_cons, List.flatMap_cons, bytesOf_append, ih]
    congr 1
    cases e with
    | err e => rfl
    | data b =>
      cases b with
      | nil => rfl
      | cons c t => exact bytesOf_map (c :: t)

theorem AnyStream.AllLike.append {T : Type} {xs xs' : List (AnyStream (Traced T))} {ss ss' : List ClientStream} (h : AnyStream.AllLike xs ss) (h' : AnyStream.AllLike xs' ss') :
    AnyStream.AllLike (xs ++ xs') (ss ++ ss') := by
  induction h with
  | nil => exact h'
  | cons h1 _ ih => exact .cons h1 ih

theorem AnyStream.AllLike.mem {T : Type} {xs : List (AnyStream (Traced T))} {ss : List ClientStream} (h : AnyStream.AllLike xs ss) {s : ClientStream} (hs : s ∈ ss) : ∃ x ∈ xs, x.Like s := by
  induction h with
  | nil => cases hs
  | cons h1 _ ih =>
    rcases List.mem_cons.1 hs with rfl | hs
    · exact ⟨_, List.mem_cons_self .., h1⟩
    · obtain ⟨x, h2, h3⟩ := ih hs
      exact ⟨x, List.mem_cons_of_mem _ h2, h3⟩

theorem AnyStream.AllLike.mem' {T : Type} {xs : List (AnyStream (Traced T))} {ss : List ClientStream} (h : AnyStream.AllLike xs ss) {x : AnyStream (Traced T)} (hx : x ∈ xs) :
    ∃ s ∈ ss, x.Like s := by
  induction h with
  | nil => cases hx
  | cons h1 _ ih =>
    rcases List.mem_cons.1 hx with rfl | hx
    · exact ⟨_, List.mem_cons_self .., h1⟩
    · obtain ⟨s, h2, h3⟩ := ih hx
      exact ⟨s, List.mem_cons_of_mem _ h2, h3⟩

theorem AnyStream.AllLike.length {T : Type} {xs : List (AnyStream (Traced T))} {ss : List ClientStream} (h : AnyStream.AllLike xs ss) : xs.length = ss.length := by
  induction h with
  | nil => rfl
  | cons _ _ ih => rw [List.length_cons, List.length_cons, ih]

theorem AnyStream.AllLike.snoc {T : Type} {xs : List (AnyStream (Traced T))} {ss : List ClientStream} {x : AnyStream (Traced T)} {s : ClientStream} (h : AnyStream.AllLike (xs ++ [x]) (ss ++ [s])) :
    AnyStream.AllLike xs ss ∧ x.Like s := by
  induction xs generalizing ss with
  | nil =>
    cases ss with
    | nil => cases h with | cons h1 _ => exact ⟨.nil, h1⟩
    | cons a ss =>
      have := h.length
      simp at this
  | cons a xs ih =>
    cases ss with
    | nil =>
      have := h.length
      simp at this
    | cons b ss =>
      cases h with
      | cons h1 h2 => exact ⟨.cons h1 (ih h2).1, (ih h2).2⟩

theorem AnyStream.AllLike.parts {T : Type} {c : AnyConn (Traced T)} {d : ClientConn} (h : AnyStream.AllLike c.all d.all) (h' : c.stream = none ↔ d.stream = none) :
    AnyStream.AllLike c.dropped d.dropped ∧ ∀ x, c.stream = some x → ∃ s, d.stream = some s ∧ x.Like s := by
  unfold AnyConn.all ClientConn.all at h
  cases hc : c.stream with
  | none =>
    rw [hc, h'.1 hc] at h
    simp only [Option.toList_none, List.append_nil] at h
    exact ⟨h, nofun⟩
  | some x =>
    cases hd : d.stream with
    | none => rw [h'.2 hd] at hc; cases hc
    | some s =>
      rw [hc, hd] at h
      obtain ⟨h1, h2⟩ := AnyStream.AllLike.snoc h
      exact ⟨h1, fun y hy => by cases hy; exact ⟨s, rfl, h2⟩⟩

section

variable {T F : Type} [RawIO T] [AnyFactory T F] {prof : Profile} {P : Traced T → Prop} {Er : Errs} {offer : Nat → Nat} {Q : F → Prop}

/-- Streams are as `P` says when they are created, as long as the factory is as `Q` says, and it stays so. -/
def Creates (P : Traced T → Prop) (Q : F → Prop) : Prop :=
  ∀ (f f' : F) (x : CreateEnd T), Q f → AnyFactory.create f = (x, f') → Q f' ∧ ∀ t, x = .ok t → P ⟨t, [], []⟩

/-- The stream of a connection, seen as a scripted one. -/
def AnyStream.view (P : Traced T → Prop) (Er : Errs) (offer : Nat → Nat) (x : AnyStream (Traced T)) (es : List Ev) (ws : List WEv) (fl : List (Option IoError)) (given : List Atom) : ClientStream :=
  (clientViews P Er offer).client x.shared es ws fl x.asked given

/-- A connection, seen as one over scripted streams. -/
def AnyConn.view (P : Traced T → Prop) (Er : Errs) (offer : Nat → Nat) (c : AnyConn (Traced T)) (es : List Ev) (ws : List WEv) (fl : List (Option IoError)) (given : List Atom)
    (dr : List ClientStream) : ClientConn := ⟨c.stream.map fun x => x.view P Er offer es ws fl given, dr⟩

/-- The current stream is as it should be. -/
def AnyConn.Good (P : Traced T → Prop) (Er : Errs) (offer : Nat → Nat) (c : AnyConn (Traced T)) : Prop := ∀ x, c.stream = some x → (clientViews P Er offer).Good x.shared

/-- What the current stream is going to read, and has read, is what `given` says. -/
def AnyConn.Tells (c : AnyConn (Traced T)) (es : List Ev) (given : List Atom) : Prop := ∀ x, c.stream = some x → bytesOf given = x.traced.got ++ es.flatMap Ev.bytes

omit [RawIO T] [AnyFactory T F] in
theorem AnyStream.view_like {x : AnyStream (Traced T)} {ws : List WEv} {fl : List (Option IoError)} {given : List Atom} (h : bytesOf given = x.traced.got) :
    x.Like (x.view P Er offer [] ws fl given) := ⟨rfl, rfl, rfl, rfl, h, rfl⟩

omit [RawIO T] [AnyFactory T F] in
theorem AnyConn.Good.stream {c : AnyConn (Traced T)} (h : c.Good P Er offer) {x : AnyStream (Traced T)} (hs : c.stream = some x) : (clientViews P Er offer).Good x.shared := h x hs

omit [AnyFactory T F] in
theorem any_attempt (hT : RawIO.Honest T) (hR : RawIO.ReadsWithin T) (hP : RawFull P) (hE : ErrsIn P Er) {x y : AnyStream (Traced T)} {q : Request} {o : SendEnd}
    (hg : (clientViews P Er offer).Good x.shared) (h : x.send prof q = (o, y)) (ho : o ≠ .diverge) (hh : y.shared.hung = false) :
    (clientViews P Er offer).Good y.shared ∧ ∃ es ws fl, y.traced.got = x.traced.got ++ es.flatMap Ev.bytes ∧
      ∀ rest wrest frest given, sendRequest prof (x.view P Er offer (es ++ rest) (ws ++ wrest) (fl ++ frest) given) q = (o, y.view P Er offer rest wrest frest given) := by
  obtain ⟨y, asked⟩ := y
  obtain ⟨h1, h2⟩ := Prod.mk.inj h
  have h4 := congrArg AnyStream.shared h2
  have h3 := congrArg AnyStream.asked h2
  dsimp only at h3 h4
  subst h3
  obtain ⟨es, ws, fl, -, w, k⟩ := client_request hT hR hP hE offer hg (Prod.ext h1 h4 : Shared.sendRequest prof x.shared q = (o, y)) ho hh
  have hw : y.stream.val.inner.val.inner.log = x.shared.stream.val.inner.val.inner.log ++ es := w.log
  exact ⟨w.good hg, es, ws, fl, by simp [AnyStream.traced, Traced.got, hw], fun rest wrest frest given => k rest wrest frest _ given⟩

/-- The stream was dropped, and before that it was as `P` says. -/
def AnyStream.Left (P : Traced T → Prop) (x : AnyStream (Traced T)) : Prop := ∃ t, P t ∧ x.traced = RawIO.dropped t

theorem any_drop (hT : RawIO.Honest T) (hP : RawFull P) (hE : ErrsIn P Er) {x : AnyStream (Traced T)} (hg : (clientViews P Er offer).Good x.shared) (hh : x.drop.shared.hung = false) :
    x.shared.hung = false ∧ x.drop.Left P ∧ x.drop.traced.got = x.traced.got ∧
      ∃ ws, ∀ es wrest fl given, (x.view P Er offer es (ws ++ wrest) fl given).drop = x.drop.view P Er offer es wrest fl given := by
  unfold AnyStream.drop at hh ⊢
  cases hx : x.shared.stream.val.flushBuf x.shared.rounds x.shared.rounds with
  | none => rw [hx] at hh; cases hh
  | some y =>
    obtain ⟨e, w⟩ := y
    rw [hx] at hh
    dsimp only at hh ⊢
    obtain ⟨⟨i, k⟩, -, es, -, h3⟩ := (rawLaw hT hP hE.to).std_flushBuf (fun _ _ => trivial) hg.ok.2 hx
    refine ⟨hh, ⟨_, i, rfl⟩, congrArg (List.flatMap Ev.bytes) k.log, es, fun es' wrest fl given => ?_⟩
    unfold ClientStream.drop AnyStream.view Views.client
    have h4 := h3 wrest fl
    have h5 : ((clientViews P Er offer).wr x.shared.stream (es ++ wrest) fl).flushBuf = (e, (clientViews P Er offer).wr ⟨w⟩ wrest fl) := h4
    simp only [h5]
    congr 1
    exact congrArg (fun p => (⟨x.shared.lims, ⟨8192, by decide, offer, p, es'⟩⟩ : Rd)) k.buf.symm

omit [RawIO T] in
theorem any_open (hf : Creates P Q) {n : Nat} {f f' : F} (hq : Q f) {x : CreateEnd (Traced T)} (h : (AnyFactory.create f : CreateEnd (Traced T) × F) = (x, f')) :
    Q f' ∧ ∀ t, x = .ok t → (clientViews P Er offer).Good (⟨[], offer, n, false, ClientStack.new t⟩ : Shared (ClientStack (Traced T))) ∧ t.log = [] ∧ t.put = [] := by
  simp only [AnyFactory.create] at h
  cases hx : (AnyFactory.create f : CreateEnd T × F) with
  | mk y f₁ =>
  rw [hx] at h
  have h1 := hf _ _ _ hq hx
  cases y with
  | err e => cases h; exact ⟨h1.1, nofun⟩
  | panic => cases h; exact ⟨h1.1, nofun⟩
  | ok t₁ =>
    cases h
    refine ⟨h1.1, fun t ht => ?_⟩
    cases ht
    exact ⟨⟨⟨rfl, h1.2 _ rfl⟩, rfl⟩, rfl, rfl⟩

/-- A call of `send` follows the scripts. -/
def Follows (P : Traced T → Prop) (Er : Errs) (offer : Nat → Nat) (c c' : AnyConn (Traced T)) (G : ClientConn → List CreateEnd → SendEnd × ClientConn × List CreateEnd) (o : SendEnd) : Prop :=
  c'.Good P Er offer ∧ ∃ newc, c'.dropped = c.dropped ++ newc ∧ (∀ x ∈ newc, x.Left P) ∧ ∀ es' ws' fl', ∃ es ws fl script,
    ∀ given dr tail, c.Tells es given → ∃ given' new, c'.Tells es' given' ∧ AnyStream.AllLike newc new ∧
      G (c.view P Er offer es ws fl given dr) (script ++ tail) = (o, c'.view P Er offer es' ws' fl' given' (dr ++ new), tail)

theorem any_retry (hT : RawIO.Honest T) (hR : RawIO.ReadsWithin T) (hP : RawFull P) (hE : ErrsIn P Er)
    (hf : Creates P Q) {n : Nat} {c c' : AnyConn (Traced T)} {f f' : F} {q : Request} {o : SendEnd}
    (h : c.retry prof offer n f q = (o, c', f')) (hq : Q f) (hg : c.Good P Er offer) (ho : o ≠ .diverge) (hh : ∀ x ∈ c'.all, x.shared.hung = false) :
    Q f' ∧ Follows P Er offer c c' (fun d l => ClientConn.retry prof d l q) o := by
  unfold AnyConn.retry AnyConn.connect at h
  cases hx : (AnyFactory.create f : CreateEnd (Traced T) × F) with
  | mk x f₁ =>
  rw [hx] at h
  have hq' := any_open (Er := Er) (offer := offer) (n := n) hf hq hx
  cases x with
  | err e =>
    cases h
    refine ⟨hq'.1, hg, [], by simp, nofun, fun es' ws' fl' => ⟨es', ws', fl', [.err e], fun given dr tail ht => ⟨given, [], ht, .nil, ?_⟩⟩⟩
    rw [List.append_nil]
    rfl
  | panic =>
    cases h
    refine ⟨hq'.1, hg, [], by simp, nofun, fun es' ws' fl' => ⟨es', ws', fl', [.panic], fun given dr tail ht => ⟨given, [], ht, .nil, ?_⟩⟩⟩
    rw [List.append_nil]
    rfl
  | ok t =>
    dsimp only at h
    obtain ⟨g1, g2, g3⟩ := hq'.2 t rfl
    cases hs : (AnyStream.send prof ⟨⟨[], offer, n, false, ClientStack.new t⟩, []⟩ q : SendEnd × AnyStream (Traced T)) with
    | mk o₁ y =>
    rw [hs] at h
    cases h
    obtain ⟨k1, es, ws, fl, k2, k3⟩ := any_attempt hT hR hP hE g1 hs ho (hh y (by simp [AnyConn.all]))
    have hgot : y.traced.got = es.flatMap Ev.bytes := by
      rw [k2]
      show t.log.flatMap Ev.bytes ++ _ = _
      rw [g2]
      rfl
    have hopen : ∀ rest wrest frest, sendRequest prof (ClientStream.open ⟨es ++ rest, ws ++ wrest, fl ++ frest, offer⟩) q =
        (o₁, y.view P Er offer rest wrest frest ((es ++ rest).flatMap Ev.atoms)) := by
      intro rest wrest frest
      have := k3 rest wrest frest ((es ++ rest).flatMap Ev.atoms)
      rw [← this]
      congr 1
      show ClientStream.mk _ (⟨[], 8192, ⟨ws ++ wrest, fl ++ frest, []⟩⟩ : BufW) _ _ = ClientStream.mk _ (⟨[], 8192, ⟨ws ++ wrest, fl ++ frest, t.put⟩⟩ : BufW) _ _
      rw [g3]
      rfl
    cases hc : c.stream with
    | none =>
      rw [hc] at hh
      refine ⟨hq'.1, ?_, [], by simp, nofun, fun es' ws' fl' => ⟨[], [], [], [.ok ⟨es ++ es', ws ++ ws', fl ++ fl', offer⟩], fun given dr tail _ =>
        ⟨(es ++ es').flatMap Ev.atoms, [], ?_, .nil, ?_⟩⟩⟩
      · intro x hx
        cases hx
        exact k1
      · intro x hx
        cases hx
        rw [bytesOf_atoms, hgot, List.flatMap_append]
      · unfold ClientConn.retry ClientConn.connect AnyConn.view
        rw [hc]
        simp only [List.cons_append, List.nil_append, StreamFactory.create, Option.map_none, Option.toList_none, List.append_nil]
        rw [hopen]
        rfl
    | some x =>
      rw [hc] at hh
      have hgx := hg.stream hc
      obtain ⟨d1, dl, d3, dws, d4⟩ := any_drop hT hP hE hgx (hh x.drop (by simp [AnyConn.all]))
      refine ⟨hq'.1, ?_, [x.drop], by simp, (fun z hz => by cases List.mem_singleton.1 hz; exact dl), fun es' ws' fl' => ⟨[], dws, [], [.ok ⟨es ++ es', ws ++ ws', fl ++ fl', offer⟩], fun given dr tail ht =>
        ⟨(es ++ es').flatMap Ev.atoms, [x.drop.view P Er offer [] [] [] given], ?_, ?_, ?_⟩⟩⟩
      · intro y hy
        cases hy
        exact k1
      · intro x hx
        cases hx
        rw [bytesOf_atoms, hgot, List.flatMap_append]
      · refine .cons (AnyStream.view_like ?_) .nil
        rw [d3, ht x hc]
        exact List.append_nil _
      · unfold ClientConn.retry ClientConn.connect AnyConn.view
        rw [hc]
        simp only [List.cons_append, List.nil_append, StreamFactory.create, Option.map_some, Option.toList_some]
        rw [hopen]
        have := d4 [] [] [] given
        rw [List.append_nil] at this
        rw [this]

omit [AnyFactory T F] in
theorem AnyStream.drop_hung {x : AnyStream T} (h : x.drop.shared.hung = false) : x.shared.hung = false := by
  unfold AnyStream.drop at h
  split at h
  · exact h
  · cases h

theorem any_retry_hung {n : Nat} {c c' : AnyConn T} {f f' : F} {q : Request} {o : SendEnd}
    (h : c.retry prof offer n f q = (o, c', f')) (hh : ∀ x ∈ c'.all, x.shared.hung = false) {x : AnyStream T} (hc : c.stream = some x) : x.shared.hung = false := by
  unfold AnyConn.retry AnyConn.connect at h
  cases hx : (AnyFactory.create f : CreateEnd T × F) with
  | mk y f₁ =>
  rw [hx] at h
  cases y with
  | err e => cases h; exact hh x (by simp [AnyConn.all, hc])
  | panic => cases h; exact hh x (by simp [AnyConn.all, hc])
  | ok t =>
    dsimp only at h
    cases h
    exact AnyStream.drop_hung (hh x.drop (by simp [AnyConn.all, hc]))

theorem any_sendOpen (hT : RawIO.Honest T) (hR : RawIO.ReadsWithin T) (hP : RawFull P) (hE : ErrsIn P Er)
    (hf : Creates P Q) {n : Nat} {c c' : AnyConn (Traced T)} {f f' : F} {q : Request} {o : SendEnd}
    (h : c.sendOpen prof offer n f q = (o, c', f')) (hq : Q f) (hg : c.Good P Er offer) (ho : o ≠ .diverge) (hh : ∀ x ∈ c'.all, x.shared.hung = false) :
    Q f' ∧ Follows P Er offer c c' (fun d l => ClientConn.sendOpen prof d l q) o := by
  unfold AnyConn.sendOpen at h
  cases hc : c.stream with
  | none =>
    rw [hc] at h
    cases h
    refine ⟨hq, hg, [], by simp, nofun, fun es' ws' fl' => ⟨es', ws', fl', [], fun given dr tail ht => ⟨given, [], ht, .nil, ?_⟩⟩⟩
    unfold ClientConn.sendOpen AnyConn.view
    rw [hc, List.append_nil]
    rfl
  | some x =>
    rw [hc] at h
    dsimp only at h
    have hgx := hg.stream hc
    cases hs : x.send prof q with
    | mk o₁ y =>
    rw [hs] at h
    have hdone : ∀ (hy : y.shared.hung = false) (h1 : o₁ ≠ .diverge) (h2 : ∀ e, o₁ ≠ .err e),
        Follows P Er offer c { c with stream := some y } (fun d l => ClientConn.sendOpen prof d l q) o₁ := by
      intro hy h1 h2
      obtain ⟨k1, es, ws, fl, k2, k3⟩ := any_attempt hT hR hP hE hgx hs h1 hy
      refine ⟨?_, [], by simp, nofun, fun es' ws' fl' => ⟨es ++ es', ws ++ ws', fl ++ fl', [], fun given dr tail ht => ⟨given, [], ?_, .nil, ?_⟩⟩⟩
      · intro z hz
        cases hz
        exact k1
      · intro z hz
        cases hz
        rw [ht x hc, k2, List.flatMap_append, List.append_assoc]
      · unfold ClientConn.sendOpen AnyConn.view
        rw [hc, List.append_nil]
        simp only [Option.map_some]
        rw [k3]
        cases o₁ with
        | err e => exact absurd rfl (h2 e)
        | _ => rfl
    cases o₁ with
    | err e =>
      dsimp only at h
      obtain ⟨k1, es, ws, fl, k2, k3⟩ := any_attempt hT hR hP hE hgx hs nofun (any_retry_hung h hh rfl)
      have hg1 : ({ c with stream := some y } : AnyConn (Traced T)).Good P Er offer := by
        intro z hz
        cases hz
        exact k1
      obtain ⟨m0, m1, newc, m2, ml, m3⟩ := any_retry hT hR hP hE hf h hq hg1 ho hh
      refine ⟨m0, m1, newc, m2, ml, fun es' ws' fl' => ?_⟩
      obtain ⟨es₁, ws₁, fl₁, script, m4⟩ := m3 es' ws' fl'
      refine ⟨es ++ es₁, ws ++ ws₁, fl ++ fl₁, script, fun given dr tail ht => ?_⟩
      obtain ⟨given', new, m5, m6, m7⟩ := m4 given dr tail (by
        intro z hz
        cases hz
        rw [ht x hc, k2, List.flatMap_append, List.append_assoc])
      refine ⟨given', new, m5, m6, ?_⟩
      rw [← m7]
      unfold ClientConn.sendOpen AnyConn.view
      rw [hc]
      simp only [Option.map_some]
      rw [k3]
    | ok r => cases h; exact ⟨hq, hdone (hh y (by simp [AnyConn.all])) ho nofun⟩
    | panic => cases h; exact ⟨hq, hdone (hh y (by simp [AnyConn.all])) ho nofun⟩
    | diverge => cases h; exact absurd rfl ho

theorem any_send (hT : RawIO.Honest T) (hR : RawIO.ReadsWithin T) (hP : RawFull P) (hE : ErrsIn P Er)
    (hf : Creates P Q) {n : Nat} {c c' : AnyConn (Traced T)} {f f' : F} {q : Request} {o : SendEnd}
    (h : c.send prof offer n f q = (o, c', f')) (hq : Q f) (hg : c.Good P Er offer) (ho : o ≠ .diverge) (hh : ∀ x ∈ c'.all, x.shared.hung = false) :
    Q f' ∧ Follows P Er offer c c' (fun d l => ClientConn.send prof d l q) o := by
  unfold AnyConn.send at h
  cases hc : c.stream with
  | some x =>
    rw [hc] at h
    obtain ⟨m0, m1, newc, m2, ml, m3⟩ := any_sendOpen hT hR hP hE hf h hq hg ho hh
    refine ⟨m0, m1, newc, m2, ml, fun es' ws' fl' => ?_⟩
    obtain ⟨es, ws, fl, script, m4⟩ := m3 es' ws' fl'
    refine ⟨es, ws, fl, script, fun given dr tail ht => ?_⟩
    obtain ⟨given', new, m5, m6, m7⟩ := m4 given dr tail ht
    refine ⟨given', new, m5, m6, ?_⟩
    rw [← m7]
    unfold ClientConn.send AnyConn.view
    rw [hc]
    rfl
  | none =>
    rw [hc] at h
    unfold AnyConn.connect at h
    cases hx : (AnyFactory.create f : CreateEnd (Traced T) × F) with
    | mk y f₁ =>
    rw [hx] at h
    have hq' := any_open (Er := Er) (offer := offer) (n := n) hf hq hx
    have hv : ∀ es ws fl given dr, c.view P Er offer es ws fl given dr = ⟨none, dr⟩ := by
      intro es ws fl given dr
      unfold AnyConn.view
      rw [hc]
      rfl
    have hnone : ∀ es given, c.Tells es given := by
      intro es given x hx
      rw [hc] at hx
      cases hx
    cases y with
    | err e =>
      cases h
      refine ⟨hq'.1, hg, [], by simp, nofun, fun es' ws' fl' => ⟨es', ws', fl', [.err e], fun given dr tail ht => ⟨given, [], ht, .nil, ?_⟩⟩⟩
      rw [hv, hv, List.append_nil]
      rfl
    | panic =>
      cases h
      refine ⟨hq'.1, hg, [], by simp, nofun, fun es' ws' fl' => ⟨es', ws', fl', [.panic], fun given dr tail ht => ⟨given, [], ht, .nil, ?_⟩⟩⟩
      rw [hv, hv, List.append_nil]
      rfl
    | ok t =>
      dsimp only at h
      obtain ⟨g1, g2, g3⟩ := hq'.2 t rfl
      rw [hc] at h
      simp only [Option.map_none, Option.toList_none, List.append_nil] at h
      have hg1 : (⟨some ⟨⟨[], offer, n, false, ClientStack.new t⟩, []⟩, c.dropped⟩ : AnyConn (Traced T)).Good P Er offer := by
        intro z hz
        cases hz
        exact g1
      obtain ⟨m0, m1, newc, m2, ml, m3⟩ := any_sendOpen hT hR hP hE hf h hq'.1 hg1 ho hh
      refine ⟨m0, m1, newc, m2, ml, fun es' ws' fl' => ?_⟩
      obtain ⟨es, ws, fl, script, m4⟩ := m3 es' ws' fl'
      refine ⟨[], [], [], .ok ⟨es, ws, fl, offer⟩ :: script, fun given dr tail _ => ?_⟩
      obtain ⟨given', new, m5, m6, m7⟩ := m4 (es.flatMap Ev.atoms) dr tail (by
        intro z hz
        cases hz
        rw [bytesOf_atoms]
        show _ = t.log.flatMap Ev.bytes ++ _
        rw [g2]
        rfl)
      refine ⟨given', new, m5, m6, ?_⟩
      rw [← m7, hv]
      show ClientConn.sendOpen prof (⟨some (ClientStream.open ⟨es, ws, fl, offer⟩), dr ++ []⟩ : ClientConn) (script ++ tail) q = ClientConn.sendOpen prof _ (script ++ tail) q
      congr 1
      simp only [AnyConn.view, Option.map_some, Option.map_none, Option.toList_none, List.append_nil]
      congr 2
      show ClientStream.mk _ (⟨[], 8192, ⟨ws, fl, []⟩⟩ : BufW) _ _ = ClientStream.mk _ (⟨[], 8192, ⟨ws, fl, t.put⟩⟩ : BufW) _ _
      rw [g3]
      rfl

/-- What happens to a raw stream between two calls keeps `P`. -/
def Keep (P : Traced T → Prop) (env : T → T) : Prop := ∀ t : Traced T, P t → P { t with raw := env t.raw }

theorem any_turn {env : T → T} (hK : Keep P env) {n : Nat} {c : AnyConn (Traced T)} (hg : c.Good P Er offer) : (c.turn env n).Good P Er offer := by
  intro x hx
  unfold AnyConn.turn at hx
  cases hc : c.stream with
  | none => rw [hc] at hx; cases hx
  | some y =>
    rw [hc] at hx
    cases hx
    have h := hg.stream hc
    exact ⟨⟨h.ok.1, hK _ h.ok.2⟩, h.offer⟩

theorem any_sendAll (hT : RawIO.Honest T) (hR : RawIO.ReadsWithin T) (hP : RawFull P) (hE : ErrsIn P Er)
    (hf : Creates P Q) {qs : List ((T → T) × Nat × Request)} (hK : ∀ p ∈ qs, Keep P p.1)
    {c c' : AnyConn (Traced T)} {f f' : F} {os : List SendEnd} (h : AnyConn.sendAll prof offer qs c f = some (os, c', f')) (hq : Q f) (hg : c.Good P Er offer) :
    c'.Good P Er offer ∧ ∃ (es : List Ev) (ws : List WEv) (fl : List (Option IoError)) (script : List CreateEnd) (newc : List (AnyStream (Traced T))),
      c'.dropped = c.dropped ++ newc ∧ (∀ x ∈ newc, x.Left P) ∧ ∀ given dr tail, c.Tells es given → ∃ given' new, c'.Tells [] given' ∧ AnyStream.AllLike newc new ∧
        Verif.sendAll prof (qs.map fun p => p.2.2) (c.view P Er offer es ws fl given dr) (script ++ tail) = (os, c'.view P Er offer [] [] [] given' (dr ++ new), tail) ∧
          (dr.length = c.dropped.length → Verif.calls prof (qs.map fun p => p.2.2) (c.view P Er offer es ws fl given dr) (script ++ tail) = AnyConn.calls prof offer qs c f) := by
  induction qs generalizing c f os with
  | nil =>
    cases h
    exact ⟨hg, [], [], [], [], [], by simp, nofun, fun given dr tail ht => ⟨given, [], ht, .nil, by rw [List.append_nil]; rfl, fun _ => rfl⟩⟩
  | cons p qs ih =>
    obtain ⟨env, n, q⟩ := p
    unfold AnyConn.sendAll at h
    cases hs : (c.turn env n).send prof offer n f q with
    | mk o y =>
    obtain ⟨c₁, f₁⟩ := y
    rw [hs] at h
    have key : o ≠ .diverge → (c₁.all.any fun x => x.shared.hung) = false → ∀ os', AnyConn.sendAll prof offer qs c₁ f₁ = some (os', c', f') → os = o :: os' →
        c'.Good P Er offer ∧ ∃ (es : List Ev) (ws : List WEv) (fl : List (Option IoError)) (script : List CreateEnd) (newc : List (AnyStream (Traced T))),
          c'.dropped = c.dropped ++ newc ∧ (∀ x ∈ newc, x.Left P) ∧ ∀ given dr tail, c.Tells es given → ∃ given' new, c'.Tells [] given' ∧ AnyStream.AllLike newc new ∧
            Verif.sendAll prof (((env, n, q) :: qs).map fun p => p.2.2) (c.view P Er offer es ws fl given dr) (script ++ tail) =
              (os, c'.view P Er offer [] [] [] given' (dr ++ new), tail) ∧
              (dr.length = c.dropped.length → Verif.calls prof (((env, n, q) :: qs).map fun p => p.2.2) (c.view P Er offer es ws fl given dr) (script ++ tail) =
                AnyConn.calls prof offer ((env, n, q) :: qs) c f) := by
      intro ho hh os' h1 h2
      subst h2
      have hh : ∀ x ∈ c₁.all, x.shared.hung = false := by
        intro x hx
        have := List.any_eq_false.1 hh x hx
        simpa using this
      obtain ⟨m0, m1, newc, m2, ml, m3⟩ := any_send hT hR hP hE hf hs hq (any_turn (hK _ (List.mem_cons_self ..)) hg) ho hh
      obtain ⟨i0, es', ws', fl', script', newc', i1, il, i2⟩ := ih (fun p hp => hK p (List.mem_cons_of_mem _ hp)) h1 m0 m1
      obtain ⟨es, ws, fl, script, m4⟩ := m3 es' ws' fl'
      refine ⟨i0, es, ws, fl, script ++ script', newc ++ newc', by rw [i1, m2, List.append_assoc]; rfl, fun x hx => (List.mem_append.1 hx).elim (ml x) (il x), fun given dr tail ht => ?_⟩
      have hview : c.view P Er offer es ws fl given dr = (c.turn env n).view P Er offer es ws fl given dr := by
        unfold AnyConn.view AnyConn.turn
        cases c.stream <;> rfl
      obtain ⟨given₁, new₁, k1, k2, k3⟩ := m4 given dr (script' ++ tail) (by
        intro x hx
        unfold AnyConn.turn at hx
        cases hc : c.stream with
        | none => rw [hc] at hx; cases hx
        | some y =>
          rw [hc] at hx
          cases hx
          exact ht y hc)
      obtain ⟨given₂, new₂, k4, k5, k6, k7⟩ := i2 given₁ (dr ++ new₁) tail k1
      refine ⟨given₂, new₁ ++ new₂, k4, k2.append k5, ?_, fun hdr => ?_⟩
      · dsimp only at k3
        rw [hview, List.map_cons, Verif.sendAll, List.append_assoc, k3]
        dsimp only
        rw [k6, List.append_assoc]
      · have hlen : (dr ++ new₁).length = c₁.dropped.length := by
          rw [m2, List.length_append, List.length_append, k2.length, hdr]
          rfl
        dsimp only at k3
        rw [hview, List.map_cons, Verif.calls, AnyConn.calls, List.append_assoc, k3, hs]
        dsimp only
        rw [k7 hlen]
        congr 2
        unfold ClientConn.all AnyConn.all AnyConn.view
        dsimp only
        rw [List.length_append (as := dr ++ new₁), hlen, List.length_append]
        cases c₁.stream <;> rfl
    cases o with
    | diverge => cases h
    | _ =>
      dsimp only at h
      split at h
      · cases h
      · obtain ⟨⟨os', c₂, f₂⟩, h1, h2⟩ := Option.map_eq_some_iff.1 h
        cases h2
        exact key nofun (by simp_all) os' h1 rfl

end

section

variable {T F : Type} [RawIO T] [AnyFactory T F] {prof : Profile} {P : Traced T → Prop} {Q : F → Prop} {offer : Nat → Nat}

theorem any_client (hT : RawIO.Honest T) (hR : RawIO.ReadsWithin T) (hP : RawKeeps P) (hf : Creates P Q) {qs : List ((T → T) × Nat × Request)} (hK : ∀ p ∈ qs, Keep P p.1)
    {f f' : F} (hq : Q f) {os : List SendEnd} {c : AnyConn (Traced T)} (h : AnyConn.sendAll prof offer qs .new f = some (os, c, f')) :
    (∀ x ∈ c.all, P x.traced) ∧ ∃ (script : List CreateEnd) (d : ClientConn), sendAll prof (qs.map fun p => p.2.2) .new script = (os, d, []) ∧ AnyStream.AllLike c.all d.all ∧
      (c.stream = none ↔ d.stream = none) ∧ calls prof (qs.map fun p => p.2.2) .new script = AnyConn.calls prof offer qs .new f := by
  obtain ⟨hg, es, ws, fl, script, newc, h1, hl, h2⟩ := any_sendAll (Er := .any) hT hR (hP.may _) ⟨fun _ _ _ => trivial, fun _ _ => trivial, fun _ _ => trivial⟩ hf hK h hq (fun x hx => by cases hx)
  obtain ⟨given, new, h3, h4, h5, h6⟩ := h2 [] [] [] (fun x hx => by cases hx)
  have h6 := h6 rfl
  rw [List.append_nil] at h5 h6
  refine ⟨fun x hx => ?_, script, _, h5, ?_, ?_, h6⟩
  · rcases List.mem_append.1 hx with hx | hx
    · rw [h1] at hx
      obtain ⟨t, k1, k2⟩ := hl x hx
      rw [k2]
      exact hP.drop k1
    · exact (hg x (by simpa using hx)).ok.2
  · unfold AnyConn.all ClientConn.all AnyConn.view
    rw [h1]
    refine AnyStream.AllLike.append h4 ?_
    cases hc : c.stream with
    | none => exact .nil
    | some x => exact .cons (AnyStream.view_like (by rw [h3 x hc]; exact List.append_nil _)) .nil
  · unfold AnyConn.view
    cases c.stream <;> simp

/-- The current stream of the client is as `P` says, and the others were so when they were dropped. -/
theorem any_left (hT : RawIO.Honest T) (hR : RawIO.ReadsWithin T) (hP : RawFull P) (hf : Creates P Q) {qs : List ((T → T) × Nat × Request)} (hK : ∀ p ∈ qs, Keep P p.1)
    {f f' : F} (hq : Q f) {os : List SendEnd} {c : AnyConn (Traced T)} (h : AnyConn.sendAll prof offer qs .new f = some (os, c, f')) :
    (∀ x, c.stream = some x → P x.traced) ∧ ∀ x ∈ c.dropped, x.Left P := by
  obtain ⟨hg, es, ws, fl, script, newc, h1, h2, -⟩ := any_sendAll (Er := .any) hT hR hP ⟨fun _ _ _ => trivial, fun _ _ => trivial, fun _ _ => trivial⟩ hf hK h hq (fun x hx => by cases hx)
  refine ⟨fun x hx => (hg x hx).ok.2, fun x hx => ?_⟩
  rw [h1] at hx
  exact h2 x hx

/-- C76: one connection of the client over streams of any kind and any factory, used for any requests one after the other, whatever the raw streams do meanwhile: the calls of `send` end
as they do over scripted streams, for some scripts of what the factory and its streams do. The streams that were opened correspond one by one: the same requests were given to them, the
same was sent and received on them, and the same is in their buffers. -/
theorem C76_client (hT : RawIO.Honest T) (hR : RawIO.ReadsWithin T) (offer : Nat → Nat) (qs : List ((T → T) × Nat × Request)) {f f' : F} {os : List SendEnd} {c : AnyConn (Traced T)}
    (h : AnyConn.sendAll prof offer qs .new f = some (os, c, f')) :
    ∃ (script : List CreateEnd) (d : ClientConn), sendAll prof (qs.map fun p => p.2.2) .new script = (os, d, []) ∧ AnyStream.AllLike c.all d.all ∧ (c.stream = none ↔ d.stream = none) ∧
      calls prof (qs.map fun p => p.2.2) .new script = AnyConn.calls prof offer qs .new f :=
  (any_client (P := fun _ => True) (Q := fun _ => True) hT hR { write := fun _ _ => trivial, flush := fun _ _ => trivial, read := fun _ _ => trivial, drop := fun _ => trivial }
    (fun _ _ _ _ _ => ⟨trivial, fun _ _ => trivial⟩) (fun _ _ _ _ => trivial) trivial h).2

theorem history_of_sendAll {F : Type} [StreamFactory F] {qs : List Request} {c₀ c c' : ClientConn} {f₀ f f' : F} {os : List SendEnd} {es : List (Request × Response)}
    (h : sendAll prof qs c f = (os, c', f')) (hh : History prof c₀ f₀ es c f) {rs : List Response} (ho : os = rs.map .ok) : History prof c₀ f₀ (es ++ qs.zip rs) c' f' := by
  induction qs generalizing c f os es rs with
  | nil =>
    cases h
    rw [List.zip_nil_left, List.append_nil]
    exact hh
  | cons q qs ih =>
    unfold sendAll at h
    cases hs : c.send prof f q with
    | mk o y =>
    obtain ⟨c₁, f₁⟩ := y
    rw [hs] at h
    dsimp only at h
    cases ht : sendAll prof qs c₁ f₁ with
    | mk os' y =>
    obtain ⟨c₂, f₂⟩ := y
    rw [ht] at h
    cases h
    cases rs with
    | nil => cases ho
    | cons r rs =>
      rw [List.map_cons] at ho
      obtain ⟨h1, h2⟩ := List.cons.inj ho
      subst h1
      have := ih ht (.answered hh hs) h2
      rw [List.zip_cons_cons]
      rw [List.append_assoc] at this
      exact this

theorem sendAll_length {F : Type} [StreamFactory F] {qs : List Request} {c c' : ClientConn} {f f' : F} {os : List SendEnd} (h : sendAll prof qs c f = (os, c', f')) :
    os.length = qs.length := by
  induction qs generalizing c f os with
  | nil => cases h; rfl
  | cons q qs ih =>
    unfold sendAll at h
    cases hs : c.send prof f q with
    | mk o y =>
    obtain ⟨c₁, f₁⟩ := y
    rw [hs] at h
    dsimp only at h
    cases ht : sendAll prof qs c₁ f₁ with
    | mk os' y =>
    obtain ⟨c₂, f₂⟩ := y
    rw [ht] at h
    cases h
    rw [List.length_cons, List.length_cons, ih ht]

theorem sendAll_asked {F : Type} [StreamFactory F] {qs : List Request} {c c' : ClientConn} {f f' : F} {os : List SendEnd} (h : sendAll prof qs c f = (os, c', f')) (q : Request) :
    (c'.all.map fun st => st.asked.count q).sum ≤ (c.all.map fun st => st.asked.count q).sum + 2 * qs.count q := by
  induction qs generalizing c f os with
  | nil => cases h; simp
  | cons p qs ih =>
    unfold sendAll at h
    cases hs : c.send prof f p with
    | mk o y =>
    obtain ⟨c₁, f₁⟩ := y
    rw [hs] at h
    dsimp only at h
    cases ht : sendAll prof qs c₁ f₁ with
    | mk os' y =>
    obtain ⟨c₂, f₂⟩ := y
    rw [ht] at h
    cases h
    have h1 := send_asked hs q
    have h2 := ih ht
    have h3 : (p :: qs).count q = [p].count q + qs.count q := by rw [← List.count_append]; rfl
    omega

/-- C76 (partial: as long as every call of `send` on this connection returned a response; and the answers say where they end): if the servers are honest, each call returned the response
to its own request, on whatever streams. -/
theorem C76_right_partial (hT : RawIO.Honest T) (hR : RawIO.ReadsWithin T) (offer : Nat → Nat) (qs : List ((T → T) × Nat × Request)) {f f' : F} {rs : List Response} {c : AnyConn (Traced T)}
    (h : AnyConn.sendAll prof offer qs .new f = some (rs.map .ok, c, f')) {ans : Request → Response} (hh : ∀ x ∈ c.all, ∃ b, x.traced.got <+: b ∧ x.Honest ans b) :
    rs = qs.map fun p => ans p.2.2 := by
  obtain ⟨script, d, h1, h2, -⟩ := C76_client hT hR offer qs h
  have hist := history_of_sendAll h1 .nil rfl
  have hlen : rs.length = qs.length := by
    have := sendAll_length h1
    simpa using this
  have := C46_history_partial hist (ans := ans) (by
    intro s hs
    obtain ⟨x, hx, hl⟩ := h2.mem hs
    obtain ⟨b, k1, ws, k2, k3, k4⟩ := hh x hx
    refine ⟨ws, by rw [k2, hl.asked], k3, ?_⟩
    rw [hl.given]
    rcases k4 with k4 | k4
    · exact .inl (k1.trans k4)
    · exact List.prefix_or_prefix_of_prefix k1 k4)
  rw [List.nil_append] at this
  clear h h1 hist
  induction qs generalizing rs with
  | nil => exact List.length_eq_zero_iff.1 hlen
  | cons p qs ih =>
    cases rs with
    | nil => cases hlen
    | cons r rs =>
      rw [List.map_cons]
      congr 1
      · exact this (p.2.2, r) (by simp)
      · exact ih (by simpa using hlen) fun e he => this e (by simp only [List.map_cons, List.zip_cons_cons, List.mem_cons]; exact .inr he)

/-- C76 (partial: as long as every call of `send` on this connection returned a response): what was sent on each stream is a beginning of the requests that were given to it, one after the
other, and on the current stream they were sent whole. -/
theorem C76_sent_partial (hT : RawIO.Honest T) (hR : RawIO.ReadsWithin T) (offer : Nat → Nat) (qs : List ((T → T) × Nat × Request)) {f f' : F} {rs : List Response} {c : AnyConn (Traced T)}
    (h : AnyConn.sendAll prof offer qs .new f = some (rs.map .ok, c, f')) :
    (∀ x ∈ c.all, x.traced.put <+: x.asked.flatMap requestBytes) ∧
      ∀ x, c.stream = some x → x.traced.put ++ x.shared.stream.val.buf = x.asked.flatMap requestBytes := by
  obtain ⟨script, d, h1, h2, h3, -⟩ := C76_client hT hR offer qs h
  obtain ⟨k1, k2⟩ := history_sent (history_of_sendAll h1 .nil rfl) rfl
  obtain ⟨l1, l2⟩ := h2.parts h3
  refine ⟨fun x hx => ?_, fun x hx => ?_⟩
  · rcases List.mem_append.1 hx with hx | hx
    · obtain ⟨s, hs, hl⟩ := l1.mem' hx
      rw [← hl.sent, ← hl.asked]
      exact k1 s hs
    · obtain ⟨s, hs, hl⟩ := l2 x (by simpa using hx)
      rw [← hl.sent, ← hl.asked, ← k2 s hs]
      exact List.prefix_append _ _
  · obtain ⟨s, hs, hl⟩ := l2 x hx
    rw [← hl.sent, ← hl.unsent, ← hl.asked]
    exact k2 s hs

/-- C76: each request is given to at most two streams for each call of `send` with it, however the calls end. -/
theorem C76_at_most_twice (hT : RawIO.Honest T) (hR : RawIO.ReadsWithin T) (offer : Nat → Nat) (qs : List ((T → T) × Nat × Request)) {f f' : F} {os : List SendEnd} {c : AnyConn (Traced T)}
    (h : AnyConn.sendAll prof offer qs .new f = some (os, c, f')) (q : Request) :
    (c.all.map fun x => x.asked.count q).sum ≤ 2 * (qs.map fun p => p.2.2).count q := by
  obtain ⟨script, d, h1, h2, -⟩ := C76_client hT hR offer qs h
  have := sendAll_asked h1 q
  rw [show (c.all.map fun x => x.asked.count q).sum = (d.all.map fun s => s.asked.count q).sum from ?_]
  · simpa [ClientConn.all, ClientConn.new] using this
  · generalize c.all = xs at h2
    generalize d.all = ss at h2
    clear this
    induction h2 with
    | nil => rfl
    | cons hl _ ih => rw [List.map_cons, List.map_cons, List.sum_cons, List.sum_cons, ih, hl.asked]

end

theorem tcp_create_mem {S : Type} {f : TcpStreamFactory S} {x : CreateEnd S} {f' : TcpStreamFactory S} (h : f.create = (x, f')) :
    (∀ e ∈ f'.connects, e ∈ f.connects) ∧ ∀ s, x = .ok s → .ok s ∈ f.connects := by
  obtain ⟨z, l⟩ := f
  unfold TcpStreamFactory.create TcpStreamFactory.connect at h
  rcases l with _ | ⟨a, l⟩
  · cases h
    exact ⟨fun _ h => h, nofun⟩
  · cases a with
    | ok s =>
      cases h
      refine ⟨fun e he => List.mem_cons_of_mem _ he, fun t ht => ?_⟩
      cases z
      · cases ht; exact List.mem_cons_self ..
      · cases ht
    | error e =>
      rcases l with _ | ⟨b, l⟩
      · cases h
        exact ⟨nofun, nofun⟩
      · cases b with
        | error e' =>
          cases h
          exact ⟨fun e he => List.mem_cons_of_mem _ (List.mem_cons_of_mem _ he), nofun⟩
        | ok s =>
          cases h
          refine ⟨fun e he => List.mem_cons_of_mem _ (List.mem_cons_of_mem _ he), fun t ht => ?_⟩
          cases z
          · cases ht; exact List.mem_cons_of_mem _ (List.mem_cons_self ..)
          · cases ht

/-- What is known of every stream of an HTTPS client. -/
def TlsOf (cfg : ClientConfig) (connects : List (Except IoError TlsPeer)) (t : Traced TlsStream) : Prop :=
  ∃ p, .ok p ∈ connects ∧ TlsStream.Inv p.cipher (p.input (hostPart cfg.addr)) t.got t.put t.raw

theorem TlsOf.keeps {cfg : ClientConfig} {connects : List (Except IoError TlsPeer)} : RawKeeps (TlsOf cfg connects) where
  write := fun e ⟨p, hp, hi⟩ => ⟨p, hp, (tls_keeps _ _).write e hi⟩
  flush := fun e ⟨p, hp, hi⟩ => ⟨p, hp, (tls_keeps _ _).flush e hi⟩
  read := fun e ⟨p, hp, hi⟩ => ⟨p, hp, (tls_keeps _ _).read e hi⟩
  drop := fun ⟨p, hp, hi⟩ => ⟨p, hp, (tls_keeps _ _).drop hi⟩

theorem TlsOf.creates {cfg : ClientConfig} {connects : List (Except IoError TlsPeer)} (hs : ∀ p, .ok p ∈ connects → p.sock.sent = []) :
    Creates (TlsOf cfg connects) fun f : TlsStreamFactory => f.dnsName = hostPart cfg.addr ∧ ∀ e ∈ f.tcp.connects, e ∈ connects := by
  intro f f' x ⟨hq1, hq2⟩ hx
  simp only [AnyFactory.create, TlsStreamFactory.create] at hx
  cases hc : f.tcp.create with
  | mk y tcp =>
  obtain ⟨k1, k2⟩ := tcp_create_mem hc
  rw [hc] at hx
  cases y with
  | err e => cases hx; exact ⟨⟨hq1, fun e he => hq2 e (k1 e he)⟩, nofun⟩
  | panic => cases hx; exact ⟨⟨hq1, fun e he => hq2 e (k1 e he)⟩, nofun⟩
  | ok p =>
    cases hx
    refine ⟨⟨hq1, fun e he => hq2 e (k1 e he)⟩, fun t ht => ?_⟩
    cases ht
    have hp := hq2 _ (k2 p rfl)
    have hsent := hs p hp
    refine ⟨p, hp, ?_⟩
    dsimp only
    rw [hq1]
    obtain ⟨ci, inp, ⟨evs, fl, sent⟩⟩ := p
    cases hsent
    exact .new ..

/-- C76 over TLS: every stream of a connection of an HTTPS client is a TLS session with one of the servers that were reached, which was asked for a certificate for the name in the address.
On its TCP stream, or waiting for it, are the sealed messages whose plain text is what was sent; what was received is a beginning of the plain text that came after the handshake. -/
theorem C76_tls {prof : Profile} {cfg : ClientConfig} {connects : List (Except IoError TlsPeer)} (hs : ∀ p, .ok p ∈ connects → p.sock.sent = []) {f : TlsStreamFactory}
    (hf : TlsStreamFactory.new cfg connects = some f) (offer : Nat → Nat) (qs : List (Nat × Request)) {os : List SendEnd} {c : AnyConn (Traced TlsStream)} {f' : TlsStreamFactory}
    (h : AnyConn.sendAll prof offer (qs.map fun e => (id, e)) .new f = some (os, c, f')) :
    ∀ x ∈ c.all, ∃ p, .ok p ∈ connects ∧
      x.traced.raw.sock.sent ++ x.traced.raw.sess.out = p.cipher.wire 0 x.traced.raw.sess.log ∧ x.traced.raw.sess.log.flatMap TlsItem.plain = x.traced.put ∧
      ∃ used, p.input (hostPart cfg.addr) = used ++ x.traced.raw.input ∧ x.traced.got <+: (used.foldl TlsHeard.step ⟨true, [], false, false⟩).came := by
  unfold TlsStreamFactory.new at hf
  split at hf
  rotate_left
  · cases hf
  cases hf
  have key := any_client tls_honest tls_within TlsOf.keeps (TlsOf.creates hs)
    (fun e hm t ht => by
      obtain ⟨n, -, rfl⟩ := List.mem_map.1 hm
      exact ht) ⟨rfl, fun e he => he⟩ h
  intro x hx
  obtain ⟨p, hp, hi⟩ := key.1 x hx
  obtain ⟨used, h1, h2⟩ := hi.heard
  refine ⟨p, hp, ?_, hi.log, used, h1, ?_⟩
  · rw [hi.wire, hi.cipher]
  · rw [h2]
    exact ⟨_, hi.plain⟩

/-- What is known of the stream in use of an HTTPS client: nothing closed it yet. -/
def TlsOpen (cfg : ClientConfig) (connects : List (Except IoError TlsPeer)) (t : Traced TlsStream) : Prop :=
  ∃ p, .ok p ∈ connects ∧ TlsStream.Inv p.cipher (p.input (hostPart cfg.addr)) t.got t.put t.raw ∧ .closeNotify ∉ t.raw.sess.log

theorem TlsOpen.full {cfg : ClientConfig} {connects : List (Except IoError TlsPeer)} : RawFull (TlsOpen cfg connects) where
  write := fun b e ⟨p, hp, hi⟩ => ⟨p, hp, (tls_uses _ _ (may := fun _ => True)).write b e hi⟩
  flush := fun e ⟨p, hp, hi⟩ => ⟨p, hp, (tls_uses _ _ (may := fun _ => True)).flush e hi⟩
  read := fun e ⟨p, hp, hi⟩ => ⟨p, hp, (tls_uses _ _ (may := fun _ => True)).read e hi⟩

theorem TlsOpen.creates {cfg : ClientConfig} {connects : List (Except IoError TlsPeer)} (hs : ∀ p, .ok p ∈ connects → p.sock.sent = []) :
    Creates (TlsOpen cfg connects) fun f : TlsStreamFactory => f.dnsName = hostPart cfg.addr ∧ ∀ e ∈ f.tcp.connects, e ∈ connects := by
  intro f f' x hq hx
  have hq' := TlsOf.creates hs f f' x hq hx
  refine ⟨hq'.1, fun t ht => ?_⟩
  obtain ⟨p, hp, hi⟩ := hq'.2 t ht
  refine ⟨p, hp, hi, ?_⟩
  subst ht
  simp only [AnyFactory.create, TlsStreamFactory.create] at hx
  split at hx
  · cases hx
  · cases hx
  · cases hx
    simp [TlsStream.new, TlsSession.new, TlsSession.send]

/-- C76 over TLS: the client seals no close_notify on the stream that it uses. On every stream that it gave up for another it sealed exactly one, after all that it wrote to the stream and
before nothing but what the session itself has to say. -/
theorem C76_close_notify {prof : Profile} {cfg : ClientConfig} {connects : List (Except IoError TlsPeer)} (hs : ∀ p, .ok p ∈ connects → p.sock.sent = []) {f : TlsStreamFactory}
    (hf : TlsStreamFactory.new cfg connects = some f) (offer : Nat → Nat) (qs : List (Nat × Request)) {os : List SendEnd} {c : AnyConn (Traced TlsStream)} {f' : TlsStreamFactory}
    (h : AnyConn.sendAll prof offer (qs.map fun e => (id, e)) .new f = some (os, c, f')) :
    (∀ x, c.stream = some x → .closeNotify ∉ x.traced.raw.sess.log) ∧
    ∀ x ∈ c.dropped, ∃ l l', x.traced.raw.sess.log = l ++ .closeNotify :: l' ∧ .closeNotify ∉ l ∧ l.flatMap TlsItem.plain = x.traced.put ∧ ∀ y ∈ l', y = .reply ∨ y = .alert := by
  unfold TlsStreamFactory.new at hf
  split at hf
  rotate_left
  · cases hf
  cases hf
  have key := any_left tls_honest tls_within TlsOpen.full (TlsOpen.creates hs)
    (fun e hm t ht => by
      obtain ⟨n, -, rfl⟩ := List.mem_map.1 hm
      exact ht) ⟨rfl, fun e he => he⟩ h
  refine ⟨fun x hx => ?_, fun x hx => ?_⟩
  · obtain ⟨p, hp, hi⟩ := key.1 x hx
    exact hi.2
  obtain ⟨t, ⟨p, hp, hi, hn⟩, ht⟩ := key.2 x hx
  obtain ⟨l, h1, h2⟩ := hi.drop_log
  rw [ht]
  exact ⟨t.raw.sess.log, l, h1, hn, hi.log, h2⟩

/-- A server that the witnesses reach over TLS. -/
def toyPeer (input : List TlsEv) : TlsPeer := ⟨toyCipher, fun _ => input, ⟨List.replicate 20 (.accept 1000), [], []⟩⟩

/-- A client that reaches the servers one after the other. -/
def toyClient (peers : List TlsPeer) : TlsStreamFactory := ⟨.new ⟨b!"example.com:443", 1000, 1⟩ (peers.map .ok), b!"example.com"⟩

theorem toyClient_new (peers : List TlsPeer) : TlsStreamFactory.new ⟨b!"example.com:443", 1000, 1⟩ (peers.map .ok) = some (toyClient peers) := rfl

/-- What is compared of a stream. -/
structure SeenTls where
  asked : List Request
  put : Bytes
  got : Bytes
  left : Nat
  deriving DecidableEq

/-- The requests that were given to a stream, what was sent and received on it, and how many reads of its TCP stream have not been made. -/
def AnyStream.seen (x : AnyStream (Traced TlsStream)) : SeenTls := ⟨x.asked, x.traced.put, x.traced.got, x.traced.raw.input.length⟩

/-- Calls of an HTTPS client, by what they end with and what is on the streams in the end. -/
theorem toy_sends {prof : Profile} {peers : List TlsPeer} {qs : List (Nat × Request)} {os : List SendEnd} {seen : List SeenTls}
    (h : (AnyConn.sendAll prof id (qs.map fun e => (id, e)) .new (toyClient peers)).map (fun y => (y.1, y.2.1.all.map AnyStream.seen)) =
      some (os, seen)) :
    ∃ (c : AnyConn (Traced TlsStream)) (f : TlsStreamFactory), AnyConn.sendAll prof id (qs.map fun e => (id, e)) .new (toyClient peers) = some (os, c, f) ∧
      c.all.map AnyStream.seen = seen := by
  obtain ⟨⟨os', c, f⟩, h1, h2⟩ := Option.map_eq_some_iff.1 h
  obtain ⟨h2, h3⟩ := Prod.mk.inj h2
  dsimp only at h2 h3
  subst h2
  exact ⟨c, f, h1, h3⟩

/-- C76 fails to keep a request from being sent twice although no stream ends and nothing is late: the server asks for an answer of the session (in TLS 1.2, it asks to renegotiate) before
it answers the request. The read of the client then reports an end of the stream, and the request, a POST, is sent again on another stream. Both servers were sent all of it; the answer of
the first was about to be read. -/
theorem C76_twice_false (prof : Profile) : ∃ (q : Request) (c : AnyConn (Traced TlsStream)) (f : TlsStreamFactory) (r : Response), q.method = .post ∧
    AnyConn.sendAll prof id [(id, 20, q)] .new (toyClient [
      toyPeer [.records true [] false true, .records false [] false true, .records false (b!"HTTP/1.1 200 OK\r\ncontent-length: 2\r\n\r\nab") false false],
      toyPeer [.records true [] false true, .records false (b!"HTTP/1.1 200 OK\r\ncontent-length: 2\r\n\r\ncd") false false]]) = some ([.ok r], c, f) ∧ r.body = b!"cd" ∧
    c.all.map AnyStream.seen =
      [⟨[q], requestBytes q, [], 1⟩, ⟨[q], requestBytes q, b!"HTTP/1.1 200 OK\r\ncontent-length: 2\r\n\r\ncd", 0⟩] := by
  obtain ⟨c, f, h1, h2⟩ := toy_sends (prof := prof) (qs := [(20, ⟨b!"/pay", .post, [], []⟩)]) (os := [.ok (.ofBody b!"cd")]) (peers := [
      toyPeer [.records true [] false true, .records false [] false true, .records false (b!"HTTP/1.1 200 OK\r\ncontent-length: 2\r\n\r\nab") false false],
      toyPeer [.records true [] false true, .records false (b!"HTTP/1.1 200 OK\r\ncontent-length: 2\r\n\r\ncd") false false]])
    (seen := [⟨[⟨b!"/pay", .post, [], []⟩], requestBytes ⟨b!"/pay", .post, [], []⟩, [], 1⟩,
      ⟨[⟨b!"/pay", .post, [], []⟩], requestBytes ⟨b!"/pay", .post, [], []⟩, b!"HTTP/1.1 200 OK\r\ncontent-length: 2\r\n\r\ncd", 0⟩])
    (by rcases prof with ⟨_ | _⟩ <;> decide +kernel)
  exact ⟨_, c, f, _, rfl, h1, rfl, h2⟩

theorem toy_honest {T : Type} {xs : List (AnyStream (Traced T))} {ys : List (List UInt8 × Bytes)} (h : xs.map (fun x => (x.asked, x.traced.got)) = ys.map fun y => (y.1.map ask, y.2))
    (h2 : ∀ y ∈ ys, y.2 <+: y.1.flatMap fun c => responseBytes (echo (ask c))) : ∀ x ∈ xs, ∃ b, x.traced.got <+: b ∧ x.Honest echo b := by
  intro x hx
  have := List.mem_map_of_mem (f := fun x : AnyStream (Traced T) => (x.asked, x.traced.got)) hx
  rw [h] at this
  obtain ⟨y, hy, he⟩ := List.mem_map.1 this
  simp only [Prod.mk.injEq] at he
  refine ⟨_, List.prefix_refl _, y.1.map fun c => (ask c, responseBytes (echo (ask c))), ?_, ?_, .inl ?_⟩
  · rw [← he.1, List.map_map]; rfl
  · intro p hp
    obtain ⟨c, -, rfl⟩ := List.mem_map.1 hp
    exact ⟨.length 2, by simp, ofBody_fitting (body := (ask c).uri) (by simp [ask])⟩
  · rw [← he.2, List.flatMap_map]
    exact h2 y hy

/-- The conditions of the theorems above can be met over TLS: two requests are answered by one server, which then ends the connection; the third is answered by another. -/
example (prof : Profile) : ∃ (peers : List TlsPeer) (c : AnyConn (Traced TlsStream)) (f : TlsStreamFactory) (rs : List Response), rs.length = 3 ∧
    (∀ p, Except.ok p ∈ peers.map (Except.ok (ε := IoError)) → p.sock.sent = []) ∧ TlsStreamFactory.new ⟨b!"example.com:443", 1000, 1⟩ (peers.map .ok) = some (toyClient peers) ∧
    AnyConn.sendAll prof id ([(20, ask 97), (20, ask 98), (20, ask 99)].map fun e => (id, e)) .new (toyClient peers) = some (rs.map .ok, c, f) ∧ c.all.length = 2 ∧
    ∀ x ∈ c.all, ∃ b, x.traced.got <+: b ∧ x.Honest echo b := by
  obtain ⟨c, f, h1, h2⟩ := toy_sends (prof := prof) (qs := [(20, ask 97), (20, ask 98), (20, ask 99)]) (os := [.ok (echo (ask 97)), .ok (echo (ask 98)), .ok (echo (ask 99))]) (peers := [
      toyPeer [.records true [] false true, .records false (responseBytes (echo (ask 97))) false false, .records false (responseBytes (echo (ask 98))) true false, .eof],
      toyPeer [.records true [] false true, .records false (responseBytes (echo (ask 99))) false false]])
    (seen := [⟨[ask 97, ask 98, ask 99], requestBytes (ask 97) ++ requestBytes (ask 98) ++ requestBytes (ask 99), responseBytes (echo (ask 97)) ++ responseBytes (echo (ask 98)), 0⟩,
      ⟨[ask 99], requestBytes (ask 99), responseBytes (echo (ask 99)), 0⟩])
    (by rcases prof with ⟨_ | _⟩ <;> decide +kernel)
  refine ⟨_, c, f, [echo (ask 97), echo (ask 98), echo (ask 99)], rfl, ?_, toyClient_new _, h1, ?_, ?_⟩
  · intro p hp
    simp only [List.map_cons, List.map_nil, List.mem_cons, List.not_mem_nil, or_false] at hp
    rcases hp with hp | hp <;> (cases hp; rfl)
  · simpa using congrArg List.length h2
  · refine toy_honest (ys := [([97, 98, 99], [97, 98].flatMap fun c => responseBytes (echo (ask c))), ([99], [99].flatMap fun c => responseBytes (echo (ask c)))]) ?_ (by decide +kernel)
    have := congrArg (List.map fun (e : SeenTls) => (e.asked, e.got)) h2
    rw [List.map_map] at this
    exact this

/-- The conditions of `C76_close_notify` can be met, and there is such a stream: it sealed its two messages of the handshake, two requests (of which the second was sent again elsewhere), and the
close_notify. -/
example (prof : Profile) : ∃ (peers : List TlsPeer) (c : AnyConn (Traced TlsStream)) (f : TlsStreamFactory) (os : List SendEnd),
    AnyConn.sendAll prof id ([(20, ask 97), (20, ask 99)].map fun e => (id, e)) .new (toyClient peers) = some (os, c, f) ∧
    c.dropped.map (fun x => x.traced.raw.sess.log.map (decide <| · = TlsItem.closeNotify)) = [[false, false, false, false, true]] := by
  obtain ⟨⟨os, c, f⟩, h1, h2⟩ := Option.map_eq_some_iff.1 (show (AnyConn.sendAll prof id ([(20, ask 97), (20, ask 99)].map fun e => (id, e)) .new (toyClient [
      toyPeer [.records true [] false true, .records false (responseBytes (echo (ask 97))) true false, .eof],
      toyPeer [.records true [] false true, .records false (responseBytes (echo (ask 99))) false false]])).map
        (fun y : List SendEnd × AnyConn (Traced TlsStream) × TlsStreamFactory => y.2.1.dropped.map fun x => x.traced.raw.sess.log.map (decide <| · = TlsItem.closeNotify)) = some [[false, false, false, false, true]] by
    rcases prof with ⟨_ | _⟩ <;> decide +kernel)
  exact ⟨_, c, f, os, h1, h2⟩

end Verif
