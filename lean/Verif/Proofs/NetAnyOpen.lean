import Verif.Proofs.NetAny
import Verif.Spec.ClosesAny

/-!
What is known of the raw streams of connections that are open, if it need not survive errors of writing: a handler that gets one drops the connection.
-/

namespace Verif

/-- The operations of a writer preserve `P`, if only such data are written as `may` says, and as long as they do not fail. That there is no room, or that a call was interrupted, does not count. -/
structure WrGoes {W : Type} [Wr W] (may : Bytes → Prop) (P : W → Prop) : Prop where
  write : ∀ {f : Nat} {w w' : W} {b : Bytes} {x : Except IoError Nat}, may b → Wr.write f w b = some (x, w') → (∀ e, x = .error e → e.Mild) → P w → P w'
  flush : ∀ {f : Nat} {w w' : W} {x : Except IoError Unit}, Wr.flush f w = some (x, w') → (∀ e, x = .error e → e.Mild) → P w → P w'

/-- The same for a raw stream, which is read too. -/
structure RawGoes {T : Type} [RawIO T] (P : T → Prop) : Prop extends WrGoes (· ≠ []) P, RawReads P

section

variable {W : Type} [Wr W] {P : W → Prop} {may : Bytes → Prop}

theorem WrGoes.wub (h : WrGoes may P) (hm : ∀ b, b ≠ [] → may b) {f r : Nat} {w w' : W} {b : Bytes} {pos : Nat} {x : Except IoError Nat} (e : writeUntilBlocked f r w b pos = some (x, w'))
    (hx : ∀ e, x = .error e → e.Mild) (hp : P w) : P w' := by
  induction r generalizing w b pos with
  | zero =>
    unfold writeUntilBlocked at e
    split at e
    · cases e; exact hp
    · cases e
  | succ r ih =>
    unfold writeUntilBlocked at e
    split at e
    · cases e; exact hp
    · next hb =>
      split at e
      · cases e
      · rename_i hw; exact ih e (h.write (hm _ hb) hw nofun hp)
      · rename_i er _ hw
        cases e
        refine h.write (hm _ hb) hw (fun e he => ?_) hp
        cases he
        by_cases hr : er = .wouldBlock
        · exact .inl hr
        · exact hx er (by rw [if_neg hr])

theorem WrGoes.nb_flushBuf (h : WrGoes may P) (hm : ∀ b, b ≠ [] → may b) {f : Nat} {w w' : NbWriter W} {x : Except IoError Unit} (e : w.flushBuf f = some (x, w'))
    (hx : ∀ e, x = .error e → e.Mild) (hp : P w.inner) : P w'.inner := by
  unfold NbWriter.flushBuf at e
  obtain ⟨⟨y, t⟩, h1, h2⟩ := Option.map_eq_some_iff.1 e
  cases y with
  | error er =>
    cases h2
    exact h.wub hm h1 (fun e he => by cases he; exact hx _ rfl) hp
  | ok n =>
    have := h.wub hm h1 nofun hp
    dsimp only at h2
    split at h2 <;> (cases h2; exact this)

theorem WrGoes.nb (h : WrGoes may P) (hm : ∀ b, b ≠ [] → may b) : WrGoes (W := NbWriter W) (fun _ => True) fun w => P w.inner where
  write {f w w' b x} _ e hx hp := by
    change w.write f b = _ at e
    unfold NbWriter.write at e
    split at e
    · split at e
      · cases e
      · rename_i hf; cases e; exact h.nb_flushBuf hm hf (fun e he => by cases he; exact hx _ rfl) hp
      · rename_i hf
        have hp := h.nb_flushBuf hm hf nofun hp
        split at e
        · obtain ⟨⟨y, t⟩, h1, h2⟩ := Option.map_eq_some_iff.1 e
          have := h.wub hm h1
          cases y with
          | error er => cases h2; exact this (fun e he => by cases he; exact hx _ rfl) hp
          | ok n => cases h2; exact this nofun hp
        · cases e; exact hp
    · cases e; exact hp
  flush {f w w' x} e hx hp := by
    change w.flush f = _ at e
    unfold NbWriter.flush at e
    split at e
    · cases e
    · rename_i hf; cases e; exact h.nb_flushBuf hm hf (fun e he => by cases he; exact hx _ rfl) hp
    · rename_i hf
      have hp := h.nb_flushBuf hm hf nofun hp
      unfold NbWriter.flushInner at e
      obtain ⟨⟨y, t⟩, h1, h2⟩ := Option.map_eq_some_iff.1 e
      have := h.flush h1
      cases y with
      | ok u => cases h2; exact this nofun hp
      | error er =>
        by_cases hr : er = .wouldBlock
        · subst hr
          cases h2
          exact this (fun e he => by cases he; exact .inl rfl) hp
        · cases er <;> first | exact absurd rfl hr | (cases h2; exact this (fun e he => by cases he; exact hx _ rfl) hp)

theorem WrGoes.readable (h : WrGoes may P) : WrGoes (W := ReadableWriter W) may fun w => P w.val where
  write {f w w' b x} hb e hx hp := by
    obtain ⟨⟨y, t⟩, h1, h2⟩ := Option.map_eq_some_iff.1 e
    cases h2; exact h.write hb h1 hx hp
  flush {f w w' x} e hx hp := by
    obtain ⟨⟨y, t⟩, h1, h2⟩ := Option.map_eq_some_iff.1 e
    cases h2; exact h.flush h1 hx hp

end

theorem RawGoes.server {T : Type} [RawIO T] {P : T → Prop} (h : RawGoes P) : WrGoes (W := ServerStack T) (fun _ => True) fun s => P s.val.inner.val.inner := by
  have h1 : WrGoes (· ≠ []) (W := WriteableReader (BufR T)) fun w => P w.val.inner := {
    write := fun {f w w' b x} hb e hx hp => by
      obtain ⟨⟨y, t⟩, h1, h2⟩ := Option.map_eq_some_iff.1 e
      cases h2; exact h.write hb h1 hx hp
    flush := fun {f w w' x} e hx hp => by
      obtain ⟨⟨y, t⟩, h1, h2⟩ := Option.map_eq_some_iff.1 e
      cases h2; exact h.flush h1 hx hp }
  exact (h1.nb fun _ hb => hb).readable

/-! ## Answers -/

section

variable {W : Type} [Write W] {K : W → Prop}

/-- Writing preserves `K` as long as it does not fail. -/
structure WriteGoes (K : W → Prop) : Prop where
  write : ∀ {w : W} (b : Bytes), (∀ e, (Write.write w b).1 = .error e → e.Mild) → K w → K (Write.write w b).2
  flush : ∀ {w : W}, (∀ e, (Write.flush w).1 = .error e → e.Mild) → K w → K (Write.flush w).2

variable (hK : WriteGoes K)
include hK

theorem WriteGoes.writeAllLoop (f : Nat) {w : W} (b : Bytes) (h : K w) : (Write.writeAllLoop f w b).1 = .ok → K (Write.writeAllLoop f w b).2 := by
  induction f generalizing w b with
  | zero => cases b <;> exact fun _ => h
  | succ f ih =>
    cases b with
    | nil => exact fun _ => h
    | cons c t =>
      simp only [Write.writeAllLoop]
      have := hK.write (w := w) (c :: t)
      generalize Write.write w (c :: t) = q at this
      obtain ⟨_ | n, w'⟩ := q
      · next e =>
        cases e with
        | interrupted => exact ih _ (this (fun e he => by cases he; exact .inr rfl) h)
        | _ => intro h'; cases h'
      · cases n with
        | zero => intro h'; cases h'
        | succ n => exact ih _ (this (fun e he => by cases he) h)

theorem WriteGoes.fmt (ps : List Bytes) {w : W} (h : K w) : (Write.fmt w ps).1 = .ok → K (Write.fmt w ps).2 := by
  induction ps generalizing w with
  | nil => exact fun _ => h
  | cons p ps ih =>
    unfold Write.fmt
    have : (Write.writeAll w p).1 = .ok → K (Write.writeAll w p).2 := hK.writeAllLoop _ p h
    generalize Write.writeAll w p = q at this
    obtain ⟨_ | _ | _, w'⟩ := q
    · exact ih (this rfl)
    · exact nofun
    · exact nofun

omit [Write W] hK in
theorem goes_andThen {x : IoRes × W} {k : W → IoRes × W} (h : x.1 = .ok → K x.2) (hk : ∀ w, K w → (k w).1 = .ok → K (k w).2) : (Write.andThen x k).1 = .ok → K (Write.andThen x k).2 := by
  obtain ⟨_ | _ | _, w⟩ := x
  · exact hk w (h rfl)
  · exact nofun
  · exact nofun

omit [Write W] hK in
theorem goes_res {α : Type} {x : Except IoError α × W} (h : (∀ e, x.1 = .error e → e.Mild) → K x.2) : (Write.res x).1 = .ok → K (Write.res x).2 := by
  obtain ⟨_ | _, w⟩ := x
  · exact nofun
  · exact fun _ => h fun _ he => by cases he

theorem WriteGoes.headerLines (hs : List (Header × Bytes)) {w : W} (h : K w) : (Write.headerLines w hs).1 = .ok → K (Write.headerLines w hs).2 := by
  induction hs generalizing w with
  | nil => exact fun _ => h
  | cons p hs ih => exact goes_andThen (hK.fmt _ h) fun _ h => ih h

theorem WriteGoes.answer (a : ListenerResult) {w : W} (h : K w) : (putAnswer w a).1 = .ok → K (putAnswer w a).2 := by
  have hr : ∀ r, (writeResponse w r).1 = .ok → K (writeResponse w r).2 := fun r => goes_andThen (hK.fmt _ h) fun _ h => goes_andThen (hK.headerLines _ h) fun _ h =>
    goes_andThen (goes_res fun hx => hK.write _ hx h) fun _ h => goes_andThen (goes_res fun hx => hK.write _ hx h) fun _ h => goes_res fun hx => hK.flush hx h
  cases a with
  | sendResponse r => exact hr r
  | sendResponseArc r => exact hr r
  | next => exact goes_andThen (hK.writeAllLoop _ _ h) fun _ h => goes_res fun hx => hK.flush hx h

end

theorem WrGoes.shared {S : Type} [BufRead S] [Wr S] {K : S → Prop} (h : WrGoes (fun _ => True) K) : WriteGoes (W := Shared S) fun x => K x.stream where
  write {w} b := by
    simp only [Write.write]
    split
    · next e => exact fun hx hk => h.write trivial e hx hk
    · exact fun _ hk => hk
  flush {w} := by
    simp only [Write.flush]
    split
    · next e => exact fun hx hk => h.flush e hx hk
    · exact fun _ hk => hk

/-! ## All connections -/

variable {T σ : Type} [RawIO T] {prof : Profile} {rt : Router σ}

/-- The raw streams of open connections are as `L` says. -/
def ANet.Opens (L : Nat → Traced T → Prop) (s : ANet (Traced T) σ) : Prop := ∀ (k : Nat) (c : AConn (Traced T)) (x : SharedConn (ServerStack (Traced T))), s.conns[k]? = some c → c.slot = .live x →
  L k x.reader.stream.val.inner.val.inner

omit [RawIO T] in
theorem ANet.Opens.upd {L : Nat → Traced T → Prop} {s t : ANet (Traced T) σ} (h : s.Opens L) {k : Nat} {c : AConn (Traced T)} (hc : t.conns = s.conns.set k c)
    (hd : ∀ x, c.slot = .live x → L k x.reader.stream.val.inner.val.inner) : t.Opens L := by
  intro j d x hj hx
  rw [hc, List.getElem?_set] at hj
  split at hj
  · next he =>
    subst he
    split at hj
    · cases hj; exact hd x hx
    · cases hj
  · exact h j d x hj hx

omit [RawIO T] in
theorem opens_event {L : Nat → Traced T → Prop} {s t : ANet (Traced T) σ} (h : s.Opens L) {k : Nat} {closed : Bool} (e : s.onEvent k closed = some t) : t.Opens L := by
  unfold ANet.onEvent at e
  split at e
  · cases e
  · next c hc =>
    split at e
    · cases e; exact h
    · split at e
      · cases e
        exact h.upd (c := { c with inTable := false }) rfl fun x hx => h k c x hc hx
      · split at e
        · cases e
        · cases e
          exact h

theorem opens_advance {L : Nat → Traced T → Prop} (hL : ∀ k, RawGoes (L k)) {s t : ANet (Traced T) σ} (hl : s.Opens L) {w k rounds : Nat} {c : AConn (Traced T)} (hc : s.conns[k]? = some c)
    (h : ANet.advance prof rt s w k c rounds = some t) : t.Opens L := by
  have gone : ∀ {conn : SharedConn (ServerStack (Traced T))} (p : Phase), ((s.setConn k { c with slot := .gone conn }).setPhase w p).Opens L := fun p =>
    hl.upd (k := k) rfl nofun
  have live : ∀ {conn : SharedConn (ServerStack (Traced T))} (p : Phase), L k conn.reader.stream.val.inner.val.inner → ((s.setConn k { c with slot := .live conn }).setPhase w p).Opens L := fun p hx =>
    hl.upd (k := k) rfl fun x hs => by cases hs; exact hx
  unfold ANet.advance at h
  split at h
  · next conn hp hs =>
    have hk := hl k c conn hc hs
    have k1 := (hL k).server.shared.flush (w := { conn.reader with rounds })
    generalize Write.flush { conn.reader with rounds } = x at h k1
    obtain ⟨x, r⟩ := x
    cases x with
    | error e =>
      obtain ⟨hh, rfl⟩ := unlessHung_some h
      exact gone _
    | ok u =>
      obtain ⟨hh, rfl⟩ := unlessHung_some h
      exact live _ (k1 nofun hk)
  · next conn hp hs =>
    have hk := hl k c conn hc hs
    have k1 := ((server_quits (hL k).toRawReads).stops.request prof (conn.parser.getD .new) (r := { conn.reader with rounds }) hk).1
    unfold Conn.readRequest at h
    dsimp only at h k1
    generalize RequestParser.parse prof (conn.parser.getD .new) { conn.reader with rounds } = y at h k1
    obtain ⟨o, r⟩ := y
    cases o with
    | done q => cases h; exact live _ k1
    | io p e =>
      by_cases he : e = .wouldBlock
      · subst he
        cases h
        exact live _ k1
      · simp only [if_neg he] at h
        by_cases hcl : isClosed p e
        · simp only [if_pos hcl] at h
          cases h
          exact gone _
        · simp only [if_neg hcl] at h
          generalize writeErrorResponse r = A at h
          obtain ⟨x, r'⟩ := A
          cases x with
          | diverge => cases h
          | ok =>
            obtain ⟨hh, rfl⟩ := unlessHung_some h
            exact gone _
          | err e =>
            obtain ⟨hh, rfl⟩ := unlessHung_some h
            exact gone _
    | perr e =>
      dsimp only at h
      generalize writeErrorResponse r = A at h
      obtain ⟨x, r'⟩ := A
      cases x with
      | diverge => cases h
      | ok =>
        obtain ⟨hh, rfl⟩ := unlessHung_some h
        exact gone _
      | err e =>
        obtain ⟨hh, rfl⟩ := unlessHung_some h
        exact gone _
    | panic =>
      obtain ⟨pool, h1, rfl⟩ := Option.map_eq_some_iff.1 h
      exact hl.upd (k := k) rfl nofun
    | diverge => cases h
  · next q conn hp hs =>
    dsimp only at h
    cases ha : (rt.result q s.state).1 with
    | none =>
      rw [ha] at h
      obtain ⟨pool, h1, rfl⟩ := Option.map_eq_some_iff.1 h
      exact hl.upd (k := k) rfl nofun
    | some a =>
      rw [ha] at h
      cases h
      exact hl.upd (k := k) (c := c) rfl fun x hx => hl k c x hc hx
  · next q a conn hp hs =>
    have hk := hl k c conn hc hs
    have hA := (hL k).server.shared.answer a (w := { conn.reader with rounds }) hk
    rw [writeAnswer_put] at h
    generalize putAnswer { conn.reader with rounds } a = A at h hA
    obtain ⟨x, r⟩ := A
    cases x with
    | ok =>
      dsimp only at h
      split at h
      · obtain ⟨hh, rfl⟩ := unlessHung_some h
        exact gone _
      · obtain ⟨hh, rfl⟩ := unlessHung_some h
        exact live _ (hA rfl)
    | err e =>
      obtain ⟨hh, rfl⟩ := unlessHung_some h
      exact gone _
    | diverge => cases h
  · obtain ⟨pool, h1, rfl⟩ := Option.map_eq_some_iff.1 h
    exact hl.upd (k := k) (c := { c with lock := none }) rfl fun x hx => hl k c x hc hx
  · cases h

theorem opens_step {L L' : Nat → Traced T → Prop} (hL : ∀ k, RawGoes (L k)) {s t : ANet (Traced T) σ} (hl : s.Opens L) {a : AAct T} (ha : a.Leads L L' s.conns.length) (e : s.step prof rt a.traced = some t) : t.Opens L' := by
  have key : (∀ k env, a ≠ .change k env) → t.Opens L → t.Opens L' := fun hn h k c x hc hx => ha.same k _ (fun env => hn k env) (h k c x hc hx)
  cases a with
  | accept offer grow growOk x =>
    cases e
    intro k c y h1 hy
    dsimp only at h1
    by_cases hk : k < s.conns.length
    · rw [List.getElem?_append_left hk] at h1
      exact ha.same k _ (fun _ => nofun) (hl k c y h1 hy)
    · rw [List.getElem?_append_right (by omega)] at h1
      obtain ⟨hj, rfl⟩ : k - s.conns.length = 0 ∧ ANet.fresh offer grow ⟨x, [], []⟩ = c := by
        cases hj : k - s.conns.length with
        | zero => rw [hj] at h1; exact ⟨rfl, Option.some.inj h1⟩
        | succ j => rw [hj] at h1; cases h1
      obtain rfl : k = s.conns.length := by omega
      cases hy
      exact ha.new _ _ _ _ rfl
  | change k env =>
    simp only [AAct.traced, ANet.step] at e
    split at e
    · cases e
    · next c hc =>
      cases e
      intro j d y hd hy
      have hd : (s.conns.set k _)[j]? = some d := hd
      by_cases hj : j = k
      · subst hj
        rw [List.getElem?_set_self (List.getElem?_eq_some_iff.1 hc).1] at hd
        cases hd
        dsimp only at hy
        cases hsl : c.slot with
        | live x =>
          rw [hsl] at hy
          cases hy
          exact ha.change j env rfl _ (hl j c x hc hsl)
        | gone x => rw [hsl] at hy; cases hy
        | poisoned x => rw [hsl] at hy; cases hy
      · rw [List.getElem?_set_ne (Ne.symm hj)] at hd
        exact ha.same j _ (fun env' he => hj (by cases he; rfl)) (hl j d y hd hy)
  | notify k =>
    refine key nofun ?_
    simp only [AAct.traced, ANet.step] at e
    split at e
    · cases e
    · next c hc =>
      cases e
      exact hl.upd (c := { c with edge := true }) rfl fun x hx => hl k c x hc hx
  | poll ks =>
    refine key nofun ?_
    simp only [AAct.traced, ANet.step] at e
    split at e
    · cases e
      intro k c x h1 hx
      simp only [List.getElem?_mapIdx] at h1
      obtain ⟨d, h4, rfl⟩ := Option.map_eq_some_iff.1 h1
      refine hl k d x h4 ?_
      split at hx <;> exact hx
    · cases e
  | dispatch closed =>
    refine key nofun ?_
    simp only [AAct.traced, ANet.step] at e
    split at e
    · cases e
    · next k ks _ => exact opens_event (s := { s with batch := ks }) hl e
  | stray k closed => exact key nofun <| opens_event hl (show s.onEvent k closed = some t from e)
  | work w =>
    refine key nofun ?_
    simp only [AAct.traced, ANet.step] at e
    split at e
    · cases e
    · obtain ⟨pool, -, rfl⟩ := Option.map_eq_some_iff.1 e
      exact hl
  | lock w =>
    refine key nofun ?_
    simp only [AAct.traced, ANet.step] at e
    split at e
    · cases e
    · next k hw =>
      split at e
      · cases e
      · next c hc =>
        split at e
        · unfold ANet.enter at e
          split at e
          · obtain ⟨pool, -, rfl⟩ := Option.map_eq_some_iff.1 e
            exact hl
          · cases e
            exact hl.upd (k := k) (c := { c with lock := some w }) rfl fun x hx => hl k c x hc hx
          · cases e
            exact hl.upd (k := k) (c := { c with lock := some w }) rfl fun x hx => hl k c x hc hx
        · cases e
  | go w rounds =>
    refine key nofun ?_
    simp only [AAct.traced, ANet.step] at e
    split at e
    · cases e
    · next k hw =>
      split at e
      · cases e
      · next c hc =>
        split at e
        · exact opens_advance hL hl hc e
        · cases e

/-- At any time the raw streams of open connections are as `L` says. -/
theorem opens_hist {L : List (AAct T) → Nat → Traced T → Prop} (hL : ∀ hist k, RawGoes (L hist k)) {nw : Nat} {s₀ : σ}
    {as : List (AAct T)} (ha : ∀ pre a post, as = pre ++ a :: post → a.Leads (L pre) (L (pre ++ [a])) (AAct.accepted pre)) {s : ANet (Traced T) σ} (h : ANet.after prof rt nw s₀ as = some s) : s.Opens (L as) := by
  obtain ⟨s₁, h1, h2⟩ := Option.bind_eq_some_iff.1 h
  obtain ⟨pool, h3, rfl⟩ := Option.map_eq_some_iff.1 h1
  suffices key : ∀ (bs hist : List (AAct T)) (s t : ANet (Traced T) σ), hist ++ bs = as → s.conns.length = AAct.accepted hist → s.Opens (L hist) → s.run prof rt (bs.map AAct.traced) = some t → t.Opens (L as) from
    key as [] _ _ rfl rfl (fun k c x hc => by cases hc) h2
  clear h h1 h2 h3
  intro bs
  induction bs with
  | nil =>
    intro hist s t he _ hl h
    rw [List.append_nil] at he
    subst he
    cases h
    exact hl
  | cons a bs ih =>
    intro hist s t he hn hl h
    rw [List.map_cons, ANet.run] at h
    obtain ⟨s₁, h1, h2⟩ := Option.bind_eq_some_iff.1 h
    refine ih (hist ++ [a]) s₁ t (by rw [← he]; simp) (by rw [ANet.step_length h1, hn, AAct.accepted_append, AAct.accepted_traced]) ?_ h2
    exact opens_step (hL hist) hl (by rw [hn]; exact ha hist a bs he.symm) h1

end Verif
