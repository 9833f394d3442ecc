import Verif.Spec.Routing
import Verif.Proofs.Utf8
import Verif.Props.Message

/-!
C23 to C26: the router.
-/

namespace Verif

variable {σ : Type}

theorem startsWith_iff {s p : Bytes} : startsWith s p = true ↔ p <+: s := List.isPrefixOf_iff_prefix

/-! ## C23 -/

/-- C23: of the listeners whose prefix matches, in the order of registration, some are called and answer
`Next`; then either there are no more and the result is `Next`, or the next one decides: the result and
the final state are its result and the state it left, so nothing is called after it. -/
theorem C23_first_decides (uri : Bytes) (q : Request) (ls : Router σ) (s : σ) :
    ∃ called s', AllNext uri q called s s' ∧
      ((ls.filter (fun l => decide (l.1 <+: uri)) = called ∧ Router.resultInternal uri q ls s = (some .next, s')) ∨
        ∃ p l later, ls.filter (fun l => decide (l.1 <+: uri)) = called ++ (p, l) :: later ∧
          Router.resultInternal uri q ls s = l uri q s' ∧ (l uri q s').1 ≠ some .next) := by
  induction ls generalizing s with
  | nil => exact ⟨[], s, .nil s, .inl ⟨rfl, rfl⟩⟩
  | cons x ls ih =>
    obtain ⟨p, l⟩ := x
    by_cases hp : p <+: uri
    · have h1 : startsWith uri p = true := startsWith_iff.2 hp
      simp only [List.filter_cons, hp, decide_true, if_true, Router.resultInternal, h1]
      generalize hl : l uri q s = y
      obtain ⟨o, s1⟩ := y
      by_cases ho : o = some .next
      · subst ho
        obtain ⟨called, s', h2, h3⟩ := ih s1
        refine ⟨(p, l) :: called, s', .cons hl h2, ?_⟩
        rcases h3 with ⟨h3, h4⟩ | ⟨p', l', later, h3, h4, h5⟩
        · exact .inl ⟨by rw [h3], h4⟩
        · exact .inr ⟨p', l', later, by rw [h3]; rfl, h4, h5⟩
      · refine ⟨[], s, .nil s, .inr ⟨p, l, _, rfl, ?_, ?_⟩⟩
        · rw [hl]
          cases o with
          | none => rfl
          | some r => cases r <;> simp_all
        · rw [hl]; exact ho
    · have h1 : startsWith uri p = false := by
        rw [← Bool.not_eq_true, startsWith_iff]; exact hp
      simpa [List.filter_cons, hp, Router.resultInternal, h1] using ih s

/-- C23: the same for a router made by registering listeners one after the other: the order that counts is the order of registration. -/
theorem C23_registered (ls : List (Bytes × Listener σ)) (q : Request) (s : σ) :
    ∃ called s', AllNext q.uri q called s s' ∧
      ((ls.filter (fun l => decide (l.1 <+: q.uri)) = called ∧
          Router.result (ls.foldl (fun rt l => rt.onPrefix l.1 l.2) []) q s = (some .next, s')) ∨
        ∃ p l later, ls.filter (fun l => decide (l.1 <+: q.uri)) = called ++ (p, l) :: later ∧
          Router.result (ls.foldl (fun rt l => rt.onPrefix l.1 l.2) []) q s = l q.uri q s' ∧ (l q.uri q s').1 ≠ some .next) := by
  have key : ∀ (ls rt : Router σ), ls.foldl (fun rt l => Router.onPrefix rt l.1 l.2) rt = rt ++ ls := by
    intro ls
    induction ls with
    | nil => simp
    | cons l ls ih => intro rt; rw [List.foldl_cons, ih, Router.onPrefix, List.append_assoc]; rfl
  rw [key]
  exact C23_first_decides q.uri q ls s

/-- Listeners that count their calls. -/
example : Router.resultInternal b!"/a/b" ⟨b!"/a/b", .get, [], []⟩
    [(b!"/x", fun _ _ s => (some .next, 1 :: s)), (b!"/a", fun _ _ s => (some .next, 2 :: s)),
      (b!"", fun _ _ s => (some (.sendResponse (.ofBody b!"hi")), 3 :: s)), (b!"", fun _ _ s => (some .next, 4 :: s))]
    ([] : List Nat) = (some (.sendResponse (.ofBody b!"hi")), [3, 2]) := by decide

/-! ## C24 -/

theorem resultInternal_append (uri : Bytes) (q : Request) (a b : Router σ) (s : σ) :
    Router.resultInternal uri q (a ++ b) s =
      match Router.resultInternal uri q a s with
      | (some .next, s') => Router.resultInternal uri q b s'
      | x => x := by
  induction a generalizing s with
  | nil => rfl
  | cons x a ih =>
    obtain ⟨p, l⟩ := x
    simp only [List.cons_append, Router.resultInternal]
    split
    · generalize l uri q s = y
      obtain ⟨o, s1⟩ := y
      cases o with
      | none => rfl
      | some r => cases r <;> simp [ih]
    · exact ih s

/-- C24: a listener registered with `on u` is called, with the local URI, exactly if that equals `u` and no
earlier listener has decided; otherwise it is as if it were not there. -/
theorem C24_exact (uri : Bytes) (q : Request) (before after : Router σ) (u : Bytes) (l : Listener σ) (s : σ) :
    Router.resultInternal uri q (before.on u l ++ after) s =
      match Router.resultInternal uri q before s with
      | (some .next, s1) =>
        if uri = u then
          match l u q s1 with
          | (some .next, s2) => Router.resultInternal uri q after s2
          | x => x
        else Router.resultInternal uri q after s1
      | x => x := by
  rw [Router.on, Router.onPrefix, List.append_assoc, resultInternal_append]
  generalize Router.resultInternal uri q before s = y
  obtain ⟨o, s1⟩ := y
  have h : startsWith uri b!"" = true := startsWith_iff.2 List.nil_prefix
  cases o with
  | none => rfl
  | some r =>
    cases r with
    | next =>
      simp only [List.cons_append, List.nil_append, Router.resultInternal, h, if_true]
      by_cases hu : uri = u
      · subst hu
        simp only [if_true]
        generalize l uri q s1 = z
        obtain ⟨o, s2⟩ := z
        cases o with
        | none => rfl
        | some r => cases r <;> rfl
      · simp [hu, Ne.symm hu]
    | _ => rfl

example : (Router.on [] b!"/a" fun _ _ (s : Nat) => (some (.sendResponse (.ofBody b!"x")), s + 1)).result
    ⟨b!"/a", .get, [], []⟩ 0 = (some (.sendResponse (.ofBody b!"x")), 1) := by decide

example : (Router.on [] b!"/a" fun _ _ (s : Nat) => (some (.sendResponse (.ofBody b!"x")), s + 1)).result
    ⟨b!"/ab", .get, [], []⟩ 0 = (some .next, 0) := by decide

/-! ## C26 -/

theorem isCont_step {c : UInt8} (h : isCont c = true) : U8.step .start c = .bad := by
  simp only [isCont, Bool.and_eq_true, decide_eq_true_eq] at h
  have h1 := UInt8.le_iff_toNat_le.1 h.1
  have h2 := UInt8.le_iff_toNat_le.1 h.2
  have hy : ∀ x : UInt8, 192 ≤ x.toNat → ¬ x ≤ c := fun x hx h => by
    have := UInt8.le_iff_toNat_le.1 h
    simp at h2; omega
  have hz : ∀ x : UInt8, 192 ≤ x.toNat → c ≠ x := fun x hx h => by
    subst h; simp at h2; omega
  unfold U8.step
  simp only [hy 0xC2 (by decide), hy 0xE1 (by decide),
    hy 0xF1 (by decide), hz 0xE0 (by decide), hz 0xED (by decide), hz 0xF0 (by decide), hz 0xF4 (by decide)]
  simp [h.1]

/-- C26: cutting a matching prefix off a URI never panics, and what is left is text again. -/
theorem C26_strip {uri p : Bytes} (hu : utf8Valid uri = true) (hp : utf8Valid p = true) (h : p <+: uri) :
    ∃ rest, uri = p ++ rest ∧ sliceFrom uri p.length = some rest ∧ utf8Valid rest = true := by
  obtain ⟨rest, rfl⟩ := h
  rw [utf8_append hp] at hu
  refine ⟨rest, rfl, ?_, hu⟩
  unfold sliceFrom isCharBoundary
  rw [List.drop_left, List.getElem?_append_right (Nat.le_refl _), Nat.sub_self]
  cases rest with
  | nil => simp
  | cons c t =>
    have : isCont c = false := by
      by_cases hc : isCont c = true
      · simp only [utf8Valid, List.foldl_cons, isCont_step hc, foldl_bad] at hu
        exact absurd hu (by decide)
      · simpa using hc
    simp [this]

/-- Without the hypothesis it does panic: `é` cut in the middle. -/
example : sliceFrom [0xC3, 0xA9] 1 = none := by decide

example : sliceFrom (b!"/" ++ [0xC3, 0xA9]) 1 = some [0xC3, 0xA9] := by decide

/-! ## C25 -/

/-- A single listener of a router. -/
theorem resultInternal_one (uri : Bytes) (q : Request) (p : Bytes) (l : Listener σ) (s : σ) :
    Router.resultInternal uri q [(p, l)] s = if p <+: uri then l uri q s else (some .next, s) := by
  simp only [Router.resultInternal, startsWith_iff]
  split
  · generalize l uri q s = y
    obtain ⟨o, s1⟩ := y
    cases o with
    | none => rfl
    | some r => cases r <;> rfl
  · rfl

theorem ask_append (uri : Bytes) (q : Request) (a b : List (Entry σ)) (s : σ) :
    Entry.ask uri q (a ++ b) s =
      match Entry.ask uri q a s with
      | (some .next, s') => Entry.ask uri q b s'
      | x => x := by
  induction a generalizing s with
  | nil => rfl
  | cons e a ih =>
    simp only [List.cons_append, Entry.ask]
    split
    · generalize e.listener _ q s = y
      obtain ⟨o, s1⟩ := y
      cases o with
      | none => rfl
      | some r => cases r <;> simp [ih]
    · exact ih s

theorem ask_one (uri : Bytes) (q : Request) (e : Entry σ) (s : σ) :
    Entry.ask uri q [e] s = if e.Matches uri then e.listener (uri.drop e.mount.length) q s else (some .next, s) := by
  simp only [Entry.ask]
  split
  · generalize e.listener _ q s = y
    obtain ⟨o, s1⟩ := y
    cases o with
    | none => rfl
    | some r => cases r <;> rfl
  · rfl

mutual
/-- Entries whose mount does not match are never asked. -/
theorem entries_mount (mount uri : Bytes) (q : Request) (h : ¬ mount <+: uri) (r : Route σ) (s : σ) :
    Entry.ask uri q (r.entries mount) s = (some .next, s) := by
  have hnp : ∀ t, ¬ (mount ++ t) <+: uri := fun t ht => h ((List.prefix_append _ _).trans ht)
  cases r with
  | onPrefix u l => simp [Route.entries, ask_one, Entry.Matches, hnp]
  | on u l =>
    rw [Route.entries, ask_one, if_neg]
    simp only [Entry.Matches, if_true]
    rintro rfl
    exact h (List.prefix_append _ _)
  | route u sub => rw [Route.entries]; exact allEntries_mount (mount ++ u) uri q (hnp u) sub s
theorem allEntries_mount (mount uri : Bytes) (q : Request) (h : ¬ mount <+: uri) (rs : List (Route σ)) (s : σ) :
    Entry.ask uri q (Route.allEntries mount rs) s = (some .next, s) := by
  cases rs with
  | nil => rfl
  | cons r rs =>
    rw [Route.allEntries, ask_append, entries_mount mount uri q h r s]
    exact allEntries_mount mount uri q h rs s
end

mutual
theorem register_flat (r : Route σ) (hr : r.Utf8) (self : Router σ) (mount rest : Bytes) (hrest : utf8Valid rest = true)
    (q : Request) (s : σ) :
    Router.resultInternal rest q (r.register self) s =
      match Router.resultInternal rest q self s with
      | (some .next, s') => Entry.ask (mount ++ rest) q (r.entries mount) s'
      | x => x := by
  cases r with
  | onPrefix u l =>
    simp only [Route.register, Router.onPrefix, resultInternal_append, Route.entries, ask_one, resultInternal_one,
      Entry.Matches, Bool.false_eq_true, if_false, List.prefix_append_right_inj, List.drop_left]
  | on u l =>
    have h0 : b!"" <+: rest := List.nil_prefix
    simp only [Route.register, Router.on, Router.onPrefix, resultInternal_append, Route.entries, ask_one, resultInternal_one,
      Entry.Matches, if_true, List.drop_left, List.append_cancel_left_eq, h0, eq_comm (a := u)]
  | route u sub =>
    obtain ⟨hu, hsub⟩ := hr
    simp only [Route.register, Router.route, Router.onPrefix, resultInternal_append, Route.entries, resultInternal_one]
    generalize Router.resultInternal rest q self s = y
    obtain ⟨o, s1⟩ := y
    cases o with
    | none => rfl
    | some x =>
      cases x with
      | next =>
        simp only
        by_cases hp : u <+: rest
        · obtain ⟨t, ht, hs, hv⟩ := C26_strip hrest hu hp
          rw [if_pos hp, hs]
          simp only
          rw [registerAll_flat sub hsub [] (mount ++ u) t hv q s1, ht, ← List.append_assoc]
          rfl
        · rw [if_neg hp, allEntries_mount]
          rwa [List.prefix_append_right_inj]
      | _ => rfl
theorem registerAll_flat (rs : List (Route σ)) (hr : Route.AllUtf8 rs) (self : Router σ) (mount rest : Bytes)
    (hrest : utf8Valid rest = true) (q : Request) (s : σ) :
    Router.resultInternal rest q (Route.registerAll self rs) s =
      match Router.resultInternal rest q self s with
      | (some .next, s') => Entry.ask (mount ++ rest) q (Route.allEntries mount rs) s'
      | x => x := by
  cases rs with
  | nil =>
    simp only [Route.registerAll, Route.allEntries, Entry.ask]
    generalize Router.resultInternal rest q self s = y
    obtain ⟨o, s1⟩ := y
    cases o with
    | none => rfl
    | some x => cases x <;> rfl
  | cons r rs =>
    rw [Route.registerAll, registerAll_flat rs hr.2 _ mount rest hrest q s, register_flat r hr.1 self mount rest hrest q s,
      Route.allEntries]
    generalize Router.resultInternal rest q self s = y
    obtain ⟨o, s1⟩ := y
    cases o with
    | none => rfl
    | some x =>
      cases x with
      | next => simp only [ask_append]
      | _ => rfl
end

/-- C25: a router built by any registrations, with routers nested to any depth, behaves like the flat list
of all its listeners in order, each guarded by the concatenation of the mount prefixes above it and given
the URI without them. -/
theorem C25_flat (rs : List (Route σ)) (hr : Route.AllUtf8 rs) (q : Request) (hq : utf8Valid q.uri = true) (s : σ) :
    (Route.registerAll [] rs).result q s = Entry.ask q.uri q (Route.allEntries [] rs) s :=
  registerAll_flat rs hr [] [] q.uri hq q s

/-- Two levels of nesting; the sub-router answers `Next` to other URIs and the parent goes on. -/
def exampleRoutes : List (Route (List (Nat × Bytes))) :=
  [.route b!"/a" [.route b!"/b" [.on b!"/c" fun u _ s => (some (.sendResponse (.ofBody b!"c")), (1, u) :: s)],
      .onPrefix b!"/" fun u _ s => (some .next, (2, u) :: s)],
    .onPrefix b!"" fun u _ s => (some .next, (3, u) :: s)]

example : (Route.registerAll [] exampleRoutes).result ⟨b!"/a/b/c", .get, [], []⟩ [] =
    (some (.sendResponse (.ofBody b!"c")), [(1, b!"/c")]) := by decide

example : (Route.registerAll [] exampleRoutes).result ⟨b!"/a/b/d", .get, [], []⟩ [] =
    (some .next, [(3, b!"/a/b/d"), (2, b!"/b/d")]) := by decide

example : Route.AllUtf8 exampleRoutes := by
  simp [exampleRoutes, Route.AllUtf8, Route.Utf8]; decide

/-! ## C26, whole routers -/

mutual
theorem entries_noPanic (r : Route σ) (hr : r.NoPanic) (mount : Bytes) : ∀ e ∈ r.entries mount, ∀ u q s, (e.listener u q s).1 ≠ none := by
  cases r with
  | onPrefix u l => intro e he; simp only [Route.entries, List.mem_singleton] at he; subst he; exact hr
  | on u l => intro e he; simp only [Route.entries, List.mem_singleton] at he; subst he; exact hr
  | route u sub => rw [Route.entries]; exact allEntries_noPanic sub hr (mount ++ u)
theorem allEntries_noPanic (rs : List (Route σ)) (hr : Route.AllNoPanic rs) (mount : Bytes) :
    ∀ e ∈ Route.allEntries mount rs, ∀ u q s, (e.listener u q s).1 ≠ none := by
  cases rs with
  | nil => intro e he; simp [Route.allEntries] at he
  | cons r rs =>
    intro e he
    rw [Route.allEntries, List.mem_append] at he
    rcases he with he | he
    · exact entries_noPanic r hr.1 mount e he
    · exact allEntries_noPanic rs hr.2 mount e he
end

theorem routed_noPanic {q : Request} (hu : utf8Valid q.uri = true) (rs : List (Route σ)) (hr : Route.AllUtf8 rs) (hn : Route.AllNoPanic rs) (s : σ) :
    ((Route.registerAll [] rs).result q s).1 ≠ none := by
  rw [C25_flat rs hr q hu s]
  have := allEntries_noPanic rs hn []
  generalize Route.allEntries [] rs = es at this
  induction es generalizing s with
  | nil => simp [Entry.ask]
  | cons e es ih =>
    simp only [Entry.ask]
    split
    · have h1 := this e (by simp) (q.uri.drop e.mount.length) q s
      generalize e.listener _ q s = y at h1
      obtain ⟨o, s1⟩ := y
      cases o with
      | none => exact absurd rfl h1
      | some x =>
        cases x with
        | next => exact ih s1 fun e he => this e (by simp [he])
        | _ => simp
    · exact ih s fun e he => this e (by simp [he])

/-- C26: routing an accepted request never panics unless a listener does, for routers nested to any
depth. The parser guarantees that the URI is text. -/
theorem C26_routing_no_panic {prof : Profile} {r r' : Rd} {q : Request} (hl : r.lims = [])
    (h : Calls (RequestParser.parse prof) .new r (.done q) r') (rs : List (Route σ)) (hr : Route.AllUtf8 rs)
    (hn : Route.AllNoPanic rs) (s : σ) :
    utf8Valid q.uri = true ∧ ((Route.registerAll [] rs).result q s).1 ≠ none := by
  have hu : utf8Valid q.uri = true := by
    obtain ⟨ps, line, fs, f, bw, -, -, ⟨v, x, -, -, -, e⟩, h5, -⟩ := requestCalls_done h hl
    have := h5.lineOk.utf8
    rw [e, show q.method.text ++ [SP] ++ q.uri ++ [SP] ++ v ++ x = q.method.text ++ SP :: (q.uri ++ SP :: (v ++ x)) by simp,
      utf8_mid_ascii (by decide), utf8_mid_ascii (by decide)] at this
    simp only [Bool.and_eq_true] at this
    exact this.2.1
  refine ⟨hu, ?_⟩
  exact routed_noPanic hu rs hr hn s

end Verif
