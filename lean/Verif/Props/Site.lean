import Verif.Spec.Site
import Verif.Proofs.NetUri
import Verif.Props.FileServer
import Verif.Props.Routing
import Verif.Props.WholeSystem

/-!
C61: the example program, and C26 for the whole server.
-/

namespace Verif

variable {σ : Type} {prof : Profile} {rt : Router σ} {n : Nat} {s₀ : σ}

/-- C26, for the whole server: whatever clients send, in whatever pieces, on every schedule, the URI of every request about which the router is asked is text.
So routing does not panic: if no listener panics, no question about a request panics. -/
theorem C26_server {s : Net σ} (h : Net.Reach prof rt n s₀ s) {a : Nat × Request × σ} (ha : a ∈ s.asks) :
    utf8Valid a.2.1.uri = true ∧ ∀ rs : List (Route σ), Route.AllUtf8 rs → Route.AllNoPanic rs → rt = Route.registerAll [] rs →
      (rt.result a.2.1 a.2.2).1 ≠ none := by
  refine ⟨h.urisOk.asks a ha, ?_⟩
  rintro rs h1 h2 rfl
  exact routed_noPanic (h.urisOk.asks a ha) rs h1 h2 _

/-- Files do not change, and what is in the caches is right. -/
def FileState.Good (root : Node) (st : FileState) : Prop :=
  st.root = root ∧ ∀ i p r, (st.caches i).get p = some r → r = fileResponse root p

theorem fileListener_good {root : Node} {st : FileState} (h : st.Good root) (i : Nat) (directory uri : Bytes) (q : Request) :
    (fileListener i directory uri q st).1 = some (.sendResponseArc (fileResponse root (filePath directory uri))) ∧
      (fileListener i directory uri q st).2.Good root := by
  unfold fileListener
  dsimp only
  cases hg : (st.caches i).get (filePath directory uri) with
  | some r => exact ⟨by rw [h.2 _ _ _ hg], h⟩
  | none =>
    refine ⟨by rw [h.1], h.1, ?_⟩
    intro j p r hp
    dsimp only at hp
    split at hp
    · rw [cache_insert_get] at hp
      split at hp
      · next he => cases hp; rw [← he, h.1]
      · exact h.2 _ _ _ hp
    · exact h.2 _ _ _ hp

theorem fileResponse_answer {root : Node} {directory uri : Bytes} : FileAnswer root (directory ++ uri) (fileResponse root (filePath directory uri)) := by
  refine ⟨filePath directory uri, ?_, ?_⟩
  · unfold filePath Meant
    dsimp only
    by_cases he : endsWith (directory ++ uri) b!"/" = true
    · rw [if_pos he]
      exact .inl ⟨by simpa [endsWith] using he, rfl⟩
    · rw [if_neg he]
      exact .inr ⟨by simpa [endsWith] using he, rfl⟩
  · unfold fileResponse
    split
    · next contents hc => exact .inl ⟨_, hc, getContentType_spec _, rfl, rfl⟩
    · next hc => exact .inr ⟨hc, rfl⟩

theorem fileRouter_result {root : Node} {st : FileState} (h : st.Good root) (i : Nat) (directory u : Bytes) (q : Request) :
    Router.resultInternal u q (fileRouter i directory) st = fileListener i directory u q st := by
  have h1 := (fileListener_good h i directory u q).1
  simp only [fileRouter, Router.onPrefix, List.nil_append, Router.resultInternal, show startsWith u b!"" = true by cases u <;> rfl, if_true]
  generalize fileListener i directory u q st = x at h1
  obtain ⟨a, s⟩ := x
  dsimp only at h1
  rw [h1]

/-- What the router of the program answers. -/
theorem mainRouter_result {root : Node} {st : FileState} (h : st.Good root) {q : Request} (hu : utf8Valid q.uri = true) :
    (mainRouter.result q st).2.Good root ∧
      ((∃ r, mainRouter.Says (q, st) r ∧ SiteAnswer root q.uri r) ∨ ¬ b!"/" <+: q.uri ∧ (mainRouter.result q st).1 = some .next) := by
  unfold Router.Says
  by_cases h1 : b!"/secret/message/path" = q.uri
  · have e : mainRouter.result q st = (some (.sendResponse ⟨.ok, [(Header.contentLength, [b!"29"])], b!"You found the secret message!"⟩), st) := by
      simp only [mainRouter, Router.result, Router.on, Router.route, Router.onPrefix, List.nil_append, List.append_nil, List.cons_append, Router.resultInternal,
        show startsWith q.uri b!"" = true by cases q.uri <;> rfl, if_true, if_pos h1]
      rfl
    rw [e]
    refine ⟨h, .inl ⟨_, .inl rfl, ?_⟩⟩
    rw [← h1]
    exact .secret
  by_cases h2 : b!"/my/middleton/website/" <+: q.uri
  · obtain ⟨rest, h3, h4, -⟩ := C26_strip hu (by decide) h2
    have h5 := fileListener_good h 0 b!"/Users/Ben/Code/middletonSite/" rest q
    have e : mainRouter.result q st = fileListener 0 b!"/Users/Ben/Code/middletonSite/" rest q st := by
      simp only [mainRouter, Router.result, Router.on, Router.route, Router.onPrefix, List.nil_append, List.append_nil, List.cons_append, Router.resultInternal,
        show startsWith q.uri b!"" = true by cases q.uri <;> rfl, if_true, if_neg h1, startsWith_iff.2 h2, h4, fileRouter_result h]
      generalize fileListener 0 b!"/Users/Ben/Code/middletonSite/" rest q st = x at h5
      obtain ⟨a, s⟩ := x
      dsimp only at h5
      rw [h5.1]
    rw [e]
    refine ⟨h5.2, .inl ⟨_, .inr h5.1, ?_⟩⟩
    rw [h3]
    exact .site fileResponse_answer
  by_cases h3 : b!"/" <+: q.uri
  · obtain ⟨rest, h4, h5, -⟩ := C26_strip hu (by decide) h3
    have h6 := fileListener_good h 1 b!"/Users/Ben/Code/ReactTetris/tetris-app/build/" rest q
    have e : mainRouter.result q st = fileListener 1 b!"/Users/Ben/Code/ReactTetris/tetris-app/build/" rest q st := by
      simp only [mainRouter, Router.result, Router.on, Router.route, Router.onPrefix, List.nil_append, List.append_nil, List.cons_append, Router.resultInternal,
        show startsWith q.uri b!"" = true by cases q.uri <;> rfl, if_true, if_neg h1, mt startsWith_iff.1 h2, Bool.false_eq_true, if_false, startsWith_iff.2 h3, h5, fileRouter_result h]
      generalize fileListener 1 b!"/Users/Ben/Code/ReactTetris/tetris-app/build/" rest q st = x at h6
      obtain ⟨a, s⟩ := x
      dsimp only at h6
      rw [h6.1]
    rw [e]
    refine ⟨h6.2, .inl ⟨_, .inr h6.1, ?_⟩⟩
    rw [h4]
    exact .app (by rw [← h4]; exact Ne.symm h1) (by rw [← h4]; exact h2) fileResponse_answer
  · have e : mainRouter.result q st = (some .next, st) := by
      simp only [mainRouter, Router.result, Router.on, Router.route, Router.onPrefix, List.nil_append, List.append_nil, List.cons_append, Router.resultInternal,
        show startsWith q.uri b!"" = true by cases q.uri <;> rfl, if_true, if_neg h1, mt startsWith_iff.1 h2, mt startsWith_iff.1 h3, Bool.false_eq_true, if_false]
    rw [e]
    exact ⟨h, .inr ⟨h3, rfl⟩⟩

theorem asked_good {root : Node} {as : List (Nat × Request × FileState)} {st₀ st : FileState} (h : Asked mainRouter st₀ as st) (h₀ : st₀.Good root)
    (hu : ∀ a ∈ as, utf8Valid a.2.1.uri = true) : st.Good root ∧ ∀ a ∈ as, a.2.2.Good root := by
  induction h with
  | nil => exact ⟨h₀, by simp⟩
  | @snoc s as k q _ ih =>
    obtain ⟨h1, h2⟩ := ih fun a ha => hu a (by simp [ha])
    refine ⟨(mainRouter_result h1 (hu (k, q, s) (by simp))).1, ?_⟩
    intro a ha
    rcases List.mem_append.1 ha with ha | ha
    · exact h2 a ha
    · cases List.mem_singleton.1 ha; exact h1

/-- C61: whatever the clients of the example program send, in whatever pieces and on every schedule, as long as the files do not change: every request about which
the router is asked, on whatever connection, is answered as `SiteAnswer` says, cached or not; only a URI that does not begin with a slash is not routed (404). -/
theorem C61_site {root : Node} {s : Net FileState} (h : Net.Reach prof mainRouter n ⟨root, fun _ => []⟩ s) {a : Nat × Request × FileState} (ha : a ∈ s.asks) :
    (∃ r, mainRouter.Says a.2 r ∧ SiteAnswer root a.2.1.uri r) ∨ ¬ b!"/" <+: a.2.1.uri ∧ (mainRouter.result a.2.1 a.2.2).1 = some .next := by
  have h1 := asked_good (root := root) (C43_asks h).1 ⟨rfl, fun i p r hp => by cases hp⟩ h.urisOk.asks
  exact (mainRouter_result (h1.2 a ha) (h.urisOk.asks a ha)).2

/-- C61: so, if the program is built without overflow checks, no worker of it ever ends. -/
theorem C61_alive {root : Node} {s : Net FileState} (hprof : prof.overflowChecks = false) (h : Net.Reach prof mainRouter n ⟨root, fun _ => []⟩ s) :
    s.pool.crashed = [] := by
  refine List.eq_nil_iff_forall_not_mem.2 fun j hj => ?_
  obtain ⟨k, a, -, h1 | ⟨q, st, h1, h2⟩⟩ := C55_blame_partial h hj
  · rw [hprof] at h1; cases h1
  · rcases C61_site h h1 with ⟨r, h3 | h3, -⟩ | ⟨-, h3⟩ <;> (dsimp only at h3; rw [h2] at h3; cases h3)

/-- C61: several workers in the listener of a file router at the same time give the same answers, if the files do not change. -/
theorem C61_workers {directory uri : Bytes} {root : Node} {s : FileServer} {r : Response} (h : FileServer.Reach directory root s) (hr : ∀ x ∈ s.roots, x = root)
    (hl : (uri, r) ∈ s.log) : FileAnswer root (directory ++ uri) r := by
  obtain ⟨root', h1, rfl⟩ := h.past.log uri r hl
  rw [hr root' h1]
  exact fileResponse_answer

/-- The content types there are. -/
theorem TypeOf.cases {path t : Bytes} (h : TypeOf path t) :
    t ∈ [b!"image/x-icon", b!"application/javascript", b!"image/svg+xml", b!"text/html", b!"text/css", b!"text/plain"] := by
  rcases h with ⟨e, -, h⟩ | ⟨-, rfl⟩
  · have : ∀ x ∈ knownTypes, x.2 ∈ [b!"image/x-icon", b!"application/javascript", b!"image/svg+xml", b!"text/html", b!"text/css", b!"text/plain"] := by decide
    exact this _ h
  · decide

/-- A response that the program gives can be sent, and has parts that are not too long. -/
theorem file_sendable {body t : Bytes} (hb : 2 * body.length ≤ 3 * 1024 * 1024)
    (ht : t ∈ [b!"image/x-icon", b!"application/javascript", b!"image/svg+xml", b!"text/html", b!"text/css", b!"text/plain"]) :
    (⟨⟨200, b!"OK"⟩, [(Header.contentLength, [natDec body.length]), (Header.contentType, [t])], body⟩ : Response).Sendable := by
  have hl : (natDec body.length).length ≤ 20 := Nat.le_trans (natDec_length _ 7 (by omega)) (by decide)
  have htl : t.length ≤ 22 := by
    have : ∀ t ∈ [b!"image/x-icon", b!"application/javascript", b!"image/svg+xml", b!"text/html", b!"text/css", b!"text/plain"], t.length ≤ 22 := by decide
    exact this t ht
  refine ⟨show (⟨200, b!"OK"⟩ : Status) ∈ statusTable by decide, ⟨show [Header.contentLength, Header.contentType].Nodup by decide, ?_, by simp, ?_, ?_⟩, _, ⟨[], by simp⟩, .inl (natDec_numeral _), hb⟩
  · intro e he
    simp only [List.mem_cons, List.not_mem_nil, or_false] at he
    rcases he with rfl | rfl
    · exact ⟨b!"Content-Length", show Header.contentLength = _ by decide⟩
    · exact ⟨b!"Content-Type", show Header.contentType = _ by decide⟩
  · intro e he u hu
    simp only [List.mem_cons, List.not_mem_nil, or_false] at he
    rcases he with rfl | rfl
    · simp only [List.mem_singleton] at hu
      subst hu
      exact digits_line (natDec_numeral _) hl
    · simp only [List.mem_singleton] at hu
      subst hu
      simp only [List.mem_cons, List.not_mem_nil, or_false] at ht
      rcases ht with rfl | rfl | rfl | rfl | rfl | rfl <;>
        exact ⟨⟨by decide, by decide, by decide⟩, occurs_ascii (s := Header.contentType.asStr) (by decide)⟩
  · simp only [List.flatMap_cons, List.flatMap_nil, List.append_nil, List.length_append,
      show Header.contentLength.asStr.length = 14 from rfl, show Header.contentType.asStr.length = 12 from rfl]
    simp; omega

theorem site_fits {root : Node} {N : Nat} {uri : Bytes} {r : Response} (h : SiteAnswer root uri r) (hN : 29 ≤ N)
    (hf : ∀ path contents, root.readFile path = some contents → contents.length ≤ N ∧ 2 * contents.length ≤ 3 * 1024 * 1024) : r.Sendable ∧ r.PartsLe N := by
  have hN' : 28 ≤ N := by omega
  have small : ∀ {st : Status} {body : Bytes} {v : Bytes}, st ∈ statusTable → Numeral 10 v body.length → v.length ≤ 20 → st.reason.length ≤ 28 → body.length ≤ 29 →
      (natDec st.code).length ≤ 28 → body.length ≤ N → (⟨st, [(Header.contentLength, [v])], body⟩ : Response).Sendable ∧ (⟨st, [(Header.contentLength, [v])], body⟩ : Response).PartsLe N := by
    intro st body v h1 h2 h3 h4 h5 h6 h7
    refine ⟨sized_sendable h1 h2 h3 (by omega), by omega, Nat.le_trans h6 hN', Nat.le_trans h4 hN', ?_, h7⟩
    intro p hp
    simp only [HeaderMap.flat, List.flatMap_cons, List.flatMap_nil, List.append_nil, List.map_cons, List.map_nil, List.mem_singleton] at hp
    subst hp
    exact ⟨Nat.le_trans (show Header.contentLength.asStr.length ≤ 28 by decide) hN', by dsimp only; omega⟩
  have file : ∀ {p : Bytes}, FileAnswer root p r → r.Sendable ∧ r.PartsLe N := by
    rintro p ⟨path, -, ⟨t, h1, h2, h3, h4⟩ | ⟨-, rfl⟩⟩
    · obtain ⟨hb, hb2⟩ := hf _ _ h1
      have ht := h2.cases
      obtain ⟨st, hs, body⟩ := r
      dsimp only at h3 h4 hb hb2
      subst h3; subst h4
      refine ⟨file_sendable hb2 ht, by omega, Nat.le_trans (show (natDec 200).length ≤ 28 by decide +kernel) hN', Nat.le_trans (show (b!"OK").length ≤ 28 by decide) hN', ?_, hb⟩
      intro p hp
      simp only [HeaderMap.flat, List.flatMap_cons, List.flatMap_nil, List.append_nil, List.map_cons, List.map_nil, List.cons_append, List.nil_append,
        List.mem_cons, List.not_mem_nil, or_false] at hp
      rcases hp with rfl | rfl
      · refine ⟨Nat.le_trans (show Header.contentLength.asStr.length ≤ 28 by decide) hN', Nat.le_trans (natDec_length _ 7 (by omega)) (by omega)⟩
      · refine ⟨Nat.le_trans (show Header.contentType.asStr.length ≤ 28 by decide) hN', Nat.le_trans ?_ hN'⟩
        have : ∀ t ∈ [b!"image/x-icon", b!"application/javascript", b!"image/svg+xml", b!"text/html", b!"text/css", b!"text/plain"], t.length ≤ 28 := by decide
        exact this t ht
    · exact small (by decide) (natDec_numeral 0) (by decide) (by decide) (by decide) (by decide +kernel) (Nat.zero_le _)
  cases h with
  | secret => exact small (by decide) (natDec_numeral 29) (by decide) (by decide) (by decide) (by decide +kernel) hN
  | site h => exact file h
  | app _ _ h => exact file h

/-- C61 (partial: as `C60_end_to_end_partial`; files of at most one and a half megabytes, and URIs that begin with a slash): a client of the library that has called
`send` any number of times got, on every stream that is joined to the example program, the secret message or the files that its requests asked for. -/
theorem C61_client_partial {F : Type} [StreamFactory F] {profC : Profile} {c' : ClientConn} {f f' : F} {es : List (Request × Response)}
    (h : History profC .new f es c' f') (hq : ∀ st ∈ c'.all, ∀ q ∈ st.asked, q.Sendable ∧ b!"/" <+: q.uri) :
    ∃ logs : List (List (Request × Response)), logs.length = c'.all.length ∧ es = logs.flatten ∧ ∀ p ∈ c'.all.zip logs,
      ∀ {prof : Profile} {n N : Nat} {root : Node} {s : Net FileState} {k : Nat} {c : NConn FileState}, Net.Reach prof mainRouter n ⟨root, fun _ => []⟩ s →
        s.conns[k]? = some c → p.1.Joins c → 29 ≤ N → (∀ evs ∈ c.wakes, Tidy N 4096 evs) →
        (∀ path contents, root.readFile path = some contents → contents.length ≤ N ∧ 2 * contents.length ≤ 3 * 1024 * 1024) →
        ∀ e ∈ p.2, SiteAnswer root e.1.uri e.2 := by
  obtain ⟨logs, l1, l2, l3⟩ := C60_end_to_end_partial h fun st hst q hm => (hq st hst q hm).1
  refine ⟨logs, l1, l2, ?_⟩
  intro p hp prof n N root s k c h1 h2 h3 hN hw hf
  have hask : ∀ a ∈ asksOn k s.asks, (∃ r, mainRouter.Says a r ∧ SiteAnswer root a.1.uri r) ∨ ¬ b!"/" <+: a.1.uri ∧ (mainRouter.result a.1 a.2).1 = some .next := by
    intro a ha
    obtain ⟨a', ha', rfl⟩ := List.mem_map.1 ha
    exact C61_site h1 (List.mem_filter.1 ha').1
  have huniq : ∀ a ∈ asksOn k s.asks, ∀ r, mainRouter.Says a r → SiteAnswer root a.1.uri r := by
    intro a ha r hr
    rcases hask a ha with ⟨r', i1, i2⟩ | ⟨-, i1⟩
    · rcases hr with hr | hr <;> rcases i1 with i1 | i1 <;> (rw [hr] at i1; cases i1) <;> exact i2
    · rcases hr with hr | hr <;> (rw [hr] at i1; cases i1)
  have := l3 p hp h1 h2 h3 (by omega) hw (fun a ha r hr => (site_fits (huniq a ha r hr) hN hf).2)
    (fun a ha hm => by
      rcases hask a ha with ⟨r, i1, i2⟩ | ⟨i1, -⟩
      · exact ⟨r, i1, (site_fits i2 hN hf).1⟩
      · exact absurd (hq p.1 (List.of_mem_zip hp).1 _ hm).2 i1)
  generalize asksOn k s.asks = as at this huniq
  generalize p.2 = es at this
  induction this with
  | nil => simp
  | @cons q st r as es hr _ ih =>
    intro e he
    rcases List.mem_cons.1 he with rfl | he
    · exact huniq (q, st) List.mem_cons_self r hr
    · exact ih (fun a ha => huniq a (List.mem_cons_of_mem _ ha)) e he

/-! ## The conditions can be met -/

/-- What holds of all files. -/
inductive Node.AllFiles (P : Bytes → Prop) : Node → Prop
  | file {contents : Bytes} : P contents → Node.AllFiles P (.file contents)
  | dir {es : List (Bytes × Node)} : (∀ e ∈ es, Node.AllFiles P e.2) → Node.AllFiles P (.dir es)

theorem walk_all {P : Bytes → Prop} {cs : List Bytes} {ns ns' : List Node} (hn : ∀ n ∈ ns, n.AllFiles P) (h : Node.walk ns cs = some ns') :
    ∀ n ∈ ns', n.AllFiles P := by
  induction cs generalizing ns with
  | nil =>
    have : ns = ns' := by cases ns <;> simpa [Node.walk] using h
    subst this; exact hn
  | cons c cs ih =>
    cases ns with
    | nil => simp [Node.walk] at h
    | cons here up =>
      rw [Node.walk.eq_def] at h
      dsimp only at h
      split at h
      · split at h
        · exact ih hn h
        · split at h
          · cases up with
            | nil => exact ih hn h
            | cons p up => exact ih (fun n hm => hn n (by simp [hm])) h
          · cases hc : here.child c with
            | none => rw [hc] at h; cases h
            | some m =>
              rw [hc] at h
              refine ih (fun n hm => ?_) h
              rcases List.mem_cons.1 hm with rfl | hm
              · have := hn here (by simp)
                cases this with
                | file => cases hc
                | dir hd =>
                  simp only [Node.child, Option.map_eq_some_iff] at hc
                  obtain ⟨e, h1, rfl⟩ := hc
                  exact hd e (List.mem_of_find?_eq_some h1)
              · exact hn n hm
      · cases h

theorem readFile_all {P : Bytes → Prop} {root : Node} (hr : root.AllFiles P) {path contents : Bytes} (h : root.readFile path = some contents) : P contents := by
  unfold Node.readFile at h
  split at h
  · cases h
  · split at h
    · next hw =>
      cases h
      have := walk_all (by simpa using hr) hw _ List.mem_cons_self
      cases this with
      | file h => exact h
    · cases h

theorem machine_small : machine.AllFiles fun c => c.length ≤ 29 := by
  unfold machine
  repeat' first
    | exact .file (by decide)
    | (refine .dir ?_; intro e he; simp only [List.mem_cons, List.not_mem_nil, or_false] at he; try rcases he with rfl | rfl; try subst he)

/-- A worker serves one connection, on which two requests arrive in two pieces; the second is answered from the cache. -/
def secretAndIndex : List NAct := [.accept (fun n => n) (fun c n => c + n) (by omega) [],
  .arrive 0 (.data b!"GET /secret/message/path HTTP/1.1\r\n\r\nGET / HTTP/1.1\r\n\r\nGET /"), .poll [0], .dispatch false, .work 0, .work 0, .work 0, .work 0,
  .lock 0 [.accept 10, .accept 1000, .accept 1000, .accept 1000], .go 0, .go 0, .go 0, .arrive 0 (.data b!"index.html HTTP/1.1\r\n\r\n"), .go 0, .go 0, .go 0, .go 0, .go 0, .go 0, .go 0]

/-- The response with the only file of the example. -/
def indexResponse : Response := ⟨⟨200, b!"OK"⟩, [(Header.contentLength, [b!"5"]), (Header.contentType, [b!"text/html"])], b!"hello"⟩

/-- The response with the secret message. -/
def secretResponse : Response := ⟨⟨200, b!"OK"⟩, [(Header.contentLength, [b!"29"])], b!"You found the secret message!"⟩

/-- The requests of the example. -/
def pageRequest (uri : Bytes) : Request := ⟨uri, .get, [], []⟩

/-- What the client is given on its stream. -/
def threePages : RawStream where
  input := [.data (responseBytes secretResponse ++ responseBytes indexResponse), .data (responseBytes indexResponse)]
  output := [.accept 10, .accept 1000, .accept 1000, .accept 1000]

theorem History.more {F : Type} [StreamFactory F] {c c₁ : ClientConn} {f f₁ : F} {es : List (Request × Response)} {q : Request} {r : Response}
    (h : History prof c f es c₁ f₁) (hs : (c₁.send prof f₁ q).1 = .ok r) :
    History prof c f (es ++ [(q, r)]) (c₁.send prof f₁ q).2.1 (c₁.send prof f₁ q).2.2 := .answered h (Prod.ext hs rfl)

example (profC profS : Profile) : ∃ (c : ClientConn) (f : List CreateEnd),
    History profC .new [.ok threePages] ([] ++ [(pageRequest b!"/secret/message/path", secretResponse)] ++ [(pageRequest b!"/", indexResponse)] ++
      [(pageRequest b!"/index.html", indexResponse)]) c f ∧
    (∀ st ∈ c.all, ∀ q ∈ st.asked, q.Sendable ∧ b!"/" <+: q.uri) ∧
    (∀ st ∈ c.all, ∃ (s : Net FileState) (k : Nat) (c : NConn FileState), Net.Reach profS mainRouter 5 ⟨machine, fun _ => []⟩ s ∧ s.conns[k]? = some c ∧ st.Joins c ∧
      ∀ evs ∈ c.wakes, Tidy 29 4096 evs) ∧
    ∀ path contents, machine.readFile path = some contents → contents.length ≤ 29 ∧ 2 * contents.length ≤ 3 * 1024 * 1024 := by
  have h1 : (Net.after profS mainRouter 5 ⟨machine, fun _ => []⟩ secretAndIndex).any (fun s => s.conns[0]?.any fun c =>
      c.arrived == [.data b!"GET /secret/message/path HTTP/1.1\r\n\r\nGET / HTTP/1.1\r\n\r\nGET /", .data b!"index.html HTTP/1.1\r\n\r\n"] &&
      c.wakes == [[.accept 10, .accept 1000, .accept 1000, .accept 1000]] &&
      c.slot.conn.writer.sock.sent == responseBytes secretResponse ++ responseBytes indexResponse ++ responseBytes indexResponse) = true := by
    rcases profS with ⟨_ | _⟩ <;> decide +kernel
  obtain ⟨s, hs, h1⟩ := Option.any_eq_true .. |>.1 h1
  obtain ⟨c, hc, h1⟩ := Option.any_eq_true .. |>.1 h1
  simp only [Bool.and_eq_true, beq_iff_eq] at h1
  obtain ⟨⟨h2, h3⟩, h4⟩ := h1
  have h5 : ∀ x : ClientConn, (x.all.map fun st => (st.asked, st.writer.sock.sent, bytesOf st.given)) =
      [([pageRequest b!"/secret/message/path", pageRequest b!"/", pageRequest b!"/index.html"],
        requestBytes (pageRequest b!"/secret/message/path") ++ requestBytes (pageRequest b!"/") ++ requestBytes (pageRequest b!"/index.html"),
        responseBytes secretResponse ++ responseBytes indexResponse ++ responseBytes indexResponse)] →
      ∀ st ∈ x.all, st.asked = [pageRequest b!"/secret/message/path", pageRequest b!"/", pageRequest b!"/index.html"] ∧
        st.writer.sock.sent = requestBytes (pageRequest b!"/secret/message/path") ++ requestBytes (pageRequest b!"/") ++ requestBytes (pageRequest b!"/index.html") ∧
        bytesOf st.given = responseBytes secretResponse ++ responseBytes indexResponse ++ responseBytes indexResponse := by
    intro x hx st hm
    have := List.mem_map_of_mem (f := fun st : ClientStream => (st.asked, st.writer.sock.sent, bytesOf st.given)) hm
    rw [hx] at this
    simpa using this
  refine ⟨_, _, .more (.more (.more .nil ?_) ?_) ?_, ?_, ?_, ?_⟩
  · rcases profC with ⟨_ | _⟩ <;> decide +kernel
  · rcases profC with ⟨_ | _⟩ <;> decide +kernel
  · rcases profC with ⟨_ | _⟩ <;> decide +kernel
  · intro st hst q hq
    obtain ⟨a1, -, -⟩ := h5 _ (by rcases profC with ⟨_ | _⟩ <;> decide +kernel) st hst
    rw [a1] at hq
    have send : ∀ uri : Bytes, SP ∉ uri → LF ∉ uri → utf8Valid uri = true → uri.length ≤ 400 → (pageRequest uri).Sendable := by
      intro uri u1 u2 u3 u4
      exact ⟨u1, u2, u3, by simp [pageRequest, Method.text]; omega, ⟨by simp [pageRequest, HeaderMap.WF], by simp [pageRequest], by simp [pageRequest], by simp [pageRequest], by simp [pageRequest]⟩,
        .inr ⟨⟨by simp [pageRequest, HeaderMap.First], by simp [pageRequest, HeaderMap.First]⟩, rfl⟩⟩
    simp only [List.mem_cons, List.not_mem_nil, or_false] at hq
    rcases hq with rfl | rfl | rfl <;> exact ⟨send _ (by decide) (by decide) (by decide) (by decide), by decide⟩
  · intro st hst
    obtain ⟨-, a2, a3⟩ := h5 _ (by rcases profC with ⟨_ | _⟩ <;> decide +kernel) st hst
    refine ⟨s, 0, c, Net.reach_of hs, hc, ⟨⟨?_, ?_⟩, ?_⟩, ?_⟩
    · rw [h2]
      refine .safe fun ev he => ?_
      simp only [List.mem_cons, List.not_mem_nil, or_false] at he
      have safe : ∀ b : Bytes, (b.all fun x => decide (x < 128)) = true → SafeCut (b.map .byte) := by
        intro b hb x hx _
        rw [bytesOf_bytes] at hx
        exact utf8_ascii fun y hy => by simpa using List.all_eq_true.1 hb y (hx.mem hy)
      rcases he with rfl | rfl
      · exact ⟨_, rfl, by decide, safe _ (by decide)⟩
      · exact ⟨_, rfl, by decide, safe _ (by decide)⟩
    · rw [h2, a2]; decide +kernel
    · rw [a3, h4]; exact List.prefix_refl _
    · rw [h3]
      intro evs he
      simp only [List.mem_singleton] at he
      subst he
      exact ⟨by decide, .inr (by decide)⟩
  · intro path contents hp
    have := readFile_all machine_small hp
    exact ⟨this, by omega⟩

example : ∃ s, Net.Reach prof mainRouter 5 ⟨machine, fun _ => []⟩ s ∧
    s.asks.map (fun a => a.2.1.uri) = [b!"/secret/message/path", b!"/", b!"/index.html"] := by
  have h1 : (Net.after prof mainRouter 5 ⟨machine, fun _ => []⟩ secretAndIndex).any (fun s =>
      s.asks.map (fun a => a.2.1.uri) == [b!"/secret/message/path", b!"/", b!"/index.html"]) = true := by rcases prof with ⟨_ | _⟩ <;> decide +kernel
  obtain ⟨s, hs, h1⟩ := Option.any_eq_true .. |>.1 h1
  exact ⟨s, Net.reach_of hs, by simpa using h1⟩

end Verif
