import Verif.Spec.FileServer
import Verif.Proofs.Text
import Verif.Props.Net

/-!
C51 and C52: the example file server.
-/

namespace Verif

variable {directory : Bytes} {prof : Profile}

/-! ### Paths -/

theorem split_slash (a b : Bytes) : splitByte 47 (a ++ 47 :: b) = splitByte 47 a ++ splitByte 47 b := by
  induction a with
  | nil =>
    simp only [List.nil_append, splitByte]
    cases h : splitByte 47 b with
    | nil => exact absurd h (splitByte_ne_nil _ _)
    | cons w ws => simp
  | cons c t ih =>
    simp only [List.cons_append, splitByte, ih]
    cases h : splitByte 47 t with
    | nil => exact absurd h (splitByte_ne_nil _ _)
    | cons w ws =>
      simp only [List.cons_append]
      split <;> simp

theorem Components.split {path : Bytes} {cs : List Bytes} (h : Components path cs) : splitByte 47 path = cs := by
  induction h with
  | last h => exact splitByte_last h
  | more h _ ih => rw [split_slash, splitByte_last h, ih]; rfl

theorem components_split (path : Bytes) : Components path (splitByte 47 path) := by
  obtain ⟨k, hk⟩ : ∃ k, path.length ≤ k := ⟨_, Nat.le_refl _⟩
  induction k generalizing path with
  | zero =>
    have : path = [] := List.length_eq_zero_iff.1 (by omega)
    subst this
    exact .last (by simp)
  | succ k ih =>
    by_cases h : (47 : UInt8) ∈ path
    · obtain ⟨w, t, rfl, hw⟩ := split_first h
      rw [split_slash, splitByte_last hw]
      exact .more hw (ih t (by simp at hk; omega))
    · rw [splitByte_last h]
      exact .last h

theorem walk_descend {cs : List Bytes} (hc : b!".." ∉ cs) {d : Node} {up : List Node} {x : Node} {up' : List Node}
    (h : Node.walk (d :: up) cs = some (x :: up')) : d.descend (names cs) = some x := by
  induction cs generalizing d up with
  | nil => simp only [Node.walk, Option.some.injEq, List.cons.injEq] at h; rw [← h.1]; rfl
  | cons c cs ih =>
    simp only [List.mem_cons, not_or] at hc
    rw [Node.walk.eq_def] at h
    simp only at h
    split at h
    · split at h
      · next h1 =>
        have : names (c :: cs) = names cs := by
          unfold names
          rcases h1 with h1 | h1 <;> simp [h1]
        rw [this]
        exact ih hc.2 h
      · next h1 =>
        rw [if_neg (Ne.symm hc.1)] at h
        have hn : names (c :: cs) = c :: names cs := by
          unfold names
          simp only [not_or] at h1
          rw [List.filter_cons_of_pos]
          simp [h1.1, h1.2]
        rw [hn]
        split at h
        · cases h
        · next n hn => simp only [Node.descend, hn, Option.bind_some]; exact ih hc.2 h
    · cases h

theorem descend_append {d : Node} {a b : List Bytes} : d.descend (a ++ b) = (d.descend a).bind fun x => x.descend b := by
  induction a generalizing d with
  | nil => rfl
  | cons c a ih =>
    simp only [List.cons_append, Node.descend]
    cases d.child c with
    | none => rfl
    | some x => exact ih

theorem endsWith_slash {p : Bytes} (h : endsWith p b!"/" = true) : ∃ q, p = q ++ [47] := by
  have : [47] <:+ p := by simpa [endsWith] using h
  obtain ⟨q, h⟩ := this
  exact ⟨q, h.symm⟩

theorem names_append (a b : List Bytes) : names (a ++ b) = names a ++ names b := List.filter_append ..

/-- Where a file that is served is. -/
theorem readFile_plain {root : Node} {base uri : Bytes} {ds us : List Bytes} (hb : PlainPath base ds) (hu : PlainPath uri us) {contents : Bytes}
    (h : root.readFile (filePath (base ++ b!"/") uri) = some contents) :
    ∃ d ns, root.descend ds = some d ∧ d.descend ns = some (.file contents) ∧ (ns = us ∨ ns = us ++ [b!"index.html"]) := by
  obtain ⟨cs, h1, h2, rfl⟩ := hb
  obtain ⟨es, h3, h4, rfl⟩ := hu
  have key : ∀ fs : List Bytes, b!".." ∉ fs → splitByte 47 (filePath (base ++ b!"/") uri) = cs ++ fs →
      ∃ d, root.descend (names cs) = some d ∧ d.descend (names fs) = some (.file contents) := by
    intro fs hf hs
    unfold Node.readFile at h
    split at h
    · cases h
    · rw [hs] at h
      split at h
      · next hw =>
        cases h
        have := walk_descend (by simp only [List.mem_append, not_or]; exact ⟨h2, hf⟩) hw
        rw [names_append, descend_append, Option.bind_eq_some_iff] at this
        exact this
      · cases h
  have happ : base ++ b!"/" ++ uri = base ++ 47 :: uri := by simp
  unfold filePath at key
  simp only [happ] at key
  split at key
  · next he =>
    obtain ⟨q, hq⟩ := endsWith_slash he
    rcases List.eq_nil_or_concat uri with rfl | ⟨u, x, rfl⟩
    · have he : es = [[]] := by rw [← h3.split]; rfl
      subst he
      obtain ⟨d, h5, h6⟩ := key [b!"index.html"] (by decide) (by
        rw [show base ++ [47] ++ b!"index.html" = base ++ 47 :: b!"index.html" by simp, split_slash, h1.split]; rfl)
      exact ⟨d, _, h5, h6, .inr rfl⟩
    · simp only [List.concat_eq_append] at h h3 he hq key ⊢
      have hx : x = 47 := by
        rw [show base ++ 47 :: (u ++ [x]) = (base ++ 47 :: u) ++ [x] by simp] at hq
        have := List.append_inj' hq rfl
        simpa using this.2
      subst hx
      have hes : es = splitByte 47 u ++ [[]] := by rw [← h3.split, split_slash]; rfl
      subst hes
      obtain ⟨d, h5, h6⟩ := key (splitByte 47 u ++ [b!"index.html"]) (by
        simp only [List.mem_append, not_or] at h4 ⊢
        exact ⟨h4.1, by decide⟩) (by
        rw [show base ++ 47 :: (u ++ [47]) ++ b!"index.html" = base ++ 47 :: (u ++ 47 :: b!"index.html") by simp, split_slash, h1.split,
          split_slash]; rfl)
      refine ⟨d, _, h5, h6, .inr ?_⟩
      rw [names_append, names_append, show names [([] : Bytes)] = [] from rfl, List.append_nil]
      rfl
  · obtain ⟨d, h5, h6⟩ := key es h4 (by rw [split_slash, h1.split, h3.split])
    exact ⟨d, _, h5, h6, .inl rfl⟩

/-! ### Content types -/

theorem extension_iff {path e : Bytes} (he : (46 : UInt8) ∉ e) : endsWith path (46 :: e) = true ↔ Extension path e := by
  unfold endsWith Extension
  rw [List.isSuffixOf_iff_suffix]
  exact ⟨fun ⟨s, h⟩ => ⟨he, s, h.symm⟩, fun ⟨_, s, h⟩ => ⟨s, h.symm⟩⟩

theorem Extension.unique {path e e' : Bytes} (h : Extension path e) (h' : Extension path e') : e = e' := by
  obtain ⟨h1, s, rfl⟩ := h
  obtain ⟨h2, s', h3⟩ := h'
  rcases List.append_eq_append_iff.1 h3 with ⟨t, h4, h5⟩ | ⟨t, h4, h5⟩
  · cases t with
    | nil => simpa using h5
    | cons c t =>
      simp only [List.cons_append, List.cons.injEq] at h5
      rw [h5.2] at h1
      simp at h1
  · cases t with
    | nil => simpa using h5.symm
    | cons c t =>
      simp only [List.cons_append, List.cons.injEq] at h5
      rw [h5.2] at h2
      simp at h2

theorem getContentType_spec (path : Bytes) : TypeOf path (getContentType path) := by
  have e1 := extension_iff (path := path) (e := b!"ico") (by decide)
  have e2 := extension_iff (path := path) (e := b!"js") (by decide)
  have e3 := extension_iff (path := path) (e := b!"svg") (by decide)
  have e4 := extension_iff (path := path) (e := b!"html") (by decide)
  have e5 := extension_iff (path := path) (e := b!"css") (by decide)
  unfold getContentType
  split
  · next h => exact .inl ⟨_, e1.1 h, by decide⟩
  split
  · next h => exact .inl ⟨_, e2.1 h, by decide⟩
  split
  · next h => exact .inl ⟨_, e3.1 h, by decide⟩
  split
  · next h => exact .inl ⟨_, e4.1 h, by decide⟩
  split
  · next h => exact .inl ⟨_, e5.1 h, by decide⟩
  · next h1 h2 h3 h4 h5 =>
    refine .inr ⟨?_, rfl⟩
    intro e t he hm
    simp only [knownTypes, List.mem_cons, Prod.mk.injEq, List.not_mem_nil, or_false] at hm
    rcases hm with ⟨rfl, -⟩ | ⟨rfl, -⟩ | ⟨rfl, -⟩ | ⟨rfl, -⟩ | ⟨rfl, -⟩
    · exact h1 (e1.2 he)
    · exact h2 (e2.2 he)
    · exact h3 (e3.2 he)
    · exact h4 (e4.2 he)
    · exact h5 (e5.2 he)

/-- A content type is the only one. -/
theorem TypeOf.unique {path t t' : Bytes} (h : TypeOf path t) (h' : TypeOf path t') : t = t' := by
  rcases h with ⟨e, h1, h2⟩ | ⟨h1, rfl⟩ <;> rcases h' with ⟨e', h1', h2'⟩ | ⟨h1', rfl⟩
  · have := h1.unique h1'
    subst this
    simp only [knownTypes, List.mem_cons, Prod.mk.injEq, List.not_mem_nil, or_false] at h2 h2'
    rcases h2 with ⟨rfl, rfl⟩ | ⟨rfl, rfl⟩ | ⟨rfl, rfl⟩ | ⟨rfl, rfl⟩ | ⟨rfl, rfl⟩ <;>
      exact (by simpa using h2' : t' = _).symm
  · exact absurd h2 (h1' _ _ h1)
  · exact absurd h2' (h1 _ _ h1')
  · rfl

/-! ### Histories -/

theorem cache_insert_get (c : Cache) (p p' : Bytes) (r : Response) : (c.insert p r).get p' = if p = p' then some r else c.get p' := by
  unfold Cache.insert
  simp only [Cache.get]
  split
  · rfl
  · next h =>
    induction c with
    | nil => rfl
    | cons x c ih =>
      obtain ⟨q, r'⟩ := x
      by_cases hq : q = p
      · subst hq
        rw [List.filter_cons_of_neg (by simp), ih]
        simp [Cache.get, h]
      · rw [List.filter_cons_of_pos (by simpa using hq)]
        simp only [Cache.get]
        rw [ih]

/-- The steps of the file router. -/
inductive FStep (directory : Bytes) (s : FileServer) : FAct → FileServer → Prop
  | change {root : Node} : FStep directory s (.change root) { s with root, roots := s.roots ++ [root] }
  | start {w : Nat} {uri : Bytes} : s.phase w = .idle → FStep directory s (.start w uri) (s.setPhase w (.looking uri))
  | hit {w : Nat} {uri : Bytes} {r : Response} : s.phase w = .looking uri → s.cache.get (filePath directory uri) = some r →
      FStep directory s (.work w) { s.setPhase w .idle with log := s.log ++ [(uri, r)] }
  | miss {w : Nat} {uri : Bytes} : s.phase w = .looking uri → s.cache.get (filePath directory uri) = none →
      FStep directory s (.work w) (s.setPhase w (.missed uri))
  | load {w : Nat} {uri : Bytes} : s.phase w = .missed uri →
      FStep directory s (.work w) (s.setPhase w (.loaded uri (fileResponse s.root (filePath directory uri))))
  | store {w : Nat} {uri : Bytes} {r : Response} : s.phase w = .loaded uri r → FStep directory s (.work w)
      { s.setPhase w .idle with cache := s.cache.insert (filePath directory uri) r, log := s.log ++ [(uri, r)] }

theorem fstep_of {s s' : FileServer} {a : FAct} (h : s.step directory a = some s') : FStep directory s a s' := by
  cases a with
  | change root => cases h; exact .change
  | start w uri =>
    simp only [FileServer.step] at h
    split at h
    · next hp => cases h; exact .start hp
    · cases h
  | work w =>
    simp only [FileServer.step] at h
    split at h
    · cases h
    · next hp =>
      split at h
      · next hc => cases h; exact .hit hp hc
      · next hc => cases h; exact .miss hp hc
    · next hp => cases h; exact .load hp
    · next hp => cases h; exact .store hp

theorem setPhase_phase {s : FileServer} {w w' : Nat} {p q : FPhase} (h : (s.setPhase w p).phase w' = q) :
    w' = w ∧ q = p ∨ w' ≠ w ∧ s.phase w' = q := by
  simp only [FileServer.setPhase] at h
  split at h
  · next hw => exact .inl ⟨hw, h.symm⟩
  · next hw => exact .inr ⟨hw, h⟩

/-- Every answer was read from some file system there has been. -/
structure FileServer.Past (directory : Bytes) (s : FileServer) : Prop where
  now : s.root ∈ s.roots
  cache : ∀ p r, s.cache.get p = some r → ∃ root ∈ s.roots, r = fileResponse root p
  loaded : ∀ w uri r, s.phase w = .loaded uri r → ∃ root ∈ s.roots, r = fileResponse root (filePath directory uri)
  log : ∀ uri r, (uri, r) ∈ s.log → ∃ root ∈ s.roots, r = fileResponse root (filePath directory uri)

theorem past_step {s s' : FileServer} {a : FAct} (hi : s.Past directory) (h : FStep directory s a s') : s'.Past directory := by
  cases h with
  | change =>
    have up : ∀ {r : Response} {p : Bytes} {x : Node}, (∃ root ∈ s.roots, r = fileResponse root p) → ∃ root ∈ s.roots ++ [x], r = fileResponse root p :=
      fun ⟨root, h1, h2⟩ => ⟨root, List.mem_append_left _ h1, h2⟩
    exact ⟨by simp, fun p r h => up (hi.cache p r h), fun w u r h => up (hi.loaded w u r h), fun u r h => up (hi.log u r h)⟩
  | start hp =>
    refine ⟨hi.now, hi.cache, ?_, hi.log⟩
    intro w u r h
    rcases setPhase_phase h with ⟨-, h⟩ | ⟨-, h⟩
    · cases h
    · exact hi.loaded w u r h
  | hit hp hc =>
    refine ⟨hi.now, hi.cache, ?_, ?_⟩
    · intro w u r h
      rcases setPhase_phase h with ⟨-, h⟩ | ⟨-, h⟩
      · cases h
      · exact hi.loaded w u r h
    · intro u r h
      simp only [List.mem_append, List.mem_singleton] at h
      rcases h with h | h
      · exact hi.log u r h
      · cases h; exact hi.cache _ _ hc
  | miss hp hc =>
    refine ⟨hi.now, hi.cache, ?_, hi.log⟩
    intro w u r h
    rcases setPhase_phase h with ⟨-, h⟩ | ⟨-, h⟩
    · cases h
    · exact hi.loaded w u r h
  | load hp =>
    refine ⟨hi.now, hi.cache, ?_, hi.log⟩
    intro w u r h
    rcases setPhase_phase h with ⟨-, h⟩ | ⟨-, h⟩
    · cases h; exact ⟨_, hi.now, rfl⟩
    · exact hi.loaded w u r h
  | store hp =>
    refine ⟨hi.now, ?_, ?_, ?_⟩
    · intro p r h
      simp only [cache_insert_get] at h
      split at h
      · next he => cases h; rw [← he]; exact hi.loaded _ _ _ hp
      · exact hi.cache p r h
    · intro w u r h
      rcases setPhase_phase h with ⟨-, h⟩ | ⟨-, h⟩
      · cases h
      · exact hi.loaded w u r h
    · intro u r h
      simp only [List.mem_append, List.mem_singleton] at h
      rcases h with h | h
      · exact hi.log u r h
      · cases h; exact hi.loaded _ _ _ hp

theorem FileServer.Reach.past {root : Node} {s : FileServer} (h : FileServer.Reach directory root s) : s.Past directory := by
  unfold FileServer.Reach at h
  generalize hs : FileServer.new root = s₀ at h
  induction h with
  | refl => subst hs; exact ⟨by simp [FileServer.new], by simp [FileServer.new, Cache.get], by simp [FileServer.new], by simp [FileServer.new]⟩
  | step _ _ h ih => exact past_step ih (fstep_of h)

/-! ### C51 -/

/-- C51 in part (missing: URIs with `..`): with a directory that ends with a slash, what is served for a URI without `..` is a file that is, or
was at some time, under the directory, and indeed the one that the URI names; otherwise the answer is 404. All workers, all histories of requests
and changes of the files. -/
theorem C51_plain_partial {base uri : Bytes} {root : Node} {s : FileServer} {ds us : List Bytes} {r : Response}
    (hb : PlainPath base ds) (hu : PlainPath uri us) (h : FileServer.Reach (base ++ b!"/") root s) (hl : (uri, r) ∈ s.log) :
    r = Response.ofStatus .notFound ∨ ∃ root' ∈ s.roots, ∃ d ns, root'.descend ds = some d ∧ d.descend ns = some (.file r.body) ∧
      (ns = us ∨ ns = us ++ [b!"index.html"]) := by
  obtain ⟨root', h1, rfl⟩ := h.past.log uri r hl
  unfold fileResponse
  split
  · next contents hc => exact .inr ⟨root', h1, readFile_plain hb hu hc⟩
  · exact .inl rfl

/-! ### C52 -/

/-- C52, content types: an answer is 404, or a file with the content type of its path and its length. -/
theorem C52_content_type {uri : Bytes} {root : Node} {s : FileServer} {r : Response} (h : FileServer.Reach directory root s) (hl : (uri, r) ∈ s.log) :
    r = Response.ofStatus .notFound ∨ ∃ t, TypeOf (filePath directory uri) t ∧ r.status = .ok ∧ r.headers.get Header.contentType = some [t] ∧
      r.headers.get Header.contentLength = some [natDec r.body.length] := by
  obtain ⟨root', h1, rfl⟩ := h.past.log uri r hl
  unfold fileResponse
  split
  · next contents hc => exact .inr ⟨_, getContentType_spec _, rfl, rfl, rfl⟩
  · exact .inl rfl

theorem FileServer.Runs.log_prefix {P : FAct → Prop} {s s' : FileServer} (h : FileServer.Runs directory P s s') : s.log <+: s'.log := by
  induction h with
  | refl => exact List.prefix_rfl
  | step _ _ h ih =>
    refine ih.trans ?_
    cases fstep_of h <;> first | exact List.prefix_rfl | exact List.prefix_append ..

/-- C52 in part (missing: while another worker is about to fill in the same answer): once an answer for a path is in the cache and no worker is
filling it in, all later requests for that path get it, whatever requests come and however the files change. -/
theorem C52_stable_partial {s s' : FileServer} {p : Bytes} {r : Response} (hc : s.cache.get p = some r) (hf : ¬ s.Filling directory p)
    (h : FileServer.Runs directory (fun _ => True) s s') :
    s'.cache.get p = some r ∧ ∀ uri r', (uri, r') ∈ s'.log.drop s.log.length → filePath directory uri = p → r' = r := by
  suffices hs : s'.cache.get p = some r ∧ ¬ s'.Filling directory p ∧
      ∀ uri r', (uri, r') ∈ s'.log.drop s.log.length → filePath directory uri = p → r' = r from ⟨hs.1, hs.2.2⟩
  induction h with
  | refl => exact ⟨hc, hf, by simp⟩
  | @step s' s'' a hr _ h ih =>
    obtain ⟨h1, h2, h3⟩ := ih
    have hlen : s.log.length ≤ s'.log.length := hr.log_prefix.length_le
    have fill : ∀ {w : Nat} {q : FPhase}, (∀ u, q = .missed u → filePath directory u ≠ p) → (∀ u r, q = .loaded u r → filePath directory u ≠ p) →
        ¬ (s'.setPhase w q).Filling directory p := by
      rintro w q hm hld ⟨w', u, hu, hp | ⟨r', hp⟩⟩
      · rcases setPhase_phase hp with ⟨-, h⟩ | ⟨-, h⟩
        · exact hm u h.symm hu
        · exact h2 ⟨w', u, hu, .inl h⟩
      · rcases setPhase_phase hp with ⟨-, h⟩ | ⟨-, h⟩
        · exact hld u r' h.symm hu
        · exact h2 ⟨w', u, hu, .inr ⟨r', h⟩⟩
    cases fstep_of h with
    | change => exact ⟨h1, h2, h3⟩
    | start => exact ⟨h1, fill (by simp) (by simp), h3⟩
    | @hit w u r' hp hg =>
      refine ⟨h1, fill (w := w) (q := .idle) (by simp) (by simp), ?_⟩
      intro u' r'' hm hpath
      simp only [List.drop_append_of_le_length hlen, List.mem_append, List.mem_singleton] at hm
      rcases hm with hm | hm
      · exact h3 u' r'' hm hpath
      · cases hm
        rw [hpath, h1] at hg
        cases hg; rfl
    | @miss w u hp hg =>
      refine ⟨h1, fill ?_ (by simp), h3⟩
      intro u' he hpath
      cases he
      rw [hpath, h1] at hg
      cases hg
    | @load w u hp =>
      refine ⟨h1, fill (by simp) ?_, h3⟩
      intro u' r' he hpath
      cases he
      exact h2 ⟨w, _, hpath, .inl hp⟩
    | @store w u r' hp =>
      have hne : filePath directory u ≠ p := fun hpath => h2 ⟨w, u, hpath, .inr ⟨r', hp⟩⟩
      refine ⟨?_, fill (w := w) (q := .idle) (by simp) (by simp), ?_⟩
      · simp only [cache_insert_get, if_neg hne]
        exact h1
      · intro u' r'' hm hpath
        simp only [List.drop_append_of_le_length hlen, List.mem_append, List.mem_singleton] at hm
        rcases hm with hm | hm
        · exact h3 u' r'' hm hpath
        · cases hm
          exact absurd hpath hne

/-- With one worker, what is being filled in is not in the cache, and all answers given are. -/
structure FileServer.Alone (directory : Bytes) (s : FileServer) : Prop where
  others : ∀ w, w ≠ 0 → s.phase w = .idle
  fill : ∀ p, s.Filling directory p → s.cache.get p = none
  log : ∀ uri r, (uri, r) ∈ s.log → s.cache.get (filePath directory uri) = some r

theorem alone_step {s s' : FileServer} {a : FAct} (ha : OneWorker a) (hi : s.Alone directory) (h : FStep directory s a s') : s'.Alone directory := by
  have work : ∀ {w : Nat}, s.phase w ≠ .idle → w = 0 := fun {w} h => Classical.byContradiction fun hw => h (hi.others w hw)
  have oth : ∀ {w : Nat} {q : FPhase}, w = 0 → ∀ w', w' ≠ 0 → (s.setPhase w q).phase w' = .idle := by
    intro w q hw w' hw'
    simp only [FileServer.setPhase]
    rw [if_neg (by omega)]
    exact hi.others w' hw'
  cases h with
  | change => exact ⟨hi.others, hi.fill, hi.log⟩
  | @start w u hp =>
    have hw := ha w u rfl
    refine ⟨oth hw, ?_, hi.log⟩
    rintro p ⟨w', u', hu, hq | ⟨r, hq⟩⟩
    · rcases setPhase_phase hq with ⟨-, h⟩ | ⟨-, h⟩
      · cases h
      · exact hi.fill p ⟨w', u', hu, .inl h⟩
    · rcases setPhase_phase hq with ⟨-, h⟩ | ⟨-, h⟩
      · cases h
      · exact hi.fill p ⟨w', u', hu, .inr ⟨r, h⟩⟩
  | @hit w u r hp hg =>
    have hw := work (w := w) (by rw [hp]; simp)
    refine ⟨oth hw, ?_, ?_⟩
    · rintro p ⟨w', u', hu, hq | ⟨r', hq⟩⟩
      · rcases setPhase_phase hq with ⟨-, h⟩ | ⟨-, h⟩
        · cases h
        · exact hi.fill p ⟨w', u', hu, .inl h⟩
      · rcases setPhase_phase hq with ⟨-, h⟩ | ⟨-, h⟩
        · cases h
        · exact hi.fill p ⟨w', u', hu, .inr ⟨r', h⟩⟩
    · intro u' r' hm
      simp only [List.mem_append, List.mem_singleton] at hm
      rcases hm with hm | hm
      · exact hi.log u' r' hm
      · cases hm; exact hg
  | @miss w u hp hg =>
    have hw := work (w := w) (by rw [hp]; simp)
    refine ⟨oth hw, ?_, hi.log⟩
    rintro p ⟨w', u', hu, hq | ⟨r', hq⟩⟩
    · rcases setPhase_phase hq with ⟨-, h⟩ | ⟨-, h⟩
      · cases h; rw [← hu]; exact hg
      · exact hi.fill p ⟨w', u', hu, .inl h⟩
    · rcases setPhase_phase hq with ⟨-, h⟩ | ⟨-, h⟩
      · cases h
      · exact hi.fill p ⟨w', u', hu, .inr ⟨r', h⟩⟩
  | @load w u hp =>
    have hw := work (w := w) (by rw [hp]; simp)
    refine ⟨oth hw, ?_, hi.log⟩
    rintro p ⟨w', u', hu, hq | ⟨r', hq⟩⟩
    · rcases setPhase_phase hq with ⟨-, h⟩ | ⟨-, h⟩
      · cases h
      · exact hi.fill p ⟨w', u', hu, .inl h⟩
    · rcases setPhase_phase hq with ⟨-, h⟩ | ⟨-, h⟩
      · cases h; exact hi.fill p ⟨w, u, hu, .inl hp⟩
      · exact hi.fill p ⟨w', u', hu, .inr ⟨r', h⟩⟩
  | @store w u r hp =>
    have hw := work (w := w) (by rw [hp]; simp)
    have hnone := hi.fill _ ⟨w, u, rfl, .inr ⟨r, hp⟩⟩
    refine ⟨oth hw, ?_, ?_⟩
    · rintro p ⟨w', u', hu, hq⟩
      exfalso
      by_cases hw' : w' = 0
      · subst hw'; subst hw
        rcases hq with hq | ⟨r', hq⟩ <;> simp [FileServer.setPhase] at hq
      · have := oth (q := .idle) hw w' hw'
        rcases hq with hq | ⟨r', hq⟩
        · exact absurd (this.symm.trans hq) (by simp)
        · exact absurd (this.symm.trans hq) (by simp)
    · intro u' r' hm
      simp only [List.mem_append, List.mem_singleton] at hm
      simp only [cache_insert_get]
      rcases hm with hm | hm
      · have := hi.log u' r' hm
        split
        · next he => rw [← he, hnone] at this; cases this
        · exact this
      · cases hm; simp

theorem runs_alone {root : Node} {s : FileServer} (h : FileServer.Runs directory OneWorker (.new root) s) : s.Alone directory := by
  generalize hs : FileServer.new root = s₀ at h
  induction h with
  | refl =>
    subst hs
    exact ⟨fun _ _ => rfl, fun _ _ => rfl, by simp [FileServer.new]⟩
  | step _ hw h ih => exact alone_step hw ih (fstep_of h)

/-- C52 in part (missing: several workers): if one worker handles all requests, all answers for a path are the same. -/
theorem C52_one_worker_partial {root : Node} {s : FileServer} (h : FileServer.Runs directory OneWorker (.new root) s) {u u' : Bytes} {r r' : Response}
    (hu : (u, r) ∈ s.log) (hu' : (u', r') ∈ s.log) (hp : filePath directory u = filePath directory u') : r = r' := by
  have ha := runs_alone h
  have h1 := ha.log u r hu
  have h2 := ha.log u' r' hu'
  rw [hp, h2] at h1
  exact (Option.some.inj h1).symm

/-- The listener as the router calls it does the steps of one worker, one after the other. -/
theorem C52_listener {i w : Nat} {uri : Bytes} {q : Request} {st : FileState} {s : FileServer} (hr : st.root = s.root) (hc : st.caches i = s.cache)
    (hp : s.phase w = .idle) : ∃ r s', fileListener i directory uri q st =
      (some (.sendResponseArc r), ⟨s'.root, fun j => if j = i then s'.cache else st.caches j⟩) ∧
    FileServer.Runs directory (fun a => a = .start w uri ∨ a = .work w) s s' ∧ s'.log = s.log ++ [(uri, r)] ∧ s'.phase w = .idle := by
  have same : st = ⟨s.root, fun j => if j = i then s.cache else st.caches j⟩ := by
    obtain ⟨root, caches⟩ := st
    dsimp only at hr hc ⊢
    subst hr
    congr 1
    funext j
    split
    · next h => rw [h, hc]
    · rfl
  have h1 : s.step directory (.start w uri) = some (s.setPhase w (.looking uri)) := by simp [FileServer.step, hp]
  have r1 := FileServer.Runs.step (P := fun a => a = .start w uri ∨ a = .work w) .refl (.inl rfl) h1
  unfold fileListener
  dsimp only
  rw [hc]
  cases hg : s.cache.get (filePath directory uri) with
  | some r =>
    have h2 : (s.setPhase w (.looking uri)).step directory (.work w) =
        some { (s.setPhase w (.looking uri)).setPhase w .idle with log := s.log ++ [(uri, r)] } := by
      have : (s.setPhase w (.looking uri)).cache.get (filePath directory uri) = some r := hg
      simp only [FileServer.step, show (s.setPhase w (.looking uri)).phase w = .looking uri by simp [FileServer.setPhase], this]
      rfl
    refine ⟨r, _, ?_, .step r1 (.inr rfl) h2, rfl, by simp [FileServer.setPhase]⟩
    exact congrArg (Prod.mk _) same
  | none =>
    have h2 : (s.setPhase w (.looking uri)).step directory (.work w) = some ((s.setPhase w (.looking uri)).setPhase w (.missed uri)) := by
      have : (s.setPhase w (.looking uri)).cache.get (filePath directory uri) = none := hg
      simp only [FileServer.step, show (s.setPhase w (.looking uri)).phase w = .looking uri by simp [FileServer.setPhase], this]
    have r2 := r1.step (.inr rfl) h2
    generalize hs2 : (s.setPhase w (.looking uri)).setPhase w (.missed uri) = s2 at h2 r2
    have p2 : s2.phase w = .missed uri := by rw [← hs2]; simp [FileServer.setPhase]
    have h3 : s2.step directory (.work w) = some (s2.setPhase w (.loaded uri (fileResponse s2.root (filePath directory uri)))) := by
      simp only [FileServer.step, p2]
    have r3 := r2.step (.inr rfl) h3
    generalize hs3 : s2.setPhase w (.loaded uri (fileResponse s2.root (filePath directory uri))) = s3 at h3 r3
    have p3 : s3.phase w = .loaded uri (fileResponse s2.root (filePath directory uri)) := by rw [← hs3]; simp [FileServer.setPhase]
    have h4 : s3.step directory (.work w) = some { s3.setPhase w .idle with
        cache := s3.cache.insert (filePath directory uri) (fileResponse s2.root (filePath directory uri)),
        log := s3.log ++ [(uri, fileResponse s2.root (filePath directory uri))] } := by
      simp only [FileServer.step, p3]
    have e2 : s2.root = s.root := by rw [← hs2]; rfl
    have e3 : s3.root = s.root := by rw [← hs3]; exact e2
    have e4 : s3.cache = s.cache := by rw [← hs3, ← hs2]; rfl
    have e5 : s3.log = s.log := by rw [← hs3, ← hs2]; rfl
    refine ⟨_, _, ?_, .step r3 (.inr rfl) h4, by rw [e5, e2], by simp [FileServer.setPhase]⟩
    simp only [FileServer.setPhase, e3, e4, e2, hr]

/-! ### Witnesses -/

/-- Several steps. -/
def FileServer.runActs (directory : Bytes) (s : FileServer) : List FAct → Option FileServer
  | [] => some s
  | a :: as => (s.step directory a).bind fun s => s.runActs directory as

theorem runs_of {P : FAct → Prop} {as : List FAct} {s s' : FileServer} (hP : ∀ a ∈ as, P a) (h : s.runActs directory as = some s') :
    FileServer.Runs directory P s s' := by
  suffices hs : ∀ s₀, FileServer.Runs directory P s₀ s → FileServer.Runs directory P s₀ s' from hs s .refl
  induction as generalizing s with
  | nil => cases h; exact fun _ h => h
  | cons a as ih =>
    simp only [FileServer.runActs, Option.bind_eq_some_iff] at h
    obtain ⟨s1, h1, h2⟩ := h
    intro s₀ hr
    exact ih (fun b hb => hP b (List.mem_cons_of_mem _ hb)) h2 s₀ (.step hr (hP a (List.mem_cons_self ..)) h1)

/-- A file system with `/d/x` containing `c`. -/
def oneFile (c : Bytes) : Node := .dir [(b!"d", .dir [(b!"x", .file c)])]

/-- Worker 0 has read the old file when it is replaced; worker 1 reads the new one and caches it; worker 1 is asked again; then worker 0
inserts the old one; worker 1 is asked again. -/
def race : List FAct := [.start 0 b!"x", .work 0, .work 0, .change (oneFile b!"new"), .start 1 b!"x", .work 1, .work 1, .work 1,
  .start 1 b!"x", .work 1, .work 0, .start 1 b!"x", .work 1]

/-- C52 does not hold with several workers: after the new contents of a file are in the cache and were sent, a later request gets the
old contents. -/
theorem C52_race_false : ∃ s₁ s₂, FileServer.Reach b!"/d/" (oneFile b!"old") s₁ ∧ FileServer.Runs b!"/d/" (fun _ => True) s₁ s₂ ∧
    (s₁.cache.get b!"/d/x").map Response.body = some b!"new" ∧ s₁.log.map (fun e => e.2.body) = [b!"new", b!"new"] ∧ s₁.phase 1 = .idle ∧
    s₂.log.map (fun e => (e.1, e.2.body)) = [(b!"x", b!"new"), (b!"x", b!"new"), (b!"x", b!"old"), (b!"x", b!"old")] := by
  have h1 : ((FileServer.new (oneFile b!"old")).runActs b!"/d/" (race.take 10)).any (fun s =>
      (s.cache.get b!"/d/x").map Response.body == some b!"new" && s.log.map (fun e => e.2.body) == [b!"new", b!"new"] && s.phase 1 == .idle &&
      (s.runActs b!"/d/" (race.drop 10)).any fun s => s.log.map (fun e => (e.1, e.2.body)) ==
        [(b!"x", b!"new"), (b!"x", b!"new"), (b!"x", b!"old"), (b!"x", b!"old")]) = true := by decide +kernel
  obtain ⟨s₁, h2, h3⟩ := Option.any_eq_true .. |>.1 h1
  simp only [Bool.and_eq_true, beq_iff_eq] at h3
  obtain ⟨⟨⟨h4, h5⟩, h6⟩, h7⟩ := h3
  obtain ⟨s₂, h8, h9⟩ := Option.any_eq_true .. |>.1 h7
  exact ⟨s₁, s₂, runs_of (fun _ _ => trivial) h2, runs_of (fun _ _ => trivial) h8, h4, h5, h6, by simpa using h9⟩

/-- The conditions of `C51_plain_partial`, `C52_content_type`, `C52_stable_partial` and `C52_one_worker_partial` can be met, by two answers for
the same path. -/
example : PlainPath b!"/d" [b!"d"] ∧ PlainPath b!"x" [b!"x"] ∧ ∃ s r, FileServer.Runs b!"/d/" OneWorker (.new (oneFile b!"old")) s ∧
    s.log = [(b!"x", r), (b!"x", r)] ∧ r.body = b!"old" ∧ s.cache.get b!"/d/x" = some r ∧ ¬ s.Filling b!"/d/" b!"/d/x" := by
  refine ⟨⟨[[], b!"d"], components_split _, by decide, by decide⟩, ⟨[b!"x"], components_split _, by decide, by decide⟩, ?_⟩
  have h1 : ((FileServer.new (oneFile b!"old")).runActs b!"/d/" [.start 0 b!"x", .work 0, .work 0, .work 0, .change (oneFile b!"new"), .start 0 b!"x",
      .work 0]).any (fun s => s.log == [(b!"x", fileResponse (oneFile b!"old") b!"/d/x"), (b!"x", fileResponse (oneFile b!"old") b!"/d/x")] &&
        s.cache.get b!"/d/x" == some (fileResponse (oneFile b!"old") b!"/d/x") && s.phase 0 == .idle) = true := by decide +kernel
  obtain ⟨s, h2, h3⟩ := Option.any_eq_true .. |>.1 h1
  simp only [Bool.and_eq_true, beq_iff_eq] at h3
  have hr := runs_of (P := OneWorker) (by
    intro a ha w u he
    subst he
    simp only [List.mem_cons, reduceCtorEq, FAct.start.injEq, List.not_mem_nil, or_false, false_or] at ha
    rcases ha with ha | ha <;> exact ha.1) h2
  refine ⟨s, _, hr, h3.1.1, rfl, h3.1.2, ?_⟩
  intro hf
  have := (runs_alone hr).fill _ hf
  rw [h3.1.2] at this
  cases this

/-- C56 does not hold: the answer that there is no such file is cached too. When the file is there later, it is not served. -/
theorem C56_created_later_false : ∃ s, FileServer.Runs b!"/d/" OneWorker (.new (.dir [(b!"d", .dir [])])) s ∧
    s.root.readFile b!"/d/x" = some b!"new" ∧ s.cache.get b!"/d/x" = some (Response.ofStatus .notFound) ∧
    ∀ s', FileServer.Runs b!"/d/" (fun _ => True) s s' → ∀ r, (b!"x", r) ∈ s'.log.drop s.log.length → r = Response.ofStatus .notFound := by
  have h1 : ((FileServer.new (.dir [(b!"d", .dir [])])).runActs b!"/d/" [.start 0 b!"x", .work 0, .work 0, .work 0, .change (oneFile b!"new")]).any
      (fun s => s.root.readFile b!"/d/x" == some b!"new" && s.cache.get b!"/d/x" == some (Response.ofStatus .notFound)) = true := by decide +kernel
  obtain ⟨s, h2, h3⟩ := Option.any_eq_true .. |>.1 h1
  simp only [Bool.and_eq_true, beq_iff_eq] at h3
  have hr := runs_of (P := OneWorker) (by
    intro a ha w u he
    subst he
    simp only [List.mem_cons, reduceCtorEq, FAct.start.injEq, List.not_mem_nil, or_false] at ha
    exact ha.1) h2
  refine ⟨s, hr, h3.1, h3.2, ?_⟩
  intro s' hs' r hl
  refine (C52_stable_partial h3.2 ?_ hs').2 b!"x" r hl rfl
  intro hf
  have := (runs_alone hr).fill _ hf
  rw [h3.2] at this
  cases this

/-- C51 does not hold if the directory is given without a slash at its end: a file beside it is served. -/
theorem C51_sibling_false (q : Request) : ∃ root : Node, (fileListener 0 b!"/d" b!"2/x" q ⟨root, fun _ => []⟩).1 = some (.sendResponseArc (fileResponse root b!"/d2/x")) ∧
    root.readFile b!"/d2/x" = some b!"s" ∧ ∀ d, root.descend [b!"d"] = some d → ∀ ns, d.descend ns ≠ some (.file b!"s") := by
  refine ⟨.dir [(b!"d", .dir []), (b!"d2", .dir [(b!"x", .file b!"s")])], rfl, by decide +kernel, ?_⟩
  intro d hd ns
  have : d = .dir [] := (Option.some.inj hd).symm
  subst this
  cases ns with
  | nil => simp [Node.descend]
  | cons n ns => simp [Node.descend, Node.child]

/-- A machine like the one `main` was written for, with a file elsewhere. -/
def machine : Node := .dir [(b!"Users", .dir [(b!"Ben", .dir [(b!"Code", .dir [(b!"ReactTetris", .dir [(b!"tetris-app", .dir [(b!"build", .dir
  [(b!"index.html", .file b!"hello")])])])])])]), (b!"etc", .dir [(b!"passwd", .file b!"root:x:0:0")])]

def traversal : List NAct := [.accept (fun n => n) (fun c n => c + n) (by omega) [],
  .arrive 0 (.data b!"GET /../../../../../../etc/passwd HTTP/1.1\r\n\r\n"),
  .poll [0], .dispatch false, .work 0, .work 0, .work 0, .work 0, .lock 0 [.accept 1000], .go 0, .go 0, .go 0, .go 0]

theorem traversal_facts : (Net.after prof mainRouter 5 ⟨machine, fun _ => []⟩ traversal).any (fun s =>
    s.asks.length == 1 && s.conns[0]?.any fun c =>
      endsWith c.slot.conn.writer.sock.sent b!"\r\n\r\nroot:x:0:0") = true := by
  obtain ⟨_ | _⟩ := prof <;> decide +kernel

/-- C51 does not hold for the program as it is: a client gets a file that is under neither of the directories. -/
theorem C51_traversal_false : ∃ s c, Net.Reach prof mainRouter 5 ⟨machine, fun _ => []⟩ s ∧ s.conns[0]? = some c ∧
    b!"\r\n\r\nroot:x:0:0" <:+ c.slot.conn.writer.sock.sent ∧
    ∀ d, (machine.descend [b!"Users", b!"Ben", b!"Code", b!"middletonSite"] = some d ∨
      machine.descend [b!"Users", b!"Ben", b!"Code", b!"ReactTetris", b!"tetris-app", b!"build"] = some d) →
    ∀ ns, d.descend ns ≠ some (.file b!"root:x:0:0") := by
  obtain ⟨s, h1, h2⟩ := Option.any_eq_true .. |>.1 (traversal_facts (prof := prof))
  simp only [Bool.and_eq_true] at h2
  obtain ⟨c, h3, h4⟩ := Option.any_eq_true .. |>.1 h2.2
  refine ⟨s, c, Net.reach_of h1, h3, by simpa [endsWith] using h4, ?_⟩
  rintro d (hd | hd)
  · cases hd
  · have : d = .dir [(b!"index.html", .file b!"hello")] := (Option.some.inj hd).symm
    subst this
    intro ns
    cases ns with
    | nil => simp [Node.descend]
    | cons n ns =>
      simp only [Node.descend, Node.child, List.find?]
      split
      · cases ns with
        | nil => simp [Node.descend]
        | cons n ns => simp [Node.descend, Node.child]
      · simp

end Verif
