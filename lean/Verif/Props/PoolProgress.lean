import Verif.Props.ClientPoolAny

/-!
C84: threads that wait for a connection of a client over streams of any kind (C47).
-/

namespace Verif

variable {T F : Type} [RawIO T] [AnyFactory T F] {prof : Profile} {offer : Nat → Nat}

/-- The same threads and locks over scripted streams. -/
def APool.scripted (n : Nat) (s : APool T F) (log : List Sent) : CPool := ⟨List.replicate n .new, s.locks, s.threads, log⟩

/-- Each step is one of a client over scripted streams, with the same threads and locks. -/
theorem scripted_step {n : Nat} {s s' : APool T F} (hlen : s.conns.length = n) {a : PAct T F} (hs : s.step prof offer a = some s') (log : List Sent) :
    s'.conns.length = n ∧ ∃ a' log', (s.scripted n log).step prof a' = some (s'.scripted n log') ∧ ∀ t as as', PAct.looks t as = looks t as' → PAct.looks t (a :: as) = looks t (a' :: as') := by
  cases a with
  | call t q =>
    simp only [APool.step] at hs
    split at hs
    · rename_i ht
      cases hs
      exact ⟨hlen, .call t q, log, by simp [APool.scripted, CPool.step, ht], fun _ _ _ h => h⟩
    · cases hs
  | look t =>
    simp only [APool.step] at hs
    split at hs
    · rename_i q i ht
      split at hs
      · rename_i hl
        cases hs
        exact ⟨hlen, .look t, log, by simp [APool.scripted, CPool.step, ht, hl], fun _ _ _ h => by simp only [PAct.looks, looks, h]⟩
      · rename_i x hl hx
        cases hs
        refine ⟨hlen, .look t, log, ?_, fun _ _ _ h => by simp only [PAct.looks, looks, h]⟩
        simp only [APool.scripted, CPool.step, ht, hx]
      · rename_i hl
        cases hs
        exact ⟨hlen, .look t, log, by simp [APool.scripted, CPool.step, ht, hl], fun _ _ _ h => by simp only [PAct.looks, looks, h]⟩
    · cases hs
  | finish t env n' f =>
    simp only [APool.step] at hs
    split at hs
    rotate_left
    · cases hs
    rename_i q i ht
    split at hs
    · cases hs
    rename_i c hc
    have hi : i < n := by rw [← hlen]; exact (List.getElem?_eq_some_iff.1 hc).1
    cases hx : (c.turn env n').send prof offer n' f q with
    | mk o z =>
    obtain ⟨c', f'⟩ := z
    rw [hx] at hs
    dsimp only at hs
    split at hs
    · cases hs
    have hset : (List.replicate n ClientConn.new).set i .new = List.replicate n .new := by
      apply List.ext_getElem?
      intro j
      by_cases hij : i = j
      · subst hij
        rw [List.getElem?_set_self (by simpa using hi)]
        simp [hi]
      · rw [List.getElem?_set_ne hij]
    have hnew : (List.replicate n ClientConn.new)[i]? = some .new := by simp [hi]
    have err : ∃ log', (s.scripted n log).step prof (.finish t [.err .other]) = some ⟨List.replicate n .new, s.locks.set i .free, s.threads.set t .idle, log'⟩ :=
      ⟨_, by simp only [APool.scripted, CPool.step, ht, hnew]; rw [show ClientConn.send prof .new [CreateEnd.err .other] q = (.err (.connecting .other), .new, []) from rfl]; dsimp only; rw [hset]⟩
    have pan : ∃ log', (s.scripted n log).step prof (.finish t [.panic]) = some ⟨List.replicate n .new, s.locks.set i .poisoned, s.threads.set t .panicked, log'⟩ :=
      ⟨_, by simp only [APool.scripted, CPool.step, ht, hnew]; rw [show ClientConn.send prof .new [CreateEnd.panic] q = (.panic, .new, []) from rfl]; dsimp only; rw [hset]⟩
    cases o with
    | diverge => cases hs
    | panic =>
      cases hs
      obtain ⟨log', pan⟩ := pan
      exact ⟨by simpa using hlen, _, log', pan, fun _ _ _ h => h⟩
    | _ =>
      cases hs
      obtain ⟨log', err⟩ := err
      exact ⟨by simpa using hlen, _, log', err, fun _ _ _ h => h⟩

theorem scripted_path {n : Nat} {P : APool T F → Prop} {Q : CPool → Prop} (hPQ : ∀ s log, P s → Q (s.scripted n log)) {s s' : APool T F} {as : List (PAct T F)} (h : APool.Path prof offer P s as s') :
    s.conns.length = n → ∀ log, ∃ as' log', CPool.Path prof Q (s.scripted n log) as' (s'.scripted n log') ∧ ∀ t, PAct.looks t as = looks t as' := by
  induction h with
  | nil => exact fun _ log => ⟨[], log, .nil, fun _ => rfl⟩
  | cons hP hs _ ih =>
    intro hlen log
    obtain ⟨hlen', a', log₁, h1, h2⟩ := scripted_step hlen hs log
    obtain ⟨as', log', h3, h4⟩ := ih hlen' log₁
    exact ⟨a' :: as', log', .cons (hPQ _ _ hP) h1 h3, fun t => h2 t _ _ (h4 t)⟩

/-- C84 (partial: while one and the same connection stays free): a call of `send` that looks for a connection looks at most `n + 1` times. -/
theorem C84_scan_partial {n m : Nat} {s s' : APool T F} (hr : APool.Reach prof offer n m s) {as : List (PAct T F)} {t i j : Nat} {q : Request} (ht : s.threads[t]? = some (.scanning q i))
    (h : APool.Path prof offer (fun s => s.locks[j]? = some .free ∧ ∀ i, s.threads[t]? ≠ some (.sending q i)) s as s') : PAct.looks t as ≤ n + 1 := by
  obtain ⟨log, hc⟩ := hr.inv.locks
  obtain ⟨as', log', h1, h2⟩ := scripted_path (n := n) (Q := fun s => s.locks[j]? = some .free ∧ ∀ i, s.threads[t]? ≠ some (.sending q i)) (fun _ _ h => h) h hr.inv.conns log
  rw [h2]
  exact C47_scan_partial hc ht h1

/-- C84: a thread that looks for a connection can always go on looking, and goes on until it has found one. -/
theorem C84_looks_on {n m : Nat} {s : APool T F} (hr : APool.Reach prof offer n m s) {t i : Nat} {q : Request} (ht : s.threads[t]? = some (.scanning q i)) : (∃ s', s.step prof offer (.look t) = some s') ∧
    ∀ a s', s.step prof offer a = some s' → (∃ k, s'.threads[t]? = some (.scanning q k)) ∨ ∃ k < n, s'.threads[t]? = some (.sending q k) := by
  refine ⟨?_, fun a s' hs => ?_⟩
  · simp only [APool.step, ht]
    split <;> exact ⟨_, rfl⟩
  · obtain ⟨log, hc⟩ := hr.inv.locks
    obtain ⟨-, a', log', h1, -⟩ := scripted_step hr.inv.conns hs log
    exact (C47_looks_on hc ht).2 a' _ h1

theorem any_poisoned_iff {n m : Nat} {s : APool T F} (h : APool.Reach prof offer n m s) (i : Nat) : s.locks[i]? = some .poisoned ↔ ∃ e ∈ s.log, e.conn = i ∧ e.result = .panic := by
  induction h with
  | @new s h =>
    unfold APool.new at h
    split at h
    · cases h
    · cases h
      simp only [List.getElem?_replicate, List.not_mem_nil, false_and, exists_false, iff_false]
      split <;> simp
  | @step s s' a hr hs ih =>
    cases a with
    | call t q =>
      simp only [APool.step] at hs
      split at hs <;> cases hs
      exact ih
    | look t =>
      simp only [APool.step] at hs
      split at hs
      · split at hs
        · rename_i q k ht _ hl
          cases hs
          dsimp only
          rw [← ih, List.getElem?_set]
          by_cases hk : k = i
          · subst hk
            rw [if_pos rfl, hl]
            split <;> simp
          · rw [if_neg hk]
        · cases hs; exact ih
        · cases hs; exact ih
      · cases hs
    | finish t env n' f =>
      simp only [APool.step] at hs
      split at hs
      rotate_left
      · cases hs
      rename_i q k ht
      split at hs
      · cases hs
      split at hs
      · cases hs
      obtain ⟨log, hc⟩ := hr.inv.locks
      have hheld : s.locks[k]? = some (.held t) := (hc.inv.held k t).2 ⟨q, ht⟩
      have hli := (List.getElem?_eq_some_iff.1 hheld).1
      -- whatever the end of the call
      have key : ∀ (cs : List (AnyConn (Traced T))) (l : CLock) (th : List CThread) (e : ASent T F), e.conn = k → (l = .poisoned ↔ e.result = .panic) →
          ((s.locks.set k l)[i]? = some .poisoned ↔ ∃ e' ∈ s.log ++ [e], e'.conn = i ∧ e'.result = .panic) := by
        intro cs l th e he hl
        rw [List.getElem?_set]
        by_cases hk : k = i
        · subst hk
          rw [if_pos rfl, if_pos hli]
          rw [hheld] at ih
          simp only [Option.some.injEq, reduceCtorEq, false_iff, not_exists, not_and] at ih ⊢
          rw [hl]
          refine ⟨fun h => ⟨e, by simp, he, h⟩, ?_⟩
          rintro ⟨e', he', h1, h2⟩
          rcases List.mem_append.1 he' with he' | he'
          · exact absurd h2 (ih e' he' h1)
          · rw [List.mem_singleton.1 he'] at h2
            exact h2
        · rw [if_neg hk, ih]
          constructor
          · rintro ⟨e', he', h1⟩
            exact ⟨e', List.mem_append_left _ he', h1⟩
          · rintro ⟨e', he', h1, h2⟩
            rcases List.mem_append.1 he' with he' | he'
            · exact ⟨e', he', h1, h2⟩
            · rw [List.mem_singleton.1 he', he] at h1
              exact absurd h1 hk
      split at hs
      · rename_i hx
        cases hs
        exact key [] .poisoned [] _ rfl (by simp [hx])
      · cases hs
      · rename_i hx _
        cases hs
        exact key [] .free [] _ rfl ⟨nofun, fun h => absurd h hx⟩

theorem step_log {s s' : APool T F} {a : PAct T F} (hs : s.step prof offer a = some s') : ∀ e ∈ s.log, e ∈ s'.log := by
  intro e he
  cases a with
  | call t q =>
    simp only [APool.step] at hs
    split at hs <;> cases hs
    exact he
  | look t =>
    simp only [APool.step] at hs
    split at hs
    · split at hs <;> (cases hs; exact he)
    · cases hs
  | finish t env n' f =>
    simp only [APool.step] at hs
    split at hs
    rotate_left
    · cases hs
    split at hs
    · cases hs
    split at hs
    · cases hs
    split at hs
    · cases hs; exact List.mem_append_left _ he
    · cases hs
    · cases hs; exact List.mem_append_left _ he

/-- C84: a connection can be taken exactly if no call of `send` is using it and none that used it ended in a panic. -/
theorem C84_available {n m : Nat} {s : APool T F} (h : APool.Reach prof offer n m s) {i : Nat} (hi : i < n) :
    s.locks[i]? = some .free ↔ (∀ (t : Nat) (q : Request), s.threads[t]? ≠ some (.sending q i)) ∧ ∀ e ∈ s.log, e.conn = i → e.result ≠ .panic := by
  obtain ⟨log, hc⟩ := h.inv.locks
  have h1 : ∀ t, s.locks[i]? = some (.held t) ↔ ∃ q, s.threads[t]? = some (.sending q i) := hc.inv.held i
  have h2 := any_poisoned_iff h i
  obtain ⟨l, h3⟩ : ∃ l, s.locks[i]? = some l := ⟨_, List.getElem?_eq_getElem (by rw [hc.inv.locks]; exact hi)⟩
  rw [h3] at h1 h2 ⊢
  cases l with
  | free =>
    simp only [Option.some.injEq, reduceCtorEq, false_iff, not_exists, not_and] at h1 h2
    exact ⟨fun _ => ⟨fun t q => h1 t q, h2⟩, fun _ => rfl⟩
  | held t =>
    obtain ⟨q, hq⟩ := (h1 t).1 rfl
    exact ⟨fun h => (by cases h), fun h => absurd hq (h.1 t q)⟩
  | poisoned =>
    obtain ⟨e, he, h4, h5⟩ := h2.1 rfl
    exact ⟨fun h => (by cases h), fun h => absurd h5 (h.2 e he h4)⟩

/-- A thread that finds the first of two connections taken, and takes the second one. -/
example (prof : Profile) : ∃ s : APool TlsStream TlsStreamFactory, APool.Reach prof id 2 3 s ∧ s.threads[2]? = some (.scanning (ask 97) 1) ∧ s.locks[1]? = some .free ∧
    ∃ s', APool.Path prof id (fun s => s.locks[1]? = some .free ∧ ∀ i, s.threads[2]? ≠ some (.sending (ask 97) i)) s [.look 2] s' ∧ s'.threads[2]? = some (.sending (ask 97) 1) := by
  have h0 : APool.Reach prof id 2 3 (_ : APool TlsStream TlsStreamFactory) := .new rfl
  have h1 := h0.step (a := .call 1 (ask 99)) rfl
  have h2 := h1.step (a := .look 1) rfl
  have h3 := h2.step (a := .call 2 (ask 97)) rfl
  have h4 := h3.step (a := .look 2) rfl
  exact ⟨_, h4, rfl, rfl, _, .cons ⟨rfl, fun i h => by cases h⟩ rfl .nil, rfl⟩

/-! ## Waiting without end -/

theorem APool.Path.append {P : APool T F → Prop} {s s₁ s' : APool T F} {as bs : List (PAct T F)} (h : APool.Path prof offer P s as s₁) (h' : APool.Path prof offer P s₁ bs s') : APool.Path prof offer P s (as ++ bs) s' := by
  induction h with
  | nil => exact h'
  | cons hP hs _ ih => exact .cons hP hs (ih h')

theorem anyLooks_append {t : Nat} {as bs : List (PAct T F)} : PAct.looks t (as ++ bs) = PAct.looks t as + PAct.looks t bs := by
  induction as with
  | nil => simp [PAct.looks]
  | cons a as ih => cases a <;> simp [PAct.looks, ih, Nat.add_assoc]

/-- Thread 1 holds connection 0, thread 2 is about to look at connection 1 and thread 0 at connection 0. -/
private def anyRound (log : List (ASent TlsStream TlsStreamFactory)) : APool TlsStream TlsStreamFactory where
  conns := [.new, .new]
  locks := [.held 1, .free]
  threads := [.scanning getRoot 0, .sending getRoot 0, .scanning getRoot 1]
  log := log

private def anyLap : List (PAct TlsStream TlsStreamFactory) :=
  [.look 0, .finish 1 id 20 (toyClient []), .look 2, .look 0, .finish 2 id 20 (toyClient []), .call 1 getRoot, .look 1, .call 2 getRoot, .look 2, .look 0]

private theorem anyLap_path (log : List (ASent TlsStream TlsStreamFactory)) : ∃ log', APool.Path prof id
    (fun s => (∃ j : Nat, s.locks[j]? = some .free) ∧ s.threads[0]? ≠ some .idle ∧ ∀ q i, s.threads[0]? ≠ some (.sending q i)) (anyRound log) anyLap (anyRound log') := by
  refine ⟨_, .cons ⟨⟨1, rfl⟩, ?_⟩ rfl <| .cons ⟨⟨1, rfl⟩, ?_⟩ rfl <| .cons ⟨⟨0, rfl⟩, ?_⟩ rfl <|
    .cons ⟨⟨0, rfl⟩, ?_⟩ rfl <| .cons ⟨⟨0, rfl⟩, ?_⟩ rfl <| .cons ⟨⟨0, rfl⟩, ?_⟩ rfl <| .cons ⟨⟨0, rfl⟩, ?_⟩ rfl <|
    .cons ⟨⟨1, rfl⟩, ?_⟩ rfl <| .cons ⟨⟨1, rfl⟩, ?_⟩ rfl <| .cons ⟨⟨1, rfl⟩, ?_⟩ rfl .nil⟩ <;>
  exact ⟨by rintro ⟨⟩, by rintro _ _ ⟨⟩⟩

/-- As C47_starved_false, for a client made by `new_https`: a thread can look for a connection without end although at every moment one is free. -/
theorem C84_starved_false (prof : Profile) : ∃ s : APool TlsStream TlsStreamFactory, APool.Reach prof id 2 3 s ∧ ∀ k, ∃ as s', k ≤ PAct.looks 0 as ∧ APool.Path prof id
    (fun s => (∃ j : Nat, s.locks[j]? = some .free) ∧ s.threads[0]? ≠ some .idle ∧ ∀ q i, s.threads[0]? ≠ some (.sending q i)) s as s' := by
  refine ⟨anyRound [], ?_, ?_⟩
  · have h0 : APool.Reach prof id 2 3 (_ : APool TlsStream TlsStreamFactory) := .new rfl
    have h1 := h0.step (a := .call 1 getRoot) rfl
    have h2 := h1.step (a := .look 1) rfl
    have h3 := h2.step (a := .call 0 getRoot) rfl
    have h4 := h3.step (a := .call 2 getRoot) rfl
    exact h4.step (a := .look 2) rfl
  · intro k
    suffices h : ∀ k log, ∃ as log', k ≤ PAct.looks 0 as ∧ APool.Path prof id (fun s => (∃ j : Nat, s.locks[j]? = some .free) ∧
        s.threads[0]? ≠ some .idle ∧ ∀ q i, s.threads[0]? ≠ some (.sending q i)) (anyRound log) as (anyRound log') by
      obtain ⟨as, log', h1, h2⟩ := h k []
      exact ⟨as, _, h1, h2⟩
    intro k
    induction k with
    | zero => exact fun log => ⟨[], log, Nat.zero_le _, .nil⟩
    | succ k ih =>
      intro log
      obtain ⟨log', h⟩ := anyLap_path (prof := prof) log
      obtain ⟨as, log'', h1, h2⟩ := ih log'
      refine ⟨anyLap ++ as, log'', ?_, h.append h2⟩
      have : PAct.looks 0 anyLap = 3 := rfl
      rw [anyLooks_append]
      omega

/-- As C47_poisoned_false, for streams of any kind: once a call of `send` has ended in a panic on each connection, every call spins for ever. -/
theorem C84_poisoned_false {n m : Nat} {s s' : APool T F} (hr : APool.Reach prof offer n m s) (hp : ∀ i < n, ∃ e ∈ s.log, e.conn = i ∧ e.result = .panic) {as : List (PAct T F)} {P : APool T F → Prop}
    (h : APool.Path prof offer P s as s') : s'.inFlight = 0 ∧ ∀ (t i : Nat) (q : Request), s.threads[t]? = some (CThread.scanning q i) → ∃ k, s'.threads[t]? = some (CThread.scanning q k) := by
  induction h with
  | @nil s =>
    refine ⟨?_, fun t i q ht => ⟨i, ht⟩⟩
    rw [APool.inFlight, List.countP_eq_zero]
    intro x hx
    obtain ⟨t, ht⟩ := List.mem_iff_getElem?.1 hx
    cases x with
    | sending q i =>
      obtain ⟨log, hc⟩ := hr.inv.locks
      have h1 : s.locks[i]? = some (.held t) := (hc.inv.held i t).2 ⟨q, ht⟩
      have hi : i < n := by rw [← hc.inv.locks]; exact (List.getElem?_eq_some_iff.1 h1).1
      rw [(any_poisoned_iff hr i).2 (hp i hi)] at h1
      cases h1
    | _ => simp
  | @cons s s₁ s' a as _ hs _ ih =>
    have hr₁ := hr.step hs
    have hp₁ : ∀ i < n, ∃ e ∈ s₁.log, e.conn = i ∧ e.result = .panic := fun i hi => by
      obtain ⟨e, he, h⟩ := hp i hi
      exact ⟨e, step_log hs e he, h⟩
    obtain ⟨h1, h2⟩ := ih hr₁ hp₁
    refine ⟨h1, fun t i q ht => ?_⟩
    rcases (C84_looks_on hr ht).2 a s₁ hs with ⟨k, hk⟩ | ⟨k, hk, hk'⟩
    · exact h2 t k q hk
    · obtain ⟨log, hc⟩ := hr₁.inv.locks
      have h1 : s₁.locks[k]? = some (.held t) := (hc.inv.held k t).2 ⟨q, hk'⟩
      rw [(any_poisoned_iff hr₁ k).2 (hp₁ k hk)] at h1
      cases h1

/-- Such a state: a client with one connection and a read timeout of zero. -/
example (prof : Profile) : ∃ s : APool TlsStream TlsStreamFactory, APool.Reach prof id 1 2 s ∧ (∀ i < 1, ∃ e ∈ s.log, e.conn = i ∧ e.result = .panic) ∧ s.threads[1]? = some (.scanning getRoot 0) := by
  have h0 : APool.Reach prof id 1 2 (_ : APool TlsStream TlsStreamFactory) := .new rfl
  have h1 := h0.step (a := .call 0 getRoot) rfl
  have h2 := h1.step (a := .look 0) rfl
  have h3 := h2.step (a := .finish 0 id 20 ⟨.new ⟨b!"example.com:443", 0, 1⟩ [.ok (toyPeer [])], b!"example.com"⟩) rfl
  have h4 := h3.step (a := .call 1 getRoot) rfl
  exact ⟨_, h4, fun i hi => ⟨_, List.mem_singleton.2 rfl, by show 0 = i; omega, rfl⟩, rfl⟩

end Verif
