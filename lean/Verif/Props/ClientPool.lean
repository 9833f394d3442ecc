import Verif.Spec.ClientPool
import Verif.Props.Client

/-! C47: threads that share one client. -/

namespace Verif

theorem countP_set_add {α : Type} {p : α → Bool} {l : List α} {i : Nat} {x : α} (h : l[i]? = some x) (y : α) :
    (l.set i y).countP p + (if p x then 1 else 0) = l.countP p + if p y then 1 else 0 := by
  induction l generalizing i with
  | nil => simp at h
  | cons a l ih =>
    cases i with
    | zero =>
      simp only [List.getElem?_cons_zero, Option.some.injEq] at h
      subst h
      simp only [List.set_cons_zero, List.countP_cons]
      omega
    | succ i =>
      simp only [List.getElem?_cons_succ] at h
      have := ih h
      simp only [List.set_cons_succ, List.countP_cons]
      omega

def CLock.isHeld : CLock → Bool
  | .held _ => true
  | _ => false

def CThread.isSending : CThread → Bool
  | .sending _ _ => true
  | _ => false

theorem inFlight_eq (s : CPool) : s.inFlight = s.threads.countP CThread.isSending := by
  unfold CPool.inFlight
  congr 1

theorem replay_append {prof : Profile} {i : Nat} {es es' : List Sent} {c : ClientConn} :
    replay prof i (es ++ es') c = replay prof i es' (replay prof i es c) := by
  induction es generalizing c with
  | nil => rfl
  | cons e es ih => simp only [List.cons_append, replay, ih]

theorem replayed_append {prof : Profile} {i : Nat} {es es' : List Sent} {c : ClientConn} :
    Replayed prof i (es ++ es') c ↔ Replayed prof i es c ∧ Replayed prof i es' (replay prof i es c) := by
  induction es generalizing c with
  | nil => simp [Replayed, replay]
  | cons e es ih =>
    simp only [List.cons_append, Replayed, replay]
    split
    · rw [ih, and_assoc]
    · rw [ih]

/-- The steps. -/
inductive CStep (prof : Profile) (s : CPool) : CPool → Prop
  | call {t : Nat} {q : Request} : s.threads[t]? = some .idle → CStep prof s { s with threads := s.threads.set t (.scanning q 0) }
  | got {t i : Nat} {q : Request} : s.threads[t]? = some (.scanning q i) → s.locks[i]? = some .free →
      CStep prof s { s with locks := s.locks.set i (.held t), threads := s.threads.set t (.sending q i) }
  | busy {t i k : Nat} {q : Request} : s.threads[t]? = some (.scanning q i) → s.locks[i]? ≠ some .free →
      CStep prof s { s with threads := s.threads.set t (.scanning q k) }
  | ended {t i : Nat} {q : Request} {c c' : ClientConn} {f f' : List CreateEnd} {x : SendEnd} {l : CLock} {th : CThread} :
      s.threads[t]? = some (.sending q i) → s.conns[i]? = some c → c.send prof f q = (x, c', f') →
      (l = .poisoned ∧ th = .panicked ∧ x = .panic ∨ l = .free ∧ th = .idle ∧ x ≠ .panic) →
      CStep prof s ⟨s.conns.set i c', s.locks.set i l, s.threads.set t th, s.log ++ [⟨i, t, q, f, x⟩]⟩

theorem cstep {prof : Profile} {s s' : CPool} {a : CAct} (h : s.step prof a = some s') : CStep prof s s' := by
  cases a with
  | call t q =>
    simp only [CPool.step] at h
    split at h
    · next ht => cases h; exact .call ht
    · cases h
  | look t =>
    simp only [CPool.step] at h
    split at h
    · next ht =>
      split at h
      · next hl => cases h; exact .got ht hl
      · next l hne hl => cases h; exact .busy ht (by rw [hl]; rintro h; cases h; exact hne rfl)
      · next hl => cases h; exact .busy ht (by rw [hl]; simp)
    · cases h
  | finish t f =>
    simp only [CPool.step] at h
    split at h
    · next ht =>
      split at h
      · cases h
      · next hc =>
        split at h
        · next hx => cases h; exact .ended ht hc rfl (.inl ⟨rfl, rfl, hx⟩)
        · cases h
        · next hx _ => cases h; exact .ended ht hc rfl (.inr ⟨rfl, rfl, hx⟩)
    · cases h

/-- What always holds. -/
structure CPool.Inv (prof : Profile) (n m : Nat) (s : CPool) : Prop where
  conns : s.conns.length = n
  locks : s.locks.length = n
  threads : s.threads.length = m
  held : ∀ i t : Nat, s.locks[i]? = some (.held t) ↔ ∃ q, s.threads[t]? = some (.sending q i)
  count : s.locks.countP CLock.isHeld = s.threads.countP CThread.isSending
  serial : ∀ i < n, s.conns[i]? = some (replay prof i s.log .new) ∧ Replayed prof i s.log .new

theorem CPool.Reach.inv {prof : Profile} {n m : Nat} {s : CPool} (h : CPool.Reach prof n m s) : s.Inv prof n m := by
  induction h with
  | @new s h =>
    unfold CPool.new at h
    split at h
    · cases h
    · cases h
      refine ⟨by simp, by simp, by simp, ?_, ?_, ?_⟩
      · intro i t
        simp only [List.getElem?_replicate]
        constructor
        · intro h; split at h <;> cases h
        · rintro ⟨q, h⟩; split at h <;> cases h
      · rw [List.countP_replicate, List.countP_replicate]; rfl
      · intro i hi
        exact ⟨by simp [hi, replay], trivial⟩
  | @step s s' a _ hs ih =>
    cases cstep hs with
    | @call t q ht =>
      have hlt := (List.getElem?_eq_some_iff.1 ht).1
      refine ⟨ih.conns, ih.locks, by simpa using ih.threads, ?_, ?_, ih.serial⟩
      · intro i t'
        rw [ih.held i t']
        by_cases htt : t = t'
        · subst htt; rw [ht]; simp [hlt]
        · simp [htt]
      · have := countP_set_add (p := CThread.isSending) ht (.scanning q 0)
        have := ih.count
        simp only [CThread.isSending] at *
        simp at *
        omega
    | @got t i q ht hl =>
      have hlt := (List.getElem?_eq_some_iff.1 ht).1
      have hli := (List.getElem?_eq_some_iff.1 hl).1
      refine ⟨ih.conns, by simpa using ih.locks, by simpa using ih.threads, ?_, ?_, ih.serial⟩
      · intro i' t'
        dsimp only
        rw [List.getElem?_set, List.getElem?_set]
        by_cases htt : t = t'
        · subst htt
          by_cases hii : i = i'
          · subst hii; simp [hli, hlt]
          · simp only [hii, if_false, if_true, hlt, Option.some.injEq, CThread.sending.injEq, and_false, exists_false, iff_false]
            rw [ih.held]
            simp [ht]
        · by_cases hii : i = i'
          · subst hii
            simp only [if_true, hli, Option.some.injEq, CLock.held.injEq, htt, false_iff, if_false]
            rw [← ih.held, hl]
            simp
          · simp only [hii, htt, if_false]
            exact ih.held i' t'
      · have h1 := countP_set_add (p := CThread.isSending) ht (.sending q i)
        have h2 := countP_set_add (p := CLock.isHeld) hl (.held t)
        have := ih.count
        simp only [CThread.isSending, CLock.isHeld] at h1 h2
        simp at h1 h2
        dsimp only
        omega
    | @busy t i k q ht hl =>
      have hlt := (List.getElem?_eq_some_iff.1 ht).1
      refine ⟨ih.conns, ih.locks, by simpa using ih.threads, ?_, ?_, ih.serial⟩
      · intro i' t'
        rw [ih.held i' t']
        by_cases htt : t = t'
        · subst htt; rw [ht]; simp [hlt]
        · simp [htt]
      · have h1 := countP_set_add (p := CThread.isSending) ht (.scanning q k)
        have := ih.count
        simp only [CThread.isSending] at h1
        simp at h1
        dsimp only
        omega
    | @ended t i q c c' f f' x l th ht hc hx hlt' =>
      have hlt := (List.getElem?_eq_some_iff.1 ht).1
      have hheld := (ih.held i t).2 ⟨q, ht⟩
      have hli := (List.getElem?_eq_some_iff.1 hheld).1
      have hl0 : ∀ t', l ≠ .held t' := by rcases hlt' with ⟨rfl, -⟩ | ⟨rfl, -⟩ <;> simp
      have ht0 : ∀ q i, th ≠ .sending q i := by rcases hlt' with ⟨-, rfl, -⟩ | ⟨-, rfl, -⟩ <;> simp
      refine ⟨by simpa using ih.conns, by simpa using ih.locks, by simpa using ih.threads, ?_, ?_, ?_⟩
      · intro i' t'
        dsimp only
        rw [List.getElem?_set, List.getElem?_set]
        by_cases hii : i = i'
        · subst hii
          simp only [if_true, hli, Option.some.injEq, hl0, false_iff]
          by_cases htt : t = t'
          · subst htt; simp [hlt, ht0]
          · simp only [htt, if_false]
            rw [← ih.held, hheld]
            simpa using htt
        · simp only [hii, if_false]
          rw [ih.held]
          by_cases htt : t = t'
          · subst htt
            simp only [ht, if_true, hlt, Option.some.injEq, CThread.sending.injEq, hii, and_false, exists_false, false_iff]
            rintro ⟨q', h⟩
            exact ht0 _ _ h
          · simp only [htt, if_false]
      · have h1 := countP_set_add (p := CThread.isSending) ht th
        have h2 := countP_set_add (p := CLock.isHeld) hheld l
        have := ih.count
        have hz : (if CThread.isSending th = true then 1 else 0) = 0 := by rcases hlt' with ⟨-, rfl, -⟩ | ⟨-, rfl, -⟩ <;> rfl
        have hz2 : (if CLock.isHeld l = true then 1 else 0) = 0 := by rcases hlt' with ⟨rfl, -⟩ | ⟨rfl, -⟩ <;> rfl
        simp only [CThread.isSending, CLock.isHeld] at h1 h2 hz hz2
        dsimp only
        simp at h1 h2
        omega
      · intro k hk
        obtain ⟨h1, h2⟩ := ih.serial k hk
        dsimp only
        rw [replay_append, replayed_append, List.getElem?_set]
        by_cases hik : i = k
        · subst hik
          rw [hc] at h1
          have h1 := Option.some.inj h1
          have hlc := (List.getElem?_eq_some_iff.1 hc).1
          simp only [if_true, hlc, replay, Replayed, ← h1, hx, and_true]
          exact ⟨trivial, h2⟩
        · simp only [hik, if_false, replay, Replayed, and_true]
          exact ⟨h1, h2⟩

/-- C47: no two threads use the same connection at the same time. -/
theorem C47_exclusive {prof : Profile} {n m : Nat} {s : CPool} (h : CPool.Reach prof n m s) {t t' i : Nat} {q q' : Request}
    (ht : s.threads[t]? = some (.sending q i)) (ht' : s.threads[t']? = some (.sending q' i)) : t = t' := by
  have h1 := (h.inv.held i t).2 ⟨q, ht⟩
  rw [(h.inv.held i t').2 ⟨q', ht'⟩] at h1
  cases h1
  rfl

/-- C47: at most as many requests are in flight as there are connections. -/
theorem C47_in_flight {prof : Profile} {n m : Nat} {s : CPool} (h : CPool.Reach prof n m s) : s.inFlight ≤ n := by
  rw [inFlight_eq, ← h.inv.count, ← h.inv.locks]
  exact List.countP_le_length

/-- C47: whatever the threads do, each connection is what the calls of `send` on it make of it one after the other, and these
give the results; so what is proved about calls on one connection holds for it. -/
theorem C47_serial {prof : Profile} {n m : Nat} {s : CPool} (h : CPool.Reach prof n m s) {i : Nat} (hi : i < n) :
    s.conns[i]? = some (replay prof i s.log .new) ∧ Replayed prof i s.log .new := h.inv.serial i hi

theorem look_bound {prof : Profile} {n : Nat} {P : CPool → Prop} {s s' : CPool} {as : List CAct} {t i j : Nat} {q : Request}
    (hn : s.locks.length = n) (ht : s.threads[t]? = some (.scanning q i)) (hin : i ≤ n)
    (hj : ∀ s, P s → s.locks[j]? = some .free ∧ ∀ i, s.threads[t]? ≠ some (.sending q i))
    (h : CPool.Path prof P s as s') : looks t as ≤ if i ≤ j then j - i + 1 else n - i + j + 2 := by
  have scan : ∀ {s₁ : CPool} {as : List CAct} {s' : CPool}, CPool.Path prof P s₁ as s' →
      (∃ i', s₁.threads[t]? = some (.sending q i')) → looks t as = 0 := by
    intro s₁ as s' hp hs
    cases hp with
    | nil => rfl
    | cons hP _ _ =>
      obtain ⟨i', hs⟩ := hs
      exact absurd hs ((hj _ hP).2 i')
  induction h generalizing i with
  | nil => exact Nat.zero_le _
  | @cons s s₁ s' a as hP hs hrest ih =>
    have hlt := (List.getElem?_eq_some_iff.1 ht).1
    obtain ⟨hfree, -⟩ := hj s hP
    have hjn := (List.getElem?_eq_some_iff.1 hfree).1
    -- steps of other threads
    have other : ∀ {l : List CLock} {c : List ClientConn} {g : List Sent} {t₁ : Nat} {th : CThread}, t₁ ≠ t →
        s₁ = ⟨c, l, s.threads.set t₁ th, g⟩ → l.length = n → looks t as ≤ if i ≤ j then j - i + 1 else n - i + j + 2 := by
      intro l c g t₁ th hne he hl
      subst he
      exact ih (i := i) hl (by rw [List.getElem?_set_ne hne]; exact ht) hin
    cases a with
    | call t₁ getRoot =>
      simp only [looks]
      simp only [CPool.step] at hs
      split at hs
      · next h1 =>
        refine other (t₁ := t₁) ?_ (Option.some.inj hs).symm hn
        rintro rfl
        rw [ht] at h1; cases h1
      · cases hs
    | finish t₁ f =>
      simp only [looks]
      simp only [CPool.step] at hs
      split at hs
      · next h1 =>
        have hne : t₁ ≠ t := by
          rintro rfl
          rw [ht] at h1; cases h1
        split at hs
        · cases hs
        · split at hs
          · exact other hne (Option.some.inj hs).symm (by simpa using hn)
          · cases hs
          · exact other hne (Option.some.inj hs).symm (by simpa using hn)
      · cases hs
    | look t₁ =>
      by_cases hne : t₁ = t
      · subst hne
        simp only [looks, if_true]
        simp only [CPool.step, ht] at hs
        cases hl : s.locks[i]? with
        | none =>
          rw [hl] at hs
          cases hs
          have hni : n ≤ i := by
            have := List.getElem?_eq_none_iff.1 hl
            omega
          have := ih (i := 0) hn (by simp [hlt]) (by omega)
          rw [if_pos (by omega)] at this
          rw [if_neg (by omega)]
          omega
        | some l =>
          rw [hl] at hs
          have hil := (List.getElem?_eq_some_iff.1 hl).1
          by_cases hlf : l = .free
          · subst hlf
            cases hs
            rw [scan hrest ⟨i, by simp [hlt]⟩]
            split <;> omega
          · have hs : some ({ s with threads := s.threads.set t₁ (.scanning q (i + 1)) } : CPool) = some s₁ := by
              rw [← hs]; cases l <;> first | rfl | exact absurd rfl hlf
            cases hs
            have := ih (i := i + 1) hn (by simp [hlt]) (by omega)
            have hij : i ≠ j := by
              rintro rfl
              rw [hfree] at hl
              exact hlf (Option.some.inj hl).symm
            split at this
            · rw [if_pos (by omega)]; omega
            · rw [if_neg (by omega)]; omega
      · simp only [looks, hne, if_false, Nat.zero_add]
        simp only [CPool.step] at hs
        split at hs
        · split at hs
          · exact other hne (Option.some.inj hs).symm (by simpa using hn)
          · exact other hne (Option.some.inj hs).symm hn
          · exact other hne (Option.some.inj hs).symm hn
        · cases hs

theorem scanning_le {prof : Profile} {n m : Nat} {s : CPool} (h : CPool.Reach prof n m s) {t i : Nat} {q : Request}
    (ht : s.threads[t]? = some (.scanning q i)) : i ≤ n := by
  induction h generalizing t i q with
  | @new s h =>
    unfold CPool.new at h
    split at h
    · cases h
    · cases h
      simp only [List.getElem?_replicate] at ht
      split at ht <;> cases ht
  | @step s s' a hr hs ih =>
    have hlen := hr.inv.locks
    cases a with
    | call t₁ getRoot =>
      simp only [CPool.step] at hs
      split at hs
      · cases hs
        rw [List.getElem?_set] at ht
        split at ht
        · split at ht
          · cases ht; omega
          · cases ht
        · exact ih ht
      · cases hs
    | look t₁ =>
      simp only [CPool.step] at hs
      split at hs
      · split at hs
        · cases hs
          rw [List.getElem?_set] at ht
          split at ht
          · split at ht <;> cases ht
          · exact ih ht
        · next h1 _ _ _ hl =>
          cases hs
          rw [List.getElem?_set] at ht
          split at ht
          · split at ht
            · cases ht
              have := (List.getElem?_eq_some_iff.1 hl).1
              omega
            · cases ht
          · exact ih ht
        · cases hs
          rw [List.getElem?_set] at ht
          split at ht
          · split at ht
            · cases ht; omega
            · cases ht
          · exact ih ht
      · cases hs
    | finish t₁ f =>
      simp only [CPool.step] at hs
      split at hs
      · split at hs
        · cases hs
        · split at hs
          · cases hs
            rw [List.getElem?_set] at ht
            split at ht
            · split at ht <;> cases ht
            · exact ih ht
          · cases hs
          · cases hs
            rw [List.getElem?_set] at ht
            split at ht
            · split at ht <;> cases ht
            · exact ih ht
      · cases hs

theorem poisoned_iff {prof : Profile} {n m : Nat} {s : CPool} (h : CPool.Reach prof n m s) (i : Nat) :
    s.locks[i]? = some .poisoned ↔ ∃ e ∈ s.log, e.conn = i ∧ e.result = .panic := by
  induction h with
  | @new s h =>
    unfold CPool.new at h
    split at h
    · cases h
    · cases h
      simp only [List.getElem?_replicate, List.not_mem_nil, false_and, exists_false, iff_false]
      split <;> simp
  | @step s s' a hr hs ih =>
    cases cstep hs with
    | call ht => exact ih
    | busy ht hl => exact ih
    | @got t k q ht hl =>
      dsimp only
      rw [← ih, List.getElem?_set]
      by_cases hk : k = i
      · subst hk
        rw [if_pos rfl, hl]
        split <;> simp
      · rw [if_neg hk]
    | @ended t k q c c' f f' x l th ht hc hx hl =>
      have hli := (List.getElem?_eq_some_iff.1 ((hr.inv.held k t).2 ⟨q, ht⟩)).1
      have hheld := (hr.inv.held k t).2 ⟨q, ht⟩
      dsimp only
      rw [List.getElem?_set]
      by_cases hk : k = i
      · subst hk
        rw [if_pos rfl, if_pos hli]
        rw [hheld] at ih
        rcases hl with ⟨rfl, -, rfl⟩ | ⟨rfl, -, hp⟩
        · simp
        · simp only [Option.some.injEq, reduceCtorEq, false_iff, not_exists, not_and] at ih ⊢
          intro e he
          rcases List.mem_append.1 he with he | he
          · exact ih e he
          · simp only [List.mem_singleton] at he
            subst he
            exact fun _ => hp
      · rw [if_neg hk, ih]
        constructor
        · rintro ⟨e, he, h1⟩
          exact ⟨e, List.mem_append_left _ he, h1⟩
        · rintro ⟨e, he, h1, h2⟩
          rcases List.mem_append.1 he with he | he
          · exact ⟨e, he, h1, h2⟩
          · simp only [List.mem_singleton] at he
            subst he
            exact absurd h1 hk

/-- C47: a connection can be taken exactly if no call of `send` is using it and none that used it ended in a panic. -/
theorem C47_available {prof : Profile} {n m : Nat} {s : CPool} (h : CPool.Reach prof n m s) {i : Nat} (hi : i < n) :
    s.locks[i]? = some .free ↔ (∀ (t : Nat) (q : Request), s.threads[t]? ≠ some (.sending q i)) ∧ ∀ e ∈ s.log, e.conn = i → e.result ≠ .panic := by
  have h1 := h.inv.held i
  have h2 := poisoned_iff h i
  obtain ⟨l, h3⟩ : ∃ l, s.locks[i]? = some l := ⟨_, List.getElem?_eq_getElem (by rw [h.inv.locks]; exact hi)⟩
  rw [h3] at h1 h2 ⊢
  cases l with
  | free =>
    simp only [Option.some.injEq, reduceCtorEq, false_iff, not_exists, not_and] at h1 h2
    exact ⟨fun _ => ⟨fun t q => h1 t q, h2⟩, fun _ => rfl⟩
  | held t =>
    obtain ⟨q, hq⟩ := (h1 t).1 rfl
    exact ⟨fun h => (by cases h), fun h => absurd hq (h.1 t q)⟩
  | poisoned =>
    obtain ⟨e, he, h4, h5⟩ := h2.1 rfl
    exact ⟨fun h => (by cases h), fun h => absurd h5 (h.2 e he h4)⟩

/-- C47: a thread that is looking for a connection can always look on, whatever the other threads hold; and whatever happens,
it goes on looking with the same request until it uses one of the connections. -/
theorem C47_looks_on {prof : Profile} {n m : Nat} {s : CPool} (h : CPool.Reach prof n m s) {t i : Nat} {q : Request}
    (ht : s.threads[t]? = some (.scanning q i)) : (∃ s', s.step prof (.look t) = some s') ∧
      ∀ a s', s.step prof a = some s' → (∃ k, s'.threads[t]? = some (.scanning q k)) ∨ ∃ k < n, s'.threads[t]? = some (.sending q k) := by
  refine ⟨?_, fun a s' hs => ?_⟩
  · simp only [CPool.step, ht]
    split <;> exact ⟨_, rfl⟩
  · have hlt := (List.getElem?_eq_some_iff.1 ht).1
    have other : ∀ {t₁ : Nat} {th : CThread}, t₁ ≠ t → (s.threads.set t₁ th)[t]? = some (.scanning q i) := by
      intro t₁ th hne
      rw [List.getElem?_set_ne hne]; exact ht
    cases cstep hs with
    | @call t₁ q₁ h1 =>
      exact .inl ⟨i, other (by rintro rfl; rw [ht] at h1; cases h1)⟩
    | @ended t₁ _ _ _ _ _ _ _ _ _ h1 =>
      exact .inl ⟨i, other (by rintro rfl; rw [ht] at h1; cases h1)⟩
    | @got t₁ k q₁ h1 hl =>
      by_cases hne : t₁ = t
      · subst hne
        rw [ht] at h1
        cases h1
        exact .inr ⟨i, by rw [← h.inv.locks]; exact (List.getElem?_eq_some_iff.1 hl).1, by simp [hlt]⟩
      · exact .inl ⟨i, other hne⟩
    | @busy t₁ i' k q₁ h1 hl =>
      by_cases hne : t₁ = t
      · subst hne
        rw [ht] at h1
        cases h1
        exact .inl ⟨k, by simp [hlt]⟩
      · exact .inl ⟨i, other hne⟩

/-- C47 (partial: one connection must stay free): while connection `j` stays free, a thread looks at most `n + 1` times before it
gets a connection, whatever the other threads do. -/
theorem C47_scan_partial {prof : Profile} {n m : Nat} {s s' : CPool} (hr : CPool.Reach prof n m s) {as : List CAct} {t i j : Nat}
    {q : Request} (ht : s.threads[t]? = some (.scanning q i))
    (h : CPool.Path prof (fun s => s.locks[j]? = some .free ∧ ∀ i, s.threads[t]? ≠ some (.sending q i)) s as s') :
    looks t as ≤ n + 1 := by
  have h1 := look_bound hr.inv.locks ht (scanning_le hr ht) (fun _ h => h) h
  have h2 := scanning_le hr ht
  cases h with
  | nil => simp [looks]
  | cons hP _ _ =>
    have := (List.getElem?_eq_some_iff.1 hP.1).1
    have hl := hr.inv.locks
    split at h1 <;> omega

section Starved

/-- A request. -/
def getRoot : Request := ⟨[47], .get, [], []⟩

/-- Thread 1 holds connection 0, thread 2 is about to look at connection 1 and thread 0 at connection 0. -/
private def round (log : List Sent) : CPool where
  conns := [.new, .new]
  locks := [.held 1, .free]
  threads := [.scanning getRoot 0, .sending getRoot 0, .scanning getRoot 1]
  log := log

theorem CPool.Path.append {prof : Profile} {P : CPool → Prop} {s s₁ s' : CPool} {as bs : List CAct}
    (h : CPool.Path prof P s as s₁) (h' : CPool.Path prof P s₁ bs s') : CPool.Path prof P s (as ++ bs) s' := by
  induction h with
  | nil => exact h'
  | cons hP hs _ ih => exact .cons hP hs (ih h')

theorem looks_append {t : Nat} {as bs : List CAct} : looks t (as ++ bs) = looks t as + looks t bs := by
  induction as with
  | nil => simp [looks]
  | cons a as ih => cases a <;> simp [looks, ih, Nat.add_assoc]

private def lap : List CAct :=
  [.look 0, .finish 1 [], .look 2, .look 0, .finish 2 [], .call 1 getRoot, .look 1, .call 2 getRoot, .look 2, .look 0]

private theorem lap_path {prof : Profile} (log : List Sent) : ∃ log', CPool.Path prof
    (fun s => (∃ j : Nat, s.locks[j]? = some .free) ∧ s.threads[0]? ≠ some .idle ∧ ∀ q i, s.threads[0]? ≠ some (.sending q i))
    (round log) lap (round log') := by
  refine ⟨_, .cons ⟨⟨1, rfl⟩, ?_⟩ rfl <| .cons ⟨⟨1, rfl⟩, ?_⟩ rfl <| .cons ⟨⟨0, rfl⟩, ?_⟩ rfl <|
    .cons ⟨⟨0, rfl⟩, ?_⟩ rfl <| .cons ⟨⟨0, rfl⟩, ?_⟩ rfl <| .cons ⟨⟨0, rfl⟩, ?_⟩ rfl <| .cons ⟨⟨0, rfl⟩, ?_⟩ rfl <|
    .cons ⟨⟨1, rfl⟩, ?_⟩ rfl <| .cons ⟨⟨1, rfl⟩, ?_⟩ rfl <| .cons ⟨⟨1, rfl⟩, ?_⟩ rfl .nil⟩ <;>
  exact ⟨by rintro ⟨⟩, by rintro _ _ ⟨⟩⟩

/-- C47 is false as it stands: with two connections and three threads, a thread can keep looking for a connection without ever
getting one although at every moment some connection is free; the others take and release them so that each one is in
use just when the thread looks at it. -/
theorem C47_starved_false (prof : Profile) : ∃ s, CPool.Reach prof 2 3 s ∧ ∀ k, ∃ as s', k ≤ looks 0 as ∧ CPool.Path prof
    (fun s => (∃ j : Nat, s.locks[j]? = some .free) ∧ s.threads[0]? ≠ some .idle ∧ ∀ q i, s.threads[0]? ≠ some (.sending q i))
    s as s' := by
  refine ⟨round [], ?_, ?_⟩
  · have h0 : CPool.Reach prof 2 3 _ := .new rfl
    have h1 := h0.step (a := .call 1 getRoot) rfl
    have h2 := h1.step (a := .look 1) rfl
    have h3 := h2.step (a := .call 0 getRoot) rfl
    have h4 := h3.step (a := .call 2 getRoot) rfl
    exact h4.step (a := .look 2) rfl
  · intro k
    suffices h : ∀ k log, ∃ as log', k ≤ looks 0 as ∧ CPool.Path prof (fun s => (∃ j : Nat, s.locks[j]? = some .free) ∧
        s.threads[0]? ≠ some .idle ∧ ∀ q i, s.threads[0]? ≠ some (.sending q i)) (round log) as (round log') by
      obtain ⟨as, log', h1, h2⟩ := h k []
      exact ⟨as, _, h1, h2⟩
    intro k
    induction k with
    | zero => exact fun log => ⟨[], log, Nat.zero_le _, .nil⟩
    | succ k ih =>
      intro log
      obtain ⟨log', h⟩ := lap_path (prof := prof) log
      obtain ⟨as, log'', h1, h2⟩ := ih log'
      refine ⟨lap ++ as, log'', ?_, h.append h2⟩
      have : looks 0 lap = 3 := rfl
      rw [looks_append]
      omega

/-- C47 is false as it stands: if the program panics in `send` (as it does with a read timeout of zero, `C48_*`), the mutex of the
connection is poisoned and `try_lock` fails from then on, so that nobody uses the connection and yet every call spins for
ever. -/
theorem C47_poisoned_false (prof : Profile) : ∃ s, CPool.Reach prof 1 2 s ∧ s.inFlight = 0 ∧
    ∀ as s', CPool.Path prof (fun _ => True) s as s' → s'.inFlight = 0 ∧ ∃ i, s'.threads[1]? = some (.scanning getRoot i) := by
  refine ⟨⟨[.new], [.poisoned], [.panicked, .scanning getRoot 0], [⟨0, 0, getRoot, [.panic], .panic⟩]⟩, ?_, rfl, ?_⟩
  · have h0 : CPool.Reach prof 1 2 _ := .new rfl
    have h1 := h0.step (a := .call 0 getRoot) rfl
    have h2 := h1.step (a := .look 0) rfl
    have h3 := h2.step (a := .finish 0 [.panic]) rfl
    exact h3.step (a := .call 1 getRoot) rfl
  · intro as
    suffices h : ∀ s s', s.locks = [.poisoned] → (∃ i, s.threads = [.panicked, .scanning getRoot i]) →
        CPool.Path prof (fun _ => True) s as s' → s'.inFlight = 0 ∧ ∃ i, s'.threads[1]? = some (.scanning getRoot i) from
      fun s' => h _ s' rfl ⟨0, rfl⟩
    intro s s' hl ⟨i, ht⟩ h
    induction h generalizing i with
    | nil => exact ⟨by simp [CPool.inFlight, ht], i, by simp [ht]⟩
    | @cons s s₁ s' a as _ hs _ ih =>
      have hno : ∀ {t : Nat} {x : CThread}, s.threads[t]? = some x → x = .panicked ∨ t = 1 ∧ x = .scanning getRoot i := by
        intro t x h
        rw [ht] at h
        match t with
        | 0 => cases h; exact .inl rfl
        | 1 => cases h; exact .inr ⟨rfl, rfl⟩
        | t + 2 => cases h
      cases cstep hs with
      | call h => rcases hno h with h | ⟨-, h⟩ <;> cases h
      | @got t i' _ h h' =>
        rw [hl] at h'
        match i' with
        | 0 => cases h'
        | i' + 1 => cases h'
      | @busy t i' k _ h _ =>
        rcases hno h with h2 | ⟨rfl, h2⟩
        · cases h2
        · cases h2
          exact ih hl k (by simp [ht])
      | ended h _ _ _ => rcases hno h with h | ⟨-, h⟩ <;> cases h

end Starved

/-! The hypotheses can be met. -/

section Examples

/-- Two threads send at the same time on two connections. -/
example (prof : Profile) : ∃ s, CPool.Reach prof 2 2 s ∧ s.inFlight = 2 ∧ s.threads[0]? = some (.sending getRoot 0) := by
  have h0 : CPool.Reach prof 2 2 _ := .new rfl
  have h1 := h0.step (a := .call 0 getRoot) rfl
  have h2 := h1.step (a := .call 1 getRoot) rfl
  have h3 := h2.step (a := .look 0) rfl
  have h4 := h3.step (a := .look 1) rfl
  exact ⟨_, h4.step (a := .look 1) rfl, rfl, rfl⟩

/-- A connection is used, given back and can be taken again. -/
example (prof : Profile) : ∃ s s', CPool.Reach prof 1 2 s ∧ s.locks[0]? = some (.held 0) ∧ s.threads[1]? = some (.scanning getRoot 0) ∧
    s.step prof (.finish 0 []) = some s' ∧ s'.locks[0]? = some .free := by
  have h0 : CPool.Reach prof 1 2 _ := .new rfl
  have h1 := h0.step (a := .call 0 getRoot) rfl
  have h2 := h1.step (a := .look 0) rfl
  exact ⟨_, _, h2.step (a := .call 1 getRoot) rfl, rfl, rfl, rfl, rfl⟩

/-- A thread can need `n + 1` looks while a connection stays free: it has just passed it. -/
example (prof : Profile) : ∃ s as s', CPool.Reach prof 2 3 s ∧ s.threads[0]? = some (.scanning getRoot 1) ∧ CPool.Path prof
    (fun s => s.locks[0]? = some .free ∧ ∀ i, s.threads[0]? ≠ some (.sending getRoot i)) s as s' ∧ looks 0 as = 3 := by
  have h0 : CPool.Reach prof 2 3 _ := .new rfl
  have h1 := h0.step (a := .call 1 getRoot) rfl
  have h2 := h1.step (a := .look 1) rfl
  have h3 := h2.step (a := .call 2 getRoot) rfl
  have h4 := h3.step (a := .look 2) rfl
  have h5 := h4.step (a := .look 2) rfl
  have h6 := h5.step (a := .call 0 getRoot) rfl
  have h7 := h6.step (a := .look 0) rfl
  refine ⟨_, [.look 0, .look 0, .look 0], _, h7.step (a := .finish 1 []) rfl, rfl, .cons ⟨rfl, ?_⟩ rfl <|
    .cons ⟨rfl, ?_⟩ rfl <| .cons ⟨rfl, ?_⟩ rfl .nil, rfl⟩ <;> rintro _ ⟨⟩

end Examples

end Verif
