import Verif.Spec.ClientPoolAny
import Verif.Props.ClientPool
import Verif.Props.HttpsEndToEnd
import Verif.Props.ClientCalls

/-! C84: threads that share a client over streams of any kind, so also an HTTPS client. -/

namespace Verif

section

variable {T F : Type} [RawIO T] [AnyFactory T F] {prof : Profile} {offer : Nat → Nat}

/-! ## The factory as a script -/

omit [RawIO T] in
theorem create_script {f f' : F} {y : CreateEnd (Traced T)} (h : (AnyFactory.create f : CreateEnd (Traced T) × F) = (y, f')) :
    ∃ x : CreateEnd T, AnyFactory.create f = (x, f') ∧ ∀ tail : List (CreateEnd T), (AnyFactory.create (x :: tail) : CreateEnd (Traced T) × List (CreateEnd T)) = (y, tail) := by
  simp only [AnyFactory.create] at h
  cases hx : (AnyFactory.create f : CreateEnd T × F) with
  | mk x f₁ =>
  rw [hx] at h
  refine ⟨x, ?_, fun tail => ?_⟩
  · cases x <;> cases h <;> rfl
  · cases x <;> cases h <;> rfl

theorem connect_script {n : Nat} {c c' : AnyConn (Traced T)} {f f' : F} {o : ConnectEnd} (h : c.connect offer n f = (o, c', f')) :
    ∃ xs : List (CreateEnd T), AnyFactory.Runs f xs f' ∧ ∀ tail, c.connect offer n (xs ++ tail) = (o, c', tail) := by
  unfold AnyConn.connect at h
  cases hx : (AnyFactory.create f : CreateEnd (Traced T) × F) with
  | mk y f₁ =>
  obtain ⟨x, h1, h2⟩ := create_script hx
  rw [hx] at h
  refine ⟨[x], ?_, fun tail => ?_⟩
  · cases y <;> cases h <;> exact .cons h1 .nil
  · unfold AnyConn.connect
    rw [List.singleton_append, h2]
    cases y <;> cases h <;> rfl

theorem retry_script {n : Nat} {c c' : AnyConn (Traced T)} {f f' : F} {q : Request} {o : SendEnd} (h : c.retry prof offer n f q = (o, c', f')) :
    ∃ xs : List (CreateEnd T), AnyFactory.Runs f xs f' ∧ ∀ tail, c.retry prof offer n (xs ++ tail) q = (o, c', tail) := by
  unfold AnyConn.retry at h
  cases hx : c.connect offer n f with
  | mk y z =>
  obtain ⟨c₁, f₁⟩ := z
  obtain ⟨xs, h1, h2⟩ := connect_script hx
  rw [hx] at h
  have hf : f₁ = f' := by
    cases y with
    | ok =>
      dsimp only at h
      split at h <;> (cases h; rfl)
    | _ => cases h; rfl
  subst hf
  refine ⟨xs, h1, fun tail => ?_⟩
  unfold AnyConn.retry
  rw [h2]
  cases y with
  | ok =>
    dsimp only at h ⊢
    split at h <;> (cases h; rfl)
  | _ => cases h; rfl

theorem sendOpen_script {n : Nat} {c c' : AnyConn (Traced T)} {f f' : F} {q : Request} {o : SendEnd} (h : c.sendOpen prof offer n f q = (o, c', f')) :
    ∃ xs : List (CreateEnd T), AnyFactory.Runs f xs f' ∧ ∀ tail, c.sendOpen prof offer n (xs ++ tail) q = (o, c', tail) := by
  unfold AnyConn.sendOpen at h
  cases hc : c.stream with
  | none =>
    rw [hc] at h
    cases h
    exact ⟨[], .nil, fun tail => by unfold AnyConn.sendOpen; rw [hc]; rfl⟩
  | some x =>
    rw [hc] at h
    cases hs : x.send prof q with
    | mk y z =>
    cases y with
    | err e =>
      simp only [hs] at h
      obtain ⟨xs, h1, h2⟩ := retry_script h
      exact ⟨xs, h1, fun tail => by unfold AnyConn.sendOpen; simp only [hc, hs]; exact h2 tail⟩
    | _ =>
      simp only [hs] at h
      cases h
      exact ⟨[], .nil, fun tail => by unfold AnyConn.sendOpen; simp only [hc, hs]; rfl⟩

omit [RawIO T] in
theorem AnyFactory.Runs.append {f f₁ f' : F} {xs ys : List (CreateEnd T)} (h : AnyFactory.Runs f xs f₁) (h' : AnyFactory.Runs f₁ ys f') : AnyFactory.Runs f (xs ++ ys) f' := by
  induction h with
  | nil => exact h'
  | cons h1 _ ih => exact .cons h1 (ih h')

/-- One call of `send` is as with a factory that does what it is told. -/
theorem send_script {n : Nat} {c c' : AnyConn (Traced T)} {f f' : F} {q : Request} {o : SendEnd} (h : c.send prof offer n f q = (o, c', f')) :
    ∃ xs : List (CreateEnd T), AnyFactory.Runs f xs f' ∧ ∀ tail, c.send prof offer n (xs ++ tail) q = (o, c', tail) := by
  unfold AnyConn.send at h
  cases hc : c.stream with
  | some x =>
    simp only [hc] at h
    obtain ⟨xs, h1, h2⟩ := sendOpen_script h
    exact ⟨xs, h1, fun tail => by unfold AnyConn.send; simp only [hc]; exact h2 tail⟩
  | none =>
    simp only [hc] at h
    cases hx : c.connect offer n f with
    | mk y z =>
    obtain ⟨c₁, f₁⟩ := z
    obtain ⟨xs, h1, h2⟩ := connect_script hx
    rw [hx] at h
    cases y with
    | ok =>
      obtain ⟨ys, h3, h4⟩ := sendOpen_script h
      refine ⟨xs ++ ys, h1.append h3, fun tail => ?_⟩
      unfold AnyConn.send
      simp only [hc]
      rw [List.append_assoc, h2]
      exact h4 tail
    | _ =>
      cases h
      refine ⟨xs, h1, fun tail => ?_⟩
      unfold AnyConn.send
      simp only [hc]
      rw [h2]

theorem sendAll_snoc {qs : List ((T → T) × Nat × Request)} {c c₁ c₂ : AnyConn (Traced T)} {f f₁ f₂ : F} {os : List SendEnd} {o : SendEnd} {env : T → T} {n : Nat} {q : Request}
    (h : AnyConn.sendAll prof offer qs c f = some (os, c₁, f₁)) (h1 : (c₁.turn env n).send prof offer n f₁ q = (o, c₂, f₂)) (ho : o ≠ .diverge)
    (hh : (c₂.all.any fun x => x.shared.hung) = false) : AnyConn.sendAll prof offer (qs ++ [(env, n, q)]) c f = some (os ++ [o], c₂, f₂) := by
  induction qs generalizing c f os with
  | nil =>
    cases h
    rw [List.nil_append]
    unfold AnyConn.sendAll
    rw [h1]
    cases o with
    | diverge => exact absurd rfl ho
    | _ =>
      dsimp only
      rw [hh]
      rfl
  | cons p qs ih =>
    obtain ⟨env', n', q'⟩ := p
    rw [List.cons_append]
    unfold AnyConn.sendAll at h ⊢
    cases hs : (c.turn env' n').send prof offer n' f q' with
    | mk y z =>
    obtain ⟨c₃, f₃⟩ := z
    rw [hs] at h
    cases y with
    | diverge => cases h
    | _ =>
      dsimp only at h ⊢
      split at h
      · cases h
      · obtain ⟨⟨os', c₄, f₄⟩, h2, h3⟩ := Option.map_eq_some_iff.1 h
        cases h3
        rename_i h4
        rw [ih h2, if_neg h4]
        rfl

theorem calls_snoc {qs : List ((T → T) × Nat × Request)} {c c₁ c₂ : AnyConn (Traced T)} {f f₁ f₂ : F} {os : List SendEnd} {o : SendEnd} {env : T → T} {n : Nat} {q : Request}
    (h : AnyConn.sendAll prof offer qs c f = some (os, c₁, f₁)) (h1 : (c₁.turn env n).send prof offer n f₁ q = (o, c₂, f₂)) :
    AnyConn.calls prof offer (qs ++ [(env, n, q)]) c f = AnyConn.calls prof offer qs c f ++ [⟨q, o, c₂.all.length⟩] := by
  induction qs generalizing c f os with
  | nil =>
    cases h
    rw [List.nil_append]
    unfold AnyConn.calls
    rw [h1]
    rfl
  | cons p qs ih =>
    obtain ⟨env', n', q'⟩ := p
    rw [List.cons_append]
    unfold AnyConn.sendAll at h
    unfold AnyConn.calls
    cases hs : (c.turn env' n').send prof offer n' f q' with
    | mk y z =>
    obtain ⟨c₃, f₃⟩ := z
    rw [hs] at h
    cases y with
    | diverge => cases h
    | _ =>
      dsimp only at h ⊢
      split at h
      · cases h
      · obtain ⟨⟨os', c₄, f₄⟩, h2, h3⟩ := Option.map_eq_some_iff.1 h
        cases h3
        rw [ih h2]
        rfl

/-! ## Each connection by itself -/

/-- What holds of a client whatever its threads have done. -/
structure APool.Inv (prof : Profile) (offer : Nat → Nat) (n m : Nat) (s : APool T F) : Prop where
  locks : ∃ log, CPool.Reach prof n m ⟨List.replicate n .new, s.locks, s.threads, log⟩
  serial : ∀ i < n, ∃ (c : AnyConn (Traced T)) (script : List (CreateEnd T)), s.conns[i]? = some c ∧
    (∀ tail, AnyConn.sendAll prof offer ((s.sentOn i).map fun e => (e.env, e.rounds, e.request)) .new (script ++ tail) = some ((s.sentOn i).map ASent.result, c, tail)) ∧
    (∀ tail, AnyConn.calls prof offer ((s.sentOn i).map fun e => (e.env, e.rounds, e.request)) .new (script ++ tail) = (s.sentOn i).map ASent.call) ∧
    ∀ t, .ok t ∈ script → ∃ e ∈ s.sentOn i, ∃ xs f, AnyFactory.Runs e.factory xs f ∧ .ok t ∈ xs
  conns : s.conns.length = n

theorem APool.Reach.inv {n m : Nat} {s : APool T F} (h : APool.Reach prof offer n m s) : s.Inv prof offer n m := by
  induction h with
  | @new s h =>
    unfold APool.new at h
    split at h
    · cases h
    · rename_i hn
      cases h
      refine ⟨⟨[], .new (by rw [CPool.new, if_neg hn])⟩, fun i hi => ⟨.new, [], by simp [hi], fun _ => rfl, fun _ => rfl, nofun⟩, by simp⟩
  | @step s s' a _ hs ih =>
    obtain ⟨⟨log, hr⟩, hser, hlen⟩ := ih
    cases a with
    | call t q =>
      simp only [APool.step] at hs
      split at hs
      · rename_i ht
        cases hs
        exact ⟨⟨log, hr.step (a := .call t q) (by simp [CPool.step, ht])⟩, hser, hlen⟩
      · cases hs
    | look t =>
      simp only [APool.step] at hs
      split at hs
      · rename_i q i ht
        split at hs
        · rename_i hl
          cases hs
          exact ⟨⟨log, hr.step (a := .look t) (by simp [CPool.step, ht, hl])⟩, hser, hlen⟩
        · rename_i x hl hx
          cases hs
          refine ⟨⟨log, hr.step (a := .look t) ?_⟩, hser, hlen⟩
          simp only [CPool.step, ht, hx]
        · rename_i hl
          cases hs
          exact ⟨⟨log, hr.step (a := .look t) (by simp [CPool.step, ht, hl])⟩, hser, hlen⟩
      · cases hs
    | finish t env n' f =>
      simp only [APool.step] at hs
      split at hs
      rotate_left
      · cases hs
      rename_i q i ht
      split at hs
      · cases hs
      rename_i c hc
      have hi : i < n := by rw [← hlen]; exact (List.getElem?_eq_some_iff.1 hc).1
      cases hx : (c.turn env n').send prof offer n' f q with
      | mk o z =>
      obtain ⟨c', f'⟩ := z
      rw [hx] at hs
      dsimp only at hs
      split at hs
      · cases hs
      rename_i hh
      have serial : o ≠ .diverge → ∀ (l : List CLock) (th : List CThread), ∀ j < n, ∃ (d : AnyConn (Traced T)) (script : List (CreateEnd T)), (s.conns.set i c')[j]? = some d ∧
          (∀ tail, AnyConn.sendAll prof offer ((APool.sentOn j ⟨s.conns.set i c', l, th, s.log ++ [⟨i, t, env, n', f, q, o, c'.all.length⟩]⟩).map fun e => (e.env, e.rounds, e.request)) .new (script ++ tail) =
            some ((APool.sentOn j ⟨s.conns.set i c', l, th, s.log ++ [⟨i, t, env, n', f, q, o, c'.all.length⟩]⟩).map ASent.result, d, tail)) ∧
          (∀ tail, AnyConn.calls prof offer ((APool.sentOn j ⟨s.conns.set i c', l, th, s.log ++ [⟨i, t, env, n', f, q, o, c'.all.length⟩]⟩).map fun e => (e.env, e.rounds, e.request)) .new (script ++ tail) =
            (APool.sentOn j ⟨s.conns.set i c', l, th, s.log ++ [⟨i, t, env, n', f, q, o, c'.all.length⟩]⟩).map ASent.call) ∧
          ∀ t', .ok t' ∈ script → ∃ e ∈ APool.sentOn j ⟨s.conns.set i c', l, th, s.log ++ [⟨i, t, env, n', f, q, o, c'.all.length⟩]⟩, ∃ xs f, AnyFactory.Runs e.factory xs f ∧ .ok t' ∈ xs := by
        intro ho l th j hj
        obtain ⟨d, script, h1, h2, h2', h3⟩ := hser j hj
        unfold APool.sentOn at h2 h2' h3 ⊢
        dsimp only
        by_cases hij : i = j
        · subst hij
          rw [h1] at hc
          cases hc
          obtain ⟨xs, h4, h5⟩ := send_script hx
          have hf : (List.filter (fun e : ASent T F => decide (e.conn = i)) [⟨i, t, env, n', f, q, o, c'.all.length⟩]) = [⟨i, t, env, n', f, q, o, c'.all.length⟩] := by simp
          refine ⟨c', script ++ xs, by rw [List.getElem?_set_self (by rw [hlen]; exact hi)], fun tail => ?_, fun tail => ?_, fun t' ht' => ?_⟩
          · rw [List.filter_append, hf, List.map_append, List.map_append, List.append_assoc]
            exact sendAll_snoc (h2 (xs ++ tail)) (h5 tail) ho (by simpa using hh)
          · rw [List.filter_append, hf, List.map_append, List.map_append, List.append_assoc, List.map_singleton, calls_snoc (h2 (xs ++ tail)) (h5 tail), h2']
            rfl
          · rw [List.filter_append, hf]
            rcases List.mem_append.1 ht' with ht' | ht'
            · obtain ⟨e, he, k⟩ := h3 t' ht'
              exact ⟨e, List.mem_append_left _ he, k⟩
            · exact ⟨_, List.mem_append_right _ (List.mem_singleton.2 rfl), xs, f', h4, ht'⟩
        · have hf : (List.filter (fun e : ASent T F => decide (e.conn = j)) [⟨i, t, env, n', f, q, o, c'.all.length⟩]) = [] := by simp [hij]
          refine ⟨d, script, by rw [List.getElem?_set_ne hij]; exact h1, ?_, ?_, ?_⟩
          · rw [List.filter_append, hf, List.append_nil]
            exact h2
          · rw [List.filter_append, hf, List.append_nil]
            exact h2'
          · rw [List.filter_append, hf, List.append_nil]
            exact h3
      have hset : (List.replicate n ClientConn.new).set i .new = List.replicate n .new := by
        apply List.ext_getElem?
        intro j
        by_cases hij : i = j
        · subst hij
          rw [List.getElem?_set_self (by simpa using hi)]
          simp [hi]
        · rw [List.getElem?_set_ne hij]
      have hnew : (List.replicate n ClientConn.new)[i]? = some .new := by simp [hi]
      have err := hr.step (a := .finish t [.err .other]) (s' := ⟨List.replicate n .new, s.locks.set i .free, s.threads.set t .idle, _⟩)
        (by simp only [CPool.step, ht, hnew]; rw [show ClientConn.send prof .new [CreateEnd.err .other] q = (.err (.connecting .other), .new, []) from rfl]; dsimp only; rw [hset])
      have pan := hr.step (a := .finish t [.panic]) (s' := ⟨List.replicate n .new, s.locks.set i .poisoned, s.threads.set t .panicked, _⟩)
        (by simp only [CPool.step, ht, hnew]; rw [show ClientConn.send prof .new [CreateEnd.panic] q = (.panic, .new, []) from rfl]; dsimp only; rw [hset])
      cases o with
      | diverge => cases hs
      | panic =>
        cases hs
        exact ⟨⟨_, pan⟩, serial nofun _ _, by simpa using hlen⟩
      | _ =>
        cases hs
        exact ⟨⟨_, err⟩, serial nofun _ _, by simpa using hlen⟩

/-- C84: no two threads use the same connection at the same time. -/
theorem C84_exclusive {n m : Nat} {s : APool T F} (h : APool.Reach prof offer n m s) {t t' i : Nat} {q q' : Request}
    (ht : s.threads[t]? = some (.sending q i)) (ht' : s.threads[t']? = some (.sending q' i)) : t = t' := by
  obtain ⟨log, hr⟩ := h.inv.locks
  exact C47_exclusive hr ht ht'

/-- C84: at most as many requests are in flight as there are connections. -/
theorem C84_in_flight {n m : Nat} {s : APool T F} (h : APool.Reach prof offer n m s) : s.inFlight ≤ n := by
  obtain ⟨log, hr⟩ := h.inv.locks
  exact C47_in_flight hr

/-- C84: whatever the threads do, each connection is what the calls of `send` on it make of it one after the other, with a factory that only makes what the factory of the client made during one of them. So what is proved about
calls on one connection over streams of any kind (C76, C83) holds for it. -/
theorem C84_serial {n m : Nat} {s : APool T F} (h : APool.Reach prof offer n m s) {i : Nat} (hi : i < n) :
    ∃ (c : AnyConn (Traced T)) (script : List (CreateEnd T)), s.conns[i]? = some c ∧
      AnyConn.sendAll prof offer ((s.sentOn i).map fun e => (e.env, e.rounds, e.request)) .new script = some ((s.sentOn i).map ASent.result, c, []) ∧
      AnyConn.calls prof offer ((s.sentOn i).map fun e => (e.env, e.rounds, e.request)) .new script = (s.sentOn i).map ASent.call ∧
      ∀ t, .ok t ∈ script → ∃ e ∈ s.sentOn i, ∃ xs f, AnyFactory.Runs e.factory xs f ∧ .ok t ∈ xs := by
  obtain ⟨c, script, h1, h2, h2', h3⟩ := h.inv.serial i hi
  have h2 := h2 []
  have h2' := h2' []
  rw [List.append_nil] at h2 h2'
  exact ⟨c, script, h1, h2, h2', h3⟩

omit [RawIO T] [AnyFactory T F] in
theorem oks_of {es : List (ASent T F)} (h : ∀ e ∈ es, ∃ r, e.result = .ok r) : ∃ rs : List Response, es.map ASent.result = rs.map .ok := by
  induction es with
  | nil => exact ⟨[], rfl⟩
  | cons e es ih =>
    obtain ⟨r, hr⟩ := h e (List.mem_cons_self ..)
    obtain ⟨rs, hrs⟩ := ih fun e he => h e (List.mem_cons_of_mem _ he)
    exact ⟨r :: rs, by rw [List.map_cons, List.map_cons, hr, hrs]⟩

omit [RawIO T] [AnyFactory T F] in
theorem sent_zip {es : List (ASent T F)} {rs : List Response} (h : es.map ASent.result = rs.map .ok) :
    es.map (fun e => (e.request, e.result)) = ((es.map ((fun p : (T → T) × Nat × Request => p.2.2) ∘ fun e => (e.env, e.rounds, e.request))).zip rs).map fun p => (p.1, .ok p.2) := by
  induction es generalizing rs with
  | nil => rfl
  | cons e es ih =>
    cases rs with
    | nil => cases h
    | cons r rs =>
      rw [List.map_cons, List.map_cons] at h
      obtain ⟨h1, h2⟩ := List.cons.inj h
      rw [List.map_cons, List.map_cons, List.zip_cons_cons, List.map_cons, ih h2, h1]
      rfl

/-- C84 (partial: as long as every call on the connection returned a response): whatever the threads do, if on each stream of a connection there is a server that answers the requests in order, then every call on it returned to its thread
the answer to its own request. -/
theorem C84_right_partial (hT : RawIO.Honest T) (hR : RawIO.ReadsWithin T) {n m : Nat} {s : APool T F} (h : APool.Reach prof offer n m s) {i : Nat} {c : AnyConn (Traced T)} (hc : s.conns[i]? = some c)
    (hok : ∀ e ∈ s.sentOn i, ∃ r, e.result = .ok r) {ans : Request → Response} (hh : ∀ x ∈ c.all, ∃ b, x.traced.got <+: b ∧ x.Honest ans b) :
    ∀ e ∈ s.sentOn i, e.result = .ok (ans e.request) := by
  obtain ⟨c', script, h1, h2, -⟩ := C84_serial h (i := i) (by rw [← h.inv.conns]; exact (List.getElem?_eq_some_iff.1 hc).1)
  rw [hc] at h1
  cases h1
  obtain ⟨rs, hrs⟩ := oks_of hok
  rw [hrs] at h2
  have := C76_right_partial hT hR offer _ h2 hh
  rw [List.map_map] at this
  rw [this, List.map_map] at hrs
  exact fun e he => List.map_inj_left.1 hrs e he

/-- C84 (partial: for calls that return a response from a stream on which no call has failed before; and answers that say where they end): whatever the threads do and however the calls on a connection end, if a call returned a response, and the
server on the stream that it came from is honest, then it is the response to the request of this call. -/
theorem C84_calls_partial (hT : RawIO.Honest T) (hR : RawIO.ReadsWithin T) {n m : Nat} {s : APool T F} (h : APool.Reach prof offer n m s) {i : Nat} {c : AnyConn (Traced T)} (hc : s.conns[i]? = some c) {j : Nat} {q : Request}
    {r : Response} {k : Nat} (hj : ReturnedCleanly ((s.sentOn i).map ASent.call) j q r k) : ∃ x, c.all[k - 1]? = some x ∧ ∀ ans b, x.traced.got <+: b → x.Honest ans b → r = ans q := by
  obtain ⟨c', script, h1, h2, h2', -⟩ := C84_serial h (i := i) (by rw [← h.inv.conns]; exact (List.getElem?_eq_some_iff.1 hc).1)
  rw [hc] at h1
  cases h1
  rw [← h2'] at hj
  exact C76_calls_partial hT hR offer _ h2 hj

/-- C84 (partial: as C83): the exchanges on a connection of a client that threads share are those on its streams, and on each stream that is joined to a connection of a server of this library, over streams of any other kind, at any time on
any schedule, the calls returned, in order, what the router answered when it was asked about the requests of this connection. -/
theorem C84_any_partial (hT : RawIO.Honest T) (hR : RawIO.ReadsWithin T) {n m : Nat} {s : APool T F} (h : APool.Reach prof offer n m s) {i : Nat} {c : AnyConn (Traced T)} (hc : s.conns[i]? = some c)
    (hok : ∀ e ∈ s.sentOn i, ∃ r, e.result = .ok r) (hq : ∀ x ∈ c.all, ∀ q ∈ x.asked, q.Sendable) :
    ∃ logs : List (List (Request × Response)), logs.length = c.all.length ∧ (s.sentOn i).map (fun e => (e.request, e.result)) = logs.flatten.map (fun p => (p.1, .ok p.2)) ∧ ∀ p ∈ c.all.zip logs,
      ∀ {T' σ : Type} [RawIO T'] {rt : Router σ} {profS : Profile} {nw : Nat} {s₀ : σ} {as : List (AAct T')} {net : ANet (Traced T') σ} {k : Nat} {d : AConn (Traced T')}, RawIO.Honest T' → RawIO.ReadsWithin T' →
        (∀ (f : Nat) (t t' : T') (b : Bytes), Wr.write f t b ≠ some (.error .interrupted, t')) → ANet.after profS rt nw s₀ as = some net → net.conns[k]? = some d → p.1.Joins d →
        (∀ a ∈ asksOn k net.asks, ∀ r, rt.Says a r → r.PartsLe 4096) → (∀ a ∈ asksOn k net.asks, a.1 ∈ p.1.asked → ∃ r, rt.Says a r ∧ r.Sendable) →
        AnsweredFirst rt (asksOn k net.asks) p.2 := by
  obtain ⟨c', script, h1, h2, -⟩ := C84_serial h (i := i) (by rw [← h.inv.conns]; exact (List.getElem?_eq_some_iff.1 hc).1)
  rw [hc] at h1
  cases h1
  obtain ⟨rs, hrs⟩ := oks_of hok
  rw [hrs] at h2
  obtain ⟨logs, l1, l2, l3⟩ := C83_any_partial hT hR offer _ h2 hq
  refine ⟨logs, l1, ?_, fun p hp => l3 p hp⟩
  rw [← l2, List.map_map]
  exact sent_zip hrs

end

section

variable {prof : Profile} {offer : Nat → Nat} {cfg : ClientConfig} {n m : Nat} {s : APool TlsStream TlsStreamFactory}

theorem tls_runs {connects : List (Except IoError TlsPeer)} {f f' : TlsStreamFactory} {xs : List (CreateEnd TlsStream)} (h : AnyFactory.Runs f xs f') (hq : ∀ e ∈ f.tcp.connects, e ∈ connects) {t : TlsStream}
    (ht : .ok t ∈ xs) : ∃ p, .ok p ∈ connects ∧ t = .new p.cipher true (p.input f.dnsName) p.sock := by
  induction h with
  | nil => cases ht
  | @cons f f₁ f' x xs hx _ ih =>
    simp only [AnyFactory.create, TlsStreamFactory.create] at hx
    cases hc : f.tcp.create with
    | mk y tcp =>
    obtain ⟨k1, k2⟩ := tcp_create_mem hc
    rw [hc] at hx
    cases y with
    | ok p =>
      cases hx
      rcases List.mem_cons.1 ht with ht | ht
      · cases ht
        exact ⟨p, hq _ (k2 p rfl), rfl⟩
      · exact ih (fun e he => hq e (k1 e he)) ht
    | _ =>
      cases hx
      rcases List.mem_cons.1 ht with ht | ht
      · cases ht
      · exact ih (fun e he => hq e (k1 e he)) ht

/-- C84 over TLS: whatever the threads do, every stream of a connection of an HTTPS client is a TLS session of its own with one of the servers that were reached during a call on this connection, which was asked for a certificate for the name
in the address. On its TCP stream, or waiting for it, are the sealed messages whose plain text is what was sent; what was received is a beginning of the plain text that came after the handshake. -/
theorem C84_tls (h : APool.Reach prof offer n m s) {i : Nat} {c : AnyConn (Traced TlsStream)} (hc : s.conns[i]? = some c) (hs : ∀ e ∈ s.log, ∃ connects, e.Https cfg connects) :
    ∀ x ∈ c.all, ∃ e ∈ s.sentOn i, ∃ connects p, e.Https cfg connects ∧ .ok p ∈ connects ∧
      x.traced.raw.sock.sent ++ x.traced.raw.sess.out = p.cipher.wire 0 x.traced.raw.sess.log ∧ x.traced.raw.sess.log.flatMap TlsItem.plain = x.traced.put ∧
      ∃ used, p.input (hostPart cfg.addr) = used ++ x.traced.raw.input ∧ x.traced.got <+: (used.foldl TlsHeard.step ⟨true, [], false, false⟩).came := by
  obtain ⟨c', script, h1, h2, -, h3⟩ := C84_serial h (i := i) (by rw [← h.inv.conns]; exact (List.getElem?_eq_some_iff.1 hc).1)
  rw [hc] at h1
  cases h1
  have key := any_client (P := fun t => ∃ e ∈ s.sentOn i, ∃ connects p, e.Https cfg connects ∧ .ok p ∈ connects ∧ TlsStream.Inv p.cipher (p.input (hostPart cfg.addr)) t.got t.put t.raw)
    (Q := fun l : List (CreateEnd TlsStream) => ∀ t, .ok t ∈ l → .ok t ∈ script) tls_honest tls_within
    { write := fun e ⟨a, ha, b, p, hp, hi, hj⟩ => ⟨a, ha, b, p, hp, hi, (tls_keeps _ _).write e hj⟩
      flush := fun e ⟨a, ha, b, p, hp, hi, hj⟩ => ⟨a, ha, b, p, hp, hi, (tls_keeps _ _).flush e hj⟩
      read := fun e ⟨a, ha, b, p, hp, hi, hj⟩ => ⟨a, ha, b, p, hp, hi, (tls_keeps _ _).read e hj⟩
      drop := fun ⟨a, ha, b, p, hp, hi, hj⟩ => ⟨a, ha, b, p, hp, hi, (tls_keeps _ _).drop hj⟩ }
    (by
      intro l l' x hq hx
      cases l with
      | nil => cases hx; exact ⟨hq, nofun⟩
      | cons y l =>
        cases hx
        refine ⟨fun t ht => hq t (List.mem_cons_of_mem _ ht), fun t ht => ?_⟩
        subst ht
        obtain ⟨e, he, xs, f', h4, h5⟩ := h3 t (hq t (List.mem_cons_self ..))
        obtain ⟨connects, h6⟩ := hs e (List.mem_filter.1 he).1
        obtain ⟨h7, h8, h9⟩ := id h6
        unfold TlsStreamFactory.new at h8
        split at h8
        · have h8 := Option.some.inj h8
          rw [← h8] at h4
          obtain ⟨p, k1, rfl⟩ := tls_runs (connects := connects) h4 (fun e he => he) h5
          refine ⟨e, he, connects, p, h6, k1, ?_⟩
          have hsent := h9 p k1
          obtain ⟨ci, inp, ⟨evs, fl, sent⟩⟩ := p
          cases hsent
          exact .new ..
        · cases h8)
    (fun e hm t ht => by
      obtain ⟨a, ha, rfl⟩ := List.mem_map.1 hm
      obtain ⟨connects, h6⟩ := hs a (List.mem_filter.1 ha).1
      rw [h6.1]
      exact ht) (fun _ h => h) h2
  intro x hx
  obtain ⟨e, he, connects, p, hp, hi, hj⟩ := key.1 x hx
  obtain ⟨used, h1, h2⟩ := hj.heard
  refine ⟨e, he, connects, p, hp, hi, ?_, hj.log, used, h1, ?_⟩
  · rw [hj.wire, hj.cipher]
  · rw [h2]
    exact ⟨_, hj.plain⟩

/-- C84 over TLS (partial: as C83): the exchanges on a connection of an HTTPS client that threads share are those on its streams, and on each stream whose session is joined to that of a connection of a server started with `listen_https`, at
any time on any schedule, the calls returned, in order, what the router answered when it was asked about the requests of this connection. -/
theorem C84_tls_partial (h : APool.Reach prof offer n m s) {i : Nat} {c : AnyConn (Traced TlsStream)} (hc : s.conns[i]? = some c) (hs : ∀ e ∈ s.log, ∃ connects, e.Https cfg connects)
    (hok : ∀ e ∈ s.sentOn i, ∃ r, e.result = .ok r) (hq : ∀ x ∈ c.all, ∀ q ∈ x.asked, q.Sendable ∧ AnyCut (requestBytes q)) :
    ∃ logs : List (List (Request × Response)), logs.length = c.all.length ∧ (s.sentOn i).map (fun e => (e.request, e.result)) = logs.flatten.map (fun p => (p.1, .ok p.2)) ∧ ∀ p ∈ c.all.zip logs,
      ∀ {σ : Type} {rt : Router σ} {profS : Profile} {nw : Nat} {s₀ : σ} {hs : List HttpsAct} {net : ANet (Traced TlsStream) σ} {k : Nat} {d : AConn (Traced TlsStream)},
        ANet.after profS rt nw s₀ (hs.map HttpsAct.act) = some net → net.conns[k]? = some d → HttpsAct.Orderly k hs → p.1.Sealed d →
        HttpsAct.Fits profS rt nw s₀ k hs net → (∀ a ∈ asksOn k net.asks, a.1 ∈ p.1.asked → ∃ r, rt.Says a r ∧ r.Sendable) →
        AnsweredFirst rt (asksOn k net.asks) p.2 := by
  obtain ⟨c', script, h1, h2, -⟩ := C84_serial h (i := i) (by rw [← h.inv.conns]; exact (List.getElem?_eq_some_iff.1 hc).1)
  rw [hc] at h1
  cases h1
  obtain ⟨rs, hrs⟩ := oks_of hok
  rw [hrs] at h2
  obtain ⟨logs, l1, l2, l3⟩ := tls_end_to_end offer _ h2 (fun x hx => by
    obtain ⟨-, -, -, -, -, -, -, g, -⟩ := C84_tls h hc hs x hx
    exact g) hq
  refine ⟨logs, l1, ?_, fun p hp => l3 p hp⟩
  rw [← l2, List.map_map]
  exact sent_zip hrs

end

/-! ## The conditions can be met -/

/-- The state after some actions. -/
def APool.run {T F : Type} [RawIO T] [AnyFactory T F] (prof : Profile) (offer : Nat → Nat) : List (PAct T F) → APool T F → Option (APool T F)
  | [], s => some s
  | a :: as, s => (s.step prof offer a).bind (APool.run prof offer as)

theorem APool.run_reach {T F : Type} [RawIO T] [AnyFactory T F] {prof : Profile} {offer : Nat → Nat} {n m : Nat} {as : List (PAct T F)} {s s' : APool T F} (h : APool.Reach prof offer n m s)
    (h' : APool.run prof offer as s = some s') : APool.Reach prof offer n m s' := by
  induction as generalizing s with
  | nil => cases h'; exact h
  | cons a as ih =>
    obtain ⟨s₁, h1, h2⟩ := Option.bind_eq_some_iff.1 h'
    exact ih (h.step h1) h2

/-- Two threads share a client with two connections: the first gets the first connection, the second the second one and, when both calls have ended, the first one for another call. -/
def twoThreads : List (PAct TlsStream TlsStreamFactory) := [.call 0 (ask 97), .call 1 (ask 99), .look 0, .look 1, .look 1,
  .finish 1 id 20 (toyClient [toyPeer [.records true [] false true, .records false (responseBytes (.ofBody b!"B")) false false]]), .call 1 (ask 98),
  .finish 0 id 20 (toyClient [toyPeer [.records true [] false true, .records false (responseBytes (.ofBody b!"A")) false false, .records false (responseBytes (.ofBody b!"B")) false false]]),
  .look 1, .finish 1 id 20 (toyClient [])]

/-- What is compared of a client. -/
structure PoolSight where
  locks : List CLock
  log : List (Nat × Nat × Request × SendEnd)
  conns : List (List SeenTls)
  deriving DecidableEq

def poolSight (s : APool TlsStream TlsStreamFactory) : PoolSight := ⟨s.locks, s.log.map fun e => (e.conn, e.thread, e.request, e.result), s.conns.map fun c => c.all.map AnyStream.seen⟩

theorem two_threads (prof : Profile) : (APool.run prof id twoThreads ⟨[.new, .new], [.free, .free], [.idle, .idle], []⟩).map poolSight =
    some ⟨[.free, .free], [(1, 1, ask 99, .ok (.ofBody b!"B")), (0, 0, ask 97, .ok (.ofBody b!"A")), (0, 1, ask 98, .ok (.ofBody b!"B"))],
      [[⟨[ask 97, ask 98], requestBytes (ask 97) ++ requestBytes (ask 98), responseBytes (.ofBody b!"A") ++ responseBytes (.ofBody b!"B"), 0⟩],
        [⟨[ask 99], requestBytes (ask 99), responseBytes (.ofBody b!"B"), 0⟩]]⟩ := by
  rcases prof with ⟨_ | _⟩ <;> decide +kernel

/-- What the calls of a run were given. -/
theorem run_log {prof : Profile} {offer : Nat → Nat} {T F : Type} [RawIO T] [AnyFactory T F] {P : (T → T) → F → Prop} {as : List (PAct T F)} {s s' : APool T F} (h : APool.run prof offer as s = some s')
    (h1 : ∀ e ∈ s.log, P e.env e.factory) (h2 : ∀ t env n f, PAct.finish t env n f ∈ as → P env f) : ∀ e ∈ s'.log, P e.env e.factory := by
  induction as generalizing s with
  | nil => cases h; exact h1
  | cons a as ih =>
    obtain ⟨s₁, h3, h4⟩ := Option.bind_eq_some_iff.1 h
    refine ih h4 ?_ fun t env n f hm => h2 t env n f (List.mem_cons_of_mem _ hm)
    cases a with
    | call t q =>
      simp only [APool.step] at h3
      split at h3 <;> cases h3
      exact h1
    | look t =>
      simp only [APool.step] at h3
      split at h3
      · split at h3 <;> (cases h3; exact h1)
      · cases h3
    | finish t env n f =>
      have hp := h2 t env n f (List.mem_cons_self ..)
      simp only [APool.step] at h3
      split at h3
      · split at h3
        · cases h3
        · split at h3
          · cases h3
          · split at h3 <;> cases h3 <;>
            · intro e he
              rcases List.mem_append.1 he with he | he
              · exact h1 e he
              · obtain rfl := List.mem_singleton.1 he
                exact hp
      · cases h3

/-- The conditions of the theorems of C84 can be met: over TLS, with the two threads above and the server of C83. -/
example (prof profS : Profile) : ∃ (s : APool TlsStream TlsStreamFactory) (c : AnyConn (Traced TlsStream)), APool.Reach prof id 2 2 s ∧ s.conns[0]? = some c ∧ s.log.length = 3 ∧ (s.sentOn 0).length = 2 ∧
    (∀ e ∈ s.log, ∃ connects, e.Https ⟨b!"example.com:443", 1000, 1⟩ connects) ∧ (∀ e ∈ s.sentOn 0, ∃ r, e.result = .ok r) ∧
    (∀ x ∈ c.all, ∀ q ∈ x.asked, q.Sendable ∧ AnyCut (requestBytes q)) ∧ c.all.length = 1 ∧ HttpsAct.Orderly 0 twoSecrets ∧ ∀ x ∈ c.all,
      ∃ (net : ANet (Traced TlsStream) Unit) (d : AConn (Traced TlsStream)), ANet.after profS aOrB 1 () (twoSecrets.map HttpsAct.act) = some net ∧ net.conns[0]? = some d ∧ x.Sealed d ∧
        (∀ a ∈ asksOn 0 net.asks, ∀ r, aOrB.Says a r → r.PartsLe 4096) ∧ ∀ a ∈ asksOn 0 net.asks, a.1 ∈ x.asked → ∃ r, aOrB.Says a r ∧ r.Sendable := by
  obtain ⟨s, h1, h2⟩ := Option.map_eq_some_iff.1 (two_threads prof)
  have hr : APool.Reach prof id 2 2 s := APool.run_reach (.new rfl) h1
  simp only [poolSight, PoolSight.mk.injEq] at h2
  obtain ⟨-, a1, a2⟩ := h2
  obtain ⟨c, a3, a4⟩ : ∃ c, s.conns[0]? = some c ∧ c.all.map AnyStream.seen =
      [⟨[ask 97, ask 98], requestBytes (ask 97) ++ requestBytes (ask 98), responseBytes (.ofBody b!"A") ++ responseBytes (.ofBody b!"B"), 0⟩] := by
    have := congrArg (fun l => l[0]?) a2
    simp only [List.getElem?_map, List.getElem?_cons_zero] at this
    exact Option.map_eq_some_iff.1 this
  obtain ⟨x, h3, h4⟩ := List.map_eq_singleton_iff.1 a4
  have hs : ∀ e ∈ s.log, ∃ connects, e.Https ⟨b!"example.com:443", 1000, 1⟩ connects := by
    have := run_log (P := fun env f => ∃ connects, env = id ∧ TlsStreamFactory.new ⟨b!"example.com:443", 1000, 1⟩ connects = some f ∧ ∀ p, .ok p ∈ connects → p.sock.sent = []) h1 nofun (by
      intro t env n f hm
      have hcl : ∀ inputs : List (List TlsEv), ∃ connects, (id : TlsStream → TlsStream) = id ∧
          TlsStreamFactory.new ⟨b!"example.com:443", 1000, 1⟩ connects = some (toyClient (inputs.map toyPeer)) ∧ ∀ p, .ok p ∈ connects → p.sock.sent = [] := by
        intro inputs
        refine ⟨(inputs.map toyPeer).map .ok, rfl, toyClient_new _, fun p hm => ?_⟩
        obtain ⟨p', h5, h6⟩ := List.mem_map.1 hm
        cases h6
        obtain ⟨i, -, rfl⟩ := List.mem_map.1 h5
        rfl
      simp only [twoThreads, List.mem_cons, reduceCtorEq, List.not_mem_nil, or_false, false_or] at hm
      rcases hm with hm | hm | hm <;> cases hm
      · exact hcl [_]
      · exact hcl [_]
      · exact hcl [])
    exact this
  have hx : x ∈ c.all := by rw [h3]; exact List.mem_singleton.2 rfl
  obtain ⟨-, -, -, -, -, -, -, g1, -⟩ := C84_tls hr a3 hs x hx
  obtain ⟨net, d, h5, h6, h7⟩ := told_of (two_secrets profS)
  obtain ⟨-, -, -, -, -, g2⟩ := C78_tls h5 h6
  simp only [AnyStream.seen, SeenTls.mk.injEq] at h4
  simp only [Prod.mk.injEq] at h7
  refine ⟨s, c, hr, a3, by simpa using congrArg List.length a1, ?_, hs, ?_, ?_, by rw [h3]; rfl, twoSecrets_orderly, ?_⟩
  · have := congrArg (fun l => (l.filter fun y => decide (y.1 = 0)).length) a1
    simp only [List.filter_map, List.length_map] at this
    exact this
  · intro e he
    have := List.mem_map_of_mem (f := fun e : ASent TlsStream TlsStreamFactory => (e.conn, e.thread, e.request, e.result)) (List.mem_filter.1 he).1
    rw [a1] at this
    simp only [List.mem_cons, Prod.mk.injEq, List.not_mem_nil, or_false] at this
    rcases this with h | h | h <;> exact ⟨_, h.2.2.2⟩
  · intro y hy q hq
    rw [h3] at hy
    obtain rfl := List.mem_singleton.1 hy
    rw [h4.1] at hq
    simp only [List.mem_cons, List.not_mem_nil, or_false] at hq
    rcases hq with rfl | rfl <;> exact ⟨ask_sendable _ (by decide), anyCut_ascii (by decide +kernel)⟩
  · intro y hy
    rw [h3] at hy
    obtain rfl := List.mem_singleton.1 hy
    refine ⟨net, d, h5, h6, ⟨?_, ?_⟩, fun a _ => aOrB_small a, fun a _ _ => aOrB_sendable a⟩
    · rw [g1, h4.2.1, h7.1]; decide +kernel
    · rw [h4.2.2.1, g2, h7.2]; exact List.prefix_refl _

/-- Two threads share a client with one connection. The call of the first fails, because two servers are late; those of the second are answered by a third server. -/
def afterFailure : List (PAct TlsStream TlsStreamFactory) := [.call 0 (ask 97), .call 1 (ask 98), .look 0, .look 1, .finish 0 id 20 (toyClient (latePeers.take 2)), .look 1, .look 1,
  .finish 1 id 20 (toyClient (latePeers.drop 2)), .call 1 (ask 99), .look 1, .finish 1 id 20 (toyClient [])]

/-- The conditions of `C84_calls_partial` can be met after a call that failed. -/
example (prof : Profile) : ∃ (s : APool TlsStream TlsStreamFactory) (c : AnyConn (Traced TlsStream)), APool.Reach prof id 1 2 s ∧ s.conns[0]? = some c ∧
    ReturnedCleanly ((s.sentOn 0).map ASent.call) 2 (ask 99) (echo (ask 99)) 3 ∧ ∀ x ∈ c.all, ∃ b, x.traced.got <+: b ∧ x.Honest echo b := by
  obtain ⟨s, h1, h2⟩ := Option.map_eq_some_iff.1 (show (APool.run prof id afterFailure ⟨[.new], [.free], [.idle, .idle], []⟩).map
      (fun s => (((s.sentOn 0).map ASent.call).map (fun k => (k.result, k.opened)), ((s.sentOn 0).map ASent.call).map Call.request, s.conns.map fun c => c.all.map AnyStream.seen)) =
      some ([(.err (.reading .wouldBlock), 2), (.ok (echo (ask 98)), 3), (.ok (echo (ask 99)), 3)], [ask 97, ask 98, ask 99],
        [[⟨[ask 97], requestBytes (ask 97), [], 0⟩, ⟨[ask 97, ask 98], requestBytes (ask 97) ++ requestBytes (ask 98), [], 0⟩,
          ⟨[ask 98, ask 99], requestBytes (ask 98) ++ requestBytes (ask 99), [98, 99].flatMap fun c => responseBytes (echo (ask c)), 0⟩]]) by
    rcases prof with ⟨_ | _⟩ <;> decide +kernel)
  simp only [Prod.mk.injEq] at h2
  obtain ⟨h2, h3, h4⟩ := h2
  obtain ⟨c, h5, h6⟩ := List.map_eq_singleton_iff.1 h4
  refine ⟨s, c, APool.run_reach (.new rfl) h1, by rw [h5]; rfl, returned_third h2 h3, ?_⟩
  refine toy_honest (ys := [([97], []), ([97, 98], []), ([98, 99], [98, 99].flatMap fun c => responseBytes (echo (ask c)))]) ?_ (by decide +kernel)
  have := congrArg (List.map fun (e : SeenTls) => (e.asked, e.got)) h6
  rw [List.map_map] at this
  exact this

end Verif
