import Verif.Spec.ClientCalls
import Verif.Props.Client
import Verif.Props.ClientAny

/-! C46, C76: calls of `send` on one connection, however they end. -/

namespace Verif

/-- No call has failed on the stream with number `n`. -/
def NoneFailed (n : Nat) (ks : List Call) : Prop := ∀ k ∈ ks, k.opened = n → ∃ r, k.result = .ok r

theorem firstOnes_append {ks ls : List Call} (h : ∀ k ∈ ks, ∃ r, k.result = .ok r) : firstOnes (ks ++ ls) = firstOnes ks ++ firstOnes ls := by
  induction ks with
  | nil => rfl
  | cons k ks ih =>
    obtain ⟨r, hr⟩ := h k (List.mem_cons_self ..)
    simp only [List.cons_append, firstOnes, hr, List.cons.injEq, true_and]
    exact ih fun k hk => h k (List.mem_cons_of_mem _ hk)

theorem firstOnes_stop {ks ls : List Call} {k : Call} (hk : k ∈ ks) (h : ∀ r, k.result ≠ .ok r) : firstOnes (ks ++ ls) = firstOnes ks := by
  induction ks with
  | nil => cases hk
  | cons k' ks ih =>
    rw [List.cons_append, firstOnes, firstOnes]
    split
    · rcases List.mem_cons.1 hk with rfl | hk
      · rename_i hr
        exact absurd hr (h _)
      · rw [ih hk]
    · rfl

theorem onStream_other {n : Nat} {ks : List Call} {k : Call} (h : k.opened ≠ n) : onStream n (ks ++ [k]) = onStream n ks := by
  simp [onStream, h]

theorem onStream_ok {n : Nat} {ks : List Call} {k : Call} {r : Response} (h : NoneFailed n ks) (h1 : k.opened = n) (h2 : k.result = .ok r) : onStream n (ks ++ [k]) = onStream n ks ++ [(k.request, r)] := by
  have : ([k].filter fun k => k.opened == n) = [k] := by simp [h1]
  rw [onStream, List.filter_append, this, firstOnes_append (fun k hk => h k (List.mem_filter.1 hk).1 (by simpa using (List.mem_filter.1 hk).2))]
  simp [firstOnes, h2, onStream]

theorem onStream_failed {n : Nat} {ks : List Call} {k : Call} (h : ¬ (NoneFailed n ks ∧ ∃ r, k.result = .ok r)) : onStream n (ks ++ [k]) = onStream n ks := by
  by_cases h1 : k.opened = n
  rotate_left
  · exact onStream_other h1
  by_cases h2 : NoneFailed n ks
  · have : ([k].filter fun k => k.opened == n) = [k] := by simp [h1]
    rw [onStream, List.filter_append, this, firstOnes_append (fun k hk => h2 k (List.mem_filter.1 hk).1 (by simpa using (List.mem_filter.1 hk).2))]
    have h3 : firstOnes [k] = [] := by
      rw [firstOnes]
      split
      · rename_i hr
        exact absurd ⟨h2, _, hr⟩ h
      · rfl
    rw [h3, List.append_nil, onStream]
  · have : ∃ k ∈ ks, k.opened = n ∧ ∀ r, k.result ≠ .ok r := by
      apply Classical.byContradiction
      intro hn
      refine h2 fun k hk hkn => Classical.byContradiction fun hr => hn ⟨k, hk, hkn, fun r hr' => hr ⟨r, hr'⟩⟩
    obtain ⟨k', hk, hkn, hr⟩ := this
    rw [onStream, List.filter_append, firstOnes_stop (k := k') (List.mem_filter.2 ⟨hk, by simp [hkn]⟩) hr, onStream]

theorem onStream_fresh {n : Nat} {ks : List Call} (h : ∀ k ∈ ks, k.opened < n) : onStream n ks = [] := by
  have : ks.filter (fun k => k.opened == n) = [] := by
    rw [List.filter_eq_nil_iff]
    intro k hk
    have := h k hk
    simp
    omega
  rw [onStream, this, firstOnes]

theorem NoneFailed.append {n : Nat} {ks ls : List Call} : NoneFailed n (ks ++ ls) ↔ NoneFailed n ks ∧ NoneFailed n ls :=
  ⟨fun h => ⟨fun k hk => h k (List.mem_append_left _ hk), fun k hk => h k (List.mem_append_right _ hk)⟩, fun h k hk => (List.mem_append.1 hk).elim (h.1 k) (h.2 k)⟩

theorem Logged.fails {prof : Profile} {s : ClientStream} {es : List (Request × Response)} {fl : List Request} {pre rest : List Atom} {q : Request} (h : Logged s es fl pre rest) :
    Logged (sendRequest prof s q).2 es (fl ++ [q]) pre rest := by
  obtain ⟨h1, h2, -⟩ := sendRequest_out prof s q
  exact ⟨by simp [h1, h.asked], by rw [h2, h.given], h.read⟩

/-- What is known of the stream with number `n`. -/
structure StreamLogged (n : Nat) (ks : List Call) (s : ClientStream) : Prop where
  some : ∃ fl pre rest, Logged s (onStream n ks) fl pre rest
  all : NoneFailed n ks → s.reader.lims = [] ∧ ∃ pre, Logged s (onStream n ks) [] pre s.reader.src.atoms

theorem StreamLogged.attempt {prof : Profile} {n : Nat} {ks : List Call} {s : ClientStream} {q : Request} {x : SendEnd} (h : StreamLogged n ks s) (hx : ∀ r, x = .ok r → (sendRequest prof s q).1 = .ok r) :
    StreamLogged n (ks ++ [⟨q, x, n⟩]) (sendRequest prof s q).2 := by
  have key : ∀ r, x = .ok r → NoneFailed n ks → (sendRequest prof s q).2.reader.lims = [] ∧
      ∃ pre, Logged (sendRequest prof s q).2 (onStream n (ks ++ [⟨q, x, n⟩])) [] pre (sendRequest prof s q).2.reader.src.atoms := by
    intro r hr hn
    obtain ⟨hl, pre, hlog⟩ := h.all hn
    rw [onStream_ok hn rfl hr]
    exact hlog.answered (prof := prof) hl (Prod.ext (hx r hr) rfl)
  constructor
  · by_cases hn : NoneFailed n ks ∧ ∃ r, x = .ok r
    · obtain ⟨hn, r, hr⟩ := hn
      obtain ⟨-, pre, hlog⟩ := key r hr hn
      exact ⟨_, _, _, hlog⟩
    · rw [onStream_failed hn]
      obtain ⟨fl, pre, rest, hlog⟩ := h.some
      exact ⟨_, _, _, hlog.fails⟩
  · intro hn
    rw [NoneFailed.append] at hn
    obtain ⟨r, hr⟩ := hn.2 _ (List.mem_singleton_self _) rfl
    exact key r hr hn.1

/-- What is known of a connection after some calls. -/
structure CallsLogged (ks : List Call) (c : ClientConn) : Prop where
  none : c.stream = none → c.dropped = []
  le : ∀ k ∈ ks, k.opened ≤ c.all.length
  dropped : ∀ (m : Nat) (s : ClientStream), c.dropped[m]? = some s → ∃ fl pre rest, Logged s (onStream (m + 1) ks) fl pre rest
  stream : ∀ s, c.stream = some s → StreamLogged (c.dropped.length + 1) ks s

section

variable {F : Type} [StreamFactory F] {prof : Profile}

theorem CallsLogged.step {ks : List Call} {c c' : ClientConn} {f f' : F} {q : Request} {x : SendEnd} (h : CallsLogged ks c) (hs : c.send prof f q = (x, c', f')) :
    CallsLogged (ks ++ [⟨q, x, c'.all.length⟩]) c' := by
  rcases send_cases hs with ⟨h1, rfl, -, -⟩ | ⟨s, raws, f₁, hb, hk⟩
  · have h2 := h.none h1
    refine ⟨h.none, ?_, fun m s hm => (by rw [h2] at hm; cases hm), fun s hs => (by rw [h1] at hs; cases hs)⟩
    intro k hk
    rcases List.mem_append.1 hk with hk | hk
    · exact h.le k hk
    · rw [List.mem_singleton.1 hk]
      exact Nat.le_refl _
  · have hst : StreamLogged (c.dropped.length + 1) ks s ∧ ∀ k ∈ ks, k.opened ≤ c.dropped.length + 1 := by
      cases hb with
      | had hs => exact ⟨h.stream s hs, fun k hk => by have := h.le k hk; simpa [ClientConn.all, hs] using this⟩
      | @opened raw _ hs hcr =>
        have hd := h.none hs
        have hle : ∀ k ∈ ks, k.opened < 1 := fun k hk => by have := h.le k hk; simp [ClientConn.all, hs, hd] at this; omega
        refine ⟨?_, fun k hk => Nat.le_trans (Nat.le_of_lt (hle k hk)) (by omega)⟩
        have h0 : onStream (c.dropped.length + 1) ks = [] := onStream_fresh fun k hk => Nat.lt_of_lt_of_le (hle k hk) (by omega)
        exact ⟨⟨_, _, _, by rw [h0]; exact .opened raw⟩, fun _ => ⟨rfl, [], by rw [h0]; exact .opened raw⟩⟩
    obtain ⟨hst, hle⟩ := hst
    have first : (∀ r, x = .ok r → (sendRequest prof s q).1 = .ok r) → c' = ⟨some (sendRequest prof s q).2, c.dropped⟩ → CallsLogged (ks ++ [⟨q, x, c'.all.length⟩]) c' := by
      rintro hx rfl
      have hlen : (ClientConn.mk (some (sendRequest prof s q).2) c.dropped).all.length = c.dropped.length + 1 := by simp [ClientConn.all]
      rw [hlen]
      refine ⟨nofun, ?_, ?_, ?_⟩
      · intro k hk
        rw [hlen]
        rcases List.mem_append.1 hk with hk | hk
        · exact hle k hk
        · rw [List.mem_singleton.1 hk]
          exact Nat.le_refl _
      · intro m s' hm
        have := (List.getElem?_eq_some_iff.1 hm).1
        rw [onStream_other (show c.dropped.length + 1 ≠ m + 1 by dsimp only at this; omega)]
        exact h.dropped m s' hm
      · intro s' hs'
        cases hs'
        exact hst.attempt hx
    rcases hk with ⟨-, hx, -, rfl⟩ | ⟨-, ⟨-, hx, rfl, -⟩ | ⟨raw, -, hx, rfl⟩⟩
    · exact first (fun r hr => by rw [← hx, hr]) rfl
    · exact first (fun r hr => absurd hr (hx r)) rfl
    · have hlen : (ClientConn.mk (some (sendRequest prof (.open raw) q).2) (c.dropped ++ [(sendRequest prof s q).2.drop])).all.length = c.dropped.length + 2 := by simp [ClientConn.all]
      rw [hlen]
      have h0 : onStream (c.dropped.length + 2) ks = [] := onStream_fresh fun k hk => Nat.lt_of_le_of_lt (hle k hk) (by omega)
      refine ⟨nofun, ?_, ?_, ?_⟩
      · intro k hk
        rw [hlen]
        rcases List.mem_append.1 hk with hk | hk
        · exact Nat.le_trans (hle k hk) (by omega)
        · rw [List.mem_singleton.1 hk]
          exact Nat.le_refl _
      · intro m s' hm
        dsimp only at hm
        rw [List.getElem?_append] at hm
        split at hm
        · rw [onStream_other (show c.dropped.length + 2 ≠ m + 1 by omega)]
          exact h.dropped m s' hm
        · obtain ⟨h1, h2⟩ := List.getElem?_eq_some_iff.1 hm
          simp only [List.length_singleton] at h1
          have h3 : m = c.dropped.length := by omega
          subst h3
          rw [onStream_other (show c.dropped.length + 2 ≠ c.dropped.length + 1 by omega)]
          simp only [Nat.sub_self, List.getElem_cons_zero] at h2
          subst h2
          obtain ⟨fl, pre, rest, hlog⟩ := hst.some
          exact ⟨_, _, _, hlog.fails.drop⟩
      · intro s' hs'
        cases hs'
        have : StreamLogged (c.dropped.length + 2) ks (.open raw) := ⟨⟨_, _, _, by rw [h0]; exact .opened raw⟩, fun _ => ⟨rfl, [], by rw [h0]; exact .opened raw⟩⟩
        have := this.attempt (prof := prof) (q := q) (x := x) fun r hr => by rw [← hx, hr]
        simpa using this

theorem CallsLogged.all {ks : List Call} {c c' : ClientConn} {f f' : F} {qs : List Request} {os : List SendEnd} (h : CallsLogged ks c) (hs : sendAll prof qs c f = (os, c', f')) :
    CallsLogged (ks ++ calls prof qs c f) c' := by
  induction qs generalizing ks c f os with
  | nil =>
    cases hs
    rw [calls, List.append_nil]
    exact h
  | cons q qs ih =>
    unfold sendAll at hs
    unfold calls
    cases hc : c.send prof f q with
    | mk x y =>
    obtain ⟨c₁, f₁⟩ := y
    rw [hc] at hs
    dsimp only at hs ⊢
    cases ht : sendAll prof qs c₁ f₁ with
    | mk os' y =>
    obtain ⟨c₂, f₂⟩ := y
    rw [ht] at hs
    cases hs
    have := ih (h.step hc) ht
    rwa [List.append_assoc] at this

theorem CallsLogged.new : CallsLogged [] .new := ⟨fun _ => rfl, nofun, nofun, nofun⟩

/-- What is known of each stream. -/
theorem calls_logged {qs : List Request} {c : ClientConn} {f f' : F} {os : List SendEnd} (h : sendAll prof qs .new f = (os, c, f')) {m : Nat} {s : ClientStream} (hs : c.all[m]? = some s) :
    ∃ fl pre rest, Logged s (onStream (m + 1) (calls prof qs .new f)) fl pre rest := by
  have hl := CallsLogged.new.all h
  rw [List.nil_append] at hl
  unfold ClientConn.all at hs
  rw [List.getElem?_append] at hs
  split at hs
  · exact hl.dropped m s hs
  · obtain ⟨h1, h2⟩ := List.getElem?_eq_some_iff.1 hs
    cases hc : c.stream with
    | none => simp [hc] at h1
    | some s' =>
      simp only [hc, Option.toList_some, List.length_singleton] at h1
      have h3 : m = c.dropped.length := by omega
      subst h3
      simp only [hc, Option.toList_some, Nat.sub_self, List.getElem_cons_zero] at h2
      subst h2
      exact (hl.stream _ hc).some

end

theorem ReturnedCleanly.mem {ks : List Call} {i : Nat} {q : Request} {r : Response} {n : Nat} (h : ReturnedCleanly ks i q r n) : (q, r) ∈ onStream n ks := by
  obtain ⟨h1, h2⟩ := h
  induction ks generalizing i with
  | nil => simp at h1
  | cons k ks ih =>
    cases i with
    | zero =>
      cases h1
      simp [onStream, firstOnes]
    | succ i =>
      have := ih h1 fun j hj k hk => h2 (j + 1) (by omega) k hk
      by_cases hk : k.opened = n
      · obtain ⟨r', hr⟩ := h2 0 (by omega) k rfl hk
        unfold onStream
        rw [List.filter_cons_of_pos (by simp [hk]), firstOnes, hr]
        exact List.mem_cons_of_mem _ this
      · unfold onStream
        rwa [List.filter_cons_of_neg (by simp [hk])]

section

variable {F : Type} [StreamFactory F] {prof : Profile}

theorem calls_opened {qs : List Request} {c c' : ClientConn} {f f' : F} {os : List SendEnd} (h : sendAll prof qs c f = (os, c', f')) {q : Request} {r : Response} {n : Nat}
    (hk : ⟨q, .ok r, n⟩ ∈ calls prof qs c f) : 0 < n ∧ n ≤ c'.all.length := by
  have mono : ∀ {qs : List Request} {c c' : ClientConn} {f f' : F} {os : List SendEnd}, sendAll prof qs c f = (os, c', f') → c.all.length ≤ c'.all.length := by
    intro qs
    induction qs with
    | nil => intro c c' f f' os h; cases h; exact Nat.le_refl _
    | cons q qs ih =>
      intro c c' f f' os h
      unfold sendAll at h
      cases hc : c.send prof f q with
      | mk x y =>
      obtain ⟨c₁, f₁⟩ := y
      rw [hc] at h
      dsimp only at h
      cases ht : sendAll prof qs c₁ f₁ with
      | mk os' y =>
      obtain ⟨c₂, f₂⟩ := y
      rw [ht] at h
      cases h
      refine Nat.le_trans ?_ (ih ht)
      rcases send_cases hc with ⟨-, rfl, -, -⟩ | ⟨s, raws, f₁, hb, hk⟩
      · exact Nat.le_refl _
      · have : c.all.length ≤ c.dropped.length + 1 := by
          unfold ClientConn.all
          cases c.stream <;> simp
        rcases hk with ⟨-, -, -, rfl⟩ | ⟨-, ⟨-, -, rfl, -⟩ | ⟨raw, -, -, rfl⟩⟩
        all_goals
          refine Nat.le_trans this ?_
          simp [ClientConn.all]
  induction qs generalizing c f os with
  | nil => simp [calls] at hk
  | cons p qs ih =>
    unfold sendAll at h
    unfold calls at hk
    cases hc : c.send prof f p with
    | mk x y =>
    obtain ⟨c₁, f₁⟩ := y
    rw [hc] at h hk
    dsimp only at h hk
    cases ht : sendAll prof qs c₁ f₁ with
    | mk os' y =>
    obtain ⟨c₂, f₂⟩ := y
    rw [ht] at h
    cases h
    rcases List.mem_cons.1 hk with hk | hk
    · cases hk
      refine ⟨?_, mono ht⟩
      rcases send_cases hc with ⟨-, -, -, ⟨e, -, h⟩ | ⟨-, h⟩⟩ | ⟨s, raws, f₁, hb, hk⟩
      · cases h
      · cases h
      · rcases hk with ⟨-, -, -, rfl⟩ | ⟨-, ⟨-, -, rfl, -⟩ | ⟨raw, -, -, rfl⟩⟩
        all_goals simp [ClientConn.all]
    · exact ih ht hk

/-- C46 (partial: for calls that return a response from a stream on which no call has failed before; and answers that say where they end): calls of `send` on one connection, however each of them ends. If a call returned a response, and the
server on the stream that it came from is honest, then it is the response to the request of this call. -/
theorem C46_calls_partial {qs : List Request} {c : ClientConn} {f f' : F} {os : List SendEnd} (h : sendAll prof qs .new f = (os, c, f')) {i : Nat} {q : Request} {r : Response} {n : Nat}
    (hi : ReturnedCleanly (calls prof qs .new f) i q r n) : ∃ s, c.all[n - 1]? = some s ∧ ∀ ans, s.Honest ans → r = ans q := by
  obtain ⟨h1, h2⟩ := calls_opened h (List.mem_of_getElem? hi.call)
  have hs : c.all[n - 1]? = some c.all[n - 1] := List.getElem?_eq_getElem (by omega)
  obtain ⟨fl, pre, rest, hlog⟩ := calls_logged h hs
  rw [show n - 1 + 1 = n by omega] at hlog
  exact ⟨_, hs, fun ans hh => hlog.right hh _ hi.mem⟩

/-- C46: the calls on each stream, until one failed on it, are the first that were made on it, and if what the stream delivers is the beginning of the texts of some responses, these are the responses that were returned, in order. -/
theorem C46_calls_streams_partial {qs : List Request} {c : ClientConn} {f f' : F} {os : List SendEnd} (h : sendAll prof qs .new f = (os, c, f')) {m : Nat} {s : ClientStream} (hs : c.all[m]? = some s) :
    (onStream (m + 1) (calls prof qs .new f)).map Prod.fst <+: s.asked ∧
      ∀ ws : List (Bytes × Response), (∀ w ∈ ws, ∃ f, f ≠ .untilEof ∧ FittingResponse w.1 f w.2) → bytesOf s.given <+: ws.flatMap Prod.fst →
        (onStream (m + 1) (calls prof qs .new f)).map Prod.snd <+: ws.map Prod.snd := by
  obtain ⟨fl, pre, rest, hlog⟩ := calls_logged h hs
  exact ⟨by rw [hlog.asked]; exact List.prefix_append _ _, fun ws => hlog.first⟩

end

theorem AnyStream.AllLike.getElem {T : Type} {xs : List (AnyStream (Traced T))} {ss : List ClientStream} (h : AnyStream.AllLike xs ss) {m : Nat} {s : ClientStream} (hs : ss[m]? = some s) :
    ∃ x, xs[m]? = some x ∧ x.Like s := by
  induction h generalizing m with
  | nil => simp at hs
  | cons hl _ ih =>
    cases m with
    | zero => cases hs; exact ⟨_, rfl, hl⟩
    | succ m => exact ih hs

theorem AnyStream.AllLike.getElem' {T : Type} {xs : List (AnyStream (Traced T))} {ss : List ClientStream} (h : AnyStream.AllLike xs ss) {m : Nat} {x : AnyStream (Traced T)} (hx : xs[m]? = some x) :
    ∃ s, ss[m]? = some s ∧ x.Like s := by
  induction h generalizing m with
  | nil => simp at hx
  | cons hl _ ih =>
    cases m with
    | zero => cases hx; exact ⟨_, rfl, hl⟩
    | succ m => exact ih hx

/-- C76 (partial: for calls that return a response from a stream on which no call has failed before; and answers that say where they end): calls of `send` on one connection over streams of any kind, whatever the raw streams do meanwhile and
however each of the calls ends. If a call returned a response, and the server on the stream that it came from is honest, then it is the response to the request of this call. -/
theorem C76_calls_partial {T F : Type} [RawIO T] [AnyFactory T F] {prof : Profile} (hT : RawIO.Honest T) (hR : RawIO.ReadsWithin T) (offer : Nat → Nat) (qs : List ((T → T) × Nat × Request)) {f f' : F} {os : List SendEnd}
    {c : AnyConn (Traced T)} (h : AnyConn.sendAll prof offer qs .new f = some (os, c, f')) {i : Nat} {q : Request} {r : Response} {n : Nat} (hi : ReturnedCleanly (AnyConn.calls prof offer qs .new f) i q r n) :
    ∃ x, c.all[n - 1]? = some x ∧ ∀ ans b, x.traced.got <+: b → x.Honest ans b → r = ans q := by
  obtain ⟨script, d, h1, h2, -, h4⟩ := C76_client hT hR offer qs h
  rw [← h4] at hi
  obtain ⟨s, h5, h6⟩ := C46_calls_partial h1 hi
  obtain ⟨x, h7, hl⟩ := h2.getElem h5
  refine ⟨x, h7, fun ans b k1 ⟨ws, k2, k3, k4⟩ => h6 ans ⟨ws, by rw [k2, hl.asked], k3, ?_⟩⟩
  rw [hl.given]
  rcases k4 with k4 | k4
  · exact .inl (k1.trans k4)
  · exact List.prefix_or_prefix_of_prefix k1 k4

/-- The calls are those that `sendAll` makes. -/
theorem AnyConn.calls_results {T F : Type} [RawIO T] [AnyFactory T F] {prof : Profile} {offer : Nat → Nat} {qs : List ((T → T) × Nat × Request)} {c c' : AnyConn (Traced T)} {f f' : F} {os : List SendEnd}
    (h : AnyConn.sendAll prof offer qs c f = some (os, c', f')) : (AnyConn.calls prof offer qs c f).map Call.result = os ∧ (AnyConn.calls prof offer qs c f).map Call.request = qs.map fun p => p.2.2 := by
  induction qs generalizing c f os with
  | nil => cases h; exact ⟨rfl, rfl⟩
  | cons p qs ih =>
    obtain ⟨env, n, q⟩ := p
    unfold AnyConn.sendAll at h
    unfold AnyConn.calls
    cases hs : (c.turn env n).send prof offer n f q with
    | mk o y =>
    obtain ⟨c₁, f₁⟩ := y
    rw [hs] at h
    cases o with
    | diverge => cases h
    | _ =>
      dsimp only at h ⊢
      split at h
      · cases h
      · obtain ⟨⟨os', c₂, f₂⟩, h1, h2⟩ := Option.map_eq_some_iff.1 h
        cases h2
        obtain ⟨i1, i2⟩ := ih h1
        exact ⟨by rw [List.map_cons, i1], by rw [List.map_cons, List.map_cons, i2]⟩

/-! ## What was sent -/

/-- What is known of what was written on the stream with number `n`. -/
structure StreamWrote (n : Nat) (ks : List Call) (s : ClientStream) : Prop where
  all : (∀ k ∈ ks, k.opened = n → k.Wrote) → s.out = s.asked.flatMap requestBytes
  last : WroteWhole n ks → s.out <+: s.asked.flatMap requestBytes

theorem StreamWrote.opened (n : Nat) (ks : List Call) (raw : RawStream) : StreamWrote n ks (.open raw) := ⟨fun _ => rfl, fun _ => List.prefix_refl _⟩

theorem StreamWrote.tried {prof : Profile} {n : Nat} {ks : List Call} {s : ClientStream} {q : Request} (h : StreamWrote n ks s) (hw : ∀ k ∈ ks, k.opened = n → k.Wrote) :
    (sendRequest prof s q).2.out <+: (sendRequest prof s q).2.asked.flatMap requestBytes := by
  obtain ⟨o1, -, o3, -⟩ := sendRequest_out prof s q
  rw [h.all hw] at o3
  rw [o1, List.flatMap_append]
  simpa using o3

theorem StreamWrote.attempt {prof : Profile} {n : Nat} {ks : List Call} {s : ClientStream} {q : Request} {x : SendEnd} (h : StreamWrote n ks s)
    (hx : x = (sendRequest prof s q).1 ∨ (∃ e, x = .err (.connecting e)) ∨ x = .panic) : StreamWrote n (ks ++ [⟨q, x, n⟩]) (sendRequest prof s q).2 := by
  refine ⟨fun hw => ?_, fun hw => h.tried (by rwa [WroteWhole, List.dropLast_concat] at hw)⟩
  have hall := h.all fun k hk => hw k (List.mem_append_left _ hk)
  have hk : Call.Wrote ⟨q, x, n⟩ := hw _ (List.mem_append_right _ (List.mem_singleton_self _)) rfl
  have hx : x = (sendRequest prof s q).1 := by
    rcases hx with hx | ⟨e, rfl⟩ | rfl
    · exact hx
    · rcases hk with ⟨r, hr⟩ | ⟨e, hr⟩ | ⟨e, hr⟩ <;> cases hr
    · rcases hk with ⟨r, hr⟩ | ⟨e, hr⟩ | ⟨e, hr⟩ <;> cases hr
  obtain ⟨o1, -, -, -, o2⟩ := sendRequest_out prof s q
  obtain ⟨o3, o4⟩ := o2 (by
    intro e he
    rw [← hx] at he
    subst he
    rcases hk with ⟨r, hr⟩ | ⟨e, hr⟩ | ⟨e, hr⟩ <;> cases hr)
  rw [ClientStream.out, o3, o4, o1, hall]
  simp

/-- What is known of what was sent after some calls. -/
structure CallsWrote (ks : List Call) (c : ClientConn) : Prop where
  none : c.stream = none → c.dropped = []
  dropped : ∀ (m : Nat) (s : ClientStream), c.dropped[m]? = some s → WroteWhole (m + 1) ks → s.writer.sock.sent <+: s.asked.flatMap requestBytes
  stream : ∀ s, c.stream = some s → StreamWrote (c.dropped.length + 1) ks s

theorem WroteWhole.before {n : Nat} {ks : List Call} {k : Call} (h : WroteWhole n (ks ++ [k])) : WroteWhole n ks := by
  rw [WroteWhole, List.dropLast_concat] at h
  exact fun k hk => h k (List.dropLast_subset ks hk)

section

variable {F : Type} [StreamFactory F] {prof : Profile}

theorem CallsWrote.step {ks : List Call} {c c' : ClientConn} {f f' : F} {q : Request} {x : SendEnd} (h : CallsWrote ks c) (hs : c.send prof f q = (x, c', f')) :
    CallsWrote (ks ++ [⟨q, x, c'.all.length⟩]) c' := by
  rcases send_cases hs with ⟨h1, rfl, -, -⟩ | ⟨s, raws, f₁, hb, hk⟩
  · have h2 := h.none h1
    exact ⟨h.none, fun m s hm => (by rw [h2] at hm; cases hm), fun s hs => (by rw [h1] at hs; cases hs)⟩
  · have hst : StreamWrote (c.dropped.length + 1) ks s := by
      cases hb with
      | had hs => exact h.stream s hs
      | opened hs hcr => exact .opened _ _ _
    have first : (x = (sendRequest prof s q).1 ∨ (∃ e, x = .err (.connecting e)) ∨ x = .panic) → c' = ⟨some (sendRequest prof s q).2, c.dropped⟩ → CallsWrote (ks ++ [⟨q, x, c'.all.length⟩]) c' := by
      rintro hx rfl
      have hlen : (ClientConn.mk (some (sendRequest prof s q).2) c.dropped).all.length = c.dropped.length + 1 := by simp [ClientConn.all]
      rw [hlen]
      refine ⟨nofun, fun m s' hm hw => h.dropped m s' hm hw.before, fun s' hs' => ?_⟩
      cases hs'
      exact hst.attempt hx
    rcases hk with ⟨-, hx, -, rfl⟩ | ⟨-, ⟨-, -, rfl, hx⟩ | ⟨raw, -, hx, rfl⟩⟩
    · exact first (.inl hx) rfl
    · refine first (.inr ?_) rfl
      rcases hx with ⟨e, -, hx⟩ | ⟨-, hx⟩
      · exact .inl ⟨e, hx⟩
      · exact .inr hx
    · have hlen : (ClientConn.mk (some (sendRequest prof (.open raw) q).2) (c.dropped ++ [(sendRequest prof s q).2.drop])).all.length = c.dropped.length + 2 := by simp [ClientConn.all]
      rw [hlen]
      refine ⟨nofun, ?_, ?_⟩
      · intro m s' hm hw
        dsimp only at hm
        rw [List.getElem?_append] at hm
        split at hm
        · exact h.dropped m s' hm hw.before
        · obtain ⟨h1, h2⟩ := List.getElem?_eq_some_iff.1 hm
          simp only [List.length_singleton] at h1
          have h3 : m = c.dropped.length := by omega
          subst h3
          simp only [Nat.sub_self, List.getElem_cons_zero] at h2
          subst h2
          rw [WroteWhole, List.dropLast_concat] at hw
          have := hst.tried (prof := prof) (q := q) hw
          rw [← drop_out] at this
          rw [drop_asked]
          exact (List.prefix_append _ _).trans this
      · intro s' hs'
        cases hs'
        have := (StreamWrote.opened (c.dropped.length + 2) ks raw).attempt (prof := prof) (q := q) (x := x) (.inl hx)
        simpa using this

theorem CallsWrote.all {ks : List Call} {c c' : ClientConn} {f f' : F} {qs : List Request} {os : List SendEnd} (h : CallsWrote ks c) (hs : sendAll prof qs c f = (os, c', f')) :
    CallsWrote (ks ++ calls prof qs c f) c' := by
  induction qs generalizing ks c f os with
  | nil =>
    cases hs
    rw [calls, List.append_nil]
    exact h
  | cons q qs ih =>
    unfold sendAll at hs
    unfold calls
    cases hc : c.send prof f q with
    | mk x y =>
    obtain ⟨c₁, f₁⟩ := y
    rw [hc] at hs
    dsimp only at hs ⊢
    cases ht : sendAll prof qs c₁ f₁ with
    | mk os' y =>
    obtain ⟨c₂, f₂⟩ := y
    rw [ht] at hs
    cases hs
    have := ih (h.step hc) ht
    rwa [List.append_assoc] at this

/-- C46 (partial: unless a call was made on the stream after one that could not write its request whole): however the calls end, what was sent on the stream is a beginning of the requests that were given to it,
one after the other. -/
theorem C46_calls_sent_partial {qs : List Request} {c : ClientConn} {f f' : F} {os : List SendEnd} (h : sendAll prof qs .new f = (os, c, f')) {m : Nat} {s : ClientStream} (hs : c.all[m]? = some s)
    (hw : WroteWhole (m + 1) (calls prof qs .new f)) : s.writer.sock.sent <+: s.asked.flatMap requestBytes := by
  have hl := (show CallsWrote [] ClientConn.new from ⟨fun _ => rfl, nofun, nofun⟩).all h
  rw [List.nil_append] at hl
  unfold ClientConn.all at hs
  rw [List.getElem?_append] at hs
  split at hs
  · exact hl.dropped m s hs hw
  · obtain ⟨h1, h2⟩ := List.getElem?_eq_some_iff.1 hs
    cases hc : c.stream with
    | none => simp [hc] at h1
    | some s' =>
      simp only [hc, Option.toList_some, List.length_singleton] at h1
      have h3 : m = c.dropped.length := by omega
      subst h3
      simp only [hc, Option.toList_some, Nat.sub_self, List.getElem_cons_zero] at h2
      subst h2
      exact (List.prefix_append _ _).trans ((hl.stream _ hc).last hw)

end

/-- C76 (partial: unless a call was made on the stream after one that could not write its request whole): however the calls of `send` on a connection over streams of any kind end, what was sent on the stream is a beginning of the requests
that were given to it, one after the other. -/
theorem C76_calls_sent_partial {T F : Type} [RawIO T] [AnyFactory T F] {prof : Profile} (hT : RawIO.Honest T) (hR : RawIO.ReadsWithin T) (offer : Nat → Nat) (qs : List ((T → T) × Nat × Request)) {f f' : F} {os : List SendEnd}
    {c : AnyConn (Traced T)} (h : AnyConn.sendAll prof offer qs .new f = some (os, c, f')) {m : Nat} {x : AnyStream (Traced T)} (hx : c.all[m]? = some x) (hw : WroteWhole (m + 1) (AnyConn.calls prof offer qs .new f)) :
    x.traced.put <+: x.asked.flatMap requestBytes := by
  obtain ⟨script, d, h1, h2, -, h4⟩ := C76_client hT hR offer qs h
  obtain ⟨s, h5, hl⟩ := h2.getElem' hx
  rw [← h4] at hw
  rw [← hl.sent, ← hl.asked]
  exact C46_calls_sent_partial h1 h5 hw

/-- The exchanges on each stream, until one failed on it. -/
theorem any_calls_streams {T F : Type} [RawIO T] [AnyFactory T F] {prof : Profile} (hT : RawIO.Honest T) (hR : RawIO.ReadsWithin T) (offer : Nat → Nat) (qs : List ((T → T) × Nat × Request)) {f f' : F} {os : List SendEnd}
    {c : AnyConn (Traced T)} (h : AnyConn.sendAll prof offer qs .new f = some (os, c, f')) {m : Nat} {x : AnyStream (Traced T)} (hx : c.all[m]? = some x) :
    (onStream (m + 1) (AnyConn.calls prof offer qs .new f)).map Prod.fst <+: x.asked ∧
      ∀ ws : List (Bytes × Response), (∀ w ∈ ws, ∃ f, f ≠ .untilEof ∧ FittingResponse w.1 f w.2) → x.traced.got <+: ws.flatMap Prod.fst →
        (onStream (m + 1) (AnyConn.calls prof offer qs .new f)).map Prod.snd <+: ws.map Prod.snd := by
  obtain ⟨script, d, h1, h2, -, h4⟩ := C76_client hT hR offer qs h
  obtain ⟨s, h5, hl⟩ := h2.getElem' hx
  obtain ⟨k1, k2⟩ := C46_calls_streams_partial h1 h5
  rw [h4] at k1 k2
  exact ⟨by rw [← hl.asked]; exact k1, fun ws hw hg => k2 ws hw (by rw [hl.given]; exact hg)⟩

/-! ## The conditions can be met -/

/-- A factory whose first two streams are late with the response to the first request, and the third has those to two others. -/
def twoLate : List CreateEnd := [.ok (late []), .ok (late []), .ok (prompt [98, 99])]

theorem twoLate_calls (prof : Profile) : (calls prof [ask 97, ask 98, ask 99] .new twoLate).map (fun k => (k.result, k.opened)) =
    [(.err (.reading .wouldBlock), 2), (.ok (echo (ask 98)), 3), (.ok (echo (ask 99)), 3)] ∧
    (calls prof [ask 97, ask 98, ask 99] .new twoLate).map Call.request = [ask 97, ask 98, ask 99] := by
  rcases prof with ⟨_ | _⟩ <;> decide +kernel

theorem returned_third {ks : List Call} (h1 : ks.map (fun k => (k.result, k.opened)) = [(.err (.reading .wouldBlock), 2), (.ok (echo (ask 98)), 3), (.ok (echo (ask 99)), 3)])
    (h2 : ks.map Call.request = [ask 97, ask 98, ask 99]) : ReturnedCleanly ks 2 (ask 99) (echo (ask 99)) 3 := by
  rcases ks with _ | ⟨⟨q₁, x₁, n₁⟩, _ | ⟨⟨q₂, x₂, n₂⟩, _ | ⟨⟨q₃, x₃, n₃⟩, _ | ⟨k, ks⟩⟩⟩⟩ <;> simp only [List.map_cons, List.map_nil, List.cons.injEq, Prod.mk.injEq, reduceCtorEq, and_false, and_true] at h1 h2
  obtain ⟨⟨rfl, rfl⟩, ⟨rfl, rfl⟩, rfl, rfl⟩ := h1
  obtain ⟨rfl, rfl, rfl⟩ := h2
  refine ⟨rfl, fun j hj k hk hn => ?_⟩
  rcases j with _ | _ | j
  · cases hk; cases hn
  · cases hk; exact ⟨_, rfl⟩
  · omega

/-- After a call that failed on two streams, the next two calls return the responses to their own requests, from a third. -/
example (prof : Profile) : ReturnedCleanly (calls prof [ask 97, ask 98, ask 99] .new twoLate) 2 (ask 99) (echo (ask 99)) 3 ∧
    ∃ s, (sendAll prof [ask 97, ask 98, ask 99] .new twoLate).2.1.all[3 - 1]? = some s ∧ s.Honest echo := by
  refine ⟨?_, ?_⟩
  · exact returned_third (twoLate_calls prof).1 (twoLate_calls prof).2
  · have h1 : (sendAll prof [ask 97, ask 98, ask 99] .new twoLate).2.1.all.map (fun s => (s.asked, bytesOf s.given)) =
        [([ask 97], []), ([ask 97, ask 98], []), ([ask 98, ask 99], [98, 99].flatMap fun c => responseBytes (echo (ask c)))] := by
      rcases prof with ⟨_ | _⟩ <;> decide +kernel
    generalize (sendAll prof [ask 97, ask 98, ask 99] .new twoLate).2.1.all = ss at h1
    rcases ss with _ | ⟨s₁, _ | ⟨s₂, _ | ⟨s₃, _ | ⟨s, ss⟩⟩⟩⟩ <;> simp only [List.map_cons, List.map_nil, List.cons.injEq, Prod.mk.injEq, reduceCtorEq, and_false, and_true] at h1
    exact ⟨s₃, rfl, echo_honest (cs := [98, 99]) (rest := []) h1.2.2.1 (by rw [h1.2.2.2, List.append_nil])⟩

/-- Two servers that are late, and one that answers two requests. -/
def latePeers : List TlsPeer := [toyPeer [.records true [] false true], toyPeer [.records true [] false true],
  toyPeer [.records true [] false true, .records false ([98, 99].flatMap fun c => responseBytes (echo (ask c))) false false]]

/-- The calls that use them. -/
def lateCalls : List ((TlsStream → TlsStream) × Nat × Request) := [(20, ask 97), (20, ask 98), (20, ask 99)].map fun e => (id, e)

/-- The conditions of `C76_calls_partial` can be met over TLS, after a call that failed. -/
example (prof : Profile) : ∃ os c f, AnyConn.sendAll prof id lateCalls .new (toyClient latePeers) = some (os, c, f) ∧
    ReturnedCleanly (AnyConn.calls prof id lateCalls .new (toyClient latePeers)) 2 (ask 99) (echo (ask 99)) 3 ∧ ∀ x ∈ c.all, ∃ b, x.traced.got <+: b ∧ x.Honest echo b := by
  obtain ⟨c, f, h1, h2⟩ := toy_sends (prof := prof) (qs := [(20, ask 97), (20, ask 98), (20, ask 99)]) (os := [.err (.reading .wouldBlock), .ok (echo (ask 98)), .ok (echo (ask 99))]) (peers := latePeers)
    (seen := [⟨[ask 97], requestBytes (ask 97), [], 0⟩, ⟨[ask 97, ask 98], requestBytes (ask 97) ++ requestBytes (ask 98), [], 0⟩,
      ⟨[ask 98, ask 99], requestBytes (ask 98) ++ requestBytes (ask 99), [98, 99].flatMap fun c => responseBytes (echo (ask c)), 0⟩])
    (by rcases prof with ⟨_ | _⟩ <;> decide +kernel)
  refine ⟨_, c, f, h1, ?_, ?_⟩
  · have h3 : (AnyConn.calls prof id lateCalls .new (toyClient latePeers)).map (fun k => (k.result, k.opened)) =
        [(.err (.reading .wouldBlock), 2), (.ok (echo (ask 98)), 3), (.ok (echo (ask 99)), 3)] ∧
        (AnyConn.calls prof id lateCalls .new (toyClient latePeers)).map Call.request = [ask 97, ask 98, ask 99] := by
      rcases prof with ⟨_ | _⟩ <;> decide +kernel
    exact returned_third h3.1 h3.2
  · refine toy_honest (ys := [([97], []), ([97, 98], []), ([98, 99], [98, 99].flatMap fun c => responseBytes (echo (ask c)))]) ?_ (by decide +kernel)
    have := congrArg (List.map fun (e : SeenTls) => (e.asked, e.got)) h2
    rw [List.map_map] at this
    exact this

end Verif
