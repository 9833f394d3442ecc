import Verif.Props.WholeSystem

/-!
C70: how often the server carries out a request that the client was asked to send once.
-/

namespace Verif

/-! ## What the statements are about -/

/-- How often the router was asked about request `q` on some of the connections. -/
def timesAsked {σ : Type} (q : Request) (ks : List Nat) (as : List (Nat × Request × σ)) : Nat :=
  (as.filter fun a => decide (a.1 ∈ ks) && decide (a.2.1 = q)).length

/-- A stream of the client is joined to connection `k` of the server; the answers on the connection fit into its buffer in parts, or its socket does not become
free in the middle of one. -/
def ClientStream.JoinedTo {σ : Type} (rt : Router σ) (N : Nat) (s : Net σ) (st : ClientStream) (k : Nat) : Prop :=
  ∃ c, s.conns[k]? = some c ∧ st.Joins c ∧ (∀ evs ∈ c.wakes, Tidy N 4096 evs) ∧ ∀ a ∈ asksOn k s.asks, ∀ r, rt.Says a r → r.PartsLe N

/-! ## Counting -/

theorem timesAsked_eq {σ : Type} (q : Request) {ks : List Nat} (hn : ks.Nodup) (as : List (Nat × Request × σ)) :
    timesAsked q ks as = (ks.map fun k => ((asksOn k as).map Prod.fst).count q).sum := by
  induction ks with
  | nil => simp [timesAsked]
  | cons k ks ih =>
    rw [List.nodup_cons] at hn
    rw [List.map_cons, List.sum_cons, ← ih hn.2]
    clear ih
    induction as with
    | nil => simp [timesAsked, asksOn]
    | cons a as ih =>
      obtain ⟨j, p, s⟩ := a
      simp only [timesAsked, asksOn, List.filter_cons, List.mem_cons] at ih ⊢
      by_cases hp : p = q <;> by_cases hj : j = k
      · subst hp hj
        simp [hn.1]
        simp at ih
        omega
      · by_cases hm : j ∈ ks <;> simp [hp, hj, hm] at ih ⊢ <;> omega
      · subst hj
        simp [hp, hn.1] at ih ⊢
        omega
      · simp [hp, hj] at ih ⊢
        omega

section

variable {F : Type} [StreamFactory F] {profC : Profile}

theorem send_asked {f f' : F} {c c' : ClientConn} {p : Request} {x : SendEnd} (h : c.send profC f p = (x, c', f')) (q : Request) :
    (c'.all.map fun st => st.asked.count q).sum ≤ (c.all.map fun st => st.asked.count q).sum + 2 * [p].count q := by
  obtain ⟨⟨old, new, e1, e2, e3, e4, e5⟩, -⟩ := C45_at_most_twice h
  have hnew : (new.map fun st => st.asked.count q).sum = new.length * [p].count q := by
    clear e1 e3
    induction new with
    | nil => simp
    | cons a as iha =>
      rw [List.map_cons, List.sum_cons, iha fun s hs => e5 s (by simp [hs]), (e5 a (by simp)).2, List.length_cons, Nat.add_mul]
      omega
  rw [e1, List.map_append, List.map_append, List.sum_append, List.sum_append, hnew]
  have hold : (old.map fun st => st.asked.count q).sum = (c.stream.toList.map fun st => st.asked.count q).sum + old.length * [p].count q := by
    cases hs : c.stream with
    | none =>
      rw [hs] at e2
      obtain rfl := List.length_eq_zero_iff.1 e2
      simp
    | some s =>
      rw [hs] at e2
      obtain ⟨s', rfl⟩ := List.length_eq_one_iff.1 e2
      simp [(e4 s s' hs (by simp)).2]
  rw [hold]
  simp only [ClientConn.all, List.map_append, List.sum_append]
  have h3 : old.length * [p].count q + new.length * [p].count q ≤ 2 * [p].count q := by
    rw [← Nat.add_mul]
    exact Nat.mul_le_mul_right _ e3
  omega

theorem history_asked {f f' : F} {c c' : ClientConn} {es : List (Request × Response)} (h : History profC c f es c' f') (hc : c = .new) (q : Request) :
    (c'.all.map fun st => st.asked.count q).sum ≤ 2 * (es.map Prod.fst).count q := by
  induction h with
  | nil => subst hc; simp [ClientConn.all, ClientConn.new]
  | @answered c₁ c₂ f f₁ f₂ p r es _ h2 ih =>
    have := send_asked h2 q
    rw [List.map_append, List.count_append]
    simp only [List.map_cons, List.map_nil]
    omega
  | @refused c₁ c₂ f f₁ f₂ p e es _ h2 h3 ih =>
    rcases send_cases h2 with ⟨-, h5, -⟩ | ⟨s, raws, f₃, -, ⟨-, -, -, h5⟩ | ⟨-, ⟨-, -, h5, -⟩ | ⟨raw, -, -, h5⟩⟩⟩
    · rw [h5]; exact ih
    · rw [h5] at h3; cases h3
    · rw [h5] at h3; cases h3
    · rw [h5] at h3; cases h3

theorem sum_zip_le {α β : Type} {f : α → Nat} {g : β → Nat} {xs : List α} {ys : List β} (hl : xs.length = ys.length)
    (h : ∀ p ∈ xs.zip ys, f p.1 ≤ g p.2) : (xs.map f).sum ≤ (ys.map g).sum := by
  induction xs generalizing ys with
  | nil => simp
  | cons x xs ih =>
    cases ys with
    | nil => simp at hl
    | cons y ys =>
      simp only [List.map_cons, List.sum_cons]
      have h1 := ih (by simpa using hl) fun p hp => h p (by simp [hp])
      have h2 : f x ≤ g y := h (x, y) (by simp)
      omega

theorem AnsweredFirst.count_le {σ : Type} {rt : Router σ} {as : List (Request × σ)} {es : List (Request × Response)} (h : AnsweredFirst rt as es) (q : Request) :
    (es.map Prod.fst).count q ≤ (as.map Prod.fst).count q := by
  induction h with
  | nil => simp
  | cons _ _ ih =>
    simp only [List.map_cons, List.count_cons]
    omega

/-! ## C70 -/

variable {σ : Type} {rt : Router σ} {profS : Profile} {n N : Nat} {s₀ : σ} {s : Net σ}

/-- C70 (partial: twice, not once; as in `C60_end_to_end_partial`): a client has called `send` any number of times, and each of its streams is joined to a connection
of a server, which is in any state that it can reach. Then the router was asked about each request, on these connections, at most twice as often as `send`
returned a response to it. -/
theorem C70_at_most_twice_partial {c' : ClientConn} {f f' : F} {es : List (Request × Response)} (h : History profC .new f es c' f')
    (hq : ∀ st ∈ c'.all, ∀ q ∈ st.asked, q.Sendable) (hs : Net.Reach profS rt n s₀ s) (hN : 28 ≤ N) {ks : List Nat} (hn : ks.Nodup)
    (hl : ks.length = c'.all.length) (hj : ∀ p ∈ ks.zip c'.all, p.2.JoinedTo rt N s p.1) (q : Request) :
    timesAsked q ks s.asks ≤ 2 * (es.map Prod.fst).count q := by
  rw [timesAsked_eq q hn]
  refine Nat.le_trans (sum_zip_le hl fun p hp => ?_) (history_asked h rfl q)
  obtain ⟨k, st⟩ := p
  obtain ⟨c, h1, h2, h3, h4⟩ := hj _ hp
  have hst : st ∈ c'.all := (List.of_mem_zip hp).2
  have hsent : st.writer.sock.sent <+: st.asked.flatMap requestBytes := by
    obtain ⟨i1, i2⟩ := history_sent h rfl
    rcases List.mem_append.1 hst with hm | hm
    · exact i1 st hm
    · rw [← i2 st (by simpa using hm)]; exact List.prefix_append _ _
  have e1 : (st.asked.map fun q => (requestBytes q, q)).map Prod.snd = st.asked := by simp [Function.comp_def]
  have e2 : (st.asked.map fun q => (requestBytes q, q)).flatMap Prod.fst = st.asked.flatMap requestBytes := by simp [List.flatMap_map]
  obtain ⟨a1, -⟩ := C60_server_partial hs h1 hN h4
    (ms := st.asked.map fun q => (requestBytes q, q))
    (by
      intro m hm
      obtain ⟨q, hm', rfl⟩ := List.mem_map.1 hm
      exact (hq st hst q hm').fitting)
    ⟨h2.there.pieces, by rw [e2]; exact h2.there.text.trans hsent⟩ h3
  rw [e1] at a1
  exact a1.sublist.count_le q

/-- C70: under the same conditions, and if the router answers with responses that can be sent, it was asked about each request at least as often as `send` returned a
response to it. -/
theorem C70_at_least_once_partial {c' : ClientConn} {f f' : F} {es : List (Request × Response)} (h : History profC .new f es c' f')
    (hq : ∀ st ∈ c'.all, ∀ q ∈ st.asked, q.Sendable) (hs : Net.Reach profS rt n s₀ s) (hN : 28 ≤ N) {ks : List Nat} (hn : ks.Nodup)
    (hl : ks.length = c'.all.length) (hj : ∀ p ∈ ks.zip c'.all, p.2.JoinedTo rt N s p.1)
    (ha : ∀ k ∈ ks, ∀ a ∈ asksOn k s.asks, ∃ r, rt.Says a r ∧ r.Sendable) (q : Request) :
    (es.map Prod.fst).count q ≤ timesAsked q ks s.asks := by
  rw [timesAsked_eq q hn]
  obtain ⟨logs, l1, l2, l3⟩ := C60_end_to_end_partial h hq
  have h1 : (es.map Prod.fst).count q = (logs.map fun l => (l.map Prod.fst).count q).sum := by
    rw [l2, List.map_flatten, List.count_flatten, List.map_map]
    rfl
  rw [h1]
  have hlen : logs.length = ks.length := by omega
  refine sum_zip_le hlen fun p hp => ?_
  obtain ⟨l, k⟩ := p
  obtain ⟨i, hi, he⟩ := List.getElem_of_mem hp
  rw [List.getElem_zip, Prod.mk.injEq] at he
  have hi1 : i < logs.length := by rw [List.length_zip] at hi; omega
  have hi2 : i < c'.all.length := by omega
  have hi3 : i < ks.length := by omega
  have m1 : (c'.all[i], l) ∈ c'.all.zip logs := by
    rw [← he.1]
    exact List.mem_of_getElem? (i := i) (by rw [List.getElem?_eq_getElem (by rw [List.length_zip]; omega), List.getElem_zip])
  have m2 : (k, c'.all[i]) ∈ ks.zip c'.all := by
    rw [← he.2]
    exact List.mem_of_getElem? (i := i) (by rw [List.getElem?_eq_getElem (by rw [List.length_zip]; omega), List.getElem_zip])
  obtain ⟨c, h1, h2, h3, h4⟩ := hj _ m2
  have hk : k ∈ ks := (List.of_mem_zip m2).1
  exact (l3 _ m1 hs h1 h2 hN h3 h4 fun a hm _ => ha k hk a hm).count_le q

end

/-! ## The same request twice -/

/-- A request that should be carried out once. -/
def payment : Request := ⟨b!"/pay", .post, [], []⟩

theorem payment_sendable : payment.Sendable := by
  refine ⟨by decide, by decide, by decide +kernel, by decide, ⟨by simp [payment, HeaderMap.WF], by simp [payment], by simp [payment], by simp [payment],
    by simp [payment]⟩, .inr ⟨⟨fun v h => ?_, fun v h => ?_⟩, rfl⟩⟩
  · obtain ⟨vs, h⟩ := h; simp [payment] at h
  · obtain ⟨vs, h⟩ := h; simp [payment] at h

/-- The stream breaks before the answer has come. -/
def broken : RawStream where
  input := [.err .other]
  output := [.accept 1000]

/-- The stream on which the answer comes. -/
def whole : RawStream where
  input := [.data (responseBytes (.ofBody b!"hello again"))]
  output := [.accept 1000]

/-- What a client and the only worker do for one connection. -/
def paying (k : Nat) : List NAct := [.accept (fun n => n) (fun c n => c + n) (by omega) [], .arrive k (.data b!"POST /pay HTTP/1.1\r\n\r\n"),
  .poll [k], .dispatch false, .work 0, .work 0, .work 0, .work 0, .lock 0 [.accept 1000, .accept 1000], .go 0, .go 0, .go 0, .go 0, .go 0, .go 0]

/-- What is computed for `C70_twice_false`. -/
theorem paid_facts (profS : Profile) : (Net.after profS greeter 1 0 (paying 0 ++ paying 1)).any (fun s =>
    (s.conns.map fun c => (c.arrived, c.wakes)) == [([.data b!"POST /pay HTTP/1.1\r\n\r\n"], [[.accept 1000, .accept 1000]]),
      ([.data b!"POST /pay HTTP/1.1\r\n\r\n"], [[.accept 1000, .accept 1000]])] &&
    (s.conns.map fun c => c.slot.conn.writer.sock.sent) == [responseBytes (.ofBody b!"hello"), responseBytes (.ofBody b!"hello again")] &&
    s.asks == [(0, payment, 0), (1, payment, 1)]) = true := by
  rcases profS with ⟨_ | _⟩ <;> decide +kernel

/-- C70 does not hold: `send` is called once and returns a response, and the server has carried out the request twice, although it is a `POST` request. The stream broke
when the server had already answered, and the client sent the request again on another. -/
theorem C70_twice_false (profC profS : Profile) : ∃ (c : ClientConn) (f : List CreateEnd) (s : Net Nat),
    History profC .new [.ok broken, .ok whole] [(payment, .ofBody b!"hello again")] c f ∧ payment.method = .post ∧
    (∀ st ∈ c.all, ∀ q ∈ st.asked, q.Sendable) ∧ Net.Reach profS greeter 1 0 s ∧ c.all.length = 2 ∧
    (∀ p ∈ [0, 1].zip c.all, p.2.JoinedTo greeter 28 s p.1) ∧ timesAsked payment [0, 1] s.asks = 2 := by
  have h1 := paid_facts profS
  obtain ⟨s, hs⟩ : ∃ s, Net.after profS greeter 1 0 (paying 0 ++ paying 1) = some s := by
    cases h : Net.after profS greeter 1 0 (paying 0 ++ paying 1) with
    | none => rw [h] at h1; cases h1
    | some s => exact ⟨s, rfl⟩
  rw [hs, Option.any_some] at h1
  simp only [Bool.and_eq_true, beq_iff_eq] at h1
  obtain ⟨⟨h2, h3⟩, h4⟩ := h1
  obtain ⟨c, f, h5, h6⟩ : ∃ (c : ClientConn) (f : List CreateEnd), ClientConn.send profC .new [CreateEnd.ok broken, .ok whole] payment =
      (.ok (.ofBody b!"hello again"), c, f) ∧ (c.all.map fun st => (st.asked, st.writer.sock.sent, bytesOf st.given)) =
      [([payment], b!"POST /pay HTTP/1.1\r\n\r\n", []), ([payment], b!"POST /pay HTTP/1.1\r\n\r\n", responseBytes (.ofBody b!"hello again"))] := by
    refine ⟨_, _, Prod.ext ?_ rfl, ?_⟩
    · rcases profC with ⟨_ | _⟩ <;> decide +kernel
    · rcases profC with ⟨_ | _⟩ <;> decide +kernel
  obtain ⟨a, b, hab⟩ : ∃ a b, c.all = [a, b] := by
    rcases hc : c.all with _ | ⟨a, _ | ⟨b, _ | ⟨d, l⟩⟩⟩
    · rw [hc] at h6; simp at h6
    · rw [hc] at h6; simp at h6
    · exact ⟨a, b, rfl⟩
    · rw [hc] at h6; simp at h6
  rw [hab] at h6
  simp only [List.map_cons, List.map_nil, List.cons.injEq, Prod.mk.injEq, and_true] at h6
  obtain ⟨⟨a1, a2, a3⟩, b1, b2, b3⟩ := h6
  obtain ⟨c₀, c₁, hcs⟩ : ∃ c₀ c₁, s.conns = [c₀, c₁] := by
    rcases hc : s.conns with _ | ⟨a, _ | ⟨b, _ | ⟨d, l⟩⟩⟩
    · rw [hc] at h2; simp at h2
    · rw [hc] at h2; simp at h2
    · exact ⟨a, b, rfl⟩
    · rw [hc] at h2; simp at h2
  rw [hcs] at h2 h3
  simp only [List.map_cons, List.map_nil, List.cons.injEq, Prod.mk.injEq, and_true] at h2 h3
  obtain ⟨⟨c1, c2⟩, d1, d2⟩ := h2
  obtain ⟨c3, d3⟩ := h3
  have hpl : ∀ k, ∀ a ∈ asksOn k s.asks, ∀ r, greeter.Says a r → r.PartsLe 28 := by
    intro k a _ r hr
    rcases hr with hr | hr
    · exact greeter_parts.2 a.1 a.2 r _ (.inl (Prod.ext hr rfl))
    · exact greeter_parts.2 a.1 a.2 r _ (.inr (Prod.ext hr rfl))
  have hpieces : Pieces [.data b!"POST /pay HTTP/1.1\r\n\r\n"] := .safe fun ev he => by
    rw [List.mem_singleton] at he
    exact ⟨_, he, by decide, safeCut_ascii (by decide)⟩
  have hw : ∀ evs ∈ [[WEv.accept 1000, .accept 1000]], Tidy 28 4096 evs := by
    intro evs he
    rw [List.mem_singleton] at he
    subst he
    exact ⟨by decide, .inr (by decide)⟩
  refine ⟨c, f, s, .answered (es := []) .nil h5, rfl, ?_, Net.reach_of hs, by rw [hab]; rfl, ?_, by rw [h4]; decide +kernel⟩
  · rw [hab]
    intro st hst q hq
    simp only [List.mem_cons, List.not_mem_nil, or_false] at hst
    rcases hst with rfl | rfl
    · rw [a1, List.mem_singleton] at hq; subst hq; exact payment_sendable
    · rw [b1, List.mem_singleton] at hq; subst hq; exact payment_sendable
  · rw [hab]
    intro p hp
    simp only [List.zip_cons_cons, List.zip_nil_left, List.mem_cons, List.not_mem_nil, or_false] at hp
    rcases hp with rfl | rfl
    · refine ⟨c₀, by rw [hcs]; rfl, ⟨⟨by rw [c1]; exact hpieces, ?_⟩, ?_⟩, by rw [c2]; exact hw, hpl 0⟩
      · rw [c1, a2]; decide
      · rw [a3]; exact List.nil_prefix
    · refine ⟨c₁, by rw [hcs]; rfl, ⟨⟨by rw [d1]; exact hpieces, ?_⟩, ?_⟩, by rw [d2]; exact hw, hpl 1⟩
      · rw [d1, b2]; decide
      · rw [b3, d3]; exact List.prefix_refl _

end Verif
