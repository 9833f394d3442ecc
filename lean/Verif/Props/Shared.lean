import Verif.Proofs.SharedStack
import Verif.Proofs.TlsCalm
import Verif.Props.Serving
import Verif.Props.Tls

/-!
C71: serving and sending over a raw stream of any kind, whose directions may affect each other.
-/

namespace Verif

section

variable {T σ : Type} [RawIO T] {prof : Profile} {rt : Router σ} {P : Traced T → Prop} {Er : Errs}

omit [RawIO T] in
theorem server_like {grow : Nat → Nat → Nat} {hg : ∀ c n, c ≤ grow c n} {offer : Nat → Nat} (l : Slot (Shared (ServerStack (Traced T))) Unit) (es : List Ev) (ws : List WEv)
    (fl : List (Option IoError)) : l.Like ((serverViews P Er grow hg offer).slot l es ws fl) := by
  cases l with
  | live c => exact .live ⟨rfl, rfl, rfl, rfl, rfl, rfl⟩
  | gone c => exact .gone ⟨rfl, rfl, rfl, rfl, rfl, rfl⟩
  | poisoned c => exact .poisoned ⟨rfl, rfl, rfl, rfl, rfl, rfl⟩

theorem server_runs (hT : RawIO.Honest T) (hR : RawIO.ReadsWithin T) (hP : RawKeeps P) (hE : ErrsIn P Er) {grow : Nat → Nat → Nat} (hg : ∀ c n, c ≤ grow c n)
    (offer : Nat → Nat) {envs : List ((T → T) × Nat)} (henv : ∀ e ∈ envs, ∀ t, P t → P { t with raw := e.1 t.raw })
    {l l' : Slot (Shared (ServerStack (Traced T))) Unit} {s s' : σ} (h : SharedConn.handleAll prof rt envs l s = some (l', s'))
    (hgd : (serverViews P Er grow hg offer).Good l.conn.reader) (hl : ∀ c, l = .live c → c.reader.lims = []) :
    ∃ es wss fl, wss.length = envs.length ∧ (∀ ws ∈ wss, ∀ e ∈ ws, ∀ er, e = .err er → Er.write er) ∧ P l'.traced ∧
      l'.traced.log = l.traced.log ++ es ∧
      ∀ rest frest, handleAll prof rt wss ((serverViews P Er grow hg offer).slot l (es ++ rest) [] (fl ++ frest)) s =
        ((serverViews P Er grow hg offer).slot l' rest [] frest, s') := by
  have hV := serverViews_lawful hT hR hP hE hg offer
  induction envs generalizing l s with
  | nil =>
    cases h
    exact ⟨[], [], [], rfl, by simp, hgd.ok.2.2, by simp, fun _ _ => rfl⟩
  | cons e envs ih =>
    obtain ⟨env, n⟩ := e
    have he := henv (env, n) (List.mem_cons_self ..)
    have henv' : ∀ e ∈ envs, ∀ t, P t → P { t with raw := e.1 t.raw } := fun e h => henv e (List.mem_cons_of_mem _ h)
    rw [SharedConn.handleAll] at h
    cases hy : SharedConn.handle prof rt (l.turn env n) s with
    | mk o y =>
    obtain ⟨l₁, s₁⟩ := y
    rw [hy] at h
    have ho : o ≠ .diverge := by
      rintro rfl
      cases h
    replace h : (if l₁.conn.reader.hung then none else SharedConn.handleAll prof rt envs l₁ s₁) = some (l', s') := by
      cases o with
      | diverge => exact absurd rfl ho
      | _ => exact h
    split at h
    · cases h
    · next hh =>
      have hh : l₁.conn.reader.hung = false := by simpa using hh
      cases l with
      | gone c =>
        cases hy
        obtain ⟨es', wss, fl', i0, i1, i2, i3, i4⟩ := ih henv' h hgd hl
        exact ⟨es', [] :: wss, fl', by simp [i0], fun ws hw => by
          rcases List.mem_cons.1 hw with rfl | hw
          · simp
          · exact i1 ws hw, i2, i3, i4⟩
      | poisoned c =>
        cases hy
        obtain ⟨es', wss, fl', i0, i1, i2, i3, i4⟩ := ih henv' h hgd hl
        exact ⟨es', [] :: wss, fl', by simp [i0], fun ws hw => by
          rcases List.mem_cons.1 hw with rfl | hw
          · simp
          · exact i1 ws hw, i2, i3, i4⟩
      | live c =>
        have hgd' : (serverViews P Er grow hg offer).Good ((Slot.live c).turn env n).conn.reader := ⟨⟨hgd.ok.1, hgd.ok.2.1, he _ hgd.ok.2.2⟩, hgd.offer⟩
        have hl' : ∀ c', (Slot.live c).turn env n = .live c' → c'.reader.lims = [] := by
          intro c' hc
          cases hc
          exact hl c rfl
        obtain ⟨es, ws, fl, d, w, hl₁, k⟩ := hV.handle prof rt hgd' hl' hy ho hh
        obtain ⟨es', wss, fl', i0, i1, i2, i3, i4⟩ := ih henv' h (w.good hgd') hl₁
        have hw : l₁.traced.log = (Slot.live c).traced.log ++ es := w.log
        refine ⟨es ++ es', ws :: wss, fl ++ fl', by simp [i0], ?_, i2, ?_, fun rest frest => ?_⟩
        · intro x hx
          rcases List.mem_cons.1 hx with rfl | hx
          · exact did_never d.1
          · exact i1 x hx
        · rw [i3, hw]
          simp
        · rw [List.append_assoc, List.append_assoc, handleAll]
          have k := k (es' ++ rest) [] (fl' ++ frest)
          rw [List.append_nil] at k
          rw [show ((serverViews P Er grow hg offer).slot (.live c) (es ++ (es' ++ rest)) [] (fl ++ (fl' ++ frest))).wake ws =
            (serverViews P Er grow hg offer).slot ((Slot.live c).turn env n) (es ++ (es' ++ rest)) ws (fl ++ (fl' ++ frest)) from rfl, k]
          exact i4 rest frest

/-- C71: the server over any raw stream, whose directions may affect each other and which may change in any way while the handler is not running: what the handler does, in all its
invocations, is what it does over a scripted stream in two parts, as everywhere in this model, for scripts that say what the calls of `read`, `write` and `flush` did. So what is
proved of all scripts holds of every stream. -/
theorem C71_server (hT : RawIO.Honest T) (hR : RawIO.ReadsWithin T) {grow : Nat → Nat → Nat} (hg : ∀ c n, c ≤ grow c n) (offer : Nat → Nat) (t : T)
    (envs : List ((T → T) × Nat)) {l : Slot (Shared (ServerStack (Traced T))) Unit} {s s' : σ}
    (h : SharedConn.handleAll prof rt envs (.live (SharedConn.new grow offer t)) s = some (l, s')) :
    ∃ wss fl d, wss.length = envs.length ∧ handleAll prof rt wss (.live (Conn.scripted grow hg offer l.traced.log fl)) s = (d, s') ∧ l.Like d := by
  obtain ⟨es, wss, fl, h1, -, -, h3, h4⟩ := server_runs (P := fun _ => True) (Er := .any) hT hR
    { write := fun _ _ => trivial, flush := fun _ _ => trivial, read := fun _ _ => trivial, drop := fun _ => trivial } ⟨fun _ _ _ => trivial, fun _ _ => trivial, fun _ _ => trivial⟩ hg offer (fun _ _ _ _ => trivial) h
    ⟨⟨rfl, rfl, trivial⟩, rfl⟩ (fun c hc => by cases hc; rfl)
  have h4 := h4 [] []
  rw [List.append_nil, List.append_nil] at h4
  obtain rfl : l.traced.log = es := h3
  exact ⟨wss, fl, _, h1, h4, server_like ..⟩

theorem only_answers (hT : RawIO.Honest T) (hR : RawIO.ReadsWithin T) (hP : RawKeeps P) (hE : ErrsIn P .calm) (hrt : rt.PartsLe 4096)
    {grow : Nat → Nat → Nat} (hg : ∀ c n, c ≤ grow c n) (offer : Nat → Nat) {t : T} (ht : P ⟨t, [], []⟩)
    {envs : List ((T → T) × Nat)} (henv : ∀ e ∈ envs, ∀ t, P t → P { t with raw := e.1 t.raw }) {l : Slot (Shared (ServerStack (Traced T))) Unit} {s s' : σ}
    (h : SharedConn.handleAll prof rt envs (.live (SharedConn.new grow offer t)) s = some (l, s')) :
    P l.traced ∧ ∃ fl qs out s₁ r₁ tail,
      Heard prof (Conn.scripted grow hg offer l.traced.log fl).reader qs r₁ ∧ Served rt s qs out s₁ ∧
      (tail = [] ∨ tail = b!"HTTP/1.1 400 Bad Request\r\n\r\n" ∧ NoRequest prof r₁) ∧ NoneAsked prof rt r₁ s₁ s' ∧ l.traced.put <+: out ++ tail ∧
      ∀ c, l = .live c → tail = [] ∧ s' = s₁ ∧ l.traced.put ++ c.reader.stream.val.buf.drop c.reader.stream.val.pos = out ∧ ∀ q ∈ qs, ¬ CloseAsked q := by
  obtain ⟨es, wss, fl, h1, h2, h0, h3, h4⟩ := server_runs hT hR hP hE hg offer henv h
    ⟨⟨rfl, rfl, ht⟩, rfl⟩ (fun c hc => by cases hc; rfl)
  obtain rfl : l.traced.log = es := h3
  have h4 := h4 [] []
  rw [List.append_nil, List.append_nil] at h4
  have h4 : handleAll prof rt wss (.live (Conn.scripted grow hg offer l.traced.log fl)) s = _ := h4
  obtain ⟨qs, out, s₁, r₁, tail, k1, k2, k3, k4, -, k6, k7⟩ := C34_only_answers_partial (prof := prof) (n := 4096) hrt (es := wss)
    (c := Conn.scripted grow hg offer l.traced.log fl) (s := s) rfl (.inr rfl)
    (fun ws hw => ⟨fun hi => h2 ws hw _ hi _ rfl rfl, .inr (Nat.le_refl _)⟩) rfl
  rw [h4] at k4 k6 k7
  have hput : ∀ es ws fl, ((serverViews P .calm grow hg offer).slot l es ws fl).conn.writer.sock.sent = l.traced.put := by
    intro es ws fl
    cases l <;> rfl
  have k6 : l.traced.put <+: [] ++ out ++ tail := by
    rw [← hput [] [] []]
    exact k6
  refine ⟨h0, fl, qs, out, s₁, r₁, tail, k1, k2, k3, k4, k6, fun c hc => ?_⟩
  subst hc
  obtain ⟨j1, j2, j3, j4⟩ := k7 _ rfl
  exact ⟨j1, j2, j3, j4⟩

/-- C71 (partial: for responses in parts of at most 4096 bytes, and a raw stream whose `write` is never interrupted): over any raw stream the server writes nothing but the
answers to the requests that it read, in order, and perhaps one 400 response. While the connection is there, exactly the answers have been written or are held to be written. -/
theorem C71_only_answers_partial (hT : RawIO.Honest T) (hR : RawIO.ReadsWithin T) (hE : ∀ (f : Nat) (t t' : T) (b : Bytes), Wr.write f t b ≠ some (.error .interrupted, t'))
    (hrt : rt.PartsLe 4096) {grow : Nat → Nat → Nat} (hg : ∀ c n, c ≤ grow c n) (offer : Nat → Nat) (t : T) (envs : List ((T → T) × Nat))
    {l : Slot (Shared (ServerStack (Traced T))) Unit} {s s' : σ} (h : SharedConn.handleAll prof rt envs (.live (SharedConn.new grow offer t)) s = some (l, s')) :
    ∃ fl qs out s₁ r₁ tail,
      Heard prof (Conn.scripted grow hg offer l.traced.log fl).reader qs r₁ ∧ Served rt s qs out s₁ ∧
      (tail = [] ∨ tail = b!"HTTP/1.1 400 Bad Request\r\n\r\n" ∧ NoRequest prof r₁) ∧ NoneAsked prof rt r₁ s₁ s' ∧ l.traced.put <+: out ++ tail ∧
      ∀ c, l = .live c → tail = [] ∧ s' = s₁ ∧ l.traced.put ++ c.reader.stream.val.buf.drop c.reader.stream.val.pos = out ∧ ∀ q ∈ qs, ¬ CloseAsked q := by
  refine (only_answers (P := fun _ => True) hT hR { write := fun _ _ => trivial, flush := fun _ _ => trivial, read := fun _ _ => trivial, drop := fun _ => trivial } ?_ hrt hg offer trivial
    (fun _ _ _ _ => trivial) h).2
  refine ⟨fun _ _ _ => trivial, fun {f t t' b e} _ hw he => ?_, fun _ _ => trivial⟩
  subst he
  obtain ⟨⟨y, t₁⟩, h1, h2⟩ := Option.map_eq_some_iff.1 hw
  cases y with
  | ok n => cases h2
  | error e =>
    cases h2
    exact hE _ _ _ _ h1

/-! ## The client -/

/-- The stream of the client in two parts. -/
def Views.client {S : Type} (V : Views S BufW) (x : Shared S) (es : List Ev) (ws : List WEv) (fl : List (Option IoError)) (asked : List Request) (given : List Atom) : ClientStream :=
  ⟨V.join x es, V.wr x.stream ws fl, asked, given⟩

/-- One request over any raw stream, and over a scripted one. -/
theorem client_request (hT : RawIO.Honest T) (hR : RawIO.ReadsWithin T) (hP : RawFull P) (hE : ErrsIn P Er) (offer : Nat → Nat) {x y : Shared (ClientStack (Traced T))} {q : Request} {o : SendEnd}
    (hgd : (clientViews P Er offer).Good x) (hy : Shared.sendRequest prof x q = (o, y)) (ho : o ≠ .diverge) (hh : y.hung = false) :
    ∃ es ws fl, (∀ e ∈ ws, ∀ er, e = .err er → Er.write er) ∧ (clientViews P Er offer).Went x y es ∧
      ∀ rest wrest frest asked given, Verif.sendRequest prof ((clientViews P Er offer).client x (es ++ rest) (ws ++ wrest) (fl ++ frest) asked given) q =
        (o, (clientViews P Er offer).client y rest wrest frest (asked ++ [q]) given) := by
  have hV := clientViews_lawful hT hR hP hE offer
  obtain ⟨es, ws, fl, d, w, k⟩ := hV.sendRequest prof q hgd hy ho hh
  refine ⟨es, ws, fl, did_never d.1, w, fun rest wrest frest asked given => ?_⟩
  have k := k rest wrest frest
  unfold Verif.sendRequest
  dsimp only
  rw [show ((clientViews P Er offer).client x (es ++ rest) (ws ++ wrest) (fl ++ frest) asked given).writer =
    (clientViews P Er offer).wr x.stream (ws ++ wrest) (fl ++ frest) from rfl,
    show ((clientViews P Er offer).client x (es ++ rest) (ws ++ wrest) (fl ++ frest) asked given).reader =
    (clientViews P Er offer).join x (es ++ rest) from rfl]
  generalize Verif.writeRequest ((clientViews P Er offer).wr x.stream (ws ++ wrest) (fl ++ frest)) q = A at k ⊢
  obtain ⟨a, w⟩ := A
  cases a with
  | err e =>
    obtain ⟨rfl, k2⟩ := Prod.mk.inj k
    dsimp only
    rw [(Prod.mk.inj k2).1, (Prod.mk.inj k2).2]
    rfl
  | diverge =>
    obtain ⟨rfl, k2⟩ := Prod.mk.inj k
    dsimp only
    rw [(Prod.mk.inj k2).1, (Prod.mk.inj k2).2]
    rfl
  | ok =>
    dsimp only at k ⊢
    generalize ResponseParser.parse prof .new ((clientViews P Er offer).join x (es ++ rest)) = B at k ⊢
    obtain ⟨b, rd⟩ := B
    cases b <;> (cases k; rfl)

theorem client_runs (hT : RawIO.Honest T) (hR : RawIO.ReadsWithin T) (hP : RawKeeps P) (hE : ErrsIn P Er) (offer : Nat → Nat) {qs : List ((T → T) × Nat × Request)}
    (henv : ∀ e ∈ qs, ∀ t, P t → P { t with raw := e.1 t.raw }) {x x' : Shared (ClientStack (Traced T))} {os : List SendEnd}
    (h : Shared.sendAll prof qs x = some (os, x')) (hgd : (clientViews P Er offer).Good x) :
    ∃ es ws fl, (clientViews P Er offer).Good x' ∧ (∀ e ∈ ws, ∀ er, e = .err er → Er.write er) ∧
      x'.stream.val.inner.val.inner.log = x.stream.val.inner.val.inner.log ++ es ∧
      ∀ rest wrest frest asked given, ClientStream.sendAll prof (qs.map fun e => e.2.2) ((clientViews P Er offer).client x (es ++ rest) (ws ++ wrest) (fl ++ frest) asked given) =
        (os, (clientViews P Er offer).client x' rest wrest frest (asked ++ qs.map fun e => e.2.2) given) := by
  induction qs generalizing x os with
  | nil =>
    cases h
    exact ⟨[], [], [], hgd, by simp, by simp, fun _ _ _ _ _ => by simp [ClientStream.sendAll]⟩
  | cons e qs ih =>
    obtain ⟨env, n, q⟩ := e
    have he := henv (env, n, q) (List.mem_cons_self ..)
    have henv' : ∀ e ∈ qs, ∀ t, P t → P { t with raw := e.1 t.raw } := fun e h => henv e (List.mem_cons_of_mem _ h)
    rw [Shared.sendAll] at h
    have hgd' : (clientViews P Er offer).Good { x with rounds := n, stream := x.stream.changed env } := ⟨⟨hgd.ok.1, he _ hgd.ok.2⟩, hgd.offer⟩
    cases hy : Shared.sendRequest prof { x with rounds := n, stream := x.stream.changed env } q with
    | mk o y =>
    rw [hy] at h
    have ho : o ≠ .diverge := by
      rintro rfl
      cases h
    replace h : (if y.hung then none else (Shared.sendAll prof qs y).map fun z => (o :: z.1, z.2)) = some (os, x') := by
      cases o with
      | diverge => exact absurd rfl ho
      | _ => exact h
    split at h
    · cases h
    · next hh =>
      obtain ⟨⟨os', x''⟩, h1, h2⟩ := Option.map_eq_some_iff.1 h
      cases h2
      obtain ⟨es, ws, fl, d, w, k⟩ := client_request hT hR hP hE offer hgd' hy ho (by simpa using hh)
      obtain ⟨es', ws', fl', i1, i2, i3, i4⟩ := ih henv' h1 (w.good hgd')
      have hw : y.stream.val.inner.val.inner.log = x.stream.val.inner.val.inner.log ++ es := w.log
      refine ⟨es ++ es', ws ++ ws', fl ++ fl', i1, ?_, ?_, fun rest wrest frest asked given => ?_⟩
      · intro a ha
        rcases List.mem_append.1 ha with ha | ha
        · exact d a ha
        · exact i2 a ha
      · rw [i3, hw]
        simp
      · have hs : Verif.sendRequest prof ((clientViews P Er offer).client x (es ++ (es' ++ rest)) (ws ++ (ws' ++ wrest)) (fl ++ (fl' ++ frest)) asked given) q =
            (o, (clientViews P Er offer).client y (es' ++ rest) (ws' ++ wrest) (fl' ++ frest) (asked ++ [q]) given) := k _ _ _ _ _
        rw [List.append_assoc, List.append_assoc, List.append_assoc, List.map_cons, ClientStream.sendAll, hs]
        dsimp only
        rw [i4]
        simp

/-- C71: the client over any raw stream, whose directions may affect each other and which may change in any way between the requests: what comes of the requests, all of them,
is what comes of them over a scripted stream in two parts, as everywhere in this model, for scripts that say what the calls of `read`, `write` and `flush` did. -/
theorem C71_client (hT : RawIO.Honest T) (hR : RawIO.ReadsWithin T) (offer : Nat → Nat) (t : T) (qs : List ((T → T) × Nat × Request)) {os : List SendEnd}
    {x : Shared (ClientStack (Traced T))} (h : Shared.sendAll prof qs (Shared.opened offer t) = some (os, x)) :
    ∃ raw s, ClientStream.sendAll prof (qs.map fun e => e.2.2) (.open raw) = (os, s) ∧
      raw.offer = offer ∧ raw.input = x.stream.val.inner.val.inner.log ∧
      s.writer.sock.sent = x.stream.val.inner.val.inner.put ∧ s.writer.buf = x.stream.val.buf ∧ s.reader.src.buf = x.stream.val.inner.val.buf := by
  obtain ⟨es, ws, fl, -, -, h3, h4⟩ := client_runs (P := fun _ => True) (Er := .any) hT hR
    { write := fun _ _ => trivial, flush := fun _ _ => trivial, read := fun _ _ => trivial, drop := fun _ => trivial } ⟨fun _ _ _ => trivial, fun _ _ => trivial, fun _ _ => trivial⟩ offer (fun _ _ _ _ => trivial) h
    ⟨⟨rfl, trivial⟩, rfl⟩
  have h4 := h4 [] [] [] [] (es.flatMap Ev.atoms)
  rw [List.append_nil, List.append_nil, List.append_nil] at h4
  obtain rfl : x.stream.val.inner.val.inner.log = es := h3
  exact ⟨⟨_, ws, fl, offer⟩, _, h4, rfl, rfl, rfl, rfl, rfl⟩

omit [RawIO T] in
theorem sendAll_ok (prof : Profile) (qs : List Request) (s : ClientStream) (hd : ∀ o ∈ (ClientStream.sendAll prof qs s).1.dropLast, ∃ r, o = .ok r) :
    (ClientStream.sendAll prof qs s).2.out <+: s.out ++ qs.flatMap requestBytes ∧
    (∃ r', Replies prof s.reader ((ClientStream.sendAll prof qs s).1.filterMap SendEnd.response) r') ∧
    (s.writer.buf = [] → (∀ o ∈ (ClientStream.sendAll prof qs s).1, ∃ r, o = .ok r) →
      (ClientStream.sendAll prof qs s).2.writer.sock.sent = s.out ++ qs.flatMap requestBytes ∧ (ClientStream.sendAll prof qs s).2.writer.buf = []) := by
  have hrep : ∀ {s s₁ : ClientStream} {q : Request} {r : Response}, sendRequest prof s q = (.ok r, s₁) →
      ResponseParser.parse prof .new s.reader = (.done r, s₁.reader) := by
    intro s s₁ q r h
    unfold sendRequest at h
    dsimp only at h
    generalize writeRequest s.writer q = A at h
    obtain ⟨a, w⟩ := A
    cases a with
    | err e => cases h
    | diverge => cases h
    | ok =>
      dsimp only at h
      generalize ResponseParser.parse prof .new s.reader = B at h ⊢
      obtain ⟨b, rd⟩ := B
      cases b <;> cases h
      rfl
  induction qs generalizing s with
  | nil => exact ⟨by simp [ClientStream.sendAll], ⟨_, .nil⟩, fun hb _ => by simp [ClientStream.sendAll, ClientStream.out, hb]⟩
  | cons q qs ih =>
    simp only [ClientStream.sendAll] at hd ⊢
    obtain ⟨-, -, h3, -, h5⟩ := sendRequest_out prof s q
    cases hs : sendRequest prof s q with
    | mk o s₁ =>
    rw [hs] at hd h3 h5
    dsimp only at hd h3 h5 ⊢
    cases qs with
    | nil =>
      refine ⟨by simpa [ClientStream.sendAll] using h3, ?_, fun _ ho => ?_⟩
      · simp only [ClientStream.sendAll]
        cases o with
        | ok r => exact ⟨_, .cons (hrep hs) .nil⟩
        | _ => exact ⟨_, .nil⟩
      · obtain ⟨r, rfl⟩ := ho o (List.mem_cons_self ..)
        simpa [ClientStream.sendAll] using h5 (by simp)
    | cons q' qs =>
      rw [List.dropLast_cons_of_ne_nil (by simp [ClientStream.sendAll])] at hd
      obtain ⟨r, rfl⟩ := hd o (List.mem_cons_self ..)
      obtain ⟨h6, h7⟩ := h5 (by simp)
      have ho : s₁.out = s.out ++ requestBytes q := by simp [ClientStream.out, h6, h7]
      obtain ⟨i1, ⟨r', i2⟩, i3⟩ := ih s₁ fun o hm => hd o (List.mem_cons_of_mem _ hm)
      rw [ho, List.append_assoc] at i1 i3
      exact ⟨i1, ⟨r', .cons (hrep hs) i2⟩, fun _ hm => i3 h7 fun o hm' => hm o (List.mem_cons_of_mem _ hm')⟩

theorem tls_within : RawIO.ReadsWithin TlsStream := fun t t' n b h => t.read_within n (by rw [show t.read n = _ from h])

theorem tls_calm_keeps (cipher : Cipher) (input : List TlsEv) :
    RawKeeps (T := Traced TlsStream) fun t => TlsStream.Inv cipher input t.got t.put t.raw ∧ t.raw.Calm where
  write {f w w' b x} e h := by
    refine ⟨(tls_keeps cipher input).write e h.1, ?_⟩
    have := TlsStream.write_calm h.2 b
    obtain ⟨⟨y, t⟩, h1, h2⟩ := Option.map_eq_some_iff.1 e
    have h1 : (y, t) = w.raw.write b := (Option.some.inj h1).symm
    rw [← h1] at this
    cases y <;> (cases h2; exact this.1)
  flush {f w w' x} e h := by
    refine ⟨(tls_keeps cipher input).flush e h.1, ?_⟩
    obtain ⟨y, h1, h2⟩ := Option.map_eq_some_iff.1 e
    cases h2
    have h1 : y = w.raw.flush := (Option.some.inj h1).symm
    subst h1
    exact TlsStream.flush_calm h.2
  read {t t' n x} e h := by
    refine ⟨(tls_keeps cipher input).read e h.1, ?_⟩
    have := TlsStream.read_calm h.2 n
    simp only [RawIO.read] at e
    generalize t.raw.read n = y at this e
    obtain ⟨y, t₁⟩ := y
    cases y <;> (cases e; exact this)
  drop {t} h := ⟨(tls_keeps cipher input).drop h.1, TlsStream.flush_calm (t := { t.raw with sess := t.raw.sess.sendCloseNotify }) h.2⟩

theorem tls_calm_errs (cipher : Cipher) (input : List TlsEv) :
    ErrsIn (T := TlsStream) (fun t => TlsStream.Inv cipher input t.got t.put t.raw ∧ t.raw.Calm) .calm := by
  refine ⟨fun _ _ _ => trivial, fun {f t t' b e} h hw he => ?_, fun _ _ => trivial⟩
  subst he
  have := TlsStream.write_calm h.2 b
  obtain ⟨⟨y, t₁⟩, h1, h2⟩ := Option.map_eq_some_iff.1 hw
  have h1 : (y, t₁) = t.raw.write b := (Option.some.inj h1).symm
  rw [← h1] at this
  cases y with
  | ok n => cases h2
  | error e =>
    cases h2
    exact this.2 rfl

/-- C71 (partial: for responses in parts of at most 4096 bytes, and a TCP stream that is never interrupted): the server over TLS. What its reads delivered is a beginning of the plain text
that came after the handshake; all plain text that the server sealed is the answers to the requests in what these reads delivered, in order, and perhaps one 400 response, and no more
than that; and the TCP stream has, or will get, the sealed messages. While the connection is there, exactly the answers have been sealed or are held to be sealed. -/
theorem C71_tls_server_partial (hrt : rt.PartsLe 4096) (cipher : Cipher) {input : List TlsEv} {evs : List WEv} (hi : .err .interrupted ∉ input) (he : .err .interrupted ∉ evs)
    (fl : List (Option IoError)) {grow : Nat → Nat → Nat} (hg : ∀ c n, c ≤ grow c n) (offer : Nat → Nat) (ns : List Nat)
    {l : Slot (Shared (ServerStack (Traced TlsStream))) Unit} {s s' : σ}
    (h : SharedConn.handleAll prof rt (ns.map fun n => (id, n)) (.live (SharedConn.new grow offer (TlsStream.new cipher false input ⟨evs, fl, []⟩))) s = some (l, s')) :
    let t := l.traced.raw
    t.sock.sent ++ t.sess.out = cipher.wire 0 t.sess.log ∧
    ∃ used, input = used ++ t.input ∧ l.traced.got <+: (used.foldl TlsHeard.step ⟨true, [], false, false⟩).came ∧ ∃ fl qs out s₁ r₁ tail,
      Heard prof (Conn.scripted grow hg offer l.traced.log fl).reader qs r₁ ∧ Served rt s qs out s₁ ∧
      (tail = [] ∨ tail = b!"HTTP/1.1 400 Bad Request\r\n\r\n" ∧ NoRequest prof r₁) ∧ NoneAsked prof rt r₁ s₁ s' ∧
      t.sess.log.flatMap TlsItem.plain <+: out ++ tail ∧
      ∀ c, l = .live c → tail = [] ∧ s' = s₁ ∧ t.sess.log.flatMap TlsItem.plain ++ c.reader.stream.val.buf.drop c.reader.stream.val.pos = out ∧
        ∀ q ∈ qs, ¬ CloseAsked q := by
  obtain ⟨⟨i, -⟩, fl', qs, out, s₁, r₁, tail, k1, k2, k3, k4, k5, k6⟩ := only_answers tls_honest tls_within (tls_calm_keeps cipher input)
    (tls_calm_errs cipher input) hrt hg offer (t := TlsStream.new cipher false input ⟨evs, fl, []⟩) ⟨TlsStream.Inv.new cipher false input evs fl, hi, he⟩
    (fun e hm t ht => by
      obtain ⟨n, -, rfl⟩ := List.mem_map.1 hm
      exact ht) h
  obtain ⟨u, h3, h4⟩ := i.heard
  refine ⟨by rw [i.wire, i.cipher], u, h3, ?_, fl', qs, out, s₁, r₁, tail, k1, k2, k3, k4, by rw [i.log]; exact k5, fun c hc => ?_⟩
  · rw [h4]
    exact ⟨_, i.plain⟩
  · rw [i.log]
    exact k6 c hc

omit [RawIO T] in
/-- C71: the client over TLS, as long as no request before the last one failed. All plain text that the client sealed, and what is in its buffer, is a beginning of the
requests; the responses are those in a beginning of the plain text that came after the handshake, in order; and the TCP stream has, or will get, the sealed messages.
If every request got its response, all of all requests has been sealed. -/
theorem C71_tls_client (cipher : Cipher) (input : List TlsEv) (evs : List WEv) (fl : List (Option IoError)) (offer : Nat → Nat) (qs : List (Nat × Request)) {os : List SendEnd}
    {x : Shared (ClientStack (Traced TlsStream))}
    (h : Shared.sendAll prof (qs.map fun e => (id, e)) (Shared.opened offer (TlsStream.new cipher true input ⟨evs, fl, []⟩)) = some (os, x))
    (hd : ∀ o ∈ os.dropLast, ∃ r, o = .ok r) :
    let t := x.stream.val.inner.val.inner.raw
    t.sock.sent ++ t.sess.out = cipher.wire 0 t.sess.log ∧
    t.sess.log.flatMap TlsItem.plain ++ x.stream.val.buf <+: qs.flatMap (fun e => requestBytes e.2) ∧
    (∃ raw used r', input = used ++ t.input ∧ raw.input = x.stream.val.inner.val.inner.log ∧
      x.stream.val.inner.val.inner.got <+: (used.foldl TlsHeard.step ⟨true, [], false, false⟩).came ∧
      Replies prof (ClientStream.open raw).reader (os.filterMap SendEnd.response) r') ∧
    ((∀ o ∈ os, ∃ r, o = .ok r) → t.sess.log.flatMap TlsItem.plain = qs.flatMap (fun e => requestBytes e.2)) := by
  obtain ⟨es, ws, fl', h0, -, h3, h4⟩ := client_runs (Er := .any) tls_honest tls_within (tls_keeps cipher input) ⟨fun _ _ _ => trivial, fun _ _ => trivial, fun _ _ => trivial⟩ offer
    (fun e hm t ht => by
      obtain ⟨n, -, rfl⟩ := List.mem_map.1 hm
      exact ht) h ⟨⟨rfl, TlsStream.Inv.new cipher true input evs fl⟩, rfl⟩
  have i : TlsStream.Inv cipher input x.stream.val.inner.val.inner.got x.stream.val.inner.val.inner.put x.stream.val.inner.val.inner.raw := h0.ok.2
  have h4 := h4 [] [] [] [] (es.flatMap Ev.atoms)
  rw [List.append_nil, List.append_nil, List.append_nil, List.map_map] at h4
  replace h4 : ClientStream.sendAll prof _ (.open ⟨es, ws, fl', offer⟩) = _ := h4
  obtain ⟨k1, ⟨r', k2⟩, k3⟩ := sendAll_ok prof (qs.map ((fun e => e.2.2) ∘ fun e => (id, e))) (.open ⟨es, ws, fl', offer⟩) (by rw [h4]; exact hd)
  rw [h4] at k1 k2 k3
  obtain ⟨u, h7, h8⟩ := i.heard
  have hq : (qs.map ((fun e => e.2.2) ∘ fun e => ((id : TlsStream → TlsStream), e))).flatMap requestBytes = qs.flatMap (fun e => requestBytes e.2) := by
    rw [List.flatMap_map]
    rfl
  rw [hq] at k1 k3
  refine ⟨by rw [i.wire, i.cipher], by rw [i.log]; exact k1, ⟨⟨es, ws, fl', offer⟩, u, r', h7, h3.symm, ?_, k2⟩, fun ho => by rw [i.log]; exact (k3 rfl ho).1⟩
  rw [h8]
  exact ⟨_, i.plain⟩

end

/-! ## What can go wrong over TLS -/

/-- A new connection of the server over TLS. -/
def tlsConn (input : List TlsEv) (evs : List WEv) : Slot (Shared (ServerStack (Traced TlsStream))) Unit :=
  .live (SharedConn.new (fun c n => max c n) id (TlsStream.new toyCipher false input ⟨evs, [], []⟩))

/-- A new stream of the client over TLS. -/
def tlsOpened (input : List TlsEv) (evs : List WEv) : Shared (ClientStack (Traced TlsStream)) :=
  Shared.opened id (TlsStream.new toyCipher true input ⟨evs, [], []⟩)

/-- Whether a connection is still there. -/
def Slot.isLive {R W : Type} : Slot R W → Bool
  | .live _ => true
  | _ => false

/-- C71 fails: the server does not go on as long as the client neither ends nor closes the connection and nothing is wrong. After the handshake the client sends something that
the session has to answer but that has no plain text (in TLS 1.2 a request to renegotiate, which is refused with a warning), and then a request. `Session::complete_io` sends the answer and returns, having read nothing in that call, so
`Stream::read` says that the stream is at its end. The server drops the connection, and the request is not read. -/
theorem C71_spurious_end_false (prof : Profile) : ∃ l s, SharedConn.handleAll prof counter [(id, 20), (id, 20)]
    (tlsConn [.records true [] false true, .records false [] false true, .records false (b!"GET /a HTTP/1.1\r\n\r\n") false false] [.accept 100, .accept 100, .accept 100]) 0 =
      some (l, s) ∧ l.isLive = false ∧ l.traced.put = [] ∧ s = 0 := by
  have h : (SharedConn.handleAll prof counter [(id, 20), (id, 20)] (tlsConn [.records true [] false true, .records false [] false true,
      .records false (b!"GET /a HTTP/1.1\r\n\r\n") false false] [.accept 100, .accept 100, .accept 100]) 0).map (fun p => (p.1.isLive, p.1.traced.put, p.2)) =
      some (false, [], 0) := by
    rcases prof with ⟨_ | _⟩ <;> decide +kernel
  obtain ⟨⟨l, s⟩, h1, h2⟩ := Option.map_eq_some_iff.1 h
  obtain ⟨h2, h3⟩ := Prod.mk.inj h2
  obtain ⟨h3, h4⟩ := Prod.mk.inj h3
  exact ⟨l, s, h1, h2, h3, h4⟩

/-- C71: without it the same request is answered. -/
theorem C71_no_spurious_end (prof : Profile) : ∃ l s, SharedConn.handleAll prof counter [(id, 20), (id, 20)]
    (tlsConn [.records true [] false true, .records false (b!"GET /a HTTP/1.1\r\n\r\n") false false] [.accept 100, .accept 100, .accept 100]) 0 =
      some (l, s) ∧ l.isLive = true ∧ l.traced.put = b!"HTTP/1.1 200 OK\r\n\r\nhi" ∧ s = 1 := by
  have h : (SharedConn.handleAll prof counter [(id, 20), (id, 20)] (tlsConn [.records true [] false true,
      .records false (b!"GET /a HTTP/1.1\r\n\r\n") false false] [.accept 100, .accept 100, .accept 100]) 0).map (fun p => (p.1.isLive, p.1.traced.put, p.2)) =
      some (true, b!"HTTP/1.1 200 OK\r\n\r\nhi", 1) := by
    rcases prof with ⟨_ | _⟩ <;> decide +kernel
  obtain ⟨⟨l, s⟩, h1, h2⟩ := Option.map_eq_some_iff.1 h
  obtain ⟨h2, h3⟩ := Prod.mk.inj h2
  obtain ⟨h3, h4⟩ := Prod.mk.inj h3
  exact ⟨l, s, h1, h2, h3, h4⟩

/-- C71 fails: a response whose body goes on to the end of the stream is returned cut off, as if it were whole, although the server sent all of it and nobody interfered: there was a request to
renegotiate in the middle of it. -/
theorem C71_cut_off_false (prof : Profile) : ∃ x, Shared.sendAll prof [(id, 20, ⟨b!"/a", .get, [], []⟩)]
    (tlsOpened [.records true [] false true, .records false (b!"HTTP/1.1 200 OK\r\n\r\nab") false false, .records false [] false true, .records false (b!"cd") true false, .eof]
      [.accept 100, .accept 100, .accept 100, .accept 100]) = some ([.ok ⟨⟨200, b!"OK"⟩, [], b!"ab"⟩], x) ∧
      x.stream.val.inner.val.inner.raw.input = [.records false (b!"cd") true false, .eof] := by
  have h : (Shared.sendAll prof [(id, 20, ⟨b!"/a", .get, [], []⟩)]
    (tlsOpened [.records true [] false true, .records false (b!"HTTP/1.1 200 OK\r\n\r\nab") false false, .records false [] false true, .records false (b!"cd") true false, .eof]
      [.accept 100, .accept 100, .accept 100, .accept 100])).map (fun p => (p.1, p.2.stream.val.inner.val.inner.raw.input)) =
      some ([.ok ⟨⟨200, b!"OK"⟩, [], b!"ab"⟩], [.records false (b!"cd") true false, .eof]) := by
    rcases prof with ⟨_ | _⟩ <;> decide +kernel
  obtain ⟨⟨l, s⟩, h1, h2⟩ := Option.map_eq_some_iff.1 h
  obtain ⟨h2, h3⟩ := Prod.mk.inj h2
  cases h2
  exact ⟨s, h1, h3⟩

/-! ## Examples -/

/-- The hypotheses about `counter` and the stream hold in the run above. -/
example : counter.PartsLe 4096 ∧ TlsEv.err .interrupted ∉ [TlsEv.records true [] false true] ∧ WEv.err .interrupted ∉ [WEv.accept 100] :=
  ⟨⟨by decide, fun q s r s' h => by
    rw [counter_result] at h
    rcases h with h | h <;> cases h
    exact ⟨by decide, by decide, by decide, by simp [HeaderMap.flat], by decide⟩⟩, by simp, by simp⟩

/-- Two requests of a client over TLS get their responses. -/
example (prof : Profile) : (Shared.sendAll prof [(id, 20, ⟨b!"/a", .get, [], []⟩), (id, 20, ⟨b!"/b", .get, [], []⟩)]
    (tlsOpened [.records true [] false true, .records false (b!"HTTP/1.1 200 OK\r\ncontent-length: 2\r\n\r\nab") false false,
      .records false (b!"HTTP/1.1 200 OK\r\ncontent-length: 1\r\n\r\nc") false false]
      [.accept 100, .accept 100, .accept 100, .accept 100, .accept 100])).map (fun p => p.1.filterMap SendEnd.response |>.map Response.body) = some [b!"ab", b!"c"] := by
  rcases prof with ⟨_ | _⟩ <;> decide +kernel

end Verif
