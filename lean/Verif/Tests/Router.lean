import Verif.Model.Router

/-!
The unit tests of `src/server/router.rs`, translated by hand. The state that the listeners share is the list of calls that
`add_function_call` (router.rs 104-106) pushes to.
-/

namespace Verif.Tests.Router

/-- The calls recorded. -/
abbrev Calls := List Bytes

/-- `test_request`, router.rs 124-131. -/
def request (uri : Bytes) : Request := ⟨uri, .get, [], []⟩

/-- `test_response`, router.rs 133-139. -/
def response : Response := ⟨.ok, [], []⟩

/-- A listener that only records that it was called. -/
def says (call : Bytes) : Listener Calls := fun _ _ s => (some .next, s ++ [call])

/-- A listener that only responds. -/
def sends (r : ListenerResult) : Listener Calls := fun _ _ s => (some r, s)

/-- A listener that panics. -/
def panics : Listener Calls := fun _ _ s => (none, s)

/-- A listener that first calls `test_route_function_args`, router.rs 118-122, which panics when its assertions do not hold. -/
def checks (uri orig : Bytes) (k : Listener Calls) : Listener Calls := fun u q s =>
  if u = uri ∧ q = request orig then k u q s else (none, s)

/-- `test_route`, router.rs 112-116, several times on end. -/
def routes (r : Router Calls) : List (Bytes × ListenerResult × Calls) → Calls → Bool
  | [], _ => true
  | (uri, res, calls) :: rest, s =>
    let x := r.result (request uri) s
    x.1 == some res && x.2 == calls && routes r rest x.2

/-- `Router::new`, router.rs 25-27. -/
def new : Router Calls := []

/-- router.rs 141-144. -/
theorem no_routes : routes new [(b!"", .next, [])] [] := by decide +kernel

/-- router.rs 146-158. -/
theorem listener_args : routes (new.onPrefix b!"/hello" (checks b!"/hello" b!"/hello" (sends .next)))
    [(b!"/hello", .next, [])] [] := by decide +kernel

/-- router.rs 160-172. -/
theorem listener_called : routes (new.onPrefix b!"/hello" (says b!"called")) [(b!"/hello", .next, [b!"called"])] [] := by
  decide +kernel

/-- router.rs 174-188. -/
theorem listener_called_multiple_times : routes (new.onPrefix b!"/hello" (says b!"called"))
    [(b!"/hello", .next, [b!"called"]), (b!"/hello", .next, [b!"called", b!"called"]),
      (b!"/hello", .next, [b!"called", b!"called", b!"called"])] [] := by decide +kernel

/-- router.rs 190-214. -/
theorem multiple_listeners_called :
    routes (((new.onPrefix b!"/hello" (says b!"called 1")).onPrefix b!"/hello" (says b!"called 2")).onPrefix b!"/hello"
      (says b!"called 3")) [(b!"/hello", .next, [b!"called 1", b!"called 2", b!"called 3"])] [] := by decide +kernel

/-- router.rs 216-229. -/
theorem send_response_blocks :
    routes ((new.onPrefix b!"/hello" (sends (.sendResponse response))).onPrefix b!"/hello" panics)
      [(b!"/hello", .sendResponse response, [])] [] := by decide +kernel

/-- router.rs 231-246. -/
theorem no_routes_hit : routes ((new.onPrefix b!"/hello" panics).onPrefix b!"/bye" panics)
    [(b!"/goodbye", .next, []), (b!"blahblah", .next, []), (b!"/hihihi", .next, [])] [] := by decide +kernel

/-- router.rs 248-281. -/
theorem listener_with_prefix_uri :
    routes (((new.onPrefix b!"/he" (checks b!"/hello" b!"/hello" (says b!"called /he"))).onPrefix b!"/hel"
      (checks b!"/hello" b!"/hello" (says b!"called /hel"))).onPrefix b!"/hell"
      (checks b!"/hello" b!"/hello" (says b!"called /hell")))
      [(b!"/hello", .next, [b!"called /he", b!"called /hel", b!"called /hell"])] [] := by decide +kernel

/-- router.rs 283-297. -/
theorem listener_with_prefix_uri_called_multiple_times : routes (new.onPrefix b!"/h" (says b!"called"))
    [(b!"/hello", .next, [b!"called"]), (b!"/hi", .next, [b!"called", b!"called"]),
      (b!"/hola", .next, [b!"called", b!"called", b!"called"])] [] := by decide +kernel

/-- router.rs 299-314. -/
theorem listener_with_empty_uri_always_called : routes (new.onPrefix b!"" (says b!"called"))
    [(b!"/hello", .next, [b!"called"]), (b!"/goodbye", .next, [b!"called", b!"called"]),
      (b!"blahblah", .next, [b!"called", b!"called", b!"called"]),
      (b!"/ewf/rg/wef", .next, [b!"called", b!"called", b!"called", b!"called"])] [] := by decide +kernel

/-- router.rs 316-334. -/
theorem sub_router :
    routes (new.route b!"/foo" (new.onPrefix b!"/bar" (checks b!"/bar" b!"/foo/bar" (says b!"called"))))
      [(b!"/foo/bar", .next, [b!"called"])] [] := by decide +kernel

/-- router.rs 336-365. -/
theorem sub_sub_router :
    routes (new.route b!"/baz" ((new.onPrefix b!"/foo" (checks b!"/foo/bar" b!"/baz/foo/bar" (says b!"called sub router"))).route
      b!"/foo" (new.onPrefix b!"/bar" (checks b!"/bar" b!"/baz/foo/bar" (says b!"called sub sub router")))))
      [(b!"/baz/foo/bar", .next, [b!"called sub router", b!"called sub sub router"])] [] := by decide +kernel

/-- router.rs 367-396. -/
theorem sub_router_order_maintained :
    routes ((new.route b!"/foo" ((new.onPrefix b!"/bar" (says b!"call 1")).onPrefix b!"/bar" (says b!"call 2"))).onPrefix
      b!"/foo" (says b!"call 3")) [(b!"/foo/bar", .next, [b!"call 1", b!"call 2", b!"call 3"])] [] := by decide +kernel

/-- router.rs 398-419. -/
theorem sub_router_sends_response :
    routes ((new.route b!"/foo" ((new.onPrefix b!"/bar" (sends (.sendResponse response))).onPrefix b!"/bar" panics)).onPrefix
      b!"/foo" panics) [(b!"/foo/bar", .sendResponse response, [])] [] := by decide +kernel

/-- router.rs 421-444. -/
theorem sub_sub_router_sends_response :
    routes ((new.route b!"/baz" ((new.route b!"/foo" (new.onPrefix b!"/bar" (sends (.sendResponse response)))).onPrefix b!"/foo"
      panics)).onPrefix b!"/baz" panics) [(b!"/baz/foo/bar", .sendResponse response, [])] [] := by decide +kernel

/-- router.rs 446-460. -/
theorem strict_uri_match_listener : routes (new.on b!"/hello" (says b!"called"))
    [(b!"/hello", .next, [b!"called"]), (b!"/hello/hello", .next, [b!"called"]), (b!"/bye", .next, [b!"called"])] [] := by
  decide +kernel

/-- router.rs 462-481. -/
theorem strict_uri_match_sub_router : routes (new.route b!"/foo" (new.on b!"/bar" (says b!"called")))
    [(b!"/foo/bar", .next, [b!"called"]), (b!"/foo/bar/baz", .next, [b!"called"]), (b!"/foo/bariugw", .next, [b!"called"]),
      (b!"/foofoo", .next, [b!"called"])] [] := by decide +kernel

/-- router.rs 483-499. -/
theorem send_response_arc_blocks :
    routes ((new.onPrefix b!"/hello" (sends (.sendResponseArc response))).onPrefix b!"/hello" panics)
      [(b!"/hello", .sendResponseArc response, [])] [] := by decide +kernel

/-- router.rs 501-530. -/
theorem listeners_called_until_response_sent :
    routes ((((new.on b!"/hello" (says b!"call 1")).on b!"/hello" (says b!"call 2")).on b!"/hello"
      fun _ _ s => (some (.sendResponse response), s ++ [b!"call 3"])).on b!"/hello" panics)
      [(b!"/hello", .sendResponse response, [b!"call 1", b!"call 2", b!"call 3"])] [] := by decide +kernel

/-- The uri of the last test. -/
def long : Bytes := b!"/long/test/uri/blah/blah/blah"

/-- The router of the last test, with `n` rounds of its loop. -/
def many : Nat → Router Calls
  | 0 => new
  | n + 1 => ((many n).on long (says b!"call 1")).onPrefix long (says b!"call 2")

/-- `n` times these calls. -/
def times : Nat → Calls → Calls
  | 0, _ => []
  | n + 1, c => times n c ++ c

theorem result_append {σ : Type} (uri : Bytes) (q : Request) : ∀ (a b : Router σ) (s s' : σ),
    Router.resultInternal uri q a s = (some .next, s') → Router.resultInternal uri q (a ++ b) s = Router.resultInternal uri q b s'
  | [], _, s, s', h => by simp only [Router.resultInternal, Prod.mk.injEq, true_and] at h; rw [← h]; rfl
  | (p, l) :: a, b, s, s', h => by
    simp only [Router.resultInternal, List.cons_append] at h ⊢
    by_cases hp : startsWith uri p
    · simp only [hp, if_true] at h ⊢
      match hl : l uri q s with
      | (some .next, s1) => simp only [hl] at h ⊢; exact result_append uri q a b s1 s' h
      | (some (.sendResponse r), s1) => simp [hl] at h
      | (some (.sendResponseArc r), s1) => simp [hl] at h
      | (none, s1) => simp [hl] at h
    · simp only [hp] at h ⊢; exact result_append uri q a b s s' h

/-- One round more of the loop: what `c` says holds of the two new listeners holds of all. -/
theorem many_result (uri : Bytes) (c : Calls)
    (h : ∀ s, Router.resultInternal uri (request uri) ((new.on long (says b!"call 1")).onPrefix long (says b!"call 2")) s =
      (some .next, s ++ c)) : ∀ (n : Nat) (s : Calls),
    (many n).result (request uri) s = (some .next, s ++ times n c)
  | 0, s => by simp [many, new, Router.result, Router.resultInternal, times]
  | n + 1, s => by
    have ih := many_result uri c h n s
    have e : many (n + 1) = many n ++ ((new.on long (says b!"call 1")).onPrefix long (says b!"call 2")) := by
      simp [many, new, Router.on, Router.onPrefix]
    rw [Router.result, e]
    exact (result_append uri (request uri) (many n) _ s _ ih).trans ((h _).trans (by simp [times]))

theorem one_exact (s : Calls) :
    Router.resultInternal long (request long) ((new.on long (says b!"call 1")).onPrefix long (says b!"call 2")) s =
      (some .next, s ++ [b!"call 1", b!"call 2"]) := by
  have h1 : startsWith long b!"" = true := by decide +kernel
  have h2 : startsWith long long = true := by decide +kernel
  simp [new, Router.on, Router.onPrefix, Router.resultInternal, h1, h2, says]

theorem one_longer (uri : Bytes) (hp : startsWith uri long = true) (hu : long ≠ uri) (s : Calls) :
    Router.resultInternal uri (request uri) ((new.on long (says b!"call 1")).onPrefix long (says b!"call 2")) s =
      (some .next, s ++ [b!"call 2"]) := by
  have h1 : startsWith uri b!"" = true := by cases uri <;> rfl
  simp [new, Router.on, Router.onPrefix, Router.resultInternal, h1, hp, hu, says]

/-- The test, with any number of rounds. -/
theorem stress (n : Nat) :
    (many n).result (request long) [] = (some .next, times n [b!"call 1", b!"call 2"]) ∧
    (many n).result (request b!"/long/test/uri/blah/blah/blah/a") [] = (some .next, times n [b!"call 2"]) ∧
    (many n).result (request
      b!"/long/test/uri/blah/blah/blah/yada/yada/wioefjiowef/woeifjo/oiwejfiowefd/qiowjd") [] =
        (some .next, times n [b!"call 2"]) :=
  ⟨many_result _ _ one_exact n [],
    many_result _ _ (one_longer _ (by decide +kernel) (by decide +kernel)) n [],
    many_result _ _ (one_longer _ (by decide +kernel) (by decide +kernel)) n []⟩

/-- router.rs 532-586: with 10000 rounds of its loop. The calls are cleared before each `test_route`, so each starts from
none. -/
theorem stress_test :
    (many 10000).result (request long) [] = (some .next, times 10000 [b!"call 1", b!"call 2"]) ∧
    (many 10000).result (request b!"/long/test/uri/blah/blah/blah/a") [] = (some .next, times 10000 [b!"call 2"]) ∧
    (many 10000).result (request
      b!"/long/test/uri/blah/blah/blah/yada/yada/wioefjiowef/woeifjo/oiwejfiowefd/qiowjd") [] =
        (some .next, times 10000 [b!"call 2"]) := stress 10000

end Verif.Tests.Router
