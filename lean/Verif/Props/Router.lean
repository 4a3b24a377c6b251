import Verif.Spec.Path
import Verif.Lemmas.Decimal
import Verif.Props.Upgrade
/-!
# Properties of routing and serving (C48 - C53)
-/
namespace Puck
open Http

/-! ## C49 -/

/-- **C49.** A segment is accepted by `any_integer()` iff it is an optional single sign followed by one or
more digits whose value lies in the 32-bit range. -/
theorem C49_int_segment (s : String) :
    Segment.intParam.accepts s = true ↔ ∃ n, Decimal.Denotes (strBytes s) n ∧ -2 ^ 31 ≤ n ∧ n < 2 ^ 31 := by
  simp only [Segment.accepts, Option.isSome_iff_exists, parseI32_iff]

/-- The boundaries. -/
example : Segment.intParam.accepts "-2147483648" = true ∧ Segment.intParam.accepts "2147483648" = false ∧
    Segment.intParam.accepts "+12" = true ∧ Segment.intParam.accepts "" = false ∧ Segment.intParam.accepts "-" = false ∧
    Segment.intParam.accepts "1e3" = false := by decide +kernel

/-! ## C48 -/

theorem accepts_iff (e : Segment) (a : String) : e.accepts a = true ↔ SegMatch e a := by
  cases e with
  | static s =>
    simp only [Segment.accepts, beq_iff_eq]
    constructor
    · rintro rfl; exact .static _
    · rintro ⟨⟩; rfl
  | param => exact ⟨fun _ => .param _, fun _ => rfl⟩
  | intParam =>
    rw [C49_int_segment]
    constructor
    · rintro ⟨n, h1, h2, h3⟩; exact .int _ n h1 h2 h3
    · rintro ⟨⟩; exact ⟨_, by assumption, by assumption, by assumption⟩

theorem matchLoop_iff (segs : List Segment) (as : List String) :
    matchLoop segs as = true ↔ segs.length = as.length ∧ ∀ p ∈ segs.zip as, SegMatch p.1 p.2 := by
  induction segs generalizing as with
  | nil => cases as <;> simp [matchLoop]
  | cons e es ih =>
    cases as with
    | nil => simp [matchLoop]
    | cons a as =>
      rw [matchLoop]
      by_cases h : e.accepts a = true
      · rw [if_pos h, ih]
        simp [(accepts_iff e a).1 h]
      · rw [if_neg h]
        simp only [Bool.false_eq_true, List.length_cons, List.zip_cons_cons, List.mem_cons, forall_eq_or_imp, false_iff]
        rintro ⟨_, h2, _⟩
        exact h ((accepts_iff e a).2 h2)

theorem splitSlash_ne (cs : List Char) : splitSlash cs ≠ [] := by
  cases cs with
  | nil => simp [splitSlash]
  | cons c cs =>
    rw [splitSlash]
    split
    · simp
    · split <;> simp

theorem splitSlash_no (cs : List Char) : ∀ p ∈ splitSlash cs, '/' ∉ p := by
  induction cs with
  | nil => simp [splitSlash]
  | cons c cs ih =>
    rw [splitSlash]
    split
    · intro p hp
      simp only [List.mem_cons] at hp
      rcases hp with rfl | hp
      · simp
      · exact ih p hp
    · rename_i hc
      cases hs : splitSlash cs with
      | nil => simp; exact fun h => hc h.symm
      | cons q qs =>
        intro p hp
        simp only [List.mem_cons] at hp
        rw [hs] at ih
        rcases hp with rfl | hp
        · intro hm
          simp only [List.mem_cons] at hm
          rcases hm with h | hm
          · exact hc h.symm
          · exact ih q (by simp) hm
        · exact ih p (by simp [hp])

/-- Pieces, each preceded by a slash. -/
def slashed (ps : List (List Char)) : List Char := (ps.map fun p => '/' :: p).flatten

theorem slashed_split (cs : List Char) : slashed (splitSlash cs) = '/' :: cs := by
  induction cs with
  | nil => rfl
  | cons c cs ih =>
    rw [splitSlash]
    split
    · rename_i h
      subst h
      simp only [slashed, List.map_cons, List.flatten_cons] at ih ⊢
      rw [ih]; rfl
    · cases hs : splitSlash cs with
      | nil => exact absurd hs (splitSlash_ne cs)
      | cons q qs =>
        rw [hs] at ih
        simp only [slashed, List.map_cons, List.flatten_cons, List.cons_append, List.cons.injEq, true_and] at ih ⊢
        rw [ih]

theorem splitSlash_append {p : List Char} (hp : '/' ∉ p) {t q : List Char} {qs : List (List Char)}
    (ht : splitSlash t = q :: qs) : splitSlash (p ++ t) = (p ++ q) :: qs := by
  induction p with
  | nil => exact ht
  | cons c p ihp =>
    have hc : c ≠ '/' := fun he => hp (by simp [he])
    have := ihp (fun hm => hp (by simp [hm]))
    rw [List.cons_append, splitSlash, if_neg hc, this]
    rfl

theorem split_slashed {ps : List (List Char)} (hne : ps ≠ []) (h : ∀ p ∈ ps, '/' ∉ p) :
    ∃ rest, slashed ps = '/' :: rest ∧ splitSlash rest = ps := by
  induction ps with
  | nil => exact absurd rfl hne
  | cons p ps ih =>
    refine ⟨p ++ slashed ps, rfl, ?_⟩
    have base : ∀ t q qs, splitSlash t = q :: qs → splitSlash (p ++ t) = (p ++ q) :: qs :=
      fun t q qs ht => splitSlash_append (h p (by simp)) ht
    cases ps with
    | nil =>
      have := base [] [] [] rfl
      simpa [slashed] using this
    | cons q qs =>
      obtain ⟨rest, h1, h2⟩ := ih (by simp) (fun r hr => h r (by simp [hr]))
      rw [h1]
      have hs : splitSlash ('/' :: rest) = [] :: (q :: qs) := by rw [splitSlash, if_pos rfl, h2]
      have := base _ _ _ hs
      simpa using this

theorem joinPath_toList (parts : List String) : (joinPath parts).toList = slashed (parts.map String.toList) := by
  unfold joinPath slashed
  rw [String.toList_join]
  simp only [List.flatMap, List.map_map]
  congr 1
  apply List.map_congr_left
  intro p _
  have : "/".toList = ['/'] := by decide +kernel
  simp [String.toList_append, this]

/-- **C48.** A pattern accepts a URL iff the path is `/s1/s2/.../sn` with as many segments as the pattern
(`n ≥ 1`, segments contain no slash but may be empty) and each segment matches. -/
theorem C48_matches (segs : List Segment) (u : Url) :
    doesMatch segs u = true ↔
      ∃ parts : List String, parts ≠ [] ∧ (∀ p ∈ parts, '/' ∉ p.toList) ∧ u.path = joinPath parts ∧
        segs.length = parts.length ∧ ∀ p ∈ segs.zip parts, SegMatch p.1 p.2 := by
  have back : ∀ l : List (List Char), (l.map String.ofList).map String.toList = l := by
    intro l; simp [List.map_map, Function.comp_def]
  unfold doesMatch Url.pathSegments
  constructor
  · intro h
    split at h
    · cases h
    · rename_i as hs
      split at hs
      · rename_i rest hp
        simp only [Option.some.injEq] at hs
        subst hs
        rw [matchLoop_iff] at h
        refine ⟨(splitSlash rest).map String.ofList, by simpa using splitSlash_ne rest, ?_, ?_, h.1, h.2⟩
        · intro p hp
          obtain ⟨q, hq, rfl⟩ := List.mem_map.1 hp
          simpa using splitSlash_no rest q hq
        · apply String.toList_injective
          rw [joinPath_toList, back, slashed_split, hp]
      · cases hs
  · rintro ⟨parts, hne, hno, hpath, hlen, hall⟩
    have hno' : ∀ p ∈ parts.map String.toList, '/' ∉ p := by
      intro p hp
      obtain ⟨q, hq, rfl⟩ := List.mem_map.1 hp
      exact hno q hq
    obtain ⟨rest, h1, h2⟩ := split_slashed (by simpa using hne) hno'
    have hl : u.path.toList = '/' :: rest := by rw [hpath, joinPath_toList, h1]
    have e : (parts.map String.toList).map String.ofList = parts := by simp [List.map_map, Function.comp_def]
    simp only [hl, h2, e]
    exact (matchLoop_iff segs parts).2 ⟨hlen, hall⟩

/-- The empty pattern accepts nothing; a trailing slash is an extra, empty segment. -/
theorem C48_edge_cases (u : Url) (s : String) (hs : '/' ∉ s.toList) :
    doesMatch [] u = false ∧
    (doesMatch [.static s] ⟨u.base, "/" ++ s, u.query⟩ = true) ∧
    (doesMatch [.static s] ⟨u.base, "/" ++ s ++ "/", u.query⟩ = false) ∧
    (doesMatch [.static s, .static ""] ⟨u.base, "/" ++ s ++ "/", u.query⟩ = true) := by
  have j1 : joinPath [s] = "/" ++ s := by simp [joinPath, String.join]
  have j2 : joinPath [s, ""] = "/" ++ s ++ "/" := by simp [joinPath, String.join]
  have two : doesMatch [.static s, .static ""] ⟨u.base, "/" ++ s ++ "/", u.query⟩ = true := by
    rw [C48_matches]
    refine ⟨[s, ""], by simp, ?_, j2.symm, rfl, ?_⟩
    · intro p hp
      simp only [List.mem_cons, List.not_mem_nil, or_false] at hp
      rcases hp with rfl | rfl
      · exact hs
      · simp
    · intro p hp
      simp only [List.zip_cons_cons, List.zip_nil_right, List.mem_cons, List.not_mem_nil, or_false] at hp
      rcases hp with rfl | rfl <;> exact .static _
  refine ⟨?_, ?_, ?_, two⟩
  · cases h : doesMatch [] u with
    | false => rfl
    | true =>
      obtain ⟨parts, h1, _, _, h2, _⟩ := (C48_matches [] u).1 h
      simp at h2
      exact absurd (List.length_eq_zero_iff.1 h2.symm) h1
  · rw [C48_matches]
    refine ⟨[s], by simp, by simpa using hs, j1.symm, rfl, ?_⟩
    intro p hp
    simp at hp
    subst hp
    exact .static _
  · unfold doesMatch Url.pathSegments at two ⊢
    split at two
    · cases two
    · rename_i as hs'
      rw [matchLoop_iff] at two
      cases h : matchLoop [.static s] as with
      | false => rfl
      | true =>
        rw [matchLoop_iff] at h
        have h1 := h.1
        have h2 := two.1
        simp at h1 h2
        omega

/-! ## C50 -/

/-- **C50.** Exactly the handler of the first registered route whose matcher accepts the request runs, once,
with that request and state; if none accepts, nothing runs and nothing is written. -/
theorem C50_first_match {σ : Type} (routes : List (Route σ)) (req : Request) (st : σ) (s : Sink) :
    (∀ pre route post, routes = pre ++ route :: post → (∀ r ∈ pre, r.matcher req = false) →
      route.matcher req = true → Router.respond routes req st s = route.handler req st s) ∧
    ((∀ r ∈ routes, r.matcher req = false) → Router.respond routes req st s = (.ok (), s)) ∧
    (∀ r, Router.respond (Router.route routes r) req st s =
      if ∃ r' ∈ routes, r'.matcher req = true then Router.respond routes req st s
      else if r.matcher req = true then r.handler req st s else (.ok (), s)) := by
  have skip : ∀ (pre : List (Route σ)) (l : List (Route σ)), (∀ r ∈ pre, r.matcher req = false) →
      Router.respond (pre ++ l) req st s = Router.respond l req st s := by
    intro pre
    induction pre with
    | nil => intro l _; rfl
    | cons r pre ih =>
      intro l h
      rw [List.cons_append, Router.respond, if_neg (by simp [h r (by simp)])]
      exact ih l fun q hq => h q (by simp [hq])
  refine ⟨?_, ?_, ?_⟩
  · rintro pre route post rfl h1 h2
    rw [skip pre _ h1, Router.respond, if_pos h2]
  · intro h
    have := skip routes [] h
    rw [List.append_nil] at this
    rw [this]; rfl
  · intro r
    unfold Router.route
    split
    · rename_i hex
      induction routes with
      | nil => simp at hex
      | cons q qs ih =>
        rw [List.cons_append, Router.respond, Router.respond]
        by_cases hq : q.matcher req = true
        · rw [if_pos hq, if_pos hq]
        · rw [if_neg hq, if_neg hq]
          apply ih
          obtain ⟨r', h1, h2⟩ := hex
          simp only [List.mem_cons] at h1
          rcases h1 with rfl | h1
          · exact absurd h2 hq
          · exact ⟨r', h1, h2⟩
    · rename_i hno
      rw [skip routes [r] (by
        intro q hq
        cases h : q.matcher req with
        | false => rfl
        | true => exact absurd ⟨q, hq, h⟩ hno)]
      rfl

/-- A handler that writes one byte. -/
def oneByte (b : UInt8) : Request → Unit → Sink → Outcome Unit Unit × Sink := fun _ _ s => (.ok (), (s.writeAll [b]).2)

/-- non-vacuity: of three routes the second and third accept; the second is run. -/
example (req : Request) : Router.respond [⟨fun _ => false, oneByte 1⟩, ⟨fun _ => true, oneByte 2⟩, ⟨fun _ => true, oneByte 3⟩]
    req () ⟨[], none⟩ = (.ok (), ⟨[2], none⟩) :=
  (C50_first_match _ req () ⟨[], none⟩).1 [⟨fun _ => false, oneByte 1⟩] ⟨fun _ => true, oneByte 2⟩ [⟨fun _ => true, oneByte 3⟩]
    rfl (by simp) rfl

/-! ## C51 -/

/-- **C51.** If turning a function pointer into an integer and back gives the same function (for the functions
registered), the router rebuilt in the other process has the same routes in the same order, and so routes
every request to the same handler. -/
theorem C51_ints_roundtrip {σ : Type} (mm : CodeMem (Request → Bool))
    (hm : CodeMem (Request → σ → Sink → Outcome Unit Unit × Sink)) (routes : List (Route σ))
    (h1 : ∀ r ∈ routes, mm.deref (mm.addr r.matcher) = r.matcher)
    (h2 : ∀ r ∈ routes, hm.deref (hm.addr r.handler) = r.handler) (req : Request) (st : σ) (s : Sink) :
    Router.respond ((Router.fromInts mm hm (Router.asInts mm hm (routes.map fun r => (r.matcher, r.handler)))).map
      fun p => ⟨p.1, p.2⟩) req st s = Router.respond routes req st s := by
  congr 1
  unfold Router.fromInts Router.asInts
  rw [List.map_map, List.map_map, List.map_map]
  conv => rhs; rw [← List.map_id routes]
  apply List.map_congr_left
  intro r hr
  simp [h1 r hr, h2 r hr]

/-- non-vacuity: a code memory holding two functions. -/
example : ∃ mm : CodeMem (Request → Bool), mm.deref (mm.addr fun _ => true) = (fun _ => true) ∧
    mm.deref (mm.addr fun _ => false) = (fun _ => false) := by
  classical
  refine ⟨⟨fun f => if f = (fun _ => true) then 1 else 0, fun n => if n = 1 then (fun _ => true) else (fun _ => false)⟩, ?_, ?_⟩
  · simp
  · have : (fun _ : Request => false) ≠ (fun _ => true) := by
      intro h
      have := congrFun h demoUpgrade
      cases this
    simp [this]

/-! ## C52 -/

/-- **C52 (what holds).** With `serve_router`: a connection that ends before a complete head is answered with
the 400 response; a request accepted by some route is answered by that route's handler and nothing else. -/
theorem C52_answered_partial {σ : Type} (env : HttpEnv) (henv : env.Valid) (routes : List (Route σ)) (st : σ) (raw : Raw)
    (hw : raw.WF) (s : Sink) (hs : s.room = none) :
    (raw.Clean → NoBlank raw.avail → serveRouterConn env routes st raw s = (.ok (), ⟨s.out ++ badRequestBytes, none⟩)) ∧
    (∀ req pre route post, Request.parse env raw = .ok (some req) → routes = pre ++ route :: post →
      (∀ r ∈ pre, r.matcher req = false) → route.matcher req = true →
      serveRouterConn env routes st raw s = route.handler req st s ∧
      runRouterConn env routes st raw s = route.handler req st s ∧
      forEachConn env route.handler st raw s = route.handler req st s) := by
  constructor
  · intro h1 h2
    have hp := ((C32_incomplete_head env raw hw).1).2 ⟨h1, h2⟩
    have hno : ∀ w, s.writeAll w = (true, ⟨s.out ++ w, none⟩) := by
      intro w
      cases s with
      | mk out room => simp only at hs; subst hs; rfl
    have h400 := C47_canned_errors env henv s err400 badRequestBytes (Or.inr ⟨rfl, rfl⟩)
    rw [hno] at h400
    have hs1 := h400.2.2 (by simp [hs])
    have hs2 := h400.1
    unfold serveRouterConn
    rw [hp]
    simp only
    unfold writeResponse at hs1 hs2
    unfold Stream.respond
    cases hh : err400.encode env s with
    | mk o rs =>
      obtain ⟨b, s'⟩ := rs
      rw [hh] at hs1 hs2
      cases o with
      | ok _ => simp at hs2 ⊢; exact hs2
      | err _ => simp at hs1
      | panic => simp at hs1
  · intro req pre route post hp hr h1 h2
    have := (C50_first_match routes req st s).1 pre route post hr h1 h2
    simp only [serveRouterConn, runRouterConn, forEachConn, hp, this, and_self]

/-- **C52 is false**: a request no route accepts gets no byte in reply; a request that cannot be parsed gets
none either (`serve_router` and `for_each` crash the connection's process, `run` ignores it); with `run`,
neither does an incomplete one. -/
theorem C52_unanswered_refuted {σ : Type} (env : HttpEnv) (routes : List (Route σ)) (st : σ) (raw : Raw) (s : Sink) :
    (∀ req, Request.parse env raw = .ok (some req) → (∀ r ∈ routes, r.matcher req = false) →
      (serveRouterConn env routes st raw s).2 = s ∧ (runRouterConn env routes st raw s).2 = s) ∧
    (∀ e, Request.parse env raw = .error e →
      serveRouterConn env routes st raw s = (.panic, s) ∧ runRouterConn env routes st raw s = (.ok (), s) ∧
      ∀ f, forEachConn env f st raw s = (.panic, s)) ∧
    (Request.parse env raw = .ok none →
      runRouterConn env routes st raw s = (.ok (), s) ∧ ∀ f, forEachConn env f st raw s = (.panic, s)) := by
  refine ⟨?_, ?_, ?_⟩
  · intro req hp hno
    have := (C50_first_match routes req st s).2.1 hno
    simp only [serveRouterConn, runRouterConn, hp, this, and_self]
  · intro e hp
    simp only [serveRouterConn, runRouterConn, forEachConn, hp, true_and]
    exact fun _ => trivial
  · intro hp
    simp only [runRouterConn, forEachConn, hp, true_and]
    exact fun _ => trivial

/-- all three cases occur -/
example : (∃ raw req, Request.parse demoPost raw = .ok (some req)) ∧ (∃ raw e, Request.parse demoEnv raw = .error e) ∧
    ∃ raw, Request.parse demoEnv raw = .ok none := by
  refine ⟨⟨[.data [13, 10, 13, 10]], ?_⟩, ⟨[.fail], .ioError, by
    refine (C32_incomplete_head demoEnv [.fail] (by intro b hb; simp at hb)).2.1 noBlank_nil (by simp [Raw.Clean])⟩,
    ⟨[], ((C32_incomplete_head demoEnv [] Raw.WF.nil).1).2 ⟨Raw.Clean.nil, noBlank_nil⟩⟩⟩
  have hw : Raw.WF [.data [13, 10, 13, 10]] := by intro b hb; simp at hb; subst hb; simp
  obtain ⟨r, h1, _⟩ := parse_found (env := demoPost) hw
    (firstBlank_of (pre := []) (rest := []) (noBlank_of_check (by decide +kernel)))
  have hc : collectHeaders [("Host", strBytes "a"), ("Content-Length", strBytes "2")] [] =
      some [("Host", "a"), ("Content-Length", "2")] := by
    simp [collectHeaders, fromUtf8_strBytes, Headers.insert]
  have hu : requestUrl demoPost "POST" "a" (some "/") = some ⟨"http://a/", "/", none⟩ := by decide +kernel
  have hh : findIgnoreCase demoPost [("Host", "a"), ("Content-Length", "2")] "host" = some "a" := by decide +kernel
  rw [h1]
  simp only [Request.ofHead, show ∀ b, demoPost.httparse b = some ⟨some "POST", some "/",
    [("Host", strBytes "a"), ("Content-Length", strBytes "2")]⟩ from fun _ => rfl, hc, hh, hu]
  exact ⟨_, rfl⟩

/-! ## C53 -/

/-- The connections a history accepted, in order. -/
def acceptedConns : List ServeEvent → List (Raw × Sink)
  | [] => []
  | .accept raw s :: es => (raw, s) :: acceptedConns es
  | _ :: es => acceptedConns es

theorem acceptedConns_append (a b : List ServeEvent) : acceptedConns (a ++ b) = acceptedConns a ++ acceptedConns b := by
  induction a with
  | nil => rfl
  | cons e a ih => cases e <;> simp [acceptedConns, ih]

/-- In this history, process `k` was scheduled at some point after its connection had been accepted. -/
def Scheduled (es : List ServeEvent) (k : Nat) : Prop :=
  ∃ before after, es = before ++ .runs k :: after ∧ k < (acceptedConns before).length

/-- Process `p` is the one for connection `c`, started with state `st`: it has either not run, or it has
written and ended exactly as the program for one connection, run on its own, does. -/
def ConnProc.Alone {σ : Type} (env : HttpEnv) (m : Serve σ) (st : σ) (p : ConnProc σ) (c : Raw × Sink) (ran : Prop) : Prop :=
  p.input = c.1 ∧ p.given = st ∧
  (ran → p.ended = some (m.conn env st c.1 c.2).1 ∧ p.sink = (m.conn env st c.1 c.2).2) ∧
  (¬ ran → p.ended = none ∧ p.sink = c.2)

theorem scheduled_snoc (es : List ServeEvent) (e : ServeEvent) (k : Nat) :
    Scheduled (es ++ [e]) k ↔ Scheduled es k ∨ (e = .runs k ∧ k < (acceptedConns es).length) := by
  constructor
  · rintro ⟨b, a, h1, h2⟩
    rcases List.eq_nil_or_concat a with rfl | ⟨a', x, rfl⟩
    · have := List.append_inj' h1 rfl
      obtain ⟨rfl, h3⟩ := this
      simp only [List.cons.injEq, and_true] at h3
      exact Or.inr ⟨h3, h2⟩
    · rw [show b ++ .runs k :: (a'.concat x) = (b ++ .runs k :: a') ++ [x] by simp] at h1
      obtain ⟨h3, _⟩ := List.append_inj' h1 rfl
      exact Or.inl ⟨b, a', h3, h2⟩
  · rintro (⟨b, a, rfl, h2⟩ | ⟨rfl, h⟩)
    · exact ⟨b, a ++ [e], by simp, h2⟩
    · exact ⟨es, [], rfl, h⟩

theorem snoc_induction {α : Type} {motive : List α → Prop} (nil : motive [])
    (snoc : ∀ l a, motive l → motive (l ++ [a])) (l : List α) : motive l := by
  rw [← List.reverse_reverse l]
  induction l.reverse with
  | nil => exact nil
  | cons a l ih => rw [List.reverse_cons]; exact snoc _ _ ih

/-- **C53.** Whatever the history (connections accepted, `accept` or `spawn` failing, processes scheduled in
any order, handlers crashing): there is exactly one process per accepted connection, in order of acceptance,
and it ends, and writes to its socket, exactly as if it were alone - it has run iff it was scheduled after
being accepted.  The loop is always ready for the next connection, which gets the original state. -/
theorem C53_isolated {σ : Type} (env : HttpEnv) (m : Serve σ) (st : σ) (es : List ServeEvent) :
    (Server.exec env m ⟨st, []⟩ es).procs.length = (acceptedConns es).length ∧
    (Server.exec env m ⟨st, []⟩ es).state = st ∧
    (∀ (k : Nat) (c : Raw × Sink), (acceptedConns es)[k]? = some c → ∃ p : ConnProc σ, (Server.exec env m ⟨st, []⟩ es).procs[k]? = some p ∧
      p.Alone env m st c (Scheduled es k)) := by
  induction es using snoc_induction with
  | nil => simp [Server.exec, acceptedConns]
  | snoc es e ih =>
    have hx : Server.exec env m ⟨st, []⟩ (es ++ [e]) = Server.step env m (Server.exec env m ⟨st, []⟩ es) e := by
      simp [Server.exec]
    rw [hx]
    generalize Server.exec env m ⟨st, []⟩ es = sv at ih ⊢
    obtain ⟨hl, hst, hp⟩ := ih
    have keep : ∀ k, (∀ j, e = .runs j → j ≠ k ∨ ¬ k < (acceptedConns es).length) →
        (Scheduled (es ++ [e]) k ↔ Scheduled es k) := by
      intro k h
      rw [scheduled_snoc]
      constructor
      · rintro (h1 | ⟨h1, h2⟩)
        · exact h1
        · rcases h k h1 with h3 | h3
          · exact absurd rfl h3
          · exact absurd h2 h3
      · exact Or.inl
    have same : acceptedConns (es ++ [e]) = acceptedConns es → Server.step env m sv e = sv →
        (∀ k, k < (acceptedConns es).length → (Scheduled (es ++ [e]) k ↔ Scheduled es k)) →
        (Server.step env m sv e).procs.length = (acceptedConns (es ++ [e])).length ∧
        (Server.step env m sv e).state = st ∧
        (∀ (k : Nat) (c : Raw × Sink), (acceptedConns (es ++ [e]))[k]? = some c → ∃ p : ConnProc σ,
          (Server.step env m sv e).procs[k]? = some p ∧ p.Alone env m st c (Scheduled (es ++ [e]) k)) := by
      intro h1 h2 h3
      refine ⟨?_, ?_, ?_⟩
      · rw [h1, h2]; exact hl
      · rw [h2]; exact hst
      · intro k c hc
        rw [h1] at hc
        obtain ⟨p, hp1, hp2⟩ := hp k c hc
        rw [h2]
        refine ⟨p, hp1, ?_⟩
        rw [propext (h3 k (List.getElem?_eq_some_iff.1 hc).1)]
        exact hp2
    cases e with
    | acceptFails =>
      exact same (by simp [acceptedConns_append, acceptedConns]) rfl fun k _ => keep k (by intro j hj; cases hj)
    | spawnFails r s =>
      exact same (by simp [acceptedConns_append, acceptedConns]) rfl fun k _ => keep k (by intro j hj; cases hj)
    | accept raw s =>
      refine ⟨by simp [Server.step, acceptedConns_append, acceptedConns, hl], hst, ?_⟩
      intro k c hc
      have hk := propext (keep k (by intro j hj; cases hj))
      rw [acceptedConns_append, acceptedConns, acceptedConns] at hc
      simp only [Server.step]
      by_cases hlt : k < (acceptedConns es).length
      · rw [List.getElem?_append_left hlt] at hc
        rw [List.getElem?_append_left (by omega)]
        rw [hk]
        exact hp k c hc
      · rw [List.getElem?_append_right (by omega)] at hc
        rw [List.getElem?_append_right (by omega), hl]
        cases hd : k - (acceptedConns es).length with
        | succ n => rw [hd] at hc; simp at hc
        | zero =>
          rw [hd] at hc
          simp only [List.getElem?_cons_zero, Option.some.injEq] at hc
          subst hc
          refine ⟨_, rfl, rfl, hst, ?_, fun _ => ⟨rfl, rfl⟩⟩
          intro hs
          rw [hk] at hs
          obtain ⟨b, a, rfl, hb⟩ := hs
          rw [acceptedConns_append] at hlt
          simp at hlt
          omega
    | runs j =>
      have ha : acceptedConns (es ++ [.runs j]) = acceptedConns es := by simp [acceptedConns_append, acceptedConns]
      by_cases hj : j < (acceptedConns es).length
      · obtain ⟨p, hp1, hp2⟩ := hp j _ (List.getElem?_eq_getElem hj)
        by_cases hs : Scheduled es j
        · refine same ha ?_ ?_
          · simp only [Server.step, hp1, (hp2.2.2.1 hs).1]
          · intro k hk
            rw [scheduled_snoc]
            constructor
            · rintro (h | ⟨h, _⟩)
              · exact h
              · cases h; exact hs
            · exact Or.inl
        · have hstep : Server.step env m sv (.runs j) = ⟨sv.state, sv.procs.set j
              ⟨p.input, p.given, (m.conn env p.given p.input p.sink).2, some (m.conn env p.given p.input p.sink).1⟩⟩ := by
            simp only [Server.step, hp1, (hp2.2.2.2 hs).1]
          rw [hstep, ha]
          refine ⟨by simpa using hl, hst, ?_⟩
          intro k c hc
          by_cases hkj : j = k
          · subst hkj
            rw [List.getElem?_set_self (by omega)]
            have hcc : (acceptedConns es)[j] = c := (List.getElem?_eq_some_iff.1 hc).2
            rw [hcc] at hp2
            refine ⟨_, rfl, hp2.1, hp2.2.1, ?_, ?_⟩
            · intro _
              simp only [hp2.1, hp2.2.1, (hp2.2.2.2 hs).2, and_self]
            · intro h
              exact absurd ((scheduled_snoc es (.runs j) j).2 (Or.inr ⟨rfl, hj⟩)) h
          · rw [List.getElem?_set_ne hkj, propext (keep k (by intro i hi; cases hi; exact Or.inl hkj))]
            exact hp k c hc
      · refine same ha ?_ ?_
        · have : sv.procs[j]? = none := List.getElem?_eq_none (by omega)
          simp only [Server.step, this]
        · intro k hk
          exact keep k (by intro i hi; cases hi; exact Or.inl (by omega))

/-- non-vacuity: two connections; the first one's process crashes (its peer resets the connection) before the
second is accepted, an `accept` fails in between, and the second is still answered. -/
example (s : Sink) (hs : s.room = none) :
    ∃ p q, (Server.exec demoEnv (.serveRouter []) ⟨(), []⟩
      [.accept [.fail] s, .runs 0, .acceptFails, .accept [] s, .runs 0, .runs 1]).procs = [p, q] ∧
      p.ended = some .panic ∧ p.sink = s ∧ q.ended = some (.ok ()) ∧ q.sink.out = s.out ++ badRequestBytes := by
  obtain ⟨hl, _, h⟩ := C53_isolated demoEnv (.serveRouter []) ()
    [.accept [.fail] s, .runs 0, .acceptFails, .accept [] s, .runs 0, .runs 1]
  generalize Server.exec demoEnv (.serveRouter []) ⟨(), []⟩
    [.accept [.fail] s, .runs 0, .acceptFails, .accept [] s, .runs 0, .runs 1] = sv at hl h
  obtain ⟨p, hp1, _, _, hp2, _⟩ := h 0 ([.fail], s) rfl
  obtain ⟨q, hq1, _, _, hq2, _⟩ := h 1 ([], s) rfl
  have hp2 := hp2 ⟨[.accept [.fail] s], _, rfl, by simp [acceptedConns]⟩
  have hq2 := hq2 ⟨[.accept [.fail] s, .runs 0, .acceptFails, .accept [] s, .runs 0], _, rfl, by simp [acceptedConns]⟩
  have e1 : (Serve.serveRouter []).conn demoEnv () [.fail] s = (.panic, s) :=
    ((C52_unanswered_refuted demoEnv [] () [.fail] s).2.1 .ioError
      ((C32_incomplete_head demoEnv [.fail] (by intro b hb; simp at hb)).2.1 noBlank_nil (by simp [Raw.Clean]))).1
  have e2 : (Serve.serveRouter []).conn demoEnv () [] s = (.ok (), ⟨s.out ++ badRequestBytes, none⟩) :=
    (C52_answered_partial demoEnv (fun _ => .refl _) [] () [] Raw.WF.nil s hs).1 Raw.Clean.nil noBlank_nil
  rw [e1] at hp2
  rw [e2] at hq2
  refine ⟨p, q, ?_, hp2.1, hp2.2, hq2.1, by rw [hq2.2]⟩
  have hl : sv.procs.length = 2 := hl
  match hsv : sv.procs, hl with
  | [x, y], _ =>
    rw [hsv] at hp1 hq1
    simp at hp1 hq1
    rw [hp1, hq1]

/-- **C52 in a running server.** Whatever else happens to the server, a connection it accepted and whose process was scheduled got: for an
incomplete head, the 400 response with `serve_router`, and not a byte with `run` or `for_each` (whose process crashes); for a head that cannot
be parsed, not a byte in all three; for a request, what the first matching handler (the function, for `for_each`) does with it, and not a
byte if no route matches. -/
theorem C52_history_partial {σ : Type} (env : HttpEnv) (henv : env.Valid) (st : σ) (es : List ServeEvent) (k : Nat) (raw : Raw)
    (hw : raw.WF) (s : Sink) (hk : (acceptedConns es)[k]? = some (raw, s)) (hs : Scheduled es k) (mode : Serve σ) :
    ∃ p, (Server.exec env mode ⟨st, []⟩ es).procs[k]? = some p ∧
    (raw.Clean → NoBlank raw.avail →
      (∀ routes, mode = .serveRouter routes → s.room = none → p.ended = some (.ok ()) ∧ p.sink.out = s.out ++ badRequestBytes) ∧
      (∀ routes, mode = .run routes → p.ended = some (.ok ()) ∧ p.sink = s) ∧
      (∀ f, mode = .forEach f → p.ended = some .panic ∧ p.sink = s)) ∧
    (∀ e, Request.parse env raw = .error e → p.sink = s ∧
      (∀ routes, mode = .run routes → p.ended = some (.ok ())) ∧ ((∀ routes, mode ≠ .run routes) → p.ended = some .panic)) ∧
    (∀ req, Request.parse env raw = .ok (some req) →
      (∀ f, mode = .forEach f → p.ended = some (f req st s).1 ∧ p.sink = (f req st s).2) ∧
      ∀ routes, mode = .serveRouter routes ∨ mode = .run routes →
        (∀ pre route post, routes = pre ++ route :: post → (∀ r ∈ pre, r.matcher req = false) → route.matcher req = true →
          p.ended = some (route.handler req st s).1 ∧ p.sink = (route.handler req st s).2) ∧
        ((∀ r ∈ routes, r.matcher req = false) → p.ended = some (.ok ()) ∧ p.sink = s)) := by
  obtain ⟨p, h1, h2⟩ := (C53_isolated env mode st es).2.2 k _ hk
  obtain ⟨h3, h4⟩ := h2.2.2.1 hs
  refine ⟨p, h1, ?_, ?_, ?_⟩
  · intro hc hb
    have hp := ((C32_incomplete_head env raw hw).1).2 ⟨hc, hb⟩
    refine ⟨?_, ?_, ?_⟩
    · rintro routes rfl hroom
      have := (C52_answered_partial env henv routes st raw hw s hroom).1 hc hb
      rw [h3, h4, show (Serve.serveRouter routes).conn env st raw s = _ from this]
      exact ⟨rfl, rfl⟩
    · rintro routes rfl
      have := ((C52_unanswered_refuted env routes st raw s).2.2 hp).1
      rw [h3, h4, show (Serve.run routes).conn env st raw s = _ from this]
      exact ⟨rfl, rfl⟩
    · rintro f rfl
      have := ((C52_unanswered_refuted env [] st raw s).2.2 hp).2 f
      rw [h3, h4, show (Serve.forEach f).conn env st raw s = _ from this]
      exact ⟨rfl, rfl⟩
  · intro e he
    have hu := fun routes => (C52_unanswered_refuted env routes st raw s).2.1 e he
    cases mode with
    | serveRouter routes =>
      rw [h3, h4, show (Serve.serveRouter routes).conn env st raw s = _ from (hu routes).1]
      exact ⟨rfl, (fun _ h => nomatch h), fun _ => rfl⟩
    | run routes =>
      rw [h3, h4, show (Serve.run routes).conn env st raw s = _ from (hu routes).2.1]
      exact ⟨rfl, fun _ _ => rfl, fun h => absurd rfl (h routes)⟩
    | forEach f =>
      rw [h3, h4, show (Serve.forEach f).conn env st raw s = _ from (hu []).2.2 f]
      exact ⟨rfl, (fun _ h => nomatch h), fun _ => rfl⟩
  · intro req hp
    constructor
    · rintro f rfl
      rw [h3, h4]
      simp only [Serve.conn, forEachConn, hp, and_self]
    · intro routes hm
      have hc : mode.conn env st raw s = Router.respond routes req st s := by
        rcases hm with rfl | rfl <;> simp only [Serve.conn, serveRouterConn, runRouterConn, hp]
      have h50 := C50_first_match routes req st s
      rw [h3, h4, hc]
      refine ⟨fun pre route post hr hpre hmt => ?_, fun hno => ?_⟩
      · rw [h50.1 pre route post hr hpre hmt]; exact ⟨rfl, rfl⟩
      · rw [h50.2.1 hno]; exact ⟨rfl, rfl⟩

/-- The hypotheses are met: with `run`, an empty connection accepted after a broken one is closed without an answer. -/
example (s : Sink) : ∃ p, (Server.exec demoEnv (.run ([] : List (Route Unit))) ⟨(), []⟩
      [.accept [.fail] s, .runs 0, .accept [] s, .runs 1]).procs[1]? = some p ∧ p.ended = some (.ok ()) ∧ p.sink = s := by
  obtain ⟨p, h1, h2, -⟩ := C52_history_partial demoEnv (fun _ => .refl _) () [.accept [.fail] s, .runs 0, .accept [] s, .runs 1] 1 []
    Raw.WF.nil s rfl ⟨[.accept [.fail] s, .runs 0, .accept [] s], _, rfl, by simp [acceptedConns]⟩ (.run [])
  exact ⟨p, h1, (h2 Raw.Clean.nil noBlank_nil).2.1 [] rfl⟩

end Puck
