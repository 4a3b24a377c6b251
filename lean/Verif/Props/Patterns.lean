import Verif.Spec.Patterns
import Verif.Props.Router
import Verif.Model.Init
import Verif.Lemmas.Ascii
/-!
# C149, C150: the order of routes, and routes that are never used
-/
namespace Puck

/-! ## Matching and lists of segments -/

theorem doesMatch_segments (p : List Segment) (u : Url) : doesMatch p u = true ↔ ∃ as, u.pathSegments = some as ∧ matchLoop p as = true := by
  unfold doesMatch
  cases u.pathSegments <;> simp

theorem pathSegments_plain {u : Url} {as : List String} (h : u.pathSegments = some as) : as ≠ [] ∧ ∀ a ∈ as, '/' ∉ a.toList := by
  unfold Url.pathSegments at h
  split at h
  · rename_i rest _
    simp only [Option.some.injEq] at h
    subst h
    refine ⟨by simpa using splitSlash_ne rest, fun a ha => ?_⟩
    obtain ⟨q, hq, rfl⟩ := List.mem_map.1 ha
    simpa using splitSlash_no rest q hq
  · cases h

/-- the URL with the given segments -/
theorem segments_path (base : String) (query : Option String) {as : List String} (hne : as ≠ []) (h : ∀ a ∈ as, '/' ∉ a.toList) :
    Url.pathSegments ⟨base, joinPath as, query⟩ = some as := by
  have hno' : ∀ p ∈ as.map String.toList, '/' ∉ p := by
    intro p hp
    obtain ⟨q, hq, rfl⟩ := List.mem_map.1 hp
    exact h q hq
  obtain ⟨rest, h1, h2⟩ := split_slashed (by simpa using hne) hno'
  have e : (as.map String.toList).map String.ofList = as := by simp [List.map_map, Function.comp_def]
  simp only [Url.pathSegments, joinPath_toList, h1, h2, e]

theorem accepts_int {s : String} : Segment.intParam.accepts s = true ↔ IsInteger s := C49_int_segment s

theorem zero_accepted (n : Nat) : IsInteger (String.ofList (List.replicate (n + 1) '0')) := by
  have hv : ∀ m : Nat, Decimal.value (List.replicate m 48) = 0 := by
    intro m
    induction m with
    | zero => rfl
    | succ m ih => rw [List.replicate_succ, Decimal.value, ih]; simp
  have hb : strBytes (String.ofList (List.replicate (n + 1) '0')) = List.replicate (n + 1) 48 := by
    rw [strBytes_ascii (by simp)]
    simp
  refine ⟨(Decimal.value (List.replicate (n + 1) 48) : Nat), ?_, ?_, ?_⟩
  · rw [hb]
    exact .plain ⟨by simp, by simp⟩
  · rw [hv]; decide
  · rw [hv]; decide

theorem x_refused (n : Nat) : ¬ IsInteger (String.ofList (List.replicate (n + 1) 'x')) := by
  rintro ⟨m, h, -, -⟩
  have hb : strBytes (String.ofList (List.replicate (n + 1) 'x')) = 120 :: List.replicate n 120 := by
    rw [strBytes_ascii (by simp)]
    simp [List.replicate_succ]
  rw [hb] at h
  generalize hbs : (120 :: List.replicate n 120 : Bytes) = bs at h
  cases h with
  | plain hd => subst hbs; exact absurd (hd.2 120 (by simp)) (by decide)
  | plus hd => simp at hbs
  | minus hd => simp at hbs

/-! ## C149 -/

theorem compatible_iff (a b : Segment) :
    (∃ t : String, '/' ∉ t.toList ∧ a.accepts t = true ∧ b.accepts t = true) ↔
      (∀ s, a = .static s → '/' ∉ s.toList) ∧ (∀ s, b = .static s → '/' ∉ s.toList) ∧ SegCompatible a b := by
  cases a with
  | static s =>
    cases b with
    | static t =>
      simp only [Segment.accepts, beq_iff_eq, Segment.static.injEq, SegCompatible]
      constructor
      · rintro ⟨u, h, rfl, rfl⟩; exact ⟨fun _ e => e ▸ h, fun _ e => e ▸ h, rfl⟩
      · rintro ⟨h, -, rfl⟩; exact ⟨s, h _ rfl, rfl, rfl⟩
    | param =>
      simp only [Segment.accepts, beq_iff_eq, Segment.static.injEq, SegCompatible]
      constructor
      · rintro ⟨u, h, rfl, -⟩; exact ⟨fun _ e => e ▸ h, by simp, trivial⟩
      · rintro ⟨h, -⟩; exact ⟨s, h _ rfl, rfl, trivial⟩
    | intParam =>
      simp only [accepts_int, SegCompatible]
      simp only [Segment.accepts, beq_iff_eq, Segment.static.injEq]
      constructor
      · rintro ⟨u, h, rfl, h'⟩; exact ⟨fun _ e => e ▸ h, by simp, h'⟩
      · rintro ⟨h, -, h'⟩; exact ⟨s, h _ rfl, rfl, h'⟩
  | param =>
    cases b with
    | static t =>
      simp only [Segment.accepts, beq_iff_eq, Segment.static.injEq, SegCompatible]
      constructor
      · rintro ⟨u, h, -, rfl⟩; exact ⟨by simp, fun _ e => e ▸ h, trivial⟩
      · rintro ⟨-, h, -⟩; exact ⟨t, h _ rfl, trivial, rfl⟩
    | param =>
      simp only [SegCompatible, and_true]
      exact ⟨fun _ => ⟨by simp, by simp⟩, fun _ => ⟨"", by simp, rfl, rfl⟩⟩
    | intParam =>
      simp only [SegCompatible, and_true]
      exact ⟨fun _ => ⟨by simp, by simp⟩, fun _ => ⟨"0", by decide, rfl, by decide +kernel⟩⟩
  | intParam =>
    cases b with
    | static t =>
      simp only [accepts_int, SegCompatible]
      simp only [Segment.accepts, beq_iff_eq, Segment.static.injEq]
      constructor
      · rintro ⟨u, h, h', rfl⟩; exact ⟨by simp, fun _ e => e ▸ h, h'⟩
      · rintro ⟨-, h, h'⟩; exact ⟨t, h _ rfl, h', rfl⟩
    | param =>
      simp only [SegCompatible, and_true]
      exact ⟨fun _ => ⟨by simp, by simp⟩, fun _ => ⟨"0", by decide, by decide +kernel, rfl⟩⟩
    | intParam =>
      simp only [SegCompatible, and_true]
      exact ⟨fun _ => ⟨by simp, by simp⟩, fun _ => ⟨"0", by decide, by decide +kernel, by decide +kernel⟩⟩

theorem matchLoop_cons (e : Segment) (es : List Segment) (as : List String) :
    matchLoop (e :: es) as = true ↔ ∃ a as', as = a :: as' ∧ e.accepts a = true ∧ matchLoop es as' = true := by
  cases as with
  | nil => simp [matchLoop]
  | cons a as =>
    simp only [matchLoop, List.cons.injEq]
    constructor
    · intro h
      split at h
      · exact ⟨a, as, ⟨rfl, rfl⟩, by assumption, h⟩
      · cases h
    · rintro ⟨a', as', ⟨rfl, rfl⟩, h1, h2⟩
      rw [if_pos h1, h2]

theorem aligned_compatible : ∀ p q : List Segment, (∃ as : List String, (∀ a ∈ as, '/' ∉ a.toList) ∧ matchLoop p as = true ∧ matchLoop q as = true) ↔
    (∀ s, .static s ∈ p → '/' ∉ s.toList) ∧ (∀ s, .static s ∈ q → '/' ∉ s.toList) ∧ SegwiseRel SegCompatible p q
  | [], [] => by simp [SegwiseRel, matchLoop]
  | [], b :: q => by
    simp only [SegwiseRel, and_false, iff_false]
    rintro ⟨as, -, h1, h2⟩
    obtain ⟨a, as', rfl, -⟩ := (matchLoop_cons _ _ _).1 h2
    simp [matchLoop] at h1
  | a :: p, [] => by
    simp only [SegwiseRel, and_false, iff_false]
    rintro ⟨as, -, h2, h1⟩
    obtain ⟨a, as', rfl, -⟩ := (matchLoop_cons _ _ _).1 h2
    simp [matchLoop] at h1
  | a :: p, b :: q => by
    have ih := aligned_compatible p q
    have hc := compatible_iff a b
    simp only [SegwiseRel]
    constructor
    · rintro ⟨as, h, h1, h2⟩
      obtain ⟨t, as', rfl, h3, h4⟩ := (matchLoop_cons _ _ _).1 h1
      obtain ⟨t', as'', e, h5, h6⟩ := (matchLoop_cons _ _ _).1 h2
      cases e
      obtain ⟨c1, c2, c3⟩ := hc.1 ⟨t, h t (by simp), h3, h5⟩
      obtain ⟨d1, d2, d3⟩ := ih.1 ⟨as', fun a ha => h a (by simp [ha]), h4, h6⟩
      refine ⟨fun s hs => ?_, fun s hs => ?_, c3, d3⟩
      · rcases List.mem_cons.1 hs with e | e
        · exact c1 s e.symm
        · exact d1 s e
      · rcases List.mem_cons.1 hs with e | e
        · exact c2 s e.symm
        · exact d2 s e
    · rintro ⟨h1, h2, h3, h4⟩
      obtain ⟨t, c1, c2, c3⟩ := hc.2 ⟨fun s e => h1 s (by simp [e]), fun s e => h2 s (by simp [e]), h3⟩
      obtain ⟨as, d1, d2, d3⟩ := ih.2 ⟨fun s hs => h1 s (by simp [hs]), fun s hs => h2 s (by simp [hs]), h4⟩
      refine ⟨t :: as, ?_, (matchLoop_cons _ _ _).2 ⟨t, as, rfl, c2, d2⟩, (matchLoop_cons _ _ _).2 ⟨t, as, rfl, c3, d3⟩⟩
      intro a ha
      rcases List.mem_cons.1 ha with rfl | ha
      · exact c1
      · exact d1 a ha

/-- **C149, patterns.** Two patterns accept a common URL exactly if they overlap, which can be read off the patterns segment by segment. -/
theorem C149_overlap (p q : List Segment) : (∃ u : Url, doesMatch p u = true ∧ doesMatch q u = true) ↔ Overlap p q := by
  constructor
  · rintro ⟨u, h1, h2⟩
    obtain ⟨as, e, h3⟩ := (doesMatch_segments p u).1 h1
    obtain ⟨as', e', h4⟩ := (doesMatch_segments q u).1 h2
    cases e.symm.trans e'
    obtain ⟨hne, hno⟩ := pathSegments_plain e
    obtain ⟨c1, c2, c3⟩ := (aligned_compatible p q).1 ⟨as, hno, h3, h4⟩
    refine ⟨⟨?_, c1⟩, ⟨?_, c2⟩, c3⟩
    · rintro rfl; cases as <;> simp_all [matchLoop]
    · rintro rfl; cases as <;> simp_all [matchLoop]
  · rintro ⟨⟨hp, h1⟩, ⟨hq, h2⟩, h3⟩
    obtain ⟨as, d1, d2, d3⟩ := (aligned_compatible p q).2 ⟨h1, h2, h3⟩
    have hne : as ≠ [] := by
      rintro rfl
      cases p <;> simp_all [matchLoop]
    have e := segments_path "http://h" none hne d1
    exact ⟨_, (doesMatch_segments _ _).2 ⟨as, e, d2⟩, (doesMatch_segments _ _).2 ⟨as, e, d3⟩⟩

/-- a route as the examples write it: a pattern and a handler -/
def patternRoute {σ : Type} (r : List Segment × (Request → σ → Sink → Outcome Unit Unit × Sink)) : Route σ :=
  ⟨fun req => doesMatch r.1 req.url, r.2⟩

theorem respond_swap {σ : Type} (pre post : List (Route σ)) (a b : Route σ) (req : Request) (st : σ) (s : Sink) (h : ¬ (a.matcher req = true ∧ b.matcher req = true)) :
    Router.respond (pre ++ a :: b :: post) req st s = Router.respond (pre ++ b :: a :: post) req st s := by
  induction pre with
  | nil =>
    simp only [List.nil_append, Router.respond]
    cases ha : a.matcher req <;> cases hb : b.matcher req <;> simp_all
  | cons r pre ih => simp only [List.cons_append, Router.respond, ih]

/-- **C149, any order.** Routes of which no two accept a common request can be registered in any order. -/
theorem C149_any_order {σ : Type} {l l' : List (Route σ)} (h : l.Perm l') (hd : l.Pairwise fun a b => ∀ req, ¬ (a.matcher req = true ∧ b.matcher req = true))
    (req : Request) (st : σ) (s : Sink) : Router.respond l req st s = Router.respond l' req st s := by
  induction h with
  | nil => rfl
  | cons x _ ih =>
    rw [List.pairwise_cons] at hd
    simp only [Router.respond, ih hd.2]
  | swap x y l =>
    rw [List.pairwise_cons] at hd
    exact respond_swap [] l y x req st s (hd.1 x (by simp) req)
  | trans h1 h2 ih1 ih2 =>
    refine (ih1 hd).trans (ih2 ((h1.pairwise_iff ?_).1 hd))
    exact fun hxy req h => hxy req h.symm

/-- **C149, any order, for patterns.** Routes of which no two patterns overlap can be registered in any order. -/
theorem C149_patterns_any_order {σ : Type} {l l' : List (List Segment × (Request → σ → Sink → Outcome Unit Unit × Sink))} (h : l.Perm l')
    (hd : l.Pairwise fun a b => ¬ Overlap a.1 b.1) (req : Request) (st : σ) (s : Sink) :
    Router.respond (l.map patternRoute) req st s = Router.respond (l'.map patternRoute) req st s := by
  refine C149_any_order (h.map patternRoute) (List.pairwise_map.2 (hd.imp fun hab req' h1 => hab ?_)) req st s
  exact (C149_overlap _ _).1 ⟨req'.url, h1.1, h1.2⟩

/-- **C149, exactly.** Two neighbouring routes can be exchanged, whatever their handlers and whatever is registered after them, if and only if their patterns do not overlap. -/
theorem C149_order (p q : List Segment) :
    (∀ (f g : Request → Unit → Sink → Outcome Unit Unit × Sink) (post : List (Route Unit)) (req : Request) (s : Sink),
      Router.respond (patternRoute (p, f) :: patternRoute (q, g) :: post) req () s =
        Router.respond (patternRoute (q, g) :: patternRoute (p, f) :: post) req () s) ↔ ¬ Overlap p q := by
  constructor
  · intro h ho
    obtain ⟨u, h1, h2⟩ := (C149_overlap p q).2 ho
    have := h (fun _ _ s => (.ok (), s)) (fun _ _ s => (.panic, s)) [] ⟨[], .get, Body.empty, u⟩ ⟨[], none⟩
    simp [Router.respond, patternRoute, h1, h2] at this
  · intro ho f g post req s
    exact respond_swap [] post _ _ req () s fun ⟨h1, h2⟩ => ho ((C149_overlap p q).1 ⟨req.url, h1, h2⟩)

/-! ## C150 -/

/-- the length of the longest fixed text -/
def longest : List Segment → Nat
  | [] => 0
  | .static s :: p => max s.toList.length (longest p)
  | _ :: p => longest p

theorem longest_le {s : String} : ∀ {p : List Segment}, .static s ∈ p → s.toList.length ≤ longest p
  | a :: p, h => by
    rcases List.mem_cons.1 h with rfl | h
    · simp only [longest]; omega
    · have := longest_le h
      cases a <;> simp only [longest] <;> omega

/-- a text the segment accepts, and which no other segment with short texts accepts by chance -/
def typical (n : Nat) : Segment → String
  | .static s => s
  | .param => String.ofList (List.replicate (n + 1) 'x')
  | .intParam => String.ofList (List.replicate (n + 1) '0')

theorem typical_accepted (n : Nat) : ∀ a : Segment, a.accepts (typical n a) = true
  | .static s => by simp [Segment.accepts, typical]
  | .param => rfl
  | .intParam => accepts_int.2 (zero_accepted n)

theorem typical_covers (n : Nat) (a b : Segment) (hb : ∀ s, b = .static s → s.toList.length ≤ n) (h : b.accepts (typical n a) = true) : SegCovers b a := by
  cases b with
  | param => trivial
  | static t =>
    have := hb t rfl
    simp only [Segment.accepts, beq_iff_eq] at h
    cases a with
    | static s => exact h
    | param => subst h; simp [typical] at this; omega
    | intParam => subst h; simp [typical] at this; omega
  | intParam =>
    rw [accepts_int] at h
    cases a with
    | static s => exact h
    | param => exact absurd h (x_refused n)
    | intParam => trivial

theorem covers_accepts {a b : Segment} (h : SegCovers b a) {t : String} (ht : a.accepts t = true) : b.accepts t = true := by
  cases b with
  | param => rfl
  | static s =>
    cases a with
    | static s' => cases h; exact ht
    | param => cases h
    | intParam => cases h
  | intParam =>
    cases a with
    | static s' =>
      simp only [Segment.accepts, beq_iff_eq] at ht
      subst ht
      exact accepts_int.2 h
    | param => cases h
    | intParam => exact ht

theorem typical_match (n : Nat) : ∀ p : List Segment, matchLoop p (p.map (typical n)) = true
  | [] => rfl
  | a :: p => (matchLoop_cons _ _ _).2 ⟨_, _, rfl, typical_accepted n a, typical_match n p⟩

theorem typical_aligned (n : Nat) : ∀ p q : List Segment, (∀ s, .static s ∈ q → s.toList.length ≤ n) → matchLoop q (p.map (typical n)) = true →
    SegwiseRel SegCovers q p
  | [], [], _, _ => trivial
  | a :: p, [], _, h => by simp [matchLoop] at h
  | [], b :: q, _, h => by simp [matchLoop] at h
  | a :: p, b :: q, hl, h => by
    obtain ⟨t, as, e, h1, h2⟩ := (matchLoop_cons _ _ _).1 h
    rw [List.map_cons] at e
    injection e with e1 e2
    subst e1 e2
    exact ⟨typical_covers n a b (fun s e => hl s (by simp [e])) h1, typical_aligned n p q (fun s hs => hl s (by simp [hs])) h2⟩

theorem aligned_match : ∀ (p q : List Segment) (as : List String), SegwiseRel SegCovers q p → matchLoop p as = true → matchLoop q as = true
  | [], [], _, _, h => h
  | a :: p, [], _, h, _ => h.elim
  | [], b :: q, _, h, _ => h.elim
  | a :: p, b :: q, as, h, hm => by
    obtain ⟨t, as', rfl, h1, h2⟩ := (matchLoop_cons _ _ _).1 hm
    exact (matchLoop_cons _ _ _).2 ⟨t, as', rfl, covers_accepts h.1 h1, aligned_match p q as' h.2 h2⟩

theorem typical_plain {n : Nat} {p : List Segment} (h : ∀ s, .static s ∈ p → '/' ∉ s.toList) : ∀ a ∈ p.map (typical n), '/' ∉ a.toList := by
  intro a ha
  obtain ⟨e, he, rfl⟩ := List.mem_map.1 ha
  cases e with
  | static s => exact h s he
  | param => simp [typical]
  | intParam => simp [typical]

theorem unmatchable {p : List Segment} (h : ¬ Matchable p) (u : Url) : doesMatch p u = false := by
  refine Bool.eq_false_iff.2 fun hm => h ?_
  exact ((C149_overlap p p).1 ⟨u, hm, hm⟩).1

/-- **C150, patterns.** A URL that matches a pattern always matches one of some other patterns, if and only if the pattern matches nothing, or a single one of the others covers it segment by
segment: several patterns together never cover one that none of them covers alone. -/
theorem C150_covered (others : List (List Segment)) (p : List Segment) :
    (∀ u : Url, doesMatch p u = true → ∃ q ∈ others, doesMatch q u = true) ↔ ¬ Matchable p ∨ ∃ q ∈ others, CoveredBy p q := by
  constructor
  · intro h
    by_cases hm : Matchable p
    · refine .inr ?_
      have hne : p.map (typical (longest others.flatten)) ≠ [] := by simpa using hm.1
      have e := segments_path "http://h" none hne (typical_plain hm.2)
      obtain ⟨q, hq, h1⟩ := h _ ((doesMatch_segments _ _).2 ⟨_, e, typical_match _ p⟩)
      obtain ⟨as, e', h2⟩ := (doesMatch_segments _ _).1 h1
      cases e.symm.trans e'
      exact ⟨q, hq, typical_aligned _ p q (fun s hs => longest_le (List.mem_flatten.2 ⟨q, hq, hs⟩)) h2⟩
    · exact .inl hm
  · rintro (h | ⟨q, hq, h⟩) u hu
    · rw [unmatchable h u] at hu; cases hu
    · obtain ⟨as, e, h1⟩ := (doesMatch_segments _ _).1 hu
      exact ⟨q, hq, (doesMatch_segments _ _).2 ⟨as, e, aligned_match p q as h h1⟩⟩

theorem respond_skip {σ : Type} (pre : List (Route σ)) (r r' : Route σ) (post : List (Route σ)) (hm : r.matcher = r'.matcher) (req : Request) (st : σ) (s : Sink)
    (h : r.matcher req = true → ∃ a ∈ pre, a.matcher req = true) :
    Router.respond (pre ++ r :: post) req st s = Router.respond (pre ++ r' :: post) req st s := by
  induction pre with
  | nil =>
    have : r.matcher req = false := Bool.eq_false_iff.2 fun hr => by obtain ⟨a, ha, -⟩ := h hr; cases ha
    simp only [List.nil_append, Router.respond, this, ← hm, Bool.false_eq_true, if_false]
  | cons a pre ih =>
    simp only [List.cons_append, Router.respond]
    cases ha : a.matcher req with
    | true => rfl
    | false =>
      simp only [Bool.false_eq_true, if_false]
      exact ih fun hr => by
        obtain ⟨b, hb, hb'⟩ := h hr
        rcases List.mem_cons.1 hb with rfl | hb
        · rw [ha] at hb'; cases hb'
        · exact ⟨b, hb, hb'⟩

theorem respond_pass {σ : Type} (pre : List (Route σ)) (r : Route σ) (post : List (Route σ)) (req : Request) (st : σ) (s : Sink)
    (h : ∀ a ∈ pre, a.matcher req = false) (hr : r.matcher req = true) : Router.respond (pre ++ r :: post) req st s = r.handler req st s := by
  induction pre with
  | nil => simp only [List.nil_append, Router.respond, hr, if_true]
  | cons a pre ih =>
    simp only [List.cons_append, Router.respond, h a (by simp), Bool.false_eq_true, if_false]
    exact ih fun b hb => h b (by simp [hb])

/-- **C150.** The handler of a route makes no difference, for any request - the route is never used - if and only if its pattern matches nothing, or a single one of the routes registered before it
has a pattern that covers it. -/
theorem C150_dead_route {σ : Type} (st : σ) (pre : List (List Segment × (Request → σ → Sink → Outcome Unit Unit × Sink))) (p : List Segment) (post : List (Route σ)) :
    (∀ (f g : Request → σ → Sink → Outcome Unit Unit × Sink) (req : Request) (s : Sink),
      Router.respond (pre.map patternRoute ++ patternRoute (p, f) :: post) req st s = Router.respond (pre.map patternRoute ++ patternRoute (p, g) :: post) req st s) ↔
    ¬ Matchable p ∨ ∃ r ∈ pre, CoveredBy p r.1 := by
  have key := C150_covered (pre.map (·.1)) p
  have hex : ∀ P : List Segment → Prop, (∃ q ∈ pre.map (·.1), P q) ↔ ∃ r ∈ pre, P r.1 := fun P =>
    ⟨fun ⟨q, hq, h⟩ => by obtain ⟨r, hr, rfl⟩ := List.mem_map.1 hq; exact ⟨r, hr, h⟩, fun ⟨r, hr, h⟩ => ⟨r.1, List.mem_map.2 ⟨r, hr, rfl⟩, h⟩⟩
  simp only [hex] at key
  rw [← key]
  constructor
  · intro h u hu
    refine Classical.byContradiction fun hno => ?_
    have hpre : ∀ a ∈ pre.map patternRoute, a.matcher ⟨[], .get, Body.empty, u⟩ = false := by
      intro a ha
      obtain ⟨r, hr, rfl⟩ := List.mem_map.1 ha
      exact Bool.eq_false_iff.2 fun hm => hno ⟨r, hr, hm⟩
    have h1 := h (fun _ _ s => (.ok (), s)) (fun _ _ s => (.panic, s)) ⟨[], .get, Body.empty, u⟩ ⟨[], none⟩
    rw [respond_pass _ _ _ _ _ _ hpre hu, respond_pass _ _ _ _ _ _ hpre hu] at h1
    simp [patternRoute] at h1
  · intro h f g req s
    refine respond_skip _ (patternRoute (p, f)) (patternRoute (p, g)) _ rfl req st s fun hr => ?_
    obtain ⟨r, hr', h1⟩ := h req.url hr
    exact ⟨patternRoute r, List.mem_map.2 ⟨r, hr', rfl⟩, h1⟩

/-- Cases: the two routes `/read/<integer>` and `/submit` of the list example do not overlap; `/read/<integer>` and `/<anything>/7` do; `/read/<integer>` after `/read/<anything>` is never used, and
after `/read/7` it is. -/
example : ¬ Overlap [.static "read", .intParam] [.static "submit"] ∧ Overlap [.static "read", .intParam] [.param, .static "7"] ∧
    CoveredBy [.static "read", .intParam] [.static "read", .param] ∧ ¬ CoveredBy [.static "read", .intParam] [.static "read", .static "7"] := by
  refine ⟨fun h => h.2.2.2, ⟨⟨by simp, by simp⟩, ⟨by simp, by simp⟩, trivial, ?_, trivial⟩, ⟨rfl, trivial, trivial⟩, fun h => h.2.1⟩
  exact accepts_int.1 (by decide +kernel)

/-- Case: the three routes of the chat example can be registered in any order. -/
example (env : HttpEnv) (sha1 : Bytes → Bytes) (script : String) (l : List (Route Unit)) (h : (chatRoutes env sha1 script).Perm l) (req : Request) (s : Sink) :
    Router.respond (chatRoutes env sha1 script) req () s = Router.respond l req () s := by
  refine C149_any_order h ?_ req () s
  have h1 : ¬ Overlap [.static "js"] [.static ""] := fun h => absurd h.2.2.1 (by simp [SegCompatible])
  have h2 : ¬ Overlap [.static "js"] [.static "ws"] := fun h => absurd h.2.2.1 (by simp [SegCompatible])
  have h3 : ¬ Overlap [.static ""] [.static "ws"] := fun h => absurd h.2.2.1 (by simp [SegCompatible])
  simp only [chatRoutes, mountedRoutes, Router.route, List.nil_append, List.cons_append, List.pairwise_cons, List.mem_cons, List.not_mem_nil, or_false, forall_eq_or_imp, forall_eq]
  exact ⟨⟨fun req h => h1 ((C149_overlap _ _).1 ⟨req.url, h⟩), fun req h => h2 ((C149_overlap _ _).1 ⟨req.url, h⟩)⟩,
    fun req h => h3 ((C149_overlap _ _).1 ⟨req.url, h⟩), by simp, .nil⟩

end Puck
