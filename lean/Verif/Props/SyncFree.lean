import Verif.Props.Sync
import Verif.Props.Follows
/-!
# Whole sessions of components whose structure may change: exactly when the browser stays in step (C84)
-/
namespace Puck

open Shape

variable {D I S E P : Type}

/-- A component whose renders are made from `malvolio` views numbered from 0 (as `main_loop` does), whose names and values survive the
trip to the browser.  Elements may come and go; attributes, text and listeners may change in any way, and so may tags, if the browser copies the children
faithfully into an element with the new tag. -/
structure FreeLayout (B : Browser) (C : Component D I S E P) : Prop where
  views : ∀ s, ∃ w g, intoElement w 0 = some ((C.render s).1, g) ∧ w.AttrsOk
  obeys : ∀ s, (C.render s).1.Obeys (clientRules B)
  tags : ∀ s s' x y, Compared (C.render s).1 (C.render s').1 x y → x.name = y.name ∨ B.Copies y.name

/-- The page after a list of messages, if none of them makes the client throw an exception. -/
def clientAllMessages (B : Browser) : List (List WireOp) → List Dom → Option (List Dom)
  | [], body => some body
  | m :: ms, body =>
    match clientAll B m body with
    | none => none
    | some body' => clientAllMessages B ms body'

theorem clientAllMessages_append (B : Browser) (l r : List (List WireOp)) (body : List Dom) :
    clientAllMessages B (l ++ r) body = (clientAllMessages B l body).bind (clientAllMessages B r) := by
  induction l generalizing body with
  | nil => rfl
  | cons m l ih =>
    rw [List.cons_append, clientAllMessages, clientAllMessages]
    cases clientAll B m body with
    | none => rfl
    | some b => exact ih b

/-- For this history the loop does not crash, the browser processes all it was sent without an exception, and then the body has gained
exactly one subtree, which shows the component's current render. -/
def ShowsAll (B : Browser) (C : Component D I S E P) (parse : String → Option ClientMessage) (data : D) (p : P) (page : List Dom)
    (ms : List (Mail I P)) : Prop :=
  ∃ st os d, loopRun C parse true (.waiting data) (.whoAmI p :: ms) = (.running st, os) ∧
    clientAllMessages B (sends os) page = some (page ++ [d]) ∧ (C.render st.comp).1.ShownAs d

theorem clientAllMessages_messages {B : Browser} {ms : List (List WireOp)} {body body' : List Dom} (h : clientAllMessages B ms body = some body') :
    clientMessages B ms body = body' := by
  induction ms generalizing body with
  | nil => cases h; rfl
  | cons m ms ih =>
    rw [clientAllMessages] at h
    rw [clientMessages]
    cases hc : clientAll B m body with
    | none => rw [hc] at h; cases h
    | some b => rw [hc] at h; rw [clientAll_message hc]; exact ih h

/-- without an exception is more than in the end -/
theorem ShowsAll.current {B : Browser} {C : Component D I S E P} {parse : String → Option ClientMessage} {data : D} {p : P} {page : List Dom}
    {ms : List (Mail I P)} (h : ShowsAll B C parse data p page ms) : ShowsCurrent B C parse data p page ms := by
  obtain ⟨st, os, d, h1, h2, h3⟩ := h
  exact ⟨st, os, d, h1, clientAllMessages_messages h2, h3⟩

theorem FreeLayout.trees {B : Browser} {C : Component D I S E P} (hf : FreeLayout B C) (s s' : S) :
    (C.render s).1.ids.Nodup ∧ (C.render s).1.AttrsOk ∧
    ∃ ops, (C.render s).1.diff (some (C.render s').1) = some ops ∧ ∀ page d, PageOk page → (C.render s).1.ShownAs d →
      ((∃ d', clientAll B (serializeOps ops) (page ++ [d]) = some (page ++ [d']) ∧ (C.render s').1.ShownAs d') ↔
        Followable (C.render s).1 (C.render s').1) := by
  obtain ⟨w, g, hw, hwa⟩ := hf.views s
  obtain ⟨w', g', hw', hwa'⟩ := hf.views s'
  exact ⟨nodup_of_increasing (dense_increasing hw).1, intoElement_attrsOk hwa hw,
    C63_views_exact_partial B w w' 0 _ _ g g' hw hw' hwa hwa' (hf.obeys s) (hf.obeys s') (hf.tags s s')⟩

theorem follows_free {B : Browser} {C : Component D I S E P} {p : P} (hf : FreeLayout B C) {parse : String → Option ClientMessage}
    {page : List Dom} (hp : PageOk page) {s s' : S} {ms : List (Mail I P)} {is : List I} (h : Session C parse p s ms is s')
    (hs : ∀ is i, Followable (C.render (C.after p s is)).1 (C.render (C.after p s (is ++ [i]))).1) :
    ∀ d, (C.render s).1.ShownAs d → ∃ os d', expectedOuts C p s is = some os ∧
      clientAllMessages B (sends os) (page ++ [d]) = some (page ++ [d']) ∧ (C.render s').1.ShownAs d' := by
  induction h with
  | nil s => intro d hd; exact ⟨[], d, rfl, rfl, hd⟩
  | skip _ _ _ _ ih => exact ih hs
  | @take s m ms i is s' hask _ ih =>
    intro d hd
    obtain ⟨-, -, ops, h1, h2⟩ := hf.trees s (C.update s i p).1
    obtain ⟨d1, h3, h4⟩ := (h2 page d hp hd).2 (hs [] i)
    obtain ⟨os, d2, h5, h6, h7⟩ := ih (fun is' i' => hs (i :: is') i') d1 h4
    refine ⟨_, d2, by simp only [expectedOuts, h1, h5]; rfl, ?_, h7⟩
    rw [sends_append, sends_append, sends_effects]
    simp only [sends, List.nil_append, List.cons_append, clientAllMessages, h3, h6]

/-- **C84 (exactly, for components whose structure may change).** For every component with a free layout and every page without numeric ids: after
every history in which the connection stays open the browser has processed all messages without an exception and shows the current render, if and only
if every update, from every state the component can be brought to, changes the view in a way the browser can follow. -/
theorem C84_free_layout (B : Browser) (C : Component D I S E P) (p : P) (hf : FreeLayout B C) (parse : String → Option ClientMessage)
    (data : D) (page : List Dom) (hp : PageOk page) :
    (∀ ms : List (Mail I P), (∀ m ∈ ms, m ≠ .ws (.error .connectionClosed) ∧ ∀ q, m ≠ .whoAmI q) → ShowsAll B C parse data p page ms) ↔
      ∀ (is : List I) (i : I), Followable (C.render (C.after p (C.new data p).1 is)).1 (C.render (C.after p (C.new data p).1 (is ++ [i]))).1 := by
  constructor
  · intro h is i
    have hin : ∀ js : List I, ∀ m ∈ (js.map .input : List (Mail I P)), m ≠ .ws (.error .connectionClosed) ∧ ∀ q, m ≠ .whoAmI q := by
      intro js m hm
      obtain ⟨j, -, rfl⟩ := List.mem_map.1 hm
      exact ⟨(by simp), (by simp)⟩
    have comp : ∀ (js : List I) st os, loopRun C parse true (.waiting data) (.whoAmI p :: js.map .input) = (.running st, os) →
        st.proc = p ∧ C.render st.comp = (st.dom, st.listeners) ∧ st.comp = C.after p (C.new data p).1 js := by
      intro js st os hr
      obtain ⟨h1, h2, h3, is', h4⟩ := C64_in_step C parse true data p (js.map .input) st (by rw [hr])
      exact ⟨h1, (by rw [h2, h3]), session_inputs js h4⟩
    obtain ⟨st, os, d, h1, h2, h3⟩ := h (is.map .input) (hin is)
    obtain ⟨st', os', d', h1', h2', h3'⟩ := h ((is ++ [i]).map .input) (hin _)
    obtain ⟨c1, c2, c3⟩ := comp is st os h1
    obtain ⟨-, -, c3'⟩ := comp _ st' os' h1'
    rw [List.map_append, ← List.cons_append, run_append, h1] at h1'
    simp only [List.map_cons, List.map_nil, loopRun, List.append_nil] at h1'
    have e : loopStep C parse true (.running st) (.input i) = updateAndDiff C st i := rfl
    rw [e] at h1'
    rcases update_cases C c2 i with ⟨-, h4⟩ | ⟨ops, h4, h5⟩
    · rw [h4] at h1'; cases h1'
    · rw [h5] at h1'
      injection h1' with h6 h7
      subst h7
      have hc : st'.comp = (C.update st.comp i p).1 := by
        injection h6 with h6
        rw [← h6, c1]
      rw [sends_append, sends_append, sends_effects, clientAllMessages_append, h2] at h2'
      simp only [sends, List.nil_append, Option.bind_some, clientAllMessages] at h2'
      rw [← c3, ← c3', hc]
      rw [hc] at h3'
      obtain ⟨-, -, ops', h8, h9⟩ := hf.trees st.comp (C.update st.comp i p).1
      rw [c1] at h4
      cases h8.symm.trans h4
      refine (h9 page d hp h3).1 ⟨d', ?_, h3'⟩
      cases hm : clientAll B (serializeOps ops) (page ++ [d]) with
      | none => rw [hm] at h2'; cases h2'
      | some b => rw [hm] at h2'; exact h2'
  · intro hs ms hc
    obtain ⟨is, s', h⟩ := session_total C parse p (C.new data p).1 ms hc
    obtain ⟨h0, h0', -⟩ := hf.trees (C.new data p).1 (C.new data p).1
    obtain ⟨ops, d0, h1, h2, h3⟩ := C62_no_exception_partial B page hp (C.render (C.new data p).1).1 h0 h0' (hf.obeys _)
    obtain ⟨os, d, h4, h5, h6⟩ := follows_free hf hp h hs d0 h3
    refine ⟨_, _, d, C66_trace C parse data p ms is s' os h h4, ?_, h6⟩
    cases h1
    rw [sends_append, opening, sends_append, sends_effects]
    simp only [sends, List.nil_append, List.cons_append, clientAllMessages, h2, h5]

/-! ### A component whose list grows and shrinks -/

/-- `n` paragraphs, numbered from `g` -/
def entries (g : Nat) : Nat → List Element
  | 0 => []
  | n + 1 => ⟨g, "p", [], [], [], some "entry", none⟩ :: entries (g + 1) n

/-- a box with `n` entries and listeners of its own -/
def listBox (ls : List ListenerRef) (n : Nat) : Element := ⟨0, "div", [], ls, entries 1 n, none, none⟩

/-- a list of entries; an input sets how many there are -/
def feed : Component Unit Nat Nat String Unit where
  new := fun _ _ => (0, [])
  update := fun _ n _ => (n, [])
  render := fun n => (listBox [] n, fun _ => none)

theorem entries_view (g n : Nat) : intoElements (List.replicate n (BodyNode.wrap (.p ⟨[], "entry"⟩))) g = some (entries g n, g + n) := by
  induction n generalizing g with
  | zero => rfl
  | succ n ih =>
    rw [List.replicate_succ, intoElements]
    simp only [BodyNode.wrap, intoElement, intoElements]
    have := ih (g + 1)
    rw [BodyNode.wrap] at this
    rw [this]
    simp only [entries, Option.some.injEq, Prod.mk.injEq, true_and]
    omega

theorem entries_get {g n k : Nat} {x : Element} (h : (entries g n)[k]? = some x) : x = ⟨g + k, "p", [], [], [], some "entry", none⟩ := by
  induction n generalizing g k with
  | zero => simp [entries] at h
  | succ n ih =>
    cases k with
    | zero => simp [entries] at h; exact h.symm
    | succ k =>
      rw [entries, List.getElem?_cons_succ] at h
      rw [ih h]
      congr 1
      omega

theorem entries_length (g n : Nat) : (entries g n).length = n := by
  induction n generalizing g with
  | zero => rfl
  | succ n ih => rw [entries, List.length_cons, ih]

theorem list_compared {ls : List ListenerRef} {n m : Nat} {x y : Element} (h : Compared (listBox ls n) (listBox ls m) x y) :
    (x = listBox ls n ∧ y = listBox ls m) ∨ (∃ k, k < n ∧ x = ⟨1 + k, "p", [], [], [], some "entry", none⟩ ∧ y = x) := by
  rcases Shape.Compared.cases_top h with h | ⟨k, a', b', h1, h2, h3⟩
  · exact Or.inl h
  · have hk : k < n := by
      have := (List.getElem?_eq_some_iff.1 h1).1
      simpa [listBox, entries_length] using this
    have e1 := entries_get (g := 1) (n := n) h1
    have e2 := entries_get (g := 1) (n := m) h2
    subst e1; subst e2
    rcases Shape.Compared.cases_top h3 with ⟨rfl, rfl⟩ | ⟨j, _, _, h4, -⟩
    · exact Or.inr ⟨k, hk, rfl, rfl⟩
    · simp at h4

theorem entries_obeys (B : Browser) (hB : B.validTag "p" = true) (g n : Nat) : ObeysAll (clientRules B) (entries g n) := by
  induction n generalizing g with
  | zero => trivial
  | succ n ih =>
    rw [entries, ObeysAll]
    refine ⟨?_, ih (g + 1)⟩
    simp [Element.Obeys, ObeysAll, clientRules, hB]; decide +kernel

theorem list_view (ls : List ListenerRef) (n : Nat) : ∃ w g, intoElement w 0 = some (listBox ls n, g) ∧ w.AttrsOk := by
  refine ⟨⟨.div [], ls, List.replicate n (BodyNode.wrap (.p ⟨[], "entry"⟩))⟩, 1 + n, ?_, ?_⟩
  · simp only [intoElement]
    have := entries_view 1 n
    rw [BodyNode.wrap] at this
    simp only [BodyNode.wrap]
    rw [Nat.zero_add, this]
    rfl
  · have : ∀ n, WrappedAttrsOk (List.replicate n (BodyNode.wrap (.p ⟨[], "entry"⟩))) := by
      intro n
      induction n with
      | zero => trivial
      | succ n ih =>
        rw [List.replicate_succ, WrappedAttrsOk]
        exact ⟨by simp [BodyNode.wrap, WrappedBodyNode.AttrsOk, WrappedAttrsOk, BodyNode.htmlAttrs, Headers.Distinct], ih⟩
    rw [WrappedBodyNode.AttrsOk]
    exact ⟨by simp [BodyNode.htmlAttrs, Headers.Distinct], this n⟩

theorem list_obeys (B : Browser) (h1 : B.validTag "div" = true) (h2 : B.validTag "p" = true) (ls : List ListenerRef)
    (hl : ∀ l ∈ ls, (clientRules B).lis l) (n : Nat) : (listBox ls n).Obeys (clientRules B) := by
  rw [listBox, Element.Obeys]
  refine ⟨?_, ?_, hl, entries_obeys B h2 1 n⟩
  · simp [clientRules, h1]; decide +kernel
  · simp

theorem list_tags {ls : List ListenerRef} {n m : Nat} {x y : Element} (h : Compared (listBox ls n) (listBox ls m) x y) : x.name = y.name := by
  rcases list_compared h with ⟨rfl, rfl⟩ | ⟨k, -, rfl, rfl⟩ <;> rfl

theorem feed_layout (B : Browser) (h1 : B.validTag "div" = true) (h2 : B.validTag "p" = true) : FreeLayout B feed where
  views := list_view []
  obeys := list_obeys B h1 h2 [] (by simp)
  tags := fun _ _ _ _ h => Or.inl (list_tags h)

theorem list_followable (ls : List ListenerRef) (n m : Nat) : Followable (listBox ls n) (listBox ls m) := by
  intro x y h
  rcases list_compared h with ⟨rfl, rfl⟩ | ⟨k, -, rfl, rfl⟩
  · refine ⟨Nat.le_refl _, fun h => absurd h (Nat.lt_irrefl _), fun K hK he => ?_, Or.inl rfl, fun h => h.elim (fun h => absurd rfl h) (fun h => absurd rfl h)⟩
    exfalso
    obtain ⟨u, v, c, h1, h2, h3⟩ := hK
    have hc : c ∈ entries 1 m := by
      rcases list_compared h1 with ⟨rfl, rfl⟩ | ⟨k, -, rfl, rfl⟩
      · exact List.mem_of_mem_drop h2
      · simp at h2
    obtain ⟨j, hj⟩ := List.getElem?_of_mem hc
    have e := entries_get hj
    subst e
    simp [Element.nodes, nodesAll] at h3
    subst h3
    simp [listBox] at he
  · refine ⟨Nat.le_refl _, fun h => absurd h (Nat.lt_irrefl _), fun K hK _ => ?_, Or.inl rfl, fun h => h.elim (fun h => absurd rfl h) (fun h => absurd rfl h)⟩
    exfalso
    obtain ⟨u, v, c, h1, h2, -⟩ := hK
    rcases Shape.Compared.cases_top h1 with ⟨rfl, rfl⟩ | ⟨j, _, _, h4, -⟩
    · simp at h2
    · simp at h4

theorem feed_followable (n m : Nat) : Followable (feed.render n).1 (feed.render m).1 := list_followable [] n m

/-- non-vacuity: whatever the history, however long the list gets and however it shrinks, the browser shows it -/
example (B : Browser) (h1 : B.validTag "div" = true) (h2 : B.validTag "p" = true) (parse : String → Option ClientMessage) (page : List Dom)
    (hp : PageOk page) (ms : List (Mail Nat Unit)) (hc : ∀ m ∈ ms, m ≠ .ws (.error .connectionClosed) ∧ ∀ q, m ≠ .whoAmI q) :
    ShowsAll B feed parse () () page ms :=
  (C84_free_layout B feed () (feed_layout B h1 h2) parse () page hp).2 (fun _ _ => feed_followable _ _) ms hc

/-! ### A component whose tags change -/

/-- a title, which becomes a heading or a paragraph again, and a paragraph below it; an input says which -/
def titled : Component Unit Bool Bool String Unit where
  new := fun _ _ => (false, [])
  update := fun _ b _ => (b, [])
  render := fun b => (⟨0, "div", [], [], [⟨1, if b then "h1" else "p", [], [], [], some "title", none⟩, ⟨2, "p", [], [], [], some "more", none⟩], none, none⟩, fun _ => none)

theorem titled_compared {b c : Bool} {x y : Element} (h : Compared (titled.render b).1 (titled.render c).1 x y) :
    (x = (titled.render b).1 ∧ y = (titled.render c).1) ∨
    (x = ⟨1, if b then "h1" else "p", [], [], [], some "title", none⟩ ∧ y = ⟨1, if c then "h1" else "p", [], [], [], some "title", none⟩) ∨
    (x = ⟨2, "p", [], [], [], some "more", none⟩ ∧ y = ⟨2, "p", [], [], [], some "more", none⟩) := by
  rcases Shape.Compared.cases_top h with h | ⟨k, a', b', h1, h2, h3⟩
  · exact Or.inl h
  · right
    match k, h1, h2 with
    | 0, h1, h2 =>
      cases h1; cases h2
      rcases Shape.Compared.cases_top h3 with h | ⟨j, a', b', h1, h2, -⟩
      · exact Or.inl h
      · simp at h2
    | 1, h1, h2 =>
      cases h1; cases h2
      rcases Shape.Compared.cases_top h3 with h | ⟨j, a', b', h1, h2, -⟩
      · exact Or.inr h
      · simp at h1
    | k + 2, h1, h2 => simp [titled] at h1

theorem titled_layout (B : Browser) (h1 : B.validTag "div" = true) (h2 : B.validTag "p" = true) (h3 : B.validTag "h1" = true)
    (c2 : B.Copies "p") (c3 : B.Copies "h1") : FreeLayout B titled where
  views := fun b => by
    cases b
    · refine ⟨((BodyNode.wrap (.div [])).child (BodyNode.wrap (.p ⟨[], "title"⟩))).child (BodyNode.wrap (.p ⟨[], "more"⟩)), 3, rfl, ?_⟩
      simp [WrappedBodyNode.AttrsOk, WrappedAttrsOk, BodyNode.wrap, WrappedBodyNode.child, BodyNode.htmlAttrs, Headers.Distinct]
    · refine ⟨((BodyNode.wrap (.div [])).child (BodyNode.wrap (.h1 ⟨[], "title"⟩))).child (BodyNode.wrap (.p ⟨[], "more"⟩)), 3, rfl, ?_⟩
      simp [WrappedBodyNode.AttrsOk, WrappedAttrsOk, BodyNode.wrap, WrappedBodyNode.child, BodyNode.htmlAttrs, Headers.Distinct]
  obeys := fun b => by
    cases b <;> (simp [titled, Element.Obeys, ObeysAll, clientRules, h1, h2, h3]; decide +kernel)
  tags := fun b c x y h => by
    rcases titled_compared h with ⟨rfl, rfl⟩ | ⟨rfl, rfl⟩ | ⟨rfl, rfl⟩
    · exact Or.inl rfl
    · cases c
      · exact Or.inr c2
      · exact Or.inr c3
    · exact Or.inl rfl

theorem titled_followable (b c : Bool) : Followable (titled.render b).1 (titled.render c).1 := by
  rw [← Shape.Paint.good_followable]
  cases b <;> cases c <;>
    simp [titled, Shape.Paint.Good, Shape.Paint.GoodZip, Shape.Paint.OwnGood, Shape.Paint.Wiped, Shape.Paint.below', Shape.Paint.under, Shape.Paint.hushed, nodesAll]

/-- non-vacuity: whatever the history, in a browser that copies children faithfully, the title always has the tag it should have -/
example (B : Browser) (h1 : B.validTag "div" = true) (h2 : B.validTag "p" = true) (h3 : B.validTag "h1" = true) (c2 : B.Copies "p") (c3 : B.Copies "h1")
    (parse : String → Option ClientMessage) (page : List Dom) (hp : PageOk page) (ms : List (Mail Bool Unit))
    (hc : ∀ m ∈ ms, m ≠ .ws (.error .connectionClosed) ∧ ∀ q, m ≠ .whoAmI q) : ShowsAll B titled parse () () page ms :=
  (C84_free_layout B titled () (titled_layout B h1 h2 h3 c2 c3) parse () page hp).2 (fun _ _ => titled_followable _ _) ms hc

/-! ### The same list with something after it -/

/-- the list, and a paragraph below it; an input sets how many entries there are -/
def feedEnd : Component Unit Nat Nat String Unit where
  new := fun _ _ => (0, [])
  update := fun _ n _ => (n, [])
  render := fun n => (⟨0, "div", [], [], [⟨1, "div", [], [], entries 2 n, none, none⟩, ⟨2 + n, "p", [], [], [], some "end", none⟩], none, none⟩, fun _ => none)

/-- **C84 is false** for lists with something after them, in any browser: when a first and then a second entry is added, the second entry is
never given its text. -/
theorem C84_insertion_refuted (B : Browser) (h1 : B.validTag "div" = true) (h2 : B.validTag "p" = true) (parse : String → Option ClientMessage) :
    ∃ st os, loopRun feedEnd parse true (.waiting ()) [.whoAmI (), .input 1, .input 2] = (.running st, os) ∧
      st.comp = 2 ∧
      clientMessages B (sends os) [] = [.elem "div" [("id", "0")] [] [
        .elem "div" [("id", "1")] [] [.elem "p" [("id", "4")] [] [.text "entry"], .elem "p" [("id", "3")] [] []],
        .elem "p" [("id", "2")] [] [.text "end"]]] ∧
      ¬ ∃ d, clientMessages B (sends os) [] = [d] ∧ (feedEnd.render st.comp).1.ShownAs d := by
  refine ⟨_, [.send (serializeOps [⟨0, .createTag "div" none⟩, ⟨1, .createTag "div" (some 0)⟩, ⟨2, .createTag "p" (some 0)⟩, ⟨2, .setText "end"⟩]),
    .send (serializeOps [⟨2, .createTag "p" (some 1)⟩, ⟨2, .setText "entry"⟩, ⟨2, .setId 3⟩]),
    .send (serializeOps [⟨3, .createTag "p" (some 1)⟩, ⟨3, .setText "entry"⟩, ⟨3, .setId 4⟩])], rfl, rfl, ?_⟩
  refine (fun key => And.intro key ?_) ?_
  · rintro ⟨d, h3, h4⟩
    rw [key] at h3
    injection h3 with h3
    subst h3
    simp [feedEnd, Element.ShownAs, ShownAsAll, textNodes, entries] at h4
    obtain ⟨attrs, kids, ⟨-, rfl⟩, -, d, ds, h5, ⟨attrs', kids', rfl, -, e, es, rfl, -, f, rfl, attrs'', rfl, -⟩, -⟩ := h4
    simp at h5
  have e1 : splitPlus "div+" = ["div", ""] := by decide +kernel
  have e2 : splitPlus "p+0" = ["p", "0"] := by decide +kernel
  have e3 : splitPlus "div+0" = ["div", "0"] := by decide +kernel
  have e4 : splitPlus "p+1" = ["p", "1"] := by decide +kernel
  have a1 : asciiLower "div" = "div" := by decide +kernel
  have a2 : asciiLower "p" = "p" := by decide +kernel
  have d0 : Nat.repr 0 = "0" := by decide +kernel
  have d1 : Nat.repr 1 = "1" := by decide +kernel
  have d2 : Nat.repr 2 = "2" := by decide +kernel
  have d3 : Nat.repr 3 = "3" := by decide +kernel
  have d4 : Nat.repr 4 = "4" := by decide +kernel
  simp [sends, clientMessages, serializeOps, Op.serialize, clientMessage, clientOp, withElement, replaceIn, replaceNode, Headers.get, e1, e2, e3, e4, a1, a2,
    d0, d1, d2, d3, d4, h1, h2, textContent, Headers.insert]

end Puck
