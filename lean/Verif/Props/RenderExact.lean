import Verif.Props.Render
import Verif.Spec.Tree
/-!
# Which trees a browser reads back from their HTML (C91)
-/
namespace Puck

mutual
theorem tokens_length (f g : String → String) : ∀ e : Element, (e.tokens f).length = (e.tokens g).length
  | ⟨_, name, attributes, _, children, text, _⟩ => by
    simp only [Element.tokens, List.length_cons, List.length_append, List.length_map, tokensAll_length f g children]
theorem tokensAll_length (f g : String → String) : ∀ es : List Element, (tokensAll f es).length = (tokensAll g es).length
  | [] => rfl
  | e :: es => by simp only [tokensAll, List.length_append, tokens_length f g e, tokensAll_length f g es]
end

theorem quoted_ne (k : String) : (quoted k).toList ≠ k.toList := by
  intro h
  have := congrArg List.length h
  rw [quoted_toList] at this
  simp at this
  omega

mutual
theorem tokens_same : ∀ e : Element, e.tokens quoted = e.tokens id ↔ ∀ x ∈ e.nodes, x.attributes = []
  | ⟨i, name, attributes, ls, children, text, key⟩ => by
    simp only [Element.tokens, Element.nodes, List.mem_cons, forall_eq_or_imp, List.cons.injEq, HtmlToken.startTag.injEq, true_and,
      List.append_cancel_left_eq, List.append_cancel_right_eq]
    rw [tokensAll_same children]
    refine and_congr ?_ Iff.rfl
    constructor
    · intro h
      cases attributes with
      | nil => rfl
      | cons p ps =>
        simp only [List.map_cons, List.cons.injEq, Prod.mk.injEq, and_true, id] at h
        exact absurd h.1 (quoted_ne _)
    · rintro rfl; rfl
theorem tokensAll_same : ∀ es : List Element, tokensAll quoted es = tokensAll id es ↔ ∀ x ∈ nodesAll es, x.attributes = []
  | [] => by simp [tokensAll, nodesAll]
  | e :: es => by
    simp only [tokensAll, nodesAll, List.mem_append]
    constructor
    · intro h
      obtain ⟨h1, h2⟩ := List.append_inj h (tokens_length _ _ e)
      rintro x (hx | hx)
      · exact (tokens_same e).mp h1 x hx
      · exact (tokensAll_same es).mp h2 x hx
    · intro h
      rw [(tokens_same e).mpr fun x hx => h x (.inl hx), (tokensAll_same es).mpr fun x hx => h x (.inr hx)]
end

/-- **C91, exactly**, for trees without special characters: a browser reads the rendered HTML as the tree that was rendered if and only if no element of the tree
has an attribute. -/
theorem C91_exact_partial (e : Element) (h : e.HtmlPlain) :
    tokenizeHtml e.renderHtml = some (e.tokens id) ↔ ∀ x ∈ e.nodes, x.attributes = [] := by
  rw [C91_read_back_partial e h, Option.some.injEq]
  exact tokens_same e

/-- Both cases occur: a paragraph in a `div`, and the same with a class on the paragraph. -/
example : ∃ e e' : Element, e.HtmlPlain ∧ e'.HtmlPlain ∧ tokenizeHtml e.renderHtml = some (e.tokens id) ∧
    tokenizeHtml e'.renderHtml ≠ some (e'.tokens id) := by
  let p (as : Headers) : Element := ⟨1, "p", as, [], [], some "hi", none⟩
  let d (as : Headers) : Element := ⟨0, "div", [], [], [p as], none, none⟩
  have hp : ∀ as, as = [] ∨ as = [("class", "a")] → (d as).HtmlPlain := by
    rintro as (rfl | rfl) <;> simp only [d, p, Element.HtmlPlain, HtmlPlainAll] <;>
      refine ⟨⟨⟨_, _, rfl, by decide⟩, by decide, by decide⟩, by decide, by decide, by simp,
        ⟨⟨⟨_, _, rfl, by decide⟩, by decide, by decide⟩, by decide, ?_, ?_, trivial⟩, trivial⟩ <;> simp <;> decide
  refine ⟨d [], d [("class", "a")], hp _ (.inl rfl), hp _ (.inr rfl), (C91_exact_partial _ (hp _ (.inl rfl))).mpr ?_, ?_⟩
  · simp [d, p, Element.nodes, nodesAll]
  · rw [Ne, C91_exact_partial _ (hp _ (.inr rfl))]
    simp [d, p, Element.nodes, nodesAll]

end Puck
