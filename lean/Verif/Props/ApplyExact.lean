import Verif.Lemmas.ContentsExact
import Verif.Props.Apply
/-!
# Between which views changesets work (C57), exactly
-/
namespace Puck

open Shape

theorem Unambiguous.child {a b a' b' : Element} (h : Unambiguous a b) {k : Nat} (ha : a.children[k]? = some a') (hb : b.children[k]? = some b') :
    Unambiguous a' b' := fun x y hc => h x y (Compared.trans (.child k .root ha hb) hc)

/-- what is known of the ids that come earlier in the document -/
def Early (before : List Nat) (a b : Element) : Prop :=
  ∀ i ∈ before, i < a.id ∧ (i < b.id ∨ ∀ K, Created a b K → K.id = i → K.Empty)

mutual
theorem unambiguous_safe : ∀ (b a : Element) (before : List Nat), Unambiguous a b → a.ids.Pairwise (· < ·) → b.ids.Pairwise (· < ·) →
    Early before a b → Safe Rules.none before a b
  | ⟨bid, bname, battrs, blis, bch, btext, bkey⟩, a, before, h, ha, hb, he => by
    have ha' := pairwise_parts ha
    have hb' := pairwise_parts hb
    simp only at hb'
    obtain ⟨h1, h2, h3⟩ := h _ _ .root
    simp only at h1 h2 h3
    rw [Safe]
    refine ⟨⟨fun hm => Nat.lt_irrefl _ (he _ hm).1, ?_, fun s => s.elim, ?_, ?_, ?_⟩, ?_⟩
    · by_cases hid : a.id = bid
      · exact Or.inr ⟨hid, fun s => s.elim⟩
      · exact Or.inl (h2 (by omega)).1
    · by_cases hid : a.id = bid
      · exact Or.inr ⟨Or.inl hid, fun s => s.elim⟩
      · rcases (h2 (by omega)).2 with h | h
        · exact Or.inl h
        · exact Or.inr ⟨Or.inr h, fun s => s.elim⟩
    · intro c hc hm
      have hlt := ha'.1 c.id (mem_idsOf_of_mem (List.mem_of_mem_drop hc) c.id_mem_ids)
      rcases List.mem_cons.1 hm with h | h
      · omega
      · have := (he _ h).1; omega
    · intro K hK hm
      have hcr : Created a ⟨bid, bname, battrs, blis, bch, btext, bkey⟩ K := by
        obtain ⟨c, hc, hk⟩ := mem_nodesAll hK
        exact ⟨_, _, c, .root, hc, hk⟩
      rcases List.mem_cons.1 hm with h | h
      · exact h3 K hcr h
      · rcases (he _ h).2 with h' | h'
        · have hlt := hb'.1 K.id (by rw [idsOf_take_drop bch a.children.length]; exact List.mem_append.2 (Or.inr (nodesAll_id hK)))
          simp only at h'
          omega
        · exact h' K hcr rfl
    · refine unambiguousZip_safe bch a.children _ (fun k x y hx hy => h.child hx hy) ha'.2 hb'.2 ?_
      intro k x y hx hy i hi
      have hxa := ha'.1 x.id (mem_idsOf_of_mem (List.mem_of_getElem? hx) x.id_mem_ids)
      have hyb := hb'.1 y.id (mem_idsOf_of_mem (List.mem_of_getElem? hy) y.id_mem_ids)
      have hcmp : Compared a ⟨bid, bname, battrs, blis, bch, btext, bkey⟩ x y := .child k .root hx hy
      rcases List.mem_cons.1 hi with rfl | hi
      · exact ⟨hxa, Or.inr fun K hK e => h3 K (Created.of hcmp hK) e⟩
      · obtain ⟨e1, e2⟩ := he i hi
        refine ⟨by omega, e2.imp (fun h => ?_) (fun h K hK e => h K (Created.of hcmp hK) e)⟩
        simp only at h
        omega
theorem unambiguousZip_safe : ∀ (bs as : List Element) (before : List Nat),
    (∀ (k : Nat) (a b : Element), as[k]? = some a → bs[k]? = some b → Unambiguous a b) → (idsOf as).Pairwise (· < ·) →
    (idsOf bs).Pairwise (· < ·) → (∀ (k : Nat) (a b : Element), as[k]? = some a → bs[k]? = some b → Early before a b) →
    SafeZip Rules.none before as bs
  | [], as, before, _, _, _, _ => by rw [SafeZip]; trivial
  | b :: bs, [], before, _, _, _, _ => by rw [SafeZip]; trivial
  | b :: bs, a :: as, before, h, ha, hb, he => by
    rw [idsOf, List.pairwise_append] at ha hb
    rw [SafeZip]
    refine ⟨unambiguous_safe b a before (h 0 a b rfl rfl) ha.1 hb.1 (he 0 a b rfl rfl),
      unambiguousZip_safe bs as _ (fun k x y hx hy => h (k + 1) x y hx hy) ha.2.1 hb.2.1 ?_⟩
    intro k x y hx hy i hi
    rcases List.mem_append.1 hi with h' | h'
    · exact he (k + 1) x y hx hy i h'
    · have h1 := hb.2.2 i h' y.id (mem_idsOf_of_mem (List.mem_of_getElem? hy) y.id_mem_ids)
      have h2 := (h (k + 1) x y hx hy _ _ .root).1
      exact ⟨by omega, Or.inl h1⟩
end

/-- **C57, exactly, in general.** For two trees without keys, the old one numbered increasingly in document order and the new one consecutively,
from no larger a number: the changeset can be applied to the old tree and gives the new one if and only if the pair is unambiguous. -/
theorem C57_exact_partial (a b : Element) (ka : a.Unkeyed) (kb : b.Unkeyed) (ia : a.ids.Pairwise (· < ·))
    (ib : b.ids = List.range' b.id b.ids.length) (hid : b.id ≤ a.id) (ha : a.AttrsOk) (hb : b.AttrsOk) :
    a.UpdatesTo b ↔ Unambiguous a b := by
  have ib' : b.ids.Pairwise (· < ·) := by rw [ib]; exact List.pairwise_lt_range'
  constructor
  · rintro ⟨ops, t, h1, h2, h3⟩
    obtain ⟨r⟩ := run_of ka kb ia ib hid h1 h2 h3
    exact fun x y hc => ⟨r.le hc, fun hl => ⟨r.name x y hc hl, r.listeners x y hc hl⟩, fun K hK he => r.blank hc hK he⟩
  · intro h
    exact C57_apply_partial a b (keyFit_unkeyed b a ka kb) (unambiguous_safe b a [] h ia ib' (fun _ hi => nomatch hi)) (nodup_of_increasing ia)
      (nodup_of_increasing ib') ha hb

/-- **C57, exactly, for the views of a component.** The changeset from one view to the next can be applied to the former and gives the latter
if and only if, at every position both views have, the id does not grow; where it gets smaller, the tag is the same, and the
listeners are the same or all gone; and no element with contents is created below that position under the id it had. -/
theorem C57_views_exact_partial (w w' : WrappedBodyNode) (g : Nat) (a b : Element) (ga gb : Nat)
    (ha : intoElement w g = some (a, ga)) (hb : intoElement w' g = some (b, gb)) (hw : w.AttrsOk) (hw' : w'.AttrsOk) :
    a.UpdatesTo b ↔ ∀ x y, Compared a b x y →
      y.id ≤ x.id ∧
      (y.id < x.id → x.name = y.name ∧ (x.listeners = y.listeners ∨ y.listeners = [])) ∧
      ∀ K, Created x y K → K.id = x.id → K.Empty := by
  have ia := dense_increasing ha
  have ib := dense_increasing hb
  have ea : a.id = g := by
    have := ia.2; rw [a.ids_eq, List.length_cons, List.range'_succ, List.cons.injEq] at this; exact this.1
  have eb : b.id = g := by
    have := ib.2; rw [b.ids_eq, List.length_cons, List.range'_succ, List.cons.injEq] at this; exact this.1
  exact C57_exact_partial a b (intoElement_unkeyed ha) (intoElement_unkeyed hb) ia.1 (by rw [eb]; exact ib.2) (by omega)
    (intoElement_attrsOk hw ha) (intoElement_attrsOk hw' hb)

/-- a list with one entry (with a line break in it) and a box -/
def boxBefore : WrappedBodyNode :=
  (BodyNode.wrap (.div [])).withChildren [(BodyNode.wrap (.p ⟨[], ""⟩)).child (BodyNode.wrap .br), BodyNode.wrap (.div [("class", "box")])]
/-- the line break is gone (so the box has a smaller id), and something is put into the box, under the id the box had -/
def boxAfter (inside : BodyNode) : WrappedBodyNode :=
  (BodyNode.wrap (.div [])).withChildren [BodyNode.wrap (.p ⟨[], ""⟩), (BodyNode.wrap (.div [("class", "box")])).child (BodyNode.wrap inside)]

/-- non-vacuity, first side: an id changes (3 to 2) and an element is created under the id 3 while the box still has it -/
example : ∃ a b, intoElement boxBefore 0 = some (a, 4) ∧ intoElement (boxAfter .br) 0 = some (b, 4) ∧ a.UpdatesTo b ∧
    ∃ x y K, Compared a b x y ∧ y.id < x.id ∧ Created x y K ∧ K.id = x.id ∧ K.Empty := by
  refine ⟨_, _, rfl, rfl, ⟨_, _, rfl, rfl, ?_⟩, ?_⟩
  · exact Element.Same.refl _
  · exact ⟨_, _, ⟨3, "br", [], [], [], none, none⟩, .child 1 .root rfl rfl, by decide, ⟨_, _, _, .root, List.mem_cons_self .., by rw [Element.nodes]; exact List.mem_cons_self ..⟩,
      rfl, rfl, rfl, rfl, rfl⟩

/-- non-vacuity, second side: with a text in the created element the changeset does not give the new view -/
example : ∃ a b, intoElement boxBefore 0 = some (a, 4) ∧ intoElement (boxAfter (.p ⟨[], "hello"⟩)) 0 = some (b, 4) ∧ ¬ a.UpdatesTo b := by
  refine ⟨_, _, rfl, rfl, fun h => ?_⟩
  have h' := (C57_views_exact_partial boxBefore (boxAfter (.p ⟨[], "hello"⟩)) 0 _ _ 4 4 rfl rfl
    (by simp [boxBefore, WrappedBodyNode.AttrsOk, WrappedAttrsOk, BodyNode.wrap, WrappedBodyNode.withChildren, WrappedBodyNode.child, BodyNode.htmlAttrs, Headers.Distinct])
    (by simp [boxAfter, WrappedBodyNode.AttrsOk, WrappedAttrsOk, BodyNode.wrap, WrappedBodyNode.withChildren, WrappedBodyNode.child, BodyNode.htmlAttrs, Headers.Distinct])).1 h
  have := (h' _ _ (.child 1 .root rfl rfl)).2.2 ⟨3, "p", [], [], [], some "hello", none⟩ ⟨_, _, _, .root, List.mem_cons_self .., by rw [Element.nodes]; exact List.mem_cons_self ..⟩ rfl
  exact absurd this.2.2.1 (by simp)

end Puck
