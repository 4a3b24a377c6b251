import Verif.Lemmas.InStep
/-!
# What a changeset without creations can do to a page
-/
namespace Puck

/-- The id attribute of a node. -/
def Dom.idOf : Dom → Option String
  | .text _ => none
  | .elem _ attrs _ _ => attrs.get "id"

/-- The children of a node. -/
def Dom.kids : Dom → List Dom
  | .text _ => []
  | .elem _ _ _ cs => cs

/-- The listeners of a node. -/
def Dom.lis : Dom → List ListenerRef
  | .text _ => []
  | .elem _ _ ls _ => ls

mutual
/-- The elements of a tree in document order. -/
def Dom.elems : Dom → List Dom
  | .text _ => []
  | .elem tag attrs ls cs => .elem tag attrs ls cs :: elemsAll cs
/-- The elements of a forest in document order. -/
def elemsAll : List Dom → List Dom
  | [] => []
  | d :: ds => d.elems ++ elemsAll ds
end

mutual
/-- The second tree is what is left of the first: elements may have lost all their children and may have other texts, attributes and
listeners; elements with an id in `L` and without listeners still have none; elements with an id in `T` have kept their children. -/
def Fades (L T : String → Prop) : Dom → Dom → Prop
  | .text s, d' => d' = .text s
  | .elem tag attrs ls cs, d' => ∃ attrs' ls' cs', d' = .elem tag attrs' ls' cs' ∧ attrs'.get "id" = attrs.get "id" ∧
      (∀ i, attrs.get "id" = some i → L i → ls = [] → ls' = []) ∧
      (FadesAll L T cs cs' ∨ (elemsAll cs' = [] ∧ ∀ i, attrs.get "id" = some i → ¬ T i))
/-- Pointwise. -/
def FadesAll (L T : String → Prop) : List Dom → List Dom → Prop
  | [], ds' => ds' = []
  | d :: ds, ds' => ∃ e es, ds' = e :: es ∧ Fades L T d e ∧ FadesAll L T ds es
end

variable {L T : String → Prop}

mutual
theorem Fades.refl : ∀ d : Dom, Fades L T d d
  | .text s => by rw [Fades]
  | .elem tag attrs ls cs => by
    rw [Fades]; exact ⟨attrs, ls, cs, rfl, rfl, fun _ _ _ h => h, Or.inl (FadesAll.refl cs)⟩
theorem FadesAll.refl : ∀ ds : List Dom, FadesAll L T ds ds
  | [] => by rw [FadesAll]
  | d :: ds => by rw [FadesAll]; exact ⟨d, ds, rfl, Fades.refl d, FadesAll.refl ds⟩
end

mutual
theorem Fades.noElems : ∀ d e : Dom, Fades L T d e → d.elems = [] → e.elems = []
  | .text s, e, h, _ => by rw [Fades] at h; rw [h]; rfl
  | .elem tag attrs ls cs, e, h, h' => by rw [Dom.elems] at h'; cases h'
theorem FadesAll.noElems : ∀ ds es : List Dom, FadesAll L T ds es → elemsAll ds = [] → elemsAll es = []
  | [], es, h, _ => by rw [FadesAll] at h; rw [h]; rfl
  | d :: ds, es, h, h' => by
    rw [FadesAll] at h
    obtain ⟨e, es, rfl, h1, h2⟩ := h
    rw [elemsAll, List.append_eq_nil_iff] at h'
    rw [elemsAll, Fades.noElems d e h1 h'.1, FadesAll.noElems ds es h2 h'.2]; rfl
end

mutual
theorem Fades.trans : ∀ c d e : Dom, Fades L T c d → Fades L T d e → Fades L T c e
  | .text s, d, e, h1, h2 => by
    rw [Fades] at h1; subst h1; exact h2
  | .elem tag attrs ls cs, d, e, h1, h2 => by
    rw [Fades] at h1 ⊢
    obtain ⟨attrs1, ls1, cs1, rfl, a1, a2, a3⟩ := h1
    rw [Fades] at h2
    obtain ⟨attrs2, ls2, cs2, rfl, b1, b2, b3⟩ := h2
    refine ⟨attrs2, ls2, cs2, rfl, b1.trans a1, fun i hi hl hn => b2 i (a1.trans hi) hl (a2 i hi hl hn), ?_⟩
    rcases a3 with a3 | ⟨a3, a4⟩
    · rcases b3 with b3 | ⟨b3, b4⟩
      · exact Or.inl (FadesAll.trans cs cs1 cs2 a3 b3)
      · exact Or.inr ⟨b3, fun i hi => b4 i (a1.trans hi)⟩
    · refine Or.inr ⟨?_, a4⟩
      rcases b3 with b3 | ⟨b3, _⟩
      · exact FadesAll.noElems _ _ b3 a3
      · exact b3
theorem FadesAll.trans : ∀ cs ds es : List Dom, FadesAll L T cs ds → FadesAll L T ds es → FadesAll L T cs es
  | [], ds, es, h1, h2 => by rw [FadesAll] at h1; subst h1; exact h2
  | c :: cs, ds, es, h1, h2 => by
    rw [FadesAll] at h1 ⊢
    obtain ⟨d, ds, rfl, a1, a2⟩ := h1
    rw [FadesAll] at h2
    obtain ⟨e, es, rfl, b1, b2⟩ := h2
    exact ⟨e, es, rfl, Fades.trans c d e a1 b1, FadesAll.trans cs ds es a2 b2⟩
end

mutual
theorem Fades.clone : ∀ d : Dom, Fades L T d d.cloneNode
  | .text s => by rw [Dom.cloneNode, Fades]
  | .elem tag attrs ls cs => by
    rw [Dom.cloneNode, Fades]; exact ⟨attrs, [], cloneAll cs, rfl, rfl, fun _ _ _ _ => rfl, Or.inl (FadesAll.clone cs)⟩
theorem FadesAll.clone : ∀ ds : List Dom, FadesAll L T ds (cloneAll ds)
  | [] => by rw [cloneAll, FadesAll]
  | d :: ds => by rw [cloneAll, FadesAll]; exact ⟨_, _, rfl, Fades.clone d, FadesAll.clone ds⟩
end

mutual
theorem clone_lis : ∀ (d x : Dom), x ∈ d.cloneNode.elems → x.lis = []
  | .text s, x, h => by rw [Dom.cloneNode, Dom.elems] at h; cases h
  | .elem tag attrs ls cs, x, h => by
    rw [Dom.cloneNode, Dom.elems, List.mem_cons] at h
    rcases h with rfl | h
    · rfl
    · exact cloneAll_lis cs x h
theorem cloneAll_lis : ∀ (ds : List Dom) (x : Dom), x ∈ elemsAll (cloneAll ds) → x.lis = []
  | [], x, h => by rw [cloneAll, elemsAll] at h; cases h
  | d :: ds, x, h => by
    rw [cloneAll, elemsAll, List.mem_append] at h
    rcases h with h | h
    · exact clone_lis d x h
    · exact cloneAll_lis ds x h
end

mutual
/-- every element that is left was there before -/
theorem Fades.back : ∀ (d e y : Dom), Fades L T d e → y ∈ e.elems → ∃ x ∈ d.elems, Fades L T x y
  | .text s, e, y, h, hy => by rw [Fades] at h; subst h; rw [Dom.elems] at hy; cases hy
  | .elem tag attrs ls cs, e, y, h, hy => by
    have h' := h
    rw [Fades] at h'
    obtain ⟨attrs1, ls1, cs1, rfl, a1, a2, a3⟩ := h'
    rw [Dom.elems, List.mem_cons] at hy
    rcases hy with rfl | hy
    · exact ⟨_, by rw [Dom.elems]; exact List.mem_cons_self .., h⟩
    · rcases a3 with a3 | ⟨a3, _⟩
      · obtain ⟨x, h1, h2⟩ := FadesAll.back cs cs1 y a3 hy
        exact ⟨x, by rw [Dom.elems]; exact List.mem_cons_of_mem _ h1, h2⟩
      · rw [a3] at hy; cases hy
theorem FadesAll.back : ∀ (ds es : List Dom) (y : Dom), FadesAll L T ds es → y ∈ elemsAll es → ∃ x ∈ elemsAll ds, Fades L T x y
  | [], es, y, h, hy => by rw [FadesAll] at h; subst h; rw [elemsAll] at hy; cases hy
  | d :: ds, es, y, h, hy => by
    rw [FadesAll] at h
    obtain ⟨e, es, rfl, h1, h2⟩ := h
    rw [elemsAll, List.mem_append] at hy
    rcases hy with hy | hy
    · obtain ⟨x, h3, h4⟩ := Fades.back d e y h1 hy
      exact ⟨x, by rw [elemsAll]; exact List.mem_append_left _ h3, h4⟩
    · obtain ⟨x, h3, h4⟩ := FadesAll.back ds es y h2 hy
      exact ⟨x, by rw [elemsAll]; exact List.mem_append_right _ h3, h4⟩
end

theorem Fades.idOf {d e : Dom} (h : Fades L T d e) : e.idOf = d.idOf := by
  cases d with
  | text s => rw [Fades] at h; rw [h]
  | elem tag attrs ls cs =>
    rw [Fades] at h
    obtain ⟨attrs1, ls1, cs1, rfl, a1, -⟩ := h
    exact a1

/-! ## Ids -/

mutual
theorem ids_elems : ∀ d : Dom, d.ids = d.elems.filterMap Dom.idOf
  | .text s => rfl
  | .elem tag attrs ls cs => by
    rw [Dom.ids, Dom.elems, List.filterMap_cons, domIds_elems cs]
    simp only [Dom.idOf]
    cases attrs.get "id" <;> rfl
theorem domIds_elems : ∀ ds : List Dom, domIds ds = (elemsAll ds).filterMap Dom.idOf
  | [] => rfl
  | d :: ds => by rw [domIds, elemsAll, List.filterMap_append, ids_elems d, domIds_elems ds]
end

mutual
theorem Fades.ids : ∀ d e : Dom, Fades L T d e → e.ids.Sublist d.ids
  | .text s, e, h => by rw [Fades] at h; subst h; exact List.Sublist.refl _
  | .elem tag attrs ls cs, e, h => by
    rw [Fades] at h
    obtain ⟨attrs1, ls1, cs1, rfl, a1, a2, a3⟩ := h
    rw [Dom.ids, Dom.ids, a1]
    refine (List.Sublist.refl _).append ?_
    rcases a3 with a3 | ⟨a3, _⟩
    · exact FadesAll.ids cs cs1 a3
    · rw [domIds_elems, a3]; exact List.nil_sublist _
theorem FadesAll.ids : ∀ ds es : List Dom, FadesAll L T ds es → (domIds es).Sublist (domIds ds)
  | [], es, h => by rw [FadesAll] at h; subst h; exact List.Sublist.refl _
  | d :: ds, es, h => by
    rw [FadesAll] at h
    obtain ⟨e, es, rfl, h1, h2⟩ := h
    rw [domIds, domIds]
    exact (Fades.ids d e h1).append (FadesAll.ids ds es h2)
end

theorem count_filterMap_pos {α : Type} (f : α → Option String) : ∀ (l : List α) (x : α) (s : String), x ∈ l → f x = some s →
    1 ≤ (l.filterMap f).count s := by
  intro l x s hx hf
  exact List.count_pos_iff.2 (List.mem_filterMap.2 ⟨x, hx, hf⟩)

theorem unique_filterMap {α : Type} (f : α → Option String) (s : String) : ∀ (l : List α) (x y : α), (l.filterMap f).count s ≤ 1 →
    x ∈ l → y ∈ l → f x = some s → f y = some s → x = y
  | [], x, y, _, hx, _, _, _ => by cases hx
  | a :: l, x, y, hc, hx, hy, fx, fy => by
    have tail : (l.filterMap f).count s ≤ ((a :: l).filterMap f).count s := by
      rw [List.filterMap_cons]
      cases f a with
      | none => exact Nat.le_refl _
      | some v => simp only [List.count_cons]; omega
    have head : f a = some s → ((a :: l).filterMap f).count s = (l.filterMap f).count s + 1 := by
      intro h
      rw [List.filterMap_cons, h]
      simp
    rw [List.mem_cons] at hx hy
    rcases hx with rfl | hx
    · rcases hy with rfl | hy
      · rfl
      · have := count_filterMap_pos f l y s hy fy
        have := head fx
        omega
    · rcases hy with rfl | hy
      · have := count_filterMap_pos f l x s hx fx
        have := head fy
        omega
      · exact unique_filterMap f s l x y (Nat.le_trans tail hc) hx hy fx fy

theorem elems_unique {ds : List Dom} {s : String} {x y : Dom} (hc : (domIds ds).count s ≤ 1) (hx : x ∈ elemsAll ds) (hy : y ∈ elemsAll ds)
    (fx : x.idOf = some s) (fy : y.idOf = some s) : x = y := by
  rw [domIds_elems] at hc
  exact unique_filterMap _ s _ x y hc hx hy fx fy

/-! ## One instruction -/

mutual
theorem fades_replaceNode {s : String} {f : Dom → Option (List Dom)} (hf : ∀ x r, x.idOf = some s → f x = some r → ∃ y, r = [y] ∧ Fades L T x y) :
    ∀ (d : Dom) (r : List Dom), replaceNode s f d = some (some r) → ∃ e, r = [e] ∧ Fades L T d e
  | .text _, r, h => by rw [replaceNode] at h; cases h
  | .elem tag attrs ls cs, r, h => by
    rw [replaceNode] at h
    split at h
    · rename_i hid
      exact hf _ r hid (Option.some.inj h)
    · cases hr : replaceIn s f cs with
      | none => rw [hr] at h; cases h
      | some o =>
        cases o with
        | none => rw [hr] at h; cases h
        | some cs' =>
          rw [hr] at h
          simp only [Option.some.injEq] at h
          refine ⟨_, h.symm, ?_⟩
          rw [Fades]
          exact ⟨attrs, ls, cs', rfl, rfl, fun _ _ _ h => h, Or.inl (fades_replaceIn hf cs cs' hr)⟩
theorem fades_replaceIn {s : String} {f : Dom → Option (List Dom)} (hf : ∀ x r, x.idOf = some s → f x = some r → ∃ y, r = [y] ∧ Fades L T x y) :
    ∀ (ds es : List Dom), replaceIn s f ds = some (some es) → FadesAll L T ds es
  | [], es, h => by rw [replaceIn] at h; cases h
  | d :: ds, es, h => by
    rw [replaceIn] at h
    rw [FadesAll]
    cases hn : replaceNode s f d with
    | some o =>
      cases o with
      | none => rw [hn] at h; cases h
      | some r =>
        rw [hn] at h
        simp only [Option.some.injEq] at h
        obtain ⟨e, rfl, h1⟩ := fades_replaceNode hf d r hn
        exact ⟨e, ds, h.symm, h1, FadesAll.refl ds⟩
    | none =>
      rw [hn] at h
      simp only at h
      cases hr : replaceIn s f ds with
      | none => rw [hr] at h; cases h
      | some o =>
        cases o with
        | none => rw [hr] at h; cases h
        | some es' =>
          rw [hr] at h
          simp only [Option.some.injEq] at h
          exact ⟨d, es', h.symm, Fades.refl d, fades_replaceIn hf ds es' hr⟩
end

mutual
theorem replaceNode_none {s : String} {f : Dom → Option (List Dom)} : ∀ d : Dom, replaceNode s f d = none → s ∉ d.ids
  | .text _, _ => by simp [Dom.ids]
  | .elem tag attrs ls cs, h => by
    rw [replaceNode] at h
    split at h
    · cases h
    · rename_i hid
      have hr : replaceIn s f cs = none := by
        cases hr : replaceIn s f cs with
        | none => rfl
        | some o => cases o <;> rw [hr] at h <;> cases h
      rw [Dom.ids, List.mem_append, not_or]
      refine ⟨?_, replaceIn_none cs hr⟩
      cases ha : attrs.get "id" with
      | none => simp
      | some i =>
        simp only [List.mem_singleton]
        rintro rfl
        exact hid ha
theorem replaceIn_none {s : String} {f : Dom → Option (List Dom)} : ∀ ds : List Dom, replaceIn s f ds = none → s ∉ domIds ds
  | [], _ => by simp [domIds]
  | d :: ds, h => by
    rw [replaceIn] at h
    have hn : replaceNode s f d = none := by
      cases hn : replaceNode s f d with
      | none => rfl
      | some o => cases o <;> rw [hn] at h <;> cases h
    rw [hn] at h
    simp only at h
    have hr : replaceIn s f ds = none := by
      cases hr : replaceIn s f ds with
      | none => rfl
      | some o => cases o <;> rw [hr] at h <;> cases h
    rw [domIds, List.mem_append, not_or]
    exact ⟨replaceNode_none d hn, replaceIn_none ds hr⟩
end

mutual
theorem replaceNode_fail {s : String} {f : Dom → Option (List Dom)} (hf : ∀ x, x.idOf = some s → f x ≠ none) :
    ∀ d : Dom, replaceNode s f d ≠ some none
  | .text _ => by rw [replaceNode]; simp
  | .elem tag attrs ls cs => by
    rw [replaceNode]
    split
    · rename_i hid
      intro h
      exact hf (.elem tag attrs ls cs) hid (Option.some.inj h)
    · have := replaceIn_fail hf cs
      cases hr : replaceIn s f cs with
      | none => simp
      | some o =>
        cases o with
        | none => exact absurd hr this
        | some r => simp
theorem replaceIn_fail {s : String} {f : Dom → Option (List Dom)} (hf : ∀ x, x.idOf = some s → f x ≠ none) :
    ∀ ds : List Dom, replaceIn s f ds ≠ some none
  | [] => by rw [replaceIn]; simp
  | d :: ds => by
    rw [replaceIn]
    have h1 := replaceNode_fail hf d
    have h2 := replaceIn_fail hf ds
    cases hn : replaceNode s f d with
    | some o =>
      cases o with
      | none => exact absurd hn h1
      | some r => simp
    | none =>
      cases hr : replaceIn s f ds with
      | none => simp
      | some o =>
        cases o with
        | none => exact absurd hr h2
        | some r => simp
end

mutual
/-- what takes the element's place is in the document afterwards -/
theorem replaceNode_there {s : String} {f : Dom → Option (List Dom)} : ∀ (d : Dom) (r : List Dom), replaceNode s f d = some (some r) →
    ∃ x ∈ d.elems, x.idOf = some s ∧ ∃ r', f x = some r' ∧ ∀ y ∈ elemsAll r', y ∈ elemsAll r
  | .text _, r, h => by rw [replaceNode] at h; cases h
  | .elem tag attrs ls cs, r, h => by
    rw [replaceNode] at h
    split at h
    · rename_i hid
      exact ⟨.elem tag attrs ls cs, by rw [Dom.elems]; exact List.mem_cons_self .., hid, r, Option.some.inj h, fun _ h => h⟩
    · cases hr : replaceIn s f cs with
      | none => rw [hr] at h; cases h
      | some o =>
        cases o with
        | none => rw [hr] at h; cases h
        | some cs' =>
          rw [hr] at h
          simp only [Option.some.injEq] at h
          subst h
          obtain ⟨x, h1, h2, r', h3, h4⟩ := replaceIn_there cs cs' hr
          refine ⟨x, by rw [Dom.elems]; exact List.mem_cons_of_mem _ h1, h2, r', h3, fun y hy => ?_⟩
          rw [elemsAll, Dom.elems]
          exact List.mem_append_left _ (List.mem_cons_of_mem _ (h4 y hy))
theorem replaceIn_there {s : String} {f : Dom → Option (List Dom)} : ∀ (ds es : List Dom), replaceIn s f ds = some (some es) →
    ∃ x ∈ elemsAll ds, x.idOf = some s ∧ ∃ r', f x = some r' ∧ ∀ y ∈ elemsAll r', y ∈ elemsAll es
  | [], es, h => by rw [replaceIn] at h; cases h
  | d :: ds, es, h => by
    rw [replaceIn] at h
    cases hn : replaceNode s f d with
    | some o =>
      cases o with
      | none => rw [hn] at h; cases h
      | some r =>
        rw [hn] at h
        simp only [Option.some.injEq] at h
        subst h
        obtain ⟨x, h1, h2, r', h3, h4⟩ := replaceNode_there d r hn
        refine ⟨x, by rw [elemsAll]; exact List.mem_append_left _ h1, h2, r', h3, fun y hy => ?_⟩
        have := h4 y hy
        clear h3 h4 hn hy
        induction r with
        | nil => rw [elemsAll] at this; cases this
        | cons e r ih =>
          rw [elemsAll, List.mem_append] at this
          rw [List.cons_append, elemsAll]
          rcases this with h | h
          · exact List.mem_append_left _ h
          · exact List.mem_append_right _ (ih h)
    | none =>
      rw [hn] at h
      simp only at h
      cases hr : replaceIn s f ds with
      | none => rw [hr] at h; cases h
      | some o =>
        cases o with
        | none => rw [hr] at h; cases h
        | some es' =>
          rw [hr] at h
          simp only [Option.some.injEq] at h
          subst h
          obtain ⟨x, h1, h2, r', h3, h4⟩ := replaceIn_there ds es' hr
          refine ⟨x, by rw [elemsAll]; exact List.mem_append_right _ h1, h2, r', h3, fun y hy => ?_⟩
          rw [elemsAll]
          exact List.mem_append_right _ (h4 y hy)
end

end Puck
