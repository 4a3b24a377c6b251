import Verif.Spec.Tree
import Verif.Model.Apply
import Verif.Lemmas.Headers
/-!
# Trees: sameness, first element with an id, contexts
-/
namespace Puck

/-! ## Attribute maps -/

theorem Headers.get_remove (h : Headers) (k k' : String) :
    (h.remove k).get k' = if k' = k then none else h.get k' := by
  unfold Headers.remove Headers.get
  induction h with
  | nil => simp
  | cons p h ih =>
    by_cases hp : p.1 = k
    · rw [List.filter_cons_of_neg (by simp [hp]), ih]
      by_cases hk : k' = k
      · simp [hk]
      · have : (p.1 == k') = false := by simp [hp, Ne.symm hk]
        simp [hk, this]
    · rw [List.filter_cons_of_pos (by simp [hp])]
      simp only [List.find?_cons]
      by_cases hpk : p.1 = k'
      · have : k' ≠ k := fun h => hp (hpk.trans h)
        simp [hpk, this]
      · have : (p.1 == k') = false := by simp [hpk]
        simp only [this]
        exact ih

theorem nodup_subset_length {α : Type} [DecidableEq α] {a b : List α} (ha : a.Nodup) (h : ∀ x ∈ a, x ∈ b) :
    a.length ≤ b.length := by
  induction a generalizing b with
  | nil => simp
  | cons x a ih =>
    rw [List.nodup_cons] at ha
    have h1 : x ∈ b := h x (by simp)
    have := ih ha.2 (b := b.erase x) (by
      intro y hy
      have : y ≠ x := fun e => ha.1 (e ▸ hy)
      exact (List.mem_erase_of_ne this).2 (h y (by simp [hy])))
    rw [List.length_erase_of_mem h1] at this
    have : 0 < b.length := List.length_pos_of_mem h1
    simp only [List.length_cons]
    omega

theorem Headers.same_iff {a b : Headers} (ha : a.Distinct) (hb : b.Distinct) :
    Headers.same a b = true ↔ ∀ k, a.get k = b.get k := by
  unfold Headers.same
  rw [Bool.and_eq_true]
  constructor
  · rintro ⟨h1, h2⟩ k
    rw [beq_iff_eq] at h1
    have h2 : ∀ p ∈ a, b.get p.1 = some p.2 := by simpa using h2
    cases hk : a.get k with
    | some v => rw [h2 _ ((Headers.get_eq_some ha).1 hk)]
    | none =>
      cases hk2 : b.get k with
      | none => rfl
      | some v =>
        exfalso
        have hsub : ∀ x ∈ k :: a.map (·.1), x ∈ b.map (·.1) := by
          intro x hx
          simp only [List.mem_cons, List.mem_map] at hx
          rcases hx with rfl | ⟨p, hp, rfl⟩
          · exact List.mem_map.2 ⟨_, (Headers.get_eq_some hb).1 hk2, rfl⟩
          · exact List.mem_map.2 ⟨_, (Headers.get_eq_some hb).1 (h2 p hp), rfl⟩
        have := nodup_subset_length (List.nodup_cons.2 ⟨Headers.get_eq_none.1 hk, ha⟩) hsub
        simp at this
        omega
  · intro h
    constructor
    · have s1 : ∀ x ∈ a.map (·.1), x ∈ b.map (·.1) := by
        intro x hx
        refine Classical.byContradiction fun hn => ?_
        have := Headers.get_eq_none.2 hn
        rw [← h x, Headers.get_eq_none] at this
        exact this hx
      have s2 : ∀ x ∈ b.map (·.1), x ∈ a.map (·.1) := by
        intro x hx
        refine Classical.byContradiction fun hn => ?_
        have := Headers.get_eq_none.2 hn
        rw [h x, Headers.get_eq_none] at this
        exact this hx
      have l1 := nodup_subset_length ha s1
      have l2 := nodup_subset_length hb s2
      simp only [List.length_map] at l1 l2
      rw [beq_iff_eq]; omega
    · simp only [List.all_eq_true, beq_iff_eq]
      intro p hp
      rw [← h]
      exact (Headers.get_eq_some ha).2 hp

/-! ## Sameness -/

mutual
theorem Element.Same.refl : ∀ e : Element, e.Same e
  | ⟨_, _, _, _, children, _, _⟩ => by
    rw [Element.Same]; exact ⟨rfl, rfl, fun _ => rfl, rfl, rfl, rfl, SameList.refl children⟩
theorem SameList.refl : ∀ es : List Element, SameList es es
  | [] => by rw [SameList]
  | e :: es => by rw [SameList]; exact ⟨e, es, rfl, Element.Same.refl e, SameList.refl es⟩
end

mutual
theorem Element.Same.trans : ∀ {a b c : Element}, a.Same b → b.Same c → a.Same c
  | ⟨_, _, _, _, children, _, _⟩, b, c, h1, h2 => by
    cases b
    rw [Element.Same] at h1 h2 ⊢
    obtain ⟨a1, a2, a3, a4, a5, a6, a7⟩ := h1
    obtain ⟨b1, b2, b3, b4, b5, b6, b7⟩ := h2
    exact ⟨a1.trans b1, a2.trans b2, fun k => (a3 k).trans (b3 k), a4.trans b4, a5.trans b5, a6.trans b6,
      SameList.trans a7 b7⟩
theorem SameList.trans : ∀ {as bs cs : List Element}, SameList as bs → SameList bs cs → SameList as cs
  | [], bs, cs, h1, h2 => by
    rw [SameList] at h1; subst h1; rw [SameList] at h2 ⊢; exact h2
  | a :: as, bs, cs, h1, h2 => by
    rw [SameList] at h1
    obtain ⟨b, bs', rfl, h3, h4⟩ := h1
    rw [SameList] at h2 ⊢
    obtain ⟨c, cs', rfl, h5, h6⟩ := h2
    exact ⟨c, cs', rfl, h3.trans h5, SameList.trans h4 h6⟩
end

mutual
theorem Element.Same.symm : ∀ {a b : Element}, a.Same b → b.Same a
  | ⟨_, _, _, _, children, _, _⟩, b, h => by
    cases b
    rw [Element.Same] at h ⊢
    obtain ⟨a1, a2, a3, a4, a5, a6, a7⟩ := h
    exact ⟨a1.symm, a2.symm, fun k => (a3 k).symm, a4.symm, a5.symm, a6.symm, SameList.symm a7⟩
theorem SameList.symm : ∀ {as bs : List Element}, SameList as bs → SameList bs as
  | [], bs, h => by rw [SameList] at h; subst h; rw [SameList]
  | a :: as, bs, h => by
    rw [SameList] at h
    obtain ⟨b, bs', rfl, h1, h2⟩ := h
    rw [SameList]
    exact ⟨a, as, rfl, h1.symm, SameList.symm h2⟩
end

theorem SameList.length : ∀ {as bs : List Element}, SameList as bs → as.length = bs.length
  | [], _, h => by rw [SameList] at h; rw [h]
  | _ :: as, _, h => by
    rw [SameList] at h
    obtain ⟨_, _, rfl, _, h2⟩ := h
    simp [SameList.length h2]

theorem SameList.append : ∀ {as bs cs ds : List Element}, SameList as bs → SameList cs ds → SameList (as ++ cs) (bs ++ ds)
  | [], _, _, _, h, h2 => by rw [SameList] at h; subst h; exact h2
  | a :: as, _, _, _, h, h2 => by
    rw [SameList] at h
    obtain ⟨b, bs', rfl, h1, h3⟩ := h
    rw [List.cons_append, SameList]
    exact ⟨b, _, rfl, h1, SameList.append h3 h2⟩

theorem SameList.take_drop : ∀ {as bs : List Element} (n : Nat), SameList as bs →
    SameList (as.take n) (bs.take n) ∧ SameList (as.drop n) (bs.drop n)
  | [], _, n, h => by rw [SameList] at h; subst h; simp [SameList]
  | a :: as, _, 0, h => by simp only [List.take_zero, List.drop_zero]; exact ⟨by simp [SameList], h⟩
  | a :: as, _, n + 1, h => by
    rw [SameList] at h
    obtain ⟨b, bs', rfl, h1, h2⟩ := h
    obtain ⟨h3, h4⟩ := SameList.take_drop n h2
    simp only [List.take_succ_cons, List.drop_succ_cons]
    exact ⟨by rw [SameList]; exact ⟨b, _, rfl, h1, h3⟩, h4⟩

mutual
theorem Element.Same.ids : ∀ {a b : Element}, a.Same b → a.ids = b.ids
  | ⟨_, _, _, _, children, _, _⟩, b, h => by
    cases b
    rw [Element.Same] at h
    rw [Element.ids, Element.ids, SameList.ids h.2.2.2.2.2.2]
    exact congrArg (· :: _) h.1
theorem SameList.ids : ∀ {as bs : List Element}, SameList as bs → idsOf as = idsOf bs
  | [], bs, h => by rw [SameList] at h; rw [h]
  | a :: as, bs, h => by
    rw [SameList] at h
    obtain ⟨b, bs', rfl, h1, h2⟩ := h
    rw [idsOf, idsOf, Element.Same.ids h1, SameList.ids h2]
end

theorem idsOf_append (as bs : List Element) : idsOf (as ++ bs) = idsOf as ++ idsOf bs := by
  induction as with
  | nil => rfl
  | cons a as ih => rw [List.cons_append, idsOf, idsOf, ih, List.append_assoc]

theorem Element.ids_eq (e : Element) : e.ids = e.id :: idsOf e.children := by cases e; rw [Element.ids]

theorem Element.id_mem_ids (e : Element) : e.id ∈ e.ids := by rw [e.ids_eq]; simp

theorem mem_idsOf_of_mem {c : Element} {cs : List Element} (h : c ∈ cs) {i : Nat} (hi : i ∈ c.ids) : i ∈ idsOf cs := by
  induction cs with
  | nil => cases h
  | cons d cs ih =>
    rw [idsOf, List.mem_append]
    rcases List.mem_cons.1 h with rfl | h
    · exact Or.inl hi
    · exact Or.inr (ih h)

theorem Element.Same.eqs {a b : Element} (h : a.Same b) : a.id = b.id ∧ a.name = b.name ∧
    (∀ k, a.attributes.get k = b.attributes.get k) ∧ a.listeners = b.listeners ∧ a.text = b.text ∧ a.key = b.key ∧
    SameList a.children b.children := by
  cases a; rw [Element.Same] at h; exact h

theorem Element.Same.mk {a b : Element} (h : a.id = b.id ∧ a.name = b.name ∧
    (∀ k, a.attributes.get k = b.attributes.get k) ∧ a.listeners = b.listeners ∧ a.text = b.text ∧ a.key = b.key ∧
    SameList a.children b.children) : a.Same b := by
  cases a; rw [Element.Same]; exact h

theorem nodes_eq (e : Element) : e.nodes = e :: nodesAll e.children := by cases e; rw [Element.nodes]

mutual
theorem nodes_ids : ∀ e : Element, e.nodes.map (·.id) = e.ids
  | ⟨id, name, attributes, listeners, children, text, key⟩ => by
    rw [Element.nodes, Element.ids, List.map_cons, nodesAll_ids children]
theorem nodesAll_ids : ∀ es : List Element, (nodesAll es).map (·.id) = idsOf es
  | [] => rfl
  | e :: es => by rw [nodesAll, idsOf, List.map_append, nodes_ids e, nodesAll_ids es]
end

theorem unique_of_nodup {l : List Element} (h : (l.map (·.id)).Nodup) {x y : Element} (hx : x ∈ l) (hy : y ∈ l) (he : x.id = y.id) : x = y := by
  induction l with
  | nil => cases hx
  | cons z l ih =>
    rw [List.map_cons, List.nodup_cons] at h
    rcases List.mem_cons.1 hx with rfl | hx' <;> rcases List.mem_cons.1 hy with rfl | hy'
    · rfl
    · exact absurd (List.mem_map.2 ⟨y, hy', he.symm⟩) h.1
    · exact absurd (List.mem_map.2 ⟨x, hx', he⟩) h.1
    · exact ih h.2 hx' hy'

theorem node_unique {e x y : Element} (hn : e.ids.Nodup) (hx : x ∈ e.nodes) (hy : y ∈ e.nodes) (he : x.id = y.id) : x = y :=
  unique_of_nodup (by rw [nodes_ids]; exact hn) hx hy he

/-! ## Finding -/

mutual
/-- The first element of the tree, in document order, with that id. -/
def firstWith (id : Nat) : Element → Option Element
  | ⟨eid, name, attributes, listeners, children, text, key⟩ =>
    if id = eid then some ⟨eid, name, attributes, listeners, children, text, key⟩ else firstWithIn id children
/-- Likewise in a forest. -/
def firstWithIn (id : Nat) : List Element → Option Element
  | [] => none
  | c :: cs =>
    match firstWith id c with
    | some x => some x
    | none => firstWithIn id cs
end

mutual
/-- The tree without the subtree of the first strict descendant with that id. -/
def deleteFirst (id : Nat) : Element → Option Element
  | ⟨eid, name, attributes, listeners, children, text, key⟩ =>
    match deleteFirstIn id children with
    | none => none
    | some cs => some ⟨eid, name, attributes, listeners, cs, text, key⟩
/-- Likewise in a forest. -/
def deleteFirstIn (id : Nat) : List Element → Option (List Element)
  | [] => none
  | c :: cs =>
    if c.id = id then some cs
    else
      match deleteFirst id c with
      | some c' => some (c' :: cs)
      | none =>
        match deleteFirstIn id cs with
        | some cs' => some (c :: cs')
        | none => none
end

mutual
theorem absent_tree (id : Nat) (f : Element → Option Element) : ∀ e : Element, id ∉ e.ids →
    mutateFirst id f e = none ∧ firstWith id e = none ∧ findParentId id e = none ∧ deleteFirst id e = none
  | ⟨eid, _, _, _, children, _, _⟩, h => by
    rw [Element.ids] at h
    simp only [List.mem_cons, not_or] at h
    obtain ⟨h1, h2, h3, h4⟩ := absent_forest id f eid children h.2
    refine ⟨?_, ?_, ?_, ?_⟩
    · rw [mutateFirst, if_neg h.1, h1]
    · rw [firstWith, if_neg h.1, h2]
    · rw [findParentId, h3]
    · rw [deleteFirst, h4]
theorem absent_forest (id : Nat) (f : Element → Option Element) (pid : Nat) : ∀ es : List Element, id ∉ idsOf es →
    mutateFirstIn id f es = none ∧ firstWithIn id es = none ∧ findParentIdIn id pid es = none ∧ deleteFirstIn id es = none
  | [], _ => ⟨rfl, rfl, rfl, rfl⟩
  | c :: cs, h => by
    rw [idsOf] at h
    simp only [List.mem_append, not_or] at h
    obtain ⟨a1, a2, a3, a4⟩ := absent_tree id f c h.1
    obtain ⟨b1, b2, b3, b4⟩ := absent_forest id f pid cs h.2
    have hne : ¬ c.id = id := fun e => h.1 (e ▸ c.id_mem_ids)
    refine ⟨?_, ?_, ?_, ?_⟩
    · rw [mutateFirstIn, a1]; simp only [b1]
    · rw [firstWithIn, a2]; exact b2
    · rw [findParentIdIn, if_neg hne, a3]; exact b3
    · rw [deleteFirstIn, if_neg hne, a4]; simp only [b4]
end

theorem absent_prefix (id : Nat) (f : Element → Option Element) (pid : Nat) (l r : List Element) (h : id ∉ idsOf l) :
    mutateFirstIn id f (l ++ r) = (mutateFirstIn id f r).map (·.map (l ++ ·)) ∧
    firstWithIn id (l ++ r) = firstWithIn id r ∧
    findParentIdIn id pid (l ++ r) = findParentIdIn id pid r ∧
    deleteFirstIn id (l ++ r) = (deleteFirstIn id r).map (l ++ ·) := by
  induction l with
  | nil =>
    refine ⟨?_, rfl, rfl, ?_⟩
    · cases h : mutateFirstIn id f r with
      | none => simp [h]
      | some x => cases x <;> simp [h]
    · cases h : deleteFirstIn id r <;> simp [h]
  | cons c l ih =>
    rw [idsOf] at h
    simp only [List.mem_append, not_or] at h
    obtain ⟨a1, a2, a3, a4⟩ := absent_tree id f c h.1
    obtain ⟨b1, b2, b3, b4⟩ := ih h.2
    have hne : ¬ c.id = id := fun e => h.1 (e ▸ c.id_mem_ids)
    refine ⟨?_, ?_, ?_, ?_⟩
    · rw [List.cons_append, mutateFirstIn, a1]
      simp only [b1]
      cases mutateFirstIn id f r with
      | none => rfl
      | some x => cases x <;> rfl
    · rw [List.cons_append, firstWithIn, a2]; exact b2
    · rw [List.cons_append, findParentIdIn, if_neg hne, a3]; exact b3
    · rw [List.cons_append, deleteFirstIn, if_neg hne, a4]
      simp only [b4]
      cases deleteFirstIn id r <;> rfl

/-! ## Contexts -/

/-- An element with a hole among its children. -/
structure TFrame where
  id : Nat
  name : String
  attributes : Headers
  listeners : List ListenerRef
  left : List Element
  right : List Element
  text : Option String
  key : Option String

/-- Fill the hole. -/
def TFrame.fill (f : TFrame) (x : Element) : Element :=
  ⟨f.id, f.name, f.attributes, f.listeners, f.left ++ x :: f.right, f.text, f.key⟩

/-- A path from a hole up to the root, innermost first. -/
def plug : List TFrame → Element → Element
  | [], x => x
  | f :: c, x => plug c (f.fill x)

/-- The ids that precede the hole in document order. -/
def idsBefore : List TFrame → List Nat
  | [] => []
  | f :: c => f.id :: idsOf f.left ++ idsBefore c

theorem mutateFirst_plug {id : Nat} {f : Element → Option Element} : ∀ {C : List TFrame} {x : Element} {r : Option Element},
    id ∉ idsBefore C → mutateFirst id f x = some r → mutateFirst id f (plug C x) = some (r.map (plug C))
  | [], x, r, _, h => by
    rw [plug, h]
    cases r <;> rfl
  | fr :: C, x, r, hb, h => by
    rw [idsBefore] at hb
    simp only [List.cons_append, List.mem_cons, List.mem_append, not_or] at hb
    have := mutateFirst_plug (C := C) (x := fr.fill x) (r := r.map fr.fill) hb.2.2 (by
      unfold TFrame.fill
      rw [mutateFirst, if_neg hb.1, (absent_prefix id f 0 fr.left (x :: fr.right) hb.2.1).1, mutateFirstIn, h]
      cases r <;> rfl)
    rw [plug, this]
    cases r <;> rfl

theorem findAndMutate_plug {id : Nat} {f : Element → Option Element} {C : List TFrame} {x : Element}
    (hb : id ∉ idsBefore C) (hx : x.id = id) : findAndMutate id f (plug C x) = (f x).map (plug C) := by
  have : mutateFirst id f x = some (f x) := by
    cases x; simp only at hx; rw [mutateFirst, if_pos hx.symm]
  unfold findAndMutate
  rw [mutateFirst_plug hb this]

theorem firstWith_plug {id : Nat} : ∀ {C : List TFrame} {x : Element},
    id ∉ idsBefore C → x.id = id → firstWith id (plug C x) = some x := by
  have gen : ∀ (C : List TFrame) (x y : Element), id ∉ idsBefore C → firstWith id x = some y →
      firstWith id (plug C x) = some y := by
    intro C
    induction C with
    | nil => intro x y _ h; exact h
    | cons fr C ih =>
      intro x y hb h
      rw [idsBefore] at hb
      simp only [List.cons_append, List.mem_cons, List.mem_append, not_or] at hb
      apply ih _ _ hb.2.2
      unfold TFrame.fill
      rw [firstWith, if_neg hb.1, (absent_prefix id (fun _ => none) 0 fr.left (x :: fr.right) hb.2.1).2.1, firstWithIn, h]
  intro C x hb hx
  apply gen C x x hb
  cases x; simp only at hx; rw [firstWith, if_pos hx.symm]

theorem findParentId_plug {id : Nat} : ∀ {C : List TFrame} {x : Element} {p : Nat},
    id ∉ idsBefore C → id ≠ x.id → findParentId id x = some p → findParentId id (plug C x) = some p
  | [], x, p, _, _, h => h
  | fr :: C, x, p, hb, hx, h => by
    rw [idsBefore] at hb
    simp only [List.cons_append, List.mem_cons, List.mem_append, not_or] at hb
    refine findParentId_plug (C := C) (x := fr.fill x) hb.2.2 hb.1 ?_
    unfold TFrame.fill
    rw [findParentId, (absent_prefix id (fun _ => none) _ fr.left (x :: fr.right) hb.2.1).2.2.1, findParentIdIn,
      if_neg (fun e => hx e.symm), h]

theorem deleteFirst_plug {id : Nat} : ∀ {C : List TFrame} {x y : Element},
    id ∉ idsBefore C → id ≠ x.id → deleteFirst id x = some y → deleteFirst id (plug C x) = some (plug C y)
  | [], x, p, _, _, h => h
  | fr :: C, x, y, hb, hx, h => by
    rw [idsBefore] at hb
    simp only [List.cons_append, List.mem_cons, List.mem_append, not_or] at hb
    refine deleteFirst_plug (C := C) (x := fr.fill x) (y := fr.fill y) hb.2.2 hb.1 ?_
    unfold TFrame.fill
    rw [deleteFirst, (absent_prefix id (fun _ => none) 0 fr.left (x :: fr.right) hb.2.1).2.2.2, deleteFirstIn,
      if_neg (fun e => hx e.symm), h]
    rfl

theorem plug_id_mem : ∀ (C : List TFrame) (x : Element), (plug C x).id ∈ idsBefore C ∨ (plug C x).id = x.id
  | [], _ => Or.inr rfl
  | fr :: C, x => by
    rw [plug, idsBefore]
    rcases plug_id_mem C (fr.fill x) with h | h
    · exact Or.inl (List.mem_append.2 (Or.inr h))
    · exact Or.inl (by rw [h]; simp [TFrame.fill])

end Puck
