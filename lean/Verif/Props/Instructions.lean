import Verif.Lemmas.Tree
import Verif.Spec.Rows
/-!
# What one instruction does to a tree (C118)

`Changeset::apply`, one instruction at a time, on any tree with distinct ids.
-/
namespace Puck

theorem rowsOf_append (a b : List Element) : rowsOf (a ++ b) = rowsOf a ++ rowsOf b := by
  induction a with
  | nil => rfl
  | cons x a ih => rw [List.cons_append, rowsOf, rowsOf, ih, List.append_assoc]

theorem Element.rows_eq (e : Element) : e.rows = ⟨e.id, e.name, e.attributes, e.listeners, e.text, e.key, e.children.map (·.id)⟩ :: rowsOf e.children := by
  cases e; rw [Element.rows]

mutual
theorem rows_ids : ∀ e : Element, e.rows.map (·.id) = e.ids
  | ⟨_, _, _, _, children, _, _⟩ => by rw [Element.rows, Element.ids, List.map_cons, rowsOf_ids children]
theorem rowsOf_ids : ∀ es : List Element, (rowsOf es).map (·.id) = idsOf es
  | [] => rfl
  | e :: es => by rw [rowsOf, idsOf, List.map_append, rows_ids e, rowsOf_ids es]
end

theorem row_id_mem {es : List Element} {r : Row} (h : r ∈ rowsOf es) : r.id ∈ idsOf es := by
  rw [← rowsOf_ids]; exact List.mem_map.2 ⟨r, h, rfl⟩

theorem roots_mem {es : List Element} {k : Nat} (h : k ∈ es.map (·.id)) : k ∈ idsOf es := by
  obtain ⟨c, hc, rfl⟩ := List.mem_map.1 h
  exact mem_idsOf_of_mem hc c.id_mem_ids

mutual
theorem rows_kids : ∀ (e : Element), ∀ r ∈ e.rows, ∀ k ∈ r.kids, k ∈ idsOf e.children
  | ⟨_, _, _, _, children, _, _⟩, r, hr, k, hk => by
    rw [Element.rows, List.mem_cons] at hr
    rcases hr with rfl | hr
    · exact roots_mem hk
    · exact rowsOf_kids children r hr k hk
theorem rowsOf_kids : ∀ (es : List Element), ∀ r ∈ rowsOf es, ∀ k ∈ r.kids, k ∈ idsOf es
  | [], r, hr, k, hk => by rw [rowsOf] at hr; cases hr
  | e :: es, r, hr, k, hk => by
    rw [rowsOf, List.mem_append] at hr
    rw [idsOf, List.mem_append]
    rcases hr with hr | hr
    · left; rw [e.ids_eq]; exact List.mem_cons_of_mem _ (rows_kids e r hr k hk)
    · exact Or.inr (rowsOf_kids es r hr k hk)
end

/-! ## Positions -/

mutual
theorem find_plug (i : Nat) : ∀ t : Element, i ∈ t.ids → ∃ C x, t = plug C x ∧ x.id = i ∧ i ∉ idsBefore C
  | ⟨eid, name, attributes, listeners, children, text, key⟩, h => by
    by_cases he : i = eid
    · exact ⟨[], _, rfl, he.symm, by simp [idsBefore]⟩
    · rw [Element.ids, List.mem_cons] at h
      obtain ⟨l, c, r, h1, h2, C, x, h3, h4, h5⟩ := find_plugIn i children (h.resolve_left he)
      refine ⟨C ++ [⟨eid, name, attributes, listeners, l, r, text, key⟩], x, ?_, h4, ?_⟩
      · have : ∀ (C : List TFrame) (f : TFrame) (x : Element), plug (C ++ [f]) x = f.fill (plug C x) := by
          intro C
          induction C with
          | nil => intro f x; rfl
          | cons g C ih => intro f x; rw [List.cons_append, plug, plug, ih]
        rw [this, ← h3, h1]; rfl
      · have : ∀ (C : List TFrame) (f : TFrame), i ∉ idsBefore C → i ≠ f.id → i ∉ idsOf f.left → i ∉ idsBefore (C ++ [f]) := by
          intro C f
          induction C with
          | nil => intro _ h1 h2; simp [idsBefore, h1, h2]
          | cons g C ih =>
            intro h0 h1 h2
            rw [idsBefore] at h0
            simp only [List.cons_append, List.mem_cons, List.mem_append, not_or] at h0
            rw [List.cons_append, idsBefore]
            simp only [List.cons_append, List.mem_cons, List.mem_append, not_or]
            exact ⟨h0.1, h0.2.1, ih h0.2.2 h1 h2⟩
        exact this C _ h5 he h2
theorem find_plugIn (i : Nat) : ∀ ts : List Element, i ∈ idsOf ts →
    ∃ l c r, ts = l ++ c :: r ∧ i ∉ idsOf l ∧ ∃ C x, c = plug C x ∧ x.id = i ∧ i ∉ idsBefore C
  | [], h => by rw [idsOf] at h; cases h
  | t :: ts, h => by
    by_cases ht : i ∈ t.ids
    · exact ⟨[], t, ts, rfl, by simp [idsOf], find_plug i t ht⟩
    · rw [idsOf, List.mem_append] at h
      obtain ⟨l, c, r, h1, h2, h3⟩ := find_plugIn i ts (h.resolve_left ht)
      exact ⟨t :: l, c, r, by rw [h1]; rfl, by rw [idsOf, List.mem_append, not_or]; exact ⟨ht, h2⟩, h3⟩
end

/-- Every id of a context. -/
def ctxIds : List TFrame → List Nat
  | [] => []
  | f :: C => f.id :: idsOf f.left ++ idsOf f.right ++ ctxIds C

theorem fill_ids (f : TFrame) (x : Element) : (f.fill x).ids = f.id :: (idsOf f.left ++ (x.ids ++ idsOf f.right)) := by
  rw [Element.ids_eq]; simp only [TFrame.fill]; rw [idsOf_append, idsOf]

theorem plug_ids_mem {i : Nat} : ∀ (C : List TFrame) (x : Element), i ∈ (plug C x).ids ↔ i ∈ x.ids ∨ i ∈ ctxIds C
  | [], x => by simp [plug, ctxIds]
  | f :: C, x => by
    rw [plug, plug_ids_mem C, fill_ids, ctxIds]
    simp only [List.mem_cons, List.mem_append, List.cons_append]
    grind

theorem plug_nodup : ∀ (C : List TFrame) (x : Element), (plug C x).ids.Nodup → x.ids.Nodup ∧ ∀ i ∈ x.ids, i ∉ ctxIds C
  | [], x, h => ⟨h, by simp [ctxIds]⟩
  | f :: C, x, h => by
    rw [plug] at h
    obtain ⟨h1, h2⟩ := plug_nodup C _ h
    rw [fill_ids] at h1 h2
    simp only [List.nodup_cons, List.nodup_append, List.mem_append, List.mem_cons] at h1 h2
    refine ⟨h1.2.2.1.1, ?_⟩
    intro i hi hc
    rw [ctxIds] at hc
    simp only [List.mem_cons, List.mem_append, List.cons_append] at hc
    grind

/-- The table of a filled context: what precedes the hole (one of those rows mentions the id in the hole), and what follows. -/
def rowsPre : List TFrame → Nat → List Row
  | [], _ => []
  | f :: C, k => rowsPre C f.id ++ ⟨f.id, f.name, f.attributes, f.listeners, f.text, f.key, f.left.map (·.id) ++ k :: f.right.map (·.id)⟩ :: rowsOf f.left
/-- See `rowsPre`. -/
def rowsPost : List TFrame → List Row
  | [] => []
  | f :: C => rowsOf f.right ++ rowsPost C

theorem rows_plug : ∀ (C : List TFrame) (x : Element), (plug C x).rows = rowsPre C x.id ++ x.rows ++ rowsPost C
  | [], x => by simp [plug, rowsPre, rowsPost]
  | f :: C, x => by
    rw [plug, rows_plug C, rowsPre, rowsPost, Element.rows_eq]
    simp only [TFrame.fill]
    rw [rowsOf_append, rowsOf]
    simp

theorem rowsPre_id : ∀ (C : List TFrame) (k : Nat), ∀ r ∈ rowsPre C k, r.id ∈ ctxIds C
  | [], k, r, h => by rw [rowsPre] at h; cases h
  | f :: C, k, r, h => by
    rw [rowsPre, List.mem_append, List.mem_cons] at h
    rw [ctxIds]
    simp only [List.mem_cons, List.mem_append, List.cons_append]
    rcases h with h | rfl | h
    · exact Or.inr (Or.inr (rowsPre_id C _ r h))
    · exact Or.inl rfl
    · exact Or.inr (Or.inl (Or.inl (row_id_mem h)))

theorem rowsPost_id : ∀ (C : List TFrame), ∀ r ∈ rowsPost C, r.id ∈ ctxIds C
  | [], r, h => by rw [rowsPost] at h; cases h
  | f :: C, r, h => by
    rw [rowsPost, List.mem_append] at h
    rw [ctxIds]
    simp only [List.mem_cons, List.mem_append, List.cons_append]
    rcases h with h | h
    · exact Or.inr (Or.inl (Or.inr (row_id_mem h)))
    · exact Or.inr (Or.inr (rowsPost_id C r h))

/-- Change the row of element `i`. -/
def onRow (i : Nat) (f : Row → Row) (r : Row) : Row := if r.id = i then f r else r

theorem onRow_map {i : Nat} {f : Row → Row} {rs : List Row} (h : ∀ r ∈ rs, r.id ≠ i) : rs.map (onRow i f) = rs := by
  rw [List.map_congr_left (g := id), List.map_id]
  intro r hr
  unfold onRow
  rw [if_neg (h r hr)]
  rfl

/-- An element changed in place, some rows put at the beginning or the end of its children. -/
theorem rows_replace {C : List TFrame} {x y : Element} {f : Row → Row} (hn : (plug C x).ids.Nodup) (hid : y.id = x.id)
    (hrow : f ⟨x.id, x.name, x.attributes, x.listeners, x.text, x.key, x.children.map (·.id)⟩ =
      ⟨y.id, y.name, y.attributes, y.listeners, y.text, y.key, y.children.map (·.id)⟩)
    {A B N : List Row} (hx : rowsOf x.children = A ++ B) (hy : rowsOf y.children = A ++ N ++ B) :
    ∃ P Q, (plug C x).rows = P ++ Q ∧ (plug C y).rows = P.map (onRow x.id f) ++ N ++ Q.map (onRow x.id f) ∧
      P = rowsPre C x.id ++ ⟨x.id, x.name, x.attributes, x.listeners, x.text, x.key, x.children.map (·.id)⟩ :: A ∧ Q = B ++ rowsPost C := by
  obtain ⟨h1, h2⟩ := plug_nodup C x hn
  rw [x.ids_eq, List.nodup_cons] at h1
  have hxi : x.id ∉ ctxIds C := h2 _ x.id_mem_ids
  refine ⟨rowsPre C x.id ++ ⟨x.id, x.name, x.attributes, x.listeners, x.text, x.key, x.children.map (·.id)⟩ :: A, B ++ rowsPost C, ?_, ?_, rfl, rfl⟩
  · rw [rows_plug, x.rows_eq, hx]; simp
  · rw [rows_plug, y.rows_eq, hy, hid, List.map_append, List.map_append, List.map_cons]
    have hk : ∀ r ∈ rowsOf x.children, r.id ≠ x.id := fun r hr he => h1.1 (he ▸ row_id_mem hr)
    rw [onRow_map (i := x.id) (rs := rowsPre C x.id) (fun r hr he => hxi (he ▸ rowsPre_id C _ r hr)),
      onRow_map (rs := A) (fun r hr => hk r (by rw [hx]; exact List.mem_append_left _ hr)),
      onRow_map (rs := B) (fun r hr => hk r (by rw [hx]; exact List.mem_append_right _ hr)),
      onRow_map (i := x.id) (rs := rowsPost C) (fun r hr he => hxi (he ▸ rowsPost_id C r hr))]
    have : onRow x.id f ⟨x.id, x.name, x.attributes, x.listeners, x.text, x.key, x.children.map (·.id)⟩ =
      ⟨x.id, y.name, y.attributes, y.listeners, y.text, y.key, y.children.map (·.id)⟩ := by
      unfold onRow; rw [if_pos rfl, hrow, hid]
    rw [this]
    simp

theorem findAndMutate_none {i : Nat} {f : Element → Option Element} {t : Element} (h : i ∉ t.ids) : findAndMutate i f t = none := by
  unfold findAndMutate; rw [(absent_tree i f t h).1]

/-! ## C118 -/

/-- The instructions that change an element's contents, and the change. -/
def Instruction.contents : Instruction → Option (Row → Row)
  | .setAttribute k v => some fun r => { r with attributes := r.attributes.insert k v }
  | .removeAttribute k => some fun r => { r with attributes := r.attributes.remove k }
  | .setText v => some fun r => { r with text := some v }
  | .removeText => some fun r => { r with text := none }
  | .setTagName n => some fun r => { r with name := n }
  | .removeListeners => some fun r => { r with listeners := [] }
  | .attachListener n on => some fun r => { r with listeners := r.listeners ++ [⟨n, on⟩] }
  | _ => none

/-- **C118, contents.** An instruction about an element's attributes, text, tag or listeners fails exactly if there is no such element; otherwise it changes
that element as it says, and nothing else. -/
theorem C118_contents (t : Element) (hn : t.ids.Nodup) (op : Op) (f : Row → Row) (hf : op.instruction.contents = some f) :
    (applyOp op t = none ↔ op.id ∉ t.ids) ∧
    ∀ t', applyOp op t = some t' → t'.rows = t.rows.map fun r => if r.id = op.id then f r else r := by
  have key : ∀ g : Element → Element, (∀ x, (g x).id = x.id ∧ (g x).children = x.children ∧
      f ⟨x.id, x.name, x.attributes, x.listeners, x.text, x.key, x.children.map (·.id)⟩ =
        ⟨x.id, (g x).name, (g x).attributes, (g x).listeners, (g x).text, (g x).key, x.children.map (·.id)⟩) →
      applyOp op t = findAndMutate op.id (fun x => some (g x)) t →
      (applyOp op t = none ↔ op.id ∉ t.ids) ∧
        ∀ t', applyOp op t = some t' → t'.rows = t.rows.map fun r => if r.id = op.id then f r else r := by
    intro g hg ha
    by_cases hi : op.id ∈ t.ids
    · obtain ⟨C, x, rfl, hx, hb⟩ := find_plug op.id t hi
      rw [findAndMutate_plug hb hx] at ha
      refine ⟨by rw [ha]; simp [hi], ?_⟩
      intro t' ht
      rw [ha] at ht
      simp only [Option.map_some, Option.some.injEq] at ht
      subst ht
      obtain ⟨g1, g2, g3⟩ := hg x
      obtain ⟨P, Q, e1, e2, -⟩ := rows_replace (C := C) (x := x) (y := g x) (f := f) hn g1 (by rw [g3, g1, g2])
        (A := []) (B := rowsOf x.children) (N := []) rfl (by rw [g2]; rfl)
      rw [e1, e2, List.append_nil, ← List.map_append, hx]
      rfl
    · refine ⟨by rw [ha, findAndMutate_none hi]; simp [hi], ?_⟩
      intro t' ht
      rw [ha, findAndMutate_none hi] at ht
      cases ht
  obtain ⟨i, ins⟩ := op
  cases ins with
  | setAttribute k v =>
    simp only [Instruction.contents, Option.some.injEq] at hf; subst hf
    exact key (fun el => { el with attributes := el.attributes.insert k v }) (fun _ => ⟨rfl, rfl, rfl⟩) rfl
  | removeAttribute k =>
    simp only [Instruction.contents, Option.some.injEq] at hf; subst hf
    exact key (fun el => { el with attributes := el.attributes.remove k }) (fun _ => ⟨rfl, rfl, rfl⟩) rfl
  | setText v =>
    simp only [Instruction.contents, Option.some.injEq] at hf; subst hf
    exact key (fun el => { el with text := some v }) (fun _ => ⟨rfl, rfl, rfl⟩) rfl
  | removeText =>
    simp only [Instruction.contents, Option.some.injEq] at hf; subst hf
    exact key (fun el => { el with text := none }) (fun _ => ⟨rfl, rfl, rfl⟩) rfl
  | setTagName n =>
    simp only [Instruction.contents, Option.some.injEq] at hf; subst hf
    exact key (fun el => { el with name := n }) (fun _ => ⟨rfl, rfl, rfl⟩) rfl
  | removeListeners =>
    simp only [Instruction.contents, Option.some.injEq] at hf; subst hf
    exact key (fun el => { el with listeners := [] }) (fun _ => ⟨rfl, rfl, rfl⟩) rfl
  | attachListener n on =>
    simp only [Instruction.contents, Option.some.injEq] at hf; subst hf
    exact key (fun el => { el with listeners := el.listeners ++ [⟨n, on⟩] }) (fun _ => ⟨rfl, rfl, rfl⟩) rfl
  | insertChild => cases hf
  | insertAfter => cases hf
  | insertBefore => cases hf
  | createTag => cases hf
  | setId => cases hf
  | setInnerHtml => cases hf
  | deleteEl => cases hf

/-- Adding a last child: `create` below `p`, or `insertChild` of `p`. -/
theorem append_rows (t : Element) (hn : t.ids.Nodup) (i p : Nat) (n : String) :
    let r := findAndMutate p (fun el => some { el with children := el.children ++ [.blank i n] }) t
    (r = none ↔ p ∉ t.ids) ∧
    ∀ t', r = some t' → ∃ P Q, t.rows = P ++ Q ∧
      t'.rows = (P.map fun r => if r.id = p then { r with kids := r.kids ++ [i] } else r) ++ Row.blank i n ::
        (Q.map fun r => if r.id = p then { r with kids := r.kids ++ [i] } else r) := by
  intro r
  by_cases hi : p ∈ t.ids
  · obtain ⟨C, x, rfl, hx, hb⟩ := find_plug p t hi
    have hr : r = some (plug C { x with children := x.children ++ [.blank i n] }) := findAndMutate_plug hb hx
    refine ⟨by rw [hr]; simp [hi], ?_⟩
    intro t' ht
    rw [hr] at ht
    cases ht
    obtain ⟨P, Q, e1, e2, -⟩ := rows_replace (C := C) (x := x) (y := { x with children := x.children ++ [.blank i n] })
      (f := fun r => { r with kids := r.kids ++ [i] }) hn rfl (by simp [Element.blank])
      (A := rowsOf x.children) (B := []) (N := [.blank i n]) (by simp) (by simp [rowsOf_append, rowsOf, Element.rows, Element.blank, Row.blank])
    exact ⟨P, Q, e1, by rw [e2, hx, List.append_assoc]; rfl⟩
  · have hr : r = none := findAndMutate_none hi
    refine ⟨by rw [hr]; simp [hi], ?_⟩
    intro t' ht
    rw [hr] at ht
    cases ht

/-- **C118, creating.** `CreateTag` fails exactly if there is no parent with that id; otherwise the tree has one more element, empty, with the id and the tag
given: the last child of the parent; nothing else changes.  `InsertChild` is the same without a tag. -/
theorem C118_create (t : Element) (hn : t.ids.Nodup) (i p : Nat) (n : String) :
    (applyOp ⟨i, .createTag n (some p)⟩ t = none ↔ p ∉ t.ids) ∧
    (∀ t', applyOp ⟨i, .createTag n (some p)⟩ t = some t' → ∃ P Q, t.rows = P ++ Q ∧
      t'.rows = (P.map fun r => if r.id = p then { r with kids := r.kids ++ [i] } else r) ++ Row.blank i n ::
        (Q.map fun r => if r.id = p then { r with kids := r.kids ++ [i] } else r)) ∧
    (applyOp ⟨p, .insertChild i⟩ t = none ↔ p ∉ t.ids) ∧
    (∀ t', applyOp ⟨p, .insertChild i⟩ t = some t' → ∃ P Q, t.rows = P ++ Q ∧
      t'.rows = (P.map fun r => if r.id = p then { r with kids := r.kids ++ [i] } else r) ++ Row.blank i "" ::
        (Q.map fun r => if r.id = p then { r with kids := r.kids ++ [i] } else r)) :=
  ⟨(append_rows t hn i p n).1, (append_rows t hn i p n).2, (append_rows t hn i p "").1, (append_rows t hn i p "").2⟩

theorem childIndex_some {a : Nat} {cs : List Element} {j : Nat} (h : childIndex a cs = some j) :
    ∃ l c r, cs = l ++ c :: r ∧ c.id = a ∧ l.length = j := by
  unfold childIndex at h
  rw [List.findIdx?_eq_some_iff_getElem] at h
  obtain ⟨hj, h1, h2⟩ := h
  refine ⟨cs.take j, cs[j], cs.drop (j + 1), ?_, by simpa using h1, by simp; omega⟩
  conv => lhs; rw [← List.take_append_drop j cs, List.drop_eq_getElem_cons hj]

theorem insertIdx_skip {α : Type} (l r : List α) (k : Nat) (x : α) : (l ++ r).insertIdx (l.length + k) x = l ++ r.insertIdx k x := by
  induction l with
  | nil => simp
  | cons a l ih => rw [List.cons_append, List.length_cons, show l.length + 1 + k = (l.length + k) + 1 by omega, List.insertIdx_succ_cons, ih]; rfl

theorem childIndex_none {a : Nat} {cs : List Element} : childIndex a cs = none ↔ a ∉ cs.map (·.id) := by
  unfold childIndex
  rw [List.findIdx?_eq_none_iff]
  simp

/-- **C118, inserting.** `InsertAfter` and `InsertBefore` fail exactly if there is no such parent, or no such child of it; otherwise there is one more element,
empty, directly after (before) that child - and with the same id; nothing else changes. -/
theorem C118_insert (t : Element) (hn : t.ids.Nodup) (p a : Nat) :
    (applyOp ⟨p, .insertAfter a⟩ t = none ↔ ¬∃ r ∈ t.rows, r.id = p ∧ a ∈ r.kids) ∧
    (applyOp ⟨p, .insertBefore a⟩ t = none ↔ ¬∃ r ∈ t.rows, r.id = p ∧ a ∈ r.kids) ∧
    (∀ t', applyOp ⟨p, .insertAfter a⟩ t = some t' → ∃ P l r Q, t.rows = P ++ Q ∧ (∃ x ∈ P, x.id = a) ∧
      (∃ x ∈ t.rows, x.id = p ∧ x.kids = l ++ a :: r) ∧
      t'.rows = (P.map fun x => if x.id = p then { x with kids := l ++ a :: a :: r } else x) ++ Row.blank a "" ::
        (Q.map fun x => if x.id = p then { x with kids := l ++ a :: a :: r } else x)) ∧
    (∀ t', applyOp ⟨p, .insertBefore a⟩ t = some t' → ∃ P l r Q, t.rows = P ++ Q ∧ (∃ x ∈ Q, x.id = a) ∧
      (∃ x ∈ t.rows, x.id = p ∧ x.kids = l ++ a :: r) ∧
      t'.rows = (P.map fun x => if x.id = p then { x with kids := l ++ a :: a :: r } else x) ++ Row.blank a "" ::
        (Q.map fun x => if x.id = p then { x with kids := l ++ a :: a :: r } else x)) := by
  by_cases hi : p ∈ t.ids
  · obtain ⟨C, x, rfl, hx, hb⟩ := find_plug p t hi
    subst hx
    have hA : applyOp ⟨x.id, .insertAfter a⟩ (plug C x) = ((childIndex a x.children).map fun j =>
        { x with children := x.children.insertIdx (j + 1) (.blank a "") }).map (plug C) := findAndMutate_plug hb rfl
    have hB : applyOp ⟨x.id, .insertBefore a⟩ (plug C x) = ((childIndex a x.children).map fun j =>
        { x with children := x.children.insertIdx j (.blank a "") }).map (plug C) := findAndMutate_plug hb rfl
    have hrows : ∀ r ∈ (plug C x).rows, r.id = x.id → r.kids = x.children.map (·.id) := by
      intro r hr he
      obtain ⟨h1, h2⟩ := plug_nodup C x hn
      rw [x.ids_eq, List.nodup_cons] at h1
      rw [rows_plug, x.rows_eq] at hr
      simp only [List.mem_append, List.mem_cons] at hr
      rcases hr with (hr | rfl | hr) | hr
      · exact absurd (he ▸ rowsPre_id C _ r hr) (h2 _ x.id_mem_ids)
      · rfl
      · exact absurd (he ▸ row_id_mem hr) h1.1
      · exact absurd (he ▸ rowsPost_id C r hr) (h2 _ x.id_mem_ids)
    have hself : ∃ r ∈ (plug C x).rows, r.id = x.id ∧ r.kids = x.children.map (·.id) := by
      refine ⟨⟨x.id, x.name, x.attributes, x.listeners, x.text, x.key, x.children.map (·.id)⟩, ?_, rfl, rfl⟩
      rw [rows_plug, x.rows_eq]; simp
    have hiff : (∃ r ∈ (plug C x).rows, r.id = x.id ∧ a ∈ r.kids) ↔ a ∈ x.children.map (·.id) := by
      constructor
      · rintro ⟨r, h1, h2, h3⟩; rwa [hrows r h1 h2] at h3
      · intro h; obtain ⟨r, h1, h2, h3⟩ := hself; exact ⟨r, h1, h2, by rwa [h3]⟩
    refine ⟨?_, ?_, ?_, ?_⟩
    · rw [hA, Option.map_eq_none_iff, Option.map_eq_none_iff, childIndex_none, hiff]
    · rw [hB, Option.map_eq_none_iff, Option.map_eq_none_iff, childIndex_none, hiff]
    · intro t' ht
      rw [hA] at ht
      cases hj : childIndex a x.children with
      | none => rw [hj] at ht; cases ht
      | some j =>
        rw [hj] at ht
        simp only [Option.map_some, Option.some.injEq] at ht
        subst ht
        obtain ⟨l, c, r, h1, h2, h3⟩ := childIndex_some hj
        subst h2 h3
        have hk : x.children.insertIdx (l.length + 1) (.blank c.id "") = l ++ c :: .blank c.id "" :: r := by
          rw [h1, insertIdx_skip l _ 1]; rfl
        obtain ⟨P, Q, e1, e2, e3, -⟩ := rows_replace (C := C) (x := x) (y := { x with children := x.children.insertIdx (l.length + 1) (.blank c.id "") })
          (f := fun y => { y with kids := l.map (·.id) ++ c.id :: c.id :: r.map (·.id) }) hn rfl (by simp only [hk]; simp [Element.blank])
          (A := rowsOf (l ++ [c])) (B := rowsOf r) (N := [.blank c.id ""]) (by rw [h1, ← rowsOf_append]; simp)
          (by simp only; rw [hk, show l ++ c :: .blank c.id "" :: r = (l ++ [c]) ++ .blank c.id "" :: r by simp, rowsOf_append, rowsOf]
              simp [Element.rows, Element.blank, Row.blank, rowsOf])
        refine ⟨P, l.map (·.id), r.map (·.id), Q, e1, ?_, ?_, by rw [e2, List.append_assoc]; rfl⟩
        · refine ⟨⟨c.id, c.name, c.attributes, c.listeners, c.text, c.key, c.children.map (·.id)⟩, ?_, rfl⟩
          rw [e3, rowsOf_append, rowsOf, c.rows_eq]; simp
        · obtain ⟨y, g1, g2, g3⟩ := hself; exact ⟨y, g1, g2, by rw [g3, h1]; simp⟩
    · intro t' ht
      rw [hB] at ht
      cases hj : childIndex a x.children with
      | none => rw [hj] at ht; cases ht
      | some j =>
        rw [hj] at ht
        simp only [Option.map_some, Option.some.injEq] at ht
        subst ht
        obtain ⟨l, c, r, h1, h2, h3⟩ := childIndex_some hj
        subst h2 h3
        have hk : x.children.insertIdx l.length (.blank c.id "") = l ++ .blank c.id "" :: c :: r := by
          rw [h1, show l.length = l.length + 0 from rfl, insertIdx_skip l _ 0]; rfl
        obtain ⟨P, Q, e1, e2, -, e3⟩ := rows_replace (C := C) (x := x) (y := { x with children := x.children.insertIdx l.length (.blank c.id "") })
          (f := fun y => { y with kids := l.map (·.id) ++ c.id :: c.id :: r.map (·.id) }) hn rfl (by simp only [hk]; simp [Element.blank])
          (A := rowsOf l) (B := rowsOf (c :: r)) (N := [.blank c.id ""]) (by rw [h1, ← rowsOf_append])
          (by simp only; rw [hk, rowsOf_append, rowsOf]
              simp [Element.rows, Element.blank, Row.blank, rowsOf])
        refine ⟨P, l.map (·.id), r.map (·.id), Q, e1, ?_, ?_, by rw [e2, List.append_assoc]; rfl⟩
        · refine ⟨⟨c.id, c.name, c.attributes, c.listeners, c.text, c.key, c.children.map (·.id)⟩, ?_, rfl⟩
          rw [e3, rowsOf, c.rows_eq]; simp
        · obtain ⟨y, g1, g2, g3⟩ := hself; exact ⟨y, g1, g2, by rw [g3, h1]; simp⟩
  · have hA : applyOp ⟨p, .insertAfter a⟩ t = none := findAndMutate_none hi
    have hB : applyOp ⟨p, .insertBefore a⟩ t = none := findAndMutate_none hi
    have hno : ¬∃ r ∈ t.rows, r.id = p ∧ a ∈ r.kids := by
      rintro ⟨r, h1, h2, -⟩
      exact hi (by rw [← rows_ids]; exact List.mem_map.2 ⟨r, h1, h2⟩)
    refine ⟨by simp [hA, hno], by simp [hB, hno], ?_, ?_⟩
    · intro t' ht; rw [hA] at ht; cases ht
    · intro t' ht; rw [hB] at ht; cases ht

/-- A row after element `i` has become `n`. -/
def Row.renamed (i n : Nat) (r : Row) : Row :=
  { r with id := if r.id = i then n else r.id, kids := r.kids.map fun k => if k = i then n else k }

theorem map_ren {i n : Nat} {l : List Nat} (h : i ∉ l) : (l.map fun k => if k = i then n else k) = l := by
  rw [List.map_congr_left (g := id), List.map_id]
  intro k hk
  have hne : k ≠ i := fun e => h (e ▸ hk)
  rw [if_neg hne]
  rfl

theorem renamed_same {i n : Nat} {r : Row} (h1 : r.id ≠ i) (h2 : i ∉ r.kids) : r.renamed i n = r := by
  unfold Row.renamed; rw [if_neg h1, map_ren h2]

theorem renamed_rowsOf {i n : Nat} {es : List Element} (h : i ∉ idsOf es) : (rowsOf es).map (Row.renamed i n) = rowsOf es := by
  rw [List.map_congr_left (g := id), List.map_id]
  intro r hr
  exact renamed_same (fun e => h (e ▸ row_id_mem hr)) (fun hk => h (rowsOf_kids es r hr i hk))

theorem rename_plug {i n : Nat} : ∀ (C : List TFrame) (x y : Element), i ∉ ctxIds C → y.rows = x.rows.map (Row.renamed i n) →
    y.id = (if x.id = i then n else x.id) → (plug C y).rows = (plug C x).rows.map (Row.renamed i n)
  | [], x, y, _, h, _ => h
  | f :: C, x, y, hc, h, hid => by
    rw [ctxIds] at hc
    simp only [List.mem_cons, List.mem_append, List.cons_append, not_or] at hc
    rw [plug, plug]
    refine rename_plug C _ _ hc.2.2 ?_ (by change f.id = if f.id = i then n else f.id; rw [if_neg (fun e => hc.1 e.symm)])
    rw [Element.rows_eq, Element.rows_eq]
    simp only [TFrame.fill, List.map_cons, List.map_append, rowsOf_append, rowsOf]
    rw [renamed_rowsOf hc.2.1.1, renamed_rowsOf hc.2.1.2, ← h]
    congr 1
    unfold Row.renamed
    simp only [List.map_append, List.map_cons]
    rw [if_neg (fun e => hc.1 e.symm), map_ren (fun hk => hc.2.1.1 (roots_mem hk)), map_ren (fun hk => hc.2.1.2 (roots_mem hk)), hid]

/-- **C118, ids.** `SetId` fails exactly if there is no such element; otherwise that element has the new id, also as a child of its parent; nothing else
changes. -/
theorem C118_setId (t : Element) (hn : t.ids.Nodup) (i n : Nat) :
    (applyOp ⟨i, .setId n⟩ t = none ↔ i ∉ t.ids) ∧
    ∀ t', applyOp ⟨i, .setId n⟩ t = some t' → t'.rows = t.rows.map fun r =>
      { r with id := if r.id = i then n else r.id, kids := r.kids.map fun k => if k = i then n else k } := by
  by_cases hi : i ∈ t.ids
  · obtain ⟨C, x, rfl, hx, hb⟩ := find_plug i t hi
    subst hx
    have hA : applyOp ⟨x.id, .setId n⟩ (plug C x) = some (plug C { x with id := n }) := findAndMutate_plug hb rfl
    refine ⟨by rw [hA]; simp [hi], ?_⟩
    intro t' ht
    rw [hA] at ht
    cases ht
    obtain ⟨h1, h2⟩ := plug_nodup C x hn
    rw [x.ids_eq, List.nodup_cons] at h1
    refine rename_plug C x _ (h2 _ x.id_mem_ids) ?_ (by simp)
    rw [Element.rows_eq, x.rows_eq, List.map_cons, renamed_rowsOf h1.1]
    congr 1
    unfold Row.renamed
    rw [if_pos rfl, map_ren (fun hk => h1.1 (roots_mem hk))]
  · have hA : applyOp ⟨i, .setId n⟩ t = none := findAndMutate_none hi
    refine ⟨by rw [hA]; simp [hi], ?_⟩
    intro t' ht
    rw [hA] at ht
    cases ht

/-- A row after the children in `D` have gone. -/
def Row.without (i : Nat) (r : Row) : Row := { r with kids := r.kids.filter fun k => k != i }

theorem filter_out {i : Nat} {l : List Nat} (h : i ∉ l) : (l.filter fun k => k != i) = l := by
  rw [List.filter_eq_self]
  intro k hk
  have : k ≠ i := fun e => h (e ▸ hk)
  simpa using this

theorem without_rowsOf {i : Nat} {es : List Element} (h : i ∉ idsOf es) : (rowsOf es).map (Row.without i) = rowsOf es := by
  rw [List.map_congr_left (g := id), List.map_id]
  intro r hr
  unfold Row.without
  rw [filter_out (fun hk => h (rowsOf_kids es r hr i hk))]
  rfl

theorem removeChild_split {i : Nat} {l r : List Element} {x : Element} (hl : i ∉ idsOf l) (hx : x.id = i) :
    removeChild i (l ++ x :: r) = some (l ++ r) := by
  induction l with
  | nil => rw [List.nil_append, removeChild, if_pos hx]; rfl
  | cons c l ih =>
    rw [idsOf, List.mem_append, not_or] at hl
    rw [List.cons_append, removeChild, if_neg (fun (e : c.id = i) => hl.1 (e ▸ c.id_mem_ids)), ih hl.2]
    rfl

theorem without_plug {i : Nat} {D : List Nat} (hD : i ∈ D) : ∀ (C : List TFrame) (x y : Element), (∀ j ∈ D, j ∉ ctxIds C) →
    y.rows = (x.rows.filter fun r => decide (r.id ∉ D)).map (Row.without i) → y.id = x.id → x.id ≠ i →
    (plug C y).rows = ((plug C x).rows.filter fun r => decide (r.id ∉ D)).map (Row.without i)
  | [], x, y, _, h, _, _ => h
  | f :: C, x, y, hc, h, hid, hxi => by
    have hc' : (f.id ∉ D) ∧ (∀ j ∈ D, j ∉ idsOf f.left) ∧ (∀ j ∈ D, j ∉ idsOf f.right) ∧ ∀ j ∈ D, j ∉ ctxIds C := by
      rw [ctxIds] at hc
      simp only [List.mem_cons, List.mem_append, List.cons_append, not_or] at hc
      exact ⟨fun hf => (hc _ hf).1 rfl, fun j hj => (hc j hj).2.1.1, fun j hj => (hc j hj).2.1.2, fun j hj => (hc j hj).2.2⟩
    have hkeep : ∀ es : List Element, (∀ j ∈ D, j ∉ idsOf es) → ((rowsOf es).filter fun r => decide (r.id ∉ D)) = rowsOf es := by
      intro es he
      rw [List.filter_eq_self]
      intro r hr
      simpa using fun hd => he _ hd (row_id_mem hr)
    rw [plug, plug]
    refine without_plug hD C _ _ hc'.2.2.2 ?_ rfl (by simp only [TFrame.fill]; intro e; exact hc'.1 (e ▸ hD))
    rw [Element.rows_eq, Element.rows_eq]
    simp only [TFrame.fill, rowsOf_append, rowsOf]
    rw [List.filter_cons, if_pos (by simpa using hc'.1), List.filter_append, List.filter_append, hkeep _ hc'.2.1, hkeep _ hc'.2.2.1, List.map_cons,
      List.map_append (l₁ := rowsOf f.left), List.map_append (l₂ := rowsOf f.right), without_rowsOf (hc'.2.1 i hD), without_rowsOf (hc'.2.2.1 i hD), ← h]
    congr 1
    unfold Row.without
    simp only [List.map_append, List.map_cons, List.filter_append]
    rw [filter_out (fun hk => hc'.2.1 i hD (roots_mem hk)), List.filter_cons, if_pos (by simpa using hxi),
      filter_out (fun hk => hc'.2.2.1 i hD (roots_mem hk)), hid]

mutual
theorem node_plug {x : Element} : ∀ (t : Element), x ∈ t.nodes → t = x ∨ ∃ f C, t = plug (f :: C) x
  | ⟨eid, name, attributes, listeners, children, text, key⟩, h => by
    rw [Element.nodes, List.mem_cons] at h
    rcases h with h | h
    · exact Or.inl h.symm
    · obtain ⟨l, c, r, rfl, hc⟩ := node_plugIn children h
      right
      rcases hc with rfl | ⟨f, C, rfl⟩
      · exact ⟨⟨eid, name, attributes, listeners, l, r, text, key⟩, [], rfl⟩
      · refine ⟨f, C ++ [⟨eid, name, attributes, listeners, l, r, text, key⟩], ?_⟩
        have : ∀ (C : List TFrame) (f : TFrame) (x : Element), plug (C ++ [f]) x = f.fill (plug C x) := by
          intro C
          induction C with
          | nil => intro f x; rfl
          | cons g C ih => intro f x; rw [List.cons_append, plug, plug, ih]
        rw [← List.cons_append, this]
        rfl
theorem node_plugIn {x : Element} : ∀ (ts : List Element), x ∈ nodesAll ts → ∃ l c r, ts = l ++ c :: r ∧ (c = x ∨ ∃ f C, c = plug (f :: C) x)
  | [], h => by rw [nodesAll] at h; cases h
  | t :: ts, h => by
    rw [nodesAll, List.mem_append] at h
    rcases h with h | h
    · exact ⟨[], t, ts, rfl, node_plug t h⟩
    · obtain ⟨l, c, r, h1, h2⟩ := node_plugIn ts h
      exact ⟨t :: l, c, r, by rw [h1]; rfl, h2⟩
end

/-- What `DeleteEl` does to an element with a parent. -/
theorem delete_main : ∀ (f : TFrame) (C : List TFrame) (x : Element), (plug (f :: C) x).ids.Nodup → x.id ≠ (plug (f :: C) x).id ∧
    applyOp ⟨x.id, .deleteEl⟩ (plug (f :: C) x) = some (plug C ⟨f.id, f.name, f.attributes, f.listeners, f.left ++ f.right, f.text, f.key⟩) ∧
    (plug C ⟨f.id, f.name, f.attributes, f.listeners, f.left ++ f.right, f.text, f.key⟩).rows =
      ((plug (f :: C) x).rows.filter fun r => decide (r.id ∉ x.ids)).map fun r => { r with kids := r.kids.filter fun k => k != x.id } := by
  intro f C x hn
  have hbef : ∀ (C : List TFrame) (k : Nat), k ∈ idsBefore C → k ∈ ctxIds C := by
    intro C
    induction C with
    | nil => intro k h; rw [idsBefore] at h; cases h
    | cons g C ih =>
      intro k h
      rw [idsBefore] at h
      rw [ctxIds]
      simp only [List.mem_cons, List.mem_append, List.cons_append] at h ⊢
      rcases h with h | h | h
      · exact Or.inl h
      · exact Or.inr (Or.inl (Or.inl h))
      · exact Or.inr (Or.inr (ih k h))
  have hn' : (plug C (f.fill x)).ids.Nodup := hn
  obtain ⟨n1, n2⟩ := plug_nodup _ _ hn'
  obtain ⟨n3, n4⟩ := plug_nodup _ _ hn
  have n5 := n4 _ x.id_mem_ids
  rw [ctxIds] at n5
  simp only [List.mem_cons, List.mem_append, List.cons_append, not_or] at n5
  have hxf : f.id ≠ x.id := fun e => n5.1 e.symm
  have hpar : findParentId x.id (plug C (f.fill x)) = some f.id := by
    apply findParentId_plug (fun h => n5.2.2 (hbef _ _ h)) n5.1
    unfold TFrame.fill
    rw [findParentId, (absent_prefix x.id (fun _ => none) _ f.left (x :: f.right) n5.2.1.1).2.2.1, findParentIdIn, if_pos rfl]
  refine ⟨?_, ?_, ?_⟩
  · intro e
    have hr : ∀ (C : List TFrame) (y : Element), C ≠ [] → (plug C y).id ∈ ctxIds C := by
      intro C
      induction C with
      | nil => intro y h; exact absurd rfl h
      | cons g C ih =>
        intro y _
        rw [plug, ctxIds]
        simp only [List.mem_cons, List.mem_append, List.cons_append]
        cases C with
        | nil => exact Or.inl rfl
        | cons g' C' => exact Or.inr (Or.inr (ih _ (by simp)))
    exact n4 _ x.id_mem_ids (e ▸ hr (f :: C) x (by simp))
  · rw [plug]
    unfold applyOp
    simp only [hpar]
    rw [findAndMutate_plug (id := f.id) (x := f.fill x) (fun h => n2 _ (f.fill x).id_mem_ids (hbef _ _ h)) rfl]
    simp only [TFrame.fill]
    rw [removeChild_split n5.2.1.1 rfl]
    rfl
  · rw [plug]
    refine without_plug x.id_mem_ids C (f.fill x) _ (fun j hj => ?_) ?_ rfl hxf
    · exact n2 j (by rw [fill_ids]; simp [hj])
    · have hk : ∀ es : List Element, (∀ j ∈ x.ids, j ∉ idsOf es) → ((rowsOf es).filter fun r => decide (r.id ∉ x.ids)) = rowsOf es := by
        intro es he
        rw [List.filter_eq_self]
        intro r hr
        simpa using fun hd => he _ hd (row_id_mem hr)
      have h3 : ∀ j ∈ x.ids, j ≠ f.id ∧ j ∉ idsOf f.left ∧ j ∉ idsOf f.right := by
        intro j hj
        have := n4 j hj
        rw [ctxIds] at this
        simp only [List.mem_cons, List.mem_append, List.cons_append, not_or] at this
        exact ⟨this.1, this.2.1.1, this.2.1.2⟩
      have hxr : (x.rows.filter fun r => decide (r.id ∉ x.ids)) = [] := by
        rw [List.filter_eq_nil_iff]
        intro r hr
        have : r.id ∈ x.ids := by rw [← rows_ids]; exact List.mem_map.2 ⟨r, hr, rfl⟩
        simp [this]
      rw [Element.rows_eq, Element.rows_eq]
      simp only [TFrame.fill, rowsOf_append, rowsOf]
      rw [List.filter_cons, if_pos (by simpa using fun hf => (h3 _ hf).1 rfl), List.filter_append, List.filter_append, hxr, List.nil_append,
        hk _ (fun j hj => (h3 j hj).2.1), hk _ (fun j hj => (h3 j hj).2.2), List.map_cons, List.map_append (l₁ := rowsOf f.left), without_rowsOf n5.2.1.1,
        without_rowsOf n5.2.1.2]
      congr 1
      unfold Row.without
      simp only [List.map_append, List.map_cons, List.filter_append]
      rw [filter_out (fun hk => n5.2.1.1 (roots_mem hk)), List.filter_cons, if_neg (by simp), filter_out (fun hk => n5.2.1.2 (roots_mem hk))]

/-- **C118, deleting.** `DeleteEl` fails exactly if there is no such element, or it is the root; otherwise that element is gone, with everything below it,
also from the children of its parent; nothing else changes. -/
theorem C118_delete (t : Element) (hn : t.ids.Nodup) (i : Nat) :
    (applyOp ⟨i, .deleteEl⟩ t = none ↔ i ∉ t.ids ∨ i = t.id) ∧
    ∀ x ∈ t.nodes, x.id = i → i ≠ t.id → ∃ t', applyOp ⟨i, .deleteEl⟩ t = some t' ∧
      t'.rows = (t.rows.filter fun r => decide (r.id ∉ x.ids)).map fun r => { r with kids := r.kids.filter fun k => k != i } := by
  have main := delete_main
  constructor
  · by_cases hi : i ∈ t.ids
    · obtain ⟨C, x, rfl, hx, hb⟩ := find_plug i t hi
      subst hx
      cases C with
      | nil =>
        have : applyOp ⟨x.id, .deleteEl⟩ x = none := by
          rw [plug, x.ids_eq, List.nodup_cons] at hn
          obtain ⟨xi, xn, xa, xl, xc, xt, xk⟩ := x
          unfold applyOp
          simp only [findParentId, (absent_forest xi (fun _ => none) xi xc hn.1).2.2.1]
        rw [plug, this]; simp
      | cons f C =>
        obtain ⟨h1, h2, -⟩ := main f C x hn
        rw [h2]
        simp [hi, h1]
    · have : applyOp ⟨i, .deleteEl⟩ t = none := by unfold applyOp; simp only [(absent_tree i (fun _ => none) t hi).2.2.1]
      rw [this]; simp [hi]
  · intro x hx hxi hroot
    subst hxi
    rcases node_plug t hx with rfl | ⟨f, C, rfl⟩
    · exact absurd rfl hroot
    · obtain ⟨-, h2, h3⟩ := main f C x hn
      exact ⟨_, h2, h3⟩

/-- **C118, the rest.** `CreateTag` without a parent and `SetInnerHtml` always fail. -/
theorem C118_refused (t : Element) (i : Nat) : (∀ n, applyOp ⟨i, .createTag n none⟩ t = none) ∧
    ∀ e h, applyOp ⟨i, .setInnerHtml e h⟩ t = none := ⟨fun _ => rfl, fun _ _ => rfl⟩

/-- A list with two items. -/
def demoList : Element := ⟨0, "ul", [], [], [⟨1, "li", [], [], [⟨2, "b", [], [], [], some "x", none⟩], none, none⟩, ⟨3, "li", [], [], [], some "y", none⟩], none, none⟩

/-- non-vacuity: its ids are distinct; one instruction of each kind -/
example : demoList.ids.Nodup := by decide
example : (applyOp ⟨3, .setText "z"⟩ demoList).map (·.rows.map fun r => (r.id, r.text, r.kids)) =
    some [(0, none, [1, 3]), (1, none, [2]), (2, some "x", []), (3, some "z", [])] := by decide
example : (applyOp ⟨4, .createTag "i" (some 1)⟩ demoList).map (·.rows.map fun r => (r.id, r.name, r.kids)) =
    some [(0, "ul", [1, 3]), (1, "li", [2, 4]), (2, "b", []), (4, "i", []), (3, "li", [])] := by decide
example : (applyOp ⟨0, .insertAfter 1⟩ demoList).map (·.rows.map fun r => (r.id, r.name, r.kids)) =
    some [(0, "ul", [1, 1, 3]), (1, "li", [2]), (2, "b", []), (1, "", []), (3, "li", [])] := by decide
example : (applyOp ⟨0, .insertBefore 3⟩ demoList).map (·.rows.map fun r => (r.id, r.name, r.kids)) =
    some [(0, "ul", [1, 3, 3]), (1, "li", [2]), (2, "b", []), (3, "", []), (3, "li", [])] := by decide
example : (applyOp ⟨1, .setId 7⟩ demoList).map (·.rows.map fun r => (r.id, r.kids)) = some [(0, [7, 3]), (7, [2]), (2, []), (3, [])] := by decide
example : (applyOp ⟨1, .deleteEl⟩ demoList).map (·.rows.map fun r => (r.id, r.kids)) = some [(0, [3]), (3, [])] := by decide

end Puck
