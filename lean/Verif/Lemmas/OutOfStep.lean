import Verif.Lemmas.Fades
/-!
# Why the browser cannot follow other changes
-/
namespace Puck

/-- The instructions between two views of the same structure and tags. -/
def plainOp (R : Rules) (op : Op) : Prop :=
  match op.instruction with
  | .setAttribute k v => R.attr k v
  | .removeAttribute k => ∃ v, R.attr k v
  | .attachListener n on => R.lis ⟨n, on⟩
  | .setText _ | .removeText | .removeListeners => True
  | _ => False

/-- the instruction attaches no listener to elements of `L` and sets no text of elements of `T` -/
def Spares (L T : String → Prop) (op : Op) : Prop :=
  (L (toString op.id) → ∀ n on, op.instruction ≠ .attachListener n on) ∧ (T (toString op.id) → ∀ v, op.instruction ≠ .setText v)

variable {L T : String → Prop} {B : Browser}

theorem get_insert_other {h : Headers} {k v : String} (hk : k ≠ "id") : (h.insert k v).get "id" = h.get "id" := by
  rw [Headers.get_insert, if_neg (fun e => hk e.symm)]

theorem get_remove_other {h : Headers} {k : String} (hk : k ≠ "id") : (h.remove k).get "id" = h.get "id" := by
  rw [Headers.get_remove, if_neg (fun e => hk e.symm)]

theorem elemsAll_textContent (s : String) : elemsAll (textContent s) = [] := by
  unfold textContent; split <;> rfl

/-- what the browser does with such an instruction -/
theorem client_plain {op : Op} (h : plainOp (clientRules B) op) : (∀ body, clientOp B op.serialize body = some body) ∨
    ∃ f, (∀ body, clientOp B op.serialize body = withElement (toString op.id) f body) ∧
      (∀ x s, x.idOf = some s → f x ≠ none) ∧
      (∀ L T, Spares L T op → ∀ x r, x.idOf = some (toString op.id) → f x = some r → ∃ y, r = [y] ∧ Fades L T x y) := by
  obtain ⟨id, instr⟩ := op
  cases instr with
  | insertChild => exact h.elim
  | insertAfter => exact h.elim
  | insertBefore => exact h.elim
  | setInnerHtml => exact h.elim
  | setId => exact h.elim
  | createTag => exact h.elim
  | setTagName => exact h.elim
  | deleteEl => exact h.elim
  | removeText => exact Or.inl fun body => rfl
  | setAttribute k v =>
    obtain ⟨h1, h2, h3, h4, h5⟩ := h
    refine Or.inr ⟨_, fun body => by simp only [clientOp, Op.serialize, splitPlus_two h1 h2]; rfl, ?_, ?_⟩
    · intro x s hx
      cases x with
      | text => cases hx
      | elem => simp [h3]
    · intro L T _ x r hx hr
      cases x with
      | text => cases hx
      | elem tag attrs ls cs =>
        simp only [h3, if_true, Option.some.injEq, asciiLower_small h4] at hr
        refine ⟨_, hr.symm, ?_⟩
        rw [Fades]
        exact ⟨_, _, _, rfl, get_insert_other h5, fun _ _ _ h => h, Or.inl (FadesAll.refl cs)⟩
  | removeAttribute k =>
    obtain ⟨v, h1, h2, h3, h4, h5⟩ := h
    refine Or.inr ⟨_, fun body => rfl, ?_, ?_⟩
    · intro x s hx
      cases x with
      | text => cases hx
      | elem => simp
    · intro L T _ x r hx hr
      cases x with
      | text => cases hx
      | elem tag attrs ls cs =>
        simp only [Op.serialize, Option.getD_some, Option.some.injEq, asciiLower_small h4] at hr
        refine ⟨_, hr.symm, ?_⟩
        rw [Fades]
        exact ⟨_, _, _, rfl, get_remove_other h5, fun _ _ _ h => h, Or.inl (FadesAll.refl cs)⟩
  | setText v =>
    refine Or.inr ⟨_, fun body => rfl, ?_, ?_⟩
    · intro x s hx
      cases x with
      | text => cases hx
      | elem => simp
    · intro L T hsp x r hx hr
      cases x with
      | text => cases hx
      | elem tag attrs ls cs =>
        simp only [Option.some.injEq] at hr
        refine ⟨_, hr.symm, ?_⟩
        rw [Fades]
        refine ⟨_, _, _, rfl, rfl, fun _ _ _ h => h, Or.inr ⟨elemsAll_textContent _, fun i hi ht => ?_⟩⟩
        have : i = toString id := Option.some.inj (hi.symm.trans hx)
        rw [this] at ht
        exact hsp.2 ht v rfl
  | removeListeners =>
    refine Or.inr ⟨_, fun body => rfl, ?_, ?_⟩
    · intro x s hx
      simp
    · intro L T _ x r hx hr
      simp only [Option.some.injEq] at hr
      exact ⟨_, hr.symm, Fades.clone x⟩
  | attachListener n on =>
    obtain ⟨h1, h2⟩ := h
    refine Or.inr ⟨_, fun body => by simp only [clientOp, Op.serialize, splitPlus_two h1 h2]; rfl, ?_, ?_⟩
    · intro x s hx
      cases x with
      | text => cases hx
      | elem => simp
    · intro L T hsp x r hx hr
      cases x with
      | text => cases hx
      | elem tag attrs ls cs =>
        simp only [Option.some.injEq] at hr
        refine ⟨_, hr.symm, ?_⟩
        rw [Fades]
        refine ⟨_, _, _, rfl, rfl, fun i hi hl _ => ?_, Or.inl (FadesAll.refl cs)⟩
        have : i = toString id := Option.some.inj (hi.symm.trans hx)
        rw [this] at hl
        exact absurd rfl (hsp.1 hl n on)

theorem op_fades {op : Op} (h : plainOp (clientRules B) op) (hsp : Spares L T op) {body body' : List Dom}
    (hc : clientOp B op.serialize body = some body') : FadesAll L T body body' := by
  rcases client_plain h with h | ⟨f, h1, h2, h3⟩
  · rw [h] at hc
    cases hc
    exact FadesAll.refl body
  · rw [h1] at hc
    unfold withElement at hc
    cases hr : replaceIn (toString op.id) f body with
    | none => rw [hr] at hc; cases hc
    | some o =>
      rw [hr] at hc
      simp only at hc
      subst hc
      exact fades_replaceIn (h3 L T hsp) body body' hr

theorem op_throws {op : Op} (h : plainOp (clientRules B) op) {body : List Dom} (hc : clientOp B op.serialize body = none) :
    toString op.id ∉ domIds body := by
  rcases client_plain h with h | ⟨f, h1, h2, h3⟩
  · rw [h] at hc; cases hc
  · rw [h1] at hc
    unfold withElement at hc
    cases hr : replaceIn (toString op.id) f body with
    | none => exact replaceIn_none body hr
    | some o =>
      rw [hr] at hc
      simp only at hc
      subst hc
      exact absurd hr (replaceIn_fail (fun x hx => h2 x _ hx) body)

/-- the whole message leaves only what was there -/
theorem message_fades : ∀ (ops : List Op) (body : List Dom), (∀ op ∈ ops, plainOp (clientRules B) op) → (∀ op ∈ ops, Spares L T op) →
    FadesAll L T body (clientMessage B (serializeOps ops) body)
  | [], body, _, _ => FadesAll.refl body
  | op :: ops, body, hp, hs => by
    rw [serializeOps, List.map_cons, clientMessage]
    cases hc : clientOp B op.serialize body with
    | none => exact FadesAll.refl body
    | some body' =>
      exact FadesAll.trans _ _ _ (op_fades (hp op (List.mem_cons_self ..)) (hs op (List.mem_cons_self ..)) hc)
        (message_fades ops body' (fun o h => hp o (List.mem_cons_of_mem _ h)) fun o h => hs o (List.mem_cons_of_mem _ h))

/-- either every instruction is carried out, or some element to be changed is not there in the end -/
theorem message_complete : ∀ (pre : List Op) (op : Op) (post : List Op) (body : List Dom),
    (∀ o ∈ pre ++ op :: post, plainOp (clientRules B) o) →
    (∃ o ∈ pre ++ op :: post, toString o.id ∉ domIds (clientMessage B (serializeOps (pre ++ op :: post)) body)) ∨
    ∃ body1 body2, FadesAll (fun _ => False) (fun _ => False) body body1 ∧ clientOp B op.serialize body1 = some body2 ∧
      clientMessage B (serializeOps (pre ++ op :: post)) body = clientMessage B (serializeOps post) body2
  | [], op, post, body, hp => by
    rw [List.nil_append, serializeOps, List.map_cons, clientMessage]
    cases hc : clientOp B op.serialize body with
    | none => exact Or.inl ⟨op, List.mem_cons_self .., op_throws (hp op (List.mem_cons_self ..)) hc⟩
    | some body' => exact Or.inr ⟨body, body', FadesAll.refl body, hc, rfl⟩
  | o :: pre, op, post, body, hp => by
    rw [List.cons_append, serializeOps, List.map_cons, clientMessage]
    cases hc : clientOp B o.serialize body with
    | none => exact Or.inl ⟨o, List.mem_cons_self .., op_throws (hp o (List.mem_cons_self ..)) hc⟩
    | some body' =>
      rcases message_complete pre op post body' (fun x hx => hp x (List.mem_cons_of_mem _ hx)) with ⟨x, h1, h2⟩ | ⟨b1, b2, h1, h2, h3⟩
      · exact Or.inl ⟨x, List.mem_cons_of_mem _ h1, h2⟩
      · exact Or.inr ⟨b1, b2, FadesAll.trans _ _ _ (op_fades (hp o (List.mem_cons_self ..)) ⟨fun h => h.elim, fun h => h.elim⟩ hc) h1, h2, h3⟩

/-! ## Elements and what shows them -/

mutual
theorem pairs_nodes : ∀ (b a : Element) (p : Element × Element), p ∈ pairs a b → p.1 ∈ a.nodes ∧ p.2 ∈ b.nodes
  | ⟨bid, bname, battrs, blis, bch, btext, bkey⟩, a, p, h => by
    rw [pairs, List.mem_cons] at h
    rw [nodes_eq a, Element.nodes]
    rcases h with rfl | h
    · exact ⟨List.mem_cons_self .., List.mem_cons_self ..⟩
    · have := pairsAll_nodes bch a.children p h
      exact ⟨List.mem_cons_of_mem _ this.1, List.mem_cons_of_mem _ this.2⟩
theorem pairsAll_nodes : ∀ (bs as : List Element) (p : Element × Element), p ∈ pairsAll as bs → p.1 ∈ nodesAll as ∧ p.2 ∈ nodesAll bs
  | [], as, p, h => by rw [pairsAll] at h; cases h
  | b :: bs, [], p, h => by rw [pairsAll] at h; cases h
  | b :: bs, a :: as, p, h => by
    rw [pairsAll, List.mem_append] at h
    rw [nodesAll, nodesAll]
    rcases h with h | h
    · have := pairs_nodes b a p h
      exact ⟨List.mem_append_left _ this.1, List.mem_append_left _ this.2⟩
    · have := pairsAll_nodes bs as p h
      exact ⟨List.mem_append_right _ this.1, List.mem_append_right _ this.2⟩
end

theorem elemsAll_append (a b : List Dom) : elemsAll (a ++ b) = elemsAll a ++ elemsAll b := by
  induction a with
  | nil => rfl
  | cons d a ih => rw [List.cons_append, elemsAll, elemsAll, ih, List.append_assoc]

theorem elemsAll_text (t : Option String) : elemsAll (textNodes t) = [] := by
  cases t with
  | none => rfl
  | some s => unfold textNodes; simp only; split <;> rfl

mutual
theorem shown_nodes : ∀ (e : Element) (d : Dom) (x : Element), e.ShownAs d → x ∈ e.nodes → ∃ y ∈ d.elems, x.ShownAs y
  | ⟨id, name, attributes, listeners, children, text, key⟩, d, x, h, hx => by
    rw [Element.nodes, List.mem_cons] at hx
    have h' := h
    obtain ⟨attrs, kids, rfl, ha, hk⟩ := h.elim
    rcases hx with rfl | hx
    · exact ⟨_, by rw [Dom.elems]; exact List.mem_cons_self .., h'⟩
    · obtain ⟨y, h1, h2⟩ := shown_nodesAll children kids x hk hx
      refine ⟨y, ?_, h2⟩
      rw [Dom.elems, elemsAll_append]
      exact List.mem_cons_of_mem _ (List.mem_append_right _ h1)
theorem shown_nodesAll : ∀ (es : List Element) (ds : List Dom) (x : Element), ShownAsAll es ds → x ∈ nodesAll es → ∃ y ∈ elemsAll ds, x.ShownAs y
  | [], ds, x, _, hx => by rw [nodesAll] at hx; cases hx
  | e :: es, ds, x, h, hx => by
    rw [ShownAsAll] at h
    obtain ⟨d, ds, rfl, h1, h2⟩ := h
    rw [nodesAll, List.mem_append] at hx
    rw [elemsAll]
    rcases hx with hx | hx
    · obtain ⟨y, h3, h4⟩ := shown_nodes e d x h1 hx
      exact ⟨y, List.mem_append_left _ h3, h4⟩
    · obtain ⟨y, h3, h4⟩ := shown_nodesAll es ds x h2 hx
      exact ⟨y, List.mem_append_right _ h3, h4⟩
end

theorem shown_id {e : Element} {d : Dom} (h : e.ShownAs d) : d.idOf = some (toString e.id) := by
  obtain ⟨attrs, kids, rfl, ha, hk⟩ := h.elim
  exact (ha "id").trans (if_pos rfl)

theorem shown_lis {e : Element} {d : Dom} (h : e.ShownAs d) : d.lis = e.listeners := by
  obtain ⟨attrs, kids, rfl, ha, hk⟩ := h.elim
  rfl

mutual
theorem shown_ids : ∀ (e : Element) (d : Dom), e.ShownAs d → d.ids = e.ids.map toString
  | ⟨id, name, attributes, listeners, children, text, key⟩, d, h => by
    obtain ⟨attrs, kids, rfl, ha, hk⟩ := h.elim
    simp only at ha hk
    rw [Dom.ids, ha "id", if_pos rfl, domIds_elems, elemsAll_append, elemsAll_text, List.nil_append, ← domIds_elems, shown_idsAll children kids hk,
      Element.ids]
    rfl
theorem shown_idsAll : ∀ (es : List Element) (ds : List Dom), ShownAsAll es ds → domIds ds = (idsOf es).map toString
  | [], ds, h => by rw [shownAsAll_nil h]; rfl
  | e :: es, ds, h => by
    rw [ShownAsAll] at h
    obtain ⟨d, ds, rfl, h1, h2⟩ := h
    rw [domIds, idsOf, List.map_append, shown_ids e d h1, shown_idsAll es ds h2]
end

/-- on a page that shows a tree with distinct ids, no numeric id occurs twice -/
theorem count_page {page : List Dom} {e : Element} {d : Dom} (hp : PageOk page) (hd : e.ShownAs d) (hn : e.ids.Nodup) (i : Nat) :
    (domIds (page ++ [d])).count (toString i) ≤ 1 := by
  have h1 : domIds (page ++ [d]) = domIds page ++ d.ids := by
    rw [domIds_elems, elemsAll_append, List.filterMap_append, ← domIds_elems, ids_elems, elemsAll, elemsAll, List.append_nil]
  rw [h1, List.count_append, List.count_eq_zero_of_not_mem (hp i), shown_ids e d hd, Nat.zero_add]
  have : ((e.ids.map toString : List String)).Nodup := by
    rw [List.nodup_iff_pairwise_ne, List.pairwise_map]
    exact (List.nodup_iff_pairwise_ne.1 hn).imp fun h1 h2 => h1 (toString_nat_inj h2)
  exact List.nodup_iff_count.1 this _

/-! ## The instructions of a changeset -/

mutual
theorem kin_pair : ∀ (b a : Element) (p : Element × Element), Kin a b → p ∈ pairs a b → Kin p.1 p.2
  | ⟨bid, bname, battrs, blis, bch, btext, bkey⟩, a, p, hk, h => by
    rw [pairs, List.mem_cons] at h
    rcases h with rfl | h
    · exact hk
    · exact kinAll_pair bch a.children p hk.parts.2.2 h
theorem kinAll_pair : ∀ (bs as : List Element) (p : Element × Element), KinAll as bs → p ∈ pairsAll as bs → Kin p.1 p.2
  | [], as, p, _, h => by rw [pairsAll] at h; cases h
  | b :: bs, [], p, hk, h => by rw [KinAll] at hk; exact hk.elim
  | b :: bs, a :: as, p, hk, h => by
    rw [KinAll] at hk
    rw [pairsAll, List.mem_append] at h
    rcases h with h | h
    · exact kin_pair b a p hk.1 h
    · exact kinAll_pair bs as p hk.2 h
end

mutual
/-- what is below a pair is a pair -/
theorem pairs_sub : ∀ (b a : Element) (p : Element × Element), p ∈ pairs a b → ∀ q ∈ pairsAll p.1.children p.2.children, q ∈ pairs a b
  | ⟨bid, bname, battrs, blis, bch, btext, bkey⟩, a, p, h, q, hq => by
    rw [pairs, List.mem_cons] at h ⊢
    rcases h with rfl | h
    · exact Or.inr hq
    · exact Or.inr (pairsAll_sub bch a.children p h q hq)
theorem pairsAll_sub : ∀ (bs as : List Element) (p : Element × Element), p ∈ pairsAll as bs → ∀ q ∈ pairsAll p.1.children p.2.children, q ∈ pairsAll as bs
  | [], as, p, h, q, hq => by rw [pairsAll] at h; cases h
  | b :: bs, [], p, h, q, hq => by rw [pairsAll] at h; cases h
  | b :: bs, a :: as, p, h, q, hq => by
    rw [pairsAll, List.mem_append] at h ⊢
    rcases h with h | h
    · exact Or.inl (pairs_sub b a p h q hq)
    · exact Or.inr (pairsAll_sub bs as p h q hq)
end

mutual
theorem pairs_ids : ∀ (b a : Element), Kin a b → (pairs a b).map (fun p => p.1.id) = a.ids
  | ⟨bid, bname, battrs, blis, bch, btext, bkey⟩, a, hk => by
    rw [pairs, List.map_cons, a.ids_eq, pairsAll_ids bch a.children hk.parts.2.2]
theorem pairsAll_ids : ∀ (bs as : List Element), KinAll as bs → (pairsAll as bs).map (fun p => p.1.id) = idsOf as
  | [], as, hk => by rw [KinAll] at hk; rw [hk, pairsAll]; rfl
  | b :: bs, [], hk => by rw [KinAll] at hk; exact hk.elim
  | b :: bs, a :: as, hk => by
    rw [KinAll] at hk
    rw [pairsAll, List.map_append, pairs_ids b a hk.1, pairsAll_ids bs as hk.2, idsOf]
end

theorem eq_of_map_nodup {α β : Type} (f : α → β) : ∀ (l : List α) (x y : α), (l.map f).Nodup → x ∈ l → y ∈ l → f x = f y → x = y
  | [], x, _, _, hx, _, _ => by cases hx
  | a :: l, x, y, hn, hx, hy, he => by
    rw [List.map_cons, List.nodup_cons] at hn
    rw [List.mem_cons] at hx hy
    rcases hx with rfl | hx
    · rcases hy with rfl | hy
      · rfl
      · exact absurd (List.mem_map.2 ⟨y, hy, he.symm⟩) hn.1
    · rcases hy with rfl | hy
      · exact absurd (List.mem_map.2 ⟨x, hx, he⟩) hn.1
      · exact eq_of_map_nodup f l x y hn.2 hx hy he

mutual
theorem obeys_nodes {R : Rules} : ∀ (e x : Element), e.Obeys R → x ∈ e.nodes → x.Obeys R
  | ⟨id, name, attributes, listeners, children, text, key⟩, x, h, hx => by
    rw [Element.nodes, List.mem_cons] at hx
    rcases hx with rfl | hx
    · exact h
    · rw [Element.Obeys] at h
      exact obeysAll_nodes children x h.2.2.2 hx
theorem obeysAll_nodes {R : Rules} : ∀ (es : List Element) (x : Element), ObeysAll R es → x ∈ nodesAll es → x.Obeys R
  | [], x, _, hx => by rw [nodesAll] at hx; cases hx
  | e :: es, x, h, hx => by
    rw [ObeysAll] at h
    rw [nodesAll, List.mem_append] at hx
    rcases hx with hx | hx
    · exact obeys_nodes e x h.1 hx
    · exact obeysAll_nodes es x h.2 hx
end

theorem nodeOps_plain {R : Rules} {p : Element × Element} (h1 : p.1.Obeys R) (h2 : p.2.Obeys R) (hid : p.1.id = p.2.id) :
    ∀ op ∈ nodeOps p, op.id = p.1.id ∧ plainOp R op := by
  obtain ⟨a, b⟩ := p
  simp only at h1 h2 hid
  have h1' : ∀ p ∈ a.attributes, R.attr p.1 p.2 := by cases a; rw [Element.Obeys] at h1; exact h1.2.1
  have h2' : (∀ p ∈ b.attributes, R.attr p.1 p.2) ∧ ∀ l ∈ b.listeners, R.lis l := by
    cases b; rw [Element.Obeys] at h2; exact ⟨h2.2.1, h2.2.2.1⟩
  intro op hop
  unfold nodeOps at hop
  simp only [List.mem_append] at hop
  rcases hop with (hop | hop) | hop
  · rw [diffAttributes_eq] at hop
    split at hop
    · cases hop
    · rw [List.mem_append, List.mem_map, List.mem_map] at hop
      rcases hop with ⟨k, hk, rfl⟩ | ⟨q, hq, rfl⟩
      · unfold goneKeys at hk
        obtain ⟨q, hq, rfl⟩ := List.mem_map.1 hk
        exact ⟨rfl, q.2, h1' q (List.mem_filter.1 hq).1⟩
      · exact ⟨rfl, h2'.1 q (List.mem_filter.1 hq).1⟩
  · unfold Element.diffText at hop
    split at hop
    · cases hop
    · split at hop <;> (rw [List.mem_singleton] at hop; subst hop; exact ⟨rfl, trivial⟩)
  · unfold Element.diffListeners Element.generateListeners at hop
    split at hop
    · cases hop
    · rw [List.mem_cons, List.mem_map] at hop
      rcases hop with rfl | ⟨l, hl, rfl⟩
      · exact ⟨rfl, trivial⟩
      · exact ⟨hid.symm, h2'.2 l hl⟩

end Puck
