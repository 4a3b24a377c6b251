import Verif.Lemmas.PaintDom
/-!
# Whole messages in the browser
-/
namespace Puck.Shape.Paint

theorem with_page {page : List Dom} (hp : PageOk page) (i : Nat) (f : Dom → Option (List Dom)) : withElement (toString i) f page = none := by
  unfold withElement
  rw [page_in f page (hp i)]

/-- Without the view on the page, nothing can be done. -/
theorem op_page {B : Browser} {page : List Dom} {op : Op} (hp : PageOk page) (hok : Fit B op) :
    clientOp B op.serialize page = none ∨ clientOp B op.serialize page = some page := by
  obtain ⟨id, instr⟩ := op
  cases instr with
  | insertChild => exact hok.elim
  | insertAfter => exact hok.elim
  | insertBefore => exact hok.elim
  | setInnerHtml => exact hok.elim
  | setTagName n => exact Or.inl (with_page hp id _)
  | setAttribute k v =>
    obtain ⟨h1, h2, h3, h4, h5⟩ := hok
    left
    simp only [clientOp, Op.serialize, splitPlus_two h1 h2]
    exact with_page hp id _
  | removeAttribute k => exact Or.inl (with_page hp id _)
  | setId v => exact Or.inl (with_page hp id _)
  | setText v => exact Or.inl (with_page hp id _)
  | createTag n p =>
    cases p with
    | none => exact hok.elim
    | some p =>
      obtain ⟨h1, h2, h3⟩ := hok
      left
      simp only [clientOp, Op.serialize, splitPlus_two h1 (toString_nat_noplus p), h2, if_true, if_neg (toString_nat_ne_empty p)]
      exact with_page hp p _
  | removeText => exact Or.inr rfl
  | removeListeners => exact Or.inl (with_page hp id _)
  | attachListener n on =>
    obtain ⟨h1, h2⟩ := hok
    left
    simp only [clientOp, Op.serialize, splitPlus_two h1 h2]
    exact with_page hp id _
  | deleteEl => exact Or.inl (with_page hp id _)

theorem all_page {B : Browser} {page : List Dom} (hp : PageOk page) : ∀ (ops : List Op), (∀ op ∈ ops, Fit B op) →
    clientAll B (serializeOps ops) page = none ∨ clientAll B (serializeOps ops) page = some page
  | [], _ => Or.inr rfl
  | op :: ops, h => by
    have ih := all_page hp ops fun o ho => h o (List.mem_cons_of_mem _ ho)
    unfold serializeOps at ih ⊢
    rw [List.map_cons, clientAll]
    rcases op_page hp (h op (List.mem_cons_self ..)) with e | e
    · rw [e]; exact Or.inl rfl
    · rw [e]; exact ih

/-- **A message in the browser and on the tree.** -/
theorem sim_bsteps {B : Browser} {page : List Dom} (hp : PageOk page) : ∀ (ops : List Op) (t : Tr Lab) (d : Dom), (∀ op ∈ ops, Fit B op) → Painted t d →
    MatchPage page (bsteps (ops.map toB) t) (clientAll B (serializeOps ops) (page ++ [d]))
  | [], t, d, _, hd => ⟨d, rfl, hd⟩
  | op :: ops, t, d, h, hd => by
    have h1 := sim_bstep (page := page) hp hd (h op (List.mem_cons_self ..))
    have hrest : ∀ o ∈ ops, Fit B o := fun o ho => h o (List.mem_cons_of_mem _ ho)
    rw [List.map_cons, bsteps]
    have hc : clientAll B (serializeOps (op :: ops)) (page ++ [d]) =
        match clientOp B op.serialize (page ++ [d]) with
        | none => none
        | some body' => clientAll B (serializeOps ops) body' := rfl
    rw [hc]
    cases hb : bstep (toB op) t with
    | none =>
      rw [hb] at h1
      rcases h1 with e | e
      · rw [e]; exact Or.inl rfl
      · rw [e]; exact all_page hp ops hrest
    | some t' =>
      rw [hb] at h1
      obtain ⟨d', e1, e2⟩ := h1
      rw [e1]
      exact sim_bsteps hp ops t' d' hrest e2

/-! ## The operations of changesets -/

theorem newEntries_mem {a b : Headers} {p : String × String} (h : p ∈ newEntries a b) : p ∈ b := (List.mem_filter.1 h).1

theorem goneKeys_mem {a b : Headers} {k : String} (h : k ∈ goneKeys a b) : ∃ v, (k, v) ∈ a := by
  obtain ⟨p, hp, rfl⟩ := List.mem_map.1 h
  exact ⟨p.2, (List.mem_filter.1 hp).1⟩

theorem obeys_parts {R : Rules} {e : Element} (h : e.Obeys R) :
    R.tag e.name ∧ (∀ p ∈ e.attributes, R.attr p.1 p.2) ∧ (∀ l ∈ e.listeners, R.lis l) ∧ ObeysAll R e.children := by
  cases e; rw [Element.Obeys] at h; exact h

theorem own_fit {B : Browser} {a b : Element} (hn : a.name = b.name ∨ B.Copies b.name) (ha : a.Obeys (clientRules B)) (hb : b.Obeys (clientRules B)) :
    ∀ op ∈ ownOps a b, Fit B op := by
  intro op ho
  unfold ownOps at ho
  simp only [List.mem_append] at ho
  rcases ho with ((ho | ho) | ho) | ho
  · unfold Element.diffName at ho
    split at ho
    · cases ho
    · rename_i hne
      rcases List.mem_singleton.1 ho with rfl
      exact ⟨(obeys_parts hb).1, hn.resolve_left hne⟩
  · rw [diffAttributes_eq] at ho
    split at ho
    · cases ho
    · rcases List.mem_append.1 ho with ho | ho
      · obtain ⟨k, hk, rfl⟩ := List.mem_map.1 ho
        obtain ⟨v, hv⟩ := goneKeys_mem hk
        have := (obeys_parts ha).2.1 _ hv
        exact ⟨this.2.2.2.1, this.2.2.2.2⟩
      · obtain ⟨p, hp, rfl⟩ := List.mem_map.1 ho
        exact (obeys_parts hb).2.1 p (newEntries_mem hp)
  · unfold Element.diffText at ho
    split at ho
    · cases ho
    · split at ho <;> (rcases List.mem_singleton.1 ho with rfl; trivial)
  · unfold Element.diffListeners at ho
    split at ho
    · cases ho
    · rcases List.mem_cons.1 ho with rfl | ho
      · trivial
      · obtain ⟨l, hl, rfl⟩ := List.mem_map.1 ho
        exact (obeys_parts hb).2.2.1 l hl

mutual
theorem create_fit {B : Browser} : ∀ (K : Element) (p : Nat), K.Obeys (clientRules B) → ∀ op ∈ createFromScratch (some p) K, Fit B op
  | ⟨i, kn, ka, kl, kk, kt, kkey⟩, p, h, op, ho => by
    rw [Element.Obeys] at h
    rw [create_eq_coat] at ho
    rcases List.mem_cons.1 ho with rfl | ho
    · exact h.1
    · rcases List.mem_append.1 ho with ho | ho
      · unfold coatOps at ho
        simp only [List.mem_append] at ho
        rcases ho with (ho | ho) | ho
        · obtain ⟨q, hq, rfl⟩ := List.mem_map.1 ho
          exact h.2.1 q hq
        · obtain ⟨l, hl, rfl⟩ := List.mem_map.1 ho
          exact h.2.2.1 l hl
        · unfold textOps at ho
          split at ho
          · rcases List.mem_singleton.1 ho with rfl; trivial
          · cases ho
      · exact createAll_fit kk i h.2.2.2 op ho
theorem createAll_fit {B : Browser} : ∀ (cs : List Element) (p : Nat), ObeysAll (clientRules B) cs → ∀ op ∈ createAll (some p) cs, Fit B op
  | [], p, _, op, ho => by rw [createAll] at ho; cases ho
  | c :: cs, p, h, op, ho => by
    rw [ObeysAll] at h
    rw [createAll] at ho
    rcases List.mem_append.1 ho with ho | ho
    · exact create_fit c p h.1 op ho
    · exact createAll_fit cs p h.2 op ho
end

mutual
theorem diff_fit {B : Browser} : ∀ (b a : Element) (ops : List Op), a.Unkeyed → b.Unkeyed → a.Obeys (clientRules B) → b.Obeys (clientRules B) → Tagged B.Copies a b →
    Puck.diff a b = some ops → ∀ op ∈ ops, Fit B op
  | ⟨bi, bn, ba, bl, bk, bt, bkey⟩, a, ops, ka, kb, oa, ob, ht, h, op, ho => by
    obtain ⟨pairs, hz, rfl⟩ := diff_parts ka kb h
    rw [Tagged] at ht
    simp only at hz ho
    rcases List.mem_append.1 ho with ho | ho
    · rcases List.mem_append.1 ho with ho | ho
      · exact own_fit ht.1 oa ob op ho
      · rcases List.mem_append.1 ho with ho | ho
        · rcases List.mem_append.1 ho with ho | ho
          · obtain ⟨c, _, rfl⟩ := List.mem_map.1 ho
            trivial
          · exact diffZip_fit bk a.children pairs (Unkeyed.children ka) (Unkeyed.children kb) (obeys_parts oa).2.2.2 (obeys_parts ob).2.2.2 ht.2 hz op ho
        · exact createAll_fit _ _ (obeysAll_take (obeys_parts ob).2.2.2 _).2 op ho
    · rw [diffId_cases ho]; trivial
theorem diffZip_fit {B : Browser} : ∀ (bs as : List Element) (ops : List Op), UnkeyedAll as → UnkeyedAll bs → ObeysAll (clientRules B) as →
    ObeysAll (clientRules B) bs → TaggedZip B.Copies as bs → diffZip as bs = some ops → ∀ op ∈ ops, Fit B op
  | [], as, ops, _, _, _, _, _, h, op, ho => by rw [diffZip] at h; cases h; cases ho
  | b :: bs, [], ops, _, _, _, _, _, h, op, ho => by rw [diffZip] at h; cases h; cases ho
  | b :: bs, a :: as, ops, ka, kb, oa, ob, ht, h, op, ho => by
    rw [UnkeyedAll] at ka kb
    rw [ObeysAll] at oa ob
    rw [TaggedZip] at ht
    obtain ⟨d, ds, h1, h2, rfl⟩ := diffZip_cons h
    rcases List.mem_append.1 ho with ho | ho
    · exact diff_fit b a d ka.1 kb.1 oa.1 ob.1 ht.1 h1 op ho
    · exact diffZip_fit bs as ds ka.2 kb.2 oa.2 ob.2 ht.2 h2 op ho
end

end Puck.Shape.Paint
