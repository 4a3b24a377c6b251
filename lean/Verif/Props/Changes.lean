import Verif.Spec.Changes
import Verif.Lemmas.ContentsDiff
import Verif.Props.Apply
/-!
# What a changeset consists of, and how long it is (C122)
-/
namespace Puck

open Shape

/-! ## Created elements -/

theorem CreatedIn.lift {a b x y : Element} (h : Compared a b x y) {p : Nat} {K : Element} (hk : CreatedIn x y p K) : CreatedIn a b p K := by
  induction hk with
  | top h1 h2 => exact .top (Compared.trans h h1) h2
  | inner _ h2 ih => exact .inner ih h2

theorem CalledFor.lift {a b x y : Element} (h : Compared a b x y) {op : Op} (hk : CalledFor x y op) : CalledFor a b op := by
  cases hk with
  | tag h1 h2 => exact .tag (Compared.trans h h1) h2
  | attr h1 h2 h3 => exact .attr (Compared.trans h h1) h2 h3
  | noAttr h1 h2 h3 => exact .noAttr (Compared.trans h h1) h2 h3
  | text h1 h2 h3 => exact .text (Compared.trans h h1) h2 h3
  | noText h1 h2 h3 => exact .noText (Compared.trans h h1) h2 h3
  | oldListeners h1 h2 => exact .oldListeners (Compared.trans h h1) h2
  | newListener h1 h2 h3 => exact .newListener (Compared.trans h h1) h2 h3
  | id h1 h2 => exact .id (Compared.trans h h1) h2
  | gone h1 h2 => exact .gone (Compared.trans h h1) h2
  | created h1 => exact .created (h1.lift h)
  | createdAttr h1 h2 => exact .createdAttr (h1.lift h) h2
  | createdListener h1 h2 => exact .createdListener (h1.lift h) h2
  | createdText h1 h2 => exact .createdText (h1.lift h) h2

theorem CreatedAt.sub {p : Nat} {c d : Element} (hd : d ∈ c.children) {q : Nat} {K : Element} (h : CreatedAt c.id d q K) : CreatedAt p c q K := by
  induction h with
  | top => exact .inner .top hd
  | inner _ h2 ih => exact .inner ih h2

theorem CreatedAt.cases_top {p : Nat} {c : Element} {q : Nat} {K : Element} (h : CreatedAt p c q K) :
    (q = p ∧ K = c) ∨ ∃ d ∈ c.children, CreatedAt c.id d q K := by
  induction h with
  | top => exact Or.inl ⟨rfl, rfl⟩
  | inner h1 h2 ih =>
    rcases ih with ⟨rfl, rfl⟩ | ⟨d, h3, h4⟩
    · exact Or.inr ⟨_, h2, .top⟩
    · exact Or.inr ⟨d, h3, .inner h4 h2⟩

theorem attrsOk_parts {a : Element} (h : a.AttrsOk) : a.attributes.Distinct ∧ AttrsOkAll a.children := by
  cases a; rw [Element.AttrsOk] at h; exact h

theorem CreatedAt.attrsOk {p : Nat} {c : Element} (hc : c.AttrsOk) {q : Nat} {K : Element} (h : CreatedAt p c q K) : K.AttrsOk := by
  induction h with
  | top => exact hc
  | inner _ h2 ih => exact attrsOkAll_mem (attrsOk_parts ih).2 h2

theorem fill_own (c : Element) (hc : c.attributes.Distinct) (op : Op) :
    op ∈ fillOps c ↔ Fills c op ∨ op ∈ createAll (some c.id) c.children := by
  obtain ⟨id, name, attributes, listeners, children, text, key⟩ := c
  rw [fillOps]
  simp only [List.mem_append]
  constructor
  · rintro (((h | h) | h) | h)
    · obtain ⟨q, hq, rfl⟩ := List.mem_map.1 h
      exact Or.inl (.attr (K := ⟨id, name, attributes, listeners, children, text, key⟩) ((Headers.get_eq_some hc).2 hq))
    · obtain ⟨q, hq, rfl⟩ := List.mem_map.1 h
      exact Or.inl (.listener (K := ⟨id, name, attributes, listeners, children, text, key⟩) hq)
    · cases text with
      | none => cases h
      | some v => rcases List.mem_singleton.1 h with rfl; exact Or.inl (.text (K := ⟨id, name, attributes, listeners, children, some v, key⟩) rfl)
    · exact Or.inr h
  · rintro (h | h)
    · cases h with
      | attr h => exact Or.inl (Or.inl (Or.inl (List.mem_map.2 ⟨_, (Headers.get_eq_some hc).1 h, rfl⟩)))
      | listener h => exact Or.inl (Or.inl (Or.inr (List.mem_map.2 ⟨_, h, rfl⟩)))
      | text h =>
        simp only at h
        subst h
        exact Or.inl (Or.inr (List.mem_singleton.2 rfl))
    · exact Or.inr h

mutual
theorem create_iff : ∀ (c : Element) (p : Nat), c.AttrsOk → ∀ op, op ∈ createFromScratch (some p) c ↔
    ∃ q K, CreatedAt p c q K ∧ (op = ⟨K.id, .createTag K.name (some q)⟩ ∨ Fills K op)
  | ⟨id, name, attributes, listeners, children, text, key⟩, p, hc, op => by
    have ih := createAll_iff children id (attrsOk_parts hc).2 op
    rw [create_eq_fill, List.mem_cons, fill_own _ (attrsOk_parts hc).1]
    simp only
    rw [ih]
    constructor
    · rintro (h | h | ⟨d, hd, q, K, h1, h2⟩)
      · exact ⟨p, _, .top, Or.inl h⟩
      · exact ⟨p, _, .top, Or.inr h⟩
      · exact ⟨q, K, .sub (c := ⟨id, name, attributes, listeners, children, text, key⟩) hd h1, h2⟩
    · rintro ⟨q, K, h1, h2⟩
      rcases h1.cases_top with ⟨rfl, rfl⟩ | ⟨d, hd, h3⟩
      · exact h2.imp_right Or.inl
      · exact Or.inr (Or.inr ⟨d, hd, q, K, h3, h2⟩)
theorem createAll_iff : ∀ (cs : List Element) (p : Nat), AttrsOkAll cs → ∀ op, op ∈ createAll (some p) cs ↔
    ∃ c ∈ cs, ∃ q K, CreatedAt p c q K ∧ (op = ⟨K.id, .createTag K.name (some q)⟩ ∨ Fills K op)
  | [], p, _, op => by simp [createAll]
  | c :: cs, p, hc, op => by
    rw [AttrsOkAll] at hc
    rw [createAll, List.mem_append, create_iff c p hc.1 op, createAll_iff cs p hc.2 op]
    simp only [List.mem_cons, exists_eq_or_imp]
end

/-! ## Compared elements -/

/-- the instructions two compared elements call for, themselves -/
theorem own_iff {x y : Element} (hx : x.attributes.Distinct) (hy : y.attributes.Distinct) (op : Op) : op ∈ ownOps x y ↔
    (x.name ≠ y.name ∧ op = ⟨y.id, .setTagName y.name⟩) ∨
    (∃ k v, y.attributes.get k = some v ∧ x.attributes.get k ≠ some v ∧ op = ⟨x.id, .setAttribute k v⟩) ∨
    (∃ k, x.attributes.get k ≠ none ∧ y.attributes.get k = none ∧ op = ⟨x.id, .removeAttribute k⟩) ∨
    (∃ v, y.text = some v ∧ x.text ≠ some v ∧ op = ⟨x.id, .setText v⟩) ∨
    (x.text ≠ none ∧ y.text = none ∧ op = ⟨x.id, .removeText⟩) ∨
    (x.listeners ≠ y.listeners ∧ op = ⟨x.id, .removeListeners⟩) ∨
    (x.listeners ≠ y.listeners ∧ ∃ l ∈ y.listeners, op = ⟨y.id, .attachListener l.listenerName l.jsEvent⟩) := by
  have h1 : op ∈ x.diffName y ↔ x.name ≠ y.name ∧ op = ⟨y.id, .setTagName y.name⟩ := by
    unfold Element.diffName
    split <;> simp [*]
  have h2 : op ∈ x.diffText y ↔ (∃ v, y.text = some v ∧ x.text ≠ some v ∧ op = ⟨x.id, .setText v⟩) ∨
      (x.text ≠ none ∧ y.text = none ∧ op = ⟨x.id, .removeText⟩) := by
    unfold Element.diffText
    split
    · rename_i h; rw [h]; simp only [List.not_mem_nil, false_iff, not_or]; exact ⟨fun ⟨v, h1, h2, _⟩ => h2 h1, fun ⟨h1, h2, _⟩ => h1 h2⟩
    · rename_i h
      cases hy : y.text with
      | none => rw [hy] at h; simp [h]
      | some v => rw [hy] at h; simp [h]
  have h3 : op ∈ x.diffListeners y ↔ (x.listeners ≠ y.listeners ∧ op = ⟨x.id, .removeListeners⟩) ∨
      (x.listeners ≠ y.listeners ∧ ∃ l ∈ y.listeners, op = ⟨y.id, .attachListener l.listenerName l.jsEvent⟩) := by
    unfold Element.diffListeners Element.generateListeners
    split
    · simp [*]
    · rename_i h
      simp only [List.mem_cons, List.mem_map, ne_eq, h, not_false_eq_true, true_and]
      constructor
      · rintro (h | ⟨l, h, rfl⟩)
        · exact Or.inl h
        · exact Or.inr ⟨l, h, rfl⟩
      · rintro (h | ⟨l, h, rfl⟩)
        · exact Or.inl h
        · exact Or.inr ⟨l, h, rfl⟩
  have h4 : op ∈ x.diffAttributes y ↔ (∃ k v, y.attributes.get k = some v ∧ x.attributes.get k ≠ some v ∧ op = ⟨x.id, .setAttribute k v⟩) ∨
      (∃ k, x.attributes.get k ≠ none ∧ y.attributes.get k = none ∧ op = ⟨x.id, .removeAttribute k⟩) := by
    unfold Element.diffAttributes
    split
    · rename_i h
      have h := (Headers.same_iff hx hy).1 h
      simp only [List.not_mem_nil, false_iff, not_or]
      constructor
      · rintro ⟨k, v, g1, g2, -⟩; exact g2 ((h k).trans g1)
      · rintro ⟨k, g1, g2, -⟩; exact g1 ((h k).trans g2)
    · simp only [List.mem_append, List.mem_filterMap]
      constructor
      · rintro (⟨p, g1, g2⟩ | ⟨p, g1, g2⟩)
        · right
          split at g2
          · cases g2
          · rename_i g3
            cases g2
            refine ⟨p.1, ?_, by simpa using g3, rfl⟩
            rw [(Headers.get_eq_some hx).2 g1]; simp
        · left
          refine ⟨p.1, p.2, (Headers.get_eq_some hy).2 g1, ?_⟩
          split at g2
          · rename_i v g3
            split at g2
            · cases g2
            · rename_i g4; cases g2; exact ⟨by rw [g3]; simpa using g4, rfl⟩
          · rename_i g3; cases g2; exact ⟨by rw [g3]; simp, rfl⟩
      · rintro (⟨k, v, g1, g2, rfl⟩ | ⟨k, g1, g2, rfl⟩)
        · right
          refine ⟨(k, v), (Headers.get_eq_some hy).1 g1, ?_⟩
          split
          · rename_i w g3
            rw [if_neg]
            simp only at g3
            intro e
            exact g2 (by rw [g3, e])
          · rfl
        · left
          cases hk : x.attributes.get k with
          | none => exact absurd hk g1
          | some v =>
            refine ⟨(k, v), (Headers.get_eq_some hx).1 hk, ?_⟩
            simp [g2]
  unfold ownOps
  simp only [List.mem_append]
  rw [h1, h2, h3, h4]
  simp only [or_assoc]

theorem diffId_iff {x y : Element} (op : Op) : op ∈ x.diffId y ↔ x.id ≠ y.id ∧ op = ⟨x.id, .setId y.id⟩ := by
  unfold Element.diffId
  split <;> simp [*]

/-- the instructions that are not about positions further down -/
theorem own_called {x y : Element} (hx : x.attributes.Distinct) (hy : y.attributes.Distinct) {op : Op} (h : op ∈ ownOps x y) : CalledFor x y op := by
  rcases (own_iff hx hy op).1 h with ⟨h1, rfl⟩ | ⟨k, v, h1, h2, rfl⟩ | ⟨k, h1, h2, rfl⟩ | ⟨v, h1, h2, rfl⟩ | ⟨h1, h2, rfl⟩ | ⟨h1, rfl⟩ | ⟨h1, l, h2, rfl⟩
  · exact .tag .root h1
  · exact .attr .root h1 h2
  · exact .noAttr .root h1 h2
  · exact .text .root h1 h2
  · exact .noText .root h1 h2
  · exact .oldListeners .root h1
  · exact .newListener .root h1 h2

theorem CreatedAt.createdIn {a b : Element} {c : Element} (hc : c ∈ b.children.drop a.children.length) {q : Nat} {K : Element} (h : CreatedAt a.id c q K) :
    CreatedIn a b q K := by
  induction h with
  | top => exact .top .root hc
  | inner _ h2 ih => exact .inner ih h2

theorem CreatedIn.cases_top {a b : Element} {q : Nat} {K : Element} (h : CreatedIn a b q K) :
    (∃ c ∈ b.children.drop a.children.length, CreatedAt a.id c q K) ∨
    ∃ (k : Nat) (a' b' : Element), a.children[k]? = some a' ∧ b.children[k]? = some b' ∧ CreatedIn a' b' q K := by
  induction h with
  | top h1 h2 =>
    rcases Compared.cases_top h1 with ⟨rfl, rfl⟩ | ⟨k, a', b', h3, h4, h5⟩
    · exact Or.inl ⟨_, h2, .top⟩
    · exact Or.inr ⟨k, a', b', h3, h4, .top h5 h2⟩
  | inner h1 h2 ih =>
    rcases ih with ⟨c, h3, h4⟩ | ⟨k, a', b', h3, h4, h5⟩
    · exact Or.inl ⟨c, h3, .inner h4 h2⟩
    · exact Or.inr ⟨k, a', b', h3, h4, .inner h5 h2⟩

/-- an instruction that is called for, seen from the top -/
theorem CalledFor.cases_top {a b : Element} (ha : a.attributes.Distinct) (hb : b.attributes.Distinct) {op : Op} (h : CalledFor a b op) :
    op ∈ ownOps a b ∨ op ∈ a.diffId b ∨ (∃ c ∈ a.children.drop b.children.length, op = ⟨c.id, .deleteEl⟩) ∨
    (∃ c ∈ b.children.drop a.children.length, ∃ q K, CreatedAt a.id c q K ∧ (op = ⟨K.id, .createTag K.name (some q)⟩ ∨ Fills K op)) ∨
    ∃ (k : Nat) (a' b' : Element), a.children[k]? = some a' ∧ b.children[k]? = some b' ∧ CalledFor a' b' op := by
  rw [own_iff ha hb, diffId_iff]
  cases h with
  | tag h1 h2 =>
    rcases Compared.cases_top h1 with ⟨rfl, rfl⟩ | ⟨k, a', b', h3, h4, h5⟩
    · exact Or.inl (Or.inl ⟨h2, rfl⟩)
    · exact Or.inr (Or.inr (Or.inr (Or.inr ⟨k, a', b', h3, h4, .tag h5 h2⟩)))
  | attr h1 h2 h2' =>
    rcases Compared.cases_top h1 with ⟨rfl, rfl⟩ | ⟨k, a', b', h3, h4, h5⟩
    · exact Or.inl (Or.inr (Or.inl ⟨_, _, h2, h2', rfl⟩))
    · exact Or.inr (Or.inr (Or.inr (Or.inr ⟨k, a', b', h3, h4, .attr h5 h2 h2'⟩)))
  | noAttr h1 h2 h2' =>
    rcases Compared.cases_top h1 with ⟨rfl, rfl⟩ | ⟨k, a', b', h3, h4, h5⟩
    · exact Or.inl (Or.inr (Or.inr (Or.inl ⟨_, h2, h2', rfl⟩)))
    · exact Or.inr (Or.inr (Or.inr (Or.inr ⟨k, a', b', h3, h4, .noAttr h5 h2 h2'⟩)))
  | text h1 h2 h2' =>
    rcases Compared.cases_top h1 with ⟨rfl, rfl⟩ | ⟨k, a', b', h3, h4, h5⟩
    · exact Or.inl (Or.inr (Or.inr (Or.inr (Or.inl ⟨_, h2, h2', rfl⟩))))
    · exact Or.inr (Or.inr (Or.inr (Or.inr ⟨k, a', b', h3, h4, .text h5 h2 h2'⟩)))
  | noText h1 h2 h2' =>
    rcases Compared.cases_top h1 with ⟨rfl, rfl⟩ | ⟨k, a', b', h3, h4, h5⟩
    · exact Or.inl (Or.inr (Or.inr (Or.inr (Or.inr (Or.inl ⟨h2, h2', rfl⟩)))))
    · exact Or.inr (Or.inr (Or.inr (Or.inr ⟨k, a', b', h3, h4, .noText h5 h2 h2'⟩)))
  | oldListeners h1 h2 =>
    rcases Compared.cases_top h1 with ⟨rfl, rfl⟩ | ⟨k, a', b', h3, h4, h5⟩
    · exact Or.inl (Or.inr (Or.inr (Or.inr (Or.inr (Or.inr (Or.inl ⟨h2, rfl⟩))))))
    · exact Or.inr (Or.inr (Or.inr (Or.inr ⟨k, a', b', h3, h4, .oldListeners h5 h2⟩)))
  | newListener h1 h2 h2' =>
    rcases Compared.cases_top h1 with ⟨rfl, rfl⟩ | ⟨k, a', b', h3, h4, h5⟩
    · exact Or.inl (Or.inr (Or.inr (Or.inr (Or.inr (Or.inr (Or.inr ⟨h2, _, h2', rfl⟩))))))
    · exact Or.inr (Or.inr (Or.inr (Or.inr ⟨k, a', b', h3, h4, .newListener h5 h2 h2'⟩)))
  | id h1 h2 =>
    rcases Compared.cases_top h1 with ⟨rfl, rfl⟩ | ⟨k, a', b', h3, h4, h5⟩
    · exact Or.inr (Or.inl ⟨h2, rfl⟩)
    · exact Or.inr (Or.inr (Or.inr (Or.inr ⟨k, a', b', h3, h4, .id h5 h2⟩)))
  | gone h1 h2 =>
    rcases Compared.cases_top h1 with ⟨rfl, rfl⟩ | ⟨k, a', b', h3, h4, h5⟩
    · exact Or.inr (Or.inr (Or.inl ⟨_, h2, rfl⟩))
    · exact Or.inr (Or.inr (Or.inr (Or.inr ⟨k, a', b', h3, h4, .gone h5 h2⟩)))
  | created h1 =>
    rcases h1.cases_top with ⟨c, h2, h3⟩ | ⟨k, a', b', h3, h4, h5⟩
    · exact Or.inr (Or.inr (Or.inr (Or.inl ⟨c, h2, _, _, h3, Or.inl rfl⟩)))
    · exact Or.inr (Or.inr (Or.inr (Or.inr ⟨k, a', b', h3, h4, .created h5⟩)))
  | createdAttr h1 h2 =>
    rcases h1.cases_top with ⟨c, h2', h3⟩ | ⟨k, a', b', h3, h4, h5⟩
    · exact Or.inr (Or.inr (Or.inr (Or.inl ⟨c, h2', _, _, h3, Or.inr (.attr h2)⟩)))
    · exact Or.inr (Or.inr (Or.inr (Or.inr ⟨k, a', b', h3, h4, .createdAttr h5 h2⟩)))
  | createdListener h1 h2 =>
    rcases h1.cases_top with ⟨c, h2', h3⟩ | ⟨k, a', b', h3, h4, h5⟩
    · exact Or.inr (Or.inr (Or.inr (Or.inl ⟨c, h2', _, _, h3, Or.inr (.listener h2)⟩)))
    · exact Or.inr (Or.inr (Or.inr (Or.inr ⟨k, a', b', h3, h4, .createdListener h5 h2⟩)))
  | createdText h1 h2 =>
    rcases h1.cases_top with ⟨c, h2', h3⟩ | ⟨k, a', b', h3, h4, h5⟩
    · exact Or.inr (Or.inr (Or.inr (Or.inl ⟨c, h2', _, _, h3, Or.inr (.text h2)⟩)))
    · exact Or.inr (Or.inr (Or.inr (Or.inr ⟨k, a', b', h3, h4, .createdText h5 h2⟩)))

theorem created_called {a b : Element} {c : Element} (hc : c ∈ b.children.drop a.children.length) {q : Nat} {K : Element} (h : CreatedAt a.id c q K) {op : Op}
    (ho : op = ⟨K.id, .createTag K.name (some q)⟩ ∨ Fills K op) : CalledFor a b op := by
  have hk := h.createdIn hc
  rcases ho with rfl | ho
  · exact .created hk
  · cases ho with
    | attr h => exact .createdAttr hk h
    | listener h => exact .createdListener hk h
    | text h => exact .createdText hk h

mutual
theorem diff_iff : ∀ (b a : Element) (ops : List Op), a.Unkeyed → b.Unkeyed → a.AttrsOk → b.AttrsOk → diff a b = some ops → ∀ op,
    op ∈ ops ↔ CalledFor a b op
  | ⟨bi, bn, ba, bl, bk, bt, bkey⟩, a, ops, ua, ub, ha, hb, h, op => by
    obtain ⟨pairs, hz, rfl⟩ := diff_parts ua ub h
    have ih := diffZip_iff bk a.children pairs (Unkeyed.children ua) (Unkeyed.children ub) (attrsOk_parts ha).2 (attrsOk_parts hb).2 hz op
    have hdrop : AttrsOkAll (bk.drop a.children.length) := by
      have : ∀ (n : Nat) (cs : List Element), AttrsOkAll cs → AttrsOkAll (cs.drop n) := by
        intro n
        induction n with
        | zero => intro cs h; exact h
        | succ n ih => intro cs h; cases cs with
          | nil => exact h
          | cons c cs => rw [AttrsOkAll] at h; exact ih cs h.2
      exact this _ _ (attrsOk_parts hb).2
    simp only [List.mem_append]
    rw [createAll_iff _ _ hdrop op, ih]
    constructor
    · rintro ((h | (h | ⟨k, x, y, h1, h2, h3⟩) | ⟨c, hc, q, K, h1, h2⟩) | h)
      · exact own_called (attrsOk_parts ha).1 (attrsOk_parts hb).1 h
      · obtain ⟨c, hc, rfl⟩ := List.mem_map.1 h
        exact .gone .root hc
      · exact h3.lift (.child k .root h1 h2)
      · exact created_called hc h1 h2
      · obtain ⟨h1, rfl⟩ := (diffId_iff op).1 h
        exact .id .root h1
    · intro h
      rcases h.cases_top (attrsOk_parts ha).1 (attrsOk_parts hb).1 with h | h | ⟨c, hc, rfl⟩ | h | h
      · exact Or.inl (Or.inl h)
      · exact Or.inr h
      · exact Or.inl (Or.inr (Or.inl (Or.inl (List.mem_map.2 ⟨c, hc, rfl⟩))))
      · exact Or.inl (Or.inr (Or.inr h))
      · exact Or.inl (Or.inr (Or.inl (Or.inr h)))
theorem diffZip_iff : ∀ (bs as : List Element) (ops : List Op), UnkeyedAll as → UnkeyedAll bs → AttrsOkAll as → AttrsOkAll bs → diffZip as bs = some ops →
    ∀ op, op ∈ ops ↔ ∃ (k : Nat) (x y : Element), as[k]? = some x ∧ bs[k]? = some y ∧ CalledFor x y op
  | [], as, ops, _, _, _, _, h, op => by rw [diffZip] at h; cases h; simp
  | b :: bs, [], ops, _, _, _, _, h, op => by rw [diffZip] at h; cases h; simp
  | b :: bs, a :: as, ops, ua, ub, ha, hb, h, op => by
    rw [UnkeyedAll] at ua ub
    rw [AttrsOkAll] at ha hb
    rw [diffZip] at h
    cases h1 : diff a b with
    | none => rw [h1] at h; cases h
    | some d =>
      rw [h1] at h
      simp only at h
      cases h2 : diffZip as bs with
      | none => rw [h2] at h; cases h
      | some ds =>
        rw [h2] at h
        simp only [Option.some.injEq] at h
        subst h
        rw [List.mem_append, diff_iff b a d ua.1 ub.1 ha.1 hb.1 h1 op, diffZip_iff bs as ds ua.2 ub.2 ha.2 hb.2 h2 op]
        constructor
        · rintro (h | ⟨k, x, y, h3, h4, h5⟩)
          · exact ⟨0, a, b, rfl, rfl, h⟩
          · exact ⟨k + 1, x, y, h3, h4, h5⟩
        · rintro ⟨k, x, y, h3, h4, h5⟩
          cases k with
          | zero =>
            simp only [List.getElem?_cons_zero, Option.some.injEq] at h3 h4
            subst h3; subst h4
            exact Or.inl h5
          | succ k => exact Or.inr ⟨k, x, y, h3, h4, h5⟩
end

/-! ## How long it is -/

theorem size_eq (a : Element) : a.size = 2 + a.attributes.length + a.listeners.length + sizeAll a.children := by cases a; rw [Element.size]

theorem sizeAll_append (as bs : List Element) : sizeAll (as ++ bs) = sizeAll as + sizeAll bs := by
  induction as with
  | nil => simp [sizeAll]
  | cons a as ih => rw [List.cons_append, sizeAll, sizeAll, ih]; omega

theorem sizeAll_take_drop (n : Nat) (as : List Element) : sizeAll as = sizeAll (as.take n) + sizeAll (as.drop n) := by
  rw [← sizeAll_append, List.take_append_drop]

theorem length_sizeAll (as : List Element) : 2 * as.length ≤ sizeAll as := by
  induction as with
  | nil => simp [sizeAll]
  | cons a as ih => rw [sizeAll, size_eq, List.length_cons]; omega

mutual
theorem create_length : ∀ (c : Element) (p : Option Nat), (createFromScratch p c).length ≤ c.size
  | ⟨id, name, attributes, listeners, children, text, key⟩, p => by
    have ih := createAll_length children (some id)
    rw [createFromScratch_eq, Element.size]
    simp only [List.length_append, List.length_map, List.length_singleton]
    have : (textOps id text).length ≤ 1 := by cases text <;> simp [textOps]
    omega
theorem createAll_length : ∀ (cs : List Element) (p : Option Nat), (createAll p cs).length ≤ sizeAll cs
  | [], p => by simp [createAll, sizeAll]
  | c :: cs, p => by
    have h1 := create_length c p
    have h2 := createAll_length cs p
    rw [createAll, sizeAll, List.length_append]
    omega
end

theorem own_length (a b : Element) : (ownOps a b ++ a.diffId b).length ≤ 4 + a.attributes.length + b.attributes.length + b.listeners.length := by
  have h1 : (a.diffName b).length ≤ 1 := by unfold Element.diffName; split <;> simp
  have h2 : (a.diffText b).length ≤ 1 := by unfold Element.diffText; split; simp; split <;> simp
  have h3 : (a.diffId b).length ≤ 1 := by unfold Element.diffId; split <;> simp
  have h4 : (a.diffListeners b).length ≤ 1 + b.listeners.length := by
    unfold Element.diffListeners Element.generateListeners
    split
    · simp
    · simp; omega
  have h5 : (a.diffAttributes b).length ≤ a.attributes.length + b.attributes.length := by
    unfold Element.diffAttributes
    split
    · simp
    · rw [List.length_append]
      exact Nat.add_le_add (List.length_filterMap_le ..) (List.length_filterMap_le ..)
  unfold ownOps
  simp only [List.length_append]
  omega

theorem sizeAll_filter {p q : Element → Bool} {m : Element} : ∀ {ms : List Element}, (∀ x ∈ ms, q x = true → p x = true) → m ∈ ms → p m = true → q m = false →
    m.size + sizeAll (ms.filter q) ≤ sizeAll (ms.filter p)
  | [], _, hm, _, _ => by cases hm
  | x :: xs, h, hm, hp, hq => by
    have mono : ∀ ys : List Element, (∀ z ∈ ys, q z = true → p z = true) → sizeAll (ys.filter q) ≤ sizeAll (ys.filter p) := by
      intro ys
      induction ys with
      | nil => intro _; simp [sizeAll]
      | cons y ys ih =>
        intro h
        have := ih (fun z hz => h z (List.mem_cons_of_mem _ hz))
        have hy := h y (List.mem_cons_self ..)
        rw [List.filter_cons, List.filter_cons]
        cases h1 : q y <;> cases h2 : p y <;> simp_all [sizeAll] <;> omega
    rcases List.mem_cons.1 hm with rfl | hm'
    · have := mono xs (fun z hz => h z (List.mem_cons_of_mem _ hz))
      rw [List.filter_cons, List.filter_cons, hp, hq]
      simp only [if_true, Bool.false_eq_true, if_false, sizeAll]
      omega
    · have := sizeAll_filter (fun z hz => h z (List.mem_cons_of_mem _ hz)) hm' hp hq
      have hx := h x (List.mem_cons_self ..)
      rw [List.filter_cons, List.filter_cons]
      cases h1 : q x <;> cases h2 : p x <;> simp_all [sizeAll] <;> omega

theorem sizeAll_split (p : Element → Bool) (ms : List Element) : sizeAll ms = sizeAll (ms.filter p) + sizeAll (ms.filter fun m => !p m) := by
  induction ms with
  | nil => simp [sizeAll]
  | cons m ms ih =>
    rw [List.filter_cons, List.filter_cons, sizeAll]
    cases h : p m <;> simp [sizeAll] <;> omega

theorem unpaired_length (mine theirs : List Element) : (unpaired mine theirs).length = (theirs.filter fun t => (locateByKey mine t.key).isNone).length := by
  unfold unpaired
  induction theirs with
  | nil => rfl
  | cons t ts ih =>
    rw [List.length_cons, List.range_succ_eq_map, List.filter_cons, List.filter_cons, List.filter_map, List.getElem?_cons_zero]
    simp only [Function.comp_def, Nat.succ_eq_add_one, List.getElem?_cons_succ]
    split <;> simp only [List.length_cons, List.length_map, ih]

theorem insertionOps_length {theirs : List Element} {len : Nat} : ∀ {un : List Nat} {ops : List Op}, insertionOps theirs len un = some ops → ops.length = un.length
  | [], ops, h => by rw [insertionOps] at h; cases h; rfl
  | e :: un, ops, h => by
    rw [insertionOps] at h
    cases h1 : insertionOp theirs len e with
    | none => rw [h1] at h; cases h
    | some o =>
      rw [h1] at h
      simp only at h
      cases h2 : insertionOps theirs len un with
      | none => rw [h2] at h; cases h
      | some os =>
        rw [h2] at h
        simp only [Option.some.injEq] at h
        subst h
        simp [insertionOps_length h2]

theorem deletionOps_length (mine theirs : List Element) :
    (deletionOps mine theirs).length = (mine.filter fun m => (locateByKey theirs m.key).isNone).length := by
  unfold deletionOps
  induction mine with
  | nil => rfl
  | cons m ms ih =>
    rw [List.filterMap_cons, List.filter_cons]
    split <;> simp_all

theorem keysOk_parts {a : Element} (h : a.KeysOk) : (a.children.filterMap fun c => c.key).Nodup ∧ KeysOkAll a.children := by
  cases a; rw [Element.KeysOk] at h; exact h

theorem keys_mem {ts : List Element} {t : Element} {k : String} (h : t ∈ ts) (hk : t.key = some k) : k ∈ ts.filterMap fun c => c.key :=
  List.mem_filterMap.2 ⟨t, h, hk⟩

mutual
theorem diff_length : ∀ (b a : Element) (ops : List Op), b.KeysOk → diff a b = some ops → ops.length ≤ a.size + b.size
  | ⟨bi, bn, ba, bl, bk, bt, bkey⟩, a, ops, hb, h => by
    rw [diff_eq] at h
    cases hk : kidOps a ⟨bi, bn, ba, bl, bk, bt, bkey⟩ with
    | none => rw [hk] at h; cases h
    | some cs =>
      rw [hk] at h
      simp only [Option.some.injEq] at h
      have ho := own_length a ⟨bi, bn, ba, bl, bk, bt, bkey⟩
      unfold ownOps at ho
      subst h
      simp only [List.length_append] at ho ⊢
      have hcs : cs.length ≤ sizeAll a.children + sizeAll bk := by
        unfold kidOps at hk
        simp only at hk
        split at hk
        · rename_i hak
          rw [Bool.and_eq_true, allKeyed_iff, allKeyed_iff] at hak
          cases hd : diffKeyed a.children bk with
          | none => rw [hd] at hk; cases hk
          | some pairs =>
            rw [hd] at hk
            simp only at hk
            cases hi : insertionOps bk (unpaired a.children bk).length (unpaired a.children bk) with
            | none => rw [hi] at hk; cases hk
            | some ins =>
              rw [hi] at hk
              simp only [Option.some.injEq] at hk
              subst hk
              have h1 := diffKeyed_length bk a.children pairs (keysOk_parts hb).1 (keysOk_parts hb).2 hak.2 hd
              have h2 := insertionOps_length hi
              have h3 := unpaired_length a.children bk
              have h4 := deletionOps_length a.children bk
              have h5 := sizeAll_split (fun t => (locateByKey a.children t.key).isNone) bk
              have h6 := sizeAll_split (fun m => (locateByKey bk m.key).isNone) a.children
              have h7 := length_sizeAll (bk.filter fun t => (locateByKey a.children t.key).isNone)
              have h8 := length_sizeAll (a.children.filter fun m => (locateByKey bk m.key).isNone)
              simp only [List.length_append]
              simp only [Option.not_isNone] at h5 h6
              omega
        · split at hk
          · have h1 := diffZip_length bk a.children cs (keysOk_parts hb).2 hk
            rename_i he
            rw [← he, List.take_length, he, List.take_length] at h1
            exact h1
          · split at hk
            · cases hz : diffZip a.children bk with
              | none => rw [hz] at hk; cases hk
              | some pairs =>
                rw [hz] at hk
                simp only [Option.some.injEq] at hk
                subst hk
                have h1 := diffZip_length bk a.children pairs (keysOk_parts hb).2 hz
                have h2 := sizeAll_take_drop bk.length a.children
                have h3 := length_sizeAll (a.children.drop bk.length)
                have h4 := sizeAll_take_drop a.children.length bk
                simp only [List.length_append, List.length_map]
                omega
            · cases hz : diffZip a.children bk with
              | none => rw [hz] at hk; cases hk
              | some pairs =>
                rw [hz] at hk
                simp only [Option.some.injEq] at hk
                subst hk
                have h1 := diffZip_length bk a.children pairs (keysOk_parts hb).2 hz
                have h2 := sizeAll_take_drop bk.length a.children
                have h3 := createAll_length (bk.drop a.children.length) (some a.id)
                have h4 := sizeAll_take_drop a.children.length bk
                simp only [List.length_append]
                omega
      rw [size_eq a, Element.size]
      omega
theorem diffKeyed_length : ∀ (ts mine : List Element) (ops : List Op), (ts.filterMap fun c => c.key).Nodup → KeysOkAll ts → AllKeyed ts →
    diffKeyed mine ts = some ops →
    ops.length ≤ sizeAll (mine.filter fun m => (locateByKey ts m.key).isSome) + sizeAll (ts.filter fun t => (locateByKey mine t.key).isSome)
  | [], mine, ops, _, _, _, h => by rw [diffKeyed] at h; cases h; simp
  | t :: ts, mine, ops, hn, hk, hall, h => by
    rw [KeysOkAll] at hk
    have hall' : AllKeyed ts := fun m hm => hall m (List.mem_cons_of_mem _ hm)
    obtain ⟨k, htk⟩ : ∃ k, t.key = some k := Option.ne_none_iff_exists'.1 (hall t (List.mem_cons_self ..))
    rw [List.filterMap_cons, htk] at hn
    simp only [List.nodup_cons] at hn
    rw [diffKeyed] at h
    cases h1 : locateByKey mine t.key with
    | none =>
      rw [h1] at h
      have ih := diffKeyed_length ts mine ops hn.2 hk.2 hall' h
      have hm : mine.filter (fun m => (locateByKey (t :: ts) m.key).isSome) = mine.filter (fun m => (locateByKey ts m.key).isSome) := by
        apply List.filter_congr
        intro m hm
        have : t.key ≠ m.key := fun e => locateByKey_none.1 h1 m hm e.symm
        unfold locateByKey
        rw [List.find?_cons_of_neg (by simpa using this)]
      rw [hm, List.filter_cons, h1]
      exact ih
    | some m =>
      rw [h1] at h
      simp only at h
      cases h2 : diff m t with
      | none => rw [h2] at h; cases h
      | some d =>
        rw [h2] at h
        simp only at h
        cases h3 : diffKeyed mine ts with
        | none => rw [h3] at h; cases h
        | some ds =>
          rw [h3] at h
          simp only [Option.some.injEq] at h
          subst h
          have ih := diffKeyed_length ts mine ds hn.2 hk.2 hall' h3
          have hd := diff_length t m d hk.1 h2
          obtain ⟨l, r, hm, hmk, -⟩ := locateByKey_some.1 h1
          have hs := sizeAll_filter (p := fun m => (locateByKey (t :: ts) m.key).isSome) (q := fun m => (locateByKey ts m.key).isSome)
            (m := m) (ms := mine) (by
              intro x _ hx
              unfold locateByKey at hx ⊢
              rw [List.find?_isSome] at hx ⊢
              obtain ⟨y, hy, hy2⟩ := hx
              exact ⟨y, List.mem_cons_of_mem _ hy, hy2⟩) (by rw [hm]; simp) (by
              unfold locateByKey
              rw [List.find?_isSome]
              exact ⟨t, List.mem_cons_self .., by simp [hmk]⟩) (by
              cases h5 : (locateByKey ts m.key).isSome with
              | false => rfl
              | true =>
                unfold locateByKey at h5
                rw [List.find?_isSome] at h5
                obtain ⟨y, hy, hy2⟩ := h5
                exact absurd (keys_mem hy (by rw [← htk, ← hmk]; simpa using hy2)) hn.1)
          rw [List.filter_cons (x := t), h1]
          simp only [Option.isSome_some, if_true, sizeAll, List.length_append]
          omega
theorem diffZip_length : ∀ (bs as : List Element) (ops : List Op), KeysOkAll bs → diffZip as bs = some ops →
    ops.length ≤ sizeAll (as.take bs.length) + sizeAll (bs.take as.length)
  | [], as, ops, _, h => by rw [diffZip] at h; cases h; simp
  | b :: bs, [], ops, _, h => by rw [diffZip] at h; cases h; simp
  | b :: bs, a :: as, ops, hb, h => by
    rw [KeysOkAll] at hb
    rw [diffZip] at h
    cases h1 : diff a b with
    | none => rw [h1] at h; cases h
    | some d =>
      rw [h1] at h
      simp only at h
      cases h2 : diffZip as bs with
      | none => rw [h2] at h; cases h
      | some ds =>
        rw [h2] at h
        simp only [Option.some.injEq] at h
        subst h
        have h3 := diff_length b a d hb.1 h1
        have h4 := diffZip_length bs as ds hb.2 h2
        simp only [List.length_append, List.length_cons, List.take_succ_cons, sizeAll]
        omega
end


/-! ## C122 -/

theorem C122_exact {a b : Element} {ops : List Op} (ua : a.Unkeyed) (ub : b.Unkeyed) (ha : a.AttrsOk) (hb : b.AttrsOk) (h : diff a b = some ops)
    (op : Op) : op ∈ ops ↔ CalledFor a b op := diff_iff b a ops ua ub ha hb h op

theorem C122_size_partial {a b : Element} {ops : List Op} (hb : b.KeysOk) (h : diff a b = some ops) : ops.length ≤ a.size + b.size :=
  diff_length b a ops hb h

theorem C122_first_paint (b : Element) : ∀ ops, Element.diff b none = some ops → ops.length ≤ b.size := by
  intro ops h
  simp only [Element.diff, Option.some.injEq] at h
  subst h
  exact create_length b none

/-- one keyed child, with `n` children of its own -/
def manyOld (n : Nat) : Element :=
  ⟨0, "div", [], [], [⟨1, "div", [], [], (List.range n).map fun i => ⟨i + 2, "p", [], [], [], none, none⟩, none, some "k"⟩], none, none⟩

/-- `n` children with the same key -/
def manyNew (n : Nat) : Element :=
  ⟨0, "div", [], [], (List.range n).map fun i => ⟨i + 1, "div", [], [], [], none, some "k"⟩, none, none⟩

theorem sizeAll_map {f : Nat → Element} (hf : ∀ i, (f i).size = 2) : ∀ is : List Nat, sizeAll (is.map f) = 2 * is.length
  | [] => rfl
  | i :: is => by rw [List.map_cons, sizeAll, hf, sizeAll_map hf is, List.length_cons]; omega

theorem sameKey_diff (m : Element) (h0 : ∃ c ∈ m.children, c.key = none) (t : Element) (ht : t.children = []) :
    ∃ d, diff m t = some d ∧ m.children.length ≤ d.length := by
  rw [diff_eq]
  have hna : ¬ allKeyed m.children = true := by
    rw [allKeyed_iff]
    obtain ⟨c, h1, h2⟩ := h0
    exact fun h => h c h1 h2
  have hpos : 0 < m.children.length := by obtain ⟨c, h1, _⟩ := h0; exact List.length_pos_of_mem h1
  have : kidOps m t = some (m.children.map (fun c => ⟨c.id, .deleteEl⟩)) := by
    unfold kidOps
    rw [ht, if_neg (by simp [hna]), if_neg (by rw [List.length_nil]; omega), if_pos (by simpa using hpos)]
    simp [diffZip]
  rw [this]
  refine ⟨_, rfl, ?_⟩
  simp only [List.length_append, List.length_map]
  omega

theorem sameKey_diffKeyed (m : Element) (hk : m.key = some "k") (h0 : ∃ c ∈ m.children, c.key = none) : ∀ ts : List Element,
    (∀ t ∈ ts, t.key = some "k" ∧ t.children = []) → ∃ ops, diffKeyed [m] ts = some ops ∧ ts.length * m.children.length ≤ ops.length
  | [], _ => ⟨[], by rw [diffKeyed], by simp⟩
  | t :: ts, h => by
    obtain ⟨h1, h2⟩ := h t (List.mem_cons_self ..)
    obtain ⟨ds, h3, h4⟩ := sameKey_diffKeyed m hk h0 ts (fun t ht => h t (List.mem_cons_of_mem _ ht))
    obtain ⟨d, h5, h6⟩ := sameKey_diff m h0 t h2
    have : locateByKey [m] t.key = some m := by simp [locateByKey, hk, h1]
    rw [diffKeyed, this]
    simp only [h5, h3]
    refine ⟨_, rfl, ?_⟩
    rw [List.length_cons, List.length_append, Nat.add_mul]
    omega

/-- siblings with the same key: no multiple of the sizes of the two views bounds the length of the changeset -/
theorem C122_size_refuted (c : Nat) : ∃ a b ops, diff a b = some ops ∧ c * (a.size + b.size) < ops.length := by
  have hpos : 0 < 4 * c + 7 := by omega
  obtain ⟨ops, h1, h2⟩ := sameKey_diffKeyed
    ⟨1, "div", [], [], (List.range (4 * c + 7)).map fun i => ⟨i + 2, "p", [], [], [], none, none⟩, none, some "k"⟩ rfl
    ⟨_, List.mem_map.2 ⟨0, List.mem_range.2 hpos, rfl⟩, rfl⟩ (manyNew (4 * c + 7)).children (by
      intro t ht
      obtain ⟨i, -, rfl⟩ := List.mem_map.1 ht
      exact ⟨rfl, rfl⟩)
  have hall : allKeyed (manyOld (4 * c + 7)).children = true := by rfl
  have hall2 : allKeyed (manyNew (4 * c + 7)).children = true := by
    rw [allKeyed_iff]
    intro t ht
    obtain ⟨i, -, rfl⟩ := List.mem_map.1 ht
    simp
  have hun : unpaired (manyOld (4 * c + 7)).children (manyNew (4 * c + 7)).children = [] := by
    apply unpaired_keys
    intro t ht
    obtain ⟨i, -, rfl⟩ := List.mem_map.1 ht
    simp [manyOld]
  have hde : deletionOps (manyOld (4 * c + 7)).children (manyNew (4 * c + 7)).children = [] := by
    apply deletionOps_keys
    intro t ht
    simp only [manyOld, List.mem_singleton] at ht
    subst ht
    exact List.mem_map.2 ⟨_, List.mem_map.2 ⟨0, List.mem_range.2 hpos, rfl⟩, rfl⟩
  have hkid : kidOps (manyOld (4 * c + 7)) (manyNew (4 * c + 7)) = some ops := by
    unfold kidOps
    rw [hall, hall2, if_pos (by rfl), hun, hde]
    have h1' : diffKeyed (manyOld (4 * c + 7)).children (manyNew (4 * c + 7)).children = some ops := h1
    rw [h1']
    simp [insertionOps]
  refine ⟨manyOld (4 * c + 7), manyNew (4 * c + 7), _, by rw [diff_eq, hkid], ?_⟩
  have hs1 : (manyOld (4 * c + 7)).size = 4 + 2 * (4 * c + 7) := by
    simp only [manyOld, Element.size, sizeAll, List.length_nil]
    rw [sizeAll_map (fun i => rfl)]
    simp only [List.length_range]
    omega
  have hs2 : (manyNew (4 * c + 7)).size = 2 + 2 * (4 * c + 7) := by
    simp only [manyNew, Element.size, List.length_nil]
    rw [sizeAll_map (fun i => rfl)]
    simp only [List.length_range]
  simp only [manyNew, List.length_map, List.length_range] at h2
  rw [hs1, hs2]
  simp only [List.length_append]
  have : c * (4 + 2 * (4 * c + 7) + (2 + 2 * (4 * c + 7))) < (4 * c + 7) * (4 * c + 7) := by
    have e1 : c * (4 + 2 * (4 * c + 7) + (2 + 2 * (4 * c + 7))) = 16 * (c * c) + 34 * c := by
      simp only [Nat.mul_add]
      simp only [Nat.mul_left_comm c]
      omega
    have e2 : (4 * c + 7) * (4 * c + 7) = 16 * (c * c) + 56 * c + 49 := by
      simp only [Nat.mul_add, Nat.add_mul]
      have : 4 * c * (4 * c) = 16 * (c * c) := by rw [Nat.mul_mul_mul_comm]
      omega
    omega
  omega

mutual
theorem unkeyed_keysOk : ∀ a : Element, a.Unkeyed → a.KeysOk
  | ⟨_, _, _, _, children, _, _⟩, h => by
    rw [Element.Unkeyed] at h
    rw [Element.KeysOk]
    refine ⟨?_, unkeyedAll_keysOk children h.2⟩
    have : (children.filterMap fun c => c.key) = [] := by
      rw [List.filterMap_eq_nil_iff]
      intro c hc
      have : c.Unkeyed := unkeyedAll_mem h.2 hc
      cases c; rw [Element.Unkeyed] at this; exact this.1
    rw [this]
    exact List.nodup_nil
theorem unkeyedAll_keysOk : ∀ cs : List Element, UnkeyedAll cs → KeysOkAll cs
  | [], _ => by rw [KeysOkAll]; trivial
  | c :: cs, h => by rw [UnkeyedAll] at h; rw [KeysOkAll]; exact ⟨unkeyed_keysOk c h.1, unkeyedAll_keysOk cs h.2⟩
end

/-- Views: the changeset exists, holds exactly the instructions the change calls for, and is no longer than the two views together. -/
theorem C122_views {w w' : WrappedBodyNode} (hw : w.AttrsOk) (hw' : w'.AttrsOk) {g g' n n' : Nat} {a b : Element} (ha : intoElement w g = some (a, n))
    (hb : intoElement w' g' = some (b, n')) :
    ∃ ops, a.diff (some b) = some ops ∧ (∀ op, op ∈ ops ↔ CalledFor a b op) ∧ ops.length ≤ a.size + b.size := by
  obtain ⟨⟨ops, h⟩, -⟩ := C59_unkeyed_partial a b (intoElement_unkeyed ha) (intoElement_unkeyed hb)
  exact ⟨ops, h, diff_iff b a ops (intoElement_unkeyed ha) (intoElement_unkeyed hb) (intoElement_attrsOk hw ha) (intoElement_attrsOk hw' hb) h,
    diff_length b a ops (unkeyed_keysOk b (intoElement_unkeyed hb)) h⟩

/-- non-vacuity, and the bound is met: one element for another, with everything different -/
example : ∃ ops, diff ⟨0, "p", [("a", "1")], [⟨"l", "click"⟩], [], some "x", none⟩ ⟨1, "h1", [("b", "2")], [], [], none, none⟩ = some ops ∧ ops.length = 6 ∧
    CalledFor ⟨0, "p", [("a", "1")], [⟨"l", "click"⟩], [], some "x", none⟩ ⟨1, "h1", [("b", "2")], [], [], none, none⟩ ⟨0, .removeAttribute "a"⟩ ∧
    ¬ CalledFor ⟨0, "p", [("a", "1")], [⟨"l", "click"⟩], [], some "x", none⟩ ⟨1, "h1", [("b", "2")], [], [], none, none⟩ ⟨0, .deleteEl⟩ := by
  have hx : ∀ op, _ := C122_exact (a := ⟨0, "p", [("a", "1")], [⟨"l", "click"⟩], [], some "x", none⟩) (b := ⟨1, "h1", [("b", "2")], [], [], none, none⟩)
    (by simp [Element.Unkeyed, UnkeyedAll]) (by simp [Element.Unkeyed, UnkeyedAll]) (by simp [Element.AttrsOk, AttrsOkAll, Headers.Distinct])
    (by simp [Element.AttrsOk, AttrsOkAll, Headers.Distinct]) rfl
  refine ⟨_, rfl, by decide, (hx _).1 (by decide), fun h => absurd ((hx _).2 h) (by decide)⟩

end Puck
