import Verif.Spec.ChangesAny
import Verif.Props.Changes
import Verif.Props.Diff
/-!
# What any changeset consists of (C122), and where keyed children are inserted (C124)
-/
namespace Puck

open Shape

theorem newCount_eq (x y : Element) : (unpaired x.children y.children).length = newCount x y := by
  rw [unpaired_length]
  unfold newCount
  congr 1
  apply List.filter_congr
  intro t _
  rw [Bool.eq_iff_iff]
  simp [locateByKey_none]

theorem unpaired_mem {ms ts : List Element} {i : Nat} : i ∈ unpaired ms ts ↔ ∃ t, ts[i]? = some t ∧ ∀ m ∈ ms, m.key ≠ t.key := by
  unfold unpaired
  rw [List.mem_filter, List.mem_range]
  constructor
  · rintro ⟨h1, h2⟩
    rw [List.getElem?_eq_getElem h1] at h2 ⊢
    exact ⟨_, rfl, by simpa [locateByKey_none] using h2⟩
  · rintro ⟨t, h1, h2⟩
    refine ⟨(List.getElem?_eq_some_iff.1 h1).1, ?_⟩
    rw [h1]
    simpa [locateByKey_none] using h2

theorem insertionOps_mem {ts : List Element} {len : Nat} : ∀ {un : List Nat} {ins : List Op}, insertionOps ts len un = some ins → ∀ op,
    op ∈ ins ↔ ∃ i ∈ un, insertionOp ts len i = some op
  | [], ins, h, op => by rw [insertionOps] at h; cases h; simp
  | e :: un, ins, h, op => by
    rw [insertionOps] at h
    cases h1 : insertionOp ts len e with
    | none => rw [h1] at h; cases h
    | some o =>
      rw [h1] at h
      simp only at h
      cases h2 : insertionOps ts len un with
      | none => rw [h2] at h; cases h
      | some os =>
        rw [h2] at h
        simp only [Option.some.injEq] at h
        subst h
        rw [List.mem_cons, insertionOps_mem h2 op]
        simp only [List.mem_cons, exists_eq_or_imp, h1, Option.some.injEq]
        constructor
        · rintro (rfl | h)
          · exact Or.inl rfl
          · exact Or.inr h
        · rintro (rfl | h)
          · exact Or.inl rfl
          · exact Or.inr h

theorem deletionOps_mem {ms ts : List Element} {op : Op} : op ∈ deletionOps ms ts ↔ ∃ c ∈ ms, (∀ t ∈ ts, t.key ≠ c.key) ∧ op = ⟨c.id, .deleteEl⟩ := by
  unfold deletionOps
  rw [List.mem_filterMap]
  constructor
  · rintro ⟨c, hc, h⟩
    split at h
    · rename_i h1
      cases h
      exact ⟨c, hc, locateByKey_none.1 (by simpa using h1), rfl⟩
    · cases h
  · rintro ⟨c, hc, h, rfl⟩
    exact ⟨c, hc, by rw [if_pos]; simpa using locateByKey_none.2 h⟩

/-- the instructions about children, when they are compared by key -/
def KeyOps (x y : Element) (op : Op) : Prop :=
  (∃ c ∈ x.children, (∀ t ∈ y.children, t.key ≠ c.key) ∧ op = ⟨c.id, .deleteEl⟩) ∨
  (∃ t n, NewAt x y 0 t ∧ y.children[1]? = some n ∧ op = ⟨t.id, .insertBefore n.id⟩) ∨
  (∃ i t, NewAt x y i t ∧ 0 < i ∧ i = newCount x y ∧ op = ⟨t.id, .insertAfter t.id⟩) ∨
  (∃ i t n, NewAt x y i t ∧ 0 < i ∧ i ≠ newCount x y ∧ y.children[i - 1]? = some n ∧ op = ⟨t.id, .insertBefore n.id⟩)

theorem keyOps_iff {x y : Element} {ins : List Op} (h : insertionOps y.children (unpaired x.children y.children).length (unpaired x.children y.children) = some ins)
    (op : Op) : op ∈ ins ++ deletionOps x.children y.children ↔ KeyOps x y op := by
  rw [newCount_eq] at h
  rw [List.mem_append, insertionOps_mem h, deletionOps_mem]
  unfold KeyOps
  constructor
  · rintro (⟨i, h1, h2⟩ | h)
    · right
      obtain ⟨t, h3, h4⟩ := unpaired_mem.1 h1
      unfold insertionOp at h2
      rw [h3] at h2
      simp only at h2
      split at h2
      · rename_i h5
        subst h5
        split at h2
        · rename_i n h6
          cases h2
          exact Or.inl ⟨t, n, ⟨h3, h4⟩, h6, rfl⟩
        · cases h2
      · rename_i h5
        split at h2
        · rename_i h6
          cases h2
          exact Or.inr (Or.inl ⟨i, t, ⟨h3, h4⟩, by omega, h6, rfl⟩)
        · rename_i h6
          split at h2
          · rename_i n h7
            cases h2
            exact Or.inr (Or.inr ⟨i, t, n, ⟨h3, h4⟩, by omega, h6, h7, rfl⟩)
          · cases h2
    · exact Or.inl h
  · rintro (h | ⟨t, n, h1, h2, rfl⟩ | ⟨i, t, h1, h2, h3, rfl⟩ | ⟨i, t, n, h1, h2, h3, h4, rfl⟩)
    · exact Or.inr h
    · exact Or.inl ⟨0, unpaired_mem.2 ⟨t, h1⟩, by unfold insertionOp; rw [h1.1]; simp [h2]⟩
    · exact Or.inl ⟨i, unpaired_mem.2 ⟨t, h1⟩, by unfold insertionOp; rw [h1.1]; simp only; rw [if_neg (by omega), if_pos h3]⟩
    · exact Or.inl ⟨i, unpaired_mem.2 ⟨t, h1⟩, by unfold insertionOp; rw [h1.1]; simp [show i ≠ 0 by omega, h3, h4]⟩

/-- the instructions about children, when they are compared by position -/
def PlaceOps (x y : Element) (op : Op) : Prop :=
  (∃ c ∈ x.children.drop y.children.length, op = ⟨c.id, .deleteEl⟩) ∨
  (∃ c ∈ y.children.drop x.children.length, ∃ q K, CreatedAt x.id c q K ∧ (op = ⟨K.id, .createTag K.name (some q)⟩ ∨ Fills K op))

theorem leadsTo_iff {x y : Element} (hx : x.attributes.Distinct) (hy : y.attributes.Distinct) (op : Op) : LeadsTo x y op ↔
    op ∈ ownOps x y ∨ op ∈ x.diffId y ∨ (ByKey x y ∧ KeyOps x y op) ∨ (¬ ByKey x y ∧ PlaceOps x y op) := by
  rw [own_iff hx hy, diffId_iff]
  unfold KeyOps PlaceOps
  constructor
  · intro h
    cases h with
    | tag h => exact Or.inl (Or.inl ⟨h, rfl⟩)
    | attr h1 h2 => exact Or.inl (Or.inr (Or.inl ⟨_, _, h1, h2, rfl⟩))
    | noAttr h1 h2 => exact Or.inl (Or.inr (Or.inr (Or.inl ⟨_, h1, h2, rfl⟩)))
    | text h1 h2 => exact Or.inl (Or.inr (Or.inr (Or.inr (Or.inl ⟨_, h1, h2, rfl⟩))))
    | noText h1 h2 => exact Or.inl (Or.inr (Or.inr (Or.inr (Or.inr (Or.inl ⟨h1, h2, rfl⟩)))))
    | oldListeners h => exact Or.inl (Or.inr (Or.inr (Or.inr (Or.inr (Or.inr (Or.inl ⟨h, rfl⟩))))))
    | newListener h1 h2 => exact Or.inl (Or.inr (Or.inr (Or.inr (Or.inr (Or.inr (Or.inr ⟨h1, _, h2, rfl⟩))))))
    | id h => exact Or.inr (Or.inl ⟨h, rfl⟩)
    | gone h1 h2 => exact Or.inr (Or.inr (Or.inr ⟨h1, Or.inl ⟨_, h2, rfl⟩⟩))
    | created h1 h2 h3 => exact Or.inr (Or.inr (Or.inr ⟨h1, Or.inr ⟨_, h2, _, _, h3, Or.inl rfl⟩⟩))
    | fills h1 h2 h3 h4 => exact Or.inr (Or.inr (Or.inr ⟨h1, Or.inr ⟨_, h2, _, _, h3, Or.inr h4⟩⟩))
    | goneKey h1 h2 h3 => exact Or.inr (Or.inr (Or.inl ⟨h1, Or.inl ⟨_, h2, h3, rfl⟩⟩))
    | insertFirst h1 h2 h3 => exact Or.inr (Or.inr (Or.inl ⟨h1, Or.inr (Or.inl ⟨_, _, h2, h3, rfl⟩)⟩))
    | insertAfter h1 h2 h3 h4 => exact Or.inr (Or.inr (Or.inl ⟨h1, Or.inr (Or.inr (Or.inl ⟨_, _, h2, h3, h4, rfl⟩))⟩))
    | insertBefore h1 h2 h3 h4 h5 => exact Or.inr (Or.inr (Or.inl ⟨h1, Or.inr (Or.inr (Or.inr ⟨_, _, _, h2, h3, h4, h5, rfl⟩))⟩))
  · rintro (h | ⟨h, rfl⟩ | ⟨hk, h⟩ | ⟨hk, h⟩)
    · rcases h with ⟨h1, rfl⟩ | ⟨k, v, h1, h2, rfl⟩ | ⟨k, h1, h2, rfl⟩ | ⟨v, h1, h2, rfl⟩ | ⟨h1, h2, rfl⟩ | ⟨h1, rfl⟩ | ⟨h1, l, h2, rfl⟩
      · exact .tag h1
      · exact .attr h1 h2
      · exact .noAttr h1 h2
      · exact .text h1 h2
      · exact .noText h1 h2
      · exact .oldListeners h1
      · exact .newListener h1 h2
    · exact .id h
    · rcases h with ⟨c, h1, h2, rfl⟩ | ⟨t, n, h1, h2, rfl⟩ | ⟨i, t, h1, h2, h3, rfl⟩ | ⟨i, t, n, h1, h2, h3, h4, rfl⟩
      · exact .goneKey hk h1 h2
      · exact .insertFirst hk h1 h2
      · exact .insertAfter hk h1 h2 h3
      · exact .insertBefore hk h1 h2 h3 h4
    · rcases h with ⟨c, h1, rfl⟩ | ⟨c, h1, q, K, h2, rfl | h3⟩
      · exact .gone hk h1
      · exact .created hk h1 h2
      · exact .fills hk h1 h2 h3

theorem attrsOkAll_drop : ∀ (n : Nat) {cs : List Element}, AttrsOkAll cs → AttrsOkAll (cs.drop n)
  | 0, _, h => h
  | _ + 1, [], h => h
  | n + 1, _ :: _, h => by rw [AttrsOkAll] at h; exact attrsOkAll_drop n h.2

/-- the compared pairs, from the top -/
theorem Matched.iff_top {a b x y : Element} : Matched a b x y ↔ (x = a ∧ y = b) ∨
    (ByKey a b ∧ ∃ t m, t ∈ b.children ∧ FirstKeyed a.children t.key m ∧ Matched m t x y) ∨
    (¬ ByKey a b ∧ ∃ (i : Nat) (m t : Element), a.children[i]? = some m ∧ b.children[i]? = some t ∧ Matched m t x y) := by
  constructor
  · intro h
    cases h with
    | top => exact Or.inl ⟨rfl, rfl⟩
    | keyed h1 h2 h3 h4 => exact Or.inr (Or.inl ⟨h1, _, _, h2, h3, h4⟩)
    | positional i h1 h2 h3 h4 => exact Or.inr (Or.inr ⟨h1, i, _, _, h2, h3, h4⟩)
  · rintro (⟨rfl, rfl⟩ | ⟨h1, t, m, h2, h3, h4⟩ | ⟨h1, i, m, t, h2, h3, h4⟩)
    · exact .top _ _
    · exact .keyed h1 h2 h3 h4
    · exact .positional i h1 h2 h3 h4

mutual
theorem diff_mem : ∀ (b a : Element) (ops : List Op), a.AttrsOk → b.AttrsOk → diff a b = some ops → ∀ op,
    op ∈ ops ↔ ∃ x y, Matched a b x y ∧ LeadsTo x y op
  | ⟨bi, bn, ba, bl, bk, bt, bkey⟩, a, ops, ha, hb, h, op => by
    have hmem : (∃ x y, Matched a ⟨bi, bn, ba, bl, bk, bt, bkey⟩ x y ∧ LeadsTo x y op) ↔
        LeadsTo a ⟨bi, bn, ba, bl, bk, bt, bkey⟩ op ∨
        (ByKey a ⟨bi, bn, ba, bl, bk, bt, bkey⟩ ∧ ∃ t m, t ∈ bk ∧ FirstKeyed a.children t.key m ∧ ∃ x y, Matched m t x y ∧ LeadsTo x y op) ∨
        (¬ ByKey a ⟨bi, bn, ba, bl, bk, bt, bkey⟩ ∧ ∃ (i : Nat) (m t : Element), a.children[i]? = some m ∧ bk[i]? = some t ∧
          ∃ x y, Matched m t x y ∧ LeadsTo x y op) := by
      constructor
      · rintro ⟨x, y, h1, h2⟩
        rcases Matched.iff_top.1 h1 with ⟨rfl, rfl⟩ | ⟨h3, t, m, h4, h5, h6⟩ | ⟨h3, i, m, t, h4, h5, h6⟩
        · exact Or.inl h2
        · exact Or.inr (Or.inl ⟨h3, t, m, h4, h5, x, y, h6, h2⟩)
        · exact Or.inr (Or.inr ⟨h3, i, m, t, h4, h5, x, y, h6, h2⟩)
      · rintro (h2 | ⟨h3, t, m, h4, h5, x, y, h6, h2⟩ | ⟨h3, i, m, t, h4, h5, x, y, h6, h2⟩)
        · exact ⟨_, _, .top _ _, h2⟩
        · exact ⟨x, y, .keyed h3 h4 h5 h6, h2⟩
        · exact ⟨x, y, .positional i h3 h4 h5 h6, h2⟩
    rw [hmem, leadsTo_iff (attrsOk_parts ha).1 (attrsOk_parts hb).1]
    rw [diff_eq] at h
    cases hk : kidOps a ⟨bi, bn, ba, bl, bk, bt, bkey⟩ with
    | none => rw [hk] at h; cases h
    | some cs =>
      rw [hk] at h
      simp only [Option.some.injEq] at h
      have hsplit : op ∈ ops ↔ op ∈ ownOps a ⟨bi, bn, ba, bl, bk, bt, bkey⟩ ∨ op ∈ cs ∨ op ∈ a.diffId ⟨bi, bn, ba, bl, bk, bt, bkey⟩ := by
        rw [← h]
        unfold ownOps
        simp only [List.mem_append, or_assoc]
      rw [hsplit]
      unfold kidOps at hk
      simp only at hk
      split at hk
      · rename_i hak
        rw [Bool.and_eq_true, allKeyed_iff, allKeyed_iff] at hak
        have hby : ByKey a ⟨bi, bn, ba, bl, bk, bt, bkey⟩ := hak
        cases hd : diffKeyed a.children bk with
        | none => rw [hd] at hk; cases hk
        | some pairs =>
          rw [hd] at hk
          simp only at hk
          cases hi : insertionOps bk (unpaired a.children bk).length (unpaired a.children bk) with
          | none => rw [hi] at hk; cases hk
          | some ins =>
            rw [hi] at hk
            simp only [Option.some.injEq] at hk
            have h1 := keyOps_iff (x := a) (y := ⟨bi, bn, ba, bl, bk, bt, bkey⟩) hi op
            have h2 := diffKeyed_mem bk a.children pairs (attrsOk_parts ha).2 (attrsOk_parts hb).2 hd op
            have h3 : op ∈ cs ↔ op ∈ pairs ∨ op ∈ ins ++ deletionOps a.children bk := by
              rw [← hk]; simp only [List.mem_append, or_assoc]
            rw [h3, h2, h1]
            constructor
            · rintro (h | (h | h) | h)
              · exact Or.inl (Or.inl h)
              · exact Or.inr (Or.inl ⟨hby, h⟩)
              · exact Or.inl (Or.inr (Or.inr (Or.inl ⟨hby, h⟩)))
              · exact Or.inl (Or.inr (Or.inl h))
            · rintro ((h | h | ⟨_, h⟩ | ⟨h, _⟩) | ⟨_, h⟩ | ⟨h, _⟩)
              · exact Or.inl h
              · exact Or.inr (Or.inr h)
              · exact Or.inr (Or.inl (Or.inr h))
              · exact absurd hby h
              · exact Or.inr (Or.inl (Or.inl h))
              · exact absurd hby h
      · rename_i hak
        rw [Bool.and_eq_true, allKeyed_iff, allKeyed_iff] at hak
        have hby : ¬ ByKey a ⟨bi, bn, ba, bl, bk, bt, bkey⟩ := hak
        have hcr := createAll_iff (bk.drop a.children.length) a.id (attrsOkAll_drop _ (attrsOk_parts hb).2) op
        obtain ⟨pairs, hz, hcs⟩ : ∃ pairs, diffZip a.children bk = some pairs ∧ (op ∈ cs ↔ op ∈ pairs ∨
            PlaceOps a ⟨bi, bn, ba, bl, bk, bt, bkey⟩ op) := by
          unfold PlaceOps
          simp only
          rw [← hcr]
          split at hk
          · rename_i he
            refine ⟨cs, hk, ?_⟩
            rw [List.drop_eq_nil_of_le (by omega), List.drop_eq_nil_of_le (by omega)]
            simp [createAll]
          · split at hk
            · cases hz : diffZip a.children bk with
              | none => rw [hz] at hk; cases hk
              | some pairs =>
                rw [hz] at hk
                simp only [Option.some.injEq] at hk
                refine ⟨pairs, rfl, ?_⟩
                rw [← hk, List.drop_eq_nil_of_le (as := bk) (by omega)]
                simp only [List.mem_append, List.mem_map, createAll, List.not_mem_nil, or_false]
                rw [Or.comm]
                simp only [eq_comm]
            · cases hz : diffZip a.children bk with
              | none => rw [hz] at hk; cases hk
              | some pairs =>
                rw [hz] at hk
                simp only [Option.some.injEq] at hk
                refine ⟨pairs, rfl, ?_⟩
                rw [← hk, List.drop_eq_nil_of_le (as := a.children) (by omega)]
                simp
        rw [hcs, diffZip_mem bk a.children pairs (attrsOk_parts ha).2 (attrsOk_parts hb).2 hz op]
        constructor
        · rintro (h | (h | h) | h)
          · exact Or.inl (Or.inl h)
          · exact Or.inr (Or.inr ⟨hby, h⟩)
          · exact Or.inl (Or.inr (Or.inr (Or.inr ⟨hby, h⟩)))
          · exact Or.inl (Or.inr (Or.inl h))
        · rintro ((h | h | ⟨h, _⟩ | ⟨_, h⟩) | ⟨h, _⟩ | ⟨_, h⟩)
          · exact Or.inl h
          · exact Or.inr (Or.inr h)
          · exact absurd h hby
          · exact Or.inr (Or.inl (Or.inr h))
          · exact absurd h hby
          · exact Or.inr (Or.inl (Or.inl h))
theorem diffKeyed_mem : ∀ (ts mine : List Element) (ops : List Op), AttrsOkAll mine → AttrsOkAll ts → diffKeyed mine ts = some ops → ∀ op,
    op ∈ ops ↔ ∃ t m, t ∈ ts ∧ FirstKeyed mine t.key m ∧ ∃ x y, Matched m t x y ∧ LeadsTo x y op
  | [], mine, ops, _, _, h, op => by rw [diffKeyed] at h; cases h; simp
  | t :: ts, mine, ops, hm, ht, h, op => by
    rw [AttrsOkAll] at ht
    rw [diffKeyed] at h
    cases h1 : locateByKey mine t.key with
    | none =>
      rw [h1] at h
      rw [diffKeyed_mem ts mine ops hm ht.2 h op]
      constructor
      · rintro ⟨u, m, h2, h3⟩; exact ⟨u, m, by simp [h2], h3⟩
      · rintro ⟨u, m, h2, h3, h4⟩
        rcases List.mem_cons.1 h2 with rfl | h2
        · rw [← locateByKey_some, h1] at h3; cases h3
        · exact ⟨u, m, h2, h3, h4⟩
    | some m =>
      rw [h1] at h
      simp only at h
      cases h2 : diff m t with
      | none => rw [h2] at h; cases h
      | some d =>
        rw [h2] at h
        simp only at h
        cases h3 : diffKeyed mine ts with
        | none => rw [h3] at h; cases h
        | some ds =>
          rw [h3] at h
          simp only [Option.some.injEq] at h
          subst h
          have hf := locateByKey_some.1 h1
          have hmm : m ∈ mine := by obtain ⟨l, r, e, -⟩ := hf; rw [e]; simp
          rw [List.mem_append, diff_mem t m d (attrsOkAll_mem hm hmm) ht.1 h2 op, diffKeyed_mem ts mine ds hm ht.2 h3 op]
          constructor
          · rintro (h | ⟨u, m', h4, h5⟩)
            · exact ⟨t, m, by simp, hf, h⟩
            · exact ⟨u, m', by simp [h4], h5⟩
          · rintro ⟨u, m', h4, h5, h6⟩
            rcases List.mem_cons.1 h4 with rfl | h4
            · rw [← locateByKey_some, h1] at h5
              cases h5
              exact Or.inl h6
            · exact Or.inr ⟨u, m', h4, h5, h6⟩
theorem diffZip_mem : ∀ (bs as : List Element) (ops : List Op), AttrsOkAll as → AttrsOkAll bs → diffZip as bs = some ops → ∀ op,
    op ∈ ops ↔ ∃ (k : Nat) (m t : Element), as[k]? = some m ∧ bs[k]? = some t ∧ ∃ x y, Matched m t x y ∧ LeadsTo x y op
  | [], as, ops, _, _, h, op => by rw [diffZip] at h; cases h; simp
  | b :: bs, [], ops, _, _, h, op => by rw [diffZip] at h; cases h; simp
  | b :: bs, a :: as, ops, ha, hb, h, op => by
    rw [AttrsOkAll] at ha hb
    rw [diffZip] at h
    cases h1 : diff a b with
    | none => rw [h1] at h; cases h
    | some d =>
      rw [h1] at h
      simp only at h
      cases h2 : diffZip as bs with
      | none => rw [h2] at h; cases h
      | some ds =>
        rw [h2] at h
        simp only [Option.some.injEq] at h
        subst h
        rw [List.mem_append, diff_mem b a d ha.1 hb.1 h1 op, diffZip_mem bs as ds ha.2 hb.2 h2 op]
        constructor
        · rintro (h | ⟨k, x, y, h3, h4, h5⟩)
          · exact ⟨0, a, b, rfl, rfl, h⟩
          · exact ⟨k + 1, x, y, h3, h4, h5⟩
        · rintro ⟨k, x, y, h3, h4, h5⟩
          cases k with
          | zero =>
            simp only [List.getElem?_cons_zero, Option.some.injEq] at h3 h4
            subst h3; subst h4
            exact Or.inl h5
          | succ k => exact Or.inr ⟨k, x, y, h3, h4, h5⟩
end

/-- **C122, for any two trees.** The instructions of a changeset are exactly those to which the compared pairs of elements lead. -/
theorem C122_any {a b : Element} {ops : List Op} (ha : a.AttrsOk) (hb : b.AttrsOk) (h : a.diff (some b) = some ops) (op : Op) :
    op ∈ ops ↔ ∃ x y, Matched a b x y ∧ LeadsTo x y op := diff_mem b a ops ha hb h op

/-- non-vacuity: of three keyed children the second goes, a new one comes first, and the third gets another text -/
example : ∃ ops, Element.diff
    ⟨0, "ul", [], [], [⟨1, "li", [], [], [], some "x", some "a"⟩, ⟨2, "li", [], [], [], some "y", some "b"⟩, ⟨3, "li", [], [], [], some "z", some "c"⟩], none, none⟩
    (some ⟨0, "ul", [], [], [⟨4, "li", [], [], [], some "w", some "d"⟩, ⟨1, "li", [], [], [], some "x", some "a"⟩, ⟨3, "li", [], [], [], some "zz", some "c"⟩], none, none⟩)
      = some ops ∧ ops = [⟨3, .setText "zz"⟩, ⟨4, .insertBefore 1⟩, ⟨2, .deleteEl⟩] := ⟨_, rfl, rfl⟩

/-! ## C124 -/

/-- is an instruction to insert -/
def Instruction.Inserts : Instruction → Prop
  | .insertBefore _ => True
  | .insertAfter _ => True
  | _ => False

theorem fills_inserts {K : Element} {op : Op} (h : Fills K op) : ¬ op.instruction.Inserts := by
  cases h <;> exact fun h => h

theorem place_of_insert {y : Element} (hn : (y.children.map fun c => c.id).Nodup) {i j : Nat} {s t : Element} (hs : y.children[i]? = some s)
    (ht : y.children[j]? = some t) (h : s.id = t.id) : i = j := by
  have h1 : (y.children.map fun c => c.id)[i]? = some s.id := by rw [List.getElem?_map, hs]; rfl
  have h2 : (y.children.map fun c => c.id)[j]? = some s.id := by rw [List.getElem?_map, ht, h]; rfl
  exact (List.getElem?_inj (List.getElem?_eq_some_iff.1 h1).1 hn).1 (h1.trans h2.symm)

/-- **C124 (what holds, and exactly when).** Between any two trees, each new keyed child gets an instruction to insert it, such instructions are there for
new keyed children only, and each of them puts the child where it belongs if and only if it is the first one. -/
theorem C124_exact_partial {a b : Element} {ops : List Op} (ha : a.AttrsOk) (hb : b.AttrsOk) (h : a.diff (some b) = some ops) :
    (∀ x y, Matched a b x y → ByKey x y → ∀ i t, NewAt x y i t → ∃ op ∈ ops, op.id = t.id ∧ op.instruction.Inserts ∧
      ((y.children.map fun c => c.id).Nodup → (RightPlace y.children i op.instruction ↔ i = 0))) ∧
    ∀ op ∈ ops, op.instruction.Inserts → ∃ x y i t, Matched a b x y ∧ ByKey x y ∧ NewAt x y i t ∧ op.id = t.id ∧
      ((y.children.map fun c => c.id).Nodup → (RightPlace y.children i op.instruction ↔ i = 0)) := by
  have first : ∀ {x y t n : Element}, NewAt x y 0 t → y.children[1]? = some n → ((y.children.map fun c => c.id).Nodup →
      (RightPlace y.children 0 (.insertBefore n.id) ↔ 0 = 0)) := fun _ h2 _ => ⟨fun _ => rfl, fun _ => ⟨_, h2, rfl⟩⟩
  have after : ∀ {x y t : Element} {i : Nat}, NewAt x y i t → 0 < i → ((y.children.map fun c => c.id).Nodup →
      (RightPlace y.children i (.insertAfter t.id) ↔ i = 0)) := by
    intro x y t i h1 h2 hn
    refine ⟨?_, fun h => by omega⟩
    rintro ⟨-, s, h3, h4⟩
    have := place_of_insert hn h3 h1.1 h4
    omega
  have before : ∀ {x y t n : Element} {i : Nat}, NewAt x y i t → 0 < i → y.children[i - 1]? = some n → ((y.children.map fun c => c.id).Nodup →
      (RightPlace y.children i (.insertBefore n.id) ↔ i = 0)) := by
    intro x y t n i h1 h2 h3 hn
    refine ⟨?_, fun h => by omega⟩
    rintro ⟨s, h4, h5⟩
    have := place_of_insert hn h4 h3 h5
    omega
  constructor
  · intro x y hm hk i t ht
    by_cases h0 : i = 0
    · subst h0
      by_cases hl : 1 < y.children.length
      · have h1 := List.getElem?_eq_getElem hl
        exact ⟨_, (C122_any ha hb h _).2 ⟨x, y, hm, .insertFirst hk ht h1⟩, rfl, trivial, first ht h1⟩
      · exfalso
        have hlt := (List.getElem?_eq_some_iff.1 ht.1).1
        have hc : DiffCrash x y := by
          refine .here x y t hk.1 hk.2 ?_ ht.2
          have h1 := ht.1
          match hy : y.children, hl, hlt with
          | [u], _, _ => rw [hy] at h1; simp at h1; rw [h1]
          | _ :: _ :: _, hl, _ => exact absurd (by simp) hl
        have : DiffCrash a b := by
          clear h ha hb ht hlt first after before
          induction hm with
          | top => exact hc
          | keyed h1 h2 h3 _ ih => exact .keyed _ _ _ _ h1.1 h1.2 h2 h3 (ih hk hl hc)
          | positional i h1 h2 h3 _ ih => exact .positional _ _ _ _ i h1 h2 h3 (ih hk hl hc)
        rw [(C59_crash_refuted.1 a b).2 this] at h
        cases h
    · by_cases hn : i = newCount x y
      · exact ⟨_, (C122_any ha hb h _).2 ⟨x, y, hm, .insertAfter hk ht (by omega) hn⟩, rfl, trivial, after ht (by omega)⟩
      · have hlt := (List.getElem?_eq_some_iff.1 ht.1).1
        have h1 := List.getElem?_eq_getElem (l := y.children) (i := i - 1) (by omega)
        exact ⟨_, (C122_any ha hb h _).2 ⟨x, y, hm, .insertBefore hk ht (by omega) hn h1⟩, rfl, trivial, before ht (by omega) h1⟩
  · intro op hop hi
    obtain ⟨x, y, hm, hl⟩ := (C122_any ha hb h op).1 hop
    cases hl with
    | insertFirst h1 h2 h3 => exact ⟨x, y, 0, _, hm, h1, h2, rfl, first h2 h3⟩
    | insertAfter h1 h2 h3 h4 => exact ⟨x, y, _, _, hm, h1, h2, rfl, after h2 h3⟩
    | insertBefore h1 h2 h3 h4 h5 => exact ⟨x, y, _, _, hm, h1, h2, rfl, before h2 h3 h5⟩
    | fills h1 h2 h3 h4 => exact absurd hi (fills_inserts h4)
    | _ => exact absurd hi id

/-- **C124 is false**: to a list with one entry two more are added at the end; the first of them is to go before the entry it follows, and the second one
after itself.  (With one entry added, it is to go after itself.) -/
theorem C124_refuted (i j k : Nat) :
    Element.diff ⟨0, "ul", [], [], [⟨i, "li", [], [], [], none, some "a"⟩], none, none⟩
      (some ⟨0, "ul", [], [], [⟨i, "li", [], [], [], none, some "a"⟩, ⟨j, "li", [], [], [], none, some "b"⟩], none, none⟩) = some [⟨j, .insertAfter j⟩] ∧
    Element.diff ⟨0, "ul", [], [], [⟨i, "li", [], [], [], none, some "a"⟩], none, none⟩
      (some ⟨0, "ul", [], [], [⟨i, "li", [], [], [], none, some "a"⟩, ⟨j, "li", [], [], [], none, some "b"⟩, ⟨k, "li", [], [], [], none, some "c"⟩], none, none⟩) =
      some [⟨j, .insertBefore i⟩, ⟨k, .insertAfter k⟩] := by
  constructor <;>
    simp [Element.diff, diff, diffKeyed, allKeyed, unpaired, insertionOps, insertionOp, deletionOps, Element.diffName, Element.diffAttributes, Element.diffText,
      Element.diffListeners, Element.diffId, locateByKey, Headers.same, List.range_succ]

end Puck
