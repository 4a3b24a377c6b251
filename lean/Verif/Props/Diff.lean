import Verif.Lemmas.DiffTree
import Verif.Lemmas.SafeIds
import Verif.Props.View
/-!
# Properties of changesets (C56 - C60)
-/
namespace Puck

/-! ## C56 -/

theorem SameList.allKeyed : ∀ {as bs : List Element}, SameList as bs → allKeyed as = allKeyed bs
  | [], _, h => by rw [SameList] at h; rw [h]
  | a :: as, _, h => by
    rw [SameList] at h
    obtain ⟨b, bs, rfl, h1, h2⟩ := h
    have := SameList.allKeyed h2
    unfold Puck.allKeyed at this ⊢
    rw [List.all_cons, List.all_cons, this, h1.eqs.2.2.2.2.2.1]

theorem SameList.keys : ∀ {as bs : List Element}, SameList as bs → as.map (fun e => e.key) = bs.map (fun e => e.key)
  | [], _, h => by rw [SameList] at h; rw [h]
  | a :: as, _, h => by
    rw [SameList] at h
    obtain ⟨b, bs, rfl, h1, h2⟩ := h
    rw [List.map_cons, List.map_cons, SameList.keys h2, h1.eqs.2.2.2.2.2.1]

theorem unpaired_same {as bs : List Element} (h : SameList as bs) : unpaired as bs = [] := by
  unfold unpaired
  rw [List.filter_eq_nil_iff]
  intro i hi
  rw [List.mem_range] at hi
  rw [List.getElem?_eq_getElem hi]
  simp only [Option.isNone_iff_eq_none, locateByKey_none]
  intro hno
  have hm : bs[i].key ∈ bs.map (fun e => e.key) := List.mem_map.2 ⟨_, List.getElem_mem hi, rfl⟩
  rw [← h.keys] at hm
  obtain ⟨m, h1, h2⟩ := List.mem_map.1 hm
  exact hno m h1 h2

theorem deletionOps_same {as bs : List Element} (h : SameList as bs) : deletionOps as bs = [] := by
  unfold deletionOps
  rw [List.filterMap_eq_nil_iff]
  intro m hm
  have : m.key ∈ as.map (fun e => e.key) := List.mem_map.2 ⟨_, hm, rfl⟩
  rw [h.keys] at this
  obtain ⟨t, h1, h2⟩ := List.mem_map.1 this
  rw [if_neg]
  simp only [Option.isNone_iff_eq_none, locateByKey_none]
  exact fun hno => hno t h1 h2

theorem nodeOps_same {a b : Element} (h : a.Same b) (ha : a.attributes.Distinct) (hb : b.attributes.Distinct) :
    a.diffName b = [] ∧ a.diffAttributes b = [] ∧ a.diffText b = [] ∧ a.diffListeners b = [] ∧ a.diffId b = [] := by
  obtain ⟨e1, e2, e3, e4, e5, e6, e7⟩ := h.eqs
  refine ⟨?_, ?_, ?_, ?_, ?_⟩
  · simp [Element.diffName, e2]
  · simp [Element.diffAttributes, (Headers.same_iff ha hb).2 e3]
  · simp [Element.diffText, e5]
  · simp [Element.diffListeners, e4]
  · simp [Element.diffId, e1]

theorem keysOk_split {l : List Element} {m : Element} {r : List Element}
    (h : ((l ++ m :: r).filterMap fun c => c.key).Nodup) {k : String} (hk : m.key = some k) : ∀ x ∈ l, x.key ≠ m.key := by
  intro x hx he
  rw [List.filterMap_append, List.nodup_append] at h
  exact h.2.2 k (List.mem_filterMap.2 ⟨x, hx, by rw [he]; exact hk⟩) k
    (List.mem_filterMap.2 ⟨m, by simp, hk⟩) rfl

mutual
theorem diff_same : ∀ (b a : Element), a.Same b → a.AttrsOk → b.AttrsOk → a.KeysOk → diff a b = some []
  | ⟨bid, bname, battrs, blis, bch, btext, bkey⟩, a, h, ha, hb, hk => by
    rw [Element.AttrsOk] at hb
    have ha' : a.attributes.Distinct ∧ AttrsOkAll a.children := by cases a; rw [Element.AttrsOk] at ha; exact ha
    have hk' : (a.children.filterMap fun c => c.key).Nodup ∧ KeysOkAll a.children := by
      cases a; rw [Element.KeysOk] at hk; exact hk
    obtain ⟨n1, n2, n3, n4, n5⟩ := nodeOps_same h ha'.1 hb.1
    obtain ⟨e1, e2, e3, e4, e5, e6, e7⟩ := h.eqs
    simp only at e7
    have hkid : kidOps a ⟨bid, bname, battrs, blis, bch, btext, bkey⟩ = some [] := by
      unfold kidOps
      simp only
      by_cases hak : allKeyed a.children = true
      · have hc : (allKeyed a.children && allKeyed bch) = true := by rw [← e7.allKeyed, hak]; rfl
        rw [if_pos hc, diffKeyed_same bch [] a.children a.children rfl e7 ha'.2 hb.2 hk'.2 hk'.1 hak, unpaired_same e7,
          deletionOps_same e7]
        rfl
      · have hc : ¬ (allKeyed a.children && allKeyed bch) = true := fun hh => hak (Bool.and_eq_true_iff.1 hh).1
        rw [if_neg hc, if_pos e7.length]
        exact diffZip_same bch a.children e7 ha'.2 hb.2 hk'.2
    rw [diff_eq, hkid, n1, n2, n3, n4, n5]
    rfl
theorem diffKeyed_same : ∀ (bs pre suf as : List Element), as = pre ++ suf → SameList suf bs → AttrsOkAll suf → AttrsOkAll bs →
    KeysOkAll suf → (as.filterMap fun c => c.key).Nodup → allKeyed as = true → diffKeyed as bs = some []
  | [], _, _, _, _, _, _, _, _, _, _ => by rw [diffKeyed]
  | b :: bs, pre, suf, as, has, hs, ha, hb, hk, hn, hak => by
    have hs' := hs.symm
    rw [SameList] at hs'
    obtain ⟨m, suf', rfl, h1, h2⟩ := hs'
    subst has
    rw [AttrsOkAll] at ha hb
    rw [KeysOkAll] at hk
    have hmk : ∃ k, m.key = some k := by
      have := (allKeyed_iff _).1 hak m (by simp)
      exact Option.ne_none_iff_exists'.1 this
    obtain ⟨k, hmk⟩ := hmk
    have hloc : locateByKey (pre ++ m :: suf') b.key = some m := by
      rw [locateByKey_some, h1.eqs.2.2.2.2.2.1]
      exact ⟨pre, suf', rfl, rfl, keysOk_split hn hmk⟩
    have hd := diff_same b m h1.symm ha.1 hb.1 hk.1
    have hr := diffKeyed_same bs (pre ++ [m]) suf' (pre ++ m :: suf') (by simp) h2.symm ha.2 hb.2 hk.2 hn hak
    rw [diffKeyed]
    simp only [hloc, hd, hr]
    rfl
theorem diffZip_same : ∀ (bs as : List Element), SameList as bs → AttrsOkAll as → AttrsOkAll bs → KeysOkAll as →
    diffZip as bs = some []
  | [], _, _, _, _, _ => by rw [diffZip]
  | b :: bs, as, h, ha, hb, hk => by
    have h' := h.symm
    rw [SameList] at h'
    obtain ⟨a, as, rfl, h1, h2⟩ := h'
    rw [AttrsOkAll] at ha hb
    rw [KeysOkAll] at hk
    rw [diffZip]
    simp only [diff_same b a h1.symm ha.1 hb.1 hk.1, diffZip_same bs as h2.symm ha.2 hb.2 hk.2]
    rfl
end

/-- **C56.** The changeset between two trees that are the same view (attribute maps compared as maps, whatever
their iteration orders) is empty, provided no two siblings have the same key. -/
theorem C56_unchanged (a b : Element) (h : a.Same b) (ha : a.AttrsOk) (hb : b.AttrsOk) (hk : a.KeysOk) :
    a.diff (some b) = some [] := diff_same b a h ha hb hk

/-- non-vacuity: two attributes in different iteration orders -/
example : (⟨0, "div", [("a", "1"), ("b", "2")], [], [.blank 1 "p"], some "x", none⟩ : Element).diff
    (some ⟨0, "div", [("b", "2"), ("a", "1")], [], [.blank 1 "p"], some "x", none⟩) = some [] := by
  refine C56_unchanged _ _ ?_ ?_ ?_ ?_
  · rw [Element.Same]
    refine ⟨rfl, rfl, ?_, rfl, rfl, rfl, SameList.refl _⟩
    intro k
    simp only [Headers.get, List.find?_cons]
    by_cases h1 : "a" = k
    · subst h1; rfl
    · by_cases h2 : "b" = k
      · subst h2; rfl
      · have h1' : ("a" == k) = false := by simpa using h1
        have h2' : ("b" == k) = false := by simpa using h2
        simp only [h1', h2']
  · simp [Element.AttrsOk, AttrsOkAll, Element.blank, Headers.Distinct]
  · simp [Element.AttrsOk, AttrsOkAll, Element.blank, Headers.Distinct]
  · simp [Element.KeysOk, KeysOkAll, Element.blank]

/-- The proviso is needed: with two siblings of the same key, a tree differs from itself. -/
example : (⟨0, "div", [], [], [⟨1, "p", [], [], [], none, some "k"⟩, ⟨2, "p", [], [], [], none, some "k"⟩], none, none⟩ : Element).diff
    (some ⟨0, "div", [], [], [⟨1, "p", [], [], [], none, some "k"⟩, ⟨2, "p", [], [], [], none, some "k"⟩], none, none⟩) =
    some [⟨1, .setId 2⟩] := rfl

/-! ## C59 -/

theorem insertionOp_none {theirs : List Element} {len each : Nat} (h : each < theirs.length) :
    insertionOp theirs len each = none ↔ each = 0 ∧ theirs.length = 1 := by
  unfold insertionOp
  rw [List.getElem?_eq_getElem h]
  simp only
  by_cases h0 : each = 0
  · subst h0
    rw [if_pos rfl]
    by_cases h1 : 1 < theirs.length
    · rw [List.getElem?_eq_getElem h1]
      simp; omega
    · rw [List.getElem?_eq_none (by omega)]
      simp; omega
  · rw [if_neg h0]
    split
    · simp [h0]
    · rw [List.getElem?_eq_getElem (by omega)]
      simp [h0]

theorem insertionOps_none {theirs : List Element} {len : Nat} : ∀ {l : List Nat}, (∀ i ∈ l, i < theirs.length) →
    (insertionOps theirs len l = none ↔ 0 ∈ l ∧ theirs.length = 1)
  | [], _ => by simp [insertionOps]
  | i :: l, h => by
    rw [insertionOps]
    have ih := insertionOps_none (theirs := theirs) (len := len) (l := l) fun j hj => h j (by simp [hj])
    cases h1 : insertionOp theirs len i with
    | none =>
      have := (insertionOp_none (h i (by simp))).1 h1
      simp [this.1, this.2]
    | some op =>
      have hne : ¬ (i = 0 ∧ theirs.length = 1) := fun hh => by
        rw [(insertionOp_none (h i (by simp))).2 hh] at h1; cases h1
      simp only [List.mem_cons]
      cases h2 : insertionOps theirs len l with
      | none =>
        have := ih.1 h2
        simp [this.1, this.2]
      | some ops =>
        simp only [reduceCtorEq, false_iff, not_and]
        rintro (rfl | hm) h3
        · exact hne ⟨rfl, h3⟩
        · rw [ih.2 ⟨hm, h3⟩] at h2; cases h2

theorem unpaired_zero {ms ts : List Element} : 0 ∈ unpaired ms ts ↔ ∃ t r, ts = t :: r ∧ ∀ m ∈ ms, m.key ≠ t.key := by
  unfold unpaired
  cases ts with
  | nil => simp
  | cons t r =>
    simp only [List.mem_filter, List.mem_range, List.length_cons, Nat.zero_lt_succ, List.getElem?_cons_zero, true_and,
      Option.isNone_iff_eq_none, locateByKey_none, List.cons.injEq]
    constructor
    · intro h; exact ⟨t, r, ⟨rfl, rfl⟩, h⟩
    · rintro ⟨_, _, ⟨rfl, rfl⟩, h⟩; exact h

theorem unpaired_lt {ms ts : List Element} : ∀ i ∈ unpaired ms ts, i < ts.length := by
  intro i hi
  unfold unpaired at hi
  simpa using (List.mem_filter.1 hi).1

mutual
theorem diff_none : ∀ (b a : Element), diff a b = none ↔ DiffCrash a b
  | ⟨bid, bname, battrs, blis, bch, btext, bkey⟩, a => by
    have hkid : kidOps a ⟨bid, bname, battrs, blis, bch, btext, bkey⟩ = none ↔
        DiffCrash a ⟨bid, bname, battrs, blis, bch, btext, bkey⟩ := by
      unfold kidOps
      simp only
      by_cases hak : AllKeyed a.children ∧ AllKeyed bch
      · rw [if_pos (by rw [Bool.and_eq_true, allKeyed_iff, allKeyed_iff]; exact hak)]
        have ih := diffKeyed_none bch a.children
        have hins := insertionOps_none (theirs := bch) (len := (unpaired a.children bch).length) (l := unpaired a.children bch)
          unpaired_lt
        have hmain : (∃ t m, t ∈ bch ∧ FirstKeyed a.children t.key m ∧ DiffCrash m t) ∨
            (0 ∈ unpaired a.children bch ∧ bch.length = 1) ↔ DiffCrash a ⟨bid, bname, battrs, blis, bch, btext, bkey⟩ := by
          constructor
          · rintro (⟨t, m, h1, h2, h3⟩ | ⟨h1, h2⟩)
            · exact .keyed _ _ m t hak.1 hak.2 h1 h2 h3
            · obtain ⟨t, r, rfl, h3⟩ := unpaired_zero.1 h1
              have : r = [] := by simpa using h2
              subst this
              exact .here _ _ t hak.1 hak.2 rfl h3
          · intro h
            generalize hB : (⟨bid, bname, battrs, blis, bch, btext, bkey⟩ : Element) = B at h
            cases h with
            | here _ _ t h1 h2 h3 h4 =>
              subst hB
              simp only at h3
              subst h3
              exact Or.inr ⟨unpaired_zero.2 ⟨t, [], rfl, h4⟩, rfl⟩
            | keyed _ _ m t h1 h2 h3 h4 h5 =>
              subst hB
              exact Or.inl ⟨t, m, h3, h4, h5⟩
            | positional _ _ m t i h1 =>
              subst hB
              exact absurd hak h1
        rw [← hmain, ← ih, ← hins]
        cases diffKeyed a.children bch with
        | none => simp
        | some pairs =>
          cases insertionOps bch (unpaired a.children bch).length (unpaired a.children bch) <;> simp
      · rw [if_neg (by rw [Bool.and_eq_true, allKeyed_iff, allKeyed_iff]; exact hak)]
        have ih := diffZip_none bch a.children
        have hmain : (∃ (i : Nat) (m t : Element), a.children[i]? = some m ∧ bch[i]? = some t ∧ DiffCrash m t) ↔
            DiffCrash a ⟨bid, bname, battrs, blis, bch, btext, bkey⟩ := by
          constructor
          · rintro ⟨i, m, t, h1, h2, h3⟩
            exact .positional _ _ m t i hak h1 h2 h3
          · intro h
            generalize hB : (⟨bid, bname, battrs, blis, bch, btext, bkey⟩ : Element) = B at h
            cases h with
            | here _ _ t h1 h2 => subst hB; exact absurd ⟨h1, h2⟩ hak
            | keyed _ _ m t h1 h2 => subst hB; exact absurd ⟨h1, h2⟩ hak
            | positional _ _ m t i h1 h2 h3 h4 => subst hB; exact ⟨i, m, t, h2, h3, h4⟩
        rw [← hmain, ← ih]
        split
        · rfl
        · split <;> cases diffZip a.children bch <;> simp
    rw [← hkid, diff_eq]
    cases kidOps a ⟨bid, bname, battrs, blis, bch, btext, bkey⟩ <;> simp
theorem diffKeyed_none : ∀ (bs as : List Element),
    diffKeyed as bs = none ↔ ∃ t m, t ∈ bs ∧ FirstKeyed as t.key m ∧ DiffCrash m t
  | [], as => by simp [diffKeyed]
  | b :: bs, as => by
    rw [diffKeyed]
    have ih2 := diffKeyed_none bs as
    cases h : locateByKey as b.key with
    | none =>
      simp only
      rw [ih2]
      constructor
      · rintro ⟨t, m, h1, h2, h3⟩; exact ⟨t, m, by simp [h1], h2, h3⟩
      · rintro ⟨t, m, h1, h2, h3⟩
        rcases List.mem_cons.1 h1 with rfl | h1
        · rw [← locateByKey_some, h] at h2; cases h2
        · exact ⟨t, m, h1, h2, h3⟩
    | some m =>
      have ih1 := diff_none b m
      simp only
      cases hd : diff m b with
      | none =>
        simp only [true_iff]
        exact ⟨b, m, by simp, locateByKey_some.1 h, ih1.1 hd⟩
      | some d =>
        have : (∃ t m, t ∈ b :: bs ∧ FirstKeyed as t.key m ∧ DiffCrash m t) ↔
            ∃ t m, t ∈ bs ∧ FirstKeyed as t.key m ∧ DiffCrash m t := by
          constructor
          · rintro ⟨t, m', h1, h2, h3⟩
            rcases List.mem_cons.1 h1 with rfl | h1
            · rw [← locateByKey_some, h] at h2
              cases h2
              rw [ih1.2 h3] at hd; cases hd
            · exact ⟨t, m', h1, h2, h3⟩
          · rintro ⟨t, m', h1, h2, h3⟩; exact ⟨t, m', by simp [h1], h2, h3⟩
        rw [this, ← ih2]
        cases diffKeyed as bs <;> simp
theorem diffZip_none : ∀ (bs as : List Element),
    diffZip as bs = none ↔ ∃ (i : Nat) (m t : Element), as[i]? = some m ∧ bs[i]? = some t ∧ DiffCrash m t
  | [], as => by simp [diffZip]
  | b :: bs, [] => by simp [diffZip]
  | b :: bs, a :: as => by
    have ih1 := diff_none b a
    have ih2 := diffZip_none bs as
    rw [diffZip]
    cases hd : diff a b with
    | none =>
      simp only [true_iff]
      exact ⟨0, a, b, rfl, rfl, ih1.1 hd⟩
    | some d =>
      have : (∃ (i : Nat) (m t : Element), (a :: as)[i]? = some m ∧ (b :: bs)[i]? = some t ∧ DiffCrash m t) ↔
          ∃ (i : Nat) (m t : Element), as[i]? = some m ∧ bs[i]? = some t ∧ DiffCrash m t := by
        constructor
        · rintro ⟨i, m, t, h1, h2, h3⟩
          cases i with
          | zero =>
            simp only [List.getElem?_cons_zero, Option.some.injEq] at h1 h2
            subst h1; subst h2
            rw [ih1.2 h3] at hd; cases hd
          | succ i => exact ⟨i, m, t, by simpa using h1, by simpa using h2, h3⟩
        · rintro ⟨i, m, t, h1, h2, h3⟩
          exact ⟨i + 1, m, t, by simpa using h1, by simpa using h2, h3⟩
      rw [this, ← ih2]
      simp only
      cases diffZip as bs <;> simp
end

/-- **C59 is false**, and exactly when: computing a changeset panics iff, at two compared positions, all
children are keyed and the new node has a single child with a new key. -/
theorem C59_crash_refuted : (∀ a b : Element, a.diff (some b) = none ↔ DiffCrash a b) ∧
    ∃ a b : Element, a.children = [] ∧ b.children.length = 1 ∧ a.diff (some b) = none :=
  ⟨fun a b => diff_none b a,
    .blank 0 "div", ⟨0, "div", [], [], [⟨1, "p", [], [], [], none, some "k"⟩], none, none⟩, rfl, rfl, rfl⟩

/-- **C59 (what holds).** It never panics between trees without keys (such as all those `into_element` makes),
nor when painting a tree for the first time. -/
theorem C59_unkeyed_partial (a b : Element) (ha : a.Unkeyed) (hb : b.Unkeyed) :
    (∃ ops, a.diff (some b) = some ops) ∧ ∃ ops, a.diff none = some ops :=
  ⟨diff_isSome b a ha hb, _, rfl⟩

mutual
theorem shownBy_unkeyed {tag : BodyNode → String} {lf : BodyNode → List ListenerRef → List ListenerRef} :
    ∀ (w : WrappedBodyNode) (e : Element), w.ShownBy tag lf e → e.Unkeyed
  | ⟨node, ls, cs⟩, e, h => by
    rw [WrappedBodyNode.ShownBy] at h
    have : e.key = none ∧ UnkeyedAll e.children := by
      refine ⟨h.2.2.2.2.1, ?_⟩
      cases hc : node.container with
      | true => exact shownByAll_unkeyed cs e.children (h.2.2.2.2.2.1 hc)
      | false => rw [h.2.2.2.2.2.2 hc]; trivial
    cases e
    rw [Element.Unkeyed]; exact this
theorem shownByAll_unkeyed {tag : BodyNode → String} {lf : BodyNode → List ListenerRef → List ListenerRef} :
    ∀ (ws : List WrappedBodyNode) (es : List Element), ShownByAll tag lf ws es → UnkeyedAll es
  | [], es, h => by rw [ShownByAll] at h; subst h; trivial
  | w :: ws, es, h => by
    rw [ShownByAll] at h
    obtain ⟨e, es', rfl, h1, h2⟩ := h
    rw [UnkeyedAll]
    exact ⟨shownBy_unkeyed w e h1, shownByAll_unkeyed ws es' h2⟩
end

theorem intoElement_unkeyed {w : WrappedBodyNode} {g : Nat} {e : Element} {g' : Nat} (h : intoElement w g = some (e, g')) :
    e.Unkeyed := shownBy_unkeyed w e (intoElement_shows w g e g' h)

/-- non-vacuity -/
example : ∃ e, intoElement demoView 0 = some e ∧ e.1.Unkeyed := ⟨_, rfl, intoElement_unkeyed (w := demoView) (g := 0) rfl⟩

end Puck
