import Verif.Spec.InStep
import Verif.Lemmas.Client
/-!
# Two views of the same structure: their changeset, and why the browser can follow it
-/
namespace Puck

variable {R : Rules}

mutual
/-- Same shape, ids and tags. -/
def Kin (a : Element) : Element → Prop
  | ⟨bid, bname, _, _, bchildren, _, _⟩ => a.id = bid ∧ a.name = bname ∧ KinAll a.children bchildren
/-- Pointwise. -/
def KinAll (as : List Element) : List Element → Prop
  | [] => as = []
  | b :: bs =>
    match as with
    | [] => False
    | a :: as => Kin a b ∧ KinAll as bs
end

theorem Kin.parts {a b : Element} (h : Kin a b) : a.id = b.id ∧ a.name = b.name ∧ KinAll a.children b.children := by
  cases b; rw [Kin] at h; exact h

theorem pairs_eq (a b : Element) : pairs a b = (a, b) :: pairsAll a.children b.children := by
  cases b; rw [pairs]

theorem pairsAll_cons (a b : Element) (as bs : List Element) : pairsAll (a :: as) (b :: bs) = pairs a b ++ pairsAll as bs := by
  rw [pairsAll]

mutual
theorem kin_of : ∀ (b a : Element), SameShape a b → Aligned a b → (∀ p ∈ pairs a b, p.1.name = p.2.name) → Kin a b
  | ⟨bid, bname, battrs, blis, bch, btext, bkey⟩, a, h1, h2, h3 => by
    rw [pairs] at h3
    rw [Kin]
    exact ⟨h2.parts.1, h3 _ (List.mem_cons_self ..), kinAll_of bch a.children h1.parts h2.parts.2
      fun p hp => h3 p (List.mem_cons_of_mem _ hp)⟩
theorem kinAll_of : ∀ (bs as : List Element), SameShapeAll as bs → AlignedZip as bs → (∀ p ∈ pairsAll as bs, p.1.name = p.2.name) →
    KinAll as bs
  | [], as, h1, _, _ => by rw [SameShapeAll] at h1; rw [KinAll]; exact h1
  | b :: bs, [], h1, _, _ => by rw [SameShapeAll] at h1; exact h1.elim
  | b :: bs, a :: as, h1, h2, h3 => by
    rw [SameShapeAll] at h1
    rw [AlignedZip] at h2
    rw [pairsAll] at h3
    rw [KinAll]
    exact ⟨kin_of b a h1.1 h2.1 fun p hp => h3 p (List.mem_append_left _ hp),
      kinAll_of bs as h1.2 h2.2 fun p hp => h3 p (List.mem_append_right _ hp)⟩
end

mutual
theorem kin_ids : ∀ (b a : Element), Kin a b → a.ids = b.ids
  | ⟨bid, bname, battrs, blis, bch, btext, bkey⟩, a, h => by
    have h' := h.parts
    simp only at h'
    rw [a.ids_eq, Element.ids, h'.1, kinAll_ids bch a.children h'.2.2]
theorem kinAll_ids : ∀ (bs as : List Element), KinAll as bs → idsOf as = idsOf bs
  | [], as, h => by rw [KinAll] at h; rw [h]
  | b :: bs, [], h => by rw [KinAll] at h; exact h.elim
  | b :: bs, a :: as, h => by
    rw [KinAll] at h
    rw [idsOf, idsOf, kin_ids b a h.1, kinAll_ids bs as h.2]
end

theorem kinAll_length : ∀ (bs as : List Element), KinAll as bs → as.length = bs.length
  | [], as, h => by rw [KinAll] at h; rw [h]
  | b :: bs, [], h => by rw [KinAll] at h; exact h.elim
  | b :: bs, a :: as, h => by
    rw [KinAll] at h
    simp [kinAll_length bs as h.2]

/-! ## The changeset -/

/-- The instructions for one element. -/
def nodeOps (p : Element × Element) : List Op := p.1.diffAttributes p.2 ++ p.1.diffText p.2 ++ p.1.diffListeners p.2

mutual
theorem diff_kin : ∀ (b a : Element), Kin a b → a.Unkeyed → b.Unkeyed → diff a b = some ((pairs a b).flatMap nodeOps)
  | ⟨bid, bname, battrs, blis, bch, btext, bkey⟩, a, h, hua, hub => by
    have h' := h.parts
    simp only at h'
    have hua' : UnkeyedAll a.children := by cases a; rw [Element.Unkeyed] at hua; exact hua.2
    have hub' : UnkeyedAll bch := by rw [Element.Unkeyed] at hub; exact hub.2
    have hz := diffZip_kin bch a.children h'.2.2 hua' hub'
    have hl := kinAll_length bch a.children h'.2.2
    rw [diff_eq, kidOps_fit (keyFit_unkeyed _ _ hua hub)]
    unfold childOps
    simp only [hz, pairs, List.flatMap_cons]
    rw [List.drop_of_length_le (by omega), List.drop_of_length_le (by omega)]
    have hn : a.diffName ⟨bid, bname, battrs, blis, bch, btext, bkey⟩ = [] := by unfold Element.diffName; rw [if_pos h'.2.1]
    have hi : a.diffId ⟨bid, bname, battrs, blis, bch, btext, bkey⟩ = [] := by unfold Element.diffId; rw [if_pos h'.1]
    simp [hn, hi, nodeOps, createAll]
theorem diffZip_kin : ∀ (bs as : List Element), KinAll as bs → UnkeyedAll as → UnkeyedAll bs →
    diffZip as bs = some ((pairsAll as bs).flatMap nodeOps)
  | [], as, h, _, _ => by rw [diffZip, pairsAll]; rfl
  | b :: bs, [], h, _, _ => by rw [KinAll] at h; exact h.elim
  | b :: bs, a :: as, h, hua, hub => by
    rw [KinAll] at h
    rw [UnkeyedAll] at hua hub
    rw [diffZip, pairsAll]
    simp only [diff_kin b a h.1 hua.1 hub.1, diffZip_kin bs as h.2 hua.2 hub.2, List.flatMap_append]
end

/-! ## Enough -/

mutual
/-- `t` is like `a`, except that its listeners may be anything where the changeset from `a` to the third tree sets them again. -/
def Near (a t : Element) : Element → Prop
  | ⟨_, _, _, blisteners, bchildren, _, _⟩ =>
    a.id = t.id ∧ a.name = t.name ∧ (∀ k, a.attributes.get k = t.attributes.get k) ∧
    (a.listeners ≠ blisteners ∨ t.listeners = a.listeners) ∧ a.text = t.text ∧ a.key = t.key ∧ NearAll a.children t.children bchildren
/-- Pointwise. -/
def NearAll (as ts : List Element) : List Element → Prop
  | [] => as = [] ∧ ts = []
  | b :: bs => ∃ a as' t ts', as = a :: as' ∧ ts = t :: ts' ∧ Near a t b ∧ NearAll as' ts' bs
end

theorem Near.parts {a t b : Element} (h : Near a t b) : a.id = t.id ∧ a.name = t.name ∧ (∀ k, a.attributes.get k = t.attributes.get k) ∧
    (a.listeners ≠ b.listeners ∨ t.listeners = a.listeners) ∧ a.text = t.text ∧ a.key = t.key ∧ NearAll a.children t.children b.children := by
  cases b; rw [Near] at h; exact h

mutual
theorem near_refl : ∀ (b a : Element), Kin a b → Near a a b
  | ⟨bid, bname, battrs, blis, bch, btext, bkey⟩, a, h => by
    rw [Near]
    exact ⟨rfl, rfl, fun _ => rfl, Or.inr rfl, rfl, rfl, nearAll_refl bch a.children h.parts.2.2⟩
theorem nearAll_refl : ∀ (bs as : List Element), KinAll as bs → NearAll as as bs
  | [], as, h => by rw [KinAll] at h; rw [NearAll]; exact ⟨h, h⟩
  | b :: bs, [], h => by rw [KinAll] at h; exact h.elim
  | b :: bs, a :: as, h => by
    rw [KinAll] at h
    rw [NearAll]
    exact ⟨a, as, a, as, rfl, rfl, near_refl b a h.1, nearAll_refl bs as h.2⟩
end

theorem mute_eq (t : Element) : t.mute = { t with listeners := [], children := muteAll t.children } := by cases t; rfl

mutual
theorem near_mute : ∀ (b a t : Element), Near a t b → (∀ q ∈ pairs a b, q.1.listeners = q.2.listeners → q.2.listeners = []) →
    Near a t.mute b
  | ⟨bid, bname, battrs, blis, bch, btext, bkey⟩, a, t, h, hq => by
    obtain ⟨h1, h2, h3, h4, h5, h6, h7⟩ := h.parts
    rw [pairs] at hq
    have hh := hq _ (List.mem_cons_self ..)
    simp only at hh h4 h7
    rw [mute_eq, Near]
    refine ⟨h1, h2, h3, ?_, h5, h6, nearAll_mute bch a.children t.children h7 fun q hm => hq q (List.mem_cons_of_mem _ hm)⟩
    by_cases hl : a.listeners = blis
    · exact Or.inr ((hl.trans (hh hl)).symm)
    · exact Or.inl hl
theorem nearAll_mute : ∀ (bs as ts : List Element), NearAll as ts bs →
    (∀ q ∈ pairsAll as bs, q.1.listeners = q.2.listeners → q.2.listeners = []) → NearAll as (muteAll ts) bs
  | [], as, ts, h, _ => by
    rw [NearAll] at h ⊢
    exact ⟨h.1, by rw [h.2]; rfl⟩
  | b :: bs, as, ts, h, hq => by
    rw [NearAll] at h
    obtain ⟨a, as, t, ts, rfl, rfl, h1, h2⟩ := h
    rw [pairsAll] at hq
    rw [NearAll]
    exact ⟨a, as, t.mute, muteAll ts, rfl, rfl, near_mute b a t h1 fun q hm => hq q (List.mem_append_left _ hm),
      nearAll_mute bs as ts h2 fun q hm => hq q (List.mem_append_right _ hm)⟩
end

theorem runs_listeners_mute {C : List TFrame} {a b x : Element} (hs : R.strict) (hx : x.id = a.id) (hid : a.id = b.id)
    (hb : a.id ∉ idsBefore C) (hxl : a.listeners ≠ b.listeners ∨ x.listeners = a.listeners) (hl : ∀ l ∈ b.listeners, R.lis l) :
    ∃ kids, (kids = x.children ∨ (a.listeners ≠ b.listeners ∧ kids = muteAll x.children)) ∧
      Runs R (a.diffListeners b) (plug C x) (plug C { x with listeners := b.listeners, children := kids }) := by
  unfold Element.diffListeners
  split
  · rename_i he
    have hxl := hxl.resolve_left (fun h => h he)
    have : x = { x with listeners := b.listeners } := by cases x; simp only at hxl; simp [hxl, he]
    refine ⟨x.children, Or.inl rfl, ?_⟩
    rw [← this]; exact .nil _
  · rename_i hne
    refine ⟨muteAll x.children, Or.inr ⟨hne, rfl⟩, .mute (t' := plug C x.mute) hs ?_ ?_⟩
    · rw [findAndMutate_plug hb hx]; rfl
    · unfold Element.generateListeners
      rw [← hid]
      have := runs_attach (R := R) (C := C) hb b.listeners x.mute (by rw [mute_eq]; exact hx) hl
      rw [mute_eq] at this ⊢
      exact this

theorem nearAll_nil {ts bs : List Element} (h : NearAll [] ts bs) : ts = [] := by
  cases bs with
  | nil => rw [NearAll] at h; exact h.2
  | cons b bs => rw [NearAll] at h; obtain ⟨_, _, _, _, h, _⟩ := h; cases h

theorem InStep.here {a b : Element} (h : InStep a b) : TextFollows a b ∧
    (a.listeners ≠ b.listeners → ∀ q ∈ pairsAll a.children b.children, q.1.listeners = q.2.listeners → q.2.listeners = []) :=
  h (a, b) (by rw [pairs_eq]; exact List.mem_cons_self ..)

/-- the same for forests -/
def InStepAll (as bs : List Element) : Prop :=
  ∀ p ∈ pairsAll as bs, TextFollows p.1 p.2 ∧
    (p.1.listeners ≠ p.2.listeners → ∀ q ∈ pairsAll p.1.children p.2.children, q.1.listeners = q.2.listeners → q.2.listeners = [])

mutual
theorem near_runs (hs : R.strict) : ∀ (b a t : Element) (C : List TFrame), Near a t b → Kin a b → InStep a b →
    (∀ i ∈ a.ids, i ∉ idsBefore C) → a.ids.Nodup → a.AttrsOk → b.AttrsOk → a.Obeys R → b.Obeys R → a.Unkeyed → b.Unkeyed →
    ∃ t', b.Same t' ∧ Runs R ((pairs a b).flatMap nodeOps) (plug C t) (plug C t')
  | ⟨bid, bname, battrs, blis, bch, btext, bkey⟩, a, t, C, hn, hk, hstep, hC, hnd, haa, hab, hoa, hob, hua, hub => by
    obtain ⟨e1, e2, e3, e4, e5, e6, e7⟩ := hn.parts
    obtain ⟨k1, k2, k3⟩ := hk.parts
    obtain ⟨s1, s2⟩ := hstep.here
    simp only at e4 e7 k1 k2 k3 s2
    rw [Element.AttrsOk] at hab
    rw [Element.Obeys] at hob
    rw [Element.Unkeyed] at hub
    have haa' : a.attributes.Distinct ∧ AttrsOkAll a.children := by cases a; rw [Element.AttrsOk] at haa; exact haa
    have hoa' : R.tag a.name ∧ (∀ p ∈ a.attributes, R.attr p.1 p.2) ∧ (∀ l ∈ a.listeners, R.lis l) ∧ ObeysAll R a.children := by
      cases a; rw [Element.Obeys] at hoa; exact hoa
    have hua' : a.key = none ∧ UnkeyedAll a.children := by cases a; rw [Element.Unkeyed] at hua; exact hua
    have hnd' := Element.nodup_children hnd
    have hb : a.id ∉ idsBefore C := hC _ a.id_mem_ids
    -- attributes
    obtain ⟨at', ha', r2⟩ := runs_attributes (R := R) (C := C) (a := a) (b := ⟨bid, bname, battrs, blis, bch, btext, bkey⟩)
      (x := t) e1.symm hb haa'.1 hab.1 hoa'.2.1 hob.2.1 (fun k => (e3 k).symm)
    -- text
    have r3 := runs_text (R := R) (C := C) (a := a) (b := ⟨bid, bname, battrs, blis, bch, btext, bkey⟩)
      (x := { t with attributes := at' }) e1.symm hb e5.symm (by
        intro _
        rcases s1 with h | ⟨h, h'⟩ | h
        · exact Or.inl h
        · refine Or.inr (Or.inl ⟨?_, h'⟩)
          rw [h] at e7
          exact nearAll_nil e7
        · exact Or.inr (Or.inr h))
    -- listeners
    obtain ⟨kids, hkids, r4⟩ := runs_listeners_mute (R := R) (C := C) (a := a) (b := ⟨bid, bname, battrs, blis, bch, btext, bkey⟩)
      (x := { t with attributes := at', text := btext }) hs e1.symm k1 hb e4 hob.2.2.1
    have hnk : NearAll a.children kids bch := by
      rcases hkids with h | ⟨h1, h2⟩
      · rw [h]; exact e7
      · rw [h2]; exact nearAll_mute _ _ _ e7 (s2 h1)
    -- children
    obtain ⟨ts', h5, r5⟩ := nearAll_runs hs bch a.children kids [] { t with attributes := at', text := btext, listeners := blis } C hnk k3
      (fun p hp => hstep p (by rw [pairs]; exact List.mem_cons_of_mem _ hp)) (by
        intro i hi
        refine ⟨?_, by simp [idsOf], hC i (by rw [a.ids_eq]; exact List.mem_cons_of_mem _ hi)⟩
        intro e
        apply hnd'.2
        rw [e1, ← show i = t.id from e]; exact hi) hnd'.1 haa'.2 hab.2 hoa'.2.2.2 hob.2.2.2 hua'.2 hub.2
    refine ⟨⟨bid, bname, at', blis, ts', btext, t.key⟩, ?_, ?_⟩
    · rw [Element.Same]
      refine ⟨rfl, rfl, fun k => (ha' k).symm, rfl, rfl, ?_, h5⟩
      exact hub.1.trans (hua'.1.symm.trans e6)
    · rw [pairs, List.flatMap_cons, nodeOps]
      have hid : t.id = bid := e1.symm.trans k1
      have hnm : t.name = bname := e2.symm.trans k2
      have := (r2.append r3).append (r4.append r5)
      simp only [hid, hnm, List.nil_append, List.append_assoc] at this ⊢
      exact this
theorem nearAll_runs (hs : R.strict) : ∀ (bs as ts done : List Element) (n : Element) (C : List TFrame), NearAll as ts bs → KinAll as bs →
    InStepAll as bs → (∀ i ∈ idsOf as, i ≠ n.id ∧ i ∉ idsOf done ∧ i ∉ idsBefore C) → (idsOf as).Nodup →
    AttrsOkAll as → AttrsOkAll bs → ObeysAll R as → ObeysAll R bs → UnkeyedAll as → UnkeyedAll bs →
    ∃ ts', SameList bs ts' ∧
      Runs R ((pairsAll as bs).flatMap nodeOps) (plug C { n with children := done ++ ts }) (plug C { n with children := done ++ ts' })
  | [], as, ts, done, n, C, hn, _, _, _, _, _, _, _, _, _, _ => by
    rw [NearAll] at hn
    rw [hn.2, pairsAll]
    exact ⟨[], by rw [SameList], .nil _⟩
  | b :: bs, [], ts, done, n, C, hn, hk, _, _, _, _, _, _, _, _, _ => by rw [KinAll] at hk; exact hk.elim
  | b :: bs, a :: as, ts, done, n, C, hn, hk, hstep, hC, hnd, haa, hab, hoa, hob, hua, hub => by
    rw [NearAll] at hn
    obtain ⟨_, _, t, ts, e, rfl, n1, n2⟩ := hn
    cases e
    rw [KinAll] at hk
    rw [AttrsOkAll] at haa hab
    rw [ObeysAll] at hoa hob
    rw [UnkeyedAll] at hua hub
    rw [idsOf] at hC hnd
    rw [List.nodup_append] at hnd
    obtain ⟨t', h1, r1⟩ := near_runs hs b a t (holeOf n done ts :: C) n1 hk.1
      (fun p hp => hstep p (by rw [pairsAll]; exact List.mem_append_left _ hp))
      (fun i hi => (idsBefore_holeOf _ _ _ _ _).2 (hC i (List.mem_append_left _ hi))) hnd.1 haa.1 hab.1 hoa.1 hob.1 hua.1 hub.1
    obtain ⟨ts', h2, r2⟩ := nearAll_runs hs bs as ts (done ++ [t']) n C n2 hk.2
      (fun p hp => hstep p (by rw [pairsAll]; exact List.mem_append_right _ hp)) (by
        intro i hi
        have := hC i (List.mem_append_right _ hi)
        refine ⟨this.1, ?_, this.2.2⟩
        rw [idsOf_append, List.mem_append, not_or]
        refine ⟨this.2.1, ?_⟩
        rw [idsOf, idsOf, List.append_nil, ← h1.ids, ← kin_ids b a hk.1]
        intro hc
        exact hnd.2.2 i hc i hi rfl) hnd.2.1 haa.2 hab.2 hoa.2 hob.2 hua.2 hub.2
    refine ⟨t' :: ts', ?_, ?_⟩
    · rw [SameList]; exact ⟨t', ts', rfl, h1, h2⟩
    · rw [plug_holeOf, plug_holeOf] at r1
      simp only [List.append_assoc, List.cons_append, List.nil_append] at r2
      rw [pairsAll, List.flatMap_append]
      exact r1.append r2
end

end Puck
