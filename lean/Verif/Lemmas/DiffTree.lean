import Verif.Lemmas.Keyed
/-!
# The changeset between two trees, run on the old one
-/
namespace Puck

variable {R : Rules}

/-- The context of a child of `n` with `l` to its left and `r` to its right. -/
def holeOf (n : Element) (l r : List Element) : TFrame := ⟨n.id, n.name, n.attributes, n.listeners, l, r, n.text, n.key⟩

theorem plug_holeOf (n : Element) (l r : List Element) (C : List TFrame) (x : Element) :
    plug (holeOf n l r :: C) x = plug C { n with children := l ++ x :: r } := rfl

theorem idsBefore_holeOf (n : Element) (l r : List Element) (C : List TFrame) (i : Nat) :
    i ∉ idsBefore (holeOf n l r :: C) ↔ i ≠ n.id ∧ i ∉ idsOf l ∧ i ∉ idsBefore C := by
  simp [idsBefore, holeOf]

/-! ## Creating -/

theorem Element.nodup_children {c : Element} (h : c.ids.Nodup) : (idsOf c.children).Nodup ∧ c.id ∉ idsOf c.children := by
  rw [c.ids_eq, List.nodup_cons] at h
  exact ⟨h.2, h.1⟩

/-- lines 62-69 of diff/mod.rs -/
def textOps (id : Nat) : Option String → List Op
  | some value => [⟨id, .setText value⟩]
  | none => []

theorem createFromScratch_eq (parent : Option Nat) (id : Nat) (name : String) (attributes : Headers)
    (listeners : List ListenerRef) (children : List Element) (text key : Option String) :
    createFromScratch parent ⟨id, name, attributes, listeners, children, text, key⟩ =
      [⟨id, .createTag name parent⟩] ++ attributes.map (fun p => ⟨id, .setAttribute p.1 p.2⟩) ++
      (listeners.map fun l => ⟨id, .attachListener l.listenerName l.jsEvent⟩) ++
      textOps id text ++ createAll (some id) children := by
  cases text <;> rfl

/-- everything after the creation of the tag -/
def fillOps : Element → List Op
  | ⟨id, _, attributes, listeners, children, text, _⟩ =>
    attributes.map (fun p => ⟨id, .setAttribute p.1 p.2⟩) ++ (listeners.map fun l => ⟨id, .attachListener l.listenerName l.jsEvent⟩) ++
      textOps id text ++ createAll (some id) children

theorem create_eq_fill (parent : Option Nat) (c : Element) :
    createFromScratch parent c = ⟨c.id, .createTag c.name parent⟩ :: fillOps c := by
  cases c
  rw [createFromScratch_eq, fillOps]
  simp

theorem nodesAll_id {cs : List Element} {K : Element} (h : K ∈ nodesAll cs) : K.id ∈ idsOf cs := by
  rw [← nodesAll_ids]; exact List.mem_map.2 ⟨K, h, rfl⟩

theorem node_id {c K : Element} (h : K ∈ c.nodes) : K.id ∈ c.ids := by
  rw [← nodes_ids]; exact List.mem_map.2 ⟨K, h, rfl⟩

/-- Nothing is needed to fill an element that is nothing but a tag. -/
theorem fill_empty {c : Element} (h : c.Empty) (hk : c.key = none) : fillOps c = [] ∧ c = .blank c.id c.name := by
  cases c
  obtain ⟨h1, h2, h3, h4⟩ := h
  simp only at h1 h2 h3 h4 hk
  subst h1; subst h2; subst h3; subst h4; subst hk
  exact ⟨rfl, rfl⟩

mutual
theorem fill_runs : ∀ (c : Element) (C : List TFrame), (∀ K ∈ c.nodes, K.id ∈ idsBefore C → K.Empty) → c.ids.Nodup → c.AttrsOk → c.Obeys R →
    c.Unkeyed → ∃ c', c.Same c' ∧ Runs R (fillOps c) (plug C (.blank c.id c.name)) (plug C c')
  | ⟨id, name, attributes, listeners, children, text, key⟩, C', hfresh, hnd, hat, hob, huk => by
    rw [Element.AttrsOk] at hat
    rw [Element.Obeys] at hob
    rw [Element.Unkeyed] at huk
    have hnd' := Element.nodup_children hnd
    simp only at hnd'
    rw [Element.nodes] at hfresh
    by_cases hC' : id ∈ idsBefore C'
    · obtain ⟨h1, h2⟩ := fill_empty (hfresh _ (List.mem_cons_self ..) hC') huk.1
      refine ⟨_, Element.Same.refl _, ?_⟩
      rw [h1, ← h2]
      exact .nil _
    have s2 := runs_sets (R := R) hC' attributes (.blank id name) rfl hob.2.1
    have s3 := runs_attach (R := R) hC' listeners
      { Element.blank id name with attributes := attributes.foldl (fun h p => h.insert p.1 p.2) [] } rfl hob.2.2.1
    have s4 : Runs R (textOps id text)
        (plug C' ⟨id, name, attributes.foldl (fun h p => h.insert p.1 p.2) [], [] ++ listeners, [], none, none⟩)
        (plug C' ⟨id, name, attributes.foldl (fun h p => h.insert p.1 p.2) [], [] ++ listeners, [], text, none⟩) := by
      cases text with
      | none => exact .nil _
      | some v =>
        refine .one ?_ ?_
        · intro _ y hy
          rw [firstWith_plug hC' rfl] at hy
          cases hy; rfl
        · show findAndMutate id _ _ = _
          rw [findAndMutate_plug hC' rfl]; rfl
    obtain ⟨cs', hs, s5⟩ := createAll_runs children
      ⟨id, name, attributes.foldl (fun h p => h.insert p.1 p.2) [], [] ++ listeners, [], text, none⟩ C' hC' (by
        intro K hK hi
        rcases hi with hi | hi | hi
        · exact absurd (by rw [← show K.id = id from hi]; exact nodesAll_id hK) hnd'.2
        · simp [idsOf] at hi
        · exact hfresh K (List.mem_cons_of_mem _ hK) hi)
      hnd'.1 hat.2 hob.2.2.2 huk.2
    refine ⟨⟨id, name, attributes.foldl (fun h p => h.insert p.1 p.2) [], [] ++ listeners, [] ++ cs', text, none⟩, ?_, ?_⟩
    · rw [Element.Same]
      refine ⟨rfl, rfl, ?_, rfl, rfl, huk.1, hs⟩
      intro k
      simp only
      rw [get_foldl_insert _ hat.1]
      cases h : Headers.get attributes k <;> simp [Headers.get]
    · rw [fillOps]
      exact ((s2.append s3).append s4).append s5
theorem create_runs : ∀ (c n : Element) (C : List TFrame), n.id ∉ idsBefore C →
    (∀ K ∈ c.nodes, K.id = n.id ∨ K.id ∈ idsOf n.children ∨ K.id ∈ idsBefore C → K.Empty) → c.ids.Nodup → c.AttrsOk → c.Obeys R → c.Unkeyed →
    ∃ c', c.Same c' ∧ Runs R (createFromScratch (some n.id) c) (plug C n) (plug C { n with children := n.children ++ [c'] })
  | c, n, C, hn, hfresh, hnd, hat, hob, huk => by
    have hob' : R.tag c.name := by cases c; rw [Element.Obeys] at hob; exact hob.1
    obtain ⟨c', h1, h2⟩ := fill_runs c (holeOf n n.children [] :: C)
      (fun K hK hi => hfresh K hK (by simpa [idsBefore, holeOf] using hi)) hnd hat hob huk
    refine ⟨c', h1, ?_⟩
    rw [create_eq_fill]
    refine .cons (t' := plug (holeOf n n.children [] :: C) (.blank c.id c.name)) ⟨hob', rfl⟩ ?_ h2
    show findAndMutate n.id _ _ = _
    rw [findAndMutate_plug hn rfl]; rfl
theorem createAll_runs : ∀ (cs : List Element) (n : Element) (C : List TFrame), n.id ∉ idsBefore C →
    (∀ K ∈ nodesAll cs, K.id = n.id ∨ K.id ∈ idsOf n.children ∨ K.id ∈ idsBefore C → K.Empty) → (idsOf cs).Nodup → AttrsOkAll cs →
    ObeysAll R cs → UnkeyedAll cs →
    ∃ cs', SameList cs cs' ∧ Runs R (createAll (some n.id) cs) (plug C n) (plug C { n with children := n.children ++ cs' })
  | [], n, C, _, _, _, _, _, _ => by
    refine ⟨[], by rw [SameList], ?_⟩
    cases n
    rw [createAll, List.append_nil]; exact .nil _
  | c :: cs, n, C, hn, hfresh, hnd, hat, hob, huk => by
    rw [AttrsOkAll] at hat
    rw [ObeysAll] at hob
    rw [UnkeyedAll] at huk
    rw [nodesAll] at hfresh
    rw [idsOf] at hnd
    rw [List.nodup_append] at hnd
    obtain ⟨c', h1, r1⟩ := create_runs c n C hn (fun K hK => hfresh K (by simp [hK])) hnd.1 hat.1 hob.1 huk.1
    obtain ⟨cs', h2, r2⟩ := createAll_runs cs { n with children := n.children ++ [c'] } C hn (by
      intro K hK hi
      refine hfresh K (by simp [hK]) (hi.imp_right (Or.imp_left fun hi => ?_))
      rw [idsOf_append, List.mem_append] at hi
      rcases hi with hi | hi
      · exact hi
      · exfalso
        rw [idsOf, idsOf, List.append_nil, ← h1.ids] at hi
        exact hnd.2.2 K.id hi K.id (nodesAll_id hK) rfl) hnd.2.1 hat.2 hob.2 huk.2
    refine ⟨c' :: cs', by rw [SameList]; exact ⟨c', cs', rfl, h1, h2⟩, ?_⟩
    rw [createAll]
    have := r1.append r2
    simpa using this
end

/-! ## Deleting -/

theorem removeChild_append (id : Nat) (keep : List Element) (e : Element) (rest : List Element) (he : e.id = id)
    (h : id ∉ idsOf keep) : removeChild id (keep ++ e :: rest) = some (keep ++ rest) := by
  induction keep with
  | nil => rw [List.nil_append, removeChild, if_pos he]; rfl
  | cons c keep ih =>
    rw [idsOf, List.mem_append, not_or] at h
    rw [List.cons_append, removeChild, if_neg (fun hc => h.1 (by rw [← hc]; exact c.id_mem_ids)), ih h.2]
    rfl

theorem delete_runs : ∀ (extra keep : List Element) (n : Element) (C : List TFrame), n.id ∉ idsBefore C →
    (∀ e ∈ extra, e.id ≠ n.id ∧ e.id ∉ idsBefore C) → (idsOf (keep ++ extra)).Nodup → n.children = keep ++ extra →
    Runs R (extra.map fun e => (⟨e.id, .deleteEl⟩ : Op)) (plug C n) (plug C { n with children := keep })
  | [], keep, n, C, _, _, _, hc => by
    cases n; simp only at hc; subst hc
    rw [List.append_nil]; exact .nil _
  | e :: extra, keep, n, C, hn, hf, hnd, hc => by
    have he := hf e (by simp)
    have hk : e.id ∉ idsOf keep := by
      intro h
      rw [idsOf_append, List.nodup_append] at hnd
      exact hnd.2.2 _ h _ (mem_idsOf_of_mem (c := e) (by simp) e.id_mem_ids) rfl
    have hpar : findParentId e.id n = some n.id := by
      cases n
      simp only at hc
      rw [findParentId, hc, (absent_prefix e.id (fun _ => none) _ keep (e :: extra) hk).2.2.1, findParentIdIn, if_pos rfl]
    have hdel : deleteFirst e.id n = some { n with children := keep ++ extra } := by
      cases n
      simp only at hc
      rw [deleteFirst, hc, (absent_prefix e.id (fun _ => none) 0 keep (e :: extra) hk).2.2.2, deleteFirstIn, if_pos rfl]
      rfl
    have hap : applyOp ⟨e.id, .deleteEl⟩ (plug C n) = some (plug C { n with children := keep ++ extra }) := by
      show (match findParentId e.id (plug C n) with | none => none | some pid => _) = _
      rw [findParentId_plug he.2 he.1 hpar]
      simp only
      rw [findAndMutate_plug hn rfl, hc, removeChild_append e.id keep e extra rfl hk]
      rfl
    refine .cons ⟨?_, ?_⟩ hap ?_
    · intro heq
      rcases plug_id_mem C n with h | h
      · exact he.2 (by rw [← show (plug C n).id = e.id from heq]; exact h)
      · exact he.1 (by rw [← h]; exact heq.symm)
    · exact hap.trans (deleteFirst_plug he.2 he.1 hdel).symm
    · refine delete_runs extra keep { n with children := keep ++ extra } C hn (fun x hx => hf x (by simp [hx])) ?_ rfl
      refine hnd.sublist ?_
      rw [idsOf_append, idsOf_append, idsOf]
      exact (List.Sublist.refl _).append (List.sublist_append_right _ _)

theorem SameList.map_id : ∀ {as bs : List Element}, SameList as bs →
    as.map (fun e => (⟨e.id, .deleteEl⟩ : Op)) = bs.map (fun e => (⟨e.id, .deleteEl⟩ : Op))
  | [], _, h => by rw [SameList] at h; rw [h]
  | a :: as, _, h => by
    rw [SameList] at h
    obtain ⟨b, bs, rfl, h1, h2⟩ := h
    rw [List.map_cons, List.map_cons, SameList.map_id h2, h1.eqs.1]

/-! ## Updating -/

theorem diffZip_take : ∀ (bs as : List Element), diffZip as bs = diffZip (as.take bs.length) bs
  | [], as => by simp [diffZip]
  | b :: bs, [] => by simp [diffZip]
  | b :: bs, a :: as => by
    rw [List.length_cons, List.take_succ_cons, diffZip, diffZip, diffZip_take bs as]

theorem safeZip_take {R : Rules} : ∀ (bs as : List Element) (before : List Nat), SafeZip R before as bs →
    SafeZip R before (as.take bs.length) bs
  | [], as, _, _ => by simp [SafeZip]
  | b :: bs, [], _, _ => by simp [SafeZip]
  | b :: bs, a :: as, before, h => by
    rw [SafeZip] at h
    rw [List.length_cons, List.take_succ_cons, SafeZip]
    exact ⟨h.1, safeZip_take bs as _ h.2⟩

theorem Element.fields {P : Element → Prop} {e : Element}
    (h : P ⟨e.id, e.name, e.attributes, e.listeners, e.children, e.text, e.key⟩) : P e := by cases e; exact h

theorem unkeyedAll_take {cs : List Element} (h : UnkeyedAll cs) (n : Nat) : UnkeyedAll (cs.take n) ∧ UnkeyedAll (cs.drop n) := by
  induction cs generalizing n with
  | nil => simp [UnkeyedAll]
  | cons c cs ih =>
    rw [UnkeyedAll] at h
    cases n with
    | zero => simp [UnkeyedAll, h.1, h.2]
    | succ n => simp only [List.take_succ_cons, List.drop_succ_cons, UnkeyedAll]; exact ⟨⟨h.1, (ih h.2 n).1⟩, (ih h.2 n).2⟩

theorem attrsOkAll_take {cs : List Element} (h : AttrsOkAll cs) (n : Nat) : AttrsOkAll (cs.take n) ∧ AttrsOkAll (cs.drop n) := by
  induction cs generalizing n with
  | nil => simp [AttrsOkAll]
  | cons c cs ih =>
    rw [AttrsOkAll] at h
    cases n with
    | zero => simp [AttrsOkAll, h.1, h.2]
    | succ n => simp only [List.take_succ_cons, List.drop_succ_cons, AttrsOkAll]; exact ⟨⟨h.1, (ih h.2 n).1⟩, (ih h.2 n).2⟩

theorem obeysAll_take {cs : List Element} (h : ObeysAll R cs) (n : Nat) : ObeysAll R (cs.take n) ∧ ObeysAll R (cs.drop n) := by
  induction cs generalizing n with
  | nil => simp [ObeysAll]
  | cons c cs ih =>
    rw [ObeysAll] at h
    cases n with
    | zero => simp [ObeysAll, h.1, h.2]
    | succ n => simp only [List.take_succ_cons, List.drop_succ_cons, ObeysAll]; exact ⟨⟨h.1, (ih h.2 n).1⟩, (ih h.2 n).2⟩

mutual
theorem SilentAll.same : ∀ {as bs : List Element}, SameList as bs → SilentAll as → SilentAll bs
  | [], _, h, _ => by rw [SameList] at h; subst h; trivial
  | a :: as, _, h, hs => by
    rw [SameList] at h
    obtain ⟨b, bs, rfl, h1, h2⟩ := h
    rw [SilentAll] at hs ⊢
    exact ⟨Element.Silent.same h1 hs.1, SilentAll.same h2 hs.2⟩
theorem Element.Silent.same : ∀ {a b : Element}, a.Same b → a.Silent → b.Silent
  | ⟨_, _, _, _, children, _, _⟩, b, h, hs => by
    cases b
    rw [Element.Same] at h
    rw [Element.Silent] at hs ⊢
    exact ⟨h.2.2.2.1.symm.trans hs.1, SilentAll.same h.2.2.2.2.2.2 hs.2⟩
end

theorem sameList_nil {as : List Element} (h : SameList [] as) : as = [] := by rw [SameList] at h; exact h

theorem idsOf_take_drop (cs : List Element) (n : Nat) : idsOf cs = idsOf (cs.take n) ++ idsOf (cs.drop n) := by
  rw [← idsOf_append, List.take_append_drop]

mutual
theorem diff_runs : ∀ (b a t : Element) (C : List TFrame) (before : List Nat) (ops : List Op), diff a b = some ops →
    a.Same t → (∀ i ∈ idsBefore C, i ∈ before) → Safe R before a b → a.ids.Nodup → b.ids.Nodup → KeyFit a b →
    a.AttrsOk → b.AttrsOk → a.Obeys R → b.Obeys R →
    ∃ t', b.Same t' ∧ Runs R ops (plug C t) (plug C t')
  | ⟨bid, bname, battrs, blis, bch, btext, bkey⟩, a, t, C, before, ops, hd, ht, hC, hsafe, hna, hnb, hfit, haa, hab, hoa, hob => by
    rw [Safe] at hsafe
    obtain ⟨⟨hs1, hs2, hs3, hs4, hs5, hs6⟩, hzip⟩ := hsafe
    simp only at hs2 hs3 hs4 hs5 hs6
    rw [Element.AttrsOk] at hab
    rw [Element.Obeys] at hob
    have hfit' := hfit.parts
    simp only at hfit'
    have haa' : a.attributes.Distinct ∧ AttrsOkAll a.children := by cases a; rw [Element.AttrsOk] at haa; exact haa
    have hoa' : R.tag a.name ∧ (∀ p ∈ a.attributes, R.attr p.1 p.2) ∧ (∀ l ∈ a.listeners, R.lis l) ∧ ObeysAll R a.children := by
      cases a; rw [Element.Obeys] at hoa; exact hoa
    obtain ⟨e1, e2, e3, e4, e5, e6, e7⟩ := ht.eqs
    have hna' := Element.nodup_children hna
    have hnb' := Element.nodup_children hnb
    simp only at hnb'
    have hb : a.id ∉ idsBefore C := fun h => hs1 (hC _ h)
    rw [diff_eq, kidOps_fit hfit] at hd
    unfold childOps at hd
    simp only at hd
    cases hz : diffZip a.children bch with
    | none => rw [hz] at hd; cases hd
    | some pairs =>
      rw [hz] at hd
      simp only [Option.some.injEq] at hd
      subst hd
      have nil_t : a.children = [] → t.children = [] := fun h => by rw [h] at e7; exact sameList_nil e7
      -- name
      obtain ⟨ls', hls, r1⟩ := runs_name (R := R) (C := C) (a := a) (b := ⟨bid, bname, battrs, blis, bch, btext, bkey⟩) (x := t) e1.symm hb
        hob.1 (by
          rcases hs2 with h | ⟨h, h'⟩
          · exact Or.inl h
          · refine Or.inr ⟨h, fun s => ⟨nil_t (h' s).1, ?_, ?_⟩⟩
            · rw [← e4]; exact (h' s).2.1
            · rw [← e5]; exact (h' s).2.2) e2.symm
      -- attributes
      obtain ⟨at', ha', r2⟩ := runs_attributes (R := R) (C := C) (a := a) (b := ⟨bid, bname, battrs, blis, bch, btext, bkey⟩)
        (x := { t with name := bname, listeners := ls' }) e1.symm hb haa'.1 hab.1 hoa'.2.1 hob.2.1 (fun k => (e3 k).symm)
      -- text
      have r3 := runs_text (R := R) (C := C) (a := a) (b := ⟨bid, bname, battrs, blis, bch, btext, bkey⟩)
        (x := { t with name := bname, listeners := ls', attributes := at' }) e1.symm hb e5.symm (by
          intro s
          rcases hs3 s with h | ⟨h, h'⟩ | h
          · exact Or.inl h
          · exact Or.inr (Or.inl ⟨nil_t h, h'⟩)
          · exact Or.inr (Or.inr h))
      -- listeners
      have r4 := runs_listeners (R := R) (C := C) (a := a) (b := ⟨bid, bname, battrs, blis, bch, btext, bkey⟩)
        (x := { t with name := bname, listeners := ls', attributes := at', text := btext }) e1.symm hb (hls.imp_left fun h => h.trans e4.symm) hob.2.2.1 (by
          rcases hs4 with h | ⟨h, h'⟩
          · exact Or.inl h
          · exact Or.inr ⟨h, fun s => SilentAll.same e7 (h' s)⟩)
      -- deletions
      have hst := e7.take_drop bch.length
      have htn : (idsOf t.children).Nodup := by rw [← SameList.ids e7]; exact hna'.1
      have r5 := delete_runs (R := R) (t.children.drop bch.length) (t.children.take bch.length)
        { t with name := bname, attributes := at', text := btext, listeners := blis } C (by simp only; rw [← e1]; exact hb) (by
          intro e he
          have hid : e.id ∈ (a.children.drop bch.length).map (·.id) := by
            have := congrArg (List.map (·.id)) (SameList.map_id hst.2)
            simp only [List.map_map, Function.comp_def] at this
            rw [this]
            exact List.mem_map.2 ⟨e, he, rfl⟩
          obtain ⟨c, hc, hce⟩ := List.mem_map.1 hid
          have := hs5 c hc
          simp only [List.mem_cons, not_or] at this
          rw [hce] at this
          exact ⟨by simp only; rw [← e1]; exact this.1, fun h => this.2 (hC _ h)⟩)
          (by rw [List.take_append_drop]; exact htn) (by rw [List.take_append_drop])
      rw [← SameList.map_id hst.2] at r5
      -- pairs
      rw [diffZip_take] at hz
      have hz2 := safeZip_take _ _ _ hzip
      have hnt := hna'.1
      rw [idsOf_take_drop _ bch.length, List.nodup_append] at hnt
      obtain ⟨ts', h6, r6⟩ := zip_runs bch (a.children.take bch.length) (t.children.take bch.length) []
        { t with name := bname, attributes := at', text := btext, listeners := blis } C (a.id :: before) pairs hz hst.1
        (fun i hi => List.mem_cons_of_mem _ (hC i hi)) (by simp only; rw [← e1]; simp) (by simp [idsOf]) hz2 (by rw [List.length_take]; omega) hnt.1
        hnb'.1 (keyFitZip_take _ _ hfit'.2.2) (attrsOkAll_take haa'.2 _).1 hab.2 (obeysAll_take hoa'.2.2.2 _).1 hob.2.2.2
      simp only [List.nil_append] at r6
      -- creations
      have hlen : (a.children.take bch.length).length = min bch.length a.children.length := List.length_take
      have hbt : bch.take (a.children.take bch.length).length = bch.take a.children.length := by
        rw [hlen]
        by_cases h : bch.length ≤ a.children.length
        · rw [Nat.min_eq_left h, List.take_length, List.take_of_length_le h]
        · rw [Nat.min_eq_right (by omega)]
      rw [hbt] at h6
      have hnb2 := hnb'.1
      rw [idsOf_take_drop _ a.children.length, List.nodup_append] at hnb2
      obtain ⟨cs', h7, r7⟩ := createAll_runs (R := R) (bch.drop a.children.length)
        { t with name := bname, attributes := at', text := btext, listeners := blis, children := ts' } C
        (by simp only; rw [← e1]; exact hb) (by
          intro K hK hi
          simp only at hi
          rw [← e1, ← SameList.ids h6] at hi
          rcases hi with hi | hi | hi
          · exact hs6 K hK (by rw [hi]; exact List.mem_cons_self ..)
          · exact absurd rfl (hnb2.2.2 K.id hi K.id (nodesAll_id hK))
          · exact hs6 K hK (List.mem_cons_of_mem _ (hC _ hi)))
        hnb2.2.1 (attrsOkAll_take hab.2 _).2 (obeysAll_take hob.2.2.2 _).2 (keyFitZip_drop _ _ hfit'.2.2)
      -- id
      have r8 := runs_id (R := R) (C := C) (a := a) (b := ⟨bid, bname, battrs, blis, bch, btext, bkey⟩)
        (x := { t with name := bname, attributes := at', text := btext, listeners := blis, children := ts' ++ cs' }) e1.symm hb
      have e8 : createAll (some a.id) (bch.drop a.children.length) = createAll (some t.id) (bch.drop a.children.length) := by
        rw [e1]
      refine ⟨⟨bid, bname, at', blis, ts' ++ cs', btext, t.key⟩, ?_, ?_⟩
      · rw [Element.Same]
        refine ⟨rfl, rfl, fun k => (ha' k).symm, rfl, rfl, ?_, ?_⟩
        · exact hfit'.1.symm.trans e6
        · have := h6.append h7
          rw [List.take_append_drop] at this
          exact this
      · have := (((((r1.append r2).append r3).append r4).append ((r5.append r6).append r7)).append r8)
        rw [e8]
        exact this
theorem zip_runs : ∀ (bs as ts done : List Element) (n : Element) (C : List TFrame) (before : List Nat) (ops : List Op),
    diffZip as bs = some ops → SameList as ts → (∀ i ∈ idsBefore C, i ∈ before) → n.id ∈ before →
    (∀ i ∈ idsOf done, i ∈ before) → SafeZip R before as bs → as.length ≤ bs.length → (idsOf as).Nodup → (idsOf bs).Nodup →
    KeyFitZip as bs → AttrsOkAll as → AttrsOkAll bs → ObeysAll R as → ObeysAll R bs →
    ∃ ts', SameList (bs.take as.length) ts' ∧
      Runs R ops (plug C { n with children := done ++ ts }) (plug C { n with children := done ++ ts' })
  | bs, [], ts, done, n, C, before, ops, hd, ht, hC, hn, hdone, hs, hl, hna, hnb, hfit, haa, hab, hoa, hob => by
    have : ops = [] := by
      cases bs <;> (rw [diffZip] at hd; simpa using hd.symm)
    subst this
    rw [SameList] at ht
    subst ht
    exact ⟨[], by simp [SameList], .nil _⟩
  | [], a :: as, ts, done, n, C, before, ops, hd, ht, hC, hn, hdone, hs, hl, hna, hnb, hfit, haa, hab, hoa, hob => by
    simp at hl
  | b :: bs, a :: as, ts, done, n, C, before, ops, hd, ht, hC, hn, hdone, hs, hl, hna, hnb, hfit, haa, hab, hoa, hob => by
    rw [SameList] at ht
    obtain ⟨t, ts, rfl, ht1, ht2⟩ := ht
    rw [diffZip] at hd
    rw [SafeZip] at hs
    rw [idsOf, List.nodup_append] at hna hnb
    rw [KeyFitZip] at hfit
    rw [AttrsOkAll] at haa hab
    rw [ObeysAll] at hoa hob
    cases h1 : diff a b with
    | none => simp only [h1] at hd; cases hd
    | some d =>
      simp only [h1] at hd
      cases h2 : diffZip as bs with
      | none => simp only [h2] at hd; cases hd
      | some ds =>
        simp only [h2, Option.some.injEq] at hd
        subst hd
        obtain ⟨t', h3, r1⟩ := diff_runs b a t (holeOf n done ts :: C) before d h1 ht1 (by
          intro i hi
          simp only [idsBefore, holeOf, List.cons_append, List.mem_cons, List.mem_append] at hi
          rcases hi with rfl | h | h
          · exact hn
          · exact hdone i h
          · exact hC i h) hs.1 hna.1 hnb.1 hfit.1 haa.1 hab.1 hoa.1 hob.1
        obtain ⟨ts', h4, r2⟩ := zip_runs bs as ts (done ++ [t']) n C (before ++ b.ids) ds h2 ht2
          (fun i hi => List.mem_append.2 (Or.inl (hC i hi))) (List.mem_append.2 (Or.inl hn)) (by
            intro i hi
            rw [idsOf_append, List.mem_append] at hi
            rcases hi with h | h
            · exact List.mem_append.2 (Or.inl (hdone i h))
            · rw [idsOf, idsOf, List.append_nil, ← h3.ids] at h
              exact List.mem_append.2 (Or.inr h)) hs.2 (by simpa using hl) hna.2.1 hnb.2.1 hfit.2 haa.2 hab.2 hoa.2 hob.2
        refine ⟨t' :: ts', ?_, ?_⟩
        · rw [List.length_cons, List.take_succ_cons, SameList]
          exact ⟨t', ts', rfl, h3, h4⟩
        · rw [plug_holeOf, plug_holeOf] at r1
          simp only [List.append_assoc, List.cons_append, List.nil_append] at r2
          exact r1.append r2
end

mutual
theorem diff_fit_isSome : ∀ (b a : Element), KeyFit a b → ∃ ops, diff a b = some ops
  | ⟨bid, bname, battrs, blis, bch, btext, bkey⟩, a, h => by
    have hz := h.parts.2.2
    simp only at hz
    obtain ⟨ds, hd⟩ := diffZip_fit_isSome bch a.children hz
    rw [diff_eq, kidOps_fit h]
    unfold childOps
    simp only [hd]
    exact ⟨_, rfl⟩
theorem diffZip_fit_isSome : ∀ (bs as : List Element), KeyFitZip as bs → ∃ ops, diffZip as bs = some ops
  | [], as, _ => ⟨[], by rw [diffZip]⟩
  | b :: bs, [], _ => ⟨[], by rw [diffZip]⟩
  | b :: bs, a :: as, h => by
    rw [KeyFitZip] at h
    obtain ⟨d, hd⟩ := diff_fit_isSome b a h.1
    obtain ⟨ds, hds⟩ := diffZip_fit_isSome bs as h.2
    rw [diffZip]
    simp only [hd, hds]
    exact ⟨_, rfl⟩
end

theorem diff_isSome (b a : Element) (ha : a.Unkeyed) (hb : b.Unkeyed) : ∃ ops, diff a b = some ops :=
  diff_fit_isSome b a (keyFit_unkeyed b a ha hb)

end Puck
