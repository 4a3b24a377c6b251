import Verif.Props.Instructions
import Verif.Props.Follows
import Verif.Lemmas.OutOfStep
/-!
# C156: what `Changeset::apply` does to a view and what the browser's script does to the page
-/
namespace Puck

/-- The names and values of the instruction survive the trip (no `+` in a name that is followed by one, no capitals, nothing the browser refuses, and `id`
is not used as an attribute), and if it changes a tag, the browser copies children faithfully. -/
def Op.Survives (B : Browser) (op : Op) : Prop :=
  match op.instruction with
  | .setAttribute k v => (clientRules B).attr k v
  | .removeAttribute k => NoCapitals k ∧ k ≠ "id"
  | .setTagName n => (clientRules B).tag n ∧ B.Copies n
  | .createTag n _ => (clientRules B).tag n
  | .attachListener n on => (clientRules B).lis ⟨n, on⟩
  | _ => True

/-- The script and `apply` mean the same by the instruction, on a view with this element. -/
def Op.MeansTheSame (op : Op) (x : Element) : Prop :=
  match op.instruction with
  | .setText _ => x.children = []
  | .removeText => x.text = none ∨ x.text = some ""
  | .removeListeners => SilentAll x.children
  | .setTagName _ => x.listeners = [] ∧ SilentAll x.children
  | .insertChild _ | .insertAfter _ | .insertBefore _ => False
  | _ => True

/-! ## Lemmas -/

theorem firstWith_mem : ∀ {id : Nat} (t x : Element), firstWith id t = some x → x ∈ t.nodes ∧ x.id = id := by
  intro id t x h
  have key : ∀ (t : Element), (∀ x, firstWith id t = some x → x ∈ t.nodes ∧ x.id = id) := by
    intro t
    induction t using Element.rec (motive_2 := fun ts => ∀ x, firstWithIn id ts = some x → x ∈ nodesAll ts ∧ x.id = id) with
    | mk eid name attributes listeners children text key ih =>
      intro x h
      rw [firstWith] at h
      rw [nodes_eq]
      split at h
      · cases h
        rename_i e
        exact ⟨List.mem_cons_self, e.symm⟩
      · exact ⟨List.mem_cons_of_mem _ (ih x h).1, (ih x h).2⟩
    | nil => rename_i x h; cases h
    | cons c cs ih1 ih2 =>
      rename_i x h
      rw [firstWithIn] at h
      rw [nodesAll]
      cases hc : firstWith id c with
      | some z =>
        rw [hc] at h
        cases h
        exact ⟨List.mem_append_left _ (ih1 _ hc).1, (ih1 _ hc).2⟩
      | none =>
        rw [hc] at h
        exact ⟨List.mem_append_right _ (ih2 _ h).1, (ih2 _ h).2⟩
  exact key t x h

mutual
theorem node_none {sid : String} {f : Dom → Option (List Dom)} : ∀ d : Dom, replaceNode sid f d = none → sid ∉ d.ids
  | .text _, _ => by simp [Dom.ids]
  | .elem tag attrs ls cs, h => by
    rw [replaceNode] at h
    split at h
    · cases h
    · rename_i hne
      have : replaceIn sid f cs = none := by
        cases hc : replaceIn sid f cs with
        | none => rfl
        | some r => cases r <;> rw [hc] at h <;> cases h
      have := forest_none cs this
      rw [Dom.ids]
      simp only [List.mem_append, not_or]
      refine ⟨?_, this⟩
      cases hg : attrs.get "id" with
      | none => simp
      | some i =>
        rw [hg] at hne
        simp only [List.mem_singleton]
        rintro rfl
        exact hne rfl
theorem forest_none {sid : String} {f : Dom → Option (List Dom)} : ∀ ds : List Dom, replaceIn sid f ds = none → sid ∉ domIds ds
  | [], _ => by simp [domIds]
  | d :: ds, h => by
    rw [replaceIn] at h
    cases hc : replaceNode sid f d with
    | some r => cases r <;> rw [hc] at h <;> cases h
    | none =>
      rw [hc] at h
      have h2 : replaceIn sid f ds = none := by
        cases hr : replaceIn sid f ds with
        | none => rfl
        | some r => cases r <;> rw [hr] at h <;> cases h
      rw [domIds]
      simp only [List.mem_append, not_or]
      exact ⟨node_none d hc, forest_none ds h2⟩
end

theorem replace_single {sid : String} {f : Dom → Option (List Dom)} (hone : ∀ dx ds, f dx = some ds → ∃ dy, ds = [dy]) {d : Dom} {ds : List Dom}
    (h : replaceNode sid f d = some (some ds)) : ∃ dy, ds = [dy] := by
  cases d with
  | text s => cases h
  | elem tag attrs ls cs =>
    rw [replaceNode] at h
    split at h
    · exact hone _ _ (Option.some.inj h)
    · cases hc : replaceIn sid f cs with
      | none => rw [hc] at h; cases h
      | some r =>
        cases r with
        | none => rw [hc] at h; cases h
        | some cs' =>
          rw [hc] at h
          simp only [Option.some.injEq] at h
          exact ⟨_, h.symm⟩

mutual
/-- if the page shows the view that `apply` computes, then already the element that was changed is shown -/
theorem back_tree {id : Nat} {g : Element → Option Element} {f : Dom → Option (List Dom)} (hone : ∀ dx ds, f dx = some ds → ∃ dy, ds = [dy]) :
    ∀ (t t' : Element) (d d' : Dom), t.ShownAs d → mutateFirst id g t = some (some t') → replaceNode (toString id) f d = some (some [d']) → t'.ShownAs d' →
      ∃ x y dx dy, firstWith id t = some x ∧ x.ShownAs dx ∧ g x = some y ∧ f dx = some [dy] ∧ y.ShownAs dy
  | ⟨eid, name, attributes, listeners, children, text, key⟩, t', d, d', hd, hm, hr, hd' => by
    obtain ⟨attrs, kids, rfl, ha, hk⟩ := hd.elim
    simp only at ha hk
    rw [mutateFirst] at hm
    rw [replaceNode] at hr
    by_cases he : id = eid
    · rw [if_pos he] at hm
      rw [if_pos ((idAttr ha id).2 he)] at hr
      exact ⟨_, t', _, d', by rw [firstWith, if_pos he], hd, Option.some.inj hm, Option.some.inj hr, hd'⟩
    · rw [if_neg he] at hm
      rw [if_neg (fun h => he ((idAttr ha id).1 h)), replaceIn_text] at hr
      cases hc : mutateFirstIn id g children with
      | none => rw [hc] at hm; cases hm
      | some r =>
        cases r with
        | none => rw [hc] at hm; cases hm
        | some cs =>
          rw [hc] at hm
          simp only [Option.some.injEq] at hm
          subst hm
          cases hr2 : replaceIn (toString id) f kids with
          | none => rw [hr2] at hr; cases hr
          | some r =>
            cases r with
            | none => rw [hr2] at hr; cases hr
            | some ds' =>
              rw [hr2] at hr
              simp only [Option.map_some, Option.some.injEq, List.cons.injEq, and_true] at hr
              subst hr
              obtain ⟨attrs', kids', e, -, hk'⟩ := hd'.elim
              simp only [Dom.elem.injEq, true_and, List.append_cancel_left_eq] at e
              obtain ⟨-, rfl⟩ := e
              simp only at hk'
              obtain ⟨x, y, dx, dy, h1, h2⟩ := back_forest hone children cs kids ds' hk hc hr2 hk'
              exact ⟨x, y, dx, dy, by rw [firstWith, if_neg he]; exact h1, h2⟩
theorem back_forest {id : Nat} {g : Element → Option Element} {f : Dom → Option (List Dom)} (hone : ∀ dx ds, f dx = some ds → ∃ dy, ds = [dy]) :
    ∀ (ts ts' : List Element) (ds ds' : List Dom), ShownAsAll ts ds → mutateFirstIn id g ts = some (some ts') → replaceIn (toString id) f ds = some (some ds') →
      ShownAsAll ts' ds' → ∃ x y dx dy, firstWithIn id ts = some x ∧ x.ShownAs dx ∧ g x = some y ∧ f dx = some [dy] ∧ y.ShownAs dy
  | [], ts', ds, ds', _, hm, _, _ => by rw [mutateFirstIn] at hm; cases hm
  | t :: ts, ts', ds, ds', hd, hm, hr, hd' => by
    rw [ShownAsAll] at hd
    obtain ⟨d, ds, rfl, h1, h2⟩ := hd
    rw [mutateFirstIn] at hm
    rw [replaceIn] at hr
    cases hc : mutateFirst id g t with
    | some r =>
      cases r with
      | none => rw [hc] at hm; cases hm
      | some t1 =>
        rw [hc] at hm
        simp only [Option.some.injEq] at hm
        subst hm
        cases hr1 : replaceNode (toString id) f d with
        | none =>
          have hid : id ∉ t.ids := by
            have := node_none d hr1
            rw [shown_ids t d h1] at this
            exact fun h => this (List.mem_map_of_mem h)
          have := findAndMutate_none (f := g) hid
          unfold findAndMutate at this
          rw [hc] at this
          cases this
        | some r =>
          cases r with
          | none => rw [hr1] at hr; cases hr
          | some c' =>
            rw [hr1] at hr
            simp only [Option.some.injEq] at hr
            subst hr
            obtain ⟨d1, rfl⟩ : ∃ d1, c' = [d1] := replace_single hone hr1
            rw [ShownAsAll] at hd'
            obtain ⟨d2, ds2, e, h3, -⟩ := hd'
            simp only [List.cons_append, List.cons.injEq] at e
            obtain ⟨rfl, -⟩ := e
            obtain ⟨x, y, dx, dy, h4, h5⟩ := back_tree hone t t1 d d1 h1 hc hr1 h3
            exact ⟨x, y, dx, dy, by rw [firstWithIn, h4], h5⟩
    | none =>
      rw [hc] at hm
      obtain ⟨h3, h4⟩ := sim_absent t d h1 hc f
      rw [h3] at hr
      simp only at hm hr
      cases hm2 : mutateFirstIn id g ts with
      | none => rw [hm2] at hm; cases hm
      | some r =>
        cases r with
        | none => rw [hm2] at hm; cases hm
        | some ts1 =>
          rw [hm2] at hm
          simp only [Option.some.injEq] at hm
          subst hm
          cases hr2 : replaceIn (toString id) f ds with
          | none => rw [hr2] at hr; cases hr
          | some r =>
            cases r with
            | none => rw [hr2] at hr; cases hr
            | some ds1 =>
              rw [hr2] at hr
              simp only [Option.some.injEq] at hr
              subst hr
              rw [ShownAsAll] at hd'
              obtain ⟨d2, ds2, e, -, h6⟩ := hd'
              simp only [List.cons.injEq] at e
              obtain ⟨rfl, rfl⟩ := e
              obtain ⟨x, y, dx, dy, h7, h8⟩ := back_forest hone ts ts1 ds ds1 h2 hm2 hr2 h6
              exact ⟨x, y, dx, dy, by rw [firstWithIn, h4]; exact h7, h8⟩
end


theorem back_client {id : Nat} {g : Element → Option Element} {f : Dom → Option (List Dom)} (hone : ∀ dx ds, f dx = some ds → ∃ dy, ds = [dy])
    {page : List Dom} {t t' : Element} {d d' : Dom} (hp : PageOk page) (hd : t.ShownAs d) (hm : findAndMutate id g t = some t')
    (hr : withElement (toString id) f (page ++ [d]) = some (page ++ [d'])) (hd' : t'.ShownAs d') :
    ∃ x y dx dy, firstWith id t = some x ∧ x.ShownAs dx ∧ g x = some y ∧ f dx = some [dy] ∧ y.ShownAs dy := by
  have hm' : mutateFirst id g t = some (some t') := by
    unfold findAndMutate at hm
    cases hc : mutateFirst id g t with
    | none => rw [hc] at hm; cases hm
    | some r => rw [hc] at hm; simp only at hm; rw [hm]
  have hr' : replaceNode (toString id) f d = some (some [d']) := by
    unfold withElement at hr
    rw [replaceIn_page _ _ _ (hp id), replaceIn, replaceIn] at hr
    cases hc : replaceNode (toString id) f d with
    | none => rw [hc] at hr; cases hr
    | some r =>
      cases r with
      | none => rw [hc] at hr; cases hr
      | some ds =>
        rw [hc] at hr
        simp only [List.append_nil, Option.map_some, Option.some.injEq, List.append_cancel_left_eq] at hr
        rw [hr]
  exact back_tree hone t t' d d' hd hm' hr' hd'

mutual
theorem silent_of_clone : ∀ (e : Element) (d : Dom), e.ShownAs d → e.ShownAs d.cloneNode → e.Silent
  | ⟨eid, name, attributes, listeners, children, text, key⟩, d, hd, hc => by
    obtain ⟨attrs, kids, rfl, ha, hk⟩ := hd.elim
    obtain ⟨attrs', kids', e, -, hk'⟩ := hc.elim
    rw [Dom.cloneNode] at e
    simp only [Dom.elem.injEq] at e hk hk'
    obtain ⟨-, -, hl, e⟩ := e
    rw [Element.Silent]
    refine ⟨hl.symm, ?_⟩
    have : cloneAll kids = kids' := by
      rw [cloneAll_append, cloneAll_text] at e
      exact List.append_cancel_left e
    exact silentAll_of_clone children kids hk (by rw [this]; exact hk')
theorem silentAll_of_clone : ∀ (es : List Element) (ds : List Dom), ShownAsAll es ds → ShownAsAll es (cloneAll ds) → SilentAll es
  | [], _, _, _ => by rw [SilentAll]; trivial
  | e :: es, ds, hd, hc => by
    rw [ShownAsAll] at hd hc
    obtain ⟨d, ds, rfl, h1, h2⟩ := hd
    obtain ⟨d', ds', e', h3, h4⟩ := hc
    rw [cloneAll] at e'
    simp only [List.cons.injEq] at e'
    obtain ⟨rfl, rfl⟩ := e'
    rw [SilentAll]
    exact ⟨silent_of_clone e d h1 h3, silentAll_of_clone es ds h2 h4⟩
end


/-- With distinct ids, what holds of the first element with an id holds of every element with it. -/
theorem only_one {t : Element} (hn : t.ids.Nodup) {i : Nat} {P : Element → Prop} {x : Element} (hx : firstWith i t = some x) :
    (∀ z ∈ t.nodes, z.id = i → P z) ↔ P x := by
  obtain ⟨h1, h2⟩ := firstWith_mem t x hx
  refine ⟨fun h => h x h1 h2, fun h z hz hi => ?_⟩
  rw [node_unique hn hz h1 (hi.trans h2.symm)]
  exact h

theorem found {t t' : Element} {i : Nat} {g : Element → Option Element} (hn : t.ids.Nodup) (h : findAndMutate i g t = some t') : ∃ x, firstWith i t = some x := by
  by_cases hi : i ∈ t.ids
  · obtain ⟨C, x, rfl, hx, hb⟩ := find_plug i t hi
    exact ⟨x, firstWith_plug hb hx⟩
  · rw [findAndMutate_none hi] at h; cases h

/-- One instruction that the script carries out on the element it names: the page shows what `apply` computes exactly if the element then is shown. -/
theorem agree_on {B : Browser} {w : WireOp} {i : Nat} {g : Element → Element} {f : Dom → Option (List Dom)} {page : List Dom} {t t' : Element} {d : Dom} (hn : t.ids.Nodup)
    (hp : PageOk page) (hd : t.ShownAs d) (hc : clientOp B w (page ++ [d]) = withElement (toString i) f (page ++ [d])) {P : Element → Prop}
    (hone : ∀ dx ds, f dx = some ds → ∃ dy, ds = [dy])
    (hP : ∀ x dx, x.ShownAs dx → ((∃ dy, f dx = some [dy] ∧ (g x).ShownAs dy) ↔ P x))
    (hm : findAndMutate i (fun x => some (g x)) t = some t') :
    (∃ d', clientOp B w (page ++ [d]) = some (page ++ [d']) ∧ t'.ShownAs d') ↔ ∀ x ∈ t.nodes, x.id = i → P x := by
  obtain ⟨x, hx⟩ := found hn hm
  rw [only_one hn hx]
  constructor
  · rintro ⟨d', h1, h2⟩
    rw [hc] at h1
    obtain ⟨x', y, dx, dy, h3, h4, h5, h6, h7⟩ := back_client hone hp hd hm h1 h2
    rw [hx] at h3
    cases h3
    cases h5
    exact (hP x dx h4).1 ⟨dy, h6, h7⟩
  · intro hPx
    refine sim_client hp hd hc (fun x' y dx h3 h4 h5 => ?_) hm
    rw [hx] at h3
    cases h3
    cases h5
    exact (hP x dx h4).2 hPx


theorem before_ctx : ∀ (C : List TFrame) (k : Nat), k ∈ idsBefore C → k ∈ ctxIds C := by
  intro C
  induction C with
  | nil => intro k h; rw [idsBefore] at h; cases h
  | cons g C ih =>
    intro k h
    rw [idsBefore] at h
    rw [ctxIds]
    simp only [List.mem_cons, List.mem_append, List.cons_append] at h ⊢
    rcases h with h | h | h
    · exact Or.inl h
    · exact Or.inr (Or.inl (Or.inl h))
    · exact Or.inr (Or.inr (ih k h))

theorem delete_first {t t' : Element} (hn : t.ids.Nodup) {i : Nat} (ha : applyOp ⟨i, .deleteEl⟩ t = some t') : i ≠ t.id ∧ deleteFirst i t = some t' := by
  have h1 := (C118_delete t hn i).1
  have h2 : ¬(i ∉ t.ids ∨ i = t.id) := by rw [← h1, ha]; simp
  simp only [not_or, Classical.not_not] at h2
  obtain ⟨hi, hne⟩ := h2
  refine ⟨hne, ?_⟩
  rw [← nodes_ids] at hi
  obtain ⟨x, hx, rfl⟩ := List.mem_map.1 hi
  rcases node_plug t hx with rfl | ⟨f, C, rfl⟩
  · exact absurd rfl hne
  · have h3 := (delete_main f C x hn).2.1
    rw [h3] at ha
    cases ha
    have hn' : (plug C (f.fill x)).ids.Nodup := hn
    obtain ⟨n1, n2⟩ := plug_nodup _ _ hn'
    obtain ⟨n3, n4⟩ := plug_nodup _ _ hn
    have n5 := n4 _ x.id_mem_ids
    rw [ctxIds] at n5
    simp only [List.mem_cons, List.mem_append, List.cons_append, not_or] at n5
    refine deleteFirst_plug (C := C) (x := f.fill x) (fun h => n5.2.2 (before_ctx _ _ h)) n5.1 ?_
    unfold TFrame.fill
    rw [deleteFirst, (absent_prefix x.id (fun _ => none) 0 f.left (x :: f.right) n5.2.1.1).2.2.2, deleteFirstIn, if_pos rfl]
    rfl


/-- The page cannot show two views with different numbers of elements. -/
theorem shown_rows {t t' : Element} {d : Dom} (h : t.ShownAs d) (h' : t'.ShownAs d) : t.rows.length = t'.rows.length := by
  have h1 := shown_ids t d h
  rw [shown_ids t' d h'] at h1
  have := congrArg List.length h1
  rw [← rows_ids, ← rows_ids] at this
  simpa using this.symm

/-- An instruction the script does not know: nothing happens, and the view has an element more. -/
theorem agree_insert {page : List Dom} {t t' : Element} {d : Dom} {i : Nat} {B : Browser} {w : WireOp} (hd : t.ShownAs d) (hc : clientOp B w (page ++ [d]) = some (page ++ [d]))
    (hi : i ∈ t.ids) (hr : t'.rows.length = t.rows.length + 1) {P : Element → Prop} (hP : ∀ x, ¬P x) :
    (∃ d', clientOp B w (page ++ [d]) = some (page ++ [d']) ∧ t'.ShownAs d') ↔ ∀ x ∈ t.nodes, x.id = i → P x := by
  constructor
  · rintro ⟨d', h1, h2⟩
    rw [hc] at h1
    simp only [Option.some.injEq, List.append_cancel_left_eq, List.cons.injEq, and_true] at h1
    subst h1
    have := shown_rows hd h2
    omega
  · intro h
    rw [← nodes_ids] at hi
    obtain ⟨x, hx, e⟩ := List.mem_map.1 hi
    exact absurd (h x hx e) (hP x)

/-- **C156, exactly, instruction by instruction.** Let the page show a view without two elements of the same id, and let the names and values of an instruction survive the trip.  If
`Changeset::apply` can carry the instruction out on the view, the browser's script carries it out on the page without an exception and the page then shows what `apply` has computed, if
and only if: a text is set on an element without children; a text is taken away where there is none; the listeners are taken from an element below which there are none; the
tag is changed of an element that neither has listeners nor contains any; and no element is inserted by `InsertChild`, `InsertAfter` or `InsertBefore`. -/
theorem C156_agree_exact_partial (B : Browser) (t t' : Element) (hn : t.ids.Nodup) (op : Op) (hs : op.Survives B) (ha : applyOp op t = some t') (page : List Dom) (hp : PageOk page)
    (d : Dom) (hd : t.ShownAs d) :
    (∃ d', clientOp B op.serialize (page ++ [d]) = some (page ++ [d']) ∧ t'.ShownAs d') ↔ ∀ x ∈ t.nodes, x.id = op.id → op.MeansTheSame x := by
  obtain ⟨id, instr⟩ := op
  cases instr with
  | setInnerHtml e h => cases ha
  | insertChild c =>
    have h1 := (C118_create t hn c id "").2.2
    have hi : id ∈ t.ids := Classical.byContradiction fun h => by rw [h1.1.2 h] at ha; cases ha
    obtain ⟨P, Q, e1, e2⟩ := h1.2 t' ha
    refine agree_insert hd rfl hi ?_ fun _ h => h
    rw [e1, e2]; simp; omega
  | insertAfter c =>
    have h1 := C118_insert t hn id c
    obtain ⟨P, l, r, Q, e1, -, -, e2⟩ := h1.2.2.1 t' ha
    have hi : id ∈ t.ids := by
      have : ∃ r ∈ t.rows, r.id = id ∧ c ∈ r.kids := Classical.byContradiction fun h => by rw [h1.1.2 h] at ha; cases ha
      obtain ⟨r, hr, e, -⟩ := this
      rw [← rows_ids]
      exact List.mem_map.2 ⟨r, hr, e⟩
    refine agree_insert hd rfl hi ?_ fun _ h => h
    rw [e1, e2]; simp; omega
  | insertBefore c =>
    have h1 := C118_insert t hn id c
    obtain ⟨P, l, r, Q, e1, -, -, e2⟩ := h1.2.2.2 t' ha
    have hi : id ∈ t.ids := by
      have : ∃ r ∈ t.rows, r.id = id ∧ c ∈ r.kids := Classical.byContradiction fun h => by rw [h1.2.1.2 h] at ha; cases ha
      obtain ⟨r, hr, e, -⟩ := this
      rw [← rows_ids]
      exact List.mem_map.2 ⟨r, hr, e⟩
    refine agree_insert hd rfl hi ?_ fun _ h => h
    rw [e1, e2]; simp; omega
  | setAttribute k v =>
    refine ⟨fun _ _ _ _ => trivial, fun _ => sim_op hp hd hs ha⟩
  | removeAttribute k =>
    obtain ⟨h4, h5⟩ := hs
    refine ⟨fun _ _ _ _ => trivial, fun _ => ?_⟩
    refine sim_client (id := id) hp hd rfl ?_ ha
    intro x y dx _ hx hg
    simp only [Option.some.injEq] at hg
    subst hg
    obtain ⟨attrs, kids, rfl, hat, hk⟩ := hx.elim
    refine ⟨_, rfl, ?_⟩
    simp only [Op.serialize, Option.getD_some, asciiLower_small h4]
    exact Element.ShownAs.intro (t := { x with attributes := x.attributes.remove k }) (get_remove_id hat h5) hk
  | setId v => exact ⟨fun _ _ _ _ => trivial, fun _ => sim_op hp hd trivial ha⟩
  | createTag n p =>
    cases p with
    | none => cases ha
    | some p => exact ⟨fun _ _ _ _ => trivial, fun _ => sim_op hp hd ⟨hs, rfl⟩ ha⟩
  | attachListener n on => exact ⟨fun _ _ _ _ => trivial, fun _ => sim_op hp hd hs ha⟩
  | deleteEl =>
    obtain ⟨h1, h2⟩ := delete_first hn ha
    exact ⟨fun _ _ _ _ => trivial, fun _ => sim_op hp hd ⟨fun e => h1 e.symm, by rw [h2, ha]⟩ ha⟩
  | setText v =>
    refine agree_on (g := fun x => { x with text := some v }) hn hp hd rfl ?_ ?_ ha
    · intro dx ds h
      cases dx <;> simp at h
      exact ⟨_, h.symm⟩
    · intro x dx hx
      obtain ⟨attrs, kids, rfl, hat, hk⟩ := hx.elim
      simp only [Op.serialize, Option.getD_some, Op.MeansTheSame, Option.some.injEq, List.cons.injEq, and_true, exists_eq_left']
      constructor
      · intro h
        obtain ⟨attrs', kids', e, -, hk'⟩ := h.elim
        simp only [Dom.elem.injEq, true_and] at e
        have e2 : textContent v = textNodes (some v) := rfl
        have : kids' = [] := by
          have := e.2
          rw [e2] at this
          simpa using this
        subst this
        simp only at hk'
        generalize x.children = cs at hk'
        cases cs with
        | nil => rfl
        | cons c cs => rw [ShownAsAll] at hk'; obtain ⟨_, _, e, _⟩ := hk'; cases e
      · intro hnil
        have := Element.ShownAs.intro (t := { x with text := some v }) (attrs := attrs) (kids := []) hat (by simp only; rw [hnil]; rfl)
        simpa [textNodes, textContent] using this
  | removeText =>
    have hc : clientOp B (Op.serialize ⟨id, .removeText⟩) (page ++ [d]) = withElement (toString id) (fun d => some [d]) (page ++ [d]) := by
      obtain ⟨x, hx⟩ := found hn (g := fun x => some { x with text := none }) ha
      have ht : findAndMutate id some t = some t := by
        by_cases hi : id ∈ t.ids
        · obtain ⟨C, x, rfl, hx, hb⟩ := find_plug id t hi
          rw [findAndMutate_plug hb hx]; rfl
        · have := findAndMutate_none (f := fun x => some { x with text := none }) hi
          change findAndMutate id (fun x => some { x with text := none }) t = some t' at ha
          rw [this] at ha; cases ha
      obtain ⟨d', h1, -⟩ := sim_update (f := fun d => some [d]) hp hd (fun x y dx _ hx hg => ⟨dx, rfl, by cases hg; exact hx⟩) ht
      rw [h1, withElement_id h1]
      rfl
    refine agree_on (g := fun x => { x with text := none }) hn hp hd hc (fun dx ds h => ⟨dx, by cases h; rfl⟩) ?_ ha
    intro x dx hx
    obtain ⟨attrs, kids, rfl, hat, hk⟩ := hx.elim
    simp only [Op.MeansTheSame, Option.some.injEq, List.cons.injEq, and_true, exists_eq_left']
    constructor
    · intro h
      obtain ⟨attrs', kids', e, -, hk'⟩ := h.elim
      simp only [Dom.elem.injEq, true_and, textNodes, List.nil_append] at e hk'
      have hlen : ∀ (es : List Element) (k k' : List Dom), ShownAsAll es k → ShownAsAll es k' → k.length = k'.length := by
        intro es
        induction es with
        | nil => intro k k' h h'; rw [shownAsAll_nil h, shownAsAll_nil h']
        | cons e es ih =>
          intro k k' h h'
          rw [ShownAsAll] at h h'
          obtain ⟨_, ds, rfl, -, h2⟩ := h
          obtain ⟨_, ds', rfl, -, h2'⟩ := h'
          simp [ih ds ds' h2 h2']
      have h1 := hlen _ _ _ hk hk'
      have h2 := congrArg List.length e.2
      cases ht : x.text with
      | none => exact .inl rfl
      | some s =>
        right
        rw [ht] at h2
        by_cases hs' : s = ""
        · rw [hs']
        · simp [hs'] at h2
          omega
    · intro htext
      have := Element.ShownAs.intro (t := { x with text := none }) (attrs := attrs) (kids := kids) hat hk
      rcases htext with h | h <;> · rw [h]; exact this
  | removeListeners =>
    refine agree_on (g := fun x => { x with listeners := [] }) hn hp hd rfl (fun dx ds h => ⟨_, by cases h; rfl⟩) ?_ ha
    intro x dx hx
    obtain ⟨attrs, kids, rfl, hat, hk⟩ := hx.elim
    simp only [Op.MeansTheSame, Option.some.injEq, List.cons.injEq, and_true, exists_eq_left']
    rw [Dom.cloneNode]
    constructor
    · intro h
      obtain ⟨attrs', kids', e, -, hk'⟩ := h.elim
      simp only [Dom.elem.injEq, true_and, cloneAll_append, cloneAll_text, List.append_cancel_left_eq] at e
      obtain ⟨-, rfl⟩ := e
      exact silentAll_of_clone _ _ hk hk'
    · intro hsil
      rw [cloneAll_silent x.children kids x.text hsil hk]
      exact Element.ShownAs.intro (t := { x with listeners := [] }) hat hk
  | setTagName n =>
    obtain ⟨⟨h1, h2, h3⟩, hcp⟩ := hs
    refine agree_on (g := fun x => { x with name := n }) hn hp hd rfl ?_ ?_ ha
    · intro dx ds h
      cases dx <;> simp [Op.serialize] at h
      exact ⟨_, h.2.symm⟩
    · intro x dx hx
      obtain ⟨attrs, kids, rfl, hat, hk⟩ := hx.elim
      simp only [Op.serialize, Option.getD_some, Op.MeansTheSame, h2, if_true, Option.some.injEq, List.cons.injEq, and_true, exists_eq_left', asciiLower_small h3]
      rw [hcp]
      constructor
      · intro h
        obtain ⟨attrs', kids', e, -, hk'⟩ := h.elim
        simp only [Dom.elem.injEq, true_and, cloneAll_append, cloneAll_text, List.append_cancel_left_eq] at e
        obtain ⟨-, el, rfl⟩ := e
        exact ⟨el.symm, silentAll_of_clone _ _ hk hk'⟩
      · rintro ⟨hl, hsil⟩
        rw [cloneAll_silent x.children kids x.text hsil hk]
        have := Element.ShownAs.intro (t := { x with name := n }) hat hk
        simpa only [hl] using this


/-- Every instruction of the changeset means the same, on the view that `apply` has reached when its turn comes. -/
def AgreeThroughout (B : Browser) : List Op → Element → Prop
  | [], _ => True
  | op :: ops, t => t.ids.Nodup ∧ op.Survives B ∧ (∀ x ∈ t.nodes, x.id = op.id → op.MeansTheSame x) ∧ ∀ t', applyOp op t = some t' → AgreeThroughout B ops t'

/-- **C156, changesets.** If every instruction of a changeset means the same (`C156_agree_exact_partial`) when its turn comes, and `apply` can carry out all of them, then the browser's script
does too, without an exception, and shows what `apply` has computed, the rest of the page unchanged. -/
theorem C156_changeset_partial (B : Browser) (ops : List Op) (t t' : Element) (hag : AgreeThroughout B ops t) (ha : applyOps ops t = some t') (page : List Dom) (hp : PageOk page)
    (d : Dom) (hd : t.ShownAs d) : ∃ d', clientAll B (serializeOps ops) (page ++ [d]) = some (page ++ [d']) ∧ t'.ShownAs d' := by
  induction ops generalizing t d with
  | nil => cases ha; exact ⟨d, rfl, hd⟩
  | cons op ops ih =>
    obtain ⟨h1, h2, h3, h4⟩ := hag
    rw [applyOps] at ha
    cases hop : applyOp op t with
    | none => rw [hop] at ha; cases ha
    | some t1 =>
      rw [hop] at ha
      obtain ⟨d1, h5, h6⟩ := (C156_agree_exact_partial B t t1 h1 op h2 hop page hp d hd).2 h3
      obtain ⟨d2, h7, h8⟩ := ih t1 (h4 t1 hop) ha d1 h6
      refine ⟨d2, ?_, h8⟩
      rw [serializeOps, List.map_cons, clientAll, h5]
      exact h7

theorem withElement_absent {page : List Dom} {t : Element} {d : Dom} (hp : PageOk page) (hd : t.ShownAs d) {i : Nat} (hi : i ∉ t.ids) (f : Dom → Option (List Dom)) :
    withElement (toString i) f (page ++ [d]) = none := by
  unfold withElement
  have h : toString i ∉ d.ids := by
    rw [shown_ids t d hd]
    intro h
    obtain ⟨j, hj, e⟩ := List.mem_map.1 h
    exact hi (toString_nat_inj e ▸ hj)
  rw [replaceIn_page _ _ _ (hp i), replaceIn, page_node f d h, replaceIn]
  rfl

/-- **C156, failures.** Where `apply` panics since there is no element with the id an instruction names (no parent, for a tag to be created), the script throws an exception - for all
instructions it carries out on an element. -/
theorem C156_absent_partial (B : Browser) (t : Element) (page : List Dom) (hp : PageOk page) (d : Dom) (hd : t.ShownAs d) (i : Nat) (hi : i ∉ t.ids) (op : Op) (hs : op.Survives B)
    (hop : (op.id = i ∧ ((∃ k v, op.instruction = .setAttribute k v) ∨ (∃ k, op.instruction = .removeAttribute k) ∨ (∃ j, op.instruction = .setId j) ∨
      (∃ s, op.instruction = .setText s) ∨ (∃ n, op.instruction = .setTagName n) ∨ op.instruction = .removeListeners ∨ (∃ n on, op.instruction = .attachListener n on) ∨
      op.instruction = .deleteEl)) ∨ ∃ n, op.instruction = .createTag n (some i)) :
    applyOp op t = none ∧ clientOp B op.serialize (page ++ [d]) = none := by
  have ha := fun g => findAndMutate_none (f := g) hi
  have hw := withElement_absent hp hd hi
  obtain ⟨id, instr⟩ := op
  rcases hop with ⟨rfl, ⟨k, v, rfl⟩ | ⟨k, rfl⟩ | ⟨j, rfl⟩ | ⟨s, rfl⟩ | ⟨n, rfl⟩ | rfl | ⟨n, on, rfl⟩ | rfl⟩ | ⟨n, rfl⟩
  · obtain ⟨h1, h2, h3, -, -⟩ := hs
    exact ⟨ha _, by simp only [clientOp, Op.serialize, splitPlus_two h1 h2]; exact hw _⟩
  · exact ⟨ha _, hw _⟩
  · exact ⟨ha _, hw _⟩
  · exact ⟨ha _, hw _⟩
  · exact ⟨ha _, hw _⟩
  · exact ⟨ha _, hw _⟩
  · obtain ⟨h1, h2⟩ := hs
    exact ⟨ha _, by simp only [clientOp, Op.serialize, splitPlus_two h1 h2]; exact hw _⟩
  · refine ⟨?_, hw _⟩
    unfold applyOp
    simp only [(absent_tree id (fun _ => none) t hi).2.2.1]
  · obtain ⟨h1, h2, -⟩ := hs
    refine ⟨ha _, ?_⟩
    simp only [clientOp, Op.serialize, splitPlus_two h1 (toString_nat_noplus i), h2, if_true, if_neg (toString_nat_ne_empty i)]
    exact hw _

/-- **C156, between two views of a component**: where the browser can follow the changeset, `apply` can, too. -/
theorem C156_views_partial (B : Browser) (w w' : WrappedBodyNode) (g : Nat) (a b : Element) (ga gb : Nat)
    (ha : intoElement w g = some (a, ga)) (hb : intoElement w' g = some (b, gb)) (hw : w.AttrsOk) (hw' : w'.AttrsOk)
    (oa : a.Obeys (clientRules B)) (ob : b.Obeys (clientRules B)) (htag : ∀ x y, Compared a b x y → x.name = y.name ∨ B.Copies y.name)
    (page : List Dom) (hp : PageOk page) (d d' : Dom) (hd : a.ShownAs d) (ops : List Op) (hops : a.diff (some b) = some ops)
    (hr : clientAll B (serializeOps ops) (page ++ [d]) = some (page ++ [d'])) (hd' : b.ShownAs d') : ∃ t, applyOps ops a = some t ∧ t.Same b := by
  obtain ⟨ops', h1, h2⟩ := C63_views_exact_partial B w w' g a b ga gb ha hb hw hw' oa ob htag
  have h3 := (h2 page d hp hd).1 ⟨d', by rw [hops] at h1; cases h1; exact hr, hd'⟩
  obtain ⟨ops2, t, h4, h5, h6⟩ := (C57_views_exact_partial w w' g a b ga gb ha hb hw hw').2 fun x y hc => ⟨(h3 x y hc).1, (h3 x y hc).2.1, (h3 x y hc).2.2.1⟩
  rw [hops] at h4
  cases h4
  exact ⟨t, h5, h6⟩

/-- **C156 is false**, the other way round, in any browser that accepts the names: between two views of a component (a text is taken away), `apply` turns the old view into the new one,
and the browser, which shows the old one, does not come to show the new one from the same changeset. -/
theorem C156_agree_refuted (B : Browser) (hB : ∀ n, B.validTag n = true ∧ B.validAttr n = true) :
    ∃ w w' a b g ops t d, intoElement w 0 = some (a, g) ∧ intoElement w' 0 = some (b, g) ∧ a.diff (some b) = some ops ∧
      applyOps ops a = some t ∧ t.Same b ∧ a.ShownAs d ∧ ¬ ∃ d', clientMessage B (serializeOps ops) [d] = [d'] ∧ b.ShownAs d' := by
  obtain ⟨a, b, g, ops, d, h1, h2, h3, h4, h5, h6⟩ := (C63_update_refuted B hB).1
  obtain ⟨ops', t, h7, h8, h9⟩ := C57_views_partial _ _ 0 a b g g h1 h2 (by simp [WrappedBodyNode.AttrsOk, WrappedAttrsOk, BodyNode.wrap, BodyNode.htmlAttrs, Headers.Distinct]) (by simp [WrappedBodyNode.AttrsOk, WrappedAttrsOk, BodyNode.wrap, BodyNode.htmlAttrs, Headers.Distinct]) h3
  rw [h4] at h7
  cases h7
  exact ⟨_, _, a, b, g, ops, t, d, h1, h2, h4, h8, h9, h5, h6⟩

/-- non-vacuity: on a list with two entries, deleting the first (of which the script makes what `apply` makes), setting the text of the list itself (of which it does not) -/
example (B : Browser) (page : List Dom) (hp : PageOk page) (d : Dom) (hd : demoList.ShownAs d) :
    (∃ t' d', applyOp ⟨1, .deleteEl⟩ demoList = some t' ∧ clientOp B (Op.serialize ⟨1, .deleteEl⟩) (page ++ [d]) = some (page ++ [d']) ∧ t'.ShownAs d') ∧
    ∃ t', applyOp ⟨0, .setText "new"⟩ demoList = some t' ∧ ¬∃ d', clientOp B (Op.serialize ⟨0, .setText "new"⟩) (page ++ [d]) = some (page ++ [d']) ∧ t'.ShownAs d' := by
  have hn : demoList.ids.Nodup := by decide +kernel
  constructor
  · obtain ⟨t', ht⟩ : ∃ t', applyOp ⟨1, .deleteEl⟩ demoList = some t' := ⟨_, rfl⟩
    obtain ⟨d', h⟩ := (C156_agree_exact_partial B _ _ hn _ (by exact True.intro) ht page hp d hd).2 fun _ _ _ => trivial
    exact ⟨t', d', ht, h⟩
  · obtain ⟨t', ht⟩ : ∃ t', applyOp ⟨0, .setText "new"⟩ demoList = some t' := ⟨_, rfl⟩
    refine ⟨t', ht, fun h => ?_⟩
    have := (C156_agree_exact_partial B _ _ hn _ (by exact True.intro) ht page hp d hd).1 h demoList (by rw [nodes_eq]; exact List.mem_cons_self) rfl
    simp only [Op.MeansTheSame, demoList] at this
    cases this

/-- non-vacuity of `C156_changeset_partial`: two instructions -/
example (B : Browser) : AgreeThroughout B [⟨1, .deleteEl⟩, ⟨3, .setText "z"⟩] demoList ∧ ∃ t', applyOps [⟨1, .deleteEl⟩, ⟨3, .setText "z"⟩] demoList = some t' := by
  refine ⟨⟨by decide +kernel, trivial, fun _ _ _ => trivial, fun t' ht => ?_⟩, _, rfl⟩
  cases ht
  refine ⟨by decide +kernel, trivial, fun x hx hi => ?_, fun _ _ => trivial⟩
  simp only [Element.nodes, nodesAll, List.append_nil, List.mem_cons, List.not_mem_nil, or_false] at hx
  rcases hx with rfl | rfl
  · cases hi
  · rfl

end Puck
