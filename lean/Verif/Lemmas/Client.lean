import Verif.Spec.Page
import Verif.Lemmas.SafeIds
import Verif.Lemmas.Ascii
/-!
# The browser follows `Changeset::apply`
-/
namespace Puck

/-! ## Splitting -/

theorem splitPlusAux_ne_nil (l : List Char) : splitPlusAux l ≠ [] := by
  induction l with
  | nil => simp [splitPlusAux]
  | cons c l ih =>
    rw [splitPlusAux]
    cases h : splitPlusAux l with
    | nil => exact absurd h ih
    | cons w ws => simp only; split <;> simp

theorem splitPlusAux_none {l : List Char} (h : '+' ∉ l) : splitPlusAux l = [l] := by
  induction l with
  | nil => rfl
  | cons c l ih =>
    simp only [List.mem_cons, not_or] at h
    rw [splitPlusAux, ih h.2]
    simp only
    rw [if_neg (fun e => h.1 e.symm)]

theorem splitPlusAux_append {l : List Char} (h : '+' ∉ l) (r : List Char) : splitPlusAux (l ++ '+' :: r) = l :: splitPlusAux r := by
  induction l with
  | nil =>
    rw [List.nil_append, splitPlusAux]
    cases hr : splitPlusAux r with
    | nil => exact absurd hr (splitPlusAux_ne_nil r)
    | cons w ws => simp
  | cons c l ih =>
    simp only [List.mem_cons, not_or] at h
    rw [List.cons_append, splitPlusAux, ih h.2]
    simp only
    rw [if_neg (fun e => h.1 e.symm)]

theorem splitPlus_two {a b : String} (ha : '+' ∉ a.toList) (hb : '+' ∉ b.toList) : splitPlus (a ++ "+" ++ b) = [a, b] := by
  unfold splitPlus
  have : (a ++ "+" ++ b).toList = a.toList ++ '+' :: b.toList := by simp [String.toList_append]
  rw [this, splitPlusAux_append ha, splitPlusAux_none hb]
  simp

theorem toString_nat_inj {m n : Nat} (h : toString m = toString n) : m = n := by
  have h1 := (digits_toString m).2
  have h2 := (digits_toString n).2
  rw [h] at h1
  exact h1.symm.trans h2

theorem toString_nat_ne_empty (n : Nat) : toString n ≠ "" := by
  intro h
  have := (digits_toString n).1.1
  rw [h] at this
  exact this rfl

theorem toString_nat_noplus (n : Nat) : '+' ∉ (toString n : String).toList := by
  intro h
  have hd := (digits_toString n).1.2
  have : (43 : UInt8) ∈ strBytes (toString n) := by
    rw [strBytes_eq_flatMap]
    exact List.mem_flatMap.2 ⟨'+', h, by decide⟩
  exact absurd (hd _ this).1 (by decide)

/-! ## Finding the same element -/

theorem Element.ShownAs.elim {t : Element} {d : Dom} (h : t.ShownAs d) : ∃ attrs kids,
    d = .elem t.name attrs t.listeners (textNodes t.text ++ kids) ∧
      (∀ k, attrs.get k = if k = "id" then some (toString t.id) else t.attributes.get k) ∧ ShownAsAll t.children kids := by
  cases t; rw [Element.ShownAs] at h; exact h

theorem Element.ShownAs.intro {t : Element} {attrs : Headers} {kids : List Dom}
    (h1 : ∀ k, attrs.get k = if k = "id" then some (toString t.id) else t.attributes.get k) (h2 : ShownAsAll t.children kids) :
    t.ShownAs (.elem t.name attrs t.listeners (textNodes t.text ++ kids)) := by
  cases t; rw [Element.ShownAs]; exact ⟨attrs, kids, rfl, h1, h2⟩

theorem replaceIn_text (sid : String) (f : Dom → Option (List Dom)) (text : Option String) (kids : List Dom) :
    replaceIn sid f (textNodes text ++ kids) = (replaceIn sid f kids).map (·.map (textNodes text ++ ·)) := by
  have hnil : replaceIn sid f kids = (replaceIn sid f kids).map (·.map ([] ++ ·)) := by
    cases h : replaceIn sid f kids with
    | none => rfl
    | some r => cases r <;> rfl
  cases text with
  | none => exact hnil
  | some s =>
    by_cases hs : s = ""
    · have : textNodes (some s) = [] := by simp [textNodes, hs]
      rw [this]; exact hnil
    · have : textNodes (some s) = [.text s] := by simp [textNodes, hs]
      rw [this, List.cons_append, List.nil_append, replaceIn, replaceNode]
      cases h : replaceIn sid f kids with
      | none => rfl
      | some r => cases r <;> rfl

theorem idAttr {attrs : Headers} {i : Nat} {old : Headers}
    (h : ∀ k, attrs.get k = if k = "id" then some (toString i) else old.get k) (id : Nat) :
    (attrs.get "id" = some (toString id)) ↔ id = i := by
  rw [h "id", if_pos rfl]
  constructor
  · intro e; exact (toString_nat_inj (Option.some.inj e)).symm
  · rintro rfl; rfl

mutual
/-- the browser does to the first element with an id what `apply` does to it -/
theorem sim_tree {id : Nat} {g : Element → Option Element} {f : Dom → Option (List Dom)} : ∀ (t t' : Element) (d : Dom),
    t.ShownAs d →
    (∀ x y dx, firstWith id t = some x → x.ShownAs dx → g x = some y → ∃ dy, f dx = some [dy] ∧ y.ShownAs dy) →
    mutateFirst id g t = some (some t') → ∃ d', replaceNode (toString id) f d = some (some [d']) ∧ t'.ShownAs d'
  | ⟨eid, name, attributes, listeners, children, text, key⟩, t', d, hd, hfg, hm => by
    obtain ⟨attrs, kids, rfl, ha, hk⟩ := hd.elim
    simp only at ha hk
    rw [mutateFirst] at hm
    rw [replaceNode]
    by_cases he : id = eid
    · rw [if_pos he] at hm
      rw [if_pos ((idAttr ha id).2 he)]
      have hf : firstWith id ⟨eid, name, attributes, listeners, children, text, key⟩ =
          some ⟨eid, name, attributes, listeners, children, text, key⟩ := by rw [firstWith, if_pos he]
      obtain ⟨dy, h1, h2⟩ := hfg _ t' _ hf hd (Option.some.inj hm)
      exact ⟨dy, by rw [h1], h2⟩
    · rw [if_neg he] at hm
      rw [if_neg (fun h => he ((idAttr ha id).1 h)), replaceIn_text]
      cases hc : mutateFirstIn id g children with
      | none => rw [hc] at hm; cases hm
      | some r =>
        cases r with
        | none => rw [hc] at hm; cases hm
        | some cs =>
          rw [hc] at hm
          simp only [Option.some.injEq] at hm
          subst hm
          obtain ⟨ds', h1, h2⟩ := sim_forest children cs kids hk (fun x y dx hx => hfg x y dx (by
            rw [firstWith, if_neg he]; exact hx)) hc
          rw [h1]
          exact ⟨_, rfl, Element.ShownAs.intro (t := ⟨eid, name, attributes, listeners, cs, text, key⟩) ha h2⟩
theorem sim_forest {id : Nat} {g : Element → Option Element} {f : Dom → Option (List Dom)} : ∀ (ts ts' : List Element) (ds : List Dom),
    ShownAsAll ts ds →
    (∀ x y dx, firstWithIn id ts = some x → x.ShownAs dx → g x = some y → ∃ dy, f dx = some [dy] ∧ y.ShownAs dy) →
    mutateFirstIn id g ts = some (some ts') → ∃ ds', replaceIn (toString id) f ds = some (some ds') ∧ ShownAsAll ts' ds'
  | [], ts', ds, _, _, hm => by rw [mutateFirstIn] at hm; cases hm
  | t :: ts, ts', ds, hd, hfg, hm => by
    rw [ShownAsAll] at hd
    obtain ⟨d, ds, rfl, h1, h2⟩ := hd
    rw [mutateFirstIn] at hm
    rw [replaceIn]
    cases hc : mutateFirst id g t with
    | some r =>
      cases r with
      | none => rw [hc] at hm; cases hm
      | some t1 =>
        rw [hc] at hm
        simp only [Option.some.injEq] at hm
        subst hm
        obtain ⟨d', h3, h4⟩ := sim_tree t t1 d h1 (fun x y dx hx => hfg x y dx (by rw [firstWithIn, hx])) hc
        rw [h3]
        refine ⟨_, rfl, ?_⟩
        rw [ShownAsAll]
        exact ⟨d', ds, rfl, h4, h2⟩
    | none =>
      rw [hc] at hm
      obtain ⟨h3, h4⟩ := sim_absent t d h1 hc f
      rw [h3]
      simp only at hm ⊢
      cases hr : mutateFirstIn id g ts with
      | none => rw [hr] at hm; cases hm
      | some r =>
        cases r with
        | none => rw [hr] at hm; cases hm
        | some ts1 =>
          rw [hr] at hm
          simp only [Option.some.injEq] at hm
          subst hm
          obtain ⟨ds', h5, h6⟩ := sim_forest ts ts1 ds h2 (fun x y dx hx => hfg x y dx (by rw [firstWithIn, h4]; exact hx)) hr
          rw [h5]
          refine ⟨_, rfl, ?_⟩
          rw [ShownAsAll]
          exact ⟨d, ds', rfl, h1, h6⟩
theorem sim_absent {id : Nat} {g : Element → Option Element} : ∀ (t : Element) (d : Dom), t.ShownAs d →
    mutateFirst id g t = none → ∀ f, replaceNode (toString id) f d = none ∧ firstWith id t = none
  | ⟨eid, name, attributes, listeners, children, text, key⟩, d, hd, hm, f => by
    obtain ⟨attrs, kids, rfl, ha, hk⟩ := hd.elim
    simp only at ha hk
    rw [mutateFirst] at hm
    by_cases he : id = eid
    · rw [if_pos he] at hm; cases hm
    · rw [if_neg he] at hm
      have hc : mutateFirstIn id g children = none := by
        cases hc : mutateFirstIn id g children with
        | none => rfl
        | some r => cases r <;> rw [hc] at hm <;> cases hm
      obtain ⟨h1, h2⟩ := sim_absentIn children kids hk hc f
      rw [replaceNode, if_neg (fun h => he ((idAttr ha id).1 h)), replaceIn_text, h1, firstWith, if_neg he]
      exact ⟨rfl, h2⟩
theorem sim_absentIn {id : Nat} {g : Element → Option Element} : ∀ (ts : List Element) (ds : List Dom), ShownAsAll ts ds →
    mutateFirstIn id g ts = none → ∀ f, replaceIn (toString id) f ds = none ∧ firstWithIn id ts = none
  | [], ds, hd, _, f => by rw [ShownAsAll] at hd; subst hd; exact ⟨rfl, rfl⟩
  | t :: ts, ds, hd, hm, f => by
    rw [ShownAsAll] at hd
    obtain ⟨d, ds, rfl, h1, h2⟩ := hd
    rw [mutateFirstIn] at hm
    have hc : mutateFirst id g t = none := by
      cases hc : mutateFirst id g t with
      | none => rfl
      | some r => cases r <;> rw [hc] at hm <;> cases hm
    rw [hc] at hm
    simp only at hm
    have hr : mutateFirstIn id g ts = none := by
      cases hr : mutateFirstIn id g ts with
      | none => rfl
      | some r => cases r <;> rw [hr] at hm <;> cases hm
    obtain ⟨h3, h4⟩ := sim_absent t d h1 hc f
    obtain ⟨h5, h6⟩ := sim_absentIn ts ds h2 hr f
    rw [replaceIn, h3, firstWithIn, h4]
    simp only [h5]
    exact ⟨trivial, h6⟩
end

/-! ## Deleting -/

mutual
theorem sim_delete {id : Nat} : ∀ (t t' : Element) (d : Dom), t.ShownAs d → id ≠ t.id → deleteFirst id t = some t' →
    ∃ d', replaceNode (toString id) (fun _ => some []) d = some (some [d']) ∧ t'.ShownAs d'
  | ⟨eid, name, attributes, listeners, children, text, key⟩, t', d, hd, he, hm => by
    obtain ⟨attrs, kids, rfl, ha, hk⟩ := hd.elim
    simp only at ha hk he
    rw [deleteFirst] at hm
    rw [replaceNode, if_neg (fun h => he ((idAttr ha id).1 h)), replaceIn_text]
    cases hc : deleteFirstIn id children with
    | none => rw [hc] at hm; cases hm
    | some cs =>
      rw [hc] at hm
      simp only [Option.some.injEq] at hm
      subst hm
      obtain ⟨ds', h1, h2⟩ := sim_deleteIn children cs kids hk hc
      rw [h1]
      exact ⟨_, rfl, Element.ShownAs.intro (t := ⟨eid, name, attributes, listeners, cs, text, key⟩) ha h2⟩
theorem sim_deleteIn {id : Nat} : ∀ (ts ts' : List Element) (ds : List Dom), ShownAsAll ts ds → deleteFirstIn id ts = some ts' →
    ∃ ds', replaceIn (toString id) (fun _ => some []) ds = some (some ds') ∧ ShownAsAll ts' ds'
  | [], ts', ds, _, hm => by rw [deleteFirstIn] at hm; cases hm
  | t :: ts, ts', ds, hd, hm => by
    rw [ShownAsAll] at hd
    obtain ⟨d, ds, rfl, h1, h2⟩ := hd
    rw [deleteFirstIn] at hm
    rw [replaceIn]
    by_cases he : t.id = id
    · rw [if_pos he, Option.some.injEq] at hm
      subst hm
      obtain ⟨attrs, kids, rfl, ha, hk⟩ := h1.elim
      rw [replaceNode, if_pos ((idAttr ha id).2 he.symm)]
      exact ⟨ds, rfl, h2⟩
    · rw [if_neg he] at hm
      cases hc : deleteFirst id t with
      | some t1 =>
        rw [hc] at hm
        simp only [Option.some.injEq] at hm
        subst hm
        obtain ⟨d', h3, h4⟩ := sim_delete t t1 d h1 (fun e => he e.symm) hc
        rw [h3]
        refine ⟨_, rfl, ?_⟩
        rw [ShownAsAll]
        exact ⟨d', ds, rfl, h4, h2⟩
      | none =>
        rw [hc] at hm
        simp only at hm
        cases hr : deleteFirstIn id ts with
        | none => rw [hr] at hm; cases hm
        | some ts1 =>
          rw [hr] at hm
          simp only [Option.some.injEq] at hm
          subst hm
          obtain ⟨ds', h5, h6⟩ := sim_deleteIn ts ts1 ds h2 hr
          rw [delete_absent t d h1 (fun e => he e.symm) hc, h5]
          refine ⟨_, rfl, ?_⟩
          rw [ShownAsAll]
          exact ⟨d, ds', rfl, h1, h6⟩
theorem delete_absent {id : Nat} : ∀ (t : Element) (d : Dom), t.ShownAs d → id ≠ t.id → deleteFirst id t = none →
    replaceNode (toString id) (fun _ => some []) d = none
  | ⟨eid, name, attributes, listeners, children, text, key⟩, d, hd, he, hm => by
    obtain ⟨attrs, kids, rfl, ha, hk⟩ := hd.elim
    simp only at ha hk he
    rw [deleteFirst] at hm
    have hc : deleteFirstIn id children = none := by
      cases hc : deleteFirstIn id children with
      | none => rfl
      | some r => rw [hc] at hm; cases hm
    rw [replaceNode, if_neg (fun h => he ((idAttr ha id).1 h)), replaceIn_text, delete_absentIn children kids hk hc]
    rfl
theorem delete_absentIn {id : Nat} : ∀ (ts : List Element) (ds : List Dom), ShownAsAll ts ds → deleteFirstIn id ts = none →
    replaceIn (toString id) (fun _ => some []) ds = none
  | [], ds, hd, _ => by rw [ShownAsAll] at hd; subst hd; rfl
  | t :: ts, ds, hd, hm => by
    rw [ShownAsAll] at hd
    obtain ⟨d, ds, rfl, h1, h2⟩ := hd
    rw [deleteFirstIn] at hm
    by_cases he : t.id = id
    · rw [if_pos he] at hm; cases hm
    · rw [if_neg he] at hm
      cases hc : deleteFirst id t with
      | some t1 => rw [hc] at hm; cases hm
      | none =>
        rw [hc] at hm
        simp only at hm
        have hr : deleteFirstIn id ts = none := by
          cases hr : deleteFirstIn id ts with
          | none => rfl
          | some r => rw [hr] at hm; cases hm
        rw [replaceIn, delete_absent t d h1 (fun e => he e.symm) hc, delete_absentIn ts ds h2 hr]
end

/-! ## The rest of the page -/

mutual
theorem page_node {sid : String} (f : Dom → Option (List Dom)) : ∀ d : Dom, sid ∉ d.ids → replaceNode sid f d = none
  | .text _, _ => rfl
  | .elem tag attrs ls cs, h => by
    rw [Dom.ids, List.mem_append, not_or] at h
    rw [replaceNode, if_neg, page_in f cs h.2]
    intro he
    rw [he] at h
    exact h.1 (by simp)
theorem page_in {sid : String} (f : Dom → Option (List Dom)) : ∀ ds : List Dom, sid ∉ domIds ds → replaceIn sid f ds = none
  | [], _ => rfl
  | d :: ds, h => by
    rw [domIds, List.mem_append, not_or] at h
    rw [replaceIn, page_node f d h.1, page_in f ds h.2]
end

theorem replaceIn_page {sid : String} (f : Dom → Option (List Dom)) : ∀ (page ds : List Dom), sid ∉ domIds page →
    replaceIn sid f (page ++ ds) = (replaceIn sid f ds).map (·.map (page ++ ·))
  | [], ds, _ => by
    cases h : replaceIn sid f ds with
    | none => simp [h]
    | some r => cases r <;> simp [h]
  | d :: page, ds, h => by
    rw [domIds, List.mem_append, not_or] at h
    rw [List.cons_append, replaceIn, page_node f d h.1, replaceIn_page f page ds h.2]
    cases replaceIn sid f ds with
    | none => rfl
    | some r => cases r <;> rfl

theorem withElement_one {sid : String} {f : Dom → Option (List Dom)} {page : List Dom} {d d' : Dom} (hp : sid ∉ domIds page)
    (h : replaceNode sid f d = some (some [d'])) : withElement sid f (page ++ [d]) = some (page ++ [d']) := by
  unfold withElement
  rw [replaceIn_page f page [d] hp, replaceIn, h]
  rfl

/-- one update of one element -/
theorem sim_update {id : Nat} {g : Element → Option Element} {f : Dom → Option (List Dom)} {page : List Dom} {t t' : Element} {d : Dom}
    (hp : PageOk page) (hd : t.ShownAs d)
    (hfg : ∀ x y dx, firstWith id t = some x → x.ShownAs dx → g x = some y → ∃ dy, f dx = some [dy] ∧ y.ShownAs dy)
    (hm : findAndMutate id g t = some t') :
    ∃ d', withElement (toString id) f (page ++ [d]) = some (page ++ [d']) ∧ t'.ShownAs d' := by
  unfold findAndMutate at hm
  cases h : mutateFirst id g t with
  | none => rw [h] at hm; cases hm
  | some r =>
    rw [h] at hm
    simp only at hm
    subst hm
    obtain ⟨d', h1, h2⟩ := sim_tree t t' d hd hfg h
    exact ⟨d', withElement_one (hp id) h1, h2⟩

theorem sim_client {B : Browser} {w : WireOp} {id : Nat} {g : Element → Option Element} {f : Dom → Option (List Dom)}
    {page : List Dom} {t t' : Element} {d : Dom} (hp : PageOk page) (hd : t.ShownAs d)
    (hc : clientOp B w (page ++ [d]) = withElement (toString id) f (page ++ [d]))
    (hfg : ∀ x y dx, firstWith id t = some x → x.ShownAs dx → g x = some y → ∃ dy, f dx = some [dy] ∧ y.ShownAs dy)
    (hm : findAndMutate id g t = some t') :
    ∃ d', clientOp B w (page ++ [d]) = some (page ++ [d']) ∧ t'.ShownAs d' := by
  rw [hc]; exact sim_update hp hd hfg hm

mutual
theorem replaceNode_id (sid : String) : ∀ d : Dom, replaceNode sid (fun d => some [d]) d = none ∨
    replaceNode sid (fun d => some [d]) d = some (some [d])
  | .text _ => Or.inl rfl
  | .elem tag attrs ls cs => by
    rw [replaceNode]
    split
    · exact Or.inr rfl
    · rcases replaceIn_id sid cs with h | h <;> rw [h] <;> simp
theorem replaceIn_id (sid : String) : ∀ ds : List Dom, replaceIn sid (fun d => some [d]) ds = none ∨
    replaceIn sid (fun d => some [d]) ds = some (some ds)
  | [] => Or.inl rfl
  | d :: ds => by
    rw [replaceIn]
    rcases replaceNode_id sid d with h | h
    · rw [h]
      rcases replaceIn_id sid ds with h | h <;> rw [h] <;> simp
    · rw [h]; simp
end

theorem withElement_id {sid : String} {body body' : List Dom} (h : withElement sid (fun d => some [d]) body = some body') :
    body' = body := by
  unfold withElement at h
  rcases replaceIn_id sid body with h' | h' <;> rw [h'] at h
  · cases h
  · exact (Option.some.inj h).symm

/-! ## Attributes -/

theorem get_insert_id {attrs old : Headers} {i : Nat} (h : ∀ k, attrs.get k = if k = "id" then some (toString i) else old.get k)
    {key : String} (hk : key ≠ "id") (v : String) (k : String) :
    (attrs.insert key v).get k = if k = "id" then some (toString i) else (old.insert key v).get k := by
  rw [Headers.get_insert, Headers.get_insert, h k]
  by_cases h1 : k = "id"
  · subst h1
    rw [if_neg (fun e => hk e.symm)]
    simp
  · simp [h1]

theorem get_remove_id {attrs old : Headers} {i : Nat} (h : ∀ k, attrs.get k = if k = "id" then some (toString i) else old.get k)
    {key : String} (hk : key ≠ "id") (k : String) :
    (attrs.remove key).get k = if k = "id" then some (toString i) else (old.remove key).get k := by
  rw [Headers.get_remove, Headers.get_remove, h k]
  by_cases h1 : k = "id"
  · subst h1
    rw [if_neg (fun e => hk e.symm)]
    simp
  · simp [h1]

theorem get_insert_newid {attrs old : Headers} {i : Nat} (h : ∀ k, attrs.get k = if k = "id" then some (toString i) else old.get k)
    (j : Nat) (k : String) :
    (attrs.insert "id" (toString j)).get k = if k = "id" then some (toString j) else old.get k := by
  rw [Headers.get_insert, h k]
  by_cases h1 : k = "id" <;> simp [h1]

theorem shownAsAll_nil {ds : List Dom} (h : ShownAsAll [] ds) : ds = [] := by rw [ShownAsAll] at h; exact h

theorem shownAsAll_append : ∀ {as bs : List Element} {ds es : List Dom}, ShownAsAll as ds → ShownAsAll bs es →
    ShownAsAll (as ++ bs) (ds ++ es)
  | [], bs, ds, es, h1, h2 => by rw [shownAsAll_nil h1]; exact h2
  | a :: as, bs, ds, es, h1, h2 => by
    rw [ShownAsAll] at h1
    obtain ⟨d, ds, rfl, h3, h4⟩ := h1
    rw [List.cons_append, List.cons_append, ShownAsAll]
    exact ⟨d, ds ++ es, rfl, h3, shownAsAll_append h4 h2⟩

theorem shown_blank (id : Nat) (name : String) : (Element.blank id name).ShownAs (.elem name [("id", toString id)] [] []) := by
  have := Element.ShownAs.intro (t := .blank id name) (attrs := [("id", toString id)]) (kids := []) (by
    intro k
    simp only [Headers.get, List.find?_cons, Element.blank]
    by_cases h : k = "id"
    · subst h; simp
    · have : ("id" == k) = false := by simpa using fun e => h e.symm
      simp [this, h]) (by simp [ShownAsAll, Element.blank])
  exact this

mutual
theorem clone_silent : ∀ (e : Element) (d : Dom), e.Silent → e.ShownAs d → d.cloneNode = d
  | ⟨id, name, attributes, listeners, children, text, key⟩, d, hs, h => by
    rw [Element.Silent] at hs
    obtain ⟨attrs, kids, rfl, ha, hk⟩ := h.elim
    simp only at hk
    rw [Dom.cloneNode, cloneAll_silent children kids text hs.2 hk]
    simp only [hs.1]
theorem cloneAll_silent : ∀ (es : List Element) (ds : List Dom) (text : Option String), SilentAll es → ShownAsAll es ds →
    cloneAll (textNodes text ++ ds) = textNodes text ++ ds
  | [], ds, text, _, h => by
    rw [shownAsAll_nil h, List.append_nil]
    exact cloneAll_text text
  | e :: es, ds, text, hs, h => by
    rw [ShownAsAll] at h
    obtain ⟨d, ds, rfl, h1, h2⟩ := h
    rw [SilentAll] at hs
    have hr := cloneAll_silent es ds none hs.2 h2
    have hd := clone_silent e d hs.1 h1
    rw [cloneAll_append, cloneAll_text, cloneAll, hd]
    simp only [textNodes, List.nil_append] at hr
    rw [hr]
theorem cloneAll_text (text : Option String) : cloneAll (textNodes text) = textNodes text := by
  cases text with
  | none => rfl
  | some s => unfold textNodes; simp only; by_cases h : s = "" <;> simp [h, cloneAll, Dom.cloneNode]
theorem cloneAll_append (a b : List Dom) : cloneAll (a ++ b) = cloneAll a ++ cloneAll b := by
  induction a with
  | nil => rfl
  | cons x a ih => rw [List.cons_append, cloneAll, cloneAll, ih]; rfl
end

mutual
theorem clone_mute : ∀ (e : Element) (d : Dom), e.ShownAs d → e.mute.ShownAs d.cloneNode
  | ⟨id, name, attributes, listeners, children, text, key⟩, d, h => by
    obtain ⟨attrs, kids, rfl, ha, hk⟩ := h.elim
    simp only at hk ha
    rw [Dom.cloneNode, cloneAll_append, cloneAll_text]
    exact Element.ShownAs.intro (t := ⟨id, name, attributes, [], muteAll children, text, key⟩) ha (cloneAll_mute children kids hk)
theorem cloneAll_mute : ∀ (es : List Element) (ds : List Dom), ShownAsAll es ds → ShownAsAll (muteAll es) (cloneAll ds)
  | [], ds, h => by rw [shownAsAll_nil h]; rfl
  | e :: es, ds, h => by
    rw [ShownAsAll] at h
    obtain ⟨d, ds, rfl, h1, h2⟩ := h
    rw [muteAll, cloneAll, ShownAsAll]
    exact ⟨_, _, rfl, clone_mute e d h1, cloneAll_mute es ds h2⟩
end

/-! ## One instruction -/

theorem toLower_small : ∀ {c : Char}, c ∉ "ABCDEFGHIJKLMNOPQRSTUVWXYZ".toList → c.toLower = c := by
  intro c h
  unfold Char.toLower
  split
  · rename_i hc
    refine absurd ?_ h
    have h1 : 65 ≤ c.val.toNat ∧ c.val.toNat ≤ 90 := by
      have := hc
      simp [UInt32.le_iff_toNat_le] at this
      exact this
    have : ∀ n, 65 ≤ n ∧ n ≤ 90 → Char.ofNat n ∈ "ABCDEFGHIJKLMNOPQRSTUVWXYZ".toList := by
      intro n hn
      have h0 : ∀ n ∈ List.range' 65 26, Char.ofNat n ∈ "ABCDEFGHIJKLMNOPQRSTUVWXYZ".toList := by decide +kernel
      exact h0 n (by rw [List.mem_range'_1]; omega)
    have := this _ h1
    rwa [show Char.ofNat c.val.toNat = c from Char.ofNat_toNat c] at this
  · rfl

theorem asciiLower_small {s : String} (h : NoCapitals s) : asciiLower s = s := by
  apply String.toList_injective
  unfold asciiLower
  rw [String.toList_ofList]
  conv => rhs; rw [← List.map_id s.toList]
  exact List.map_congr_left fun c hc => toLower_small (h c hc)

theorem sim_op {B : Browser} {page : List Dom} {op : Op} {t t' : Element} {d : Dom} (hp : PageOk page) (hd : t.ShownAs d)
    (hok : okOp (clientRules B) op t) (ha : applyOp op t = some t') :
    ∃ d', clientOp B op.serialize (page ++ [d]) = some (page ++ [d']) ∧ t'.ShownAs d' := by
  obtain ⟨id, instr⟩ := op
  cases instr with
  | insertChild => exact hok.elim
  | insertAfter => exact hok.elim
  | insertBefore => exact hok.elim
  | setInnerHtml => exact hok.elim
  | setAttribute k v =>
    obtain ⟨h1, h2, h3, h4, h5⟩ := hok
    apply sim_client (id := id) hp hd (hm := ha)
    · simp only [clientOp, Op.serialize, splitPlus_two h1 h2]
      rfl
    · intro x y dx _ hx hg
      simp only [Option.some.injEq] at hg
      subst hg
      obtain ⟨attrs, kids, rfl, hat, hk⟩ := hx.elim
      refine ⟨_, by simp only [h3, if_true]; rfl, ?_⟩
      rw [asciiLower_small h4]
      exact Element.ShownAs.intro (t := { x with attributes := x.attributes.insert k v }) (get_insert_id hat h5 v) hk
  | removeAttribute k =>
    obtain ⟨v, h1, h2, h3, h4, h5⟩ := hok
    apply sim_client (id := id) hp hd (hm := ha)
    · rfl
    · intro x y dx _ hx hg
      simp only [Option.some.injEq] at hg
      subst hg
      obtain ⟨attrs, kids, rfl, hat, hk⟩ := hx.elim
      refine ⟨_, rfl, ?_⟩
      simp only [Op.serialize, Option.getD_some, asciiLower_small h4]
      exact Element.ShownAs.intro (t := { x with attributes := x.attributes.remove k }) (get_remove_id hat h5) hk
  | setId v =>
    apply sim_client (id := id) hp hd (hm := ha)
    · rfl
    · intro x y dx _ hx hg
      simp only [Option.some.injEq] at hg
      subst hg
      obtain ⟨attrs, kids, rfl, hat, hk⟩ := hx.elim
      refine ⟨_, rfl, ?_⟩
      simp only [Op.serialize, Option.getD_some]
      exact Element.ShownAs.intro (t := { x with id := v }) (get_insert_newid hat v) hk
  | setText v =>
    apply sim_client (id := id) hp hd (hm := ha)
    · rfl
    · intro x y dx hf hx hg
      simp only [Option.some.injEq] at hg
      subst hg
      obtain ⟨attrs, kids, rfl, hat, hk⟩ := hx.elim
      refine ⟨_, rfl, ?_⟩
      have hnil : x.children = [] := hok trivial x hf
      rw [hnil] at hk
      have := Element.ShownAs.intro (t := { x with text := some v }) (attrs := attrs) (kids := []) hat (by simp only; rw [hnil]; rfl)
      simpa [textNodes, textContent, Op.serialize] using this
  | setTagName n =>
    obtain ⟨⟨h1, h2, h3⟩, hok⟩ := hok
    apply sim_client (id := id) hp hd (hm := ha)
    · rfl
    · intro x y dx hf hx hg
      simp only [Option.some.injEq] at hg
      subst hg
      obtain ⟨attrs, kids, rfl, hat, hk⟩ := hx.elim
      obtain ⟨e1, e2, e3⟩ := hok trivial x hf
      rw [e1] at hk
      have hkids := shownAsAll_nil hk
      have htext : textNodes x.text = [] := by rcases e3 with h | h <;> rw [h] <;> rfl
      refine ⟨_, by simp only [Op.serialize, Option.getD_some, h2, if_true]; rfl, ?_⟩
      have := Element.ShownAs.intro (t := { x with name := n }) (attrs := attrs) (kids := []) hat (by simp only; rw [e1]; rfl)
      simp only [htext, e2] at this
      simp only [htext, hkids, asciiLower_small h3, e2, List.append_nil, B.reparse_nil]
      exact this
  | createTag n p =>
    obtain ⟨⟨h1, h2, h3⟩, hs⟩ := hok
    cases p with
    | none => cases hs
    | some p =>
      apply sim_client (id := p) hp hd (hm := ha)
      · simp only [clientOp, Op.serialize, splitPlus_two h1 (toString_nat_noplus p), h2, if_true, if_neg (toString_nat_ne_empty p)]
        rfl
      · intro x y dx _ hx hg
        simp only [Option.some.injEq] at hg
        subst hg
        obtain ⟨attrs, kids, rfl, hat, hk⟩ := hx.elim
        refine ⟨_, rfl, ?_⟩
        have := Element.ShownAs.intro (t := { x with children := x.children ++ [.blank id n] }) (attrs := attrs)
          (kids := kids ++ [.elem n [("id", toString id)] [] []]) hat
          (shownAsAll_append hk (by rw [ShownAsAll]; exact ⟨_, [], rfl, shown_blank id n, by rw [ShownAsAll]⟩))
        simp only [List.append_assoc, asciiLower_small h3]
        exact this
  | removeText =>
    refine ⟨d, rfl, ?_⟩
    have : ∃ d', withElement (toString id) (fun d => some [d]) (page ++ [d]) = some (page ++ [d']) ∧ t'.ShownAs d' := by
      refine sim_update (id := id) hp hd ?_ ha
      intro x y dx hf hx hg
      simp only [Option.some.injEq] at hg
      subst hg
      obtain ⟨attrs, kids, rfl, hat, hk⟩ := hx.elim
      have htext := hok trivial x hf
      refine ⟨_, rfl, ?_⟩
      have := Element.ShownAs.intro (t := { x with text := none }) (attrs := attrs) (kids := kids) hat hk
      rw [htext]
      exact this
    obtain ⟨d', h1, h2⟩ := this
    have := List.append_cancel_left (withElement_id h1)
    rw [← List.cons.inj this |>.1]
    exact h2
  | removeListeners =>
    apply sim_client (id := id) hp hd (hm := ha)
    · rfl
    · intro x y dx hf hx hg
      simp only [Option.some.injEq] at hg
      subst hg
      obtain ⟨attrs, kids, rfl, hat, hk⟩ := hx.elim
      have hsil := hok trivial x hf
      refine ⟨_, rfl, ?_⟩
      rw [Dom.cloneNode, cloneAll_silent x.children kids x.text hsil hk]
      exact Element.ShownAs.intro (t := { x with listeners := [] }) hat hk
  | attachListener n on =>
    obtain ⟨h1, h2⟩ := hok
    apply sim_client (id := id) hp hd (hm := ha)
    · simp only [clientOp, Op.serialize, splitPlus_two h1 h2]
      rfl
    · intro x y dx _ hx hg
      simp only [Option.some.injEq] at hg
      subst hg
      obtain ⟨attrs, kids, rfl, hat, hk⟩ := hx.elim
      refine ⟨_, rfl, ?_⟩
      exact Element.ShownAs.intro (t := { x with listeners := x.listeners ++ [⟨n, on⟩] }) hat hk
  | deleteEl =>
    obtain ⟨h1, h2⟩ := hok
    rw [h2] at ha
    obtain ⟨d', h3, h4⟩ := sim_delete t t' d hd (fun e => h1 e.symm) ha
    refine ⟨d', ?_, h4⟩
    exact withElement_one (hp id) h3

theorem clientAll_message {B : Browser} {ws : List WireOp} {body body' : List Dom} (h : clientAll B ws body = some body') : clientMessage B ws body = body' := by
  induction ws generalizing body with
  | nil => cases h; rfl
  | cons w ws ih =>
    rw [clientAll] at h
    rw [clientMessage]
    cases hc : clientOp B w body with
    | none => rw [hc] at h; cases h
    | some m => rw [hc] at h; exact ih h

theorem sim_runs_all {B : Browser} {page : List Dom} {ops : List Op} {t t' : Element} (h : Runs (clientRules B) ops t t') :
    ∀ {d : Dom}, PageOk page → t.ShownAs d → ∃ d', clientAll B (serializeOps ops) (page ++ [d]) = some (page ++ [d']) ∧ t'.ShownAs d' := by
  induction h with
  | nil t => intro d _ hd; exact ⟨d, rfl, hd⟩
  | cons h1 h2 _ ih =>
    intro d hp hd
    obtain ⟨d1, h3, h4⟩ := sim_op hp hd h1 h2
    obtain ⟨d2, h5, h6⟩ := ih hp h4
    refine ⟨d2, ?_, h6⟩
    rw [serializeOps, List.map_cons, clientAll, h3]
    exact h5
  | @retag id n ops t t' t'' _ h1 h2 h3 _ ih =>
    intro d hp hd
    obtain ⟨g1, g2, g3⟩ := h1
    have hop : ∃ d', clientOp B (Op.serialize ⟨id, .setTagName n⟩) (page ++ [d]) = some (page ++ [d']) ∧ t'.ShownAs d' := by
      apply sim_client (id := id) hp hd (hm := h3)
      · rfl
      · intro x y dx hf hx hg
        simp only [Option.some.injEq] at hg
        subst hg
        obtain ⟨attrs, kids, rfl, hat, hk⟩ := hx.elim
        obtain ⟨e1, e3⟩ := h2 x hf
        rw [e1] at hk
        have hkids := shownAsAll_nil hk
        have htext : textNodes x.text = [] := by rcases e3 with h | h <;> rw [h] <;> rfl
        refine ⟨_, by simp only [Op.serialize, Option.getD_some, g2, if_true]; rfl, ?_⟩
        have := Element.ShownAs.intro (t := { x with name := n, listeners := [] }) (attrs := attrs) (kids := []) hat (by simp only; rw [e1]; rfl)
        simp only [htext] at this
        simp only [htext, hkids, asciiLower_small g3, List.append_nil, B.reparse_nil]
        exact this
    obtain ⟨d1, h4, h5⟩ := hop
    obtain ⟨d2, h6, h7⟩ := ih hp h5
    refine ⟨d2, ?_, h7⟩
    rw [serializeOps, List.map_cons, clientAll, h4]
    exact h6
  | @mute id ops t t' t'' _ h3 _ ih =>
    intro d hp hd
    have hop : ∃ d', clientOp B (Op.serialize ⟨id, .removeListeners⟩) (page ++ [d]) = some (page ++ [d']) ∧ t'.ShownAs d' := by
      apply sim_client (id := id) hp hd (hm := h3)
      · rfl
      · intro x y dx _ hx hg
        simp only [Option.some.injEq] at hg
        subst hg
        exact ⟨_, rfl, clone_mute x dx hx⟩
    obtain ⟨d1, h4, h5⟩ := hop
    obtain ⟨d2, h6, h7⟩ := ih hp h5
    refine ⟨d2, ?_, h7⟩
    rw [serializeOps, List.map_cons, clientAll, h4]
    exact h6

theorem sim_runs {B : Browser} {page : List Dom} {ops : List Op} {t t' : Element} (h : Runs (clientRules B) ops t t') {d : Dom} (hp : PageOk page)
    (hd : t.ShownAs d) : ∃ d', clientMessage B (serializeOps ops) (page ++ [d]) = page ++ [d'] ∧ t'.ShownAs d' := by
  obtain ⟨d', h1, h2⟩ := sim_runs_all h hp hd
  exact ⟨d', clientAll_message h1, h2⟩

end Puck
