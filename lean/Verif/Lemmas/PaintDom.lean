import Verif.Lemmas.PaintSpec
import Verif.Lemmas.Client
/-!
# The labelled tree and the page
-/
namespace Puck.Shape.Paint

mutual
/-- The node of the page is the labelled tree. -/
def Painted : Tr Lab → Dom → Prop
  | .node i l ks, d => ∃ attrs kids, d = .elem l.tag attrs l.lis (textContent l.text ++ kids) ∧
      (∀ k, attrs.get k = if k = "id" then some (toString i) else l.attrs k) ∧ l.attrs "id" = none ∧ PaintedAll ks kids
/-- Pointwise. -/
def PaintedAll : List (Tr Lab) → List Dom → Prop
  | [], ds => ds = []
  | t :: ts, ds => ∃ d ds', ds = d :: ds' ∧ Painted t d ∧ PaintedAll ts ds'
end

/-- What `Painted` says of one node. -/
theorem Painted.elim {i : Nat} {l : Lab} {ks : List (Tr Lab)} {d : Dom} (h : Painted (.node i l ks) d) :
    ∃ attrs kids, d = .elem l.tag attrs l.lis (textContent l.text ++ kids) ∧
      (∀ k, attrs.get k = if k = "id" then some (toString i) else l.attrs k) ∧ l.attrs "id" = none ∧ PaintedAll ks kids := by
  rw [Painted] at h; exact h

theorem Painted.intro {i : Nat} {l : Lab} {ks : List (Tr Lab)} {attrs : Headers} {kids : List Dom}
    (h1 : ∀ k, attrs.get k = if k = "id" then some (toString i) else l.attrs k) (h2 : l.attrs "id" = none) (h3 : PaintedAll ks kids) :
    Painted (.node i l ks) (.elem l.tag attrs l.lis (textContent l.text ++ kids)) := by
  rw [Painted]; exact ⟨attrs, kids, rfl, h1, h2, h3⟩

theorem textNodes_eq (t : Option String) : textNodes t = textContent (t.getD "") := by
  cases t <;> rfl

theorem get_some_mem {h : Headers} {k v : String} (hg : h.get k = some v) : ∃ p ∈ h, p.1 = k := by
  unfold Headers.get at hg
  cases hf : h.find? (fun p => p.1 == k) with
  | none => rw [hf] at hg; cases hg
  | some p => exact ⟨p, List.mem_of_find?_eq_some hf, by simpa using List.find?_some hf⟩

mutual
theorem painted_tr {B : Browser} : ∀ (e : Element) (d : Dom), e.Obeys (clientRules B) → (Painted (tr e) d ↔ e.ShownAs d)
  | ⟨i, n, at', ls, ks, tx, key⟩, d, h => by
    rw [Element.Obeys] at h
    have hid : Headers.get at' "id" = none := by
      cases hg : Headers.get at' "id" with
      | none => rfl
      | some v =>
        obtain ⟨p, hp, hk⟩ := get_some_mem hg
        exact absurd hk (h.2.1 p hp).2.2.2.2
    rw [tr, Painted, Element.ShownAs]
    simp only [textNodes_eq]
    constructor
    · rintro ⟨attrs, kids, h1, h2, h3, h4⟩
      exact ⟨attrs, kids, h1, h2, (painted_trAll ks kids h.2.2.2).1 h4⟩
    · rintro ⟨attrs, kids, h1, h2, h4⟩
      exact ⟨attrs, kids, h1, h2, hid, (painted_trAll ks kids h.2.2.2).2 h4⟩
theorem painted_trAll {B : Browser} : ∀ (es : List Element) (ds : List Dom), ObeysAll (clientRules B) es → (PaintedAll (trAll es) ds ↔ ShownAsAll es ds)
  | [], ds, _ => by rw [trAll, PaintedAll, ShownAsAll]
  | e :: es, ds, h => by
    rw [ObeysAll] at h
    rw [trAll, PaintedAll, ShownAsAll]
    constructor
    · rintro ⟨d, ds', h1, h2, h3⟩; exact ⟨d, ds', h1, (painted_tr e d h.1).1 h2, (painted_trAll es ds' h.2).1 h3⟩
    · rintro ⟨d, ds', h1, h2, h3⟩; exact ⟨d, ds', h1, (painted_tr e d h.1).2 h2, (painted_trAll es ds' h.2).2 h3⟩
end

/-! ## The page determines the tree -/

theorem paintedAll_elems {ts : List (Tr Lab)} {ds : List Dom} (h : PaintedAll ts ds) : ∀ d ∈ ds, ∃ tag attrs ls cs, d = .elem tag attrs ls cs := by
  induction ts generalizing ds with
  | nil => rw [PaintedAll] at h; subst h; intro d hd; cases hd
  | cons t ts ih =>
    rw [PaintedAll] at h
    obtain ⟨d, ds', rfl, h1, h2⟩ := h
    intro x hx
    rcases List.mem_cons.1 hx with rfl | hx
    · cases t
      obtain ⟨attrs, kids, rfl, _⟩ := h1.elim
      exact ⟨_, _, _, _, rfl⟩
    · exact ih h2 x hx

theorem text_split {s s' : String} {ks ks' : List Dom} (hk : ∀ d ∈ ks, ∃ tag attrs ls cs, d = .elem tag attrs ls cs)
    (hk' : ∀ d ∈ ks', ∃ tag attrs ls cs, d = .elem tag attrs ls cs) (h : textContent s ++ ks = textContent s' ++ ks') : s = s' ∧ ks = ks' := by
  unfold textContent at h
  by_cases h1 : s = "" <;> by_cases h2 : s' = ""
  · simp only [h1, h2, if_true, List.nil_append] at h; exact ⟨by rw [h1, h2], h⟩
  · simp only [h1, h2, if_true, if_false, List.nil_append, List.cons_append] at h
    obtain ⟨_, _, _, _, he⟩ := hk (.text s') (by rw [h]; exact List.mem_cons_self ..)
    cases he
  · simp only [h1, h2, if_true, if_false, List.nil_append, List.cons_append] at h
    obtain ⟨_, _, _, _, he⟩ := hk' (.text s) (by rw [← h]; exact List.mem_cons_self ..)
    cases he
  · simp only [h1, h2, if_false, List.cons_append, List.nil_append, List.cons.injEq, Dom.text.injEq] at h
    exact h

mutual
theorem painted_inj : ∀ (t t' : Tr Lab) (d : Dom), Painted t d → Painted t' d → t = t'
  | .node i l ks, .node i' l' ks', d, h, h' => by
    obtain ⟨attrs, kids, rfl, h1, h2, h3⟩ := h.elim
    obtain ⟨attrs', kids', he, h1', h2', h3'⟩ := h'.elim
    simp only [Dom.elem.injEq] at he
    obtain ⟨e1, rfl, e3, e4⟩ := he
    obtain ⟨e5, rfl⟩ := text_split (paintedAll_elems h3) (paintedAll_elems h3') e4
    have ek := paintedAll_inj ks ks' kids h3 h3'
    have ei : i = i' := by
      have a1 := h1 "id"
      have a2 := h1' "id"
      rw [if_pos rfl] at a1 a2
      rw [a1] at a2
      exact toString_nat_inj (Option.some.inj a2)
    have ea : l.attrs = l'.attrs := by
      funext k
      by_cases hk : k = "id"
      · rw [hk, h2, h2']
      · have a1 := h1 k
        have a2 := h1' k
        rw [if_neg hk] at a1 a2
        rw [← a1, ← a2]
    rw [ei, ek]
    cases l; cases l'
    simp only at e1 e3 e5 ea
    rw [e1, e3, e5, ea]
theorem paintedAll_inj : ∀ (ts ts' : List (Tr Lab)) (ds : List Dom), PaintedAll ts ds → PaintedAll ts' ds → ts = ts'
  | [], ts', ds, h, h' => by
    rw [PaintedAll] at h
    subst h
    cases ts' with
    | nil => rfl
    | cons t ts => rw [PaintedAll] at h'; obtain ⟨_, _, he, _⟩ := h'; cases he
  | t :: ts, ts', ds, h, h' => by
    rw [PaintedAll] at h
    obtain ⟨d, ds', rfl, h1, h2⟩ := h
    cases ts' with
    | nil => rw [PaintedAll] at h'; cases h'
    | cons t' ts' =>
      rw [PaintedAll] at h'
      obtain ⟨d2, ds2, he, h3, h4⟩ := h'
      simp only [List.cons.injEq] at he
      obtain ⟨rfl, rfl⟩ := he
      rw [painted_inj t t' d h1 h3, paintedAll_inj ts ts' ds' h2 h4]
end

/-! ## One instruction -/

theorem replaceIn_textC (sid : String) (f : Dom → Option (List Dom)) (s : String) (kids : List Dom) :
    replaceIn sid f (textContent s ++ kids) = (replaceIn sid f kids).map (·.map (textContent s ++ ·)) := by
  have := replaceIn_text sid f (some s) kids
  exact this

/-- the outcome on the page matches the outcome on the tree -/
def Match (r : Option (Option (Tr Lab))) (s : Option (Option (List Dom))) : Prop :=
  match r with
  | none => s = none
  | some none => False
  | some (some t) => ∃ d, s = some (some [d]) ∧ Painted t d

/-- the same for forests -/
def MatchAll (r : Option (Option (List (Tr Lab)))) (s : Option (Option (List Dom))) : Prop :=
  match r with
  | none => s = none
  | some none => False
  | some (some ts) => ∃ ds, s = some (some ds) ∧ PaintedAll ts ds

theorem id_attr {attrs : Headers} {i : Nat} {old : String → Option String}
    (h : ∀ k, attrs.get k = if k = "id" then some (toString i) else old k) (id : Nat) :
    (attrs.get "id" = some (toString id)) ↔ id = i := by
  rw [h "id", if_pos rfl]
  constructor
  · intro e; exact (toString_nat_inj (Option.some.inj e)).symm
  · rintro rfl; rfl

mutual
theorem sim_mod {i : Nat} {g : Tr Lab → Option (Tr Lab)} {f : Dom → Option (List Dom)}
    (hfg : ∀ x dx, Painted x dx → x.id = i → ∃ x' dx', g x = some x' ∧ f dx = some [dx'] ∧ Painted x' dx') :
    ∀ (t : Tr Lab) (d : Dom), Painted t d → Match (modFirst i g t) (replaceNode (toString i) f d)
  | .node j l ks, d, h => by
    obtain ⟨attrs, kids, rfl, h1, h2, h3⟩ := h.elim
    rw [modFirst, replaceNode]
    by_cases hij : i = j
    · rw [if_pos hij, if_pos ((id_attr h1 i).2 hij)]
      obtain ⟨x', dx', e1, e2, e3⟩ := hfg _ _ h hij.symm
      rw [e1, e2]
      exact ⟨dx', rfl, e3⟩
    · rw [if_neg hij, if_neg (fun e => hij ((id_attr h1 i).1 e)), replaceIn_textC]
      have ih := sim_modIn hfg ks kids h3
      cases hm : modFirstIn i g ks with
      | none =>
        rw [hm] at ih
        rw [show replaceIn (toString i) f kids = none from ih]
        exact rfl
      | some r =>
        rw [hm] at ih
        cases r with
        | none => exact ih.elim
        | some ks' =>
          obtain ⟨ds, e1, e2⟩ := ih
          rw [e1]
          exact ⟨_, rfl, Painted.intro h1 h2 e2⟩
theorem sim_modIn {i : Nat} {g : Tr Lab → Option (Tr Lab)} {f : Dom → Option (List Dom)}
    (hfg : ∀ x dx, Painted x dx → x.id = i → ∃ x' dx', g x = some x' ∧ f dx = some [dx'] ∧ Painted x' dx') :
    ∀ (ts : List (Tr Lab)) (ds : List Dom), PaintedAll ts ds → MatchAll (modFirstIn i g ts) (replaceIn (toString i) f ds)
  | [], ds, h => by rw [PaintedAll] at h; subst h; rfl
  | t :: ts, ds, h => by
    rw [PaintedAll] at h
    obtain ⟨d, ds', rfl, h1, h2⟩ := h
    have ih1 := sim_mod hfg t d h1
    rw [modFirstIn, replaceIn]
    cases hm : modFirst i g t with
    | some r =>
      rw [hm] at ih1
      cases r with
      | none => exact ih1.elim
      | some t' =>
        obtain ⟨d', e1, e2⟩ := ih1
        rw [e1]
        refine ⟨_, rfl, ?_⟩
        rw [PaintedAll]
        exact ⟨d', ds', rfl, e2, h2⟩
    | none =>
      rw [hm] at ih1
      rw [show replaceNode (toString i) f d = none from ih1]
      have ih2 := sim_modIn hfg ts ds' h2
      cases hm2 : modFirstIn i g ts with
      | none =>
        rw [hm2] at ih2
        rw [show replaceIn (toString i) f ds' = none from ih2]
        exact rfl
      | some r =>
        rw [hm2] at ih2
        cases r with
        | none => exact ih2.elim
        | some ts' =>
          obtain ⟨ds2, e1, e2⟩ := ih2
          rw [e1]
          refine ⟨_, rfl, ?_⟩
          rw [PaintedAll]
          exact ⟨d, ds2, rfl, h1, e2⟩
end

mutual
theorem sim_drop {i : Nat} : ∀ (t : Tr Lab) (d : Dom), Painted t d → t.id ≠ i →
    Match ((dropKids i t).map some) (replaceNode (toString i) (fun _ => some []) d)
  | .node j l ks, d, h, hne => by
    obtain ⟨attrs, kids, rfl, h1, h2, h3⟩ := h.elim
    rw [dropKids, replaceNode, if_neg (fun e => hne ((id_attr h1 i).1 e).symm), replaceIn_textC]
    have ih := sim_dropIn (i := i) ks kids h3
    cases hm : dropIn i ks with
    | none =>
      rw [hm] at ih
      rw [show replaceIn (toString i) (fun _ => some []) kids = none from ih]
      exact rfl
    | some ks' =>
      rw [hm] at ih
      obtain ⟨ds, e1, e2⟩ := ih
      rw [e1]
      exact ⟨_, rfl, Painted.intro h1 h2 e2⟩
theorem sim_dropIn {i : Nat} : ∀ (ts : List (Tr Lab)) (ds : List Dom), PaintedAll ts ds →
    MatchAll ((dropIn i ts).map some) (replaceIn (toString i) (fun _ => some []) ds)
  | [], ds, h => by rw [PaintedAll] at h; subst h; rfl
  | t :: ts, ds, h => by
    rw [PaintedAll] at h
    obtain ⟨d, ds', rfl, h1, h2⟩ := h
    rw [dropIn, replaceIn]
    by_cases hid : t.id = i
    · rw [if_pos hid]
      cases t with
      | node j l ks =>
      obtain ⟨attrs, kids, rfl, g1, g2, g3⟩ := h1.elim
      rw [replaceNode, if_pos ((id_attr g1 i).2 (show i = j from hid.symm))]
      exact ⟨ds', rfl, h2⟩
    · rw [if_neg hid]
      have ih1 := sim_drop (i := i) t d h1 hid
      cases hm : dropKids i t with
      | some t' =>
        rw [hm] at ih1
        obtain ⟨d', e1, e2⟩ := ih1
        rw [e1]
        refine ⟨_, rfl, ?_⟩
        rw [PaintedAll]
        exact ⟨d', ds', rfl, e2, h2⟩
      | none =>
        rw [hm] at ih1
        rw [show replaceNode (toString i) (fun _ => some []) d = none from ih1]
        have ih2 := sim_dropIn (i := i) ts ds' h2
        cases hm2 : dropIn i ts with
        | none =>
          rw [hm2] at ih2
          rw [show replaceIn (toString i) (fun _ => some []) ds' = none from ih2]
          exact rfl
        | some ts' =>
          rw [hm2] at ih2
          obtain ⟨ds2, e1, e2⟩ := ih2
          rw [e1]
          refine ⟨_, rfl, ?_⟩
          rw [PaintedAll]
          exact ⟨d, ds2, rfl, h1, e2⟩
end

/-- Names and values in the operation reach the browser unchanged, and it is one of those in changesets between views without keys. -/
def Fit (B : Browser) (op : Op) : Prop :=
  match op.instruction with
  | .setAttribute k v => (clientRules B).attr k v
  | .removeAttribute k => NoCapitals k ∧ k ≠ "id"
  | .attachListener n on => (clientRules B).lis ⟨n, on⟩
  | .createTag n (some _) => (clientRules B).tag n
  | .setTagName n => (clientRules B).tag n ∧ B.Copies n
  | .setId _ | .setText _ | .deleteEl | .removeListeners | .removeText => True
  | _ => False

/-- what becomes of the page -/
def MatchPage (page : List Dom) (r : Option (Tr Lab)) (s : Option (List Dom)) : Prop :=
  match r with
  | none => s = none ∨ s = some page
  | some t => ∃ d, s = some (page ++ [d]) ∧ Painted t d

theorem sim_modify {i : Nat} {g : Tr Lab → Option (Tr Lab)} {f : Dom → Option (List Dom)} {page : List Dom} {t : Tr Lab} {d : Dom}
    (hp : PageOk page) (hd : Painted t d)
    (hfg : ∀ x dx, Painted x dx → x.id = i → ∃ x' dx', g x = some x' ∧ f dx = some [dx'] ∧ Painted x' dx') :
    MatchPage page (modify i g t) (withElement (toString i) f (page ++ [d])) := by
  have h := sim_mod hfg t d hd
  unfold modify withElement
  rw [replaceIn_page f page [d] (hp i), replaceIn]
  cases hm : modFirst i g t with
  | none =>
    rw [hm] at h
    rw [show replaceNode (toString i) f d = none from h]
    exact Or.inl rfl
  | some r =>
    rw [hm] at h
    cases r with
    | none => exact h.elim
    | some t' =>
      obtain ⟨d', e1, e2⟩ := h
      rw [e1]
      exact ⟨d', rfl, e2⟩

mutual
theorem painted_hush : ∀ (t : Tr Lab) (d : Dom), Painted t d → Painted (hush t) d.cloneNode
  | .node i l ks, d, h => by
    obtain ⟨attrs, kids, rfl, h1, h2, h3⟩ := h.elim
    rw [hush, Dom.cloneNode, cloneAll_append]
    have : cloneAll (textContent l.text) = textContent l.text := cloneAll_text (some l.text)
    rw [this]
    exact Painted.intro (l := l.mute) h1 h2 (paintedAll_hush ks kids h3)
theorem paintedAll_hush : ∀ (ts : List (Tr Lab)) (ds : List Dom), PaintedAll ts ds → PaintedAll (hushAll ts) (cloneAll ds)
  | [], ds, h => by rw [PaintedAll] at h; subst h; rw [hushAll, PaintedAll]; rfl
  | t :: ts, ds, h => by
    rw [PaintedAll] at h
    obtain ⟨d, ds', rfl, h1, h2⟩ := h
    rw [hushAll, PaintedAll, cloneAll]
    exact ⟨_, _, rfl, painted_hush t d h1, paintedAll_hush ts ds' h2⟩
end

theorem paintedAll_append : ∀ {as bs : List (Tr Lab)} {ds es : List Dom}, PaintedAll as ds → PaintedAll bs es → PaintedAll (as ++ bs) (ds ++ es)
  | [], bs, ds, es, h1, h2 => by rw [PaintedAll] at h1; rw [h1]; exact h2
  | a :: as, bs, ds, es, h1, h2 => by
    rw [PaintedAll] at h1
    obtain ⟨d, ds, rfl, h3, h4⟩ := h1
    rw [List.cons_append, PaintedAll]
    exact ⟨d, ds ++ es, rfl, h3, paintedAll_append h4 h2⟩

theorem painted_blank (i : Nat) (tag : String) : Painted (.node i (blankLab tag) []) (.elem tag [("id", toString i)] [] []) := by
  have := Painted.intro (i := i) (l := blankLab tag) (ks := []) (attrs := [("id", toString i)]) (kids := []) (by
    intro k
    simp only [Headers.get, List.find?_cons, blankLab]
    by_cases h : k = "id"
    · subst h; simp
    · have : ("id" == k) = false := by simpa using fun e => h e.symm
      simp [this, h]) rfl (by rw [PaintedAll])
  exact this

/-- **One instruction in the browser and on the tree.** -/
theorem sim_bstep {B : Browser} {page : List Dom} {op : Op} {t : Tr Lab} {d : Dom} (hp : PageOk page) (hd : Painted t d) (hok : Fit B op) :
    MatchPage page (bstep (toB op) t) (clientOp B op.serialize (page ++ [d])) := by
  obtain ⟨id, instr⟩ := op
  cases instr with
  | insertChild => exact hok.elim
  | insertAfter => exact hok.elim
  | insertBefore => exact hok.elim
  | setInnerHtml => exact hok.elim
  | setTagName n =>
    obtain ⟨⟨h1, h2, h3⟩, h4⟩ := hok
    have hc : ∀ body, clientOp B (Op.serialize ⟨id, .setTagName n⟩) body = withElement (toString id) (fun
          | .elem _ attrs _ cs => some [.elem n attrs [] (cloneAll cs)]
          | .text _ => none) body := by
      intro body
      simp only [clientOp, Op.serialize, Option.getD_some, h2, if_true, asciiLower_small h3, h4 _]
      rfl
    rw [hc]
    refine sim_modify hp hd ?_
    rintro ⟨i, l, ks⟩ dx hx _
    obtain ⟨attrs, kids, rfl, g1, g2, g3⟩ := hx.elim
    refine ⟨_, _, rfl, rfl, ?_⟩
    rw [cloneAll_append, show cloneAll (textContent l.text) = textContent l.text from cloneAll_text (some l.text)]
    exact Painted.intro (l := { l.mute with tag := n }) g1 g2 (paintedAll_hush ks kids g3)
  | setAttribute k v =>
    obtain ⟨h1, h2, h3, h4, h5⟩ := hok
    have hc : ∀ body, clientOp B (Op.serialize ⟨id, .setAttribute k v⟩) body = withElement (toString id) (fun
          | .elem tag attrs ls cs => if B.validAttr k then some [.elem tag (attrs.insert (asciiLower k) v) ls cs] else none
          | .text _ => none) body := by
      intro body
      simp only [clientOp, Op.serialize, splitPlus_two h1 h2]
      rfl
    rw [hc]
    refine sim_modify hp hd ?_
    rintro ⟨i, l, ks⟩ dx hx _
    obtain ⟨attrs, kids, rfl, g1, g2, g3⟩ := hx.elim
    refine ⟨_, _, rfl, by simp only [h3, if_true]; rfl, ?_⟩
    rw [asciiLower_small h4]
    refine Painted.intro (l := { l with attrs := fun k' => if k' = k then some v else l.attrs k' }) ?_ ?_ g3
    · intro k'
      rw [Headers.get_insert, g1 k']
      by_cases h : k' = k
      · subst h; simp [h5]
      · simp only [if_neg h]; rfl
    · simp only
      rw [if_neg (fun e => h5 e.symm), g2]
  | removeAttribute k =>
    obtain ⟨h4, h5⟩ := hok
    have hc : ∀ body, clientOp B (Op.serialize ⟨id, .removeAttribute k⟩) body = withElement (toString id) (fun
          | .elem tag attrs ls cs => some [.elem tag (attrs.remove (asciiLower k)) ls cs]
          | .text _ => none) body := fun body => rfl
    rw [hc]
    refine sim_modify hp hd ?_
    rintro ⟨i, l, ks⟩ dx hx _
    obtain ⟨attrs, kids, rfl, g1, g2, g3⟩ := hx.elim
    refine ⟨_, _, rfl, rfl, ?_⟩
    rw [asciiLower_small h4]
    refine Painted.intro (l := { l with attrs := fun k' => if k' = k then none else l.attrs k' }) ?_ ?_ g3
    · intro k'
      rw [Headers.get_remove, g1 k']
      by_cases h : k' = k
      · subst h; simp [h5]
      · simp only [if_neg h]; rfl
    · simp only
      rw [g2]
      split <;> rfl
  | setId v =>
    have hc : ∀ body, clientOp B (Op.serialize ⟨id, .setId v⟩) body = withElement (toString id) (fun
          | .elem tag attrs ls cs => some [.elem tag (attrs.insert "id" (toString v)) ls cs]
          | .text _ => none) body := fun body => rfl
    rw [hc]
    refine sim_modify hp hd ?_
    rintro ⟨i, l, ks⟩ dx hx _
    obtain ⟨attrs, kids, rfl, g1, g2, g3⟩ := hx.elim
    refine ⟨_, _, rfl, rfl, ?_⟩
    refine Painted.intro (l := l) ?_ g2 g3
    intro k'
    rw [Headers.get_insert, g1 k']
    by_cases h : k' = "id" <;> simp [h]
  | setText v =>
    have hc : ∀ body, clientOp B (Op.serialize ⟨id, .setText v⟩) body = withElement (toString id) (fun
          | .elem tag attrs ls _ => some [.elem tag attrs ls (textContent v)]
          | .text _ => none) body := fun body => rfl
    rw [hc]
    refine sim_modify hp hd ?_
    rintro ⟨i, l, ks⟩ dx hx _
    obtain ⟨attrs, kids, rfl, g1, g2, g3⟩ := hx.elim
    refine ⟨_, _, rfl, rfl, ?_⟩
    have := Painted.intro (i := i) (l := { l with text := v }) (ks := []) (kids := []) (attrs := attrs) g1 g2 (by rw [PaintedAll])
    rw [List.append_nil] at this
    exact this
  | createTag n p =>
    cases p with
    | none => exact hok.elim
    | some p =>
      obtain ⟨h1, h2, h3⟩ := hok
      have hc : ∀ body, clientOp B (Op.serialize ⟨id, .createTag n (some p)⟩) body = withElement (toString p) (fun
            | .elem tag attrs ls cs => some [.elem tag attrs ls (cs ++ [.elem n [("id", toString id)] [] []])]
            | .text _ => none) body := by
        intro body
        simp only [clientOp, Op.serialize, splitPlus_two h1 (toString_nat_noplus p), h2, if_true, if_neg (toString_nat_ne_empty p), asciiLower_small h3]
        rfl
      rw [hc]
      refine sim_modify hp hd ?_
      rintro ⟨i, l, ks⟩ dx hx _
      obtain ⟨attrs, kids, rfl, g1, g2, g3⟩ := hx.elim
      refine ⟨_, _, rfl, rfl, ?_⟩
      rw [List.append_assoc]
      refine Painted.intro (l := l) g1 g2 (paintedAll_append g3 ?_)
      rw [PaintedAll]
      exact ⟨_, [], rfl, painted_blank id n, by rw [PaintedAll]⟩
  | removeText =>
    exact ⟨d, rfl, hd⟩
  | removeListeners =>
    have hc : ∀ body, clientOp B (Op.serialize ⟨id, .removeListeners⟩) body = withElement (toString id) (fun d => some [d.cloneNode]) body := fun body => rfl
    rw [hc]
    refine sim_modify hp hd ?_
    intro x dx hx _
    exact ⟨_, _, rfl, rfl, painted_hush x dx hx⟩
  | attachListener n on =>
    obtain ⟨h1, h2⟩ := hok
    have hc : ∀ body, clientOp B (Op.serialize ⟨id, .attachListener n on⟩) body = withElement (toString id) (fun
          | .elem tag attrs ls cs => some [.elem tag attrs (ls ++ [⟨n, on⟩]) cs]
          | .text _ => none) body := by
      intro body
      simp only [clientOp, Op.serialize, splitPlus_two h1 h2]
      rfl
    rw [hc]
    refine sim_modify hp hd ?_
    rintro ⟨i, l, ks⟩ dx hx _
    obtain ⟨attrs, kids, rfl, g1, g2, g3⟩ := hx.elim
    refine ⟨_, _, rfl, rfl, ?_⟩
    exact Painted.intro (l := { l with lis := l.lis ++ [⟨n, on⟩] }) g1 g2 g3
  | deleteEl =>
    have hc : ∀ body, clientOp B (Op.serialize ⟨id, .deleteEl⟩) body = withElement (toString id) (fun _ => some []) body := fun body => rfl
    rw [hc]
    change MatchPage page (if t.id = id then none else dropKids id t) _
    unfold withElement
    rw [replaceIn_page _ page [d] (hp id), replaceIn]
    by_cases hid : t.id = id
    · rw [if_pos hid]
      cases t with
      | node j l ks =>
      obtain ⟨attrs, kids, rfl, g1, g2, g3⟩ := hd.elim
      rw [replaceNode, if_pos ((id_attr g1 id).2 (show id = j from hid.symm))]
      right
      simp
    · rw [if_neg hid]
      have h := sim_drop (i := id) t d hd hid
      cases hm : dropKids id t with
      | none =>
        rw [hm] at h
        rw [show replaceNode (toString id) (fun _ => some []) d = none from h]
        exact Or.inl rfl
      | some t' =>
        rw [hm] at h
        obtain ⟨d', e1, e2⟩ := h
        rw [e1]
        exact ⟨d', rfl, e2⟩

end Puck.Shape.Paint
