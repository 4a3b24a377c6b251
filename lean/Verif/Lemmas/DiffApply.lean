import Verif.Spec.SafeDiff
import Verif.Lemmas.Tree
/-!
# Running a changeset on the tree it was computed for
-/
namespace Puck

/-- The operation is harmless for a consumer with rules `R` when the document is `t`. -/
def okOp (R : Rules) (op : Op) (t : Element) : Prop :=
  match op.instruction with
  | .setAttribute k v => R.attr k v
  | .removeAttribute k => ∃ v, R.attr k v
  | .setTagName n => R.tag n ∧ (R.strict → ∀ x, firstWith op.id t = some x →
      x.children = [] ∧ x.listeners = [] ∧ (x.text = none ∨ x.text = some ""))
  | .createTag n p => R.tag n ∧ p.isSome = true
  | .attachListener n on => R.lis ⟨n, on⟩
  | .setText _ => R.strict → ∀ x, firstWith op.id t = some x → x.children = []
  | .removeText => R.strict → ∀ x, firstWith op.id t = some x → x.text = some ""
  | .removeListeners => R.strict → ∀ x, firstWith op.id t = some x → SilentAll x.children
  | .setId _ => True
  | .deleteEl => t.id ≠ op.id ∧ applyOp op t = deleteFirst op.id t
  | _ => False

mutual
/-- The tree without any listeners. -/
def Element.mute : Element → Element
  | ⟨id, name, attributes, _, children, text, key⟩ => ⟨id, name, attributes, [], muteAll children, text, key⟩
/-- Pointwise. -/
def muteAll : List Element → List Element
  | [] => []
  | e :: es => e.mute :: muteAll es
end

/-- The operations run one after the other without a panic, each of them harmless. -/
inductive Runs (R : Rules) : List Op → Element → Element → Prop
  | nil (t : Element) : Runs R [] t t
  | cons {op : Op} {ops : List Op} {t t' t'' : Element} : okOp R op t → applyOp op t = some t' → Runs R ops t' t'' →
      Runs R (op :: ops) t t''
  /-- a strict consumer drops the listeners of an element whose tag changes -/
  | retag {id : Nat} {n : String} {ops : List Op} {t t' t'' : Element} : R.strict → R.tag n →
      (∀ x, firstWith id t = some x → x.children = [] ∧ (x.text = none ∨ x.text = some "")) →
      findAndMutate id (fun x => some { x with name := n, listeners := [] }) t = some t' → Runs R ops t' t'' →
      Runs R (⟨id, .setTagName n⟩ :: ops) t t''
  /-- a strict consumer drops the listeners of everything below an element whose listeners are removed -/
  | mute {id : Nat} {ops : List Op} {t t' t'' : Element} : R.strict →
      findAndMutate id (fun x => some x.mute) t = some t' → Runs R ops t' t'' →
      Runs R (⟨id, .removeListeners⟩ :: ops) t t''

theorem Runs.append {R : Rules} {o1 o2 : List Op} {t t' t'' : Element} (h1 : Runs R o1 t t') (h2 : Runs R o2 t' t'') :
    Runs R (o1 ++ o2) t t'' := by
  induction h1 with
  | nil => exact h2
  | cons a b _ ih => exact .cons a b (ih h2)
  | retag a b c d _ ih => exact .retag a b c d (ih h2)
  | mute a b _ ih => exact .mute a b (ih h2)

theorem Runs.apply {R : Rules} {ops : List Op} {t t' : Element} (h : Runs R ops t t') (hR : ¬ R.strict) : applyOps ops t = some t' := by
  induction h with
  | nil => rfl
  | cons _ b _ ih => rw [applyOps, b]; exact ih
  | retag a => exact absurd a hR
  | mute a => exact absurd a hR

theorem Runs.one {R : Rules} {op : Op} {t t' : Element} (h1 : okOp R op t) (h2 : applyOp op t = some t') :
    Runs R [op] t t' := .cons h1 h2 (.nil _)

variable {R : Rules} {C : List TFrame}

/-! ## One node -/

theorem runs_name {a b x : Element} (hx : x.id = a.id) (hb : a.id ∉ idsBefore C) (ht : R.tag b.name)
    (h : a.name = b.name ∨ (a.id = b.id ∧ (R.strict → x.children = [] ∧ (x.listeners = [] ∨ a.listeners ≠ b.listeners) ∧
      (x.text = none ∨ x.text = some "")))) (hn : x.name = a.name) :
    ∃ ls, (ls = x.listeners ∨ a.listeners ≠ b.listeners) ∧
      Runs R (a.diffName b) (plug C x) (plug C { x with name := b.name, listeners := ls }) := by
  unfold Element.diffName
  split
  · rename_i he
    have : x = { x with name := b.name } := by cases x; simp only at hn; simp [hn, he]
    refine ⟨x.listeners, Or.inl rfl, ?_⟩
    rw [← this]; exact .nil _
  · rename_i hne
    rcases h with h | ⟨h, hs⟩
    · exact absurd h hne
    · rw [← h]
      by_cases hst : R.strict
      · refine ⟨[], ?_, ?_⟩
        · rcases (hs hst).2.1 with h | h
          · exact Or.inl h.symm
          · exact Or.inr h
        · refine .retag hst ht ?_ ?_ (.nil _)
          · intro y hy
            rw [firstWith_plug hb hx] at hy
            cases hy
            exact ⟨(hs hst).1, (hs hst).2.2⟩
          · rw [findAndMutate_plug hb hx]; rfl
      · refine ⟨x.listeners, Or.inl rfl, .one ⟨ht, fun s => absurd s hst⟩ ?_⟩
        show findAndMutate a.id _ _ = _
        rw [findAndMutate_plug hb hx]; rfl

theorem runs_sets {id : Nat} (hb : id ∉ idsBefore C) : ∀ (ps : Headers) (x : Element), x.id = id →
    (∀ p ∈ ps, R.attr p.1 p.2) →
    Runs R (ps.map fun p => (⟨id, .setAttribute p.1 p.2⟩ : Op)) (plug C x)
      (plug C { x with attributes := ps.foldl (fun h p => h.insert p.1 p.2) x.attributes }) := by
  intro ps
  induction ps with
  | nil => intro x _ _; cases x; exact .nil _
  | cons p ps ih =>
    intro x hx ho
    refine .cons (t' := plug C { x with attributes := x.attributes.insert p.1 p.2 }) (ho p (by simp)) ?_ ?_
    · show findAndMutate id _ _ = _
      rw [findAndMutate_plug hb hx]; rfl
    · exact ih _ hx fun q hq => ho q (by simp [hq])

theorem runs_removes {id : Nat} (hb : id ∉ idsBefore C) : ∀ (ks : List String) (x : Element), x.id = id →
    (∀ k ∈ ks, ∃ v, R.attr k v) →
    Runs R (ks.map fun k => (⟨id, .removeAttribute k⟩ : Op)) (plug C x)
      (plug C { x with attributes := ks.foldl (fun h k => h.remove k) x.attributes }) := by
  intro ks
  induction ks with
  | nil => intro x _ _; cases x; exact .nil _
  | cons k ks ih =>
    intro x hx ho
    refine .cons (t' := plug C { x with attributes := x.attributes.remove k }) (ho k (by simp)) ?_ ?_
    · show findAndMutate id _ _ = _
      rw [findAndMutate_plug hb hx]; rfl
    · exact ih _ hx fun q hq => ho q (by simp [hq])

theorem get_foldl_insert (ps : Headers) (hd : ps.Distinct) (h : Headers) (k : String) :
    Headers.get (ps.foldl (fun h p => h.insert p.1 p.2) h) k = match Headers.get ps k with | some v => some v | none => h.get k := by
  induction ps generalizing h with
  | nil => rfl
  | cons p ps ih =>
    have hd' : Headers.Distinct ps := by
      unfold Headers.Distinct at hd ⊢; rw [List.map_cons, List.nodup_cons] at hd; exact hd.2
    have hp : Headers.get ps p.1 = none := by
      unfold Headers.Distinct at hd; rw [List.map_cons, List.nodup_cons] at hd
      exact Headers.get_eq_none.2 hd.1
    rw [List.foldl_cons, ih hd', Headers.get_insert]
    by_cases hk : k = p.1
    · subst hk
      rw [hp, if_pos rfl]
      simp [Headers.get]
    · have : Headers.get (p :: ps) k = Headers.get ps k := by
        simp only [Headers.get, List.find?_cons]
        rw [show (p.1 == k) = false by simpa using Ne.symm hk]
      rw [this, if_neg hk]

theorem get_foldl_remove (ks : List String) (h : Headers) (k : String) :
    Headers.get (ks.foldl (fun h k => h.remove k) h) k = if k ∈ ks then none else h.get k := by
  induction ks generalizing h with
  | nil => simp
  | cons j ks ih =>
    rw [List.foldl_cons, ih, Headers.get_remove]
    by_cases h1 : k ∈ ks
    · simp [h1]
    · by_cases h2 : k = j <;> simp [h1, h2]

/-- the attributes to remove and to set -/
def goneKeys (a b : Headers) : List String := (a.filter fun p => (b.get p.1).isNone).map (·.1)
/-- the attributes to set -/
def newEntries (a b : Headers) : Headers := b.filter fun p => a.get p.1 != some p.2

theorem diffAttributes_eq (a b : Element) : a.diffAttributes b = if Headers.same a.attributes b.attributes then [] else
    (goneKeys a.attributes b.attributes).map (fun k => (⟨a.id, .removeAttribute k⟩ : Op)) ++
    (newEntries a.attributes b.attributes).map (fun p => (⟨a.id, .setAttribute p.1 p.2⟩ : Op)) := by
  unfold Element.diffAttributes
  split
  · rfl
  · congr 1
    · unfold goneKeys
      rw [List.map_map]
      induction a.attributes with
      | nil => rfl
      | cons p l ih =>
        rw [List.filterMap_cons, List.filter_cons, ih]
        cases b.attributes.get p.1 <;> rfl
    · unfold newEntries
      generalize b.attributes = l
      induction l with
      | nil => rfl
      | cons p l ih =>
        rw [List.filterMap_cons, List.filter_cons, ih]
        cases h : a.attributes.get p.1 with
        | none => simp
        | some v =>
          by_cases hv : v = p.2
          · simp [hv]
          · simp [hv]

theorem get_filter {h : Headers} (hd : h.Distinct) (q : String × String → Bool) (k : String) :
    Headers.get (h.filter q) k = match h.get k with | some v => if q (k, v) then some v else none | none => none := by
  have hd' : Headers.Distinct (h.filter q) := by
    unfold Headers.Distinct at hd ⊢
    exact hd.sublist (List.filter_sublist.map _)
  cases hk : h.get k with
  | none =>
    rw [Headers.get_eq_none] at hk
    refine Headers.get_eq_none.2 fun hm => hk ?_
    obtain ⟨p, hp, rfl⟩ := List.mem_map.1 hm
    exact List.mem_map.2 ⟨p, (List.mem_filter.1 hp).1, rfl⟩
  | some v =>
    have hm := (Headers.get_eq_some hd).1 hk
    simp only
    split
    · rename_i hq
      exact (Headers.get_eq_some hd').2 (List.mem_filter.2 ⟨hm, hq⟩)
    · rename_i hq
      refine Headers.get_eq_none.2 fun hm' => ?_
      obtain ⟨p, hp, hpk⟩ := List.mem_map.1 hm'
      obtain ⟨h1, h2⟩ := List.mem_filter.1 hp
      have : h.get k = some p.2 := (Headers.get_eq_some hd).2 (by rw [← hpk]; exact h1)
      rw [hk, Option.some.injEq] at this
      apply hq
      rw [this, ← hpk]; exact h2

/-- removing what is gone and setting what is new turns the old map into the new one -/
theorem attr_update {a b x : Headers} (ha : a.Distinct) (hb : b.Distinct) (hx : ∀ k, x.get k = a.get k) (k : String) :
    Headers.get ((newEntries a b).foldl (fun h p => h.insert p.1 p.2) ((goneKeys a b).foldl (fun h k => h.remove k) x)) k
      = b.get k := by
  have hd : Headers.Distinct (newEntries a b) := by
    unfold Headers.Distinct newEntries
    unfold Headers.Distinct at hb
    exact hb.sublist (List.filter_sublist.map _)
  rw [get_foldl_insert _ hd, get_foldl_remove, hx]
  unfold newEntries
  rw [get_filter hb]
  have hg : k ∈ goneKeys a b ↔ a.get k ≠ none ∧ b.get k = none := by
    unfold goneKeys
    simp only [List.mem_map, List.mem_filter, Option.isNone_iff_eq_none]
    constructor
    · rintro ⟨p, ⟨h1, h2⟩, rfl⟩
      have : a.get p.1 = some p.2 := (Headers.get_eq_some ha).2 h1
      exact ⟨by rw [this]; simp, h2⟩
    · rintro ⟨h1, h2⟩
      obtain ⟨v, hv⟩ := Option.ne_none_iff_exists'.1 h1
      exact ⟨(k, v), ⟨(Headers.get_eq_some ha).1 hv, h2⟩, rfl⟩
  cases hbk : b.get k with
  | some v =>
    simp only
    by_cases h : a.get k = some v
    · have : k ∉ goneKeys a b := fun hm => by rw [hg, hbk] at hm; exact absurd hm.2 (by simp)
      simp [h, this]
    · simp [h]
  | none =>
    simp only
    by_cases h : a.get k = none
    · simp [h]
    · rw [if_pos (hg.2 ⟨h, hbk⟩)]

theorem runs_attributes {a b x : Element} (hx : x.id = a.id) (hb : a.id ∉ idsBefore C)
    (ha : a.attributes.Distinct) (hbd : b.attributes.Distinct)
    (hoa : ∀ p ∈ a.attributes, R.attr p.1 p.2) (hob : ∀ p ∈ b.attributes, R.attr p.1 p.2)
    (hxa : ∀ k, x.attributes.get k = a.attributes.get k) :
    ∃ at', (∀ k, Headers.get at' k = b.attributes.get k) ∧
      Runs R (a.diffAttributes b) (plug C x) (plug C { x with attributes := at' }) := by
  rw [diffAttributes_eq]
  split
  · rename_i h
    rw [Headers.same_iff ha hbd] at h
    exact ⟨x.attributes, fun k => (hxa k).trans (h k), by cases x; exact .nil _⟩
  · refine ⟨_, attr_update ha hbd hxa, Runs.append (runs_removes hb _ x hx ?_) (runs_sets hb _ _ hx ?_)⟩
    · intro k hk
      unfold goneKeys at hk
      obtain ⟨p, hp, rfl⟩ := List.mem_map.1 hk
      exact ⟨p.2, hoa p (List.mem_filter.1 hp).1⟩
    · intro p hp
      exact hob p (List.mem_filter.1 hp).1

theorem runs_text {a b x : Element} (hx : x.id = a.id) (hb : a.id ∉ idsBefore C) (hxt : x.text = a.text)
    (h : R.strict → a.text = b.text ∨ (x.children = [] ∧ b.text ≠ none) ∨ (a.text = some "" ∧ b.text = none)) :
    Runs R (a.diffText b) (plug C x) (plug C { x with text := b.text }) := by
  unfold Element.diffText
  split
  · rename_i he
    have : x = { x with text := b.text } := by cases x; simp only at hxt; simp [hxt, he]
    rw [← this]; exact .nil _
  · rename_i hne
    split
    · rename_i v hv
      rw [hv] at h ⊢
      refine .one ?_ ?_
      · intro s y hy
        rw [firstWith_plug hb hx] at hy
        cases hy
        rcases h s with h | h | h
        · exact absurd (h.trans hv.symm) hne
        · exact h.1
        · cases h.2
      · show findAndMutate a.id _ _ = _
        rw [findAndMutate_plug hb hx]; rfl
    · rename_i hv
      rw [hv] at h ⊢
      refine .one ?_ ?_
      · intro s y hy
        rw [firstWith_plug hb hx] at hy
        cases hy
        rcases h s with h | h | h
        · exact absurd (h.trans hv.symm) hne
        · exact absurd rfl h.2
        · exact hxt.trans h.1
      · show findAndMutate a.id _ _ = _
        rw [findAndMutate_plug hb hx]; rfl

theorem runs_attach {id : Nat} (hb : id ∉ idsBefore C) : ∀ (ls : List ListenerRef) (x : Element), x.id = id →
    (∀ l ∈ ls, R.lis l) →
    Runs R (ls.map fun l => (⟨id, .attachListener l.listenerName l.jsEvent⟩ : Op)) (plug C x)
      (plug C { x with listeners := x.listeners ++ ls }) := by
  intro ls
  induction ls with
  | nil => intro x _ _; cases x; rw [List.append_nil]; exact .nil _
  | cons l ls ih =>
    intro x hx ho
    refine .cons (t' := plug C { x with listeners := x.listeners ++ [l] }) (ho l (by simp)) ?_ ?_
    · show findAndMutate id _ _ = _
      rw [findAndMutate_plug hb hx]; rfl
    · have := ih { x with listeners := x.listeners ++ [l] } hx fun q hq => ho q (by simp [hq])
      simpa using this

theorem runs_listeners {a b x : Element} (hx : x.id = a.id) (hb : a.id ∉ idsBefore C)
    (hxl : x.listeners = a.listeners ∨ a.listeners ≠ b.listeners)
    (hl : ∀ l ∈ b.listeners, R.lis l)
    (h : a.listeners = b.listeners ∨ ((a.id = b.id ∨ b.listeners = []) ∧ (R.strict → SilentAll x.children))) :
    Runs R (a.diffListeners b) (plug C x) (plug C { x with listeners := b.listeners }) := by
  unfold Element.diffListeners
  split
  · rename_i he
    have hxl := hxl.resolve_right (fun h => h he)
    have : x = { x with listeners := b.listeners } := by cases x; simp only at hxl; simp [hxl, he]
    rw [← this]; exact .nil _
  · rename_i hne
    rcases h with h | ⟨h, hs⟩
    · exact absurd h hne
    · refine .cons (t' := plug C { x with listeners := [] }) ?_ ?_ ?_
      · intro s y hy
        rw [firstWith_plug hb hx] at hy
        cases hy
        exact hs s
      · show findAndMutate a.id _ _ = _
        rw [findAndMutate_plug hb hx]; rfl
      · unfold Element.generateListeners
        rcases h with h | h
        · rw [← h]
          exact runs_attach hb b.listeners { x with listeners := [] } hx hl
        · rw [h]; exact .nil _

theorem runs_id {a b x : Element} (hx : x.id = a.id) (hb : a.id ∉ idsBefore C) :
    Runs R (a.diffId b) (plug C x) (plug C { x with id := b.id }) := by
  unfold Element.diffId
  split
  · rename_i he
    have : x = { x with id := b.id } := by cases x; simp only at hx; simp [hx, he]
    rw [← this]; exact .nil _
  · refine .one trivial ?_
    show findAndMutate a.id _ _ = _
    rw [findAndMutate_plug hb hx]; rfl

end Puck
