import Verif.Lemmas.ShapeExact
import Verif.Lemmas.SafeIds
/-!
# Element trees as labelled trees

An element without keys is a tree labelled with contents; adding a mark to every label lets elements be followed through a changeset.
-/
namespace Puck.Shape

/-- What an element holds besides id and children (keys left out). -/
structure Content where
  name : String
  attributes : Headers
  listeners : List ListenerRef
  text : Option String

variable {β : Type}

mutual
/-- the element tree, marks forgotten -/
def strip : Tr (Content × β) → Element
  | .node i l ks => ⟨i, l.1.name, l.1.attributes, l.1.listeners, stripAll ks, l.1.text, none⟩
/-- of a forest -/
def stripAll : List (Tr (Content × β)) → List Element
  | [] => []
  | t :: ts => strip t :: stripAll ts
end

mutual
/-- the element tree, every element marked according to its id -/
def lift (mk : Nat → β) : Element → Tr (Content × β)
  | ⟨i, n, at', ls, ks, tx, _⟩ => .node i (⟨n, at', ls, tx⟩, mk i) (liftAll mk ks)
/-- of a forest -/
def liftAll (mk : Nat → β) : List Element → List (Tr (Content × β))
  | [] => []
  | c :: cs => lift mk c :: liftAll mk cs
end

mutual
/-- the marks only -/
def marks : Tr (Content × β) → Tr β
  | .node i l ks => .node i l.2 (marksAll ks)
/-- of a forest -/
def marksAll : List (Tr (Content × β)) → List (Tr β)
  | [] => []
  | t :: ts => marks t :: marksAll ts
end

mutual
/-- the ids of an element tree, marked -/
def mtr (mk : Nat → β) : Element → Tr β
  | ⟨i, _, _, _, ks, _, _⟩ => .node i (mk i) (mtrAll mk ks)
/-- of a forest -/
def mtrAll (mk : Nat → β) : List Element → List (Tr β)
  | [] => []
  | c :: cs => mtr mk c :: mtrAll mk cs
end

mutual
theorem strip_lift (mk : Nat → β) : ∀ e : Element, e.Unkeyed → strip (lift mk e) = e
  | ⟨i, n, at', ls, ks, tx, key⟩, h => by
    rw [Element.Unkeyed] at h
    obtain ⟨rfl, h2⟩ := h
    rw [lift, strip, stripAll_lift mk ks h2]
theorem stripAll_lift (mk : Nat → β) : ∀ es : List Element, UnkeyedAll es → stripAll (liftAll mk es) = es
  | [], _ => rfl
  | e :: es, h => by
    rw [UnkeyedAll] at h
    rw [liftAll, stripAll, strip_lift mk e h.1, stripAll_lift mk es h.2]
end

mutual
theorem marks_lift (mk : Nat → β) : ∀ e : Element, marks (lift mk e) = mtr mk e
  | ⟨i, n, at', ls, ks, tx, key⟩ => by rw [lift, marks, mtr, marksAll_lift mk ks]
theorem marksAll_lift (mk : Nat → β) : ∀ es : List Element, marksAll (liftAll mk es) = mtrAll mk es
  | [] => rfl
  | e :: es => by rw [liftAll, marksAll, mtrAll, marks_lift mk e, marksAll_lift mk es]
end

theorem stripAll_append (a b : List (Tr (Content × β))) : stripAll (a ++ b) = stripAll a ++ stripAll b := by
  induction a with
  | nil => rfl
  | cons t a ih => rw [List.cons_append, stripAll, stripAll, ih]; rfl

theorem marksAll_append (a b : List (Tr (Content × β))) : marksAll (a ++ b) = marksAll a ++ marksAll b := by
  induction a with
  | nil => rfl
  | cons t a ih => rw [List.cons_append, marksAll, marksAll, ih]; rfl

/-! ## Operations correspond -/

mutual
theorem strip_mod {i : Nat} {f : Element → Option Element} {g : Tr (Content × β) → Option (Tr (Content × β))}
    (h : ∀ x, f (strip x) = (g x).map strip) : ∀ t, mutateFirst i f (strip t) = (modFirst i g t).map (·.map strip)
  | .node j l ks => by
    rw [strip, mutateFirst, modFirst]
    split
    · rw [← strip, h]; rfl
    · rw [stripAll_mod h ks]
      cases modFirstIn i g ks with
      | none => rfl
      | some r => cases r <;> rfl
theorem stripAll_mod {i : Nat} {f : Element → Option Element} {g : Tr (Content × β) → Option (Tr (Content × β))}
    (h : ∀ x, f (strip x) = (g x).map strip) : ∀ ts, mutateFirstIn i f (stripAll ts) = (modFirstIn i g ts).map (·.map stripAll)
  | [] => rfl
  | t :: ts => by
    rw [stripAll, mutateFirstIn, modFirstIn, strip_mod h t, stripAll_mod h ts]
    cases modFirst i g t with
    | some r => cases r <;> rfl
    | none =>
      cases modFirstIn i g ts with
      | none => rfl
      | some r => cases r <;> rfl
end

theorem strip_modify {i : Nat} {f : Element → Option Element} {g : Tr (Content × β) → Option (Tr (Content × β))}
    (h : ∀ x, f (strip x) = (g x).map strip) (t) : findAndMutate i f (strip t) = (modify i g t).map strip := by
  unfold findAndMutate modify
  rw [strip_mod h t]
  cases modFirst i g t with
  | none => rfl
  | some r => cases r <;> rfl

theorem strip_id (t : Tr (Content × β)) : (strip t).id = t.id := by cases t; rw [strip]; rfl

mutual
theorem strip_par (i : Nat) : ∀ t : Tr (Content × β), findParentId i (strip t) = findPar i t
  | .node j l ks => by rw [strip, findParentId, findPar, stripAll_par i j ks]
theorem stripAll_par (i p : Nat) : ∀ ts : List (Tr (Content × β)), findParentIdIn i p (stripAll ts) = findParIn i p ts
  | [] => rfl
  | t :: ts => by rw [stripAll, findParentIdIn, findParIn, strip_id, strip_par i t, stripAll_par i p ts]; rfl
end

theorem strip_remove (i : Nat) : ∀ ts : List (Tr (Content × β)), removeChild i (stripAll ts) = (removeKid i ts).map stripAll
  | [] => rfl
  | t :: ts => by
    rw [stripAll, removeChild, removeKid, strip_id]
    split
    · rfl
    · rw [strip_remove i ts]; cases removeKid i ts <;> rfl

/-- an operation on contents -/
def content (f : Content → Content) : Content × β → Content × β := fun l => (f l.1, l.2)

/-- The operations a positional changeset consists of. -/
def Plain (op : Op) : Prop :=
  match op.instruction with
  | .setAttribute .. | .removeAttribute .. | .setId .. | .setText .. | .setTagName .. | .createTag _ (some _) | .removeText
  | .removeListeners | .attachListener .. | .deleteEl => True
  | _ => False

/-- The operation, on labelled trees; what it creates is marked. -/
def liftOp (mk : Nat → β) (op : Op) : SOp (Content × β) :=
  match op.instruction with
  | .setAttribute k v => .upd op.id (content fun c => { c with attributes := c.attributes.insert k v })
  | .removeAttribute k => .upd op.id (content fun c => { c with attributes := c.attributes.remove k })
  | .setText v => .upd op.id (content fun c => { c with text := some v })
  | .setTagName n => .upd op.id (content fun c => { c with name := n })
  | .removeText => .upd op.id (content fun c => { c with text := none })
  | .removeListeners => .upd op.id (content fun c => { c with listeners := [] })
  | .attachListener n on => .upd op.id (content fun c => { c with listeners := c.listeners ++ [⟨n, on⟩] })
  | .setId v => .setId op.id v
  | .createTag n (some p) => .create op.id p (⟨n, [], [], none⟩, mk op.id)
  | _ => .delete op.id

theorem upd_strip (i : Nat) (f : Content → Content) (g : Element → Option Element)
    (h : ∀ (j : Nat) (c : Content) (ks : List Element), g ⟨j, c.name, c.attributes, c.listeners, ks, c.text, none⟩ =
      some ⟨j, (f c).name, (f c).attributes, (f c).listeners, ks, (f c).text, none⟩) (t : Tr (Content × β)) :
    findAndMutate i g (strip t) = (step (.upd i (content f)) t).map strip := by
  rw [step]
  refine strip_modify (fun x => ?_) t
  cases x with
  | node j l ks => rw [strip, h]; rfl

theorem apply_lift (mk : Nat → β) (op : Op) (hp : Plain op) (t : Tr (Content × β)) :
    applyOp op (strip t) = (step (liftOp mk op) t).map strip := by
  obtain ⟨i, ins⟩ := op
  cases ins with
  | insertChild _ => exact hp.elim
  | insertAfter _ => exact hp.elim
  | insertBefore _ => exact hp.elim
  | setInnerHtml _ _ => exact hp.elim
  | setAttribute k v => exact upd_strip i (fun c => { c with attributes := c.attributes.insert k v }) _ (fun _ _ _ => rfl) t
  | removeAttribute k => exact upd_strip i (fun c => { c with attributes := c.attributes.remove k }) _ (fun _ _ _ => rfl) t
  | setText v => exact upd_strip i (fun c => { c with text := some v }) _ (fun _ _ _ => rfl) t
  | setTagName n => exact upd_strip i (fun c => { c with name := n }) _ (fun _ _ _ => rfl) t
  | removeText => exact upd_strip i (fun c => { c with text := none }) _ (fun _ _ _ => rfl) t
  | removeListeners => exact upd_strip i (fun c => { c with listeners := [] }) _ (fun _ _ _ => rfl) t
  | attachListener n on => exact upd_strip i (fun c => { c with listeners := c.listeners ++ [⟨n, on⟩] }) _ (fun _ _ _ => rfl) t
  | setId v =>
    show findAndMutate i _ _ = _
    refine strip_modify (fun x => ?_) t
    cases x with
    | node j l ks => rw [strip]; rfl
  | createTag n p =>
    cases p with
    | none => exact hp.elim
    | some p =>
      show findAndMutate p _ _ = _
      refine strip_modify (fun x => ?_) t
      cases x with
      | node j l ks =>
        rw [strip]
        simp only [Option.map_some, strip, Tr.id, Tr.lab, Tr.kids, stripAll_append, stripAll]
        rfl
  | deleteEl =>
    show (match findParentId i (strip t) with | none => none | some pid => _) = _
    rw [strip_par]
    show _ = Option.map strip (match findPar i t with | none => none | some p => _)
    cases findPar i t with
    | none => rfl
    | some p =>
      refine strip_modify (fun x => ?_) t
      cases x with
      | node j l ks =>
        rw [strip]
        simp only [Tr.id, Tr.lab, Tr.kids]
        rw [strip_remove]
        cases removeKid i ks with
        | none => rfl
        | some r => simp only [Option.map_some, strip]

theorem applyOps_lift (mk : Nat → β) : ∀ (ops : List Op), (∀ op ∈ ops, Plain op) → ∀ (t : Tr (Content × β)) (e : Element),
    applyOps ops (strip t) = some e → ∃ s, steps (ops.map (liftOp mk)) t = some s ∧ strip s = e
  | [], _, t, e, h => by rw [applyOps] at h; cases h; exact ⟨t, rfl, rfl⟩
  | op :: ops, hp, t, e, h => by
    rw [applyOps, apply_lift mk op (hp op (List.mem_cons_self ..)) t] at h
    rw [List.map_cons, steps]
    cases hs : step (liftOp mk op) t with
    | none => rw [hs] at h; cases h
    | some t' =>
      rw [hs] at h
      exact applyOps_lift mk ops (fun o ho => hp o (List.mem_cons_of_mem _ ho)) t' e h

/-! ## Marks only -/

mutual
theorem marks_mod {i : Nat} {g : Tr (Content × β) → Option (Tr (Content × β))} {f : Tr β → Option (Tr β)}
    (h : ∀ x, f (marks x) = (g x).map marks) : ∀ t, modFirst i f (marks t) = (modFirst i g t).map (·.map marks)
  | .node j l ks => by
    rw [marks, modFirst, modFirst]
    split
    · rw [← marks, h]; rfl
    · rw [marksAll_mod h ks]
      cases modFirstIn i g ks with
      | none => rfl
      | some r => cases r <;> rfl
theorem marksAll_mod {i : Nat} {g : Tr (Content × β) → Option (Tr (Content × β))} {f : Tr β → Option (Tr β)}
    (h : ∀ x, f (marks x) = (g x).map marks) : ∀ ts, modFirstIn i f (marksAll ts) = (modFirstIn i g ts).map (·.map marksAll)
  | [] => rfl
  | t :: ts => by
    rw [marksAll, modFirstIn, modFirstIn, marks_mod h t, marksAll_mod h ts]
    cases modFirst i g t with
    | some r => cases r <;> rfl
    | none =>
      cases modFirstIn i g ts with
      | none => rfl
      | some r => cases r <;> rfl
end

theorem marks_modify {i : Nat} {g : Tr (Content × β) → Option (Tr (Content × β))} {f : Tr β → Option (Tr β)}
    (h : ∀ x, f (marks x) = (g x).map marks) (t) : modify i f (marks t) = (modify i g t).map marks := by
  unfold modify
  rw [marks_mod h t]
  cases modFirst i g t with
  | none => rfl
  | some r => cases r <;> rfl

theorem marks_id (t : Tr (Content × β)) : (marks t).id = t.id := by cases t; rw [marks]; rfl

mutual
theorem marks_par (i : Nat) : ∀ t : Tr (Content × β), findPar i (marks t) = findPar i t
  | .node j l ks => by rw [marks, findPar, findPar, marksAll_par i j ks]
theorem marksAll_par (i p : Nat) : ∀ ts : List (Tr (Content × β)), findParIn i p (marksAll ts) = findParIn i p ts
  | [] => rfl
  | t :: ts => by rw [marksAll, findParIn, findParIn, marks_id, marks_par i t, marksAll_par i p ts]
end

theorem marks_remove (i : Nat) : ∀ ts : List (Tr (Content × β)), removeKid i (marksAll ts) = (removeKid i ts).map marksAll
  | [] => rfl
  | t :: ts => by
    rw [marksAll, removeKid, removeKid, marks_id]
    split
    · rfl
    · rw [marks_remove i ts]; cases removeKid i ts <;> rfl

mutual
theorem mod_self {α : Type} (i : Nat) : ∀ (t t' : Tr α), modFirst i some t = some (some t') → t' = t
  | .node j l ks, t', h => by
    rw [modFirst] at h
    split at h
    · simpa using h.symm
    · cases hk : modFirstIn i some ks with
      | none => rw [hk] at h; cases h
      | some r =>
        cases r with
        | none => rw [hk] at h; cases h
        | some ks' =>
          rw [hk] at h
          simp only [Option.some.injEq] at h
          rw [← h, modIn_self i ks ks' hk]
theorem modIn_self {α : Type} (i : Nat) : ∀ (ts ts' : List (Tr α)), modFirstIn i some ts = some (some ts') → ts' = ts
  | [], ts', h => by rw [modFirstIn] at h; cases h
  | t :: ts, ts', h => by
    rw [modFirstIn] at h
    cases ht : modFirst i some t with
    | some r =>
      cases r with
      | none => rw [ht] at h; cases h
      | some t' =>
        rw [ht] at h
        simp only [Option.some.injEq] at h
        rw [← h, mod_self i t t' ht]
    | none =>
      rw [ht] at h
      cases hk : modFirstIn i some ts with
      | none => rw [hk] at h; cases h
      | some r =>
        cases r with
        | none => rw [hk] at h; cases h
        | some ts'' =>
          rw [hk] at h
          simp only [Option.some.injEq] at h
          rw [← h, modIn_self i ts ts'' hk]
end

/-- The structural part of an operation. -/
def structOp (mk : Nat → β) (op : Op) : Option (SOp β) :=
  match op.instruction with
  | .setId v => some (.setId op.id v)
  | .createTag _ (some p) => some (.create op.id p (mk op.id))
  | .deleteEl => some (.delete op.id)
  | _ => none

theorem upd_marks {i : Nat} {f : Content → Content} {t t' : Tr (Content × β)} (h : step (.upd i (content f)) t = some t') : marks t' = marks t := by
  rw [step] at h
  have := marks_modify (i := i) (f := some) (g := fun x => some (.node x.id (content f x.lab) x.kids))
    (by intro x; cases x with | node j l ks => simp only [marks, Option.map_some, content, Tr.id, Tr.lab, Tr.kids]) t
  rw [h] at this
  unfold modify at this
  cases hm : modFirst i some (marks t) with
  | none => rw [hm] at this; cases this
  | some r =>
    rw [hm] at this
    cases r with
    | none => cases this
    | some r =>
      simp only [Option.map_some, Option.some.injEq] at this
      rw [← this, mod_self i _ _ hm]

theorem step_marks (mk : Nat → β) {op : Op} (hp : Plain op) {t t' : Tr (Content × β)} (h : step (liftOp mk op) t = some t') :
    steps (structOp mk op).toList (marks t) = some (marks t') := by
  obtain ⟨i, ins⟩ := op
  cases ins with
  | insertChild _ => exact hp.elim
  | insertAfter _ => exact hp.elim
  | insertBefore _ => exact hp.elim
  | setInnerHtml _ _ => exact hp.elim
  | setAttribute k v => exact congrArg some (upd_marks h).symm
  | removeAttribute k => exact congrArg some (upd_marks h).symm
  | setText v => exact congrArg some (upd_marks h).symm
  | setTagName n => exact congrArg some (upd_marks h).symm
  | removeText => exact congrArg some (upd_marks h).symm
  | removeListeners => exact congrArg some (upd_marks h).symm
  | attachListener n on => exact congrArg some (upd_marks h).symm
  | setId v =>
    have : step (.setId i v) (marks t) = some (marks t') := by
      change step (.setId i v) t = some t' at h
      rw [step] at h ⊢
      rw [marks_modify (g := fun x => some (.node v x.lab x.kids)) (fun x => by cases x; rfl) t, h]; rfl
    simp only [structOp, Option.toList, steps, this]
  | createTag n p =>
    cases p with
    | none => exact hp.elim
    | some p =>
      have : step (.create i p (mk i)) (marks t) = some (marks t') := by
        change step (.create i p (⟨n, [], [], none⟩, mk i)) t = some t' at h
        rw [step] at h ⊢
        rw [marks_modify (g := fun x => some (.node x.id x.lab (x.kids ++ [.node i (⟨n, [], [], none⟩, mk i) []]))) (fun x => by
          cases x with
          | node j l ks => simp only [Option.map_some, marks, Tr.id, Tr.lab, Tr.kids, marksAll_append, marksAll]) t, h]
        rfl
      simp only [structOp, Option.toList, steps, this]
  | deleteEl =>
    have : step (.delete i) (marks t) = some (marks t') := by
      change step (.delete i) t = some t' at h
      rw [step] at h ⊢
      rw [marks_par]
      cases hf : findPar i t with
      | none => rw [hf] at h; cases h
      | some p =>
        rw [hf] at h
        simp only at h ⊢
        rw [marks_modify (g := fun x => (removeKid i x.kids).map fun ks => .node x.id x.lab ks) (fun x => by
          cases x with
          | node j l ks =>
            simp only [marks, Tr.id, Tr.lab, Tr.kids, marks_remove]
            cases removeKid i ks with
            | none => rfl
            | some r => simp only [Option.map_some, marks]) t, h]
        rfl
    simp only [structOp, Option.toList, steps, this]

theorem steps_marks (mk : Nat → β) : ∀ (ops : List Op), (∀ op ∈ ops, Plain op) → ∀ (t s : Tr (Content × β)),
    steps (ops.map (liftOp mk)) t = some s → steps (ops.filterMap (structOp mk)) (marks t) = some (marks s)
  | [], _, t, s, h => by rw [List.map_nil, steps] at h; cases h; rfl
  | op :: ops, hp, t, s, h => by
    obtain ⟨m, h1, h2⟩ := steps_cons_some h
    have ih := steps_marks mk ops (fun o ho => hp o (List.mem_cons_of_mem _ ho)) m s h2
    have h3 := step_marks mk (hp op (List.mem_cons_self ..)) h1
    rw [List.filterMap_cons]
    cases hs : structOp mk op with
    | none =>
      rw [hs] at h3
      simp only [Option.toList, steps, Option.some.injEq] at h3
      simp only
      rw [h3]; exact ih
    | some o =>
      rw [hs] at h3
      simp only [Option.toList, steps] at h3
      simp only [steps]
      cases hh : step o (marks t) with
      | none => rw [hh] at h3; cases h3
      | some u => rw [hh] at h3; cases h3; exact ih

mutual
theorem marks_lev : ∀ (t : Tr (Content × β)) (d : Nat), (marks t).lev d = (t.lev d).map fun e => ⟨e.id, e.dep, e.lab.2⟩
  | .node i l ks, d => by rw [marks, Tr.lev, Tr.lev, List.map_cons, marksAll_lev ks]
theorem marksAll_lev : ∀ (ts : List (Tr (Content × β))) (d : Nat), levs d (marksAll ts) = (levs d ts).map fun e => ⟨e.id, e.dep, e.lab.2⟩
  | [], d => rfl
  | t :: ts, d => by rw [marksAll, levs, levs, List.map_append, marks_lev t, marksAll_lev ts]
end

mutual
theorem mtr_ids (mk : Nat → β) : ∀ e : Element, (mtr mk e).ids = e.ids
  | ⟨i, n, at', ls, ks, tx, key⟩ => by rw [mtr, Tr.ids, Element.ids, mtrAll_ids mk ks]
theorem mtrAll_ids (mk : Nat → β) : ∀ es : List Element, idsF (mtrAll mk es) = idsOf es
  | [] => rfl
  | e :: es => by rw [mtrAll, idsF, idsOf, mtr_ids mk e, mtrAll_ids mk es]
end

theorem mtr_id (mk : Nat → β) (e : Element) : (mtr mk e).id = e.id := by cases e; rw [mtr]; rfl
theorem mtr_lab (mk : Nat → β) (e : Element) : (mtr mk e).lab = mk e.id := by cases e; rw [mtr]; rfl
theorem mtr_kids (mk : Nat → β) (e : Element) : (mtr mk e).kids = mtrAll mk e.children := by cases e; rw [mtr]; rfl
theorem mtrAll_eq (mk : Nat → β) (es : List Element) : mtrAll mk es = es.map (mtr mk) := by
  induction es with
  | nil => rfl
  | cons e es ih => rw [mtrAll, ih]; rfl

/-! ## The changeset between two trees without keys -/

/-- the four parts that concern the element itself -/
def ownOps (a b : Element) : List Op := a.diffName b ++ a.diffAttributes b ++ a.diffText b ++ a.diffListeners b

theorem diff_parts {a b : Element} (ha : a.Unkeyed) (hb : b.Unkeyed) {ops : List Op} (h : diff a b = some ops) :
    ∃ pairs, diffZip a.children b.children = some pairs ∧
      ops = ownOps a b ++ ((a.children.drop b.children.length).map (fun c => ⟨c.id, .deleteEl⟩) ++ pairs ++
        createAll (some a.id) (b.children.drop a.children.length)) ++ a.diffId b := by
  rw [diff_eq, kidOps_fit (keyFit_unkeyed b a ha hb)] at h
  unfold childOps at h
  cases hz : diffZip a.children b.children with
  | none => rw [hz] at h; cases h
  | some pairs =>
    rw [hz] at h
    simp only [Option.some.injEq] at h
    exact ⟨pairs, rfl, h.symm⟩

theorem Unkeyed.children {a : Element} (h : a.Unkeyed) : UnkeyedAll a.children := by
  cases a; rw [Element.Unkeyed] at h; exact h.2

/-- what an operation about the element itself may be -/
theorem own_cases {a b : Element} {op : Op} (h : op ∈ ownOps a b) :
    (op = ⟨b.id, .setTagName b.name⟩ ∧ a.name ≠ b.name) ∨
    (op.id = a.id ∧ ((∃ k, op.instruction = .removeAttribute k) ∨ (∃ k v, op.instruction = .setAttribute k v) ∨ (∃ v, op.instruction = .setText v) ∨
      op.instruction = .removeText ∨ op.instruction = .removeListeners)) ∨
    (a.listeners ≠ b.listeners ∧ ∃ l ∈ b.listeners, op = ⟨b.id, .attachListener l.listenerName l.jsEvent⟩) := by
  unfold ownOps at h
  simp only [List.mem_append] at h
  rcases h with ((h | h) | h) | h
  · unfold Element.diffName at h
    split at h
    · cases h
    · rename_i hn
      exact Or.inl ⟨List.mem_singleton.1 h, hn⟩
  · unfold Element.diffAttributes at h
    split at h
    · cases h
    · rcases List.mem_append.1 h with h | h
      · obtain ⟨p, _, hp⟩ := List.mem_filterMap.1 h
        split at hp
        · cases hp
        · cases hp; exact Or.inr (Or.inl ⟨rfl, Or.inl ⟨_, rfl⟩⟩)
      · obtain ⟨p, _, hp⟩ := List.mem_filterMap.1 h
        split at hp
        · split at hp
          · cases hp
          · cases hp; exact Or.inr (Or.inl ⟨rfl, Or.inr (Or.inl ⟨_, _, rfl⟩)⟩)
        · cases hp; exact Or.inr (Or.inl ⟨rfl, Or.inr (Or.inl ⟨_, _, rfl⟩)⟩)
  · unfold Element.diffText at h
    split at h
    · cases h
    · split at h
      · rcases List.mem_singleton.1 h with rfl
        exact Or.inr (Or.inl ⟨rfl, Or.inr (Or.inr (Or.inl ⟨_, rfl⟩))⟩)
      · rcases List.mem_singleton.1 h with rfl
        exact Or.inr (Or.inl ⟨rfl, Or.inr (Or.inr (Or.inr (Or.inl rfl)))⟩)
  · unfold Element.diffListeners at h
    split at h
    · cases h
    · rename_i hn
      rcases List.mem_cons.1 h with rfl | h
      · exact Or.inr (Or.inl ⟨rfl, Or.inr (Or.inr (Or.inr (Or.inr rfl)))⟩)
      · unfold Element.generateListeners at h
        obtain ⟨l, h1, rfl⟩ := List.mem_map.1 h
        exact Or.inr (Or.inr ⟨hn, l, h1, rfl⟩)

/-- what an operation that fills a created element may be -/
theorem fill_cases {K : Element} {op : Op} (h : op ∈ fillOps K) :
    (op.id = K.id ∧ ((∃ k v, op.instruction = .setAttribute k v) ∨ (∃ v, op.instruction = .setText v) ∨
      (∃ l ∈ K.listeners, op.instruction = .attachListener l.listenerName l.jsEvent))) ∨ op ∈ createAll (some K.id) K.children := by
  cases K with
  | mk id name attributes listeners children text key =>
  rw [fillOps] at h
  simp only [List.mem_append] at h
  rcases h with ((h | h) | h) | h
  · obtain ⟨p, _, rfl⟩ := List.mem_map.1 h; exact Or.inl ⟨rfl, Or.inl ⟨_, _, rfl⟩⟩
  · obtain ⟨p, hp, rfl⟩ := List.mem_map.1 h; exact Or.inl ⟨rfl, Or.inr (Or.inr ⟨p, hp, rfl⟩)⟩
  · cases text with
    | none => cases h
    | some v => rcases List.mem_singleton.1 h with rfl; exact Or.inl ⟨rfl, Or.inr (Or.inl ⟨_, rfl⟩)⟩
  · exact Or.inr h

end Puck.Shape
