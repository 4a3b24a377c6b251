import Verif.Spec.Vocabulary
import Verif.Props.PaintExact
import Verif.Props.ChangesAny
import Verif.Props.EndToEnd
import Verif.Props.ChatScript
/-!
# What people type does not become part of a page's structure (C143)
-/
namespace Puck

variable {V : Vocabulary}

theorem Element.uses_iff {e : Element} : e.Uses V ↔ V.tag e.name ∧ (∀ p ∈ e.attributes, V.attr p.1 p.2) ∧ (∀ l ∈ e.listeners, V.lis l) ∧ UsesAll V e.children := by
  cases e; rw [Element.Uses]

theorem usesAll_iff : ∀ {es : List Element}, UsesAll V es ↔ ∀ e ∈ es, e.Uses V
  | [] => by simp [UsesAll]
  | e :: es => by simp [UsesAll, usesAll_iff (es := es)]

theorem domUsesAll_iff : ∀ {ds : List Dom}, DomUsesAll V ds ↔ ∀ d ∈ ds, d.Uses V
  | [] => by simp [DomUsesAll]
  | d :: ds => by simp [DomUsesAll, domUsesAll_iff (ds := ds)]

theorem domUsesAll_append {a b : List Dom} : DomUsesAll V (a ++ b) ↔ DomUsesAll V a ∧ DomUsesAll V b := by
  simp only [domUsesAll_iff, List.mem_append]
  exact ⟨fun h => ⟨fun d hd => h d (Or.inl hd), fun d hd => h d (Or.inr hd)⟩, fun h d hd => hd.elim (h.1 d) (h.2 d)⟩

theorem Dom.uses_elem {tag : String} {attrs : Headers} {ls : List ListenerRef} {cs : List Dom} : (Dom.elem tag attrs ls cs).Uses V ↔
    V.tag tag ∧ (∀ p ∈ attrs, V.attr p.1 p.2 ∨ ∃ n : Nat, p = ("id", toString n)) ∧ (∀ l ∈ ls, V.lis l) ∧ DomUsesAll V cs := by
  rw [Dom.Uses]

/-! ## Changesets -/

/-- what the browser would make of an instruction -/
def Instruction.Uses (V : Vocabulary) : Instruction → Prop
  | .setAttribute k v => V.attr k v
  | .setTagName n => V.tag n
  | .createTag n _ => V.tag n
  | .attachListener n o => V.lis ⟨n, o⟩
  | _ => True

mutual
theorem create_uses : ∀ (e : Element) (parent : Option Nat), e.Uses V → ∀ op ∈ createFromScratch parent e, op.instruction.Uses V
  | ⟨id, name, attributes, listeners, children, text, key⟩, parent, h, op, ho => by
    obtain ⟨h1, h2, h3, h4⟩ := Element.uses_iff.1 h
    rw [createFromScratch_eq] at ho
    simp only [List.mem_append, List.mem_singleton, List.mem_map] at ho
    rcases ho with (((rfl | ⟨p, hp, rfl⟩) | ⟨l, hl, rfl⟩) | ho) | ho
    · exact h1
    · exact h2 p hp
    · exact h3 l hl
    · cases text with
      | none => simp [textOps] at ho
      | some v => simp only [textOps, List.mem_singleton] at ho; subst ho; exact trivial
    · exact createAll_uses children _ h4 op ho
theorem createAll_uses : ∀ (es : List Element) (parent : Option Nat), UsesAll V es → ∀ op ∈ createAll parent es, op.instruction.Uses V
  | [], _, _, op, ho => by simp [createAll] at ho
  | e :: es, parent, h, op, ho => by
    rw [UsesAll] at h
    rw [createAll, List.mem_append] at ho
    rcases ho with ho | ho
    · exact create_uses e parent h.1 op ho
    · exact createAll_uses es parent h.2 op ho
end

theorem own_uses {a b : Element} (h : b.Uses V) : ∀ op ∈ a.diffName b ++ a.diffAttributes b ++ a.diffText b ++ a.diffListeners b, op.instruction.Uses V := by
  obtain ⟨h1, h2, h3, -⟩ := Element.uses_iff.1 h
  intro op ho
  simp only [List.mem_append] at ho
  rcases ho with ((ho | ho) | ho) | ho
  · unfold Element.diffName at ho
    split at ho
    · cases ho
    · rw [List.mem_singleton] at ho; subst ho; exact h1
  · unfold Element.diffAttributes at ho
    split at ho
    · cases ho
    · simp only [List.mem_append, List.mem_filterMap] at ho
      rcases ho with ⟨p, -, hp⟩ | ⟨p, hp, he⟩
      · split at hp
        · cases hp
        · cases hp; exact trivial
      · split at he
        · split at he
          · cases he
          · cases he; exact h2 p hp
        · cases he; exact h2 p hp
  · unfold Element.diffText at ho
    split at ho
    · cases ho
    · split at ho <;> (rw [List.mem_singleton] at ho; subst ho; exact trivial)
  · unfold Element.diffListeners at ho
    split at ho
    · cases ho
    · rcases List.mem_cons.1 ho with rfl | ho
      · exact trivial
      · unfold Element.generateListeners at ho
        obtain ⟨l, hl, rfl⟩ := List.mem_map.1 ho
        exact h3 l hl

theorem insertion_uses {ts : List Element} {len i : Nat} {op : Op} (h : insertionOp ts len i = some op) : op.instruction.Uses V := by
  unfold insertionOp at h
  split at h
  · cases h
  · split at h
    · split at h
      · cases h; exact trivial
      · cases h
    · split at h
      · cases h; exact trivial
      · split at h
        · cases h; exact trivial
        · cases h

mutual
theorem diff_uses : ∀ (b a : Element), b.Uses V → ∀ ops, diff a b = some ops → ∀ op ∈ ops, op.instruction.Uses V
  | ⟨bid, bname, battrs, blis, bch, btext, bkey⟩, a, h, ops, hd, op, ho => by
    have hc := (Element.uses_iff.1 h).2.2.2
    simp only at hc
    rw [diff_eq] at hd
    cases hk : kidOps a ⟨bid, bname, battrs, blis, bch, btext, bkey⟩ with
    | none => rw [hk] at hd; cases hd
    | some cs =>
      rw [hk] at hd
      simp only [Option.some.injEq] at hd
      subst hd
      rw [List.mem_append, List.mem_append] at ho
      rcases ho with (ho | ho) | ho
      · exact own_uses h op ho
      · unfold kidOps at hk
        simp only at hk
        split at hk
        · cases h1 : diffKeyed a.children bch with
          | none => rw [h1] at hk; cases hk
          | some pairs =>
            rw [h1] at hk
            simp only at hk
            cases h2 : insertionOps bch (unpaired a.children bch).length (unpaired a.children bch) with
            | none => rw [h2] at hk; cases hk
            | some ins =>
              rw [h2] at hk
              simp only [Option.some.injEq] at hk
              subst hk
              rw [List.mem_append, List.mem_append] at ho
              rcases ho with (ho | ho) | ho
              · exact diffKeyed_uses bch a.children hc _ h1 op ho
              · obtain ⟨i, -, hi⟩ := (insertionOps_mem h2 op).1 ho
                exact insertion_uses hi
              · obtain ⟨c, -, -, rfl⟩ := deletionOps_mem.1 ho
                exact trivial
        · split at hk
          · exact diffZip_uses bch a.children hc _ hk op ho
          · split at hk
            · cases h1 : diffZip a.children bch with
              | none => rw [h1] at hk; cases hk
              | some pairs =>
                rw [h1] at hk
                simp only [Option.some.injEq] at hk
                subst hk
                rw [List.mem_append, List.mem_map] at ho
                rcases ho with ⟨c, -, rfl⟩ | ho
                · exact trivial
                · exact diffZip_uses bch a.children hc _ h1 op ho
            · cases h1 : diffZip a.children bch with
              | none => rw [h1] at hk; cases hk
              | some pairs =>
                rw [h1] at hk
                simp only [Option.some.injEq] at hk
                subst hk
                rw [List.mem_append] at ho
                rcases ho with ho | ho
                · exact diffZip_uses bch a.children hc _ h1 op ho
                · exact createAll_uses _ _ (usesAll_iff.2 fun e he => usesAll_iff.1 hc e (List.mem_of_mem_drop he)) op ho
      · unfold Element.diffId at ho
        split at ho
        · cases ho
        · rw [List.mem_singleton] at ho; subst ho; exact trivial
theorem diffKeyed_uses : ∀ (bs as : List Element), UsesAll V bs → ∀ ops, diffKeyed as bs = some ops → ∀ op ∈ ops, op.instruction.Uses V
  | [], as, _, ops, hd, op, ho => by rw [diffKeyed] at hd; cases hd; cases ho
  | b :: bs, as, h, ops, hd, op, ho => by
    rw [UsesAll] at h
    rw [diffKeyed] at hd
    cases h1 : locateByKey as b.key with
    | none => rw [h1] at hd; exact diffKeyed_uses bs as h.2 ops hd op ho
    | some m =>
      rw [h1] at hd
      simp only at hd
      cases h2 : diff m b with
      | none => rw [h2] at hd; cases hd
      | some d =>
        rw [h2] at hd
        simp only at hd
        cases h3 : diffKeyed as bs with
        | none => rw [h3] at hd; cases hd
        | some ds =>
          rw [h3] at hd
          simp only [Option.some.injEq] at hd
          subst hd
          rcases List.mem_append.1 ho with ho | ho
          · exact diff_uses b m h.1 d h2 op ho
          · exact diffKeyed_uses bs as h.2 ds h3 op ho
theorem diffZip_uses : ∀ (bs as : List Element), UsesAll V bs → ∀ ops, diffZip as bs = some ops → ∀ op ∈ ops, op.instruction.Uses V
  | [], as, _, ops, hd, op, ho => by rw [diffZip] at hd; cases hd; cases ho
  | b :: bs, [], _, ops, hd, op, ho => by rw [diffZip] at hd; cases hd; cases ho
  | b :: bs, m :: ms, h, ops, hd, op, ho => by
    rw [UsesAll] at h
    rw [diffZip] at hd
    cases h2 : diff m b with
    | none => rw [h2] at hd; cases hd
    | some d =>
      rw [h2] at hd
      simp only at hd
      cases h3 : diffZip ms bs with
      | none => rw [h3] at hd; cases hd
      | some ds =>
        rw [h3] at hd
        simp only [Option.some.injEq] at hd
        subst hd
        rcases List.mem_append.1 ho with ho | ho
        · exact diff_uses b m h.1 d h2 op ho
        · exact diffZip_uses bs ms h.2 ds h3 op ho
end

/-! ## The browser -/

mutual
theorem clone_uses : ∀ d : Dom, d.Uses V → d.cloneNode.Uses V
  | .text _, _ => by rw [Dom.cloneNode, Dom.Uses]; trivial
  | .elem tag attrs ls cs, h => by
    obtain ⟨h1, h2, -, h4⟩ := Dom.uses_elem.1 h
    rw [Dom.cloneNode]
    exact Dom.uses_elem.2 ⟨h1, h2, by simp, cloneAll_uses cs h4⟩
theorem cloneAll_uses : ∀ ds : List Dom, DomUsesAll V ds → DomUsesAll V (cloneAll ds)
  | [], _ => by rw [cloneAll, DomUsesAll]; trivial
  | d :: ds, h => by
    rw [DomUsesAll] at h
    rw [cloneAll, DomUsesAll]
    exact ⟨clone_uses d h.1, cloneAll_uses ds h.2⟩
end

mutual
theorem replaceNode_uses {sid : String} {f : Dom → Option (List Dom)} (hf : ∀ d r, d.Uses V → f d = some r → DomUsesAll V r) :
    ∀ (d : Dom) (r : List Dom), d.Uses V → replaceNode sid f d = some (some r) → DomUsesAll V r
  | .text _, r, _, h => by rw [replaceNode] at h; cases h
  | .elem tag attrs ls cs, r, hu, h => by
    rw [replaceNode] at h
    split at h
    · exact hf _ r hu (Option.some.inj h)
    · cases hc : replaceIn sid f cs with
      | none => rw [hc] at h; cases h
      | some x =>
        cases x with
        | none => rw [hc] at h; cases h
        | some cs' =>
          rw [hc] at h
          simp only [Option.some.injEq] at h
          subst h
          obtain ⟨h1, h2, h3, h4⟩ := Dom.uses_elem.1 hu
          rw [DomUsesAll, DomUsesAll]
          exact ⟨Dom.uses_elem.2 ⟨h1, h2, h3, replaceIn_uses hf cs cs' h4 hc⟩, trivial⟩
theorem replaceIn_uses {sid : String} {f : Dom → Option (List Dom)} (hf : ∀ d r, d.Uses V → f d = some r → DomUsesAll V r) :
    ∀ (ds r : List Dom), DomUsesAll V ds → replaceIn sid f ds = some (some r) → DomUsesAll V r
  | [], r, _, h => by rw [replaceIn] at h; cases h
  | d :: ds, r, hu, h => by
    rw [DomUsesAll] at hu
    rw [replaceIn] at h
    cases h1 : replaceNode sid f d with
    | some x =>
      cases x with
      | none => rw [h1] at h; cases h
      | some c =>
        rw [h1] at h
        simp only [Option.some.injEq] at h
        subst h
        exact domUsesAll_append.2 ⟨replaceNode_uses hf d c hu.1 h1, hu.2⟩
    | none =>
      rw [h1] at h
      simp only at h
      cases h2 : replaceIn sid f ds with
      | none => rw [h2] at h; cases h
      | some x =>
        cases x with
        | none => rw [h2] at h; cases h
        | some ds' =>
          rw [h2] at h
          simp only [Option.some.injEq] at h
          subst h
          rw [DomUsesAll]
          exact ⟨hu.1, replaceIn_uses hf ds ds' hu.2 h2⟩
end

/-- A page, and after it what is allowed. -/
def PageAnd (V : Vocabulary) (page body : List Dom) : Prop := ∃ added, body = page ++ added ∧ DomUsesAll V added

theorem withElement_uses {page : List Dom} (hp : PageOk page) (n : Nat) {f : Dom → Option (List Dom)} (hf : ∀ d r, d.Uses V → f d = some r → DomUsesAll V r)
    {body body' : List Dom} (hb : PageAnd V page body) (h : withElement (toString n) f body = some body') : PageAnd V page body' := by
  obtain ⟨added, rfl, hu⟩ := hb
  unfold withElement at h
  rw [replaceIn_page f page added (hp n)] at h
  cases hr : replaceIn (toString n) f added with
  | none => rw [hr] at h; cases h
  | some x =>
    cases x with
    | none => rw [hr] at h; cases h
    | some r =>
      rw [hr] at h
      simp only [Option.map_some, Option.some.injEq] at h
      subst h
      exact ⟨r, rfl, replaceIn_uses hf added r hu hr⟩

theorem splitPlusAux_takeWhile (l : List Char) : ∃ ws, splitPlusAux l = l.takeWhile (· ≠ '+') :: ws := by
  induction l with
  | nil => exact ⟨[], rfl⟩
  | cons c l ih =>
    obtain ⟨ws, h⟩ := ih
    rw [splitPlusAux, h]
    simp only
    by_cases hc : c = '+'
    · rw [if_pos hc, List.takeWhile_cons_of_neg (by simp [hc])]
      exact ⟨_, rfl⟩
    · rw [if_neg hc, List.takeWhile_cons_of_pos (by simp [hc])]
      exact ⟨_, rfl⟩

theorem splitPlus_second {k v : String} (h : '+' ∉ k.toList) : ∃ ws, splitPlus (k ++ "+" ++ v) = k :: beforePlus v :: ws := by
  obtain ⟨ws, h1⟩ := splitPlusAux_takeWhile v.toList
  refine ⟨ws.map String.ofList, ?_⟩
  unfold splitPlus
  have : (k ++ "+" ++ v).toList = k.toList ++ '+' :: v.toList := by simp [String.toList_append]
  rw [this, splitPlusAux_append h, h1]
  simp [beforePlus]

theorem beforePlus_plain {s : String} (h : '+' ∉ s.toList) : beforePlus s = s := by
  obtain ⟨ws, h1⟩ := splitPlusAux_takeWhile s.toList
  rw [splitPlusAux_none h] at h1
  apply String.toList_injective
  rw [beforePlus, String.toList_ofList]
  exact (List.cons.inj h1).1.symm



theorem clientOp_uses (B : Browser) (hV : V.Plain) (hB : B.Keeps V) {page : List Dom} (hp : PageOk page) (op : Op) (ho : op.instruction.Uses V)
    {body body' : List Dom} (hb : PageAnd V page body) (h : clientOp B op.serialize body = some body') : PageAnd V page body' := by
  obtain ⟨id, ins⟩ := op
  have one : ∀ {d : Dom}, d.Uses V → DomUsesAll V [d] := fun hd => by rw [DomUsesAll, DomUsesAll]; exact ⟨hd, trivial⟩
  cases ins with
  | insertChild c => simp [Op.serialize, clientOp] at h; exact h ▸ hb
  | insertAfter c => simp [Op.serialize, clientOp] at h; exact h ▸ hb
  | insertBefore c => simp [Op.serialize, clientOp] at h; exact h ▸ hb
  | removeText => simp [Op.serialize, clientOp] at h; exact h ▸ hb
  | setInnerHtml e x => simp [Op.serialize, clientOp] at h; exact h ▸ hb
  | deleteEl =>
    simp only [Op.serialize, clientOp, String.reduceEq, if_true, if_false] at h
    exact withElement_uses hp id (fun d r _ he => by cases he; rw [DomUsesAll]; trivial) hb h
  | removeListeners =>
    simp only [Op.serialize, clientOp, String.reduceEq, if_true, if_false] at h
    exact withElement_uses hp id (fun d r hd he => by cases he; exact one (clone_uses d hd)) hb h
  | setText v =>
    simp only [Op.serialize, clientOp, String.reduceEq, if_true, if_false] at h
    refine withElement_uses hp id (fun d r hd he => ?_) hb h
    cases d with
    | text _ => cases he
    | elem tag attrs ls cs =>
      cases he
      obtain ⟨h1, h2, h3, -⟩ := Dom.uses_elem.1 hd
      refine one (Dom.uses_elem.2 ⟨h1, h2, h3, ?_⟩)
      unfold textContent
      split
      · rw [DomUsesAll]; trivial
      · exact one (by rw [Dom.Uses]; trivial)
  | setId v =>
    simp only [Op.serialize, clientOp, String.reduceEq, if_true, if_false] at h
    refine withElement_uses hp id (fun d r hd he => ?_) hb h
    cases d with
    | text _ => cases he
    | elem tag attrs ls cs =>
      cases he
      obtain ⟨h1, h2, h3, h4⟩ := Dom.uses_elem.1 hd
      refine one (Dom.uses_elem.2 ⟨h1, fun p hp => ?_, h3, h4⟩)
      rcases insert_mem hp with rfl | hp
      · exact Or.inr ⟨v, rfl⟩
      · exact h2 p hp
  | removeAttribute k =>
    simp only [Op.serialize, clientOp, String.reduceEq, if_true, if_false] at h
    refine withElement_uses hp id (fun d r hd he => ?_) hb h
    cases d with
    | text _ => cases he
    | elem tag attrs ls cs =>
      cases he
      obtain ⟨h1, h2, h3, h4⟩ := Dom.uses_elem.1 hd
      exact one (Dom.uses_elem.2 ⟨h1, fun p hp => h2 p (List.mem_filter.1 hp).1, h3, h4⟩)
  | setTagName n =>
    simp only [Op.serialize, clientOp, String.reduceEq, if_true, if_false] at h
    refine withElement_uses hp id (fun d r hd he => ?_) hb h
    cases d with
    | text _ => cases he
    | elem tag attrs ls cs =>
      change (if B.validTag n = true then some [Dom.elem (asciiLower n) attrs [] (B.reparse (asciiLower n) cs)] else none) = some r at he
      by_cases hv : B.validTag n = true
      · rw [if_pos hv] at he
        cases he
        obtain ⟨h1, h2, h3, h4⟩ := Dom.uses_elem.1 hd
        have hn : V.tag (asciiLower n) := by rw [asciiLower_small (hV.tag n ho).2]; exact ho
        exact one (Dom.uses_elem.2 ⟨hn, h2, by simp, hB _ cs hn h4⟩)
      · rw [if_neg hv] at he
        cases he
  | setAttribute k v =>
    obtain ⟨a1, a2, a3⟩ := hV.attr k v ho
    obtain ⟨ws, hw⟩ := splitPlus_second (v := v) a1
    simp only [Op.serialize, clientOp, String.reduceEq, if_true, if_false, hw] at h
    refine withElement_uses hp id (fun d r hd he => ?_) hb h
    cases d with
    | text _ => cases he
    | elem tag attrs ls cs =>
      simp only at he
      split at he
      · cases he
        obtain ⟨h1, h2, h3, h4⟩ := Dom.uses_elem.1 hd
        refine one (Dom.uses_elem.2 ⟨h1, fun p hp => ?_, h3, h4⟩)
        rcases insert_mem hp with rfl | hp
        · left; simp only; rw [asciiLower_small a2]; exact a3
        · exact h2 p hp
      · cases he
  | attachListener n o =>
    obtain ⟨a1, a2⟩ := hV.lis _ ho
    obtain ⟨ws, hw⟩ := splitPlus_second (v := o) a1
    simp only [Op.serialize, clientOp, String.reduceEq, if_true, if_false, hw] at h
    refine withElement_uses hp id (fun d r hd he => ?_) hb h
    cases d with
    | text _ => cases he
    | elem tag attrs ls cs =>
      cases he
      obtain ⟨h1, h2, h3, h4⟩ := Dom.uses_elem.1 hd
      refine one (Dom.uses_elem.2 ⟨h1, h2, fun l hl => ?_, h4⟩)
      rcases List.mem_append.1 hl with hl | hl
      · exact h3 l hl
      · rw [List.mem_singleton] at hl
        subst hl
        rw [beforePlus_plain a2]
        exact ho
  | createTag n parent =>
    obtain ⟨a1, a2⟩ := hV.tag n ho
    have hel : (Dom.elem (asciiLower n) [("id", toString id)] [] []).Uses V := by
      refine Dom.uses_elem.2 ⟨by rw [asciiLower_small a2]; exact ho, fun p hp => ?_, by simp, by rw [DomUsesAll]; trivial⟩
      rw [List.mem_singleton] at hp
      exact Or.inr ⟨id, hp⟩
    have put : PageAnd V page (body ++ [.elem (asciiLower n) [("id", toString id)] [] []]) := by
      obtain ⟨added, rfl, hu⟩ := hb
      exact ⟨added ++ [_], by rw [List.append_assoc], domUsesAll_append.2 ⟨hu, one hel⟩⟩
    cases parent with
    | none =>
      have hw := splitPlus_two (b := "") a1 (by decide)
      simp only [Op.serialize, clientOp, String.reduceEq, if_true, hw] at h
      split at h
      · cases h; exact put
      · cases h
    | some p =>
      have hw := splitPlus_two (b := toString p) a1 (toString_nat_noplus p)
      simp only [Op.serialize, clientOp, String.reduceEq, if_true, hw] at h
      split at h
      · split at h
        · cases h; exact put
        · refine withElement_uses hp p (fun d r hd he => ?_) hb h
          cases d with
          | text _ => cases he
          | elem tag attrs ls cs =>
            cases he
            obtain ⟨h1, h2, h3, h4⟩ := Dom.uses_elem.1 hd
            exact one (Dom.uses_elem.2 ⟨h1, h2, h3, domUsesAll_append.2 ⟨h4, one hel⟩⟩)
      · cases h

theorem clientMessage_uses (B : Browser) (hV : V.Plain) (hB : B.Keeps V) {page : List Dom} (hp : PageOk page) : ∀ (ops : List Op)
    (_ : ∀ op ∈ ops, op.instruction.Uses V) {body : List Dom} (_ : PageAnd V page body), PageAnd V page (clientMessage B (serializeOps ops) body)
  | [], _, _, hb => hb
  | op :: ops, ho, body, hb => by
    rw [serializeOps, List.map_cons, clientMessage]
    split
    · exact hb
    · rename_i body' h
      exact clientMessage_uses B hV hB hp ops (fun o h => ho o (by simp [h])) (clientOp_uses B hV hB hp op (ho op (by simp)) hb h)

/-! ## The component's loop -/

variable {D I S E P : Type}

/-- a message that leads to a view made of what is allowed -/
def MessageUses (V : Vocabulary) (ws : List WireOp) : Prop := ∃ ops, ws = serializeOps ops ∧ ∀ op ∈ ops, op.instruction.Uses V

theorem clientMessages_uses (B : Browser) (hV : V.Plain) (hB : B.Keeps V) {page : List Dom} (hp : PageOk page) : ∀ (ms : List (List WireOp))
    (_ : ∀ m ∈ ms, MessageUses V m) {body : List Dom} (_ : PageAnd V page body), PageAnd V page (clientMessages B ms body)
  | [], _, _, hb => hb
  | m :: ms, ho, body, hb => by
    obtain ⟨ops, rfl, h⟩ := ho m (by simp)
    rw [clientMessages]
    exact clientMessages_uses B hV hB hp ms (fun o h => ho o (by simp [h])) (clientMessage_uses B hV hB hp ops h hb)

theorem sends_effect_send (es : List E) (ops : List WireOp) : sends (es.map (Out.effect (E := E)) ++ [.send ops]) = [ops] := by
  rw [sends_append, sends_effects]; rfl

/-- What is sent is about the view of the component as it is afterwards. -/
theorem update_view {C : Component D I S E P} {st : LoopState I S P} {i : I} {m : List WireOp} (hm : m ∈ sends (updateAndDiff (D := D) C st i).2) :
    ∃ st' ops, (updateAndDiff (D := D) C st i).1 = .running st' ∧ m = serializeOps ops ∧ diff st.dom (C.render st'.comp).1 = some ops := by
  unfold updateAndDiff at hm ⊢
  simp only at hm ⊢
  cases hd : st.dom.diff (some (C.render (C.update st.comp i st.proc).1).1) with
  | none => rw [hd] at hm; simp only [sends_effects] at hm; cases hm
  | some ops =>
    rw [hd] at hm
    simp only [sends_effect_send, List.mem_singleton] at hm
    exact ⟨_, ops, rfl, hm, hd⟩

theorem loop_view {C : Component D I S E P} {parse : String → Option ClientMessage} {b : Bool} {ph : Phase D I S P} {mail : Mail I P} {m : List WireOp}
    (hm : m ∈ sends (loopStep C parse b ph mail).2) :
    (∃ data p, ph = .waiting data ∧ mail = .whoAmI p ∧ m = serializeOps (createFromScratch none (C.render (C.new data p).1).1)) ∨
    ∃ st st' ops, ph = .running st ∧ (loopStep C parse b ph mail).1 = .running st' ∧ m = serializeOps ops ∧ diff st.dom (C.render st'.comp).1 = some ops := by
  cases ph with
  | waiting data =>
    cases mail with
    | whoAmI p =>
      left
      refine ⟨data, p, rfl, rfl, ?_⟩
      simp only [loopStep, Element.diff] at hm
      split at hm <;> simpa [sends_append, sends_effects, sends] using hm
    | _ => simp [loopStep, sends] at hm
  | running st =>
    right
    have key : ∀ i, m ∈ sends (updateAndDiff (D := D) C st i).2 → ∃ st1 st' ops, (.running st : Phase D I S P) = .running st1 ∧
        (updateAndDiff (D := D) C st i).1 = .running st' ∧ m = serializeOps ops ∧ diff st1.dom (C.render st'.comp).1 = some ops := by
      intro i hi
      obtain ⟨st', ops, h1, h2, h3⟩ := update_view hi
      exact ⟨st, st', ops, rfl, h1, h2, h3⟩
    cases mail with
    | whoAmI p => simp [loopStep, sends] at hm
    | input i => exact key i hm
    | ws r =>
      cases r with
      | error e => cases e <;> simp [loopStep, sends] at hm
      | ok msg =>
        cases msg with
        | text contents =>
          rw [loopStep] at hm ⊢
          cases hp : parse contents with
          | none => rw [hp] at hm; simp [sends] at hm
          | some t =>
            rw [hp] at hm
            simp only at hm ⊢
            cases hl : st.listeners t.listener with
            | none => rw [hl] at hm; simp [sends] at hm
            | some l =>
              rw [hl] at hm
              cases l with
              | click call => exact key _ hm
              | submit call => exact key _ hm
              | input call =>
                cases hv : t.payload with
                | none => simp only [hv] at hm; simp [sends] at hm
                | some v => simp only [hv] at hm ⊢; exact key _ hm
        | _ => simp [loopStep, sends] at hm
  | stopped => simp [loopStep, sends] at hm
  | crashed => simp [loopStep, sends] at hm
  | unreachable => simp [loopStep, sends] at hm

theorem run_uses {C : Component D I S E P} (hC : ∀ s, (C.render s).1.Uses V) (parse : String → Option ClientMessage) (b : Bool) : ∀ (mail : List (Mail I P))
    (ph : Phase D I S P), ∀ m ∈ sends (loopRun C parse b ph mail).2, MessageUses V m
  | [], _, m, hm => by simp [loopRun, sends] at hm
  | x :: xs, ph, m, hm => by
    rw [loopRun] at hm
    simp only [sends_append, List.mem_append] at hm
    rcases hm with hm | hm
    · rcases loop_view hm with ⟨data, p, -, -, rfl⟩ | ⟨st, st', ops, -, -, rfl, hd⟩
      · exact ⟨_, rfl, create_uses _ _ (hC _)⟩
      · exact ⟨_, rfl, diff_uses _ _ (hC _) ops hd⟩
    · exact run_uses hC parse b xs _ m hm

/-- **C143 (any component).** A component's views are made of certain tags, attributes with certain values, and listeners; their texts may be anything, such as what
people have typed.  Then whatever happens — whatever messages arrive, from the browser or from elsewhere, in whatever order — after any number of
changesets the page in the browser is the page there was, followed by trees made of those tags, attributes and listeners only. -/
theorem C143_structure (B : Browser) (V : Vocabulary) (hV : V.Plain) (hB : B.Keeps V) (C : Component D I S E P) (hC : ∀ s, (C.render s).1.Uses V)
    (parse : String → Option ClientMessage) (firstSend : Bool) (data : D) (mail : List (Mail I P)) (page : List Dom) (hp : PageOk page) :
    ∃ added, clientMessages B (sends (loopRun C parse firstSend (.waiting data) mail).2) page = page ++ added ∧ DomUsesAll V added :=
  clientMessages_uses B hV hB hp _ (run_uses hC parse firstSend mail _) ⟨[], by rw [List.append_nil], by rw [DomUsesAll]; trivial⟩

/-- a browser that copies keeps everything -/
theorem plainBrowser_keeps (V : Vocabulary) : plainBrowser.Keeps V := fun _ cs _ h => cloneAll_uses cs h

/-- A component that shows what has been typed: in a text and in an attribute. -/
def echo : Component Unit String String Unit Unit where
  new := fun _ _ => ("", [])
  update := fun _ i _ => (i, [])
  render := fun s => (⟨0, "div", [], [], [⟨1, "p", [], [], [], some s, none⟩, ⟨2, "input", [("value", s)], [⟨"typed", "input"⟩], [], none, none⟩], none, none⟩,
    fun n => if n = "typed" then some (.input _root_.id) else none)

/-- What it is made of. -/
def echoVocabulary : Vocabulary where
  tag t := t ∈ ["div", "input", "p"]
  attr k _ := k = "value"
  lis l := l = ⟨"typed", "input"⟩

theorem echoVocabulary_plain : echoVocabulary.Plain where
  tag := by
    have : ∀ t ∈ ["div", "input", "p"], '+' ∉ t.toList ∧ NoCapitals t := by decide +kernel
    exact this
  attr := by
    rintro k v rfl
    have : '+' ∉ "value".toList ∧ NoCapitals "value" := by decide +kernel
    exact ⟨this.1, this.2, rfl⟩
  lis := by
    rintro l rfl
    decide +kernel

mutual
/-- a tree as a list of strings: opening tag, attributes, listeners, children, closing tag -/
def Dom.words : Dom → List String
  | .text s => ["text", s]
  | .elem tag attrs ls cs => ["open", tag] ++ attrs.flatMap (fun p => [p.1, p.2]) ++ ls.flatMap (fun l => [l.listenerName, l.jsEvent]) ++ ["in"] ++ domWordsAll cs ++ ["close"]
/-- siblings -/
def domWordsAll : List Dom → List String
  | [] => []
  | d :: ds => d.words ++ domWordsAll ds
end

/-- non-vacuity: markup has been typed; it is in the page, as a text and (up to the `+`) as a value -/
example : (∀ s, (echo.render s).1.Uses echoVocabulary) ∧
    domWordsAll (clientMessages plainBrowser (sends (loopRun echo (fun _ => some ⟨"typed", some "<script>+alert()</script>"⟩) true (.waiting ())
        [.whoAmI (), .ws (.ok (.text ""))]).2) [.text "\n"]) =
      ["text", "\n", "open", "div", "id", "0", "in", "open", "p", "id", "1", "in", "text", "<script>+alert()</script>", "close",
        "open", "input", "id", "2", "value", "<script>", "typed", "input", "in", "close", "close"] := by
  refine ⟨fun s => by simp [echo, Element.Uses, UsesAll, echoVocabulary], ?_⟩
  decide +kernel

end Puck

namespace Puck.Chat

open Puck

/-- What the chat's pages are made of: four tags; inputs of two types with two placeholders, and with any value; four listeners. -/
def chatVocabulary : Vocabulary where
  tag t := t ∈ ["div", "input", "p", "h3"]
  attr k v := (k = "type" ∧ v ∈ ["text", "submit"]) ∨ (k = "placeholder" ∧ v ∈ ["username...", "send a new message..."]) ∨ k = "value"
  lis l := l ∈ ([⟨"set_username", "input"⟩, ⟨"initialize_username", "click"⟩, ⟨"update_message_contents", "input"⟩, ⟨"submit_message", "click"⟩] :
    List ListenerRef)

theorem chatVocabulary_plain : chatVocabulary.Plain where
  tag := by
    have : ∀ t ∈ ["div", "input", "p", "h3"], '+' ∉ t.toList ∧ NoCapitals t := by decide +kernel
    exact this
  attr := by
    have h : ∀ k ∈ ["type", "placeholder", "value"], '+' ∉ k.toList ∧ NoCapitals k := by decide +kernel
    have hv : ∀ v ∈ ["text", "submit", "username...", "send a new message..."], beforePlus v = v := by decide +kernel
    rintro k v (⟨rfl, hk⟩ | ⟨rfl, hk⟩ | rfl)
    · refine ⟨(h _ (by simp)).1, (h _ (by simp)).2, ?_⟩
      rw [hv v (by simp at hk ⊢; rcases hk with rfl | rfl <;> simp)]
      exact Or.inl ⟨rfl, hk⟩
    · refine ⟨(h _ (by simp)).1, (h _ (by simp)).2, ?_⟩
      rw [hv v (by simp at hk ⊢; rcases hk with rfl | rfl <;> simp)]
      exact Or.inr (Or.inl ⟨rfl, hk⟩)
    · exact ⟨(h _ (by simp)).1, (h _ (by simp)).2, Or.inr (Or.inr rfl)⟩
  lis := by
    have : ∀ l ∈ ([⟨"set_username", "input"⟩, ⟨"initialize_username", "click"⟩, ⟨"update_message_contents", "input"⟩, ⟨"submit_message", "click"⟩] :
        List ListenerRef), '+' ∉ l.listenerName.toList ∧ '+' ∉ l.jsEvent.toList := by decide +kernel
    exact this

theorem messages_use : ∀ (ms : List ChatMessage) (g g' : Nat) (es : List Element), intoElements (ms.map messageDiv) g = some (es, g') → UsesAll chatVocabulary es
  | [], g, g', es, h => by rw [List.map_nil, intoElements] at h; cases h; rw [UsesAll]; trivial
  | m :: ms, g, g', es, h => by
    rw [List.map_cons, intoElements] at h
    have h1 : intoElement (messageDiv m) g = some (⟨g, "div", [], [], [
        ⟨g + 1, "h3", [], [], [], some ("Message from " ++ m.username ++ " (user id: " ++ toString m.sender ++ ")"), none⟩,
        ⟨g + 2, "p", [], [], [], some m.contents, none⟩], none, none⟩, g + 3) := by
      simp [messageDiv, BodyNode.wrap, WrappedBodyNode.child, intoElement, intoElements]
    rw [h1] at h
    simp only at h
    cases h2 : intoElements (ms.map messageDiv) (g + 3) with
    | none => rw [h2] at h; cases h
    | some r =>
      obtain ⟨es', g''⟩ := r
      rw [h2] at h
      simp only [Option.some.injEq, Prod.mk.injEq] at h
      obtain ⟨rfl, rfl⟩ := h
      rw [UsesAll]
      refine ⟨?_, messages_use ms _ _ es' h2⟩
      simp [Element.Uses, UsesAll, chatVocabulary]

theorem render_uses (l : Live) : l.render.1.Uses chatVocabulary := by
  obtain ⟨g, h⟩ := view_element l
  cases l with
  | uninitialized u =>
    simp only [Live.view, inputDiv, BodyNode.wrap, WrappedBodyNode.child, WrappedBodyNode.listener, intoElement, intoElements, List.nil_append,
      List.cons_append, Option.some.injEq, Prod.mk.injEq] at h
    rw [← h.1]
    simp [Element.Uses, UsesAll, chatVocabulary]
  | initialized u id ms c =>
    simp only [Live.view, inputDiv, BodyNode.wrap, WrappedBodyNode.child, WrappedBodyNode.withChildren, WrappedBodyNode.listener, intoElement, intoElements,
      List.nil_append, List.cons_append] at h
    cases h2 : intoElements (ms.map messageDiv) 7 with
    | none => simp [h2] at h
    | some r =>
      simp only [h2, Option.some.injEq, Prod.mk.injEq] at h
      rw [← h.1]
      have := messages_use ms _ _ _ h2
      simp only [Element.Uses, UsesAll, this]
      simp [chatVocabulary]

/-- **C143 (the chat).** Whatever anybody types, sends or does, every page of the chat is at all times the page there was, followed by trees of `div`, `input`, `p` and
`h3` elements with only the listeners, input types and placeholders of the program: nothing that is typed becomes an element, an attribute's name
or a listener. -/
theorem C143_chat (B : Browser) (hB : B.Keeps chatVocabulary) (parse : String → Option ClientMessage) (firstSend : Nat → Bool) (f : FineNet)
    (h : FineSteps parse firstSend .init f) (k : Nat) (u : FineProcs) (hu : f.users k = some u) (page : List Dom) (hp : PageOk page) :
    ∃ added, clientMessages B u.sent page = page ++ added ∧ DomUsesAll chatVocabulary added := by
  refine clientMessages_uses B chatVocabulary_plain hB hp _ ?_ ⟨[], by rw [List.append_nil], by rw [DomUsesAll]; trivial⟩
  have keep : ∀ {f f' : FineNet}, FineSteps parse firstSend .init f → FineStep parse firstSend f f' →
      (∀ k u, f.users k = some u → ∀ m ∈ u.sent, MessageUses chatVocabulary m) → ∀ k u, f'.users k = some u → ∀ m ∈ u.sent, MessageUses chatVocabulary m := by
    intro f f' hr hs ih
    have hr' := FineSteps.snoc hr hs
    have same : ∀ {n : FineNet} {j : Nat} {w w' : FineProcs}, (∀ k u, n.users k = some u → ∀ m ∈ u.sent, MessageUses chatVocabulary m) →
        n.users j = some w → w'.sent = w.sent → ∀ k u, (n.set j w').users k = some u → ∀ m ∈ u.sent, MessageUses chatVocabulary m := by
      intro n j w w' ih hw he k u hu m hm
      unfold FineNet.set at hu
      simp only at hu
      split at hu
      · cases hu; exact ih j w hw m (he ▸ hm)
      · exact ih k u hu m hm
    have more : ∀ {j : Nat} {w : FineProcs} {r : LiveviewInput} {x : Mail LiveviewInput Nat} {w' : FineProcs}, f.users j = some w → w'.alive = true → w'.talk = .free →
        w'.loop = (loopStep (asker r) parse (firstSend j) w.loop x).1 → w'.sent = w.sent ++ sends (loopStep (asker r) parse (firstSend j) w.loop x).2 →
        FineSteps parse firstSend .init (f.set j w') → ∀ k u, (f.set j w').users k = some u → ∀ m ∈ u.sent, MessageUses chatVocabulary m := by
      intro j w r x w' hw ha ht hl he hr' k u hu m hm
      unfold FineNet.set at hu
      simp only at hu
      split at hu
      · cases hu
        rw [he, List.mem_append] at hm
        rcases hm with hm | hm
        · exact ih j w hw m hm
        · rcases loop_view hm with ⟨data, p, -, -, rfl⟩ | ⟨st, st', ops, -, h1, rfl, hd⟩
          · exact ⟨_, rfl, create_uses _ _ (render_uses _)⟩
          · obtain ⟨-, -, h3⟩ := C104_no_panic parse firstSend _ hr' j w' (by simp [FineNet.set]) ha ht
            have h4 := h3 st' (by rw [hl, h1])
            cases hc : st'.comp with
            | none => exact absurd hc h4
            | some l =>
              rw [hc] at hd
              exact ⟨_, rfl, diff_uses _ _ (render_uses l) ops hd⟩
      · exact ih k u hu m hm
    cases hs with
    | connect k0 hk =>
      intro k u hu m hm
      unfold FineNet.set at hu
      simp only at hu
      split at hu
      · cases hu; cases hm
      · exact ih k u hu m hm
    | forward k0 w i rest hw hi => exact same ih hw rfl
    | read k0 w x hw => exact same ih hw rfl
    | work k0 w x rest hw ha ht hb hq => exact more hw ha ht rfl rfl hr'
    | ask k0 w x rest q hw ha ht hb hq => exact same (n := f) ih hw rfl
    | serve k0 q queue srv reply ds h1 h2 h3 h4 => exact ih
    | panic k0 q queue h1 h2 h3 h4 => exact ih
    | send k0 reply d ds h1 =>
      unfold FineNet.deliver
      simp only
      cases hd : f.users d.to with
      | none => exact ih
      | some w => exact same (n := { f with serving := some ⟨k0, reply, ds⟩ }) ih hd rfl
    | reply k0 r w x h1 hw ht => exact same (n := { f with serving := none }) ih hw rfl
    | resume k0 w x r hw ha ht => exact more (r := r) (x := x) hw ha rfl rfl rfl hr'
    | die k0 w hw => exact same ih hw rfl
    | shuffle us hp => exact ih
  have all : ∀ {f : FineNet}, FineSteps parse firstSend .init f → ∀ k u, f.users k = some u → ∀ m ∈ u.sent, MessageUses chatVocabulary m := by
    intro f h
    induction h with
    | refl => intro k u hu; cases hu
    | snoc h1 h2 ih => exact keep h1 h2 ih
  exact all h k u hu

/-- The hypotheses are met: there are executions in which users have registered, and a browser as required. -/
theorem C143_case {parse : String → Option ClientMessage} {fs : Nat → Bool} (h0 : fs 0 = true) (h1 : fs 1 = true) {t : String}
    (ht : parse t = some ⟨"initialize_username", none⟩) :
    ∃ f u added, FineSteps parse fs .init f ∧ f.users 0 = some u ∧ (∃ name id ms c, u.live = some (.initialized name id ms c)) ∧
      clientMessages plainBrowser u.sent [.text "\n"] = .text "\n" :: added ∧ DomUsesAll chatVocabulary added := by
  obtain ⟨f, u, nm, id, ms, c, r1, -, -, r4, r5, -⟩ := two_registered (parse := parse) (fs := fs) h0 h1 ht
  obtain ⟨added, e1, e2⟩ := C143_chat plainBrowser (plainBrowser_keeps _) parse fs f r1 0 u r4 [.text "\n"] (fun n => by simp [domIds, Dom.ids])
  exact ⟨f, u, added, r1, r4, ⟨nm, id, ms, c, r5⟩, e1, e2⟩

end Puck.Chat
