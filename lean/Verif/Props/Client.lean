import Verif.Lemmas.Client
import Verif.Props.Apply
/-!
# The browser (C61 - C63)
-/
namespace Puck

/-! ## C61 -/

/-- What index.js uses of a payload with two parts (lines 8-14, 20-23, 43-60): the first two pieces. -/
def WireOp.pieces (w : WireOp) : Option String × Option String :=
  match w.payload with
  | none => (none, none)
  | some p => ((splitPlus p)[0]?, (splitPlus p)[1]?)

theorem splitPlusAux_head (l : List Char) : ∃ w ws, splitPlusAux l = w :: ws ∧ '+' ∉ w := by
  induction l with
  | nil => exact ⟨[], [], rfl, by simp⟩
  | cons c l ih =>
    obtain ⟨w, ws, h1, h2⟩ := ih
    rw [splitPlusAux, h1]
    simp only
    by_cases hc : c = '+'
    · rw [if_pos hc]; exact ⟨[], w :: ws, rfl, by simp⟩
    · rw [if_neg hc]
      refine ⟨c :: w, ws, rfl, ?_⟩
      simp only [List.mem_cons, not_or]
      exact ⟨fun e => hc e.symm, h2⟩

theorem pieces_iff (a b : String) :
    ((splitPlus (a ++ "+" ++ b))[0]? = some a ∧ (splitPlus (a ++ "+" ++ b))[1]? = some b) ↔ '+' ∉ a.toList ∧ '+' ∉ b.toList := by
  constructor
  · rintro ⟨h1, h2⟩
    have ha : '+' ∉ a.toList := by
      obtain ⟨w, ws, h3, h4⟩ := splitPlusAux_head (a ++ "+" ++ b).toList
      unfold splitPlus at h1
      rw [h3] at h1
      simp only [List.map_cons, List.getElem?_cons_zero, Option.some.injEq] at h1
      rw [← h1, String.toList_ofList]
      exact h4
    refine ⟨ha, ?_⟩
    have : (a ++ "+" ++ b).toList = a.toList ++ '+' :: b.toList := by simp [String.toList_append]
    unfold splitPlus at h2
    rw [this, splitPlusAux_append ha] at h2
    obtain ⟨w, ws, h3, h4⟩ := splitPlusAux_head b.toList
    rw [h3] at h2
    simp only [List.map_cons, List.getElem?_cons_succ, List.getElem?_cons_zero, Option.some.injEq] at h2
    rw [← h2, String.toList_ofList]
    exact h4
  · rintro ⟨h1, h2⟩
    rw [splitPlus_two h1 h2]
    exact ⟨rfl, rfl⟩

theorem prod_some_iff {α β : Type} {x : Option α} {y : Option β} {a : α} {b : β} :
    (x, y) = (some a, some b) ↔ x = some a ∧ y = some b := by simp

/-- **C61 (exactly when it holds).** Attributes, listeners and tags arrive as sent iff no part contains `+`; ids,
texts, tag changes and removed attribute names always arrive as sent. -/
theorem C61_wire_partial (id : Nat) :
    (∀ k v, (Op.serialize ⟨id, .setAttribute k v⟩).pieces = (some k, some v) ↔ '+' ∉ k.toList ∧ '+' ∉ v.toList) ∧
    (∀ n on, (Op.serialize ⟨id, .attachListener n on⟩).pieces = (some n, some on) ↔ '+' ∉ n.toList ∧ '+' ∉ on.toList) ∧
    (∀ n p, (Op.serialize ⟨id, .createTag n (some p)⟩).pieces = (some n, some (toString p)) ↔ '+' ∉ n.toList) ∧
    (∀ n, (Op.serialize ⟨id, .createTag n none⟩).pieces = (some n, some "") ↔ '+' ∉ n.toList) ∧
    (∀ s, (Op.serialize ⟨id, .setText s⟩).payload = some s ∧ (Op.serialize ⟨id, .setTagName s⟩).payload = some s ∧
      (Op.serialize ⟨id, .removeAttribute s⟩).payload = some s) ∧
    (∀ i, (Op.serialize ⟨id, .setId i⟩).payload = some (toString i) ∧ (Op.serialize ⟨id, .insertChild i⟩).payload = some (toString i) ∧
      (Op.serialize ⟨id, .insertAfter i⟩).payload = some (toString i) ∧ (Op.serialize ⟨id, .insertBefore i⟩).payload = some (toString i)) ∧
    (∀ e h, (Op.serialize ⟨id, .setInnerHtml e h⟩).pieces = (some e, some h) ↔ '+' ∉ e.toList ∧ '+' ∉ h.toList) ∧
    (∀ op : Op, op.serialize.el = toString op.id) := by
  refine ⟨fun k v => ?_, fun n on => ?_, fun n p => ?_, fun n => ?_, fun s => ⟨rfl, rfl, rfl⟩, fun i => ⟨rfl, rfl, rfl, rfl⟩, fun e h => ?_, ?_⟩
  · exact prod_some_iff.trans (pieces_iff k v)
  · exact prod_some_iff.trans (pieces_iff n on)
  · exact prod_some_iff.trans ((pieces_iff n (toString p)).trans ⟨fun h => h.1, fun h => ⟨h, toString_nat_noplus p⟩⟩)
  · exact prod_some_iff.trans ((pieces_iff n "").trans ⟨fun h => h.1, fun h => ⟨h, by simp⟩⟩)
  · exact prod_some_iff.trans (pieces_iff e h)
  · rintro ⟨i, instr⟩
    cases instr <;> rfl

/-- **C61 (instructions the client does not know).** Whatever the page, the instructions that take a text away, insert a child, or set inner HTML are not carried out:
the page stays as it is, without an exception. -/
theorem C61_ignored_refuted (B : Browser) (id n : Nat) (e h : String) (body : List Dom) :
    clientOp B (Op.serialize ⟨id, .removeText⟩) body = some body ∧ clientOp B (Op.serialize ⟨id, .insertChild n⟩) body = some body ∧
    clientOp B (Op.serialize ⟨id, .insertAfter n⟩) body = some body ∧ clientOp B (Op.serialize ⟨id, .insertBefore n⟩) body = some body ∧
    clientOp B (Op.serialize ⟨id, .setInnerHtml e h⟩) body = some body := by
  simp [clientOp, Op.serialize]

/-- **C61 is false**: the browser sets the attribute to what precedes the first `+`, for every value with a `+`. -/
theorem C61_plus_refuted (B : Browser) (id : Nat) (key l r : String) (attrs : Headers) (ls : List ListenerRef) (cs : List Dom)
    (hk : '+' ∉ key.toList) (hv : B.validAttr key = true) (hl : '+' ∉ l.toList) :
    clientOp B (Op.serialize ⟨id, .setAttribute key (l ++ "+" ++ r)⟩) [.elem "a" (attrs.insert "id" (toString id)) ls cs] =
      some [.elem "a" ((attrs.insert "id" (toString id)).insert (asciiLower key) l) ls cs] := by
  have hsp : ∃ ws, splitPlus (key ++ "+" ++ (l ++ "+" ++ r)) = key :: l :: ws := by
    refine ⟨(splitPlusAux r.toList).map String.ofList, ?_⟩
    unfold splitPlus
    have : (key ++ "+" ++ (l ++ "+" ++ r)).toList = key.toList ++ '+' :: (l.toList ++ '+' :: r.toList) := by
      simp [String.toList_append]
    rw [this, splitPlusAux_append hk, splitPlusAux_append hl]
    simp
  obtain ⟨ws, hws⟩ := hsp
  have hid : Headers.get (attrs.insert "id" (toString id)) "id" = some (toString id) := by
    rw [Headers.get_insert]; simp
  simp only [clientOp, Op.serialize, hws]
  simp only [withElement, replaceIn, replaceNode, hid, hv, if_true]
  rfl

/-! ## C62 -/

mutual
/-- The same tree without keys (which a browser never sees). -/
def Element.unkey : Element → Element
  | ⟨id, name, attributes, listeners, children, text, _⟩ => ⟨id, name, attributes, listeners, unkeyAll children, text, none⟩
/-- Pointwise. -/
def unkeyAll : List Element → List Element
  | [] => []
  | e :: es => e.unkey :: unkeyAll es
end

mutual
theorem unkey_facts {R : Rules} : ∀ e : Element, e.unkey.Unkeyed ∧ e.unkey.ids = e.ids ∧ (e.unkey.AttrsOk ↔ e.AttrsOk) ∧
    (e.unkey.Obeys R ↔ e.Obeys R) ∧ (∀ p, createFromScratch p e.unkey = createFromScratch p e) ∧
    (∀ d, e.unkey.ShownAs d ↔ e.ShownAs d)
  | ⟨id, name, attributes, listeners, children, text, key⟩ => by
    obtain ⟨h1, h2, h3, h4, h5, h6⟩ := unkeyAll_facts (R := R) children
    rw [Element.unkey, Element.Unkeyed, Element.ids, Element.ids, Element.AttrsOk, Element.AttrsOk, Element.Obeys, Element.Obeys,
      h2, h3, h4]
    refine ⟨⟨rfl, h1⟩, rfl, Iff.rfl, Iff.rfl, fun p => ?_, fun d => ?_⟩
    · rw [createFromScratch_eq, createFromScratch_eq, h5]
    · rw [Element.ShownAs, Element.ShownAs]
      simp only [h6]
theorem unkeyAll_facts {R : Rules} : ∀ es : List Element, UnkeyedAll (unkeyAll es) ∧ idsOf (unkeyAll es) = idsOf es ∧
    (AttrsOkAll (unkeyAll es) ↔ AttrsOkAll es) ∧ (ObeysAll R (unkeyAll es) ↔ ObeysAll R es) ∧
    (∀ p, createAll p (unkeyAll es) = createAll p es) ∧ (∀ ds, ShownAsAll (unkeyAll es) ds ↔ ShownAsAll es ds)
  | [] => ⟨trivial, rfl, Iff.rfl, Iff.rfl, fun _ => rfl, fun _ => Iff.rfl⟩
  | e :: es => by
    obtain ⟨a1, a2, a3, a4, a5, a6⟩ := unkey_facts (R := R) e
    obtain ⟨b1, b2, b3, b4, b5, b6⟩ := unkeyAll_facts (R := R) es
    rw [unkeyAll, UnkeyedAll, idsOf, idsOf, AttrsOkAll, AttrsOkAll, ObeysAll, ObeysAll, a2, b2, a3, b3, a4, b4]
    refine ⟨⟨a1, b1⟩, rfl, Iff.rfl, Iff.rfl, fun p => ?_, fun ds => ?_⟩
    · rw [createAll, createAll, a5, b5]
    · rw [ShownAsAll, ShownAsAll]
      simp only [a6, b6]
end

mutual
theorem same_shown : ∀ (a b : Element) (d : Dom), a.Same b → (a.ShownAs d ↔ b.ShownAs d)
  | ⟨id, name, attributes, listeners, children, text, key⟩, b, d, h => by
    cases b
    rw [Element.Same] at h
    simp only at h
    obtain ⟨rfl, rfl, h3, rfl, rfl, rfl, h7⟩ := h
    rw [Element.ShownAs, Element.ShownAs]
    simp only [h3, fun ds => same_shownAll children _ ds h7]
theorem same_shownAll : ∀ (as bs : List Element) (ds : List Dom), SameList as bs → (ShownAsAll as ds ↔ ShownAsAll bs ds)
  | [], bs, ds, h => by rw [SameList] at h; rw [h]
  | a :: as, bs, ds, h => by
    rw [SameList] at h
    obtain ⟨b, bs, rfl, h1, h2⟩ := h
    rw [ShownAsAll, ShownAsAll]
    constructor
    · rintro ⟨d, ds, rfl, h3, h4⟩
      exact ⟨d, ds, rfl, (same_shown a b d h1).1 h3, (same_shownAll as bs ds h2).1 h4⟩
    · rintro ⟨d, ds, rfl, h3, h4⟩
      exact ⟨d, ds, rfl, (same_shown a b d h1).2 h3, (same_shownAll as bs ds h2).2 h4⟩
end

/-- **C62 (what holds).** On any page without numeric ids, the first message is processed to its end without an exception and adds exactly one subtree to the body, and it
shows the view: for every tree with distinct ids whose names and values survive the trip (`clientRules`: no `+`,
valid lower-case names, no attribute `id`). -/
theorem C62_no_exception_partial (B : Browser) (page : List Dom) (hp : PageOk page) (e : Element) (hn : e.ids.Nodup)
    (ha : e.AttrsOk) (ho : e.Obeys (clientRules B)) :
    ∃ ops d, e.diff none = some ops ∧ clientAll B (serializeOps ops) page = some (page ++ [d]) ∧ e.ShownAs d := by
  obtain ⟨u1, u2, u3, u4, u5, u6⟩ := unkey_facts (R := clientRules B) e
  refine ⟨createFromScratch none e, ?_⟩
  have hid : e.unkey.id = e.id := by cases e; rfl
  have hname : e.unkey.name = e.name := by cases e; rfl
  obtain ⟨c', h1, h2⟩ := fill_runs (R := clientRules B) e.unkey [] (by simp [idsBefore]) (by rw [u2]; exact hn) (u3.2 ha) (u4.2 ho) u1
  rw [plug, plug, hid, hname] at h2
  obtain ⟨d, h3, h4⟩ := sim_runs_all h2 (page := page) hp (shown_blank e.id e.name)
  refine ⟨d, rfl, ?_, ?_⟩
  · rw [← u5 none, create_eq_fill, serializeOps, List.map_cons, clientAll]
    have ho' : (clientRules B).tag e.name := by cases e; rw [Element.Obeys] at ho; exact ho.1
    obtain ⟨t1, t2, t3⟩ := ho'
    have hop : clientOp B (Op.serialize ⟨e.unkey.id, .createTag e.unkey.name none⟩) page =
        some (page ++ [.elem e.name [("id", toString e.id)] [] []]) := by
      have hsp : splitPlus (e.name ++ "+" ++ "") = [e.name, ""] := splitPlus_two t1 (by simp)
      rw [hid, hname]
      simp only [clientOp, Op.serialize, hsp, t2, asciiLower_small t3, if_true]
    rw [hop]
    exact h3
  · exact (u6 d).1 ((same_shown e.unkey c' d h1).2 h4)

/-- **C62 (what holds)**, for what is shown in the end. -/
theorem C62_first_paint_partial (B : Browser) (page : List Dom) (hp : PageOk page) (e : Element) (hn : e.ids.Nodup)
    (ha : e.AttrsOk) (ho : e.Obeys (clientRules B)) :
    ∃ ops d, e.diff none = some ops ∧ clientMessage B (serializeOps ops) page = page ++ [d] ∧ e.ShownAs d := by
  obtain ⟨ops, d, h1, h2, h3⟩ := C62_no_exception_partial B page hp e hn ha ho
  exact ⟨ops, d, h1, clientAll_message h2, h3⟩

/-- a browser that accepts every name -/
def plainBrowser : Browser := ⟨fun _ => true, fun _ => true, fun _ cs => cloneAll cs, fun _ => rfl⟩

/-- non-vacuity: a `div` with a class, holding a paragraph with text and a button with a listener -/
example : ∃ d, clientMessage plainBrowser (serializeOps (createFromScratch none
      ⟨0, "div", [("class", "c")], [], [⟨1, "p", [], [], [], some "x", none⟩, ⟨2, "input", [], [⟨"inc", "click"⟩], [], none, none⟩], none, none⟩))
      [.text "  "] = [.text "  ", d] ∧
    (⟨0, "div", [("class", "c")], [], [⟨1, "p", [], [], [], some "x", none⟩, ⟨2, "input", [], [⟨"inc", "click"⟩], [], none, none⟩], none, none⟩ :
      Element).ShownAs d := by
  obtain ⟨ops, d, h1, h2, h3⟩ := C62_first_paint_partial plainBrowser [.text "  "] (fun n => by simp [domIds, Dom.ids])
    ⟨0, "div", [("class", "c")], [], [⟨1, "p", [], [], [], some "x", none⟩, ⟨2, "input", [], [⟨"inc", "click"⟩], [], none, none⟩], none, none⟩
    (by decide) (by simp [Element.AttrsOk, AttrsOkAll, Headers.Distinct])
    (by simp [Element.Obeys, ObeysAll, clientRules, plainBrowser]; decide +kernel)
  cases h1
  exact ⟨d, h2, h3⟩

/-- **C62 is false**: an attribute `id` given by the component makes the browser lose the element, and with it the rest of
the message: neither the text nor the second child is ever shown. -/
theorem C62_id_refuted (B : Browser) (hB : ∀ n, B.validTag n = true ∧ B.validAttr n = true) :
    ∃ e ops, e = (⟨0, "div", [], [], [⟨1, "p", [("id", "main")], [], [], some "x", none⟩, .blank 2 "p"], none, none⟩ : Element) ∧
      e.diff none = some ops ∧
      clientMessage B (serializeOps ops) [] = [.elem "div" [("id", "0")] [] [.elem "p" [("id", "main")] [] []]] ∧
      ¬ ∃ d, clientMessage B (serializeOps ops) [] = [d] ∧ e.ShownAs d := by
  have h1 := fun n => (hB n).1
  have h2 := fun n => (hB n).2
  have key : clientMessage B (serializeOps (createFromScratch none
      ⟨0, "div", [], [], [⟨1, "p", [("id", "main")], [], [], some "x", none⟩, .blank 2 "p"], none, none⟩)) [] =
      [.elem "div" [("id", "0")] [] [.elem "p" [("id", "main")] [] []]] := by
    have e1 : splitPlus "div+" = ["div", ""] := by decide +kernel
    have e2 : splitPlus "p+0" = ["p", "0"] := by decide +kernel
    have e3 : splitPlus "id+main" = ["id", "main"] := by decide +kernel
    have a1 : asciiLower "div" = "div" := by decide +kernel
    have a2 : asciiLower "p" = "p" := by decide +kernel
    have a3 : asciiLower "id" = "id" := by decide +kernel
    have d0 : Nat.repr 0 = "0" := by decide +kernel
    have d1 : Nat.repr 1 = "1" := by decide +kernel
    simp [createFromScratch, createAll, Element.generateListeners, serializeOps, Op.serialize, clientMessage, clientOp, e1, e2, e3, h1, h2,
      a1, a2, a3, d0, d1, withElement, replaceIn, replaceNode, Headers.get, Headers.insert, Element.blank]
  refine ⟨_, _, rfl, rfl, key, ?_⟩
  rintro ⟨d, hd, hs⟩
  have hd := key.symm.trans hd
  cases hd
  rw [Element.ShownAs] at hs
  obtain ⟨attrs, kids, h3, h4, h5⟩ := hs
  simp [textNodes] at h3
  rw [← h3.2] at h5
  simp only [ShownAsAll] at h5
  obtain ⟨d1, ds1, h6, -, d2, ds2, h7, -⟩ := h5
  rw [h7] at h6
  cases h6

/-! ## C63 -/

/-- What C63 claims of one pair of views: wherever the old view is shown (at the end of any page without numeric ids),
the changeset exists and processing it leaves the page as it is and shows the new view. -/
def Element.UpdatesInBrowser (B : Browser) (a b : Element) : Prop :=
  ∃ ops, a.diff (some b) = some ops ∧
    ∀ page d, PageOk page → a.ShownAs d → ∃ d', clientMessage B (serializeOps ops) (page ++ [d]) = page ++ [d'] ∧ b.ShownAs d'

/-- **C63 (what holds, general form).** If keys do not get in the way, no id is ambiguous at the moment it is used, names and
values survive the trip, and the changes are within what the client implements (`Safe (clientRules B)`), the browser
shows the new view. -/
theorem C63_update_partial (B : Browser) (a b : Element) (hk : KeyFit a b) (hs : Safe (clientRules B) [] a b) (hna : a.ids.Nodup)
    (hnb : b.ids.Nodup) (ha : a.AttrsOk) (hb : b.AttrsOk) (hoa : a.Obeys (clientRules B)) (hob : b.Obeys (clientRules B)) :
    a.UpdatesInBrowser B b := by
  obtain ⟨ops, ho⟩ := diff_fit_isSome b a hk
  obtain ⟨t, h1, h2⟩ := diff_runs (R := clientRules B) b a a [] [] ops ho (Element.Same.refl a) (by simp [idsBefore]) hs hna hnb hk ha hb hoa hob
  refine ⟨ops, ho, fun page d hp hd => ?_⟩
  obtain ⟨d', h3, h4⟩ := sim_runs h2 hp hd
  exact ⟨d', h3, (same_shown b t d' h1).2 h4⟩

/-- **C63 (what holds for components).** Two renders of the same shape, numbered from the same start as the component loop
does, with gentle differences: any change of attributes; text changed on elements without children; listeners
changed where nothing below has listeners; tags changed on elements with neither children nor text whose listeners, if they had any, change
as well (`Gentle`). -/
theorem C63_views_partial (B : Browser) (w w' : WrappedBodyNode) (g : Nat) (a b : Element) (ga gb : Nat)
    (ha : intoElement w g = some (a, ga)) (hb : intoElement w' g = some (b, gb)) (hw : w.AttrsOk) (hw' : w'.AttrsOk)
    (hoa : a.Obeys (clientRules B)) (hob : b.Obeys (clientRules B)) (hsh : SameShape a b) (hg : Gentle a b) :
    a.UpdatesInBrowser B b := by
  have ia := dense_increasing ha
  have ib := dense_increasing hb
  exact C63_update_partial B a b (keyFit_unkeyed b a (intoElement_unkeyed ha) (intoElement_unkeyed hb))
    (aligned_safe b a [] (aligned_of_dense b a g hsh ia.2 ib.2).1 ia.1 ib.1 (by simp) (fun _ => hg))
    (nodup_of_increasing ia.1) (nodup_of_increasing ib.1) (intoElement_attrsOk hw ha) (intoElement_attrsOk hw' hb) hoa hob

/-- a counter without `+` in its values -/
def labelledCounter (n : String) : WrappedBodyNode :=
  (BodyNode.wrap (.div [])).withChildren [BodyNode.wrap (.p ⟨[("class", n)], n⟩),
    (BodyNode.wrap (.input [("value", "more")])).listener ⟨"inc", "click"⟩]

/-- non-vacuity: a counter whose text and class change -/
example : ∃ a b, intoElement (labelledCounter "0") 0 = some (a, 3) ∧ intoElement (labelledCounter "1") 0 = some (b, 3) ∧
    a.UpdatesInBrowser plainBrowser b := by
  refine ⟨_, _, rfl, rfl, C63_views_partial plainBrowser (labelledCounter "0") (labelledCounter "1") 0 _ _ 3 3 rfl rfl ?_ ?_ ?_ ?_ ?_ ?_⟩
  · simp [labelledCounter, BodyNode.wrap, WrappedBodyNode.withChildren, WrappedBodyNode.listener, WrappedBodyNode.AttrsOk,
      WrappedAttrsOk, BodyNode.htmlAttrs, Headers.Distinct]
  · simp [labelledCounter, BodyNode.wrap, WrappedBodyNode.withChildren, WrappedBodyNode.listener, WrappedBodyNode.AttrsOk,
      WrappedAttrsOk, BodyNode.htmlAttrs, Headers.Distinct]
  · simp [Element.Obeys, ObeysAll, clientRules, plainBrowser, BodyNode.wrap]; decide +kernel
  · simp [Element.Obeys, ObeysAll, clientRules, plainBrowser, BodyNode.wrap]; decide +kernel
  · simp [SameShape, SameShapeAll]
  · simp [Gentle, GentleZip]

/-- Two renders of the same shape such that, after the changeset, the browser does not show the second. -/
def FailsInBrowser (B : Browser) (w w' : WrappedBodyNode) : Prop :=
  ∃ a b g ops d, intoElement w 0 = some (a, g) ∧ intoElement w' 0 = some (b, g) ∧ SameShape a b ∧ a.diff (some b) = some ops ∧
    a.ShownAs d ∧ ¬ ∃ d', clientMessage B (serializeOps ops) [d] = [d'] ∧ b.ShownAs d'

/-- **C63 is false**, in any browser that accepts the names, for successive renders of a component of the same shape and
without `+`: (1) when an element loses its text, the text stays; (2) when the text of an element with children changes, the
children disappear; (3) when a tag changes, the element's listeners disappear; (4) when an element's listeners
change, the listeners of everything below it disappear. -/
theorem C63_update_refuted (B : Browser) (hB : ∀ n, B.validTag n = true ∧ B.validAttr n = true) :
    FailsInBrowser B (BodyNode.wrap (.noscript "x")) (BodyNode.wrap (.div [])) ∧
    FailsInBrowser B ((BodyNode.wrap (.p ⟨[], "x"⟩)).child (BodyNode.wrap .br)) ((BodyNode.wrap (.p ⟨[], "y"⟩)).child (BodyNode.wrap .br)) ∧
    FailsInBrowser B ((BodyNode.wrap (.h1 ⟨[], "x"⟩)).listener ⟨"go", "click"⟩) ((BodyNode.wrap (.h2 ⟨[], "x"⟩)).listener ⟨"go", "click"⟩) ∧
    FailsInBrowser B
      (((BodyNode.wrap (.div [])).listener ⟨"out", "click"⟩).child ((BodyNode.wrap (.p ⟨[], "x"⟩)).listener ⟨"go", "click"⟩))
      ((BodyNode.wrap (.div [])).child ((BodyNode.wrap (.p ⟨[], "x"⟩)).listener ⟨"go", "click"⟩)) := by
  have h1 := fun n => (hB n).1
  have h2 := fun n => (hB n).2
  have d0 : Nat.repr 0 = "0" := by decide +kernel
  have d1 : Nat.repr 1 = "1" := by decide +kernel
  have sw : ∀ (k : String) (x y : Option String), (if "id" = k then x else y) = if k = "id" then x else y := by
    intro k x y; simp only [eq_comm]
  refine ⟨⟨⟨0, "div", [], [], [], some "x", none⟩, ⟨0, "div", [], [], [], none, none⟩, 1, [⟨0, .removeText⟩],
      .elem "div" [("id", "0")] [] [.text "x"], rfl, rfl, ?_, rfl, ?_, ?_⟩,
    ⟨⟨0, "p", [], [], [.blank 1 "br"], some "x", none⟩, ⟨0, "p", [], [], [.blank 1 "br"], some "y", none⟩, 2, [⟨0, .setText "y"⟩],
      .elem "p" [("id", "0")] [] [.text "x", .elem "br" [("id", "1")] [] []], rfl, rfl, ?_, rfl, ?_, ?_⟩,
    ⟨⟨0, "h1", [], [⟨"go", "click"⟩], [], some "x", none⟩, ⟨0, "h2", [], [⟨"go", "click"⟩], [], some "x", none⟩, 1, [⟨0, .setTagName "h2"⟩],
      .elem "h1" [("id", "0")] [⟨"go", "click"⟩] [.text "x"], rfl, rfl, ?_, rfl, ?_, ?_⟩,
    ⟨⟨0, "div", [], [⟨"out", "click"⟩], [⟨1, "p", [], [⟨"go", "click"⟩], [], some "x", none⟩], none, none⟩,
      ⟨0, "div", [], [], [⟨1, "p", [], [⟨"go", "click"⟩], [], some "x", none⟩], none, none⟩, 2, [⟨0, .removeListeners⟩],
      .elem "div" [("id", "0")] [⟨"out", "click"⟩] [.elem "p" [("id", "1")] [⟨"go", "click"⟩] [.text "x"]], rfl, rfl, ?_, rfl, ?_, ?_⟩⟩
  all_goals first
    | (simp [SameShape, SameShapeAll, Element.blank]; done)
    | (simp [Element.ShownAs, ShownAsAll, textNodes, Headers.get, d0, sw, Element.blank]; done)
    | (rw [Element.ShownAs]
       refine ⟨_, [_], rfl, by simp [Headers.get, d0, sw], ?_⟩
       rw [ShownAsAll]
       refine ⟨_, [], rfl, ?_, rfl⟩
       simp [Element.ShownAs, ShownAsAll, textNodes, Headers.get, d1, sw, Element.blank]; done)
    | skip
  · rintro ⟨d', hm, hs⟩
    have : clientMessage B (serializeOps [⟨0, .removeText⟩]) [.elem "div" [("id", "0")] [] [.text "x"]] =
        [.elem "div" [("id", "0")] [] [.text "x"]] := by
      simp [serializeOps, Op.serialize, clientMessage, clientOp]
    cases this.symm.trans hm
    simp [Element.ShownAs, ShownAsAll, textNodes] at hs
  · rintro ⟨d', hm, hs⟩
    have : clientMessage B (serializeOps [⟨0, .setText "y"⟩]) [.elem "p" [("id", "0")] [] [.text "x", .elem "br" [("id", "1")] [] []]] =
        [.elem "p" [("id", "0")] [] [.text "y"]] := by
      simp [serializeOps, Op.serialize, clientMessage, clientOp, withElement, replaceIn, replaceNode, Headers.get, d0, textContent]
    cases this.symm.trans hm
    simp [Element.ShownAs, ShownAsAll, textNodes] at hs
    obtain ⟨attrs, kids, ⟨-, h3⟩, -, d, h4, -⟩ := hs
    rw [h3] at h4
    cases h4
  · rintro ⟨d', hm, hs⟩
    have : clientMessage B (serializeOps [⟨0, .setTagName "h2"⟩]) [.elem "h1" [("id", "0")] [⟨"go", "click"⟩] [.text "x"]] =
        [.elem (asciiLower "h2") [("id", "0")] [] (B.reparse (asciiLower "h2") [.text "x"])] := by
      simp [serializeOps, Op.serialize, clientMessage, clientOp, withElement, replaceIn, replaceNode, Headers.get, d0, h1]
    cases this.symm.trans hm
    simp [Element.ShownAs, ShownAsAll, textNodes] at hs
  · rintro ⟨d', hm, hs⟩
    have : clientMessage B (serializeOps [⟨0, .removeListeners⟩])
        [.elem "div" [("id", "0")] [⟨"out", "click"⟩] [.elem "p" [("id", "1")] [⟨"go", "click"⟩] [.text "x"]]] =
        [.elem "div" [("id", "0")] [] [.elem "p" [("id", "1")] [] [.text "x"]]] := by
      simp [serializeOps, Op.serialize, clientMessage, clientOp, withElement, replaceIn, replaceNode, Headers.get, d0, Dom.cloneNode, cloneAll]
    cases this.symm.trans hm
    simp [Element.ShownAs, ShownAsAll, textNodes] at hs
    obtain ⟨attrs, kids, ⟨-, h3⟩, -, d, h4, attrs', h5, -⟩ := hs
    rw [← h3, h5] at h4
    cases h4

end Puck
