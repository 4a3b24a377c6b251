import Verif.Props.Client
/-!
# Exactly which first paints show the component's view (C62)
-/
namespace Puck

/-- Names are accepted or refused whatever the case of their letters (DOM standard: the characters allowed in names include the ASCII letters of both cases). -/
structure Browser.IgnoresCase (B : Browser) : Prop where
  tag : ∀ n, B.validTag (asciiLower n) = B.validTag n
  attr : ∀ k, B.validAttr (asciiLower k) = B.validAttr k

/-- `clientRules`, but for the attribute `id`, of which nothing is said. -/
def paintRules (B : Browser) : Rules where
  tag n := '+' ∉ n.toList ∧ B.validTag n = true ∧ NoCapitals n
  attr k v := k = "id" ∨ '+' ∉ k.toList ∧ '+' ∉ v.toList ∧ B.validAttr k = true ∧ NoCapitals k
  lis l := '+' ∉ l.listenerName.toList ∧ '+' ∉ l.jsEvent.toList
  strict := True

theorem toLower_facts : ∀ {c : Char}, (c ≠ '+' → c.toLower ≠ '+') ∧ c.toLower ∉ "ABCDEFGHIJKLMNOPQRSTUVWXYZ".toList := by
  intro c
  unfold Char.toLower
  split
  · rename_i hc
    have h1 : 65 ≤ c.val.toNat ∧ c.val.toNat ≤ 90 := by
      have := hc
      simp [UInt32.le_iff_toNat_le] at this
      exact this
    have h0 : ∀ n ∈ List.range' 65 26, (Char.ofNat n).toLower ≠ '+' ∧ (Char.ofNat n).toLower ∉ "ABCDEFGHIJKLMNOPQRSTUVWXYZ".toList := by decide +kernel
    have h2 := h0 c.val.toNat (by rw [List.mem_range'_1]; omega)
    rw [show Char.ofNat c.val.toNat = c from Char.ofNat_toNat c] at h2
    unfold Char.toLower at h2
    rw [dif_pos hc] at h2
    exact ⟨fun _ => h2.1, h2.2⟩
  · rename_i hc
    refine ⟨fun h => h, fun hm => hc ?_⟩
    have h0 : ∀ x ∈ "ABCDEFGHIJKLMNOPQRSTUVWXYZ".toList, 65 ≤ x.val ∧ x.val ≤ 90 := by decide +kernel
    exact h0 c hm

theorem asciiLower_noCapitals (s : String) : NoCapitals (asciiLower s) := by
  intro c hc
  unfold asciiLower at hc
  rw [String.toList_ofList] at hc
  obtain ⟨x, -, rfl⟩ := List.mem_map.1 hc
  exact toLower_facts.2

theorem asciiLower_noPlus {s : String} (h : '+' ∉ s.toList) : '+' ∉ (asciiLower s).toList := by
  intro hc
  unfold asciiLower at hc
  rw [String.toList_ofList] at hc
  obtain ⟨x, hx, he⟩ := List.mem_map.1 hc
  exact toLower_facts.1 (fun e => h (e ▸ hx)) he

theorem splitPlusAux_pieces (l : List Char) : ∀ w ∈ splitPlusAux l, '+' ∉ w := by
  induction l with
  | nil => simp [splitPlusAux]
  | cons c l ih =>
    rw [splitPlusAux]
    split
    · simp
    · rename_i w ws hw
      rw [hw] at ih
      by_cases hc : c = '+'
      · rw [if_pos hc]
        intro x hx
        rcases List.mem_cons.1 hx with rfl | hx
        · simp
        · exact ih x hx
      · rw [if_neg hc]
        intro x hx
        rcases List.mem_cons.1 hx with rfl | hx
        · simp only [List.mem_cons, not_or]
          exact ⟨fun e => hc e.symm, ih w List.mem_cons_self⟩
        · exact ih x (List.mem_cons_of_mem _ hx)

theorem splitPlus_pieces (s w : String) (h : w ∈ splitPlus s) : '+' ∉ w.toList := by
  unfold splitPlus at h
  obtain ⟨x, hx, rfl⟩ := List.mem_map.1 h
  rw [String.toList_ofList]
  exact splitPlusAux_pieces _ x hx

mutual
/-- all names and values of a node may be those of a painted one -/
def Dom.Painted (R : Rules) : Dom → Prop
  | .text _ => True
  | .elem tag attrs ls cs => R.tag tag ∧ (∀ p ∈ attrs, R.attr p.1 p.2) ∧ (∀ l ∈ ls, R.lis l) ∧ PaintedAll R cs
/-- siblings -/
def PaintedAll (R : Rules) : List Dom → Prop
  | [] => True
  | d :: ds => d.Painted R ∧ PaintedAll R ds
end

theorem paintedAll_append {R : Rules} : ∀ {as bs : List Dom}, PaintedAll R (as ++ bs) ↔ PaintedAll R as ∧ PaintedAll R bs
  | [], bs => by simp [PaintedAll]
  | a :: as, bs => by
    rw [List.cons_append, PaintedAll, PaintedAll, paintedAll_append, and_assoc]

mutual
theorem painted_node {R : Rules} {sid : String} {f : Dom → Option (List Dom)} (hf : ∀ d ds, d.Painted R → f d = some ds → PaintedAll R ds) :
    ∀ (d : Dom) (ds : List Dom), d.Painted R → replaceNode sid f d = some (some ds) → PaintedAll R ds
  | .text _, ds, _, h => by rw [replaceNode] at h; cases h
  | .elem tag attrs ls cs, ds, hd, h => by
    rw [replaceNode] at h
    split at h
    · exact hf _ _ hd (Option.some.inj h)
    · cases hr : replaceIn sid f cs with
      | none => rw [hr] at h; cases h
      | some r =>
        rw [hr] at h
        cases r with
        | none => simp at h
        | some cs' =>
          simp only [Option.some.injEq] at h
          rw [Dom.Painted] at hd
          have := painted_in hf cs cs' hd.2.2.2 hr
          rw [← h, PaintedAll, Dom.Painted, PaintedAll]
          exact ⟨⟨hd.1, hd.2.1, hd.2.2.1, this⟩, trivial⟩
theorem painted_in {R : Rules} {sid : String} {f : Dom → Option (List Dom)} (hf : ∀ d ds, d.Painted R → f d = some ds → PaintedAll R ds) :
    ∀ (cs ds : List Dom), PaintedAll R cs → replaceIn sid f cs = some (some ds) → PaintedAll R ds
  | [], ds, _, h => by rw [replaceIn] at h; cases h
  | c :: cs, ds, hd, h => by
    rw [PaintedAll] at hd
    rw [replaceIn] at h
    cases hr : replaceNode sid f c with
    | some r =>
      rw [hr] at h
      cases r with
      | none => simp at h
      | some c' =>
        simp only [Option.some.injEq] at h
        rw [← h, paintedAll_append]
        exact ⟨painted_node hf c c' hd.1 hr, hd.2⟩
    | none =>
      rw [hr] at h
      simp only at h
      cases hr2 : replaceIn sid f cs with
      | none => rw [hr2] at h; cases h
      | some r =>
        rw [hr2] at h
        cases r with
        | none => simp at h
        | some cs' =>
          simp only [Option.some.injEq] at h
          rw [← h, PaintedAll]
          exact ⟨hd.1, painted_in hf cs cs' hd.2 hr2⟩
end

/-- the page itself, which has no ids, stays as it is -/
theorem painted_with {R : Rules} {sid : String} {f : Dom → Option (List Dom)} {page new body : List Dom} (hp : domIds page = [])
    (hf : ∀ d ds, d.Painted R → f d = some ds → PaintedAll R ds) (hn : PaintedAll R new) (h : withElement sid f (page ++ new) = some body) :
    ∃ new', body = page ++ new' ∧ PaintedAll R new' := by
  unfold withElement at h
  rw [replaceIn_page f page new (by rw [hp]; simp)] at h
  cases hr : replaceIn sid f new with
  | none => rw [hr] at h; cases h
  | some r =>
    rw [hr] at h
    cases r with
    | none => simp at h
    | some ds =>
      simp only [Option.map_some, Option.some.injEq] at h
      exact ⟨ds, h.symm, painted_in hf new ds hn hr⟩

/-- the instructions of a first paint -/
def Op.Paints (op : Op) : Prop :=
  match op.instruction with
  | .createTag _ _ | .setAttribute _ _ | .attachListener _ _ | .setText _ => True
  | _ => False

mutual
theorem create_paints : ∀ (e : Element) (p : Option Nat), ∀ op ∈ createFromScratch p e, op.Paints
  | ⟨id, name, attributes, listeners, children, text, key⟩, p => by
    intro op h
    rw [createFromScratch_eq] at h
    simp only [List.mem_append, List.mem_singleton, List.mem_map] at h
    rcases h with (((rfl | ⟨x, -, rfl⟩) | ⟨x, -, rfl⟩) | h) | h
    · simp [Op.Paints]
    · simp [Op.Paints]
    · simp [Op.Paints]
    · cases text with
      | none => simp [textOps] at h
      | some v => simp [textOps] at h; subst h; simp [Op.Paints]
    · exact createAll_paints children (some id) op h
theorem createAll_paints : ∀ (cs : List Element) (p : Option Nat), ∀ op ∈ createAll p cs, op.Paints
  | [], _ => by simp [createAll]
  | c :: cs, p => by
    intro op h
    rw [createAll, List.mem_append] at h
    rcases h with h | h
    · exact create_paints c p op h
    · exact createAll_paints cs p op h
end

theorem insert_mem {h : Headers} {k v : String} {p : String × String} (hp : p ∈ h.insert k v) : p = (k, v) ∨ p ∈ h := by
  induction h with
  | nil => simp [Headers.insert] at hp; exact Or.inl hp
  | cons q h ih =>
    rw [Headers.insert] at hp
    split at hp
    · rcases List.mem_cons.1 hp with hp | hp
      · exact Or.inl hp
      · exact Or.inr (List.mem_cons_of_mem _ hp)
    · rcases List.mem_cons.1 hp with rfl | hp
      · exact Or.inr List.mem_cons_self
      · rcases ih hp with h' | h'
        · exact Or.inl h'
        · exact Or.inr (List.mem_cons_of_mem _ h')

theorem painted_blank {B : Browser} (hB : B.IgnoresCase) {name el : String} (h1 : '+' ∉ name.toList) (h2 : B.validTag name = true) :
    (Dom.elem (asciiLower name) [("id", el)] [] []).Painted (paintRules B) := by
  rw [Dom.Painted]
  refine ⟨⟨asciiLower_noPlus h1, by rw [hB.tag]; exact h2, asciiLower_noCapitals _⟩, ?_, by simp, by simp [PaintedAll]⟩
  intro p hp
  rw [List.mem_singleton] at hp
  subst hp
  exact Or.inl rfl

theorem painted_text {R : Rules} (s : String) : PaintedAll R (textContent s) := by
  unfold textContent
  split <;> simp [PaintedAll, Dom.Painted]

/-- what an instruction of a first paint leaves behind -/
theorem painted_op {B : Browser} (hB : B.IgnoresCase) {page : List Dom} (hp : domIds page = []) {op : Op} (ho : op.Paints) {new body : List Dom}
    (hn : PaintedAll (paintRules B) new) (h : clientOp B op.serialize (page ++ new) = some body) :
    ∃ new', body = page ++ new' ∧ PaintedAll (paintRules B) new' := by
  obtain ⟨id, i⟩ := op
  cases i <;> simp only [Op.Paints] at ho
  case createTag name parent =>
    simp only [clientOp, Op.serialize, if_true] at h
    split at h
    · cases h
    · rename_i nm rest hsp
      have hnm := splitPlus_pieces _ nm (by rw [hsp]; exact List.mem_cons_self)
      by_cases hv : B.validTag nm = true
      · simp only [hv, if_true] at h
        have hb := painted_blank hB (el := toString id) hnm hv
        have top : ∃ new', page ++ new ++ [Dom.elem (asciiLower nm) [("id", toString id)] [] []] = page ++ new' ∧ PaintedAll (paintRules B) new' :=
          ⟨new ++ [Dom.elem (asciiLower nm) [("id", toString id)] [] []], by simp, paintedAll_append.2 ⟨hn, by rw [PaintedAll, PaintedAll]; exact ⟨hb, trivial⟩⟩⟩
        split at h
        · cases h; exact top
        · split at h
          · cases h; exact top
          · refine painted_with hp ?_ hn h
            intro d ds hd he
            cases d with
            | text s => simp at he
            | elem tag attrs ls cs =>
              simp only [Option.some.injEq] at he
              rw [← he, PaintedAll, Dom.Painted, paintedAll_append, PaintedAll, PaintedAll, PaintedAll]
              rw [Dom.Painted] at hd
              exact ⟨⟨hd.1, hd.2.1, hd.2.2.1, hd.2.2.2, hb, trivial⟩, trivial⟩
      · simp only [hv] at h
        cases h
  case setAttribute k v =>
    simp only [clientOp, Op.serialize] at h
    rw [if_neg (by decide), if_pos trivial] at h
    split at h
    · cases h
    · rename_i key rest hsp
      refine painted_with hp ?_ hn h
      intro d ds hd he
      cases d with
      | text s => simp at he
      | elem tag attrs ls cs =>
        by_cases hv : B.validAttr key = true
        · simp only [hv, if_true, Option.some.injEq] at he
          rw [Dom.Painted] at hd
          rw [← he, PaintedAll, Dom.Painted, PaintedAll]
          refine ⟨⟨hd.1, ?_, hd.2.2.1, hd.2.2.2⟩, trivial⟩
          intro p hp
          rcases insert_mem hp with rfl | hp
          · refine Or.inr ⟨asciiLower_noPlus (splitPlus_pieces _ key (by rw [hsp]; exact List.mem_cons_self)), ?_, by rw [hB.attr]; exact hv,
              asciiLower_noCapitals _⟩
            cases rest with
            | nil =>
              show '+' ∉ ("undefined" : String).toList
              decide +kernel
            | cons w ws => exact splitPlus_pieces _ w (by rw [hsp]; simp)
          · exact hd.2.1 p hp
        · simp only [hv] at he
          cases he
  case attachListener name on =>
    simp only [clientOp, Op.serialize] at h
    rw [if_neg (by decide), if_neg (by decide), if_neg (by decide), if_neg (by decide), if_neg (by decide), if_pos trivial] at h
    split at h
    · cases h
    · rename_i nm rest hsp
      refine painted_with hp ?_ hn h
      intro d ds hd he
      cases d with
      | text s => simp at he
      | elem tag attrs ls cs =>
        simp only [Option.some.injEq] at he
        rw [Dom.Painted] at hd
        rw [← he, PaintedAll, Dom.Painted, PaintedAll]
        refine ⟨⟨hd.1, hd.2.1, ?_, hd.2.2.2⟩, trivial⟩
        intro l hl
        rcases List.mem_append.1 hl with hl | hl
        · exact hd.2.2.1 l hl
        · rw [List.mem_singleton] at hl
          subst hl
          refine ⟨splitPlus_pieces _ nm (by rw [hsp]; exact List.mem_cons_self), ?_⟩
          cases rest with
          | nil => show '+' ∉ ("undefined" : String).toList; decide +kernel
          | cons w ws => exact splitPlus_pieces _ w (by rw [hsp]; simp)
  case setText v =>
    simp only [clientOp, Op.serialize] at h
    rw [if_neg (by decide), if_neg (by decide), if_neg (by decide), if_neg (by decide), if_pos trivial] at h
    refine painted_with hp ?_ hn h
    intro d ds hd he
    cases d with
    | text s => simp at he
    | elem tag attrs ls cs =>
      simp only [Option.some.injEq] at he
      rw [Dom.Painted] at hd
      rw [← he, PaintedAll, Dom.Painted, PaintedAll]
      exact ⟨⟨hd.1, hd.2.1, hd.2.2.1, painted_text _⟩, trivial⟩

theorem painted_message {B : Browser} (hB : B.IgnoresCase) {page : List Dom} (hp : domIds page = []) : ∀ (ops : List Op) (new : List Dom),
    (∀ op ∈ ops, op.Paints) → PaintedAll (paintRules B) new →
    ∃ new', clientMessage B (serializeOps ops) (page ++ new) = page ++ new' ∧ PaintedAll (paintRules B) new'
  | [], new, _, hn => ⟨new, rfl, hn⟩
  | op :: ops, new, ho, hn => by
    rw [serializeOps, List.map_cons, clientMessage]
    cases h : clientOp B op.serialize (page ++ new) with
    | none => exact ⟨new, rfl, hn⟩
    | some body =>
      obtain ⟨new', rfl, hn'⟩ := painted_op hB hp (ho op List.mem_cons_self) hn h
      exact painted_message hB hp ops new' (fun o h => ho o (List.mem_cons_of_mem _ h)) hn'

theorem get_mem {h : Headers} {k v : String} (hg : h.get k = some v) : (k, v) ∈ h := by
  unfold Headers.get at hg
  cases hf : h.find? fun p => p.1 == k with
  | none => rw [hf] at hg; cases hg
  | some p =>
    rw [hf] at hg
    simp only [Option.map_some, Option.some.injEq] at hg
    have h1 := List.find?_some hf
    have h2 := List.mem_of_find?_eq_some hf
    simp only [beq_iff_eq] at h1
    rw [← h1, ← hg]
    exact h2

mutual
theorem obeys_of_painted {B : Browser} : ∀ (e : Element) (d : Dom), e.AttrsOk → e.ShownAs d → d.Painted (paintRules B) → e.Obeys (paintRules B)
  | ⟨id, name, attributes, listeners, children, text, key⟩, d, ha, hs, hd => by
    rw [Element.ShownAs] at hs
    obtain ⟨attrs, kids, rfl, hg, hk⟩ := hs
    rw [Dom.Painted, paintedAll_append] at hd
    rw [Element.AttrsOk] at ha
    rw [Element.Obeys]
    refine ⟨hd.1, ?_, hd.2.2.1, obeysAll_of_painted children kids ha.2 hk hd.2.2.2.2⟩
    intro p hp
    by_cases hid : p.1 = "id"
    · exact Or.inl hid
    · have h1 := hg p.1
      rw [if_neg hid, (Headers.get_eq_some ha.1).2 (show (p.1, p.2) ∈ attributes from hp)] at h1
      exact hd.2.1 _ (get_mem h1)
theorem obeysAll_of_painted {B : Browser} : ∀ (es : List Element) (ds : List Dom), AttrsOkAll es → ShownAsAll es ds → PaintedAll (paintRules B) ds →
    ObeysAll (paintRules B) es
  | [], _, _, _, _ => by simp [ObeysAll]
  | e :: es, ds, ha, hs, hd => by
    rw [ShownAsAll] at hs
    obtain ⟨d, ds', rfl, h1, h2⟩ := hs
    rw [PaintedAll] at hd
    rw [AttrsOkAll] at ha
    rw [ObeysAll]
    exact ⟨obeys_of_painted e d ha.1 h1 hd.1, obeysAll_of_painted es ds' ha.2 h2 hd.2⟩
end

mutual
/-- No element of the view has an attribute called `id`. -/
def Element.NoIdAttr : Element → Prop
  | ⟨_, _, attributes, _, children, _, _⟩ => (∀ p ∈ attributes, p.1 ≠ "id") ∧ NoIdAttrAll children
/-- No element of these. -/
def NoIdAttrAll : List Element → Prop
  | [] => True
  | c :: cs => c.NoIdAttr ∧ NoIdAttrAll cs
end

mutual
theorem obeys_paint {B : Browser} : ∀ e : Element, e.Obeys (clientRules B) ↔ e.NoIdAttr ∧ e.Obeys (paintRules B)
  | ⟨id, name, attributes, listeners, children, text, key⟩ => by
    rw [Element.Obeys, Element.NoIdAttr, Element.Obeys, obeysAll_paint children]
    constructor
    · rintro ⟨h1, h2, h3, h4, h5⟩
      exact ⟨⟨fun p hp => (h2 p hp).2.2.2.2, h4⟩, h1, fun p hp => Or.inr ⟨(h2 p hp).1, (h2 p hp).2.1, (h2 p hp).2.2.1, (h2 p hp).2.2.2.1⟩, h3, h5⟩
    · rintro ⟨⟨h1, h2⟩, h3, h4, h5, h6⟩
      refine ⟨h3, fun p hp => ?_, h5, h2, h6⟩
      rcases h4 p hp with h | h
      · exact absurd h (h1 p hp)
      · exact ⟨h.1, h.2.1, h.2.2.1, h.2.2.2, h1 p hp⟩
theorem obeysAll_paint {B : Browser} : ∀ es : List Element, ObeysAll (clientRules B) es ↔ NoIdAttrAll es ∧ ObeysAll (paintRules B) es
  | [] => by simp [ObeysAll, NoIdAttrAll]
  | e :: es => by
    rw [ObeysAll, NoIdAttrAll, ObeysAll, obeys_paint e, obeysAll_paint es]
    constructor
    · rintro ⟨⟨a, b⟩, c, d⟩; exact ⟨⟨a, c⟩, b, d⟩
    · rintro ⟨⟨a, c⟩, b, d⟩; exact ⟨⟨a, b⟩, c, d⟩
end

/-- The browser, given the first message of a component with this view, adds exactly one subtree to the page, and it shows the view. -/
def Element.PaintedBy (B : Browser) (page : List Dom) (e : Element) : Prop :=
  ∃ ops d, e.diff none = some ops ∧ clientMessage B (serializeOps ops) page = page ++ [d] ∧ e.ShownAs d

/-- **C62 (exactly when it holds).** On a page without ids: a view that the first message shows has only names and values without `+`, tags and attribute names
that the browser accepts and that are in lower case (but for attributes called `id`); and of the views with distinct ids and without an attribute `id`,
the first message shows exactly those. -/
theorem C62_exact_partial (B : Browser) (hB : B.IgnoresCase) (page : List Dom) (hp : domIds page = []) (e : Element) (ha : e.AttrsOk) :
    (e.PaintedBy B page → e.Obeys (paintRules B)) ∧
    (e.ids.Nodup → e.NoIdAttr → (e.PaintedBy B page ↔ e.Obeys (clientRules B))) := by
  have h1 : e.PaintedBy B page → e.Obeys (paintRules B) := by
    rintro ⟨ops, d, h1, h2, h3⟩
    cases h1
    obtain ⟨new, h4, h5⟩ := painted_message hB hp (createFromScratch none e) [] (create_paints e none) (by simp [PaintedAll])
    rw [List.append_nil, h2] at h4
    have := List.append_cancel_left h4
    subst this
    rw [PaintedAll] at h5
    exact obeys_of_painted e d ha h3 h5.1
  refine ⟨h1, fun hn hi => ⟨fun h => (obeys_paint e).2 ⟨hi, h1 h⟩, fun h => ?_⟩⟩
  exact C62_first_paint_partial B page (fun n => by rw [hp]; simp) e hn ha h

/-- non-vacuity: a link whose target has a `+` in it is not shown, one without is -/
example : (⟨0, "a", [("href", "/?q=a")], [], [], some "x", none⟩ : Element).PaintedBy plainBrowser [.text " "] ∧
    ¬ (⟨0, "a", [("href", "/?q=a+b")], [], [], some "x", none⟩ : Element).PaintedBy plainBrowser [.text " "] := by
  have hB : plainBrowser.IgnoresCase := ⟨fun _ => rfl, fun _ => rfl⟩
  have hp : domIds [.text " "] = [] := by simp [domIds, Dom.ids]
  constructor
  · refine ((C62_exact_partial plainBrowser hB _ hp _ ?_).2 (by decide) ?_).2 ?_
    · simp [Element.AttrsOk, AttrsOkAll, Headers.Distinct]
    · simp [Element.NoIdAttr, NoIdAttrAll]
    · simp [Element.Obeys, ObeysAll, clientRules, plainBrowser]; decide +kernel
  · intro h
    have := (C62_exact_partial plainBrowser hB _ hp _ (by simp [Element.AttrsOk, AttrsOkAll, Headers.Distinct])).1 h
    rw [Element.Obeys] at this
    have := this.2.1 ("href", "/?q=a+b") List.mem_cons_self
    rcases this with h | h
    · simp at h
    · exact absurd h.2.1 (by decide +kernel)

end Puck
