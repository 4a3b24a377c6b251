import Verif.Props.LostChange
import Verif.Props.InStep
/-!
# C161: exactly what is wrong on the page after a change was lost, where only texts change
-/
namespace Puck

mutual
/-- The tree with the texts of its childless elements given by their ids. -/
def Element.withTexts (f : Nat → String) : Element → Element
  | ⟨id, name, attributes, listeners, children, text, key⟩ =>
    ⟨id, name, attributes, listeners, withTextsAll f children, if children.isEmpty then some (f id) else text, key⟩
/-- Pointwise. -/
def withTextsAll (f : Nat → String) : List Element → List Element
  | [] => []
  | e :: es => e.withTexts f :: withTextsAll f es
end

theorem withTexts_id (f : Nat → String) (e : Element) : (e.withTexts f).id = e.id := by cases e; rfl
theorem withTextsAll_nil {f : Nat → String} {es : List Element} : withTextsAll f es = [] ↔ es = [] := by
  cases es <;> simp [withTextsAll]

mutual
theorem withTexts_ids (f : Nat → String) : ∀ e : Element, (e.withTexts f).ids = e.ids
  | ⟨id, name, attributes, listeners, children, text, key⟩ => by
    rw [Element.withTexts, Element.ids, Element.ids, withTextsAll_ids f children]
theorem withTextsAll_ids (f : Nat → String) : ∀ es : List Element, idsOf (withTextsAll f es) = idsOf es
  | [] => rfl
  | e :: es => by rw [withTextsAll, idsOf, idsOf, withTexts_ids f e, withTextsAll_ids f es]
end

mutual
theorem withTexts_attrs (f : Nat → String) : ∀ e : Element, e.AttrsOk → (e.withTexts f).AttrsOk
  | ⟨id, name, attributes, listeners, children, text, key⟩, h => by
    rw [Element.AttrsOk] at h
    rw [Element.withTexts, Element.AttrsOk]
    exact ⟨h.1, withTextsAll_attrs f children h.2⟩
theorem withTextsAll_attrs (f : Nat → String) : ∀ es : List Element, AttrsOkAll es → AttrsOkAll (withTextsAll f es)
  | [], h => h
  | e :: es, h => by
    rw [AttrsOkAll] at h
    rw [withTextsAll, AttrsOkAll]
    exact ⟨withTexts_attrs f e h.1, withTextsAll_attrs f es h.2⟩
end

mutual
theorem withTexts_obeys (R : Rules) (f : Nat → String) : ∀ e : Element, e.Obeys R → (e.withTexts f).Obeys R
  | ⟨id, name, attributes, listeners, children, text, key⟩, h => by
    rw [Element.Obeys] at h
    rw [Element.withTexts, Element.Obeys]
    exact ⟨h.1, h.2.1, h.2.2.1, withTextsAll_obeys R f children h.2.2.2⟩
theorem withTextsAll_obeys (R : Rules) (f : Nat → String) : ∀ es : List Element, ObeysAll R es → ObeysAll R (withTextsAll f es)
  | [], h => h
  | e :: es, h => by
    rw [ObeysAll] at h
    rw [withTextsAll, ObeysAll]
    exact ⟨withTexts_obeys R f e h.1, withTextsAll_obeys R f es h.2⟩
end

mutual
theorem withTexts_unkeyed (f : Nat → String) : ∀ e : Element, e.Unkeyed → (e.withTexts f).Unkeyed
  | ⟨id, name, attributes, listeners, children, text, key⟩, h => by
    rw [Element.Unkeyed] at h
    rw [Element.withTexts, Element.Unkeyed]
    exact ⟨h.1, withTextsAll_unkeyed f children h.2⟩
theorem withTextsAll_unkeyed (f : Nat → String) : ∀ es : List Element, UnkeyedAll es → UnkeyedAll (withTextsAll f es)
  | [], h => h
  | e :: es, h => by
    rw [UnkeyedAll] at h
    rw [withTextsAll, UnkeyedAll]
    exact ⟨withTexts_unkeyed f e h.1, withTextsAll_unkeyed f es h.2⟩
end

mutual
theorem withTexts_kin (f g : Nat → String) : ∀ e : Element, Kin (e.withTexts f) (e.withTexts g)
  | ⟨id, name, attributes, listeners, children, text, key⟩ => by
    rw [Element.withTexts, Element.withTexts, Kin]
    exact ⟨rfl, rfl, withTextsAll_kin f g children⟩
theorem withTextsAll_kin (f g : Nat → String) : ∀ es : List Element, KinAll (withTextsAll f es) (withTextsAll g es)
  | [] => by rw [withTextsAll, withTextsAll, KinAll]
  | e :: es => by
    rw [withTextsAll, withTextsAll, KinAll]
    exact ⟨withTexts_kin f g e, withTextsAll_kin f g es⟩
end

/-- What is shown of `g` once the changes from `f₂` to `f₃` have been carried out. -/
def overlay (g f₂ f₃ : Nat → String) (i : Nat) : String := if f₂ i = f₃ i then g i else f₃ i

theorem runs_text_any {R : Rules} {C : List TFrame} {a b x : Element} (hx : x.id = a.id) (hb : a.id ∉ idsBefore C) (v : String) (hv : b.text = some v)
    (h : a.text ≠ b.text → x.children = []) :
    Runs R (a.diffText b) (plug C x) (plug C { x with text := if a.text = b.text then x.text else b.text }) := by
  unfold Element.diffText
  split
  · cases x; exact .nil _
  · rename_i hne
    rw [hv]
    refine .one ?_ ?_
    · intro s y hy
      rw [firstWith_plug hb hx] at hy
      cases hy
      exact h hne
    · show findAndMutate a.id _ _ = _
      rw [findAndMutate_plug hb hx]; rfl

mutual
theorem runs_overlay {R : Rules} (g f₂ f₃ : Nat → String) : ∀ (e : Element) (C : List TFrame), (∀ i ∈ e.ids, i ∉ idsBefore C) → e.ids.Nodup → e.AttrsOk →
    Runs R ((pairs (e.withTexts f₂) (e.withTexts f₃)).flatMap nodeOps) (plug C (e.withTexts g)) (plug C (e.withTexts (overlay g f₂ f₃)))
  | ⟨id, name, attrs, lis, ch, text, key⟩, C, hC, hn, ha => by
    have hb : id ∉ idsBefore C := hC id (by rw [Element.ids]; exact List.mem_cons_self)
    have hn' := Element.nodup_children hn
    rw [Element.AttrsOk] at ha
    have hk : Runs R ((pairsAll (withTextsAll f₂ ch) (withTextsAll f₃ ch)).flatMap nodeOps)
        (plug C ⟨id, name, attrs, lis, [] ++ withTextsAll g ch, if ch.isEmpty then some (overlay g f₂ f₃ id) else text, key⟩)
        (plug C ⟨id, name, attrs, lis, [] ++ withTextsAll (overlay g f₂ f₃) ch, if ch.isEmpty then some (overlay g f₂ f₃ id) else text, key⟩) :=
      runsAll_overlay g f₂ f₃ ch [] ⟨id, name, attrs, lis, [], if ch.isEmpty then some (overlay g f₂ f₃ id) else text, key⟩ C (by
        intro i hi
        refine ⟨?_, by simp [idsOf], hC i (by rw [Element.ids]; exact List.mem_cons_of_mem _ hi)⟩
        intro e
        exact hn'.2 (e ▸ hi)) hn'.1 ha.2
    have h1 : (Element.mk id name attrs lis (withTextsAll f₂ ch) (if ch.isEmpty then some (f₂ id) else text) key).diffAttributes
        ⟨id, name, attrs, lis, withTextsAll f₃ ch, if ch.isEmpty then some (f₃ id) else text, key⟩ = [] := by
      rw [diffAttributes_eq, if_pos]
      exact (Headers.same_iff ha.1 ha.1).2 fun _ => rfl
    have h2 : (Element.mk id name attrs lis (withTextsAll f₂ ch) (if ch.isEmpty then some (f₂ id) else text) key).diffListeners
        ⟨id, name, attrs, lis, withTextsAll f₃ ch, if ch.isEmpty then some (f₃ id) else text, key⟩ = [] := by
      unfold Element.diffListeners; exact if_pos rfl
    have h3 : Runs R ((Element.mk id name attrs lis (withTextsAll f₂ ch) (if ch.isEmpty then some (f₂ id) else text) key).diffText
        ⟨id, name, attrs, lis, withTextsAll f₃ ch, if ch.isEmpty then some (f₃ id) else text, key⟩)
        (plug C ⟨id, name, attrs, lis, withTextsAll g ch, if ch.isEmpty then some (g id) else text, key⟩)
        (plug C ⟨id, name, attrs, lis, withTextsAll g ch, if ch.isEmpty then some (overlay g f₂ f₃ id) else text, key⟩) := by
      cases ch with
      | nil =>
        have := runs_text_any (R := R) (C := C) (a := ⟨id, name, attrs, lis, [], some (f₂ id), key⟩) (b := ⟨id, name, attrs, lis, [], some (f₃ id), key⟩)
          (x := ⟨id, name, attrs, lis, [], some (g id), key⟩) rfl hb (f₃ id) rfl (fun _ => rfl)
        simp only [withTextsAll, List.isEmpty_nil, if_true, Option.some.injEq] at this ⊢
        unfold overlay
        split at this <;> rename_i he
        · rw [if_pos he]; exact this
        · rw [if_neg he]; exact this
      | cons c cs =>
        unfold Element.diffText
        simp only [List.isEmpty_cons, Bool.false_eq_true, if_false, if_true]
        exact .nil _
    rw [Element.withTexts, Element.withTexts, Element.withTexts, Element.withTexts, pairs, List.flatMap_cons, nodeOps]
    simp only [h1, h2, List.nil_append, List.append_nil] at hk ⊢
    exact h3.append hk
theorem runsAll_overlay {R : Rules} (g f₂ f₃ : Nat → String) : ∀ (es done : List Element) (n : Element) (C : List TFrame),
    (∀ i ∈ idsOf es, i ≠ n.id ∧ i ∉ idsOf done ∧ i ∉ idsBefore C) → (idsOf es).Nodup → AttrsOkAll es →
    Runs R ((pairsAll (withTextsAll f₂ es) (withTextsAll f₃ es)).flatMap nodeOps) (plug C { n with children := done ++ withTextsAll g es })
      (plug C { n with children := done ++ withTextsAll (overlay g f₂ f₃) es })
  | [], done, n, C, _, _, _ => by
    simp only [withTextsAll, pairsAll]
    exact .nil _
  | e :: es, done, n, C, hC, hn, ha => by
    rw [AttrsOkAll] at ha
    rw [idsOf] at hC hn
    rw [List.nodup_append] at hn
    have r1 := runs_overlay (R := R) g f₂ f₃ e (holeOf n done (withTextsAll g es) :: C)
      (fun i hi => (idsBefore_holeOf _ _ _ _ _).2 (hC i (List.mem_append_left _ hi))) hn.1 ha.1
    have r2 := runsAll_overlay (R := R) g f₂ f₃ es (done ++ [e.withTexts (overlay g f₂ f₃)]) n C (by
      intro i hi
      have := hC i (List.mem_append_right _ hi)
      refine ⟨this.1, ?_, this.2.2⟩
      rw [idsOf_append, List.mem_append, not_or]
      refine ⟨this.2.1, ?_⟩
      rw [idsOf, idsOf, List.append_nil, withTexts_ids]
      intro hc
      exact hn.2.2 i hc i hi rfl) hn.2.1 ha.2
    rw [plug_holeOf, plug_holeOf] at r1
    simp only [List.append_assoc, List.cons_append, List.nil_append] at r2
    simp only [withTextsAll, pairsAll, List.flatMap_append]
    exact r1.append r2
end

mutual
/-- One page shows only one choice of texts. -/
theorem texts_unique (f g : Nat → String) : ∀ (e : Element) (d : Dom), (e.withTexts f).ShownAs d → (e.withTexts g).ShownAs d →
    ∀ x ∈ e.nodes, x.children = [] → f x.id = g x.id
  | ⟨id, name, attrs, lis, ch, text, key⟩, d, h, h', x, hx, hc => by
    rw [Element.withTexts, Element.ShownAs] at h h'
    obtain ⟨at1, k1, rfl, -, h1⟩ := h
    obtain ⟨at2, k2, e2, -, h2⟩ := h'
    injection e2 with _ _ _ e2
    cases ch with
    | nil =>
      rw [withTextsAll, ShownAsAll] at h1 h2
      subst h1; subst h2
      rw [nodes_eq] at hx
      simp only [nodesAll, List.mem_cons, List.not_mem_nil, or_false] at hx
      subst hx
      simp only [List.isEmpty_nil, if_true, List.append_nil, textNodes] at e2
      split at e2 <;> split at e2 <;> simp_all
    | cons c cs =>
      simp only [List.isEmpty_cons, Bool.false_eq_true, if_false] at e2
      have e2 := List.append_cancel_left e2
      subst e2
      rw [nodes_eq] at hx
      rcases List.mem_cons.1 hx with rfl | hx
      · cases hc
      · exact textsAll_unique f g (c :: cs) k1 h1 h2 x hx hc
theorem textsAll_unique (f g : Nat → String) : ∀ (es : List Element) (ds : List Dom), ShownAsAll (withTextsAll f es) ds → ShownAsAll (withTextsAll g es) ds →
    ∀ x ∈ nodesAll es, x.children = [] → f x.id = g x.id
  | [], ds, _, _, x, hx, _ => by cases hx
  | e :: es, ds, h, h', x, hx, hc => by
    rw [withTextsAll, ShownAsAll] at h h'
    obtain ⟨d, ds1, rfl, h1, h2⟩ := h
    obtain ⟨d', ds2, e', h3, h4⟩ := h'
    cases e'
    rw [nodesAll, List.mem_append] at hx
    rcases hx with hx | hx
    · exact texts_unique f g e d h1 h3 x hx hc
    · exact textsAll_unique f g es ds1 h2 h4 x hx hc
end

mutual
theorem withTexts_congr (f g : Nat → String) : ∀ (e : Element), (∀ x ∈ e.nodes, x.children = [] → f x.id = g x.id) → e.withTexts f = e.withTexts g
  | ⟨id, name, attrs, lis, ch, text, key⟩, h => by
    rw [Element.withTexts, Element.withTexts]
    have h' : withTextsAll f ch = withTextsAll g ch := withTextsAll_congr f g ch fun x hx hc => h x (by rw [nodes_eq]; exact List.mem_cons_of_mem _ hx) hc
    rw [h']
    cases ch with
    | nil => rw [h ⟨id, name, attrs, lis, [], text, key⟩ (by rw [nodes_eq]; exact List.mem_cons_self) rfl]
    | cons c cs => rfl
theorem withTextsAll_congr (f g : Nat → String) : ∀ (es : List Element), (∀ x ∈ nodesAll es, x.children = [] → f x.id = g x.id) → withTextsAll f es = withTextsAll g es
  | [], _ => rfl
  | e :: es, h => by
    rw [withTextsAll, withTextsAll, withTexts_congr f g e fun x hx => h x (by rw [nodesAll]; exact List.mem_append_left _ hx),
      withTextsAll_congr f g es fun x hx => h x (by rw [nodesAll]; exact List.mem_append_right _ hx)]
end

namespace Json
open Rfc6455

variable {D I S E P : Type}

/-- Specification: the text with id `i` stays as it is in each of these updates. -/
def Untouched (C : Component D I S E P) (p : P) (f : S → Nat → String) (i : Nat) : S → List I → Prop
  | _, [] => True
  | s, a :: is => f (C.update s a p).1 i = f s i ∧ Untouched C p f i (C.update s a p).1 is

theorem untouched_end {C : Component D I S E P} {p : P} {f : S → Nat → String} {i : Nat} (is : List I) (s : S) (h : Untouched C p f i s is) :
    f (C.after p s is) i = f s i := by
  induction is generalizing s with
  | nil => rfl
  | cons a is ih => exact (ih _ h.2).trans h.1

/-- some updates, starting from a page that shows other texts than the server thinks -/
theorem texts_follow {B : Browser} {C : Component D I S E P} {p : P} {e : Element} {f : S → Nat → String} (hr : ∀ s, (C.render s).1 = e.withTexts (f s))
    (hn : e.ids.Nodup) (ha : e.AttrsOk) (hu : e.Unkeyed) {page : List Dom} (hp : PageOk page) (is : List I) :
    ∀ (s : S) (g : Nat → String) (d : Dom), (e.withTexts g).ShownAs d → ∃ os g' d', expectedOuts C p s is = some os ∧
      clientMessages B (sends os) (page ++ [d]) = page ++ [d'] ∧ (e.withTexts g').ShownAs d' ∧
      ∀ i, (Untouched C p f i s is → g' i = g i) ∧ (¬ Untouched C p f i s is → g' i = f (C.after p s is) i) := by
  induction is with
  | nil => intro s g d hd; exact ⟨[], g, d, rfl, rfl, hd, fun i => ⟨fun _ => rfl, fun h => absurd trivial h⟩⟩
  | cons a is ih =>
    intro s g d hd
    have h1 : (C.render s).1.diff (some (C.render (C.update s a p).1).1) = some ((pairs (e.withTexts (f s)) (e.withTexts (f (C.update s a p).1))).flatMap nodeOps) := by
      rw [hr, hr]
      exact diff_kin _ _ (withTexts_kin _ _ e) (withTexts_unkeyed _ e hu) (withTexts_unkeyed _ e hu)
    have h2 := runs_overlay (R := clientRules B) g (f s) (f (C.update s a p).1) e [] (by simp [idsBefore]) hn ha
    obtain ⟨d1, h3, h4⟩ := sim_runs h2 hp hd
    obtain ⟨os, g', d', h5, h6, h7, h8⟩ := ih (C.update s a p).1 _ d1 h4
    refine ⟨_, g', d', by simp only [expectedOuts, h1, h5]; rfl, ?_, h7, fun i => ?_⟩
    · rw [sends_append, sends_append, sends_effects]
      simp only [sends, List.nil_append, List.cons_append, clientMessages, h3, h6]
    · obtain ⟨h8, h9⟩ := h8 i
      refine ⟨fun h => ?_, fun h => ?_⟩
      · rw [h8 h.2, overlay, if_pos h.1.symm]
      · by_cases hl : Untouched C p f i (C.update s a p).1 is
        · have hne : f s i ≠ f (C.update s a p).1 i := fun e => h ⟨e.symm, hl⟩
          rw [h8 hl, overlay, if_neg hne]
          exact (untouched_end is _ hl).symm
        · exact h9 hl

/-- **C161 (exactly what is wrong afterwards, where only texts change).** Take a component whose view is always the same but for the texts of elements without children.  Let the changesets of `ms₂` be
lost and those before and after be sent.  The page shows the component's current render if and only if every text that the lost changes left
different from what it was has been changed again since. -/
theorem C161_texts_iff_partial (B : Browser) (C : Component D I S E P) (p : P) (data : D) (e : Element) (f : S → Nat → String)
    (hr : ∀ s, (C.render s).1 = e.withTexts (f s)) (hn : e.ids.Nodup) (ha : e.AttrsOk) (ho : e.Obeys (clientRules B)) (hu : e.Unkeyed)
    (page : List Dom) (hp : PageOk page) (ms₁ ms₂ ms₃ : List (Mail I P)) (is₁ is₂ is₃ : List I) (s₁ s₂ s₃ : S)
    (j₁ : Session C fromStr p (C.new data p).1 ms₁ is₁ s₁) (j₂ : Session C fromStr p s₁ ms₂ is₂ s₂) (j₃ : Session C fromStr p s₂ ms₃ is₃ s₃) :
    ∃ st₁ st₂ st₃ os₁ os₂ os₃,
      loopRun C fromStr true (.waiting data) (.whoAmI p :: ms₁) = (.running st₁, os₁) ∧
      loopRun C fromStr true (.running st₁) ms₂ = (.running st₂, os₂) ∧
      loopRun C fromStr true (.running st₂) ms₃ = (.running st₃, os₃) ∧ st₃.comp = s₃ ∧
      ∀ sched, Loses (messagesOf (os₁ ++ os₂ ++ os₃)) (messagesOf os₁ ++ messagesOf os₃) sched →
        ((∃ d, pageFrom B ((WSink.mk [] sched).sendAll (messagesOf (os₁ ++ os₂ ++ os₃))).2.out page = page ++ [d] ∧ (C.render s₃).1.ShownAs d) ↔
          ∀ x ∈ e.nodes, x.children = [] → f s₁ x.id ≠ f s₂ x.id → ¬ Untouched C p f x.id s₂ is₃) := by
  obtain ⟨ops, d₀, h1, h2, h3⟩ := C62_first_paint_partial B page hp (C.render (C.new data p).1).1 (by rw [hr, withTexts_ids]; exact hn)
    (by rw [hr]; exact withTexts_attrs _ e ha) (by rw [hr]; exact withTexts_obeys _ _ e ho)
  rw [hr] at h3
  obtain ⟨os₁, g₁, d₁, a1, a2, a3, a4⟩ := texts_follow (B := B) (p := p) hr hn ha hu hp is₁ _ _ d₀ h3
  have hg₁ : g₁ = f s₁ := by
    funext i
    rw [session_end j₁]
    by_cases h : Untouched C p f i (C.new data p).1 is₁
    · rw [(a4 i).1 h, untouched_end is₁ _ h]
    · exact (a4 i).2 h
  subst hg₁
  obtain ⟨os₂, _, _, b1, _⟩ := texts_follow (B := B) (p := p) hr hn ha hu hp is₂ s₁ _ d₁ a3
  obtain ⟨os₃, g, d₃, c1, c2, c3, c4⟩ := texts_follow (B := B) (p := p) hr hn ha hu hp is₃ s₂ _ d₁ a3
  have r₁ := C66_trace C fromStr data p ms₁ is₁ s₁ os₁ j₁ a1
  have r₂ : loopRun C fromStr true (.running ⟨p, s₁, (C.render s₁).1, (C.render s₁).2⟩) ms₂ = (.running ⟨p, s₂, (C.render s₂).1, (C.render s₂).2⟩, os₂) :=
    run_session (C := C) (st := ⟨p, s₁, (C.render s₁).1, (C.render s₁).2⟩) rfl j₂ b1
  have r₃ : loopRun C fromStr true (.running ⟨p, s₂, (C.render s₂).1, (C.render s₂).2⟩) ms₃ = (.running ⟨p, s₃, (C.render s₃).1, (C.render s₃).2⟩, os₃) :=
    run_session (C := C) (st := ⟨p, s₂, (C.render s₂).1, (C.render s₂).2⟩) rfl j₃ c1
  refine ⟨_, _, _, _, _, _, r₁, r₂, r₃, rfl, fun sched hl => ?_⟩
  have hpage : pageFrom B ((WSink.mk [] sched).sendAll (messagesOf (opening C data p ++ os₁ ++ os₂ ++ os₃))).2.out page = page ++ [d₃] := by
    rw [messagesOf_eq (opening C data p ++ os₁), messagesOf_eq os₃, ← List.map_append] at hl
    rw [C161_page_partial B page _ _ sched hl, clientMessages_append]
    cases h1
    have : clientMessages B (sends (opening C data p ++ os₁)) page = page ++ [d₁] := by
      rw [sends_append, opening, sends_append, sends_effects]
      simp only [sends, List.nil_append, List.cons_append, clientMessages, h2, a2]
    rw [this, c2]
  rw [hpage]
  constructor
  · rintro ⟨d, e1, h⟩ x hx hc hne hun
    have e1 := List.append_cancel_left e1
    cases e1
    rw [hr] at h
    have := texts_unique _ _ e d₃ c3 h x hx hc
    rw [(c4 x.id).1 hun, session_end j₃, untouched_end is₃ _ hun] at this
    exact hne this
  · intro h
    refine ⟨d₃, rfl, ?_⟩
    rw [hr, ← withTexts_congr g (f s₃) e fun x hx hc => ?_]
    · exact c3
    · by_cases hun : Untouched C p f x.id s₂ is₃
      · rw [(c4 x.id).1 hun, session_end j₃, untouched_end is₃ _ hun]
        exact Classical.byContradiction fun hne => h x hx hc hne hun
      · rw [(c4 x.id).2 hun, session_end j₃]

/-- non-vacuity: `steps` is such a component -/
def stepsLayout : Element := ⟨0, "div", [], [], [⟨1, "p", [], [], [], none, none⟩, ⟨2, "p", [], [], [], none, none⟩], none, none⟩

/-- the first label is turned on and the message lost, the second one is turned on and the message sent: not made up for -/
example (page : List Dom) (hp : PageOk page) : ∃ st₁ st₂ st₃ os₁ os₂ os₃,
    loopRun steps fromStr true (.waiting ()) [.whoAmI ()] = (.running st₁, os₁) ∧
    loopRun steps fromStr true (.running st₁) [.input ()] = (.running st₂, os₂) ∧
    loopRun steps fromStr true (.running st₂) [.input ()] = (.running st₃, os₃) ∧ st₃.comp = 2 ∧
    ∀ sched, Loses (messagesOf (os₁ ++ os₂ ++ os₃)) (messagesOf os₁ ++ messagesOf os₃) sched →
      ¬ ∃ d, pageFrom plainBrowser ((WSink.mk [] sched).sendAll (messagesOf (os₁ ++ os₂ ++ os₃))).2.out page = page ++ [d] ∧ (steps.render 2).1.ShownAs d := by
  obtain ⟨st₁, st₂, st₃, os₁, os₂, os₃, h1, h2, h3, h4, h5⟩ := C161_texts_iff_partial plainBrowser steps () () stepsLayout
    (fun s i => if i = 1 then (if s = 0 then "a" else "b") else if s < 2 then "a" else "b")
    (fun s => by simp [steps, stepsLayout, Element.withTexts, withTextsAll]) (by decide) (by simp [stepsLayout, Element.AttrsOk, AttrsOkAll, Headers.Distinct])
    (by simp [stepsLayout, Element.Obeys, ObeysAll, clientRules, plainBrowser]; decide +kernel) (by simp [stepsLayout, Element.Unkeyed, UnkeyedAll])
    page hp [] [.input ()] [.input ()] [] [()] [()] 0 1 2 (.nil _) (.take (Or.inl rfl) (.nil _)) (.take (Or.inl rfl) (.nil _))
  refine ⟨st₁, st₂, st₃, os₁, os₂, os₃, h1, h2, h3, h4, fun sched hl hd => ?_⟩
  refine (h5 sched hl).1 hd ⟨1, "p", [], [], [], none, none⟩ (by simp [stepsLayout, Element.nodes, nodesAll]) rfl (by simp) ?_
  simp [Untouched, steps]

end Json
end Puck
