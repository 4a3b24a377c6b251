import Verif.Lemmas.PaintMake
import Verif.Spec.InStep
/-!
# Changing one element in the page
-/
namespace Puck.Shape.Paint

/-- with its listeners, or without any (`σ`: an ancestor has lost its listeners, so everything below it has) -/
def sh (σ : Bool) (t : Tr Lab) : Tr Lab := if σ then hush t else t
/-- a forest -/
def shAll (σ : Bool) (ts : List (Tr Lab)) : List (Tr Lab) := if σ then hushAll ts else ts
/-- a label -/
def shLab (σ : Bool) (l : Lab) : Lab := if σ then l.mute else l

theorem sh_node (σ : Bool) (i : Nat) (l : Lab) (ks : List (Tr Lab)) : sh σ (.node i l ks) = .node i (shLab σ l) (shAll σ ks) := by
  cases σ
  · rfl
  · simp [sh, shLab, shAll, hush]

theorem sh_tr (σ : Bool) (e : Element) : sh σ (tr e) = .node e.id (shLab σ (labOf e)) (shAll σ (trAll e.children)) := by
  rw [tr_eq, sh_node]

theorem sh_ids (σ : Bool) (t : Tr Lab) : (sh σ t).ids = t.ids := by
  cases σ
  · rfl
  · simp [sh, hush_ids]

theorem sh_id (σ : Bool) (t : Tr Lab) : (sh σ t).id = t.id := by
  cases σ
  · rfl
  · simp [sh, hush_id]

theorem shAll_ids (σ : Bool) (ts : List (Tr Lab)) : idsF (shAll σ ts) = idsF ts := by
  cases σ
  · rfl
  · simp [shAll, hushAll_ids]

theorem shAll_nil (σ : Bool) : shAll σ [] = [] := by cases σ <;> rfl

theorem shAll_cons (σ : Bool) (t : Tr Lab) (ts : List (Tr Lab)) : shAll σ (t :: ts) = sh σ t :: shAll σ ts := by
  cases σ
  · rfl
  · simp [shAll, sh, hushAll]

theorem shAll_append (σ : Bool) (t ts : List (Tr Lab)) : shAll σ (t ++ ts) = shAll σ t ++ shAll σ ts := by
  cases σ
  · rfl
  · simp [shAll, hushAll_append]

theorem hushAll_shAll (σ : Bool) (ts : List (Tr Lab)) : hushAll (shAll σ ts) = shAll true ts := by
  cases σ
  · rfl
  · simp [shAll, hushAll_hushAll]

theorem hushAll_map (ts : List (Tr Lab)) : hushAll ts = ts.map hush := by
  induction ts with
  | nil => rfl
  | cons t ts ih => rw [hushAll, ih]; rfl

theorem trAll_map (es : List Element) : trAll es = es.map tr := by
  induction es with
  | nil => rfl
  | cons t ts ih => rw [trAll, ih]; rfl

theorem shAll_take (σ : Bool) (es : List Element) (n : Nat) : shAll σ (trAll (es.take n)) = (shAll σ (trAll es)).take n := by
  cases σ
  · simp [shAll, trAll_map]
  · simp [shAll, trAll_map, hushAll_map]

theorem shAll_drop (σ : Bool) (es : List Element) (n : Nat) : shAll σ (trAll (es.drop n)) = (shAll σ (trAll es)).drop n := by
  cases σ
  · simp [shAll, trAll_map]
  · simp [shAll, trAll_map, hushAll_map]

theorem mem_shAll {σ : Bool} {es : List Element} {x : Tr Lab} (h : x ∈ shAll σ (trAll es)) : ∃ e ∈ es, x.id = e.id := by
  cases σ
  · rw [shAll, trAll_map] at h
    simp only [Bool.false_eq_true, if_false] at h
    obtain ⟨e, he, rfl⟩ := List.mem_map.1 h
    exact ⟨e, he, tr_id e⟩
  · rw [shAll, trAll_map, hushAll_map] at h
    simp only [if_true, List.map_map] at h
    obtain ⟨e, he, rfl⟩ := List.mem_map.1 h
    exact ⟨e, he, (hush_id _).trans (tr_id e)⟩

/-! ## The parts -/

theorem same_get {a b : Headers} (ha : a.Distinct) (hb : b.Distinct) (h : Headers.same a b = true) : a.get = b.get := by
  funext k; exact (Headers.same_iff ha hb).1 h k

theorem attrs_run {a b : Element} (ha : a.attributes.Distinct) (hb : b.attributes.Distinct) {C : List (Fr Lab)} (hp : a.id ∉ preIds C) {l : Lab}
    {ks : List (Tr Lab)} (hl : l.attrs = a.attributes.get) :
    bsteps ((a.diffAttributes b).map toB) (plug C (.node a.id l ks)) = some (plug C (.node a.id { l with attrs := b.attributes.get } ks)) := by
  rw [diffAttributes_eq]
  split
  · rename_i h
    rw [List.map_nil, bsteps, ← same_get ha hb h, ← hl]
  · rw [List.map_append, bsteps_append, removes_plug hp, Option.bind_some, sets_plug hp, hl, foldl_remF, foldl_insF]
    congr 4
    funext k
    exact attr_update ha hb (fun _ => rfl) k

/-- the text is replaced, and everything in the element with it -/
def Wiped (a b : Element) : Prop := a.text ≠ b.text ∧ b.text ≠ none

instance (a b : Element) : Decidable (Wiped a b) := by unfold Wiped; infer_instance

/-- the text afterwards -/
def textAfter (a b : Element) : String := if Wiped a b then b.text.getD "" else a.text.getD ""

theorem text_run {a b : Element} {C : List (Fr Lab)} (hp : a.id ∉ preIds C) {l : Lab} {ks : List (Tr Lab)} (hl : l.text = a.text.getD "") :
    bsteps ((a.diffText b).map toB) (plug C (.node a.id l ks)) =
      some (plug C (.node a.id { l with text := textAfter a b } (if Wiped a b then [] else ks))) := by
  unfold Element.diffText
  by_cases h : a.text = b.text
  · have hw : ¬ Wiped a b := fun w => w.1 h
    rw [if_pos h, if_neg hw, textAfter, if_neg hw, List.map_nil, bsteps, ← hl]
  · rw [if_neg h]
    cases hb : b.text with
    | none =>
      have hw : ¬ Wiped a b := fun w => w.2 hb
      rw [if_neg hw, textAfter, if_neg hw, ← hl]
      rfl
    | some s =>
      have hw : Wiped a b := ⟨h, by rw [hb]; simp⟩
      simp only [List.map_cons, List.map_nil, bsteps, toB, wipe_plug hp]
      rw [if_pos hw, textAfter, if_pos hw, hb]
      rfl

/-- Whether the listeners of the element end up on it. -/
def Attached (a b : Element) : Prop := b.id = a.id ∨ a.listeners = b.listeners ∨ b.listeners = []

/-- the listeners afterwards -/
def lisAfter (σ : Bool) (a b : Element) : List ListenerRef :=
  if a.listeners = b.listeners then (if σ then [] else a.listeners) else if b.id = a.id then b.listeners else []

/-- whether everything below has lost its listeners -/
def under (σ : Bool) (a b : Element) : Bool := σ || decide (a.listeners ≠ b.listeners)

theorem lis_run {σ : Bool} {a b : Element} {C : List (Fr Lab)} (hle : b.id ≤ a.id) (hp : a.id ∉ preIds C) (hleft : ∀ i ∈ leftIds C, i < b.id)
    (hpost : ∀ i ∈ postIds C, a.id < i) {l : Lab} {ks : List (Tr Lab)} (hl : l.lis = if σ then [] else a.listeners) (hk : ∀ i ∈ idsF ks, a.id < i) :
    (Attached a b → bsteps ((a.diffListeners b).map toB) (plug C (.node a.id l (shAll σ ks))) =
      some (plug C (.node a.id { l with lis := lisAfter σ a b } (shAll (under σ a b) ks)))) ∧
    ∀ m, bsteps ((a.diffListeners b).map toB) (plug C (.node a.id l (shAll σ ks))) = some m → ∃ C', SameCtx C C' ∧
      m = plug C' (.node a.id { l with lis := lisAfter σ a b } (shAll (under σ a b) ks)) := by
  unfold Element.diffListeners lisAfter under
  by_cases h : a.listeners = b.listeners
  · simp only [if_pos h]
    have hrun : bsteps ([].map toB) (plug C (.node a.id l (shAll σ ks))) =
        some (plug C (.node a.id { l with lis := if σ then [] else a.listeners } (shAll (σ || decide (a.listeners ≠ b.listeners)) ks))) := by
      rw [List.map_nil, bsteps, ← hl]
      simp [h]
    refine ⟨fun _ => hrun, fun m hm => ⟨C, .refl _, ?_⟩⟩
    rw [hrun] at hm
    cases hm; rfl
  · simp only [if_neg h]
    have hb : (σ || decide (a.listeners ≠ b.listeners)) = true := by simp [h]
    rw [hb, List.map_cons, bsteps, toB]
    simp only [mute_plug hp, hushAll_shAll]
    unfold Element.generateListeners
    by_cases hid : b.id = a.id
    · rw [if_pos hid, hid]
      have hrun := attaches_plug (C := C) hp (shAll true ks) b.listeners l.mute
      rw [show l.mute.lis ++ b.listeners = b.listeners from rfl] at hrun
      refine ⟨fun _ => hrun, fun m hm => ⟨C, .refl _, ?_⟩⟩
      rw [hrun] at hm
      cases hm; rfl
    · rw [if_neg hid]
      refine ⟨?_, ?_⟩
      · rintro (h' | h' | h')
        · exact absurd h' hid
        · exact absurd h' h
        · rw [h']; rfl
      · intro m hm
        obtain ⟨C', h1, h2⟩ := attaches_away (x := .node a.id l.mute (shAll true ks)) (by
          rw [Tr.ids, List.mem_cons, not_or, shAll_ids]
          exact ⟨hid, fun hi => by have := hk _ hi; omega⟩) b.listeners (fun hi => Nat.lt_irrefl _ (hleft _ hi))
          (fun hi => by have := hpost _ hi; omega) hm
        exact ⟨C', h1, h2⟩

/-- whether the listeners of the element and of everything below are gone once its tag is right -/
def hushed (σ : Bool) (a b : Element) : Bool := σ || decide (a.name ≠ b.name)

/-- whether everything below has lost its listeners after all the element's own changes -/
def below' (σ : Bool) (a b : Element) : Bool := under (hushed σ a b) a b

/-- The label ends up right. -/
def OwnGood (σ : Bool) (a b : Element) : Prop :=
  (b.id < a.id → a.name = b.name) ∧ (b.id < a.id → a.listeners = b.listeners ∨ b.listeners = []) ∧
    (hushed σ a b = true → a.listeners = b.listeners → b.listeners = []) ∧
    (a.text = b.text ∨ b.text ≠ none ∨ a.text = some "")

/-- what is left in the element -/
def kept (τ : Bool) (a b : Element) : List (Tr Lab) := if Wiped a b then [] else shAll τ (trAll a.children)

/-- the own changes after the tag -/
def restOps (a b : Element) : List Op := a.diffAttributes b ++ a.diffText b ++ a.diffListeners b

theorem ownOps_eq (a b : Element) : ownOps a b = a.diffName b ++ restOps a b := by
  unfold ownOps restOps; simp only [List.append_assoc]

theorem own_rest {σ : Bool} {a b : Element} {C : List (Fr Lab)} {tg : String} (ha : a.attributes.Distinct) (hb : b.attributes.Distinct)
    (hle : b.id ≤ a.id) (hp : a.id ∉ preIds C) (hleft : ∀ i ∈ leftIds C, i < b.id)
    (hpost : ∀ i ∈ postIds C, a.id < i) (hk : ∀ i ∈ idsOf a.children, a.id < i) :
    (Attached a b → bsteps ((restOps a b).map toB) (plug C (.node a.id { shLab σ (labOf a) with tag := tg } (shAll σ (trAll a.children)))) =
      some (plug C (.node a.id ⟨tg, b.attributes.get, lisAfter σ a b, textAfter a b⟩ (kept (under σ a b) a b)))) ∧
    ∀ m, bsteps ((restOps a b).map toB) (plug C (.node a.id { shLab σ (labOf a) with tag := tg } (shAll σ (trAll a.children)))) = some m → ∃ C', SameCtx C C' ∧
      m = plug C' (.node a.id ⟨tg, b.attributes.get, lisAfter σ a b, textAfter a b⟩ (kept (under σ a b) a b)) := by
  unfold restOps
  rw [List.map_append, List.map_append, bsteps_append, bsteps_append,
    attrs_run ha hb hp (by cases σ <;> rfl), Option.bind_some, text_run hp (by cases σ <;> rfl), Option.bind_some]
  have hks : (if Wiped a b then [] else shAll σ (trAll a.children)) = shAll σ (if Wiped a b then [] else trAll a.children) := by
    split
    · rw [shAll_nil]
    · rfl
  rw [hks]
  have h := lis_run (σ := σ) (ks := if Wiped a b then [] else trAll a.children) (l := ⟨tg, b.attributes.get, (shLab σ (labOf a)).lis, textAfter a b⟩)
    hle hp hleft hpost (by cases σ <;> rfl) (by
      intro i hi
      split at hi
      · rw [idsF] at hi; cases hi
      · rw [trAll_ids] at hi; exact hk i hi)
  have hks' : shAll (under σ a b) (if Wiped a b then [] else trAll a.children) = kept (under σ a b) a b := by
    unfold kept
    split
    · rw [shAll_nil]
    · rfl
  rw [hks'] at h
  have hlab : ({ shLab σ (labOf a) with tag := tg, attrs := b.attributes.get, text := textAfter a b } : Lab) =
      ⟨tg, b.attributes.get, (shLab σ (labOf a)).lis, textAfter a b⟩ := by cases σ <;> rfl
  rw [hlab]
  exact h

/-- The tag. -/
theorem name_run {σ : Bool} {a b : Element} {C : List (Fr Lab)} (hle : b.id ≤ a.id) (hp : a.id ∉ preIds C) (hleft : ∀ i ∈ leftIds C, i < b.id)
    (hpost : ∀ i ∈ postIds C, a.id < i) (hk : ∀ i ∈ idsOf a.children, a.id < i) :
    ((b.id < a.id → a.name = b.name) → bsteps ((a.diffName b).map toB) (plug C (sh σ (tr a))) =
      some (plug C (.node a.id { shLab (hushed σ a b) (labOf a) with tag := b.name } (shAll (hushed σ a b) (trAll a.children))))) ∧
    (¬ (b.id < a.id → a.name = b.name) → ∀ m, bsteps ((a.diffName b).map toB) (plug C (sh σ (tr a))) = some m → ∃ C', SameCtx C C' ∧
      m = plug C' (.node a.id { shLab true (labOf a) with tag := a.name } (shAll true (trAll a.children)))) := by
  unfold Element.diffName hushed
  by_cases hn : a.name = b.name
  · rw [if_pos hn]
    refine ⟨fun _ => ?_, fun h => absurd (fun _ => hn) h⟩
    rw [List.map_nil, bsteps, sh_tr, ← hn]
    simp only [ne_eq, not_true_eq_false, decide_false, Bool.or_false]
    have : ({ shLab σ (labOf a) with tag := a.name } : Lab) = shLab σ (labOf a) := by cases σ <;> rfl
    rw [this]
  · rw [if_neg hn]
    have hσ : (σ || decide (a.name ≠ b.name)) = true := by simp [hn]
    rw [hσ]
    constructor
    · intro h
      have hid : b.id = a.id := by
        rcases Nat.lt_or_eq_of_le hle with h' | h'
        · exact absurd (h h') hn
        · exact h'
      rw [List.map_cons, List.map_nil, bsteps, toB, sh_tr]
      simp only [hid, retag_plug hp, hushAll_shAll]
      cases σ <;> rfl
    · intro h m hm
      have hlt : b.id < a.id := Classical.byContradiction fun h' => h (fun h'' => absurd h'' h')
      rw [List.map_cons, List.map_nil] at hm
      obtain ⟨m', h1, h2⟩ := bsteps_cons_some hm
      cases h2
      obtain ⟨C', h3, h4⟩ := retag_away (fun hi => Nat.lt_irrefl _ (hleft _ hi)) (by
        rw [sh_ids, tr_ids, a.ids_eq, List.mem_cons, not_or]
        exact ⟨by omega, fun hi => by have := hk _ hi; omega⟩) (fun hi => by have := hpost _ hi; omega) h1
      refine ⟨C', h3, ?_⟩
      rw [h4, sh_tr, hush, hushAll_shAll]
      cases σ <;> rfl

/-- **Own changes: exact, or something about the element is wrong for good.** -/
theorem own_run {σ : Bool} {a b : Element} {C : List (Fr Lab)} (ha : a.attributes.Distinct) (hb : b.attributes.Distinct)
    (hle : b.id ≤ a.id) (hp : a.id ∉ preIds C) (hleft : ∀ i ∈ leftIds C, i < b.id)
    (hpost : ∀ i ∈ postIds C, a.id < i) (hk : ∀ i ∈ idsOf a.children, a.id < i) :
    (OwnGood σ a b ∧ bsteps ((ownOps a b).map toB) (plug C (sh σ (tr a))) = some (plug C (.node a.id (labOf b) (kept (below' σ a b) a b)))) ∨
    (¬ OwnGood σ a b ∧ ∀ m, bsteps ((ownOps a b).map toB) (plug C (sh σ (tr a))) = some m → ∃ C' l' τ, SameCtx C C' ∧
      m = plug C' (.node a.id l' (kept τ a b)) ∧ Lacks l' (labOf b)) := by
  obtain ⟨n1, n2⟩ := name_run (σ := σ) hle hp hleft hpost hk
  rw [ownOps_eq, List.map_append, bsteps_append]
  by_cases c0 : b.id < a.id → a.name = b.name
  · rw [n1 c0, Option.bind_some]
    obtain ⟨f1, f2⟩ := own_rest (σ := hushed σ a b) (tg := b.name) ha hb hle hp hleft hpost hk
    by_cases hg : OwnGood σ a b
    · left
      refine ⟨hg, ?_⟩
      obtain ⟨-, g1, g2, g3⟩ := hg
      have hatt : Attached a b := by
        rcases Nat.lt_or_eq_of_le hle with h | h
        · exact Or.inr (g1 h)
        · exact Or.inl h
      rw [f1 hatt]
      have e1 : lisAfter (hushed σ a b) a b = b.listeners := by
        unfold lisAfter
        split
        · rename_i h
          split
          · rename_i hs; exact (g2 hs h).symm
          · exact h
        · rename_i h
          split
          · rfl
          · rename_i hid
            exact ((hatt.resolve_left hid).resolve_left h).symm
      have e2 : textAfter a b = b.text.getD "" := by
        unfold textAfter
        split
        · rfl
        · rename_i hw
          rcases g3 with h | h | h
          · rw [h]
          · rw [Classical.byContradiction (fun e => hw ⟨e, h⟩)]
          · by_cases hbn : b.text = none
            · rw [h, hbn]; rfl
            · rw [Classical.byContradiction (fun e => hw ⟨e, hbn⟩)]
      rw [e1, e2]
      rfl
    · right
      refine ⟨hg, ?_⟩
      intro m hm
      obtain ⟨C', h1, h2⟩ := f2 m hm
      refine ⟨C', _, _, h1, h2, ?_⟩
      unfold Lacks
      simp only [labOf]
      by_cases c3 : a.text = b.text ∨ b.text ≠ none ∨ a.text = some ""
      · right; right; right
        by_cases c1 : b.id < a.id → a.listeners = b.listeners ∨ b.listeners = []
        · have c2 : ¬ (hushed σ a b = true → a.listeners = b.listeners → b.listeners = []) := fun c2 => hg ⟨c0, c1, c2, c3⟩
          have hσ : hushed σ a b = true := Classical.byContradiction fun h => c2 (fun h' => absurd h' h)
          have hlis : a.listeners = b.listeners := Classical.byContradiction fun h => c2 (fun _ h' => absurd h' h)
          have hne : b.listeners ≠ [] := fun h => c2 (fun _ _ => h)
          refine ⟨hne, ?_⟩
          unfold lisAfter
          rw [if_pos hlis, hσ]
          exact fun h => hne h.symm
        · have hlt : b.id < a.id := Classical.byContradiction fun h => c1 (fun h' => absurd h' h)
          have hne : b.listeners ≠ [] := fun h => c1 (fun _ => Or.inr h)
          have hlis : a.listeners ≠ b.listeners := fun h => c1 (fun _ => Or.inl h)
          refine ⟨hne, ?_⟩
          unfold lisAfter
          rw [if_neg hlis, if_neg (by omega)]
          exact fun h => hne h.symm
      · right; right; left
        rw [not_or, not_or] at c3
        obtain ⟨t1, t2, t3⟩ := c3
        have hbn : b.text = none := Classical.byContradiction t2
        unfold textAfter
        rw [if_neg (fun w => t2 w.2), hbn]
        rw [hbn] at t1
        cases hat : a.text with
        | none => exact absurd hat t1
        | some t =>
          intro h
          simp only [Option.getD_some, Option.getD_none] at h
          exact t3 (by rw [hat, h])
  · right
    refine ⟨fun hg => c0 hg.1, ?_⟩
    intro m hm
    cases hn : bsteps ((a.diffName b).map toB) (plug C (sh σ (tr a))) with
    | none => rw [hn] at hm; cases hm
    | some m' =>
      rw [hn, Option.bind_some] at hm
      obtain ⟨C', s1, rfl⟩ := n2 c0 m' hn
      obtain ⟨-, f2⟩ := own_rest (σ := true) (tg := a.name) (C := C') ha hb hle (fun h => hp (s1.preIds.2 h)) (by rw [← s1.leftIds]; exact hleft)
        (by rw [← s1.postIds]; exact hpost) hk
      obtain ⟨C'', h1, h2⟩ := f2 m hm
      refine ⟨C'', _, _, s1.trans h1, h2, Or.inl ?_⟩
      simp only [labOf]
      intro hname
      exact c0 (fun _ => hname)

end Puck.Shape.Paint
