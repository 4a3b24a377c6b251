import Verif.Spec.Field
import Verif.Lemmas.Client
import Verif.Lemmas.OutOfStep
/-!
# What happens to the fields of a page
-/
namespace Puck

/-! ## Markup and typed text -/

theorem eraseAll_append (a b : List LiveDom) : eraseAll (a ++ b) = eraseAll a ++ eraseAll b := by
  induction a with
  | nil => rfl
  | cons d ds ih => simp [eraseAll, ih]

theorem freshAll_append (a b : List Dom) : freshAll (a ++ b) = freshAll a ++ freshAll b := by
  induction a with
  | nil => rfl
  | cons d ds ih => simp [freshAll, ih]

mutual
theorem erase_fresh : ∀ d : Dom, d.fresh.erase = d
  | .text _ => rfl
  | .elem tag attrs ls cs => by rw [Dom.fresh, LiveDom.erase, eraseAll_fresh cs]
theorem eraseAll_fresh : ∀ ds : List Dom, eraseAll (freshAll ds) = ds
  | [] => rfl
  | d :: ds => by rw [freshAll, eraseAll, erase_fresh d, eraseAll_fresh ds]
end

mutual
theorem erase_clone : ∀ d : LiveDom, d.cloneNode.erase = d.erase.cloneNode
  | .text _ => rfl
  | .elem tag attrs ls ty cs => by rw [LiveDom.cloneNode, LiveDom.erase, LiveDom.erase, Dom.cloneNode, eraseAll_clone cs]
theorem eraseAll_clone : ∀ ds : List LiveDom, eraseAll (cloneLiveAll ds) = cloneAll (eraseAll ds)
  | [] => rfl
  | d :: ds => by rw [cloneLiveAll, eraseAll, eraseAll, cloneAll, erase_clone d, eraseAll_clone ds]
end

mutual
theorem fresh_clone : ∀ d : Dom, d.fresh.cloneNode = d.cloneNode.fresh
  | .text _ => rfl
  | .elem tag attrs ls cs => by rw [Dom.fresh, LiveDom.cloneNode, Dom.cloneNode, Dom.fresh, freshAll_clone cs]
theorem freshAll_clone : ∀ ds : List Dom, cloneLiveAll (freshAll ds) = freshAll (cloneAll ds)
  | [] => rfl
  | d :: ds => by rw [freshAll, cloneLiveAll, cloneAll, freshAll, fresh_clone d, freshAll_clone ds]
end

mutual
theorem erase_typeInto (id v : String) : ∀ d : LiveDom, (d.typeInto id v).erase = d.erase
  | .text _ => rfl
  | .elem tag attrs ls ty cs => by rw [LiveDom.typeInto, LiveDom.erase, LiveDom.erase, eraseAll_typeInto id v cs]
theorem eraseAll_typeInto (id v : String) : ∀ ds : List LiveDom, eraseAll (typeIntoAll id v ds) = eraseAll ds
  | [] => rfl
  | d :: ds => by rw [typeIntoAll, eraseAll, eraseAll, erase_typeInto id v d, eraseAll_typeInto id v ds]
end

section
variable {id : String} {f : LiveDom → Option (List LiveDom)} {g : Dom → Option (List Dom)}

mutual
theorem erase_replace (h : ∀ d, (f d).map eraseAll = g d.erase) :
    ∀ d : LiveDom, (replaceLive id f d).map (Option.map eraseAll) = replaceNode id g d.erase
  | .text _ => rfl
  | .elem tag attrs ls ty cs => by
    rw [replaceLive, LiveDom.erase, replaceNode]
    by_cases hid : attrs.get "id" = some id
    · rw [if_pos hid, if_pos hid, Option.map_some, h, LiveDom.erase]
    · rw [if_neg hid, if_neg hid, ← erase_replaceIn h cs]
      cases replaceLiveIn id f cs with
      | none => rfl
      | some r => cases r <;> rfl
theorem erase_replaceIn (h : ∀ d, (f d).map eraseAll = g d.erase) :
    ∀ ds : List LiveDom, (replaceLiveIn id f ds).map (Option.map eraseAll) = replaceIn id g (eraseAll ds)
  | [] => rfl
  | d :: ds => by
    rw [replaceLiveIn, eraseAll, replaceIn, ← erase_replace h d, ← erase_replaceIn h ds]
    cases replaceLive id f d with
    | none =>
      cases replaceLiveIn id f ds with
      | none => rfl
      | some r => cases r <;> rfl
    | some r =>
      cases r with
      | none => rfl
      | some c => simp [eraseAll_append]
end

mutual
theorem fresh_replace (h : ∀ d, f d.fresh = (g d).map freshAll) :
    ∀ d : Dom, replaceLive id f d.fresh = (replaceNode id g d).map (Option.map freshAll)
  | .text _ => rfl
  | .elem tag attrs ls cs => by
    rw [Dom.fresh, replaceLive, replaceNode]
    by_cases hid : attrs.get "id" = some id
    · rw [if_pos hid, if_pos hid, Option.map_some, ← h, Dom.fresh]
    · rw [if_neg hid, if_neg hid, fresh_replaceIn h cs]
      cases replaceIn id g cs with
      | none => rfl
      | some r => cases r <;> rfl
theorem fresh_replaceIn (h : ∀ d, f d.fresh = (g d).map freshAll) :
    ∀ ds : List Dom, replaceLiveIn id f (freshAll ds) = (replaceIn id g ds).map (Option.map freshAll)
  | [] => rfl
  | d :: ds => by
    rw [freshAll, replaceLiveIn, replaceIn, fresh_replace h d, fresh_replaceIn h ds]
    cases replaceNode id g d with
    | none =>
      cases replaceIn id g ds with
      | none => rfl
      | some r => cases r <;> rfl
    | some r =>
      cases r with
      | none => rfl
      | some c => simp [freshAll_append]
end

theorem erase_withLive (h : ∀ d, (f d).map eraseAll = g d.erase) (body : List LiveDom) :
    (withLive id f body).map eraseAll = withElement id g (eraseAll body) := by
  unfold withLive withElement
  rw [← erase_replaceIn h body]
  cases replaceLiveIn id f body with
  | none => rfl
  | some r => cases r <;> rfl

theorem fresh_withLive (h : ∀ d, f d.fresh = (g d).map freshAll) (body : List Dom) :
    withLive id f (freshAll body) = (withElement id g body).map freshAll := by
  unfold withLive withElement
  rw [fresh_replaceIn h body]
  cases replaceIn id g body with
  | none => rfl
  | some r => cases r <;> rfl
end

/-- What was typed makes no difference to the markup. -/
theorem erase_liveOp (B : Browser) (w : WireOp) (body : List LiveDom) : (liveOp B w body).map eraseAll = clientOp B w (eraseAll body) := by
  unfold liveOp clientOp
  split
  · cases w.payload with
    | none => rfl
    | some payload =>
      simp only
      cases splitPlus payload with
      | nil => rfl
      | cons name rest =>
        simp only
        split
        · cases rest with
          | nil => simp [eraseAll_append, eraseAll, LiveDom.erase]
          | cons parent rest =>
            simp only
            split
            · simp [eraseAll_append, eraseAll, LiveDom.erase]
            · refine erase_withLive (fun d => ?_) body
              cases d <;> simp [eraseAll_append, eraseAll, LiveDom.erase]
        · rfl
  split
  · cases w.payload with
    | none => rfl
    | some payload =>
      simp only
      cases splitPlus payload with
      | nil => rfl
      | cons key rest =>
        refine erase_withLive (fun d => ?_) body
        cases d
        · rfl
        · simp only [LiveDom.erase]; split <;> cases rest <;> simp [eraseAll, LiveDom.erase]
  split
  · refine erase_withLive (fun d => ?_) body
    cases d <;> simp [eraseAll, LiveDom.erase]
  split
  · refine erase_withLive (fun d => ?_) body
    cases d
    · rfl
    · simp only [LiveDom.erase]; split <;> simp [eraseAll, LiveDom.erase, eraseAll_fresh]
  split
  · refine erase_withLive (fun d => ?_) body
    cases d <;> simp [eraseAll, LiveDom.erase, eraseAll_fresh]
  split
  · cases w.payload with
    | none => rfl
    | some payload =>
      simp only
      cases splitPlus payload with
      | nil => rfl
      | cons key rest =>
        refine erase_withLive (fun d => ?_) body
        cases d <;> cases rest <;> simp [eraseAll, LiveDom.erase]
  split
  · exact erase_withLive (fun d => by simp [eraseAll, erase_clone]) body
  split
  · exact erase_withLive (fun d => rfl) body
  split
  · refine erase_withLive (fun d => ?_) body
    cases d <;> simp [eraseAll, LiveDom.erase]
  · rfl

/-- Where nothing was typed, nothing is. -/
theorem fresh_liveOp (B : Browser) (w : WireOp) (body : List Dom) : liveOp B w (freshAll body) = (clientOp B w body).map freshAll := by
  unfold liveOp clientOp
  split
  · cases w.payload with
    | none => rfl
    | some payload =>
      simp only
      cases splitPlus payload with
      | nil => rfl
      | cons name rest =>
        simp only
        split
        · cases rest with
          | nil => simp [freshAll_append, freshAll, Dom.fresh]
          | cons parent rest =>
            simp only
            split
            · simp [freshAll_append, freshAll, Dom.fresh]
            · refine fresh_withLive (fun d => ?_) body
              cases d <;> simp [freshAll_append, freshAll, Dom.fresh]
        · rfl
  split
  · cases w.payload with
    | none => rfl
    | some payload =>
      simp only
      cases splitPlus payload with
      | nil => rfl
      | cons key rest =>
        refine fresh_withLive (fun d => ?_) body
        cases d
        · rfl
        · simp only [Dom.fresh]; split <;> cases rest <;> simp [freshAll, Dom.fresh]
  split
  · refine fresh_withLive (fun d => ?_) body
    cases d <;> simp [freshAll, Dom.fresh]
  split
  · refine fresh_withLive (fun d => ?_) body
    cases d
    · rfl
    · simp only [Dom.fresh]; split <;> simp [freshAll, Dom.fresh, eraseAll_fresh]
  split
  · refine fresh_withLive (fun d => ?_) body
    cases d <;> simp [freshAll, Dom.fresh]
  split
  · cases w.payload with
    | none => rfl
    | some payload =>
      simp only
      cases splitPlus payload with
      | nil => rfl
      | cons key rest =>
        refine fresh_withLive (fun d => ?_) body
        cases d <;> cases rest <;> simp [freshAll, Dom.fresh]
  split
  · exact fresh_withLive (fun d => by simp [freshAll, fresh_clone]) body
  split
  · exact fresh_withLive (fun d => rfl) body
  split
  · refine fresh_withLive (fun d => ?_) body
    cases d <;> simp [freshAll, Dom.fresh]
  · rfl

theorem erase_liveMessage (B : Browser) (ws : List WireOp) (body : List LiveDom) :
    eraseAll (liveMessage B ws body) = clientMessage B ws (eraseAll body) := by
  induction ws generalizing body with
  | nil => rfl
  | cons w ws ih =>
    rw [liveMessage, clientMessage, ← erase_liveOp]
    cases liveOp B w body with
    | none => rfl
    | some b => exact ih b

theorem fresh_liveMessage (B : Browser) (ws : List WireOp) (body : List Dom) :
    liveMessage B ws (freshAll body) = freshAll (clientMessage B ws body) := by
  induction ws generalizing body with
  | nil => rfl
  | cons w ws ih =>
    rw [liveMessage, clientMessage, fresh_liveOp]
    cases clientOp B w body with
    | none => rfl
    | some b => exact ih b

/-! ## Skeletons: the ids of the elements and what was typed into them -/

/-- An element's id, what was typed into it, and its child elements. -/
inductive Skel where
  | node (id typed : Option String) (children : List Skel)

mutual
/-- The skeleton of a node (none for a text). -/
def LiveDom.skel : LiveDom → List Skel
  | .text _ => []
  | .elem _ attrs _ typed children => [.node (attrs.get "id") typed (skelAll children)]
/-- Siblings. -/
def skelAll : List LiveDom → List Skel
  | [] => []
  | c :: cs => c.skel ++ skelAll cs
end

mutual
/-- Elements with this id have no child elements. -/
def Skel.Leaf (x : String) : Skel → Prop
  | .node id _ children => (id = some x → children = []) ∧ LeafAll x children
/-- Siblings. -/
def LeafAll (x : String) : List Skel → Prop
  | [] => True
  | c :: cs => c.Leaf x ∧ LeafAll x cs
end

theorem skelAll_append (a b : List LiveDom) : skelAll (a ++ b) = skelAll a ++ skelAll b := by
  induction a with
  | nil => rfl
  | cons d ds ih => simp [skelAll, ih]

theorem leafAll_append (x : String) (a b : List Skel) : LeafAll x (a ++ b) ↔ LeafAll x a ∧ LeafAll x b := by
  induction a with
  | nil => simp [LeafAll]
  | cons d ds ih => simp [LeafAll, ih, and_assoc]

mutual
theorem skel_clone : ∀ d : LiveDom, d.cloneNode.skel = d.skel
  | .text _ => rfl
  | .elem tag attrs ls ty cs => by rw [LiveDom.cloneNode, LiveDom.skel, LiveDom.skel, skelAll_clone cs]
theorem skelAll_clone : ∀ ds : List LiveDom, skelAll (cloneLiveAll ds) = skelAll ds
  | [] => rfl
  | d :: ds => by rw [cloneLiveAll, skelAll, skelAll, skel_clone d, skelAll_clone ds]
end

section
variable {x : String} {leaf : Prop} {f : LiveDom → Option (List LiveDom)}

mutual
theorem replace_skel (hf : ∀ tag attrs ls ty cs r, attrs.get "id" = some x → (leaf → skelAll cs = []) → f (.elem tag attrs ls ty cs) = some r →
      skelAll r = [.node (some x) ty (skelAll cs)]) :
    ∀ (d : LiveDom) (r : List LiveDom), (leaf → LeafAll x d.skel) → replaceLive x f d = some (some r) → skelAll r = d.skel
  | .text _, r, _, h => by cases h
  | .elem tag attrs ls ty cs, r, hl, h => by
    rw [replaceLive] at h
    rw [LiveDom.skel] at hl ⊢
    by_cases hid : attrs.get "id" = some x
    · rw [if_pos hid] at h
      rw [hf tag attrs ls ty cs r hid (fun hh => (hl hh).1.1 hid) (Option.some.inj h), hid]
    · rw [if_neg hid] at h
      cases hr : replaceLiveIn x f cs with
      | none => rw [hr] at h; cases h
      | some r' =>
        cases r' with
        | none => rw [hr] at h; cases h
        | some cs' =>
          rw [hr] at h
          cases h
          simp only [skelAll, LiveDom.skel, List.append_nil]
          rw [replaceIn_skel hf cs cs' (fun hh => (hl hh).1.2) hr]
theorem replaceIn_skel (hf : ∀ tag attrs ls ty cs r, attrs.get "id" = some x → (leaf → skelAll cs = []) → f (.elem tag attrs ls ty cs) = some r →
      skelAll r = [.node (some x) ty (skelAll cs)]) :
    ∀ (ds r : List LiveDom), (leaf → LeafAll x (skelAll ds)) → replaceLiveIn x f ds = some (some r) → skelAll r = skelAll ds
  | [], r, _, h => by cases h
  | d :: ds, r, hl, h => by
    rw [replaceLiveIn] at h
    simp only [skelAll, leafAll_append] at hl ⊢
    cases hd : replaceLive x f d with
    | some r' =>
      rw [hd] at h
      cases r' with
      | none => cases h
      | some c' =>
        cases h
        rw [skelAll_append, replace_skel hf d c' (fun hh => (hl hh).1) hd]
    | none =>
      rw [hd] at h
      cases hr : replaceLiveIn x f ds with
      | none => rw [hr] at h; cases h
      | some r' =>
        rw [hr] at h
        cases r' with
        | none => cases h
        | some cs' =>
          cases h
          rw [skelAll, replaceIn_skel hf ds cs' (fun hh => (hl hh).2) hr]
end

theorem withLive_skel (hf : ∀ tag attrs ls ty cs r, attrs.get "id" = some x → (leaf → skelAll cs = []) → f (.elem tag attrs ls ty cs) = some r →
      skelAll r = [.node (some x) ty (skelAll cs)]) {body body' : List LiveDom} (hl : leaf → LeafAll x (skelAll body))
    (h : withLive x f body = some body') : skelAll body' = skelAll body := by
  unfold withLive at h
  cases hr : replaceLiveIn x f body with
  | none => rw [hr] at h; cases h
  | some r =>
    rw [hr] at h
    subst h
    exact replaceIn_skel hf body body' hl hr
end

/-- An instruction between views of the same structure and tags leaves the ids and what was typed as they are. -/
theorem plain_skel {B : Browser} {op : Op} (hp : plainOp (clientRules B) op) {body body' : List LiveDom}
    (hl : (∃ v, op.instruction = .setText v) → LeafAll (toString op.id) (skelAll body)) (h : liveOp B op.serialize body = some body') :
    skelAll body' = skelAll body := by
  obtain ⟨id, ins⟩ := op
  unfold plainOp at hp
  cases ins <;> simp only at hp
  case setAttribute k v =>
    obtain ⟨h1, h2, -, h4, h5⟩ := hp
    have hsp : splitPlus (k ++ "+" ++ v) = [k, v] := splitPlus_two h1 h2
    simp only [Op.serialize, liveOp, hsp] at h
    refine withLive_skel (leaf := False) ?_ (fun h => h.elim) (by simpa using h)
    intro tag attrs ls ty cs r hid _ hr
    simp only at hr
    split at hr
    · cases hr
      simp only [skelAll, LiveDom.skel, List.append_nil]
      rw [asciiLower_small h4, get_insert_other h5, hid]
    · cases hr
  case removeAttribute k =>
    obtain ⟨v, h1, h2, -, h4, h5⟩ := hp
    simp only [Op.serialize, liveOp] at h
    refine withLive_skel (leaf := False) ?_ (fun h => h.elim) (by simpa using h)
    intro tag attrs ls ty cs r hid _ hr
    simp only at hr
    cases hr
    simp only [skelAll, LiveDom.skel, List.append_nil, asciiLower_small h4]
    rw [get_remove_other h5, hid]
  case setText v =>
    simp only [Op.serialize, liveOp] at h
    refine withLive_skel (leaf := True) ?_ (fun _ => hl ⟨v, rfl⟩) (by simpa using h)
    intro tag attrs ls ty cs r hid hcs hr
    simp only at hr
    cases hr
    have : skelAll (freshAll (textContent v)) = [] := by
      unfold textContent
      split <;> rfl
    simp only [skelAll, LiveDom.skel, List.append_nil, this, hcs trivial, hid]
  case removeText =>
    simp [Op.serialize, liveOp] at h
    rw [h]
  case removeListeners =>
    simp only [Op.serialize, liveOp] at h
    refine withLive_skel (leaf := False) ?_ (fun h => h.elim) (by simpa using h)
    intro tag attrs ls ty cs r hid _ hr
    cases hr
    simp only [skelAll, skel_clone, LiveDom.skel, List.append_nil, hid]
  case attachListener n on =>
    have hsp : splitPlus (n ++ "+" ++ on) = [n, on] := splitPlus_two hp.1 hp.2
    simp only [Op.serialize, liveOp, hsp] at h
    refine withLive_skel (leaf := False) ?_ (fun h => h.elim) (by simpa using h)
    intro tag attrs ls ty cs r hid _ hr
    simp only at hr
    cases hr
    simp only [skelAll, LiveDom.skel, List.append_nil, hid]

theorem message_skel {B : Browser} {ops : List Op} (hp : ∀ op ∈ ops, plainOp (clientRules B) op) {body : List LiveDom}
    (hl : ∀ op ∈ ops, (∃ v, op.instruction = .setText v) → LeafAll (toString op.id) (skelAll body)) :
    skelAll (liveMessage B (serializeOps ops) body) = skelAll body := by
  induction ops generalizing body with
  | nil => rfl
  | cons op ops ih =>
    simp only [serializeOps, List.map_cons, liveMessage]
    cases h : liveOp B op.serialize body with
    | none => rfl
    | some body' =>
      have h1 := plain_skel (hp op List.mem_cons_self) (hl op List.mem_cons_self) h
      have h2 := ih (body := body') (fun o ho => hp o (List.mem_cons_of_mem _ ho)) (fun o ho hs => by rw [h1]; exact hl o (List.mem_cons_of_mem _ ho) hs)
      rw [← h1]
      exact h2

mutual
/-- The skeleton of a view into whose fields `τ` has been typed. -/
def Element.skelOf (τ : Nat → Option String) : Element → Skel
  | ⟨id, _, _, _, children, _, _⟩ => .node (some (toString id)) (τ id) (skelsOf τ children)
/-- Siblings. -/
def skelsOf (τ : Nat → Option String) : List Element → List Skel
  | [] => []
  | e :: es => e.skelOf τ :: skelsOf τ es
end

theorem skelAll_texts (t : Option String) : skelAll (freshAll (textNodes t)) = [] := by
  cases t with
  | none => rfl
  | some s => unfold textNodes; simp only; split <;> rfl

mutual
theorem shown_skel : ∀ (e : Element) (d : Dom), e.ShownAs d → d.fresh.skel = [e.skelOf fun _ => none]
  | ⟨id, name, attributes, listeners, children, text, key⟩, d, h => by
    obtain ⟨attrs, kids, rfl, ha, hk⟩ := h.elim
    simp only at ha hk
    rw [Dom.fresh, LiveDom.skel, Element.skelOf, freshAll_append, skelAll_append, skelAll_texts, shownAll_skel children kids hk, ha "id", if_pos rfl]
    rfl
theorem shownAll_skel : ∀ (es : List Element) (ds : List Dom), ShownAsAll es ds → skelAll (freshAll ds) = skelsOf (fun _ => none) es
  | [], ds, h => by rw [shownAsAll_nil h]; rfl
  | e :: es, ds, h => by
    rw [ShownAsAll] at h
    obtain ⟨d, ds, rfl, h1, h2⟩ := h
    rw [freshAll, skelAll, shown_skel e d h1, shownAll_skel es ds h2, skelsOf]
    rfl
end

/-! ### Typing -/

mutual
/-- Typing, in the skeleton. -/
def Skel.typeInto (x v : String) : Skel → Skel
  | .node id typed children => .node id (if id = some x then some v else typed) (typeSkels x v children)
/-- Siblings. -/
def typeSkels (x v : String) : List Skel → List Skel
  | [] => []
  | s :: ss => s.typeInto x v :: typeSkels x v ss
end

theorem typeSkels_append (x v : String) (a b : List Skel) : typeSkels x v (a ++ b) = typeSkels x v a ++ typeSkels x v b := by
  induction a with
  | nil => rfl
  | cons d ds ih => simp [typeSkels, ih]

mutual
theorem typeInto_skel (x v : String) : ∀ d : LiveDom, (d.typeInto x v).skel = typeSkels x v d.skel
  | .text _ => rfl
  | .elem tag attrs ls ty cs => by
    rw [LiveDom.typeInto, LiveDom.skel, LiveDom.skel, typeIntoAll_skel x v cs]
    rfl
theorem typeIntoAll_skel (x v : String) : ∀ ds : List LiveDom, skelAll (typeIntoAll x v ds) = typeSkels x v (skelAll ds)
  | [] => rfl
  | d :: ds => by rw [typeIntoAll, skelAll, skelAll, typeSkels_append, typeInto_skel x v d, typeIntoAll_skel x v ds]
end

mutual
theorem skelOf_type (τ : Nat → Option String) (n : Nat) (v : String) : ∀ e : Element,
    (e.skelOf τ).typeInto (toString n) v = e.skelOf fun i => if n = i then some v else τ i
  | ⟨id, name, attributes, listeners, children, text, key⟩ => by
    rw [Element.skelOf, Element.skelOf, Skel.typeInto, skelsOf_type τ n v children]
    congr 1
    by_cases h : n = id
    · subst h; simp
    · rw [if_neg h, if_neg (fun e => h (toString_nat_inj (Option.some.inj e)).symm)]
theorem skelsOf_type (τ : Nat → Option String) (n : Nat) (v : String) : ∀ es : List Element,
    typeSkels (toString n) v (skelsOf τ es) = skelsOf (fun i => if n = i then some v else τ i) es
  | [] => rfl
  | e :: es => by rw [skelsOf, skelsOf, typeSkels, skelOf_type τ n v e, skelsOf_type τ n v es]
end

/-! ### Ids -/

mutual
/-- The ids in a skeleton. -/
def Skel.ids : Skel → List String
  | .node id _ children => id.toList ++ skelIds children
/-- Siblings. -/
def skelIds : List Skel → List String
  | [] => []
  | s :: ss => s.ids ++ skelIds ss
end

theorem skelIds_append (a b : List Skel) : skelIds (a ++ b) = skelIds a ++ skelIds b := by
  induction a with
  | nil => rfl
  | cons d ds ih => simp [skelIds, ih]

mutual
theorem erase_ids : ∀ d : LiveDom, d.erase.ids = skelIds d.skel
  | .text _ => rfl
  | .elem tag attrs ls ty cs => by
    rw [LiveDom.erase, Dom.ids, LiveDom.skel, skelIds, skelIds, Skel.ids, eraseAll_ids cs, List.append_nil]
    cases attrs.get "id" <;> rfl
theorem eraseAll_ids : ∀ ds : List LiveDom, domIds (eraseAll ds) = skelIds (skelAll ds)
  | [] => rfl
  | d :: ds => by rw [eraseAll, domIds, skelAll, skelIds_append, erase_ids d, eraseAll_ids ds]
end

mutual
theorem typeSkel_absent (x v : String) : ∀ s : Skel, x ∉ s.ids → s.typeInto x v = s
  | .node id ty cs, h => by
    rw [Skel.ids, List.mem_append, not_or] at h
    rw [Skel.typeInto, typeSkels_absent x v cs h.2, if_neg]
    rintro rfl
    exact h.1 (by simp)
theorem typeSkels_absent (x v : String) : ∀ ss : List Skel, x ∉ skelIds ss → typeSkels x v ss = ss
  | [], _ => rfl
  | s :: ss, h => by
    rw [skelIds, List.mem_append, not_or] at h
    rw [typeSkels, typeSkel_absent x v s h.1, typeSkels_absent x v ss h.2]
end

mutual
theorem leaf_absent (x : String) : ∀ s : Skel, x ∉ s.ids → s.Leaf x
  | .node id ty cs, h => by
    rw [Skel.ids, List.mem_append, not_or] at h
    rw [Skel.Leaf]
    refine ⟨?_, leafAll_absent x cs h.2⟩
    rintro rfl
    exact (h.1 (by simp)).elim
theorem leafAll_absent (x : String) : ∀ ss : List Skel, x ∉ skelIds ss → LeafAll x ss
  | [], _ => by rw [LeafAll]; trivial
  | s :: ss, h => by
    rw [skelIds, List.mem_append, not_or] at h
    rw [LeafAll]
    exact ⟨leaf_absent x s h.1, leafAll_absent x ss h.2⟩
end

mutual
theorem skelOf_leaf (τ : Nat → Option String) (n : Nat) : ∀ e : Element, (∀ x ∈ e.nodes, x.id = n → x.children = []) → (e.skelOf τ).Leaf (toString n)
  | ⟨id, name, attributes, listeners, children, text, key⟩, h => by
    rw [Element.nodes] at h
    rw [Element.skelOf, Skel.Leaf]
    refine ⟨fun e => ?_, skelsOf_leaf τ n children fun x hx => h x (List.mem_cons_of_mem _ hx)⟩
    have := h _ List.mem_cons_self (toString_nat_inj (Option.some.inj e))
    simp only at this
    rw [this]; rfl
theorem skelsOf_leaf (τ : Nat → Option String) (n : Nat) : ∀ es : List Element, (∀ x ∈ nodesAll es, x.id = n → x.children = []) →
    LeafAll (toString n) (skelsOf τ es)
  | [], _ => by rw [skelsOf, LeafAll]; trivial
  | e :: es, h => by
    rw [nodesAll] at h
    rw [skelsOf, LeafAll]
    exact ⟨skelOf_leaf τ n e fun x hx => h x (List.mem_append_left _ hx), skelsOf_leaf τ n es fun x hx => h x (List.mem_append_right _ hx)⟩
end

mutual
theorem kin_skelOf (τ : Nat → Option String) : ∀ (b a : Element), Kin a b → a.skelOf τ = b.skelOf τ
  | ⟨bid, bname, battrs, blis, bch, btext, bkey⟩, a, h => by
    have h' := h.parts
    cases a
    simp only at h'
    rw [Element.skelOf, Element.skelOf, h'.1, kinAll_skelsOf τ bch _ h'.2.2]
theorem kinAll_skelsOf (τ : Nat → Option String) : ∀ (bs as : List Element), KinAll as bs → skelsOf τ as = skelsOf τ bs
  | [], as, h => by rw [KinAll] at h; rw [h]
  | b :: bs, [], h => by rw [KinAll] at h; exact h.elim
  | b :: bs, a :: as, h => by
    rw [KinAll] at h
    rw [skelsOf, skelsOf, kin_skelOf τ b a h.1, kinAll_skelsOf τ bs as h.2]
end

/-! ### From the markup and the skeleton to what the fields show -/

theorem eraseAll_split : ∀ (ds : List LiveDom) (a b : List Dom), eraseAll ds = a ++ b → ∃ p q, ds = p ++ q ∧ eraseAll p = a ∧ eraseAll q = b
  | ds, [], b, h => ⟨[], ds, rfl, rfl, h⟩
  | [], x :: a, b, h => by cases h
  | d :: ds, x :: a, b, h => by
    rw [eraseAll, List.cons_append, List.cons.injEq] at h
    obtain ⟨p, q, rfl, h1, h2⟩ := eraseAll_split ds a b h.2
    exact ⟨d :: p, q, rfl, by rw [eraseAll, h.1, h1], h2⟩

theorem eraseAll_texts {ds : List LiveDom} {t : Option String} (h : eraseAll ds = textNodes t) : ds = freshAll (textNodes t) := by
  have : textNodes t = [] ∨ ∃ s, textNodes t = [.text s] := by
    cases t with
    | none => exact Or.inl rfl
    | some s => unfold textNodes; simp only; split <;> simp
  rcases this with e | ⟨s, e⟩ <;> rw [e] at h ⊢
  · cases ds with
    | nil => rfl
    | cons d ds => cases h
  · match ds, h with
    | [.text s'], h => cases h; rfl
    | .elem .. :: ds, h => cases h
    | .text _ :: _ :: _, h => rw [eraseAll, eraseAll, List.cons.injEq] at h; cases h.2

mutual
theorem fields_of (τ : Nat → Option String) : ∀ (e : Element) (d : LiveDom), e.ShownAs d.erase → d.skel = [e.skelOf τ] → e.FieldsAs τ d
  | ⟨id, name, attributes, listeners, children, text, key⟩, .text s, h, hs => by cases hs
  | ⟨id, name, attributes, listeners, children, text, key⟩, .elem tag attrs ls ty cs, h, hs => by
    obtain ⟨attrs', kids, he, ha, hk⟩ := h.elim
    simp only at he ha hk
    rw [LiveDom.erase] at he
    injection he with e1 e2 e3 e4
    subst e1 e2 e3
    obtain ⟨p, q, rfl, h1, h2⟩ := eraseAll_split cs _ _ e4
    have h1' := eraseAll_texts h1
    subst h1'
    rw [LiveDom.skel, Element.skelOf, skelAll_append, skelAll_texts, List.nil_append] at hs
    injection hs with hs _
    injection hs with i1 i2 i3
    rw [Element.FieldsAs]
    refine ⟨attrs, ty, q, rfl, ha, ?_, fieldsAll_of τ children q (by rw [h2]; exact hk) i3⟩
    rw [fieldText, ha "value", if_neg (by decide), i2]
theorem fieldsAll_of (τ : Nat → Option String) : ∀ (es : List Element) (ds : List LiveDom), ShownAsAll es (eraseAll ds) → skelAll ds = skelsOf τ es →
    FieldsAsAll τ es ds
  | [], [], _, _ => by rw [FieldsAsAll]
  | [], d :: ds, h, _ => by rw [ShownAsAll] at h; cases h
  | e :: es, [], h, _ => by rw [ShownAsAll] at h; obtain ⟨_, _, h, _⟩ := h; cases h
  | e :: es, d :: ds, h, hs => by
    rw [eraseAll, ShownAsAll] at h
    obtain ⟨d', ds', he, h1, h2⟩ := h
    injection he with e1 e2
    subst e1 e2
    have hd : ∃ s, d.skel = [s] := by
      cases d with
      | text s => obtain ⟨_, _, h, _⟩ := h1.elim; cases h
      | elem => exact ⟨_, rfl⟩
    obtain ⟨s, hd⟩ := hd
    rw [skelAll, skelsOf, hd] at hs
    injection hs with hs1 hs2
    rw [FieldsAsAll]
    exact ⟨d, ds, rfl, fields_of τ e d h1 (by rw [hd, hs1]), fieldsAll_of τ es ds h2 hs2⟩
end

end Puck
