import Verif.Lemmas.ChatDiffs
/-!
# For C123: the two forms of the chat page, and what the changesets do to them
-/
namespace Puck.Chat

open Puck

/-- the form for the name -/
def nameForm (A : Nat → Headers) (T : Nat → Option String) : LiveDom :=
  .elem "div" (A 0) [] (T 0) [
    .elem "div" (A 1) [] (T 1) [.elem "input" (A 2) [⟨"set_username", "input"⟩] (T 2) []],
    .elem "div" (A 3) [] (T 3) [.elem "input" (A 4) [⟨"initialize_username", "click"⟩] (T 4) []]]

/-- the page of a registered user -/
def chatForm (A : Nat → Headers) (T : Nat → Option String) (K M : List LiveDom) : LiveDom :=
  .elem "div" (A 0) [] (T 0) (
    .elem "div" (A 1) [] (T 1) [
      .elem "p" (A 2) [] (T 2) K,
      .elem "div" (A 3) [] (T 3) [.elem "input" (A 4) [⟨"update_message_contents", "input"⟩] (T 4) []],
      .elem "div" (A 5) [] (T 5) [.elem "input" (A 6) [⟨"submit_message", "click"⟩] (T 6) []]] :: M)

/-- the elements have their ids -/
def Numbered (A : Nat → Headers) : Prop := ∀ n, n < 7 → (A n).get "id" = some (toString n)

theorem msg_step {B : Browser} {op : Op} {Pre X X' : List LiveDom} {n : Nat} {f : LiveDom → Option (List LiveDom)} (hq : QuietAll Pre)
    (hop : ∀ body, liveOp B op.serialize body = withLive (toString n) f body) (hn : n < 7) (hX : withLive (toString n) f X = some X') (ops : List Op) :
    liveMessage B (serializeOps (op :: ops)) (Pre ++ X) = liveMessage B (serializeOps ops) (Pre ++ X') := by
  rw [serializeOps, List.map_cons, liveMessage, hop, withLive_pre hq hn, hX]
  rfl


theorem small_names : NoCapitals "div" ∧ NoCapitals "input" ∧ NoCapitals "p" ∧ NoCapitals "type" ∧ NoCapitals "placeholder" ∧ NoCapitals "value" ∧
    '+' ∉ "div".toList ∧ '+' ∉ "input".toList ∧ '+' ∉ "p".toList ∧ '+' ∉ "type".toList ∧ '+' ∉ "placeholder".toList ∧ '+' ∉ "value".toList := by
  decide +kernel

/-- the name field gets a new attribute `value` -/
theorem name_value {B : Browser} (hB : KnowsChat B) {Pre : List LiveDom} (hq : QuietAll Pre) {A : Nat → Headers} (hA : Numbered A)
    (T : Nat → Option String) (v : String) : ∃ A', Numbered A' ∧
      liveMessage B (serializeOps [⟨2, .setAttribute "value" v⟩]) (Pre ++ [nameForm A T]) = Pre ++ [nameForm A' T] := by
  obtain ⟨w, hw⟩ := op_setAttr_any B 2 (key := "value") v (hB.2 "value" (by simp)) small_names.2.2.2.2.2.2.2.2.2.2.2 small_names.2.2.2.2.2.1 (Pre ++ [nameForm A T])
  refine ⟨fun n => if n = 2 then (A 2).insert "value" w else A n, ?_, ?_⟩
  · intro n hn
    simp only
    split
    · subst n
      rw [Headers.get_insert, if_neg (by decide)]
      exact hA 2 hn
    · exact hA n hn
  · rw [serializeOps, List.map_cons, liveMessage, hw, withLive_pre hq (by decide)]
    have h0 : (A 0).get "id" = some "0" := hA 0 (by decide)
    have h1 : (A 1).get "id" = some "1" := hA 1 (by decide)
    have h2 : (A 2).get "id" = some "2" := hA 2 (by decide)
    rw [show toString 2 = "2" from rfl]
    simp [withLive, replaceLiveIn, replaceLive, nameForm, h0, h1, h2, liveMessage]

/-- the field for messages gets a new attribute `value` -/
theorem chat_value {B : Browser} (hB : KnowsChat B) {Pre : List LiveDom} (hq : QuietAll Pre) {A : Nat → Headers} (hA : Numbered A)
    (T : Nat → Option String) {K M : List LiveDom} (hK : QuietAll K) (v : String) : ∃ A', Numbered A' ∧
      liveMessage B (serializeOps [⟨4, .setAttribute "value" v⟩]) (Pre ++ [chatForm A T K M]) = Pre ++ [chatForm A' T K M] := by
  obtain ⟨w, hw⟩ := op_setAttr_any B 4 (key := "value") v (hB.2 "value" (by simp)) small_names.2.2.2.2.2.2.2.2.2.2.2 small_names.2.2.2.2.2.1 (Pre ++ [chatForm A T K M])
  refine ⟨fun n => if n = 4 then (A 4).insert "value" w else A n, ?_, ?_⟩
  · intro n hn
    simp only
    split
    · subst n
      rw [Headers.get_insert, if_neg (by decide)]
      exact hA 4 hn
    · exact hA n hn
  · rw [serializeOps, List.map_cons, liveMessage, hw, withLive_pre hq (by decide)]
    have h0 : (A 0).get "id" = some "0" := hA 0 (by decide)
    have h1 : (A 1).get "id" = some "1" := hA 1 (by decide)
    have h2 : (A 2).get "id" = some "2" := hA 2 (by decide)
    have h3 : (A 3).get "id" = some "3" := hA 3 (by decide)
    have h4 : (A 4).get "id" = some "4" := hA 4 (by decide)
    have hk : ∀ f, replaceLiveIn "4" f K = none := fun f => quietAll_absent (n := 4) (by decide) f K hK
    rw [show toString 4 = "4" from rfl]
    simp [withLive, replaceLiveIn, replaceLive, chatForm, h0, h1, h2, h3, h4, hk, liveMessage]

/-- the attributes of a new element -/
def newAttrs (k : Nat) : Headers := [("id", toString k)]

/-- the first paint -/
theorem paint_name {B : Browser} (hB : KnowsChat B) {Pre : List LiveDom} (hq : QuietAll Pre) : ∃ A T, Numbered A ∧ (A 2).get "value" = some "" ∧ T 2 = none ∧
    liveMessage B (serializeOps (createFromScratch none (Live.render (.uninitialized "")).1)) Pre = Pre ++ [nameForm A T] := by
  have t1 := hB.1 "div" (by simp)
  have t2 := hB.1 "input" (by simp)
  have b1 := hB.2 "type" (by simp)
  have b2 := hB.2 "placeholder" (by simp)
  have b3 := hB.2 "value" (by simp)
  obtain ⟨c1, c2, c3, c4, c5, c6, p1, p2, p3, p4, p5, p6⟩ := small_names
  refine ⟨fun n => if n = 2 then [("id", "2"), ("type", "text"), ("placeholder", "username..."), ("value", "")] else if n = 4 then [("id", "4"), ("type", "submit")] else
    [("id", toString n)], fun _ => none, ?_, by decide +kernel, rfl, ?_⟩
  · intro n hn
    match n, hn with
    | 0, _ | 1, _ | 2, _ | 3, _ | 4, _ | 5, _ | 6, _ => decide +kernel
  · rw [render_uninitialized]
    simp only [createFromScratch, createAll, List.map_cons, List.map_nil, Element.generateListeners, List.append_nil, List.cons_append, List.nil_append]
    rw [serializeOps, List.map_cons, liveMessage, op_root B 0 t1 p1 c1]
    change liveMessage B (serializeOps _) _ = _
    rw [msg_step hq (op_create B 1 0 t1 p1 c1) (by decide) (by simp [withLive, replaceLiveIn, replaceLive, Headers.get]; rfl)]
    rw [msg_step hq (op_create B 2 1 t2 p2 c2) (by decide) (by simp [withLive, replaceLiveIn, replaceLive, Headers.get]; rfl)]
    rw [msg_step hq (op_setAttr B 2 b1 p4 c4 (by decide)) (by decide) (by simp [withLive, replaceLiveIn, replaceLive, Headers.get, Headers.insert]; rfl)]
    rw [msg_step hq (op_setAttr B 2 b2 p5 c5 (by decide)) (by decide) (by simp [withLive, replaceLiveIn, replaceLive, Headers.get, Headers.insert]; rfl)]
    rw [msg_step hq (op_setAttr B 2 b3 p6 c6 (by decide)) (by decide) (by simp [withLive, replaceLiveIn, replaceLive, Headers.get, Headers.insert]; rfl)]
    rw [msg_step hq (op_attach B 2 (by decide) (by decide)) (by decide) (by simp [withLive, replaceLiveIn, replaceLive, Headers.get, Headers.insert]; rfl)]
    rw [msg_step hq (op_create B 3 0 t1 p1 c1) (by decide) (by simp [withLive, replaceLiveIn, replaceLive, Headers.get]; rfl)]
    rw [msg_step hq (op_create B 4 3 t2 p2 c2) (by decide) (by simp [withLive, replaceLiveIn, replaceLive, Headers.get]; rfl)]
    rw [msg_step hq (op_setAttr B 4 b1 p4 c4 (by decide)) (by decide) (by simp [withLive, replaceLiveIn, replaceLive, Headers.get, Headers.insert]; rfl)]
    rw [msg_step hq (op_attach B 4 (by decide) (by decide)) (by decide) (by simp [withLive, replaceLiveIn, replaceLive, Headers.get, Headers.insert]; rfl)]
    rfl

theorem quiet_text (v : String) : QuietAll (cloneLiveAll (freshAll (textContent v))) := by
  unfold textContent
  split
  · simp [freshAll, cloneLiveAll, QuietAll]
  · simp [freshAll, Dom.fresh, cloneLiveAll, LiveDom.cloneNode, QuietAll, Quiet]

theorem get_head (k v : String) (h : Headers) (k' : String) : Headers.get ((k, v) :: h) k' = if k = k' then some v else h.get k' := by
  unfold Headers.get
  rw [List.find?_cons]
  by_cases e : k = k'
  · simp [e]
  · have : (k == k') = false := by simp [e]
    simp [e, this]

theorem reprs : Nat.repr 1 = "1" ∧ Nat.repr 3 = "3" ∧ Nat.repr 4 = "4" ∧ Nat.repr 5 = "5" ∧ Nat.repr 6 = "6" := ⟨rfl, rfl, rfl, rfl, rfl⟩

/-- registration -/
theorem register_page {B : Browser} (hB : KnowsChat B) {Pre : List LiveDom} (hq : QuietAll Pre) {A : Nat → Headers} (hA : Numbered A)
    (T : Nat → Option String) (name : String) (id : Nat) : ∃ A' T' K, Numbered A' ∧ QuietAll K ∧ (A' 4).get "value" = some "" ∧ T' 4 = none ∧
    liveMessage B (serializeOps (registerOps name id)) (Pre ++ [nameForm A T]) = Pre ++ [chatForm A' T' K []] := by
  have t1 := hB.1 "div" (by simp)
  have t2 := hB.1 "input" (by simp)
  have t3 := hB.1 "p" (by simp)
  have b1 := hB.2 "type" (by simp)
  have b2 := hB.2 "placeholder" (by simp)
  have b3 := hB.2 "value" (by simp)
  obtain ⟨c1, c2, c3, c4, c5, c6, p1, p2, p3, p4, p5, p6⟩ := small_names
  have h0 : (A 0).get "id" = some "0" := hA 0 (by decide)
  have h1 : (A 1).get "id" = some "1" := hA 1 (by decide)
  have h2 : (A 2).get "id" = some "2" := hA 2 (by decide)
  have h3 : (A 3).get "id" = some "3" := hA 3 (by decide)
  have h4 : (A 4).get "id" = some "4" := hA 4 (by decide)
  have r2 : ((((A 2).remove "type").remove "placeholder").remove "value").get "id" = some "2" := by
    simp [Headers.get_remove, h2]
  refine ⟨fun n => if n = 2 then ((((A 2).remove "type").remove "placeholder").remove "value") else if n = 4 then
      [("id", "4"), ("value", ""), ("type", "text"), ("placeholder", "send a new message...")] else
      if n = 6 then [("id", "6"), ("type", "submit"), ("value", "send message")] else if n < 2 then A n else [("id", toString n)],
    fun n => if n < 2 then T n else none, _, ?_, quiet_text ("Hello " ++ name ++ " (user_id: " ++ toString id ++ ")!"), by simp [Headers.get], rfl, ?_⟩
  · intro n hn
    match n, hn with
    | 0, _ => exact h0
    | 1, _ => exact h1
    | 2, _ => exact r2
    | 3, _ | 4, _ | 5, _ | 6, _ => rfl
  · rw [registerOps, nameForm]
    simp only [createFromScratch, createAll, List.map_cons, List.map_nil, Element.generateListeners, List.append_nil, List.cons_append, List.nil_append]
    rw [msg_step hq (op_delete B 3) (by decide) (by simp [withLive, replaceLiveIn, replaceLive, h0, h1, h2, h3]; rfl)]
    rw [msg_step hq (op_tag B 2 t3 c3) (by decide) (by simp [withLive, replaceLiveIn, replaceLive, h0, h1, h2]; rfl)]
    rw [msg_step hq (op_removeAttr B 2 c4) (by decide) (by simp [withLive, replaceLiveIn, replaceLive, h0, h1, h2]; rfl)]
    rw [msg_step hq (op_removeAttr B 2 c5) (by decide) (by simp [withLive, replaceLiveIn, replaceLive, Headers.get_remove, h0, h1, h2]; rfl)]
    rw [msg_step hq (op_removeAttr B 2 c6) (by decide) (by simp [withLive, replaceLiveIn, replaceLive, Headers.get_remove, h0, h1, h2]; rfl)]
    rw [msg_step hq (op_text B 2 _) (by decide) (by simp [withLive, replaceLiveIn, replaceLive, Headers.get_remove, h0, h1, h2]; rfl)]
    rw [msg_step hq (op_removeListeners B 2) (by decide) (by simp [withLive, replaceLiveIn, replaceLive, Headers.get_remove, h0, h1, h2, LiveDom.cloneNode]; rfl)]
    have hK : ∀ n, n < 7 → ∀ f, replaceLiveIn (toString n) f (cloneLiveAll (freshAll (textContent ("Hello " ++ name ++ " (user_id: " ++ toString id ++ ")!")))) = none :=
      fun n hn f => quietAll_absent hn f _ (quiet_text _)
    have k1 : ∀ f, replaceLiveIn "1" f (cloneLiveAll (freshAll (textContent ("Hello " ++ name ++ " (user_id: " ++ toString id ++ ")!")))) = none := hK 1 (by decide)
    have k3 : ∀ f, replaceLiveIn "3" f (cloneLiveAll (freshAll (textContent ("Hello " ++ name ++ " (user_id: " ++ toString id ++ ")!")))) = none := hK 3 (by decide)
    have k4 : ∀ f, replaceLiveIn "4" f (cloneLiveAll (freshAll (textContent ("Hello " ++ name ++ " (user_id: " ++ toString id ++ ")!")))) = none := hK 4 (by decide)
    have k5 : ∀ f, replaceLiveIn "5" f (cloneLiveAll (freshAll (textContent ("Hello " ++ name ++ " (user_id: " ++ toString id ++ ")!")))) = none := hK 5 (by decide)
    have k6 : ∀ f, replaceLiveIn "6" f (cloneLiveAll (freshAll (textContent ("Hello " ++ name ++ " (user_id: " ++ toString id ++ ")!")))) = none := hK 6 (by decide)
    generalize cloneLiveAll (freshAll (textContent ("Hello " ++ name ++ " (user_id: " ++ toString id ++ ")!"))) = K at k1 k3 k4 k5 k6
    rw [msg_step hq (op_create B 3 1 t1 p1 c1) (by decide) (by simp [withLive, replaceLiveIn, replaceLive, h0, h1, r2, k1, k3, k4, k5, k6, get_head, reprs, Headers.insert]; rfl)]
    rw [msg_step hq (op_create B 4 3 t2 p2 c2) (by decide) (by simp [withLive, replaceLiveIn, replaceLive, h0, h1, r2, k1, k3, k4, k5, k6, get_head, reprs, Headers.insert]; rfl)]
    rw [msg_step hq (op_setAttr B 4 b3 p6 c6 (by decide)) (by decide) (by simp [withLive, replaceLiveIn, replaceLive, h0, h1, r2, k1, k3, k4, k5, k6, get_head, reprs, Headers.insert]; rfl)]
    rw [msg_step hq (op_setAttr B 4 b1 p4 c4 (by decide)) (by decide) (by simp [withLive, replaceLiveIn, replaceLive, h0, h1, r2, k1, k3, k4, k5, k6, get_head, reprs, Headers.insert]; rfl)]
    rw [msg_step hq (op_setAttr B 4 b2 p5 c5 (by decide)) (by decide) (by simp [withLive, replaceLiveIn, replaceLive, h0, h1, r2, k1, k3, k4, k5, k6, get_head, reprs, Headers.insert]; rfl)]
    rw [msg_step hq (op_attach B 4 (by decide) (by decide)) (by decide) (by simp [withLive, replaceLiveIn, replaceLive, h0, h1, r2, k1, k3, k4, k5, k6, get_head, reprs, Headers.insert]; rfl)]
    rw [msg_step hq (op_create B 5 1 t1 p1 c1) (by decide) (by simp [withLive, replaceLiveIn, replaceLive, h0, h1, r2, k1, k3, k4, k5, k6, get_head, reprs, Headers.insert]; rfl)]
    rw [msg_step hq (op_create B 6 5 t2 p2 c2) (by decide) (by simp [withLive, replaceLiveIn, replaceLive, h0, h1, r2, k1, k3, k4, k5, k6, get_head, reprs, Headers.insert]; rfl)]
    rw [msg_step hq (op_setAttr B 6 b1 p4 c4 (by decide)) (by decide) (by simp [withLive, replaceLiveIn, replaceLive, h0, h1, r2, k1, k3, k4, k5, k6, get_head, reprs, Headers.insert]; rfl)]
    rw [msg_step hq (op_setAttr B 6 b3 p6 c6 (by decide)) (by decide) (by simp [withLive, replaceLiveIn, replaceLive, h0, h1, r2, k1, k3, k4, k5, k6, get_head, reprs, Headers.insert]; rfl)]
    rw [msg_step hq (op_attach B 6 (by decide) (by decide)) (by decide) (by simp [withLive, replaceLiveIn, replaceLive, h0, h1, r2, k1, k3, k4, k5, k6, get_head, reprs, Headers.insert]; rfl)]
    rfl

theorem replaceLiveIn_append (id : String) (f : LiveDom → Option (List LiveDom)) (as bs : List LiveDom) :
    replaceLiveIn id f (as ++ bs) =
      match replaceLiveIn id f as with
      | some none => some none
      | some (some as') => some (some (as' ++ bs))
      | none => (replaceLiveIn id f bs).map fun r => r.map (as ++ ·) := by
  induction as with
  | nil =>
    rw [List.nil_append, replaceLiveIn]
    cases replaceLiveIn id f bs with
    | none => rfl
    | some r => cases r <;> rfl
  | cons a as ih =>
    rw [List.cons_append, replaceLiveIn, replaceLiveIn]
    cases h1 : replaceLive id f a with
    | some r => cases r <;> simp
    | none =>
      simp only [ih]
      cases replaceLiveIn id f as with
      | some r => cases r <;> simp
      | none => 
        cases replaceLiveIn id f bs with
        | none => rfl
        | some r => cases r <;> rfl

theorem chat_replace {n : Nat} (hn : 7 ≤ n) {f : LiveDom → Option (List LiveDom)} (hf : ∀ d ds, Quiet d → f d = some ds → QuietAll ds)
    {Pre : List LiveDom} (hq : QuietAll Pre) {A : Nat → Headers} (hA : Numbered A) {T : Nat → Option String} {K M : List LiveDom} (hK : QuietAll K)
    (hM : QuietAll M) {b : List LiveDom} (h : withLive (toString n) f (Pre ++ [chatForm A T K M]) = some b) :
    ∃ Pre' K' M', QuietAll Pre' ∧ QuietAll K' ∧ QuietAll M' ∧ b = Pre' ++ [chatForm A T K' M'] := by
  unfold withLive at h
  rw [replaceLiveIn_append] at h
  have hne : ∀ m, m < 7 → ¬ some (toString m) = some (toString n) := by
    intro m hm e
    have := toString_eq.1 (Option.some.inj e)
    omega
  have e0 := hA 0 (by decide)
  have e1 := hA 1 (by decide)
  have e2 := hA 2 (by decide)
  have e3 := hA 3 (by decide)
  have e4 := hA 4 (by decide)
  have e5 := hA 5 (by decide)
  have e6 := hA 6 (by decide)
  have n0 := hne 0 (by decide)
  have n1 := hne 1 (by decide)
  have n2 := hne 2 (by decide)
  have n3 := hne 3 (by decide)
  have n4 := hne 4 (by decide)
  have n5 := hne 5 (by decide)
  have n6 := hne 6 (by decide)
  cases h1 : replaceLiveIn (toString n) f Pre with
  | some r =>
    rw [h1] at h
    cases r with
    | none => cases h
    | some Pre' =>
      cases h
      exact ⟨Pre', K, M, quietAll_replace hf _ _ hq h1, hK, hM, rfl⟩
  | none =>
    rw [h1] at h
    simp only [chatForm, replaceLiveIn, replaceLive, e0, e1, e2, e3, e4, e5, e6, n0, n1, n2, n3, n4, n5, n6, if_false] at h
    cases h2 : replaceLiveIn (toString n) f K with
    | some r =>
      rw [h2] at h
      cases r with
      | none => cases h
      | some K' =>
        simp only [Option.map_some, List.cons_append, List.nil_append, Option.some.injEq] at h
        exact ⟨Pre, K', M, hq, quietAll_replace hf _ _ hK h2, hM, h.symm⟩
    | none =>
      rw [h2] at h
      simp only at h
      cases h3 : replaceLiveIn (toString n) f M with
      | none => rw [h3] at h; cases h
      | some r =>
        rw [h3] at h
        cases r with
        | none => cases h
        | some M' =>
          simp only [Option.map_some, List.cons_append, List.nil_append, Option.some.injEq] at h
          exact ⟨Pre, K, M', hq, hK, quietAll_replace hf _ _ hM h3, h.symm⟩

theorem quiet_new {k : Nat} (hk : 7 ≤ k) (name : String) : QuietAll [.elem name [("id", toString k)] [] none []] := by
  simp only [QuietAll, Quiet, and_true, true_and]
  intro n hn e
  rw [get_head, if_pos rfl] at e
  have := toString_eq.1 (Option.some.inj e)
  omega

theorem chat_quietOp {B : Browser} (hB : KnowsChat B) {op : Op} (hop : QuietOp op)
    {Pre : List LiveDom} (hq : QuietAll Pre) {A : Nat → Headers} (hA : Numbered A) {T : Nat → Option String} {K M : List LiveDom} (hK : QuietAll K)
    (hM : QuietAll M) {b : List LiveDom} (h : liveOp B op.serialize (Pre ++ [chatForm A T K M]) = some b) :
    ∃ Pre' K' M', QuietAll Pre' ∧ QuietAll K' ∧ QuietAll M' ∧ b = Pre' ++ [chatForm A T K' M'] := by
  obtain ⟨k, ins⟩ := op
  obtain ⟨hk, ⟨name, p, rfl, hp, hn⟩ | ⟨v, rfl⟩⟩ := hop
  · simp only at hk
    have hv : B.validTag name = true ∧ '+' ∉ name.toList ∧ NoCapitals name := by
      rcases hn with rfl | rfl | rfl
      · exact ⟨hB.1 _ (by simp), by decide +kernel⟩
      · exact ⟨hB.1 _ (by simp), by decide +kernel⟩
      · exact ⟨hB.1 _ (by simp), by decide +kernel⟩
    rw [op_create B k p hv.1 hv.2.1 hv.2.2] at h
    rcases hp with rfl | hp
    · rw [withLive_pre hq (by decide)] at h
      have e0 := hA 0 (by decide)
      simp only [withLive, replaceLiveIn, replaceLive, chatForm, e0, if_true, Option.map_some, Option.some.injEq, List.append_nil, List.cons_append] at h
      exact ⟨Pre, K, M ++ [LiveDom.elem name [("id", toString k)] [] none []], hq, hK, quietAll_append.2 ⟨hM, quiet_new hk name⟩, h.symm⟩
    · refine chat_replace hp (fun d ds hd hds => ?_) hq hA hK hM h
      cases d with
      | text _ => cases hds
      | elem tag attrs ls ty cs =>
        rw [Quiet] at hd
        simp only [Option.some.injEq] at hds
        subst hds
        rw [QuietAll, Quiet, QuietAll]
        exact ⟨⟨hd.1, hd.2.1, quietAll_append.2 ⟨hd.2.2, quiet_new hk name⟩⟩, trivial⟩
  · rw [op_text] at h
    refine chat_replace hk (fun d ds hd hds => ?_) hq hA hK hM h
    cases d with
    | text _ => cases hds
    | elem tag attrs ls ty cs =>
      rw [Quiet] at hd
      simp only [Option.some.injEq] at hds
      subst hds
      rw [QuietAll, Quiet, QuietAll]
      refine ⟨⟨hd.1, hd.2.1, ?_⟩, trivial⟩
      unfold textContent
      split
      · simp [freshAll, QuietAll]
      · simp [freshAll, Dom.fresh, QuietAll, Quiet]

theorem chat_quiet {B : Browser} (hB : KnowsChat B) {ops : List Op} (hops : ∀ op ∈ ops, QuietOp op) {Pre : List LiveDom} (hq : QuietAll Pre)
    {A : Nat → Headers} (hA : Numbered A) {T : Nat → Option String} {K M : List LiveDom} (hK : QuietAll K) (hM : QuietAll M) :
    ∃ Pre' K' M', QuietAll Pre' ∧ QuietAll K' ∧ QuietAll M' ∧ liveMessage B (serializeOps ops) (Pre ++ [chatForm A T K M]) = Pre' ++ [chatForm A T K' M'] := by
  induction ops generalizing Pre K M with
  | nil => exact ⟨Pre, K, M, hq, hK, hM, rfl⟩
  | cons op ops ih =>
    rw [serializeOps, List.map_cons, liveMessage]
    cases h : liveOp B op.serialize (Pre ++ [chatForm A T K M]) with
    | none => exact ⟨Pre, K, M, hq, hK, hM, rfl⟩
    | some b =>
      obtain ⟨Pre', K', M', h1, h2, h3, rfl⟩ := chat_quietOp hB (hops op (by simp)) hq hA hK hM h
      exact ih (fun o ho => hops o (by simp [ho])) h1 h2 h3

end Puck.Chat
