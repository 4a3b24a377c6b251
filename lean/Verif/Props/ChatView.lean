import Verif.Props.ChatOrder
import Verif.Props.EndToEnd
/-!
# What the chat's users see (C85)
-/
namespace Puck.Chat

/-! ## The chat's views -/

/-- One message, numbered from `g`. -/
def msgEl (g : Nat) (m : ChatMessage) : Element :=
  ⟨g, "div", [], [], [⟨g + 1, "h3", [], [], [], some ("Message from " ++ m.username ++ " (user id: " ++ toString m.sender ++ ")"), none⟩,
    ⟨g + 2, "p", [], [], [], some m.contents, none⟩], none, none⟩

/-- Messages, numbered from `g`. -/
def msgEls (g : Nat) : List ChatMessage → List Element
  | [] => []
  | m :: ms => msgEl g m :: msgEls (g + 3) ms

theorem intoElements_msgs (ms : List ChatMessage) (g : Nat) : intoElements (ms.map messageDiv) g = some (msgEls g ms, g + 3 * ms.length) := by
  induction ms generalizing g with
  | nil => rfl
  | cons m ms ih =>
    have h1 : intoElement (messageDiv m) g = some (msgEl g m, g + 3) := rfl
    rw [List.map_cons, intoElements, h1]
    simp only [ih]
    simp only [msgEls, List.length_cons, Option.some.injEq, Prod.mk.injEq, true_and]
    omega

theorem render_uninitialized (u : String) : (Live.render (.uninitialized u)).1 =
    ⟨0, "div", [], [], [
      ⟨1, "div", [], [], [⟨2, "input", [("type", "text"), ("placeholder", "username..."), ("value", u)], [⟨"set_username", "input"⟩], [], none, none⟩], none, none⟩,
      ⟨3, "div", [], [], [⟨4, "input", [("type", "submit")], [⟨"initialize_username", "click"⟩], [], none, none⟩], none, none⟩], none, none⟩ := rfl

theorem render_initialized (u : String) (id : Nat) (ms : List ChatMessage) (c : String) : (Live.render (.initialized u id ms c)).1 =
    ⟨0, "div", [], [],
      ⟨1, "div", [], [], [
        ⟨2, "p", [], [], [], some ("Hello " ++ u ++ " (user_id: " ++ toString id ++ ")!"), none⟩,
        ⟨3, "div", [], [], [⟨4, "input", [("value", c), ("type", "text"), ("placeholder", "send a new message...")],
          [⟨"update_message_contents", "input"⟩], [], none, none⟩], none, none⟩,
        ⟨5, "div", [], [], [⟨6, "input", [("type", "submit"), ("value", "send message")], [⟨"submit_message", "click"⟩], [], none, none⟩], none, none⟩],
        none, none⟩ :: msgEls 7 ms, none, none⟩ := by
  have h : intoElement (Live.view (.initialized u id ms c)) 0 = some (⟨0, "div", [], [],
      ⟨1, "div", [], [], [
        ⟨2, "p", [], [], [], some ("Hello " ++ u ++ " (user_id: " ++ toString id ++ ")!"), none⟩,
        ⟨3, "div", [], [], [⟨4, "input", [("value", c), ("type", "text"), ("placeholder", "send a new message...")],
          [⟨"update_message_contents", "input"⟩], [], none, none⟩], none, none⟩,
        ⟨5, "div", [], [], [⟨6, "input", [("type", "submit"), ("value", "send message")], [⟨"submit_message", "click"⟩], [], none, none⟩], none, none⟩],
        none, none⟩ :: msgEls 7 ms, none, none⟩, 7 + 3 * ms.length) := by
    simp only [Live.view, inputDiv, BodyNode.wrap, WrappedBodyNode.child, WrappedBodyNode.listener, WrappedBodyNode.withChildren, List.nil_append,
      List.cons_append, intoElement, intoElements, intoElements_msgs]
  simp only [Live.render, h, Option.map_some, Option.getD_some]

/-- The chat's elements and attributes exist. -/
def KnowsChat (B : Browser) : Prop :=
  (∀ n ∈ ["div", "input", "p", "h3"], B.validTag n = true) ∧ ∀ n ∈ ["type", "placeholder", "value"], B.validAttr n = true

/-- The text in the input field contains no `+`. -/
def Live.PlainField : Live → Prop
  | .uninitialized u => '+' ∉ u.toList
  | .initialized _ _ _ c => '+' ∉ c.toList

theorem msgs_obey {B : Browser} (hB : KnowsChat B) (ms : List ChatMessage) (g : Nat) : ObeysAll (clientRules B) (msgEls g ms) := by
  induction ms generalizing g with
  | nil => rw [msgEls, ObeysAll]; trivial
  | cons m ms ih =>
    rw [msgEls, ObeysAll]
    refine ⟨?_, ih _⟩
    have t1 := hB.1 "div" (by simp)
    have t3 := hB.1 "p" (by simp)
    have t4 := hB.1 "h3" (by simp)
    have a1 : NoCapitals "div" ∧ NoCapitals "p" ∧ NoCapitals "h3" := by decide +kernel
    have a2 : '+' ∉ "div".toList ∧ '+' ∉ "p".toList ∧ '+' ∉ "h3".toList := by decide +kernel
    simp only [msgEl, Element.Obeys, ObeysAll, clientRules, t1, t3, t4, a1, a2, and_true, true_and]
    simp

theorem render_obeys {B : Browser} (hB : KnowsChat B) (l : Live) (hl : l.PlainField) : l.render.1.Obeys (clientRules B) := by
  have t1 := hB.1 "div" (by simp)
  have t2 := hB.1 "input" (by simp)
  have t3 := hB.1 "p" (by simp)
  have b1 := hB.2 "type" (by simp)
  have b2 := hB.2 "placeholder" (by simp)
  have b3 := hB.2 "value" (by simp)
  have a1 : NoCapitals "div" ∧ NoCapitals "p" ∧ NoCapitals "input" ∧ NoCapitals "type" ∧
    NoCapitals "placeholder" ∧ NoCapitals "value" := by decide +kernel
  have a2 : '+' ∉ "div".toList ∧ '+' ∉ "p".toList ∧ '+' ∉ "input".toList ∧ '+' ∉ "type".toList ∧
    '+' ∉ "placeholder".toList ∧ '+' ∉ "value".toList ∧ '+' ∉ "text".toList ∧ '+' ∉ "username...".toList ∧ '+' ∉ "submit".toList ∧
    '+' ∉ "send a new message...".toList ∧ '+' ∉ "send message".toList := by decide +kernel
  have a3 : '+' ∉ "set_username".toList ∧ '+' ∉ "initialize_username".toList ∧ '+' ∉ "update_message_contents".toList ∧
    '+' ∉ "submit_message".toList ∧ '+' ∉ "input".toList ∧ '+' ∉ "click".toList := by decide +kernel
  have a4 : ("type" : String) ≠ "id" ∧ ("placeholder" : String) ≠ "id" ∧ ("value" : String) ≠ "id" := by decide
  cases l with
  | uninitialized u =>
    simp only [Live.PlainField] at hl
    rw [render_uninitialized]
    simp only [Element.Obeys, ObeysAll, clientRules, List.mem_cons, List.not_mem_nil, or_false, forall_eq_or_imp, forall_eq,
      t1, t2, b1, b2, b3, a1, a2, a3, a4, hl, not_false_eq_true, ne_eq, and_true, true_and, false_imp_iff, implies_true]
  | initialized u id ms c =>
    simp only [Live.PlainField] at hl
    rw [render_initialized]
    simp only [Element.Obeys, ObeysAll, msgs_obey hB]
    simp only [clientRules, List.mem_cons, List.not_mem_nil, or_false, forall_eq_or_imp, forall_eq,
      t1, t2, t3, b1, b2, b3, a1, a2, a3, a4, hl, not_false_eq_true, ne_eq, and_true, true_and, false_imp_iff, implies_true]

theorem msgs_attrs (ms : List ChatMessage) (g : Nat) : AttrsOkAll (msgEls g ms) := by
  induction ms generalizing g with
  | nil => rw [msgEls, AttrsOkAll]; trivial
  | cons m ms ih =>
    rw [msgEls, AttrsOkAll]
    refine ⟨?_, ih _⟩
    simp [msgEl, Element.AttrsOk, AttrsOkAll, Headers.Distinct]

theorem render_attrs (l : Live) : l.render.1.AttrsOk := by
  cases l with
  | uninitialized u => rw [render_uninitialized]; simp [Element.AttrsOk, AttrsOkAll, Headers.Distinct]
  | initialized u id ms c => rw [render_initialized]; simp [Element.AttrsOk, AttrsOkAll, Headers.Distinct, msgs_attrs]

theorem msgs_aligned (ms ms' : List ChatMessage) (g : Nat) : AlignedZip (msgEls g ms) (msgEls g (ms ++ ms')) := by
  induction ms generalizing g with
  | nil => cases ms' <;> simp [msgEls, AlignedZip]
  | cons m ms ih =>
    rw [List.cons_append, msgEls, msgEls, AlignedZip]
    exact ⟨by simp [msgEl, Aligned, AlignedZip], ih _⟩

theorem msgs_gentle (ms ms' : List ChatMessage) (g : Nat) : GentleZip (msgEls g ms) (msgEls g (ms ++ ms')) := by
  induction ms generalizing g with
  | nil => cases ms' <;> simp [msgEls, GentleZip]
  | cons m ms ih =>
    rw [List.cons_append, msgEls, msgEls, GentleZip]
    exact ⟨by simp [msgEl, Gentle, GentleZip], ih _⟩

/-- The ways a chat component changes. -/
inductive Moves : Live → Live → Prop
  | stay (l) : Moves l l
  | typeName (u v) : Moves (.uninitialized u) (.uninitialized v)
  | register (u v id) : Moves (.uninitialized u) (.initialized v id [] "")
  | chat (u id ms ms' c c') : Moves (.initialized u id ms c) (.initialized u id (ms ++ ms') c')

theorem moves_aligned {l l' : Live} (h : Moves l l') : Aligned l.render.1 l'.render.1 ∧ Gentle l.render.1 l'.render.1 := by
  have same : ∀ u id ms ms' c c', Aligned (Live.render (.initialized u id ms c)).1 (Live.render (.initialized u id (ms ++ ms') c')).1 ∧
      Gentle (Live.render (.initialized u id ms c)).1 (Live.render (.initialized u id (ms ++ ms') c')).1 := by
    intro u id ms ms' c c'
    rw [render_initialized, render_initialized]
    refine ⟨?_, ?_⟩
    · simp [Aligned, AlignedZip, msgs_aligned]
    · simp [Gentle, GentleZip, msgs_gentle]
  have un : ∀ u v, Aligned (Live.render (.uninitialized u)).1 (Live.render (.uninitialized v)).1 ∧
      Gentle (Live.render (.uninitialized u)).1 (Live.render (.uninitialized v)).1 := by
    intro u v
    rw [render_uninitialized, render_uninitialized]
    simp [Aligned, AlignedZip, Gentle, GentleZip]
  cases h with
  | stay =>
    cases l with
    | uninitialized u => exact un u u
    | initialized u id ms c =>
      have := same u id ms [] c c
      rw [List.append_nil] at this
      exact this
  | typeName u v => exact un u v
  | register u v id =>
    rw [render_uninitialized, render_initialized]
    simp [Aligned, AlignedZip, Gentle, GentleZip, msgEls, SilentAll]
  | chat u id ms ms' c c' => exact same u id ms ms' c c'

/-- Every change of a chat component whose fields are without `+` shows correctly in the browser. -/
theorem moves_shown {B : Browser} (hB : KnowsChat B) {l l' : Live} (h : Moves l l') (hl : l.PlainField) (hl' : l'.PlainField) :
    l.render.1.UpdatesInBrowser B l'.render.1 := by
  obtain ⟨g, hg⟩ := view_element l
  obtain ⟨g', hg'⟩ := view_element l'
  have ia := dense_increasing hg
  have ib := dense_increasing hg'
  obtain ⟨h1, h2⟩ := moves_aligned h
  exact C63_update_partial B _ _ (keyFit_unkeyed _ _ (render_unkeyed l) (render_unkeyed l')) (aligned_safe _ _ [] h1 ia.1 ib.1 (by simp) fun _ => h2)
    (nodup_of_increasing ia.1) (nodup_of_increasing ib.1) (render_attrs l) (render_attrs l') (render_obeys hB l hl) (render_obeys hB l' hl')

/-- A message from the browser carries no text with a `+`. -/
def NoPlus (parse : String → Option ClientMessage) (m : Except NextMessageError Message) : Prop :=
  ∀ t c v, m = .ok (.text t) → parse t = some c → c.payload = some v → '+' ∉ v.toList

/-- What an update asked for does to a component. -/
theorem update_moves {parse : String → Option ClientMessage} {l l' : Live} {m : Mail LiveviewInput Nat} {i : LiveviewInput} {k : Nat}
    {srv srv' : ChatServer} {ds : List Delivery} (hm : (∃ c, m = .input (.receiveMessage c)) ∨ ∃ w, m = .ws w) (hi : Asks parse l.listeners m i)
    (hp : ∀ w, m = .ws w → NoPlus parse w) (hl : l.PlainField) (hup : l.update i k srv = some (l', srv', ds)) : Moves l l' ∧ l'.PlainField := by
  have typed : ∀ v, (i = .browserRequest (.updateInitializeUsernameTextField v) ∨ i = .browserRequest (.updateMessageContentsTextField v)) →
      '+' ∉ v.toList := by
    intro v hv
    rcases hi with rfl | ⟨t, c, rfl, h1, h2⟩
    · rcases hm with ⟨c, hc⟩ | ⟨w, hw⟩
      · cases hc; rcases hv with hv | hv <;> cases hv
      · cases hw
    · have hpay : c.payload = some v := by
        cases l with
        | uninitialized u =>
          simp only [Live.listeners] at h2
          by_cases h3 : c.listener = "set_username"
          · simp only [h3, if_true, Option.some.injEq, reduceCtorEq, Listener.input.injEq, false_or] at h2
            obtain ⟨f, v', rfl, h4, rfl⟩ := h2
            rcases hv with hv | hv <;> cases hv
            exact h4
          · by_cases h4 : c.listener = "initialize_username"
            · rw [if_neg h3, if_pos h4] at h2
              simp only [Option.some.injEq, Listener.click.injEq, reduceCtorEq, false_and, exists_false, or_false] at h2
              subst h2
              rcases hv with hv | hv <;> cases hv
            · simp [h3, h4] at h2
        | initialized u id ms cc =>
          simp only [Live.listeners] at h2
          by_cases h3 : c.listener = "update_message_contents"
          · simp only [h3, if_true, Option.some.injEq, reduceCtorEq, Listener.input.injEq, false_or] at h2
            obtain ⟨f, v', rfl, h4, rfl⟩ := h2
            rcases hv with hv | hv <;> cases hv
            exact h4
          · by_cases h4 : c.listener = "submit_message"
            · rw [if_neg h3, if_pos h4] at h2
              simp only [Option.some.injEq, Listener.click.injEq, reduceCtorEq, false_and, exists_false, or_false] at h2
              subst h2
              rcases hv with hv | hv <;> cases hv
            · simp [h3, h4] at h2
      exact hp _ rfl t c v rfl h1 hpay
  rcases asks_cases hm hi with ⟨c, rfl, rfl⟩ | ⟨⟨w, rfl⟩, ⟨u, rfl, ⟨v, rfl⟩ | rfl⟩ | ⟨u, id, ms, c, rfl, ⟨v, rfl⟩ | rfl⟩⟩
  · cases l with
    | uninitialized u =>
      simp only [Live.update, Live.updateLocal, Option.map_some, Option.some.injEq, Prod.mk.injEq] at hup
      rw [← hup.1]
      exact ⟨.stay _, hl⟩
    | initialized u id ms cc =>
      simp only [Live.update, Live.updateLocal, Option.map_some, Option.some.injEq, Prod.mk.injEq] at hup
      rw [← hup.1]
      exact ⟨.chat u id ms [c] cc cc, hl⟩
  · simp only [Live.update, Live.updateLocal, Option.map_some, Option.some.injEq, Prod.mk.injEq] at hup
    rw [← hup.1]
    exact ⟨.typeName u v, typed v (Or.inl rfl)⟩
  · simp only [Live.update, ChatServer.handle, Option.some.injEq, Prod.mk.injEq] at hup
    rw [← hup.1]
    exact ⟨.register u _ _, by simp [Live.PlainField]⟩
  · simp only [Live.update, Live.updateLocal, Option.map_some, Option.some.injEq, Prod.mk.injEq] at hup
    rw [← hup.1]
    have := Moves.chat u id ms [] c v
    rw [List.append_nil] at this
    exact ⟨this, typed v (Or.inr rfl)⟩
  · cases hg : getUser id srv.users with
    | none => simp [Live.update, ChatServer.handle, hg] at hup
    | some w =>
      simp only [Live.update, ChatServer.handle, hg, Live.updateLocal, Option.map_some, Option.some.injEq, Prod.mk.injEq] at hup
      rw [← hup.1]
      exact ⟨.chat u id ms [_] c c, hl⟩

/-! ## C85 -/

/-- The states the application reaches while the browser of connection `k` sends no text with a `+`. -/
inductive PlainRun (parse : String → Option ClientMessage) (firstSend : Nat → Bool) (k : Nat) : ChatNet → Prop
  | init : PlainRun parse firstSend k .init
  | snoc {n n'} : PlainRun parse firstSend k n → ChatStep parse firstSend n n' →
      (∀ u u' m, n.users k = some u → n'.users k = some u' → u'.loopBox = u.loopBox ++ [.ws m] → NoPlus parse m) → PlainRun parse firstSend k n'

theorem PlainRun.steps {parse : String → Option ClientMessage} {fs : Nat → Bool} {k : Nat} {n : ChatNet} (h : PlainRun parse fs k n) :
    ChatSteps parse fs .init n := by
  induction h with
  | init => exact .refl _
  | snoc _ s _ ih => exact .snoc ih s

/-- What holds of connection `k`. -/
def Seen (B : Browser) (parse : String → Option ClientMessage) (u : UserProcs) : Prop :=
  (∀ m, .ws m ∈ u.loopBox → NoPlus parse m) ∧ (∀ d, u.loop = .waiting d → u.sent = []) ∧
  ∀ l, u.live = some l → l.PlainField ∧ ∀ page, PageOk page → ∃ d, clientMessages B u.sent page = page ++ [d] ∧ l.render.1.ShownAs d

theorem Seen.same {B : Browser} {parse : String → Option ClientMessage} {u u' : UserProcs} (h : Seen B parse u) (h1 : u'.loop = u.loop)
    (h2 : u'.sent = u.sent) (h3 : ∀ m, .ws m ∈ u'.loopBox → NoPlus parse m) : Seen B parse u' := by
  have : u'.live = u.live := by unfold UserProcs.live; rw [h1]
  unfold Seen
  rw [this, h1, h2]
  exact ⟨h3, h.2.1, h.2.2⟩

theorem Seen.over {B : Browser} {parse : String → Option ClientMessage} {u : UserProcs} (h1 : u.loop = .stopped ∨ u.loop = .crashed)
    (h3 : ∀ m, .ws m ∈ u.loopBox → NoPlus parse m) : Seen B parse u := by
  have : u.live = none := by unfold UserProcs.live; rcases h1 with h | h <;> rw [h]
  refine ⟨h3, ?_, ?_⟩
  · intro d e; rcases h1 with h | h <;> rw [h] at e <;> cases e
  · intro l e; rw [this] at e; cases e

theorem seen_step {B : Browser} (hB : KnowsChat B) {parse : String → Option ClientMessage} {fs : Nat → Bool} {k : Nat} {n n' : ChatNet}
    (hn : NetInv fs n) (h : ∀ u, n.users k = some u → Seen B parse u) (hstep : ChatStep parse fs n n')
    (hplain : ∀ u u' m, n.users k = some u → n'.users k = some u' → u'.loopBox = u.loopBox ++ [.ws m] → NoPlus parse m) :
    ∀ u, n'.users k = some u → Seen B parse u := by
  intro v hv
  cases hstep with
  | connect j hj =>
    simp only [ChatNet.set] at hv
    split at hv
    · cases hv
      refine ⟨by simp, fun _ _ => rfl, ?_⟩
      intro l e; cases e
    · exact h v hv
  | forward j u i rest hu hi =>
    simp only [ChatNet.set] at hv
    split at hv
    · rename_i e; subst e
      cases hv
      exact (h u hu).same rfl rfl (by simpa using (h u hu).1)
    · exact h v hv
  | read j u w hu =>
    by_cases e : k = j
    · subst e
      have hw := hplain u v w hu hv (by
        simp only [ChatNet.set, if_true] at hv
        cases hv
        rfl)
      simp only [ChatNet.set, if_true] at hv
      cases hv
      refine (h u hu).same rfl rfl ?_
      intro m hm
      simp only [List.mem_append, List.mem_singleton, Mail.ws.injEq] at hm
      rcases hm with hm | rfl
      · exact (h u hu).1 m hm
      · exact hw
    · simp only [ChatNet.set, if_neg e] at hv
      exact h v hv
  | die j u hu =>
    simp only [ChatNet.set] at hv
    split at hv
    · rename_i e; subst e
      cases hv
      exact .over (Or.inl rfl) (h u hu).1
    · exact h v hv
  | shuffle users hp => exact h v hv
  | receive j u m rest hu hm =>
    unfold ChatNet.receive at hv
    rw [(deliverAll_users _ _ k).2] at hv
    by_cases e : k = j
    · subst e
      simp only [ChatNet.set, if_true, Option.map_some, Option.some.injEq] at hv
      have hsk := h u hu
      have hp := hn.procs k u hu
      obtain ⟨inbox, loop, loopBox, sent⟩ := u
      simp only at hm hv
      subst hm
      have hbox : ∀ w, .ws w ∈ rest → NoPlus parse w := fun w hw => hsk.1 w (by simp [hw])
      obtain ⟨-, h2⟩ := hp
      simp only at h2
      cases loop with
      | unreachable => exact absurd h2 id
      | stopped =>
        have hs : loopStep chatComponent parse (fs k) (withServer n.srv .stopped) m = (.stopped, []) := by cases m <;> rfl
        rw [hs] at hv
        subst hv
        exact .over (Or.inl rfl) hbox
      | crashed =>
        have hs : loopStep chatComponent parse (fs k) (withServer n.srv .crashed) m = (.crashed, []) := by cases m <;> rfl
        rw [hs] at hv
        subst hv
        exact .over (Or.inr rfl) hbox
      | waiting d =>
        obtain ⟨r, h3, h4⟩ := h2
        simp only [List.cons.injEq] at h3
        obtain ⟨rfl, rfl⟩ := h3
        have hsent : sent = [] := hsk.2.1 d rfl
        subst hsent
        have hw0 : Live.PlainField (.uninitialized "") := by simp [Live.PlainField]
        obtain ⟨g, hg⟩ := view_element (.uninitialized "")
        have paint : ∀ page, PageOk page → ∃ ops d, (Live.render (.uninitialized "")).1.diff none = some ops ∧
            clientMessage B (serializeOps ops) page = page ++ [d] ∧ (Live.render (.uninitialized "")).1.ShownAs d :=
          fun page hpg => C62_first_paint_partial B page hpg _ (nodup_of_increasing (dense_increasing hg).1) (render_attrs _) (render_obeys hB _ hw0)
        obtain ⟨ops, ho⟩ := (C59_unkeyed_partial _ _ (render_unkeyed (.uninitialized "")) (render_unkeyed (.uninitialized ""))).2
        simp only [withServer, loopStep, chatComponent, List.map_nil, List.nil_append] at hv
        rw [ho] at hv
        simp only at hv
        cases hb : fs k with
        | true =>
          rw [hb] at hv
          simp only [if_true, effects, List.filter_nil, List.map_nil, List.append_nil, sends] at hv
          subst hv
          refine ⟨hbox, ?_, ?_⟩
          · intro d e; cases e
          · intro l e
            simp only [UserProcs.live, Option.map_some, Option.some.injEq] at e
            subst e
            refine ⟨hw0, fun page hpg => ?_⟩
            obtain ⟨ops', d', h5, h6, h7⟩ := paint page hpg
            rw [ho] at h5
            cases h5
            exact ⟨d', h6, h7⟩
        | false =>
          rw [hb] at hv
          simp only [Bool.false_eq_true, if_false] at hv
          subst hv
          exact .over (Or.inr rfl) hbox
      | running st =>
        obtain ⟨hbx, hproc, l, srv0, hcomp, hrender, hknown⟩ := h2
        obtain ⟨proc, comp, dom, ls⟩ := st
        simp only at hproc hcomp hrender
        subst hproc hcomp
        have hmm := hbx m (by simp)
        have hl : ls = l.listeners := (congrArg (·.2) hrender).symm
        obtain ⟨hpl, hshown⟩ := hsk.2.2 l rfl
        by_cases hask : ∃ i, Asks parse l.listeners m i
        · obtain ⟨i, hi⟩ := hask
          obtain ⟨l', srv', ds, hup, -, -, -, -⟩ := update_ok hn.srv hknown (asks_expected hmm hi)
          obtain ⟨hmv, hpl'⟩ := update_moves hmm hi (fun w hw => hsk.1 w (by simp [hw])) hpl hup
          obtain ⟨ops, hstep⟩ := update_step (b := fs proc) (srv0 := srv0) hrender hi hup
          obtain ⟨ops', ho', hupd⟩ := moves_shown hB hmv hpl hpl'
          have hops : serializeOps ops = serializeOps ops' := by
            have hask' : Asks parse (LoopState.mk (S := Option (Live × ChatServer)) proc (some (l, n.srv)) dom ls).listeners m i := by
              simp only [hl]; exact hi
            have hd : dom = l.render.1 := by rw [hrender]
            have h9 := hstep
            simp only [withServer, Option.map_some] at h9
            rw [step_asks hask'] at h9
            simp only [updateAndDiff, chatComponent, hup, hd] at h9
            rw [ho'] at h9
            simp only [Prod.mk.injEq, List.append_cancel_left_eq, List.cons.injEq, Out.send.injEq, and_true] at h9
            exact h9.2.symm
          rw [hstep] at hv
          simp only at hv
          subst hv
          refine ⟨hbox, ?_, ?_⟩
          · intro d e; cases e
          · intro l2 e
            simp only [UserProcs.live, Option.map_some, Option.some.injEq] at e
            subst e
            refine ⟨hpl', fun page hpg => ?_⟩
            obtain ⟨d1, h5, h6⟩ := hshown page hpg
            obtain ⟨d2, h7, h8⟩ := hupd page d1 hpg h6
            refine ⟨d2, ?_, h8⟩
            simp only at h5
            simp only [sends_append, sends_effects, List.nil_append, sends, clientMessages_append, clientMessages, h5, hops, h7]
        · by_cases hclosed : m = .ws (.error .connectionClosed)
          · subst hclosed
            have hs : loopStep chatComponent parse (fs proc) (withServer n.srv (.running ⟨proc, some (l, srv0), dom, ls⟩))
                (.ws (.error .connectionClosed)) = (.stopped, [.dropped]) := rfl
            rw [hs] at hv
            subst hv
            exact .over (Or.inl rfl) hbox
          · have hign : loopStep chatComponent parse (fs proc) (withServer n.srv (.running ⟨proc, some (l, srv0), dom, ls⟩)) m =
                (.running ⟨proc, some (l, n.srv), dom, ls⟩, []) := by
              simp only [withServer, Option.map_some]
              refine step_ignored ?_ hclosed ?_
              · intro i hi
                exact hask ⟨i, by simp only [hl] at hi; exact hi⟩
              · rintro q rfl
                rcases hmm with ⟨c, hc⟩ | ⟨w, hw⟩
                · cases hc
                · cases hw
            rw [hign] at hv
            simp only [sends, List.append_nil] at hv
            subst hv
            refine ⟨hbox, ?_, ?_⟩
            · intro d e; cases e
            · intro l2 e
              simp only [UserProcs.live, Option.map_some, Option.some.injEq] at e
              subst e
              exact ⟨hpl, hshown⟩
    · simp only [ChatNet.set, if_neg e] at hv
      cases hk : n.users k with
      | none => rw [hk] at hv; cases hv
      | some w =>
        rw [hk] at hv
        simp only [Option.map_some, Option.some.injEq] at hv
        subst hv
        exact (h w hk).same rfl rfl (h w hk).1

theorem plainRun_seen {B : Browser} (hB : KnowsChat B) {parse : String → Option ClientMessage} {fs : Nat → Bool} {k : Nat} {n : ChatNet}
    (h : PlainRun parse fs k n) : ∀ u, n.users k = some u → Seen B parse u := by
  induction h with
  | init => intro u hu; cases hu
  | snoc h s hp ih => exact seen_step hB (steps_inv h.steps) ih s hp

/-- **C85 (what holds).** In every state the application reaches while this user types no `+`, whatever else happens: when the user's browser has processed all it
was sent, the page has gained one subtree, and it shows the current view of the user's component: the welcome line or the name form, and every message
received so far, in order. -/
theorem C85_shown_partial (B : Browser) (hB : KnowsChat B) (parse : String → Option ClientMessage) (firstSend : Nat → Bool) (k : Nat) (n : ChatNet)
    (h : PlainRun parse firstSend k n) (u : UserProcs) (hu : n.users k = some u) (l : Live) (hl : u.live = some l) (page : List Dom) (hp : PageOk page) :
    ∃ d, clientMessages B u.sent page = page ++ [d] ∧ l.render.1.ShownAs d :=
  ((plainRun_seen hB h u hu).2.2 l hl).2 page hp

theorem typed_diff {v : String} (hv : v ≠ "") :
    (Live.render (.uninitialized "")).1.diff (some (Live.render (.uninitialized v)).1) = some [⟨2, .setAttribute "value" v⟩] := by
  rw [render_uninitialized, render_uninitialized]
  have hv' := hv.symm
  have h1 : Headers.same [("type", "text"), ("placeholder", "username..."), ("value", "")] [("type", "text"), ("placeholder", "username..."), ("value", v)] = false := by
    simp [Headers.same, Headers.get, hv]
  have h2 : Headers.same [] [] = true := by decide
  have h3 : Headers.same [("type", "submit")] [("type", "submit")] = true := by decide
  simp [Element.diff, diff, diffZip, diffKeyed, allKeyed, unpaired, insertionOps, deletionOps, Element.diffName, Element.diffAttributes,
    Element.diffText, Element.diffListeners, Element.diffId, h1, h2, h3, Headers.get, hv']

/-- The browser reads a value up to the first `+`. -/
theorem setAttr_cut (B : Browser) (id : Nat) (key l r : String) (hk : '+' ∉ key.toList) (hl : '+' ∉ l.toList) (body : List Dom) :
    clientOp B (Op.serialize ⟨id, .setAttribute key (l ++ "+" ++ r)⟩) body = clientOp B (Op.serialize ⟨id, .setAttribute key l⟩) body := by
  have h1 : splitPlus (key ++ "+" ++ (l ++ "+" ++ r)) = key :: l :: (splitPlusAux r.toList).map String.ofList := by
    unfold splitPlus
    have : (key ++ "+" ++ (l ++ "+" ++ r)).toList = key.toList ++ '+' :: (l.toList ++ '+' :: r.toList) := by
      simp [String.toList_append]
    rw [this, splitPlusAux_append hk, splitPlusAux_append hl]
    simp
  simp only [clientOp, Op.serialize, h1, splitPlus_two hk hl]
  rfl

/-- A view shows one text in the field. -/
theorem field_unique {a b : String} {d : Dom} (ha : (Live.render (.uninitialized a)).1.ShownAs d) (hb : (Live.render (.uninitialized b)).1.ShownAs d) :
    a = b := by
  rw [render_uninitialized] at ha hb
  simp only [Element.ShownAs, ShownAsAll] at ha hb
  obtain ⟨_, _, e1, -, d1, _, rfl, ⟨_, _, rfl, -, d2, _, rfl, ⟨at1, _, rfl, ha, -⟩, -⟩, -⟩ := ha
  obtain ⟨_, _, e2, -, d3, _, rfl, ⟨_, _, rfl, -, d4, _, rfl, ⟨at2, _, rfl, hb, -⟩, -⟩, -⟩ := hb
  rw [e1] at e2
  simp [textNodes] at e2
  have h1 := ha "value"
  have h2 := hb "value"
  obtain ⟨-, ⟨-, ⟨rfl, -⟩, -⟩, -⟩ := e2
  rw [h1] at h2
  simpa [Headers.get] using h2

/-- A user connects and types `v`. -/
theorem typed_run (parse : String → Option ClientMessage) (firstSend : Nat → Bool) (hf : firstSend 0 = true) (t v : String) (hv : v ≠ "")
    (ht : parse t = some ⟨"set_username", some v⟩) :
    ∃ n u ops, ChatSteps parse firstSend .init n ∧ ('+' ∉ v.toList → PlainRun parse firstSend 0 n) ∧ n.users 0 = some u ∧
      u.live = some (.uninitialized v) ∧ (Live.render (.uninitialized "")).1.diff none = some ops ∧
      u.sent = [serializeOps ops, serializeOps [⟨2, .setAttribute "value" v⟩]] := by
  obtain ⟨ops, ho⟩ := (C59_unkeyed_partial _ _ (render_unkeyed (.uninitialized "")) (render_unkeyed (.uninitialized ""))).2
  let l0 : Live := .uninitialized ""
  let l1 : Live := .uninitialized v
  let u1 : UserProcs := ⟨[], .waiting .init, [.whoAmI 0], []⟩
  let u2 : UserProcs := ⟨[], .running ⟨0, some (l0, .init), l0.render.1, l0.render.2⟩, [], [serializeOps ops]⟩
  let u3 : UserProcs := ⟨[], .running ⟨0, some (l0, .init), l0.render.1, l0.render.2⟩, [.ws (.ok (.text t))], [serializeOps ops]⟩
  let u4 : UserProcs := ⟨[], .running ⟨0, some (l1, .init), l1.render.1, l1.render.2⟩, [],
    [serializeOps ops, serializeOps [⟨2, .setAttribute "value" v⟩]]⟩
  have s1 := ChatStep.connect (parse := parse) (firstSend := firstSend) .init 0 rfl
  have s2 := ChatStep.receive (parse := parse) (firstSend := firstSend) (ChatNet.init.set 0 u1) 0 u1 (.whoAmI 0) [] (by simp [ChatNet.set]) rfl
  have e2 : (ChatNet.init.set 0 u1).receive parse firstSend 0 u1 (.whoAmI 0) [] = ChatNet.set ⟨.init, (ChatNet.init.set 0 u1).users⟩ 0 u2 := by
    simp only [ChatNet.receive, u1, withServer, loopStep, chatComponent, List.map_nil, List.nil_append, hf]
    rw [ho]
    rfl
  rw [e2] at s2
  have s3 := ChatStep.read (parse := parse) (firstSend := firstSend) _ 0 u2 (.ok (.text t))
    (show (ChatNet.set ⟨.init, (ChatNet.init.set 0 u1).users⟩ 0 u2).users 0 = some u2 by simp [ChatNet.set])
  have s4 := ChatStep.receive (parse := parse) (firstSend := firstSend)
    ((ChatNet.set ⟨.init, (ChatNet.init.set 0 u1).users⟩ 0 u2).set 0 u3) 0 u3 (.ws (.ok (.text t))) [] (by simp [ChatNet.set]) rfl
  have hask : Asks parse (LoopState.mk (S := Option (Live × ChatServer)) 0 (some (l0, ChatServer.init)) l0.render.1 l0.render.2).listeners
      (.ws (.ok (.text t)) : Mail LiveviewInput Nat) (.browserRequest (.updateInitializeUsernameTextField v)) :=
    Or.inr ⟨t, _, rfl, ht, Or.inr (Or.inr ⟨fun v => .browserRequest (.updateInitializeUsernameTextField v), v, rfl, rfl, rfl⟩)⟩
  have e4 : loopStep chatComponent parse (firstSend 0) (withServer .init u3.loop) (.ws (.ok (.text t))) =
      (u4.loop, [.send (serializeOps [⟨2, .setAttribute "value" v⟩])]) := by
    simp only [u3, withServer, Option.map_some]
    rw [step_asks hask]
    simp only [updateAndDiff, chatComponent, Live.update, Live.updateLocal, Option.map_some, l0]
    rw [typed_diff hv]
    rfl
  have e5 : (((ChatNet.set ⟨.init, (ChatNet.init.set 0 u1).users⟩ 0 u2).set 0 u3).receive parse firstSend 0 u3 (.ws (.ok (.text t))) []).users 0 = some u4 := by
    have hs : ((ChatNet.set ⟨.init, (ChatNet.init.set 0 u1).users⟩ 0 u2).set 0 u3).srv = .init := rfl
    unfold ChatNet.receive
    rw [hs, e4]
    simp [effects, ChatNet.set, sends, u3, u4]
  refine ⟨_, u4, ops, .snoc (.snoc (.snoc (.snoc (.refl _) s1) s2) s3) s4, ?_, e5, rfl, ho, rfl⟩
  intro hp
  refine .snoc (.snoc (.snoc (.snoc .init s1 ?_) s2 ?_) s3 ?_) s4 ?_
  · intro u u' m h
    cases h
  · intro u u' m h h' h3
    simp only [ChatNet.set, if_true, Option.some.injEq] at h h'
    subst h h'
    simp [u2] at h3
  · intro u u' m h h' h3
    simp only [ChatNet.set, if_true, Option.some.injEq] at h h'
    subst h h'
    simp only [u2, List.nil_append, List.cons.injEq, Mail.ws.injEq, and_true] at h3
    subst h3
    intro t' c w h4 h5 h6
    cases h4
    rw [ht] at h5
    cases h5
    cases h6
    exact hp
  · intro u u' m h h' h3
    rw [e5] at h'
    simp only [ChatNet.set, if_true, Option.some.injEq] at h h'
    subst h h'
    simp [u4] at h3

/-- **C85 is false** as soon as a user types a `+`: in every browser, the field then holds only what precedes the `+`. -/
theorem C85_plus_refuted (B : Browser) (hB : KnowsChat B) (parse : String → Option ClientMessage) (firstSend : Nat → Bool) (hf : firstSend 0 = true)
    (t a r : String) (ht : parse t = some ⟨"set_username", some (a ++ "+" ++ r)⟩) (ha : '+' ∉ a.toList) :
    ∃ n u, ChatSteps parse firstSend .init n ∧ n.users 0 = some u ∧ u.live = some (.uninitialized (a ++ "+" ++ r)) ∧
      ∀ page, PageOk page → ∃ d, clientMessages B u.sent page = page ++ [d] ∧ (Live.render (.uninitialized a)).1.ShownAs d ∧
        ¬ (Live.render (.uninitialized (a ++ "+" ++ r))).1.ShownAs d := by
  have hne : a ++ "+" ++ r ≠ "" := by
    intro h
    have := congrArg String.toList h
    simp [String.toList_append] at this
  have hne2 : a ≠ a ++ "+" ++ r := by
    intro h
    have := congrArg (fun s => s.toList.length) h
    simp [String.toList_append] at this
  have hw0 : Live.PlainField (.uninitialized "") := by simp [Live.PlainField]
  obtain ⟨g, hg⟩ := view_element (.uninitialized "")
  have paint : ∀ page, PageOk page → ∃ ops d, (Live.render (.uninitialized "")).1.diff none = some ops ∧
      clientMessage B (serializeOps ops) page = page ++ [d] ∧ (Live.render (.uninitialized "")).1.ShownAs d :=
    fun page hpg => C62_first_paint_partial B page hpg _ (nodup_of_increasing (dense_increasing hg).1) (render_attrs _) (render_obeys hB _ hw0)
  obtain ⟨n, u, ops, hsteps, -, hu, hlive, ho, hsent⟩ := typed_run parse firstSend hf t _ hne ht
  refine ⟨n, u, hsteps, hu, hlive, ?_⟩
  intro page hpg
  obtain ⟨ops', d, h1, h2, h3⟩ := paint page hpg
  rw [ho] at h1
  cases h1
  have hA : applyOp ⟨2, .setAttribute "value" a⟩ (Live.render (.uninitialized "")).1 = some (Live.render (.uninitialized a)).1 := by
    rw [render_uninitialized, render_uninitialized]
    simp [applyOp, findAndMutate, mutateFirst, mutateFirstIn, Headers.insert]
  have hok : okOp (clientRules B) ⟨2, .setAttribute "value" a⟩ (Live.render (.uninitialized "")).1 := by
    have b3 := hB.2 "value" (by simp)
    have b4 : NoCapitals "value" ∧ '+' ∉ "value".toList := by decide +kernel
    simp [okOp, clientRules, b3, b4, ha]
  obtain ⟨d', h4, h5⟩ := sim_op hpg h3 hok hA
  refine ⟨d', ?_, h5, fun h6 => hne2 (field_unique h5 h6)⟩
  have b4 : '+' ∉ "value".toList := by decide +kernel
  rw [hsent, clientMessages, h2, clientMessages, clientMessages]
  simp only [serializeOps, List.map_cons, List.map_nil, clientMessage]
  rw [setAttr_cut B 2 "value" a r b4 ha, h4]

/-- C85 is not vacuous: a user types `bob`, and the browser shows it. -/
example (parse : String → Option ClientMessage) (t : String) (ht : parse t = some ⟨"set_username", some "bob"⟩) :
    ∃ n u, PlainRun parse (fun _ => true) 0 n ∧ n.users 0 = some u ∧ u.live = some (.uninitialized "bob") ∧
      ∃ d, clientMessages plainBrowser u.sent [] = [d] ∧ (Live.render (.uninitialized "bob")).1.ShownAs d := by
  obtain ⟨n, u, ops, -, hp, hu, hl, -⟩ := typed_run parse (fun _ => true) rfl t "bob" (by decide) ht
  have hp := hp (by decide +kernel)
  exact ⟨n, u, hp, hu, hl, C85_shown_partial plainBrowser (by simp [KnowsChat, plainBrowser]) parse _ 0 n hp u hu _ hl [] (by simp [PageOk, domIds])⟩

end Puck.Chat
