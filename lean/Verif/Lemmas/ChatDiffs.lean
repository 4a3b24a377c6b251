import Verif.Lemmas.ChatTyping
/-!
# For C123: the changesets of the chat
-/
namespace Puck.Chat

open Puck

theorem same_nil : Headers.same [] [] = true := by decide
theorem same_submit : Headers.same [("type", "submit")] [("type", "submit")] = true := by decide
theorem same_send : Headers.same [("type", "submit"), ("value", "send message")] [("type", "submit"), ("value", "send message")] = true := by decide

theorem uninit_diff (u v : String) : (Live.render (.uninitialized u)).1.diff (some (Live.render (.uninitialized v)).1) =
    some (if u = v then [] else [⟨2, .setAttribute "value" v⟩]) := by
  rw [render_uninitialized, render_uninitialized]
  by_cases h : u = v
  · subst h
    have h1 : Headers.same [("type", "text"), ("placeholder", "username..."), ("value", u)] [("type", "text"), ("placeholder", "username..."), ("value", u)] = true := by
      simp [Headers.same, Headers.get]
    simp [Element.diff, diff, diffZip, diffKeyed, allKeyed, unpaired, insertionOps, deletionOps, Element.diffName, Element.diffAttributes,
      Element.diffText, Element.diffListeners, Element.diffId, h1, same_nil, same_submit]
  · have h1 : Headers.same [("type", "text"), ("placeholder", "username..."), ("value", u)] [("type", "text"), ("placeholder", "username..."), ("value", v)] = false := by
      simp [Headers.same, Headers.get, Ne.symm h]
    simp [Element.diff, diff, diffZip, diffKeyed, allKeyed, unpaired, insertionOps, deletionOps, Element.diffName, Element.diffAttributes,
      Element.diffText, Element.diffListeners, Element.diffId, h1, same_nil, same_submit, h, Headers.get]

/-- what is sent when the user has been registered -/
def registerOps (name : String) (id : Nat) : List Op :=
  [⟨3, .deleteEl⟩, ⟨2, .setTagName "p"⟩, ⟨2, .removeAttribute "type"⟩, ⟨2, .removeAttribute "placeholder"⟩, ⟨2, .removeAttribute "value"⟩,
    ⟨2, .setText ("Hello " ++ name ++ " (user_id: " ++ toString id ++ ")!")⟩, ⟨2, .removeListeners⟩] ++
  createAll (some 1) [⟨3, "div", [], [], [⟨4, "input", [("value", ""), ("type", "text"), ("placeholder", "send a new message...")],
          [⟨"update_message_contents", "input"⟩], [], none, none⟩], none, none⟩,
        ⟨5, "div", [], [], [⟨6, "input", [("type", "submit"), ("value", "send message")], [⟨"submit_message", "click"⟩], [], none, none⟩], none, none⟩]

theorem register_diff (u name : String) (id : Nat) :
    (Live.render (.uninitialized u)).1.diff (some (Live.render (.initialized name id [] "")).1) = some (registerOps name id) := by
  rw [render_uninitialized, render_initialized]
  have h1 : Headers.same [("type", "text"), ("placeholder", "username..."), ("value", u)] [] = false := by
    simp [Headers.same, Headers.get]
  simp [Element.diff, diff, diffZip, diffKeyed, allKeyed, unpaired, insertionOps, deletionOps, Element.diffName, Element.diffAttributes,
      Element.diffText, Element.diffListeners, Element.diffId, h1, same_nil, Headers.get, msgEls, registerOps, Element.generateListeners]

theorem msgEl_same (g : Nat) (m : ChatMessage) : diff (msgEl g m) (msgEl g m) = some [] := by
  simp [msgEl, diff, diffZip, diffKeyed, allKeyed, unpaired, insertionOps, deletionOps, Element.diffName, Element.diffAttributes,
      Element.diffText, Element.diffListeners, Element.diffId, same_nil]

theorem msgs_zip (ms ms' : List ChatMessage) (g : Nat) : diffZip (msgEls g ms) (msgEls g (ms ++ ms')) = some [] := by
  induction ms generalizing g with
  | nil => rw [msgEls]; cases msgEls g ([] ++ ms') <;> rfl
  | cons m ms ih => rw [List.cons_append, msgEls, msgEls, diffZip, msgEl_same, ih]; rfl

theorem msgs_drop (ms ms' : List ChatMessage) (g : Nat) : (msgEls g (ms ++ ms')).drop (msgEls g ms).length = msgEls (g + 3 * ms.length) ms' := by
  induction ms generalizing g with
  | nil => simp [msgEls]
  | cons m ms ih =>
    rw [List.cons_append, msgEls, msgEls, List.length_cons, List.drop_succ_cons, ih, List.length_cons]
    congr 1
    omega

theorem msgs_length (ms : List ChatMessage) (g : Nat) : (msgEls g ms).length = ms.length := by
  induction ms generalizing g with
  | nil => rfl
  | cons m ms ih => rw [msgEls, List.length_cons, ih, List.length_cons]

theorem init_diff (u : String) (id : Nat) (ms ms' : List ChatMessage) (c c' : String) :
    (Live.render (.initialized u id ms c)).1.diff (some (Live.render (.initialized u id (ms ++ ms') c')).1) =
      some ((if c = c' then [] else [⟨4, .setAttribute "value" c'⟩]) ++ createAll (some 0) (msgEls (7 + 3 * ms.length) ms')) := by
  rw [render_initialized, render_initialized]
  have d1 : diff ⟨1, "div", [], [], [
        ⟨2, "p", [], [], [], some ("Hello " ++ u ++ " (user_id: " ++ toString id ++ ")!"), none⟩,
        ⟨3, "div", [], [], [⟨4, "input", [("value", c), ("type", "text"), ("placeholder", "send a new message...")],
          [⟨"update_message_contents", "input"⟩], [], none, none⟩], none, none⟩,
        ⟨5, "div", [], [], [⟨6, "input", [("type", "submit"), ("value", "send message")], [⟨"submit_message", "click"⟩], [], none, none⟩], none, none⟩],
        none, none⟩ ⟨1, "div", [], [], [
        ⟨2, "p", [], [], [], some ("Hello " ++ u ++ " (user_id: " ++ toString id ++ ")!"), none⟩,
        ⟨3, "div", [], [], [⟨4, "input", [("value", c'), ("type", "text"), ("placeholder", "send a new message...")],
          [⟨"update_message_contents", "input"⟩], [], none, none⟩], none, none⟩,
        ⟨5, "div", [], [], [⟨6, "input", [("type", "submit"), ("value", "send message")], [⟨"submit_message", "click"⟩], [], none, none⟩], none, none⟩],
        none, none⟩ = some (if c = c' then [] else [⟨4, .setAttribute "value" c'⟩]) := by
    by_cases h : c = c'
    · subst h
      have h1 : Headers.same [("value", c), ("type", "text"), ("placeholder", "send a new message...")] [("value", c), ("type", "text"), ("placeholder", "send a new message...")] = true := by
        simp [Headers.same, Headers.get]
      simp [diff, diffZip, diffKeyed, allKeyed, unpaired, insertionOps, deletionOps, Element.diffName, Element.diffAttributes,
        Element.diffText, Element.diffListeners, Element.diffId, h1, same_nil, same_send]
    · have h1 : Headers.same [("value", c), ("type", "text"), ("placeholder", "send a new message...")] [("value", c'), ("type", "text"), ("placeholder", "send a new message...")] = false := by
        simp [Headers.same, Headers.get, Ne.symm h]
      simp [diff, diffZip, diffKeyed, allKeyed, unpaired, insertionOps, deletionOps, Element.diffName, Element.diffAttributes,
        Element.diffText, Element.diffListeners, Element.diffId, h1, same_nil, same_send, h, Headers.get]
  have hk : ∀ a b c d e f (es : List Element), allKeyed (⟨a, b, c, d, e, f, none⟩ :: es) = false := by
    intros
    simp [allKeyed]
  rw [Element.diff]
  rw [diff]
  simp only [hk, Bool.false_and, Bool.false_eq_true, if_false, diffZip, d1, msgs_zip, List.append_nil, List.length_cons, msgs_length, List.length_append,
    Element.diffName, Element.diffAttributes, Element.diffText, Element.diffListeners, Element.diffId, same_nil, if_true, List.nil_append,
    List.drop_succ_cons]
  by_cases h : ms' = []
  · subst h
    simp [msgEls, createAll]
  · have h1 : 0 < ms'.length := List.length_pos_iff.2 h
    have h2 := msgs_drop ms ms' 7
    rw [msgs_length] at h2
    rw [if_neg (by omega), if_neg (by omega), h2]

/-- instructions that only add what is written in messages -/
def QuietOp (op : Op) : Prop :=
  7 ≤ op.id ∧ ((∃ name p, op.instruction = .createTag name (some p) ∧ (p = 0 ∨ 7 ≤ p) ∧ (name = "div" ∨ name = "h3" ∨ name = "p")) ∨
    ∃ v, op.instruction = .setText v)

theorem msgs_quiet (ms : List ChatMessage) (g : Nat) (hg : 7 ≤ g) : ∀ op ∈ createAll (some 0) (msgEls g ms), QuietOp op := by
  induction ms generalizing g with
  | nil => simp [msgEls, createAll]
  | cons m ms ih =>
    intro op hop
    rw [msgEls, createAll] at hop
    rcases List.mem_append.1 hop with hop | hop
    · simp [msgEl, createFromScratch, createAll, Element.generateListeners] at hop
      rcases hop with rfl | rfl | rfl | rfl | rfl <;> simp only [QuietOp, reduceCtorEq, Instruction.createTag.injEq, Option.some.injEq, Instruction.setText.injEq] <;> refine ⟨by omega, ?_⟩ <;> first | exact Or.inr ⟨_, rfl⟩ | exact Or.inl ⟨_, _, ⟨rfl, rfl⟩, by omega, by simp⟩
    · exact ih (g + 3) (by omega) op hop

end Puck.Chat
