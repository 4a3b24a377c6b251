import Verif.Props.Json
import Verif.Props.SamePage
/-!
# C95, for every component
-/
namespace Puck.Json
open Puck Rfc6455

variable {D I S E P : Type}

/-- **C95, the transport.** For every component and every history, whatever state it ends in: if no message is longer than a frame can be, a browser that decodes the bytes of the messages as
frames, UTF-8 and JSON runs exactly the instructions the loop has sent, message by message.  Hence the bytes make the page show a view if and only if the instructions do (C84). -/
theorem C95_exact_partial (B : Browser) (C : Component D I S E P) (data : D) (page : List Dom) (ms : List (Mail I P))
    (hl : ∀ m ∈ messagesOf (loopRun C fromStr true (.waiting data) ms).2, (wireOf m).payload.length < 2 ^ 64) (n : Nat) :
    pageAfter B (textsOf (decodeAll ((messagesOf (loopRun C fromStr true (.waiting data) ms).2).length + n)
        (sendAll (messagesOf (loopRun C fromStr true (.waiting data) ms).2) ⟨[], none⟩).2.out)) page =
      clientMessages B (sends (loopRun C fromStr true (.waiting data) ms).2) page := by
  generalize (loopRun C fromStr true (.waiting data) ms).2 = os at hl ⊢
  rw [(C02_history_decoded (messagesOf os) n hl).2]
  have : (messagesOf os).map wireOf = ((sends os).map changesetText).map fun t => wireOf (.text t) := by
    simp [messagesOf]
  rw [this, textsOf_wire, pageAfter_changesets]

/-- **C95 is false** in general, in any browser: the bytes of a session in which a label is switched off leave the label on the page. -/
theorem C95_bytes_to_page_refuted (B : Browser) (hB : B.validTag "div" = true) :
    ∃ st os, loopRun lampAt fromStr true (.waiting true) [.whoAmI (), .input ()] = (.running st, os) ∧
      (∀ m ∈ messagesOf os, (wireOf m).payload.length < 2 ^ 64) ∧
      ∀ n, pageAfter B (textsOf (decodeAll ((messagesOf os).length + n) (sendAll (messagesOf os) ⟨[], none⟩).2.out)) [] =
          [.elem "div" [("id", "0")] [] [.text "on"]] ∧
        ¬ (lampAt.render st.comp).1.ShownAs (.elem "div" [("id", "0")] [] [.text "on"]) := by
  have hl : ∀ m ∈ messagesOf (loopRun lampAt fromStr true (.waiting true) [.whoAmI (), .input ()]).2, (wireOf m).payload.length < 2 ^ 64 := by
    decide +kernel
  refine ⟨_, _, rfl, hl, fun n => ⟨?_, ?_⟩⟩
  · refine (C95_exact_partial B lampAt true [] [.whoAmI (), .input ()] hl n).trans ?_
    change clientMessages B (sends [Out.send (serializeOps [⟨0, .createTag "div" none⟩, ⟨0, .setText "on"⟩]), .send (serializeOps [⟨0, .removeText⟩])]) [] = _
    have e1 : splitPlus "div+" = ["div", ""] := by decide +kernel
    have a1 : asciiLower "div" = "div" := by decide +kernel
    have d0 : Nat.repr 0 = "0" := by decide +kernel
    simp [sends, clientMessages, serializeOps, Op.serialize, clientMessage, clientOp, withElement, replaceIn, replaceNode, Headers.get, e1, a1, d0, hB, textContent]
  · simp [lampAt, Element.ShownAs, ShownAsAll, textNodes]

end Puck.Json
