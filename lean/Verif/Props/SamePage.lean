import Verif.Spec.SamePage
import Verif.Props.Live
import Verif.Props.Sync
import Verif.Props.ChatCut
/-!
# C148: what is on the page depends on the view only, not on how it came about
-/
namespace Puck

variable {D I S E P : Type}

theorem SameDoms.append : ∀ {a b a' b' : List Dom}, SameDoms a a' → SameDoms b b' → SameDoms (a ++ b) (a' ++ b')
  | [], b, a', b', h, h' => by simp only [SameDoms] at h; subst h; exact h'
  | x :: a, b, a', b', h, h' => by
    simp only [SameDoms] at h
    obtain ⟨e, es', rfl, h1, h2⟩ := h
    exact ⟨e, es' ++ b', rfl, h1, SameDoms.append h2 h'⟩

theorem same_texts (t : Option String) : SameDoms (textNodes t) (textNodes t) := by
  unfold textNodes
  split
  · simp [SameDoms]
  · split
    · simp [SameDoms]
    · simp [SameDoms, Dom.Same]

mutual
theorem shown_same : ∀ (a : Element) (d d' : Dom), a.ShownAs d → a.ShownAs d' → d.Same d'
  | ⟨id, name, attributes, listeners, children, text, key⟩, d, d', h, h' => by
    simp only [Element.ShownAs] at h h'
    obtain ⟨attrs, kids, rfl, h1, h2⟩ := h
    obtain ⟨attrs', kids', rfl, h1', h2'⟩ := h'
    exact ⟨attrs', _, rfl, fun k => by rw [h1, h1'], (same_texts text).append (shown_same_all children kids kids' h2 h2')⟩
theorem shown_same_all : ∀ (as : List Element) (ds ds' : List Dom), ShownAsAll as ds → ShownAsAll as ds' → SameDoms ds ds'
  | [], ds, ds', h, h' => by simp only [ShownAsAll] at h h'; subst h h'; rfl
  | a :: as, ds, ds', h, h' => by
    simp only [ShownAsAll] at h h'
    obtain ⟨e, es, rfl, h1, h2⟩ := h
    obtain ⟨e', es', rfl, h1', h2'⟩ := h'
    exact ⟨e', es', rfl, shown_same a e e' h1 h1', shown_same_all as es es' h2 h2'⟩
end

/-- **C148 (what holds).** Two sessions of components that are browser-friendly in the states they can reach, with whatever histories: if the current views are the same, the two browsers,
when they have processed all they were sent, show the same.  (One of the histories may be empty: a page that was updated in place is like one that has just been painted.) -/
theorem C148_same_page_partial {D' I' S' E' P' : Type} (B : Browser) (C : Component D I S E P) (C' : Component D' I' S' E' P') (p : P) (p' : P') (data : D) (data' : D')
    (hf : FriendlyFrom B C p (C.new data p).1) (hf' : FriendlyFrom B C' p' (C'.new data' p').1) (parse : String → Option ClientMessage) (page page' : List Dom)
    (hp : PageOk page) (hp' : PageOk page') (ms : List (Mail I P)) (ms' : List (Mail I' P'))
    (hc : ∀ m ∈ ms, m ≠ .ws (.error .connectionClosed) ∧ ∀ q, m ≠ .whoAmI q) (hc' : ∀ m ∈ ms', m ≠ .ws (.error .connectionClosed) ∧ ∀ q, m ≠ .whoAmI q) :
    ∃ st os d st' os' d', loopRun C parse true (.waiting data) (.whoAmI p :: ms) = (.running st, os) ∧
      loopRun C' parse true (.waiting data') (.whoAmI p' :: ms') = (.running st', os') ∧ clientMessages B (sends os) page = page ++ [d] ∧
      clientMessages B (sends os') page' = page' ++ [d'] ∧ ((C.render st.comp).1 = (C'.render st'.comp).1 → d.Same d') := by
  obtain ⟨st, os, d, h1, h2, h3⟩ := C84_reachable_partial B C p data hf parse page hp ms hc
  obtain ⟨st', os', d', h1', h2', h3'⟩ := C84_reachable_partial B C' p' data' hf' parse page' hp' ms' hc'
  exact ⟨st, os, d, st', os', d', h1, h1', h2, h2', fun e => shown_same _ _ _ h3 (e ▸ h3')⟩

/-- a label that is shown or not, from the start as the caller wants it -/
def lampAt : Component Bool Unit Bool String Unit where
  new := fun b _ => (b, [])
  update := fun s _ _ => (!s, [])
  render := fun s => (⟨0, "div", [], [], [], if s then some "on" else none, none⟩, fun _ => none)

/-- **C148 is false** in general, in any browser: a label is switched off, and the page is not the page of a label that has been off from the start. -/
theorem C148_same_page_refuted (B : Browser) (hB : B.validTag "div" = true) (parse : String → Option ClientMessage) :
    ∃ st os d st' os' d', loopRun lampAt parse true (.waiting true) [.whoAmI (), .input ()] = (.running st, os) ∧
      loopRun lampAt parse true (.waiting false) [.whoAmI ()] = (.running st', os') ∧ clientMessages B (sends os) [] = [d] ∧
      clientMessages B (sends os') [] = [d'] ∧ (lampAt.render st.comp).1 = (lampAt.render st'.comp).1 ∧ ¬ d.Same d' := by
  refine ⟨_, [.send (serializeOps [⟨0, .createTag "div" none⟩, ⟨0, .setText "on"⟩]), .send (serializeOps [⟨0, .removeText⟩])], .elem "div" [("id", "0")] [] [.text "on"],
    _, [.send (serializeOps [⟨0, .createTag "div" none⟩])], .elem "div" [("id", "0")] [] [], rfl, rfl, ?_, ?_, rfl, ?_⟩
  · have e1 : splitPlus "div+" = ["div", ""] := by decide +kernel
    have a1 : asciiLower "div" = "div" := by decide +kernel
    have d0 : Nat.repr 0 = "0" := by decide +kernel
    simp [sends, clientMessages, serializeOps, Op.serialize, clientMessage, clientOp, withElement, replaceIn, replaceNode, Headers.get, e1, a1, d0, hB, textContent]
  · have e1 : splitPlus "div+" = ["div", ""] := by decide +kernel
    have a1 : asciiLower "div" = "div" := by decide +kernel
    have d0 : Nat.repr 0 = "0" := by decide +kernel
    simp [sends, clientMessages, serializeOps, Op.serialize, clientMessage, clientOp, e1, a1, d0, hB]
  · simp [Dom.Same, SameDoms]

/-- Non-vacuity: the two-state counter `capped`, updated once and updated three times, ends with the same view, and on the same page. -/
example (parse : String → Option ClientMessage) :
    ∃ st os d st' os' d', loopRun capped parse true (.waiting ()) [.whoAmI (), .input ()] = (.running st, os) ∧
      loopRun capped parse true (.waiting ()) [.whoAmI (), .input (), .input (), .input ()] = (.running st', os') ∧
      clientMessages plainBrowser (sends os) [] = [] ++ [d] ∧ clientMessages plainBrowser (sends os') [] = [] ++ [d'] ∧ d.Same d' := by
  obtain ⟨st, os, d, st', os', d', h1, h2, h3, h4, h5⟩ := C148_same_page_partial plainBrowser capped capped () () () () capped_friendly capped_friendly parse [] []
    (by simp [PageOk, domIds]) (by simp [PageOk, domIds]) [.input ()] [.input (), .input (), .input ()] (by simp) (by simp)
  refine ⟨st, os, d, st', os', d', h1, h2, h3, h4, h5 ?_⟩
  have e1 : st.comp = 1 := by
    have e := congrArg (fun r => match r.1 with | .running t => t.comp | _ => 7) h1
    exact e.symm
  have e2 : st'.comp = 1 := by
    have e := congrArg (fun r => match r.1 with | .running t => t.comp | _ => 7) h2
    exact e.symm
  rw [e1, e2]

end Puck

namespace Puck.Chat
open Puck

/-- **C148 for the chat.** Two users, in the same or in different runs of the application, whose components are in states with the same view (the same name, messages and field text) are shown
the same, whatever has happened before, on whatever pages. -/
theorem C148_chat (B : Browser) (hB : KnowsChat B) (parse parse' : String → Option ClientMessage) (firstSend firstSend' : Nat → Bool) (k k' : Nat) (n n' : ChatNet)
    (h : ChatSteps parse firstSend .init n) (h' : ChatSteps parse' firstSend' .init n') (u u' : UserProcs) (hu : n.users k = some u) (hu' : n'.users k' = some u')
    (l l' : Live) (hl : u.live = some l) (hl' : u'.live = some l') (hv : l.fieldCut.render.1 = l'.fieldCut.render.1) (page page' : List Dom) (hp : PageOk page) (hp' : PageOk page') :
    ∃ d d', clientMessages B u.sent page = page ++ [d] ∧ clientMessages B u'.sent page' = page' ++ [d'] ∧ d.Same d' := by
  obtain ⟨d, h1, h2, _⟩ := C85_exact_partial B hB parse firstSend k n h u hu l hl page hp
  obtain ⟨d', h1', h2', _⟩ := C85_exact_partial B hB parse' firstSend' k' n' h' u' hu' l' hl' page' hp'
  exact ⟨d, d', h1, h1', shown_same _ _ _ h2 (hv ▸ h2')⟩

end Puck.Chat
