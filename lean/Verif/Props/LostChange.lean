import Verif.Props.Recover
import Verif.Props.Wire
import Verif.Props.Live
/-!
# C161: a change that could not be sent
-/
namespace Puck.Json
open Rfc6455

variable {D I S E P : Type}

/-- The message that carries a changeset. -/
def asMessage (ops : List WireOp) : Message := .text (changesetText ops)

theorem messagesOf_eq (os : List (Out E)) : messagesOf os = (sends os).map asMessage := rfl

/-- Specification: a connection over which the messages `ws` were sent, of which exactly `got` were reported as sent, and which holds nothing of the others. -/
structure Loses (ws got : List Message) (sched : List WEv) : Prop where
  sent : succeeded ws ((WSink.mk [] sched).sendAll ws).1 = got
  clean : ((WSink.mk [] sched).sendAll ws).2.out.length ≤ ((got.map observed).flatten).length
  short : ∀ m ∈ ws, (wireOf m).payload.length < 2 ^ 64

/-- **C161 (which page it is).** When some of the changesets could not be sent and nothing of them was, the browser's page is the one that the others lead to. -/
theorem C161_page_partial (B : Browser) (page : List Dom) (ws : List Message) (l : List (List WireOp)) (sched : List WEv) (h : Loses ws (l.map asMessage) sched) :
    pageFrom B ((WSink.mk [] sched).sendAll ws).2.out page = clientMessages B l page := by
  obtain ⟨h1, h2, h3⟩ := h
  have key := C159_decoded_partial ws sched
  have hsub : ∀ (ms : List Message) (oks : List Bool), ∀ m ∈ succeeded ms oks, m ∈ ms := by
    intro ms
    induction ms with
    | nil => intro oks m hm; simp [succeeded] at hm
    | cons a ms ih =>
      intro oks m hm
      rcases oks with _ | ⟨_ | _, oks⟩
      · simp [succeeded] at hm
      · exact List.mem_cons_of_mem _ (ih oks m hm)
      · simp only [succeeded, List.mem_cons] at hm ⊢
        exact hm.imp_right (ih oks m)
  rw [h1] at key
  have key := fun n => key n h3 h2
  have hlen : (l.map asMessage).length ≤ ((WSink.mk [] sched).sendAll ws).2.out.length := by
    obtain ⟨x, g1, g2⟩ := C159_exact_partial ws (WSink.mk [] sched)
    have := g1.least.1
    rw [h1] at this
    have hf := length_flat (l.map asMessage)
    rw [show Message.bytes = observed from (funext observed_eq).symm] at hf
    rw [g2]
    simp only [List.nil_append]
    omega
  unfold pageFrom
  have e : ((WSink.mk [] sched).sendAll ws).2.out.length = (l.map asMessage).length + (((WSink.mk [] sched).sendAll ws).2.out.length - (l.map asMessage).length) := by
    omega
  rw [e, key]
  have : (l.map asMessage).map wireOf = (l.map changesetText).map fun t => wireOf (.text t) := by simp [asMessage]
  rw [this, textsOf_wire, pageAfter_changesets]

theorem session_end {C : Component D I S E P} {parse : String → Option ClientMessage} {p : P} {s s' : S} {ms : List (Mail I P)} {is : List I}
    (h : Session C parse p s ms is s') : s' = C.after p s is := by
  induction h with
  | nil => rfl
  | skip _ _ _ _ ih => exact ih
  | take _ _ ih => exact ih

theorem friendly_after {B : Browser} {C : Component D I S E P} {p : P} {s₀ : S} (hf : FriendlyFrom B C p s₀) (is : List I) : FriendlyFrom B C p (C.after p s₀ is) := by
  induction is generalizing s₀ with
  | nil => exact hf
  | cons i is ih => exact ih (hf.later i)

/-- **C161 (what holds).** Let the changesets of `ms₂` be lost and those before and after be sent.  If the losses brought the component to a view that is the one it
had before them, as when nothing it shows has changed, the page shows the component's current render. -/
theorem C161_returned_partial (B : Browser) (C : Component D I S E P) (p : P) (data : D) (hf : FriendlyFrom B C p (C.new data p).1) (page : List Dom) (hp : PageOk page)
    (ms₁ ms₂ ms₃ : List (Mail I P)) (hc : ∀ m ∈ ms₁ ++ ms₂ ++ ms₃, m ≠ .ws (.error .connectionClosed) ∧ ∀ q, m ≠ .whoAmI q) :
    ∃ st₁ st₂ st₃ os₁ os₂ os₃,
      loopRun C fromStr true (.waiting data) (.whoAmI p :: ms₁) = (.running st₁, os₁) ∧
      loopRun C fromStr true (.running st₁) ms₂ = (.running st₂, os₂) ∧
      loopRun C fromStr true (.running st₂) ms₃ = (.running st₃, os₃) ∧
      loopRun C fromStr true (.waiting data) (.whoAmI p :: (ms₁ ++ ms₂ ++ ms₃)) = (.running st₃, os₁ ++ os₂ ++ os₃) ∧
      ((C.render st₁.comp).1 = (C.render st₂.comp).1 → ∀ sched, Loses (messagesOf (os₁ ++ os₂ ++ os₃)) (messagesOf os₁ ++ messagesOf os₃) sched →
        ∃ d, pageFrom B ((WSink.mk [] sched).sendAll (messagesOf (os₁ ++ os₂ ++ os₃))).2.out page = page ++ [d] ∧ (C.render st₃.comp).1.ShownAs d) := by
  obtain ⟨is₁, s₁, j₁⟩ := session_total C fromStr p (C.new data p).1 ms₁ fun m hm => hc m (by simp [hm])
  obtain ⟨is₂, s₂, j₂⟩ := session_total C fromStr p s₁ ms₂ fun m hm => hc m (by simp [hm])
  obtain ⟨is₃, s₃, j₃⟩ := session_total C fromStr p s₂ ms₃ fun m hm => hc m (by simp [hm])
  have f₁ : FriendlyFrom B C p s₁ := by rw [session_end j₁]; exact friendly_after hf _
  have f₂ : FriendlyFrom B C p s₂ := by rw [session_end j₂]; exact friendly_after f₁ _
  obtain ⟨ops, d₀, h1, h2, h3⟩ := C62_first_paint_partial B page hp (C.render (C.new data p).1).1 (hf.ids []) (hf.attrs []) (hf.obeys [])
  obtain ⟨os₁, d₁, a1, a2, a3⟩ := updates_shown_from hp j₁ hf d₀ h3
  obtain ⟨os₂, _, b1, _, _⟩ := updates_shown_from hp j₂ f₁ d₁ a3
  obtain ⟨d, hd⟩ : ∃ d, (C.render s₂).1.ShownAs d := by
    obtain ⟨_, d, _, _, g⟩ := C62_first_paint_partial B page hp (C.render s₂).1 (f₂.ids []) (f₂.attrs []) (f₂.obeys [])
    exact ⟨d, g⟩
  obtain ⟨os₃, _, c1, _, _⟩ := updates_shown_from hp j₃ f₂ d hd
  have r₁ := C66_trace C fromStr data p ms₁ is₁ s₁ os₁ j₁ a1
  have r₂ : loopRun C fromStr true (.running ⟨p, s₁, (C.render s₁).1, (C.render s₁).2⟩) ms₂ = (.running ⟨p, s₂, (C.render s₂).1, (C.render s₂).2⟩, os₂) :=
    run_session (C := C) (st := ⟨p, s₁, (C.render s₁).1, (C.render s₁).2⟩) rfl j₂ b1
  have r₃ : loopRun C fromStr true (.running ⟨p, s₂, (C.render s₂).1, (C.render s₂).2⟩) ms₃ = (.running ⟨p, s₃, (C.render s₃).1, (C.render s₃).2⟩, os₃) :=
    run_session (C := C) (st := ⟨p, s₂, (C.render s₂).1, (C.render s₂).2⟩) rfl j₃ c1
  refine ⟨_, _, _, _, _, _, r₁, r₂, r₃, ?_, ?_⟩
  · have e : Mail.whoAmI p :: (ms₁ ++ ms₂ ++ ms₃) = ((Mail.whoAmI p :: ms₁) ++ ms₂) ++ ms₃ := by simp
    rw [e, loopRun_append, loopRun_append, r₁]
    simp only [r₂, r₃]
  · intro he sched hl
    simp only at he
    obtain ⟨os₃', d₃, c1', c2, c3⟩ := updates_shown_from hp j₃ f₂ d₁ (by rw [← he]; exact a3)
    cases c1.symm.trans c1'
    refine ⟨d₃, ?_, c3⟩
    rw [messagesOf_eq (opening C data p ++ os₁), messagesOf_eq os₃, ← List.map_append] at hl
    rw [C161_page_partial B page _ _ sched hl, clientMessages_append]
    cases h1
    have : clientMessages B (sends (opening C data p ++ os₁)) page = page ++ [d₁] := by
      rw [sends_append, opening, sends_append, sends_effects]
      simp only [sends, List.nil_append, List.cons_append, clientMessages, h2, a2]
    rw [this, c2]

/-- non-vacuity: the switch is turned on and off again, both messages are lost; then it is turned on, and the message is sent -/
example : ∃ os₁ os₂ os₃ st₁ st₂ st₃, loopRun switch fromStr true (.waiting ()) [.whoAmI ()] = (.running st₁, os₁) ∧
    loopRun switch fromStr true (.running st₁) [.input true, .input false] = (.running st₂, os₂) ∧
    loopRun switch fromStr true (.running st₂) [.input true] = (.running st₃, os₃) ∧ (switch.render st₁.comp).1 = (switch.render st₂.comp).1 ∧
    os₂ ≠ [] ∧ os₃ ≠ [] ∧ Loses (messagesOf (os₁ ++ os₂ ++ os₃)) (messagesOf os₁ ++ messagesOf os₃) [.room 159, .fail, .fail] := by
  refine ⟨_, _, _, _, _, _, rfl, rfl, rfl, rfl, by decide +kernel, by decide +kernel, ⟨by decide +kernel, by decide +kernel, by decide +kernel⟩⟩

/-- two labels that are turned on one after the other -/
def steps : Component Unit Unit Nat String Unit where
  new := fun _ _ => (0, [])
  update := fun s _ _ => (s + 1, [])
  render := fun s => (⟨0, "div", [], [], [⟨1, "p", [], [], [], some (if s = 0 then "a" else "b"), none⟩, ⟨2, "p", [], [], [], some (if s < 2 then "a" else "b"), none⟩], none, none⟩,
    fun _ => none)

theorem steps_friendly : BrowserFriendly plainBrowser steps () where
  ids := fun s => by simp [steps, Element.ids, idsOf]
  attrs := fun s => by simp [steps, Element.AttrsOk, AttrsOkAll, Headers.Distinct]
  obeys := fun s => by simp [steps, Element.Obeys, ObeysAll, clientRules, plainBrowser]; decide +kernel
  keys := fun s i => by simp [steps, KeyFit, KeyFitZip, AllKeyed]
  safe := fun s i => by
    simp [steps, Safe, SafeZip, NodeSafe, nodesAll, SilentAll, Element.ids, idsOf]

/-- two updates -/
def twoUpdates : List (Mail Unit Unit) := [.input (), .input ()]

/-- **C161 is false of the code.** A component all of whose changes the browser can follow; the message with its first change cannot be sent, nothing of it is written, and the message with
its second change is sent.  The page now shows what is no view of the component in any state. -/
theorem C161_made_up_refuted : ∃ (C : Component Unit Unit Nat String Unit) (sched : List WEv) (d : Dom), BrowserFriendly plainBrowser C () ∧
    ((WSink.mk [] sched).sendAll (messagesOf (loopRun C fromStr true (.waiting ()) (.whoAmI () :: twoUpdates)).2)).1 = [true, false, true] ∧
    pageFrom plainBrowser ((WSink.mk [] sched).sendAll (messagesOf (loopRun C fromStr true (.waiting ()) (.whoAmI () :: twoUpdates)).2)).2.out [] = [d] ∧
    ∀ s, ¬ (C.render s).1.ShownAs d := by
  refine ⟨steps, [.room 218, .fail], .elem "div" [("id", "0")] [] [.elem "p" [("id", "1")] [] [.text "a"], .elem "p" [("id", "2")] [] [.text "b"]], steps_friendly, by decide +kernel, ?_, ?_⟩
  · have h : Loses (messagesOf (loopRun steps fromStr true (.waiting ()) (.whoAmI () :: twoUpdates)).2)
        ([(sends (loopRun steps fromStr true (.waiting ()) (.whoAmI () :: twoUpdates)).2)[0]!, (sends (loopRun steps fromStr true (.waiting ()) (.whoAmI () :: twoUpdates)).2)[2]!].map asMessage)
        [.room 218, .fail] := ⟨by decide +kernel, by decide +kernel, by decide +kernel⟩
    rw [C161_page_partial plainBrowser [] _ _ _ h]
    rfl
  · intro s h
    simp only [steps, Element.ShownAs, ShownAsAll] at h
    obtain ⟨_, kids, e, -, d₁, ds, rfl, ⟨_, _, rfl, -, rfl⟩, d₂, _, rfl, ⟨_, _, rfl, -, rfl⟩, rfl⟩ := h
    simp only [textNodes, List.nil_append, List.append_nil, Dom.elem.injEq, List.cons.injEq, and_true, true_and] at e
    obtain ⟨-, ⟨-, e1⟩, -, e2⟩ := e
    by_cases h0 : s = 0
    · subst h0
      simp at e2
    · rw [if_neg h0] at e1
      simp at e1

end Puck.Json
