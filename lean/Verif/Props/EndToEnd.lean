import Verif.Props.Client
import Verif.Props.Component
/-!
# Browser and component together (C83, C84)
-/
namespace Puck

variable {D I S E P : Type}

/-! ## C83 -/

mutual
/-- All listeners in a view. -/
def Element.allListeners : Element → List ListenerRef
  | ⟨_, _, _, listeners, children, _, _⟩ => listeners ++ listenersIn children
/-- All listeners in a list of views. -/
def listenersIn : List Element → List ListenerRef
  | [] => []
  | e :: es => e.allListeners ++ listenersIn es
end

mutual
/-- All listeners registered in a DOM tree. -/
def Dom.allListeners : Dom → List ListenerRef
  | .text _ => []
  | .elem _ _ listeners children => listeners ++ domListeners children
/-- All listeners registered in a list of DOM trees. -/
def domListeners : List Dom → List ListenerRef
  | [] => []
  | d :: ds => d.allListeners ++ domListeners ds
end

theorem domListeners_append (a b : List Dom) : domListeners (a ++ b) = domListeners a ++ domListeners b := by
  induction a with
  | nil => rfl
  | cons d ds ih => simp [domListeners, ih]

theorem domListeners_text (t : Option String) : domListeners (textNodes t) = [] := by
  cases t with
  | none => rfl
  | some s => by_cases h : s = "" <;> simp [textNodes, h, domListeners, Dom.allListeners]

mutual
theorem shown_listeners : ∀ (e : Element) (d : Dom), e.ShownAs d → d.allListeners = e.allListeners
  | ⟨id, name, attributes, listeners, children, text, key⟩, d, h => by
    rw [Element.ShownAs] at h
    obtain ⟨attrs, kids, rfl, -, h2⟩ := h
    rw [Dom.allListeners, Element.allListeners, domListeners_append, domListeners_text, shown_listenersIn children kids h2]
    rfl
theorem shown_listenersIn : ∀ (es : List Element) (ds : List Dom), ShownAsAll es ds → domListeners ds = listenersIn es
  | [], ds, h => by rw [ShownAsAll] at h; rw [h]; rfl
  | e :: es, ds, h => by
    rw [ShownAsAll] at h
    obtain ⟨d, ds', rfl, h1, h2⟩ := h
    rw [domListeners, listenersIn, shown_listeners e d h1, shown_listenersIn es ds' h2]
end

/-- The update a listener asks for when its event happens with the field holding `value`. -/
def Listener.fire (l : Listener I) (value : String) : I :=
  match l with
  | .click i => i
  | .submit i => i
  | .input f => f value

/-- Every listener in the view is registered under its name, for the same kind of event. -/
def Registered (e : Element) (ls : String → Option (Listener I)) : Prop :=
  ∀ l ∈ e.allListeners, ∃ L, ls l.listenerName = some L ∧ L.jsEvent = l.jsEvent

/-- **C83.** Let the loop be in any state it reaches, the browser show the component's current render, and every listener of
that render be registered for its own kind of event.  Then for every listener in the page, its event makes the
browser send a message, and that message (if it arrives unchanged) updates the component with exactly what the
registered listener asks for; any other event sends nothing. -/
theorem C83_event_delivered (C : Component D I S E P) (parse : String → Option ClientMessage) (ok : Bool) (data : D) (p : P)
    (ms : List (Mail I P)) (st : LoopState I S P) (h : (loopRun C parse ok (.waiting data) (.whoAmI p :: ms)).1 = .running st)
    (d : Dom) (hd : (C.render st.comp).1.ShownAs d) (hr : Registered (C.render st.comp).1 (C.render st.comp).2)
    (l : ListenerRef) (hl : l ∈ d.allListeners) (value : String) :
    (∃ L name payload, (C.render st.comp).2 l.listenerName = some L ∧
      clientEvent l L.jsEvent value = some (name, payload) ∧
      ∀ contents, parse contents = some ⟨name, payload⟩ →
        loopStep C parse ok (.running st) (.ws (.ok (.text contents))) = updateAndDiff C st (L.fire value)) ∧
    (∀ on, on ≠ l.jsEvent → clientEvent l on value = none) := by
  obtain ⟨-, -, h3, -⟩ := C64_in_step C parse ok data p ms st h
  rw [shown_listeners _ _ hd] at hl
  obtain ⟨L, hL, hev⟩ := hr l hl
  refine ⟨?_, fun on hon => by simp [clientEvent, hon]⟩
  cases L with
  | click i =>
    have hev' : l.jsEvent = "click" := hev.symm
    refine ⟨_, l.listenerName, none, hL, by simp [clientEvent, Listener.jsEvent, hev'], fun contents hp => ?_⟩
    exact step_asks (Or.inr ⟨contents, _, rfl, hp, Or.inl (by rw [h3]; exact hL)⟩)
  | submit i =>
    have hev' : l.jsEvent = "submit" := hev.symm
    refine ⟨_, l.listenerName, none, hL, by simp [clientEvent, Listener.jsEvent, hev'], fun contents hp => ?_⟩
    exact step_asks (Or.inr ⟨contents, _, rfl, hp, Or.inr (Or.inl (by rw [h3]; exact hL))⟩)
  | input f =>
    have hev' : l.jsEvent = "input" := hev.symm
    refine ⟨_, l.listenerName, some value, hL, by simp [clientEvent, Listener.jsEvent, hev'], fun contents hp => ?_⟩
    exact step_asks (Or.inr ⟨contents, _, rfl, hp, Or.inr (Or.inr ⟨f, value, by rw [h3]; exact hL, rfl, rfl⟩)⟩)

/-- non-vacuity: the counter's only listener -/
example : Registered (counter.render 3).1 (counter.render 3).2 := by
  intro l hl
  simp [counter, Element.allListeners, listenersIn] at hl
  subst hl
  exact ⟨.click 1, by simp [counter], rfl⟩

/-! ## C84 -/

/-- The page after a list of messages. -/
def clientMessages (B : Browser) : List (List WireOp) → List Dom → List Dom
  | [], body => body
  | m :: ms, body => clientMessages B ms (clientMessage B m body)

theorem sends_append (a b : List (Out E)) : sends (a ++ b) = sends a ++ sends b := by
  induction a with
  | nil => rfl
  | cons o os ih => cases o <;> simp [sends, ih]

theorem sends_effects (es : List E) : sends (es.map (Out.effect (E := E))) = [] := by
  induction es with
  | nil => rfl
  | cons e es ih => simp [sends, ih]

theorem clientMessages_append (B : Browser) (a b : List (List WireOp)) (body : List Dom) :
    clientMessages B (a ++ b) body = clientMessages B b (clientMessages B a body) := by
  induction a generalizing body with
  | nil => rfl
  | cons m ms ih => simp [clientMessages, ih]

/-- The component's views are within what the browser client implements: names and values survive the trip, ids are
distinct, and the changes an update makes are safe (C63). -/
structure BrowserFriendly (B : Browser) (C : Component D I S E P) (p : P) : Prop where
  ids : ∀ s, (C.render s).1.ids.Nodup
  attrs : ∀ s, (C.render s).1.AttrsOk
  obeys : ∀ s, (C.render s).1.Obeys (clientRules B)
  keys : ∀ s i, KeyFit (C.render s).1 (C.render (C.update s i p).1).1
  safe : ∀ s i, Safe (clientRules B) [] (C.render s).1 (C.render (C.update s i p).1).1

/-- For this history the loop does not crash, and when the browser has processed all it was sent, the body has gained exactly one
subtree, which shows the component's current render. -/
def ShowsCurrent (B : Browser) (C : Component D I S E P) (parse : String → Option ClientMessage) (data : D) (p : P) (page : List Dom)
    (ms : List (Mail I P)) : Prop :=
  ∃ st os d, loopRun C parse true (.waiting data) (.whoAmI p :: ms) = (.running st, os) ∧
    clientMessages B (sends os) page = page ++ [d] ∧ (C.render st.comp).1.ShownAs d

/-- After every history in which the connection stays open the page shows the component's current render. -/
def StaysInStep (B : Browser) (C : Component D I S E P) (parse : String → Option ClientMessage) (data : D) (p : P) (page : List Dom) : Prop :=
  ∀ ms : List (Mail I P), (∀ m ∈ ms, m ≠ .ws (.error .connectionClosed) ∧ ∀ q, m ≠ .whoAmI q) → ShowsCurrent B C parse data p page ms

theorem updates_shown {B : Browser} {C : Component D I S E P} {p : P} (hf : BrowserFriendly B C p) {parse : String → Option ClientMessage}
    {page : List Dom} (hp : PageOk page) {s s' : S} {ms : List (Mail I P)} {is : List I} (h : Session C parse p s ms is s') :
    ∀ d, (C.render s).1.ShownAs d → ∃ os d', expectedOuts C p s is = some os ∧
      clientMessages B (sends os) (page ++ [d]) = page ++ [d'] ∧ (C.render s').1.ShownAs d' := by
  induction h with
  | nil s => intro d hd; exact ⟨[], d, rfl, rfl, hd⟩
  | skip _ _ _ _ ih => exact ih
  | @take s m ms i is s' hask _ ih =>
    intro d hd
    obtain ⟨ops, h1, h2⟩ := C63_update_partial B (C.render s).1 (C.render (C.update s i p).1).1 (hf.keys s i) (hf.safe s i) (hf.ids s)
      (hf.ids _) (hf.attrs s) (hf.attrs _) (hf.obeys s) (hf.obeys _)
    obtain ⟨d1, h3, h4⟩ := h2 page d hp hd
    obtain ⟨os, d2, h5, h6, h7⟩ := ih d1 h4
    refine ⟨_, d2, by simp only [expectedOuts, h1, h5]; rfl, ?_, h7⟩
    rw [sends_append, sends_append, sends_effects]
    simp only [sends, List.nil_append, List.cons_append, clientMessages, h3, h6]

/-- **C84 (what holds).** For every browser-friendly component, every page without numeric ids and every history in which the connection
stays open: the loop never crashes, and when the browser has processed all it was sent, the body has gained exactly
one subtree, which shows the component's current render. -/
theorem C84_sync_partial (B : Browser) (C : Component D I S E P) (p : P) (hf : BrowserFriendly B C p)
    (parse : String → Option ClientMessage) (data : D) (page : List Dom) (hp : PageOk page) (ms : List (Mail I P))
    (hc : ∀ m ∈ ms, m ≠ .ws (.error .connectionClosed) ∧ ∀ q, m ≠ .whoAmI q) :
    ∃ st os d, loopRun C parse true (.waiting data) (.whoAmI p :: ms) = (.running st, os) ∧
      clientMessages B (sends os) page = page ++ [d] ∧ (C.render st.comp).1.ShownAs d := by
  obtain ⟨is, s', h⟩ := session_total C parse p (C.new data p).1 ms hc
  obtain ⟨ops, d0, h1, h2, h3⟩ := C62_first_paint_partial B page hp (C.render (C.new data p).1).1 (hf.ids _) (hf.attrs _) (hf.obeys _)
  obtain ⟨os, d, h4, h5, h6⟩ := updates_shown hf hp h d0 h3
  refine ⟨_, _, d, C66_trace C parse data p ms is s' os h h4, ?_, h6⟩
  cases h1
  rw [sends_append, opening, sends_append, sends_effects]
  simp only [sends, List.nil_append, List.cons_append, clientMessages, h2, h5]

theorem counter_friendly : BrowserFriendly plainBrowser counter () where
  ids := fun s => by simp [counter, Element.ids, idsOf]
  attrs := fun s => by simp [counter, Element.AttrsOk, AttrsOkAll, Headers.Distinct]
  obeys := fun s => by simp [counter, Element.Obeys, ObeysAll, clientRules, plainBrowser]; decide +kernel
  keys := fun s i => by simp [counter, KeyFit, KeyFitZip, AllKeyed]
  safe := fun s i => by
    simp [counter, Safe, SafeZip, NodeSafe, nodesAll, Element.ids, idsOf]

/-- non-vacuity: the counter, over the history of `Props/Component.lean` -/
example (B : List Dom) (hB : PageOk B) : ∃ st os d, loopRun counter toyParse true (.waiting ()) (.whoAmI () :: toyHistory) = (.running st, os) ∧
    clientMessages plainBrowser (sends os) B = B ++ [d] ∧ (counter.render st.comp).1.ShownAs d :=
  C84_sync_partial plainBrowser counter () counter_friendly toyParse () B hB toyHistory (by simp [toyHistory])

end Puck
