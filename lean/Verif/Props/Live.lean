import Verif.Model.Live
import Verif.Props.Json
import Verif.Props.SyncFree
/-!
# Events under way (C113 - C115)
-/
namespace Puck

variable {D I S E P : Type}

/-! ## Components whose reachable views the browser can follow -/

/-- `BrowserFriendly`, asked only of the states the component can be brought to from `s₀`. -/
structure FriendlyFrom (B : Browser) (C : Component D I S E P) (p : P) (s₀ : S) : Prop where
  ids : ∀ is, (C.render (C.after p s₀ is)).1.ids.Nodup
  attrs : ∀ is, (C.render (C.after p s₀ is)).1.AttrsOk
  obeys : ∀ is, (C.render (C.after p s₀ is)).1.Obeys (clientRules B)
  keys : ∀ is i, KeyFit (C.render (C.after p s₀ is)).1 (C.render (C.after p s₀ (is ++ [i]))).1
  safe : ∀ is i, Safe (clientRules B) [] (C.render (C.after p s₀ is)).1 (C.render (C.after p s₀ (is ++ [i]))).1

theorem after_append (C : Component D I S E P) (p : P) (s : S) (is js : List I) :
    C.after p s (is ++ js) = C.after p (C.after p s is) js := by
  simp [Component.after]

theorem after_snoc (C : Component D I S E P) (p : P) (s : S) (is : List I) (i : I) :
    C.after p s (is ++ [i]) = (C.update (C.after p s is) i p).1 := by
  simp [Component.after]

theorem BrowserFriendly.from {B : Browser} {C : Component D I S E P} {p : P} (hf : BrowserFriendly B C p) (s₀ : S) : FriendlyFrom B C p s₀ where
  ids := fun _ => hf.ids _
  attrs := fun _ => hf.attrs _
  obeys := fun _ => hf.obeys _
  keys := fun is i => by rw [after_snoc]; exact hf.keys _ i
  safe := fun is i => by rw [after_snoc]; exact hf.safe _ i

theorem FriendlyFrom.later {B : Browser} {C : Component D I S E P} {p : P} {s₀ : S} (hf : FriendlyFrom B C p s₀) (i : I) :
    FriendlyFrom B C p (C.update s₀ i p).1 where
  ids := fun is => hf.ids (i :: is)
  attrs := fun is => hf.attrs (i :: is)
  obeys := fun is => hf.obeys (i :: is)
  keys := fun is j => hf.keys (i :: is) j
  safe := fun is j => hf.safe (i :: is) j

theorem updates_shown_from {B : Browser} {C : Component D I S E P} {p : P} {parse : String → Option ClientMessage}
    {page : List Dom} (hp : PageOk page) {s s' : S} {ms : List (Mail I P)} {is : List I} (h : Session C parse p s ms is s') :
    FriendlyFrom B C p s → ∀ d, (C.render s).1.ShownAs d → ∃ os d', expectedOuts C p s is = some os ∧
      clientMessages B (sends os) (page ++ [d]) = page ++ [d'] ∧ (C.render s').1.ShownAs d' := by
  induction h with
  | nil s => intro _ d hd; exact ⟨[], d, rfl, rfl, hd⟩
  | skip _ _ _ _ ih => exact ih
  | @take s m ms i is s' hask _ ih =>
    intro hf d hd
    obtain ⟨ops, h1, h2⟩ := C63_update_partial B (C.render s).1 (C.render (C.update s i p).1).1 (hf.keys [] i) (hf.safe [] i) (hf.ids [])
      (hf.ids [i]) (hf.attrs []) (hf.attrs [i]) (hf.obeys []) (hf.obeys [i])
    obtain ⟨d1, h3, h4⟩ := h2 page d hp hd
    obtain ⟨os, d2, h5, h6, h7⟩ := ih (hf.later i) d1 h4
    refine ⟨_, d2, by simp only [expectedOuts, h1, h5]; rfl, ?_, h7⟩
    rw [sends_append, sends_append, sends_effects]
    simp only [sends, List.nil_append, List.cons_append, clientMessages, h3, h6]

/-- **C84 (what holds), asking nothing of states that do not occur.** As `C84_sync_partial`, for components which are browser-friendly in the states they can be brought
to from their first. -/
theorem C84_reachable_partial (B : Browser) (C : Component D I S E P) (p : P) (data : D) (hf : FriendlyFrom B C p (C.new data p).1)
    (parse : String → Option ClientMessage) (page : List Dom) (hp : PageOk page) (ms : List (Mail I P))
    (hc : ∀ m ∈ ms, m ≠ .ws (.error .connectionClosed) ∧ ∀ q, m ≠ .whoAmI q) :
    ∃ st os d, loopRun C parse true (.waiting data) (.whoAmI p :: ms) = (.running st, os) ∧
      clientMessages B (sends os) page = page ++ [d] ∧ (C.render st.comp).1.ShownAs d := by
  obtain ⟨is, s', h⟩ := session_total C parse p (C.new data p).1 ms hc
  obtain ⟨ops, d0, h1, h2, h3⟩ := C62_first_paint_partial B page hp (C.render (C.new data p).1).1 (hf.ids []) (hf.attrs []) (hf.obeys [])
  obtain ⟨os, d, h4, h5, h6⟩ := updates_shown_from hp h hf d0 h3
  refine ⟨_, _, d, C66_trace C parse data p ms is s' os h h4, ?_, h6⟩
  cases h1
  rw [sends_append, opening, sends_append, sends_effects]
  simp only [sends, List.nil_append, List.cons_append, clientMessages, h2, h5]

/-- a component that is browser-friendly only where it can get: a state that would have no proper view is never reached -/
def capped : Component Unit Unit Nat String Unit where
  new := fun _ _ => (0, [])
  update := fun s _ _ => ((s + 1) % 2, [])
  render := fun s => (⟨0, if s < 2 then "p" else "", [], [], [], some (toString s), none⟩, fun _ => none)

theorem capped_after (is : List Unit) : capped.after () 0 is < 2 := by
  have aux : ∀ s < 2, capped.after () s is < 2 := by
    induction is with
    | nil => exact fun s hs => hs
    | cons i is ih => exact fun s _ => ih _ (Nat.mod_lt _ (by decide))
  exact aux 0 (by decide)

theorem capped_friendly : FriendlyFrom plainBrowser capped () 0 where
  ids := fun is => by simp [capped, Element.ids, idsOf]
  attrs := fun is => by simp [capped, Element.AttrsOk, AttrsOkAll, Headers.Distinct]
  obeys := fun is => by
    have := capped_after is
    generalize capped.after () 0 is = s at this
    simp [capped, Element.Obeys, ObeysAll, clientRules, plainBrowser, this]
    decide +kernel
  keys := fun is i => by simp [capped, KeyFit, KeyFitZip, AllKeyed]
  safe := fun is i => by
    have h1 := capped_after is
    have h2 := capped_after (is ++ [i])
    generalize capped.after () 0 is = s at h1
    generalize capped.after () 0 (is ++ [i]) = s' at h2
    simp [capped, Safe, SafeZip, NodeSafe, nodesAll, h1, h2]

/-- non-vacuity: `capped`, over any history -/
example (page : List Dom) (hp : PageOk page) (ms : List (Mail Unit Unit)) (hc : ∀ m ∈ ms, m ≠ .ws (.error .connectionClosed) ∧ ∀ q, m ≠ .whoAmI q) :
    ∃ st os d, loopRun capped toyParse true (.waiting ()) (.whoAmI () :: ms) = (.running st, os) ∧
      clientMessages plainBrowser (sends os) page = page ++ [d] ∧ (capped.render st.comp).1.ShownAs d :=
  C84_reachable_partial plainBrowser capped () () capped_friendly toyParse page hp ms hc

/-! ## Components whose messages keep the page in step -/

/-- The first paint shows the first view, and every update from a state the component can be brought to takes the browser from one view to the next. -/
structure InStepFrom (B : Browser) (C : Component D I S E P) (p : P) (s₀ : S) : Prop where
  paints : ∀ page, PageOk page → ∃ d, clientMessage B (serializeOps (createFromScratch none (C.render s₀).1)) page = page ++ [d] ∧ (C.render s₀).1.ShownAs d
  follows : ∀ is i, (C.render (C.after p s₀ is)).1.UpdatesInBrowser B (C.render (C.after p s₀ (is ++ [i]))).1

/-- browser-friendly components do so -/
theorem FriendlyFrom.inStep {B : Browser} {C : Component D I S E P} {p : P} {s₀ : S} (hf : FriendlyFrom B C p s₀) : InStepFrom B C p s₀ where
  paints := fun page hp => by
    obtain ⟨ops, d, h1, h2, h3⟩ := C62_first_paint_partial B page hp (C.render s₀).1 (hf.ids []) (hf.attrs []) (hf.obeys [])
    cases h1
    exact ⟨d, h2, h3⟩
  follows := fun is i => C63_update_partial B _ _ (hf.keys is i) (hf.safe is i) (hf.ids is) (hf.ids (is ++ [i])) (hf.attrs is) (hf.attrs (is ++ [i]))
    (hf.obeys is) (hf.obeys (is ++ [i]))

/-- so do components with a fixed layout, if every update can be followed -/
theorem FixedLayout.inStep {B : Browser} {C : Component D I S E P} (hf : FixedLayout B C) {p : P} {s₀ : S}
    (h : ∀ is i, InStep (C.render (C.after p s₀ is)).1 (C.render (C.after p s₀ (is ++ [i]))).1) : InStepFrom B C p s₀ where
  paints := fun page hp => by
    obtain ⟨h0, h0', -⟩ := hf.trees s₀ s₀
    obtain ⟨ops, d, h1, h2, h3⟩ := C62_first_paint_partial B page hp (C.render s₀).1 h0 h0' (hf.obeys _)
    cases h1
    exact ⟨d, h2, h3⟩
  follows := fun is i => by
    obtain ⟨-, -, ops, h1, h2, -⟩ := hf.trees (C.after p s₀ is) (C.after p s₀ (is ++ [i]))
    exact ⟨ops, h1, h2 (h is i)⟩

/-- and components whose structure may change, if every update can be followed -/
theorem FreeLayout.inStep {B : Browser} {C : Component D I S E P} (hf : FreeLayout B C) {p : P} {s₀ : S}
    (h : ∀ is i, Followable (C.render (C.after p s₀ is)).1 (C.render (C.after p s₀ (is ++ [i]))).1) : InStepFrom B C p s₀ where
  paints := fun page hp => by
    obtain ⟨h0, h0', -⟩ := hf.trees s₀ s₀
    obtain ⟨ops, d, h1, h2, h3⟩ := C62_first_paint_partial B page hp (C.render s₀).1 h0 h0' (hf.obeys _)
    cases h1
    exact ⟨d, h2, h3⟩
  follows := fun is i => by
    obtain ⟨-, -, ops, h1, h2⟩ := hf.trees (C.after p s₀ is) (C.after p s₀ (is ++ [i]))
    refine ⟨ops, h1, fun page d hp hd => ?_⟩
    obtain ⟨d', h3, h4⟩ := (h2 page d hp hd).2 (h is i)
    exact ⟨d', clientAll_message h3, h4⟩

/-! ## What an event asks for -/

/-- The update an event asks for, when the listeners are `ls`: that of the click or submit listener of this name, or of the input listener
of this name for the value sent. -/
def asked (ls : String → Option (Listener I)) (e : String × Option String) : Option I :=
  match ls e.1 with
  | some (.click i) => some i
  | some (.submit i) => some i
  | some (.input f) => e.2.map f
  | none => none

theorem asked_some {ls : String → Option (Listener I)} {e : String × Option String} {i : I} :
    asked ls e = some i ↔ Asks (P := P) Json.fromStr ls (.ws (.ok (.text (Json.eventText e.1 e.2)))) i := by
  obtain ⟨name, payload⟩ := e
  constructor
  · intro h
    refine Or.inr ⟨_, _, rfl, Json.C93_event_json name payload, ?_⟩
    unfold asked at h
    cases hl : ls name with
    | none => simp [hl] at h
    | some L =>
      cases L with
      | click j => simp [hl] at h; subst h; exact Or.inl rfl
      | submit j => simp [hl] at h; subst h; exact Or.inr (Or.inl rfl)
      | input f =>
        simp [hl] at h
        obtain ⟨v, h1, h2⟩ := h
        exact Or.inr (Or.inr ⟨f, v, rfl, h1, h2.symm⟩)
  · rintro (h | ⟨c, t, h1, h2, h3⟩)
    · cases h
    · cases h1
      rw [Json.C93_event_json] at h2
      cases h2
      rcases h3 with h | h | ⟨f, v, h, hv, rfl⟩
      · simp [asked, h]
      · simp [asked, h]
      · simp only at hv; simp [asked, h, hv]

theorem handle_step (C : Component D I S E P) (st : LoopState I S P) (e : String × Option String) :
    loopStep C Json.fromStr true (.running st) (.ws (.ok (.text (Json.eventText e.1 e.2)))) =
      match asked st.listeners e with
      | some i => updateAndDiff C st i
      | none => (.running st, []) := by
  cases h : asked st.listeners e with
  | some i => exact step_asks (asked_some.1 h)
  | none =>
    refine step_ignored (fun i hi => ?_) (by simp) (by simp)
    rw [asked_some.2 hi] at h
    cases h

/-! ## The invariant -/

/-- The changesets under way lead from one state to another. -/
inductive Leads (C : Component D I S E P) (p : P) : S → List (List WireOp × S) → S → Prop
  | nil (s : S) : Leads C p s [] s
  | cons {s s' : S} {i : I} {ops : List Op} {rest : List (List WireOp × S)} :
      (C.render s).1.diff (some (C.render (C.update s i p).1).1) = some ops → Leads C p (C.update s i p).1 rest s' →
      Leads C p s ((serializeOps ops, (C.update s i p).1) :: rest) s'

theorem Leads.snoc {C : Component D I S E P} {p : P} {s s' : S} {q : List (List WireOp × S)} (h : Leads C p s q s') {i : I} {ops : List Op}
    (hd : (C.render s').1.diff (some (C.render (C.update s' i p).1).1) = some ops) :
    Leads C p s (q ++ [(serializeOps ops, (C.update s' i p).1)]) (C.update s' i p).1 := by
  induction h with
  | nil s => exact .cons hd (.nil _)
  | cons h1 _ ih => exact .cons h1 (ih hd)

theorem Leads.after {C : Component D I S E P} {p : P} {s s' : S} {q : List (List WireOp × S)} (h : Leads C p s q s') :
    ∃ is, s' = C.after p s is := by
  induction h with
  | nil s => exact ⟨[], rfl⟩
  | @cons s s' i ops rest _ _ ih => obtain ⟨is, rfl⟩ := ih; exact ⟨i :: is, rfl⟩

theorem Leads.head {C : Component D I S E P} {p : P} {s s' t : S} {w : List WireOp} {q : List (List WireOp × S)} (h : Leads C p s ((w, t) :: q) s') :
    ∃ i ops, (C.render s).1.diff (some (C.render (C.update s i p).1).1) = some ops ∧ w = serializeOps ops ∧ t = (C.update s i p).1 ∧
      Leads C p t q s' := by
  cases h with
  | cons h1 h2 => exact ⟨_, _, h1, rfl, rfl, h2⟩

/-- What holds of an event: it was sent by a listener of the view of a state from which the component came to `now`. -/
def Sent (C : Component D I S E P) (p : P) (s₀ : S) (e : String × Option String) (seen now : S) : Prop :=
  ∃ is js, seen = C.after p s₀ is ∧ now = C.after p seen js ∧
    ∃ l ∈ (C.render seen).1.allListeners, ∃ value, clientEvent l l.jsEvent value = some e

/-- What holds in every state reached. -/
structure LiveInv (C : Component D I S E P) (p : P) (s₀ : S) (page : List Dom) (n : LivePage I S P) : Prop where
  proc : n.loop.proc = p
  sync : n.loop.InSync C
  reach : ∃ is, n.shown = C.after p s₀ is
  page : (n.body = page ∧ n.shown = s₀ ∧ ∃ rest, n.down = (serializeOps (createFromScratch none (C.render s₀).1), s₀) :: rest ∧
        Leads C p s₀ rest n.loop.comp) ∨
      (∃ d, n.body = page ++ [d] ∧ (C.render n.shown).1.ShownAs d ∧ Leads C p n.shown n.down n.loop.comp)
  up : ∀ x ∈ n.up, Sent C p s₀ x.1 x.2 n.loop.comp
  log : ∀ x ∈ n.log, Sent C p s₀ x.1 x.2.1 x.2.2

theorem LiveInv.reached {C : Component D I S E P} {p : P} {s₀ : S} {page : List Dom} {n : LivePage I S P} (h : LiveInv C p s₀ page n) :
    ∃ js, n.loop.comp = C.after p n.shown js := by
  rcases h.page with ⟨-, h1, rest, -, h2⟩ | ⟨d, -, -, h2⟩
  · rw [h1]; exact h2.after
  · exact h2.after

theorem target_listeners {d : Dom} {path : List Dom} (h : Target d path) : ∀ x ∈ path, ∀ l ∈ x.listeners, l ∈ d.allListeners := by
  induction h with
  | here tag attrs ls cs =>
    intro x hx l hl
    simp only [List.mem_singleton] at hx
    subst hx
    simp [Dom.allListeners, Dom.listeners] at hl ⊢
    exact Or.inl hl
  | @inside tag attrs ls cs c path hc _ ih =>
    intro x hx l hl
    rw [Dom.allListeners, List.mem_append]
    rcases List.mem_append.1 hx with hx | hx
    · refine Or.inr ?_
      have := ih x hx l hl
      obtain ⟨a, b, rfl⟩ := List.append_of_mem hc
      rw [domListeners_append, domListeners]
      simp [this]
    · simp only [List.mem_singleton] at hx
      subst hx
      exact Or.inl hl

theorem mem_domListeners {ds : List Dom} {d : Dom} (h : d ∈ ds) {l : ListenerRef} (hl : l ∈ d.allListeners) : l ∈ domListeners ds := by
  obtain ⟨a, b, rfl⟩ := List.append_of_mem h
  rw [domListeners_append, domListeners]
  simp [hl]

theorem dispatch_mem {on value : String} {path : List Dom} {e : String × Option String} (h : e ∈ dispatch on value path) :
    ∃ x ∈ path, ∃ l ∈ x.listeners, clientEvent l l.jsEvent value = some e := by
  unfold dispatch at h
  obtain ⟨x, hx, h⟩ := List.mem_flatMap.1 h
  obtain ⟨l, hl, h⟩ := List.mem_filterMap.1 h
  refine ⟨x, hx, l, hl, ?_⟩
  by_cases hon : on = l.jsEvent
  · rw [← hon]; exact h
  · simp [clientEvent, hon] at h

theorem Sent.later {C : Component D I S E P} {p : P} {s₀ : S} {e : String × Option String} {seen now : S} (h : Sent C p s₀ e seen now) (i : I) :
    Sent C p s₀ e seen (C.update now i p).1 := by
  obtain ⟨is, js, h1, h2, h3⟩ := h
  exact ⟨is, js ++ [i], h1, by rw [after_snoc, ← h2], h3⟩

theorem LiveInv.update {C : Component D I S E P} {p : P} {s₀ : S} {page : List Dom} {n : LivePage I S P} (h : LiveInv C p s₀ page n)
    {i : I} {st : LoopState I S P} {os : List (Out E)} (hu : updateAndDiff C n.loop i = (.running st, os)) :
    LiveInv C p s₀ page { n with loop := st, down := n.down ++ (sends os).map fun ops => (ops, st.comp) } := by
  rcases update_cases C h.sync i with ⟨-, h2⟩ | ⟨ops, h1, h2⟩
  · rw [h2] at hu; cases hu
  · rw [h2] at hu
    injection hu with h3 h4
    injection h3 with h3
    subst h3 h4
    rw [sends_append, sends_effects]
    rw [h.proc] at h1 ⊢
    refine ⟨rfl, rfl, h.reach, ?_, fun x hx => (h.up x hx).later i, h.log⟩
    rcases h.page with ⟨a1, a2, rest, a3, a4⟩ | ⟨d, a1, a2, a3⟩
    · exact Or.inl ⟨a1, a2, _, by rw [a3]; rfl, a4.snoc h1⟩
    · exact Or.inr ⟨d, a1, a2, a3.snoc h1⟩

theorem live_step {B : Browser} {C : Component D I S E P} {p : P} {s₀ : S} {page : List Dom} (hp : PageOk page) (hl : domListeners page = [])
    (hf : InStepFrom B C p s₀) {n n' : LivePage I S P} (h : LiveInv C p s₀ page n) (hs : LiveStep B C n n') : LiveInv C p s₀ page n' := by
  cases hs with
  | @display ops s rest hd =>
    rcases h.page with ⟨a1, a2, rest', a3, a4⟩ | ⟨d, a1, a2, a3⟩
    · rw [hd] at a3
      cases a3
      obtain ⟨d, b2, b3⟩ := hf.paints page hp
      exact ⟨h.proc, h.sync, ⟨[], rfl⟩, Or.inr ⟨d, by simp only [a1, b2], b3, a4⟩, h.up, h.log⟩
    · rw [hd] at a3
      obtain ⟨is, hi⟩ := h.reach
      obtain ⟨i, ops', c1, rfl, rfl, c2⟩ := a3.head
      obtain ⟨ops'', g1, g2⟩ := hf.follows is i
      rw [after_snoc, ← hi] at g1 g2
      cases g1.symm.trans c1
      obtain ⟨d', g3, g4⟩ := g2 page d hp a2
      exact ⟨h.proc, h.sync, ⟨is ++ [i], by rw [after_snoc, ← hi]⟩, Or.inr ⟨d', by simp only [a1, g3], g4, c2⟩, h.up, h.log⟩
  | @event d path on value hd ht =>
    refine ⟨h.proc, h.sync, h.reach, h.page, fun x hx => ?_, h.log⟩
    rcases List.mem_append.1 hx with hx | hx
    · exact h.up x hx
    · obtain ⟨e, he, rfl⟩ := List.mem_map.1 hx
      obtain ⟨y, hy, l, hl', hev⟩ := dispatch_mem he
      have hm := target_listeners ht y hy l hl'
      obtain ⟨is, hi⟩ := h.reach
      obtain ⟨js, hj⟩ := h.reached
      refine ⟨is, js, hi, hj, l, ?_, value, hev⟩
      have hb := mem_domListeners hd hm
      rcases h.page with ⟨a1, -⟩ | ⟨d', a1, a2, -⟩
      · rw [a1, hl] at hb; cases hb
      · rw [a1, domListeners_append, hl, domListeners, domListeners, shown_listeners _ _ a2] at hb
        simpa using hb
  | @handle e s rest st os hu hst =>
    have h' : LiveInv C p s₀ page { n with loop := st, down := n.down ++ (sends os).map fun ops => (ops, st.comp) } := by
      rw [handle_step] at hst
      cases ha : asked n.loop.listeners e with
      | some i => rw [ha] at hst; exact h.update hst
      | none =>
        rw [ha] at hst
        injection hst with h3 h4
        injection h3 with h3
        subst h3 h4
        simp only [sends, List.map_nil, List.append_nil]
        exact h
    refine ⟨h'.proc, h'.sync, h'.reach, h'.page, fun x hx => h'.up x ?_, fun x hx => ?_⟩
    · simp only [hu]; exact List.mem_cons_of_mem _ hx
    · rcases List.mem_append.1 hx with hx | hx
      · exact h.log x hx
      · simp only [List.mem_singleton] at hx
        subst hx
        exact h.up (e, s) (by rw [hu]; exact List.mem_cons_self)
  | input i hst => exact h.update hst

theorem live_inv {B : Browser} {C : Component D I S E P} {data : D} {p : P} {page : List Dom} (hp : PageOk page) (hl : domListeners page = [])
    (hf : InStepFrom B C p (C.new data p).1) {n : LivePage I S P} (h : LiveSteps B C (LivePage.start C data p page) n) :
    LiveInv C p (C.new data p).1 page n := by
  induction h with
  | refl =>
    exact ⟨rfl, rfl, ⟨[], rfl⟩, Or.inl ⟨rfl, rfl, [], rfl, .nil _⟩, (fun x hx => by simp [LivePage.start] at hx), (fun x hx => by simp [LivePage.start] at hx)⟩
  | step _ hs ih => exact live_step hp hl hf ih hs

/-! ## Bringing about a given order of things -/

theorem LiveSteps.trans {B : Browser} {C : Component D I S E P} {a b c : LivePage I S P} (h : LiveSteps B C a b) (h' : LiveSteps B C b c) :
    LiveSteps B C a c := by
  induction h' with
  | refl => exact h
  | step _ hs ih => exact .step ih hs

theorem follows_update {B : Browser} {C : Component D I S E P} {p : P} {s₀ : S} (hf : InStepFrom B C p s₀) {st : LoopState I S P}
    (hpr : st.proc = p) (hs : st.InSync C) {is : List I} (hi : st.comp = C.after p s₀ is) (i : I) :
    ∃ st' os, updateAndDiff C st i = (.running st', os) ∧ st'.proc = p ∧ st'.InSync C ∧ st'.comp = C.after p s₀ (is ++ [i]) := by
  rcases update_cases C hs i with ⟨h1, -⟩ | ⟨ops, h1, h2⟩
  · obtain ⟨ops, ho, -⟩ := hf.follows is i
    rw [after_snoc, ← hi, ← hpr] at ho
    exact absurd (h1.symm.trans ho) (by simp)
  · exact ⟨_, _, h2, hpr, rfl, by rw [after_snoc, ← hi, ← hpr]⟩

/-- Other processes can bring the component to any state. -/
theorem inputs_happen {B : Browser} {C : Component D I S E P} {p : P} {s₀ : S} (hf : InStepFrom B C p s₀) (js : List I) :
    ∀ {n : LivePage I S P} {is : List I}, n.loop.proc = p → n.loop.InSync C → n.loop.comp = C.after p s₀ is →
      ∃ n', LiveSteps B C n n' ∧ n'.loop.proc = p ∧ n'.loop.InSync C ∧ n'.loop.comp = C.after p s₀ (is ++ js) ∧
        n'.body = n.body ∧ n'.shown = n.shown ∧ n'.up = n.up ∧ n'.log = n.log := by
  induction js with
  | nil => intro n is h1 h2 h3; exact ⟨n, .refl n, h1, h2, by simpa using h3, rfl, rfl, rfl, rfl⟩
  | cons j js ih =>
    intro n is h1 h2 h3
    obtain ⟨st, os, g1, g2, g3, g4⟩ := follows_update hf h1 h2 h3 j
    have hstep : LiveStep B C n _ := .input j (st := st) (os := os) g1
    obtain ⟨n', k1, k2, k3, k4, k5, k6, k7, k8⟩ := ih (n := { n with loop := st, down := n.down ++ (sends os).map fun ops => (ops, st.comp) })
      (is := is ++ [j]) g2 g3 g4
    exact ⟨n', (LiveSteps.step (.refl n) hstep).trans k1, k2, k3, by simpa using k4, k5, k6, k7, k8⟩

/-- The browser can catch up. -/
theorem displays_happen {B : Browser} {C : Component D I S E P} (n : LivePage I S P) :
    ∃ n', LiveSteps B C n n' ∧ n'.down = [] ∧ n'.loop = n.loop ∧ n'.up = n.up ∧ n'.log = n.log := by
  generalize hq : n.down = q
  induction q generalizing n with
  | nil => exact ⟨n, .refl n, hq, rfl, rfl, rfl⟩
  | cons x q ih =>
    obtain ⟨n', k1, k2, k3, k4, k5⟩ := ih { n with body := clientMessage B x.1 n.body, shown := x.2, down := q } rfl
    exact ⟨n', (LiveSteps.step (.refl n) (.display hq)).trans k1, k2, k3, k4, k5⟩

mutual
theorem target_of_listener : ∀ (d : Dom) {l : ListenerRef}, l ∈ d.allListeners → ∃ path x, Target d path ∧ x ∈ path ∧ l ∈ x.listeners
  | .text _, l, h => by simp [Dom.allListeners] at h
  | .elem tag attrs ls cs, l, h => by
    rw [Dom.allListeners, List.mem_append] at h
    rcases h with h | h
    · exact ⟨_, _, .here tag attrs ls cs, List.mem_singleton.2 rfl, h⟩
    · obtain ⟨c, path, x, hc, ht, hx, hl⟩ := target_of_listeners cs h
      exact ⟨_, x, .inside hc ht, List.mem_append.2 (Or.inl hx), hl⟩
theorem target_of_listeners : ∀ (ds : List Dom) {l : ListenerRef}, l ∈ domListeners ds →
    ∃ c path x, c ∈ ds ∧ Target c path ∧ x ∈ path ∧ l ∈ x.listeners
  | [], l, h => by simp [domListeners] at h
  | d :: ds, l, h => by
    rw [domListeners, List.mem_append] at h
    rcases h with h | h
    · obtain ⟨path, x, h1, h2, h3⟩ := target_of_listener d h
      exact ⟨d, path, x, List.mem_cons_self, h1, h2, h3⟩
    · obtain ⟨c, path, x, h0, h1, h2, h3⟩ := target_of_listeners ds h
      exact ⟨c, path, x, List.mem_cons_of_mem _ h0, h1, h2, h3⟩
end

theorem mem_dispatch {on value : String} {path : List Dom} {x : Dom} {l : ListenerRef} {e : String × Option String} (hx : x ∈ path)
    (hl : l ∈ x.listeners) (h : clientEvent l on value = some e) : e ∈ dispatch on value path :=
  List.mem_flatMap.2 ⟨x, hx, List.mem_filterMap.2 ⟨l, hl, h⟩⟩

/-! ## C113, C114 -/

/-- No event runs more than one listener: no element that listens to an event is inside another that listens to the same one, or listens twice. -/
def OneListener (C : Component D I S E P) (p : P) (s₀ : S) : Prop :=
  ∀ is d, (C.render (C.after p s₀ is)).1.ShownAs d → ∀ path on value, Target d path → (dispatch on value path).length ≤ 1

theorem handled_of {B : Browser} {C : Component D I S E P} {data : D} {p : P} {page : List Dom} (hp : PageOk page) (hl : domListeners page = [])
    (hf : InStepFrom B C p (C.new data p).1) (R : Option I → Option I → Prop)
    (h : ∀ is js, ∀ l ∈ (C.render (C.after p (C.new data p).1 is)).1.allListeners, ∀ value e, clientEvent l l.jsEvent value = some e →
      R (asked (C.render (C.after p (C.new data p).1 is)).2 e) (asked (C.render (C.after p (C.new data p).1 (is ++ js))).2 e))
    {n : LivePage I S P} (hn : LiveSteps B C (LivePage.start C data p page) n) {e : String × Option String} {seen now : S}
    (hm : (e, seen, now) ∈ n.log) : R (asked (C.render seen).2 e) (asked (C.render now).2 e) := by
  obtain ⟨is, js, h1, h2, l, h3, value, h4⟩ := (live_inv hp hl hf hn).log _ hm
  simp only at h1 h2 h3 h4
  subst h1
  subst h2
  have := h is js l h3 value e h4
  rw [after_append] at this
  exact this

/-- Which relation holds between what an event meant when it happened and what it means when it is handled: exactly what holds between what
every listener of every view means there and in every later view. -/
theorem handled_iff {B : Browser} {C : Component D I S E P} {data : D} {p : P} {page : List Dom} (hp : PageOk page) (hl : domListeners page = [])
    (hf : InStepFrom B C p (C.new data p).1) (ho : OneListener C p (C.new data p).1) (R : Option I → Option I → Prop) :
    (∀ n, LiveSteps B C (LivePage.start C data p page) n → ∀ e seen now, (e, seen, now) ∈ n.log →
        R (asked (C.render seen).2 e) (asked (C.render now).2 e)) ↔
      ∀ is js, ∀ l ∈ (C.render (C.after p (C.new data p).1 is)).1.allListeners, ∀ value e, clientEvent l l.jsEvent value = some e →
        R (asked (C.render (C.after p (C.new data p).1 is)).2 e) (asked (C.render (C.after p (C.new data p).1 (is ++ js))).2 e) := by
  constructor
  · intro h is js l hm value e he
    obtain ⟨n1, a1, a2, a3, a4, a5, a6, a7, a8⟩ := inputs_happen hf is (n := LivePage.start C data p page) (is := []) rfl rfl rfl
    obtain ⟨n2, b1, b2, b3, b4, b5⟩ := displays_happen (B := B) (C := C) n1
    have hs2 := a1.trans b1
    have inv := live_inv hp hl hf hs2
    rcases inv.page with ⟨-, -, rest, c, -⟩ | ⟨d, c1, c2, c3⟩
    · rw [b2] at c; cases c
    · rw [b2] at c3
      have hsh : n2.shown = C.after p (C.new data p).1 is := by
        generalize hq : n2.loop.comp = q at c3
        have : n2.shown = q := by
          generalize n2.shown = s at c3
          cases c3
          rfl
        rw [this, ← hq, b3, a4, List.nil_append]
      rw [hsh] at c2
      obtain ⟨path, x, t1, t2, t3⟩ := target_of_listener d (l := l) (by rw [shown_listeners _ _ c2]; exact hm)
      have hmem := mem_dispatch t2 t3 he
      have hlen := ho is d c2 path l.jsEvent value t1
      have hdis : dispatch l.jsEvent value path = [e] := by
        match hh : dispatch l.jsEvent value path, hlen, hmem with
        | [y], _, hmem => rw [List.mem_singleton.1 hmem]
      have hs3 := LiveSteps.step hs2 (.event l.jsEvent value (d := d) (by rw [c1]; simp) t1)
      rw [hdis] at hs3
      obtain ⟨n4, d1, d2, d3, d4, -, -, d7, d8⟩ := inputs_happen hf js (is := is) (n := { n2 with up := n2.up ++ [e].map fun e => (e, n2.shown) })
        (by simp only [b3]; exact a2) (by simp only [b3]; exact a3) (by simp only [b3, a4, List.nil_append])
      have hup : n4.up = [(e, n2.shown)] := by
        rw [d7, b4, a7]; rfl
      have hlisten : n4.loop.listeners = (C.render n4.loop.comp).2 := by rw [d3]
      have hstep : ∃ st os, loopStep C Json.fromStr true (.running n4.loop) (.ws (.ok (.text (Json.eventText e.1 e.2)))) = (.running st, os) := by
        rw [handle_step]
        cases ha : asked n4.loop.listeners e with
        | none => exact ⟨_, _, rfl⟩
        | some i =>
          obtain ⟨st, os, g1, -⟩ := follows_update hf d2 d3 d4 i
          exact ⟨st, os, g1⟩
      obtain ⟨st, os, hstep⟩ := hstep
      have hs5 := LiveSteps.step (hs3.trans d1) (.handle hup hstep)
      have := h _ hs5 e n2.shown n4.loop.comp (by simp)
      rw [hsh, d4] at this
      exact this
  · intro h n hn e seen now hm
    exact handled_of hp hl hf R h hn hm

/-- **C113 (what holds).** For every component whose views the browser can follow: if whatever a listener of a view asks for in a later view, it asked for
in its own, then in every history, of events, of changesets and events under way, and of other inputs, every event the component acts on does
what it meant in the view in which the user triggered it. -/
theorem C113_stale_partial (B : Browser) (C : Component D I S E P) (data : D) (p : P) (page : List Dom) (hp : PageOk page)
    (hl : domListeners page = []) (hf : InStepFrom B C p (C.new data p).1)
    (h : ∀ is js, ∀ l ∈ (C.render (C.after p (C.new data p).1 is)).1.allListeners, ∀ value e, clientEvent l l.jsEvent value = some e →
      ∀ i, asked (C.render (C.after p (C.new data p).1 (is ++ js))).2 e = some i → asked (C.render (C.after p (C.new data p).1 is)).2 e = some i)
    (n : LivePage I S P) (hn : LiveSteps B C (LivePage.start C data p page) n) (e : String × Option String) (seen now : S)
    (hm : (e, seen, now) ∈ n.log) (i : I) (hi : asked (C.render now).2 e = some i) : asked (C.render seen).2 e = some i :=
  handled_of hp hl hf (fun a b => ∀ i, b = some i → a = some i) h hn hm i hi

/-- **C113 (exactly).** If no event runs two listeners, that condition is also necessary. -/
theorem C113_stale_iff (B : Browser) (C : Component D I S E P) (data : D) (p : P) (page : List Dom) (hp : PageOk page)
    (hl : domListeners page = []) (hf : InStepFrom B C p (C.new data p).1) (ho : OneListener C p (C.new data p).1) :
    (∀ n, LiveSteps B C (LivePage.start C data p page) n → ∀ e seen now, (e, seen, now) ∈ n.log →
        ∀ i, asked (C.render now).2 e = some i → asked (C.render seen).2 e = some i) ↔
      ∀ is js, ∀ l ∈ (C.render (C.after p (C.new data p).1 is)).1.allListeners, ∀ value e, clientEvent l l.jsEvent value = some e →
        ∀ i, asked (C.render (C.after p (C.new data p).1 (is ++ js))).2 e = some i → asked (C.render (C.after p (C.new data p).1 is)).2 e = some i :=
  handled_iff hp hl hf ho fun a b => ∀ i, b = some i → a = some i

/-- **C114 (what holds).** For every component whose views the browser can follow: if in every later view every listener of a view still asks for the same,
then in every history every event handled is acted on as it meant in the view in which the user triggered it. -/
theorem C114_lost_partial (B : Browser) (C : Component D I S E P) (data : D) (p : P) (page : List Dom) (hp : PageOk page)
    (hl : domListeners page = []) (hf : InStepFrom B C p (C.new data p).1)
    (h : ∀ is js, ∀ l ∈ (C.render (C.after p (C.new data p).1 is)).1.allListeners, ∀ value e, clientEvent l l.jsEvent value = some e →
      asked (C.render (C.after p (C.new data p).1 is)).2 e = asked (C.render (C.after p (C.new data p).1 (is ++ js))).2 e)
    (n : LivePage I S P) (hn : LiveSteps B C (LivePage.start C data p page) n) (e : String × Option String) (seen now : S)
    (hm : (e, seen, now) ∈ n.log) : asked (C.render seen).2 e = asked (C.render now).2 e :=
  handled_of hp hl hf Eq h hn hm

/-- **C114 (exactly).** If no event runs two listeners, that condition is also necessary. -/
theorem C114_lost_iff (B : Browser) (C : Component D I S E P) (data : D) (p : P) (page : List Dom) (hp : PageOk page)
    (hl : domListeners page = []) (hf : InStepFrom B C p (C.new data p).1) (ho : OneListener C p (C.new data p).1) :
    (∀ n, LiveSteps B C (LivePage.start C data p page) n → ∀ e seen now, (e, seen, now) ∈ n.log →
        asked (C.render seen).2 e = asked (C.render now).2 e) ↔
      ∀ is js, ∀ l ∈ (C.render (C.after p (C.new data p).1 is)).1.allListeners, ∀ value e, clientEvent l l.jsEvent value = some e →
        asked (C.render (C.after p (C.new data p).1 is)).2 e = asked (C.render (C.after p (C.new data p).1 (is ++ js))).2 e :=
  handled_iff hp hl hf ho Eq

/-- non-vacuity: the counter -/
example (page : List Dom) (hp : PageOk page) (hl : domListeners page = []) (n : LivePage Nat Nat Unit)
    (hn : LiveSteps plainBrowser counter (LivePage.start counter () () page) n) (e : String × Option String) (seen now : Nat)
    (hm : (e, seen, now) ∈ n.log) : asked (counter.render seen).2 e = asked (counter.render now).2 e :=
  C114_lost_partial plainBrowser counter () () page hp hl (counter_friendly.from _).inStep (fun _ _ _ _ _ _ _ => rfl) n hn e seen now hm

/-- a list whose box adds an entry when it is clicked -/
def growing : Component Unit Unit Nat String Unit where
  new := fun _ _ => (0, [])
  update := fun n _ _ => (n + 1, [])
  render := fun n => (listBox [⟨"add", "click"⟩] n, fun name => if name = "add" then some (.click ()) else none)

theorem growing_inStep (B : Browser) (h1 : B.validTag "div" = true) (h2 : B.validTag "p" = true) : InStepFrom B growing () 0 :=
  FreeLayout.inStep (C := growing)
    { views := list_view _
      obeys := list_obeys B h1 h2 _ (by simp [clientRules])
      tags := fun _ _ _ _ h => Or.inl (list_tags h) }
    fun _ _ => list_followable _ _ _

/-- non-vacuity, with a structure that changes: however many clicks and changesets are under way, every click adds an entry -/
example (B : Browser) (h1 : B.validTag "div" = true) (h2 : B.validTag "p" = true) (page : List Dom) (hp : PageOk page) (hl : domListeners page = [])
    (n : LivePage Unit Nat Unit) (hn : LiveSteps B growing (LivePage.start growing () () page) n) (e : String × Option String) (seen now : Nat)
    (hm : (e, seen, now) ∈ n.log) : asked (growing.render seen).2 e = asked (growing.render now).2 e :=
  C114_lost_partial B growing () () page hp hl (growing_inStep B h1 h2) (fun _ _ _ _ _ _ _ => rfl) n hn e seen now hm

theorem leaf_target {tag : String} {attrs : Headers} {ls : List ListenerRef} {path : List Dom} (h : Target (.elem tag attrs ls []) path) :
    path = [.elem tag attrs ls []] := by
  cases h with
  | here => rfl
  | inside hc _ => cases hc

/-- a switch: its button, labelled with what it will do, asks for the opposite of what is -/
def switch : Component Unit Bool Bool String Unit where
  new := fun _ _ => (false, [])
  update := fun _ i _ => (i, [])
  render := fun s => (⟨0, "input", [("value", if s then "turn off" else "turn on")], [⟨"set", "click"⟩], [], none, none⟩,
    fun n => if n = "set" then some (.click (!s)) else none)

theorem switch_friendly : BrowserFriendly plainBrowser switch () where
  ids := fun s => by simp [switch, Element.ids, idsOf]
  attrs := fun s => by simp [switch, Element.AttrsOk, AttrsOkAll, Headers.Distinct]
  obeys := fun s => by
    cases s <;> simp [switch, Element.Obeys, ObeysAll, clientRules, plainBrowser] <;> decide +kernel
  keys := fun s i => by simp [switch, KeyFit, KeyFitZip, AllKeyed]
  safe := fun s i => by simp [switch, Safe, SafeZip, NodeSafe, nodesAll]

theorem switch_one (s₀ : Bool) : OneListener switch () s₀ := by
  intro is d hd path on value ht
  generalize switch.after () s₀ is = s at hd
  simp only [switch, Element.ShownAs, ShownAsAll] at hd
  obtain ⟨attrs, kids, rfl, -, rfl⟩ := hd
  rw [leaf_target ht]
  simp only [dispatch, List.flatMap_cons, List.flatMap_nil, List.append_nil, Dom.listeners, List.filterMap_cons, List.filterMap_nil]
  cases clientEvent ⟨"set", "click"⟩ on value <;> simp

/-- **C113 is false**, even for views the browser follows exactly: a user who clicks twice on a button that turns something on can turn it off. -/
theorem C113_stale_refuted : ∃ C : Component Unit Bool Bool String Unit, BrowserFriendly plainBrowser C () ∧ OneListener C () (C.new () ()).1 ∧
    ∀ page, PageOk page → domListeners page = [] → ∃ n, LiveSteps plainBrowser C (LivePage.start C () () page) n ∧
      ∃ e seen now i, (e, seen, now) ∈ n.log ∧ asked (C.render now).2 e = some i ∧ asked (C.render seen).2 e ≠ some i := by
  refine ⟨switch, switch_friendly, switch_one _, fun page hp hl => Classical.byContradiction fun hno => ?_⟩
  have h := (C113_stale_iff plainBrowser switch () () page hp hl (switch_friendly.from _).inStep (switch_one _)).1
    fun n hn e seen now hm i hi => Classical.byContradiction fun hne => hno ⟨n, hn, e, seen, now, i, hm, hi, hne⟩
  have := h [] [true] ⟨"set", "click"⟩ (by simp [switch, Component.after, Element.allListeners, listenersIn]) "" ("set", none) rfl false rfl
  cases this

/-- a form in steps: the button of each step has its own listener -/
def wizard : Component Unit Unit Nat String Unit where
  new := fun _ _ => (0, [])
  update := fun s _ _ => (s + 1, [])
  render := fun s => (⟨0, "input", [("value", "next")], [⟨String.ofList (List.replicate s 'i'), "click"⟩], [], none, none⟩,
    fun n => if n = String.ofList (List.replicate s 'i') then some (.click ()) else none)

theorem wizard_friendly : BrowserFriendly plainBrowser wizard () where
  ids := fun s => by simp [wizard, Element.ids, idsOf]
  attrs := fun s => by simp [wizard, Element.AttrsOk, AttrsOkAll, Headers.Distinct]
  obeys := fun s => by
    simp [wizard, Element.Obeys, ObeysAll, clientRules, plainBrowser]
    decide +kernel
  keys := fun s i => by simp [wizard, KeyFit, KeyFitZip, AllKeyed]
  safe := fun s i => by simp [wizard, Safe, SafeZip, NodeSafe, nodesAll, SilentAll]

theorem wizard_one (s₀ : Nat) : OneListener wizard () s₀ := by
  intro is d hd path on value ht
  generalize wizard.after () s₀ is = s at hd
  simp only [wizard, Element.ShownAs, ShownAsAll] at hd
  obtain ⟨attrs, kids, rfl, -, rfl⟩ := hd
  rw [leaf_target ht]
  simp only [dispatch, List.flatMap_cons, List.flatMap_nil, List.append_nil, Dom.listeners, List.filterMap_cons, List.filterMap_nil]
  cases clientEvent _ on value <;> simp

/-- **C114 is false**: where a view has other listeners than the next, the second of two quick clicks is lost. -/
theorem C114_lost_refuted : ∃ C : Component Unit Unit Nat String Unit, BrowserFriendly plainBrowser C () ∧ OneListener C () (C.new () ()).1 ∧
    ∀ page, PageOk page → domListeners page = [] → ∃ n, LiveSteps plainBrowser C (LivePage.start C () () page) n ∧
      ∃ e seen now, (e, seen, now) ∈ n.log ∧ asked (C.render seen).2 e ≠ asked (C.render now).2 e := by
  refine ⟨wizard, wizard_friendly, wizard_one _, fun page hp hl => Classical.byContradiction fun hno => ?_⟩
  have h := (C114_lost_iff plainBrowser wizard () () page hp hl (wizard_friendly.from _).inStep (wizard_one _)).1
    fun n hn e seen now hm => Classical.byContradiction fun hne => hno ⟨n, hn, e, seen, now, hm, hne⟩
  have := h [] [()] ⟨"", "click"⟩ (by simp [wizard, Component.after, Element.allListeners, listenersIn]) "" ("", none) rfl
  simp [asked, wizard, Component.after] at this

/-! ## C115 -/

/-- The updates the listeners of these elements ask for when an event `on` happens with the field holding `value`: element by element, each listener for
this event once, in the order in which they are listed. -/
def wanted (ls : String → Option (Listener I)) (on value : String) (path : List Element) : List I :=
  path.flatMap fun x => (x.listeners.filter fun l => l.jsEvent = on).filterMap fun l => (ls l.listenerName).map fun L => L.fire value

theorem shownAll_mem : ∀ (es : List Element) (ds : List Dom), ShownAsAll es ds → ∀ e ∈ es, ∃ d ∈ ds, e.ShownAs d
  | [], ds, h, e, he => by cases he
  | e' :: es, ds, h, e, he => by
    rw [ShownAsAll] at h
    obtain ⟨d, ds', rfl, h1, h2⟩ := h
    rcases List.mem_cons.1 he with rfl | he
    · exact ⟨d, List.mem_cons_self, h1⟩
    · obtain ⟨d', h3, h4⟩ := shownAll_mem es ds' h2 e he
      exact ⟨d', List.mem_cons_of_mem _ h3, h4⟩

theorem shownAll_append : ∀ (es fs : List Element) (ds gs : List Dom), ShownAsAll es ds → ShownAsAll fs gs → ShownAsAll (es ++ fs) (ds ++ gs)
  | [], fs, ds, gs, h, h' => by rw [ShownAsAll] at h; rw [h]; exact h'
  | e :: es, fs, ds, gs, h, h' => by
    rw [ShownAsAll] at h
    obtain ⟨d, ds', rfl, h1, h2⟩ := h
    rw [List.cons_append, ShownAsAll]
    exact ⟨d, ds' ++ gs, rfl, h1, shownAll_append es fs ds' gs h2 h'⟩

theorem shownAll_mem' : ∀ (es : List Element) (ds : List Dom), ShownAsAll es ds → ∀ d ∈ ds, ∃ e ∈ es, e.ShownAs d
  | [], ds, h, d, hd => by rw [ShownAsAll] at h; rw [h] at hd; cases hd
  | e' :: es, ds, h, d, hd => by
    rw [ShownAsAll] at h
    obtain ⟨d', ds', rfl, h1, h2⟩ := h
    rcases List.mem_cons.1 hd with rfl | hd
    · exact ⟨e', List.mem_cons_self, h1⟩
    · obtain ⟨e, h3, h4⟩ := shownAll_mem' es ds' h2 d hd
      exact ⟨e, List.mem_cons_of_mem _ h3, h4⟩

theorem shown_listeners_self {e : Element} {d : Dom} (h : e.ShownAs d) : d.listeners = e.listeners := by
  cases e
  rw [Element.ShownAs] at h
  obtain ⟨attrs, kids, rfl, -, -⟩ := h
  rfl

theorem shownAll_listeners : ∀ (es : List Element) (ds : List Dom), ShownAsAll es ds → ds.map Dom.listeners = es.map (·.listeners)
  | [], ds, h => by rw [ShownAsAll] at h; rw [h]; rfl
  | e :: es, ds, h => by
    rw [ShownAsAll] at h
    obtain ⟨d, ds', rfl, h1, h2⟩ := h
    rw [List.map_cons, List.map_cons, shown_listeners_self h1, shownAll_listeners es ds' h2]

theorem shownAll_one {e : Element} {d : Dom} (h : e.ShownAs d) : ShownAsAll [e] [d] := by
  rw [ShownAsAll]
  exact ⟨d, [], rfl, h, by rw [ShownAsAll]⟩

/-- Every element of a view is a place in the page where events can happen. -/
theorem within_target {e : Element} {path : List Element} (h : Within e path) : ∀ {d : Dom}, e.ShownAs d →
    ∃ path', Target d path' ∧ ShownAsAll path path' := by
  induction h with
  | here e =>
    intro d hd
    have hd' := hd
    cases e
    rw [Element.ShownAs] at hd
    obtain ⟨attrs, kids, rfl, -, -⟩ := hd
    exact ⟨_, .here _ _ _ _, shownAll_one hd'⟩
  | @inside e c path hc _ ih =>
    intro d hd
    have hd' := hd
    cases e
    rw [Element.ShownAs] at hd
    obtain ⟨attrs, kids, rfl, -, hk⟩ := hd
    obtain ⟨d', h1, h2⟩ := shownAll_mem _ _ hk c hc
    obtain ⟨path', h3, h4⟩ := ih h2
    exact ⟨_, .inside (List.mem_append.2 (Or.inr h1)) h3, shownAll_append _ _ _ _ h4 (shownAll_one hd')⟩

/-- Every place where events can happen in the subtree that shows a view is an element of the view. -/
theorem target_within {d : Dom} {path' : List Dom} (h : Target d path') : ∀ {e : Element}, e.ShownAs d →
    ∃ path, Within e path ∧ ShownAsAll path path' := by
  induction h with
  | here tag attrs ls cs => intro e hd; exact ⟨_, .here e, shownAll_one hd⟩
  | @inside tag attrs ls cs c path' hc ht ih =>
    intro e hd
    have hd' := hd
    cases e with
    | mk id name attributes listeners children text key =>
      rw [Element.ShownAs] at hd
      obtain ⟨attrs', kids, he, -, hk⟩ := hd
      cases he
      rcases List.mem_append.1 hc with hc | hc
      · have : ∃ s, c = .text s := by
          cases text with
          | none => simp [textNodes] at hc
          | some s => by_cases hs : s = "" <;> simp [textNodes, hs] at hc; exact ⟨s, hc⟩
        obtain ⟨s, rfl⟩ := this
        cases ht
      · obtain ⟨c', h1, h2⟩ := shownAll_mem' _ _ hk c hc
        obtain ⟨path, h3, h4⟩ := ih h2
        exact ⟨_, .inside h1 h3, shownAll_append _ _ _ _ h4 (shownAll_one hd')⟩

theorem dispatch_listeners (on value : String) (path : List Dom) (path' : List Element) (h : path.map Dom.listeners = path'.map (·.listeners)) :
    dispatch on value path = path'.flatMap fun x => x.listeners.filterMap fun l => clientEvent l on value := by
  have e1 : dispatch on value path = (path.map Dom.listeners).flatMap fun x => x.filterMap fun l => clientEvent l on value := by
    rw [List.flatMap_map]; rfl
  rw [e1, h, List.flatMap_map]

theorem within_registered {e : Element} {path : List Element} (h : Within e path) : ∀ x ∈ path, ∀ l ∈ x.listeners, l ∈ e.allListeners := by
  induction h with
  | here e =>
    intro x hx l hl
    simp only [List.mem_singleton] at hx
    subst hx
    cases x
    exact List.mem_append.2 (Or.inl hl)
  | @inside e c path hc _ ih =>
    intro x hx l hl
    cases e with
    | mk id name attributes listeners children text key =>
      rw [Element.allListeners, List.mem_append]
      rcases List.mem_append.1 hx with hx | hx
      · refine Or.inr ?_
        have := ih x hx l hl
        have aux : ∀ cs : List Element, c ∈ cs → l ∈ listenersIn cs := by
          intro cs
          induction cs with
          | nil => intro h; cases h
          | cons y ys ihy =>
            intro h
            rw [listenersIn, List.mem_append]
            rcases List.mem_cons.1 h with rfl | h
            · exact Or.inl this
            · exact Or.inr (ihy h)
        exact aux _ hc
      · simp only [List.mem_singleton] at hx
        subst hx
        exact Or.inl hl

/-- A registered listener's event asks for what the listener says, if it is for this event. -/
theorem asked_event {ls : String → Option (Listener I)} {l : ListenerRef} {L : Listener I} (hL : ls l.listenerName = some L)
    (hev : L.jsEvent = l.jsEvent) (on value : String) :
    (l.jsEvent = on → ∃ e, clientEvent l on value = some e ∧ asked ls e = some (L.fire value)) ∧
    (l.jsEvent ≠ on → clientEvent l on value = none) := by
  refine ⟨?_, fun h => by simp [clientEvent, Ne.symm h]⟩
  rintro rfl
  rw [← hev]
  cases L <;> simp [clientEvent, ← hev, Listener.jsEvent, asked, hL, Listener.fire]

theorem dispatch_asks (ls : String → Option (Listener I)) (on value : String) (path : List Element)
    (h : ∀ x ∈ path, ∀ l ∈ x.listeners, ∃ L, ls l.listenerName = some L ∧ L.jsEvent = l.jsEvent) :
    (path.flatMap fun x => x.listeners.filterMap fun l => clientEvent l on value).map (asked ls) = (wanted ls on value path).map some := by
  have inner : ∀ lst : List ListenerRef, (∀ l ∈ lst, ∃ L, ls l.listenerName = some L ∧ L.jsEvent = l.jsEvent) →
      (lst.filterMap fun l => clientEvent l on value).map (asked ls) =
        ((lst.filter fun l => l.jsEvent = on).filterMap fun l => (ls l.listenerName).map fun L => L.fire value).map some := by
    intro lst
    induction lst with
    | nil => intro _; rfl
    | cons l lst ih =>
      intro hl
      obtain ⟨L, h1, h2⟩ := hl l List.mem_cons_self
      have ih' := ih fun l hm => hl l (List.mem_cons_of_mem _ hm)
      obtain ⟨a1, a2⟩ := asked_event h1 h2 on value
      by_cases hon : l.jsEvent = on
      · obtain ⟨e, b1, b2⟩ := a1 hon
        simp [b1, b2, hon, h1, ih']
      · simp [a2 hon, hon, ih']
  unfold wanted
  induction path with
  | nil => rfl
  | cons x xs ih =>
    simp only [List.flatMap_cons, List.map_append]
    rw [ih fun y hy => h y (List.mem_cons_of_mem _ hy), inner x.listeners (h x List.mem_cons_self)]

/-- **C115 (what holds).** Let the loop be in a state the component can be brought to, the browser show its view and every listener of the view be registered
for its own kind of event.  Then the elements of the page in which an event can happen are the elements of the view; and if what the listeners for the event ask
for does not change while the event is handled, the messages sent update the component with exactly what the listeners for this
event ask for, of the element and of the elements around it, innermost first, each once. -/
theorem C115_bubbling_partial (B : Browser) (C : Component D I S E P) (p : P) (s₀ : S) (hf : InStepFrom B C p s₀) (st : LoopState I S P)
    (hpr : st.proc = p) (hs : C.render st.comp = (st.dom, st.listeners)) (is₀ : List I) (hi : st.comp = C.after p s₀ is₀)
    (d : Dom) (hd : (C.render st.comp).1.ShownAs d) (hr : Registered (C.render st.comp).1 (C.render st.comp).2) :
    (∀ path, Within (C.render st.comp).1 path → ∃ path', Target d path' ∧ ShownAsAll path path') ∧
    (∀ path', Target d path' → ∃ path, Within (C.render st.comp).1 path ∧ ShownAsAll path path') ∧
    ∀ path path', Within (C.render st.comp).1 path → Target d path' → ShownAsAll path path' → ∀ on value,
      (∀ js, js <+: wanted (C.render st.comp).2 on value path → ∀ x ∈ path, ∀ l ∈ x.listeners, ∀ e, clientEvent l on value = some e →
        asked (C.render (C.after p st.comp js)).2 e = asked (C.render st.comp).2 e) →
      ∃ st' os, loopRun C Json.fromStr true (.running st) ((dispatch on value path').map fun e => .ws (.ok (.text (Json.eventText e.1 e.2)))) =
        (.running st', os) ∧ st'.comp = C.after p st.comp (wanted (C.render st.comp).2 on value path) := by
  refine ⟨fun path hw => within_target hw hd, fun path' ht => target_within ht hd, fun path path' hw h1 h2' on value hst => ?_⟩
  have h2 := shownAll_listeners _ _ h2'
  rw [dispatch_listeners on value path' path h2]
  have hasks := dispatch_asks (C.render st.comp).2 on value path fun x hx l hl => hr l (within_registered hw x hx l hl)
  have hes : ∀ e ∈ (path.flatMap fun x => x.listeners.filterMap fun l => clientEvent l on value),
      ∀ js, js <+: wanted (C.render st.comp).2 on value path → asked (C.render (C.after p st.comp js)).2 e = asked (C.render st.comp).2 e := by
    intro e he js hjs
    obtain ⟨x, hx, he⟩ := List.mem_flatMap.1 he
    obtain ⟨l, hl, he⟩ := List.mem_filterMap.1 he
    exact hst js hjs x hx l hl e he
  generalize (path.flatMap fun x => x.listeners.filterMap fun l => clientEvent l on value) = es at hasks hes
  generalize hWn : wanted (C.render st.comp).2 on value path = W at hasks hes
  clear hst hWn h2
  -- the events so far have led to the updates `done`
  have key : ∀ (todo : List (String × Option String)) (done is : List I) (st₁ : LoopState I S P), W = done ++ is →
      todo.map (asked (C.render st.comp).2) = is.map some → (∀ e ∈ todo, e ∈ es) → st₁.proc = p → st₁.InSync C →
      st₁.comp = C.after p st.comp done →
      ∃ st' os, loopRun C Json.fromStr true (.running st₁) (todo.map fun e => .ws (.ok (.text (Json.eventText e.1 e.2)))) =
        ((.running st' : Phase D I S P), os) ∧ st'.comp = C.after p st.comp W := by
    intro todo
    induction todo with
    | nil =>
      intro done is st₁ hW hm _ _ _ hc
      cases is with
      | nil => exact ⟨st₁, [], rfl, by rw [hc, hW, List.append_nil]⟩
      | cons i is => cases hm
    | cons e todo ih =>
      intro done is st₁ hW hm hin hp1 hs1 hc
      cases is with
      | nil => cases hm
      | cons i is =>
        simp only [List.map_cons, List.cons.injEq] at hm
        have ha : asked st₁.listeners e = some i := by
          have hl1 : st₁.listeners = (C.render st₁.comp).2 := by rw [hs1]
          rw [hl1, hc, hes e (hin e List.mem_cons_self) done (by rw [hW]; exact List.prefix_append _ _), hm.1]
        obtain ⟨st₂, os, g1, g2, g3, g4⟩ := follows_update hf hp1 hs1 (is := is₀ ++ done) (by rw [hc, hi, after_append]) i
        obtain ⟨st', os', k1, k2⟩ := ih (done ++ [i]) is st₂ (by rw [hW, List.append_assoc]; rfl) hm.2
          (fun e he => hin e (List.mem_cons_of_mem _ he)) g2 g3 (by rw [g4, List.append_assoc, after_append, ← hi])
        refine ⟨st', os ++ os', ?_, k2⟩
        simp only [List.map_cons, loopRun]
        rw [handle_step, ha]
        simp only [g1, k1]
  exact key es [] W st rfl hasks (fun e he => he) hpr hs rfl

/-- two buttons, one around the other: the inner one sets to 10, the outer one to `f` of what is -/
def nested (f : Nat → Nat) : Component Unit Nat Nat String Unit where
  new := fun _ _ => (0, [])
  update := fun _ i _ => (i, [])
  render := fun s => (⟨0, "div", [], [⟨"outer", "click"⟩], [⟨1, "input", [], [⟨"inner", "click"⟩], [], none, none⟩], none, none⟩,
    fun n => if n = "outer" then some (.click (f s)) else if n = "inner" then some (.click 10) else none)

theorem nested_friendly (f : Nat → Nat) : BrowserFriendly plainBrowser (nested f) () where
  ids := fun s => by simp [nested, Element.ids, idsOf]
  attrs := fun s => by simp [nested, Element.AttrsOk, AttrsOkAll, Headers.Distinct]
  obeys := fun s => by simp [nested, Element.Obeys, ObeysAll, clientRules, plainBrowser]; decide +kernel
  keys := fun s i => by simp [nested, KeyFit, KeyFitZip, AllKeyed]
  safe := fun s i => by simp [nested, Safe, SafeZip, NodeSafe, nodesAll]

theorem nested_registered (f : Nat → Nat) (s : Nat) : Registered ((nested f).render s).1 ((nested f).render s).2 := by
  intro l hl
  simp [nested, Element.allListeners, listenersIn] at hl
  rcases hl with rfl | rfl
  · exact ⟨.click (f s), by simp [nested], rfl⟩
  · exact ⟨.click 10, by simp [nested], rfl⟩

/-- the inner button and what is around it -/
def nestedPath : List Element :=
  [⟨1, "input", [], [⟨"inner", "click"⟩], [], none, none⟩,
   ⟨0, "div", [], [⟨"outer", "click"⟩], [⟨1, "input", [], [⟨"inner", "click"⟩], [], none, none⟩], none, none⟩]

theorem nestedPath_within (f : Nat → Nat) (s : Nat) : Within ((nested f).render s).1 nestedPath :=
  Within.inside (e := ((nested f).render s).1) (c := ⟨1, "input", [], [⟨"inner", "click"⟩], [], none, none⟩) (path := [_])
    (List.mem_singleton.2 rfl) (.here _)

/-- non-vacuity: if the outer button always sets to 1, a click on the inner one sets to 10, then to 1 -/
example (s : Nat) (d : Dom) (hd : ((nested fun _ => 1).render s).1.ShownAs d) (path' : List Dom) (ht : Target d path') (hp : ShownAsAll nestedPath path') :
    ∃ st' os, loopRun (nested fun _ => 1) Json.fromStr true
        (.running ⟨(), s, ((nested fun _ => 1).render s).1, ((nested fun _ => 1).render s).2⟩)
        ((dispatch "click" "" path').map fun e => .ws (.ok (.text (Json.eventText e.1 e.2)))) = (.running st', os) ∧
      st'.comp = (nested fun _ => 1).after () s [10, 1] :=
  (C115_bubbling_partial plainBrowser (nested fun _ => 1) () s ((nested_friendly _).from s).inStep ⟨(), s, _, _⟩ rfl rfl [] rfl d hd (nested_registered _ s)).2.2
    nestedPath path' (nestedPath_within _ s) ht hp "click" "" (fun _ _ _ _ _ _ _ _ => rfl)

/-- **C115 is false**: where one listener's update changes what another asks for, one click makes the component do something the
view did not offer (here, 11 instead of 1). -/
theorem C115_bubbling_refuted : ∃ C : Component Unit Nat Nat String Unit, BrowserFriendly plainBrowser C () ∧
    (∀ s, Registered (C.render s).1 (C.render s).2) ∧ ∃ path, Within (C.render 0).1 path ∧
      ∀ d, (C.render 0).1.ShownAs d → ∃ path', Target d path' ∧ ShownAsAll path path' ∧ ∃ st' os,
        loopRun C Json.fromStr true (.running ⟨(), 0, (C.render 0).1, (C.render 0).2⟩)
          ((dispatch "click" "" path').map fun e => .ws (.ok (.text (Json.eventText e.1 e.2)))) = (.running st', os) ∧
        st'.comp ≠ C.after () 0 (wanted (C.render 0).2 "click" "" path) := by
  refine ⟨nested (· + 1), nested_friendly _, nested_registered _, nestedPath, nestedPath_within _ 0, fun d hd => ?_⟩
  obtain ⟨path', h1, h2⟩ := within_target (nestedPath_within (· + 1) 0) hd
  refine ⟨path', h1, h2, ?_⟩
  rw [dispatch_listeners "click" "" path' nestedPath (shownAll_listeners _ _ h2)]
  have hf := ((nested_friendly (· + 1)).from 0).inStep
  obtain ⟨st1, os1, a1, a2, a3, a4⟩ := follows_update hf (st := ⟨(), 0, ((nested (· + 1)).render 0).1, ((nested (· + 1)).render 0).2⟩) rfl rfl
    (is := []) rfl 10
  obtain ⟨st2, os2, b1, b2, b3, b4⟩ := follows_update hf a2 a3 a4 11
  have hl : st1.listeners = ((nested (· + 1)).render st1.comp).2 := by rw [a3]
  have e1 : (nestedPath.flatMap fun x => x.listeners.filterMap fun l => clientEvent l "click" "") = [("inner", none), ("outer", none)] := rfl
  rw [e1]
  refine ⟨st2, os1 ++ (os2 ++ []), ?_, ?_⟩
  · simp only [List.map_cons, List.map_nil, loopRun]
    rw [handle_step _ _ ("inner", none)]
    have ha : asked ((nested (· + 1)).render 0).2 ("inner", none) = some 10 := rfl
    simp only [ha, a1]
    rw [handle_step _ _ ("outer", none), hl, a4]
    have hb : asked ((nested (· + 1)).render ((nested (· + 1)).after () 0 ([] ++ [10]))).2 ("outer", none) = some 11 := rfl
    simp only [hb, b1]
  · rw [b4]
    decide
