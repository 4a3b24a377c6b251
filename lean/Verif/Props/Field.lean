import Verif.Lemmas.Field
import Verif.Props.Live
/-!
# What the fields of a page show (C116)
-/
namespace Puck

variable {D I S E P : Type}

/-- The page shows the view, and `τ` has been typed into its fields. -/
def TypedPage (page : List Dom) (τ : Nat → Option String) (e : Element) (body : List LiveDom) : Prop :=
  ∃ d K, eraseAll body = page ++ [d] ∧ e.ShownAs d ∧ skelAll body = K ++ [e.skelOf τ] ∧ ∀ n : Nat, toString n ∉ skelIds K

theorem TypedPage.fields {page : List Dom} {τ : Nat → Option String} {e : Element} {body : List LiveDom} (h : TypedPage page τ e body) :
    ∃ pre d, body = pre ++ [d] ∧ eraseAll pre = page ∧ e.FieldsAs τ d := by
  obtain ⟨d0, K, h1, h2, h3, -⟩ := h
  obtain ⟨pre, q, rfl, h4, h5⟩ := eraseAll_split body page [d0] h1
  match q, h5 with
  | [d], h5 =>
    rw [eraseAll, eraseAll, List.cons.injEq] at h5
    refine ⟨pre, d, rfl, h4, fields_of τ e d (by rw [h5.1]; exact h2) ?_⟩
    have hd : ∃ s, d.skel = [s] := by
      cases d with
      | text s => rw [LiveDom.erase] at h5; rw [← h5.1] at h2; obtain ⟨_, _, h, _⟩ := h2.elim; cases h
      | elem => exact ⟨_, rfl⟩
    obtain ⟨s, hd⟩ := hd
    rw [skelAll_append, skelAll, skelAll, List.append_nil, hd] at h3
    rw [hd, (List.append_inj' h3 rfl).2]
  | _ :: _ :: _, h5 => rw [eraseAll, eraseAll, List.cons.injEq] at h5; cases h5.2

theorem TypedPage.type {page : List Dom} {τ : Nat → Option String} {e : Element} {body : List LiveDom} (h : TypedPage page τ e body) (n : Nat)
    (v : String) : TypedPage page (fun i => if n = i then some v else τ i) e (typeIntoAll (toString n) v body) := by
  obtain ⟨d, K, h1, h2, h3, h4⟩ := h
  refine ⟨d, K, by rw [eraseAll_typeInto, h1], h2, ?_, h4⟩
  rw [typeIntoAll_skel, h3, typeSkels_append, typeSkels_absent _ _ K (h4 n), typeSkels, typeSkels, skelOf_type]

theorem TypedPage.message {B : Browser} {C : Component D I S E P} (hf : FixedLayout B C) {page : List Dom} (hp : PageOk page) {s s' : S}
    (hstep : InStep (C.render s).1 (C.render s').1) {ops : List Op} (ho : (C.render s).1.diff (some (C.render s').1) = some ops)
    {τ : Nat → Option String} {body : List LiveDom} (h : TypedPage page τ (C.render s).1 body) :
    TypedPage page τ (C.render s').1 (liveMessage B (serializeOps ops) body) := by
  obtain ⟨d, K, h1, h2, h3, h4⟩ := h
  obtain ⟨hn, -, ops', o1, o2, -⟩ := hf.trees s s'
  cases o1.symm.trans ho
  obtain ⟨d', d1, d2⟩ := o2 hstep page d hp h2
  obtain ⟨w, g, hw, hwa⟩ := hf.views s
  obtain ⟨w', g', hw', hwa'⟩ := hf.views s'
  have hk : Kin (C.render s).1 (C.render s').1 :=
    kin_of _ _ (hf.shape s s') (aligned_of_dense _ _ 0 (hf.shape s s') (dense_increasing hw).2 (dense_increasing hw').2).1 (hf.tags s s')
  have hops : ops = (pairs (C.render s).1 (C.render s').1).flatMap nodeOps :=
    Option.some.inj (ho.symm.trans (diff_kin _ _ hk (intoElement_unkeyed hw) (intoElement_unkeyed hw')))
  refine ⟨d', K, by rw [erase_liveMessage, h1, d1], d2, ?_, h4⟩
  rw [message_skel (ops := ops) ?_ ?_, h3, kin_skelOf τ _ _ hk]
  · intro op hop
    rw [hops] at hop
    obtain ⟨q, hq, hop⟩ := List.mem_flatMap.1 hop
    have hpn := pairs_nodes _ _ q hq
    exact (nodeOps_plain (obeys_nodes _ _ (hf.obeys s) hpn.1) (obeys_nodes _ _ (hf.obeys s') hpn.2) (kin_pair _ _ q hk hq).parts.1 op hop).2
  · rintro op hop ⟨v, hv⟩
    rw [hops] at hop
    obtain ⟨q, hq, hop⟩ := List.mem_flatMap.1 hop
    have hpn := pairs_nodes _ _ q hq
    have hid := (nodeOps_plain (obeys_nodes _ _ (hf.obeys s) hpn.1) (obeys_nodes _ _ (hf.obeys s') hpn.2) (kin_pair _ _ q hk hq).parts.1 op hop).1
    have hch : q.1.children = [] := by
      have htext : q.1.text ≠ q.2.text ∧ q.2.text ≠ none := by
        unfold nodeOps at hop
        simp only [List.mem_append] at hop
        rcases hop with (hop | hop) | hop
        · rw [diffAttributes_eq] at hop
          split at hop
          · cases hop
          · rw [List.mem_append, List.mem_map, List.mem_map] at hop
            rcases hop with ⟨k, hk, rfl⟩ | ⟨q, hq, rfl⟩ <;> cases hv
        · unfold Element.diffText at hop
          split at hop
          · cases hop
          · next hne =>
            refine ⟨hne, ?_⟩
            split at hop
            · next e => rw [e]; simp
            · rw [List.mem_singleton] at hop; subst hop; cases hv
        · unfold Element.diffListeners Element.generateListeners at hop
          split at hop
          · cases hop
          · rw [List.mem_cons, List.mem_map] at hop
            rcases hop with rfl | ⟨l, hl, rfl⟩ <;> cases hv
      rcases (hstep q hq).1 with h | h | h
      · exact absurd h htext.1
      · exact h.1
      · exact absurd h.2 htext.2
    rw [h3, leafAll_append, hid]
    refine ⟨leafAll_absent _ _ (h4 _), ?_⟩
    rw [LeafAll]
    refine ⟨skelOf_leaf τ _ _ fun x hx he => ?_, by rw [LeafAll]; trivial⟩
    rw [node_unique hn hx hpn.1 he]
    exact hch

theorem happens_typed {B : Browser} {C : Component D I S E P} {p : P} (hf : FixedLayout B C) {page : List Dom} (hp : PageOk page) :
    ∀ (h : List Happening) (is : List I) (s : S) (os : List (Out E)) (τ : Nat → Option String) (body : List LiveDom),
      (∀ is i, InStep (C.render (C.after p s is)).1 (C.render (C.after p s (is ++ [i]))).1) →
      expectedOuts C p s is = some os → messagesIn h = sends os → TypedPage page τ (C.render s).1 body →
      TypedPage page (fun n => lastTyped (τ n) n h) (C.render (C.after p s is)).1 (happens B h body)
  | [], is, s, os, τ, body, hs, ho, hm, hb => by
    cases is with
    | nil => exact hb
    | cons i is =>
      rw [expectedOuts] at ho
      split at ho
      · cases ho
        rw [sends_append, sends_append, sends_effects] at hm
        cases hm
      · cases ho
  | .typed n v :: h, is, s, os, τ, body, hs, ho, hm, hb =>
    happens_typed hf hp h is s os (fun i => if n = i then some v else τ i) (typeIntoAll (toString n) v body) hs ho hm (hb.type n v)
  | .message w :: h, is, s, os, τ, body, hs, ho, hm, hb => by
    cases is with
    | nil => cases ho; cases hm
    | cons i is =>
      rw [expectedOuts] at ho
      split at ho
      · next ops rest e1 e2 =>
        cases ho
        rw [sends_append, sends_append, sends_effects] at hm
        simp only [messagesIn, sends, List.nil_append, List.cons_append, List.cons.injEq] at hm
        obtain ⟨rfl, hm⟩ := hm
        have := happens_typed hf hp h is (C.update s i p).1 rest τ (liveMessage B (serializeOps ops) body) (fun js j => hs (i :: js) j) e2 hm
          (hb.message hf hp (hs [] i) e1)
        exact this
      · cases ho

theorem session_after {C : Component D I S E P} {parse : String → Option ClientMessage} {p : P} {s s' : S} {ms : List (Mail I P)} {is : List I}
    (h : Session C parse p s ms is s') : s' = C.after p s is := by
  induction h with
  | nil => rfl
  | skip _ _ _ _ ih => exact ih
  | take _ _ ih => exact ih

/-- What happens in a session, from the component's first render on. -/
theorem session_fields {B : Browser} {C : Component D I S E P} {p : P} (hf : FixedLayout B C) {parse : String → Option ClientMessage}
    {data : D} {page : List Dom} (hp : PageOk page)
    (hs : ∀ is i, InStep (C.render (C.after p (C.new data p).1 is)).1 (C.render (C.after p (C.new data p).1 (is ++ [i]))).1)
    {ms : List (Mail I P)} {is : List I} {s' : S} (h : Session C parse p (C.new data p).1 ms is s') :
    ∃ st os first rest, loopRun C parse true (.waiting data) (.whoAmI p :: ms) = (.running st, os) ∧ st.comp = s' ∧ sends os = first :: rest ∧
      ∀ hist, messagesIn hist = rest → ∃ pre d, happens B (.message first :: hist) (freshAll page) = pre ++ [d] ∧ eraseAll pre = page ∧
        (C.render s').1.FieldsAs (fun n => lastTyped none n hist) d := by
  obtain ⟨h0, h0', -⟩ := hf.trees (C.new data p).1 (C.new data p).1
  obtain ⟨ops, d0, h1, h2, h3⟩ := C62_first_paint_partial B page hp (C.render (C.new data p).1).1 h0 h0' (hf.obeys _)
  cases h1
  obtain ⟨os, d, h4, -, -⟩ := follows hf hp h hs d0 h3
  have hs' := session_after h
  refine ⟨_, _, _, sends os, C66_trace C parse data p ms is s' os h h4, rfl,
    (by rw [sends_append, opening, sends_append, sends_effects]; rfl), fun hist hh => ?_⟩
  rw [hs']
  refine (happens_typed (body := liveMessage B _ (freshAll page)) hf hp hist is _ os (fun _ => none) hs h4 hh ?_).fields
  rw [fresh_liveMessage, h2]
  refine ⟨d0, skelAll (freshAll page), eraseAll_fresh _, h3, ?_, fun n hn => ?_⟩
  · rw [freshAll_append, skelAll_append, freshAll, freshAll, skelAll, skelAll, List.append_nil, shown_skel _ _ h3]
  · rw [← eraseAll_ids, eraseAll_fresh] at hn
    exact hp n hn

/-- **C116 (what holds, exactly).** For every component with a fixed layout whose updates the browser can follow, and every history in which the connection
stays open: however what the user types and the messages from the server are interleaved, when the browser has processed all messages, it shows the
current view, and every field shows what the user typed into it last, and the value the view gives it if the user has not typed into it. -/
theorem C116_fields_partial (B : Browser) (C : Component D I S E P) (p : P) (hf : FixedLayout B C) (parse : String → Option ClientMessage)
    (data : D) (page : List Dom) (hp : PageOk page)
    (hs : ∀ is i, InStep (C.render (C.after p (C.new data p).1 is)).1 (C.render (C.after p (C.new data p).1 (is ++ [i]))).1)
    (ms : List (Mail I P)) (hc : ∀ m ∈ ms, m ≠ .ws (.error .connectionClosed) ∧ ∀ q, m ≠ .whoAmI q) :
    ∃ st os first rest, loopRun C parse true (.waiting data) (.whoAmI p :: ms) = (.running st, os) ∧ sends os = first :: rest ∧
      ∀ hist, messagesIn hist = rest → ∃ pre d, happens B (.message first :: hist) (freshAll page) = pre ++ [d] ∧ eraseAll pre = page ∧
        (C.render st.comp).1.FieldsAs (fun n => lastTyped none n hist) d := by
  obtain ⟨is, s', h⟩ := session_total C parse p (C.new data p).1 ms hc
  obtain ⟨st, os, first, rest, h1, h2, h3, h4⟩ := session_fields hf hp hs h
  exact ⟨st, os, first, rest, h1, h3, by rw [h2]; exact h4⟩

/-- a field which is cleared by a button -/
def draft : Component Unit Bool Bool String Unit where
  new := fun _ _ => (false, [])
  update := fun _ i _ => (i, [])
  render := fun s => (⟨0, "div", [], [], [⟨1, "input", [("value", if s then "draft" else "")], [⟨"write", "input"⟩], [], none, none⟩,
      ⟨2, "input", [], [⟨"clear", "click"⟩], [], none, none⟩], none, none⟩,
    fun n => if n = "write" then some (.input fun v => decide (v ≠ "")) else if n = "clear" then some (.click false) else none)

theorem draft_layout : FixedLayout plainBrowser draft where
  views := fun s => by
    refine ⟨(BodyNode.wrap (.div [])).withChildren [(BodyNode.wrap (.input [("value", if s then "draft" else "")])).listener ⟨"write", "input"⟩,
      (BodyNode.wrap (.input [])).listener ⟨"clear", "click"⟩], 3, rfl, ?_⟩
    simp [BodyNode.wrap, WrappedBodyNode.withChildren, WrappedBodyNode.listener, WrappedBodyNode.AttrsOk, WrappedAttrsOk, BodyNode.htmlAttrs,
      Headers.Distinct]
  obeys := fun s => by
    cases s <;> simp [draft, Element.Obeys, ObeysAll, clientRules, plainBrowser] <;> decide +kernel
  shape := fun s s' => by simp [draft, SameShape, SameShapeAll]
  tags := fun s s' => by simp [draft, pairs, pairsAll]

theorem draft_in_step (s s' : Bool) : InStep (draft.render s).1 (draft.render s').1 := by
  intro q hq
  simp [draft, pairs, pairsAll] at hq
  rcases hq with rfl | rfl | rfl <;> simp [TextFollows]

/-- non-vacuity: `draft`, whatever the user does -/
example (page : List Dom) (hp : PageOk page) (ms : List (Mail Bool Unit)) (hc : ∀ m ∈ ms, m ≠ .ws (.error .connectionClosed) ∧ ∀ q, m ≠ .whoAmI q) :
    ∃ st os first rest, loopRun draft Json.fromStr true (.waiting ()) (.whoAmI () :: ms) = (.running st, os) ∧ sends os = first :: rest ∧
      ∀ hist, messagesIn hist = rest → ∃ pre d, happens plainBrowser (.message first :: hist) (freshAll page) = pre ++ [d] ∧ eraseAll pre = page ∧
        (draft.render st.comp).1.FieldsAs (fun n => lastTyped none n hist) d :=
  C116_fields_partial plainBrowser draft () draft_layout Json.fromStr () page hp (fun _ _ => draft_in_step _ _) ms hc

/-- The messages the browser sends when the user types `hello` and then clicks on the button. -/
def draftMail : List (Mail Bool Unit) :=
  [.ws (.ok (.text (Json.eventText "write" (some "hello")))), .ws (.ok (.text (Json.eventText "clear" none)))]

/-- **C116 is false**: a component cannot change what a field shows once the user has typed into it.  Here a button that clears the field has been clicked, the view
says that the field is empty and the browser has processed everything, and the field still shows what was typed. -/
theorem C116_fields_refuted (page : List Dom) (hp : PageOk page) :
    ∃ st os first rest, loopRun draft Json.fromStr true (.waiting ()) (.whoAmI () :: draftMail) = (.running st, os) ∧ sends os = first :: rest ∧
      (∃ field ∈ (draft.render st.comp).1.children, field.id = 1 ∧ field.attributes.get "value" = some "") ∧
      ∀ hist, messagesIn hist = rest → lastTyped none 1 hist = some "hello" →
        ∃ pre d, happens plainBrowser (.message first :: hist) (freshAll page) = pre ++ [d] ∧ eraseAll pre = page ∧
          ∃ tag attrs ls typed kids, d = .elem tag attrs ls typed kids ∧ ∃ tag' attrs' ls' typed' kids', .elem tag' attrs' ls' typed' kids' ∈ kids ∧
            attrs'.get "id" = some "1" ∧ fieldText attrs' typed' = "hello" := by
  have hses : Session draft Json.fromStr () (draft.new () ()).1 draftMail [true, false] false := by
    have a1 : Asks (P := Unit) Json.fromStr (draft.render false).2 (.ws (.ok (.text (Json.eventText "write" (some "hello"))))) true :=
      (asked_some (e := ("write", some "hello"))).1 (by simp [asked, draft])
    have a2 : Asks (P := Unit) Json.fromStr (draft.render true).2 (.ws (.ok (.text (Json.eventText "clear" none)))) false :=
      (asked_some (e := ("clear", none))).1 (by simp [asked, draft])
    exact .take a1 (.take a2 (.nil _))
  obtain ⟨st, os, first, rest, h1, h2, h3, h4⟩ := session_fields draft_layout hp (fun _ _ => draft_in_step _ _) hses
  refine ⟨st, os, first, rest, h1, h3, ?_, fun hist hm ht => ?_⟩
  · rw [h2]
    exact ⟨_, List.mem_cons_self, rfl, rfl⟩
  · obtain ⟨pre, d, e1, e2, e3⟩ := h4 hist hm
    refine ⟨pre, d, e1, e2, ?_⟩
    simp only [draft, Element.FieldsAs, FieldsAsAll] at e3
    obtain ⟨attrs, typed, kids, rfl, -, -, d1, ds, rfl, ⟨attrs', typed', kids', rfl, a1, a2, a3⟩, -⟩ := e3
    rw [ht] at a2
    exact ⟨_, _, _, _, _, rfl, _, _, _, _, _, List.mem_append_right _ List.mem_cons_self, by rw [a1 "id"]; rfl, a2⟩

/-- such a history: the user types, and the messages arrive -/
example (a b : List WireOp) : lastTyped none 1 [.typed 1 "hello", .message a, .message b] = some "hello" := rfl

end Puck
