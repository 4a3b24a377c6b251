import Verif.Props.SamePage
import Verif.Props.Field
import Verif.Lemmas.OutOfStep
/-!
# C152: no two elements of the page have the same id
-/
namespace Puck

variable {D I S E P : Type}

/-- The ids of a page with a shown view at its end. -/
theorem ids_page {page : List Dom} {e : Element} {d : Dom} (hd : e.ShownAs d) : domIds (page ++ [d]) = domIds page ++ e.ids.map toString := by
  rw [domIds_elems, elemsAll_append, List.filterMap_append, ← domIds_elems, ← domIds_elems]
  simp only [domIds, List.append_nil, shown_ids e d hd]

theorem ids_page_nodup {page : List Dom} {e : Element} (hp : PageOk page) (hn : (domIds page).Nodup) (he : e.ids.Nodup) :
    (domIds page ++ e.ids.map toString).Nodup := by
  refine List.nodup_append.2 ⟨hn, ?_, ?_⟩
  · rw [List.nodup_iff_pairwise_ne, List.pairwise_map]
    exact (List.nodup_iff_pairwise_ne.1 he).imp fun h1 h2 => h1 (toString_nat_inj h2)
  · rintro a ha b hb rfl
    obtain ⟨n, -, rfl⟩ := List.mem_map.1 hb
    exact hp n ha

/-- **C152 (what holds).** For every component that is browser-friendly in the states it can reach, over any history: when the browser has processed all it was sent, the ids on the page are, in
document order, those the page had, followed by those of the component's current view.  So, if the page had no id twice, it has none twice. -/
theorem C152_ids_partial (B : Browser) (C : Component D I S E P) (p : P) (data : D) (hf : FriendlyFrom B C p (C.new data p).1)
    (parse : String → Option ClientMessage) (page : List Dom) (hp : PageOk page) (ms : List (Mail I P))
    (hc : ∀ m ∈ ms, m ≠ .ws (.error .connectionClosed) ∧ ∀ q, m ≠ .whoAmI q) :
    ∃ st os, loopRun C parse true (.waiting data) (.whoAmI p :: ms) = (.running st, os) ∧
      domIds (clientMessages B (sends os) page) = domIds page ++ (C.render st.comp).1.ids.map toString ∧
      ((domIds page).Nodup → (domIds (clientMessages B (sends os) page)).Nodup) := by
  obtain ⟨is, s', h⟩ := session_total C parse p (C.new data p).1 ms hc
  obtain ⟨ops, d0, h1, h2, h3⟩ := C62_first_paint_partial B page hp (C.render (C.new data p).1).1 (hf.ids []) (hf.attrs []) (hf.obeys [])
  obtain ⟨os, d, h4, h5, h6⟩ := updates_shown_from hp h hf d0 h3
  have hpage : clientMessages B (sends (opening C data p ++ os)) page = page ++ [d] := by
    cases h1
    rw [sends_append, opening, sends_append, sends_effects]
    simp only [sends, List.nil_append, List.cons_append, clientMessages, h2, h5]
  refine ⟨_, _, C66_trace C parse data p ms is s' os h h4, ?_, fun hn => ?_⟩
  · rw [hpage, ids_page h6]
  · rw [hpage, ids_page h6]
    exact ids_page_nodup hp hn (session_after h ▸ hf.ids is)

/-- two views of five `div`s each: `0[1, 2[3[4]]]` and `0[1[2, 3], 4]` -/
def regroup : Component Unit Unit Bool String Unit where
  new := fun _ _ => (false, [])
  update := fun s _ _ => (!s, [])
  render := fun s => (if s then
      ⟨0, "div", [], [], [⟨1, "div", [], [], [⟨2, "div", [], [], [], none, none⟩, ⟨3, "div", [], [], [], none, none⟩], none, none⟩, ⟨4, "div", [], [], [], none, none⟩], none, none⟩
    else
      ⟨0, "div", [], [], [⟨1, "div", [], [], [], none, none⟩, ⟨2, "div", [], [], [⟨3, "div", [], [], [⟨4, "div", [], [], [], none, none⟩], none, none⟩], none, none⟩], none, none⟩,
    fun _ => none)

/-- **C152 is false** in general, in any browser: after one update of a component whose views are made of `div`s with distinct ids, two elements of the page have the id 4. -/
theorem C152_ids_refuted (B : Browser) (hB : B.validTag "div" = true) (parse : String → Option ClientMessage) :
    (∀ s, ∃ w g, intoElement w 0 = some ((regroup.render s).1, g)) ∧
    ∃ st os, loopRun regroup parse true (.waiting ()) [.whoAmI (), .input ()] = (.running st, os) ∧
      domIds (clientMessages B (sends os) []) = ["0", "1", "4", "2", "3", "4"] := by
  refine ⟨fun s => ?_, _, [.send (serializeOps [⟨0, .createTag "div" none⟩, ⟨1, .createTag "div" (some 0)⟩, ⟨2, .createTag "div" (some 0)⟩, ⟨3, .createTag "div" (some 2)⟩,
    ⟨4, .createTag "div" (some 3)⟩]), .send (serializeOps [⟨2, .createTag "div" (some 1)⟩, ⟨3, .createTag "div" (some 1)⟩, ⟨3, .deleteEl⟩, ⟨2, .setId 4⟩])], rfl, ?_⟩
  · cases s
    · exact ⟨(BodyNode.wrap (.div [])).withChildren [BodyNode.wrap (.div []), (BodyNode.wrap (.div [])).withChildren [(BodyNode.wrap (.div [])).withChildren [BodyNode.wrap (.div [])]]], 5, rfl⟩
    · exact ⟨(BodyNode.wrap (.div [])).withChildren [(BodyNode.wrap (.div [])).withChildren [BodyNode.wrap (.div []), BodyNode.wrap (.div [])], BodyNode.wrap (.div [])], 5, rfl⟩
  · have e1 : splitPlus "div+" = ["div", ""] := by decide +kernel
    have e2 : splitPlus "div+0" = ["div", "0"] := by decide +kernel
    have e3 : splitPlus "div+1" = ["div", "1"] := by decide +kernel
    have e4 : splitPlus "div+2" = ["div", "2"] := by decide +kernel
    have e5 : splitPlus "div+3" = ["div", "3"] := by decide +kernel
    have a1 : asciiLower "div" = "div" := by decide +kernel
    have d0 : Nat.repr 0 = "0" := by decide +kernel
    have d1 : Nat.repr 1 = "1" := by decide +kernel
    have d2 : Nat.repr 2 = "2" := by decide +kernel
    have d3 : Nat.repr 3 = "3" := by decide +kernel
    have d4 : Nat.repr 4 = "4" := by decide +kernel
    simp [sends, clientMessages, serializeOps, Op.serialize, clientMessage, clientOp, withElement, replaceIn, replaceNode, Headers.get, e1, e2, e3, e4, e5, a1,
      d0, d1, d2, d3, d4, hB, Headers.insert, domIds, Dom.ids]

/-- non-vacuity: the two-state counter `capped` is browser-friendly, and has a history -/
example (parse : String → Option ClientMessage) :
    ∃ st os, loopRun capped parse true (.waiting ()) [.whoAmI (), .input (), .input ()] = (.running st, os) ∧
      (domIds (clientMessages plainBrowser (sends os) [.elem "main" [("id", "a+b")] [] []])).Nodup := by
  obtain ⟨st, os, h1, -, h3⟩ := C152_ids_partial plainBrowser capped () () capped_friendly parse [.elem "main" [("id", "a+b")] [] []]
    (fun n h => by
      have e : toString n = "a+b" := by simpa [domIds, Dom.ids, Headers.get] using h
      exact absurd (by rw [e]; decide +kernel) (toString_nat_noplus n)) [.input (), .input ()] (by simp)
  exact ⟨st, os, h1, h3 (by simp [domIds, Dom.ids, Headers.get])⟩

end Puck

namespace Puck.Chat
open Puck

/-- **C152 for the chat.** In every state the application reaches, each user's page has, besides the ids it had, the ids 0, 1, 2, … of the user's view, in document order and each once. -/
theorem C152_chat (B : Browser) (hB : KnowsChat B) (parse : String → Option ClientMessage) (firstSend : Nat → Bool) (k : Nat) (n : ChatNet) (h : ChatSteps parse firstSend .init n)
    (u : UserProcs) (hu : n.users k = some u) (l : Live) (hl : u.live = some l) (page : List Dom) (hp : PageOk page) :
    ∃ m, domIds (clientMessages B u.sent page) = domIds page ++ (List.range m).map toString ∧
      ((domIds page).Nodup → (domIds (clientMessages B u.sent page)).Nodup) := by
  obtain ⟨d, h1, h2, -⟩ := C85_exact_partial B hB parse firstSend k n h u hu l hl page hp
  have key : ∃ m, l.fieldCut.render.1.ids = List.range m ∧ l.fieldCut.render.1.ids.Nodup := by
    obtain ⟨g, he⟩ := view_element l.fieldCut
    obtain ⟨a, -, -, b, -⟩ := C54_ids _ _ _ _ he
    exact ⟨g, by rw [a, List.range_eq_range']; rfl, b⟩
  obtain ⟨m, h3, h4⟩ := key
  refine ⟨m, ?_, fun hn => ?_⟩
  · rw [h1, ids_page h2, h3]
  · rw [h1, ids_page h2]
    exact ids_page_nodup hp hn h4

end Puck.Chat
