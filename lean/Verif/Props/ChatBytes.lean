import Verif.Spec.ChatBytes
import Verif.Props.ChatScript
import Verif.Props.Wire
import Verif.Lemmas.ChatLogged
/-!
# C146: the chat from one user's bytes to another user's bytes
-/
namespace Puck.Chat
open Puck Json Rfc6455

variable {fs : Nat → Bool}

/-- Text frames, each in its own reads, are given to the reader as their texts, in order. -/
theorem run_texts (W : Nat) (acts : List (String × Puck.Delivery)) (rest : Raw) (out : Sink)
    (h : ∀ a ∈ acts, a.2.Ok W ∧ a.2.frame.fin = true ∧ a.2.frame.nibble = 1 ∧ a.2.frame.payload = strBytes a.1) :
    (WebSocket.run W (List.replicate acts.length .next) .open ⟨(acts.map fun a => a.2.reads).flatten ++ rest, out⟩).1 =
      acts.map fun a => Ret.item (.ok (.text a.1)) := by
  induction acts with
  | nil => rfl
  | cons a acts ih =>
    obtain ⟨h1, h2, h3, h4⟩ := h a (by simp)
    have hc := C17_client_message W (.text a.1) a.2 ((acts.map fun a => a.2.reads).flatten ++ rest) h1 h2 h3 h4
    have ih' := ih fun b hb => h b (by simp [hb])
    simp only [List.length_cons, List.replicate_succ, WebSocket.run, List.map_cons, List.flatten_cons, List.append_assoc, WebSocket.next, hc, normalise]
    rw [← ih']

theorem script_texts (events : List ClientMessage) (ms : List (Except NextMessageError Message))
    (h : ms = events.map fun e => Except.ok (.text (eventText e.listener e.payload))) : script fromStr ms = scriptOf events := by
  subst h
  unfold script scriptOf
  generalize ChatScript.naming "" = s
  induction events generalizing s with
  | nil => rfl
  | cons e events ih =>
    simp only [List.map_cons, List.foldl_cons, ChatScript.reads, C93_event_json]
    exact ih _

/-- **C146.** From the bytes of one user's browser to the bytes that another user's browser gets.  A fair execution of the chat; when `k'` has registered, `before` has been sent by
`k`.  The browser of `k` reports `events`, each as one masked text frame with the JSON of the event (its own reads, as many as there are), and anything after them; the reader process of `k` reads this
connection.  By these events the user has sent the texts `before ++ more`, under `name`.  Then there is a moment at which the process of `k` is over, or that of `k'` is, or
the bytes that the server has written to `k'` (the component's messages and the pongs, in whatever order) lead the browser of `k'` from its page to that page with a view in it
that has all of `more`, in order, under the name of the sender. -/
theorem C146_bytes_to_bytes (B : Browser) (hB : KnowsChat B) (W : Nat) (firstSend : Nat → Bool) (x : ChatExecution fromStr firstSend) (hf : x.Fair)
    (i0 k k' at_ : Nat) (hj : (k', at_) ∈ (x.state i0).srv.joined) (hfirst : firstSend k = true)
    (sends : List (ClientMessage × Puck.Delivery)) (rest : Raw)
    (hs : ∀ a ∈ sends, a.2.Ok W ∧ a.2.frame.fin = true ∧ a.2.frame.nibble = 1 ∧ a.2.frame.payload = strBytes (eventText a.1.listener a.1.payload))
    (hr : ReadsSocket W x k ((sends.map fun a => a.2.reads).flatten ++ rest))
    (name field : String) (before more : List String) (hb : (script fromStr (passedOn x k i0)).sent = before)
    (hm : scriptOf (sends.map (·.1)) = .chatting name field (before ++ more))
    (hplus : ∀ j, ∀ m ∈ passedOn x k' j, NoPlus fromStr m) (page : List Dom) (hp : PageOk page) :
    ∃ j, (∃ u, (x.state j).users k = some u ∧ u.Over) ∨ ∃ v, (x.state j).users k' = some v ∧ (v.Over ∨
      ∃ name' id' shown composing id, (more.map fun t => (⟨id, name, t⟩ : ChatMessage)).Sublist shown ∧
        ∀ pongs ws : List Message, (∀ m ∈ pongs, ∃ q, m = .pong q) → Merge (v.sent.map fun ops => Message.text (changesetText ops)) pongs ws →
          (∀ m ∈ ws, (wireOf m).payload.length < 2 ^ 64) →
          ∃ d, pageFrom B (sendAll ws ⟨[], none⟩).2.out page = page ++ [d] ∧ (Live.initialized name' id' shown composing).render.1.ShownAs d) := by
  have hrun := run_texts W (sends.map fun a => (eventText a.1.listener a.1.payload, a.2)) rest ⟨[], none⟩ (by
    intro a ha
    obtain ⟨b, hb, rfl⟩ := List.mem_map.1 ha
    exact hs b hb)
  simp only [List.map_map, List.length_map, Function.comp_def] at hrun
  obtain ⟨i1, hi1⟩ := hr (sends.map fun a => .text (eventText a.1.listener a.1.payload)) (by
    rw [List.length_map, hrun, List.map_map]; rfl)
  have hsc := script_texts (sends.map (·.1)) ((sends.map fun a => Message.text (eventText a.1.listener a.1.payload)).map Except.ok) (by
    simp only [List.map_map]; rfl)
  have hi2 := hi1.trans (passedOn_grows x k (Nat.le_max_right i0 i1))
  obtain ⟨field', more', hscript⟩ := script_grows hi2 (hsc.trans hm)
  obtain ⟨j, h1, h2⟩ := C140_on_page B hB fromStr firstSend x hf i0 (max i0 i1) k k' at_ hj (Nat.le_max_left _ _) hfirst name field' before (more ++ more') hb
    (by rw [hscript, List.append_assoc]) hplus page hp
  refine ⟨j, h2.imp_right ?_⟩
  rintro ⟨v, h3, h4⟩
  refine ⟨v, h3, h4.imp_right ?_⟩
  rintro ⟨name', id', shown, composing, id, d, h5, h6, h7⟩
  rw [List.map_append] at h7
  refine ⟨name', id', shown, composing, id, (List.sublist_append_left _ _).trans h7, fun pongs ws hpongs hw hlen => ⟨d, ?_, h6⟩⟩
  have hm' : (v.sent.map fun ops => Message.text (changesetText ops)) = (v.sent.map changesetText).map Message.text := by simp
  rw [hm'] at hw
  unfold pageFrom
  rw [texts_part hw hpongs hlen, pageAfter_changesets, h5]

/-! ## A case -/

/-- All the results of the iterator when the text frames are everything that comes. -/
theorem run_texts_all (W : Nat) (acts : List (String × Puck.Delivery)) (out : Sink) (n : Nat)
    (h : ∀ a ∈ acts, a.2.Ok W ∧ a.2.frame.fin = true ∧ a.2.frame.nibble = 1 ∧ a.2.frame.payload = strBytes a.1) :
    (WebSocket.run W (List.replicate n .next) .open ⟨(acts.map fun a => a.2.reads).flatten, out⟩).1 =
      (acts.map fun a => Ret.item (.ok (.text a.1))).take n ++ List.replicate (n - acts.length) (Ret.item (.err .clientError)) := by
  induction acts generalizing n with
  | nil => simp [C21_eof_refuted]
  | cons a acts ih =>
    cases n with
    | zero => simp [WebSocket.run]
    | succ n =>
      obtain ⟨h1, h2, h3, h4⟩ := h a (by simp)
      have hc := C17_client_message W (.text a.1) a.2 (acts.map fun a => a.2.reads).flatten h1 h2 h3 h4
      have ih' := ih n fun b hb => h b (by simp [hb])
      simp only [List.length_cons, List.replicate_succ, WebSocket.run, List.map_cons, List.flatten_cons, WebSocket.next, hc, normalise, List.take_succ_cons,
        List.cons_append, Nat.add_sub_add_right]
      rw [← ih']

/-- So a reader that has passed on those texts has read the socket. -/
theorem reads_texts {parse : String → Option ClientMessage} (W : Nat) (x : ChatExecution parse fs) (k i : Nat) (acts : List (String × Puck.Delivery))
    (h : ∀ a ∈ acts, a.2.Ok W ∧ a.2.frame.fin = true ∧ a.2.frame.nibble = 1 ∧ a.2.frame.payload = strBytes a.1)
    (hp : (acts.map fun a => Except.ok (.text a.1)) <+: passedOn x k i) : ReadsSocket W x k (acts.map fun a => a.2.reads).flatten := by
  intro ms hms
  refine ⟨i, List.IsPrefix.trans ?_ hp⟩
  rw [run_texts_all W acts _ _ h] at hms
  by_cases e : ms.length ≤ acts.length
  · rw [Nat.sub_eq_zero_of_le e, List.replicate_zero, List.append_nil, ← List.map_take] at hms
    have : ms = (acts.take ms.length).map fun a => .text a.1 := by
      generalize acts.take ms.length = l at hms
      clear e h hp
      induction ms generalizing l with
      | nil => cases l <;> simp_all
      | cons m ms ih =>
        cases l with
        | nil => simp at hms
        | cons a l =>
          simp only [List.map_cons, List.cons.injEq] at hms ⊢
          obtain ⟨h1, h2⟩ := hms
          injection h1 with h1; injection h1 with h1
          exact ⟨h1.symm, ih l h2⟩
    rw [this, List.map_map]
    have := (List.take_prefix ms.length acts).map fun a => (Except.ok (.text a.1) : Except NextMessageError Message)
    simpa [Function.comp_def] using this
  · exfalso
    have : Ret.item (.err .clientError) ∈ ms.map fun m => Ret.item (.ok m) := by
      rw [← hms]
      refine List.mem_append_right _ (List.mem_replicate.2 ⟨by omega, rfl⟩)
    obtain ⟨m, _, hm⟩ := List.mem_map.1 this
    cases hm

/-- A masked text frame with this payload. -/
def maskedText (t : String) : ClientFrame := ⟨true, false, false, false, 1, (1, 2, 3, 4), strBytes t, .short⟩

theorem masked_ok {t : String} (h1 : strBytes t ≠ []) (h2 : (strBytes t).length ≤ 125) : Puck.Delivery.Ok 64 ⟨maskedText t, [.data (maskedText t).encode]⟩ := by
  have hl : (maskedText t).encode.length = 6 + (strBytes t).length := by
    unfold ClientFrame.encode ClientFrame.head
    simp only [maskedText, List.length_append, length_headBytes, length_mask]
    simp [Key.bytes]
  have hh : (maskedText t).head.length = 2 := by unfold ClientFrame.head; rw [length_headBytes]; rfl
  have h0 : 0 < (strBytes t).length := List.length_pos_iff.2 h1
  have hb : ∀ k, 0 < k → k < 6 → ¬ Raw.Boundary [.data (maskedText t).encode] k := fun k k0 k6 => not_boundary_of fun n hn => by
    match n, hn with
    | 0, _ => simp [Raw.bytes]; omega
    | 1, _ => simp [Raw.bytes, hl]; omega
  refine ⟨⟨by simp [maskedText], by simp only [maskedText, Form.Carries]; omega⟩, by simp only [maskedText]; exact h2.trans (by decide), Or.inl ⟨h1, ?_, by simp [Raw.Clean], by simp [Raw.bytes], ?_⟩⟩
  · intro b hb; simp at hb; subst hb
    exact fun e => by rw [e] at hl; simp at hl; omega
  · rw [hh]; exact ⟨hb 1 (by decide) (by decide), hb 3 (by decide) (by decide), hb 4 (by decide) (by decide), hb 5 (by decide) (by decide)⟩

/-- The hypotheses of C146 are met: two users have entered (with the names the server gives them), and the first types "hi" and clicks on the button. -/
theorem C146_case : ∃ (x : ChatExecution fromStr fun _ => true) (i0 : Nat) (sends : List (ClientMessage × Puck.Delivery)), x.Fair ∧ (1, 0) ∈ (x.state i0).srv.joined ∧
    (∀ a ∈ sends, a.2.Ok 64 ∧ a.2.frame.fin = true ∧ a.2.frame.nibble = 1 ∧ a.2.frame.payload = strBytes (eventText a.1.listener a.1.payload)) ∧
    ReadsSocket 64 x 0 ((sends.map fun a => a.2.reads).flatten ++ []) ∧ (script fromStr (passedOn x 0 i0)).sent = [] ∧
    scriptOf (sends.map (·.1)) = .chatting "" "hi" ([] ++ ["hi"]) ∧ ∀ j, ∀ m ∈ passedOn x 1 j, NoPlus fromStr m := by
  let evs : List ClientMessage := [⟨"initialize_username", none⟩, ⟨"update_message_contents", some "hi"⟩, ⟨"submit_message", none⟩]
  let text (e : ClientMessage) : String := eventText e.listener e.payload
  obtain ⟨x, i, j, hx, hj, h0, h1, h2⟩ := logged_two (parse := fromStr) (fs := fun _ => true) rfl rfl (t := text ⟨"initialize_username", none⟩)
    (C93_event_json _ _) [.ok (.text (text ⟨"update_message_contents", some "hi"⟩)), .ok (.text (text ⟨"submit_message", none⟩))]
  have hs : ∀ a ∈ evs.map fun e => (e, (⟨maskedText (text e), [.data (maskedText (text e)).encode]⟩ : Puck.Delivery)),
      a.2.Ok 64 ∧ a.2.frame.fin = true ∧ a.2.frame.nibble = 1 ∧ a.2.frame.payload = strBytes (eventText a.1.listener a.1.payload) := by
    intro a ha
    obtain ⟨e, he, rfl⟩ := List.mem_map.1 ha
    refine ⟨masked_ok ?_ ?_, rfl, rfl, rfl⟩
    · simp only [evs, List.mem_cons, List.not_mem_nil, or_false] at he
      rcases he with rfl | rfl | rfl <;> decide +kernel
    · simp only [evs, List.mem_cons, List.not_mem_nil, or_false] at he
      rcases he with rfl | rfl | rfl <;> decide +kernel
  refine ⟨x, i, evs.map fun e => (e, ⟨maskedText (text e), [.data (maskedText (text e)).encode]⟩), hx, hj, hs, ?_, ?_, ?_, ?_⟩
  · have := reads_texts 64 x 0 j (evs.map fun e => (text e, ⟨maskedText (text e), [.data (maskedText (text e)).encode]⟩)) (by
      intro a ha
      obtain ⟨e, he, rfl⟩ := List.mem_map.1 ha
      exact hs (e, _) (List.mem_map.2 ⟨e, he, rfl⟩)) (by rw [h1]; exact List.prefix_rfl)
    simpa [Function.comp_def] using this
  · rw [h0]; exact (congrArg ChatScript.sent (script_texts [⟨"initialize_username", none⟩] _ rfl)).trans (by decide +kernel)
  · decide +kernel
  · intro j m hm t c v e1 e2 e3
    have := (h2 j).subset hm
    rw [List.mem_singleton] at this
    rw [this] at e1
    injection e1 with e1; injection e1 with e1
    rw [← e1, C93_event_json] at e2
    cases e2; cases e3

end Puck.Chat
