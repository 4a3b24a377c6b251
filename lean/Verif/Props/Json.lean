import Verif.Lemmas.Json
import Verif.Props.EndToEnd
import Verif.Props.Message
import Verif.Props.Send
/-!
# JSON between browser and server (C92 - C95)
-/
namespace Puck.Json

/-! ## C92 -/

theorem hex_control : ∀ n < 32, hexVal (hexDigit (n / 16)) = some (n / 16) ∧ hexVal (hexDigit (n % 16)) = some (n % 16) := by
  decide

theorem escapeChar_text (c : Char) : CharText (escapeChar c) c.toNat := by
  unfold escapeChar
  split
  · next h => subst h; exact .simple '"' 0x22 (by decide)
  split
  · next h => subst h; exact .simple '\\' 0x5C (by decide)
  split
  · next h => rw [h]; exact .simple 'b' 0x08 (by decide)
  split
  · next h => rw [h]; exact .simple 'f' 0x0C (by decide)
  split
  · next h => subst h; exact .simple 'n' 0x0A (by decide)
  split
  · next h => subst h; exact .simple 'r' 0x0D (by decide)
  split
  · next h => subst h; exact .simple 't' 0x09 (by decide)
  split
  · next h =>
    obtain ⟨h1, h2⟩ := hex_control c.toNat h
    have := CharText.hex '0' '0' _ _ 0 0 _ _ (by decide) (by decide) h1 h2
    have he : ((0 * 16 + 0) * 16 + c.toNat / 16) * 16 + c.toNat % 16 = c.toNat := by omega
    rw [he] at this
    exact this
  · next h1 h2 _ _ _ _ _ h3 => exact .plain c h1 h2 (by omega)

theorem escapeChars_text (cs : List Char) : CharsText (escapeChars cs) (cs.map Char.toNat) := by
  induction cs with
  | nil => exact .nil
  | cons c cs ih => exact .cons (escapeChar_text c) ih

theorem char_valid (c : Char) : c.toNat.isValidChar := c.valid

theorem joinSurrogates_chars (cs : List Char) : joinSurrogates (cs.map Char.toNat) = cs.map Char.toNat := by
  induction cs with
  | nil => rfl
  | cons c cs ih =>
    cases cs with
    | nil => rfl
    | cons d ds =>
      have hc := char_valid c
      rw [List.map_cons, List.map_cons, joinSurrogates, if_neg, ← List.map_cons, ih]
      unfold Nat.isValidChar at hc
      omega

/-- A written string literal denotes exactly the string. -/
theorem writeString_text (s : String) : StringText (writeString s) (codePoints s) :=
  ⟨_, _, escapeChars_text s.toList, rfl, by rw [joinSurrogates_chars]; rfl⟩

/-- What one instruction is in JSON: an object with the members `el`, `ty` and, if there is one, `payload`. -/
def opValue (w : WireOp) : Value :=
  .obj ([(codePoints "el", .str (codePoints w.el)), (codePoints "ty", .str (codePoints w.ty))] ++
    (match w.payload with
      | some p => [(codePoints "payload", .str (codePoints p))]
      | none => []))

theorem ws_nil : Ws [] := by simp [Ws]

theorem member_one (name : String) {t : List Char} {v : Value} (h : ValueText t v) :
    MembersText (writeMember name t) [(codePoints name, v)] := by
  have := MembersText.one ws_nil (writeString_text name) ws_nil ws_nil h ws_nil
  simpa [writeMember] using this

theorem member_more (name : String) {t ts : List Char} {v : Value} {ms : List (List Nat × Value)} (h : ValueText t v) (hm : MembersText ts ms) :
    MembersText (writeMember name t ++ ',' :: ts) ((codePoints name, v) :: ms) := by
  have := MembersText.more ws_nil (writeString_text name) ws_nil ws_nil h ws_nil hm
  simpa [writeMember] using this

theorem writeOp_text (w : WireOp) : ValueText (writeOp w) (opValue w) := by
  obtain ⟨el, ty, payload⟩ := w
  cases payload with
  | none =>
    have := ValueText.obj (member_more "el" (.str (writeString_text el)) (member_one "ty" (.str (writeString_text ty))))
    simpa [writeOp, opValue] using this
  | some p =>
    have := ValueText.obj (member_more "el" (.str (writeString_text el)) (member_more "ty" (.str (writeString_text ty))
      (member_one "payload" (.str (writeString_text p)))))
    simpa [writeOp, opValue] using this

theorem writeOps_text (w : WireOp) (ws : List WireOp) : ElementsText (writeOps (w :: ws)) ((w :: ws).map opValue) := by
  induction ws generalizing w with
  | nil =>
    have := ElementsText.one ws_nil (writeOp_text w) ws_nil
    simpa [writeOps] using this
  | cons x xs ih =>
    have := ElementsText.more ws_nil (writeOp_text w) ws_nil (ih x)
    simpa [writeOps] using this

theorem changesetText_denotes (ws : List WireOp) : Denotes (changesetText ws) (.arr (ws.map opValue)) := by
  refine ⟨[], _, [], ws_nil, ?_, ws_nil, by rw [changesetText, String.toList_ofList, List.append_nil, List.nil_append]⟩
  cases ws with
  | nil => exact .emptyArr ws_nil
  | cons w ws => exact .arr (writeOps_text w ws)

theorem char_ofNat_toNat (c : Char) : Char.ofNat c.toNat = c := by simp

theorem unicode_codePoints (cs : List Char) : unicode (cs.map Char.toNat) = some cs := by
  induction cs with
  | nil => rfl
  | cons c cs ih => rw [List.map_cons, unicode, if_pos (char_valid c), ih, char_ofNat_toNat]

theorem toStr_codePoints (s : String) : (Value.str (codePoints s)).toStr = some s := by
  rw [Value.toStr, codePoints, unicode_codePoints]
  simp

theorem codePoints_inj {s t : String} (h : codePoints s = codePoints t) : s = t := by
  have h1 := toStr_codePoints s
  rw [h, toStr_codePoints] at h1
  exact (Option.some.inj h1).symm

theorem wireOpOf_opValue (w : WireOp) : wireOpOf (opValue w) = some w := by
  obtain ⟨el, ty, payload⟩ := w
  have h1 : codePoints "el" ≠ codePoints "ty" := by decide
  have h2 : codePoints "el" ≠ codePoints "payload" := by decide
  have h3 : codePoints "ty" ≠ codePoints "payload" := by decide
  cases payload with
  | none => simp [opValue, wireOpOf, fields, h1, h2, h3, h1.symm, toStr_codePoints]
  | some p => simp [opValue, wireOpOf, fields, h1, h2, h3, h1.symm, h2.symm, h3.symm, toStr_codePoints]

theorem wireOpsOf_map (ws : List WireOp) : wireOpsOf (ws.map opValue) = some ws := by
  induction ws with
  | nil => rfl
  | cons w ws ih => rw [List.map_cons, wireOpsOf, wireOpOf_opValue, ih]

/-- A JSON text denotes one value only. -/
theorem denotes_unique {text : String} {v v' : Value} (h : Denotes text v) (h' : Denotes text v') : v = v' := by
  rw [← parse_iff] at h h'
  rw [h] at h'
  exact Option.some.inj h'

/-- **C92.** For every list of instructions, whatever strings they contain: the text that is sent is a JSON text, it
denotes exactly the array of those instructions, in order (and nothing else), and a browser that parses it does to
its page exactly what the instructions say. -/
theorem C92_changeset_json (ws : List WireOp) :
    (∀ v, Denotes (changesetText ws) v ↔ v = .arr (ws.map opValue)) ∧
    ∀ (B : Browser) (body : List Dom), clientText B (changesetText ws) body = some (clientMessage B ws body) := by
  have h := changesetText_denotes ws
  refine ⟨fun v => ⟨fun hv => denotes_unique hv h, fun e => e ▸ h⟩, fun B body => ?_⟩
  rw [clientText, (parse_iff _ _).mpr h]
  simp only [wireOpsOf_map, Option.map_some]

/-- Two different changesets are never sent as the same text. -/
theorem C92_injective (ws ws' : List WireOp) (h : changesetText ws = changesetText ws') : ws = ws' := by
  have h1 := changesetText_denotes ws
  rw [h] at h1
  have h2 := denotes_unique h1 (changesetText_denotes ws')
  have h3 := wireOpsOf_map ws
  rw [Value.arr.inj h2, wireOpsOf_map] at h3
  exact (Option.some.inj h3).symm

/-- non-vacuity: quotes, backslashes, control characters and other scripts -/
example : changesetText [⟨"1", "setText", some "say \"hi\"\n\\ \x01 é"⟩, ⟨"2", "deleteEl", none⟩] =
    "[{\"el\":\"1\",\"ty\":\"setText\",\"payload\":\"say \\\"hi\\\"\\n\\\\ \\u0001 é\"},{\"el\":\"2\",\"ty\":\"deleteEl\"}]" := by
  decide +kernel

/-! ## C93 -/

theorem eventText_denotes (listener : String) (payload : Option String) :
    Denotes (eventText listener payload) (.obj ((codePoints "listener", .str (codePoints listener)) ::
      (match payload with
        | some v => [(codePoints "payload", .obj [(codePoints "value", .str (codePoints v))])]
        | none => []))) := by
  refine ⟨[], (eventText listener payload).toList, [], ws_nil, ?_, ws_nil, by simp⟩
  cases payload with
  | none => simpa [eventText] using ValueText.obj (member_one "listener" (.str (writeString_text listener)))
  | some v =>
    simpa [eventText] using ValueText.obj (member_more "listener" (.str (writeString_text listener))
      (member_one "payload" (.obj (member_one "value" (.str (writeString_text v))))))

theorem unicode_str (s : String) : unicode (codePoints s) = some s.toList := unicode_codePoints _

/-- **C93.** Whatever the listener is called and whatever the user typed, the text the browser sends for an event is read
by the server as exactly that listener and that value. -/
theorem C93_event_json (listener : String) (payload : Option String) :
    fromStr (eventText listener payload) = some ⟨listener, payload⟩ := by
  rw [fromStr, (parse_iff _ _).mpr (eventText_denotes listener payload)]
  have h1 : codePoints "listener" ≠ codePoints "payload" := by decide
  cases payload with
  | none => simp [clientMessageOf, unicode_str, keysOk, fields, h1, toStr_codePoints]
  | some v =>
    simp [clientMessageOf, unicode_str, keysOk, fields, h1, h1.symm, toStr_codePoints, optPayloadOf, payloadOf]

/-- non-vacuity: what the browser writes for an input event -/
example : eventText "msg" (some "\"a\\b\"") = "{\"listener\":\"msg\",\"payload\":{\"value\":\"\\\"a\\\\b\\\"\"}}" := by
  decide +kernel

/-! ## C94 -/

/-- An object has exactly one member of this name, and this is its value. -/
def HasOne (name : String) (ms : List (List Nat × Value)) (v : Value) : Prop :=
  ∃ before after, ms = before ++ (codePoints name, v) :: after ∧ (∀ m ∈ before, m.1 ≠ codePoints name) ∧
    ∀ m ∈ after, m.1 ≠ codePoints name

/-- An object has no member of this name. -/
def Lacks (name : String) (ms : List (List Nat × Value)) : Prop := ∀ m ∈ ms, m.1 ≠ codePoints name

/-- All names are Unicode strings. -/
def NamesOk (ms : List (List Nat × Value)) : Prop := ∀ m ∈ ms, ∃ s, m.1 = codePoints s

/-- A payload carrying the given value: `{"value": ...}` with any other members, or `[...]`. -/
def IsPayload (v : Value) (s : String) : Prop :=
  (∃ ms, v = .obj ms ∧ NamesOk ms ∧ HasOne "value" ms (.str (codePoints s))) ∨ v = .arr [.str (codePoints s)]

/-- The value of a present payload: `null` is no payload. -/
def IsOptPayload (v : Value) (q : Option String) : Prop := (v = .null ∧ q = none) ∨ ∃ s, IsPayload v s ∧ q = some s

/-- An event: `{"listener": ..., "payload": ...}` in any order, with any other members, the payload being optional; or
an array of the two. -/
def IsEvent (v : Value) (listener : String) (payload : Option String) : Prop :=
  (∃ ms, v = .obj ms ∧ NamesOk ms ∧ HasOne "listener" ms (.str (codePoints listener)) ∧
    ((Lacks "payload" ms ∧ payload = none) ∨ ∃ p, HasOne "payload" ms p ∧ IsOptPayload p payload)) ∨
  (∃ p, v = .arr [.str (codePoints listener), p] ∧ IsOptPayload p payload)

theorem fields_nil_iff (name : String) (ms : List (List Nat × Value)) : fields name ms = [] ↔ Lacks name ms := by
  induction ms with
  | nil => simp [fields, Lacks]
  | cons m ms ih =>
    obtain ⟨k, v⟩ := m
    rw [fields]
    split
    · next h => simp [Lacks, h]
    · next h => rw [ih]; simp [Lacks, h]

theorem fields_one_iff (name : String) (ms : List (List Nat × Value)) (v : Value) : fields name ms = [v] ↔ HasOne name ms v := by
  induction ms with
  | nil => simp [fields, HasOne]
  | cons m ms ih =>
    obtain ⟨k, x⟩ := m
    rw [fields]
    split
    · next h =>
      subst h
      constructor
      · intro he
        simp only [List.cons.injEq] at he
        obtain ⟨rfl, he⟩ := he
        exact ⟨[], ms, rfl, by simp, (fields_nil_iff name ms).mp he⟩
      · rintro ⟨b, a, he, hb, ha⟩
        cases b with
        | nil =>
          simp only [List.nil_append, List.cons.injEq, Prod.mk.injEq, true_and] at he
          obtain ⟨rfl, rfl⟩ := he
          rw [(fields_nil_iff name ms).mpr ha]
        | cons y ys =>
          simp only [List.cons_append, List.cons.injEq] at he
          exact absurd (by rw [← he.1]) (hb y (by simp))
    · next h =>
      rw [ih]
      constructor
      · rintro ⟨b, a, rfl, hb, ha⟩
        refine ⟨(k, x) :: b, a, rfl, ?_, ha⟩
        intro m hm
        rcases List.mem_cons.mp hm with rfl | hm
        · exact h
        · exact hb m hm
      · rintro ⟨b, a, he, hb, ha⟩
        cases b with
        | nil =>
          simp only [List.nil_append, List.cons.injEq, Prod.mk.injEq] at he
          exact absurd he.1.1 h
        | cons y ys =>
          simp only [List.cons_append, List.cons.injEq] at he
          exact ⟨ys, a, he.2, fun m hm => hb m (by simp [hm]), ha⟩

theorem unicode_some {cps : List Nat} {cs : List Char} (h : unicode cps = some cs) : cps = cs.map Char.toNat := by
  induction cps generalizing cs with
  | nil => simp only [unicode, Option.some.injEq] at h; subst h; rfl
  | cons n ns ih =>
    rw [unicode] at h
    split at h
    · next hn =>
      split at h
      · next cs' hcs =>
        simp only [Option.some.injEq] at h
        subst h
        rw [List.map_cons, ← ih hcs, Char.ofNat, dif_pos hn]
        rfl
      · simp at h
    · simp at h

theorem toStr_iff (v : Value) (s : String) : v.toStr = some s ↔ v = .str (codePoints s) := by
  constructor
  · intro h
    cases v with
    | str cps =>
      rw [Value.toStr, Option.map_eq_some_iff] at h
      obtain ⟨cs, h1, rfl⟩ := h
      rw [unicode_some h1, codePoints, String.toList_ofList]
    | _ => simp [Value.toStr] at h
  · rintro rfl; exact toStr_codePoints s

theorem keysOk_iff (ms : List (List Nat × Value)) : keysOk ms = true ↔ NamesOk ms := by
  induction ms with
  | nil => simp [keysOk, NamesOk]
  | cons m ms ih =>
    obtain ⟨k, v⟩ := m
    rw [keysOk, Bool.and_eq_true, ih]
    constructor
    · rintro ⟨h1, h2⟩ m hm
      rcases List.mem_cons.mp hm with rfl | hm
      · obtain ⟨cs, hcs⟩ := Option.isSome_iff_exists.mp h1
        exact ⟨String.ofList cs, by rw [codePoints, String.toList_ofList, unicode_some hcs]⟩
      · exact h2 m hm
    · intro h
      refine ⟨?_, fun m hm => h m (by simp [hm])⟩
      obtain ⟨s, hs⟩ := h (k, v) (by simp)
      simp only at hs
      rw [hs, unicode_str]; rfl

theorem payloadOf_iff (v : Value) (s : String) : payloadOf v = some s ↔ IsPayload v s := by
  constructor
  · intro h
    unfold payloadOf at h
    split at h
    · next ms =>
      split at h
      · next hk =>
        split at h
        · next x hx =>
          exact Or.inl ⟨ms, rfl, (keysOk_iff ms).mp hk, by rw [← (toStr_iff x s).mp h]; exact (fields_one_iff _ _ _).mp hx⟩
        · simp at h
      · simp at h
    · next x => exact Or.inr (by rw [← (toStr_iff x s).mp h])
    · simp at h
  · rintro (⟨ms, rfl, hk, h1⟩ | rfl)
    · rw [payloadOf, if_pos ((keysOk_iff ms).mpr hk), (fields_one_iff _ _ _).mpr h1]
      exact toStr_codePoints s
    · exact toStr_codePoints s

theorem optPayloadOf_iff (v : Value) (q : Option String) : optPayloadOf v = some q ↔ IsOptPayload v q := by
  cases v with
  | null => simp [optPayloadOf, IsOptPayload, IsPayload, eq_comm]
  | _ =>
    simp only [optPayloadOf, Option.map_eq_some_iff, payloadOf_iff, IsOptPayload, reduceCtorEq, false_and, false_or]
    constructor
    · rintro ⟨s, h1, h2⟩; exact ⟨s, h1, h2.symm⟩
    · rintro ⟨s, h1, h2⟩; exact ⟨s, h1, h2.symm⟩

theorem clientMessageOf_iff (v : Value) (m : ClientMessage) : clientMessageOf v = some m ↔ IsEvent v m.listener m.payload := by
  obtain ⟨listener, payload⟩ := m
  constructor
  · intro h
    unfold clientMessageOf at h
    split at h
    · next ms =>
      split at h
      · next hk =>
        refine Or.inl ⟨ms, rfl, (keysOk_iff ms).mp hk, ?_⟩
        split at h
        · next l hl hp =>
          rw [Option.map_eq_some_iff] at h
          obtain ⟨s, hs, he⟩ := h
          simp only [ClientMessage.mk.injEq] at he
          obtain ⟨rfl, rfl⟩ := he
          rw [toStr_iff] at hs
          subst hs
          exact ⟨(fields_one_iff _ _ _).mp hl, Or.inl ⟨(fields_nil_iff _ _).mp hp, rfl⟩⟩
        · next l p hl hp =>
          split at h
          · next s q hs hq =>
            simp only [Option.some.injEq, ClientMessage.mk.injEq] at h
            obtain ⟨rfl, rfl⟩ := h
            rw [toStr_iff] at hs
            subst hs
            exact ⟨(fields_one_iff _ _ _).mp hl, Or.inr ⟨p, (fields_one_iff _ _ _).mp hp, (optPayloadOf_iff _ _).mp hq⟩⟩
          · simp at h
        · simp at h
      · simp at h
    · next l p =>
      split at h
      · next s q hs hq =>
        simp only [Option.some.injEq, ClientMessage.mk.injEq] at h
        obtain ⟨rfl, rfl⟩ := h
        rw [toStr_iff] at hs
        subst hs
        exact Or.inr ⟨p, rfl, (optPayloadOf_iff _ _).mp hq⟩
      · simp at h
    · simp at h
  · rintro (⟨ms, rfl, hk, h1, h2⟩ | ⟨p, rfl, h2⟩)
    · rw [clientMessageOf, if_pos ((keysOk_iff ms).mpr hk), (fields_one_iff _ _ _).mpr h1]
      rcases h2 with ⟨h3, h4⟩ | ⟨p, h3, h4⟩
      · simp only at h4
        rw [(fields_nil_iff _ _).mpr h3, h4]
        simp only [toStr_codePoints, Option.map_some]
      · rw [(fields_one_iff _ _ _).mpr h3]
        simp only [toStr_codePoints, (optPayloadOf_iff _ _).mpr h4]
    · simp only [clientMessageOf, toStr_codePoints, (optPayloadOf_iff _ _).mpr h2]

/-- **C94.** The server takes a text message for an event exactly if it is a JSON text that denotes one (in the sense of
`IsEvent`), and then for exactly that event; otherwise, whatever the text, it ignores it: nothing is sent and the
component and the server's record of the page stay as they are. -/
theorem C94_accepted {D I S E P : Type} (C : Component D I S E P) (ok : Bool) (st : LoopState I S P) (text : String) :
    (∀ m, fromStr text = some m ↔ ∃ v, Denotes text v ∧ IsEvent v m.listener m.payload) ∧
    ((¬ ∃ v l p, Denotes text v ∧ IsEvent v l p) →
      loopStep C fromStr ok (.running st) (.ws (.ok (.text text))) = (.running st, [])) := by
  have key : ∀ m, fromStr text = some m ↔ ∃ v, Denotes text v ∧ IsEvent v m.listener m.payload := by
    intro m
    constructor
    · intro h
      rw [fromStr] at h
      split at h
      · next v hv => exact ⟨v, (parse_iff _ _).mp hv, (clientMessageOf_iff _ _).mp h⟩
      · simp at h
    · rintro ⟨v, h1, h2⟩
      rw [fromStr, (parse_iff _ _).mpr h1]
      exact (clientMessageOf_iff _ _).mpr h2
  refine ⟨key, fun hno => ?_⟩
  rw [loopStep]
  cases hf : fromStr text with
  | none => rfl
  | some m =>
    obtain ⟨v, h1, h2⟩ := (key m).mp hf
    exact absurd ⟨v, _, _, h1, h2⟩ hno

/-- non-vacuity: members in another order, an unknown member and white space are accepted; a duplicate, a lone
surrogate, a trailing comma and plain text are not -/
example :
    fromStr " {\"payload\": {\"value\": \"\\ud83d\\ude00\", \"n\": [1.5e3, {}]}, \"x\": \"\\ud800\", \"listener\": \"a\"} " =
      some ⟨"a", some "😀"⟩ ∧
    fromStr "[\"a\", null]" = some ⟨"a", none⟩ ∧
    fromStr "{\"listener\":\"a\",\"listener\":\"a\"}" = none ∧
    fromStr "{\"listener\":\"\\ud800\"}" = none ∧
    fromStr "{\"listener\":\"a\",}" = none ∧ fromStr "hello" = none := by
  decide +kernel

/-! ## C95 -/

variable {D I S E P : Type}

/-- The text messages among the frames a browser decodes. -/
def textsOf : List Rfc6455.WireFrame → List String
  | [] => []
  | f :: fs =>
    if f.nibble = 1 then
      match fromUtf8 f.payload with
      | some s => s :: textsOf fs
      | none => textsOf fs
    else textsOf fs

/-- The browser's page after the `onmessage` handler ran for each of the texts; a text it cannot process leaves the page
as it is. -/
def pageAfter (B : Browser) : List String → List Dom → List Dom
  | [], body => body
  | t :: ts, body => pageAfter B ts ((clientText B t body).getD body)

theorem textsOf_wire (ts : List String) : textsOf (ts.map fun t => wireOf (.text t)) = ts := by
  induction ts with
  | nil => rfl
  | cons t ts ih =>
    rw [List.map_cons, textsOf, if_pos (show (wireOf (.text t)).nibble = 1 from rfl)]
    simp only [wireOf, fromUtf8_strBytes] at ih ⊢
    rw [ih]

theorem pageAfter_changesets (B : Browser) (ms : List (List WireOp)) (body : List Dom) :
    pageAfter B (ms.map changesetText) body = clientMessages B ms body := by
  induction ms generalizing body with
  | nil => rfl
  | cons m ms ih => rw [List.map_cons, pageAfter, (C92_changeset_json m).2, Option.getD_some, ih, clientMessages]

/-- The messages the component loop hands to its WebSocket (component/mod.rs:113, :200-202). -/
def messagesOf (os : List (Out E)) : List Message := (sends os).map fun ops => .text (changesetText ops)

/-- **C95 (what holds), server to browser.** C84 down to the bytes: for every component whose messages keep the page in step (C84) and every history in
which the connection stays open, if all writes succeed and no message is longer than a frame can be, then a browser that decodes
the bytes as RFC 6455 frames, their payloads as UTF-8, the texts as JSON, and runs the instructions, shows the
component's current render. -/
theorem C95_in_step_partial (B : Browser) (C : Component D I S E P) (p : P) (data : D) (page : List Dom) (hs : StaysInStep B C fromStr data p page)
    (ms : List (Mail I P)) (hc : ∀ m ∈ ms, m ≠ .ws (.error .connectionClosed) ∧ ∀ q, m ≠ .whoAmI q) :
    ∃ st os d, loopRun C fromStr true (.waiting data) (.whoAmI p :: ms) = (.running st, os) ∧
      (C.render st.comp).1.ShownAs d ∧
      ((∀ m ∈ messagesOf os, (wireOf m).payload.length < 2 ^ 64) →
        ∀ n, pageAfter B (textsOf (Rfc6455.decodeAll ((messagesOf os).length + n) (sendAll (messagesOf os) ⟨[], none⟩).2.out)) page =
          page ++ [d]) := by
  obtain ⟨st, os, d, h1, h2, h3⟩ := hs ms hc
  refine ⟨st, os, d, h1, h3, fun hl n => ?_⟩
  rw [(C02_history_decoded (messagesOf os) n hl).2]
  have : (messagesOf os).map wireOf = ((sends os).map changesetText).map fun t => wireOf (.text t) := by
    simp [messagesOf]
  rw [this, textsOf_wire, pageAfter_changesets, h2]

/-- **C95 (what holds), server to browser**, for browser-friendly components. -/
theorem C95_bytes_to_page_partial (B : Browser) (C : Component D I S E P) (p : P) (hf : BrowserFriendly B C p)
    (data : D) (page : List Dom) (hp : PageOk page) (ms : List (Mail I P))
    (hc : ∀ m ∈ ms, m ≠ .ws (.error .connectionClosed) ∧ ∀ q, m ≠ .whoAmI q) :
    ∃ st os d, loopRun C fromStr true (.waiting data) (.whoAmI p :: ms) = (.running st, os) ∧
      (C.render st.comp).1.ShownAs d ∧
      ((∀ m ∈ messagesOf os, (wireOf m).payload.length < 2 ^ 64) →
        ∀ n, pageAfter B (textsOf (Rfc6455.decodeAll ((messagesOf os).length + n) (sendAll (messagesOf os) ⟨[], none⟩).2.out)) page =
          page ++ [d]) :=
  C95_in_step_partial B C p data page (fun ms hc => C84_sync_partial B C p hf fromStr data page hp ms hc) ms hc

/-- **C95, browser to server.** C83 down to the bytes: however the browser's masked text frame for an event is split into reads,
the server's decoder yields one text message, and the loop updates the component with exactly what the registered listener
asks for on that value. -/
theorem C95_event_to_update (C : Component D I S E P) (ok : Bool) (data : D) (p : P) (ms : List (Mail I P)) (st : LoopState I S P)
    (h : (loopRun C fromStr ok (.waiting data) (.whoAmI p :: ms)).1 = .running st) (d : Dom) (hd : (C.render st.comp).1.ShownAs d)
    (hr : Registered (C.render st.comp).1 (C.render st.comp).2) (l : ListenerRef) (hl : l ∈ d.allListeners) (value : String) :
    ∃ L name payload, (C.render st.comp).2 l.listenerName = some L ∧ clientEvent l L.jsEvent value = some (name, payload) ∧
      ∀ (W : Nat) (f : Delivery) (rest : Raw), f.Ok W → f.frame.fin = true → f.frame.nibble = 1 →
        f.frame.payload = strBytes (eventText name payload) →
        ∃ m, Message.next W (f.reads ++ rest) = (.ok m, rest) ∧
          loopStep C fromStr ok (.running st) (.ws (.ok m)) = updateAndDiff C st (L.fire value) := by
  obtain ⟨⟨L, name, payload, h1, h2, h3⟩, -⟩ := C83_event_delivered C fromStr ok data p ms st h d hd hr l hl value
  refine ⟨L, name, payload, h1, h2, fun W f rest hf hfin hn hpl => ⟨.text (eventText name payload), ?_, h3 _ (C93_event_json name payload)⟩⟩
  exact C17_client_message W (.text (eventText name payload)) f rest hf hfin hn hpl

/-- non-vacuity: the counter and a click on its button, as bytes -/
example : ∃ st os d, loopRun counter fromStr true (.waiting ()) (.whoAmI () :: [.ws (.ok (.text (eventText "inc" none)))]) =
    (.running st, os) ∧ (counter.render st.comp).1.ShownAs d ∧
      ((∀ m ∈ messagesOf os, (wireOf m).payload.length < 2 ^ 64) →
        ∀ n, pageAfter plainBrowser (textsOf (Rfc6455.decodeAll ((messagesOf os).length + n) (sendAll (messagesOf os) ⟨[], none⟩).2.out)) [] =
          [] ++ [d]) :=
  C95_bytes_to_page_partial plainBrowser counter () counter_friendly () [] (by simp [PageOk, domIds]) _ (by simp)

example : ∀ m ∈ messagesOf (loopRun counter fromStr true (.waiting ()) (.whoAmI () :: [.ws (.ok (.text (eventText "inc" none)))])).2,
    (wireOf m).payload.length < 2 ^ 64 := by
  decide +kernel

end Puck.Json
