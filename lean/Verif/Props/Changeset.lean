import Verif.Model.Changeset
import Verif.Props.Json
/-!
# The owned analogue of a changeset (C101)
-/
namespace Puck.Json

/-! ## Specification -/

/-- An instruction and its owned analogue: the same kind, the same fields, ids as decimal strings.  `InsertBefore`,
`RemoveAttribute` and `CreateTag` without a parent have none. -/
inductive Analogue : Instruction → DInstruction → Prop
  | insertChild (n : Nat) : Analogue (.insertChild n) (.insertChild (Nat.repr n))
  | insertAfter (n : Nat) : Analogue (.insertAfter n) (.insertAfter (Nat.repr n))
  | setAttribute (k v : String) : Analogue (.setAttribute k v) (.setAttribute k v)
  | setId (n : Nat) : Analogue (.setId n) (.setId (Nat.repr n))
  | setText (t : String) : Analogue (.setText t) (.setText t)
  | setTagName (n : String) : Analogue (.setTagName n) (.setTagName n)
  | createTag (n : String) (p : Nat) : Analogue (.createTag n (some p)) (.createTag n (Nat.repr p))
  | removeText : Analogue .removeText .removeText
  | removeListeners : Analogue .removeListeners .removeListeners
  | attachListener (n on : String) : Analogue (.attachListener n on) (.attachListener n on)
  | setInnerHtml (e h : String) : Analogue (.setInnerHtml e h) (.setInnerHtml e h)
  | deleteEl : Analogue .deleteEl .deleteEl

/-- All instructions, in order, with the ids of their elements. -/
inductive AnalogueAll : List Op → List DOp → Prop
  | nil : AnalogueAll [] []
  | cons {op : Op} {d : DInstruction} {ops : List Op} {ds : List DOp} : Analogue op.instruction d → AnalogueAll ops ds →
      AnalogueAll (op :: ops) (⟨Nat.repr op.id, d⟩ :: ds)

/-! ## Proof -/

mutual
/-- The JSON value of what is serialised. -/
def Ser.value : Ser → Value
  | .null => .null
  | .str s => .str (codePoints s)
  | .seq vs => .arr (seqValues vs)
  | .map ms => .obj (mapValues ms)
/-- The elements. -/
def seqValues : List Ser → List Value
  | [] => []
  | v :: vs => v.value :: seqValues vs
/-- The members. -/
def mapValues : List (String × Ser) → List (List Nat × Value)
  | [] => []
  | (k, v) :: ms => (codePoints k, v.value) :: mapValues ms
end

mutual
theorem write_text : ∀ v : Ser, ValueText v.write v.value
  | .null => by rw [Ser.write, Ser.value]; exact .null
  | .str s => by rw [Ser.write, Ser.value]; exact .str (writeString_text s)
  | .seq vs => by
    rw [Ser.write, Ser.value]
    rcases writeSeq_text vs with h | h
    · subst h; rw [writeSeq, seqValues]; exact .emptyArr ws_nil
    · exact .arr h
  | .map ms => by
    rw [Ser.write, Ser.value]
    rcases writeMap_text ms with h | h
    · subst h; rw [writeMap, mapValues]; exact .emptyObj ws_nil
    · exact .obj h
theorem writeSeq_text : ∀ vs : List Ser, vs = [] ∨ ElementsText (writeSeq vs) (seqValues vs)
  | [] => Or.inl rfl
  | v :: vs => by
    have hv := write_text v
    have ih := writeSeq_text vs
    refine Or.inr ?_
    cases vs with
    | nil =>
      rw [writeSeq, seqValues, seqValues]
      have := ElementsText.one ws_nil hv ws_nil
      simpa using this
    | cons v' vs =>
      rw [writeSeq, seqValues]
      have := ElementsText.more ws_nil hv ws_nil (ih.resolve_left (by simp))
      simpa using this
theorem writeMap_text : ∀ ms : List (String × Ser), ms = [] ∨ MembersText (writeMap ms) (mapValues ms)
  | [] => Or.inl rfl
  | (k, v) :: ms => by
    have hv := write_text v
    have ih := writeMap_text ms
    refine Or.inr ?_
    cases ms with
    | nil =>
      rw [writeMap, mapValues, mapValues]
      exact member_one k hv
    | cons m ms =>
      rw [writeMap, mapValues]
      exact member_more k hv (ih.resolve_left (by simp))
end

theorem parse_write (v : Ser) : parse (String.ofList v.write) = some v.value :=
  (parse_iff _ _).mpr ⟨[], _, [], ws_nil, write_text v, ws_nil, by simp⟩

theorem codePoints_ne {s t : String} (h : s ≠ t) : codePoints s ≠ codePoints t := fun e => h (codePoints_inj e)

theorem keysOk_map (ms : List (String × Ser)) : keysOk (mapValues ms) = true := by
  induction ms with
  | nil => rw [mapValues]; rfl
  | cons m ms ih =>
    obtain ⟨k, v⟩ := m
    rw [mapValues, keysOk, ih, unicode_str]; rfl

theorem fields_here (k : String) (v : Ser) (ms : List (String × Ser)) :
    fields k (mapValues ((k, v) :: ms)) = v.value :: fields k (mapValues ms) := by
  rw [mapValues, fields, if_pos rfl]

theorem fields_there {k k' : String} (h : k' ≠ k) (v : Ser) (ms : List (String × Ser)) :
    fields k (mapValues ((k', v) :: ms)) = fields k (mapValues ms) := by
  rw [mapValues, fields, if_neg (codePoints_ne h)]

theorem fields_end (k : String) : fields k (mapValues []) = [] := by rw [mapValues]; rfl

theorem struct1 (k : String) (v : Ser) : structOf [k] (Ser.map [(k, v)]).value = some [v.value] := by
  rw [Ser.value, structOf, if_pos (keysOk_map _)]
  simp only [List.mapM_cons, List.mapM_nil, fields_here, fields_end, Option.pure_def, Option.bind_eq_bind, Option.bind_some]

theorem struct2 {k k' : String} (h : k ≠ k') (v v' : Ser) :
    structOf [k, k'] (Ser.map [(k, v), (k', v')]).value = some [v.value, v'.value] := by
  rw [Ser.value, structOf, if_pos (keysOk_map _)]
  simp only [List.mapM_cons, List.mapM_nil, fields_here, fields_there h, fields_there h.symm, fields_end, Option.pure_def,
    Option.bind_eq_bind, Option.bind_some]

theorem strings1 (k s : String) : stringsOf [k] (Ser.map [(k, .str s)]).value = some [s] := by
  rw [stringsOf, struct1]
  simp only [List.mapM_cons, List.mapM_nil, Ser.value, toStr_codePoints, Option.pure_def, Option.bind_eq_bind, Option.bind_some]

theorem strings2 {k k' : String} (h : k ≠ k') (s s' : String) :
    stringsOf [k, k'] (Ser.map [(k, .str s), (k', .str s')]).value = some [s, s'] := by
  rw [stringsOf, struct2 h]
  simp only [List.mapM_cons, List.mapM_nil, Ser.value, toStr_codePoints, Option.pure_def, Option.bind_eq_bind, Option.bind_some]

theorem variant_value (k : String) (ms : List (String × Ser)) :
    instructionOf (Ser.map [(k, .map ms)]).value = variantOf k (Ser.map ms).value := by
  rw [Ser.value, mapValues, mapValues, instructionOf, toStr_codePoints]
  rw [Ser.value]

/-- The reading side, instruction by instruction. -/
theorem instructionOf_ser (i : Instruction) (d : DInstruction) : instructionOf (Instruction.ser i).value = some d ↔ Analogue i d := by
  have key : ∀ {o : Option DInstruction} {x : DInstruction}, o = some x → (Analogue i x ∧ ∀ y, Analogue i y → y = x) →
      (o = some d ↔ Analogue i d) := by
    intro o x ho hx
    rw [ho]
    constructor
    · intro h; cases h; exact hx.1
    · intro h; rw [hx.2 d h]
  have none' : ∀ {o : Option DInstruction}, o = none → (∀ y, ¬ Analogue i y) → (o = some d ↔ Analogue i d) := by
    intro o ho hx
    rw [ho]
    constructor
    · intro h; cases h
    · intro h; exact absurd h (hx d)
  cases i with
  | insertChild n =>
    refine key (x := .insertChild (Nat.repr n)) ?_ ⟨.insertChild n, fun y h => by cases h; rfl⟩
    rw [Instruction.ser, variant_value, variantOf, if_pos rfl, strings1]
  | insertAfter n =>
    refine key (x := .insertAfter (Nat.repr n)) ?_ ⟨.insertAfter n, fun y h => by cases h; rfl⟩
    rw [Instruction.ser, variant_value, variantOf, if_neg (by decide), if_pos rfl, strings1]
  | insertBefore n =>
    refine none' ?_ (fun y h => by cases h)
    rw [Instruction.ser, variant_value, variantOf]
    repeat rw [if_neg (by decide)]
  | setAttribute k v =>
    refine key (x := .setAttribute k v) ?_ ⟨.setAttribute k v, fun y h => by cases h; rfl⟩
    rw [Instruction.ser, variant_value, variantOf, if_neg (by decide), if_neg (by decide), if_pos rfl, strings2 (by decide)]
  | removeAttribute k =>
    refine none' ?_ (fun y h => by cases h)
    rw [Instruction.ser, variant_value, variantOf]
    repeat rw [if_neg (by decide)]
  | setId n =>
    refine key (x := .setId (Nat.repr n)) ?_ ⟨.setId n, fun y h => by cases h; rfl⟩
    rw [Instruction.ser, variant_value, variantOf, if_neg (by decide), if_neg (by decide), if_neg (by decide), if_pos rfl, strings1]
  | setText t =>
    refine key (x := .setText t) ?_ ⟨.setText t, fun y h => by cases h; rfl⟩
    rw [Instruction.ser, variant_value, variantOf, if_neg (by decide), if_neg (by decide), if_neg (by decide), if_neg (by decide),
      if_pos rfl, strings1]
  | setTagName n =>
    refine key (x := .setTagName n) ?_ ⟨.setTagName n, fun y h => by cases h; rfl⟩
    rw [Instruction.ser, variant_value, variantOf, if_neg (by decide), if_neg (by decide), if_neg (by decide), if_neg (by decide),
      if_neg (by decide), if_pos rfl, strings1]
  | createTag n p =>
    cases p with
    | none =>
      refine none' ?_ (fun y h => by cases h)
      rw [Instruction.ser, variant_value, variantOf, if_neg (by decide), if_neg (by decide), if_neg (by decide), if_neg (by decide),
        if_neg (by decide), if_neg (by decide), if_pos rfl, stringsOf, struct2 (by decide)]
      simp [Ser.value, Value.toStr]
    | some p =>
      refine key (x := .createTag n (Nat.repr p)) ?_ ⟨.createTag n p, fun y h => by cases h; rfl⟩
      rw [Instruction.ser, variant_value, variantOf, if_neg (by decide), if_neg (by decide), if_neg (by decide), if_neg (by decide),
        if_neg (by decide), if_neg (by decide), if_pos rfl, strings2 (by decide)]
  | removeText =>
    refine key (x := .removeText) ?_ ⟨.removeText, fun y h => by cases h; rfl⟩
    rw [Instruction.ser, Ser.value, instructionOf, toStr_codePoints]; rfl
  | removeListeners =>
    refine key (x := .removeListeners) ?_ ⟨.removeListeners, fun y h => by cases h; rfl⟩
    rw [Instruction.ser, Ser.value, instructionOf, toStr_codePoints]; rfl
  | attachListener n on =>
    refine key (x := .attachListener n on) ?_ ⟨.attachListener n on, fun y h => by cases h; rfl⟩
    rw [Instruction.ser, variant_value, variantOf, if_neg (by decide), if_neg (by decide), if_neg (by decide), if_neg (by decide),
      if_neg (by decide), if_neg (by decide), if_neg (by decide), if_pos rfl, strings2 (by decide)]
  | setInnerHtml e h =>
    refine key (x := .setInnerHtml e h) ?_ ⟨.setInnerHtml e h, fun y h => by cases h; rfl⟩
    rw [Instruction.ser, variant_value, variantOf, if_neg (by decide), if_neg (by decide), if_neg (by decide), if_neg (by decide),
      if_neg (by decide), if_neg (by decide), if_neg (by decide), if_neg (by decide), if_pos rfl, strings2 (by decide)]
  | deleteEl =>
    refine key (x := .deleteEl) ?_ ⟨.deleteEl, fun y h => by cases h; rfl⟩
    rw [Instruction.ser, Ser.value, instructionOf, toStr_codePoints]; rfl

theorem opOf_ser (op : Op) (x : DOp) : opOf (Op.ser op).value = some x ↔ x.id = Nat.repr op.id ∧ Analogue op.instruction x.instruction := by
  rw [opOf, Op.ser, struct2 (by decide)]
  simp only [Ser.value, toStr_codePoints]
  constructor
  · intro h
    split at h
    · next id ins h1 h2 =>
      cases h1; cases h
      exact ⟨rfl, (instructionOf_ser _ _).mp h2⟩
    · cases h
  · rintro ⟨h1, h2⟩
    rw [(instructionOf_ser _ _).mpr h2]
    obtain ⟨i, d⟩ := x
    simp only at h1 ⊢
    rw [h1]

theorem mapM_ser (ops : List Op) (ds : List DOp) : (seqValues (ops.map Op.ser)).mapM opOf = some ds ↔ AnalogueAll ops ds := by
  induction ops generalizing ds with
  | nil =>
    rw [List.map_nil, seqValues, List.mapM_nil]
    constructor
    · intro h; cases h; exact .nil
    · intro h; cases h; rfl
  | cons op ops ih =>
    rw [List.map_cons, seqValues, List.mapM_cons]
    simp only [Option.pure_def, Option.bind_eq_bind, Option.bind_eq_some_iff, Option.some.injEq]
    constructor
    · rintro ⟨x, h1, xs, h2, rfl⟩
      obtain ⟨h3, h4⟩ := (opOf_ser _ _).mp h1
      obtain ⟨i, d⟩ := x
      simp only at h3 h4
      subst h3
      exact .cons h4 ((ih _).mp h2)
    · intro h
      cases h with
      | cons h1 h2 => exact ⟨_, (opOf_ser _ ⟨_, _⟩).mpr ⟨rfl, h1⟩, _, (ih _).mpr h2, rfl⟩

theorem readChangeset_iff (ops : List Op) (ds : List DOp) : readChangeset (changesetJson ops) = some ds ↔ AnalogueAll ops ds := by
  rw [readChangeset, changesetJson, parse_write]
  simp only [changesetOf, struct1]
  rw [Ser.value]
  simp only
  exact mapM_ser ops ds

/-- An instruction has an owned analogue. -/
def Instruction.HasAnalogue : Instruction → Prop
  | .insertBefore _ => False
  | .removeAttribute _ => False
  | .createTag _ none => False
  | _ => True

theorem analogueAll_exists (ops : List Op) : (∃ ds, AnalogueAll ops ds) ↔ ∀ op ∈ ops, Instruction.HasAnalogue op.instruction := by
  induction ops with
  | nil => exact ⟨fun _ op h => absurd h (by simp), fun _ => ⟨[], .nil⟩⟩
  | cons op ops ih =>
    constructor
    · rintro ⟨ds, h⟩
      cases h with
      | @cons _ d _ ds h1 h2 =>
        intro x hx
        rcases List.mem_cons.mp hx with rfl | hx
        · obtain ⟨id, ins⟩ := x
          simp only at h1 ⊢
          cases h1 <;> trivial
        · exact (ih.mp ⟨ds, h2⟩) x hx
    · intro h
      obtain ⟨ds, h2⟩ := ih.mpr fun x hx => h x (by simp [hx])
      have h1 := h op (by simp)
      obtain ⟨id, ins⟩ := op
      have : ∃ d, Analogue ins d := by
        cases ins with
        | insertBefore => exact h1.elim
        | removeAttribute => exact h1.elim
        | createTag n p =>
          cases p with
          | none => exact h1.elim
          | some p => exact ⟨_, .createTag n p⟩
        | insertChild n => exact ⟨_, .insertChild n⟩
        | insertAfter n => exact ⟨_, .insertAfter n⟩
        | setAttribute k v => exact ⟨_, .setAttribute k v⟩
        | setId n => exact ⟨_, .setId n⟩
        | setText t => exact ⟨_, .setText t⟩
        | setTagName n => exact ⟨_, .setTagName n⟩
        | removeText => exact ⟨_, .removeText⟩
        | removeListeners => exact ⟨_, .removeListeners⟩
        | attachListener n on => exact ⟨_, .attachListener n on⟩
        | setInnerHtml e t => exact ⟨_, .setInnerHtml e t⟩
        | deleteEl => exact ⟨_, .deleteEl⟩
      obtain ⟨d, hd⟩ := this
      exact ⟨_, .cons hd h2⟩

/-- **C101 (what holds).** Whatever the strings: a serialised changeset is read back as a list of owned instructions exactly if
these are its analogues, one by one and in order; and it can be read back at all exactly if none of its instructions
is an `InsertBefore`, a `RemoveAttribute` or the creation of a root element. -/
theorem C101_read_back_partial (ops : List Op) :
    (∀ ds, readChangeset (changesetJson ops) = some ds ↔ AnalogueAll ops ds) ∧
    ((readChangeset (changesetJson ops)).isSome ↔ ∀ op ∈ ops, Instruction.HasAnalogue op.instruction) := by
  refine ⟨readChangeset_iff ops, ?_⟩
  rw [Option.isSome_iff_exists, ← analogueAll_exists]
  simp only [readChangeset_iff]

/-- **C101 (the other form of the instructions without fields).** An instruction without fields may also be written as an object
with `null` under its name, and is read as the same instruction; under any other name `null` is not an instruction. -/
theorem C101_unit_instructions (id name : String) (d : DInstruction) :
    readChangeset (String.ofList (Ser.map [("ops", .seq [.map [("id", .str id), ("instruction", .map [(name, .null)])]])]).write) =
        some [⟨id, d⟩] ↔
      (name = "RemoveText" ∧ d = .removeText) ∨ (name = "RemoveListeners" ∧ d = .removeListeners) ∨
      (name = "DeleteEl" ∧ d = .deleteEl) := by
  have h0 : ∀ names : List String, stringsOf names .null = none := fun _ => rfl
  have hv : variantOf name .null = none := by
    rw [variantOf]
    simp only [h0, ite_self]
  have hi : instructionOf (Ser.map [(name, .null)]).value = unitVariantOf name := by
    rw [Ser.value, mapValues, mapValues, instructionOf, toStr_codePoints, Ser.value]
    cases h : unitVariantOf name with
    | none => simp only [h]; exact hv
    | some i => simp only [h]
  have hr : readChangeset (String.ofList
      (Ser.map [("ops", .seq [.map [("id", .str id), ("instruction", .map [(name, .null)])]])]).write) =
      (unitVariantOf name).map fun i => [⟨id, i⟩] := by
    rw [readChangeset, parse_write]
    simp only [changesetOf, struct1]
    rw [Ser.value]
    simp only [seqValues, List.mapM_cons, List.mapM_nil]
    rw [opOf, struct2 (by decide)]
    simp only [hi]
    rw [Ser.value, toStr_codePoints]
    cases unitVariantOf name <;> rfl
  rw [hr]
  simp only [Option.map_eq_some_iff, List.cons.injEq, DOp.mk.injEq, true_and, and_true, exists_eq_right]
  rw [unitVariantOf]
  split
  · next h => subst h; simp [eq_comm]
  · next h1 =>
    split
    · next h => subst h; simp [eq_comm]
    · next h2 =>
      split
      · next h => subst h; simp [eq_comm]
      · next h3 => simp [h1, h2, h3]

/-- **C101 (the positional form).** A changeset and its operations may also be written as arrays, their fields in order, and are read as the same instructions; with one
element too many the text is refused. -/
theorem C101_positional (ops : List Op) :
    readChangeset (String.ofList
        (Ser.seq [.seq (ops.map fun op => .seq [.str (Nat.repr op.id), Instruction.ser op.instruction])]).write) =
      readChangeset (changesetJson ops) ∧
    (∀ x : Ser, readChangeset (String.ofList (Ser.seq [.seq (ops.map Op.ser), x]).write) = none) ∧
    (∀ op ∈ ops, ∀ x : Ser, readChangeset (String.ofList
        (Ser.seq [.seq [.seq [.str (Nat.repr op.id), Instruction.ser op.instruction, x]]]).write) = none) := by
  have hop : ∀ op : Op, opOf (Ser.seq [.str (Nat.repr op.id), Instruction.ser op.instruction]).value = opOf (Op.ser op).value := by
    intro op
    rw [opOf, opOf, Op.ser, struct2 (by decide)]
    rfl
  refine ⟨?_, ?_, ?_⟩
  · have hr : ∀ vs : List Ser, readChangeset (String.ofList (Ser.seq [.seq vs]).write) = (seqValues vs).mapM opOf := by
      intro vs
      rw [readChangeset, parse_write]
      rfl
    rw [hr, changesetJson, readChangeset, parse_write]
    simp only [changesetOf, struct1]
    rw [Ser.value]
    simp only
    induction ops with
    | nil => rfl
    | cons op ops ih => rw [List.map_cons, List.map_cons, seqValues, seqValues, List.mapM_cons, List.mapM_cons, hop, ih]
  · intro x
    rw [readChangeset, parse_write]
    rfl
  · intro op _ x
    rw [readChangeset, parse_write]
    rfl

/-- the JSON object with these members -/
def jsonObj (ms : List (String × Value)) : Value := .obj (ms.map fun m => (codePoints m.1, m.2))

/-- **C101 (the texts that are refused).** What the instructions without an owned analogue are written as: an object with the name of the instruction,
and in it an object with its fields under their names. -/
theorem C101_without_analogue (id : Nat) :
    (∀ n, parse (changesetJson [⟨id, .insertBefore n⟩]) = some (jsonObj [("ops", .arr [jsonObj [("id", .str (codePoints (toString id))),
      ("instruction", jsonObj [("InsertBefore", jsonObj [("before_id", .str (codePoints (toString n)))])])]])])) ∧
    (∀ k, parse (changesetJson [⟨id, .removeAttribute k⟩]) = some (jsonObj [("ops", .arr [jsonObj [("id", .str (codePoints (toString id))),
      ("instruction", jsonObj [("RemoveAttribute", jsonObj [("key", .str (codePoints k))])])]])])) ∧
    (∀ n, parse (changesetJson [⟨id, .createTag n none⟩]) = some (jsonObj [("ops", .arr [jsonObj [("id", .str (codePoints (toString id))),
      ("instruction", jsonObj [("CreateTag", jsonObj [("name", .str (codePoints n)), ("parent_id", .null)])])]])])) ∧
    (∀ n, readChangeset (changesetJson [⟨id, .insertBefore n⟩]) = none) ∧
    (∀ k, readChangeset (changesetJson [⟨id, .removeAttribute k⟩]) = none) ∧
    (∀ n, readChangeset (changesetJson [⟨id, .createTag n none⟩]) = none) := by
  have none_of : ∀ op : Op, ¬ Instruction.HasAnalogue op.instruction → readChangeset (changesetJson [op]) = none := by
    intro op h2
    cases h : readChangeset (changesetJson [op]) with
    | none => rfl
    | some ds => exact absurd ((C101_read_back_partial [op]).2.mp (by rw [h]; rfl) op (by simp)) h2
  refine ⟨fun n => ?_, fun k => ?_, fun n => ?_, fun n => none_of _ (by simp [Instruction.HasAnalogue]), fun n => none_of _ (by simp [Instruction.HasAnalogue]),
    fun n => none_of _ (by simp [Instruction.HasAnalogue])⟩
  all_goals
    rw [changesetJson, parse_write]
    rfl

/-- **C101 is false** (1) for the changeset of every first paint, and (2) for every update in which a (childless) element loses an
attribute. -/
theorem C101_read_back_refuted :
    (∀ e : Element, ∃ ops, e.diff none = some ops ∧ readChangeset (changesetJson ops) = none) ∧
    (∀ (a b : Element) (k v : String), (k, v) ∈ a.attributes → b.attributes.get k = none → a.children = [] → b.children = [] →
      ∃ ops, a.diff (some b) = some ops ∧ readChangeset (changesetJson ops) = none) := by
  have none_of : ∀ ops : List Op, (∃ op ∈ ops, ¬ Instruction.HasAnalogue op.instruction) → readChangeset (changesetJson ops) = none := by
    rintro ops ⟨op, h1, h2⟩
    cases h : readChangeset (changesetJson ops) with
    | none => rfl
    | some ds =>
      have := (C101_read_back_partial ops).2.mp (by rw [h]; rfl) op h1
      exact absurd this h2
  refine ⟨fun e => ⟨_, rfl, none_of _ ?_⟩, fun a b k v hk hb ha hbc => ?_⟩
  · cases e
    simp only [createFromScratch]
    exact ⟨_, by simp only [List.cons_append, List.nil_append]; exact List.mem_cons_self, by simp [Instruction.HasAnalogue]⟩
  · obtain ⟨bid, bname, battrs, bls, bcs, btext, bkey⟩ := b
    simp only at hb hbc
    subst hbc
    have hs : Headers.same a.attributes battrs = false := by
      cases h : Headers.same a.attributes battrs with
      | false => rfl
      | true =>
        exfalso
        simp only [Headers.same, Bool.and_eq_true, List.all_eq_true] at h
        have := h.2 (k, v) hk
        simp [hb] at this
    have hd : ∃ ops, a.diff (some ⟨bid, bname, battrs, bls, [], btext, bkey⟩) = some ops ∧ ⟨a.id, .removeAttribute k⟩ ∈ ops := by
      rw [Element.diff, Puck.diff]
      simp only [ha, allKeyed, List.all_nil, Bool.and_self, if_true, diffKeyed, unpaired, List.length_nil, List.range_zero, List.filter_nil,
        insertionOps, deletionOps, List.filterMap_nil, List.append_nil]
      refine ⟨_, rfl, ?_⟩
      simp only [List.mem_append]
      refine Or.inl (Or.inl (Or.inl (Or.inr ?_)))
      rw [Element.diffAttributes]
      simp only [hs, Bool.false_eq_true, if_false]
      rw [List.mem_append]
      refine Or.inl (List.mem_filterMap.mpr ⟨(k, v), hk, ?_⟩)
      simp [hb]
    obtain ⟨ops, h1, h2⟩ := hd
    exact ⟨ops, h1, none_of ops ⟨_, h2, by simp [Instruction.HasAnalogue]⟩⟩

/-- non-vacuity: an update that is read back, and what it looks like -/
example : changesetJson [⟨3, .createTag "p" (some 1)⟩, ⟨3, .setText "\"hi\""⟩, ⟨4, .deleteEl⟩] =
    "{\"ops\":[{\"id\":\"3\",\"instruction\":{\"CreateTag\":{\"name\":\"p\",\"parent_id\":\"1\"}}},{\"id\":\"3\",\"instruction\":{\"SetText\":{\"value\":\"\\\"hi\\\"\"}}},{\"id\":\"4\",\"instruction\":\"DeleteEl\"}]}" ∧
    readChangeset (changesetJson [⟨3, .createTag "p" (some 1)⟩, ⟨3, .setText "\"hi\""⟩, ⟨4, .deleteEl⟩]) =
      some [⟨"3", .createTag "p" "1"⟩, ⟨"3", .setText "\"hi\""⟩, ⟨"4", .deleteEl⟩] ∧
    readChangeset (changesetJson [⟨0, .createTag "p" none⟩]) = none := by
  decide +kernel

theorem struct_fields {names : List String} {ms : List (List Nat × Value)} {vs : List Value} (h : structOf names (.obj ms) = some vs) :
    names.map (fun n => fields n ms) = vs.map fun v => [v] := by
  unfold structOf at h
  split at h
  · rename_i heq
    cases heq
    split at h
    · rename_i hk
      clear hk
      induction names generalizing vs with
      | nil => simp at h; subst h; rfl
      | cons n names ih =>
        rw [List.mapM_cons] at h
        cases hf : fields n ms with
        | nil => rw [hf] at h; cases h
        | cons v rest =>
          cases rest with
          | cons _ _ => rw [hf] at h; cases h
          | nil =>
            rw [hf] at h
            simp only [Option.bind_eq_bind, Option.bind_some, Option.pure_def] at h
            obtain ⟨ws, h1, h2⟩ := Option.bind_eq_some_iff.1 h
            simp only [Option.some.injEq] at h2
            subst h2
            rw [List.map_cons, List.map_cons, ih h1, hf]
    · cases h
  · rename_i heq; cases heq
  · rename_i e _; exact absurd rfl (e ms)

/-- **C101, other texts.** Whatever text is read: an object is accepted only if it has the member `ops` exactly once, and it is an array of operations, each an
array or an object that has `id` and `instruction` exactly once. -/
theorem C101_members (text : String) (ms : List (List Nat × Value)) (ds : List DOp) (hp : parse text = some (.obj ms))
    (h : readChangeset text = some ds) :
    ∃ vs, fields "ops" ms = [.arr vs] ∧ vs.length = ds.length ∧
      ∀ ms', Value.obj ms' ∈ vs → (fields "id" ms').length = 1 ∧ (fields "instruction" ms').length = 1 := by
  have hlen : ∀ {vs : List Value} {ds : List DOp}, vs.mapM opOf = some ds → vs.length = ds.length ∧ ∀ v ∈ vs, ∃ d, opOf v = some d := by
    intro vs
    induction vs with
    | nil => intro ds h; simp at h; subst h; simp
    | cons v vs ih =>
      intro ds h
      rw [List.mapM_cons] at h
      cases h1 : opOf v with
      | none => rw [h1] at h; cases h
      | some d =>
        rw [h1] at h
        cases h2 : vs.mapM opOf with
        | none => rw [h2] at h; cases h
        | some ds' =>
          rw [h2] at h
          simp only [Option.bind_eq_bind, Option.bind_some, Option.pure_def, Option.some.injEq] at h
          subst h
          obtain ⟨g1, g2⟩ := ih h2
          refine ⟨by simp [g1], ?_⟩
          intro v' hv'
          rcases List.mem_cons.1 hv' with rfl | hv'
          · exact ⟨d, h1⟩
          · exact g2 v' hv'
  unfold readChangeset at h
  rw [hp] at h
  simp only [changesetOf] at h
  split at h
  · rename_i vs hs
    have e := struct_fields hs
    simp only [List.map_cons, List.map_nil, List.cons.injEq, and_true] at e
    obtain ⟨g1, g2⟩ := hlen h
    refine ⟨vs, e, g1, ?_⟩
    intro ms' hm
    obtain ⟨d, hd⟩ := g2 _ hm
    simp only [opOf] at hd
    split at hd
    · rename_i i x hs
      have e := struct_fields hs
      simp only [List.map_cons, List.map_nil, List.cons.injEq, and_true] at e
      exact ⟨by rw [e.1]; rfl, by rw [e.2]; rfl⟩
    · cases hd
  · cases h

example : readChangeset "{\"ops\":[],\"ops\":[]}" = none ∧ readChangeset "{\"ops\":[],\"x\":1}" = some [] := by decide +kernel

end Puck.Json
