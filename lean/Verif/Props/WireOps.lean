import Verif.Props.Client
/-!
# What the instructions are called on the wire, and whether two of them can be confused (C61)
-/
namespace Puck

/-- The name of an instruction in the messages: the one index.js compares `ty` with, for the nine instructions it knows. -/
def Instruction.wireName : Instruction → String
  | .insertChild _ => "insertChild"
  | .insertAfter _ => "insertAfter"
  | .insertBefore _ => "insertBefore"
  | .setAttribute _ _ => "setAttr"
  | .removeAttribute _ => "removeAttr"
  | .setId _ => "setId"
  | .setText _ => "setText"
  | .setTagName _ => "setTagName"
  | .createTag _ _ => "createTag"
  | .removeText => "removeText"
  | .removeListeners => "removeListeners"
  | .attachListener _ _ => "attachListener"
  | .setInnerHtml _ _ => "setInnerHtml"
  | .deleteEl => "deleteEl"

/-- The first of the two parts that are joined by a `+` has none itself. -/
def Instruction.FirstPlain : Instruction → Prop
  | .setAttribute k _ => '+' ∉ k.toList
  | .createTag n _ => '+' ∉ n.toList
  | .attachListener n _ => '+' ∉ n.toList
  | .setInnerHtml e _ => '+' ∉ e.toList
  | _ => True

theorem joined_inj {a b c d : String} (ha : '+' ∉ a.toList) (hc : '+' ∉ c.toList) (h : a ++ "+" ++ b = c ++ "+" ++ d) : a = c ∧ b = d := by
  have h' : a.toList ++ '+' :: b.toList = c.toList ++ '+' :: d.toList := by
    have := congrArg String.toList h
    simpa [String.toList_append] using this
  have key : ∀ (x y u v : List Char), '+' ∉ x → '+' ∉ u → x ++ '+' :: y = u ++ '+' :: v → x = u ∧ y = v := by
    intro x
    induction x with
    | nil =>
      intro y u v _ hu he
      cases u with
      | nil => simp at he; exact ⟨rfl, he⟩
      | cons e u => simp at he; exact absurd he.1 (fun e' => hu (e' ▸ List.mem_cons_self))
    | cons q x ih =>
      intro y u v hx hu he
      cases u with
      | nil => simp at he; exact absurd he.1 (fun e' => hx (e' ▸ List.mem_cons_self))
      | cons e u =>
        simp only [List.cons_append, List.cons.injEq] at he
        obtain ⟨h1, h2⟩ := ih y u v (fun m => hx (List.mem_cons_of_mem _ m)) (fun m => hu (List.mem_cons_of_mem _ m)) he.2
        exact ⟨by rw [he.1, h1], h2⟩
  obtain ⟨h1, h2⟩ := key _ _ _ _ ha hc h'
  exact ⟨String.toList_injective h1, String.toList_injective h2⟩

theorem parent_inj {p q : Option Nat}
    (h : (match p with | some p => toString p | none => "") = (match q with | some p => toString p | none => "")) : p = q := by
  have ne : ∀ n : Nat, toString n ≠ "" := by
    intro n h
    have h1 := congrArg String.toList h
    simp [toString, Nat.repr, String.toList_ofList] at h1
  cases p <;> cases q <;> simp only at h
  · rfl
  · exact absurd h.symm (ne _)
  · exact absurd h (ne _)
  · rw [toString_nat_inj h]

/-- **C61 (names, and no confusion).** Each instruction is sent under its own name, so two instructions of different kinds never look alike; and when the first part of each
has no `+`, two different instructions never give the same message. -/
theorem C61_distinct_partial :
    (∀ op : Op, op.serialize.ty = op.instruction.wireName) ∧
    (∀ a b : Op, a.instruction.FirstPlain → b.instruction.FirstPlain → a.serialize = b.serialize → a = b) := by
  constructor
  · rintro ⟨id, i⟩
    cases i <;> rfl
  · rintro ⟨id, i⟩ ⟨id', j⟩ hi hj h
    have h1 : id = id' := by
      have h := congrArg WireOp.el h
      cases i <;> cases j <;> exact toString_nat_inj h
    subst h1
    have h2 := congrArg WireOp.ty h
    have h3 := congrArg WireOp.payload h
    clear h
    cases i <;> cases j <;> first
      | (exfalso; revert h2; simp [Op.serialize]; done)
      | rfl
      | (simp only [Op.serialize, Option.some.injEq] at h3
         first
           | (obtain ⟨h4, h5⟩ := joined_inj hi hj h3
              first
                | (rw [h4, h5])
                | (rw [h4, parent_inj h5]))
           | (rw [toString_nat_inj h3])
           | (rw [h3]))

/-- **C61 is false**: two different instructions that look the same on the wire. -/
theorem C61_confused_refuted (id : Nat) : ∃ a b : Instruction, a ≠ b ∧ Op.serialize ⟨id, a⟩ = Op.serialize ⟨id, b⟩ :=
  ⟨.setAttribute "class" "a+b", .setAttribute "class+a" "b", by simp, by
    simp only [Op.serialize, WireOp.mk.injEq, Option.some.injEq, true_and]
    apply String.toList_injective
    simp⟩

example : (Op.serialize ⟨3, .createTag "p" none⟩ ≠ Op.serialize ⟨3, .createTag "p" (some 0)⟩) ∧ Instruction.FirstPlain (.createTag "p" none) := by
  constructor
  · intro h
    have := C61_distinct_partial.2 _ _ (by simp [Instruction.FirstPlain]) (by simp [Instruction.FirstPlain]) h
    simp at this
  · simp [Instruction.FirstPlain]

end Puck
