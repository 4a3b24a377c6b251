import Verif.Model.ElementBuilder
/-!
# Building elements (C102)
-/
namespace Puck

/-- `c` is the last call in `calls` of the setter it is a call of, which `same` recognises. -/
def LastCall (same : ElementSetter → Prop) (calls : List ElementSetter) (c : ElementSetter) : Prop :=
  ∃ before after, calls = before ++ c :: after ∧ ∀ x ∈ after, ¬ same x

/-- The seven setters. -/
def ElementSetter.field : ElementSetter → String
  | .id _ => "id"
  | .name _ => "name"
  | .attributes _ => "attributes"
  | .listeners _ => "listeners"
  | .children _ => "children"
  | .text _ => "text"
  | .key _ => "key"

/-- The last call of the setter of that field. -/
def SetLast (calls : List ElementSetter) (c : ElementSetter) : Prop := LastCall (fun x => x.field = c.field) calls c

theorem setLast_snoc (calls : List ElementSetter) (x c : ElementSetter) :
    SetLast (calls ++ [x]) c ↔ if x.field = c.field then x = c else SetLast calls c := by
  constructor
  · rintro ⟨b, a, h, ha⟩
    rcases List.eq_nil_or_concat a with rfl | ⟨a', y, rfl⟩
    · obtain ⟨h1, h2⟩ := List.append_inj' h rfl
      have : x = c := by simpa using h2
      rw [if_pos (by rw [this])]; exact this
    · rw [List.concat_eq_append, ← List.cons_append, ← List.append_assoc] at h
      obtain ⟨h1, h2⟩ := List.append_inj' h rfl
      have : x = y := by simpa using h2
      subst this
      rw [if_neg (ha x (by simp))]
      exact ⟨b, a', h1, fun z hz => ha z (by simp [hz])⟩
  · intro h
    split at h
    · subst h; exact ⟨calls, [], rfl, by simp⟩
    · next hne =>
      obtain ⟨b, a, rfl, ha⟩ := h
      refine ⟨b, a ++ [x], by simp, ?_⟩
      intro z hz
      rcases List.mem_append.mp hz with hz | hz
      · exact ha z hz
      · rw [List.mem_singleton.mp hz]; exact hne

theorem builder_slots (calls : List ElementSetter) :
    (∀ v, (calls.foldl ElementBuilder.set .default).id = some v ↔ SetLast calls (.id v)) ∧
    (∀ v, (calls.foldl ElementBuilder.set .default).name = some v ↔ SetLast calls (.name v)) ∧
    (∀ v, (calls.foldl ElementBuilder.set .default).attributes = some v ↔ SetLast calls (.attributes v)) ∧
    (∀ v, (calls.foldl ElementBuilder.set .default).listeners = some v ↔ SetLast calls (.listeners v)) ∧
    (∀ v, (calls.foldl ElementBuilder.set .default).children = some v ↔ SetLast calls (.children v)) ∧
    (∀ v, (calls.foldl ElementBuilder.set .default).text = some v ↔ SetLast calls (.text v)) ∧
    (∀ v, (calls.foldl ElementBuilder.set .default).key = some v ↔ SetLast calls (.key v)) := by
  have nil' : ∀ c, ¬ SetLast [] c := by rintro c ⟨b, a, h, -⟩; simp at h
  rcases List.eq_nil_or_concat calls with rfl | ⟨cs, x, rfl⟩
  · simp [ElementBuilder.default, nil']
  · have ih := builder_slots cs
    rw [List.concat_eq_append, List.foldl_append, List.foldl_cons, List.foldl_nil]
    simp only [setLast_snoc]
    cases x <;> simp [ElementBuilder.set, ElementSetter.field, ih]
termination_by calls.length
decreasing_by simp [*]

/-- **C102.** Whatever setters were called, in whatever order and however often: `build` succeeds exactly if each of the seven
fields has been set, and then gives the element all of whose fields are those set last.  (So an element without text or
key must still have them set to `None`.)  Building again, or setting more and building again, obeys the same rule. -/
theorem C102_build (calls : List ElementSetter) :
    (∀ e, (calls.foldl ElementBuilder.set .default).build = some e ↔
      SetLast calls (.id e.id) ∧ SetLast calls (.name e.name) ∧ SetLast calls (.attributes e.attributes) ∧
      SetLast calls (.listeners e.listeners) ∧ SetLast calls (.children e.children) ∧ SetLast calls (.text e.text) ∧
      SetLast calls (.key e.key)) ∧
    ((calls.foldl ElementBuilder.set .default).build.isSome ↔
      ∀ f ∈ ["id", "name", "attributes", "listeners", "children", "text", "key"], ∃ c ∈ calls, c.field = f) := by
  obtain ⟨h1, h2, h3, h4, h5, h6, h7⟩ := builder_slots calls
  have key : ∀ e, (calls.foldl ElementBuilder.set .default).build = some e ↔
      SetLast calls (.id e.id) ∧ SetLast calls (.name e.name) ∧ SetLast calls (.attributes e.attributes) ∧
      SetLast calls (.listeners e.listeners) ∧ SetLast calls (.children e.children) ∧ SetLast calls (.text e.text) ∧
      SetLast calls (.key e.key) := by
    intro e
    rw [← h1, ← h2, ← h3, ← h4, ← h5, ← h6, ← h7, ElementBuilder.build]
    constructor
    · intro h
      split at h
      · next a b c d f g i e1 e2 e3 e4 e5 e6 e7 =>
        cases h
        exact ⟨e1, e2, e3, e4, e5, e6, e7⟩
      · cases h
    · rintro ⟨e1, e2, e3, e4, e5, e6, e7⟩
      rw [e1, e2, e3, e4, e5, e6, e7]
      cases e
      rfl
  have last : ∀ f, (∃ c ∈ calls, c.field = f) → ∃ c, c.field = f ∧ SetLast calls c := by
    intro f h
    clear h1 h2 h3 h4 h5 h6 h7 key
    induction calls with
    | nil => obtain ⟨c, hc, -⟩ := h; simp at hc
    | cons x cs ih =>
      by_cases hcs : ∃ c ∈ cs, c.field = f
      · obtain ⟨c, hf, b, a, rfl, ha⟩ := ih hcs
        exact ⟨c, hf, x :: b, a, rfl, ha⟩
      · obtain ⟨c, hc, hf⟩ := h
        rcases List.mem_cons.mp hc with rfl | hc
        · refine ⟨c, hf, [], cs, rfl, fun y hy hyf => hcs ⟨y, hy, by rw [hyf, hf]⟩⟩
        · exact absurd ⟨c, hc, hf⟩ hcs
  refine ⟨key, ?_⟩
  rw [Option.isSome_iff_exists]
  constructor
  · rintro ⟨e, he⟩ f hf
    have mem : ∀ c, SetLast calls c → c ∈ calls := by rintro c ⟨b, a, rfl, -⟩; simp
    obtain ⟨g1, g2, g3, g4, g5, g6, g7⟩ := (key e).mp he
    simp only [List.mem_cons, List.not_mem_nil, or_false] at hf
    rcases hf with rfl | rfl | rfl | rfl | rfl | rfl | rfl
    · exact ⟨_, mem _ g1, rfl⟩
    · exact ⟨_, mem _ g2, rfl⟩
    · exact ⟨_, mem _ g3, rfl⟩
    · exact ⟨_, mem _ g4, rfl⟩
    · exact ⟨_, mem _ g5, rfl⟩
    · exact ⟨_, mem _ g6, rfl⟩
    · exact ⟨_, mem _ g7, rfl⟩
  · intro h
    obtain ⟨c1, f1, g1⟩ := last _ (h "id" (by simp))
    obtain ⟨c2, f2, g2⟩ := last _ (h "name" (by simp))
    obtain ⟨c3, f3, g3⟩ := last _ (h "attributes" (by simp))
    obtain ⟨c4, f4, g4⟩ := last _ (h "listeners" (by simp))
    obtain ⟨c5, f5, g5⟩ := last _ (h "children" (by simp))
    obtain ⟨c6, f6, g6⟩ := last _ (h "text" (by simp))
    obtain ⟨c7, f7, g7⟩ := last _ (h "key" (by simp))
    cases c1 with
    | id v1 =>
      cases c2 with
      | name v2 =>
        cases c3 with
        | attributes v3 =>
          cases c4 with
          | listeners v4 =>
            cases c5 with
            | children v5 =>
              cases c6 with
              | text v6 =>
                cases c7 with
                | key v7 => exact ⟨⟨v1, v2, v3, v4, v5, v6, v7⟩, (key _).mpr ⟨g1, g2, g3, g4, g5, g6, g7⟩⟩
                | _ => simp [ElementSetter.field] at f7
              | _ => simp [ElementSetter.field] at f6
            | _ => simp [ElementSetter.field] at f5
          | _ => simp [ElementSetter.field] at f4
        | _ => simp [ElementSetter.field] at f3
      | _ => simp [ElementSetter.field] at f2
    | _ => simp [ElementSetter.field] at f1

/-- non-vacuity: a field set twice; and a builder without a key -/
example :
    (List.foldl ElementBuilder.set .default
      [.id 1, .name "p", .attributes [], .listeners [], .children [], .text none, .key none, .id 2]).build = some (.blank 2 "p") ∧
    (List.foldl ElementBuilder.set .default [.id 1, .name "p", .attributes [], .listeners [], .children [], .text none]).build = none :=
  ⟨rfl, rfl⟩

end Puck
