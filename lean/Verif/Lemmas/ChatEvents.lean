import Verif.Lemmas.ChatForms
/-!
# For C123: events in the two forms, and what the fields show
-/
namespace Puck.Chat

open Puck

/-! ## Typing -/

theorem typeIntoAll_append (id v : String) (as bs : List LiveDom) : typeIntoAll id v (as ++ bs) = typeIntoAll id v as ++ typeIntoAll id v bs := by
  induction as with
  | nil => rfl
  | cons a as ih => rw [List.cons_append, typeIntoAll, typeIntoAll, ih, List.cons_append]

/-- what has been typed afterwards -/
def typedNow (id v : String) (A : Nat → Headers) (T : Nat → Option String) (n : Nat) : Option String := if (A n).get "id" = some id then some v else T n

theorem type_name (id v : String) (Pre : List LiveDom) (A : Nat → Headers) (T : Nat → Option String) :
    typeIntoAll id v (Pre ++ [nameForm A T]) = typeIntoAll id v Pre ++ [nameForm A (typedNow id v A T)] := by
  rw [typeIntoAll_append]
  rfl

theorem type_chat (id v : String) (Pre : List LiveDom) (A : Nat → Headers) (T : Nat → Option String) (K M : List LiveDom) :
    typeIntoAll id v (Pre ++ [chatForm A T K M]) =
      typeIntoAll id v Pre ++ [chatForm A (typedNow id v A T) (typeIntoAll id v K) (typeIntoAll id v M)] := by
  rw [typeIntoAll_append]
  rfl

/-! ## What the fields show -/

theorem shows_name {Pre : List LiveDom} (hq : QuietAll Pre) (A : Nat → Headers) (T : Nat → Option String) :
    ShowsField (Pre ++ [nameForm A T]) "set_username" (fieldText (A 2) (T 2)) := by
  refine ⟨⟨nameForm A T, by simp, "input", A 2, _, T 2, [], ?_, List.mem_singleton.2 rfl⟩, ?_⟩
  · exact .child (List.mem_cons_self ..) (.child (List.mem_cons_self ..) .here)
  · intro d hd tag attrs ls typed cs hin hl
    rcases List.mem_append.1 hd with hd | hd
    · have := quiet_inside hin (quietAll_mem hq hd)
      rw [Quiet] at this
      rw [this.1] at hl
      cases hl
    · rw [List.mem_singleton] at hd
      subst hd
      unfold nameForm at hin
      cases hin with
      | here => cases hl
      | child h1 h2 =>
        simp only [List.mem_cons, List.not_mem_nil, or_false] at h1
        rcases h1 with rfl | rfl
        · cases h2 with
          | here => cases hl
          | child h1 h2 =>
            simp only [List.mem_cons, List.not_mem_nil, or_false] at h1
            subst h1
            cases h2 with
            | here => rfl
            | child h1 h2 => cases h1
        · cases h2 with
          | here => cases hl
          | child h1 h2 =>
            simp only [List.mem_cons, List.not_mem_nil, or_false] at h1
            subst h1
            cases h2 with
            | here => simp at hl
            | child h1 h2 => cases h1

theorem shows_chat {Pre : List LiveDom} (hq : QuietAll Pre) (A : Nat → Headers) (T : Nat → Option String) {K M : List LiveDom} (hK : QuietAll K)
    (hM : QuietAll M) : ShowsField (Pre ++ [chatForm A T K M]) "update_message_contents" (fieldText (A 4) (T 4)) := by
  refine ⟨⟨chatForm A T K M, by simp, "input", A 4, _, T 4, [], ?_, List.mem_singleton.2 rfl⟩, ?_⟩
  · exact .child (List.mem_cons_self ..) (.child (List.mem_cons_of_mem _ (List.mem_cons_self ..)) (.child (List.mem_cons_self ..) .here))
  · intro d hd tag attrs ls typed cs hin hl
    have silent : ∀ {ds : List LiveDom}, QuietAll ds → ∀ {d : LiveDom}, d ∈ ds → Inside (.elem tag attrs ls typed cs) d → fieldText attrs typed = fieldText (A 4) (T 4) := by
      intro ds hds d hd hin
      have := quiet_inside hin (quietAll_mem hds hd)
      rw [Quiet] at this
      rw [this.1] at hl
      cases hl
    rcases List.mem_append.1 hd with hd | hd
    · exact silent hq hd hin
    · rw [List.mem_singleton] at hd
      subst hd
      unfold chatForm at hin
      cases hin with
      | here => cases hl
      | child h1 h2 =>
        rcases List.mem_cons.1 h1 with rfl | h1
        · cases h2 with
          | here => cases hl
          | child h1 h2 =>
            simp only [List.mem_cons, List.not_mem_nil, or_false] at h1
            rcases h1 with rfl | rfl | rfl
            · cases h2 with
              | here => cases hl
              | child h1 h2 => exact silent hK h1 h2
            · cases h2 with
              | here => cases hl
              | child h1 h2 =>
                simp only [List.mem_cons, List.not_mem_nil, or_false] at h1
                subst h1
                cases h2 with
                | here => rfl
                | child h1 h2 => cases h1
            · cases h2 with
              | here => cases hl
              | child h1 h2 =>
                simp only [List.mem_cons, List.not_mem_nil, or_false] at h1
                subst h1
                cases h2 with
                | here => simp at hl
                | child h1 h2 => cases h1
        · exact silent hM h1 h2

/-! ## Events -/

/-- no listeners, and none of the ids 0 to 6 -/
def Tame (x : Dom) : Prop := ∀ tag attrs ls cs, x = .elem tag attrs ls cs → ls = [] ∧ ∀ n, n < 7 → attrs.get "id" ≠ some (toString n)

mutual
theorem quiet_path : ∀ (d : LiveDom) (path : List Dom), Quiet d → Target d.erase path → ∀ x ∈ path, Tame x
  | .text _, path, _, h => by rw [LiveDom.erase] at h; cases h
  | .elem tag attrs ls ty cs, path, hq, h => by
    rw [Quiet] at hq
    rw [LiveDom.erase] at h
    have me : Tame (.elem tag attrs ls (eraseAll cs)) := by
      intro tag attrs ls cs e
      cases e
      exact ⟨hq.1, hq.2.1⟩
    cases h with
    | here => intro x hx; rw [List.mem_singleton] at hx; subst hx; exact me
    | inside h1 h2 =>
      intro x hx
      rcases List.mem_append.1 hx with hx | hx
      · exact quietAll_path cs _ hq.2.2 _ h1 h2 x hx
      · rw [List.mem_singleton] at hx; subst hx; exact me
theorem quietAll_path : ∀ (cs : List LiveDom) (path : List Dom), QuietAll cs → ∀ d ∈ eraseAll cs, Target d path → ∀ x ∈ path, Tame x
  | [], path, _, d, hd, _ => by rw [eraseAll] at hd; cases hd
  | c :: cs, path, hq, d, hd, h => by
    rw [QuietAll] at hq
    rw [eraseAll] at hd
    rcases List.mem_cons.1 hd with rfl | hd
    · exact quiet_path c path hq.1 h
    · exact quietAll_path cs path hq.2 d hd h
end

theorem target_ne {d : Dom} {path : List Dom} (h : Target d path) : path ≠ [] := by
  cases h <;> simp

theorem tame_silent {path : List Dom} (h : ∀ x ∈ path, Tame x) : ∀ x ∈ path, x.listeners = [] := by
  intro x hx
  cases x with
  | text _ => rfl
  | elem tag attrs ls cs => exact (h _ hx _ _ _ _ rfl).1

/-- a path whose elements have nothing to do with the fields, and what follows does not listen either -/
theorem dispatch_app (on v : String) (p q : List Dom) : dispatch on v (p ++ q) = dispatch on v p ++ dispatch on v q := by
  unfold dispatch
  rw [List.flatMap_append]

/-- The events that can happen in the form for the name. -/
theorem name_events {Pre : List LiveDom} (hq : QuietAll Pre) {A : Nat → Headers} (hA : Numbered A) {T : Nat → Option String} {d : LiveDom} {path : List Dom}
    (hd : d ∈ Pre ++ [nameForm A T]) (ht : Target d.erase path) (on v : String) :
    (∀ tag attrs ls cs rest, path = .elem tag attrs ls cs :: rest → attrs.get "id" = some "2" → dispatch "input" v path = [("set_username", some v)]) ∧
    (dispatch on v path = [] ∨
      (on = "input" ∧ (∃ tag ls cs rest, path = .elem tag (A 2) ls cs :: rest) ∧ dispatch on v path = [("set_username", some v)]) ∨
      (on = "click" ∧ dispatch on v path = [("initialize_username", none)])) := by
  have h0 : (A 0).get "id" = some "0" := hA 0 (by decide)
  have h1 : (A 1).get "id" = some "1" := hA 1 (by decide)
  have h2 : (A 2).get "id" = some "2" := hA 2 (by decide)
  have h3 : (A 3).get "id" = some "3" := hA 3 (by decide)
  have h4 : (A 4).get "id" = some "4" := hA 4 (by decide)
  rcases List.mem_append.1 hd with hd | hd
  · have hp := quiet_path d path (quietAll_mem hq hd) ht
    refine ⟨fun tag attrs ls cs rest e hid => ?_, Or.inl (dispatch_silent (tame_silent hp) on v)⟩
    have := (hp (.elem tag attrs ls cs) (by rw [e]; simp) _ _ _ _ rfl).2 2 (by decide)
    exact (this hid).elim
  · rw [List.mem_singleton] at hd
    subst hd
    simp only [nameForm, LiveDom.erase, eraseAll] at ht
    have paths : ∃ e0 e1 e2 e3 e4 : Dom, e0.listeners = [] ∧ e1.listeners = [] ∧ e3.listeners = [] ∧ (∃ tag cs, e0 = .elem tag (A 0) [] cs) ∧
        (∃ tag cs, e1 = .elem tag (A 1) [] cs) ∧ (∃ tag cs, e2 = .elem tag (A 2) [⟨"set_username", "input"⟩] cs) ∧ (∃ tag cs, e3 = .elem tag (A 3) [] cs) ∧
        (∃ tag cs, e4 = .elem tag (A 4) [⟨"initialize_username", "click"⟩] cs) ∧
        (path = [e0] ∨ path = [e1, e0] ∨ path = [e2, e1, e0] ∨ path = [e3, e0] ∨ path = [e4, e3, e0]) := by
      refine ⟨.elem "div" (A 0) [] [.elem "div" (A 1) [] [.elem "input" (A 2) [⟨"set_username", "input"⟩] []], .elem "div" (A 3) [] [.elem "input" (A 4) [⟨"initialize_username", "click"⟩] []]],
        .elem "div" (A 1) [] [.elem "input" (A 2) [⟨"set_username", "input"⟩] []], .elem "input" (A 2) [⟨"set_username", "input"⟩] [],
        .elem "div" (A 3) [] [.elem "input" (A 4) [⟨"initialize_username", "click"⟩] []], .elem "input" (A 4) [⟨"initialize_username", "click"⟩] [],
        rfl, rfl, rfl, ⟨_, _, rfl⟩, ⟨_, _, rfl⟩, ⟨_, _, rfl⟩, ⟨_, _, rfl⟩, ⟨_, _, rfl⟩, ?_⟩
      cases ht with
      | here => simp
      | inside m1 t1 =>
        simp only [List.mem_cons, List.not_mem_nil, or_false] at m1
        rcases m1 with rfl | rfl
        · cases t1 with
          | here => simp
          | inside m2 t2 =>
            simp only [List.mem_cons, List.not_mem_nil, or_false] at m2
            subst m2
            cases t2 with
            | here => simp
            | inside m3 t3 => cases m3
        · cases t1 with
          | here => simp
          | inside m2 t2 =>
            simp only [List.mem_cons, List.not_mem_nil, or_false] at m2
            subst m2
            cases t2 with
            | here => simp
            | inside m3 t3 => cases m3
    obtain ⟨e0, e1, e2, e3, e4, l0, l1, l3, ⟨_, _, rfl⟩, ⟨_, _, rfl⟩, ⟨_, _, rfl⟩, ⟨_, _, rfl⟩, ⟨_, _, rfl⟩, hp⟩ := paths
    clear ht
    rcases hp with rfl | rfl | rfl | rfl | rfl
    · refine ⟨fun tag attrs ls cs rest e hid => ?_, Or.inl rfl⟩
      cases e; rw [h0] at hid; simp at hid
    · refine ⟨fun tag attrs ls cs rest e hid => ?_, Or.inl rfl⟩
      cases e; rw [h1] at hid; simp at hid
    · refine ⟨fun tag attrs ls cs rest e hid => by simp [dispatch, Dom.listeners, clientEvent], ?_⟩
      by_cases ho : on = "input"
      · subst ho
        exact Or.inr (Or.inl ⟨rfl, ⟨_, _, _, _, rfl⟩, by simp [dispatch, Dom.listeners, clientEvent]⟩)
      · exact Or.inl (by simp [dispatch, Dom.listeners, clientEvent, ho])
    · refine ⟨fun tag attrs ls cs rest e hid => ?_, Or.inl rfl⟩
      cases e; rw [h3] at hid; simp at hid
    · refine ⟨fun tag attrs ls cs rest e hid => ?_, ?_⟩
      · cases e; rw [h4] at hid; simp at hid
      by_cases ho : on = "click"
      · subst ho
        exact Or.inr (Or.inr ⟨rfl, by simp [dispatch, Dom.listeners, clientEvent]⟩)
      · exact Or.inl (by simp [dispatch, Dom.listeners, clientEvent, ho])

/-- The events that can happen in the page of a registered user. -/
theorem chat_events {Pre : List LiveDom} (hq : QuietAll Pre) {A : Nat → Headers} (hA : Numbered A) {T : Nat → Option String} {K M : List LiveDom}
    (hK : QuietAll K) (hM : QuietAll M) {d : LiveDom} {path : List Dom} (hd : d ∈ Pre ++ [chatForm A T K M]) (ht : Target d.erase path) (on v : String) :
    (∀ tag attrs ls cs rest, path = .elem tag attrs ls cs :: rest → attrs.get "id" = some "4" → dispatch "input" v path = [("update_message_contents", some v)]) ∧
    (dispatch on v path = [] ∨
      (on = "input" ∧ (∃ tag ls cs rest, path = .elem tag (A 4) ls cs :: rest) ∧ dispatch on v path = [("update_message_contents", some v)]) ∨
      (on = "click" ∧ dispatch on v path = [("submit_message", none)])) := by
  have h0 : (A 0).get "id" = some "0" := hA 0 (by decide)
  have h1 : (A 1).get "id" = some "1" := hA 1 (by decide)
  have h2 : (A 2).get "id" = some "2" := hA 2 (by decide)
  have h3 : (A 3).get "id" = some "3" := hA 3 (by decide)
  have h4 : (A 4).get "id" = some "4" := hA 4 (by decide)
  have h5 : (A 5).get "id" = some "5" := hA 5 (by decide)
  have h6 : (A 6).get "id" = some "6" := hA 6 (by decide)
  rcases List.mem_append.1 hd with hd | hd
  · have hp := quiet_path d path (quietAll_mem hq hd) ht
    refine ⟨fun tag attrs ls cs rest e hid => ?_, Or.inl (dispatch_silent (tame_silent hp) on v)⟩
    have := (hp (.elem tag attrs ls cs) (by rw [e]; simp) _ _ _ _ rfl).2 4 (by decide)
    exact (this hid).elim
  · rw [List.mem_singleton] at hd
    subst hd
    simp only [chatForm, LiveDom.erase, eraseAll] at ht
    have paths : ∃ e0 e1 e2 e3 e4 e5 e6 : Dom, (∃ tag cs, e0 = .elem tag (A 0) [] cs) ∧
        (∃ tag cs, e1 = .elem tag (A 1) [] cs) ∧ (∃ tag cs, e2 = .elem tag (A 2) [] cs) ∧ (∃ tag cs, e3 = .elem tag (A 3) [] cs) ∧
        (∃ tag cs, e4 = .elem tag (A 4) [⟨"update_message_contents", "input"⟩] cs) ∧ (∃ tag cs, e5 = .elem tag (A 5) [] cs) ∧
        (∃ tag cs, e6 = .elem tag (A 6) [⟨"submit_message", "click"⟩] cs) ∧
        (path = [e0] ∨ path = [e1, e0] ∨ path = [e2, e1, e0] ∨ path = [e3, e1, e0] ∨ path = [e4, e3, e1, e0] ∨ path = [e5, e1, e0] ∨ path = [e6, e5, e1, e0] ∨
          (∃ q, q ≠ [] ∧ (∀ x ∈ q, Tame x) ∧ (path = q ++ [e2, e1, e0] ∨ path = q ++ [e0]))) := by
      refine ⟨.elem "div" (A 0) [] (.elem "div" (A 1) [] [.elem "p" (A 2) [] (eraseAll K), .elem "div" (A 3) [] [.elem "input" (A 4) [⟨"update_message_contents", "input"⟩] []], .elem "div" (A 5) [] [.elem "input" (A 6) [⟨"submit_message", "click"⟩] []]] :: eraseAll M),
        .elem "div" (A 1) [] [.elem "p" (A 2) [] (eraseAll K), .elem "div" (A 3) [] [.elem "input" (A 4) [⟨"update_message_contents", "input"⟩] []], .elem "div" (A 5) [] [.elem "input" (A 6) [⟨"submit_message", "click"⟩] []]],
        .elem "p" (A 2) [] (eraseAll K), .elem "div" (A 3) [] [.elem "input" (A 4) [⟨"update_message_contents", "input"⟩] []], .elem "input" (A 4) [⟨"update_message_contents", "input"⟩] [], .elem "div" (A 5) [] [.elem "input" (A 6) [⟨"submit_message", "click"⟩] []], .elem "input" (A 6) [⟨"submit_message", "click"⟩] [],
        ⟨_, _, rfl⟩, ⟨_, _, rfl⟩, ⟨_, _, rfl⟩, ⟨_, _, rfl⟩, ⟨_, _, rfl⟩, ⟨_, _, rfl⟩, ⟨_, _, rfl⟩, ?_⟩
      cases ht with
      | here => exact Or.inl rfl
      | inside m1 t1 =>
        rcases List.mem_cons.1 m1 with rfl | m1
        · cases t1 with
          | here => exact Or.inr (Or.inl rfl)
          | inside m2 t2 =>
            simp only [List.mem_cons, List.not_mem_nil, or_false] at m2
            rcases m2 with rfl | rfl | rfl
            · cases t2 with
              | here => exact Or.inr (Or.inr (Or.inl rfl))
              | @inside _ _ _ _ c q m3 t3 =>
                exact Or.inr (Or.inr (Or.inr (Or.inr (Or.inr (Or.inr (Or.inr ⟨q, target_ne t3, quietAll_path K q hK c m3 t3, Or.inl (by simp)⟩))))))
            · cases t2 with
              | here => exact Or.inr (Or.inr (Or.inr (Or.inl rfl)))
              | inside m3 t3 =>
                simp only [List.mem_cons, List.not_mem_nil, or_false] at m3
                subst m3
                cases t3 with
                | here => exact Or.inr (Or.inr (Or.inr (Or.inr (Or.inl rfl))))
                | inside m4 t4 => cases m4
            · cases t2 with
              | here => exact Or.inr (Or.inr (Or.inr (Or.inr (Or.inr (Or.inl rfl)))))
              | inside m3 t3 =>
                simp only [List.mem_cons, List.not_mem_nil, or_false] at m3
                subst m3
                cases t3 with
                | here => exact Or.inr (Or.inr (Or.inr (Or.inr (Or.inr (Or.inr (Or.inl rfl))))))
                | inside m4 t4 => cases m4
        · exact Or.inr (Or.inr (Or.inr (Or.inr (Or.inr (Or.inr (Or.inr ⟨_, target_ne t1, quietAll_path M _ hM _ m1 t1, Or.inr rfl⟩))))))
    obtain ⟨e0, e1, e2, e3, e4, e5, e6, ⟨_, _, rfl⟩, ⟨_, _, rfl⟩, ⟨_, _, rfl⟩, ⟨_, _, rfl⟩, ⟨_, _, rfl⟩, ⟨_, _, rfl⟩, ⟨_, _, rfl⟩, hp⟩ := paths
    clear ht
    rcases hp with rfl | rfl | rfl | rfl | rfl | rfl | rfl | ⟨q, hq1, hq2, hq3⟩
    · refine ⟨fun tag attrs ls cs rest e hid => ?_, Or.inl rfl⟩
      cases e; rw [h0] at hid; simp at hid
    · refine ⟨fun tag attrs ls cs rest e hid => ?_, Or.inl rfl⟩
      cases e; rw [h1] at hid; simp at hid
    · refine ⟨fun tag attrs ls cs rest e hid => ?_, Or.inl rfl⟩
      cases e; rw [h2] at hid; simp at hid
    · refine ⟨fun tag attrs ls cs rest e hid => ?_, Or.inl rfl⟩
      cases e; rw [h3] at hid; simp at hid
    · refine ⟨fun tag attrs ls cs rest e hid => by simp [dispatch, Dom.listeners, clientEvent], ?_⟩
      by_cases ho : on = "input"
      · subst ho
        exact Or.inr (Or.inl ⟨rfl, ⟨_, _, _, _, rfl⟩, by simp [dispatch, Dom.listeners, clientEvent]⟩)
      · exact Or.inl (by simp [dispatch, Dom.listeners, clientEvent, ho])
    · refine ⟨fun tag attrs ls cs rest e hid => ?_, Or.inl rfl⟩
      cases e; rw [h5] at hid; simp at hid
    · refine ⟨fun tag attrs ls cs rest e hid => ?_, ?_⟩
      · cases e; rw [h6] at hid; simp at hid
      by_cases ho : on = "click"
      · subst ho
        exact Or.inr (Or.inr ⟨rfl, by simp [dispatch, Dom.listeners, clientEvent]⟩)
      · exact Or.inl (by simp [dispatch, Dom.listeners, clientEvent, ho])
    · have hsil := dispatch_silent (tame_silent hq2) on v
      refine ⟨fun tag attrs ls cs rest e hid => ?_, Or.inl ?_⟩
      · have : Dom.elem tag attrs ls cs ∈ q := by
          cases q with
          | nil => exact (hq1 rfl).elim
          | cons x q =>
            rcases hq3 with hq3 | hq3 <;> rw [hq3] at e <;> cases e <;> simp
        exact ((hq2 _ this _ _ _ _ rfl).2 4 (by decide) hid).elim
      · rcases hq3 with rfl | rfl <;> rw [dispatch_app, hsil] <;> rfl

end Puck.Chat
