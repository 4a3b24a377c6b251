import Verif.Props.Live
/-!
# C115, exactly
-/
namespace Puck

variable {D I S E P : Type}

/-- The updates a session performs are determined by its messages. -/
theorem session_det {C : Component D I S E P} {parse : String → Option ClientMessage} {p : P} {s s' : S} {ms : List (Mail I P)} {is : List I}
    (h : Session C parse p s ms is s') : ∀ {is₂ : List I} {s₂ : S}, Session C parse p s ms is₂ s₂ → is₂ = is ∧ s₂ = s' := by
  have hu : ∀ {ls : String → Option (Listener I)} {m : Mail I P} {i j : I}, Asks parse ls m i → Asks parse ls m j → i = j := by
    intro ls m i j h1 h2
    rcases h1 with h1 | ⟨t, c, a1, a2, a3⟩ <;> rcases h2 with h2 | ⟨t', c', b1, b2, b3⟩ <;> grind
  induction h with
  | nil s => intro is₂ s₂ h2; cases h2; exact ⟨rfl, rfl⟩
  | skip a b c h ih =>
    intro is₂ s₂ h2
    cases h2 with
    | skip _ _ _ h2 => exact ih h2
    | take ha _ => exact absurd ha (a _)
  | take a h ih =>
    intro is₂ s₂ h2
    cases h2 with
    | skip ha _ _ _ => exact absurd a (ha _)
    | take ha h2 =>
      cases hu a ha
      obtain ⟨r1, r2⟩ := ih h2
      exact ⟨by rw [r1], r2⟩

/-- **C115, exactly.** Let the loop be in a state the component can be brought to, the browser show its view and every listener of the view be registered for
its own kind of event.  Whatever listeners an event runs, the loop goes on; it performs one sequence of updates; and that sequence is what the listeners for
the event asked for when it happened, of the element and of those around it, if and only if each of them, when it is its turn and what the listeners
before it asked for has been done, still asks for what it asked for then. -/
theorem C115_exact_partial (B : Browser) (C : Component D I S E P) (p : P) (s₀ : S) (hf : InStepFrom B C p s₀) (st : LoopState I S P)
    (hpr : st.proc = p) (hs : C.render st.comp = (st.dom, st.listeners)) (is₀ : List I) (hi : st.comp = C.after p s₀ is₀)
    (d : Dom) (_hd : (C.render st.comp).1.ShownAs d) (hr : Registered (C.render st.comp).1 (C.render st.comp).2)
    (path : List Element) (path' : List Dom) (hw : Within (C.render st.comp).1 path) (_ht : Target d path') (hp : ShownAsAll path path')
    (on value : String) :
    ∃ is st' os,
      loopRun C Json.fromStr true (.running st) ((dispatch on value path').map fun e => .ws (.ok (.text (Json.eventText e.1 e.2)))) =
        (.running st', os) ∧
      Session C Json.fromStr p st.comp ((dispatch on value path').map fun e => .ws (.ok (.text (Json.eventText e.1 e.2)))) is st'.comp ∧
      (∀ is₂ s₂, Session C Json.fromStr p st.comp
        ((dispatch on value path').map fun e => .ws (.ok (.text (Json.eventText e.1 e.2)))) is₂ s₂ → is₂ = is ∧ s₂ = st'.comp) ∧
      st'.comp = C.after p st.comp is ∧
      (is = wanted (C.render st.comp).2 on value path ↔
        ∀ before e later, dispatch on value path' = before ++ e :: later →
          asked (C.render (C.after p st.comp ((wanted (C.render st.comp).2 on value path).take before.length))).2 e =
            asked (C.render st.comp).2 e) := by
  rw [dispatch_listeners on value path' path (shownAll_listeners _ _ hp)]
  have hasks := dispatch_asks (C.render st.comp).2 on value path fun x hx l hl => hr l (within_registered hw x hx l hl)
  generalize (path.flatMap fun x => x.listeners.filterMap fun l => clientEvent l on value) = es at hasks
  generalize wanted (C.render st.comp).2 on value path = W at hasks
  -- what the loop does
  have run : ∀ (todo : List (String × Option String)) (done : List I) (st₁ : LoopState I S P), st₁.proc = p → st₁.InSync C →
      st₁.comp = C.after p st.comp done →
      ∃ is st' os, loopRun C Json.fromStr true (.running st₁) (todo.map fun e => .ws (.ok (.text (Json.eventText e.1 e.2)))) =
          ((.running st' : Phase D I S P), os) ∧
        Session C Json.fromStr p st₁.comp (todo.map fun e => .ws (.ok (.text (Json.eventText e.1 e.2)))) is st'.comp ∧
        st'.comp = C.after p st.comp (done ++ is) := by
    intro todo
    induction todo with
    | nil => intro done st₁ _ _ hc; exact ⟨[], st₁, [], rfl, .nil _, by rw [List.append_nil, hc]⟩
    | cons e todo ih =>
      intro done st₁ hp1 hs1 hc
      have hl1 : st₁.listeners = (C.render st₁.comp).2 := by rw [hs1]
      cases ha : asked st₁.listeners e with
      | none =>
        obtain ⟨is, st', os, k1, k2, k3⟩ := ih done st₁ hp1 hs1 hc
        refine ⟨is, st', [] ++ os, ?_, .skip (fun i hi' => ?_) (by simp) (by simp) k2, k3⟩
        · simp only [List.map_cons, loopRun]
          rw [handle_step, ha]
          simp only [k1]
        · rw [← hl1] at hi'
          rw [asked_some.2 hi'] at ha
          cases ha
      | some i =>
        obtain ⟨st₂, os, g1, g2, g3, g4⟩ := follows_update hf hp1 hs1 (is := is₀ ++ done) (by rw [hc, hi, after_append]) i
        obtain ⟨is, st', os', k1, k2, k3⟩ := ih (done ++ [i]) st₂ g2 g3 (by rw [g4, List.append_assoc, after_append, ← hi])
        refine ⟨i :: is, st', os ++ os', ?_, ?_, by rw [k3]; simp⟩
        · simp only [List.map_cons, loopRun]
          rw [handle_step, ha]
          simp only [g1, k1]
        · have h2 : st₂.comp = (C.update st₁.comp i p).1 := by
            rw [g4, hc, after_snoc, after_append, ← hi]
          rw [h2] at k2
          exact .take (asked_some.1 (by rw [← hl1]; exact ha)) k2
  obtain ⟨is, st', os, r1, r2, r3⟩ := run es [] st hpr hs rfl
  refine ⟨is, st', os, r1, r2, fun is₂ s₂ h2 => session_det r2 h2, by rw [r3]; rfl, ?_⟩
  -- when it is what was wanted
  have key : ∀ (todo : List (String × Option String)) (done todoW : List I) (s : S) (is : List I) (s' : S),
      todo.map (asked (C.render st.comp).2) = todoW.map some →
      s = C.after p st.comp done → Session C Json.fromStr p s (todo.map fun e => (.ws (.ok (.text (Json.eventText e.1 e.2))) : Mail I P)) is s' →
      (is = todoW ↔ ∀ before e later, todo = before ++ e :: later →
        asked (C.render (C.after p st.comp (done ++ todoW.take before.length))).2 e = asked (C.render st.comp).2 e) := by
    intro todo
    induction todo with
    | nil =>
      intro done todoW s is s' hm _ hS
      cases todoW with
      | nil => cases hS; simp
      | cons _ _ => cases hm
    | cons e todo ih =>
      intro done todoW s is s' hm hs1 hS
      cases todoW with
      | nil => cases hm
      | cons i todoW =>
        simp only [List.map_cons, List.cons.injEq] at hm
        have tail : (∀ before e' later, e :: todo = before ++ e' :: later →
              asked (C.render (C.after p st.comp (done ++ (i :: todoW).take before.length))).2 e' = asked (C.render st.comp).2 e') ↔
            asked (C.render (C.after p st.comp done)).2 e = some i ∧ ∀ before e' later, todo = before ++ e' :: later →
              asked (C.render (C.after p st.comp ((done ++ [i]) ++ todoW.take before.length))).2 e' = asked (C.render st.comp).2 e' := by
          constructor
          · intro h
            refine ⟨?_, fun before e' later hb => ?_⟩
            · have := h [] e todo rfl
              simpa [hm.1] using this
            · have := h (e :: before) e' later (by rw [hb]; rfl)
              simpa using this
          · rintro ⟨h1, h2⟩ before e' later hb
            cases before with
            | nil =>
              simp only [List.nil_append, List.cons.injEq] at hb
              obtain ⟨rfl, rfl⟩ := hb
              simpa [hm.1] using h1
            | cons b before =>
              simp only [List.cons_append, List.cons.injEq] at hb
              have := h2 before e' later hb.2
              simpa using this
        rw [tail]
        rw [List.map_cons] at hS
        cases hS with
        | skip ha _ _ hS =>
          have hno : asked (C.render (C.after p st.comp done)).2 e ≠ some i := by
            rw [← hs1]
            intro h
            exact ha i (asked_some.1 h)
          refine ⟨fun h => ?_, fun h => absurd h.1 hno⟩
          -- fewer updates than wanted
          exfalso
          have hlen : is.length ≤ todo.length := by
            have : ∀ {s : S} {ms : List (Mail I P)} {is : List I} {s' : S}, Session C Json.fromStr p s ms is s' → is.length ≤ ms.length := by
              intro s ms is s' h
              induction h <;> simp_all <;> omega
            simpa using this hS
          have : todo.length = todoW.length := by simpa using congrArg List.length hm.2
          rw [h] at hlen
          simp at hlen
          omega
        | @take _ _ _ j is _ ha hS =>
          have ha' : asked (C.render (C.after p st.comp done)).2 e = some j := by rw [← hs1]; exact asked_some.2 ha
          have ih' := ih (done ++ [i]) todoW (C.update s j p).1 is s' hm.2
          rw [ha']
          constructor
          · intro h
            simp only [List.cons.injEq] at h
            obtain ⟨rfl, h⟩ := h
            exact ⟨rfl, (ih' (by rw [after_snoc, hs1]) hS).1 h⟩
          · rintro ⟨h1, h2⟩
            simp only [Option.some.injEq] at h1
            subst h1
            rw [(ih' (by rw [after_snoc, hs1]) hS).2 h2]
  have := key es [] W st.comp is st'.comp hasks rfl r2
  simpa using this

/-- non-vacuity: the buttons of `nested f`, clicked in the inner one.  With the outer one always setting to 1 the condition holds and 10, then 1 is what
is done; with the outer one adding one it fails and something else is done. -/
example (f : Nat → Nat) (s : Nat) (d : Dom) (hd : ((nested f).render s).1.ShownAs d) (path' : List Dom) (ht : Target d path')
    (hp : ShownAsAll nestedPath path') : ∃ is s', Session (nested f) Json.fromStr () s
      ((dispatch "click" "" path').map fun e => .ws (.ok (.text (Json.eventText e.1 e.2)))) is s' ∧ (is = [10, f s] ↔ f 10 = f s) := by
  obtain ⟨is, st', os, -, h2, -, -, h5⟩ := C115_exact_partial plainBrowser (nested f) () s ((nested_friendly f).from s).inStep
    ⟨(), s, ((nested f).render s).1, ((nested f).render s).2⟩ rfl rfl [] rfl d hd (nested_registered f s) nestedPath path' (nestedPath_within f s) ht hp "click" ""
  refine ⟨is, st'.comp, h2, ?_⟩
  have hW : wanted ((nested f).render s).2 "click" "" nestedPath = [10, f s] := rfl
  have hD : dispatch "click" "" path' = [("inner", none), ("outer", none)] :=
    dispatch_listeners "click" "" path' nestedPath (shownAll_listeners _ _ hp)
  rw [show (⟨(), s, ((nested f).render s).1, ((nested f).render s).2⟩ : LoopState Nat Nat Unit).comp = s from rfl, hW, hD] at h5
  rw [h5]
  constructor
  · intro h
    have := h [("inner", none)] ("outer", none) [] rfl
    simpa [nested, asked, Component.after] using this
  · intro h before e later hb
    match before, hb with
    | [], hb => cases hb; rfl
    | [_], hb => cases hb; simpa [nested, asked, Component.after] using h
    | _ :: _ :: _, hb => simp at hb

end Puck
