import Verif.Lemmas.ChatFair
/-!
# Fair executions of the chat: what a component keeps, and progress of the messages to it
-/
namespace Puck.Chat

variable {parse : String → Option ClientMessage} {fs : Nat → Bool}

theorem running_step (C : Component Unit LiveviewInput (Option Live) CoordinatorInput Nat) (b : Bool)
    (st : LoopState LiveviewInput (Option Live) Nat) (m : Mail LiveviewInput Nat) :
    (loopStep C parse b (.running st) m).1 = .stopped ∨ (loopStep C parse b (.running st) m).1 = .unreachable ∨
    (loopStep C parse b (.running st) m).1 = .crashed ∨
    ∃ st', (loopStep C parse b (.running st) m).1 = .running st' ∧ (st' = st ∨ ∃ i, st'.comp = (C.update st.comp i st.proc).1) := by
  have hu : ∀ i, (updateAndDiff C st i).1 = .crashed ∨ ∃ st', (updateAndDiff C st i).1 = .running st' ∧ st'.comp = (C.update st.comp i st.proc).1 := by
    intro i
    simp only [updateAndDiff]
    split
    · exact Or.inl rfl
    · exact Or.inr ⟨_, rfl, rfl⟩
  have hu' : ∀ i, (updateAndDiff C st i).1 = .stopped ∨ (updateAndDiff C st i).1 = .unreachable ∨ (updateAndDiff C st i).1 = .crashed ∨
      ∃ st', (updateAndDiff C st i).1 = .running st' ∧ (st' = st ∨ ∃ i, st'.comp = (C.update st.comp i st.proc).1) := by
    intro i
    rcases hu i with h | ⟨st', h1, h2⟩
    · exact Or.inr (Or.inr (Or.inl h))
    · exact Or.inr (Or.inr (Or.inr ⟨st', h1, Or.inr ⟨i, h2⟩⟩))
  generalize hph : (Phase.running st : FinePhase) = ph
  fun_cases loopStep C parse b ph m
  all_goals first
    | (cases hph; done)
    | (cases hph; exact hu' _)
    | (cases hph; exact Or.inr (Or.inr (Or.inr ⟨_, rfl, Or.inl rfl⟩)))
    | (cases hph; exact Or.inl rfl)
    | (cases hph; exact Or.inr (Or.inl rfl))

/-- A registered component keeps its identity, and what it shows only grows. -/
theorem asker_keeps {r i : LiveviewInput} {me : Nat} {nm : String} {id : Nat} {ms : List ChatMessage} {c : String} {l : Live}
    (h : ((asker r).update (some (.initialized nm id ms c)) i me).1 = some l) :
    ∃ nm' ms' c', l = .initialized nm' id ms' c' ∧ ms <+: ms' := by
  have hl : ∀ i l, Live.updateLocal (.initialized nm id ms c) i = some l → ∃ nm' ms' c', l = .initialized nm' id ms' c' ∧ ms <+: ms' := by
    intro i l h
    cases i with
    | browserRequest b =>
      cases b <;> simp only [Live.updateLocal, Option.some.injEq, reduceCtorEq] at h
      subst h; exact ⟨_, _, _, rfl, by simp⟩
    | userRegistered a b => simp [Live.updateLocal] at h
    | updatedUsername a => simp only [Live.updateLocal, Option.some.injEq] at h; subst h; exact ⟨_, _, _, rfl, by simp⟩
    | receiveMessage a => simp only [Live.updateLocal, Option.some.injEq] at h; subst h; exact ⟨_, _, _, rfl, by simp⟩
    | closed => simp only [Live.updateLocal, Option.some.injEq] at h; subst h; exact ⟨_, _, _, rfl, by simp⟩
  simp only [asker] at h
  split at h
  · exact hl _ _ h
  · cases i with
    | browserRequest b => cases b <;> exact hl _ _ h
    | userRegistered a b => exact hl _ _ h
    | updatedUsername a => exact hl _ _ h
    | receiveMessage a => exact hl _ _ h
    | closed => exact hl _ _ h

/-- The component of this connection is registered as `id`, and shows at least `ms`. -/
def Shows (u : FineProcs) (id : Nat) (ms : List ChatMessage) : Prop :=
  ∃ st nm ms' c, u.loop = .running st ∧ st.comp = some (.initialized nm id ms' c) ∧ ms <+: ms'

/-- A loop that runs has been able to send its first message. -/
theorem running_first {f : FineNet} (h : FineSteps parse fs .init f) {k : Nat} {u : FineProcs} (hu : f.users k = some u) :
    (u.loop = .waiting () ∨ u.loop = .stopped ∨ u.loop = .unreachable) ∨ (u.loop = .crashed) ∨ (fs k = true ∧ ∃ st, u.loop = .running st) := by
  cases hl : u.loop with
  | waiting d => exact Or.inl (Or.inl rfl)
  | stopped => simp
  | unreachable => simp
  | crashed => simp
  | running st =>
    right; right
    refine ⟨?_, st, rfl⟩
    generalize hi : FineNet.init = a at h
    induction h generalizing u st with
    | refl => subst hi; cases hu
    | @snoc b c h s ih =>
      have ih : ∀ {w : FineProcs}, b.users k = some w → ∀ st, w.loop = .running st → fs k = true := fun hb st hl => ih hb st hl
      cases hb : b.users k with
      | none =>
        exfalso
        have stay : ∀ {g : FineNet}, g.users k = none → g.users k = some u → False := fun e1 e2 => by rw [e1] at e2; cases e2
        have stay' : ∀ {g : FineNet} {j : Nat} {w w' : FineProcs}, g.users j = some w → g.users k = none → (g.set j w').users k = some u → False := by
          intro g j w w' e1 e2 e3
          by_cases e : k = j
          · subst e; rw [e1] at e2; cases e2
          · rw [FineNet.set_other e, e2] at e3; cases e3
        cases s with
        | connect j hj =>
          by_cases e : k = j
          · subst e
            rw [FineNet.set_same] at hu
            cases hu
            cases hl
          · rw [FineNet.set_other e, hb] at hu; cases hu
        | forward j w i rest hw hi => exact stay' hw hb hu
        | read j w m hw => exact stay' hw hb hu
        | work j w m rest hw => exact stay' hw hb hu
        | ask j w m rest q hw => exact stay' hw hb hu
        | serve => exact stay hb hu
        | panic => exact stay hb hu
        | send j r d ds hs =>
          unfold FineNet.deliver at hu
          simp only at hu
          cases hd : b.users d.to with
          | none => rw [hd] at hu; exact stay hb hu
          | some w => rw [hd] at hu; exact stay' (g := { b with serving := some ⟨j, r, ds⟩ }) hd hb hu
        | reply j r w m hs hw ht => exact stay' (g := { b with serving := none }) hw hb hu
        | resume j w m r hw h1 h2 => exact stay' hw hb hu
        | die j w hw => exact stay' hw hb hu
        | shuffle => exact stay hb hu
      | some w =>
        obtain ⟨u', e1, e2⟩ := user_step s hb
        rw [hu] at e1
        cases e1
        have go : ∀ (C : Component Unit LiveviewInput (Option Live) CoordinatorInput Nat) m, (loopStep C parse (fs k) w.loop m).1 = .running st → fs k = true := by
          intro C m e
          cases hw : w.loop with
          | running st' => exact ih hb st' hw
          | stopped => rw [hw] at e; cases m <;> cases e
          | unreachable => rw [hw] at e; cases m <;> cases e
          | crashed => rw [hw] at e; cases m <;> cases e
          | waiting d =>
            rw [hw] at e
            cases m with
            | input i => cases e
            | ws i => cases e
            | whoAmI p =>
              simp only [loopStep] at e
              split at e
              · cases e
              · split at e
                · assumption
                · cases e
        cases e2 with
        | same => exact ih hb st hl
        | got d => exact ih hb st hl
        | forward i rest hi => exact ih hb st hl
        | read m => exact ih hb st hl
        | work m rest h1 h2 h3 h4 => exact go _ _ hl
        | ask m rest q h1 h2 h3 h4 => exact ih hb st hl
        | reply m r h1 => exact ih hb st hl
        | resume m r h1 h2 => exact go _ _ hl
        | die => exact ih hb st hl

variable {x : ChatExecution parse fs}

theorem shows_step {i k : Nat} {u u' : FineProcs} (hu : (x.state i).users k = some u) (hu' : (x.state (i + 1)).users k = some u')
    (h : UserStep parse (fs k) u u') {id : Nat} {ms : List ChatMessage} (hs : Shows u id ms) : u'.Over ∨ Shows u' id ms := by
  obtain ⟨st, nm, ms', c, h1, h2, h3⟩ := hs
  have hfs : fs k = true := by
    rcases running_first (x.reach i) hu with (e | e | e) | e | e
    · rw [h1] at e; cases e
    · rw [h1] at e; cases e
    · rw [h1] at e; cases e
    · rw [h1] at e; cases e
    · exact e.1
  have go : ∀ r m, u'.alive = true → u'.talk = .free → u'.loop = (loopStep (asker r) parse (fs k) u.loop m).1 → u'.Over ∨ Shows u' id ms := by
    intro r m ha ht hl
    obtain ⟨p1, p2, p3⟩ := C104_no_panic parse fs _ (x.reach (i + 1)) k u' hu' ha ht
    rw [h1] at hl
    rcases running_step (parse := parse) (asker r) (fs k) st m with e | e | e | ⟨st', e, e'⟩
    · exact Or.inl (Or.inr (hl.trans e))
    · exact absurd (hl.trans e) p1
    · have := p2 (hl.trans e)
      rw [hfs] at this; cases this
    · right
      rw [e] at hl
      rcases e' with rfl | ⟨i, e'⟩
      · exact ⟨_, nm, ms', c, hl, h2, h3⟩
      · cases hc : st'.comp with
        | none => exact absurd hc (p3 st' hl)
        | some l =>
          rw [hc, h2] at e'
          obtain ⟨nm', ms'', c', rfl, hp⟩ := asker_keeps e'.symm
          exact ⟨st', nm', ms'', c', hl, hc, h3.trans hp⟩
  have same : u'.loop = u.loop → u'.Over ∨ Shows u' id ms := fun e => Or.inr ⟨st, nm, ms', c, e.trans h1, h2, h3⟩
  cases h with
  | same => exact same rfl
  | got d => exact same rfl
  | forward i rest hi => exact same rfl
  | read m => exact same rfl
  | work m rest g1 g2 g3 g4 => exact go _ _ g1 g2 rfl
  | ask m rest q g1 g2 g3 g4 => exact same rfl
  | reply m r g1 => exact same rfl
  | resume m r g1 g2 => exact go _ _ g1 rfl rfl
  | die => exact same rfl

/-- From some moment on: over, or at least as much is shown. -/
theorem shows_until {i k : Nat} {u : FineProcs} (hu : (x.state i).users k = some u) {id : Nat} {ms : List ChatMessage} (hs : Shows u id ms) (j : Nat) (hj : i ≤ j) :
    (∃ l v, i ≤ l ∧ l ≤ j ∧ (x.state l).users k = some v ∧ v.Over) ∨ ∃ v, (x.state j).users k = some v ∧ Shows v id ms := by
  induction j with
  | zero =>
    have : i = 0 := by omega
    subst this
    exact Or.inr ⟨u, hu, hs⟩
  | succ j ih =>
    by_cases e : i = j + 1
    · subst e; exact Or.inr ⟨u, hu, hs⟩
    · rcases ih (by omega) with ⟨l, v, a, b, c⟩ | ⟨v, a, b⟩
      · exact Or.inl ⟨l, v, a, by omega, c⟩
      · obtain ⟨v', c1, c2⟩ := x.user a
        rcases shows_step a c1 c2 b with h | h
        · exact Or.inl ⟨j + 1, v', by omega, Nat.le_refl _, c1, h⟩
        · exact Or.inr ⟨v', c1, h⟩

/-- A registered component that takes another user's message shows it. -/
theorem takes_message {j k : Nat} {v v' : FineProcs} {m : ChatMessage} (h : TakesAt x k j v v' (.input (.receiveMessage m))) {id : Nat} {ms : List ChatMessage}
    (hs : Shows v id ms) : v'.Over ∨ v'.talk = .free ∧ v'.alive = true ∧ ∃ ms', ms <+: ms' ∧ Shows v' id (ms' ++ [m]) := by
  obtain ⟨hv, hv', ha, ht, hb, hstep⟩ := h
  have hkeep := shows_step hv hv' hstep hs
  rcases hkeep with h | h
  · exact Or.inl h
  · obtain ⟨st, nm, ms', c, h1, h2, h3⟩ := hs
    have hupd : ∀ r, (asker r).update st.comp (.receiveMessage m) st.proc = (some (.initialized nm id (ms' ++ [m]) c), []) := by
      intro r; rw [h2]; rfl
    have hreq : requestOf parse (fs k) v.loop (.input (.receiveMessage m)) = none := by
      rw [h1]
      simp only [requestOf, loopStep, updateAndDiff, hupd]
      split
      · rename_i e; split at e <;> cases e
      · split <;> rfl
    cases hstep with
    | work m' rest g1 g2 g3 g4 =>
      right
      simp only at hb
      rw [hb] at g3
      simp only [List.cons.injEq] at g3
      obtain ⟨rfl, -⟩ := g3
      refine ⟨g2, g1, ms', h3, ?_⟩
      obtain ⟨st', nm', ms'', c', e1, e2, e3⟩ := h
      rw [h1] at e1
      simp only [loopStep, updateAndDiff, hupd] at e1
      split at e1
      · cases e1
      · simp only [Phase.running.injEq] at e1
        refine ⟨st', nm, ms' ++ [m], c, ?_, by rw [← e1], by simp⟩
        rw [h1]
        simp only [loopStep, updateAndDiff, hupd]
        rename_i ops hops
        simp only [hops]
        rw [e1]
    | ask m' rest q g1 g2 g3 g4 =>
      exfalso
      simp only at hb
      rw [hb] at g3
      simp only [List.cons.injEq] at g3
      obtain ⟨rfl, -⟩ := g3
      rw [hreq] at g4
      cases g4
    | same => exfalso; have := congrArg List.length hb; simp at this
    | got d => exfalso; have := congrArg List.length hb; simp at this
    | forward i rest hi => exfalso; have := congrArg List.length hb; simp at this; omega
    | read m => exfalso; have := congrArg List.length hb; simp at this; omega
    | reply m r g1 => rw [g1] at ht; cases ht
    | resume m r g1 g2 => rw [g2] at ht; cases ht
    | die => exfalso; have := congrArg List.length hb; simp at this

end Puck.Chat
