import Verif.Spec.Atomic
import Verif.Props.ChatView
/-!
# One request, seen from both models
-/
namespace Puck.Chat

/-- `update` in one piece and in two pieces. -/
theorem update_pieces {l l' : Live} {i : LiveviewInput} {k : Nat} {srv srv' : ChatServer} {ds : List Delivery}
    (h : l.update i k srv = some (l', srv', ds)) :
    (l.ask i k = none → l.updateLocal i = some l' ∧ srv' = srv ∧ ds = []) ∧
    (∀ q, l.ask i k = some q → ∃ r, srv.handle q = some (srv', r, ds) ∧ l.answer i r = some l') := by
  have base : ∀ {l : Live} {i : LiveviewInput}, (l.updateLocal i).map (fun l' => (l', srv, ([] : List Delivery))) = some (l', srv', ds) →
      l.updateLocal i = some l' ∧ srv' = srv ∧ ds = [] := by
    intro l i h
    cases hl : l.updateLocal i with
    | none => rw [hl] at h; cases h
    | some x =>
      rw [hl] at h
      simp only [Option.map_some, Option.some.injEq, Prod.mk.injEq] at h
      obtain ⟨rfl, rfl, rfl⟩ := h
      exact ⟨rfl, rfl, rfl⟩
  cases l with
  | uninitialized u =>
    cases i with
    | browserRequest b =>
      cases b with
      | initializeUser =>
        refine ⟨fun e => (by cases e), ?_⟩
        intro q hq
        simp only [Live.ask, Option.some.injEq] at hq
        subst hq
        simp only [Live.update, ChatServer.handle, Option.some.injEq, Prod.mk.injEq] at h
        obtain ⟨rfl, rfl, rfl⟩ := h
        exact ⟨_, rfl, rfl⟩
      | sendTextMessage => exact ⟨fun _ => base h, fun q e => (by cases e)⟩
      | updateInitializeUsernameTextField v => exact ⟨fun _ => base h, fun q e => (by cases e)⟩
      | updateMessageContentsTextField v => exact ⟨fun _ => base h, fun q e => (by cases e)⟩
    | userRegistered a b => exact ⟨fun _ => base h, fun q e => (by cases e)⟩
    | updatedUsername a => exact ⟨fun _ => base h, fun q e => (by cases e)⟩
    | receiveMessage a => exact ⟨fun _ => base h, fun q e => (by cases e)⟩
    | closed => exact ⟨fun _ => base h, fun q e => (by cases e)⟩
  | initialized u id ms c =>
    cases i with
    | browserRequest b =>
      cases b with
      | sendTextMessage =>
        refine ⟨fun e => (by cases e), ?_⟩
        intro q hq
        simp only [Live.ask, Option.some.injEq] at hq
        subst hq
        simp only [Live.update] at h
        cases hh : srv.handle (.sendMessage id c) with
        | none => rw [hh] at h; cases h
        | some x =>
          obtain ⟨s, r, d⟩ := x
          rw [hh] at h
          simp only at h
          cases hl : Live.updateLocal (.initialized u id ms c) r with
          | none => rw [hl] at h; cases h
          | some y =>
            rw [hl] at h
            simp only [Option.map_some, Option.some.injEq, Prod.mk.injEq] at h
            obtain ⟨rfl, rfl, rfl⟩ := h
            exact ⟨r, rfl, hl⟩
      | initializeUser => exact ⟨fun _ => base h, fun q e => (by cases e)⟩
      | updateInitializeUsernameTextField v => exact ⟨fun _ => base h, fun q e => (by cases e)⟩
      | updateMessageContentsTextField v => exact ⟨fun _ => base h, fun q e => (by cases e)⟩
    | userRegistered a b => exact ⟨fun _ => base h, fun q e => (by cases e)⟩
    | updatedUsername a => exact ⟨fun _ => base h, fun q e => (by cases e)⟩
    | receiveMessage a => exact ⟨fun _ => base h, fun q e => (by cases e)⟩
    | closed => exact ⟨fun _ => base h, fun q e => (by cases e)⟩

theorem sends_effects {E : Type} (ds : List E) (os : List (Out E)) : sends (ds.map .effect ++ os) = sends os := by
  induction ds with
  | nil => rfl
  | cons d ds ih => simp only [List.map_cons, List.cons_append, sends, ih]

theorem sends_le_one {D I S E P : Type} (C : Component D I S E P) (parse : String → Option ClientMessage) (b : Bool) (ph : Phase D I S P) (m : Mail I P) :
    (sends (loopStep C parse b ph m).2).length ≤ 1 := by
  have he : ∀ es : List E, sends (es.map .effect) = [] := by
    intro es
    have := sends_effects es []
    simpa [sends] using this
  have hu : ∀ st i, (sends (updateAndDiff C st i).2).length ≤ 1 := by
    intro st i
    simp only [updateAndDiff]
    split
    · rw [he]; simp
    · rw [sends_effects]; simp [sends]
  fun_cases loopStep C parse b ph m
  all_goals first
    | exact hu _ _
    | (rw [sends_effects]; simp [sends]; done)
    | (rw [he]; simp; done)
    | (simp [sends]; done)

theorem update_outs {D I S E P : Type} {C : Component D I S E P} {st : LoopState I S P} {i : I} {s : S} {es : List E}
    (h : C.update st.comp i st.proc = (s, es)) :
    (updateAndDiff C st i).1 ≠ .stopped ∧ ∃ os, (updateAndDiff C st i).2 = es.map .effect ++ os := by
  simp only [updateAndDiff, h]
  cases st.dom.diff (some (C.render s).1) with
  | none => exact ⟨by simp, [], by simp⟩
  | some o => exact ⟨by simp, _, rfl⟩

/-- Handling one message in both models. -/
def Agree (parse : String → Option ClientMessage) (b : Bool) (srv : ChatServer) (loop : Phase ChatServer LiveviewInput (Option (Live × ChatServer)) Nat)
    (m : Mail LiveviewInput Nat) (srv' : ChatServer) (r : LiveviewInput) (ds : List Delivery) : Prop :=
  erase (loopStep chatComponent parse b (withServer srv loop) m).1 = (loopStep (asker r) parse b (erase loop) m).1 ∧
  sends (loopStep chatComponent parse b (withServer srv loop) m).2 = sends (loopStep (asker r) parse b (erase loop) m).2 ∧
  effects (loopStep chatComponent parse b (withServer srv loop) m).2 = ds ∧
  serverAfter srv loop (loopStep chatComponent parse b (withServer srv loop) m).1 = srv'

theorem step_agree {parse : String → Option ClientMessage} {fs : Nat → Bool} {n : ChatNet} (h : NetInv fs n) {k : Nat} {v : UserProcs}
    {m : Mail LiveviewInput Nat} {rest : List (Mail LiveviewInput Nat)} (hv : n.users k = some v) (hm : v.loopBox = m :: rest) :
    (requestOf parse (fs k) (erase v.loop) m = none → Agree parse (fs k) n.srv v.loop m n.srv .closed []) ∧
    (∀ q, requestOf parse (fs k) (erase v.loop) m = some q → ∃ srv' r ds, n.srv.handle q = some (srv', r, ds) ∧
      Agree parse (fs k) n.srv v.loop m srv' r ds) := by
  have hp := h.procs k v hv
  obtain ⟨inbox, loop, loopBox, sent⟩ := v
  simp only at hm
  subst hm
  obtain ⟨hin, h2⟩ := hp
  simp only at hin h2 ⊢
  cases loop with
  | unreachable => exact absurd h2 id
  | stopped =>
    have h1 : ∀ r, loopStep (asker r) parse (fs k) .stopped m = (.stopped, []) := by intro r; cases m <;> rfl
    have h3 : loopStep chatComponent parse (fs k) .stopped m = (.stopped, []) := by cases m <;> rfl
    refine ⟨fun _ => ?_, ?_⟩
    · simp [Agree, erase, withServer, h1, h3, serverAfter, sends, effects]
    · intro q hq
      simp [requestOf, erase, h1, firstRequest] at hq
  | crashed =>
    have h1 : ∀ r, loopStep (asker r) parse (fs k) .crashed m = (.crashed, []) := by intro r; cases m <;> rfl
    have h3 : loopStep chatComponent parse (fs k) .crashed m = (.crashed, []) := by cases m <;> rfl
    refine ⟨fun _ => ?_, ?_⟩
    · simp [Agree, erase, withServer, h1, h3, serverAfter, sends, effects]
    · intro q hq
      simp [requestOf, erase, h1, firstRequest] at hq
  | waiting d =>
    obtain ⟨r, h3, h4⟩ := h2
    simp only [List.cons.injEq] at h3
    obtain ⟨rfl, rfl⟩ := h3
    obtain ⟨ops, ho⟩ := (C59_unkeyed_partial _ _ (render_unkeyed (.uninitialized "")) (render_unkeyed (.uninitialized ""))).2
    have h1 : ∀ r, loopStep (asker r) parse (fs k) (.waiting ()) (.whoAmI k) =
        if fs k then (.running ⟨k, some (.uninitialized ""), (Live.render (.uninitialized "")).1, (Live.render (.uninitialized "")).2⟩, [.send (serializeOps ops)])
        else (.crashed, [.send (serializeOps ops)]) := by
      intro r
      simp only [loopStep, asker, List.map_nil, List.nil_append, ho]
    have h5 : loopStep chatComponent parse (fs k) (.waiting n.srv) (.whoAmI k) =
        if fs k then (.running ⟨k, some (.uninitialized "", n.srv), (Live.render (.uninitialized "")).1, (Live.render (.uninitialized "")).2⟩, [.send (serializeOps ops)])
        else (.crashed, [.send (serializeOps ops)]) := by
      simp only [loopStep, chatComponent, List.map_nil, List.nil_append, ho]
    refine ⟨fun _ => ?_, ?_⟩
    · simp only [Agree, erase, withServer, h1, h5]
      cases fs k <;> simp [serverAfter, sends, effects, erase]
    · intro q hq
      simp only [requestOf, erase, h1] at hq
      cases hf : fs k <;> simp [hf, firstRequest] at hq
  | running st =>
    obtain ⟨hbox, hproc, l, srv0, hcomp, hrender, hknown⟩ := h2
    obtain ⟨proc, comp, dom, ls⟩ := st
    simp only at hproc hcomp hrender
    subst hproc hcomp
    have hmm := hbox m (by simp)
    have hl : ls = l.listeners := (congrArg (·.2) hrender).symm
    have hd : dom = l.render.1 := by rw [hrender]
    simp only [erase, Option.map_some]
    by_cases hask : ∃ i, Asks parse l.listeners m i
    · obtain ⟨i, hi⟩ := hask
      obtain ⟨l', srv', ds, hup, -⟩ := update_ok h.srv hknown (asks_expected hmm hi)
      obtain ⟨ops, ho⟩ := (C59_unkeyed_partial l.render.1 l'.render.1 (render_unkeyed l) (render_unkeyed l')).1
      have hA : loopStep chatComponent parse (fs proc) (withServer n.srv (.running ⟨proc, some (l, srv0), dom, ls⟩)) m =
          (.running ⟨proc, some (l', srv'), l'.render.1, l'.render.2⟩, ds.map .effect ++ [.send (serializeOps ops)]) := by
        have hask : Asks parse (LoopState.mk (S := Option (Live × ChatServer)) proc (some (l, n.srv)) dom ls).listeners m i := by
          simp only [hl]; exact hi
        simp only [withServer, Option.map_some]
        rw [step_asks hask]
        simp only [updateAndDiff, chatComponent, hup, hd, ho]
      have hF : ∀ r, loopStep (asker r) parse (fs proc) (.running ⟨proc, some l, dom, ls⟩) m = updateAndDiff (asker r) ⟨proc, some l, dom, ls⟩ i := by
        intro r
        have hask : Asks parse (LoopState.mk (S := Option Live) proc (some l) dom ls).listeners m i := by
          simp only [hl]; exact hi
        rw [step_asks hask]
      obtain ⟨p1, p2⟩ := update_pieces hup
      cases hq : l.ask i proc with
      | none =>
        obtain ⟨e1, rfl, rfl⟩ := p1 hq
        have hU : ∀ r, loopStep (asker r) parse (fs proc) (.running ⟨proc, some l, dom, ls⟩) m =
            (.running ⟨proc, some l', l'.render.1, l'.render.2⟩, [.send (serializeOps ops)]) := by
          intro r
          rw [hF]
          simp only [updateAndDiff, asker, hq, e1, hd, ho, List.map_nil, List.nil_append]
        refine ⟨fun _ => ?_, ?_⟩
        · simp only [Agree, hA, erase, hU, Option.map_some, serverAfter, Option.getD_some]
          simp [sends, effects]
        · intro q' hq'
          simp [requestOf, hU, firstRequest] at hq'
      | some q =>
        obtain ⟨r, e1, e2⟩ := p2 q hq
        have hU : loopStep (asker r) parse (fs proc) (.running ⟨proc, some l, dom, ls⟩) m =
            (.running ⟨proc, some l', l'.render.1, l'.render.2⟩, [.effect q, .send (serializeOps ops)]) := by
          rw [hF]
          simp only [updateAndDiff, asker, hq, e2, hd, ho, List.map_cons, List.map_nil, List.cons_append, List.nil_append]
        have hR : requestOf parse (fs proc) (.running ⟨proc, some l, dom, ls⟩) m = some q := by
          have : (loopStep (asker .closed) parse (fs proc) (.running ⟨proc, some l, dom, ls⟩) m).1 ≠ .stopped ∧
              firstRequest (loopStep (asker .closed) parse (fs proc) (.running ⟨proc, some l, dom, ls⟩) m).2 = some q := by
            rw [hF]
            obtain ⟨g1, os, g2⟩ := update_outs (C := asker .closed) (st := ⟨proc, some l, dom, ls⟩) (i := i) (s := l.answer i .closed) (es := [q])
              (by simp only [asker, hq])
            exact ⟨g1, by rw [g2]; rfl⟩
          unfold requestOf
          revert this
          cases (loopStep (asker .closed) parse (fs proc) (.running ⟨proc, some l, dom, ls⟩) m).1 with
          | stopped => rintro ⟨h, _⟩; exact absurd rfl h
          | waiting _ => rintro ⟨_, h⟩; exact h
          | running _ => rintro ⟨_, h⟩; exact h
          | crashed => rintro ⟨_, h⟩; exact h
          | unreachable => rintro ⟨_, h⟩; exact h
        rw [hR]
        refine ⟨fun e => (by cases e), ?_⟩
        rintro q' ⟨⟩
        refine ⟨srv', r, ds, e1, ?_⟩
        simp only [Agree, hA, erase, hU, Option.map_some, serverAfter, Option.getD_some, true_and]
        rw [sends_effects, effects_map _ _ rfl]
        exact ⟨rfl, rfl, trivial⟩
    · have hno : ∀ i, ¬ Asks parse l.listeners m i := fun i hi => hask ⟨i, hi⟩
      by_cases hclosed : m = .ws (.error .connectionClosed)
      · subst hclosed
        cases l with
        | uninitialized u =>
          refine ⟨fun _ => ⟨rfl, rfl, rfl, rfl⟩, ?_⟩
          intro q hq; cases hq
        | initialized u id ms c =>
          refine ⟨fun e => (by cases e), ?_⟩
          rintro q ⟨⟩
          exact ⟨_, _, _, rfl, rfl, rfl, rfl, rfl⟩
      · have hw : ∀ q, m ≠ .whoAmI q := by
          rintro q rfl
          rcases hmm with ⟨c, hc⟩ | ⟨w, hw⟩
          · cases hc
          · cases hw
        have hA : loopStep chatComponent parse (fs proc) (withServer n.srv (.running ⟨proc, some (l, srv0), dom, ls⟩)) m =
            (.running ⟨proc, some (l, n.srv), dom, ls⟩, []) := by
          simp only [withServer, Option.map_some]
          exact step_ignored (fun i hi => hno i (by simp only [hl] at hi; exact hi)) hclosed hw
        have hF : ∀ r, loopStep (asker r) parse (fs proc) (.running ⟨proc, some l, dom, ls⟩) m = (.running ⟨proc, some l, dom, ls⟩, []) := by
          intro r
          exact step_ignored (fun i hi => hno i (by simp only [hl] at hi; exact hi)) hclosed hw
        refine ⟨fun _ => ?_, ?_⟩
        · simp only [Agree, hA, erase, hF, Option.map_some, serverAfter, Option.getD_some]
          simp [sends, effects]
        · intro q hq
          simp [requestOf, hF, firstRequest] at hq

end Puck.Chat
