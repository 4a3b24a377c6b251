import Verif.Props.ChatCut
/-!
# C151: what a chat page shows only grows
-/
namespace Puck.Chat
open Puck

/-- The component of the connection is over, or it still has this name and id, and shows these messages, perhaps followed by others. -/
def StillShows (name : String) (id : Nat) (shown : List ChatMessage) (u : UserProcs) : Prop :=
  u.loop = .stopped ∨ ∃ shown' composing, u.live = some (.initialized name id shown' composing) ∧ shown <+: shown'

theorem StillShows.same {name : String} {id : Nat} {shown : List ChatMessage} {u u' : UserProcs} (h : StillShows name id shown u) (hl : u'.loop = u.loop) : StillShows name id shown u' := by
  have : u'.live = u.live := by unfold UserProcs.live; rw [hl]
  unfold StillShows at h ⊢
  rw [this, hl]
  exact h

/-- one step -/
theorem still_step {parse : String → Option ClientMessage} {fs : Nat → Bool} {n n' : ChatNet} (hn : NetInv fs n) (hstep : ChatStep parse fs n n') {j : Nat} {v : UserProcs}
    (hv : n.users j = some v) : ∃ v', n'.users j = some v' ∧ v.sent <+: v'.sent ∧ ∀ name id shown, StillShows name id shown v → StillShows name id shown v' := by
  have other : ∀ (k : Nat) (u u' : UserProcs), n.users k = some u → u.sent <+: u'.sent → (∀ name id shown, StillShows name id shown u → StillShows name id shown u') →
      ∃ v', (n.set k u').users j = some v' ∧ v.sent <+: v'.sent ∧ ∀ name id shown, StillShows name id shown v → StillShows name id shown v' := by
    intro k u u' hu hs hst
    by_cases e : j = k
    · subst e
      rw [hu] at hv
      cases hv
      exact ⟨u', by simp [ChatNet.set], hs, hst⟩
    · exact ⟨v, by simp [ChatNet.set, e, hv], List.prefix_rfl, fun _ _ _ h => h⟩
  cases hstep with
  | connect k hk =>
    have e : j ≠ k := by rintro rfl; rw [hk] at hv; cases hv
    exact ⟨v, by simp [ChatNet.set, e, hv], List.prefix_rfl, fun _ _ _ h => h⟩
  | forward k u i rest hu hi => exact other k u _ hu List.prefix_rfl fun _ _ _ h => h.same rfl
  | read k u w hu => exact other k u _ hu List.prefix_rfl fun _ _ _ h => h.same rfl
  | die k u hu => exact other k u _ hu List.prefix_rfl fun _ _ _ _ => .inl rfl
  | shuffle users hp => exact ⟨v, hv, List.prefix_rfl, fun _ _ _ h => h⟩
  | receive k u m rest hu hm =>
    have hp := hn.procs k u hu
    unfold ChatNet.receive
    rw [(deliverAll_users _ _ j).2]
    by_cases e : j = k
    · subst e
      obtain rfl : u = v := by rw [hu] at hv; cases hv; rfl
      simp only [ChatNet.set, if_true, Option.map_some]
      refine ⟨_, rfl, List.prefix_append _ _, fun name id shown hst => ?_⟩
      refine StillShows.same (u := ⟨u.inbox, (loopStep chatComponent parse (fs j) (withServer n.srv u.loop) m).1, rest, []⟩) ?_ rfl
      obtain ⟨inbox, loop, loopBox, sent⟩ := u
      simp only at hm
      subst hm
      obtain ⟨hin, h2⟩ := hp
      simp only at hin h2 ⊢
      rcases hst with hst | ⟨shown', composing, hst, hpre⟩
      · simp only at hst
        subst hst
        have hs : loopStep chatComponent parse (fs j) (withServer n.srv .stopped) m = (.stopped, []) := by cases m <;> rfl
        rw [hs]
        exact .inl rfl
      · cases loop with
        | waiting d => cases hst
        | stopped => cases hst
        | crashed => cases hst
        | unreachable => cases hst
        | running st =>
          obtain ⟨hbx, hproc, l, srv0, hcomp, hrender, hknown⟩ := h2
          obtain ⟨proc, comp, dom, ls⟩ := st
          simp only at hproc hcomp hrender
          subst hproc hcomp
          have hmm := hbx m (by simp)
          have hl : ls = l.listeners := (congrArg (·.2) hrender).symm
          simp only [UserProcs.live, Option.map_some, Option.some.injEq] at hst
          by_cases hask : ∃ i, Asks parse l.listeners m i
          · obtain ⟨i, hi⟩ := hask
            obtain ⟨l', srv', ds, hup, -, -, -, -⟩ := update_ok hn.srv hknown (asks_expected hmm hi)
            have hmv := update_steps hmm hi hup
            obtain ⟨ops, hstep⟩ := update_step (b := fs proc) (srv0 := srv0) hrender hi hup
            rw [hstep]
            subst hst
            cases hmv with
            | stay => exact .inr ⟨shown', composing, rfl, hpre⟩
            | typeText _ _ _ _ c' => exact .inr ⟨shown', c', rfl, hpre⟩
            | «show» _ _ _ ms' => exact .inr ⟨shown' ++ ms', composing, rfl, hpre.trans (List.prefix_append _ _)⟩
          · by_cases hclosed : m = .ws (.error .connectionClosed)
            · subst hclosed
              exact .inl rfl
            · have hign : loopStep chatComponent parse (fs proc) (withServer n.srv (.running ⟨proc, some (l, srv0), dom, ls⟩)) m =
                  (.running ⟨proc, some (l, n.srv), dom, ls⟩, []) := by
                simp only [withServer, Option.map_some]
                refine step_ignored ?_ hclosed ?_
                · intro i hi
                  exact hask ⟨i, by simp only [hl] at hi; exact hi⟩
                · rintro q rfl
                  rcases hmm with ⟨c, hc⟩ | ⟨w, hw⟩
                  · cases hc
                  · cases hw
              rw [hign]
              exact .inr ⟨shown', composing, by simp [UserProcs.live, hst], hpre⟩
    · simp only [ChatNet.set, if_neg e, hv, Option.map_some]
      exact ⟨_, rfl, List.prefix_rfl, fun _ _ _ h => h.same rfl⟩

/-- **C151.** Once a user of the chat has entered, whatever happens afterwards: the user's component is over, or it has the same name and id as before and shows the messages it has shown before,
in the same order, perhaps with others after them.  Nothing that has been sent to the browser is taken back either. -/
theorem C151_grows (parse : String → Option ClientMessage) (firstSend : Nat → Bool) (n n' : ChatNet) (h : ChatSteps parse firstSend .init n) (h' : ChatSteps parse firstSend n n')
    (k : Nat) (u : UserProcs) (hu : n.users k = some u) (name : String) (id : Nat) (shown : List ChatMessage) (composing : String)
    (hl : u.live = some (.initialized name id shown composing)) :
    ∃ u', n'.users k = some u' ∧ u.sent <+: u'.sent ∧
      (u'.loop = .stopped ∨ ∃ shown' composing', u'.live = some (.initialized name id shown' composing') ∧ shown <+: shown') := by
  induction h' with
  | refl => exact ⟨u, hu, List.prefix_rfl, .inr ⟨shown, composing, hl, List.prefix_rfl⟩⟩
  | snoc h1 s ih =>
    obtain ⟨v, hv, hs, hst⟩ := ih
    obtain ⟨v', hv', hs', hst'⟩ := still_step (steps_inv (h.trans h1)) s hv
    exact ⟨v', hv', hs.trans hs', hst' _ _ _ hst⟩

/-- **C151, on the page.** As long as the user's component runs, the user's page, wherever it was put, goes on showing the messages it has shown before, in the same order and under the same
greeting, perhaps with others after them (and the message field, cut at its first `+`: C85). -/
theorem C151_page (B : Browser) (hB : KnowsChat B) (parse : String → Option ClientMessage) (firstSend : Nat → Bool) (n n' : ChatNet) (h : ChatSteps parse firstSend .init n)
    (h' : ChatSteps parse firstSend n n') (k : Nat) (u : UserProcs) (hu : n.users k = some u) (name : String) (id : Nat) (shown : List ChatMessage) (composing : String)
    (hl : u.live = some (.initialized name id shown composing)) (page : List Dom) (hp : PageOk page) :
    ∃ d u', clientMessages B u.sent page = page ++ [d] ∧ (Live.initialized name id shown (upToPlus composing)).render.1.ShownAs d ∧ n'.users k = some u' ∧
      (u'.loop = .stopped ∨ ∃ d' more composing', clientMessages B u'.sent page = page ++ [d'] ∧
        (Live.initialized name id (shown ++ more) (upToPlus composing')).render.1.ShownAs d') := by
  obtain ⟨d, h1, h2, -⟩ := C85_exact_partial B hB parse firstSend k n h u hu _ hl page hp
  obtain ⟨u', hu', -, h3⟩ := C151_grows parse firstSend n n' h h' k u hu name id shown composing hl
  refine ⟨d, u', h1, h2, hu', h3.imp_right fun ⟨shown', composing', h4, more, e⟩ => ?_⟩
  obtain ⟨d', h5, h6, -⟩ := C85_exact_partial B hB parse firstSend k n' (h.trans h') u' hu' _ h4 page hp
  subst e
  exact ⟨d', more, composing', h5, h6⟩

/-- non-vacuity: user 0 registers and has nothing on its page; later it has sent a message, which its page shows -/
example (parse : String → Option ClientMessage) (register submit : String) (hr : parse register = some ⟨"initialize_username", none⟩)
    (hs : parse submit = some ⟨"submit_message", none⟩) :
    ∃ n n' u u', ChatSteps parse (fun _ => true) .init n ∧ ChatSteps parse (fun _ => true) n n' ∧ n.users 0 = some u ∧ n'.users 0 = some u' ∧
      u.live = some (.initialized "" 0 [] "") ∧ u'.live = some (.initialized "" 0 [⟨0, "", ""⟩] "") := by
  obtain ⟨n1, r1, e1, a1, o1⟩ := run_start (parse := parse) (fs := fun _ => true) (n := .init) (k := 0) rfl rfl
  obtain ⟨n3, r3, e3, a3, o3⟩ := run_click (fs := fun _ => true) a1 hr (i := .browserRequest .initializeUser) (by simp [Live.listeners])
    (l' := .initialized "" 0 [] "") (srv' := ⟨[(0, "", 0)], ⟨[0], [], 1⟩, [], [(0, 0)]⟩) (ds := []) (by rw [e1]; decide +kernel)
  obtain ⟨n5, r5, e5, a5, o5⟩ := run_click (fs := fun _ => true) a3 hs (i := .browserRequest .sendTextMessage) (by simp [Live.listeners])
    (l' := .initialized "" 0 [⟨0, "", ""⟩] "") (srv' := ⟨[(0, "", 0)], ⟨[0], [], 1⟩, [⟨0, "", ""⟩], [(0, 0)]⟩)
    (ds := []) (by rw [e3]; decide +kernel)
  obtain ⟨s, q, h⟩ := a3
  obtain ⟨s', q', h'⟩ := a5
  exact ⟨n3, n5, _, _, r1.trans r3, r5, h, h', rfl, rfl⟩

end Puck.Chat
