import Verif.Props.ChatAuthors
/-!
# C155: a newcomer to the chat is shown nothing said before it entered
-/
namespace Puck.Chat
open Puck

/-- The user of connection `k` has not entered the chat: there is no such connection, or its component has not been given a name yet. -/
def ChatNet.Outside (n : ChatNet) (k : Nat) : Prop :=
  ∀ u, n.users k = some u → (∃ d, u.loop = .waiting d) ∨ ∃ name, u.live = some (.uninitialized name)

/-- The log has only grown, and whoever has registered meanwhile has done so after what was in the log. -/
def LogAfter (srv srv' : ChatServer) : Prop :=
  srv.log <+: srv'.log ∧ ∀ e ∈ srv'.joined, e ∈ srv.joined ∨ srv.log.length ≤ e.2

theorem LogAfter.refl (srv : ChatServer) : LogAfter srv srv := ⟨List.prefix_rfl, fun _ h => .inl h⟩

theorem LogAfter.trans {a b c : ChatServer} (h : LogAfter a b) (h' : LogAfter b c) : LogAfter a c := by
  refine ⟨h.1.trans h'.1, fun e he => ?_⟩
  rcases h'.2 e he with h1 | h1
  · exact h.2 e h1
  · exact .inr (Nat.le_trans h.1.length_le h1)

/-- whatever the coordinator is asked -/
theorem LogAfter.handle {srv srv' : ChatServer} {q : CoordinatorInput} {res : LiveviewInput} {ds : List Delivery} (h : srv.handle q = some (srv', res, ds)) : LogAfter srv srv' := by
  cases q with
  | registerNewUser name proc =>
    simp only [ChatServer.handle, Option.some.injEq, Prod.mk.injEq] at h
    rw [← h.1]
    refine ⟨List.prefix_rfl, fun e he => ?_⟩
    rcases List.mem_append.1 he with he | he
    · exact .inl he
    · right
      rw [List.mem_singleton.1 he]
      exact Nat.le_refl _
  | setUsername id name =>
    simp only [ChatServer.handle, Option.some.injEq, Prod.mk.injEq] at h
    rw [← h.1]
    exact ⟨List.prefix_rfl, fun _ he => .inl he⟩
  | sendMessage id text =>
    simp only [ChatServer.handle] at h
    split at h
    · cases h
    · simp only [Option.some.injEq, Prod.mk.injEq] at h
      rw [← h.1]
      exact ⟨List.prefix_append _ _, fun _ he => .inl he⟩
  | removeUser id =>
    simp only [ChatServer.handle, Option.some.injEq, Prod.mk.injEq] at h
    rw [← h.1]
    exact ⟨List.prefix_rfl, fun _ he => .inl he⟩

theorem LogAfter.update {srv srv' : ChatServer} {l l' : Live} {i : LiveviewInput} {k : Nat} {ds : List Delivery} (h : l.update i k srv = some (l', srv', ds)) : LogAfter srv srv' := by
  unfold Live.update at h
  split at h
  · split at h
    · rename_i hh
      simp only [Option.some.injEq, Prod.mk.injEq] at h
      rw [← h.2.1]
      exact .handle hh
    · cases h
  · split at h
    · rename_i hh
      obtain ⟨l'', -, h⟩ := Option.map_eq_some_iff.1 h
      simp only [Prod.mk.injEq] at h
      rw [← h.2.1]
      exact .handle hh
    · cases h
  · obtain ⟨l'', -, h⟩ := Option.map_eq_some_iff.1 h
    simp only [Prod.mk.injEq] at h
    rw [← h.2.1]
    exact .refl _

section
variable {parse : String → Option ClientMessage} {fs : Nat → Bool}

theorem after_step {n n' : ChatNet} (hn : NetInv fs n) (s : ChatStep parse fs n n') : LogAfter n.srv n'.srv := by
  cases s with
  | connect k hk => exact .refl _
  | forward k u i rest hu hi => exact .refl _
  | read k u w hu => exact .refl _
  | die k u hu => exact .refl _
  | shuffle users hp => exact ⟨List.prefix_rfl, fun _ he => .inl he⟩
  | receive k u m rest hu hm =>
    have hp := hn.procs k u hu
    have hsrv : (n.receive parse fs k u m rest).srv = serverAfter n.srv u.loop (loopStep chatComponent parse (fs k) (withServer n.srv u.loop) m).1 := by
      unfold ChatNet.receive
      rw [(deliverAll_users _ _ k).1]
      rfl
    rw [hsrv]
    obtain ⟨inbox, loop, loopBox, sent⟩ := u
    simp only at hm
    subst hm
    obtain ⟨hin, h2⟩ := hp
    simp only at hin h2 ⊢
    cases loop with
    | unreachable => exact absurd h2 id
    | stopped =>
      have hs : loopStep chatComponent parse (fs k) (withServer n.srv .stopped) m = (.stopped, []) := by cases m <;> rfl
      rw [hs]
      exact .refl _
    | crashed =>
      have hs : loopStep chatComponent parse (fs k) (withServer n.srv .crashed) m = (.crashed, []) := by cases m <;> rfl
      rw [hs]
      exact .refl _
    | waiting d =>
      obtain ⟨r, h3, h4⟩ := h2
      simp only [List.cons.injEq] at h3
      obtain ⟨rfl, rfl⟩ := h3
      obtain ⟨ops, ho⟩ := (C59_unkeyed_partial _ _ (render_unkeyed (.uninitialized "")) (render_unkeyed (.uninitialized ""))).2
      simp only [withServer, loopStep, chatComponent, List.map_nil, List.nil_append]
      rw [ho]
      cases fs k <;> exact .refl _
    | running st =>
      obtain ⟨hbx, hproc, l, srv0, hcomp, hrender, hknown⟩ := h2
      obtain ⟨proc, comp, dom, ls⟩ := st
      simp only at hproc hcomp hrender
      subst hproc hcomp
      have hmm := hbx m (by simp)
      have hl : ls = l.listeners := (congrArg (·.2) hrender).symm
      by_cases hask : ∃ i, Asks parse l.listeners m i
      · obtain ⟨i, hi⟩ := hask
        obtain ⟨l', srv', ds, hup, -, -, -, -⟩ := update_ok hn.srv hknown (asks_expected hmm hi)
        obtain ⟨ops, hstep⟩ := update_step (b := fs proc) (srv0 := srv0) hrender hi hup
        rw [hstep]
        simp only [serverAfter, Option.map_some, Option.getD_some]
        exact .update hup
      · by_cases hclosed : m = .ws (.error .connectionClosed)
        · subst hclosed
          have hs : loopStep chatComponent parse (fs proc) (withServer n.srv (.running ⟨proc, some (l, srv0), dom, ls⟩))
              (.ws (.error .connectionClosed)) = (.stopped, [.dropped]) := rfl
          rw [hs]
          cases l with
          | uninitialized name => exact .refl _
          | initialized name id ms c => exact LogAfter.handle (q := .removeUser id) rfl
        · have hign : loopStep chatComponent parse (fs proc) (withServer n.srv (.running ⟨proc, some (l, srv0), dom, ls⟩)) m =
              (.running ⟨proc, some (l, n.srv), dom, ls⟩, []) := by
            simp only [withServer, Option.map_some]
            refine step_ignored ?_ hclosed ?_
            · intro i hi
              exact hask ⟨i, by simp only [hl] at hi; exact hi⟩
            · rintro q rfl
              rcases hmm with ⟨c, hc⟩ | ⟨w, hw⟩
              · cases hc
              · cases hw
          rw [hign]
          exact .refl _

theorem after_steps {n n' : ChatNet} (hn : NetInv fs n) (s : ChatSteps parse fs n n') : LogAfter n.srv n'.srv ∧ NetInv fs n' := by
  induction s with
  | refl => exact ⟨.refl _, hn⟩
  | snoc _ s ih => exact ⟨ih.1.trans (after_step ih.2 s), step_inv ih.2 s⟩

end

/-- **C155.** Let the user of a connection be outside in one reachable state of the application, and inside in a later one.  Then, whatever has happened before and in between:
every message is shown to it at most as often as it has been accepted between the two; those of the others are shown in the order in which they have been accepted since.  So
nothing that was said before is shown. -/
theorem C155_newcomer (parse : String → Option ClientMessage) (firstSend : Nat → Bool) (n n' : ChatNet) (h : ChatSteps parse firstSend .init n)
    (h' : ChatSteps parse firstSend n n') (k : Nat) (hout : n.Outside k) (u : UserProcs) (hu : n'.users k = some u) (name : String) (id : Nat) (shown : List ChatMessage)
    (composing : String) (hl : u.live = some (.initialized name id shown composing)) :
    n.srv.log <+: n'.srv.log ∧ (∀ m, shown.count m ≤ (n'.srv.log.drop n.srv.log.length).count m) ∧
      (shown.filter fun m => m.sender != id).Sublist (n'.srv.log.drop n.srv.log.length) := by
  have hinv := order_steps h
  have haft := (after_steps hinv.net h').1
  obtain ⟨j, h1, -, h3, -, h5, -, h7⟩ := C89_order_partial parse firstSend n' (h.trans h') k u hu name id shown composing hl
  have hnot : k ∉ n.srv.joined.map (·.1) := by
    intro hk
    cases hv : n.users k with
    | none => exact hinv.conn k hk hv
    | some v =>
      rcases hout v hv with ⟨d, hd⟩ | ⟨nm, hnm⟩
      · exact ((hinv.caught k v hv).2.1 d hd).1 hk
      · exact ((hinv.caught k v hv).1 nm hnm).1 hk
  have hj : n.srv.log.length ≤ j := by
    rcases haft.2 _ h1 with e | e
    · exact absurd (List.mem_map.2 ⟨_, e, rfl⟩) hnot
    · exact e
  have hsub : (n'.srv.log.drop j).Sublist (n'.srv.log.drop n.srv.log.length) := by
    obtain ⟨d, rfl⟩ := Nat.exists_eq_add_of_le hj
    rw [← List.drop_drop]
    exact List.drop_sublist _ _
  refine ⟨haft.1, fun m => ?_, ?_⟩
  · refine Nat.le_trans ?_ (hsub.count_le m)
    rw [← h7.count_eq, List.count_append]
    exact Nat.le_add_right _ _
  · refine List.Sublist.trans ?_ ((List.filter_sublist (p := fun m => m.sender != id)).trans hsub)
    rw [← h5, List.filter_append]
    exact List.sublist_append_left _ _

/-- **C155, on the page.** What its page shows, wherever it was put, are messages accepted since the user was outside, none more often than it was accepted. -/
theorem C155_page (B : Browser) (hB : KnowsChat B) (parse : String → Option ClientMessage) (firstSend : Nat → Bool) (n n' : ChatNet) (h : ChatSteps parse firstSend .init n)
    (h' : ChatSteps parse firstSend n n') (k : Nat) (hout : n.Outside k) (u : UserProcs) (hu : n'.users k = some u) (name : String) (id : Nat) (shown : List ChatMessage)
    (composing : String) (hl : u.live = some (.initialized name id shown composing)) (page : List Dom) (hp : PageOk page) :
    ∃ d, clientMessages B u.sent page = page ++ [d] ∧ (Live.initialized name id shown (upToPlus composing)).render.1.ShownAs d ∧
      ∀ m, shown.count m ≤ (n'.srv.log.drop n.srv.log.length).count m := by
  obtain ⟨d, h1, h2, -⟩ := C85_exact_partial B hB parse firstSend k n' (h.trans h') u hu _ hl page hp
  exact ⟨d, h1, h2, (C155_newcomer parse firstSend n n' h h' k hout u hu name id shown composing hl).2.1⟩

/-- non-vacuity: user 0 enters and says something; user 1 has connected and not entered; it enters, and user 0 says the same once more: of the two equal messages user 1 is
shown one -/
example (parse : String → Option ClientMessage) (register submit : String) (hr : parse register = some ⟨"initialize_username", none⟩)
    (hs : parse submit = some ⟨"submit_message", none⟩) :
    ∃ n n' u, ChatSteps parse (fun _ => true) .init n ∧ n.srv.log = [⟨0, "", ""⟩] ∧ n.Outside 1 ∧ ChatSteps parse (fun _ => true) n n' ∧ n'.users 1 = some u ∧
      u.live = some (.initialized "" 1 [⟨0, "", ""⟩] "") ∧ n'.srv.log = [⟨0, "", ""⟩, ⟨0, "", ""⟩] := by
  obtain ⟨n1, r1, e1, a1, o1⟩ := run_start (parse := parse) (fs := fun _ => true) (n := .init) (k := 0) rfl rfl
  obtain ⟨n2, r2, e2, b2, o2⟩ := run_start (parse := parse) (fs := fun _ => true) (n := n1) (k := 1) (o1 1 (by decide)) rfl
  have a2 : At n2 0 (.uninitialized "") [] [] := by
    obtain ⟨s, q, h⟩ := a1; exact ⟨s, q, by rw [o2 0 (by decide)]; exact h⟩
  obtain ⟨n3, r3, e3, a3, o3⟩ := run_click (fs := fun _ => true) a2 hr (i := .browserRequest .initializeUser) (by simp [Live.listeners])
    (l' := .initialized "" 0 [] "") (srv' := ⟨[(0, "", 0)], ⟨[0], [], 1⟩, [], [(0, 0)]⟩) (ds := []) (by rw [e2, e1]; decide +kernel)
  have b3 := o3 1 (by decide) _ _ _ b2
  simp only [List.filter_nil, List.map_nil, List.append_nil] at a3 b3
  obtain ⟨n4, r4, e4, a4, o4⟩ := run_click (fs := fun _ => true) a3 hs (i := .browserRequest .sendTextMessage) (by simp [Live.listeners])
    (l' := .initialized "" 0 [⟨0, "", ""⟩] "") (srv' := ⟨[(0, "", 0)], ⟨[0], [], 1⟩, [⟨0, "", ""⟩], [(0, 0)]⟩)
    (ds := []) (by rw [e3]; decide +kernel)
  have b4 := o4 1 (by decide) _ _ _ b3
  simp only [List.filter_nil, List.map_nil, List.append_nil] at a4 b4
  obtain ⟨n5, r5, e5, b5, o5⟩ := run_click (fs := fun _ => true) b4 hr (i := .browserRequest .initializeUser) (by simp [Live.listeners])
    (l' := .initialized "" 1 [] "") (srv' := ⟨[(0, "", 0), (1, "", 1)], ⟨[1, 0], [], 2⟩, [⟨0, "", ""⟩], [(0, 0), (1, 1)]⟩) (ds := []) (by rw [e4]; decide +kernel)
  have a5 := o5 0 (by decide) _ _ _ a4
  simp only [List.filter_nil, List.map_nil, List.append_nil] at a5 b5
  obtain ⟨n6, r6, e6, a6, o6⟩ := run_click (fs := fun _ => true) a5 hs (i := .browserRequest .sendTextMessage) (by simp [Live.listeners])
    (l' := .initialized "" 0 [⟨0, "", ""⟩, ⟨0, "", ""⟩] "") (srv' := ⟨[(0, "", 0), (1, "", 1)], ⟨[1, 0], [], 2⟩, [⟨0, "", ""⟩, ⟨0, "", ""⟩], [(0, 0), (1, 1)]⟩)
    (ds := [⟨1, .receiveMessage ⟨0, "", ""⟩⟩]) (by rw [e5]; decide +kernel)
  have b6 : At n6 1 (.initialized "" 1 [] "") [.receiveMessage ⟨0, "", ""⟩] [] := o6 1 (by decide) _ _ _ b5
  obtain ⟨n7, r7, e7, b7, o7⟩ := run_take (parse := parse) (fs := fun _ => true) b6
  obtain ⟨s, q, hb⟩ := b4
  obtain ⟨s', q', hb'⟩ := b7
  refine ⟨n4, n7, _, ((r1.trans r2).trans r3).trans r4, by rw [e4], ?_, (r5.trans r6).trans r7, hb', rfl, by rw [e7, e6]⟩
  intro u hu
  rw [hb] at hu
  cases hu
  exact .inr ⟨_, rfl⟩

end Puck.Chat
