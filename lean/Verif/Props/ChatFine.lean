import Verif.Lemmas.ChatSim
/-!
# Requests to the chat's coordinator travel as messages (C104)
-/
namespace Puck.Chat

variable {parse : String → Option ClientMessage} {fs : Nat → Bool}

theorem Sim.live {f : FineNet} {n : ChatNet} (h : Sim parse fs f n) {k : Nat} {u : FineProcs} (hu : f.users k = some u) {l : Live} (hl : u.live = some l) :
    ∃ v, n.users k = some v ∧ v.live = some l ∧ v.inbox = u.inbox ++ outboxFor f.serving k ∧ v.loopBox = u.loopBox ∧ v.sent = u.sent := by
  obtain ⟨v, h1, h2, h3⟩ := h.yes k u hu
  unfold FineProcs.live at hl
  unfold UserSim at h3
  cases ha : u.alive with
  | false => rw [ha] at hl; cases hl
  | true =>
    cases ht : u.talk with
    | asked m => rw [ha, ht] at hl; cases hl
    | answered m r => rw [ha, ht] at hl; cases hl
    | free =>
      rw [ht] at h3
      obtain ⟨g1, g2, g3, _⟩ := h3
      have g3 := g3 ha
      refine ⟨v, h1, ?_, h2, g1, g2⟩
      rw [ha, ht, ← g3] at hl
      unfold UserProcs.live
      revert hl
      cases v.loop with
      | running st => exact fun h => h
      | waiting d => intro h; cases h
      | stopped => intro h; cases h
      | crashed => intro h; cases h
      | unreachable => intro h; cases h

/-- **C104.** However requests, broadcasts, replies, browser events, deaths and connections interleave, there is an execution in which every request takes no
time, and at the end of which: the coordinator's state is the same (and it has not panicked); the same connections exist; each has been sent, by the
coordinator, the same inputs in the same order, some of which the real coordinator may not have sent yet; each browser has been sent the same messages,
except perhaps the last one of a process that is waiting or was killed while waiting; and every process that is alive and not waiting has the same component,
the same rendered page, the same listeners and the same mailbox. -/
theorem C104_atomic (parse : String → Option ClientMessage) (firstSend : Nat → Bool) (f : FineNet) (h : FineSteps parse firstSend .init f) :
    ∃ n, ChatSteps parse firstSend .init n ∧ f.dead = false ∧ n.srv = f.srv ∧ (∀ k, n.users k = none ↔ f.users k = none) ∧
      ∀ k u v, f.users k = some u → n.users k = some v →
        v.inbox = u.inbox ++ outboxFor f.serving k ∧ (∃ last, v.sent = u.sent ++ last ∧ last.length ≤ 1) ∧
        (u.alive = true → u.talk = .free → v.sent = u.sent ∧ v.loopBox = u.loopBox ∧ erase v.loop = u.loop) := by
  obtain ⟨n, hn, hs⟩ := sim_run h.run
  refine ⟨n, hn.steps, hs.alive, hs.srv, ?_, ?_⟩
  · intro k
    refine ⟨fun e => ?_, hs.no k⟩
    cases hf : f.users k with
    | none => rfl
    | some u =>
      obtain ⟨v, h1, _⟩ := hs.yes k u hf
      rw [e] at h1
      cases h1
  · intro k u v hu hv
    obtain ⟨v', h1, h2, h3⟩ := hs.yes k u hu
    rw [hv] at h1
    cases h1
    refine ⟨h2, ?_, ?_⟩
    · have after : ∀ m r, After parse (firstSend k) u v m r → ∃ last, v.sent = u.sent ++ last ∧ last.length ≤ 1 := by
        intro m r ha
        exact ⟨_, ha.2.1, sends_le_one _ _ _ _ _⟩
      unfold UserSim at h3
      revert h3
      cases u.talk with
      | free => intro g; exact ⟨[], by simp [g.2.1], by simp⟩
      | answered m r => exact after m r
      | asked m =>
        cases replyFor f.serving k with
        | none => intro g; exact ⟨[], by simp [g.2.1], by simp⟩
        | some r => exact after m r
    · intro ha ht
      unfold UserSim at h3
      rw [ht] at h3
      exact ⟨h3.2.1, h3.1, h3.2.2.1 ha⟩

/-- **C104, nobody waits in vain.** The coordinator is never stuck: the request it takes next is never one it panics on, and when it replies, somebody is
waiting for the reply.  A process that waits has its request in the coordinator's mailbox (once), or it is being served. -/
theorem C104_no_deadlock (parse : String → Option ClientMessage) (firstSend : Nat → Bool) (f : FineNet) (h : FineSteps parse firstSend .init f) :
    f.dead = false ∧
    (∀ k q rest, f.queue = (k, q) :: rest → f.serving = none → f.srv.handle q ≠ none) ∧
    (∀ k r ds, f.serving = some ⟨k, r, ds⟩ → ∃ u m, f.users k = some u ∧ u.talk = .asked m) ∧
    (∀ k u m, f.users k = some u → u.talk = .asked m →
      ((∃ q, (k, q) ∈ f.queue) ∧ (f.queue.map (·.1)).count k = 1 ∧ ∀ s, f.serving = some s → s.client ≠ k) ∨
      (∃ r ds, f.serving = some ⟨k, r, ds⟩) ∧ ∀ q, (k, q) ∉ f.queue) := by
  obtain ⟨n, hn, hs⟩ := sim_run h.run
  refine ⟨hs.alive, ?_, ?_, ?_⟩
  · intro k q rest hq hsv e
    obtain ⟨u, m, hu, hask, hreq⟩ := hs.queued k q (by rw [hq]; simp)
    obtain ⟨v, h1, h2, h3⟩ := hs.yes k u hu
    unfold UserSim at h3
    rw [hask, hsv] at h3
    simp only [replyFor] at h3
    obtain ⟨srv', r', ds', hh', -⟩ := (step_agree (parse := parse) (order_steps hn.steps).net h1 h3.1).2 q (by rw [h3.2.2]; exact hreq)
    rw [hs.srv, e] at hh'
    cases hh'
  · intro k r ds e
    exact (hs.serving _ e).2.1
  · intro k u m hu hm
    by_cases hk : k ∈ f.queue.map (·.1)
    · left
      obtain ⟨⟨k', q⟩, hq, rfl⟩ := List.mem_map.1 hk
      refine ⟨⟨q, hq⟩, by rw [List.Nodup.count hs.keys, if_pos hk], ?_⟩
      intro s e e'
      exact (hs.serving s e).1 (by rw [e']; exact hk)
    · right
      rcases hs.waits k u m hu hm with e | ⟨⟨c, r, ds⟩, e, e'⟩
      · exact absurd e hk
      · simp only at e'
        subst e'
        exact ⟨⟨r, ds, e⟩, fun q hq => hk (List.mem_map.2 ⟨_, hq, rfl⟩)⟩

/-- **C104, no panic.** As `C73_no_panic`: no component that is alive has panicked. -/
theorem C104_no_panic (parse : String → Option ClientMessage) (firstSend : Nat → Bool) (f : FineNet) (h : FineSteps parse firstSend .init f)
    (k : Nat) (u : FineProcs) (hu : f.users k = some u) (ha : u.alive = true) (ht : u.talk = .free) :
    u.loop ≠ .unreachable ∧ (u.loop = .crashed → firstSend k = false) ∧ ∀ st, u.loop = .running st → st.comp ≠ none := by
  obtain ⟨n, hn, hs⟩ := sim_run h.run
  obtain ⟨v, h1, _, h3⟩ := hs.yes k u hu
  unfold UserSim at h3
  rw [ht] at h3
  have he := h3.2.2.1 ha
  obtain ⟨p1, p2, p3⟩ := C73_no_panic parse firstSend n hn.steps k v h1
  rw [← he]
  revert p1 p2 p3
  cases v.loop with
  | waiting d => intros; simp [erase]
  | stopped => intros; simp [erase]
  | crashed => intro _ p2 _; refine ⟨by simp [erase], fun _ => p2 rfl, by simp [erase]⟩
  | unreachable => intro p1; exact absurd rfl p1
  | running st =>
    intro _ _ p3
    refine ⟨by simp [erase], by simp [erase], ?_⟩
    intro st' e
    simp only [erase, Phase.running.injEq] at e
    subst e
    have := p3 st rfl
    simp only
    cases hc : st.comp with
    | none => exact absurd hc this
    | some x => simp

/-- **C104, order.** As `C89_order_partial`, with requests as messages: for every registered user whose component is alive and not waiting, no message accepted by the
coordinator since the user registered is lost, invented, shown twice or out of order among the user's own or among the others'.  Messages on their way
are those in the component's mailbox, then those its managing process has, then those the coordinator is about to send. -/
theorem C104_order (parse : String → Option ClientMessage) (firstSend : Nat → Bool) (f : FineNet) (h : FineSteps parse firstSend .init f)
    (k : Nat) (u : FineProcs) (hu : f.users k = some u) (name : String) (id : Nat) (shown : List ChatMessage) (composing : String)
    (hl : u.live = some (.initialized name id shown composing)) :
    ∃ before pending, pending = u.loopBox.filterMap mailMsg ++ u.inbox.filterMap inputMsg ++ (outboxFor f.serving k).filterMap inputMsg ∧
      (k, before) ∈ f.srv.joined ∧ (∀ b', (k, b') ∈ f.srv.joined → b' = before) ∧ before ≤ f.srv.log.length ∧
      shown.filter (fun m => m.sender == id) = (f.srv.log.drop before).filter (fun m => m.sender == id) ∧
      (shown ++ pending).filter (fun m => m.sender != id) = (f.srv.log.drop before).filter (fun m => m.sender != id) ∧
      (∀ m ∈ pending, m.sender ≠ id) ∧ (shown ++ pending).Perm (f.srv.log.drop before) := by
  obtain ⟨n, hn, hs⟩ := sim_run h.run
  obtain ⟨v, h1, h2, h3, h4, h5⟩ := hs.live hu hl
  obtain ⟨before, g⟩ := C89_order_partial parse firstSend n hn.steps k v h1 name id shown composing h2
  rw [hs.srv] at g
  refine ⟨before, v.pending, ?_, g⟩
  unfold UserProcs.pending
  rw [h3, h4, List.filterMap_append, List.append_assoc]

/-- **C104, page.** As `C85_shown_partial`, with requests as messages: while this user types no `+`, the page shows the current view of the user's component,
whenever the component is alive and not waiting. -/
theorem C104_shown (B : Browser) (hB : KnowsChat B) (parse : String → Option ClientMessage) (firstSend : Nat → Bool) (k : Nat) (f : FineNet)
    (h : FineRun parse firstSend (fun j m => j = k → NoPlus parse m) f) (u : FineProcs) (hu : f.users k = some u) (l : Live) (hl : u.live = some l)
    (page : List Dom) (hp : PageOk page) :
    ∃ d, clientMessages B u.sent page = page ++ [d] ∧ l.render.1.ShownAs d := by
  obtain ⟨n, hn, hs⟩ := sim_run h
  obtain ⟨v, h1, h2, _, _, h5⟩ := hs.live hu hl
  have hpl : ∀ {n}, ChatRun parse firstSend (fun j m => j = k → NoPlus parse m) n → PlainRun parse firstSend k n := by
    intro n hn
    induction hn with
    | init => exact .init
    | snoc _ s hok ih => exact .snoc ih s fun u u' m e1 e2 e3 => hok k u u' m e1 e2 e3 rfl
  rw [← h5]
  exact C85_shown_partial B hB parse firstSend k n (hpl hn) v h1 l h2 page hp

/-! ## A case -/

theorem FineSteps.trans {a b c : FineNet} (h : FineSteps parse fs a b) (h' : FineSteps parse fs b c) : FineSteps parse fs a c := by
  induction h' with
  | refl => exact h
  | snoc _ s ih => exact .snoc ih s

/-- A browser connects and clicks on the button that registers its user: the component asks, and waits. -/
theorem fine_asks {f : FineNet} {k : Nat} {t : String} (hk : f.users k = none) (hf : fs k = true) (ht : parse t = some ⟨"initialize_username", none⟩) :
    ∃ f' u m, FineSteps parse fs f f' ∧ f'.srv = f.srv ∧ f'.queue = f.queue ++ [(k, .registerNewUser "" k)] ∧ f'.serving = f.serving ∧ f'.dead = f.dead ∧
      (∀ j, j ≠ k → f'.users j = f.users j) ∧ f'.users k = some u ∧ u.talk = .asked m ∧ u.alive = true ∧ u.loopBox = [] := by
  obtain ⟨ops, ho⟩ := (C59_unkeyed_partial _ _ (render_unkeyed (.uninitialized "")) (render_unkeyed (.uninitialized ""))).2
  have h1 : loopStep (asker .closed) parse (fs k) (.waiting ()) (.whoAmI k) =
      (.running ⟨k, some (.uninitialized ""), (Live.render (.uninitialized "")).1, (Live.render (.uninitialized "")).2⟩, [.send (serializeOps ops)]) := by
    simp only [loopStep, asker, List.map_nil, List.nil_append, ho, hf, if_true]
  have h2 : requestOf parse (fs k) (.waiting ()) (.whoAmI k) = none := by simp [requestOf, h1, firstRequest]
  have hask : Asks parse (LoopState.mk (S := Option Live) k (some (.uninitialized "")) (Live.render (.uninitialized "")).1
      (Live.render (.uninitialized "")).2).listeners (.ws (.ok (.text t)) : Mail LiveviewInput Nat) (.browserRequest .initializeUser) :=
    Or.inr ⟨t, _, rfl, ht, Or.inl rfl⟩
  have h3 : requestOf parse (fs k) (.running ⟨k, some (.uninitialized ""), (Live.render (.uninitialized "")).1, (Live.render (.uninitialized "")).2⟩)
      (.ws (.ok (.text t))) = some (.registerNewUser "" k) := by
    obtain ⟨g1, os, g2⟩ := update_outs (C := asker .closed) (st := ⟨k, some (.uninitialized ""), (Live.render (.uninitialized "")).1,
      (Live.render (.uninitialized "")).2⟩) (i := .browserRequest .initializeUser) (s := none) (es := [.registerNewUser "" k]) rfl
    unfold requestOf
    rw [step_asks hask, g2]
    revert g1
    cases (updateAndDiff (asker .closed) ⟨k, some (.uninitialized ""), (Live.render (.uninitialized "")).1, (Live.render (.uninitialized "")).2⟩
      (.browserRequest .initializeUser)).1 with
    | stopped => intro g; exact absurd rfl g
    | waiting _ => intro _; rfl
    | running _ => intro _; rfl
    | crashed => intro _; rfl
    | unreachable => intro _; rfl
  have s1 : FineStep parse fs f _ := .connect f k hk
  have s2 := FineStep.work (parse := parse) (firstSend := fs) _ k _ _ _ (FineNet.set_same f k ⟨[], .waiting (), [.whoAmI k], .free, true, []⟩) rfl rfl rfl h2
  simp only [h1] at s2
  have s3 := FineStep.read (parse := parse) (firstSend := fs) _ k _ (.ok (.text t)) (FineNet.set_same (f.set k ⟨[], .waiting (), [.whoAmI k], .free, true, []⟩) k
    ⟨[], .running ⟨k, some (.uninitialized ""), (Live.render (.uninitialized "")).1, (Live.render (.uninitialized "")).2⟩, [], .free, true,
      [] ++ sends ([.send (serializeOps ops)] : List (Out CoordinatorInput))⟩)
  have s4 := FineStep.ask (parse := parse) (firstSend := fs) _ k _ (.ws (.ok (.text t))) [] _ (FineNet.set_same
    ((f.set k ⟨[], .waiting (), [.whoAmI k], .free, true, []⟩).set k
    ⟨[], .running ⟨k, some (.uninitialized ""), (Live.render (.uninitialized "")).1, (Live.render (.uninitialized "")).2⟩, [], .free, true,
      [] ++ sends ([.send (serializeOps ops)] : List (Out CoordinatorInput))⟩) k
    ⟨[], .running ⟨k, some (.uninitialized ""), (Live.render (.uninitialized "")).1, (Live.render (.uninitialized "")).2⟩, [] ++ [.ws (.ok (.text t))], .free, true,
      [] ++ sends ([.send (serializeOps ops)] : List (Out CoordinatorInput))⟩) rfl rfl rfl h3
  refine ⟨_, _, _, .snoc (.snoc (.snoc (.snoc (.refl _) s1) s2) s3) s4, rfl, rfl, rfl, rfl, ?_, FineNet.set_same _ _ _, rfl, rfl, rfl⟩
  intro j hj
  simp [FineNet.set, hj]

/-- Two users wait at the same time: the coordinator is serving the first one while the other's request is in its mailbox. -/
theorem C104_case (h0 : fs 0 = true) (h1 : fs 1 = true) {t : String} (ht : parse t = some ⟨"initialize_username", none⟩) :
    ∃ f u v m m', FineSteps parse fs .init f ∧ f.users 0 = some u ∧ u.talk = .asked m ∧ f.users 1 = some v ∧ v.talk = .asked m' ∧
      f.serving = some ⟨0, .userRegistered 0 "", []⟩ ∧ f.queue = [(1, .registerNewUser "" 1)] := by
  obtain ⟨f1, u, m, a1, a2, a3, a4, a5, a6, a7, a8, _, _⟩ := fine_asks (parse := parse) (fs := fs) (f := .init) (k := 0) rfl h0 ht
  obtain ⟨f2, v, m', b1, b2, b3, b4, b5, b6, b7, b8, _, _⟩ := fine_asks (parse := parse) (fs := fs) (f := f1) (k := 1) (by rw [a6 1 (by decide)]; rfl) h1 ht
  refine ⟨_, u, v, m, m', .snoc (a1.trans b1) (.serve f2 0 (.registerNewUser "" 0) [(1, .registerNewUser "" 1)]
    ⟨[(0, "", 0)], ⟨[0], [], 1⟩, [], [(0, 0)]⟩ (.userRegistered 0 "") [] ?_ ?_ ?_ ?_), ?_, a8, b7, b8, rfl, rfl⟩
  · rw [b5, a5]; rfl
  · rw [b4, a4]; rfl
  · rw [b3, a3]; rfl
  · rw [b2, a2]; rfl
  · show f2.users 0 = some u
    rw [b6 0 (by decide), a7]

end Puck.Chat
