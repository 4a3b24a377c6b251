import Verif.Props.ChatServer
import Verif.Props.Component
/-!
# The chat application (C73)
-/
namespace Puck.Chat

theorem view_shows (l : Live) : l.view.showsText = false := by
  have kids : ∀ ms : List ChatMessage, anyShowsText (ms.map messageDiv) = false := by
    intro ms
    induction ms with
    | nil => rfl
    | cons m ms ih =>
      simp only [List.map_cons, anyShowsText, ih, Bool.or_false]
      simp [messageDiv, BodyNode.wrap, WrappedBodyNode.child, WrappedBodyNode.showsText, anyShowsText, BodyNode.container, BodyNode.isText]
  cases l with
  | uninitialized u =>
    simp [Live.view, inputDiv, BodyNode.wrap, WrappedBodyNode.child, WrappedBodyNode.listener, WrappedBodyNode.showsText, anyShowsText,
      BodyNode.container, BodyNode.isText]
  | initialized u id ms c =>
    simp [Live.view, inputDiv, BodyNode.wrap, WrappedBodyNode.child, WrappedBodyNode.listener, WrappedBodyNode.withChildren,
      WrappedBodyNode.showsText, anyShowsText, BodyNode.container, BodyNode.isText, kids]

/-- `into_element` does not panic on the chat's views. -/
theorem view_element (l : Live) : ∃ g, intoElement l.view 0 = some (l.render.1, g) := by
  cases h : intoElement l.view 0 with
  | none => rw [intoElement_none, view_shows] at h; cases h
  | some r => exact ⟨r.2, by simp [Live.render, h]⟩

theorem render_unkeyed (l : Live) : l.render.1.Unkeyed := by
  obtain ⟨g, h⟩ := view_element l
  exact intoElement_unkeyed h

/-- What a component in this state can be asked by its browser or sent by the coordinator. -/
def Expected (l : Live) (i : LiveviewInput) : Prop :=
  (∃ m, i = .receiveMessage m) ∨ ∃ name, l.listeners name = some (.click i) ∨ l.listeners name = some (.submit i) ∨
    ∃ f v, l.listeners name = some (.input f) ∧ i = f v

/-- The coordinator knows the component, if it is registered. -/
def Known (srv : ChatServer) (k : Nat) (l : Live) : Prop :=
  ∀ u id ms c, l = .initialized u id ms c → getUser id srv.users = some (u, k)

/-- An expected input is handled: nobody panics, the component stays known, other components too, and only chat messages are sent. -/
theorem update_ok {l : Live} {i : LiveviewInput} {k : Nat} {srv : ChatServer} (hs : ServerInv srv) (hk : Known srv k l) (hi : Expected l i) :
    ∃ l' srv' ds, l.update i k srv = some (l', srv', ds) ∧ ServerInv srv' ∧ Known srv' k l' ∧
      (∀ id v, getUser id srv.users = some v → getUser id srv'.users = some v) ∧
      ∀ d ∈ ds, ∃ m, d.msg = .receiveMessage m := by
  have local_ok : ∀ l', l.updateLocal i = some l' → Known srv k l' → l.update i k srv = some (l', srv, []) →
      ∃ l' srv' ds, l.update i k srv = some (l', srv', ds) ∧ ServerInv srv' ∧ Known srv' k l' ∧
      (∀ id v, getUser id srv.users = some v → getUser id srv'.users = some v) ∧ ∀ d ∈ ds, ∃ m, d.msg = .receiveMessage m :=
    fun l' _ h2 h3 => ⟨l', srv, [], h3, hs, h2, fun _ _ h => h, by simp⟩
  cases l with
  | uninitialized u =>
    have un : ∀ u', Known srv k (.uninitialized u') := by intro u' _ _ _ _ h; cases h
    rcases hi with ⟨m, rfl⟩ | ⟨name, hi⟩
    · exact local_ok (.uninitialized u) rfl (un _) rfl
    · simp only [Live.listeners] at hi
      by_cases h1 : name = "set_username"
      · simp only [h1, if_true, Option.some.injEq, reduceCtorEq, Listener.input.injEq, false_or] at hi
        obtain ⟨f, v, rfl, rfl⟩ := hi
        exact local_ok (.uninitialized v) rfl (un _) rfl
      · by_cases h2 : name = "initialize_username"
        · subst h2
          simp only [if_neg h1, if_true, Option.some.injEq, Listener.click.injEq, reduceCtorEq, false_and, exists_false, or_false] at hi
          subst hi
          obtain ⟨evs, hid⟩ := hs.ids
          have hn : srv.idGen.getId.1 ∉ srv.users.map (·.1) := fun hm => hid.get.2 (hs.use _ hm)
          have hh : srv.handle (.registerNewUser u k) =
              some (⟨srv.users ++ [(srv.idGen.getId.1, u, k)], srv.idGen.getId.2, srv.log, srv.joined ++ [(k, srv.log.length)]⟩, .userRegistered srv.idGen.getId.1 u, []) := by
            simp only [ChatServer.handle, insertUser_new hn]
          have hinv := hs.handle hh
          refine ⟨.initialized u srv.idGen.getId.1 [] "", _, [], ?_, hinv, ?_, ?_, by simp⟩
          · simp only [Live.update, hh]
          · intro u' id ms c he
            cases he
            rw [getUser_some hinv.keys]
            simp
          · intro id v hg
            cases v with
            | mk nm p =>
              rw [getUser_some hinv.keys]
              rw [getUser_some hs.keys] at hg
              exact List.mem_append_left _ hg
        · simp [h1, h2] at hi
  | initialized u id ms c =>
    have same : ∀ ms' c', Known srv k (.initialized u id ms' c') := by
      intro ms' c' _ _ _ _ h
      cases h
      exact hk u id ms c rfl
    rcases hi with ⟨m, rfl⟩ | ⟨name, hi⟩
    · exact local_ok (.initialized u id (ms ++ [m]) c) rfl (same _ _) rfl
    · simp only [Live.listeners] at hi
      by_cases h1 : name = "update_message_contents"
      · simp only [h1, if_true, Option.some.injEq, reduceCtorEq, Listener.input.injEq, false_or] at hi
        obtain ⟨f, v, rfl, rfl⟩ := hi
        exact local_ok (.initialized u id ms v) rfl (same _ _) rfl
      · by_cases h2 : name = "submit_message"
        · subst h2
          simp only [if_neg h1, if_true, Option.some.injEq, Listener.click.injEq, reduceCtorEq, false_and, exists_false, or_false] at hi
          subst hi
          have hg := hk u id ms c rfl
          have hh : srv.handle (.sendMessage id c) = some (⟨srv.users, srv.idGen, srv.log ++ [⟨id, u, c⟩], srv.joined⟩, .receiveMessage ⟨id, u, c⟩,
              (srv.users.filter fun w => w.1 != id).map fun w => ⟨w.2.2, .receiveMessage ⟨id, u, c⟩⟩) := by
            simp only [ChatServer.handle, hg]
          refine ⟨.initialized u id (ms ++ [⟨id, u, c⟩]) c, _, (srv.users.filter fun w => w.1 != id).map fun w =>
            ⟨w.2.2, .receiveMessage ⟨id, u, c⟩⟩, ?_, hs.handle hh, ?_, fun _ _ h => h, ?_⟩
          · simp only [Live.update, hh, Live.updateLocal, Option.map_some]
          · intro u' id' ms' c' he
            cases he
            exact hg
          · intro d hd
            obtain ⟨w, _, rfl⟩ := List.mem_map.1 hd
            exact ⟨_, rfl⟩
        · simp [h1, h2] at hi

/-- A loop in a good state, and its mailbox. -/
def ProcsOk (firstSend : Bool) (srv : ChatServer) (k : Nat) (u : UserProcs) : Prop :=
  (∀ i ∈ u.inbox, ∃ m, i = .receiveMessage m) ∧
  match u.loop with
  | .waiting _ => ∃ rest, u.loopBox = .whoAmI k :: rest ∧ ∀ m ∈ rest, (∃ c, m = .input (.receiveMessage c)) ∨ ∃ w, m = .ws w
  | .running st => (∀ m ∈ u.loopBox, (∃ c, m = .input (.receiveMessage c)) ∨ ∃ w, m = .ws w) ∧
      st.proc = k ∧ ∃ l srv0, st.comp = some (l, srv0) ∧ l.render = (st.dom, st.listeners) ∧ Known srv k l
  | .stopped => True
  | .crashed => firstSend = false
  | .unreachable => False

structure NetInv (firstSend : Nat → Bool) (n : ChatNet) : Prop where
  srv : ServerInv n.srv
  procs : ∀ k u, n.users k = some u → ProcsOk (firstSend k) n.srv k u

theorem ProcsOk.mono {b : Bool} {srv srv' : ChatServer} {k : Nat} {u : UserProcs} (h : ProcsOk b srv k u)
    (hk : ∀ l, Known srv k l → Known srv' k l) : ProcsOk b srv' k u := by
  refine ⟨h.1, ?_⟩
  have h2 := h.2
  revert h2
  cases u.loop with
  | waiting d => exact fun h => h
  | running st =>
    rintro ⟨h1, h2, l, s0, h3, h4, h5⟩
    exact ⟨h1, h2, l, s0, h3, h4, hk l h5⟩
  | stopped => exact fun h => h
  | crashed => exact fun h => h
  | unreachable => exact fun h => h

theorem NetInv.set {fs : Nat → Bool} {n : ChatNet} (h : NetInv fs n) {k : Nat} {u : UserProcs} (hu : ProcsOk (fs k) n.srv k u) :
    NetInv fs (n.set k u) := by
  refine ⟨h.srv, ?_⟩
  intro j v hv
  simp only [ChatNet.set] at hv
  split at hv
  · rename_i e; subst e; cases hv; exact hu
  · exact h.procs j v hv

theorem NetInv.deliver {fs : Nat → Bool} {n : ChatNet} (h : NetInv fs n) {d : Delivery} (hd : ∃ m, d.msg = .receiveMessage m) :
    NetInv fs (n.deliver d) := by
  unfold ChatNet.deliver
  cases hu : n.users d.to with
  | none => exact h
  | some u =>
    refine h.set ?_
    have := h.procs _ u hu
    refine ⟨?_, this.2⟩
    intro i hi
    simp only [List.mem_append, List.mem_singleton] at hi
    rcases hi with hi | rfl
    · exact this.1 i hi
    · exact hd

theorem NetInv.deliverAll {fs : Nat → Bool} (ds : List Delivery) {n : ChatNet} (h : NetInv fs n) (hd : ∀ d ∈ ds, ∃ m, d.msg = .receiveMessage m) :
    NetInv fs (ds.foldl ChatNet.deliver n) := by
  induction ds generalizing n with
  | nil => exact h
  | cons d ds ih => exact ih (h.deliver (hd d (by simp))) fun d' h' => hd d' (by simp [h'])

theorem effects_map (ds : List Delivery) (os : List (Out Delivery)) (h : effects os = []) : effects (ds.map .effect ++ os) = ds := by
  induction ds with
  | nil => exact h
  | cons d ds ih => simp [effects, ih]

/-- One update of a component, with the coordinator as it is. -/
theorem update_step {parse : String → Option ClientMessage} {b : Bool} {srv : ChatServer} {k : Nat} {l : Live} {m : Mail LiveviewInput Nat}
    {i : LiveviewInput} {dom : Element} {ls : String → Option (Listener LiveviewInput)} {srv0 : ChatServer} (hr : l.render = (dom, ls))
    (ha : Asks parse l.listeners m i) {l' : Live} {srv' : ChatServer} {ds : List Delivery} (hu : l.update i k srv = some (l', srv', ds)) :
    ∃ ops, loopStep chatComponent parse b (withServer srv (.running ⟨k, some (l, srv0), dom, ls⟩)) m =
      (.running ⟨k, some (l', srv'), l'.render.1, l'.render.2⟩, ds.map .effect ++ [.send (serializeOps ops)]) := by
  have hl : ls = l.listeners := by
    have := congrArg (·.2) hr
    exact this.symm
  have hd : dom = l.render.1 := by rw [hr]
  have hask : Asks parse (LoopState.mk (S := Option (Live × ChatServer)) k (some (l, srv)) dom ls).listeners m i := by
    simp only [hl]; exact ha
  simp only [withServer, Option.map_some]
  rw [step_asks hask]
  obtain ⟨ops, ho⟩ := (C59_unkeyed_partial l.render.1 l'.render.1 (render_unkeyed l) (render_unkeyed l')).1
  refine ⟨ops, ?_⟩
  simp only [updateAndDiff, chatComponent, hu, hd]
  rw [ho]

theorem asks_expected {parse : String → Option ClientMessage} {l : Live} {m : Mail LiveviewInput Nat} {i : LiveviewInput}
    (hm : (∃ c, m = .input (.receiveMessage c)) ∨ ∃ w, m = .ws w) (h : Asks parse l.listeners m i) : Expected l i := by
  rcases h with rfl | ⟨c, t, rfl, _, h⟩
  · rcases hm with ⟨c, hc⟩ | ⟨w, hw⟩
    · cases hc; exact Or.inl ⟨c, rfl⟩
    · cases hw
  · right
    refine ⟨t.listener, ?_⟩
    rcases h with h | h | ⟨f, v, h1, _, h2⟩
    · exact Or.inl h
    · exact Or.inr (Or.inl h)
    · exact Or.inr (Or.inr ⟨f, v, h1, h2⟩)

theorem step_inv {parse : String → Option ClientMessage} {fs : Nat → Bool} {n n' : ChatNet} (h : NetInv fs n) (hstep : ChatStep parse fs n n') :
    NetInv fs n' := by
  cases hstep with
  | connect k hk => exact h.set ⟨by simp, [], rfl, by simp⟩
  | forward k u i rest hu hi =>
    have hp := h.procs k u hu
    refine h.set ⟨fun j hj => hp.1 j (by rw [hi]; simp [hj]), ?_⟩
    obtain ⟨c, rfl⟩ := hp.1 i (by rw [hi]; simp)
    have h2 := hp.2
    revert h2
    cases u.loop with
    | waiting d =>
      rintro ⟨r, h1, h2⟩
      refine ⟨r ++ [.input (.receiveMessage c)], by simp [h1], ?_⟩
      intro m hm
      simp only [List.mem_append, List.mem_singleton] at hm
      rcases hm with hm | rfl
      · exact h2 m hm
      · exact Or.inl ⟨c, rfl⟩
    | running st =>
      rintro ⟨h1, h2⟩
      refine ⟨?_, h2⟩
      intro m hm
      simp only [List.mem_append, List.mem_singleton] at hm
      rcases hm with hm | rfl
      · exact h1 m hm
      · exact Or.inl ⟨c, rfl⟩
    | stopped => exact fun h => h
    | crashed => exact fun h => h
    | unreachable => exact fun h => h
  | read k u w hu =>
    have hp := h.procs k u hu
    refine h.set ⟨hp.1, ?_⟩
    have h2 := hp.2
    revert h2
    cases u.loop with
    | waiting d =>
      rintro ⟨r, h1, h2⟩
      refine ⟨r ++ [.ws w], by simp [h1], ?_⟩
      intro m hm
      simp only [List.mem_append, List.mem_singleton] at hm
      rcases hm with hm | rfl
      · exact h2 m hm
      · exact Or.inr ⟨w, rfl⟩
    | running st =>
      rintro ⟨h1, h2⟩
      refine ⟨?_, h2⟩
      intro m hm
      simp only [List.mem_append, List.mem_singleton] at hm
      rcases hm with hm | rfl
      · exact h1 m hm
      · exact Or.inr ⟨w, rfl⟩
    | stopped => exact fun h => h
    | crashed => exact fun h => h
    | unreachable => exact fun h => h
  | die k u hu => exact h.set ⟨(h.procs k u hu).1, trivial⟩
  | shuffle users hp =>
    have hs := h.srv.perm hp
    refine ⟨hs, ?_⟩
    intro k u hu
    refine (h.procs k u hu).mono ?_
    intro l hk nm id ms c e
    have := hk nm id ms c e
    rw [getUser_some h.srv.keys] at this
    exact (getUser_some hs.keys).2 ((hp.mem_iff).1 this)
  | receive k u m rest hu hm =>
    unfold ChatNet.receive
    have hp := h.procs k u hu
    obtain ⟨inbox, loop, loopBox, sent⟩ := u
    simp only at hm
    subst hm
    obtain ⟨hin, h2⟩ := hp
    simp only at hin h2
    -- nothing changes for the others
    have quiet : ∀ loop' sent', ProcsOk (fs k) n.srv k ⟨inbox, loop', rest, sent'⟩ → NetInv fs ((⟨n.srv, n.users⟩ : ChatNet).set k ⟨inbox, loop', rest, sent'⟩) :=
      fun loop' sent' hl => NetInv.set (n := ⟨n.srv, n.users⟩) h hl
    cases loop with
    | unreachable => exact absurd h2 id
    | stopped =>
      have hs : loopStep chatComponent parse (fs k) (withServer n.srv .stopped) m = (.stopped, []) := by cases m <;> rfl
      simp only [hs, effects, List.foldl_nil, serverAfter]
      exact quiet _ _ ⟨hin, trivial⟩
    | crashed =>
      have hs : loopStep chatComponent parse (fs k) (withServer n.srv .crashed) m = (.crashed, []) := by cases m <;> rfl
      simp only [hs, effects, List.foldl_nil, serverAfter]
      exact quiet _ _ ⟨hin, h2⟩
    | waiting d =>
      obtain ⟨r, h3, h4⟩ := h2
      simp only [List.cons.injEq] at h3
      obtain ⟨rfl, rfl⟩ := h3
      simp only [withServer, loopStep, chatComponent, List.map_nil, List.nil_append]
      obtain ⟨ops, ho⟩ := (C59_unkeyed_partial _ _ (render_unkeyed (.uninitialized "")) (render_unkeyed (.uninitialized ""))).2
      rw [ho]
      simp only
      cases hb : fs k with
      | true =>
        simp only [if_true, effects, List.foldl_nil, serverAfter, Option.map_some, Option.getD_some]
        exact quiet _ _ ⟨hin, h4, rfl, .uninitialized "", n.srv, rfl, rfl, by intro _ _ _ _ e; cases e⟩
      | false =>
        simp only [Bool.false_eq_true, if_false, effects, List.foldl_nil, serverAfter]
        exact quiet _ _ ⟨hin, hb⟩
    | running st =>
      obtain ⟨hbox, hproc, l, srv0, hcomp, hrender, hknown⟩ := h2
      obtain ⟨proc, comp, dom, ls⟩ := st
      simp only at hproc hcomp hrender
      subst hproc hcomp
      have hmm := hbox m (by simp)
      have hrest : ∀ m' ∈ rest, (∃ c, m' = .input (.receiveMessage c)) ∨ ∃ w, m' = .ws w := fun m' hm' => hbox m' (by simp [hm'])
      have hl : ls = l.listeners := (congrArg (·.2) hrender).symm
      by_cases hask : ∃ i, Asks parse l.listeners m i
      · obtain ⟨i, hi⟩ := hask
        obtain ⟨l', srv', ds, hup, hs', hk', hothers, hds⟩ := update_ok h.srv hknown (asks_expected hmm hi)
        obtain ⟨ops, hstep⟩ := update_step (b := fs proc) (srv0 := srv0) hrender hi hup
        rw [hstep]
        simp only [serverAfter, Option.map_some, Option.getD_some]
        rw [effects_map _ _ rfl]
        refine NetInv.deliverAll _ ?_ hds
        have base : NetInv (fun j => if j = proc then false else fs j) ⟨srv', fun j => if j = proc then none else n.users j⟩ := by
          refine ⟨hs', ?_⟩
          intro j v hv
          simp only at hv ⊢
          split at hv
          · cases hv
          · rename_i hj
            rw [if_neg hj]
            refine (h.procs j v hv).mono ?_
            intro l hk nm id ms c e
            exact hothers _ _ (hk nm id ms c e)
        refine ⟨hs', ?_⟩
        intro j v hv
        simp only [ChatNet.set] at hv
        by_cases hj : j = proc
        · subst hj
          simp only [if_true, Option.some.injEq] at hv
          subst hv
          exact ⟨hin, hrest, rfl, l', srv', rfl, rfl, hk'⟩
        · rw [if_neg hj] at hv
          have := base.procs j v (by simp only [if_neg hj]; exact hv)
          simp only [if_neg hj] at this
          exact this
      · by_cases hclosed : m = .ws (.error .connectionClosed)
        · subst hclosed
          have hs : loopStep chatComponent parse (fs proc) (withServer n.srv (.running ⟨proc, some (l, srv0), dom, ls⟩))
              (.ws (.error .connectionClosed)) = (.stopped, [.dropped]) := rfl
          simp only [hs, effects, List.foldl_nil]
          cases l with
          | uninitialized u =>
            simp only [serverAfter]
            exact quiet _ _ ⟨hin, trivial⟩
          | initialized u id ms c =>
            have hh : n.srv.handle (.removeUser id) = some (⟨n.srv.users.filter fun w => w.1 != id, n.srv.idGen.releaseId id, n.srv.log, n.srv.joined⟩, .closed, []) := rfl
            have hs' := h.srv.handle hh
            simp only [serverAfter, hh, Option.map_some, Option.getD_some]
            have hme := hknown u id ms c rfl
            refine ⟨hs', ?_⟩
            intro j v hv
            simp only [ChatNet.set] at hv
            by_cases hj : j = proc
            · subst hj
              simp only [if_true, Option.some.injEq] at hv
              subst hv
              exact ⟨hin, trivial⟩
            · rw [if_neg hj] at hv
              refine (h.procs j v hv).mono ?_
              intro l hk nm id' ms c e
              have h3 := hk nm id' ms c e
              rw [getUser_some h.srv.keys] at h3
              refine (getUser_some hs'.keys).2 ?_
              simp only [List.mem_filter, h3, true_and, bne_iff_ne, ne_eq]
              rintro rfl
              rw [← getUser_some h.srv.keys, hme] at h3
              simp only [Option.some.injEq, Prod.mk.injEq] at h3
              exact hj h3.2.symm
        · have hign : loopStep chatComponent parse (fs proc) (withServer n.srv (.running ⟨proc, some (l, srv0), dom, ls⟩)) m =
              (.running ⟨proc, some (l, n.srv), dom, ls⟩, []) := by
            simp only [withServer, Option.map_some]
            refine step_ignored ?_ hclosed ?_
            · intro i hi
              exact hask ⟨i, by simp only [hl] at hi; exact hi⟩
            · rintro q rfl
              rcases hmm with ⟨c, hc⟩ | ⟨w, hw⟩
              · cases hc
              · cases hw
          simp only [hign, effects, List.foldl_nil, serverAfter, Option.map_some, Option.getD_some]
          exact quiet _ _ ⟨hin, hrest, rfl, l, n.srv, rfl, hrender, hknown⟩

theorem steps_inv {parse : String → Option ClientMessage} {fs : Nat → Bool} {n : ChatNet} (h : ChatSteps parse fs .init n) : NetInv fs n := by
  generalize hi : ChatNet.init = a at h
  induction h with
  | refl => subst hi; exact ⟨ServerInv.init, by intro k u hu; cases hu⟩
  | snoc _ hstep ih => exact step_inv ih hstep

/-- **C73.** In every state the application reaches - any number of connections, browsers sending anything at any time, messages forwarded late,
connections closing, processes killed - no component and not the coordinator has panicked: no loop is at an `unreachable!()` of the loop, no running
component has reached its own `unreachable!()` or found the coordinator dead (`comp = none`), and a loop has crashed only if its very first send
failed. -/
theorem C73_no_panic (parse : String → Option ClientMessage) (firstSend : Nat → Bool) (n : ChatNet) (h : ChatSteps parse firstSend .init n)
    (k : Nat) (u : UserProcs) (hu : n.users k = some u) :
    u.loop ≠ .unreachable ∧ (u.loop = .crashed → firstSend k = false) ∧ ∀ st, u.loop = .running st → st.comp ≠ none := by
  have hp := ((steps_inv h).procs k u hu).2
  refine ⟨?_, ?_, ?_⟩
  · intro e; rw [e] at hp; exact hp
  · intro e; rw [e] at hp; exact hp
  · intro st e
    rw [e] at hp
    obtain ⟨_, _, l, s0, hc, _⟩ := hp
    rw [hc]
    simp

end Puck.Chat
