import Verif.Props.Chat
/-!
# Which chat messages a user sees, and in which order (C89, C90)
-/
namespace Puck.Chat

/-- The chat message an input carries. -/
def inputMsg : LiveviewInput → Option ChatMessage
  | .receiveMessage m => some m
  | _ => none

/-- The chat message a mail carries. -/
def mailMsg : Mail LiveviewInput Nat → Option ChatMessage
  | .input i => inputMsg i
  | _ => none

/-- The messages on their way to a component: those its loop has not taken yet, then those its managing process has not forwarded yet. -/
def UserProcs.pending (u : UserProcs) : List ChatMessage := u.loopBox.filterMap mailMsg ++ u.inbox.filterMap inputMsg

/-- The component of a connection, while its loop runs. -/
def UserProcs.live (u : UserProcs) : Option Live :=
  match u.loop with
  | .running st => st.comp.map (·.1)
  | _ => none

/-- Sent by `id`. -/
def by' (id : Nat) (m : ChatMessage) : Bool := m.sender == id
/-- Sent by somebody else. -/
def notBy (id : Nat) (m : ChatMessage) : Bool := m.sender != id

theorem deliver_users (n : ChatNet) (d : Delivery) (j : Nat) : (n.deliver d).srv = n.srv ∧ (n.deliver d).users j =
    (n.users j).map fun u => { u with inbox := u.inbox ++ if d.to = j then [d.msg] else [] } := by
  unfold ChatNet.deliver
  cases hu : n.users d.to with
  | none =>
    refine ⟨rfl, ?_⟩
    by_cases h : d.to = j
    · subst h; simp [hu]
    · cases n.users j <;> simp [h]
  | some u =>
    refine ⟨rfl, ?_⟩
    simp only [ChatNet.set]
    by_cases h : d.to = j
    · subst h; simp [hu]
    · rw [if_neg (fun e => h e.symm)]
      cases n.users j <;> simp [h]

theorem deliverAll_users (ds : List Delivery) (n : ChatNet) (j : Nat) : (ds.foldl ChatNet.deliver n).srv = n.srv ∧
    (ds.foldl ChatNet.deliver n).users j =
      (n.users j).map fun u => { u with inbox := u.inbox ++ (ds.filter fun d => d.to == j).map (·.msg) } := by
  induction ds generalizing n with
  | nil => simp
  | cons d ds ih =>
    simp only [List.foldl_cons]
    refine ⟨(ih _).1.trans (deliver_users n d j).1, ?_⟩
    rw [(ih _).2, (deliver_users n d j).2]
    cases n.users j with
    | none => rfl
    | some u =>
      simp only [Option.map_some, Option.some.injEq, UserProcs.mk.injEq, and_self, and_true]
      by_cases h : d.to = j
      · simp [h]
      · simp [h]

theorem filter_unique {α β : Type} [DecidableEq β] (f : α → β) {l : List α} (h : (l.map f).Nodup) {x : α} (hx : x ∈ l) :
    (l.filter fun y => f y == f x) = [x] := by
  induction l with
  | nil => simp at hx
  | cons a l ih =>
    simp only [List.map_cons, List.nodup_cons] at h
    simp only [List.mem_cons] at hx
    rcases hx with rfl | hx
    · simp only [List.filter_cons, beq_self_eq_true, if_true, List.cons.injEq, true_and, List.filter_eq_nil_iff, beq_iff_eq]
      intro y hy e
      exact h.1 (List.mem_map.2 ⟨y, hy, e⟩)
    · have : f a ≠ f x := fun e => h.1 (List.mem_map.2 ⟨x, hx, e.symm⟩)
      simp only [List.filter_cons, beq_iff_eq, this, if_false]
      exact ih h.2 hx

/-- What holds of one connection. -/
def Caught (srv : ChatServer) (k : Nat) (u : UserProcs) : Prop :=
  (∀ v, u.live = some (.uninitialized v) → k ∉ srv.joined.map (·.1) ∧ u.pending = []) ∧
  (∀ d, u.loop = .waiting d → k ∉ srv.joined.map (·.1) ∧ u.pending = []) ∧
  (∀ nm id ms c, u.live = some (.initialized nm id ms c) → (∀ m ∈ u.pending, m.sender ≠ id) ∧ ∃ j, (k, j) ∈ srv.joined ∧ j ≤ srv.log.length ∧
    ms.filter (by' id) = (srv.log.drop j).filter (by' id) ∧
    (ms ++ u.pending).filter (notBy id) = (srv.log.drop j).filter (notBy id))

structure OrderInv (firstSend : Nat → Bool) (n : ChatNet) : Prop where
  net : NetInv firstSend n
  procs : (n.srv.users.map (·.2.2)).Nodup
  joinedN : (n.srv.joined.map (·.1)).Nodup
  reg : ∀ e ∈ n.srv.users, e.2.2 ∈ n.srv.joined.map (·.1)
  conn : ∀ k ∈ n.srv.joined.map (·.1), n.users k ≠ none
  caught : ∀ k u, n.users k = some u → Caught n.srv k u

theorem asks_cases {parse : String → Option ClientMessage} {l : Live} {m : Mail LiveviewInput Nat} {i : LiveviewInput}
    (hm : (∃ c, m = .input (.receiveMessage c)) ∨ ∃ w, m = .ws w) (h : Asks parse l.listeners m i) :
    (∃ c, m = .input (.receiveMessage c) ∧ i = .receiveMessage c) ∨
    ((∃ w, m = .ws w) ∧
      ((∃ u, l = .uninitialized u ∧ ((∃ v, i = .browserRequest (.updateInitializeUsernameTextField v)) ∨ i = .browserRequest .initializeUser)) ∨
       (∃ u id ms c, l = .initialized u id ms c ∧
          ((∃ v, i = .browserRequest (.updateMessageContentsTextField v)) ∨ i = .browserRequest .sendTextMessage)))) := by
  rcases h with rfl | ⟨c, t, rfl, _, h⟩
  · rcases hm with ⟨c, hc⟩ | ⟨w, hw⟩
    · cases hc; exact Or.inl ⟨c, rfl, rfl⟩
    · cases hw
  · refine Or.inr ⟨⟨_, rfl⟩, ?_⟩
    cases l with
    | uninitialized u =>
      refine Or.inl ⟨u, rfl, ?_⟩
      simp only [Live.listeners] at h
      by_cases h1 : t.listener = "set_username"
      · simp only [h1, if_true, Option.some.injEq, reduceCtorEq, Listener.input.injEq, false_or] at h
        obtain ⟨f, v, rfl, _, rfl⟩ := h
        exact Or.inl ⟨v, rfl⟩
      · by_cases h2 : t.listener = "initialize_username"
        · rw [if_neg h1, if_pos h2] at h
          simp only [Option.some.injEq, Listener.click.injEq, reduceCtorEq, false_and, exists_false, or_false] at h
          exact Or.inr h.symm
        · simp [h1, h2] at h
    | initialized u id ms cc =>
      refine Or.inr ⟨u, id, ms, cc, rfl, ?_⟩
      simp only [Live.listeners] at h
      by_cases h1 : t.listener = "update_message_contents"
      · simp only [h1, if_true, Option.some.injEq, reduceCtorEq, Listener.input.injEq, false_or] at h
        obtain ⟨f, v, rfl, _, rfl⟩ := h
        exact Or.inl ⟨v, rfl⟩
      · by_cases h2 : t.listener = "submit_message"
        · rw [if_neg h1, if_pos h2] at h
          simp only [Option.some.injEq, Listener.click.injEq, reduceCtorEq, false_and, exists_false, or_false] at h
          exact Or.inr h.symm
        · simp [h1, h2] at h

/-- Only one connection changes, and the coordinator does not. -/
theorem OrderInv.set {fs : Nat → Bool} {n : ChatNet} (h : OrderInv fs n) {k : Nat} {u : UserProcs} (hn : NetInv fs (n.set k u))
    (hc : Caught n.srv k u) : OrderInv fs (n.set k u) := by
  refine ⟨hn, h.procs, h.joinedN, h.reg, ?_, ?_⟩
  · intro j hj
    simp only [ChatNet.set]
    split
    · simp
    · exact h.conn j hj
  · intro j v hv
    simp only [ChatNet.set] at hv
    split at hv
    · rename_i e; subst e; cases hv; exact hc
    · exact h.caught j v hv

/-- A connection with the same component and the same messages on their way. -/
theorem Caught.same {srv : ChatServer} {k : Nat} {u u' : UserProcs} (h : Caught srv k u) (hl : u'.loop = u.loop) (hp : u'.pending = u.pending) :
    Caught srv k u' := by
  have : u'.live = u.live := by unfold UserProcs.live; rw [hl]
  unfold Caught at h ⊢
  rw [this, hl, hp]
  exact h

theorem Caught.over {srv : ChatServer} {k : Nat} {u : UserProcs} (h : u.loop = .stopped ∨ u.loop = .crashed) : Caught srv k u := by
  have : u.live = none := by unfold UserProcs.live; rcases h with h | h <;> rw [h]
  refine ⟨?_, ?_, ?_⟩
  · intro v e; rw [this] at e; cases e
  · intro d e; rcases h with h | h <;> rw [h] at e <;> cases e
  · intro nm id ms c e; rw [this] at e; cases e

theorem mem_pending_drop (m : Mail LiveviewInput Nat) (rest : List (Mail LiveviewInput Nat)) (inbox : List LiveviewInput) (lp lp') (s s') :
    (⟨inbox, lp, m :: rest, s⟩ : UserProcs).pending = (mailMsg m).toList ++ (⟨inbox, lp', rest, s'⟩ : UserProcs).pending := by
  unfold UserProcs.pending
  cases h : mailMsg m <;> simp [h]

theorem order_step {parse : String → Option ClientMessage} {fs : Nat → Bool} {n n' : ChatNet} (h : OrderInv fs n) (hstep : ChatStep parse fs n n') :
    OrderInv fs n' := by
  have hn' := step_inv h.net hstep
  cases hstep with
  | connect k hk =>
    have hk' : k ∉ n.srv.joined.map (·.1) := fun hm => h.conn k hm hk
    refine h.set hn' ⟨?_, ?_, ?_⟩
    · intro v e; cases e
    · intro d _; exact ⟨hk', rfl⟩
    · intro nm id ms c e; cases e
  | forward k u i rest hu hi =>
    refine h.set hn' ((h.caught k u hu).same rfl ?_)
    simp only [UserProcs.pending, hi, List.filterMap_append, List.filterMap_cons, List.filterMap_nil, mailMsg]
    cases inputMsg i <;> simp
  | read k u w hu =>
    refine h.set hn' ((h.caught k u hu).same rfl ?_)
    simp [UserProcs.pending, mailMsg]
  | die k u hu => exact h.set hn' (.over (Or.inl rfl))
  | shuffle users hp =>
    refine ⟨hn', (hp.map _).nodup_iff.1 h.procs, h.joinedN, fun e he => h.reg e ((hp.mem_iff).2 he), h.conn, ?_⟩
    exact fun k u hu => h.caught k u hu
  | receive k u m rest hu hm =>
    unfold ChatNet.receive at hn' ⊢
    have hp := h.net.procs k u hu
    have hc := h.caught k u hu
    obtain ⟨inbox, loop, loopBox, sent⟩ := u
    simp only at hm
    subst hm
    obtain ⟨hin, h2⟩ := hp
    simp only at hin h2
    cases loop with
    | unreachable => exact absurd h2 id
    | stopped =>
      have hs : loopStep chatComponent parse (fs k) (withServer n.srv .stopped) m = (.stopped, []) := by cases m <;> rfl
      simp only [hs, effects, List.foldl_nil, serverAfter] at hn' ⊢
      exact OrderInv.set (n := ⟨n.srv, n.users⟩) h hn' (.over (Or.inl rfl))
    | crashed =>
      have hs : loopStep chatComponent parse (fs k) (withServer n.srv .crashed) m = (.crashed, []) := by cases m <;> rfl
      simp only [hs, effects, List.foldl_nil, serverAfter] at hn' ⊢
      exact OrderInv.set (n := ⟨n.srv, n.users⟩) h hn' (.over (Or.inr rfl))
    | waiting d =>
      obtain ⟨r, h3, h4⟩ := h2
      simp only [List.cons.injEq] at h3
      obtain ⟨rfl, rfl⟩ := h3
      have hw := hc.2.1 d rfl
      rw [mem_pending_drop _ _ _ _ (.waiting d) _ sent] at hw
      simp only [mailMsg, Option.toList_none, List.nil_append] at hw
      obtain ⟨ops, ho⟩ := (C59_unkeyed_partial _ _ (render_unkeyed (.uninitialized "")) (render_unkeyed (.uninitialized ""))).2
      simp only [withServer, loopStep, chatComponent, List.map_nil, List.nil_append] at hn' ⊢
      rw [ho] at hn' ⊢
      simp only at hn' ⊢
      cases hb : fs k with
      | true =>
        rw [hb] at hn'
        simp only [if_true, effects, List.foldl_nil, serverAfter, Option.map_some, Option.getD_some] at hn' ⊢
        refine OrderInv.set (n := ⟨n.srv, n.users⟩) h hn' ⟨?_, ?_, ?_⟩
        · intro v _; exact hw
        · intro d e; cases e
        · intro nm id ms c e; cases e
      | false =>
        rw [hb] at hn'
        simp only [Bool.false_eq_true, if_false, effects, List.foldl_nil, serverAfter] at hn' ⊢
        exact OrderInv.set (n := ⟨n.srv, n.users⟩) h hn' (.over (Or.inr rfl))
    | running st =>
      obtain ⟨hbox, hproc, l, srv0, hcomp, hrender, hknown⟩ := h2
      obtain ⟨proc, comp, dom, ls⟩ := st
      simp only at hproc hcomp hrender
      subst hproc hcomp
      have hmm := hbox m (by simp)
      have hl : ls = l.listeners := (congrArg (·.2) hrender).symm
      by_cases hask : ∃ i, Asks parse l.listeners m i
      · obtain ⟨i, hi⟩ := hask
        obtain ⟨l', srv', ds, hup, hs', hk', hothers, hds⟩ := update_ok h.net.srv hknown (asks_expected hmm hi)
        obtain ⟨ops, hstep⟩ := update_step (b := fs proc) (srv0 := srv0) hrender hi hup
        rw [hstep] at hn' ⊢
        simp only [serverAfter, Option.map_some, Option.getD_some] at hn' ⊢
        rw [effects_map _ _ rfl] at hn' ⊢
        -- the coordinator is not involved
        have quiet : srv' = n.srv → ds = [] →
            Caught n.srv proc ⟨inbox, .running ⟨proc, some (l', srv'), l'.render.1, l'.render.2⟩, rest, sent ++ sends (ds.map .effect ++ [.send (serializeOps ops)])⟩ →
            OrderInv fs (ds.foldl ChatNet.deliver ((⟨srv', n.users⟩ : ChatNet).set proc
              ⟨inbox, .running ⟨proc, some (l', srv'), l'.render.1, l'.render.2⟩, rest, sent ++ sends (ds.map .effect ++ [.send (serializeOps ops)])⟩)) := by
          rintro rfl rfl hcc
          exact OrderInv.set (n := ⟨n.srv, n.users⟩) h hn' hcc
        rcases asks_cases hmm hi with ⟨c, rfl, rfl⟩ | ⟨⟨w, rfl⟩, ⟨u, rfl, ⟨v, rfl⟩ | rfl⟩ | ⟨u, id, ms, c, rfl, ⟨v, rfl⟩ | rfl⟩⟩
        · cases l with
          | uninitialized u =>
            have := (hc.1 u rfl).2
            rw [mem_pending_drop _ _ _ _ .stopped _ sent] at this
            simp [mailMsg, inputMsg] at this
          | initialized u id ms cc =>
            simp only [Live.update, Live.updateLocal, Option.map_some, Option.some.injEq, Prod.mk.injEq] at hup
            obtain ⟨rfl, rfl, rfl⟩ := hup
            refine quiet rfl rfl ⟨?_, ?_, ?_⟩
            · intro v e; cases e
            · intro d e; cases e
            · intro nm id' ms' c' e
              cases e
              obtain ⟨g1, j, g2, g3, g4, g5⟩ := hc.2.2 u id ms cc rfl
              rw [mem_pending_drop _ _ _ _ .stopped _ sent] at g1 g5
              simp only [mailMsg, inputMsg, Option.toList_some, List.singleton_append, List.mem_cons, forall_eq_or_imp] at g1 g5
              refine ⟨g1.2, j, g2, g3, ?_, ?_⟩
              · rw [← g4]
                simp [by', g1.1]
              · rw [← g5]; simp [UserProcs.pending]
        · simp only [Live.update, Live.updateLocal, Option.map_some, Option.some.injEq, Prod.mk.injEq] at hup
          obtain ⟨rfl, rfl, rfl⟩ := hup
          refine quiet rfl rfl ⟨?_, ?_, ?_⟩
          · intro v' _
            have := hc.1 u rfl
            rw [mem_pending_drop _ _ _ _ .stopped _ sent] at this
            exact this
          · intro d e; cases e
          · intro nm id ms c e; cases e
        · -- registration
          have hfresh := hc.1 u rfl
          rw [mem_pending_drop _ _ _ _ .stopped _ sent] at hfresh
          simp only [mailMsg, Option.toList_none, List.nil_append] at hfresh
          obtain ⟨evs, hid⟩ := h.net.srv.ids
          have hnew : n.srv.idGen.getId.1 ∉ n.srv.users.map (·.1) := fun hm => hid.get.2 (h.net.srv.use _ hm)
          simp only [Live.update, ChatServer.handle, insertUser_new hnew, Option.some.injEq, Prod.mk.injEq] at hup
          obtain ⟨rfl, rfl, rfl⟩ := hup
          simp only [List.foldl_nil] at hn' ⊢
          refine ⟨hn', ?_, ?_, ?_, ?_, ?_⟩
          · simp only [ChatNet.set, List.map_append, List.map_cons, List.map_nil]
            rw [List.nodup_append]
            refine ⟨h.procs, by simp, ?_⟩
            rintro a ha b hb rfl
            simp only [List.mem_singleton] at hb
            subst hb
            obtain ⟨e, he, rfl⟩ := List.mem_map.1 ha
            exact hfresh.1 (h.reg e he)
          · simp only [ChatNet.set, List.map_append, List.map_cons, List.map_nil]
            rw [List.nodup_append]
            refine ⟨h.joinedN, by simp, ?_⟩
            rintro a ha b hb rfl
            simp only [List.mem_singleton] at hb
            subst hb
            exact hfresh.1 ha
          · intro e he
            simp only [ChatNet.set, List.mem_append, List.mem_singleton] at he
            simp only [ChatNet.set, List.map_append, List.map_cons, List.map_nil, List.mem_append, List.mem_singleton]
            rcases he with he | rfl
            · exact Or.inl (h.reg e he)
            · exact Or.inr rfl
          · intro j hj
            simp only [ChatNet.set, List.map_append, List.map_cons, List.map_nil, List.mem_append, List.mem_singleton] at hj ⊢
            split
            · simp
            · rename_i hne
              exact h.conn j (hj.resolve_right hne)
          · intro j v hv
            simp only [ChatNet.set] at hv ⊢
            by_cases hj : j = proc
            · subst hj
              simp only [if_true, Option.some.injEq] at hv
              subst hv
              refine ⟨?_, ?_, ?_⟩
              · intro v e; cases e
              · intro d e; cases e
              · intro nm id ms c e
                cases e
                have hp0 : ∀ lp s, (⟨inbox, lp, rest, s⟩ : UserProcs).pending = [] := fun _ _ => hfresh.2
                refine ⟨by simp [hp0], n.srv.log.length, by simp, Nat.le_refl _, by simp, by simp [hp0]⟩
            · rw [if_neg hj] at hv
              have hcj := h.caught j v hv
              have hnj : ∀ x, j ∉ x → j ∉ x ++ [proc] := by
                intro x hx hm
                simp only [List.mem_append, List.mem_singleton] at hm
                exact hm.elim hx hj
              refine ⟨?_, ?_, ?_⟩
              · intro v' e
                have := hcj.1 v' e
                refine ⟨?_, this.2⟩
                simp only [List.map_append, List.map_cons, List.map_nil]
                exact hnj _ this.1
              · intro d e
                have := hcj.2.1 d e
                refine ⟨?_, this.2⟩
                simp only [List.map_append, List.map_cons, List.map_nil]
                exact hnj _ this.1
              · intro nm id ms c e
                obtain ⟨g1, q, g2, g3⟩ := hcj.2.2 nm id ms c e
                exact ⟨g1, q, List.mem_append_left _ g2, g3⟩
        · simp only [Live.update, Live.updateLocal, Option.map_some, Option.some.injEq, Prod.mk.injEq] at hup
          obtain ⟨rfl, rfl, rfl⟩ := hup
          refine quiet rfl rfl ⟨?_, ?_, ?_⟩
          · intro v e; cases e
          · intro d e; cases e
          · intro nm id' ms' c' e
            cases e
            have := hc.2.2 u id ms c rfl
            rw [mem_pending_drop _ _ _ _ .stopped _ sent] at this
            exact this
        · -- a message is sent
          have hg := hknown u id ms c rfl
          have hmem := (getUser_some h.net.srv.keys).1 hg
          simp only [Live.update, ChatServer.handle, hg, Live.updateLocal, Option.map_some, Option.some.injEq, Prod.mk.injEq] at hup
          obtain ⟨rfl, rfl, rfl⟩ := hup
          refine ⟨hn', ?_, ?_, ?_, ?_, ?_⟩
          · rw [(deliverAll_users _ _ 0).1]; exact h.procs
          · rw [(deliverAll_users _ _ 0).1]; exact h.joinedN
          · rw [(deliverAll_users _ _ 0).1]; exact h.reg
          · intro j hj
            rw [(deliverAll_users _ _ j).1] at hj
            rw [(deliverAll_users _ _ j).2]
            simp only [ChatNet.set, ne_eq, Option.map_eq_none_iff]
            split
            · simp
            · exact h.conn j hj
          · intro j v hv
            rw [(deliverAll_users _ _ j).2] at hv
            rw [(deliverAll_users _ _ j).1]
            simp only [ChatNet.set] at hv ⊢
            -- what the coordinator sends to j
            have toJ : ∀ P : List (Nat × String × Nat) → Prop, P (n.srv.users.filter fun e => e.2.2 == j && e.1 != id) →
                ∃ es, P es ∧ ((List.map (fun e => (⟨e.2.2, .receiveMessage ⟨id, u, c⟩⟩ : Delivery)) (n.srv.users.filter fun e => e.1 != id)).filter
                  fun d => d.to == j).map (·.msg) = es.map fun _ => .receiveMessage ⟨id, u, c⟩ := by
              intro P hP
              refine ⟨_, hP, ?_⟩
              rw [List.filter_map, List.map_map, List.filter_filter]
              rfl
            by_cases hj : j = proc
            · subst hj
              obtain ⟨es, hes, hto⟩ := toJ (fun es => es = []) (by
                apply List.filter_eq_nil_iff.2
                intro e he hcond
                simp only [Bool.and_eq_true, beq_iff_eq, bne_iff_ne, ne_eq] at hcond
                have h1 := filter_unique (fun e : Nat × String × Nat => e.2.2) h.procs hmem
                have h2 : e ∈ n.srv.users.filter fun y => y.2.2 == ((id, u, j) : Nat × String × Nat).2.2 := by
                  simp [he, hcond.1]
                rw [h1] at h2
                simp only [List.mem_singleton] at h2
                exact hcond.2 (by rw [h2]))
              subst hes
              rw [hto] at hv
              simp only [if_true, Option.map_some, Option.some.injEq, List.map_nil, List.append_nil] at hv
              subst hv
              refine ⟨?_, ?_, ?_⟩
              · intro v e; cases e
              · intro d e; cases e
              · intro nm id' ms' c' e
                cases e
                obtain ⟨g1, q, g2, g3, g4, g5⟩ := hc.2.2 u id ms c rfl
                rw [mem_pending_drop _ _ _ _ .stopped _ sent] at g1 g5
                simp only [mailMsg, Option.toList_none, List.nil_append] at g1 g5
                refine ⟨g1, q, g2, by simp; omega, ?_, ?_⟩
                · rw [List.drop_append_of_le_length g3]
                  simp [List.filter_append, g4, by']
                · rw [List.drop_append_of_le_length g3]
                  simp only [UserProcs.pending, List.filter_append] at g5 ⊢
                  simp [g5, notBy]
            · rw [if_neg hj] at hv
              cases hv0 : n.users j with
              | none => rw [hv0] at hv; cases hv
              | some v0 =>
                rw [hv0] at hv
                have hcj := h.caught j v0 hv0
                simp only [Option.map_some, Option.some.injEq] at hv
                have noentry : j ∉ n.srv.joined.map (·.1) → v = v0 := by
                  intro hno
                  obtain ⟨es, hes, hto⟩ := toJ (fun es => es = []) (by
                    apply List.filter_eq_nil_iff.2
                    intro e he hcond
                    simp only [Bool.and_eq_true, beq_iff_eq, bne_iff_ne, ne_eq] at hcond
                    exact hno (hcond.1 ▸ h.reg e he))
                  subst hes
                  rw [hto] at hv
                  rw [← hv]
                  simp
                have hlive : v.live = v0.live := by rw [← hv]; rfl
                have hloop : v.loop = v0.loop := by rw [← hv]
                refine ⟨?_, ?_, ?_⟩
                · intro v' e
                  rw [hlive] at e
                  have := hcj.1 v' e
                  rw [noentry this.1]
                  exact this
                · intro d e
                  rw [hloop] at e
                  have := hcj.2.1 d e
                  rw [noentry this.1]
                  exact this
                · intro nm id' ms' c' e
                  rw [hlive] at e
                  obtain ⟨g1, q, g2, g3, g4, g5⟩ := hcj.2.2 nm id' ms' c' e
                  -- j's own entry
                  have hkj : getUser id' n.srv.users = some (nm, j) := by
                    have hpj := (h.net.procs j v0 hv0).2
                    unfold UserProcs.live at e
                    cases hlp : v0.loop with
                    | running st =>
                      rw [hlp] at hpj e
                      obtain ⟨_, _, l, s0, hcomp, _, hkn⟩ := hpj
                      simp only [hcomp, Option.map_some, Option.some.injEq] at e
                      exact hkn nm id' ms' c' e
                    | _ => rw [hlp] at e; cases e
                  have hmj := (getUser_some h.net.srv.keys).1 hkj
                  have hne : id' ≠ id := by
                    rintro rfl
                    rw [hkj] at hg
                    simp only [Option.some.injEq, Prod.mk.injEq] at hg
                    exact hj hg.2
                  obtain ⟨es, hes, hto⟩ := toJ (fun es => es = [(id', nm, j)]) (by
                    have h1 := filter_unique (fun e : Nat × String × Nat => e.2.2) h.procs hmj
                    have h2 : (n.srv.users.filter fun e => e.2.2 == j && e.1 != id) =
                        (n.srv.users.filter fun e => e.2.2 == j).filter fun e => e.1 != id := by
                      rw [List.filter_filter]
                      congr 1; funext e; exact Bool.and_comm _ _
                    rw [h2]
                    simp only at h1
                    rw [h1]
                    simp [hne])
                  subst hes
                  rw [hto] at hv
                  have hpend : v.pending = v0.pending ++ [⟨id, u, c⟩] := by
                    rw [← hv]
                    simp [UserProcs.pending, inputMsg]
                  refine ⟨?_, q, g2, by simp; omega, ?_, ?_⟩
                  · intro m hm
                    rw [hpend] at hm
                    simp only [List.mem_append, List.mem_singleton] at hm
                    rcases hm with hm | rfl
                    · exact g1 m hm
                    · exact fun e => hne e.symm
                  · rw [List.drop_append_of_le_length g3]
                    simp [List.filter_append, g4, by', hne.symm]
                  · rw [List.drop_append_of_le_length g3, hpend]
                    simp only [List.filter_append] at g5 ⊢
                    rw [← List.append_assoc, g5]
      · by_cases hclosed : m = .ws (.error .connectionClosed)
        · subst hclosed
          have hs : loopStep chatComponent parse (fs proc) (withServer n.srv (.running ⟨proc, some (l, srv0), dom, ls⟩))
              (.ws (.error .connectionClosed)) = (.stopped, [.dropped]) := rfl
          simp only [hs, effects, List.foldl_nil] at hn' ⊢
          cases l with
          | uninitialized u =>
            simp only [serverAfter] at hn' ⊢
            exact OrderInv.set (n := ⟨n.srv, n.users⟩) h hn' (.over (Or.inl rfl))
          | initialized u id ms c =>
            simp only [serverAfter, ChatServer.handle, Option.map_some, Option.getD_some] at hn' ⊢
            refine ⟨hn', ?_, h.joinedN, ?_, ?_, ?_⟩
            · simp only [ChatNet.set]
              exact h.procs.sublist (List.filter_sublist.map _)
            · intro e he
              simp only [ChatNet.set, List.mem_filter] at he
              exact h.reg e he.1
            · intro j hj
              simp only [ChatNet.set] at hj ⊢
              split
              · simp
              · exact h.conn j hj
            · intro j v hv
              simp only [ChatNet.set] at hv ⊢
              by_cases hj : j = proc
              · subst hj
                simp only [if_true, Option.some.injEq] at hv
                subst hv
                exact .over (Or.inl rfl)
              · rw [if_neg hj] at hv
                exact h.caught j v hv
        · have hign : loopStep chatComponent parse (fs proc) (withServer n.srv (.running ⟨proc, some (l, srv0), dom, ls⟩)) m =
              (.running ⟨proc, some (l, n.srv), dom, ls⟩, []) := by
            simp only [withServer, Option.map_some]
            refine step_ignored ?_ hclosed ?_
            · intro i hi
              exact hask ⟨i, by simp only [hl] at hi; exact hi⟩
            · rintro q rfl
              rcases hmm with ⟨c, hc⟩ | ⟨w, hw⟩
              · cases hc
              · cases hw
          simp only [hign, effects, List.foldl_nil, serverAfter, Option.map_some, Option.getD_some] at hn' ⊢
          refine OrderInv.set (n := ⟨n.srv, n.users⟩) h hn' ?_
          have hpend : ∀ lp lp' s s', (⟨inbox, lp, m :: rest, s⟩ : UserProcs).pending = (⟨inbox, lp', rest, s'⟩ : UserProcs).pending := by
            intro lp lp' s s'
            rw [mem_pending_drop _ _ _ _ lp' _ sent]
            rcases hmm with ⟨c, rfl⟩ | ⟨w, rfl⟩
            · exact absurd ⟨_, Or.inl rfl⟩ hask
            · rfl
          unfold Caught at hc ⊢
          rw [hpend _ (.running ⟨proc, some (l, n.srv), dom, ls⟩) _ (sent ++ sends [])] at hc
          refine ⟨hc.1, ?_, hc.2.2⟩
          intro d e; cases e

theorem order_steps {parse : String → Option ClientMessage} {fs : Nat → Bool} {n : ChatNet} (h : ChatSteps parse fs .init n) : OrderInv fs n := by
  generalize hi : ChatNet.init = a at h
  induction h with
  | refl =>
    subst hi
    exact ⟨⟨ServerInv.init, by intro k u hu; cases hu⟩, by simp [ChatNet.init, ChatServer.init], by simp [ChatNet.init, ChatServer.init],
      by simp [ChatNet.init, ChatServer.init], by simp [ChatNet.init, ChatServer.init], by intro k u hu; cases hu⟩
  | snoc _ hstep ih => exact order_step ih hstep

theorem perm_own_others (id : Nat) (l : List ChatMessage) : (l.filter (by' id) ++ l.filter (notBy id)).Perm l := by
  have : notBy id = fun m => !by' id m := by funext m; simp [notBy, by', bne]
  rw [this]
  exact List.filter_append_perm _ _

theorem pair_unique {α β : Type} {l : List (α × β)} (h : (l.map (·.1)).Nodup) {a : α} {b b' : β} (h1 : (a, b) ∈ l) (h2 : (a, b') ∈ l) : b' = b := by
  induction l with
  | nil => cases h1
  | cons x l ih =>
    simp only [List.map_cons, List.nodup_cons] at h
    rcases List.mem_cons.1 h1 with rfl | h3 <;> rcases List.mem_cons.1 h2 with h2 | h2
    · cases h2; rfl
    · exact absurd (List.mem_map.2 ⟨_, h2, rfl⟩) h.1
    · cases h2; exact absurd (List.mem_map_of_mem (f := (·.1)) h3) h.1
    · exact ih h.2 h3 h2

/-- **C89 (what holds).** In every reachable state, for every registered user whose component runs, let `L` be the messages the coordinator has accepted since the
user registered (once only), in its order.  The user's page shows the user's own messages in the order of `L`, all of them; the other users' messages it
shows, followed by those on their way to it, are those of `L` in the order of `L`; so no message is lost, invented or shown twice.
What is missing from the property: own and other messages may be interleaved differently on different pages (`C89_order_refuted`). -/
theorem C89_order_partial (parse : String → Option ClientMessage) (firstSend : Nat → Bool) (n : ChatNet) (h : ChatSteps parse firstSend .init n)
    (k : Nat) (u : UserProcs) (hu : n.users k = some u) (name : String) (id : Nat) (shown : List ChatMessage) (composing : String)
    (hl : u.live = some (.initialized name id shown composing)) :
    ∃ before, (k, before) ∈ n.srv.joined ∧ (∀ b', (k, b') ∈ n.srv.joined → b' = before) ∧ before ≤ n.srv.log.length ∧
      shown.filter (fun m => m.sender == id) = (n.srv.log.drop before).filter (fun m => m.sender == id) ∧
      (shown ++ u.pending).filter (fun m => m.sender != id) = (n.srv.log.drop before).filter (fun m => m.sender != id) ∧
      (∀ m ∈ u.pending, m.sender ≠ id) ∧ (shown ++ u.pending).Perm (n.srv.log.drop before) := by
  have hinv := order_steps h
  obtain ⟨g1, j, g2, g3, g4, g5⟩ := (hinv.caught k u hu).2.2 name id shown composing hl
  refine ⟨j, g2, fun b' hb => pair_unique hinv.joinedN g2 hb, g3, g4, g5, g1, ?_⟩
  have e : (shown ++ u.pending).filter (by' id) = shown.filter (by' id) := by
    rw [List.filter_append]
    have : u.pending.filter (by' id) = [] := by
      apply List.filter_eq_nil_iff.2
      intro m hm; simp [by', g1 m hm]
    rw [this, List.append_nil]
  have p1 := perm_own_others id (shown ++ u.pending)
  have p2 := perm_own_others id (n.srv.log.drop j)
  rw [e, g4, g5] at p1
  exact p1.symm.trans p2

/-! ## Runs -/

/-- Connection `k` runs component `l`, with these messages at its managing process and these in its mailbox. -/
def At (n : ChatNet) (k : Nat) (l : Live) (inbox : List LiveviewInput) (box : List (Mail LiveviewInput Nat)) : Prop :=
  ∃ srv0 sent, n.users k = some ⟨inbox, .running ⟨k, some (l, srv0), l.render.1, l.render.2⟩, box, sent⟩

theorem ChatSteps.trans {parse : String → Option ClientMessage} {fs : Nat → Bool} {a b c : ChatNet} (h : ChatSteps parse fs a b)
    (h' : ChatSteps parse fs b c) : ChatSteps parse fs a c := by
  induction h' with
  | refl => exact h
  | snoc _ s ih => exact .snoc ih s

section
variable {parse : String → Option ClientMessage} {fs : Nat → Bool}

theorem run_start {n : ChatNet} {k : Nat} (hk : n.users k = none) (hf : fs k = true) :
    ∃ n', ChatSteps parse fs n n' ∧ n'.srv = n.srv ∧ At n' k (.uninitialized "") [] [] ∧ ∀ j, j ≠ k → n'.users j = n.users j := by
  have s1 := ChatStep.connect (parse := parse) (firstSend := fs) n k hk
  have s2 := ChatStep.receive (parse := parse) (firstSend := fs) (n.set k ⟨[], .waiting n.srv, [.whoAmI k], []⟩) k
    ⟨[], .waiting n.srv, [.whoAmI k], []⟩ (.whoAmI k) [] (by simp [ChatNet.set]) rfl
  obtain ⟨ops, ho⟩ := (C59_unkeyed_partial _ _ (render_unkeyed (.uninitialized "")) (render_unkeyed (.uninitialized ""))).2
  unfold ChatNet.receive at s2
  simp only [withServer, loopStep, chatComponent, List.map_nil, List.nil_append, hf] at s2
  rw [ho] at s2
  simp only [if_true, effects, List.foldl_nil, serverAfter, Option.map_some, Option.getD_some] at s2
  refine ⟨_, .snoc (.snoc (.refl _) s1) s2, rfl, ⟨n.srv, _, by simp [ChatNet.set]; rfl⟩, ?_⟩
  intro j hj
  simp [ChatNet.set, hj]

theorem run_forward {n : ChatNet} {k : Nat} {l : Live} {i : LiveviewInput} {ib : List LiveviewInput} {bx} (h : At n k l (i :: ib) bx) :
    ∃ n', ChatSteps parse fs n n' ∧ n'.srv = n.srv ∧ At n' k l ib (bx ++ [.input i]) ∧ ∀ j, j ≠ k → n'.users j = n.users j := by
  obtain ⟨s0, q0, h⟩ := h
  refine ⟨_, .snoc (.refl _) (.forward n k _ i ib h rfl), rfl, ⟨s0, q0, by simp [ChatNet.set]⟩, ?_⟩
  intro j hj
  simp [ChatNet.set, hj]

theorem run_read {n : ChatNet} {k : Nat} {l : Live} {ib : List LiveviewInput} {bx} (h : At n k l ib bx) (m : Except NextMessageError Message) :
    ∃ n', ChatSteps parse fs n n' ∧ n'.srv = n.srv ∧ At n' k l ib (bx ++ [.ws m]) ∧ ∀ j, j ≠ k → n'.users j = n.users j := by
  obtain ⟨s0, q0, h⟩ := h
  refine ⟨_, .snoc (.refl _) (.read n k _ m h), rfl, ⟨s0, q0, by simp [ChatNet.set]⟩, ?_⟩
  intro j hj
  simp [ChatNet.set, hj]

theorem run_receive {n : ChatNet} {k : Nat} {l l' : Live} {ib : List LiveviewInput} {m bx} (h : At n k l ib (m :: bx)) {i : LiveviewInput}
    (ha : Asks parse l.listeners m i) {srv' : ChatServer} {ds : List Delivery} (hup : l.update i k n.srv = some (l', srv', ds)) :
    ∃ n', ChatSteps parse fs n n' ∧ n'.srv = srv' ∧ At n' k l' (ib ++ (ds.filter fun d => d.to == k).map (·.msg)) bx ∧
      ∀ j, j ≠ k → ∀ lj ibj bxj, At n j lj ibj bxj → At n' j lj (ibj ++ (ds.filter fun d => d.to == j).map (·.msg)) bxj := by
  obtain ⟨s0, q0, h⟩ := h
  have s := ChatStep.receive (parse := parse) (firstSend := fs) n k _ m bx h rfl
  obtain ⟨ops, hstep⟩ := update_step (b := fs k) (srv0 := s0) (dom := l.render.1) (ls := l.render.2) rfl ha hup
  unfold ChatNet.receive at s
  rw [hstep] at s
  simp only [serverAfter, Option.map_some, Option.getD_some] at s
  rw [effects_map _ _ rfl] at s
  refine ⟨_, .snoc (.refl _) s, by rw [(deliverAll_users _ _ 0).1]; rfl, ⟨srv', q0 ++ sends (ds.map .effect ++ [.send (serializeOps ops)]), ?_⟩, ?_⟩
  · rw [(deliverAll_users _ _ k).2]
    simp [ChatNet.set]
  · rintro j hj lj ibj bxj ⟨sj, qj, hsj⟩
    refine ⟨sj, qj, ?_⟩
    rw [(deliverAll_users _ _ j).2]
    simp [ChatNet.set, hj, hsj]

/-- The browser clicks. -/
theorem run_click {n : ChatNet} {k : Nat} {l l' : Live} {ib : List LiveviewInput} (h : At n k l ib []) {t name : String} (ht : parse t = some ⟨name, none⟩)
    {i : LiveviewInput} (hi : l.listeners name = some (.click i)) {srv' : ChatServer} {ds : List Delivery} (hup : l.update i k n.srv = some (l', srv', ds)) :
    ∃ n', ChatSteps parse fs n n' ∧ n'.srv = srv' ∧ At n' k l' (ib ++ (ds.filter fun d => d.to == k).map (·.msg)) [] ∧
      ∀ j, j ≠ k → ∀ lj ibj bxj, At n j lj ibj bxj → At n' j lj (ibj ++ (ds.filter fun d => d.to == j).map (·.msg)) bxj := by
  obtain ⟨n1, r1, e1, a1, o1⟩ := run_read (parse := parse) (fs := fs) h (.ok (.text t))
  rw [← e1] at hup
  obtain ⟨n2, r2, e2, a2, o2⟩ := run_receive (parse := parse) (fs := fs) a1 (i := i) (Or.inr ⟨t, _, rfl, ht, Or.inl hi⟩) hup
  refine ⟨n2, r1.trans r2, e2, a2, ?_⟩
  rintro j hj lj ibj bxj ⟨sj, qj, hsj⟩
  exact o2 j hj lj ibj bxj ⟨sj, qj, by rw [o1 j hj]; exact hsj⟩

/-- A message arrives. -/
theorem run_take {n : ChatNet} {k : Nat} {u : String} {id : Nat} {ms : List ChatMessage} {c : String} {m : ChatMessage} {ib : List LiveviewInput}
    (h : At n k (.initialized u id ms c) (.receiveMessage m :: ib) []) :
    ∃ n', ChatSteps parse fs n n' ∧ n'.srv = n.srv ∧ At n' k (.initialized u id (ms ++ [m]) c) ib [] ∧
      ∀ j, j ≠ k → ∀ lj ibj bxj, At n j lj ibj bxj → At n' j lj ibj bxj := by
  obtain ⟨n1, r1, e1, a1, o1⟩ := run_forward (parse := parse) (fs := fs) h
  obtain ⟨n2, r2, e2, a2, o2⟩ := run_receive (parse := parse) (fs := fs) (ds := []) a1 (i := .receiveMessage m) (Or.inl rfl)
    (srv' := n1.srv) (l' := .initialized u id (ms ++ [m]) c) rfl
  refine ⟨n2, r1.trans r2, e2.trans e1, by simpa using a2, ?_⟩
  rintro j hj lj ibj bxj ⟨sj, qj, hsj⟩
  simpa using o2 j hj lj ibj bxj ⟨sj, qj, by rw [o1 j hj]; exact hsj⟩

end

/-- `m` stands somewhere above `m'`. -/
def Before (m m' : ChatMessage) (ms : List ChatMessage) : Prop := ∃ a b c, ms = a ++ m :: b ++ m' :: c

/-- Two users register; both send before either has taken the other's message. -/
theorem crossed_run (parse : String → Option ClientMessage) (firstSend : Nat → Bool) (h0 : firstSend 0 = true) (h1 : firstSend 1 = true)
    (register submit : String) (hr : parse register = some ⟨"initialize_username", none⟩) (hs : parse submit = some ⟨"submit_message", none⟩) :
    ∃ n, ChatSteps parse firstSend .init n ∧ At n 0 (.initialized "" 0 [⟨0, "", ""⟩, ⟨1, "", ""⟩] "") [] [] ∧
      At n 1 (.initialized "" 1 [⟨1, "", ""⟩, ⟨0, "", ""⟩] "") [] [] ∧ n.srv.log = [⟨0, "", ""⟩, ⟨1, "", ""⟩] ∧ n.srv.joined = [(0, 0), (1, 0)] := by
  obtain ⟨n1, r1, e1, a1, o1⟩ := run_start (parse := parse) (fs := firstSend) (n := .init) (k := 0) rfl h0
  obtain ⟨n2, r2, e2, b2, o2⟩ := run_start (parse := parse) (fs := firstSend) (n := n1) (k := 1) (o1 1 (by decide)) h1
  have a2 : At n2 0 (.uninitialized "") [] [] := by
    obtain ⟨s, q, h⟩ := a1; exact ⟨s, q, by rw [o2 0 (by decide)]; exact h⟩
  have es2 : n2.srv = .init := e2.trans e1
  obtain ⟨n3, r3, e3, a3, o3⟩ := run_click (fs := firstSend) a2 hr (i := .browserRequest .initializeUser) (by simp [Live.listeners])
    (l' := .initialized "" 0 [] "") (srv' := ⟨[(0, "", 0)], ⟨[0], [], 1⟩, [], [(0, 0)]⟩) (ds := []) (by rw [es2]; decide +kernel)
  have b3 := o3 1 (by decide) _ _ _ b2
  simp only [List.filter_nil, List.map_nil, List.append_nil] at a3 b3
  obtain ⟨n4, r4, e4, b4, o4⟩ := run_click (fs := firstSend) b3 hr (i := .browserRequest .initializeUser) (by simp [Live.listeners])
    (l' := .initialized "" 1 [] "") (srv' := ⟨[(0, "", 0), (1, "", 1)], ⟨[1, 0], [], 2⟩, [], [(0, 0), (1, 0)]⟩) (ds := []) (by rw [e3]; decide +kernel)
  have a4 := o4 0 (by decide) _ _ _ a3
  simp only [List.filter_nil, List.map_nil, List.append_nil] at a4 b4
  obtain ⟨n5, r5, e5, a5, o5⟩ := run_click (fs := firstSend) a4 hs (i := .browserRequest .sendTextMessage) (by simp [Live.listeners])
    (l' := .initialized "" 0 [⟨0, "", ""⟩] "") (srv' := ⟨[(0, "", 0), (1, "", 1)], ⟨[1, 0], [], 2⟩, [⟨0, "", ""⟩], [(0, 0), (1, 0)]⟩)
    (ds := [⟨1, .receiveMessage ⟨0, "", ""⟩⟩]) (by rw [e4]; decide +kernel)
  have b5 := o5 1 (by decide) _ _ _ b4
  have a5 : At n5 0 (.initialized "" 0 [⟨0, "", ""⟩] "") [] [] := a5
  have b5 : At n5 1 (.initialized "" 1 [] "") [.receiveMessage ⟨0, "", ""⟩] [] := b5
  obtain ⟨n6, r6, e6, b6, o6⟩ := run_click (fs := firstSend) b5 hs (i := .browserRequest .sendTextMessage) (by simp [Live.listeners])
    (l' := .initialized "" 1 [⟨1, "", ""⟩] "")
    (srv' := ⟨[(0, "", 0), (1, "", 1)], ⟨[1, 0], [], 2⟩, [⟨0, "", ""⟩, ⟨1, "", ""⟩], [(0, 0), (1, 0)]⟩)
    (ds := [⟨0, .receiveMessage ⟨1, "", ""⟩⟩]) (by rw [e5]; decide +kernel)
  have a6 := o6 0 (by decide) _ _ _ a5
  have a6 : At n6 0 (.initialized "" 0 [⟨0, "", ""⟩] "") [.receiveMessage ⟨1, "", ""⟩] [] := a6
  have b6 : At n6 1 (.initialized "" 1 [⟨1, "", ""⟩] "") [.receiveMessage ⟨0, "", ""⟩] [] := b6
  obtain ⟨n7, r7, e7, a7, o7⟩ := run_take (parse := parse) (fs := firstSend) a6
  have b7 := o7 1 (by decide) _ _ _ b6
  obtain ⟨n8, r8, e8, b8, o8⟩ := run_take (parse := parse) (fs := firstSend) b7
  have a8 := o8 0 (by decide) _ _ _ a7
  refine ⟨n8, ((((((r1.trans r2).trans r3).trans r4).trans r5).trans r6).trans r7).trans r8, a8, b8, ?_, ?_⟩ <;> rw [e8, e7, e6]

/-- **C89 is false.** If browsers can register and send at all, the application reaches a state in which two users, with nothing on its way to either, see
the same two messages in opposite orders: each of them sees its own message first. -/
theorem C89_order_refuted (parse : String → Option ClientMessage) (firstSend : Nat → Bool) (h0 : firstSend 0 = true) (h1 : firstSend 1 = true)
    (register submit : String) (hr : parse register = some ⟨"initialize_username", none⟩) (hs : parse submit = some ⟨"submit_message", none⟩) :
    ∃ n u0 u1 shown0 shown1 m m', ChatSteps parse firstSend .init n ∧ n.users 0 = some u0 ∧ n.users 1 = some u1 ∧
      u0.live = some (.initialized "" 0 shown0 "") ∧ u1.live = some (.initialized "" 1 shown1 "") ∧ u0.pending = [] ∧ u1.pending = [] ∧
      m ≠ m' ∧ Before m m' shown0 ∧ Before m' m shown1 := by
  obtain ⟨n, r, ⟨sa, qa, ha⟩, ⟨sb, qb, hb⟩, -⟩ := crossed_run parse firstSend h0 h1 register submit hr hs
  exact ⟨n, _, _, [⟨0, "", ""⟩, ⟨1, "", ""⟩], [⟨1, "", ""⟩, ⟨0, "", ""⟩], ⟨0, "", ""⟩, ⟨1, "", ""⟩, r, ha, hb, rfl, rfl, rfl, rfl, by decide,
    ⟨[], [], [], rfl⟩, ⟨[], [], [], rfl⟩⟩

/-- non-vacuity of C73, C89 and C90: the same run, after which user 1's reader reports the end of the connection -/
example (parse : String → Option ClientMessage) (register submit : String) (hr : parse register = some ⟨"initialize_username", none⟩)
    (hs : parse submit = some ⟨"submit_message", none⟩) :
    ∃ n u, ChatSteps parse (fun _ => true) .init n ∧ n.users 1 = some u ∧ u.live = some (.initialized "" 1 [⟨1, "", ""⟩, ⟨0, "", ""⟩] "") ∧
      u.loopBox = [.ws (.error .connectionClosed)] := by
  obtain ⟨n, r, -, hb, -⟩ := crossed_run parse (fun _ => true) rfl rfl register submit hr hs
  obtain ⟨n', r', -, ⟨s, q, hs⟩, -⟩ := run_read (parse := parse) (fs := fun _ => true) hb (.error .connectionClosed)
  exact ⟨n', _, r.trans r', hs, rfl, rfl⟩

/-! ## C90 -/

/-- **C90.** In every reachable state: when a registered component's loop learns that its connection is closed, it returns, exactly its own entry is removed from
the coordinator, its id is free again (and was not before), no message is sent and the other connections are untouched. -/
theorem C90_leave (parse : String → Option ClientMessage) (firstSend : Nat → Bool) (n n' : ChatNet) (h : ChatSteps parse firstSend .init n)
    (k : Nat) (u : UserProcs) (hu : n.users k = some u) (name : String) (id : Nat) (shown : List ChatMessage) (composing : String)
    (hl : u.live = some (.initialized name id shown composing)) (rest : List (Mail LiveviewInput Nat))
    (hb : u.loopBox = .ws (.error .connectionClosed) :: rest)
    (hn : n' = n.receive parse firstSend k u (.ws (.error .connectionClosed)) rest) :
    ChatStep parse firstSend n n' ∧
    n'.users k = some ⟨u.inbox, .stopped, rest, u.sent⟩ ∧ (∀ j, j ≠ k → n'.users j = n.users j) ∧
    (id, name, k) ∈ n.srv.users ∧ (∀ e, e ∈ n'.srv.users ↔ e ∈ n.srv.users ∧ e ≠ (id, name, k)) ∧
    id ∈ n.srv.idGen.inUse ∧ (∀ i, i ∈ n'.srv.idGen.inUse ↔ i ∈ n.srv.idGen.inUse ∧ i ≠ id) ∧ n'.srv.idGen.getId.1 = id ∧
    n'.srv.log = n.srv.log := by
  have hinv := order_steps h
  subst hn
  refine ⟨.receive n k u _ rest hu hb, ?_⟩
  unfold ChatNet.receive
  have hpj := (hinv.net.procs k u hu).2
  obtain ⟨inbox, loop, loopBox, sent⟩ := u
  simp only at hb hpj
  unfold UserProcs.live at hl
  cases loop with
  | running st =>
    obtain ⟨-, hproc, l, s0, hcomp, -, hkn⟩ := hpj
    obtain ⟨proc, comp, dom, ls⟩ := st
    simp only at hproc hcomp
    subst hproc hcomp
    simp only [Option.map_some, Option.some.injEq] at hl
    subst hl
    have hk := hkn name id shown composing rfl
    have hm := (getUser_some hinv.net.srv.keys).1 hk
    have huse : id ∈ n.srv.idGen.inUse := hinv.net.srv.use id (List.mem_map.2 ⟨_, hm, rfl⟩)
    have hs : loopStep chatComponent parse (firstSend proc) (withServer n.srv (.running ⟨proc, some (.initialized name id shown composing, s0), dom, ls⟩))
        (.ws (.error .connectionClosed)) = (.stopped, [.dropped]) := rfl
    simp only [hs, effects, List.foldl_nil, serverAfter, ChatServer.handle, Option.map_some, Option.getD_some, ChatNet.set, sends, List.append_nil, if_true, true_and]
    refine ⟨fun j hj => by simp [hj], hm, ?_, huse, ?_, ?_⟩
    · intro e
      simp only [List.mem_filter, bne_iff_ne, ne_eq]
      refine ⟨fun ⟨h1, h2⟩ => ⟨h1, fun e => h2 (by rw [e])⟩, fun ⟨h1, h2⟩ => ⟨h1, fun e1 => h2 ?_⟩⟩
      obtain ⟨a, b, c⟩ := e
      simp only at e1
      subst e1
      have := (getUser_some hinv.net.srv.keys).2 h1
      rw [hk] at this
      cases this
      rfl
    · intro i
      simp [UserIdCreator.releaseId, huse]
    · simp [UserIdCreator.releaseId, huse, UserIdCreator.getId]
  | _ => cases hl

end Puck.Chat
