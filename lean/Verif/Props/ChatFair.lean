import Verif.Lemmas.ChatKept
import Mathlib.Data.Nat.Pairing
/-!
# Progress of the chat under fairness (C105)
-/
namespace Puck.Chat

variable {parse : String → Option ClientMessage} {fs : Nat → Bool}

theorem handle_grows {s s' : ChatServer} {q : CoordinatorInput} {r : LiveviewInput} {ds : List Delivery} (h : s.handle q = some (s', r, ds)) :
    s.log <+: s'.log ∧ s.joined <+: s'.joined := by
  cases q with
  | registerNewUser u p =>
    simp only [ChatServer.handle, Option.some.injEq, Prod.mk.injEq] at h
    obtain ⟨rfl, _, _⟩ := h
    exact ⟨by simp, by simp⟩
  | setUsername id u =>
    simp only [ChatServer.handle, Option.some.injEq, Prod.mk.injEq] at h
    obtain ⟨rfl, _, _⟩ := h
    exact ⟨by simp, by simp⟩
  | removeUser id =>
    simp only [ChatServer.handle, Option.some.injEq, Prod.mk.injEq] at h
    obtain ⟨rfl, _, _⟩ := h
    exact ⟨by simp, by simp⟩
  | sendMessage id c =>
    simp only [ChatServer.handle] at h
    split at h
    · cases h
    · simp only [Option.some.injEq, Prod.mk.injEq] at h
      obtain ⟨rfl, _, _⟩ := h
      exact ⟨by simp, by simp⟩

theorem srv_step {f f' : FineNet} (h : FineStep parse fs f f') : f.srv.log <+: f'.srv.log ∧ f.srv.joined <+: f'.srv.joined := by
  cases h with
  | serve j q queue srv r ds h1 h2 h3 h4 => exact handle_grows h4
  | send j r d ds hs =>
    unfold FineNet.deliver
    split
    · simp
    · simp [FineNet.set]
  | connect => simp [FineNet.set]
  | forward => simp [FineNet.set]
  | read => simp [FineNet.set]
  | work => simp [FineNet.set]
  | ask => simp [FineNet.set]
  | panic => simp
  | reply => simp [FineNet.set]
  | resume => simp [FineNet.set]
  | die => simp [FineNet.set]
  | shuffle => simp

theorem ChatExecution.grows (x : ChatExecution parse fs) {i j : Nat} (h : i ≤ j) :
    (x.state i).srv.log <+: (x.state j).srv.log ∧ (x.state i).srv.joined <+: (x.state j).srv.joined := by
  induction j with
  | zero =>
    have : i = 0 := by omega
    subst this; simp
  | succ j ih =>
    by_cases e : i = j + 1
    · subst e; simp
    · obtain ⟨h1, h2⟩ := ih (by omega)
      rcases x.step j with e | e
      · rw [e]; exact ⟨h1, h2⟩
      · exact ⟨h1.trans (srv_step e).1, h2.trans (srv_step e).2⟩

/-- Only a component that runs asks to be registered. -/
theorem register_running {b : Bool} {ph : FinePhase} {m : Mail LiveviewInput Nat} {nm : String} {p : Nat}
    (h : requestOf parse b ph m = some (.registerNewUser nm p)) : ∃ st, ph = .running st ∧ st.proc = p := by
  cases ph with
  | stopped => cases m <;> simp [requestOf, loopStep, firstRequest] at h
  | crashed => cases m <;> simp [requestOf, loopStep, firstRequest] at h
  | unreachable => cases m <;> simp [requestOf, loopStep, firstRequest] at h
  | waiting d =>
    cases m with
    | input i => simp [requestOf, loopStep, firstRequest] at h
    | ws i => simp [requestOf, loopStep, firstRequest] at h
    | whoAmI p =>
      simp only [requestOf, loopStep, asker, List.map_nil, List.nil_append] at h
      split at h
      · simp [firstRequest] at h
      · split at h <;> simp [firstRequest] at h
  | running st =>
    refine ⟨st, rfl, ?_⟩
    have hu : ∀ i, firstRequest (updateAndDiff (asker .closed) st i).2 = some (.registerNewUser nm p) → st.proc = p := by
      intro i h
      have hes : ∀ es : List CoordinatorInput, ∀ os, (∀ o ∈ os, ∀ q, o ≠ Out.effect q) → firstRequest (es.map .effect ++ os) = es.head? := by
        intro es os ho
        cases es with
        | cons e es => rfl
        | nil =>
          simp only [List.map_nil, List.nil_append, List.head?_nil]
          induction os with
          | nil => rfl
          | cons o os ih =>
            cases o with
            | effect q => exact absurd rfl (ho _ (by simp) q)
            | send _ => exact ih fun o h => ho o (by simp [h])
            | dropped => exact ih fun o h => ho o (by simp [h])
      have h' : ((asker .closed).update st.comp i st.proc).2.head? = some (.registerNewUser nm p) := by
        simp only [updateAndDiff] at h
        split at h
        · rw [← h, ← hes _ [] (by simp)]; simp
        · rw [← h, hes _ _ (by simp)]
      simp only [asker] at h'
      cases hc : st.comp with
      | none => rw [hc] at h'; cases h'
      | some l =>
        rw [hc] at h'
        simp only at h'
        cases ha : l.ask i st.proc with
        | none => rw [ha] at h'; cases h'
        | some q =>
          rw [ha] at h'
          simp only [List.head?_cons, Option.some.injEq] at h'
          subst h'
          unfold Live.ask at ha
          split at ha
          · simp only [Option.some.injEq, CoordinatorInput.registerNewUser.injEq] at ha; exact ha.2
          · cases ha
          · cases ha
    unfold requestOf at h
    split at h
    · split at h <;> cases h
    · rename_i hns
      revert h
      generalize hph : (Phase.running st : FinePhase) = ph
      fun_cases loopStep (asker .closed) parse b ph m
      all_goals first
        | (cases hph; done)
        | (cases hph; exact hu _)
        | (intro h; simp [firstRequest] at h)

/-- A user that has been registered has been sent its first page. -/
theorem joined_first {f : FineNet} (h : FineSteps parse fs .init f) : ∀ k ∈ f.srv.joined.map (·.1), fs k = true := by
  generalize hi : FineNet.init = a at h
  induction h with
  | refl => subst hi; intro k hk; cases hk
  | @snoc b c h s ih =>
    subst hi
    cases s with
    | serve k q queue srv r ds h1 h2 h3 h4 =>
      intro k' hk'
      obtain ⟨n, hn, hs⟩ := sim_run h.run
      obtain ⟨u, m, hu, hask, hreq⟩ := hs.queued k q (by rw [h3]; simp)
      cases q with
      | registerNewUser nm p =>
        simp only [ChatServer.handle, Option.some.injEq, Prod.mk.injEq] at h4
        obtain ⟨rfl, _, _⟩ := h4
        simp only [List.map_append, List.map_cons, List.map_nil, List.mem_append, List.mem_singleton] at hk'
        rcases hk' with hk' | rfl
        · exact ih k' hk'
        · obtain ⟨st, e1, e2⟩ := register_running hreq
          obtain ⟨v, g1, g2, g3⟩ := hs.yes k u hu
          unfold UserSim at g3
          rw [hask, h2] at g3
          simp only [replyFor, Unserved] at g3
          obtain ⟨_, _, g5⟩ := g3
          have hp := ((order_steps hn.steps).net.procs k v g1).2
          rw [e1] at g5
          have hkp : st.proc = k := by
            revert hp g5
            cases v.loop with
            | waiting _ => intro e; cases e
            | stopped => intro e; cases e
            | crashed => intro e; cases e
            | unreachable => intro e; cases e
            | running st0 =>
              rintro e ⟨_, hp, _⟩
              simp only [erase, Phase.running.injEq] at e
              rw [← e]
              exact hp
          rcases running_first h hu with (e | e | e) | e | e
          · rw [e1] at e; cases e
          · rw [e1] at e; cases e
          · rw [e1] at e; cases e
          · rw [e1] at e; cases e
          · rw [← e2, hkp]; exact e.1
      | setUsername id nm =>
        simp only [ChatServer.handle, Option.some.injEq, Prod.mk.injEq] at h4
        obtain ⟨rfl, _, _⟩ := h4
        exact ih k' hk'
      | removeUser id =>
        simp only [ChatServer.handle, Option.some.injEq, Prod.mk.injEq] at h4
        obtain ⟨rfl, _, _⟩ := h4
        exact ih k' hk'
      | sendMessage id t =>
        simp only [ChatServer.handle] at h4
        split at h4
        · cases h4
        · simp only [Option.some.injEq, Prod.mk.injEq] at h4
          obtain ⟨rfl, _, _⟩ := h4
          exact ih k' hk'
    | send j r d ds hs =>
      unfold FineNet.deliver
      split
      · exact ih
      · exact ih
    | connect => exact ih
    | forward => exact ih
    | read => exact ih
    | work => exact ih
    | ask => exact ih
    | panic => exact ih
    | reply => exact ih
    | resume => exact ih
    | die => exact ih
    | shuffle => exact ih

theorem shows_live {u : FineProcs} {nm : String} {id : Nat} {ms : List ChatMessage} {c : String} (h : u.live = some (.initialized nm id ms c)) : Shows u id ms := by
  unfold FineProcs.live at h
  split at h
  · rename_i st _ _ hl
    exact ⟨st, nm, ms, c, hl, h, by simp⟩
  · cases h

theorem live_shows {u : FineProcs} {id : Nat} {ms : List ChatMessage} (h : Shows u id ms) (ha : u.alive = true) (ht : u.talk = .free) :
    ∃ nm ms' c, u.live = some (.initialized nm id ms' c) ∧ ms <+: ms' := by
  obtain ⟨st, nm, ms', c, h1, h2, h3⟩ := h
  exact ⟨nm, ms', c, by simp [FineProcs.live, ha, ht, h1, h2], h3⟩

variable {x : ChatExecution parse fs}

/-- A registered component that is not waiting shows what a registered user sees, or has been dropped. -/
theorem joined_live {f : FineNet} (h : FineSteps parse fs .init f) {k : Nat} {v : FineProcs} (h2 : f.users k = some v) (ha' : v.alive = true)
    (ht : v.talk = .free) (hjm : k ∈ f.srv.joined.map (·.1)) : v.loop = .stopped ∨ ∃ nm id ms c, v.live = some (.initialized nm id ms c) := by
  obtain ⟨p1, p2, p3⟩ := C104_no_panic parse fs _ h k v h2 ha' ht
  obtain ⟨n', hn', hs'⟩ := sim_run h.run
  obtain ⟨w, g1, g2, g3⟩ := hs'.yes k v h2
  unfold UserSim at g3
  rw [ht] at g3
  have g4 := g3.2.2.1 ha'
  have hc := (order_steps hn'.steps).caught k w g1
  rw [hs'.srv] at hc
  cases hl : v.loop with
  | waiting d =>
    exfalso
    rw [hl] at g4
    cases hw : w.loop with
    | waiting d' => exact (hc.2.1 d' hw).1 hjm
    | running _ => rw [hw] at g4; cases g4
    | stopped => rw [hw] at g4; cases g4
    | crashed => rw [hw] at g4; cases g4
    | unreachable => rw [hw] at g4; cases g4
  | stopped => exact Or.inl rfl
  | unreachable => exact absurd hl p1
  | crashed =>
    have h4 := p2 hl
    rw [joined_first h k hjm] at h4
    cases h4
  | running st =>
    right
    have hlive : v.live = st.comp := by simp [FineProcs.live, ha', ht, hl]
    cases hcomp : st.comp with
    | none => exact absurd hcomp (p3 st hl)
    | some l =>
      cases l with
      | initialized nm id ms c => exact ⟨nm, id, ms, c, hlive.trans hcomp⟩
      | uninitialized nm =>
        exfalso
        obtain ⟨w', e1, e2, _⟩ := hs'.live h2 (hlive.trans hcomp)
        rw [g1] at e1
        cases e1
        exact (hc.1 nm e2).1 hjm

/-- A registered user's process is over, or will be between two messages. -/
theorem settles (hf : x.Fair) (i : Nat) {k b : Nat} (hj : (k, b) ∈ (x.state i).srv.joined) :
    ∃ j u, i ≤ j ∧ (x.state j).users k = some u ∧ (u.Over ∨ ∃ nm id ms c, u.live = some (.initialized nm id ms c)) := by
  obtain ⟨n, hn, hs⟩ := sim_run (x.reach i).run
  have hne : (x.state i).users k ≠ none := by
    intro e
    have := hs.no k e
    refine (order_steps hn.steps).conn k ?_ this
    rw [hs.srv]
    exact List.mem_map.2 ⟨_, hj, rfl⟩
  cases hu : (x.state i).users k with
  | none => exact absurd hu hne
  | some u =>
    obtain ⟨j, v, h1, h2, h3⟩ := goes_on hf i hu
    refine ⟨j, v, h1, h2, ?_⟩
    by_cases ha : v.alive = false
    · exact Or.inl (Or.inl ha)
    · rcases joined_live (x.reach j) h2 (by simpa using ha) (h3.resolve_left ha) (List.mem_map.2 ⟨_, (x.grows h1).2.subset hj, rfl⟩) with e | e
      · exact Or.inl (Or.inr e)
      · exact Or.inr e

/-- A message on its way to a registered component arrives. -/
theorem progress (hf : x.Fair) (j : Nat) {k : Nat} {u : FineProcs} (hu : (x.state j).users k = some u) {nm : String} {id : Nat} {ms : List ChatMessage}
    {c : String} (hl : u.live = some (.initialized nm id ms c)) {m : ChatMessage} (hm : m.sender ≠ id)
    (hp : m ∈ u.loopBox.filterMap mailMsg ++ u.inbox.filterMap inputMsg ++ (outboxFor (x.state j).serving k).filterMap inputMsg) :
    ∃ j' v, j ≤ j' ∧ (x.state j').users k = some v ∧ (v.Over ∨ ∃ nm' ms' c', v.live = some (.initialized nm' id ms' c') ∧
      (ms.filter fun m => m.sender != id).length < (ms'.filter fun m => m.sender != id).length) := by
  have him : ∀ i, inputMsg i = some m → i = .receiveMessage m := by
    intro i h
    cases i <;> simp only [inputMsg, Option.some.injEq, reduceCtorEq] at h
    rw [h]
  -- once the message is in the component's mailbox
  have box : ∀ i w l1 l2, j ≤ i → (x.state i).users k = some w → w.loopBox = l1 ++ .input (.receiveMessage m) :: l2 →
      ∃ j' v, j ≤ j' ∧ (x.state j').users k = some v ∧ (v.Over ∨ ∃ nm' ms' c', v.live = some (.initialized nm' id ms' c') ∧
      (ms.filter fun m => m.sender != id).length < (ms'.filter fun m => m.sender != id).length) := by
    intro i w l1 l2 hi hw hb
    rcases takes_all hf i hw hb with ⟨j', v, a1, a2, a3⟩ | ⟨j', v, v', a1, a2⟩
    · exact ⟨j', v, by omega, a2, Or.inl (Or.inl a3)⟩
    · rcases shows_until hu (shows_live hl) j' (by omega) with ⟨l, v, b1, b2, b3, b4⟩ | ⟨v1, b1, b2⟩
      · exact ⟨l, v, b1, b3, Or.inl b4⟩
      · have := a2.1
        rw [b1] at this
        cases this
        rcases takes_message a2 b2 with h | ⟨h1, h2, ms', h3, h4⟩
        · exact ⟨j' + 1, v', by omega, a2.2.1, Or.inl h⟩
        · obtain ⟨nm', ms'', c', e1, e2⟩ := live_shows h4 h2 h1
          refine ⟨j' + 1, v', by omega, a2.2.1, Or.inr ⟨nm', ms'', c', e1, ?_⟩⟩
          have e3 := (e2.filter fun m => m.sender != id).length_le
          have e4 := (h3.filter fun m => m.sender != id).length_le
          have : (m.sender != id) = true := by simpa using hm
          rw [List.filter_append, List.length_append, List.filter_cons, this] at e3
          simp at e3
          omega
  -- once it is in the inbox of the managing process
  have inb : ∀ i w l1 l2, j ≤ i → (x.state i).users k = some w → w.inbox = l1 ++ .receiveMessage m :: l2 →
      ∃ j' v, j ≤ j' ∧ (x.state j').users k = some v ∧ (v.Over ∨ ∃ nm' ms' c', v.live = some (.initialized nm' id ms' c') ∧
      (ms.filter fun m => m.sender != id).length < (ms'.filter fun m => m.sender != id).length) := by
    intro i w l1 l2 hi hw hb
    obtain ⟨j', v, l, a1, a2, a3⟩ := forwards_all hf i hw hb
    exact box j' v l [] (by omega) a2 (by rw [a3])
  simp only [List.append_assoc, List.mem_append, List.mem_filterMap] at hp
  rcases hp with ⟨a, h1, h2⟩ | ⟨a, h1, h2⟩ | ⟨a, h1, h2⟩
  · obtain ⟨l1, l2, e⟩ := List.append_of_mem h1
    cases a with
    | input i =>
      rw [him i h2] at e
      exact box j u l1 l2 (Nat.le_refl _) hu e
    | ws _ => cases h2
    | whoAmI _ => cases h2
  · obtain ⟨l1, l2, e⟩ := List.append_of_mem h1
    rw [him a h2] at e
    exact inb j u l1 l2 (Nat.le_refl _) hu e
  · rw [him a h2] at h1
    unfold outboxFor at h1
    cases hs : (x.state j).serving with
    | none => rw [hs] at h1; cases h1
    | some s =>
      rw [hs] at h1
      obtain ⟨d, hd, e⟩ := List.mem_map.1 h1
      obtain ⟨hd, hk⟩ := List.mem_filter.1 hd
      obtain ⟨o1, o2, eo⟩ := List.append_of_mem hd
      obtain ⟨cl, r, ds⟩ := s
      simp only at eo
      subst eo
      have hk : d.to = k := by simpa using hk
      obtain ⟨j', v, l, a1, a2, a3⟩ := sends_all hf j hs (by rw [hk]; exact hu)
      rw [hk] at a2
      exact inb j' v l [] (by omega) a2 (by rw [a3, e])

theorem prefix_of_le {α : Type} {a b l : List α} (ha : a <+: l) (hb : b <+: l) (h : a.length ≤ b.length) : a <+: b :=
  List.prefix_of_prefix_length_le ha hb h

theorem prefix_drop {α : Type} {a b : List α} (h : a <+: b) (n : Nat) : a.drop n <+: b.drop n := by
  obtain ⟨t, rfl⟩ := h
  rw [List.drop_append]
  simp

/-- **C105, delivery.** In a fair execution, every message accepted since a user registered gets to that user: there is a later moment at which the user's process is
over, or the user's component shows all of them, the user's own and the others', each in the order in which they were accepted. -/
theorem C105_delivered (parse : String → Option ClientMessage) (firstSend : Nat → Bool) (x : ChatExecution parse firstSend) (hf : x.Fair) (i k before : Nat)
    (hj : (k, before) ∈ (x.state i).srv.joined) :
    ∃ j u, i ≤ j ∧ (x.state j).users k = some u ∧ (u.Over ∨ ∃ name id shown composing, u.live = some (.initialized name id shown composing) ∧
      ((x.state i).srv.log.drop before).filter (fun m => m.sender == id) <+: shown.filter (fun m => m.sender == id) ∧
      ((x.state i).srv.log.drop before).filter (fun m => m.sender != id) <+: shown.filter (fun m => m.sender != id) ∧
      ∀ m ∈ (x.state i).srv.log.drop before, m ∈ shown) := by
  have go : ∀ n j u nm id ms c, i ≤ j → (x.state j).users k = some u → u.live = some (.initialized nm id ms c) →
      (((x.state i).srv.log.drop before).filter fun m => m.sender != id).length - (ms.filter fun m => m.sender != id).length ≤ n →
      ∃ j u, i ≤ j ∧ (x.state j).users k = some u ∧ (u.Over ∨ ∃ name id shown composing, u.live = some (.initialized name id shown composing) ∧
      ((x.state i).srv.log.drop before).filter (fun m => m.sender == id) <+: shown.filter (fun m => m.sender == id) ∧
      ((x.state i).srv.log.drop before).filter (fun m => m.sender != id) <+: shown.filter (fun m => m.sender != id) ∧
      ∀ m ∈ (x.state i).srv.log.drop before, m ∈ shown) := by
    intro n
    induction n with
    | zero => ?_
    | succ n ih => ?_
    all_goals
      intro j u nm id ms c hij hu hl hn
      obtain ⟨b, pending, h1, h2, h3, h4, h5, h6, h7, _⟩ := C104_order parse firstSend _ (x.reach j) k u hu nm id ms c hl
      obtain rfl := h3 before ((x.grows hij).2.subset hj)
      have hlog : (x.state i).srv.log.drop before <+: (x.state j).srv.log.drop before := prefix_drop (x.grows hij).1 before
      have hT := hlog.filter fun m => m.sender != id
      have hM : ms.filter (fun m => m.sender != id) <+: ((x.state j).srv.log.drop before).filter fun m => m.sender != id := by
        rw [← h6, List.filter_append]; simp
      have done : (((x.state i).srv.log.drop before).filter fun m => m.sender != id).length ≤ (ms.filter fun m => m.sender != id).length →
        ∃ j u, i ≤ j ∧ (x.state j).users k = some u ∧ (u.Over ∨ ∃ name id shown composing, u.live = some (.initialized name id shown composing) ∧
          ((x.state i).srv.log.drop before).filter (fun m => m.sender == id) <+: shown.filter (fun m => m.sender == id) ∧
          ((x.state i).srv.log.drop before).filter (fun m => m.sender != id) <+: shown.filter (fun m => m.sender != id) ∧
          ∀ m ∈ (x.state i).srv.log.drop before, m ∈ shown) := by
        intro hle
        have e1 : ((x.state i).srv.log.drop before).filter (fun m => m.sender == id) <+: ms.filter (fun m => m.sender == id) := by
          rw [h5]; exact hlog.filter _
        have e2 := prefix_of_le hT hM hle
        refine ⟨j, u, hij, hu, Or.inr ⟨nm, id, ms, c, hl, e1, e2, ?_⟩⟩
        intro m hm
        by_cases e : m.sender = id
        · exact (List.mem_filter.1 (e1.subset (List.mem_filter.2 ⟨hm, by simpa using e⟩))).1
        · exact (List.mem_filter.1 (e2.subset (List.mem_filter.2 ⟨hm, by simpa using e⟩))).1
    · exact done (by omega)
    · by_cases hle : (((x.state i).srv.log.drop before).filter fun m => m.sender != id).length ≤ (ms.filter fun m => m.sender != id).length
      · exact done hle
      · have hne : pending ≠ [] := by
          rintro rfl
          rw [List.append_nil] at h6
          rw [h6] at hle
          exact hle hT.length_le
        obtain ⟨m, hm⟩ := List.exists_mem_of_ne_nil _ hne
        obtain ⟨j', v, a1, a2, a3⟩ := progress hf j hu hl (h7 m hm) (by rw [← h1]; exact hm)
        rcases a3 with a3 | ⟨nm', ms', c', a3, a4⟩
        · exact ⟨j', v, by omega, a2, Or.inl a3⟩
        · exact ih j' v nm' id ms' c' (by omega) a2 a3 (by omega)
  obtain ⟨j, u, h1, h2, h3⟩ := settles hf i hj
  rcases h3 with h3 | ⟨nm, id, ms, c, h3⟩
  · exact ⟨j, u, h1, h2, Or.inl h3⟩
  · exact go _ j u nm id ms c h1 h2 h3 (Nat.le_refl _)

/-- **C105, replies.** In a fair execution, a process that waits for the coordinator does not wait for ever: there is a later moment at which it has been killed or
is not waiting. -/
theorem C105_answered (parse : String → Option ClientMessage) (firstSend : Nat → Bool) (x : ChatExecution parse firstSend) (hf : x.Fair) (i k : Nat)
    (u : FineProcs) (hu : (x.state i).users k = some u) :
    ∃ j u', i ≤ j ∧ (x.state j).users k = some u' ∧ (u'.alive = false ∨ u'.talk = .free) := goes_on hf i hu

/-- **C105, events.** In a fair execution, whatever is in the mailbox of a component's process is taken out by it, or the process is killed. -/
theorem C105_taken (parse : String → Option ClientMessage) (firstSend : Nat → Bool) (x : ChatExecution parse firstSend) (hf : x.Fair) (i k : Nat)
    (u : FineProcs) (hu : (x.state i).users k = some u) (m : Mail LiveviewInput Nat) (hm : m ∈ u.loopBox) :
    ∃ j v, i ≤ j ∧ (x.state j).users k = some v ∧ (v.alive = false ∨
      ∃ v', (x.state (j + 1)).users k = some v' ∧ v.talk = .free ∧ v.loopBox = m :: v'.loopBox) := by
  obtain ⟨l1, l2, e⟩ := List.append_of_mem hm
  rcases takes_all hf i hu e with ⟨j, v, a1, a2, a3⟩ | ⟨j, v, v', a1, a2⟩
  · exact ⟨j, v, a1, a2, Or.inl a3⟩
  · exact ⟨j, v, a1, a2.1, Or.inr ⟨v', a2.2.1, a2.2.2.2.1, a2.2.2.2.2.1⟩⟩

/-- The coordinator takes a request out of its mailbox when it serves it, and not before. -/
theorem reached_first (hf : x.Fair) (i : Nat) {k : Nat} {q : CoordinatorInput} (h : (k, q) ∈ (x.state i).queue) :
    ∃ j r ds, i ≤ j ∧ (∀ l, i ≤ l → l ≤ j → (k, q) ∈ (x.state l).queue) ∧ (x.state j).serving = none ∧
      (x.state j).srv.handle q = some ((x.state (j + 1)).srv, r, ds) := by
  rcases forever_or (p := fun l => (k, q) ∈ (x.state l).queue) i h with hall | ⟨j, hij, hp, hnp⟩
  · exfalso
    obtain ⟨l1, l2, e⟩ := List.append_of_mem h
    obtain ⟨j, r, ds, h1, h2, _⟩ := reached hf i e
    obtain ⟨n, hn, hs⟩ := sim_run (x.reach (j + 1)).run
    exact (hs.serving _ h2).1 (List.mem_map.2 ⟨_, hall (j + 1) (by omega), rfl⟩)
  · have hj := hp j hij (Nat.le_refl _)
    rcases x.coord j with ⟨_, more', e2⟩ | ⟨e0, k', q', rest, r, ds, e1, e2, e3, e4⟩ | ⟨k', r', d, ds', _, _, e2, _⟩ | ⟨k', r', u, m, _, _, e2, _⟩
    · exact absurd (by rw [e2]; simp [hj]) hnp
    · rw [e1] at hj
      simp only [List.mem_cons, Prod.mk.injEq] at hj
      rcases hj with ⟨rfl, rfl⟩ | hj
      · exact ⟨j, r, ds, hij, hp, e0, e4⟩
      · exact absurd (by rw [e2]; exact hj) hnp
    · exact absurd (by rw [e2]; exact hj) hnp
    · exact absurd (by rw [e2]; exact hj) hnp

/-- While its request is in the coordinator's mailbox, a component does nothing. -/
theorem waits_still {i j k : Nat} {q : CoordinatorInput} (hij : i ≤ j) (h : ∀ l, i ≤ l → l ≤ j → (k, q) ∈ (x.state l).queue) {u : FineProcs}
    (hu : (x.state i).users k = some u) : ∃ v, (x.state j).users k = some v ∧ v.loop = u.loop := by
  induction j with
  | zero =>
    have : i = 0 := by omega
    subst this; exact ⟨u, hu, rfl⟩
  | succ j ih =>
    by_cases e : i = j + 1
    · subst e; exact ⟨u, hu, rfl⟩
    · obtain ⟨v, h1, h2⟩ := ih (by omega) fun l a b => h l a (by omega)
      obtain ⟨v', g1, g2⟩ := x.user h1
      refine ⟨v', g1, ?_⟩
      rw [← h2]
      obtain ⟨n, hn, hs⟩ := sim_run (x.reach j).run
      obtain ⟨w, m, e1, e2, _⟩ := hs.queued k q (h j (by omega) (by omega))
      rw [h1] at e1
      cases e1
      cases g2 with
      | same => rfl
      | got d => rfl
      | forward i rest hi => rfl
      | read m => rfl
      | work m rest g1 g2 g3 g4 => rw [e2] at g2; cases g2
      | ask m rest q g1 g2 g3 g4 => rfl
      | reply m r g1 => rfl
      | resume m r g1 g2 => rw [e2] at g2; cases g2
      | die => rfl

/-- A component that takes a message for which it makes a request puts the request into the coordinator's mailbox. -/
theorem takes_asks {j k : Nat} {v v' : FineProcs} {m : Mail LiveviewInput Nat} (h : TakesAt x k j v v' m) {q : CoordinatorInput}
    (hq : requestOf parse (fs k) v.loop m = some q) : (k, q) ∈ (x.state (j + 1)).queue ∧ v'.loop = v.loop := by
  obtain ⟨hv, hv', ha, ht, hb, -⟩ := h
  have hlen := congrArg List.length hb
  simp only [List.length_cons] at hlen
  rcases x.step j with e | e
  · rw [e, hv] at hv'
    cases hv'
    omega
  · generalize hst : x.state (j + 1) = g at e hv'
    generalize hst0 : x.state j = f at e hv
    have stay : f.users k = some v' → False := by
      intro e; rw [hv] at e; cases e; omega
    have key : ∀ {f' : FineNet} {i : Nat} {w w' : FineProcs}, f'.users = f.users → f.users i = some w → (f'.set i w').users k = some v' →
        w.loopBox.length ≤ w'.loopBox.length → False := by
      intro f' i w w' e0 e1 e2 e3
      by_cases e : k = i
      · subst e
        rw [hv] at e1
        cases e1
        rw [FineNet.set_same] at e2; cases e2; omega
      · rw [FineNet.set_other e, e0] at e2; exact stay e2
    cases e with
    | connect i hi =>
      by_cases e : k = i
      · subst e; rw [hv] at hi; cases hi
      · rw [FineNet.set_other e] at hv'; exact absurd hv' stay
    | forward i w c rest hw hi => exact absurd hv' fun e => key rfl hw e (by simp)
    | read i w c hw => exact absurd hv' fun e => key rfl hw e (by simp)
    | work i w m' rest hw h1 h2 h3 h4 =>
      by_cases e : k = i
      · subst e
        rw [hv] at hw
        cases hw
        rw [hb] at h3
        simp only [List.cons.injEq] at h3
        obtain ⟨rfl, _⟩ := h3
        rw [hq] at h4
        cases h4
      · rw [FineNet.set_other e] at hv'; exact absurd hv' stay
    | ask i w m' rest q' hw h1 h2 h3 h4 =>
      have hv' : (f.set i { w with loopBox := rest, talk := .asked m' }).users k = some v' := hv'
      by_cases e : k = i
      · subst e
        rw [hv] at hw
        cases hw
        rw [hb] at h3
        simp only [List.cons.injEq] at h3
        obtain ⟨rfl, _⟩ := h3
        rw [hq] at h4
        cases h4
        rw [FineNet.set_same] at hv'
        cases hv'
        exact ⟨by simp, rfl⟩
      · rw [FineNet.set_other e] at hv'; exact absurd hv' stay
    | serve => exact absurd hv' stay
    | panic => exact absurd hv' stay
    | send i r d ds hs =>
      unfold FineNet.deliver at hv'
      simp only at hv'
      cases hd : f.users d.to with
      | none => rw [hd] at hv'; exact absurd hv' stay
      | some w => rw [hd] at hv'; exact absurd hv' fun e => key (f' := { f with serving := some ⟨i, r, ds⟩ }) rfl hd e (by simp)
    | reply i r w m hs hw ht => exact absurd hv' fun e => key (f' := { f with serving := none }) rfl hw e (by simp)
    | resume i w m r hw h1 h2 => exact absurd hv' fun e => key rfl hw e (by simp)
    | die i w hw => exact absurd hv' fun e => key rfl hw e (by simp)
    | shuffle => exact absurd hv' stay

/-- A registered component that is not waiting makes a request when "send message" is clicked. -/
theorem click_sends {f : FineNet} (h : FineSteps parse fs .init f) {k : Nat} {v : FineProcs} (hv : f.users k = some v) {nm : String} {id : Nat}
    {ms : List ChatMessage} {c : String} (hlive : v.live = some (.initialized nm id ms c)) {t : String} (ht : parse t = some ⟨"submit_message", none⟩) :
    requestOf parse (fs k) v.loop (.ws (.ok (.text t))) = some (.sendMessage id c) := by
  have ha : v.alive = true := by
    unfold FineProcs.live at hlive
    split at hlive
    · assumption
    · cases hlive
  have htk : v.talk = .free := by
    unfold FineProcs.live at hlive
    split at hlive
    · assumption
    · cases hlive
  obtain ⟨n, hn, hs⟩ := sim_run h.run
  obtain ⟨w, g1, g2, _⟩ := hs.live hv hlive
  have hw := ((order_steps hn.steps).net.procs k w g1).2
  obtain ⟨w', g1', _, g3⟩ := hs.yes k v hv
  rw [g1] at g1'
  cases g1'
  unfold UserSim at g3
  rw [htk] at g3
  have g4 := g3.2.2.1 ha
  rw [← g4]
  cases hwl : w.loop with
  | waiting _ => simp [UserProcs.live, hwl] at g2
  | stopped => simp [UserProcs.live, hwl] at g2
  | crashed => simp [UserProcs.live, hwl] at g2
  | unreachable => simp [UserProcs.live, hwl] at g2
  | running st =>
    rw [hwl] at hw
    obtain ⟨_, _, l, s0, e1, e2, _⟩ := hw
    simp only [UserProcs.live, hwl, e1, Option.map_some, Option.some.injEq] at g2
    subst g2
    have hask : Asks parse (LoopState.mk st.proc (st.comp.map (·.1)) st.dom st.listeners).listeners
        (.ws (.ok (.text t)) : Mail LiveviewInput Nat) (.browserRequest .sendTextMessage) := by
      refine Or.inr ⟨t, _, rfl, ht, Or.inl ?_⟩
      have : st.listeners = (Live.render (.initialized nm id ms c)).2 := by rw [e2]
      simp only [this]
      rfl
    obtain ⟨p1, os, p2⟩ := update_outs (C := asker .closed) (st := ⟨st.proc, st.comp.map (·.1), st.dom, st.listeners⟩)
      (i := .browserRequest .sendTextMessage) (s := (Live.initialized nm id ms c).answer (.browserRequest .sendTextMessage) .closed)
      (es := [.sendMessage id c]) (by simp only [e1]; rfl)
    simp only [erase]
    unfold requestOf
    rw [step_asks hask, p2]
    revert p1
    cases (updateAndDiff (asker .closed) ⟨st.proc, st.comp.map (·.1), st.dom, st.listeners⟩ (.browserRequest .sendTextMessage)).1 with
    | stopped => intro g; exact absurd rfl g
    | waiting _ => intro _; rfl
    | running _ => intro _; rfl
    | crashed => intro _; rfl
    | unreachable => intro _; rfl

/-- **C105, sending.** In a fair execution, a registered user's click on "send message" that is in the mailbox of its process is not lost: there is a later moment at
which the process is over, or there are a moment at which the component takes it, `composing` being the text in the input field according to the
component, and a moment after that at which the coordinator accepts the message with this text, from this user. -/
theorem C105_accepted (parse : String → Option ClientMessage) (firstSend : Nat → Bool) (x : ChatExecution parse firstSend) (hf : x.Fair) (i k : Nat)
    (u : FineProcs) (hu : (x.state i).users k = some u) (name : String) (id : Nat) (shown : List ChatMessage) (composing : String)
    (hl : u.live = some (.initialized name id shown composing)) (t : String) (ht : parse t = some ⟨"submit_message", none⟩)
    (hm : .ws (.ok (.text t)) ∈ u.loopBox) :
    ∃ j v, i ≤ j ∧ (x.state j).users k = some v ∧ (v.Over ∨
      ∃ name' shown' composing' j', v.live = some (.initialized name' id shown' composing') ∧ j ≤ j' ∧
        (x.state (j' + 1)).srv.log = (x.state j').srv.log ++ [⟨id, name', composing'⟩]) := by
  obtain ⟨l1, l2, e⟩ := List.append_of_mem hm
  rcases takes_all hf i hu e with ⟨j, v, a1, a2, a3⟩ | ⟨j, v, v', a1, a2⟩
  · exact ⟨j, v, a1, a2, Or.inl (Or.inl a3)⟩
  · rcases shows_until hu (shows_live hl) j a1 with ⟨l, w, b1, b2, b3, b4⟩ | ⟨v1, b1, b2⟩
    · exact ⟨l, w, b1, b3, Or.inl b4⟩
    · obtain ⟨hv, hv', ha, htk, hb, hstep⟩ := a2
      rw [hv] at b1
      cases b1
      refine ⟨j, v, a1, hv, Or.inr ?_⟩
      obtain ⟨nm, ms, c, hlive, _⟩ := live_shows b2 ha htk
      have hreq := click_sends (x.reach j) hv hlive ht
      obtain ⟨hq, hloop⟩ := takes_asks ⟨hv, hv', ha, htk, hb, hstep⟩ hreq
      obtain ⟨j', r, ds, c1, c2, c3, c4⟩ := reached_first hf (j + 1) hq
      refine ⟨nm, ms, c, j', hlive, by omega, ?_⟩
      obtain ⟨z, d1, d2⟩ := waits_still c1 c2 hv'
      obtain ⟨n', hn', hs'⟩ := sim_run (x.reach j').run
      obtain ⟨z', m', e1, e2, _⟩ := hs'.queued k _ (c2 j' c1 (Nat.le_refl _))
      rw [d1] at e1
      cases e1
      obtain ⟨y, f1, _, f3⟩ := hs'.yes k z d1
      unfold UserSim at f3
      rw [e2, c3] at f3
      simp only [replyFor, Unserved] at f3
      have f4 := f3.2.2
      rw [d2, hloop] at f4
      have hy := ((order_steps hn'.steps).net.procs k y f1).2
      have hg : getUser id (x.state j').srv.users = some (nm, k) := by
        rw [← hs'.srv]
        obtain ⟨st, _, _, _, h1, h2, _⟩ := shows_live hlive
        have hlive' : st.comp = some (.initialized nm id ms c) := by
          rw [← hlive]; simp [FineProcs.live, ha, htk, h1]
        rw [h1] at f4
        cases hyl : y.loop with
        | waiting _ => rw [hyl] at f4; cases f4
        | stopped => rw [hyl] at f4; cases f4
        | crashed => rw [hyl] at f4; cases f4
        | unreachable => rw [hyl] at f4; cases f4
        | running st0 =>
          rw [hyl] at f4 hy
          simp only [erase, Phase.running.injEq] at f4
          obtain ⟨_, _, l, s0, h5, _, h6⟩ := hy
          have : st.comp = some l := by rw [← f4]; simp [h5]
          rw [hlive'] at this
          cases this
          exact h6 nm id ms c rfl
      simp only [ChatServer.handle, hg, Option.some.injEq, Prod.mk.injEq] at c4
      rw [← c4.1]

/-- **C105, registration.** In a fair execution, a click on the button that registers a user, in the mailbox of a component whose page has this button, is not lost: at
some later moment the user is registered, or the process is over. -/
theorem C105_registered (parse : String → Option ClientMessage) (firstSend : Nat → Bool) (x : ChatExecution parse firstSend) (hf : x.Fair) (i k : Nat)
    (u : FineProcs) (hu : (x.state i).users k = some u) (name : String) (hl : u.live = some (.uninitialized name)) (t : String)
    (ht : parse t = some ⟨"initialize_username", none⟩) (hm : .ws (.ok (.text t)) ∈ u.loopBox) :
    ∃ j v, i ≤ j ∧ (x.state j).users k = some v ∧ (v.Over ∨ ∃ before, (k, before) ∈ (x.state j).srv.joined) := by
  have hfs : firstSend k = true := by
    unfold FineProcs.live at hl
    split at hl
    · rename_i st _ _ hrun
      rcases running_first (x.reach i) hu with (e | e | e) | e | e
      · rw [hrun] at e; cases e
      · rw [hrun] at e; cases e
      · rw [hrun] at e; cases e
      · rw [hrun] at e; cases e
      · exact e.1
    · cases hl
  obtain ⟨l1, l2, e⟩ := List.append_of_mem hm
  rcases takes_all hf i hu e with ⟨j, v, a1, a2, a3⟩ | ⟨j, v, v', a1, a2⟩
  · exact ⟨j, v, a1, a2, Or.inl (Or.inl a3)⟩
  · have htakes := a2
    obtain ⟨hv, hv', ha, htk, hb, hstep⟩ := a2
    obtain ⟨p1, p2, p3⟩ := C104_no_panic parse firstSend _ (x.reach j) k v hv ha htk
    obtain ⟨n, hn, hs⟩ := sim_run (x.reach j).run
    obtain ⟨w, g1, g2, g3⟩ := hs.yes k v hv
    unfold UserSim at g3
    rw [htk] at g3
    have g4 := g3.2.2.1 ha
    have hw := ((order_steps hn.steps).net.procs k w g1).2
    cases hvl : v.loop with
    | stopped => exact ⟨j, v, a1, hv, Or.inl (Or.inr hvl)⟩
    | unreachable => exact absurd hvl p1
    | crashed =>
      have := p2 hvl
      rw [hfs] at this
      cases this
    | waiting d =>
      exfalso
      rw [hvl] at g4
      cases hwl : w.loop with
      | waiting d' =>
        rw [hwl] at hw
        obtain ⟨rest, e1, _⟩ := hw
        rw [g3.1, hb] at e1
        cases e1
      | running _ => rw [hwl] at g4; cases g4
      | stopped => rw [hwl] at g4; cases g4
      | crashed => rw [hwl] at g4; cases g4
      | unreachable => rw [hwl] at g4; cases g4
    | running st =>
      have hlive : v.live = st.comp := by simp [FineProcs.live, ha, htk, hvl]
      cases hcomp : st.comp with
      | none => exact absurd hcomp (p3 st hvl)
      | some l =>
        cases l with
        | initialized nm id ms c =>
          obtain ⟨before, _, _, hj, _⟩ := C104_order parse firstSend _ (x.reach j) k v hv nm id ms c (hlive.trans hcomp)
          exact ⟨j, v, a1, hv, Or.inr ⟨before, hj⟩⟩
        | uninitialized nm =>
          rw [hvl] at g4
          have hreq : requestOf parse (firstSend k) v.loop (.ws (.ok (.text t))) = some (.registerNewUser nm k) := by
            rw [hvl]
            cases hwl : w.loop with
            | waiting _ => rw [hwl] at g4; cases g4
            | stopped => rw [hwl] at g4; cases g4
            | crashed => rw [hwl] at g4; cases g4
            | unreachable => rw [hwl] at g4; cases g4
            | running st0 =>
              rw [hwl] at hw g4
              obtain ⟨_, e0, l, s0, e1, e2, _⟩ := hw
              simp only [erase, Phase.running.injEq] at g4
              subst g4
              simp only [e1, Option.map_some, Option.some.injEq] at hcomp
              subst hcomp
              have hask : Asks parse (LoopState.mk st0.proc (st0.comp.map (·.1)) st0.dom st0.listeners).listeners
                  (.ws (.ok (.text t)) : Mail LiveviewInput Nat) (.browserRequest .initializeUser) := by
                refine Or.inr ⟨t, _, rfl, ht, Or.inl ?_⟩
                have : st0.listeners = (Live.render (.uninitialized nm)).2 := by rw [e2]
                simp only [this]
                rfl
              obtain ⟨q1, os, q2⟩ := update_outs (C := asker .closed) (st := ⟨st0.proc, st0.comp.map (·.1), st0.dom, st0.listeners⟩)
                (i := .browserRequest .initializeUser) (s := (Live.uninitialized nm).answer (.browserRequest .initializeUser) .closed)
                (es := [.registerNewUser nm k]) (by simp only [e1, e0]; rfl)
              unfold requestOf
              rw [step_asks hask, q2]
              revert q1
              cases (updateAndDiff (asker .closed) ⟨st0.proc, st0.comp.map (·.1), st0.dom, st0.listeners⟩ (.browserRequest .initializeUser)).1 with
              | stopped => intro g; exact absurd rfl g
              | waiting _ => intro _; rfl
              | running _ => intro _; rfl
              | crashed => intro _; rfl
              | unreachable => intro _; rfl
          obtain ⟨hq, _⟩ := takes_asks htakes hreq
          obtain ⟨j', r, ds, c1, c2, c3, c4⟩ := reached_first hf (j + 1) hq
          obtain ⟨z, hz⟩ := x.later hu (j' + 1) (by omega)
          refine ⟨j' + 1, z, by omega, hz, Or.inr ⟨(x.state j').srv.log.length, ?_⟩⟩
          simp only [ChatServer.handle, Option.some.injEq, Prod.mk.injEq] at c4
          rw [← c4.1]
          simp

/-- **C105, page.** In a fair execution in which this user types no `+`, every message accepted since the user registered gets to the user's page: there is a later
moment at which the user's process is over, or the page shows a view in which all of them are. -/
theorem C105_on_page (B : Browser) (hB : KnowsChat B) (parse : String → Option ClientMessage) (firstSend : Nat → Bool) (x : ChatExecution parse firstSend)
    (hf : x.Fair) (i k before : Nat) (hj : (k, before) ∈ (x.state i).srv.joined)
    (hplus : ∀ i u u' m, (x.state i).users k = some u → (x.state (i + 1)).users k = some u' → u'.loopBox = u.loopBox ++ [.ws m] → NoPlus parse m)
    (page : List Dom) (hp : PageOk page) :
    ∃ j u, i ≤ j ∧ (x.state j).users k = some u ∧ (u.Over ∨ ∃ name id shown composing d,
      clientMessages B u.sent page = page ++ [d] ∧ (Live.initialized name id shown composing).render.1.ShownAs d ∧
      ∀ m ∈ (x.state i).srv.log.drop before, m ∈ shown) := by
  obtain ⟨j, u, h1, h2, h3⟩ := C105_delivered parse firstSend x hf i k before hj
  refine ⟨j, u, h1, h2, ?_⟩
  rcases h3 with h3 | ⟨nm, id, ms, c, h3, _, _, h4⟩
  · exact Or.inl h3
  · have hrun : ∀ j, FineRun parse firstSend (fun j m => j = k → NoPlus parse m) (x.state j) := by
      intro j
      induction j with
      | zero => rw [x.start]; exact .init
      | succ j ih =>
        rcases x.step j with e | e
        · rw [e]; exact ih
        · refine .snoc ih e ?_
          rintro k' w w' m e1 e2 e3 rfl
          exact hplus j w w' m e1 e2 e3
    obtain ⟨d, e1, e2⟩ := C104_shown B hB parse firstSend k _ (hrun j) u h2 _ h3 page hp
    exact Or.inr ⟨nm, id, ms, c, d, e1, e2, h4⟩

/-! ## There are fair executions -/

/-- A process: the coordinator, the managing process of a connection, or the component's process of a connection. -/
def ReadyProcess (c : Nat) (n : FineNet) : Prop :=
  if c = 0 then CoordinatorReady n else if c % 2 = 1 then ManagerReady (c / 2) n else LoopReady (c / 2 - 1) n

def MovesProcess (c : Nat) (a b : FineNet) : Prop :=
  if c = 0 then CoordinatorMoves a b else if c % 2 = 1 then ManagerMovesAt (c / 2) a b else LoopMovesAt (c / 2 - 1) a b

/-- A process with something to do can do something. -/
theorem ready_moves {f : FineNet} (h : FineSteps parse fs .init f) (c : Nat) (hr : ReadyProcess c f) : ∃ f', FineStep parse fs f f' ∧ MovesProcess c f f' := by
  unfold ReadyProcess at hr
  unfold MovesProcess
  by_cases h0 : c = 0
  · rw [if_pos h0] at hr
    simp only [if_pos h0]
    obtain ⟨hd, hq⟩ := hr
    obtain ⟨_, n2, n3, _⟩ := C104_no_deadlock parse fs f h
    cases hs : f.serving with
    | none =>
      have hq := hq.resolve_right fun e => e hs
      cases hq' : f.queue with
      | nil => exact absurd hq' hq
      | cons a rest =>
        obtain ⟨k, q⟩ := a
        cases hh : f.srv.handle q with
        | none => exact absurd hh (n2 k q rest hq' hs)
        | some y =>
          obtain ⟨srv, r, ds⟩ := y
          exact ⟨_, .serve f k q rest srv r ds hd hs hq' hh, by simp [CoordinatorMoves, hs]⟩
    | some s =>
      obtain ⟨k, r, ds⟩ := s
      cases ds with
      | nil =>
        obtain ⟨u, m, hu, ht⟩ := n3 k r [] hs
        exact ⟨_, .reply f k r u m hs hu ht, by simp [CoordinatorMoves, hs, FineNet.set]⟩
      | cons d ds =>
        refine ⟨_, .send f k r d ds hs, ?_⟩
        have : (({ f with serving := some ⟨k, r, ds⟩ } : FineNet).deliver d).serving = some ⟨k, r, ds⟩ := by
          unfold FineNet.deliver
          split <;> rfl
        unfold CoordinatorMoves
        rw [this, hs]
        simp
  · rw [if_neg h0] at hr
    simp only [if_neg h0]
    by_cases h1 : c % 2 = 1
    · rw [if_pos h1] at hr
      simp only [if_pos h1]
      obtain ⟨u, hu, hi⟩ := hr
      cases hi' : u.inbox with
      | nil => exact absurd hi' hi
      | cons a rest =>
        exact ⟨_, .forward f _ u a rest hu hi', u, _, hu, FineNet.set_same _ _ _, by simp [hi']⟩
    · rw [if_neg h1] at hr
      simp only [if_neg h1]
      obtain ⟨u, hu, ha, ⟨ht, hb⟩ | ⟨m, r, ht⟩⟩ := hr
      · cases hb' : u.loopBox with
        | nil => exact absurd hb' hb
        | cons m rest =>
          cases hq : requestOf parse (fs (c / 2 - 1)) u.loop m with
          | none => exact ⟨_, .work f _ u m rest hu ha ht hb' hq, u, _, hu, FineNet.set_same _ _ _, Or.inl (by simp [hb'])⟩
          | some q => exact ⟨_, .ask f _ u m rest q hu ha ht hb' hq, u, _, hu, FineNet.set_same _ _ _, Or.inl (by simp [hb'])⟩
      · exact ⟨_, .resume f _ u m r hu ha ht, u, _, hu, FineNet.set_same _ _ _, Or.inr ⟨⟨m, r, ht⟩, rfl⟩⟩

theorem FineSteps.trace {f : FineNet} (h : FineSteps parse fs .init f) :
    ∃ (g : Nat → FineNet) (n : Nat), g 0 = .init ∧ g n = f ∧ ∀ i, i < n → FineStep parse fs (g i) (g (i + 1)) := by
  generalize hi : FineNet.init = a at h
  induction h with
  | refl => exact ⟨fun _ => a, 0, rfl, rfl, fun i hi => absurd hi (Nat.not_lt_zero _)⟩
  | @snoc b c h s ih =>
    obtain ⟨g, n, h1, h2, h3⟩ := ih
    refine ⟨fun i => if i ≤ n then g i else c, n + 1, by simp [h1], by simp, ?_⟩
    intro i hi
    by_cases e : i = n
    · subst e
      have e1 : ¬ i + 1 ≤ i := by omega
      simp only [Nat.le_refl, e1, if_true, if_false, h2]
      exact s
    · have e1 : i ≤ n := by omega
      have e2 : i + 1 ≤ n := by omega
      simp only [e1, e2, if_true]
      exact h3 i (by omega)

open Classical in
/-- Give one process a turn. -/
noncomputable def turn (parse : String → Option ClientMessage) (fs : Nat → Bool) (c : Nat) (f : FineNet) : FineNet :=
  if h : ∃ f', FineStep parse fs f f' ∧ MovesProcess c f f' then h.choose else f

/-- Give every process a turn again and again. -/
noncomputable def turns (parse : String → Option ClientMessage) (fs : Nat → Bool) (f : FineNet) : Nat → FineNet
  | 0 => f
  | n + 1 => turn parse fs (Nat.unpair n).1 (turns parse fs f n)

/-- Whatever has happened so far, it can go on fairly: every finite history is the beginning of a fair execution, in which nothing but the coordinator, the managing processes and
the components' processes moves from then on. -/
theorem fair_extends_quiet (parse : String → Option ClientMessage) (firstSend : Nat → Bool) (g : Nat → FineNet) (n : Nat) (h1 : g 0 = .init)
    (h3 : ∀ i, i < n → FineStep parse firstSend (g i) (g (i + 1))) :
    ∃ x : ChatExecution parse firstSend, x.Fair ∧ (∀ i, i ≤ n → x.state i = g i) ∧
      ∀ i, n ≤ i → x.state (i + 1) = x.state i ∨ ∃ c, FineStep parse firstSend (x.state i) (x.state (i + 1)) ∧ MovesProcess c (x.state i) (x.state (i + 1)) := by
  generalize hgn : g n = f
  have h2 : g n = f := hgn
  have hturn : ∀ c f, turn parse firstSend c f = f ∨ FineStep parse firstSend f (turn parse firstSend c f) := by
    intro c f
    unfold turn
    split
    · rename_i h; exact Or.inr h.choose_spec.1
    · exact Or.inl rfl
  let x : ChatExecution parse firstSend :=
    { state := fun i => if i < n then g i else turns parse firstSend f (i - n)
      start := by
        by_cases e : 0 < n
        · simp [e, h1]
        · have : n = 0 := by omega
          subst this
          simp [turns, ← h2, h1]
      step := by
        intro i
        by_cases e : i + 1 < n
        · have : i < n := by omega
          simp only [e, this, if_true]
          exact Or.inr (h3 i this)
        · by_cases e' : i < n
          · have hn : i + 1 = n := by omega
            simp only [e, e', if_true, if_false]
            right
            rw [hn, Nat.sub_self]
            simp only [turns]
            rw [← h2, ← hn]
            exact h3 i e'
          · simp only [e, e', if_false]
            rw [show i + 1 - n = (i - n) + 1 by omega]
            exact hturn _ _ }
  have hx : ∀ i, x.state (n + i) = turns parse firstSend f i := by
    intro i
    show (if n + i < n then g (n + i) else turns parse firstSend f (n + i - n)) = _
    have : ¬ n + i < n := by omega
    rw [if_neg this, Nat.add_sub_cancel_left]
  have fair : ∀ c i, (∀ j, i ≤ j → ReadyProcess c (x.state j)) → ∃ j, i ≤ j ∧ MovesProcess c (x.state j) (x.state (j + 1)) := by
    intro c i hr
    have hle : i ≤ Nat.pair c i := Nat.right_le_pair c i
    refine ⟨n + Nat.pair c i, by omega, ?_⟩
    have hr := hr (n + Nat.pair c i) (by omega)
    have hm := ready_moves (x.reach _) c hr
    rw [Nat.add_assoc, hx, hx]
    rw [hx] at hm
    simp only [turns, Nat.unpair_pair]
    unfold turn
    rw [dif_pos hm]
    exact hm.choose_spec.2
  refine ⟨x, ⟨?_, ?_, ?_⟩, fun i hi => ?_, fun i hi => ?_⟩
  rotate_right
  · obtain ⟨m, rfl⟩ := Nat.exists_eq_add_of_le hi
    rw [Nat.add_assoc, hx, hx]
    simp only [turns]
    generalize turns parse firstSend f m = f'
    unfold turn
    split
    · rename_i h; exact Or.inr ⟨_, h.choose_spec⟩
    · exact Or.inl rfl
  rotate_right
  · by_cases e : i < n
    · exact if_pos e
    · have : i = n := by omega
      subst this
      have := hx 0
      rw [Nat.add_zero] at this
      rw [this, h2]
      rfl
  · intro i hr
    obtain ⟨j, a, b⟩ := fair 0 i fun j hj => by simpa [ReadyProcess] using hr j hj
    exact ⟨j, a, by simpa [MovesProcess] using b⟩
  · intro k i hr
    have e1 : ¬ (2 * k + 1 = 0) := by omega
    have e2 : (2 * k + 1) % 2 = 1 := by omega
    have e3 : (2 * k + 1) / 2 = k := by omega
    obtain ⟨j, a, b⟩ := fair (2 * k + 1) i fun j hj => by
      unfold ReadyProcess; rw [if_neg e1, if_pos e2, e3]; exact hr j hj
    unfold MovesProcess at b
    rw [if_neg e1, if_pos e2, e3] at b
    exact ⟨j, a, b⟩
  · intro k i hr
    have e1 : ¬ (2 * k + 2 = 0) := by omega
    have e2 : ¬ (2 * k + 2) % 2 = 1 := by omega
    have e3 : (2 * k + 2) / 2 - 1 = k := by omega
    obtain ⟨j, a, b⟩ := fair (2 * k + 2) i fun j hj => by
      unfold ReadyProcess; rw [if_neg e1, if_neg e2, e3]; exact hr j hj
    unfold MovesProcess at b
    rw [if_neg e1, if_neg e2, e3] at b
    exact ⟨j, a, b⟩

/-- Every finite history is the beginning of a fair execution. -/
theorem fair_extends (parse : String → Option ClientMessage) (firstSend : Nat → Bool) (g : Nat → FineNet) (n : Nat) (h1 : g 0 = .init)
    (h3 : ∀ i, i < n → FineStep parse firstSend (g i) (g (i + 1))) :
    ∃ x : ChatExecution parse firstSend, x.Fair ∧ ∀ i, i ≤ n → x.state i = g i := by
  obtain ⟨x, h, h', _⟩ := fair_extends_quiet parse firstSend g n h1 h3
  exact ⟨x, h, h'⟩

/-- **C105, there are fair executions.** Whatever has happened so far, it can go on fairly: for every reachable state there is a fair execution through it. -/
theorem C105_fair_exists (parse : String → Option ClientMessage) (firstSend : Nat → Bool) (f : FineNet) (h : FineSteps parse firstSend .init f) :
    ∃ (x : ChatExecution parse firstSend) (i : Nat), x.Fair ∧ x.state i = f := by
  obtain ⟨g, n, h1, h2, h3⟩ := h.trace
  obtain ⟨x, hx, he⟩ := fair_extends parse firstSend g n h1 h3
  exact ⟨x, n, hx, by rw [he n (Nat.le_refl _), h2]⟩

/-! ## A case -/

theorem stopped_closed {C : Component Unit LiveviewInput (Option Live) CoordinatorInput Nat} {b : Bool}
    {st : LoopState LiveviewInput (Option Live) Nat} {m : Mail LiveviewInput Nat} (h : (loopStep C parse b (.running st) m).1 = .stopped) :
    m = .ws (.error .connectionClosed) := by
  have hu : ∀ i, (updateAndDiff C st i).1 ≠ .stopped := fun i => (update_outs (C := C) (st := st) (i := i) rfl).1
  revert h
  generalize hph : (Phase.running st : FinePhase) = ph
  fun_cases loopStep C parse b ph m
  all_goals first
    | (cases hph; done)
    | (cases hph; exact fun h => absurd h (hu _))
    | (intro h; cases h; done)
    | (intro _; rfl)

/-- The coordinator registers the first one in its mailbox. -/
theorem fine_registers {f : FineNet} (h : FineSteps parse fs .init f) {k : Nat} {nm : String} {rest : List (Nat × CoordinatorInput)} (hs : f.serving = none)
    (hq : f.queue = (k, .registerNewUser nm k) :: rest) (ha : ∀ u, f.users k = some u → u.alive = true) :
    ∃ f' u nm' id ms c, FineSteps parse fs .init f' ∧ f'.srv.log = f.srv.log ∧ f'.srv.joined = f.srv.joined ++ [(k, f.srv.log.length)] ∧ f'.queue = rest ∧
      f'.serving = none ∧ (∀ j, j ≠ k → f'.users j = f.users j) ∧ f'.users k = some u ∧ u.alive = true ∧ u.talk = .free ∧
      u.live = some (.initialized nm' id ms c) ∧ ∃ u0, f.users k = some u0 ∧ u.loopBox = u0.loopBox := by
  obtain ⟨n, hn, hsim⟩ := sim_run h.run
  obtain ⟨u, m, hu, hask, hreq⟩ := hsim.queued k (.registerNewUser nm k) (by rw [hq]; simp)
  obtain ⟨st, hst, _⟩ := register_running hreq
  let srv' : ChatServer := ⟨insertUser f.srv.idGen.getId.1 (nm, k) f.srv.users, f.srv.idGen.getId.2, f.srv.log, f.srv.joined ++ [(k, f.srv.log.length)]⟩
  let r : LiveviewInput := .userRegistered f.srv.idGen.getId.1 nm
  let f2 : FineNet := (⟨srv', rest, none, f.dead, f.users⟩ : FineNet).set k { u with talk := .answered m r }
  let u3 : FineProcs := { u with
    loop := (loopStep (asker r) parse (fs k) u.loop m).1
    talk := .free
    sent := u.sent ++ sends (loopStep (asker r) parse (fs k) u.loop m).2 }
  have s1 : FineSteps parse fs .init ⟨srv', rest, some ⟨k, r, []⟩, f.dead, f.users⟩ := .snoc h (.serve f k _ rest srv' r [] hsim.alive hs hq rfl)
  have s2 : FineSteps parse fs .init f2 := .snoc s1 (.reply _ k r u m rfl hu hask)
  have s3 : FineSteps parse fs .init (f2.set k u3) := .snoc s2 (.resume f2 k { u with talk := .answered m r } m r (FineNet.set_same _ _ _) (ha u hu) rfl)
  have hu3 : (f2.set k u3).users k = some u3 := FineNet.set_same _ _ _
  have hj : k ∈ (f2.set k u3).srv.joined.map (·.1) := by simp [FineNet.set, f2, srv']
  rcases joined_live s3 hu3 (ha u hu) rfl hj with e | ⟨nm', id, ms, c, e⟩
  · exfalso
    have e : (loopStep (asker r) parse (fs k) u.loop m).1 = .stopped := e
    rw [hst] at e hreq
    rw [stopped_closed e] at hreq
    simp only [requestOf, loopStep] at hreq
    split at hreq <;> cases hreq
  · refine ⟨f2.set k u3, u3, nm', id, ms, c, s3, rfl, rfl, rfl, rfl, ?_, hu3, ha u hu, rfl, e, u, hu, rfl⟩
    intro j hj
    rw [FineNet.set_other hj, FineNet.set_other hj]

/-- Two users are registered, and the first one's message has just been accepted: it is on its way to the second one.  There is a fair execution through this state, in
which, by `C105_delivered`, the second user will see it (or its process is over). -/
theorem C105_case (h0 : fs 0 = true) (h1 : fs 1 = true) {t s : String} (ht : parse t = some ⟨"initialize_username", none⟩)
    (hs : parse s = some ⟨"submit_message", none⟩) :
    ∃ (x : ChatExecution parse fs) (i : Nat) (m : ChatMessage), x.Fair ∧ (1, 0) ∈ (x.state i).srv.joined ∧ (x.state i).srv.log = [m] ∧
      ∃ j u, i ≤ j ∧ (x.state j).users 1 = some u ∧ (u.Over ∨ ∃ name id shown composing, u.live = some (.initialized name id shown composing) ∧ m ∈ shown) := by
  obtain ⟨f1, u, m, a1, a2, a3, a4, a5, a6, a7, a8, a9, a10⟩ := fine_asks (parse := parse) (fs := fs) (f := .init) (k := 0) rfl h0 ht
  obtain ⟨f2, v, m', b1, b2, b3, b4, b5, b6, b7, b8, b9, _⟩ := fine_asks (parse := parse) (fs := fs) (f := f1) (k := 1) (by rw [a6 1 (by decide)]; rfl) h1 ht
  have r2 := a1.trans b1
  obtain ⟨f3, u3, nm3, id3, ms3, c3, r3, l3, j3, q3, s3, o3, k3, al3, t3, v3, w3, x3, y3⟩ := fine_registers r2 (k := 0) (nm := "") (rest := [(1, .registerNewUser "" 1)])
    (by rw [b4, a4]; rfl) (by rw [b3, a3]; rfl) (fun w hw => by
      rw [b6 0 (by decide), a7] at hw; cases hw; exact a9)
  obtain ⟨f4, u4, nm4, id4, ms4, c4, r4, l4, j4, q4, s4, o4, k4, al4, t4, v4, _⟩ := fine_registers r3 (k := 1) (nm := "") (rest := []) s3 q3 (fun w hw => by
      rw [o3 1 (by decide), b7] at hw; cases hw; exact b9)
  have hu4 : f4.users 0 = some u3 := by rw [o4 0 (by decide)]; exact k3
  have hbox : u3.loopBox = [] := by
    rw [b6 0 (by decide), a7] at x3
    cases x3
    rw [y3, a10]
  have r5 := FineSteps.snoc r4 (.read f4 0 u3 (.ok (.text s)) hu4)
  have hu5 : (f4.set 0 { u3 with loopBox := u3.loopBox ++ [.ws (.ok (.text s))] }).users 0 = some { u3 with loopBox := u3.loopBox ++ [.ws (.ok (.text s))] } :=
    FineNet.set_same _ _ _
  have hreq := click_sends r5 hu5 v3 hs
  have r6 := FineSteps.snoc r5 (.ask _ 0 _ (.ws (.ok (.text s))) [] (.sendMessage id3 c3) hu5 al3 t3 (by simp [hbox]) hreq)
  obtain ⟨d1, d2, _⟩ := C104_no_deadlock parse fs _ r6
  have hq6 : f4.queue ++ [(0, CoordinatorInput.sendMessage id3 c3)] = (0, .sendMessage id3 c3) :: [] := by rw [q4]; rfl
  have hnn := d2 0 (.sendMessage id3 c3) [] hq6 s4
  have hnn : f4.srv.handle (.sendMessage id3 c3) ≠ none := hnn
  have hlog : f4.srv.log = [] := by rw [l4, l3, b2, a2]; rfl
  have hjoin : f4.srv.joined = [(0, 0), (1, 0)] := by rw [j4, l3, j3, b2, a2]; rfl
  cases hg : getUser id3 f4.srv.users with
  | none => simp [ChatServer.handle, hg] at hnn
  | some w =>
    have hh : f4.srv.handle (.sendMessage id3 c3) = some (⟨f4.srv.users, f4.srv.idGen, f4.srv.log ++ [⟨id3, w.1, c3⟩], f4.srv.joined⟩, .receiveMessage ⟨id3, w.1, c3⟩,
        (f4.srv.users.filter fun u => u.1 != id3).map fun u => ⟨u.2.2, .receiveMessage ⟨id3, w.1, c3⟩⟩) := by
      simp only [ChatServer.handle, hg]
    have r7 := FineSteps.snoc r6 (.serve _ 0 (.sendMessage id3 c3) [] _ _ _ d1 s4 hq6 hh)
    obtain ⟨x, i, hf, hx⟩ := C105_fair_exists parse fs _ r7
    have hj1 : (1, 0) ∈ (x.state i).srv.joined := by rw [hx]; simp [hjoin]
    have hl1 : (x.state i).srv.log = [⟨id3, w.1, c3⟩] := by rw [hx]; simp [hlog]
    refine ⟨x, i, ⟨id3, w.1, c3⟩, hf, hj1, hl1, ?_⟩
    obtain ⟨j, u, e1, e2, e3⟩ := C105_delivered parse fs x hf i 1 0 hj1
    refine ⟨j, u, e1, e2, ?_⟩
    rcases e3 with e3 | ⟨n, id, sh, c, e3, _, _, e4⟩
    · exact Or.inl e3
    · exact Or.inr ⟨n, id, sh, c, e3, e4 _ (by rw [hl1]; simp)⟩

end Puck.Chat
