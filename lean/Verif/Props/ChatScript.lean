import Verif.Lemmas.ChatScript
import Verif.Props.Router
/-!
# The chat does what its users do (C138, C139, C140)
-/
namespace Puck.Chat

variable {parse : String → Option ClientMessage} {fs : Nat → Bool} {x : ChatExecution parse fs}

/-! ## Reading on -/

theorem passedOn_step (x : ChatExecution parse fs) (k i : Nat) : ∃ more, passedOn x k (i + 1) = passedOn x k i ++ more := by
  rw [passedOn]
  split
  · exact ⟨_, rfl⟩
  · exact ⟨[], by simp⟩

theorem passedOn_grows (x : ChatExecution parse fs) (k : Nat) {i j : Nat} (h : i ≤ j) : passedOn x k i <+: passedOn x k j := by
  induction j with
  | zero =>
    have : i = 0 := by omega
    subst this; simp
  | succ j ih =>
    by_cases e : i = j + 1
    · subst e; simp
    · obtain ⟨more, hm⟩ := passedOn_step x k j
      exact (ih (by omega)).trans (by rw [hm]; exact List.prefix_append _ _)

/-- What is read later only adds to what the user has sent. -/
theorem script_grows {ms ms' : List (Except NextMessageError Message)} (h : ms <+: ms') {name field : String} {sent : List String}
    (hs : script parse ms = .chatting name field sent) : ∃ field' more, script parse ms' = .chatting name field' (sent ++ more) := by
  obtain ⟨t, rfl⟩ := h
  unfold script at hs ⊢
  rw [List.foldl_append, hs]
  clear hs
  induction t generalizing field sent with
  | nil => exact ⟨field, [], by simp⟩
  | cons m t ih =>
    have : ∃ f more, ChatScript.reads parse (.chatting name field sent) m = .chatting name f (sent ++ more) := by
      unfold ChatScript.reads
      split
      · split
        · simp only [ChatScript.event]
          split
          · exact ⟨_, [], by rw [List.append_nil]⟩
          · split
            · exact ⟨_, _, rfl⟩
            · exact ⟨_, [], by rw [List.append_nil]⟩
        · exact ⟨_, [], by rw [List.append_nil]⟩
      · exact ⟨_, [], by rw [List.append_nil]⟩
    obtain ⟨f, more, e⟩ := this
    rw [List.foldl_cons, e]
    obtain ⟨f', more', e'⟩ := ih (field := f) (sent := sent ++ more)
    exact ⟨f', more ++ more', by rw [e', List.append_assoc]⟩

/-! ## C138 -/

/-- **C138.** In every execution of the chat, whatever all the users, readers and the scheduler do: what a component that is between two messages knows of its own user
is exactly what that user's browser has sent, up to the point the component has got to: the same name, the same text in the field, and, among the messages shown, its
user's own are the texts the user has sent, each once, in order, under that name. -/
theorem C138_faithful (parse : String → Option ClientMessage) (firstSend : Nat → Bool) (x : ChatExecution parse firstSend) (i k : Nat) (u : FineProcs) (l : Live)
    (hu : (x.state i).users k = some u) (hl : u.live = some l) :
    ∃ taken, taken <+: passedOn x k i ∧ (script parse taken).Says l := by
  obtain ⟨taken, h1, h2⟩ := heard_live hu hl
  exact ⟨taken, by rw [h1]; exact List.prefix_append _ _, h2⟩

/-! ## C139 -/

/-- **C139.** In every execution, every message the coordinator has ever accepted has an author, once and for all, such that the messages of each author are exactly
the texts that this author's browser has sent, up to some point, each once, in order, under the name the author chose and with one id.  Nothing is logged that nobody
sent, nothing is logged twice, and nothing is logged under another name. -/
theorem C139_log (parse : String → Option ClientMessage) (firstSend : Nat → Bool) (x : ChatExecution parse firstSend) :
    ∃ authors : Nat → List Nat, (∀ i j, i ≤ j → authors i <+: authors j) ∧ ∀ i, (authors i).length = (x.state i).srv.log.length ∧
      ∀ k, ∃ taken id, taken <+: passedOn x k i ∧ authored (authors i) (x.state i).srv.log k = (script parse taken).messages id := by
  obtain ⟨authors, h1, h2⟩ := heard_authors x
  refine ⟨authors, h1, fun i => ?_⟩
  obtain ⟨n, _, h3, h4⟩ := h2 i
  have e := h4.srv
  refine ⟨by rw [← e]; exact h3.len, fun k => ?_⟩
  rw [← e]
  cases hu : (x.state i).users k with
  | none =>
    obtain ⟨g1, g2⟩ := h3.no k (h4.no k hu)
    exact ⟨[], 0, by simp, by rw [g2]; rfl⟩
  | some u =>
    obtain ⟨v, hv, _⟩ := h4.yes k u hu
    obtain ⟨taken, heeded, id, g1, g2, _, g4, _⟩ := h3.yes k v hv
    exact ⟨heeded, id, g2.trans (by rw [g1]; exact List.prefix_append _ _), g4⟩

/-! ## C140 -/

/-- One step, and how many of the browser's messages are still to be taken. -/
theorem count_step {i k : Nat} {u u' : FineProcs} (hu : (x.state i).users k = some u) (hu' : (x.state (i + 1)).users k = some u')
    (h : UserStep parse (fs k) u u') :
    (socketOf u'.loopBox).length + (passedOn x k i).length ≤ (socketOf u.loopBox).length + (passedOn x k (i + 1)).length := by
  have hle : (passedOn x k i).length ≤ (passedOn x k (i + 1)).length := (passedOn_grows x k (Nat.le_succ i)).length_le
  cases h with
  | same => omega
  | got d => simpa using hle
  | forward j rest hi => simpa [socketOf_append, socketOf] using hle
  | read m =>
    rw [passedOn_read hu hu' rfl]
    simp [socketOf_append, socketOf]
    omega
  | work m rest h1 h2 h3 h4 =>
    rw [h3]
    have : (socketOf rest).length ≤ (socketOf (m :: rest)).length := by cases m <;> simp [socketOf]
    simp only
    omega
  | ask m rest q h1 h2 h3 h4 =>
    rw [h3]
    have : (socketOf rest).length ≤ (socketOf (m :: rest)).length := by cases m <;> simp [socketOf]
    simp only
    omega
  | reply m r h1 => simpa using hle
  | resume m r h1 h2 => simpa using hle
  | die => simpa using hle

/-- All but the messages after the first `G` have been taken. -/
def Caught' (x : ChatExecution parse fs) (k G t : Nat) : Prop :=
  ∃ u, (x.state t).users k = some u ∧ (socketOf u.loopBox).length + G ≤ (passedOn x k t).length

theorem caught_later {k G i j : Nat} (h : Caught' x k G i) (hij : i ≤ j) : Caught' x k G j := by
  induction j with
  | zero =>
    have : i = 0 := by omega
    subst this; exact h
  | succ j ih =>
    by_cases e : i = j + 1
    · subst e; exact h
    · obtain ⟨u, h1, h2⟩ := ih (by omega)
      obtain ⟨u', g1, g2⟩ := x.user h1
      have := count_step h1 g1 g2
      exact ⟨u', g1, by omega⟩

/-- A process that takes nothing: its mailbox grows by what is passed on. -/
theorem box_new {i j k : Nat} {u : FineProcs} (hu : (x.state i).users k = some u) (hij : i ≤ j)
    (hx : ∀ l, i ≤ l → l < j → ∀ v v' m, ¬ TakesAt x k l v v' m) :
    ∃ u' new, (x.state j).users k = some u' ∧ u'.loopBox = u.loopBox ++ new ∧ (socketOf new).length + (passedOn x k i).length ≤ (passedOn x k j).length := by
  induction j with
  | zero =>
    have : i = 0 := by omega
    subst this
    exact ⟨u, [], hu, by simp, by simp [socketOf]⟩
  | succ j ih =>
    by_cases e : i = j + 1
    · subst e; exact ⟨u, [], hu, by simp, by simp [socketOf]⟩
    · obtain ⟨w, new, h1, h2, h3⟩ := ih (by omega) fun l a b => hx l a (by omega)
      obtain ⟨w', g1, g2⟩ := x.user h1
      obtain ⟨⟨t, b1⟩, _⟩ := box_grows h1 g1 g2 (hx j (by omega) (by omega))
      have hc := count_step h1 g1 g2
      refine ⟨w', new ++ t, g1, by rw [← b1, h2, List.append_assoc], ?_⟩
      rw [← b1, socketOf_append] at hc
      rw [socketOf_append]
      simp only [List.length_append] at hc ⊢
      omega

/-- The first time a process takes something. -/
theorem first_take {i j k : Nat} {v v' : FineProcs} {m : Mail LiveviewInput Nat} (hij : i ≤ j) (h : TakesAt x k j v v' m) :
    ∃ j v v' m, i ≤ j ∧ TakesAt x k j v v' m ∧ ∀ l, i ≤ l → l < j → ∀ v v' m, ¬ TakesAt x k l v v' m := by
  induction j using Nat.strongRecOn generalizing v v' m with
  | ind j ih =>
    by_cases hlt : ∃ l, i ≤ l ∧ l < j ∧ ∃ v v' m, TakesAt x k l v v' m
    · obtain ⟨l, h1, h2, w, w', m', h3⟩ := hlt
      exact ih l h2 h1 h3
    · exact ⟨j, v, v', m, hij, h, fun l a b w w' m' hw => hlt ⟨l, a, b, w, w', m', hw⟩⟩

/-- A process takes whatever is in its mailbox, unless it is killed. -/
theorem catches_up (hf : x.Fair) {k G : Nat} (l : List (Mail LiveviewInput Nat)) : ∀ (i : Nat) (u : FineProcs) (l2 : List (Mail LiveviewInput Nat)),
    (x.state i).users k = some u → u.loopBox = l ++ l2 → (socketOf l2).length + G ≤ (passedOn x k i).length →
    (∃ j v, i ≤ j ∧ (x.state j).users k = some v ∧ v.alive = false) ∨ ∃ j, i ≤ j ∧ Caught' x k G j := by
  induction l with
  | nil => exact fun i u l2 h1 h2 h3 => Or.inr ⟨i, Nat.le_refl _, u, h1, by rw [h2]; exact h3⟩
  | cons m l ih =>
    intro i u l2 h1 h2 h3
    rcases takes hf i h1 h2 with h | ⟨j, v, v', g1, g2, _⟩
    · exact Or.inl h
    · obtain ⟨j, v, v', m', g1, g2, g3⟩ := first_take g1 g2
      obtain ⟨w, new, e1, e2, e3⟩ := box_new h1 g1 g3
      obtain ⟨t1, t2, t3, t4, t5, t6⟩ := g2
      rw [t1] at e1
      cases e1
      rw [t5, h2] at e2
      simp only [List.cons_append, List.append_assoc, List.cons.injEq] at e2
      have hle : (passedOn x k j).length ≤ (passedOn x k (j + 1)).length := (passedOn_grows x k (Nat.le_succ j)).length_le
      rcases ih (j + 1) v' (l2 ++ new) t2 e2.2 (by rw [socketOf_append, List.length_append]; omega) with ⟨j', w, a1, a2⟩ | ⟨j', a1, a2⟩
      · exact Or.inl ⟨j', w, by omega, a2⟩
      · exact Or.inr ⟨j', by omega, a2⟩

/-- A loop that has begun does not begin again. -/
theorem begun_step {C : Component Unit LiveviewInput (Option Live) CoordinatorInput Nat} {b : Bool} {ph : FinePhase} {m : Mail LiveviewInput Nat} {d : Unit}
    (h : (loopStep C parse b ph m).1 = .waiting d) : False := by
  have hu : ∀ st i, (updateAndDiff C st i).1 ≠ .waiting d := by
    intro st i
    simp only [updateAndDiff]
    split <;> simp
  revert h
  fun_cases loopStep C parse b ph m
  all_goals first
    | exact hu _ _
    | (intro h; simp_all)

theorem begun_later {i j k : Nat} {u : FineProcs} (hu : (x.state i).users k = some u) (hw : ∀ d, u.loop ≠ .waiting d) (hij : i ≤ j) :
    ∃ v, (x.state j).users k = some v ∧ ∀ d, v.loop ≠ .waiting d := by
  induction j with
  | zero =>
    have : i = 0 := by omega
    subst this; exact ⟨u, hu, hw⟩
  | succ j ih =>
    by_cases e : i = j + 1
    · subst e; exact ⟨u, hu, hw⟩
    · obtain ⟨w, h1, h2⟩ := ih (by omega)
      obtain ⟨w', g1, g2⟩ := x.user h1
      refine ⟨w', g1, ?_⟩
      cases g2 with
      | work m rest a1 a2 a3 a4 => exact fun d e => begun_step e
      | resume m r a1 a2 => exact fun d e => begun_step e
      | same => exact h2
      | got d => exact h2
      | forward j rest hi => exact h2
      | read m => exact h2
      | ask m rest q a1 a2 a3 a4 => exact h2
      | reply m r a1 => exact h2
      | die => exact h2

/-- A loop begins, unless it is killed. -/
theorem begins (hf : x.Fair) {i k : Nat} {u : FineProcs} (hu : (x.state i).users k = some u) :
    ∃ j v, i ≤ j ∧ (x.state j).users k = some v ∧ (v.alive = false ∨ ∀ d, v.loop ≠ .waiting d) := by
  obtain ⟨j, v, h1, h2, h3⟩ := goes_on hf i hu
  by_cases hd : ∃ d, v.loop = .waiting d
  · obtain ⟨d, hd⟩ := hd
    rcases h3 with h3 | h3
    · exact ⟨j, v, h1, h2, Or.inl h3⟩
    · by_cases ha : v.alive = false
      · exact ⟨j, v, h1, h2, Or.inl ha⟩
      · -- its mailbox begins with its identity
        obtain ⟨n, hn, hs⟩ := sim_run (x.reach j).run
        obtain ⟨w, g1, _, g3⟩ := hs.yes k v h2
        unfold UserSim at g3
        rw [h3] at g3
        obtain ⟨g3, _, g4, _⟩ := g3
        have g4 := g4 (by simpa using ha)
        rw [hd] at g4
        have hp := ((order_steps hn.steps).net.procs k w g1).2
        cases hw : w.loop with
        | waiting d' =>
          rw [hw] at hp
          obtain ⟨rest, hr, _⟩ := hp
          rw [g3] at hr
          rcases takes hf j h2 hr with ⟨j', v', a1, a2, a3⟩ | ⟨j', v', v'', a1, a2, _⟩
          · exact ⟨j', v', by omega, a2, Or.inl a3⟩
          · obtain ⟨t1, t2, t3, t4, t5, t6⟩ := a2
            by_cases hb : ∀ d, v'.loop ≠ .waiting d
            · exact ⟨j', v', by omega, t1, Or.inr hb⟩
            · refine ⟨j' + 1, v'', by omega, t2, Or.inr ?_⟩
              have hlen : v'.loopBox.length = v''.loopBox.length + 1 := by rw [t5]; simp
              have hwait : ∃ d, v'.loop = .waiting d := by
                apply Classical.byContradiction
                intro hn
                exact hb fun d e => hn ⟨d, e⟩
              obtain ⟨d2, hd2⟩ := hwait
              cases t6 with
              | work m rest b1 b2 b3 b4 => exact fun d e => begun_step e
              | ask m rest q b1 b2 b3 b4 =>
                exfalso
                rw [hd2] at b4
                cases m with
                | input i => simp [requestOf, loopStep, firstRequest] at b4
                | ws i => simp [requestOf, loopStep, firstRequest] at b4
                | whoAmI p =>
                  simp only [requestOf, loopStep, asker, List.map_nil, List.nil_append] at b4
                  split at b4
                  · simp [firstRequest] at b4
                  · split at b4 <;> simp [firstRequest] at b4
              | same => omega
              | got d => simp at hlen
              | forward j rest hi => simp at hlen; omega
              | read m => simp at hlen; omega
              | reply m r a1 => simp at hlen
              | resume m r a1 a2 => simp at hlen
              | die => simp at hlen
        | running st => rw [hw] at g4; cases g4
        | stopped => rw [hw] at g4; cases g4
        | crashed => rw [hw] at g4; cases g4
        | unreachable => rw [hw] at g4; cases g4
  · exact ⟨j, v, h1, h2, Or.inr fun d e => hd ⟨d, e⟩⟩

/-- Once the first page has been sent, a component gets round to whatever its browser has sent. -/
theorem gets_round (hf : x.Fair) {i k : Nat} {u : FineProcs} (hu : (x.state i).users k = some u) (hfirst : fs k = true) :
    ∃ j v, i ≤ j ∧ (x.state j).users k = some v ∧
      (v.Over ∨ ∃ l, v.live = some l ∧ (socketOf v.loopBox).length + (passedOn x k i).length ≤ (passedOn x k j).length) := by
  rcases catches_up hf (G := (passedOn x k i).length) u.loopBox i u [] hu (by simp) (by simp [socketOf]) with ⟨j, v, h1, h2, h3⟩ | ⟨j, h1, h2⟩
  · exact ⟨j, v, h1, h2, Or.inl (Or.inl h3)⟩
  · have h2' := h2
    obtain ⟨w, hw, _⟩ := h2
    obtain ⟨j1, w1, a1, a2, a3⟩ := begins hf hw
    rcases a3 with a3 | a3
    · exact ⟨j1, w1, by omega, a2, Or.inl (Or.inl a3)⟩
    · obtain ⟨j2, w2, b1, b2, b3⟩ := goes_on hf j1 a2
      refine ⟨j2, w2, by omega, b2, ?_⟩
      by_cases ha : w2.alive = false
      · exact Or.inl (Or.inl ha)
      · have ha : w2.alive = true := by simpa using ha
        have ht : w2.talk = .free := b3.resolve_left (by rw [ha]; simp)
        obtain ⟨w2', c1, c2⟩ := begun_later a2 a3 b1
        rw [b2] at c1
        cases c1
        obtain ⟨p1, p2, p3⟩ := C104_no_panic parse fs _ (x.reach j2) k w2 b2 ha ht
        cases hl : w2.loop with
        | waiting d => exact absurd hl (c2 d)
        | stopped => exact Or.inl (Or.inr hl)
        | unreachable => exact absurd hl p1
        | crashed => rw [p2 hl] at hfirst; cases hfirst
        | running st =>
          right
          have hlive : w2.live = st.comp := by simp [FineProcs.live, ha, ht, hl]
          cases hcomp : st.comp with
          | none => exact absurd hcomp (p3 st hl)
          | some l =>
            rw [hcomp] at hlive
            obtain ⟨w2', d1, d2⟩ := caught_later (x := x) (k := k) (G := (passedOn x k i).length) (i := j) (j := j2) h2' (by omega)
            rw [b2] at d1
            cases d1
            exact ⟨l, hlive, d2⟩

/-- **C140, everything counts.** In a fair execution, once the first page has been sent, everything a browser has sent is acted upon: there is a later moment at which the user's
process is over (killed, or told that the connection is closed), or the component is between two messages and has taken all of it. -/
theorem C140_heeded (parse : String → Option ClientMessage) (firstSend : Nat → Bool) (x : ChatExecution parse firstSend) (hf : x.Fair) (i k : Nat) (u : FineProcs)
    (hu : (x.state i).users k = some u) (hfirst : firstSend k = true) :
    ∃ j v, i ≤ j ∧ (x.state j).users k = some v ∧ (v.Over ∨ ∃ l taken, v.live = some l ∧ passedOn x k i <+: taken ∧ taken <+: passedOn x k j ∧
      (script parse taken).Says l) := by
  obtain ⟨j, v, h1, h2, h3⟩ := gets_round hf hu hfirst
  refine ⟨j, v, h1, h2, ?_⟩
  rcases h3 with h3 | ⟨l, h3, h4⟩
  · exact Or.inl h3
  · obtain ⟨taken, e1, e2⟩ := heard_live h2 h3
    have hlen := congrArg List.length e1
    rw [List.length_append] at hlen
    exact Or.inr ⟨l, taken, h3, prefix_of_le (passedOn_grows x k h1) (by rw [e1]; exact List.prefix_append _ _) (by omega),
      by rw [e1]; exact List.prefix_append _ _, e2⟩

/-- A user is registered at the length the log has at that time. -/
theorem joined_le {f : FineNet} (h : FineSteps parse fs .init f) : ∀ p ∈ f.srv.joined, p.2 ≤ f.srv.log.length := by
  induction h with
  | refl => simp [FineNet.init, ChatServer.init]
  | @snoc f f' hs st ih =>
    have hh : ∀ {s s' : ChatServer} {q : CoordinatorInput} {r : LiveviewInput} {ds : List Delivery}, s.handle q = some (s', r, ds) →
        (∀ p ∈ s.joined, p.2 ≤ s.log.length) → ∀ p ∈ s'.joined, p.2 ≤ s'.log.length := by
      intro s s' q r ds h hi p hp
      cases q with
      | registerNewUser u q =>
        simp only [ChatServer.handle, Option.some.injEq, Prod.mk.injEq] at h
        obtain ⟨rfl, _, _⟩ := h
        simp only [List.mem_append, List.mem_singleton] at hp
        rcases hp with hp | rfl
        · exact hi p hp
        · simp
      | setUsername id u =>
        simp only [ChatServer.handle, Option.some.injEq, Prod.mk.injEq] at h
        obtain ⟨rfl, _, _⟩ := h
        exact hi p hp
      | removeUser id =>
        simp only [ChatServer.handle, Option.some.injEq, Prod.mk.injEq] at h
        obtain ⟨rfl, _, _⟩ := h
        exact hi p hp
      | sendMessage id c =>
        simp only [ChatServer.handle] at h
        split at h
        · cases h
        · simp only [Option.some.injEq, Prod.mk.injEq] at h
          obtain ⟨rfl, _, _⟩ := h
          have := hi p hp
          simp only [List.length_append]
          omega
    cases st with
    | serve j q queue srv r ds h1 h2 h3 h4 => exact hh h4 ih
    | send j r d ds hs =>
      unfold FineNet.deliver
      split
      · exact ih
      · exact ih
    | connect => exact ih
    | forward => exact ih
    | read => exact ih
    | work => exact ih
    | ask => exact ih
    | panic => exact ih
    | reply => exact ih
    | resume => exact ih
    | die => exact ih
    | shuffle => exact ih

theorem authored_append {a a' : List Nat} {l l' : List ChatMessage} (h : a.length = l.length) (k : Nat) :
    authored (a ++ a') (l ++ l') k = authored a l k ++ authored a' l' k := by
  unfold authored
  rw [List.zip_append h, List.filter_append, List.map_append]

theorem authored_sublist (a : List Nat) (l : List ChatMessage) (k : Nat) : (authored a l k).Sublist l := by
  unfold authored
  have h1 : (((a.zip l).filter fun p => p.1 == k).map (·.2)).Sublist ((a.zip l).map (·.2)) := List.Sublist.map _ List.filter_sublist
  refine h1.trans ?_
  clear h1
  induction a generalizing l with
  | nil => simp
  | cons x a ih =>
    cases l with
    | nil => simp
    | cons y l => simpa using ih l

theorem script_sent {ms ms' : List (Except NextMessageError Message)} (h : ms <+: ms') : (script parse ms).sent <+: (script parse ms').sent := by
  obtain ⟨t, rfl⟩ := h
  induction t using snoc_induction with
  | nil => simp
  | snoc t m ih =>
    rw [← List.append_assoc]
    refine ih.trans ?_
    rw [script_snoc]
    unfold ChatScript.reads
    split
    · split
      · rename_i e _
        generalize script parse (ms ++ t) = s
        cases s with
        | naming name =>
          simp only [ChatScript.event]
          split
          · simp [ChatScript.sent]
          · split <;> simp [ChatScript.sent]
        | chatting name field sent =>
          simp only [ChatScript.event]
          split
          · simp [ChatScript.sent]
          · split <;> simp [ChatScript.sent]
      · simp
    · simp

theorem messages_sent (s : ChatScript) (id : Nat) : (s.messages id).map (·.contents) = s.sent := by
  cases s with
  | naming => rfl
  | chatting nm f sent => simp [ChatScript.messages, ChatScript.sent, Function.comp_def]

theorem sublist_suffix {α : Type} {a b c d : List α} (h : a ++ b = c ++ d) (hl : a.length ≤ c.length) : d.Sublist b := by
  rcases List.append_eq_append_iff.1 h with ⟨t, e1, e2⟩ | ⟨t, e1, e2⟩
  · rw [e2]; exact List.sublist_append_right _ _
  · have := congrArg List.length e1
    simp only [List.length_append] at this
    have ht : t = [] := by cases t with | nil => rfl | cons _ _ => simp at this; omega
    subst ht
    simp at e2
    rw [e2]
    exact List.Sublist.refl _

/-- **C140, everybody sees it.** In a fair execution, once a user is registered, whatever another user's browser sends from then on is shown to that user: `before` is what
the sender had sent when the recipient had already registered, `more` is what it has sent since.  There is a later moment at which the sender's process is over (killed, or
told that the connection is closed), or the recipient's is, or all of `more` is among the messages the recipient shows, in the order in which it was sent, under the
sender's name. -/
theorem C140_delivered (parse : String → Option ClientMessage) (firstSend : Nat → Bool) (x : ChatExecution parse firstSend) (hf : x.Fair) (i0 i k k' at_ : Nat)
    (hj : (k', at_) ∈ (x.state i0).srv.joined) (hi : i0 ≤ i) (hfirst : firstSend k = true) (name field : String) (before more : List String)
    (hb : (script parse (passedOn x k i0)).sent = before) (hm : script parse (passedOn x k i) = .chatting name field (before ++ more)) :
    ∃ j, i ≤ j ∧ ((∃ u, (x.state j).users k = some u ∧ u.Over) ∨ ∃ v, (x.state j).users k' = some v ∧ (v.Over ∨
      ∃ name' id' shown composing id, v.live = some (.initialized name' id' shown composing) ∧ (more.map fun t => (⟨id, name, t⟩ : ChatMessage)).Sublist shown)) := by
  obtain ⟨u, hu⟩ : ∃ u, (x.state i).users k = some u := by
    cases hu : (x.state i).users k with
    | some u => exact ⟨u, rfl⟩
    | none =>
      exfalso
      obtain ⟨a, n, _, h2, h3⟩ := heard_at x i
      rw [(h2.no k (h3.no k hu)).1] at hm
      cases hm
  obtain ⟨j1, v, h1, h2, h3⟩ := gets_round hf hu hfirst
  rcases h3 with h3 | ⟨l, h3, h4⟩
  · exact ⟨j1, h1, Or.inl ⟨v, h2, h3⟩⟩
  obtain ⟨authors, ha1, ha2⟩ := heard_authors x
  obtain ⟨n0, _, g0, s0⟩ := ha2 i0
  obtain ⟨n1, _, g1, s1⟩ := ha2 j1
  obtain ⟨w, hw, hwl, _, hbox, _⟩ := s1.live h2 h3
  obtain ⟨taken, heeded, id, t1, _, _, t4, t5⟩ := g1.yes k w hw
  obtain ⟨rfl, t6, _⟩ := t5 l hwl
  have t1 : passedOn x k j1 = heeded ++ socketOf w.loopBox := t1
  rw [hbox] at t1
  have hlen := congrArg List.length t1
  rw [List.length_append] at hlen
  have hpre : passedOn x k i <+: heeded := prefix_of_le (passedOn_grows x k h1) (by rw [t1]; exact List.prefix_append _ _) (by omega)
  obtain ⟨field', more', hscript⟩ := script_grows hpre hm
  rw [hscript] at t4
  -- what the sender had logged when the recipient had registered
  have hold : (authored (authors i0) (x.state i0).srv.log k).length ≤ before.length := by
    have e0 := s0.srv
    rw [← e0]
    cases hu0 : n0.users k with
    | none => rw [(g0.no k hu0).2]; simp
    | some w0 =>
      obtain ⟨taken0, heeded0, id0, b1, b2, _, b4, _⟩ := g0.yes k w0 hu0
      have b1 : passedOn x k i0 = taken0 ++ socketOf w0.loopBox := b1
      rw [b4]
      have hle := (script_sent (parse := parse) (b2.trans (by rw [b1]; exact List.prefix_append _ _) : heeded0 <+: passedOn x k i0)).length_le
      rw [hb, ← messages_sent _ id0, List.length_map] at hle
      exact hle
  have e1 := s1.srv
  rw [e1] at t4
  have hle := joined_le (x.reach i0) _ hj
  have hl0 : (authors i0).length = (x.state i0).srv.log.length := by rw [← s0.srv]; exact g0.len
  have hl1 : (authors j1).length = (x.state j1).srv.log.length := by rw [← s1.srv]; exact g1.len
  obtain ⟨ta, hta⟩ := ha1 i0 j1 (by omega)
  obtain ⟨tl, htl⟩ := (x.grows (show i0 ≤ j1 by omega)).1
  have hcut : ((authors j1).take at_).length = ((x.state j1).srv.log.take at_).length := by simp [hl1]
  have hsplit := authored_append (a' := (authors j1).drop at_) (l' := (x.state j1).srv.log.drop at_) hcut k
  rw [List.take_append_drop, List.take_append_drop, t4] at hsplit
  have hshort : (authored ((authors j1).take at_) ((x.state j1).srv.log.take at_) k).length ≤ before.length := by
    refine Nat.le_trans ?_ hold
    have hle : at_ ≤ (x.state i0).srv.log.length := hle
    rw [← hta, ← htl, List.take_append_of_le_length (by omega), List.take_append_of_le_length hle]
    have hs2 := authored_append (a := (authors i0).take at_) (a' := (authors i0).drop at_) (l := (x.state i0).srv.log.take at_)
      (l' := (x.state i0).srv.log.drop at_) (by simp [hl0]) k
    rw [List.take_append_drop, List.take_append_drop] at hs2
    rw [hs2, List.length_append]
    omega
  simp only [ChatScript.messages] at hsplit
  rw [List.append_assoc, List.map_append] at hsplit
  have hsub := sublist_suffix hsplit.symm (by rw [List.length_map]; exact hshort)
  rw [List.map_append] at hsub
  have hsub := (List.sublist_append_left _ _).trans (hsub.trans (authored_sublist _ _ k))
  have hj1 := (x.grows (show i0 ≤ j1 by omega)).2.subset hj
  obtain ⟨j2, v2, c1, c2, c3⟩ := C105_delivered parse firstSend x hf j1 k' at_ hj1
  refine ⟨j2, by omega, Or.inr ⟨v2, c2, ?_⟩⟩
  rcases c3 with c3 | ⟨name', id', shown, c, c3, c4, c5, _⟩
  · exact Or.inl c3
  · refine Or.inr ⟨name', id', shown, c, id, c3, ?_⟩
    by_cases e : id = id'
    · subst e
      have := hsub.filter fun m => m.sender == id
      rw [List.filter_eq_self.2 (by simp)] at this
      exact this.trans (c4.sublist.trans List.filter_sublist)
    · have := hsub.filter fun m => m.sender != id'
      rw [List.filter_eq_self.2 (by simp [e])] at this
      exact this.trans (c5.sublist.trans List.filter_sublist)

/-- **C140, on the page.** As `C140_delivered`, up to the recipient's page, if the recipient's browser never sends a `+`: there is a later moment at which the sender's
process is over, or the recipient's is, or what the recipient's page shows is a view with all of `more` in it, in order, under the sender's name. -/
theorem C140_on_page (B : Browser) (hB : KnowsChat B) (parse : String → Option ClientMessage) (firstSend : Nat → Bool) (x : ChatExecution parse firstSend) (hf : x.Fair)
    (i0 i k k' at_ : Nat) (hj : (k', at_) ∈ (x.state i0).srv.joined) (hi : i0 ≤ i) (hfirst : firstSend k = true) (name field : String) (before more : List String)
    (hb : (script parse (passedOn x k i0)).sent = before) (hm : script parse (passedOn x k i) = .chatting name field (before ++ more))
    (hplus : ∀ j, ∀ m ∈ passedOn x k' j, NoPlus parse m) (page : List Dom) (hp : PageOk page) :
    ∃ j, i ≤ j ∧ ((∃ u, (x.state j).users k = some u ∧ u.Over) ∨ ∃ v, (x.state j).users k' = some v ∧ (v.Over ∨
      ∃ name' id' shown composing id d, clientMessages B v.sent page = page ++ [d] ∧ (Live.initialized name' id' shown composing).render.1.ShownAs d ∧
        (more.map fun t => (⟨id, name, t⟩ : ChatMessage)).Sublist shown)) := by
  obtain ⟨j, h1, h2⟩ := C140_delivered parse firstSend x hf i0 i k k' at_ hj hi hfirst name field before more hb hm
  refine ⟨j, h1, h2.imp_right ?_⟩
  rintro ⟨v, h3, h4⟩
  refine ⟨v, h3, h4.imp_right ?_⟩
  rintro ⟨nm, id', ms, c, id, h5, h6⟩
  have hrun : ∀ j, FineRun parse firstSend (fun j m => j = k' → NoPlus parse m) (x.state j) := by
    intro j
    induction j with
    | zero => rw [x.start]; exact .init
    | succ j ih =>
      rcases x.step j with e | e
      · rw [e]; exact ih
      · refine .snoc ih e ?_
        rintro l w w' m e1 e2 e3 rfl
        exact hplus (j + 1) m (by rw [passedOn_read e1 e2 e3]; simp)
  obtain ⟨d, e1, e2⟩ := C104_shown B hB parse firstSend k' _ (hrun j) v h3 _ h5 page hp
  exact ⟨nm, id', ms, c, id, d, e1, e2, h6⟩

/-! ## A case -/

/-- Two users are registered, nothing has been sent, and the first one's mailbox is empty. -/
theorem two_registered (h0 : fs 0 = true) (h1 : fs 1 = true) {t : String} (ht : parse t = some ⟨"initialize_username", none⟩) :
    ∃ (f : FineNet) (u : FineProcs) (nm : String) (id : Nat) (ms : List ChatMessage) (c : String), FineSteps parse fs .init f ∧ f.srv.joined = [(0, 0), (1, 0)] ∧
      f.srv.log = [] ∧ f.users 0 = some u ∧ u.live = some (.initialized nm id ms c) ∧ u.loopBox = [] := by
  obtain ⟨f1, u, m, a1, a2, a3, a4, a5, a6, a7, a8, a9, a10⟩ := fine_asks (parse := parse) (fs := fs) (f := .init) (k := 0) rfl h0 ht
  obtain ⟨f2, v, m', b1, b2, b3, b4, b5, b6, b7, b8, b9, _⟩ := fine_asks (parse := parse) (fs := fs) (f := f1) (k := 1) (by rw [a6 1 (by decide)]; rfl) h1 ht
  have r2 := a1.trans b1
  obtain ⟨f3, u3, nm3, id3, ms3, c3, r3, l3, j3, q3, s3, o3, k3, al3, t3, v3, w3, x3, y3⟩ := fine_registers r2 (k := 0) (nm := "") (rest := [(1, .registerNewUser "" 1)])
    (by rw [b4, a4]; rfl) (by rw [b3, a3]; rfl) (fun w hw => by
      rw [b6 0 (by decide), a7] at hw; cases hw; exact a9)
  obtain ⟨f4, u4, nm4, id4, ms4, c4, r4, l4, j4, q4, s4, o4, k4, al4, t4, v4, _⟩ := fine_registers r3 (k := 1) (nm := "") (rest := []) s3 q3 (fun w hw => by
      rw [o3 1 (by decide), b7] at hw; cases hw; exact b9)
  refine ⟨f4, u3, nm3, id3, ms3, c3, r4, by rw [j4, l3, j3, b2, a2]; rfl, by rw [l4, l3, b2, a2]; rfl, by rw [o4 0 (by decide)]; exact k3, v3, ?_⟩
  rw [b6 0 (by decide), a7] at x3
  cases x3
  rw [y3, a10]

/-- The hypotheses of C140 are met: there is a fair execution in which two users are registered, and then the first one types "hi" and clicks on the button; by
`C140_delivered` the second will be shown it. -/
theorem C140_case (h0 : fs 0 = true) (h1 : fs 1 = true) {t w s : String} (ht : parse t = some ⟨"initialize_username", none⟩)
    (hw : parse w = some ⟨"update_message_contents", some "hi"⟩) (hs : parse s = some ⟨"submit_message", none⟩) :
    ∃ (x : ChatExecution parse fs) (i : Nat) (name field : String), x.Fair ∧ (1, 0) ∈ (x.state i).srv.joined ∧
      script parse (passedOn x 0 i) = .chatting name field [] ∧ script parse (passedOn x 0 (i + 2)) = .chatting name "hi" ["hi"] ∧
      ∃ j, i ≤ j ∧ ((∃ u, (x.state j).users 0 = some u ∧ u.Over) ∨ ∃ v, (x.state j).users 1 = some v ∧ (v.Over ∨
        ∃ name' id' shown composing id, v.live = some (.initialized name' id' shown composing) ∧ (⟨id, name, "hi"⟩ : ChatMessage) ∈ shown)) := by
  obtain ⟨f, u, nm, id, ms, c, hf, hj, hlog, hu, hl, hbox⟩ := two_registered (parse := parse) h0 h1 ht
  obtain ⟨g, n, g1, g2, g3⟩ := hf.trace
  let u5 : FineProcs := { u with loopBox := u.loopBox ++ [.ws (.ok (.text w))] }
  let u6 : FineProcs := { u5 with loopBox := u5.loopBox ++ [.ws (.ok (.text s))] }
  have st5 : FineStep parse fs f (f.set 0 u5) := .read f 0 u (.ok (.text w)) hu
  have hu5 : (f.set 0 u5).users 0 = some u5 := FineNet.set_same _ _ _
  have st6 : FineStep parse fs (f.set 0 u5) ((f.set 0 u5).set 0 u6) := .read _ 0 u5 (.ok (.text s)) hu5
  have hu6 : ((f.set 0 u5).set 0 u6).users 0 = some u6 := FineNet.set_same _ _ _
  obtain ⟨x, hx, he⟩ := fair_extends parse fs (fun i => if i ≤ n then g i else if i = n + 1 then f.set 0 u5 else (f.set 0 u5).set 0 u6) (n + 2) (by simp [g1]) (by
    intro i hi
    by_cases e1 : i + 1 ≤ n
    · have : i ≤ n := by omega
      simp only [e1, this, if_true]
      exact g3 i (by omega)
    · by_cases e2 : i = n
      · subst e2
        simp only [Nat.le_refl, if_true, e1, if_false, g2]
        exact st5
      · have e3 : i = n + 1 := by omega
        subst e3
        have e4 : ¬ n + 1 ≤ n := by omega
        have e5 : ¬ n + 1 + 1 ≤ n := by omega
        have e6 : ¬ n + 1 + 1 = n + 1 := by omega
        simp only [e4, e5, e6, if_true, if_false]
        exact st6)
  have x4 : x.state n = f := by rw [he n (by omega)]; simp [g2]
  have x5 : x.state (n + 1) = f.set 0 u5 := by rw [he (n + 1) (by omega)]; simp
  have x6 : x.state (n + 1 + 1) = (f.set 0 u5).set 0 u6 := by
    rw [he (n + 1 + 1) (by omega)]
    have e5 : ¬ n + 1 + 1 ≤ n := by omega
    simp [e5]
  have p5 := passedOn_read (x := x) (k := 0) (i := n) (w := .ok (.text w)) (by rw [x4]; exact hu) (by rw [x5]; exact hu5) rfl
  have p6 := passedOn_read (x := x) (k := 0) (i := n + 1) (w := .ok (.text s)) (by rw [x5]; exact hu5) (by rw [x6]; exact hu6) rfl
  obtain ⟨taken, e1, e2⟩ := heard_live (x := x) (i := n) (k := 0) (by rw [x4]; exact hu) hl
  rw [hbox] at e1
  simp only [socketOf, List.append_nil] at e1
  rw [← e1] at e2
  obtain ⟨sent, e3, e4⟩ := says_chatting e2
  obtain ⟨bf, pending, _, o1, _, _, o2, _⟩ := C104_order parse fs f hf 0 u hu nm id ms c hl
  rw [hlog] at o2
  rw [o2] at e4
  have hsent : sent = [] := by
    cases sent with
    | nil => rfl
    | cons a b => simp at e4
  subst hsent
  have hs5 : script parse (passedOn x 0 (n + 2)) = .chatting nm "hi" ["hi"] := by
    show script parse (passedOn x 0 (n + 1 + 1)) = _
    rw [p6, p5, script_snoc, script_snoc, e3]
    simp [ChatScript.reads, hw, hs, ChatScript.event]
  refine ⟨x, n, nm, c, hx, by rw [x4, hj]; simp, e3, hs5, ?_⟩
  obtain ⟨j, d1, d2⟩ := C140_delivered parse fs x hx n (n + 2) 0 1 0 (by rw [x4, hj]; simp) (by omega) h0 nm "hi" [] ["hi"] (by rw [e3]; rfl) hs5
  refine ⟨j, by omega, d2.imp_right ?_⟩
  rintro ⟨v, d3, d4⟩
  refine ⟨v, d3, d4.imp_right ?_⟩
  rintro ⟨name', id', shown, composing, idm, d5, d6⟩
  exact ⟨name', id', shown, composing, idm, d5, d6.subset (by simp)⟩

end Puck.Chat
