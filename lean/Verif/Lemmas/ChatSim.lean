import Verif.Lemmas.ChatFine
/-!
# Requests as messages: the simulation
-/
namespace Puck.Chat

variable {parse : String → Option ClientMessage} {fs : Nat → Bool}

/-- Executions of `Model/Chat.lean` in which what the readers pass on satisfies `ok`. -/
inductive ChatRun (parse : String → Option ClientMessage) (fs : Nat → Bool) (ok : Nat → Except NextMessageError Message → Prop) : ChatNet → Prop
  | init : ChatRun parse fs ok .init
  | snoc {n n'} : ChatRun parse fs ok n → ChatStep parse fs n n' →
      (∀ k u u' m, n.users k = some u → n'.users k = some u' → u'.loopBox = u.loopBox ++ [.ws m] → ok k m) → ChatRun parse fs ok n'

/-- Executions of `Model/ChatFine.lean` in which what the readers pass on satisfies `ok`. -/
inductive FineRun (parse : String → Option ClientMessage) (fs : Nat → Bool) (ok : Nat → Except NextMessageError Message → Prop) : FineNet → Prop
  | init : FineRun parse fs ok .init
  | snoc {n n'} : FineRun parse fs ok n → FineStep parse fs n n' →
      (∀ k u u' m, n.users k = some u → n'.users k = some u' → u'.loopBox = u.loopBox ++ [.ws m] → ok k m) → FineRun parse fs ok n'

theorem ChatRun.steps {ok : Nat → Except NextMessageError Message → Prop} {n : ChatNet} (h : ChatRun parse fs ok n) : ChatSteps parse fs .init n := by
  induction h with
  | init => exact .refl _
  | snoc _ s _ ih => exact .snoc ih s

theorem FineSteps.run {f : FineNet} (h : FineSteps parse fs .init f) : FineRun parse fs (fun _ _ => True) f := by
  generalize hi : FineNet.init = a at h
  induction h with
  | refl => subst hi; exact .init
  | snoc _ s ih => exact .snoc ih s fun _ _ _ _ _ _ _ => trivial

/-- The reply being prepared for `k`. -/
def replyFor (s : Option Serving) (k : Nat) : Option LiveviewInput :=
  match s with
  | none => none
  | some s => if s.client = k then some s.reply else none

/-- The request made while handling `m` has not been served yet. -/
def Unserved (u : FineProcs) (v : UserProcs) (m : Mail LiveviewInput Nat) : Prop :=
  v.loopBox = m :: u.loopBox ∧ v.sent = u.sent ∧ erase v.loop = u.loop

/-- The request made while handling `m` has been served, with reply `r`. -/
def After (parse : String → Option ClientMessage) (b : Bool) (u : FineProcs) (v : UserProcs) (m : Mail LiveviewInput Nat) (r : LiveviewInput) : Prop :=
  v.loopBox = u.loopBox ∧ v.sent = u.sent ++ sends (loopStep (asker r) parse b u.loop m).2 ∧
    (u.alive = true → erase v.loop = (loopStep (asker r) parse b u.loop m).1) ∧ (u.alive = false → v.loop = .stopped)

/-- One connection in both models. -/
def UserSim (parse : String → Option ClientMessage) (b : Bool) (reply : Option LiveviewInput) (u : FineProcs) (v : UserProcs) : Prop :=
  match u.talk with
  | .free => v.loopBox = u.loopBox ∧ v.sent = u.sent ∧ (u.alive = true → erase v.loop = u.loop) ∧ (u.alive = false → v.loop = .stopped)
  | .asked m =>
    match reply with
    | none => Unserved u v m
    | some r => After parse b u v m r
  | .answered m r => After parse b u v m r

structure Sim (parse : String → Option ClientMessage) (fs : Nat → Bool) (f : FineNet) (n : ChatNet) : Prop where
  alive : f.dead = false
  srv : n.srv = f.srv
  keys : (f.queue.map (·.1)).Nodup
  queued : ∀ k q, (k, q) ∈ f.queue → ∃ u m, f.users k = some u ∧ u.talk = .asked m ∧ requestOf parse (fs k) u.loop m = some q
  serving : ∀ s, f.serving = some s → s.client ∉ f.queue.map (·.1) ∧ (∃ u m, f.users s.client = some u ∧ u.talk = .asked m) ∧
    ∀ d ∈ s.outbox, f.users d.to ≠ none
  waits : ∀ k u m, f.users k = some u → u.talk = .asked m → k ∈ f.queue.map (·.1) ∨ ∃ s, f.serving = some s ∧ s.client = k
  no : ∀ k, f.users k = none → n.users k = none
  yes : ∀ k u, f.users k = some u → ∃ v, n.users k = some v ∧ v.inbox = u.inbox ++ outboxFor f.serving k ∧
    UserSim parse (fs k) (replyFor f.serving k) u v

theorem FineNet.set_same (f : FineNet) (k : Nat) (u : FineProcs) : (f.set k u).users k = some u := by simp [FineNet.set]
theorem FineNet.set_other {f : FineNet} {k j : Nat} {u : FineProcs} (h : j ≠ k) : (f.set k u).users j = f.users j := by simp [FineNet.set, h]
theorem ChatNet.set_same (f : ChatNet) (k : Nat) (u : UserProcs) : (f.set k u).users k = some u := by simp [ChatNet.set]
theorem ChatNet.set_other {f : ChatNet} {k j : Nat} {u : UserProcs} (h : j ≠ k) : (f.set k u).users j = f.users j := by simp [ChatNet.set, h]

/-- One connection changes in both models, in a way that the coordinator does not notice. -/
theorem Sim.set {f : FineNet} {n : ChatNet} (h : Sim parse fs f n) {k : Nat} {u u' : FineProcs} {v' : UserProcs} (hu : f.users k = some u)
    (hl : u'.loop = u.loop ∨ u.talk = .free) (ht : ∀ m, u'.talk = .asked m ↔ u.talk = .asked m)
    (hi : v'.inbox = u'.inbox ++ outboxFor f.serving k) (hs : UserSim parse (fs k) (replyFor f.serving k) u' v') :
    Sim parse fs (f.set k u') (n.set k v') := by
  refine ⟨h.alive, h.srv, h.keys, ?_, ?_, ?_, ?_, ?_⟩
  · intro j q hj
    obtain ⟨w, m, h1, h2, h3⟩ := h.queued j q hj
    by_cases e : j = k
    · subst e
      rw [hu] at h1
      cases h1
      refine ⟨u', m, FineNet.set_same _ _ _, (ht m).2 h2, ?_⟩
      rcases hl with hl | hl
      · rw [hl]; exact h3
      · rw [hl] at h2; cases h2
    · exact ⟨w, m, by rw [FineNet.set_other e]; exact h1, h2, h3⟩
  · intro s hsv
    obtain ⟨h1, ⟨w, m, h2, h3⟩, h4⟩ := h.serving s hsv
    refine ⟨h1, ?_, ?_⟩
    · by_cases e : s.client = k
      · rw [e] at h2 ⊢
        rw [hu] at h2
        cases h2
        exact ⟨u', m, FineNet.set_same _ _ _, (ht m).2 h3⟩
      · exact ⟨w, m, by rw [FineNet.set_other e]; exact h2, h3⟩
    · intro d hd
      by_cases e : d.to = k
      · rw [e, FineNet.set_same]; simp
      · rw [FineNet.set_other e]; exact h4 d hd
  · intro j w m hj hw
    by_cases e : j = k
    · subst e
      rw [FineNet.set_same] at hj
      cases hj
      exact h.waits j u m hu ((ht m).1 hw)
    · rw [FineNet.set_other e] at hj
      exact h.waits j w m hj hw
  · intro j hj
    by_cases e : j = k
    · rw [e, FineNet.set_same] at hj; cases hj
    · rw [FineNet.set_other e] at hj
      rw [ChatNet.set_other e]
      exact h.no j hj
  · intro j w hj
    by_cases e : j = k
    · subst e
      rw [FineNet.set_same] at hj
      cases hj
      exact ⟨v', ChatNet.set_same _ _ _, hi, hs⟩
    · rw [FineNet.set_other e] at hj
      obtain ⟨v, h1, h2⟩ := h.yes j w hj
      exact ⟨v, by rw [ChatNet.set_other e]; exact h1, h2⟩

theorem ChatNet.set_self {n : ChatNet} {k : Nat} {v : UserProcs} (h : n.users k = some v) : n.set k v = n := by
  obtain ⟨srv, users⟩ := n
  simp only [ChatNet.set, ChatNet.mk.injEq, true_and]
  funext j
  split
  · rename_i e; subst e; exact h.symm
  · rfl

/-- Setting one connection passes nothing on. -/
theorem quiet_set {ok : Nat → Except NextMessageError Message → Prop} {n : ChatNet} {k : Nat} {v v' : UserProcs} (h : n.users k = some v)
    (hq : ∀ m, v'.loopBox = v.loopBox ++ [.ws m] → ok k m) :
    ∀ j u u' m, n.users j = some u → (n.set k v').users j = some u' → u'.loopBox = u.loopBox ++ [.ws m] → ok j m := by
  intro j u u' m h1 h2 h3
  by_cases e : j = k
  · subst e
    rw [ChatNet.set_same] at h2
    cases h2
    rw [h] at h1
    cases h1
    exact hq m h3
  · rw [ChatNet.set_other e] at h2
    rw [h1] at h2
    cases h2
    have := congrArg List.length h3
    simp at this

theorem handle_to {s s' : ChatServer} {q : CoordinatorInput} {r : LiveviewInput} {ds : List Delivery} (h : s.handle q = some (s', r, ds)) :
    ∀ d ∈ ds, ∃ e ∈ s.users, d.to = e.2.2 := by
  intro d hd
  cases q with
  | registerNewUser nm p =>
    simp only [ChatServer.handle, Option.some.injEq, Prod.mk.injEq] at h
    obtain ⟨_, _, rfl⟩ := h; simp at hd
  | setUsername id nm =>
    simp only [ChatServer.handle, Option.some.injEq, Prod.mk.injEq] at h
    obtain ⟨_, _, rfl⟩ := h; simp at hd
  | removeUser id =>
    simp only [ChatServer.handle, Option.some.injEq, Prod.mk.injEq] at h
    obtain ⟨_, _, rfl⟩ := h; simp at hd
  | sendMessage id c =>
    simp only [ChatServer.handle] at h
    cases hg : getUser id s.users with
    | none => rw [hg] at h; cases h
    | some u =>
      rw [hg] at h
      simp only [Option.some.injEq, Prod.mk.injEq] at h
      obtain ⟨_, _, rfl⟩ := h
      obtain ⟨e, he, rfl⟩ := List.mem_map.1 hd
      exact ⟨e, (List.mem_filter.1 he).1, rfl⟩

/-- The connections after `receive`. -/
theorem receive_users {n : ChatNet} {k : Nat} {v : UserProcs} {m : Mail LiveviewInput Nat} {rest : List (Mail LiveviewInput Nat)}
    {srv' : ChatServer} {r : LiveviewInput} {ds : List Delivery} (h : Agree parse (fs k) n.srv v.loop m srv' r ds) :
    (n.receive parse fs k v m rest).srv = srv' ∧
    ∀ j, (n.receive parse fs k v m rest).users j =
      ((n.set k ⟨v.inbox, (loopStep chatComponent parse (fs k) (withServer n.srv v.loop) m).1, rest,
        v.sent ++ sends (loopStep chatComponent parse (fs k) (withServer n.srv v.loop) m).2⟩).users j).map
        fun u => { u with inbox := u.inbox ++ (ds.filter fun d => d.to == j).map (·.msg) } := by
  obtain ⟨_, _, h3, h4⟩ := h
  unfold ChatNet.receive
  rw [h3, h4]
  exact ⟨(deliverAll_users _ _ 0).1, fun j => (deliverAll_users _ _ j).2⟩

theorem quiet_receive {ok : Nat → Except NextMessageError Message → Prop} {n : ChatNet} {k : Nat} {v : UserProcs} {m : Mail LiveviewInput Nat}
    {rest : List (Mail LiveviewInput Nat)} {srv' : ChatServer} {r : LiveviewInput} {ds : List Delivery} (h : Agree parse (fs k) n.srv v.loop m srv' r ds)
    (hv : n.users k = some v) (hm : v.loopBox = m :: rest) :
    ∀ j u u' w, n.users j = some u → (n.receive parse fs k v m rest).users j = some u' → u'.loopBox = u.loopBox ++ [.ws w] → ok j w := by
  intro j u u' w h1 h2 h3
  rw [(receive_users h).2] at h2
  exfalso
  by_cases e : j = k
  · subst e
    rw [ChatNet.set_same] at h2
    rw [hv] at h1
    cases h1
    simp only [Option.map_some, Option.some.injEq] at h2
    subst h2
    simp only [hm] at h3
    have := congrArg List.length h3
    simp at this
    omega
  · rw [ChatNet.set_other e, h1] at h2
    simp only [Option.map_some, Option.some.injEq] at h2
    subst h2
    have := congrArg List.length h3
    simp at this

/-- One step is simulated, whatever else is kept along the simulating steps. -/
theorem sim_keeps {ok : Nat → Except NextMessageError Message → Prop} {R : ChatNet → Prop} (hR : ∀ n, R n → ChatSteps parse fs .init n)
    (hsnoc : ∀ n n', R n → ChatStep parse fs n n' → (∀ k u u' m, n.users k = some u → n'.users k = some u' → u'.loopBox = u.loopBox ++ [.ws m] → ok k m) → R n')
    {f f' : FineNet} {n : ChatNet} (hn : R n) (h : Sim parse fs f n)
    (hstep : FineStep parse fs f f') (hok : ∀ k u u' m, f.users k = some u → f'.users k = some u' → u'.loopBox = u.loopBox ++ [.ws m] → ok k m) :
    ∃ n', R n' ∧ Sim parse fs f' n' := by
  have hinv := order_steps (hR n hn)
  cases hstep with
  | connect k hk =>
    have hk' := h.no k hk
    refine ⟨_, hsnoc _ _ hn (.connect n k hk') ?_, ?_⟩
    · intro j u u' m h1 h2 h3
      by_cases e : j = k
      · subst e; rw [hk'] at h1; cases h1
      · rw [ChatNet.set_other e, h1] at h2
        cases h2
        have := congrArg List.length h3
        simp at this
    · have hout : outboxFor f.serving k = [] := by
        unfold outboxFor
        cases hs : f.serving with
        | none => rfl
        | some s =>
          simp only [List.map_eq_nil_iff, List.filter_eq_nil_iff, beq_iff_eq]
          intro d hd e
          exact (h.serving s hs).2.2 d hd (by rw [e]; exact hk)
      refine ⟨h.alive, h.srv, h.keys, ?_, ?_, ?_, ?_, ?_⟩
      · intro j q hj
        obtain ⟨w, m, h1, h2⟩ := h.queued j q hj
        have e : j ≠ k := by rintro rfl; rw [hk] at h1; cases h1
        exact ⟨w, m, by rw [FineNet.set_other e]; exact h1, h2⟩
      · intro s hs
        obtain ⟨h1, ⟨w, m, h2, h3⟩, h4⟩ := h.serving s hs
        have e : s.client ≠ k := by intro e; rw [e, hk] at h2; cases h2
        refine ⟨h1, ⟨w, m, by rw [FineNet.set_other e]; exact h2, h3⟩, ?_⟩
        intro d hd
        have e : d.to ≠ k := by intro e; exact h4 d hd (by rw [e]; exact hk)
        rw [FineNet.set_other e]
        exact h4 d hd
      · intro j w m hj hw
        by_cases e : j = k
        · subst e; rw [FineNet.set_same] at hj; cases hj; cases hw
        · rw [FineNet.set_other e] at hj; exact h.waits j w m hj hw
      · intro j hj
        by_cases e : j = k
        · rw [e, FineNet.set_same] at hj; cases hj
        · rw [FineNet.set_other e] at hj
          rw [ChatNet.set_other e]
          exact h.no j hj
      · intro j w hj
        by_cases e : j = k
        · subst e
          rw [FineNet.set_same] at hj
          cases hj
          refine ⟨_, ChatNet.set_same _ _ _, ?_, ?_⟩
          · show [] = [] ++ outboxFor f.serving j
            rw [hout]; rfl
          · exact ⟨rfl, rfl, fun _ => rfl, fun e => (by cases e)⟩
        · rw [FineNet.set_other e] at hj
          obtain ⟨v, h1, h2⟩ := h.yes j w hj
          exact ⟨v, by rw [ChatNet.set_other e]; exact h1, h2⟩
  | forward k u i rest hu hi =>
    obtain ⟨v, h1, h2, h3⟩ := h.yes k u hu
    have hvi : v.inbox = i :: (rest ++ outboxFor f.serving k) := by rw [h2, hi]; rfl
    refine ⟨_, hsnoc _ _ hn (.forward n k v i _ h1 hvi) (quiet_set h1 ?_), h.set hu (Or.inl rfl) (fun _ => Iff.rfl) rfl ?_⟩
    · intro m e
      simp only [List.append_cancel_left_eq, List.cons.injEq, and_true] at e
      cases e
    · unfold UserSim at h3 ⊢
      simp only
      revert h3
      cases u.talk with
      | free => rintro ⟨g1, g2⟩; exact ⟨by simp only [g1], g2⟩
      | asked m =>
        cases replyFor f.serving k with
        | none => rintro ⟨g1, g2⟩; exact ⟨by simp only [g1]; rfl, g2⟩
        | some r => rintro ⟨g1, g2⟩; exact ⟨by simp only [g1], g2⟩
      | answered m r => rintro ⟨g1, g2⟩; exact ⟨by simp only [g1], g2⟩
  | read k u w hu =>
    obtain ⟨v, h1, h2, h3⟩ := h.yes k u hu
    have hw : ok k w := hok k u _ w hu (FineNet.set_same _ _ _) rfl
    refine ⟨_, hsnoc _ _ hn (.read n k v w h1) (quiet_set h1 ?_), h.set hu (Or.inl rfl) (fun _ => Iff.rfl) h2 ?_⟩
    · intro m e
      simp only [List.append_cancel_left_eq, List.cons.injEq, and_true] at e
      cases e
      exact hw
    · unfold UserSim at h3 ⊢
      simp only
      revert h3
      cases u.talk with
      | free => rintro ⟨g1, g2⟩; exact ⟨by simp only [g1], g2⟩
      | asked m =>
        cases replyFor f.serving k with
        | none => rintro ⟨g1, g2⟩; exact ⟨by simp only [g1]; rfl, g2⟩
        | some r => rintro ⟨g1, g2⟩; exact ⟨by simp only [g1], g2⟩
      | answered m r => rintro ⟨g1, g2⟩; exact ⟨by simp only [g1], g2⟩
  | work k u m rest hu ha hfree hm hreq =>
    obtain ⟨v, h1, h2, h3⟩ := h.yes k u hu
    unfold UserSim at h3
    rw [hfree] at h3
    obtain ⟨g1, g2, g3, _⟩ := h3
    have hl := g3 ha
    have hvm : v.loopBox = m :: rest := by rw [g1, hm]
    have hag := (step_agree (parse := parse) hinv.net h1 hvm).1 (by rw [hl]; exact hreq)
    have hrec : n.receive parse fs k v m rest = n.set k ⟨v.inbox, (loopStep chatComponent parse (fs k) (withServer n.srv v.loop) m).1, rest,
        v.sent ++ sends (loopStep chatComponent parse (fs k) (withServer n.srv v.loop) m).2⟩ := by
      unfold ChatNet.receive
      rw [hag.2.2.1, hag.2.2.2]
      rfl
    refine ⟨_, hsnoc _ _ hn (.receive n k v m rest h1 hvm) (quiet_receive hag h1 hvm), ?_⟩
    rw [hrec]
    refine h.set hu (Or.inr hfree) (fun _ => Iff.rfl) h2 ?_
    unfold UserSim
    simp only [hfree]
    refine ⟨trivial, ?_, ?_, ?_⟩
    · rw [g2, hag.2.1, hl]
    · intro _; rw [hag.1, hl]
    · intro e; rw [ha] at e; cases e
  | ask k u m rest q hu ha hfree hm hreq =>
    obtain ⟨v, h1, h2, h3⟩ := h.yes k u hu
    unfold UserSim at h3
    rw [hfree] at h3
    obtain ⟨g1, g2, g3, _⟩ := h3
    have hl := g3 ha
    have hkq : k ∉ f.queue.map (·.1) := by
      intro hk
      obtain ⟨⟨k', q'⟩, hkq, rfl⟩ := List.mem_map.1 hk
      obtain ⟨w, m', e1, e2, _⟩ := h.queued _ _ hkq
      simp only at hu
      rw [hu] at e1
      cases e1
      rw [hfree] at e2
      cases e2
    have hks : ∀ s, f.serving = some s → s.client ≠ k := by
      intro s hs e
      obtain ⟨_, ⟨w, m', e1, e2⟩, _⟩ := h.serving s hs
      rw [e, hu] at e1
      cases e1
      rw [hfree] at e2
      cases e2
    have hrep : replyFor f.serving k = none := by
      unfold replyFor
      cases hs : f.serving with
      | none => rfl
      | some s => simp only; rw [if_neg (hks s hs)]
    refine ⟨n, hn, ⟨h.alive, h.srv, ?_, ?_, ?_, ?_, ?_, ?_⟩⟩
    · simp only [List.map_append, List.map_cons, List.map_nil]
      rw [List.nodup_append]
      refine ⟨h.keys, by simp, ?_⟩
      intro a ha' b hb
      simp only [List.mem_singleton] at hb
      subst hb
      rintro rfl
      exact hkq ha'
    · intro j q' hj
      simp only [List.mem_append, List.mem_singleton, Prod.mk.injEq] at hj
      rcases hj with hj | ⟨rfl, rfl⟩
      · obtain ⟨w, m', e1, e2⟩ := h.queued j q' hj
        have e : j ≠ k := by
          rintro rfl
          exact hkq (List.mem_map.2 ⟨_, hj, rfl⟩)
        exact ⟨w, m', by simp only [FineNet.set, if_neg e]; exact e1, e2⟩
      · exact ⟨{ u with loopBox := rest, talk := .asked m }, m, by simp [FineNet.set], rfl, hreq⟩
    · intro s hs
      obtain ⟨e1, ⟨w, m', e2, e3⟩, e4⟩ := h.serving s hs
      have e := hks s hs
      refine ⟨?_, ⟨w, m', by simp only [FineNet.set, if_neg e]; exact e2, e3⟩, ?_⟩
      · simp only [List.map_append, List.map_cons, List.map_nil, List.mem_append, List.mem_singleton, not_or]
        exact ⟨e1, e⟩
      · intro d hd
        simp only [FineNet.set]
        split
        · simp
        · exact e4 d hd
    · intro j w m' hj hw
      simp only [List.map_append, List.map_cons, List.map_nil, List.mem_append, List.mem_singleton]
      by_cases e : j = k
      · exact Or.inl (Or.inr e)
      · simp only [FineNet.set, if_neg e] at hj
        rcases h.waits j w m' hj hw with e1 | e1
        · exact Or.inl (Or.inl e1)
        · exact Or.inr e1
    · intro j hj
      simp only [FineNet.set] at hj
      split at hj
      · cases hj
      · exact h.no j hj
    · intro j w hj
      by_cases e : j = k
      · subst e
        simp only [FineNet.set, if_true, Option.some.injEq] at hj
        subst hj
        refine ⟨v, h1, h2, ?_⟩
        show UserSim parse (fs j) (replyFor f.serving j) _ v
        rw [hrep]
        exact ⟨by rw [g1, hm], g2, hl⟩
      · simp only [FineNet.set, if_neg e] at hj
        exact h.yes j w hj
  | serve k q queue srv reply ds hd hs hqu hh =>
    obtain ⟨u, m, hu, hask, hreq⟩ := h.queued k q (by rw [hqu]; simp)
    obtain ⟨v, h1, h2, h3⟩ := h.yes k u hu
    have hkeys := h.keys
    rw [hqu] at hkeys
    simp only [List.map_cons, List.nodup_cons] at hkeys
    unfold UserSim at h3
    rw [hask, hs] at h3
    simp only [replyFor] at h3
    obtain ⟨g1, g2, g3⟩ := h3
    obtain ⟨srv', r', ds', hh', hag⟩ := (step_agree (parse := parse) hinv.net h1 g1).2 q (by rw [g3]; exact hreq)
    rw [h.srv, hh] at hh'
    simp only [Option.some.injEq, Prod.mk.injEq] at hh'
    obtain ⟨rfl, rfl, rfl⟩ := hh'
    obtain ⟨r1, r2⟩ := receive_users (rest := u.loopBox) hag
    have hto : ∀ d ∈ ds, f.users d.to ≠ none := by
      intro d hd' e
      obtain ⟨x, hx, hxd⟩ := handle_to hh d hd'
      rw [← h.srv] at hx
      exact hinv.conn _ (hinv.reg x hx) (by rw [← hxd]; exact h.no _ e)
    have hinb : ∀ j w, f.users j = some w → ∃ v, n.users j = some v ∧ v.inbox = w.inbox := by
      intro j w hw
      obtain ⟨v, e1, e2, _⟩ := h.yes j w hw
      exact ⟨v, e1, by rw [e2, hs]; simp [outboxFor]⟩
    -- the relation, whatever the state of `k`
    have base : ∀ n' : ChatNet, n'.srv = srv → (∀ j, f.users j = none → n'.users j = none) →
        (∀ j w, j ≠ k → f.users j = some w → n'.users j = (n.users j).map fun x => { x with inbox := x.inbox ++ (ds.filter fun d => d.to == j).map (·.msg) }) →
        (∃ v', n'.users k = some v' ∧ v'.inbox = v.inbox ++ (ds.filter fun d => d.to == k).map (·.msg) ∧ After parse (fs k) u v' m reply) →
        Sim parse fs { f with srv := srv, queue := queue, serving := some ⟨k, reply, ds⟩ } n' := by
      intro n' e1 e2 e3 ⟨v', e4, e5, e6⟩
      refine ⟨h.alive, e1, hkeys.2, ?_, ?_, ?_, e2, ?_⟩
      · intro j q' hj
        exact h.queued j q' (by rw [hqu]; simp [hj])
      · rintro s ⟨⟩
        exact ⟨hkeys.1, ⟨u, m, hu, hask⟩, hto⟩
      · intro j w m' hj hw
        rcases h.waits j w m' hj hw with x | ⟨s, x, _⟩
        · rw [hqu] at x
          simp only [List.map_cons, List.mem_cons] at x
          rcases x with x | x
          · exact Or.inr ⟨_, rfl, x.symm⟩
          · exact Or.inl x
        · rw [hs] at x; cases x
      · intro j w hj
        by_cases e : j = k
        · subst e
          have : w = u := by
            have hj' : f.users j = some w := hj
            rw [hu] at hj'
            cases hj'
            rfl
          subst this
          refine ⟨v', e4, ?_, ?_⟩
          · rw [e5, h2, hs]
            simp [outboxFor]
          · unfold UserSim
            rw [hask]
            simp only [replyFor, if_true]
            exact e6
        · obtain ⟨x, y1, y2, y3⟩ := h.yes j w hj
          refine ⟨_, by rw [e3 j w e hj, y1]; rfl, ?_, ?_⟩
          · simp only [y2, hs]
            simp [outboxFor]
          · simp only [replyFor, if_neg (fun e' => e (Eq.symm e') : ¬ k = j)]
            rw [hs] at y3
            simp only [replyFor] at y3
            unfold UserSim at y3 ⊢
            exact y3
    have hnone : ∀ j, f.users j = none → (n.receive parse fs k v m u.loopBox).users j = none := by
      intro j hj
      rw [r2]
      have e : j ≠ k := by rintro rfl; rw [hu] at hj; cases hj
      rw [ChatNet.set_other e, h.no j hj]
      rfl
    have hother : ∀ j w, j ≠ k → f.users j = some w → (n.receive parse fs k v m u.loopBox).users j =
        (n.users j).map fun x => { x with inbox := x.inbox ++ (ds.filter fun d => d.to == j).map (·.msg) } := by
      intro j w e _
      rw [r2, ChatNet.set_other e]
    have hk1 : (n.receive parse fs k v m u.loopBox).users k = some ⟨v.inbox ++ (ds.filter fun d => d.to == k).map (·.msg),
        (loopStep chatComponent parse (fs k) (withServer n.srv v.loop) m).1, u.loopBox,
        v.sent ++ sends (loopStep chatComponent parse (fs k) (withServer n.srv v.loop) m).2⟩ := by
      rw [r2, ChatNet.set_same]
      rfl
    have run1 : R (n.receive parse fs k v m u.loopBox) :=
      hsnoc _ _ hn (.receive n k v m _ h1 g1) (quiet_receive hag h1 g1)
    cases ha : u.alive with
    | true =>
      refine ⟨_, run1, base _ r1 hnone hother ⟨_, hk1, rfl, rfl, ?_, ?_, ?_⟩⟩
      · simp only; rw [g2, hag.2.1, g3]
      · intro _; simp only; rw [hag.1, g3]
      · intro e; rw [ha] at e; cases e
    | false =>
      refine ⟨_, hsnoc _ _ run1 (.die _ k _ hk1) (quiet_set hk1 ?_), base _ r1 ?_ ?_ ⟨_, ChatNet.set_same _ _ _, rfl, rfl, ?_, ?_, ?_⟩⟩
      · intro w e
        have := congrArg List.length e
        simp at this
      · intro j hj
        have e : j ≠ k := by rintro rfl; rw [hu] at hj; cases hj
        rw [ChatNet.set_other e]
        exact hnone j hj
      · intro j w e hw
        rw [ChatNet.set_other e]
        exact hother j w e hw
      · simp only; rw [g2, hag.2.1, g3]
      · intro e; rw [ha] at e; cases e
      · intro _; rfl
  | panic k q queue hd hs hqu hh =>
    obtain ⟨u, m, hu, hask, hreq⟩ := h.queued k q (by rw [hqu]; simp)
    obtain ⟨v, h1, h2, h3⟩ := h.yes k u hu
    unfold UserSim at h3
    rw [hask, hs] at h3
    simp only [replyFor] at h3
    obtain ⟨g1, g2, g3⟩ := h3
    obtain ⟨srv', r', ds', hh', -⟩ := (step_agree (parse := parse) hinv.net h1 g1).2 q (by rw [g3]; exact hreq)
    rw [h.srv, hh] at hh'
    cases hh'
  | send k reply d ds hs =>
    refine ⟨n, hn, ?_⟩
    obtain ⟨hq, ⟨w, mw, hw, hwt⟩, hto⟩ := h.serving _ hs
    simp only at hq hw hto
    have hd := hto d (by simp)
    obtain ⟨x, hx⟩ := Option.ne_none_iff_exists'.1 hd
    have hdel : FineNet.deliver { f with serving := some ⟨k, reply, ds⟩ } d =
        ({ f with serving := some ⟨k, reply, ds⟩ } : FineNet).set d.to { x with inbox := x.inbox ++ [d.msg] } := by
      unfold FineNet.deliver
      simp only [hx]
    rw [hdel]
    have huser : ∀ j, (({ f with serving := some ⟨k, reply, ds⟩ } : FineNet).set d.to { x with inbox := x.inbox ++ [d.msg] }).users j =
        (f.users j).map fun y => { y with inbox := y.inbox ++ if d.to = j then [d.msg] else [] } := by
      intro j
      by_cases e : j = d.to
      · rw [e, FineNet.set_same, hx]; simp
      · rw [FineNet.set_other e]
        simp only [if_neg (fun e' => e (Eq.symm e'))]
        show f.users j = _
        cases f.users j <;> simp
    have back : ∀ j y, (({ f with serving := some ⟨k, reply, ds⟩ } : FineNet).set d.to { x with inbox := x.inbox ++ [d.msg] }).users j = some y →
        ∃ z, f.users j = some z ∧ y = { z with inbox := z.inbox ++ if d.to = j then [d.msg] else [] } := by
      intro j y hy
      rw [huser] at hy
      cases hz : f.users j with
      | none => rw [hz] at hy; cases hy
      | some z => rw [hz] at hy; simp only [Option.map_some, Option.some.injEq] at hy; exact ⟨z, rfl, hy.symm⟩
    refine ⟨h.alive, h.srv, h.keys, ?_, ?_, ?_, ?_, ?_⟩
    · intro j q hj
      obtain ⟨z, m, e1, e2, e3⟩ := h.queued j q hj
      exact ⟨{ z with inbox := z.inbox ++ if d.to = j then [d.msg] else [] }, m, by rw [huser, e1]; rfl, e2, e3⟩
    · rintro s ⟨⟩
      refine ⟨hq, ⟨{ w with inbox := w.inbox ++ if d.to = k then [d.msg] else [] }, mw, by rw [huser]; simp only; rw [hw]; rfl, hwt⟩, ?_⟩
      intro d' hd'
      rw [huser]
      have := hto d' (by simp at hd' ⊢; exact Or.inr hd')
      intro e
      rw [Option.map_eq_none_iff] at e
      exact this e
    · intro j y m hy hm
      obtain ⟨z, e1, rfl⟩ := back j y hy
      rcases h.waits j z m e1 hm with e | ⟨s, e, e'⟩
      · exact Or.inl e
      · rw [hs] at e
        cases e
        exact Or.inr ⟨_, rfl, e'⟩
    · intro j hj
      rw [huser, Option.map_eq_none_iff] at hj
      exact h.no j hj
    · intro j y hy
      obtain ⟨z, e1, rfl⟩ := back j y hy
      obtain ⟨v, e2, e3, e4⟩ := h.yes j z e1
      refine ⟨v, e2, ?_, ?_⟩
      · rw [e3, hs]
        show _ = (z.inbox ++ _) ++ outboxFor (some ⟨k, reply, ds⟩) j
        simp only [outboxFor, List.filter_cons]
        by_cases e : d.to = j
        · simp [e]
        · simp [e]
      · rw [hs] at e4
        exact e4
  | reply k r u m hs hu hask =>
    refine ⟨n, hn, ?_⟩
    obtain ⟨hq, -, -⟩ := h.serving _ hs
    simp only at hq
    have hout : ∀ j, outboxFor f.serving j = [] := by intro j; rw [hs]; rfl
    refine ⟨h.alive, h.srv, h.keys, ?_, ?_, ?_, ?_, ?_⟩
    · intro j q hj
      obtain ⟨z, m', e1, e2, e3⟩ := h.queued j q hj
      have e : j ≠ k := by rintro rfl; exact hq (List.mem_map.2 ⟨_, hj, rfl⟩)
      exact ⟨z, m', by rw [FineNet.set_other e]; exact e1, e2, e3⟩
    · intro s e; cases e
    · intro j y m' hy hm
      by_cases e : j = k
      · subst e; rw [FineNet.set_same] at hy; cases hy; cases hm
      · rw [FineNet.set_other e] at hy
        rcases h.waits j y m' hy hm with e1 | ⟨s, e1, e2⟩
        · exact Or.inl e1
        · rw [hs] at e1; cases e1; exact absurd e2.symm e
    · intro j hj
      by_cases e : j = k
      · rw [e, FineNet.set_same] at hj; cases hj
      · rw [FineNet.set_other e] at hj; exact h.no j hj
    · intro j y hy
      by_cases e : j = k
      · subst e
        rw [FineNet.set_same] at hy
        cases hy
        obtain ⟨v, e2, e3, e4⟩ := h.yes j u hu
        refine ⟨v, e2, ?_, ?_⟩
        · rw [e3, hout]; rfl
        · unfold UserSim at e4 ⊢
          rw [hask, hs] at e4
          simp only [replyFor, if_true] at e4
          exact e4
      · rw [FineNet.set_other e] at hy
        obtain ⟨v, e2, e3, e4⟩ := h.yes j y hy
        refine ⟨v, e2, ?_, ?_⟩
        · rw [e3, hout]; rfl
        · rw [hs] at e4
          simp only [replyFor, if_neg (fun e' => e (Eq.symm e') : ¬ k = j)] at e4
          exact e4
  | resume k u m r hu ha hans =>
    obtain ⟨v, h1, h2, h3⟩ := h.yes k u hu
    unfold UserSim at h3
    rw [hans] at h3
    obtain ⟨g1, g2, g3, _⟩ := h3
    refine ⟨n, hn, ?_⟩
    rw [← ChatNet.set_self h1]
    have hq : ∀ m', u.talk ≠ .asked m' := by intro m' e; rw [hans] at e; cases e
    refine ⟨h.alive, h.srv, h.keys, ?_, ?_, ?_, ?_, ?_⟩
    · intro j q hj
      obtain ⟨w, m', e1, e2, e3⟩ := h.queued j q hj
      have e : j ≠ k := by rintro rfl; rw [hu] at e1; cases e1; exact hq _ e2
      exact ⟨w, m', by rw [FineNet.set_other e]; exact e1, e2, e3⟩
    · intro s hs
      obtain ⟨e1, ⟨w, m', e2, e3⟩, e4⟩ := h.serving s hs
      have e : s.client ≠ k := by intro e; rw [e, hu] at e2; cases e2; exact hq _ e3
      refine ⟨e1, ⟨w, m', by rw [FineNet.set_other e]; exact e2, e3⟩, ?_⟩
      intro d hd
      by_cases e : d.to = k
      · rw [e, FineNet.set_same]; simp
      · rw [FineNet.set_other e]; exact e4 d hd
    · intro j w m' hj hw
      by_cases e : j = k
      · subst e; rw [FineNet.set_same] at hj; cases hj; cases hw
      · rw [FineNet.set_other e] at hj; exact h.waits j w m' hj hw
    · intro j hj
      by_cases e : j = k
      · rw [e, FineNet.set_same] at hj; cases hj
      · rw [FineNet.set_other e] at hj
        rw [ChatNet.set_self h1]
        exact h.no j hj
    · intro j w hj
      rw [ChatNet.set_self h1]
      by_cases e : j = k
      · subst e
        rw [FineNet.set_same] at hj
        cases hj
        refine ⟨v, h1, h2, ?_⟩
        exact ⟨g1, g2, fun _ => g3 ha, fun e => (by rw [ha] at e; cases e)⟩
      · rw [FineNet.set_other e] at hj
        exact h.yes j w hj
  | die k u hu =>
    obtain ⟨v, h1, h2, h3⟩ := h.yes k u hu
    have dies : (∀ m, u.talk = .asked m → replyFor f.serving k ≠ none) →
        ∃ n', R n' ∧ Sim parse fs (f.set k { u with alive := false }) n' := by
      intro hx
      refine ⟨_, hsnoc _ _ hn (.die n k v h1) (quiet_set h1 ?_), h.set hu (Or.inl rfl) (fun _ => Iff.rfl) h2 ?_⟩
      · intro m e
        have := congrArg List.length e
        simp at this
      · unfold UserSim at h3 ⊢
        simp only
        revert h3 hx
        cases u.talk with
        | free => rintro ⟨g1, g2, _⟩ _; exact ⟨g1, g2, fun e => (by cases e), fun _ => trivial⟩
        | asked m =>
          cases replyFor f.serving k with
          | none => intro _ hx; exact absurd rfl (hx m rfl)
          | some r => rintro ⟨g1, g2, _⟩ _; exact ⟨g1, g2, fun e => (by cases e), fun _ => rfl⟩
        | answered m r => rintro ⟨g1, g2, _⟩ _; exact ⟨g1, g2, fun e => (by cases e), fun _ => rfl⟩
    by_cases hx : ∃ m, u.talk = .asked m ∧ replyFor f.serving k = none
    · obtain ⟨m, e1, e2⟩ := hx
      refine ⟨n, hn, ?_⟩
      rw [← ChatNet.set_self h1]
      refine h.set hu (Or.inl rfl) (fun _ => Iff.rfl) h2 ?_
      unfold UserSim at h3 ⊢
      rw [e1, e2] at h3
      simp only [e1, e2]
      exact h3
    · exact dies fun m e e' => hx ⟨m, e, e'⟩
  | shuffle users hp =>
    refine ⟨_, hsnoc _ _ hn (.shuffle n users (by rw [h.srv]; exact hp)) ?_, ?_⟩
    · intro j u u' m h1 h2 h3
      have h2' : n.users j = some u' := h2
      rw [h1] at h2'
      cases h2'
      have := congrArg List.length h3
      simp at this
    · exact ⟨h.alive, by simp only [h.srv], h.keys, h.queued, h.serving, h.waits, h.no, h.yes⟩

theorem sim_step {ok : Nat → Except NextMessageError Message → Prop} {f f' : FineNet} {n : ChatNet} (hn : ChatRun parse fs ok n) (h : Sim parse fs f n)
    (hstep : FineStep parse fs f f') (hok : ∀ k u u' m, f.users k = some u → f'.users k = some u' → u'.loopBox = u.loopBox ++ [.ws m] → ok k m) :
    ∃ n', ChatRun parse fs ok n' ∧ Sim parse fs f' n' :=
  sim_keeps (R := ChatRun parse fs ok) (fun _ h => h.steps) (fun _ _ h s q => .snoc h s q) hn h hstep hok

theorem sim_run {ok : Nat → Except NextMessageError Message → Prop} {f : FineNet} (h : FineRun parse fs ok f) :
    ∃ n, ChatRun parse fs ok n ∧ Sim parse fs f n := by
  induction h with
  | init =>
    refine ⟨.init, .init, rfl, rfl, by simp [FineNet.init], ?_, ?_, ?_, fun _ _ => rfl, ?_⟩
    · intro k q h; simp [FineNet.init] at h
    · intro s h; cases h
    · intro k u m h; cases h
    · intro k u h; cases h
  | snoc _ s hok ih =>
    obtain ⟨n, h1, h2⟩ := ih
    exact sim_step h1 h2 s hok

end Puck.Chat
