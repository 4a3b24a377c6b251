import Verif.Props.ChatOrder
import Verif.Spec.ChatOrder
/-!
# When two users see the messages in the same order (C89)
-/
namespace Puck.Chat

/-- What a step does to the page of a registered user and to the messages on their way to it. -/
theorem page_step {parse : String → Option ClientMessage} {fs : Nat → Bool} {n n' : ChatNet} (h : OrderInv fs n) (hstep : ChatStep parse fs n n')
    {k : Nat} {v' : UserProcs} (hv' : n'.users k = some v') {nm : String} {id : Nat} {ms' : List ChatMessage} {c' : String}
    (hl' : v'.live = some (.initialized nm id ms' c')) :
    (∃ new, n'.srv.joined = n.srv.joined ++ new) ∧
    ((k ∉ n.srv.joined.map (·.1) ∧ (k, n.srv.log.length) ∈ n'.srv.joined ∧ n'.srv.log = n.srv.log ∧ ms' = [] ∧ v'.pending = []) ∨
     ∃ v nm0 ms c, n.users k = some v ∧ v.live = some (.initialized nm0 id ms c) ∧
      ((n'.srv.log = n.srv.log ∧ ms' ++ v'.pending = ms ++ v.pending) ∨
       (∃ m, m.sender ≠ id ∧ n'.srv.log = n.srv.log ++ [m] ∧ ms' = ms ∧ v'.pending = v.pending ++ [m]) ∨
       (∃ m, m.sender = id ∧ n'.srv.log = n.srv.log ++ [m] ∧ ms' = ms ++ [m] ∧ v'.pending = v.pending))) := by
  -- a step that changes the connection `j` only, where neither the component nor the messages change
  have quiet : ∀ (j : Nat) (v w : UserProcs) (srv' : ChatServer), n.users j = some v → srv'.log = n.srv.log →
      (∀ nm id ms' c', w.live = some (.initialized nm id ms' c') → ∃ nm0 ms c, v.live = some (.initialized nm0 id ms c) ∧ ms' ++ w.pending = ms ++ v.pending) →
      (⟨srv', n.users⟩ : ChatNet).set j w = n' → srv'.joined = n.srv.joined →
      (∃ new, n'.srv.joined = n.srv.joined ++ new) ∧
      ((k ∉ n.srv.joined.map (·.1) ∧ (k, n.srv.log.length) ∈ n'.srv.joined ∧ n'.srv.log = n.srv.log ∧ ms' = [] ∧ v'.pending = []) ∨
       ∃ v nm0 ms c, n.users k = some v ∧ v.live = some (.initialized nm0 id ms c) ∧
        ((n'.srv.log = n.srv.log ∧ ms' ++ v'.pending = ms ++ v.pending) ∨
         (∃ m, m.sender ≠ id ∧ n'.srv.log = n.srv.log ++ [m] ∧ ms' = ms ∧ v'.pending = v.pending ++ [m]) ∨
         (∃ m, m.sender = id ∧ n'.srv.log = n.srv.log ++ [m] ∧ ms' = ms ++ [m] ∧ v'.pending = v.pending))) := by
    intro j v w srv' hv hlog hw hn hjoin
    subst hn
    refine ⟨⟨[], by simp [ChatNet.set, hjoin]⟩, .inr ?_⟩
    simp only [ChatNet.set] at hv'
    split at hv'
    · rename_i e
      subst e
      cases hv'
      obtain ⟨nm0, ms, c, h1, h2⟩ := hw _ _ _ _ hl'
      exact ⟨v, nm0, ms, c, hv, h1, .inl ⟨hlog, h2⟩⟩
    · exact ⟨v', nm, ms', c', hv', hl', .inl ⟨hlog, rfl⟩⟩
  cases hstep with
  | connect j hj =>
    refine ⟨⟨[], by simp [ChatNet.set]⟩, .inr ?_⟩
    simp only [ChatNet.set] at hv'
    split at hv'
    · cases hv'; cases hl'
    · exact ⟨v', nm, ms', c', hv', hl', .inl ⟨rfl, rfl⟩⟩
  | forward j u i rest hu hi =>
    refine quiet j u _ n.srv hu rfl ?_ rfl rfl
    intro nm id ms c e
    refine ⟨nm, ms, c, e, ?_⟩
    simp only [UserProcs.pending, hi, List.filterMap_append, List.filterMap_cons, List.filterMap_nil, mailMsg]
    cases inputMsg i <;> simp
  | read j u w hu =>
    refine quiet j u _ n.srv hu rfl ?_ rfl rfl
    intro nm id ms c e
    refine ⟨nm, ms, c, e, ?_⟩
    simp [UserProcs.pending, mailMsg]
  | die j u hu =>
    refine quiet j u _ n.srv hu rfl ?_ rfl rfl
    intro nm id ms c e
    cases e
  | shuffle users hp =>
    exact ⟨⟨[], by simp⟩, .inr ⟨v', nm, ms', c', hv', hl', .inl ⟨rfl, rfl⟩⟩⟩
  | receive j u m rest hu hm =>
    unfold ChatNet.receive at hv' quiet ⊢
    have hp := h.net.procs j u hu
    have hc := h.caught j u hu
    obtain ⟨inbox, loop, loopBox, sent⟩ := u
    simp only at hm
    subst hm
    obtain ⟨hin, h2⟩ := hp
    simp only at hin h2
    cases loop with
    | unreachable => exact h2.elim
    | stopped =>
      have hs : loopStep chatComponent parse (fs j) (withServer n.srv .stopped) m = (.stopped, []) := by cases m <;> rfl
      simp only [hs, effects, List.foldl_nil, serverAfter] at hv' quiet ⊢
      exact quiet j _ _ n.srv hu rfl (fun _ _ _ _ e => by cases e) rfl rfl
    | crashed =>
      have hs : loopStep chatComponent parse (fs j) (withServer n.srv .crashed) m = (.crashed, []) := by cases m <;> rfl
      simp only [hs, effects, List.foldl_nil, serverAfter] at hv' quiet ⊢
      exact quiet j _ _ n.srv hu rfl (fun _ _ _ _ e => by cases e) rfl rfl
    | waiting d =>
      obtain ⟨r, h3, h4⟩ := h2
      simp only [List.cons.injEq] at h3
      obtain ⟨rfl, rfl⟩ := h3
      obtain ⟨ops, ho⟩ := (C59_unkeyed_partial _ _ (render_unkeyed (.uninitialized "")) (render_unkeyed (.uninitialized ""))).2
      simp only [withServer, loopStep, chatComponent, List.map_nil, List.nil_append] at hv' quiet ⊢
      rw [ho] at hv' quiet ⊢
      simp only at hv' quiet ⊢
      cases hb : fs j with
      | true =>
        rw [hb] at hv' quiet
        simp only [if_true, effects, List.foldl_nil, serverAfter, Option.map_some, Option.getD_some] at hv' quiet ⊢
        exact quiet j _ _ n.srv hu rfl (fun _ _ _ _ e => by cases e) rfl rfl
      | false =>
        rw [hb] at hv' quiet
        simp only [Bool.false_eq_true, if_false, effects, List.foldl_nil, serverAfter] at hv' quiet ⊢
        exact quiet j _ _ n.srv hu rfl (fun _ _ _ _ e => by cases e) rfl rfl
    | running st =>
      obtain ⟨hbox, hproc, l, srv0, hcomp, hrender, hknown⟩ := h2
      obtain ⟨proc, comp, dom, ls⟩ := st
      simp only at hproc hcomp hrender
      subst hproc hcomp
      have hmm := hbox m (by simp)
      have hl : ls = l.listeners := (congrArg (·.2) hrender).symm
      by_cases hask : ∃ i, Asks parse l.listeners m i
      · obtain ⟨i, hi⟩ := hask
        obtain ⟨l', srv', ds, hup, hs', hk', hothers, hds⟩ := update_ok h.net.srv hknown (asks_expected hmm hi)
        obtain ⟨ops, hstep⟩ := update_step (b := fs proc) (srv0 := srv0) hrender hi hup
        rw [hstep] at hv' quiet ⊢
        simp only [serverAfter, Option.map_some, Option.getD_some] at hv' quiet ⊢
        rw [effects_map _ _ rfl] at hv' quiet ⊢
        rcases asks_cases hmm hi with ⟨c, rfl, rfl⟩ | ⟨⟨w, rfl⟩, ⟨u, rfl, ⟨v, rfl⟩ | rfl⟩ | ⟨u, id', ms, c, rfl, ⟨v, rfl⟩ | rfl⟩⟩
        · cases l with
          | uninitialized u =>
            simp only [Live.update, Live.updateLocal, Option.map_some, Option.some.injEq, Prod.mk.injEq] at hup
            obtain ⟨rfl, rfl, rfl⟩ := hup
            exact quiet proc _ _ n.srv hu rfl (fun _ _ _ _ e => by cases e) rfl rfl
          | initialized u id' ms cc =>
            simp only [Live.update, Live.updateLocal, Option.map_some, Option.some.injEq, Prod.mk.injEq] at hup
            obtain ⟨rfl, rfl, rfl⟩ := hup
            refine quiet proc _ _ n.srv hu rfl ?_ rfl rfl
            intro nm id2 ms2 c2 e
            cases e
            refine ⟨u, ms, cc, rfl, ?_⟩
            rw [mem_pending_drop _ _ _ _ .stopped _ sent]
            simp [mailMsg, inputMsg, UserProcs.pending]
        · simp only [Live.update, Live.updateLocal, Option.map_some, Option.some.injEq, Prod.mk.injEq] at hup
          obtain ⟨rfl, rfl, rfl⟩ := hup
          exact quiet proc _ _ n.srv hu rfl (fun _ _ _ _ e => by cases e) rfl rfl
        · -- registration
          have hfresh := hc.1 u rfl
          rw [mem_pending_drop _ _ _ _ .stopped _ sent] at hfresh
          simp only [mailMsg, Option.toList_none, List.nil_append] at hfresh
          simp only [Live.update, ChatServer.handle, Option.some.injEq, Prod.mk.injEq] at hup
          obtain ⟨rfl, rfl, rfl⟩ := hup
          simp only [List.foldl_nil, ChatNet.set] at hv' ⊢
          refine ⟨⟨_, rfl⟩, ?_⟩
          split at hv'
          · rename_i e
            subst e
            cases hv'
            cases hl'
            exact .inl ⟨hfresh.1, by simp, trivial, rfl, hfresh.2⟩
          · exact .inr ⟨v', nm, ms', c', hv', hl', .inl ⟨trivial, rfl⟩⟩
        · simp only [Live.update, Live.updateLocal, Option.map_some, Option.some.injEq, Prod.mk.injEq] at hup
          obtain ⟨rfl, rfl, rfl⟩ := hup
          refine quiet proc _ _ n.srv hu rfl ?_ rfl rfl
          intro nm id2 ms2 c2 e
          cases e
          refine ⟨u, ms, c, rfl, ?_⟩
          rw [mem_pending_drop _ _ _ _ .stopped _ sent]
          simp [mailMsg, UserProcs.pending]
        · -- a message is sent
          have hg := hknown u id' ms c rfl
          have hmem := (getUser_some h.net.srv.keys).1 hg
          simp only [Live.update, ChatServer.handle, hg, Live.updateLocal, Option.map_some, Option.some.injEq, Prod.mk.injEq] at hup
          obtain ⟨rfl, rfl, rfl⟩ := hup
          rw [(deliverAll_users _ _ k).2] at hv'
          rw [(deliverAll_users _ _ k).1]
          simp only [ChatNet.set] at hv' ⊢
          refine ⟨⟨[], by simp⟩, .inr ?_⟩
          -- what the coordinator sends to k
          have toK : ∀ P : List (Nat × String × Nat) → Prop, P (n.srv.users.filter fun e => e.2.2 == k && e.1 != id') →
              ∃ es, P es ∧ ((List.map (fun e => (⟨e.2.2, .receiveMessage ⟨id', u, c⟩⟩ : Delivery)) (n.srv.users.filter fun e => e.1 != id')).filter
                fun d => d.to == k).map (·.msg) = es.map fun _ => .receiveMessage ⟨id', u, c⟩ := by
            intro P hP
            refine ⟨_, hP, ?_⟩
            rw [List.filter_map, List.map_map, List.filter_filter]
            rfl
          by_cases hj : k = proc
          · subst hj
            obtain ⟨es, hes, hto⟩ := toK (fun es => es = []) (by
              apply List.filter_eq_nil_iff.2
              intro e he hcond
              simp only [Bool.and_eq_true, beq_iff_eq, bne_iff_ne, ne_eq] at hcond
              have h1 := filter_unique (fun e : Nat × String × Nat => e.2.2) h.procs hmem
              have h2 : e ∈ n.srv.users.filter fun y => y.2.2 == ((id', u, k) : Nat × String × Nat).2.2 := by
                simp [he, hcond.1]
              rw [h1] at h2
              simp only [List.mem_singleton] at h2
              exact hcond.2 (by rw [h2]))
            subst hes
            rw [hto] at hv'
            simp only [if_true, Option.map_some, Option.some.injEq, List.map_nil, List.append_nil] at hv'
            subst hv'
            cases hl'
            refine ⟨_, _, _, _, hu, rfl, .inr (.inr ⟨_, rfl, rfl, rfl, ?_⟩)⟩
            rw [mem_pending_drop _ _ _ _ .stopped _ sent]
            rfl
          · rw [if_neg hj] at hv'
            cases hv0 : n.users k with
            | none => rw [hv0] at hv'; cases hv'
            | some v0 =>
              rw [hv0] at hv'
              simp only [Option.map_some, Option.some.injEq] at hv'
              have hlive : v'.live = v0.live := by rw [← hv']; rfl
              rw [hlive] at hl'
              have hkj : getUser id n.srv.users = some (nm, k) := by
                have hpj := (h.net.procs k v0 hv0).2
                have e := hl'
                unfold UserProcs.live at e
                cases hlp : v0.loop with
                | running st =>
                  rw [hlp] at hpj e
                  obtain ⟨_, _, l, s0, hcomp, _, hkn⟩ := hpj
                  simp only [hcomp, Option.map_some, Option.some.injEq] at e
                  exact hkn nm id ms' c' e
                | _ => rw [hlp] at e; cases e
              have hmj := (getUser_some h.net.srv.keys).1 hkj
              have hne : id ≠ id' := by
                rintro rfl
                rw [hkj] at hg
                simp only [Option.some.injEq, Prod.mk.injEq] at hg
                exact hj hg.2
              obtain ⟨es, hes, hto⟩ := toK (fun es => es = [(id, nm, k)]) (by
                have h1 := filter_unique (fun e : Nat × String × Nat => e.2.2) h.procs hmj
                have h2 : (n.srv.users.filter fun e => e.2.2 == k && e.1 != id') =
                    (n.srv.users.filter fun e => e.2.2 == k).filter fun e => e.1 != id' := by
                  rw [List.filter_filter]
                  congr 1; funext e; exact Bool.and_comm _ _
                rw [h2]
                simp only at h1
                rw [h1]
                simp [hne])
              subst hes
              rw [hto] at hv'
              refine ⟨v0, nm, ms', c', rfl, hl', .inr (.inl ⟨_, fun e => hne e.symm, rfl, rfl, ?_⟩)⟩
              rw [← hv']
              simp [UserProcs.pending, inputMsg]
      · by_cases hclosed : m = .ws (.error .connectionClosed)
        · subst hclosed
          have hs : loopStep chatComponent parse (fs proc) (withServer n.srv (.running ⟨proc, some (l, srv0), dom, ls⟩))
              (.ws (.error .connectionClosed)) = (.stopped, [.dropped]) := rfl
          simp only [hs, effects, List.foldl_nil] at hv' quiet ⊢
          cases l with
          | uninitialized u =>
            simp only [serverAfter] at hv' quiet ⊢
            exact quiet proc _ _ n.srv hu rfl (fun _ _ _ _ e => by cases e) rfl rfl
          | initialized u id' ms c =>
            simp only [serverAfter, ChatServer.handle, Option.map_some, Option.getD_some] at hv' quiet ⊢
            exact quiet proc _ ⟨inbox, .stopped, rest, sent ++ sends [.dropped]⟩
              ⟨n.srv.users.filter fun u => u.1 != id', n.srv.idGen.releaseId id', n.srv.log, n.srv.joined⟩ hu rfl (fun _ _ _ _ e => by cases e) rfl rfl
        · have hign : loopStep chatComponent parse (fs proc) (withServer n.srv (.running ⟨proc, some (l, srv0), dom, ls⟩)) m =
              (.running ⟨proc, some (l, n.srv), dom, ls⟩, []) := by
            simp only [withServer, Option.map_some]
            refine step_ignored ?_ hclosed ?_
            · intro i hi
              exact hask ⟨i, by simp only [hl] at hi; exact hi⟩
            · rintro q rfl
              rcases hmm with ⟨c, hc⟩ | ⟨w, hw⟩
              · cases hc
              · cases hw
          simp only [hign, effects, List.foldl_nil, serverAfter, Option.map_some, Option.getD_some] at hv' quiet ⊢
          refine quiet proc _ _ n.srv hu rfl ?_ rfl rfl
          intro nm id2 ms2 c2 e
          refine ⟨nm, ms2, c2, e, ?_⟩
          rw [mem_pending_drop _ _ _ _ (.running ⟨proc, some (l, n.srv), dom, ls⟩) _ (sent ++ sends [])]
          rcases hmm with ⟨c, rfl⟩ | ⟨w, rfl⟩
          · exact absurd ⟨_, Or.inl rfl⟩ hask
          · rfl

/-! ## Lists -/

theorem Advanced.append {id : Nat} {l l' : List ChatMessage} (h : Advanced id l l') (r : List ChatMessage) : Advanced id (l ++ r) (l' ++ r) := by
  induction h with
  | refl => exact .refl _
  | @swap a b other own h1 h2 _ ih =>
    rw [show (a ++ other :: own :: b) ++ r = a ++ other :: own :: (b ++ r) by simp] at ih
    rw [show (a ++ own :: other :: b) ++ r = a ++ own :: other :: (b ++ r) by simp]
    exact .swap h1 h2 ih

/-- A message of `id` moves forward past all these. -/
theorem Advanced.past {id : Nat} {l ms : List ChatMessage} {m : ChatMessage} (hm : m.sender = id) : ∀ (p : List ChatMessage), (∀ x ∈ p, x.sender ≠ id) →
    Advanced id l (ms ++ p ++ [m]) → Advanced id l (ms ++ [m] ++ p) := by
  intro p
  induction p generalizing ms with
  | nil => intro _ h; simpa using h
  | cons x p ih =>
    intro hp h
    have h1 : Advanced id l ((ms ++ [x]) ++ [m] ++ p) := ih (fun y hy => hp y (List.mem_cons_of_mem _ hy)) (by simpa using h)
    have h2 : Advanced id l (ms ++ x :: m :: p) := by simpa using h1
    simpa using Advanced.swap hm (hp x (by simp)) h2

theorem Advanced.filter {id : Nat} {l l' : List ChatMessage} (h : Advanced id l l') (p : ChatMessage → Bool) : Advanced id (l.filter p) (l'.filter p) := by
  induction h with
  | refl => exact .refl _
  | @swap a b other own h1 h2 _ ih =>
    simp only [List.filter_append, List.filter_cons] at ih ⊢
    cases ho : p other <;> cases hw : p own <;> simp only [ho, hw, Bool.false_eq_true, if_false, if_true] at ih ⊢
    · exact ih
    · exact ih
    · exact ih
    · exact .swap h1 h2 ih

/-- The sum of the positions of the messages of `id`, the first of which is at `i`. -/
def weight (id : Nat) : Nat → List ChatMessage → Nat
  | _, [] => 0
  | i, m :: l => (if m.sender = id then i else 0) + weight id (i + 1) l

theorem weight_append (id : Nat) (a b : List ChatMessage) : ∀ i, weight id i (a ++ b) = weight id i a + weight id (i + a.length) b := by
  induction a with
  | nil => simp [weight]
  | cons m a ih =>
    intro i
    simp only [List.cons_append, weight, ih, List.length_cons, Nat.add_assoc]
    rw [show 1 + a.length = a.length + 1 from Nat.add_comm _ _]

theorem Advanced.weight_le {id : Nat} {l l' : List ChatMessage} (h : Advanced id l l') : l' = l ∨ weight id 0 l' < weight id 0 l := by
  induction h with
  | refl => exact .inl rfl
  | @swap a b other own h1 h2 _ ih =>
    have : weight id 0 (a ++ own :: other :: b) < weight id 0 (a ++ other :: own :: b) := by
      simp only [weight_append, weight, h1, h2, if_true, if_false]
      omega
    rcases ih with ih | ih
    · rw [ih] at this; exact .inr this
    · exact .inr (by omega)

theorem Advanced.weight_ge {id id' : Nat} (hne : id ≠ id') {l l' : List ChatMessage} (h : Advanced id' l l') : weight id 0 l ≤ weight id 0 l' := by
  induction h with
  | refl => exact Nat.le_refl _
  | @swap a b other own h1 h2 _ ih =>
    have : weight id 0 (a ++ other :: own :: b) ≤ weight id 0 (a ++ own :: other :: b) := by
      have h3 : ¬ own.sender = id := fun e => hne (e.symm.trans h1)
      simp only [weight_append, weight, h3, if_false]
      split <;> omega
    omega

/-- Moved forward by two different users: not moved at all. -/
theorem Advanced.both {id id' : Nat} (hne : id ≠ id') {l l' : List ChatMessage} (h : Advanced id l l') (h' : Advanced id' l l') : l' = l := by
  rcases h.weight_le with e | e
  · exact e
  · have := h'.weight_ge hne; omega

/-! ## Runs -/

/-- On the way to `n`, user `k` sent a message while a message of another user was on its way to it. -/
def Overtook (parse : String → Option ClientMessage) (firstSend : Nat → Bool) (k : Nat) (n : ChatNet) : Prop :=
  ∃ a b u name id shown composing m, ChatSteps parse firstSend .init a ∧ ChatStep parse firstSend a b ∧ ChatSteps parse firstSend b n ∧
    a.users k = some u ∧ u.live = some (.initialized name id shown composing) ∧ u.pending ≠ [] ∧
    m.sender = id ∧ b.srv.log = a.srv.log ++ [m]

theorem last_ne {id : Nat} {ms p l : List ChatMessage} {m : ChatMessage} (hm : m.sender = id) (hp : ∀ x ∈ p, x.sender ≠ id) (h0 : p ≠ []) :
    ms ++ [m] ++ p ≠ l ++ [m] := by
  intro e
  rcases List.eq_nil_or_concat p with rfl | ⟨p', x, rfl⟩
  · exact h0 rfl
  · rw [List.concat_eq_append, ← List.append_assoc] at e
    have := (List.append_inj' e rfl).2
    simp only [List.cons.injEq, and_true] at this
    exact hp x (by simp) (this ▸ hm)

/-- The registration of a user. -/
theorem joined_of_live {fs : Nat → Bool} {n : ChatNet} (h : OrderInv fs n) {k : Nat} {v : UserProcs} (hv : n.users k = some v) {nm : String} {id : Nat}
    {ms : List ChatMessage} {c : String} (hl : v.live = some (.initialized nm id ms c)) :
    ∃ j, (k, j) ∈ n.srv.joined ∧ j ≤ n.srv.log.length ∧ ∀ m ∈ v.pending, m.sender ≠ id := by
  obtain ⟨g1, j, g2, g3, -⟩ := (h.caught k v hv).2.2 nm id ms c hl
  exact ⟨j, g2, g3, g1⟩

/-- What holds of a page in relation to the log is kept if it holds at the registration and each kind of step keeps it. -/
theorem page_induction {parse : String → Option ClientMessage} {fs : Nat → Bool} (k : Nat) (R : Nat → List ChatMessage → List ChatMessage → List ChatMessage → ChatNet → Prop)
    (h0 : ∀ n id, R id [] [] [] n)
    (hquiet : ∀ n n' id ms p ms' p' l, ChatStep parse fs n n' → ms' ++ p' = ms ++ p → (∀ m ∈ p, m.sender ≠ id) → R id l ms p n → R id l ms' p' n')
    (hother : ∀ n n' id ms p l m, ChatStep parse fs n n' → m.sender ≠ id → R id l ms p n → R id (l ++ [m]) ms (p ++ [m]) n')
    (hown : ∀ n n' id ms p l m v nm c, ChatSteps parse fs .init n → ChatStep parse fs n n' → n.users k = some v →
      v.live = some (.initialized nm id ms c) → v.pending = p → n'.srv.log = n.srv.log ++ [m] → m.sender = id → (∀ x ∈ p, x.sender ≠ id) →
      R id l ms p n → R id (l ++ [m]) (ms ++ [m]) p n')
    {n : ChatNet} (h : ChatSteps parse fs .init n) {v : UserProcs} (hv : n.users k = some v) {nm : String} {id : Nat} {ms : List ChatMessage} {c : String}
    (hl : v.live = some (.initialized nm id ms c)) {j : Nat} (hj : (k, j) ∈ n.srv.joined) : R id (n.srv.log.drop j) ms v.pending n := by
  generalize hi : ChatNet.init = a at h
  induction h generalizing v nm id ms c j with
  | refl => subst hi; cases hv
  | @snoc n n' hpath hstep ih =>
    subst hi
    have hinv := order_steps hpath
    have hinv' := order_step hinv hstep
    obtain ⟨⟨new, hnew⟩, hcases⟩ := page_step hinv hstep hv hl
    rcases hcases with ⟨-, h2, h3, rfl, h5⟩ | ⟨v0, nm0, ms0, c0, hv0, hl0, hc⟩
    · have := pair_unique hinv'.joinedN h2 hj
      subst this
      rw [h3, h5, List.drop_length]
      exact h0 _ _
    · obtain ⟨j0, hj0, hle, hp⟩ := joined_of_live hinv hv0 hl0
      have : j = j0 := pair_unique hinv'.joinedN (hnew ▸ List.mem_append_left _ hj0) hj
      subst this
      have hR := ih hv0 hl0 hj0
      rcases hc with ⟨e1, e2⟩ | ⟨m, e1, e2, rfl, e4⟩ | ⟨m, e1, e2, rfl, e4⟩
      · rw [e1]; exact hquiet _ _ _ _ _ _ _ _ hstep e2 hp hR
      · rw [e2, e4, List.drop_append_of_le_length hle]; exact hother _ _ _ _ _ _ _ hstep e1 hR
      · rw [e2, e4, List.drop_append_of_le_length hle]
        exact hown _ _ _ _ _ _ _ _ _ _ hpath hstep hv0 hl0 rfl e2 e1 hp hR

theorem handle_joined {s s' : ChatServer} {q : CoordinatorInput} {r : LiveviewInput} {ds : List Delivery} (h : s.handle q = some (s', r, ds)) :
    s.joined <+: s'.joined := by
  cases q with
  | registerNewUser u p => simp only [ChatServer.handle, Option.some.injEq, Prod.mk.injEq] at h; obtain ⟨rfl, _, _⟩ := h; simp
  | setUsername id u => simp only [ChatServer.handle, Option.some.injEq, Prod.mk.injEq] at h; obtain ⟨rfl, _, _⟩ := h; simp
  | removeUser id => simp only [ChatServer.handle, Option.some.injEq, Prod.mk.injEq] at h; obtain ⟨rfl, _, _⟩ := h; simp
  | sendMessage id c =>
    simp only [ChatServer.handle] at h
    split at h
    · cases h
    · simp only [Option.some.injEq, Prod.mk.injEq] at h; obtain ⟨rfl, _, _⟩ := h; simp

theorem update_joined {l l' : Live} {i : LiveviewInput} {me : Nat} {srv srv' : ChatServer} {ds : List Delivery}
    (h : l.update i me srv = some (l', srv', ds)) : srv.joined <+: srv'.joined := by
  unfold Live.update at h
  split at h
  · split at h
    · rename_i hh
      simp only [Option.some.injEq, Prod.mk.injEq] at h
      obtain ⟨_, rfl, _⟩ := h
      exact handle_joined hh
    · cases h
  · split at h
    · rename_i hh
      simp only [Option.map_eq_some_iff, Prod.mk.injEq] at h
      obtain ⟨_, _, _, rfl, _⟩ := h
      exact handle_joined hh
    · cases h
  · simp only [Option.map_eq_some_iff, Prod.mk.injEq] at h
    obtain ⟨_, _, _, rfl, _⟩ := h
    exact List.prefix_rfl

theorem diff_joined (st : LoopState LiveviewInput (Option (Live × ChatServer)) Nat) (srv : ChatServer) (before : Phase ChatServer LiveviewInput (Option (Live × ChatServer)) Nat)
    (i : LiveviewInput) : srv.joined <+:
      (serverAfter srv before (updateAndDiff chatComponent { st with comp := st.comp.map fun c => (c.1, srv) } i).1).joined := by
  obtain ⟨proc, comp, dom, ls⟩ := st
  unfold updateAndDiff
  simp only
  split
  · cases before <;> simp [serverAfter]
  · simp only [serverAfter]
    cases comp with
    | none => simp [chatComponent]
    | some c =>
      simp only [chatComponent, Option.map_some]
      cases hu : c.1.update i proc srv with
      | none => simp
      | some r => obtain ⟨l', srv', ds⟩ := r; exact update_joined hu

theorem serverAfter_joined (parse : String → Option ClientMessage) (b : Bool) (srv : ChatServer) (ph : Phase ChatServer LiveviewInput (Option (Live × ChatServer)) Nat)
    (m : Mail LiveviewInput Nat) : srv.joined <+: (serverAfter srv ph (loopStep chatComponent parse b (withServer srv ph) m).1).joined := by
  cases ph with
  | waiting d =>
    cases m with
    | whoAmI p =>
      simp only [withServer, loopStep]
      split
      · simp [serverAfter]
      · split
        · simp [serverAfter, chatComponent]
        · simp [serverAfter]
    | _ => simp [withServer, loopStep, serverAfter]
  | running st =>
    have same : srv.joined <+: (serverAfter srv (.running st) (.running { st with comp := st.comp.map fun c => (c.1, srv) })).joined := by
      obtain ⟨proc, comp, dom, ls⟩ := st
      cases comp <;> simp [serverAfter]
    cases m with
    | whoAmI p => simp [withServer, loopStep, serverAfter]
    | input i => exact diff_joined st srv _ i
    | ws w =>
      cases w with
      | error e =>
        cases e with
        | clientError => exact same
        | connectionClosed =>
          simp only [withServer, loopStep, serverAfter]
          split
          · simp [ChatServer.handle]
          · simp
      | ok msg =>
        cases msg with
        | text t =>
          simp only [withServer, loopStep]
          split
          · exact same
          · split
            · exact same
            · exact diff_joined st srv _ _
            · exact diff_joined st srv _ _
            · split
              · exact diff_joined st srv _ _
              · exact same
        | _ => exact same
  | _ => cases m <;> simp [withServer, loopStep, serverAfter]

theorem joined_step {parse : String → Option ClientMessage} {fs : Nat → Bool} {n n' : ChatNet} (h : ChatStep parse fs n n') :
    n.srv.joined <+: n'.srv.joined := by
  cases h with
  | receive k u m rest hu hm =>
    unfold ChatNet.receive
    rw [(deliverAll_users _ _ 0).1]
    exact serverAfter_joined parse (fs k) n.srv u.loop m
  | _ => simp [ChatNet.set]

/-- Once it is out of order a page stays so. -/
theorem apart_steps {parse : String → Option ClientMessage} {fs : Nat → Bool} {k : Nat} {b : ChatNet} (hb : ChatSteps parse fs .init b)
    (hreg : k ∈ b.srv.joined.map (·.1))
    (hapart : ∀ v nm id ms c j, b.users k = some v → v.live = some (.initialized nm id ms c) → (k, j) ∈ b.srv.joined → ms ++ v.pending ≠ b.srv.log.drop j)
    {n : ChatNet} (h : ChatSteps parse fs b n) :
    k ∈ n.srv.joined.map (·.1) ∧
    ∀ v nm id ms c j, n.users k = some v → v.live = some (.initialized nm id ms c) → (k, j) ∈ n.srv.joined → ms ++ v.pending ≠ n.srv.log.drop j := by
  induction h with
  | refl => exact ⟨hreg, hapart⟩
  | @snoc n n' hpath hstep ih =>
    obtain ⟨ihr, iha⟩ := ih
    refine ⟨((joined_step hstep).map _).subset ihr, ?_⟩
    intro v nm id ms c j hv hl hj
    have hinv := order_steps (hb.trans hpath)
    have hinv' := order_step hinv hstep
    rcases (page_step hinv hstep hv hl).2 with ⟨h1, -⟩ | ⟨v0, nm0, ms0, c0, hv0, hl0, hc⟩
    · exact absurd ihr h1
    · obtain ⟨j0, hj0, hle, hp⟩ := joined_of_live hinv hv0 hl0
      have : j = j0 := pair_unique hinv'.joinedN ((joined_step hstep).subset hj0) hj
      subst this
      have hne := iha v0 nm0 id ms0 c0 j hv0 hl0 hj0
      rcases hc with ⟨e1, e2⟩ | ⟨m, e1, e2, rfl, e4⟩ | ⟨m, e1, e2, rfl, e4⟩
      · rw [e1, e2]; exact hne
      · rw [e2, e4, List.drop_append_of_le_length hle, ← List.append_assoc]
        exact fun e => hne (List.append_cancel_right e)
      · rw [e2, e4, List.drop_append_of_le_length hle]
        by_cases hp0 : v0.pending = []
        · rw [hp0] at hne ⊢
          simp only [List.append_nil] at hne ⊢
          exact fun e => hne (List.append_cancel_right e)
        · exact last_ne e1 hp hp0

theorem Overtook.mono {parse : String → Option ClientMessage} {fs : Nat → Bool} {k : Nat} {n n' : ChatNet} (h : Overtook parse fs k n)
    (hs : ChatStep parse fs n n') : Overtook parse fs k n' := by
  obtain ⟨a, b, u, nm, id, ms, c, m, h1, h2, h3, h4⟩ := h
  exact ⟨a, b, u, nm, id, ms, c, m, h1, h2, .snoc h3 hs, h4⟩

/-- **C89 (what holds, exactly).** In every reachable state, for every registered user whose component runs, let `L` be the messages the coordinator has
accepted since the user registered, in its order.  What the user's page shows, with the messages still on their way to it, is `L` with messages of the
user's own moved forward past messages of others; and it is `L` itself if and only if the user never sent a message while one of another user was on its
way to it. -/
theorem C89_exact_partial (parse : String → Option ClientMessage) (firstSend : Nat → Bool) (n : ChatNet) (h : ChatSteps parse firstSend .init n)
    (k : Nat) (u : UserProcs) (hu : n.users k = some u) (name : String) (id : Nat) (shown : List ChatMessage) (composing : String)
    (hl : u.live = some (.initialized name id shown composing)) (before : Nat) (hb : (k, before) ∈ n.srv.joined) :
    Advanced id (n.srv.log.drop before) (shown ++ u.pending) ∧
    (shown ++ u.pending = n.srv.log.drop before ↔ ¬ Overtook parse firstSend k n) := by
  refine ⟨?_, ?_, ?_⟩
  · refine page_induction (parse := parse) (fs := firstSend) k (fun id l ms p _ => Advanced id l (ms ++ p)) (fun _ _ => .refl _) ?_ ?_ ?_ h hu hl hb
    · intro _ _ _ _ _ _ _ _ _ e _ hR; rw [e]; exact hR
    · intro _ _ _ _ _ _ m _ _ hR; rw [← List.append_assoc]; exact hR.append [m]
    · intro _ _ _ _ p _ m _ _ _ _ _ _ _ _ _ hm hp hR
      exact Advanced.past hm p hp (hR.append [m])
  · rintro e ⟨a, b, v, nm, id', ms, c, m, ha, hab, hbn, hv, hlv, hp0, hm, hlog⟩
    have hinv := order_steps ha
    obtain ⟨j, hj, hle, hp⟩ := joined_of_live hinv hv hlv
    refine (apart_steps (k := k) (.snoc ha hab) (((joined_step hab).map _).subset (List.mem_map.2 ⟨_, hj, rfl⟩)) ?_ hbn).2 u name id shown composing before
      hu hl hb e
    intro v' nm' id'' ms' c' j' hv' hlv' hj'
    have hinv' := order_step hinv hab
    rcases (page_step hinv hab hv' hlv').2 with ⟨h1, -⟩ | ⟨v0, nm0, ms0, c0, hv0, hl0, hc⟩
    · exact absurd (List.mem_map.2 ⟨_, hj, rfl⟩) h1
    · rw [hv] at hv0
      cases hv0
      rw [hlv] at hl0
      cases hl0
      have : j' = j := pair_unique hinv'.joinedN ((joined_step hab).subset hj) hj'
      subst this
      rcases hc with ⟨e1, e2⟩ | ⟨m', e1, e2, rfl, e4⟩ | ⟨m', e1, e2, rfl, e4⟩
      · rw [e1] at hlog
        exact absurd hlog (by simp)
      · rw [e2] at hlog
        have := List.append_cancel_left hlog
        cases this
        exact absurd hm e1
      · rw [e2, e4, List.drop_append_of_le_length hle]
        exact last_ne e1 hp hp0
  · intro hno
    have := page_induction (parse := parse) (fs := firstSend) k (fun id l ms p n => Overtook parse firstSend k n ∨ ms ++ p = l) (fun _ _ => .inr rfl)
      ?_ ?_ ?_ h hu hl hb
    · exact this.resolve_left hno
    · intro _ _ _ _ _ _ _ _ hs e _ hR; rw [e]; exact hR.imp (·.mono hs) _root_.id
    · intro _ _ _ _ _ _ m hs _ hR; rw [← List.append_assoc]; exact hR.imp (·.mono hs) (by rintro rfl; rfl)
    · intro a b id' ms p l m v nm c ha hs hv hlv hpv hlog hm hp hR
      rcases hR with hR | hR
      · exact .inl (hR.mono hs)
      · by_cases hp0 : p = []
        · subst hp0
          right
          simp only [List.append_nil] at hR ⊢
          rw [hR]
        · exact .inl ⟨a, b, v, nm, id', ms, c, m, ha, hs, .refl _, hv, hlv, by rw [hpv]; exact hp0, hm, hlog⟩

/-- **C89, two users.** Two different users see the messages accepted since both registered in the same order if and only if both see them in the
coordinator's order (where no user sent the same text twice, so that messages can be told apart). -/
theorem C89_agree_partial (parse : String → Option ClientMessage) (firstSend : Nat → Bool) (n : ChatNet) (h : ChatSteps parse firstSend .init n)
    (hd : n.srv.log.Nodup) (k k' : Nat) (hk : k ≠ k') (u u' : UserProcs) (hu : n.users k = some u) (hu' : n.users k' = some u')
    (name name' : String) (id id' : Nat) (shown shown' : List ChatMessage) (composing composing' : String)
    (hl : u.live = some (.initialized name id shown composing)) (hl' : u'.live = some (.initialized name' id' shown' composing'))
    (hp : u.pending = []) (hp' : u'.pending = []) (before before' : Nat) (hb : (k, before) ∈ n.srv.joined) (hb' : (k', before') ∈ n.srv.joined) :
    let both := n.srv.log.drop (max before before')
    shown.filter (· ∈ both) = shown'.filter (· ∈ both) ↔ shown.filter (· ∈ both) = both ∧ shown'.filter (· ∈ both) = both := by
  intro both
  have hinv := order_steps h
  have hid : ∀ {k : Nat} {u : UserProcs} {name : String} {id : Nat} {shown : List ChatMessage} {composing : String}, n.users k = some u →
      u.live = some (.initialized name id shown composing) → getUser id n.srv.users = some (name, k) := by
    intro k u name id shown composing hu hl
    have hpj := (hinv.net.procs k u hu).2
    unfold UserProcs.live at hl
    cases hlp : u.loop with
    | running st =>
      rw [hlp] at hpj hl
      obtain ⟨_, _, l, s0, hcomp, _, hkn⟩ := hpj
      simp only [hcomp, Option.map_some, Option.some.injEq] at hl
      exact hkn _ _ _ _ hl
    | _ => rw [hlp] at hl; cases hl
  have hne : id ≠ id' := by
    rintro rfl
    have h1 := hid hu hl
    rw [hid hu' hl'] at h1
    cases h1
    exact hk rfl
  have part : ∀ b, b ≤ max before before' → (n.srv.log.drop b).filter (· ∈ both) = both := by
    intro b hle
    have h1 : n.srv.log.drop b = (n.srv.log.drop b).take (max before before' - b) ++ both := by
      have := (List.take_append_drop (max before before' - b) (n.srv.log.drop b)).symm
      rw [List.drop_drop, show b + (max before before' - b) = max before before' by omega] at this
      exact this
    have h2 := hd.sublist (List.drop_sublist b n.srv.log)
    rw [h1] at h2 ⊢
    rw [List.nodup_append] at h2
    rw [List.filter_append]
    have h3 : ((n.srv.log.drop b).take (max before before' - b)).filter (fun x => decide (x ∈ both)) = [] := by
      apply List.filter_eq_nil_iff.2
      intro x hx
      simp only [decide_eq_true_eq]
      exact fun hy => h2.2.2 x hx x hy rfl
    rw [h3, List.nil_append, List.filter_eq_self]
    simp
  have a1 := (C89_exact_partial parse firstSend n h k u hu name id shown composing hl before hb).1.filter (· ∈ both)
  have a2 := (C89_exact_partial parse firstSend n h k' u' hu' name' id' shown' composing' hl' before' hb').1.filter (· ∈ both)
  rw [part _ (Nat.le_max_left _ _), hp, List.append_nil] at a1
  rw [part _ (Nat.le_max_right _ _), hp', List.append_nil] at a2
  constructor
  · intro e
    rw [← e] at a2 ⊢
    have := a1.both hne a2
    exact ⟨this, this⟩
  · rintro ⟨e1, e2⟩
    rw [e1, e2]

/-- non-vacuity: in the run of `C89_order_refuted` there are two registered users, to neither of whom anything is on its way, and no message was sent twice;
the second of them sent while the first one's message was on its way, the first did not -/
example (parse : String → Option ClientMessage) (register submit : String) (hr : parse register = some ⟨"initialize_username", none⟩)
    (hs : parse submit = some ⟨"submit_message", none⟩) :
    ∃ n u0 u1, ChatSteps parse (fun _ => true) .init n ∧ n.srv.log.Nodup ∧ n.users 0 = some u0 ∧ n.users 1 = some u1 ∧
      u0.live = some (.initialized "" 0 [⟨0, "", ""⟩, ⟨1, "", ""⟩] "") ∧ u1.live = some (.initialized "" 1 [⟨1, "", ""⟩, ⟨0, "", ""⟩] "") ∧
      u0.pending = [] ∧ u1.pending = [] ∧ (0, 0) ∈ n.srv.joined ∧ (1, 0) ∈ n.srv.joined ∧
      ¬ Overtook parse (fun _ => true) 0 n ∧ Overtook parse (fun _ => true) 1 n := by
  obtain ⟨n, r, ⟨sa, qa, ha⟩, ⟨sb, qb, hb⟩, hlog, hj⟩ := crossed_run parse (fun _ => true) rfl rfl register submit hr hs
  have j0 : (0, 0) ∈ n.srv.joined := by rw [hj]; simp
  have j1 : (1, 0) ∈ n.srv.joined := by rw [hj]; simp
  refine ⟨n, _, _, r, by rw [hlog]; decide, ha, hb, rfl, rfl, rfl, rfl, j0, j1, ?_, ?_⟩
  · exact (C89_exact_partial parse _ n r 0 _ ha _ _ _ _ rfl 0 j0).2.1 (by rw [hlog]; rfl)
  · refine Classical.byContradiction fun hno => ?_
    have := (C89_exact_partial parse _ n r 1 _ hb _ _ _ _ rfl 0 j1).2.2 hno
    rw [hlog] at this
    simp [UserProcs.pending] at this

end Puck.Chat
