import Verif.Spec.ChatAuthors
import Verif.Props.ChatGrows
/-!
# C153: the id and name shown with a message
-/
namespace Puck.Chat
open Puck

section
variable {parse : String → Option ClientMessage} {fs : Nat → Bool}

/-- A step leaves the log alone, or a component that has entered, and is still there afterwards, adds one message under its name and id. -/
theorem log_step {n : ChatNet} (hn : NetInv fs n) {k : Nat} {u : UserProcs} {m : Mail LiveviewInput Nat} {rest : List (Mail LiveviewInput Nat)} (hu : n.users k = some u)
    (hm : u.loopBox = m :: rest) :
    (n.receive parse fs k u m rest).srv.log = n.srv.log ∨ ∃ name id shown composing v,
      u.live = some (.initialized name id shown composing) ∧ (n.receive parse fs k u m rest).users k = some v ∧
      v.live = some (.initialized name id (shown ++ [⟨id, name, composing⟩]) composing) ∧
      (n.receive parse fs k u m rest).srv.log = n.srv.log ++ [⟨id, name, composing⟩] := by
  have hp := hn.procs k u hu
  have hlog : (n.receive parse fs k u m rest).srv = serverAfter n.srv u.loop (loopStep chatComponent parse (fs k) (withServer n.srv u.loop) m).1 := by
    unfold ChatNet.receive
    rw [(deliverAll_users _ _ k).1]
    rfl
  have hlive : ∃ v, (n.receive parse fs k u m rest).users k = some v ∧ v.loop = (loopStep chatComponent parse (fs k) (withServer n.srv u.loop) m).1 := by
    unfold ChatNet.receive
    rw [(deliverAll_users _ _ k).2]
    simp only [ChatNet.set, if_true, Option.map_some]
    exact ⟨_, rfl, rfl⟩
  obtain ⟨v, hv, hvl⟩ := hlive
  rw [hlog]
  obtain ⟨inbox, loop, loopBox, sent⟩ := u
  simp only at hm
  subst hm
  obtain ⟨hin, h2⟩ := hp
  simp only at hin h2 hvl ⊢
  cases loop with
  | unreachable => exact absurd h2 id
  | stopped =>
    have hs : loopStep chatComponent parse (fs k) (withServer n.srv .stopped) m = (.stopped, []) := by cases m <;> rfl
    rw [hs]
    exact .inl rfl
  | crashed =>
    have hs : loopStep chatComponent parse (fs k) (withServer n.srv .crashed) m = (.crashed, []) := by cases m <;> rfl
    rw [hs]
    exact .inl rfl
  | waiting d =>
    obtain ⟨r, h3, h4⟩ := h2
    simp only [List.cons.injEq] at h3
    obtain ⟨rfl, rfl⟩ := h3
    obtain ⟨ops, ho⟩ := (C59_unkeyed_partial _ _ (render_unkeyed (.uninitialized "")) (render_unkeyed (.uninitialized ""))).2
    left
    simp only [withServer, loopStep, chatComponent, List.map_nil, List.nil_append]
    rw [ho]
    cases fs k <;> rfl
  | running st =>
    obtain ⟨hbx, hproc, l, srv0, hcomp, hrender, hknown⟩ := h2
    obtain ⟨proc, comp, dom, ls⟩ := st
    simp only at hproc hcomp hrender
    subst hproc hcomp
    have hmm := hbx m (by simp)
    have hl : ls = l.listeners := (congrArg (·.2) hrender).symm
    by_cases hask : ∃ i, Asks parse l.listeners m i
    · obtain ⟨i, hi⟩ := hask
      obtain ⟨l', srv', ds, hup, -, -, -, -⟩ := update_ok hn.srv hknown (asks_expected hmm hi)
      obtain ⟨ops, hstep⟩ := update_step (b := fs proc) (srv0 := srv0) hrender hi hup
      rw [hstep] at hvl ⊢
      have hvlive : v.live = some l' := by unfold UserProcs.live; rw [hvl]; rfl
      simp only [serverAfter, Option.map_some, Option.getD_some]
      rcases asks_cases hmm hi with ⟨c, rfl, rfl⟩ | ⟨⟨w, rfl⟩, ⟨u, rfl, ⟨v', rfl⟩ | rfl⟩ | ⟨u, id, ms, c, rfl, ⟨v', rfl⟩ | rfl⟩⟩
      · left
        cases l <;>
        · simp only [Live.update, Live.updateLocal, Option.map_some, Option.some.injEq, Prod.mk.injEq] at hup
          rw [← hup.2.1]
      · left
        simp only [Live.update, Live.updateLocal, Option.map_some, Option.some.injEq, Prod.mk.injEq] at hup
        rw [← hup.2.1]
      · left
        simp only [Live.update, ChatServer.handle, Option.some.injEq, Prod.mk.injEq] at hup
        rw [← hup.2.1]
      · left
        simp only [Live.update, Live.updateLocal, Option.map_some, Option.some.injEq, Prod.mk.injEq] at hup
        rw [← hup.2.1]
      · have hg := hknown u id ms c rfl
        simp only [Live.update, ChatServer.handle, hg, Live.updateLocal, Option.map_some, Option.some.injEq, Prod.mk.injEq] at hup
        obtain ⟨rfl, rfl, -⟩ := hup
        exact .inr ⟨u, id, ms, c, v, rfl, hv, hvlive, rfl⟩
    · left
      by_cases hclosed : m = .ws (.error .connectionClosed)
      · subst hclosed
        have hs : loopStep chatComponent parse (fs proc) (withServer n.srv (.running ⟨proc, some (l, srv0), dom, ls⟩))
            (.ws (.error .connectionClosed)) = (.stopped, [.dropped]) := rfl
        rw [hs]
        cases l <;> rfl
      · have hign : loopStep chatComponent parse (fs proc) (withServer n.srv (.running ⟨proc, some (l, srv0), dom, ls⟩)) m =
            (.running ⟨proc, some (l, n.srv), dom, ls⟩, []) := by
          simp only [withServer, Option.map_some]
          refine step_ignored ?_ hclosed ?_
          · intro i hi
            exact hask ⟨i, by simp only [hl] at hi; exact hi⟩
          · rintro q rfl
            rcases hmm with ⟨c, hc⟩ | ⟨w, hw⟩
            · cases hc
            · cases hw
        rw [hign]
        rfl

theorem Authors.steps {a : List Nat} {n : ChatNet} (h : Authors parse fs a n) : ChatSteps parse fs .init n := by
  induction h with
  | init => exact .refl _
  | quiet _ s _ ih => exact .snoc ih s
  | sends k u mail rest msg _ hu hm _ ih => exact .snoc ih (.receive _ k u mail rest hu hm)

theorem Authors.length {a : List Nat} {n : ChatNet} (h : Authors parse fs a n) : a.length = n.srv.log.length := by
  induction h with
  | init => rfl
  | quiet _ s e ih => rw [e]; exact ih
  | sends k u mail rest msg _ hu hm e ih => rw [e, List.length_append, List.length_append, ih]; rfl

/-- two components that run do not have the same id -/
theorem live_ids {n : ChatNet} (hn : NetInv fs n) {k k' : Nat} {u u' : UserProcs} (hu : n.users k = some u) (hu' : n.users k' = some u') {name name' c c' : String} {id : Nat}
    {ms ms' : List ChatMessage} (hl : u.live = some (.initialized name id ms c)) (hl' : u'.live = some (.initialized name' id ms' c')) : k = k' := by
  have key : ∀ (j : Nat) (v : UserProcs) (nm : String) (s : List ChatMessage) (t : String), n.users j = some v → v.live = some (.initialized nm id s t) →
      getUser id n.srv.users = some (nm, j) := by
    intro j v nm s t hv e
    have hpj := (hn.procs j v hv).2
    unfold UserProcs.live at e
    cases hlp : v.loop with
    | running st =>
      rw [hlp] at hpj e
      obtain ⟨_, _, l, s0, hcomp, _, hkn⟩ := hpj
      simp only [hcomp, Option.map_some, Option.some.injEq] at e
      exact hkn nm id s t e
    | _ => rw [hlp] at e; cases e
  have h1 := key k u _ _ _ hu hl
  rw [key k' u' _ _ _ hu' hl'] at h1
  simp only [Option.some.injEq, Prod.mk.injEq] at h1
  exact h1.2.symm

/-- the invariant -/
theorem Authors.inv {a : List Nat} {n : ChatNet} (h : Authors parse fs a n) :
    (∀ k m, SentBy a n.srv.log k m → ∃ v, n.users k = some v ∧ StillShows m.username m.sender [] v) ∧
    (∀ k m m', SentBy a n.srv.log k m → SentBy a n.srv.log k m' → m.sender = m'.sender ∧ m.username = m'.username) := by
  induction h with
  | init => constructor <;> intros <;> simp [SentBy] at *
  | @quiet a n n' h s e ih =>
    rw [e]
    refine ⟨fun k m hk => ?_, ih.2⟩
    obtain ⟨v, hv, hst⟩ := ih.1 k m hk
    obtain ⟨v', hv', -, hst'⟩ := still_step (steps_inv h.steps) s hv
    exact ⟨v', hv', hst' _ _ _ hst⟩
  | @sends a n k u mail rest msg h hu hm e ih =>
    have hn := steps_inv h.steps
    have s : ChatStep parse fs n (n.receive parse fs k u mail rest) := .receive n k u mail rest hu hm
    have hz : ∀ j m, SentBy (a ++ [k]) (n.receive parse fs k u mail rest).srv.log j m ↔ SentBy a n.srv.log j m ∨ (j = k ∧ m = msg) := by
      intro j m
      unfold SentBy
      rw [e, List.zip_append h.length]
      simp
    rcases log_step (parse := parse) hn hu hm with hq | ⟨name, id, shown, composing, v, h1, h2, h3, h4⟩
    · rw [hq] at e
      simp at e
    · have hmsg : msg = ⟨id, name, composing⟩ := by
        rw [h4] at e
        simpa using e.symm
      subst hmsg
      have hnew : ∀ m, SentBy a n.srv.log k m → m.sender = id ∧ m.username = name := by
        intro m hk
        obtain ⟨w, hw, hst⟩ := ih.1 k m hk
        obtain rfl : u = w := by rw [hu] at hw; cases hw; rfl
        rcases hst with hst | ⟨s', c', hst, -⟩
        · unfold UserProcs.live at h1; rw [hst] at h1; cases h1
        · rw [h1] at hst
          simp only [Option.some.injEq, Live.initialized.injEq] at hst
          exact ⟨hst.2.1.symm, hst.1.symm⟩
      refine ⟨fun j m hj => ?_, fun j m m' hj hj' => ?_⟩
      · rcases (hz j m).1 hj with hj | ⟨rfl, rfl⟩
        · obtain ⟨w, hw, hst⟩ := ih.1 j m hj
          obtain ⟨w', hw', -, hst'⟩ := still_step hn s hw
          exact ⟨w', hw', hst' _ _ _ hst⟩
        · exact ⟨v, h2, .inr ⟨_, _, h3, List.nil_prefix⟩⟩
      · rcases (hz j m).1 hj with hj1 | ⟨rfl, rfl⟩ <;> rcases (hz j m').1 hj' with hj2 | ⟨e1, rfl⟩
        · exact ih.2 j m m' hj1 hj2
        · subst e1; exact hnew m hj1
        · have := hnew m' hj2
          exact ⟨this.1.symm, this.2.symm⟩
        · exact ⟨rfl, rfl⟩

end

/-- Every run of the application has its list of authors, one for each accepted message. -/
theorem C153_authors (parse : String → Option ClientMessage) (firstSend : Nat → Bool) (n : ChatNet) (h : ChatSteps parse firstSend .init n) :
    ∃ authors, Authors parse firstSend authors n ∧ authors.length = n.srv.log.length := by
  have key : ∀ a b, ChatSteps parse firstSend a b → a = .init → ∃ authors, Authors parse firstSend authors b := by
    intro a b h
    induction h with
    | refl => rintro rfl; exact ⟨[], .init⟩
    | @snoc b c h1 s ih =>
      intro ha
      obtain ⟨as, has⟩ := ih ha
      have hn := steps_inv has.steps
      cases s with
      | receive k u m rest hu hm =>
        rcases log_step (parse := parse) hn hu hm with hq | ⟨name, id, shown, composing, v, h1, h2, h3, h4⟩
        · exact ⟨as, .quiet has (.receive _ k u m rest hu hm) hq⟩
        · exact ⟨as ++ [k], .sends k u m rest _ has hu hm h4⟩
      | connect k hk => exact ⟨as, .quiet has (.connect _ k hk) rfl⟩
      | forward k u i rest hu hi => exact ⟨as, .quiet has (.forward _ k u i rest hu hi) rfl⟩
      | read k u w hu => exact ⟨as, .quiet has (.read _ k u w hu) rfl⟩
      | die k u hu => exact ⟨as, .quiet has (.die _ k u hu) rfl⟩
      | shuffle users hp => exact ⟨as, .quiet has (.shuffle _ users hp) rfl⟩
  obtain ⟨as, has⟩ := key _ _ h rfl
  exact ⟨as, has, has.length⟩

/-- **C153 (what holds).** In every state the application reaches: all the messages of one user bear the same name and the same id; messages of two different users bear different ids, unless
one of the two is gone; and a message that bears the id of a user who is there now is that user's, unless its author is gone. -/
theorem C153_author_partial (parse : String → Option ClientMessage) (firstSend : Nat → Bool) (authors : List Nat) (n : ChatNet) (h : Authors parse firstSend authors n) (k k' : Nat)
    (m : ChatMessage) (hm : SentBy authors n.srv.log k m) :
    (∀ m', SentBy authors n.srv.log k m' → m'.sender = m.sender ∧ m'.username = m.username) ∧
    (∀ m', SentBy authors n.srv.log k' m' → m'.sender = m.sender → k' = k ∨ n.Gone k ∨ n.Gone k') ∧
    (∀ u name shown composing, n.users k' = some u → u.live = some (.initialized name m.sender shown composing) → k' = k ∧ name = m.username ∨ n.Gone k) := by
  obtain ⟨h1, h2⟩ := h.inv
  have hn := steps_inv h.steps
  obtain ⟨v, hv, hst⟩ := h1 k m hm
  refine ⟨fun m' hm' => h2 k m' m hm' hm, fun m' hm' e => ?_, fun u name shown composing hu hl => ?_⟩
  · obtain ⟨v', hv', hst'⟩ := h1 k' m' hm'
    rcases hst with hst | ⟨s, c, hst, -⟩
    · exact .inr (.inl ⟨v, hv, hst⟩)
    · rcases hst' with hst' | ⟨s', c', hst', -⟩
      · exact .inr (.inr ⟨v', hv', hst'⟩)
      · rw [e] at hst'
        exact .inl (live_ids hn hv' hv hst' hst)
  · rcases hst with hst | ⟨s, c, hst, -⟩
    · exact .inr ⟨v, hv, hst⟩
    · left
      obtain rfl := live_ids hn hu hv hl hst
      rw [hu] at hv
      cases hv
      rw [hl] at hst
      simp only [Option.some.injEq, Live.initialized.injEq] at hst
      exact ⟨rfl, hst.1⟩

/-! ## Somebody else under the same name and id -/

section
variable {parse : String → Option ClientMessage} {fs : Nat → Bool}

theorem log_steps {n n' : ChatNet} (h : ChatSteps parse fs .init n) (h' : ChatSteps parse fs n n') : n.srv.log.length ≤ n'.srv.log.length := by
  induction h' with
  | refl => exact Nat.le_refl _
  | snoc h1 s ih =>
    refine Nat.le_trans ih ?_
    cases s with
    | receive k u m rest hu hm =>
      rcases log_step (parse := parse) (steps_inv (h.trans h1)) hu hm with hq | ⟨name, id, shown, composing, v, _, _, _, h4⟩
      · rw [hq]; exact Nat.le_refl _
      · rw [h4]; simp
    | connect k hk => exact Nat.le_refl _
    | forward k u i rest hu hi => exact Nat.le_refl _
    | read k u w hu => exact Nat.le_refl _
    | die k u hu => exact Nat.le_refl _
    | shuffle users hp => exact Nat.le_refl _

/-- As long as the log does not grow, nobody is added. -/
theorem Authors.quietly {a : List Nat} {n n' : ChatNet} (h : Authors parse fs a n) (h' : ChatSteps parse fs n n') (he : n'.srv.log = n.srv.log) : Authors parse fs a n' := by
  have key : ∀ n', ChatSteps parse fs n n' → n'.srv.log.length = n.srv.log.length → Authors parse fs a n' ∧ n'.srv.log = n.srv.log := by
    intro n' h'
    induction h' with
    | refl => exact fun _ => ⟨h, rfl⟩
    | @snoc b c h1 s ih =>
      intro hl
      have l1 := log_steps h.steps h1
      have l2 := log_steps (h.steps.trans h1) (.snoc (.refl _) s)
      obtain ⟨i1, i2⟩ := ih (by omega)
      have hq : c.srv.log = b.srv.log := by
        cases s with
        | receive k u m rest hu hm =>
          rcases log_step (parse := parse) (steps_inv (h.steps.trans h1)) hu hm with hq | ⟨name, id, shown, composing, v, _, _, _, h4⟩
          · exact hq
          · rw [h4] at hl; rw [i2] at hl; simp at hl
        | connect k hk => rfl
        | forward k u i rest hu hi => rfl
        | read k u w hu => rfl
        | die k u hu => rfl
        | shuffle users hp => rfl
      exact ⟨.quiet i1 s hq, hq.trans i2⟩
  exact (key n' h' (by rw [he])).1

/-- The browser clicks on the button, and a message is sent. -/
theorem run_send {a : List Nat} {n : ChatNet} (hA : Authors parse fs a n) {k : Nat} {l l' : Live} {ib : List LiveviewInput} (h : At n k l ib []) {t name : String}
    (ht : parse t = some ⟨name, none⟩) {i : LiveviewInput} (hi : l.listeners name = some (.click i)) {srv' : ChatServer} {ds : List Delivery}
    (hup : l.update i k n.srv = some (l', srv', ds)) {msg : ChatMessage} (hg : srv'.log = n.srv.log ++ [msg]) :
    ∃ n', Authors parse fs (a ++ [k]) n' ∧ n'.srv = srv' ∧ At n' k l' (ib ++ (ds.filter fun d => d.to == k).map (·.msg)) [] ∧
      ∀ j, j ≠ k → ∀ lj ibj bxj, At n j lj ibj bxj → At n' j lj (ibj ++ (ds.filter fun d => d.to == j).map (·.msg)) bxj := by
  obtain ⟨n1, r1, e1, ⟨s0, q0, a1⟩, o1⟩ := run_read (parse := parse) (fs := fs) h (.ok (.text t))
  have hA1 := hA.quietly r1 (by rw [e1])
  rw [List.nil_append] at a1
  rw [← e1] at hup hg
  have ha : Asks parse l.listeners (.ws (.ok (.text t)) : Mail LiveviewInput Nat) i := Or.inr ⟨t, _, rfl, ht, Or.inl hi⟩
  obtain ⟨ops, hstep⟩ := update_step (b := fs k) (srv0 := s0) (dom := l.render.1) (ls := l.render.2) rfl ha hup
  have heq : n1.receive parse fs k ⟨ib, .running ⟨k, some (l, s0), l.render.1, l.render.2⟩, [.ws (.ok (.text t))], q0⟩ (.ws (.ok (.text t))) [] =
      ds.foldl ChatNet.deliver ((⟨srv', n1.users⟩ : ChatNet).set k ⟨ib, .running ⟨k, some (l', srv'), l'.render.1, l'.render.2⟩, [],
        q0 ++ sends (ds.map .effect ++ [.send (serializeOps ops)])⟩) := by
    unfold ChatNet.receive
    simp only [hstep, serverAfter, Option.map_some, Option.getD_some]
    rw [effects_map _ _ rfl]
  have hsrv : (n1.receive parse fs k ⟨ib, .running ⟨k, some (l, s0), l.render.1, l.render.2⟩, [.ws (.ok (.text t))], q0⟩ (.ws (.ok (.text t))) []).srv = srv' := by
    rw [heq, (deliverAll_users _ _ 0).1]; rfl
  refine ⟨_, .sends k _ _ [] msg hA1 a1 rfl (by rw [hsrv]; exact hg), hsrv, ?_, ?_⟩
  · rw [heq]
    refine ⟨srv', q0 ++ sends (ds.map .effect ++ [.send (serializeOps ops)]), ?_⟩
    rw [(deliverAll_users _ _ k).2]
    simp [ChatNet.set]
  · rintro j hj lj ibj bxj ⟨sj, qj, hsj⟩
    rw [heq]
    refine ⟨sj, qj, ?_⟩
    rw [(deliverAll_users _ _ j).2]
    simp [ChatNet.set, hj, o1 j hj, hsj]

/-- The reader reports the end of the connection. -/
theorem run_close {n : ChatNet} {k : Nat} {name : String} {id : Nat} {ms : List ChatMessage} {c : String} {ib : List LiveviewInput} (h : At n k (.initialized name id ms c) ib []) :
    ∃ n', ChatSteps parse fs n n' ∧ n'.srv = ⟨n.srv.users.filter (fun u => u.1 != id), n.srv.idGen.releaseId id, n.srv.log, n.srv.joined⟩ ∧ n'.Gone k ∧
      ∀ j, j ≠ k → n'.users j = n.users j := by
  obtain ⟨n1, r1, e1, ⟨s0, q0, a1⟩, o1⟩ := run_read (parse := parse) (fs := fs) h (.error .connectionClosed)
  have s := ChatStep.receive (parse := parse) (firstSend := fs) n1 k _ (.ws (.error .connectionClosed)) [] a1 rfl
  have hs : loopStep chatComponent parse (fs k) (withServer n1.srv (.running ⟨k, some (.initialized name id ms c, s0), (Live.initialized name id ms c).render.1, (Live.initialized name id ms c).render.2⟩))
      (.ws (.error .connectionClosed)) = (.stopped, [.dropped]) := rfl
  unfold ChatNet.receive at s
  rw [hs] at s
  simp only [effects, List.foldl_nil, serverAfter, ChatServer.handle, Option.map_some, Option.getD_some] at s
  refine ⟨_, r1.trans (.snoc (.refl _) s), by rw [← e1]; rfl, ⟨_, by simp [ChatNet.set]; rfl, rfl⟩, fun j hj => ?_⟩
  simp [ChatNet.set, hj, o1 j hj]

end

/-- **C153 is false.** If browsers can register and send at all, the application reaches a state in which the page of a user who is there shows two messages with the same name, the same id and
the same text, one under the other, which were sent by two different users: the first has gone, and the second was given the id of the first and has chosen the same name. -/
theorem C153_author_refuted (parse : String → Option ClientMessage) (firstSend : Nat → Bool) (hf : ∀ k, firstSend k = true) (register submit : String)
    (hr : parse register = some ⟨"initialize_username", none⟩) (hs : parse submit = some ⟨"submit_message", none⟩) :
    ∃ n u, Authors parse firstSend [0, 2] n ∧ n.srv.log = [⟨0, "", ""⟩, ⟨0, "", ""⟩] ∧ n.users 1 = some u ∧
      u.live = some (.initialized "" 1 [⟨0, "", ""⟩, ⟨0, "", ""⟩] "") ∧ n.Gone 0 := by
  obtain ⟨n1, r1, e1, a1, o1⟩ := run_start (parse := parse) (fs := firstSend) (n := .init) (k := 0) rfl (hf 0)
  obtain ⟨n2, r2, e2, b2, o2⟩ := run_start (parse := parse) (fs := firstSend) (n := n1) (k := 1) (o1 1 (by decide)) (hf 1)
  obtain ⟨n3, r3, e3, c3, o3⟩ := run_start (parse := parse) (fs := firstSend) (n := n2) (k := 2) (by rw [o2 2 (by decide), o1 2 (by decide)]; rfl) (hf 2)
  have a3 : At n3 0 (.uninitialized "") [] [] := by
    obtain ⟨s, q, h⟩ := a1; exact ⟨s, q, by rw [o3 0 (by decide), o2 0 (by decide)]; exact h⟩
  have b3 : At n3 1 (.uninitialized "") [] [] := by
    obtain ⟨s, q, h⟩ := b2; exact ⟨s, q, by rw [o3 1 (by decide)]; exact h⟩
  have es3 : n3.srv = .init := (e3.trans e2).trans e1
  obtain ⟨n4, r4, e4, a4, o4⟩ := run_click (fs := firstSend) a3 hr (i := .browserRequest .initializeUser) (by simp [Live.listeners])
    (l' := .initialized "" 0 [] "") (srv' := ⟨[(0, "", 0)], ⟨[0], [], 1⟩, [], [(0, 0)]⟩) (ds := []) (by rw [es3]; decide +kernel)
  have b4 := o4 1 (by decide) _ _ _ b3
  have c4 := o4 2 (by decide) _ _ _ c3
  simp only [List.filter_nil, List.map_nil, List.append_nil] at a4 b4 c4
  obtain ⟨n5, r5, e5, b5, o5⟩ := run_click (fs := firstSend) b4 hr (i := .browserRequest .initializeUser) (by simp [Live.listeners])
    (l' := .initialized "" 1 [] "") (srv' := ⟨[(0, "", 0), (1, "", 1)], ⟨[1, 0], [], 2⟩, [], [(0, 0), (1, 0)]⟩) (ds := []) (by rw [e4]; decide +kernel)
  have a5 := o5 0 (by decide) _ _ _ a4
  have c5 := o5 2 (by decide) _ _ _ c4
  simp only [List.filter_nil, List.map_nil, List.append_nil] at a5 b5 c5
  have hA5 : Authors parse firstSend [] n5 := Authors.init.quietly ((((r1.trans r2).trans r3).trans r4).trans r5) (by rw [e5]; rfl)
  obtain ⟨n6, hA6, e6, a6, o6⟩ := run_send hA5 a5 hs (i := .browserRequest .sendTextMessage) (by simp [Live.listeners])
    (l' := .initialized "" 0 [⟨0, "", ""⟩] "") (srv' := ⟨[(0, "", 0), (1, "", 1)], ⟨[1, 0], [], 2⟩, [⟨0, "", ""⟩], [(0, 0), (1, 0)]⟩)
    (ds := [⟨1, .receiveMessage ⟨0, "", ""⟩⟩]) (by rw [e5]; decide +kernel) (msg := ⟨0, "", ""⟩) (by rw [e5]; rfl)
  have b6 : At n6 1 (.initialized "" 1 [] "") [.receiveMessage ⟨0, "", ""⟩] [] := o6 1 (by decide) _ _ _ b5
  have c6 : At n6 2 (.uninitialized "") [] [] := o6 2 (by decide) _ _ _ c5
  have a6 : At n6 0 (.initialized "" 0 [⟨0, "", ""⟩] "") [] [] := a6
  obtain ⟨n7, r7, e7, b7, o7⟩ := run_take (parse := parse) (fs := firstSend) b6
  have a7 := o7 0 (by decide) _ _ _ a6
  have c7 := o7 2 (by decide) _ _ _ c6
  obtain ⟨n8, r8, e8, g8, o8⟩ := run_close (parse := parse) (fs := firstSend) a7
  have b8 : At n8 1 (.initialized "" 1 [⟨0, "", ""⟩] "") [] [] := by
    obtain ⟨s, q, h⟩ := b7; exact ⟨s, q, by rw [o8 1 (by decide)]; exact h⟩
  have c8 : At n8 2 (.uninitialized "") [] [] := by
    obtain ⟨s, q, h⟩ := c7; exact ⟨s, q, by rw [o8 2 (by decide)]; exact h⟩
  rw [e7, e6] at e8
  obtain ⟨n9, r9, e9, c9, o9⟩ := run_click (fs := firstSend) c8 hr (i := .browserRequest .initializeUser) (by simp [Live.listeners])
    (l' := .initialized "" 0 [] "") (srv' := ⟨[(1, "", 1), (0, "", 2)], ⟨[0, 1], [], 2⟩, [⟨0, "", ""⟩], [(0, 0), (1, 0), (2, 1)]⟩) (ds := [])
    (by rw [e8]; decide +kernel)
  have b9 := o9 1 (by decide) _ _ _ b8
  simp only [List.filter_nil, List.map_nil, List.append_nil] at b9 c9
  have hA9 : Authors parse firstSend [0] n9 := hA6.quietly ((r7.trans r8).trans r9) (by rw [e9, e6])
  obtain ⟨n10, hA10, e10, c10, o10⟩ := run_send hA9 c9 hs (i := .browserRequest .sendTextMessage) (by simp [Live.listeners])
    (l' := .initialized "" 0 [⟨0, "", ""⟩] "") (srv' := ⟨[(1, "", 1), (0, "", 2)], ⟨[0, 1], [], 2⟩, [⟨0, "", ""⟩, ⟨0, "", ""⟩], [(0, 0), (1, 0), (2, 1)]⟩)
    (ds := [⟨1, .receiveMessage ⟨0, "", ""⟩⟩]) (by rw [e9]; decide +kernel) (msg := ⟨0, "", ""⟩) (by rw [e9]; rfl)
  have b10 : At n10 1 (.initialized "" 1 [⟨0, "", ""⟩] "") [.receiveMessage ⟨0, "", ""⟩] [] := o10 1 (by decide) _ _ _ b9
  obtain ⟨n11, r11, e11, b11, o11⟩ := run_take (parse := parse) (fs := firstSend) b10
  have hA11 : Authors parse firstSend [0, 2] n11 := hA10.quietly r11 (by rw [e11])
  obtain ⟨s, q, hb⟩ := b11
  have hlog : n11.srv.log = [⟨0, "", ""⟩, ⟨0, "", ""⟩] := by rw [e11, e10]
  refine ⟨n11, _, hA11, hlog, hb, rfl, ?_⟩
  -- two components cannot both have the id 0
  obtain ⟨sc, qc, hc⟩ := o11 2 (by decide) _ _ _ c10
  rcases (C153_author_partial parse firstSend [0, 2] n11 hA11 0 2 ⟨0, "", ""⟩ (by rw [hlog]; simp [SentBy])).2.1 ⟨0, "", ""⟩ (by rw [hlog]; simp [SentBy]) rfl with h | h | h
  · exact absurd h (by decide)
  · exact h
  · obtain ⟨w, hw, hw'⟩ := h
    rw [hc] at hw
    cases hw
    cases hw'

end Puck.Chat
