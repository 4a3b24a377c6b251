import Verif.Props.ChatNewcomer
/-!
# C157: the chat's ids are exactly the numbers below the greatest number of users registered at once
-/
namespace Puck.Chat
open Puck

/-- the numbers in a list without repetitions that are exactly those below `n` are `n` many -/
theorem length_of_below {l : List Nat} {n : Nat} (hn : l.Nodup) (h : ∀ i, i ∈ l ↔ i < n) : l.length = n := by
  have hp : l.Perm (List.range n) := (List.perm_ext_iff_of_nodup hn List.nodup_range).2 fun i => by rw [h, List.mem_range]
  rw [hp.length_eq, List.length_range]

/-- The coordinator's ids in use are those of the registered users. -/
structure IdsTight (s : ChatServer) : Prop where
  inv : ServerInv s
  full : ∀ i ∈ s.idGen.inUse, i ∈ s.users.map (·.1)

theorem IdsTight.init : IdsTight .init := ⟨ServerInv.init, by simp [ChatServer.init, UserIdCreator.default]⟩

theorem IdsTight.perm {s : ChatServer} {us : List (Nat × String × Nat)} (h : IdsTight s) (hp : s.users.Perm us) : IdsTight { s with users := us } :=
  ⟨h.inv.perm hp, fun i hi => ((hp.map _).mem_iff).1 (h.full i hi)⟩

theorem IdsTight.lt {s : ChatServer} (h : IdsTight s) : ∀ i ∈ s.users.map (·.1), i < s.idGen.head := by
  obtain ⟨evs, hi⟩ := h.inv.ids
  exact fun i hm => (hi.all i).1 (.inl (h.inv.use i hm))

theorem IdsTight.count {s : ChatServer} (h : IdsTight s) : s.users.length ≤ s.idGen.head := by
  obtain ⟨evs, hi⟩ := h.inv.ids
  have := length_of_below (l := s.users.map (·.1) ++ s.idGen.recycle) (n := s.idGen.head)
    (List.nodup_append.2 ⟨h.inv.keys, hi.recN, fun a ha b hb e => hi.disj b hb (e ▸ h.inv.use a ha)⟩) fun i => by
      rw [List.mem_append, ← hi.all i]
      constructor
      · rintro (h' | h')
        · exact .inl (h.inv.use i h')
        · exact .inr h'
      · rintro (h' | h')
        · exact .inl (h.full i h')
        · exact .inr h'
  rw [List.length_append, List.length_map] at this
  omega

/-- whatever the coordinator is asked: either no id is new, or there is one user for each id -/
theorem IdsTight.handle {s s' : ChatServer} {i : CoordinatorInput} {r : LiveviewInput} {ds : List Delivery} (h : IdsTight s)
    (e : s.handle i = some (s', r, ds)) :
    IdsTight s' ∧ ((s'.idGen.head = s.idGen.head ∧ ∀ id name, r = .userRegistered id name → id < s.idGen.head) ∨
      s'.idGen.head = s.idGen.head + 1 ∧ s'.users.length = s'.idGen.head ∧ ∃ name, r = .userRegistered s.idGen.head name) := by
  have hinv := h.inv.handle e
  obtain ⟨evs, hi⟩ := h.inv.ids
  cases i with
  | registerNewUser name p =>
    simp only [ChatServer.handle, Option.some.injEq, Prod.mk.injEq] at e
    obtain ⟨rfl, rfl, rfl⟩ := e
    have hn : s.idGen.getId.1 ∉ s.users.map (·.1) := fun hm => hi.get.2 (h.inv.use _ hm)
    have hu : ∀ i, i ∈ s.idGen.getId.2.inUse ↔ i = s.idGen.getId.1 ∨ i ∈ s.idGen.inUse := by
      intro i
      unfold UserIdCreator.getId
      cases s.idGen.recycle <;> simp [mem_setInsert]
    have ht : IdsTight ⟨insertUser s.idGen.getId.1 (name, p) s.users, s.idGen.getId.2, s.log, s.joined ++ [(p, s.log.length)]⟩ := by
      refine ⟨hinv, fun i hm => ?_⟩
      simp only [insertUser_new hn, List.map_append, List.map_cons, List.map_nil, List.mem_append, List.mem_singleton]
      rcases (hu i).1 hm with hm | hm
      · exact .inr hm
      · exact .inl (h.full i hm)
    refine ⟨ht, ?_⟩
    cases hr : s.idGen.recycle with
    | cons id rest =>
      have hg : s.idGen.getId = (id, ⟨setInsert id s.idGen.inUse, rest, s.idGen.head⟩) := by unfold UserIdCreator.getId; rw [hr]
      left
      refine ⟨by rw [hg], ?_⟩
      intro id' name' he
      simp only [hg, LiveviewInput.userRegistered.injEq] at he
      rw [← he.1]
      exact (hi.all id).1 (.inr (by rw [hr]; simp))
    | nil =>
      have hg : s.idGen.getId = (s.idGen.head, ⟨setInsert s.idGen.head s.idGen.inUse, [], s.idGen.head + 1⟩) := by unfold UserIdCreator.getId; rw [hr]
      right
      have hlen : s.users.length = s.idGen.head := by
        have := length_of_below (n := s.idGen.head) h.inv.keys fun i => by
          rw [← hi.all i, hr]
          simp only [List.not_mem_nil, or_false]
          exact ⟨h.inv.use i, h.full i⟩
        rwa [List.length_map] at this
      refine ⟨by rw [hg], ?_, name, by rw [hg]⟩
      have hn' : s.idGen.head ∉ s.users.map (·.1) := by rw [hg] at hn; exact hn
      simp only [hg, insertUser_new hn', List.length_append, List.length_cons, List.length_nil, hlen]
  | setUsername id name =>
    simp only [ChatServer.handle, Option.some.injEq, Prod.mk.injEq] at e
    obtain ⟨rfl, rfl, rfl⟩ := e
    exact ⟨⟨hinv, by simp only [map_keys]; exact h.full⟩, .inl ⟨rfl, by simp⟩⟩
  | sendMessage id m =>
    simp only [ChatServer.handle] at e
    split at e
    · cases e
    · simp only [Option.some.injEq, Prod.mk.injEq] at e
      obtain ⟨rfl, rfl, rfl⟩ := e
      exact ⟨⟨hinv, h.full⟩, .inl ⟨rfl, by simp⟩⟩
  | removeUser id =>
    simp only [ChatServer.handle, Option.some.injEq, Prod.mk.injEq] at e
    obtain ⟨rfl, rfl, rfl⟩ := e
    refine ⟨⟨hinv, fun i hm => ?_⟩, .inl ⟨?_, by simp⟩⟩
    · simp only at hm
      unfold UserIdCreator.releaseId at hm
      split at hm
      · simp only [List.mem_filter, bne_iff_ne, ne_eq] at hm
        obtain ⟨u, h1, rfl⟩ := List.mem_map.1 (h.full i hm.1)
        exact List.mem_map.2 ⟨u, List.mem_filter.2 ⟨h1, by simpa using hm.2⟩, rfl⟩
      · rename_i hno
        obtain ⟨u, h1, rfl⟩ := List.mem_map.1 (h.full i hm)
        exact List.mem_map.2 ⟨u, List.mem_filter.2 ⟨h1, bne_iff_ne.2 fun e : u.1 = id => hno (e ▸ hm)⟩, rfl⟩
    · simp only
      unfold UserIdCreator.releaseId
      split <;> rfl

theorem serves_tight {tr : List Served} {s : ChatServer} (h : Serves tr s) :
    IdsTight s ∧ (∃ tr', tr' <+: tr ∧ (registry tr').length = s.idGen.head) ∧ (∀ tr', tr' <+: tr → (registry tr').length ≤ s.idGen.head) ∧
      ∀ id, (∃ v ∈ tr, ∃ name, v.response = .userRegistered id name) ↔ id < s.idGen.head := by
  induction h with
  | init =>
    refine ⟨.init, ⟨[], List.prefix_rfl, rfl⟩, ?_, ?_⟩
    · intro tr' h
      rw [List.prefix_nil.1 h]
      exact Nat.le_refl _
    · intro id
      simp [ChatServer.init, UserIdCreator.default]
  | @request tr s i s' r ds hs e ih =>
    obtain ⟨ht, ⟨p, hp, hpl⟩, hle, hids⟩ := ih
    obtain ⟨ht', hc⟩ := ht.handle e
    have hreg : (registry (tr ++ [⟨i, r, ds⟩])).length = s'.users.length := ((serves_inv (hs.request e)).2.length_eq).symm
    have hhead : s.idGen.head ≤ s'.idGen.head := by
      rcases hc with ⟨h1, -⟩ | ⟨h1, -⟩ <;> omega
    refine ⟨ht', ?_, ?_, ?_⟩
    · rcases hc with ⟨h1, -⟩ | ⟨-, h2, -⟩
      · exact ⟨p, hp.trans (List.prefix_append _ _), by rw [h1]; exact hpl⟩
      · exact ⟨_, List.prefix_rfl, by rw [hreg, h2]⟩
    · intro tr' h
      rcases List.prefix_concat_iff.1 h with rfl | h
      · rw [hreg]; exact ht'.count
      · exact Nat.le_trans (hle tr' h) hhead
    · intro id
      simp only [List.mem_append, List.mem_singleton]
      constructor
      · rintro ⟨v, hv | rfl, name, hn⟩
        · exact Nat.lt_of_lt_of_le ((hids id).1 ⟨v, hv, name, hn⟩) hhead
        · rcases hc with ⟨h1, h2⟩ | ⟨h1, -, nm, h3⟩
          · rw [h1]; exact h2 id name hn
          · simp only at hn
            rw [h3] at hn
            simp only [LiveviewInput.userRegistered.injEq] at hn
            omega
      · intro hlt
        rcases hc with ⟨h1, -⟩ | ⟨h1, -, nm, h3⟩
        · rw [h1] at hlt
          obtain ⟨v, hv, name, hn⟩ := (hids id).2 hlt
          exact ⟨v, .inl hv, name, hn⟩
        · by_cases hid : id < s.idGen.head
          · obtain ⟨v, hv, name, hn⟩ := (hids id).2 hid
            exact ⟨v, .inl hv, name, hn⟩
          · refine ⟨_, .inr rfl, nm, ?_⟩
            have : id = s.idGen.head := by omega
            rw [this]
            exact h3
  | @shuffle tr s us hs hp ih =>
    obtain ⟨ht, h1, h2, h3⟩ := ih
    exact ⟨ht.perm hp, h1, h2, h3⟩

/-- **C157.** After any history of requests to the coordinator, with the users' map in any order: there is a greatest number of users that have been registered at the same time, and
the ids that have been given out are exactly the numbers below it. -/
theorem C157_ids (tr : List Served) (s : ChatServer) (h : Serves tr s) :
    ∃ peak, (∃ tr', tr' <+: tr ∧ (registry tr').length = peak) ∧ (∀ tr', tr' <+: tr → (registry tr').length ≤ peak) ∧
      ∀ id, (∃ v ∈ tr, ∃ name, v.response = .userRegistered id name) ↔ id < peak :=
  ⟨_, (serves_tight h).2⟩

/-- non-vacuity: two register, both leave, a third registers: four requests more, and one id, used before -/
example : ∃ tr s, Serves tr s ∧ (tr.filterMap fun v => match v.response with | .userRegistered id _ => some id | _ => none) = [0, 1, 0, 1] ∧
    (registry tr).length = 2 ∧ tr.length = 6 := by
  have h1 : Serves _ _ := Serves.init.request (i := .registerNewUser "a" 10) rfl
  have h2 := h1.request (i := .registerNewUser "b" 11) rfl
  have h3 := h2.request (i := .removeUser 1) rfl
  have h4 := h3.request (i := .removeUser 0) rfl
  have h5 := h4.request (i := .registerNewUser "c" 12) rfl
  have h6 := h5.request (i := .registerNewUser "d" 13) rfl
  exact ⟨_, _, h6, by decide, by decide, by decide⟩

/-- How the coordinator may change in one step of the application. -/
inductive ServerMove : ChatServer → ChatServer → Prop
  | same (s) : ServerMove s s
  | shuffle (s us) : s.users.Perm us → ServerMove s { s with users := us }
  | served {s s' q res ds} : s.handle q = some (s', res, ds) → ServerMove s s'

theorem ServerMove.update {srv srv' : ChatServer} {l l' : Live} {i : LiveviewInput} {k : Nat} {ds : List Delivery} (h : l.update i k srv = some (l', srv', ds)) : ServerMove srv srv' := by
  unfold Live.update at h
  split at h
  · split at h
    · rename_i hh
      simp only [Option.some.injEq, Prod.mk.injEq] at h
      rw [← h.2.1]
      exact .served hh
    · cases h
  · split at h
    · rename_i hh
      obtain ⟨l'', -, h⟩ := Option.map_eq_some_iff.1 h
      simp only [Prod.mk.injEq] at h
      rw [← h.2.1]
      exact .served hh
    · cases h
  · obtain ⟨l'', -, h⟩ := Option.map_eq_some_iff.1 h
    simp only [Prod.mk.injEq] at h
    rw [← h.2.1]
    exact .same _

section
variable {parse : String → Option ClientMessage} {fs : Nat → Bool}

theorem move_step {n n' : ChatNet} (hn : NetInv fs n) (s : ChatStep parse fs n n') : ServerMove n.srv n'.srv := by
  cases s with
  | connect k hk => exact .same _
  | forward k u i rest hu hi => exact .same _
  | read k u w hu => exact .same _
  | die k u hu => exact .same _
  | shuffle users hp => exact .shuffle _ _ hp
  | receive k u m rest hu hm =>
    have hp := hn.procs k u hu
    have hsrv : (n.receive parse fs k u m rest).srv = serverAfter n.srv u.loop (loopStep chatComponent parse (fs k) (withServer n.srv u.loop) m).1 := by
      unfold ChatNet.receive
      rw [(deliverAll_users _ _ k).1]
      rfl
    rw [hsrv]
    obtain ⟨inbox, loop, loopBox, sent⟩ := u
    simp only at hm
    subst hm
    obtain ⟨hin, h2⟩ := hp
    simp only at hin h2 ⊢
    cases loop with
    | unreachable => exact absurd h2 id
    | stopped =>
      have hs : loopStep chatComponent parse (fs k) (withServer n.srv .stopped) m = (.stopped, []) := by cases m <;> rfl
      rw [hs]
      exact .same _
    | crashed =>
      have hs : loopStep chatComponent parse (fs k) (withServer n.srv .crashed) m = (.crashed, []) := by cases m <;> rfl
      rw [hs]
      exact .same _
    | waiting d =>
      obtain ⟨r, h3, h4⟩ := h2
      simp only [List.cons.injEq] at h3
      obtain ⟨rfl, rfl⟩ := h3
      obtain ⟨ops, ho⟩ := (C59_unkeyed_partial _ _ (render_unkeyed (.uninitialized "")) (render_unkeyed (.uninitialized ""))).2
      simp only [withServer, loopStep, chatComponent, List.map_nil, List.nil_append]
      rw [ho]
      cases fs k <;> exact .same _
    | running st =>
      obtain ⟨hbx, hproc, l, srv0, hcomp, hrender, hknown⟩ := h2
      obtain ⟨proc, comp, dom, ls⟩ := st
      simp only at hproc hcomp hrender
      subst hproc hcomp
      have hmm := hbx m (by simp)
      have hl : ls = l.listeners := (congrArg (·.2) hrender).symm
      by_cases hask : ∃ i, Asks parse l.listeners m i
      · obtain ⟨i, hi⟩ := hask
        obtain ⟨l', srv', ds, hup, -, -, -, -⟩ := update_ok hn.srv hknown (asks_expected hmm hi)
        obtain ⟨ops, hstep⟩ := update_step (b := fs proc) (srv0 := srv0) hrender hi hup
        rw [hstep]
        simp only [serverAfter, Option.map_some, Option.getD_some]
        exact .update hup
      · by_cases hclosed : m = .ws (.error .connectionClosed)
        · subst hclosed
          have hs : loopStep chatComponent parse (fs proc) (withServer n.srv (.running ⟨proc, some (l, srv0), dom, ls⟩))
              (.ws (.error .connectionClosed)) = (.stopped, [.dropped]) := rfl
          rw [hs]
          cases l with
          | uninitialized name => exact .same _
          | initialized name id ms c => exact .served (q := .removeUser id) rfl
        · have hign : loopStep chatComponent parse (fs proc) (withServer n.srv (.running ⟨proc, some (l, srv0), dom, ls⟩)) m =
              (.running ⟨proc, some (l, n.srv), dom, ls⟩, []) := by
            simp only [withServer, Option.map_some]
            refine step_ignored ?_ hclosed ?_
            · intro i hi
              exact hask ⟨i, by simp only [hl] at hi; exact hi⟩
            · rintro q rfl
              rcases hmm with ⟨c, hc⟩ | ⟨w, hw⟩
              · cases hc
              · cases hw
          rw [hign]
          exact .same _

theorem move_tight {s s' : ChatServer} (h : IdsTight s) (m : ServerMove s s') :
    IdsTight s' ∧ (s'.idGen.head = s.idGen.head ∨ s.idGen.head ≤ s'.idGen.head ∧ s'.users.length = s'.idGen.head) := by
  cases m with
  | same => exact ⟨h, .inl rfl⟩
  | shuffle us hp => exact ⟨h.perm hp, .inl rfl⟩
  | served e =>
    obtain ⟨h1, ⟨h2, -⟩ | ⟨h2, h3, -⟩⟩ := h.handle e
    · exact ⟨h1, .inl h2⟩
    · exact ⟨h1, .inr ⟨by omega, h3⟩⟩

theorem tight_steps {a n : ChatNet} (hi : NetInv fs a) (ht : IdsTight a.srv) (h : ChatSteps parse fs a n) :
    NetInv fs n ∧ IdsTight n.srv ∧ a.srv.idGen.head ≤ n.srv.idGen.head ∧
      (n.srv.idGen.head = a.srv.idGen.head ∨ ∃ m, ChatSteps parse fs a m ∧ ChatSteps parse fs m n ∧ m.srv.users.length = n.srv.idGen.head) := by
  induction h with
  | refl => exact ⟨hi, ht, Nat.le_refl _, .inl rfl⟩
  | @snoc b c s1 s2 ih =>
    obtain ⟨h1, h2, h3, h4⟩ := ih
    obtain ⟨h5, h6⟩ := move_tight h2 (move_step h1 s2)
    refine ⟨step_inv h1 s2, h5, by rcases h6 with h6 | h6 <;> omega, ?_⟩
    rcases h6 with h6 | ⟨-, h7⟩
    · rw [h6]
      rcases h4 with h4 | ⟨m, r1, r2, h4⟩
      · exact .inl h4
      · exact .inr ⟨m, r1, r2.snoc s2, h4⟩
    · exact .inr ⟨_, s1.snoc s2, .refl _, h7⟩

end

/-- **C157, in the application.** In every run, whoever connects, enters, writes, leaves or is killed: there is a greatest number of users that have been registered at the same time,
and every id that a user has had in its page at any moment of the run is below it. -/
theorem C157_pages (parse : String → Option ClientMessage) (firstSend : Nat → Bool) (n : ChatNet) (h : ChatSteps parse firstSend .init n) :
    ∃ peak, (∃ m, ChatSteps parse firstSend .init m ∧ ChatSteps parse firstSend m n ∧ m.srv.users.length = peak) ∧
      ∀ m, ChatSteps parse firstSend .init m → ChatSteps parse firstSend m n → m.srv.users.length ≤ peak ∧
        ∀ k u name id shown composing, m.users k = some u → u.live = some (.initialized name id shown composing) → id < peak := by
  obtain ⟨-, -, -, hpk⟩ := tight_steps (parse := parse) (steps_inv (parse := parse) (.refl _)) IdsTight.init h
  refine ⟨n.srv.idGen.head, ?_, ?_⟩
  · rcases hpk with e | ⟨m, r1, r2, e⟩
    · exact ⟨.init, .refl _, h, by rw [e]; rfl⟩
    · exact ⟨m, r1, r2, e⟩
  · intro m r1 r2
    obtain ⟨hi, ht, -, -⟩ := tight_steps (parse := parse) (steps_inv (parse := parse) (.refl _)) IdsTight.init r1
    obtain ⟨-, -, hle, -⟩ := tight_steps hi ht r2
    refine ⟨Nat.le_trans ht.count hle, ?_⟩
    intro k u name id shown composing hu hl
    refine Nat.lt_of_lt_of_le (ht.lt id ?_) hle
    have hpj := (hi.procs k u hu).2
    unfold UserProcs.live at hl
    cases hlp : u.loop with
    | running st =>
      rw [hlp] at hpj hl
      obtain ⟨_, _, l, s0, hcomp, _, hkn⟩ := hpj
      simp only [hcomp, Option.map_some, Option.some.injEq] at hl
      have hg := hkn name id shown composing hl
      rw [getUser_some hi.srv.keys] at hg
      exact List.mem_map.2 ⟨_, hg, rfl⟩
    | _ => rw [hlp] at hl; cases hl

/-- non-vacuity: user 0 enters; user 1 connects and enters: its id is 1, and there are two registered -/
example (parse : String → Option ClientMessage) (register : String) (hr : parse register = some ⟨"initialize_username", none⟩) :
    ∃ n u, ChatSteps parse (fun _ => true) .init n ∧ n.users 1 = some u ∧ u.live = some (.initialized "" 1 [] "") ∧ n.srv.users.length = 2 := by
  obtain ⟨n1, r1, e1, a1, o1⟩ := run_start (parse := parse) (fs := fun _ => true) (n := .init) (k := 0) rfl rfl
  obtain ⟨n2, r2, e2, b2, o2⟩ := run_start (parse := parse) (fs := fun _ => true) (n := n1) (k := 1) (o1 1 (by decide)) rfl
  have a2 : At n2 0 (.uninitialized "") [] [] := by
    obtain ⟨s, q, h⟩ := a1; exact ⟨s, q, by rw [o2 0 (by decide)]; exact h⟩
  obtain ⟨n3, r3, e3, a3, o3⟩ := run_click (fs := fun _ => true) a2 hr (i := .browserRequest .initializeUser) (by simp [Live.listeners])
    (l' := .initialized "" 0 [] "") (srv' := ⟨[(0, "", 0)], ⟨[0], [], 1⟩, [], [(0, 0)]⟩) (ds := []) (by rw [e2, e1]; decide +kernel)
  have b3 := o3 1 (by decide) _ _ _ b2
  simp only [List.filter_nil, List.map_nil, List.append_nil] at a3 b3
  obtain ⟨n4, r4, e4, b4, o4⟩ := run_click (fs := fun _ => true) b3 hr (i := .browserRequest .initializeUser) (by simp [Live.listeners])
    (l' := .initialized "" 1 [] "") (srv' := ⟨[(0, "", 0), (1, "", 1)], ⟨[1, 0], [], 2⟩, [], [(0, 0), (1, 0)]⟩) (ds := []) (by rw [e3]; decide +kernel)
  obtain ⟨s, q, hb⟩ := b4
  exact ⟨n4, _, ((r1.trans r2).trans r3).trans r4, hb, rfl, by rw [e4]; rfl⟩

end Puck.Chat
