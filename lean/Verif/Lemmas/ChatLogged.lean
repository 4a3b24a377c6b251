import Verif.Props.ChatScript
/-!
# Executions of the chat with a given history of one reader (for the case of C146)
-/
namespace Puck.Chat

variable {parse : String → Option ClientMessage} {fs : Nat → Bool}

/-- A state reached from the beginning while the reader of each connection `k` has passed on exactly `l k`. -/
inductive Logged (parse : String → Option ClientMessage) (fs : Nat → Bool) : FineNet → (Nat → List (Except NextMessageError Message)) → Prop
  | init : Logged parse fs .init fun _ => []
  | quiet {b c : FineNet} {l : Nat → List (Except NextMessageError Message)} : Logged parse fs b l → FineStep parse fs b c →
      (∀ k u v, b.users k = some u → c.users k = some v → v.loopBox.length ≤ u.loopBox.length) → Logged parse fs c l
  | read {b c : FineNet} {l : Nat → List (Except NextMessageError Message)} {k : Nat} {u v : FineProcs} {m : Except NextMessageError Message} : Logged parse fs b l →
      FineStep parse fs b c → b.users k = some u → c.users k = some v → v.loopBox = u.loopBox ++ [.ws m] → (∀ j, j ≠ k → c.users j = b.users j) →
      Logged parse fs c fun j => if j = k then l k ++ [m] else l j

theorem Logged.steps {f : FineNet} {l : Nat → List (Except NextMessageError Message)} (h : Logged parse fs f l) : FineSteps parse fs .init f := by
  induction h with
  | init => exact .refl _
  | quiet _ s _ ih => exact .snoc ih s
  | read _ s _ _ _ _ ih => exact .snoc ih s

theorem passedOn_still {x : ChatExecution parse fs} {k i : Nat}
    (h : ∀ u v, (x.state i).users k = some u → (x.state (i + 1)).users k = some v → v.loopBox.length ≤ u.loopBox.length) :
    passedOn x k (i + 1) = passedOn x k i := by
  rw [passedOn, dif_neg]
  rintro ⟨m, u, v, h1, h2, h3⟩
  have := h u v h1 h2
  rw [h3] at this
  simp at this; omega

theorem Logged.trace {f : FineNet} {l : Nat → List (Except NextMessageError Message)} (h : Logged parse fs f l) :
    ∃ (g : Nat → FineNet) (n : Nat), g 0 = .init ∧ g n = f ∧ (∀ i, i < n → FineStep parse fs (g i) (g (i + 1))) ∧
      ∀ x : ChatExecution parse fs, (∀ i, i ≤ n → x.state i = g i) → ∀ k, passedOn x k n = l k := by
  have extend : ∀ (b c : FineNet) (g : Nat → FineNet) (n : Nat), g 0 = .init → g n = b → (∀ i, i < n → FineStep parse fs (g i) (g (i + 1))) → FineStep parse fs b c →
      ∃ g' : Nat → FineNet, g' 0 = .init ∧ g' (n + 1) = c ∧ (∀ i, i < n + 1 → FineStep parse fs (g' i) (g' (i + 1))) ∧ ∀ i, i ≤ n → g' i = g i := by
    intro b c g n h1 h2 h3 s
    refine ⟨fun i => if i ≤ n then g i else c, by simp [h1], by simp, ?_, fun i hi => by simp [hi]⟩
    intro i hi
    by_cases e : i = n
    · subst e
      have e1 : ¬ i + 1 ≤ i := by omega
      simp only [Nat.le_refl, e1, if_true, if_false, h2]
      exact s
    · have e1 : i ≤ n := by omega
      have e2 : i + 1 ≤ n := by omega
      simp only [e1, e2, if_true]
      exact h3 i (by omega)
  induction h with
  | init => exact ⟨fun _ => .init, 0, rfl, rfl, fun i hi => absurd hi (Nat.not_lt_zero _), fun x _ _ => rfl⟩
  | @quiet b c l h s hq ih =>
    obtain ⟨g, n, h1, h2, h3, h4⟩ := ih
    obtain ⟨g', e1, e2, e3, e4⟩ := extend b c g n h1 h2 h3 s
    refine ⟨g', n + 1, e1, e2, e3, fun x hx k => ?_⟩
    have xb : x.state n = b := by rw [hx n (by omega), e4 n (by omega), h2]
    have xc : x.state (n + 1) = c := by rw [hx (n + 1) (by omega), e2]
    rw [passedOn_still (by rw [xb, xc]; exact hq k)]
    exact h4 x (fun i hi => by rw [hx i (by omega), e4 i hi]) k
  | @read b c l k u v m h s hu hv hm ho ih =>
    obtain ⟨g, n, h1, h2, h3, h4⟩ := ih
    obtain ⟨g', e1, e2, e3, e4⟩ := extend b c g n h1 h2 h3 s
    refine ⟨g', n + 1, e1, e2, e3, fun x hx j => ?_⟩
    have xb : x.state n = b := by rw [hx n (by omega), e4 n (by omega), h2]
    have xc : x.state (n + 1) = c := by rw [hx (n + 1) (by omega), e2]
    have hn := h4 x fun i hi => by rw [hx i (by omega), e4 i hi]
    by_cases e : j = k
    · subst e
      rw [passedOn_read (by rw [xb]; exact hu) (by rw [xc]; exact hv) hm, hn]; exact (if_pos rfl).symm
    · rw [passedOn_still, hn]
      · exact (if_neg e).symm
      rw [xb, xc, ho j e]
      intro a b ha hb
      rw [ha] at hb; cases hb; exact Nat.le_refl _

/-- A step of one connection that does not lengthen its mailbox is quiet. -/
theorem Logged.quietAt {b c : FineNet} {l : Nat → List (Except NextMessageError Message)} (k : Nat) (h : Logged parse fs b l) (s : FineStep parse fs b c)
    (e : ∀ j, j ≠ k → c.users j = b.users j) (hk : ∀ u v, b.users k = some u → c.users k = some v → v.loopBox.length ≤ u.loopBox.length) : Logged parse fs c l :=
  .quiet h s fun j u v hu hv => by
    by_cases ej : j = k
    · subst ej; exact hk u v hu hv
    · rw [e j ej, hu] at hv; cases hv; exact Nat.le_refl _

/-- A browser connects and clicks on the first button. -/
theorem logged_asks {f : FineNet} {l : Nat → List (Except NextMessageError Message)} (hl : Logged parse fs f l) {k : Nat} {t : String} (hk : f.users k = none) (hf : fs k = true)
    (ht : parse t = some ⟨"initialize_username", none⟩) :
    ∃ f' u m, Logged parse fs f' (fun j => if j = k then l k ++ [.ok (.text t)] else l j) ∧ f'.srv = f.srv ∧ f'.queue = f.queue ++ [(k, .registerNewUser "" k)] ∧ f'.serving = f.serving ∧
      f'.dead = f.dead ∧ (∀ j, j ≠ k → f'.users j = f.users j) ∧ f'.users k = some u ∧ u.talk = .asked m ∧ u.alive = true ∧ u.loopBox = [] := by
  obtain ⟨ops, ho⟩ := (C59_unkeyed_partial _ _ (render_unkeyed (.uninitialized "")) (render_unkeyed (.uninitialized ""))).2
  have h1 : loopStep (asker .closed) parse (fs k) (.waiting ()) (.whoAmI k) =
      (.running ⟨k, some (.uninitialized ""), (Live.render (.uninitialized "")).1, (Live.render (.uninitialized "")).2⟩, [.send (serializeOps ops)]) := by
    simp only [loopStep, asker, List.map_nil, List.nil_append, ho, hf, if_true]
  have h2 : requestOf parse (fs k) (.waiting ()) (.whoAmI k) = none := by simp [requestOf, h1, firstRequest]
  have hask : Asks parse (LoopState.mk (S := Option Live) k (some (.uninitialized "")) (Live.render (.uninitialized "")).1
      (Live.render (.uninitialized "")).2).listeners (.ws (.ok (.text t)) : Mail LiveviewInput Nat) (.browserRequest .initializeUser) :=
    Or.inr ⟨t, _, rfl, ht, Or.inl rfl⟩
  have h3 : requestOf parse (fs k) (.running ⟨k, some (.uninitialized ""), (Live.render (.uninitialized "")).1, (Live.render (.uninitialized "")).2⟩)
      (.ws (.ok (.text t))) = some (.registerNewUser "" k) := by
    obtain ⟨g1, os, g2⟩ := update_outs (C := asker .closed) (st := ⟨k, some (.uninitialized ""), (Live.render (.uninitialized "")).1,
      (Live.render (.uninitialized "")).2⟩) (i := .browserRequest .initializeUser) (s := none) (es := [.registerNewUser "" k]) rfl
    unfold requestOf
    rw [step_asks hask, g2]
    revert g1
    cases (updateAndDiff (asker .closed) ⟨k, some (.uninitialized ""), (Live.render (.uninitialized "")).1, (Live.render (.uninitialized "")).2⟩
      (.browserRequest .initializeUser)).1 with
    | stopped => intro g; exact absurd rfl g
    | waiting _ => intro _; rfl
    | running _ => intro _; rfl
    | crashed => intro _; rfl
    | unreachable => intro _; rfl
  let u1 : FineProcs := ⟨[], .waiting (), [.whoAmI k], .free, true, []⟩
  let u2 : FineProcs := ⟨[], .running ⟨k, some (.uninitialized ""), (Live.render (.uninitialized "")).1, (Live.render (.uninitialized "")).2⟩, [], .free, true,
      [] ++ sends ([.send (serializeOps ops)] : List (Out CoordinatorInput))⟩
  let u3 : FineProcs := { u2 with loopBox := u2.loopBox ++ [.ws (.ok (.text t))] }
  let u4 : FineProcs := { u3 with loopBox := [], talk := .asked (.ws (.ok (.text t))) }
  let f1 := f.set k u1
  let f2 := f1.set k u2
  let f3 := f2.set k u3
  let f4 : FineNet := { f3.set k u4 with queue := f3.queue ++ [(k, .registerNewUser "" k)] }
  have s1 : FineStep parse fs f f1 := .connect f k hk
  have s2 : FineStep parse fs f1 f2 := by
    have := FineStep.work (parse := parse) (firstSend := fs) f1 k u1 (.whoAmI k) [] (FineNet.set_same _ _ _) rfl rfl rfl h2
    simp only [u1, h1] at this
    exact this
  have s3 : FineStep parse fs f2 f3 := .read f2 k u2 (.ok (.text t)) (FineNet.set_same _ _ _)
  have s4 : FineStep parse fs f3 f4 := .ask f3 k u3 (.ws (.ok (.text t))) [] _ (FineNet.set_same _ _ _) rfl rfl rfl h3
  have o1 : ∀ j, j ≠ k → f1.users j = f.users j := fun j hj => FineNet.set_other hj
  have o2 : ∀ j, j ≠ k → f2.users j = f1.users j := fun j hj => FineNet.set_other hj
  have o3 : ∀ j, j ≠ k → f3.users j = f2.users j := fun j hj => FineNet.set_other hj
  have o4 : ∀ j, j ≠ k → f4.users j = f3.users j := fun j hj => FineNet.set_other hj
  have l1 : Logged parse fs f1 l := hl.quietAt k s1 o1 fun u v hu _ => by rw [hk] at hu; cases hu
  have l2 : Logged parse fs f2 l := l1.quietAt k s2 o2 fun u v hu hv => by
    rw [show f2.users k = some u2 from FineNet.set_same _ _ _] at hv; cases hv; exact Nat.zero_le _
  have l3 : Logged parse fs f3 fun j => if j = k then l k ++ [.ok (.text t)] else l j := .read l2 s3 (FineNet.set_same _ _ _) (FineNet.set_same _ _ _) rfl o3
  have hlog := l3.quietAt k s4 o4 fun u v hu hv => by
    rw [show f4.users k = some u4 from FineNet.set_same _ _ _] at hv; cases hv; exact Nat.zero_le _
  refine ⟨f4, u4, _, hlog, rfl, rfl, rfl, rfl, ?_, FineNet.set_same _ _ _, rfl, rfl, rfl⟩
  intro j hj
  simp only [f4, f3, f2, f1, FineNet.set, hj, if_false]

/-- A request to register is served. -/
theorem logged_registers {f : FineNet} {l : Nat → List (Except NextMessageError Message)} (hl : Logged parse fs f l) {k : Nat} {nm : String}
    {rest : List (Nat × CoordinatorInput)} (hs : f.serving = none)
    (hq : f.queue = (k, .registerNewUser nm k) :: rest) (ha : ∀ u, f.users k = some u → u.alive = true) :
    ∃ f' u nm' id ms c, Logged parse fs f' l ∧ f'.srv.log = f.srv.log ∧ f'.srv.joined = f.srv.joined ++ [(k, f.srv.log.length)] ∧ f'.queue = rest ∧
      f'.serving = none ∧ (∀ j, j ≠ k → f'.users j = f.users j) ∧ f'.users k = some u ∧ u.alive = true ∧ u.talk = .free ∧
      u.live = some (.initialized nm' id ms c) ∧ ∃ u0, f.users k = some u0 ∧ u.loopBox = u0.loopBox := by
  have h := hl.steps
  obtain ⟨n, hn, hsim⟩ := sim_run h.run
  obtain ⟨u, m, hu, hask, hreq⟩ := hsim.queued k (.registerNewUser nm k) (by rw [hq]; simp)
  obtain ⟨st, hst, _⟩ := register_running hreq
  let srv' : ChatServer := ⟨insertUser f.srv.idGen.getId.1 (nm, k) f.srv.users, f.srv.idGen.getId.2, f.srv.log, f.srv.joined ++ [(k, f.srv.log.length)]⟩
  let r : LiveviewInput := .userRegistered f.srv.idGen.getId.1 nm
  let f1 : FineNet := ⟨srv', rest, some ⟨k, r, []⟩, f.dead, f.users⟩
  let f2 : FineNet := (⟨srv', rest, none, f.dead, f.users⟩ : FineNet).set k { u with talk := .answered m r }
  let u3 : FineProcs := { u with
    loop := (loopStep (asker r) parse (fs k) u.loop m).1
    talk := .free
    sent := u.sent ++ sends (loopStep (asker r) parse (fs k) u.loop m).2 }
  have s1 : FineStep parse fs f f1 := .serve f k _ rest srv' r [] hsim.alive hs hq rfl
  have s2 : FineStep parse fs f1 f2 := .reply _ k r u m rfl hu hask
  have s3' : FineStep parse fs f2 (f2.set k u3) := .resume f2 k { u with talk := .answered m r } m r (FineNet.set_same _ _ _) (ha u hu) rfl
  have l1 : Logged parse fs f1 l := .quiet hl s1 fun j a b ea eb => by
    rw [show f1.users j = f.users j from rfl, ea] at eb; cases eb; exact Nat.le_refl _
  have l2 : Logged parse fs f2 l := l1.quietAt k s2 (fun j hj => FineNet.set_other hj) fun a b ea eb => by
    rw [show f2.users k = some { u with talk := .answered m r } from FineNet.set_same _ _ _] at eb
    rw [show f1.users k = some u from hu] at ea
    cases ea; cases eb; exact Nat.le_refl _
  have l3 : Logged parse fs (f2.set k u3) l := l2.quietAt k s3' (fun j hj => FineNet.set_other hj) fun a b ea eb => by
    rw [FineNet.set_same, Option.some.injEq] at eb
    rw [show f2.users k = some { u with talk := .answered m r } from FineNet.set_same _ _ _, Option.some.injEq] at ea
    rw [← ea, ← eb]
  have s3 := l3.steps
  have hu3 : (f2.set k u3).users k = some u3 := FineNet.set_same _ _ _
  have hj : k ∈ (f2.set k u3).srv.joined.map (·.1) := by simp [FineNet.set, f2, srv']
  rcases joined_live s3 hu3 (ha u hu) rfl hj with e | ⟨nm', id, ms, c, e⟩
  · exfalso
    have e : (loopStep (asker r) parse (fs k) u.loop m).1 = .stopped := e
    rw [hst] at e hreq
    rw [stopped_closed e] at hreq
    simp only [requestOf, loopStep] at hreq
    split at hreq <;> cases hreq
  · refine ⟨f2.set k u3, u3, nm', id, ms, c, l3, rfl, rfl, rfl, rfl, ?_, hu3, ha u hu, rfl, e, u, hu, rfl⟩
    intro j hj
    rw [FineNet.set_other hj, FineNet.set_other hj]

/-- A process that is not a reader does not lengthen a mailbox by something from the socket. -/
theorem moves_reads_nothing {c : Nat} {f f' : FineNet} (s : FineStep parse fs f f') (hm : MovesProcess c f f') {k : Nat} {u v : FineProcs} {m : Except NextMessageError Message}
    (hu : f.users k = some u) (hv : f'.users k = some v) : v.loopBox ≠ u.loopBox ++ [.ws m] := by
  intro hbox
  have key : ∀ k' w, f.users k' = some w → (∀ j, j ≠ k' → f'.users j = f.users j) → f'.users k' = f.users k' ∨ (∃ w', f'.users k' = some w' ∧ (w'.loopBox = w.loopBox ∨
      w'.loopBox.length < w.loopBox.length ∨ ∃ i, w'.loopBox = w.loopBox ++ [.input i])) → False := by
    intro k' w hw ho h
    by_cases e : k = k'
    · subst e
      rw [hu] at hw; cases hw
      rcases h with h | ⟨w', h, h2⟩
      · rw [hv, hu] at h; cases h; simpa using congrArg List.length hbox
      · rw [hv] at h; cases h
        rcases h2 with h2 | h2 | ⟨i, h2⟩
        · rw [h2] at hbox; simpa using congrArg List.length hbox
        · rw [hbox] at h2; simp at h2; omega
        · rw [h2] at hbox; simp at hbox
    · rw [ho k e, hu] at hv; cases hv; simpa using congrArg List.length hbox
  cases s with
  | connect k' h => 
    by_cases e : k = k'
    · subst e; rw [h] at hu; cases hu
    · rw [FineNet.set_other e, hu] at hv; cases hv; simpa using congrArg List.length hbox
  | forward k' w i rest h1 h2 => exact key k' w h1 (fun j hj => FineNet.set_other hj) (.inr ⟨_, FineNet.set_same _ _ _, .inr (.inr ⟨i, rfl⟩)⟩)
  | read k' w m' h1 =>
    unfold MovesProcess at hm
    split at hm
    · exact hm rfl
    · split at hm
      · obtain ⟨a, b, ha, hb, hl⟩ := hm
        by_cases e : c / 2 = k'
        · rw [e] at ha hb; rw [FineNet.set_same] at hb; rw [h1] at ha; cases ha; cases hb; exact absurd hl (Nat.lt_irrefl _)
        · rw [FineNet.set_other e, ha] at hb; cases hb; exact absurd hl (Nat.lt_irrefl _)
      · obtain ⟨a, b, ha, hb, hl⟩ := hm
        by_cases e : c / 2 - 1 = k'
        · rw [e] at ha hb; rw [FineNet.set_same] at hb; rw [h1] at ha; cases ha; cases hb
          rcases hl with hl | ⟨⟨m, r, hl⟩, hl2⟩
          · simp at hl; omega
          · rw [hl] at hl2; cases hl2
        · rw [FineNet.set_other e, ha] at hb; cases hb
          rcases hl with hl | ⟨⟨m, r, hl⟩, hl2⟩
          · exact absurd hl (Nat.lt_irrefl _)
          · rw [hl] at hl2; cases hl2
  | work k' w m' rest h1 _ _ h2 _ => exact key k' w h1 (fun j hj => FineNet.set_other hj) (.inr ⟨_, FineNet.set_same _ _ _, .inr (.inl (by simp [h2]))⟩)
  | ask k' w m' rest q h1 _ _ h2 _ => exact key k' w h1 (fun j hj => FineNet.set_other hj) (.inr ⟨_, FineNet.set_same _ _ _, .inr (.inl (by simp [h2]))⟩)
  | serve => rw [hu] at hv; cases hv; simpa using congrArg List.length hbox
  | panic => rw [hu] at hv; cases hv; simpa using congrArg List.length hbox
  | send k' r d ds h =>
    have hd : ∃ w, (({ f with serving := some ⟨k', r, ds⟩ } : FineNet).deliver d).users k = some w ∧ w.loopBox = u.loopBox := by
      unfold FineNet.deliver
      split
      · exact ⟨u, hu, rfl⟩
      · rename_i w hw
        by_cases e : k = d.to
        · subst e
          rw [show f.users d.to = some w from hw] at hu; cases hu
          exact ⟨_, FineNet.set_same _ _ _, rfl⟩
        · exact ⟨u, (FineNet.set_other e).trans hu, rfl⟩
    obtain ⟨w, h1, h2⟩ := hd
    rw [hv] at h1; cases h1; rw [h2] at hbox; simpa using congrArg List.length hbox
  | reply k' r w m' _ h1 h2 => exact key k' w h1 (fun j hj => FineNet.set_other hj) (.inr ⟨_, FineNet.set_same _ _ _, .inl rfl⟩)
  | resume k' w m' r h1 _ _ => exact key k' w h1 (fun j hj => FineNet.set_other hj) (.inr ⟨_, FineNet.set_same _ _ _, .inl rfl⟩)
  | die k' w h1 => exact key k' w h1 (fun j hj => FineNet.set_other hj) (.inr ⟨_, FineNet.set_same _ _ _, .inl rfl⟩)
  | shuffle => rw [hu] at hv; cases hv; simpa using congrArg List.length hbox

/-- Two users enter, and then the reader of the first passes on anything. -/
theorem logged_two (h0 : fs 0 = true) (h1 : fs 1 = true) {t : String} (ht : parse t = some ⟨"initialize_username", none⟩) (more : List (Except NextMessageError Message)) :
    ∃ (x : ChatExecution parse fs) (i j : Nat), x.Fair ∧ (1, 0) ∈ (x.state i).srv.joined ∧ passedOn x 0 i = [.ok (.text t)] ∧ passedOn x 0 j = [.ok (.text t)] ++ more ∧
      ∀ i, passedOn x 1 i <+: [.ok (.text t)] := by
  obtain ⟨f1, u, m, a1, a2, a3, a4, a5, a6, a7, a8, a9, a10⟩ := logged_asks (parse := parse) (fs := fs) .init (k := 0) rfl h0 ht
  obtain ⟨f2, v, m', b1, b2, b3, b4, b5, b6, b7, b8, b9, _⟩ := logged_asks (parse := parse) (fs := fs) a1 (k := 1) (by rw [a6 1 (by decide)]; rfl) h1 ht
  obtain ⟨f3, u3, nm3, id3, ms3, c3, r3, l3, j3, q3, s3, o3, k3, al3, t3, v3, w3, x3, y3⟩ := logged_registers b1 (k := 0) (nm := "") (rest := [(1, .registerNewUser "" 1)])
    (by rw [b4, a4]; rfl) (by rw [b3, a3]; rfl) (fun w hw => by
      rw [b6 0 (by decide), a7] at hw; cases hw; exact a9)
  obtain ⟨f4, u4, nm4, id4, ms4, c4, r4, l4, j4, q4, s4, o4, k4, al4, t4, v4, _⟩ := logged_registers r3 (k := 1) (nm := "") (rest := []) s3 q3 (fun w hw => by
      rw [o3 1 (by decide), b7] at hw; cases hw; exact b9)
  have hj4 : f4.srv.joined = [(0, 0), (1, 0)] := by rw [j4, l3, j3, b2, a2]; rfl
  have hu4 : f4.users 0 = some u3 := by rw [o4 0 (by decide)]; exact k3
  simp only [if_true, List.nil_append, show ¬ (1 : Nat) = 0 by decide, if_false] at r4
  -- the reader passes on the rest
  have key : ∀ (more : List (Except NextMessageError Message)) (f : FineNet) (u : FineProcs) (l : List (Except NextMessageError Message)), f.users 0 = some u →
      ∃ (h : Nat → FineNet), h 0 = f ∧ (∀ i, i < more.length → FineStep parse fs (h i) (h (i + 1))) ∧ (∀ i, i ≤ more.length → (h i).users 1 = f.users 1) ∧
        ∀ (x : ChatExecution parse fs) (n : Nat), (∀ i, i ≤ more.length → x.state (n + i) = h i) → passedOn x 0 n = l → passedOn x 0 (n + more.length) = l ++ more := by
    intro more
    induction more with
    | nil => intro f u l _; exact ⟨fun _ => f, rfl, fun i hi => absurd hi (Nat.not_lt_zero _), fun _ _ => rfl, fun x n _ hx => by simpa using hx⟩
    | cons m more ih =>
      intro f u l hu
      let u' : FineProcs := { u with loopBox := u.loopBox ++ [.ws m] }
      have hu' : (f.set 0 u').users 0 = some u' := FineNet.set_same _ _ _
      obtain ⟨h, e1, e2, e4, e3⟩ := ih (f.set 0 u') u' (l ++ [m]) hu'
      refine ⟨fun i => match i with | 0 => f | i + 1 => h i, rfl, ?_, ?_, ?_⟩
      · intro i hi
        cases i with
        | zero => show FineStep parse fs f (h 0); rw [e1]; exact .read f 0 u m hu
        | succ i => exact e2 i (by simp at hi; omega)
      · intro i hi
        cases i with
        | zero => rfl
        | succ i => exact (e4 i (by simp at hi; omega)).trans (FineNet.set_other (by decide))
      · intro x n hx hp
        have q0 : x.state n = f := hx 0 (by simp)
        have q1 : x.state (n + 1) = f.set 0 u' := (hx 1 (by simp)).trans e1
        have p1 := passedOn_read (x := x) (k := 0) (i := n) (w := m) (by rw [q0]; exact hu) (by rw [q1]; exact hu') rfl
        have := e3 x (n + 1) (fun i hi => by
          have := hx (i + 1) (by simp; omega)
          rw [show n + 1 + i = n + (i + 1) by omega, this]) (by rw [p1, hp])
        rw [List.length_cons, show n + (more.length + 1) = n + 1 + more.length by omega, this]
        simp
  obtain ⟨g, n, g1, g2, g3, g4⟩ := r4.trace
  obtain ⟨h, e1, e2, e5, e3⟩ := key more f4 u3 [.ok (.text t)] hu4
  obtain ⟨x, hx, he, hlater⟩ := fair_extends_quiet parse fs (fun i => if i ≤ n then g i else h (i - n)) (n + more.length) (by simp [g1]) (by
    intro i hi
    by_cases c1 : i + 1 ≤ n
    · have c2 : i ≤ n := by omega
      simp only [c1, c2, if_true]
      exact g3 i (by omega)
    · simp only [c1, if_false]
      by_cases c2 : i = n
      · subst c2
        simp only [Nat.le_refl, if_true, g2, show i + 1 - i = 0 + 1 by omega]
        rw [← e1]
        exact e2 0 (by omega)
      · have c3 : ¬ i ≤ n := by omega
        simp only [c3, if_false, show i + 1 - n = (i - n) + 1 by omega]
        exact e2 _ (by omega))
  have hp := g4 x fun i hi => by rw [he i (by omega)]; simp [hi]
  have hstate : ∀ i, i ≤ more.length → x.state (n + i) = h i := fun i hi => by
    rw [he (n + i) (by omega)]
    by_cases c : i = 0
    · subst c; simp [e1, g2]
    · have c1 : ¬ n + i ≤ n := by omega
      simp only [c1, if_false]
      congr 1; omega
  have h1n : passedOn x 1 n = [.ok (.text t)] := hp 1
  have later : ∀ i, passedOn x 1 (n + i) = [.ok (.text t)] := by
    intro i
    induction i with
    | zero => exact h1n
    | succ i ih =>
      rw [← ih, ← Nat.add_assoc]
      by_cases c : i < more.length
      · refine passedOn_still fun u v hu hv => ?_
        rw [hstate i (by omega), e5 i (by omega)] at hu
        rw [Nat.add_assoc, hstate (i + 1) (by omega), e5 (i + 1) (by omega), hu] at hv
        cases hv; exact Nat.le_refl _
      · rw [passedOn, dif_neg]
        rintro ⟨m, u, v, hu, hv, hbox⟩
        rcases hlater (n + i) (by omega) with e | ⟨c, s, hc⟩
        · rw [e, hu] at hv; cases hv; simpa using congrArg List.length hbox
        · exact moves_reads_nothing s hc hu hv hbox
  refine ⟨x, n, n + more.length, hx, ?_, hp 0, ?_, ?_⟩
  · rw [he n (by omega)]; simp [g2, hj4]
  · exact e3 x n hstate (hp 0)
  · intro i
    by_cases c : i ≤ n
    · exact h1n ▸ passedOn_grows x 1 c
    · obtain ⟨m, rfl⟩ := Nat.exists_eq_add_of_le (Nat.le_of_not_le c)
      rw [later m]; exact List.prefix_rfl

end Puck.Chat
