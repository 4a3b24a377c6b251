import Verif.Spec.ChatScript
import Verif.Props.ChatFair
import Verif.Props.Manage
/-!
# What a user's component has heard is what its browser has sent
-/
namespace Puck.Chat

variable {parse : String → Option ClientMessage} {fs : Nat → Bool}

/-- What the browsers have sent is what the components have taken, and then what is still in their mailboxes; what is in the log is what the users have sent. -/
structure Heard (parse : String → Option ClientMessage) (got : Nat → List (Except NextMessageError Message)) (authors : List Nat) (n : ChatNet) : Prop where
  len : authors.length = n.srv.log.length
  no : ∀ k, n.users k = none → got k = [] ∧ authored authors n.srv.log k = []
  yes : ∀ k v, n.users k = some v → ∃ taken heeded id, got k = taken ++ socketOf v.loopBox ∧ heeded <+: taken ∧ (∀ d, v.loop = .waiting d → taken = []) ∧
    authored authors n.srv.log k = (script parse heeded).messages id ∧
    ∀ l, v.live = some l → heeded = taken ∧ (script parse taken).Says l ∧ ∀ nm id' ms c, l = .initialized nm id' ms c → id' = id

theorem authored_snoc {authors : List Nat} {log : List ChatMessage} (h : authors.length = log.length) (j k : Nat) (m : ChatMessage) :
    authored (authors ++ [j]) (log ++ [m]) k = authored authors log k ++ if j = k then [m] else [] := by
  unfold authored
  rw [List.zip_append h]
  by_cases e : j = k <;> simp [e]

theorem script_snoc (ms : List (Except NextMessageError Message)) (m : Except NextMessageError Message) :
    script parse (ms ++ [m]) = (script parse ms).reads parse m := by simp [script]

theorem says_naming {s : ChatScript} {u : String} (h : s.Says (.uninitialized u)) : s = .naming u := by
  cases s with
  | naming n => exact congrArg _ (show u = n from h).symm
  | chatting => exact absurd h id

theorem says_chatting {s : ChatScript} {u : String} {id : Nat} {ms : List ChatMessage} {c : String} (h : s.Says (.initialized u id ms c)) :
    ∃ sent, s = .chatting u c sent ∧ ms.filter (fun m => m.sender == id) = sent.map fun t => ⟨id, u, t⟩ := by
  cases s with
  | naming n => exact absurd h (fun h => h)
  | chatting nm f sent =>
    obtain ⟨rfl, rfl, h⟩ := h
    exact ⟨sent, rfl, h⟩

/-- An update asked for by the browser. -/
theorem says_asks {s : ChatScript} {l l' : Live} {w : Except NextMessageError Message} {i : LiveviewInput} {k : Nat} {srv srv' : ChatServer} {ds : List Delivery}
    (h : s.Says l) (ha : Asks parse l.listeners (.ws w : Mail LiveviewInput Nat) i) (hk : Known srv k l) (hu : l.update i k srv = some (l', srv', ds)) :
    (s.reads parse w).Says l' := by
  rcases ha with e | ⟨c, t, e, hp, ha⟩
  · cases e
  · cases e
    simp only [ChatScript.reads, hp]
    cases l with
    | uninitialized u =>
      obtain rfl := says_naming h
      simp only [ChatScript.event]
      simp only [Live.listeners] at ha
      by_cases h1 : t.listener = "set_username"
      · simp only [h1, if_true, Option.some.injEq, reduceCtorEq, Listener.input.injEq, false_or] at ha ⊢
        obtain ⟨f, v, rfl, hv, rfl⟩ := ha
        simp only [Live.update, Live.updateLocal, Option.map_some, Option.some.injEq, Prod.mk.injEq] at hu
        obtain ⟨rfl, _⟩ := hu
        rw [hv]
        exact rfl
      · by_cases h2 : t.listener = "initialize_username"
        · rw [if_neg h1, if_pos h2] at ha ⊢
          simp only [Option.some.injEq, Listener.click.injEq, reduceCtorEq, false_and, exists_false, or_false] at ha
          subst ha
          simp only [Live.update, ChatServer.handle, Option.some.injEq, Prod.mk.injEq] at hu
          obtain ⟨rfl, _⟩ := hu
          exact ⟨rfl, rfl, rfl⟩
        · simp [h1, h2] at ha
    | initialized u id ms c =>
      obtain ⟨sent, rfl, hs⟩ := says_chatting h
      simp only [ChatScript.event]
      simp only [Live.listeners] at ha
      by_cases h1 : t.listener = "update_message_contents"
      · simp only [h1, if_true, Option.some.injEq, reduceCtorEq, Listener.input.injEq, false_or] at ha ⊢
        obtain ⟨f, v, rfl, hv, rfl⟩ := ha
        simp only [Live.update, Live.updateLocal, Option.map_some, Option.some.injEq, Prod.mk.injEq] at hu
        obtain ⟨rfl, _⟩ := hu
        rw [hv]
        exact ⟨rfl, rfl, hs⟩
      · by_cases h2 : t.listener = "submit_message"
        · rw [if_neg h1, if_pos h2] at ha ⊢
          simp only [Option.some.injEq, Listener.click.injEq, reduceCtorEq, false_and, exists_false, or_false] at ha
          subst ha
          have hg := hk u id ms c rfl
          simp only [Live.update, ChatServer.handle, hg, Live.updateLocal, Option.map_some, Option.some.injEq, Prod.mk.injEq] at hu
          obtain ⟨rfl, _⟩ := hu
          refine ⟨rfl, rfl, ?_⟩
          simp [hs]
        · simp [h1, h2] at ha

/-- What the component ignores does not count. -/
theorem says_ignored {s : ChatScript} {l : Live} {w : Except NextMessageError Message} (h : s.Says l)
    (hn : ¬ ∃ i, Asks parse l.listeners (.ws w : Mail LiveviewInput Nat) i) : s.reads parse w = s := by
  unfold ChatScript.reads
  split
  · rename_i t
    split
    · rename_i e hp
      have hno : ∀ i, ¬ (l.listeners e.listener = some (.click i) ∨ l.listeners e.listener = some (.submit i) ∨
          ∃ call v, l.listeners e.listener = some (.input call) ∧ e.payload = some v ∧ i = call v) :=
        fun i hi => hn ⟨i, Or.inr ⟨t, e, rfl, hp, hi⟩⟩
      cases l with
      | uninitialized u =>
        obtain rfl := says_naming h
        simp only [ChatScript.event]
        simp only [Live.listeners] at hno
        by_cases h1 : e.listener = "set_username"
        · simp only [h1, if_true] at hno ⊢
          cases hpl : e.payload with
          | none => rfl
          | some v => exact absurd (Or.inr (Or.inr ⟨_, v, rfl, hpl, rfl⟩)) (hno _)
        · by_cases h2 : e.listener = "initialize_username"
          · simp only [h2] at hno
            exact absurd (Or.inl rfl) (hno (.browserRequest .initializeUser))
          · rw [if_neg h1, if_neg h2]
      | initialized u id ms c =>
        obtain ⟨sent, rfl, hs⟩ := says_chatting h
        simp only [ChatScript.event]
        simp only [Live.listeners] at hno
        by_cases h1 : e.listener = "update_message_contents"
        · simp only [h1, if_true] at hno ⊢
          cases hpl : e.payload with
          | none => rfl
          | some v => exact absurd (Or.inr (Or.inr ⟨_, v, rfl, hpl, rfl⟩)) (hno _)
        · by_cases h2 : e.listener = "submit_message"
          · simp only [h2] at hno
            exact absurd (Or.inl rfl) (hno (.browserRequest .sendTextMessage))
          · rw [if_neg h1, if_neg h2]
    · rfl
  · rfl

theorem heard_set {got : Nat → List (Except NextMessageError Message)} {authors : List Nat} {n : ChatNet} (h : Heard parse got authors n) {k : Nat} {v v' : UserProcs}
    (hv : n.users k = some v) (hb : socketOf v'.loopBox = socketOf v.loopBox) (hw : ∀ d, v'.loop = .waiting d → ∃ d', v.loop = .waiting d')
    (hl : ∀ l, v'.live = some l → v.live = some l) : Heard parse got authors (n.set k v') := by
  refine ⟨h.len, ?_, ?_⟩
  · intro j hj
    by_cases e : j = k
    · rw [e, ChatNet.set_same] at hj; cases hj
    · rw [ChatNet.set_other e] at hj; exact h.no j hj
  · intro j w hj
    by_cases e : j = k
    · subst e
      rw [ChatNet.set_same] at hj
      cases hj
      obtain ⟨taken, heeded, id, h1, h2, h3, h4, h5⟩ := h.yes j v hv
      refine ⟨taken, heeded, id, by rw [hb]; exact h1, h2, ?_, h4, fun l hl' => h5 l (hl l hl')⟩
      intro d hd
      obtain ⟨d', e⟩ := hw d hd
      exact h3 d' e
    · rw [ChatNet.set_other e] at hj; exact h.yes j w hj

/-- A browser sends something. -/
theorem heard_read {got : Nat → List (Except NextMessageError Message)} {authors : List Nat} {n : ChatNet} (h : Heard parse got authors n) {k : Nat} {v : UserProcs}
    (hv : n.users k = some v) (w : Except NextMessageError Message) :
    Heard parse (fun j => if j = k then got k ++ [w] else got j) authors (n.set k { v with loopBox := v.loopBox ++ [.ws w] }) := by
  refine ⟨h.len, ?_, ?_⟩
  · intro j hj
    by_cases e : j = k
    · rw [e, ChatNet.set_same] at hj; cases hj
    · rw [ChatNet.set_other e] at hj; simp only [if_neg e]; exact h.no j hj
  · intro j w' hj
    by_cases e : j = k
    · subst e
      rw [ChatNet.set_same] at hj
      cases hj
      obtain ⟨taken, heeded, id, h1, h2⟩ := h.yes j v hv
      refine ⟨taken, heeded, id, ?_, h2⟩
      simp only [if_true, h1]
      simp [socketOf_append, socketOf]
    · rw [ChatNet.set_other e] at hj; simp only [if_neg e]; exact h.yes j w' hj

/-- What the coordinator has logged after a message was taken. -/
theorem receive_log {n : ChatNet} {k : Nat} {u : UserProcs} {m : Mail LiveviewInput Nat} {rest : List (Mail LiveviewInput Nat)} :
    (n.receive parse fs k u m rest).srv = serverAfter n.srv u.loop (loopStep chatComponent parse (fs k) (withServer n.srv u.loop) m).1 := by
  unfold ChatNet.receive
  rw [(deliverAll_users _ _ 0).1]
  rfl

/-- What a browser's event sends. -/
theorem event_messages {s : ChatScript} {l l' : Live} {w : Except NextMessageError Message} {i : LiveviewInput} {k : Nat} {srv srv' : ChatServer} {ds : List Delivery}
    (h : s.Says l) (ha : Asks parse l.listeners (.ws w : Mail LiveviewInput Nat) i) (hk : Known srv k l) (hu : l.update i k srv = some (l', srv', ds)) {id : Nat}
    (hid : ∀ nm id' ms c, l = .initialized nm id' ms c → id' = id) :
    ∃ id2 add, srv'.log = srv.log ++ add ∧ (s.reads parse w).messages id2 = s.messages id ++ add ∧ add.length ≤ 1 ∧
      ∀ nm id' ms c, l' = .initialized nm id' ms c → id' = id2 := by
  rcases ha with e | ⟨c, t, e, hp, ha⟩
  · cases e
  · cases e
    simp only [ChatScript.reads, hp]
    cases l with
    | uninitialized u =>
      obtain rfl := says_naming h
      simp only [ChatScript.event]
      simp only [Live.listeners] at ha
      by_cases h1 : t.listener = "set_username"
      · simp only [h1, if_true, Option.some.injEq, reduceCtorEq, Listener.input.injEq, false_or] at ha ⊢
        obtain ⟨f, v, rfl, hv, rfl⟩ := ha
        simp only [Live.update, Live.updateLocal, Option.map_some, Option.some.injEq, Prod.mk.injEq] at hu
        obtain ⟨rfl, rfl, _⟩ := hu
        exact ⟨id, [], by simp, by simp [ChatScript.messages], by simp, fun nm id' ms c e => by (cases e)⟩
      · by_cases h2 : t.listener = "initialize_username"
        · rw [if_neg h1, if_pos h2] at ha ⊢
          simp only [Option.some.injEq, Listener.click.injEq, reduceCtorEq, false_and, exists_false, or_false] at ha
          subst ha
          simp only [Live.update, ChatServer.handle, Option.some.injEq, Prod.mk.injEq] at hu
          obtain ⟨rfl, rfl, _⟩ := hu
          exact ⟨srv.idGen.getId.1, [], by simp, by simp [ChatScript.messages], by simp, fun nm id' ms c e => by (cases e; rfl)⟩
        · simp [h1, h2] at ha
    | initialized u id0 ms c =>
      obtain ⟨sent, rfl, hs⟩ := says_chatting h
      obtain rfl := hid u id0 ms c rfl
      simp only [ChatScript.event]
      simp only [Live.listeners] at ha
      by_cases h1 : t.listener = "update_message_contents"
      · simp only [h1, if_true, Option.some.injEq, reduceCtorEq, Listener.input.injEq, false_or] at ha ⊢
        obtain ⟨f, v, rfl, hv, rfl⟩ := ha
        simp only [Live.update, Live.updateLocal, Option.map_some, Option.some.injEq, Prod.mk.injEq] at hu
        obtain ⟨rfl, rfl, _⟩ := hu
        exact ⟨id0, [], by simp, by simp [ChatScript.messages], by simp, fun nm id' ms c e => by (cases e; rfl)⟩
      · by_cases h2 : t.listener = "submit_message"
        · rw [if_neg h1, if_pos h2] at ha ⊢
          simp only [Option.some.injEq, Listener.click.injEq, reduceCtorEq, false_and, exists_false, or_false] at ha
          subst ha
          have hg := hk u id0 ms c rfl
          simp only [Live.update, ChatServer.handle, hg, Live.updateLocal, Option.map_some, Option.some.injEq, Prod.mk.injEq] at hu
          obtain ⟨rfl, rfl, _⟩ := hu
          exact ⟨id0, [⟨id0, u, c⟩], rfl, by simp [ChatScript.messages], by simp, fun nm id' ms c e => by (cases e; rfl)⟩
        · simp [h1, h2] at ha

/-- The component takes a message. -/
theorem heard_receive {got : Nat → List (Except NextMessageError Message)} {authors : List Nat} {n : ChatNet} (hi : OrderInv fs n) (h : Heard parse got authors n)
    {k : Nat} {u : UserProcs} {m : Mail LiveviewInput Nat} {rest : List (Mail LiveviewInput Nat)} (hu : n.users k = some u) (hm : u.loopBox = m :: rest) :
    ∃ more, Heard parse got (authors ++ more) (n.receive parse fs k u m rest) := by
  -- everybody else only gets mail
  have key : (∃ add taken heeded id, add.length ≤ 1 ∧
        (serverAfter n.srv u.loop (loopStep chatComponent parse (fs k) (withServer n.srv u.loop) m).1).log = n.srv.log ++ add ∧
        got k = taken ++ socketOf rest ∧ heeded <+: taken ∧
        (∀ d, (loopStep chatComponent parse (fs k) (withServer n.srv u.loop) m).1 = .waiting d → taken = []) ∧
        authored authors n.srv.log k ++ add = (script parse heeded).messages id ∧
        ∀ l, (⟨u.inbox, (loopStep chatComponent parse (fs k) (withServer n.srv u.loop) m).1, rest, []⟩ : UserProcs).live = some l →
          heeded = taken ∧ (script parse taken).Says l ∧ ∀ nm id' ms c, l = .initialized nm id' ms c → id' = id) →
      ∃ more, Heard parse got (authors ++ more) (n.receive parse fs k u m rest) := by
    rintro ⟨add, taken, heeded, id, ha, hlog, t1, t2, t3, t4, t5⟩
    have hauth : ∀ j, authored (authors ++ add.map fun _ => k) (n.receive parse fs k u m rest).srv.log j =
        authored authors n.srv.log j ++ if k = j then add else [] := by
      intro j
      rw [receive_log, hlog]
      match add, ha with
      | [], _ => simp
      | [a], _ => simpa using authored_snoc h.len k j a
    refine ⟨add.map fun _ => k, ?_, ?_, ?_⟩
    · rw [receive_log, hlog]; simp [h.len]
    · intro j hj
      rw [hauth]
      unfold ChatNet.receive at hj
      rw [(deliverAll_users _ _ j).2] at hj
      simp only [ChatNet.set, Option.map_eq_none_iff] at hj
      split at hj
      · cases hj
      · rename_i e
        rw [if_neg (fun e' => e e'.symm), List.append_nil]
        exact h.no j hj
    · intro j v hj
      rw [hauth]
      unfold ChatNet.receive at hj
      rw [(deliverAll_users _ _ j).2] at hj
      simp only [ChatNet.set] at hj
      by_cases e : j = k
      · subst e
        simp only [if_true, Option.map_some, Option.some.injEq] at hj
        subst hj
        exact ⟨taken, heeded, id, t1, t2, t3, by simpa using t4, t5⟩
      · rw [if_neg e] at hj
        rw [if_neg (fun e' => e e'.symm), List.append_nil]
        cases hv : n.users j with
        | none => rw [hv] at hj; cases hj
        | some w =>
          rw [hv] at hj
          simp only [Option.map_some, Option.some.injEq] at hj
          subst hj
          exact h.yes j w hv
  apply key
  obtain ⟨taken, heeded, id, h1, h2, h3, h4, h5⟩ := h.yes k u hu
  have hp := hi.net.procs k u hu
  have hc := hi.caught k u hu
  obtain ⟨inbox, loop, loopBox, sent⟩ := u
  simp only at hm
  subst hm
  obtain ⟨hin, hp⟩ := hp
  simp only at hin hp h1 h3 ⊢
  -- a loop that is over
  have over : ∀ ph os, loopStep chatComponent parse (fs k) (withServer n.srv loop) m = (ph, os) → (ph = .stopped ∨ ph = .crashed) →
      (serverAfter n.srv loop ph).log = n.srv.log →
      ∃ add taken heeded id, add.length ≤ 1 ∧
        (serverAfter n.srv loop (loopStep chatComponent parse (fs k) (withServer n.srv loop) m).1).log = n.srv.log ++ add ∧
        got k = taken ++ socketOf rest ∧ heeded <+: taken ∧
        (∀ d, (loopStep chatComponent parse (fs k) (withServer n.srv loop) m).1 = .waiting d → taken = []) ∧
        authored authors n.srv.log k ++ add = (script parse heeded).messages id ∧
        ∀ l, (⟨inbox, (loopStep chatComponent parse (fs k) (withServer n.srv loop) m).1, rest, []⟩ : UserProcs).live = some l →
          heeded = taken ∧ (script parse taken).Says l ∧ ∀ nm id' ms c, l = .initialized nm id' ms c → id' = id := by
    intro ph os hs hph hlog
    rw [hs]
    refine ⟨[], taken ++ socketOf [m], heeded, id, by simp, by simpa using hlog, ?_, h2.trans (List.prefix_append _ _), ?_, by simpa using h4, ?_⟩
    · rw [h1]; cases m <;> simp [socketOf]
    · intro d hd; rcases hph with rfl | rfl <;> cases hd
    · intro l hl; rcases hph with rfl | rfl <;> simp [UserProcs.live] at hl
  cases loop with
  | unreachable => exact absurd hp (fun h => h)
  | stopped => exact over .stopped [] (by cases m <;> rfl) (Or.inl rfl) rfl
  | crashed => exact over .crashed [] (by cases m <;> rfl) (Or.inr rfl) rfl
  | waiting d =>
    obtain ⟨r, e, _⟩ := hp
    simp only [List.cons.injEq] at e
    obtain ⟨rfl, rfl⟩ := e
    obtain rfl := h3 d rfl
    obtain rfl : heeded = [] := by simpa using h2
    obtain ⟨ops, ho⟩ := (C59_unkeyed_partial _ _ (render_unkeyed (.uninitialized "")) (render_unkeyed (.uninitialized ""))).2
    cases hb : fs k with
    | true =>
      have hs : loopStep chatComponent parse true (withServer n.srv (.waiting d)) (.whoAmI k) =
          (.running ⟨k, some (.uninitialized "", n.srv), (Live.uninitialized "").render.1, (Live.uninitialized "").render.2⟩, [.send (serializeOps ops)]) := by
        simp only [withServer, loopStep, chatComponent, List.map_nil, List.nil_append]
        rw [ho]
        rfl
      rw [hs]
      refine ⟨[], [], [], id, by simp, by simp [serverAfter], by rw [h1]; simp [socketOf], by simp, fun _ _ => rfl, by simpa using h4, ?_⟩
      intro l hl
      simp only [UserProcs.live, Option.map_some, Option.some.injEq] at hl
      subst hl
      exact ⟨rfl, rfl, fun _ _ _ _ e => by (cases e)⟩
    | false =>
      have hs : loopStep chatComponent parse false (withServer n.srv (.waiting d)) (.whoAmI k) = (.crashed, [.send (serializeOps ops)]) := by
        simp only [withServer, loopStep, chatComponent, List.map_nil, List.nil_append]
        rw [ho]
        rfl
      rw [hb] at over
      exact over _ _ hs (Or.inr rfl) rfl
  | running st =>
    obtain ⟨hbox, hproc, l, srv0, hcomp, hrender, hknown⟩ := hp
    obtain ⟨proc, comp, dom, ls⟩ := st
    simp only at hproc hcomp hrender
    subst hproc hcomp
    have hmm := hbox m (by simp)
    have hl : ls = l.listeners := (congrArg (·.2) hrender).symm
    obtain ⟨hht, hsays, hid⟩ := h5 l rfl
    subst hht
    by_cases hask : ∃ i, Asks parse l.listeners m i
    · obtain ⟨i, ha⟩ := hask
      obtain ⟨l', srv', ds, hup, _⟩ := update_ok hi.net.srv hknown (asks_expected hmm ha)
      obtain ⟨ops, hstep⟩ := update_step (b := fs proc) (srv0 := srv0) hrender ha hup
      rw [hstep]
      simp only [serverAfter, Option.map_some, Option.getD_some]
      rcases hmm with ⟨c, rfl⟩ | ⟨w, rfl⟩
      · -- somebody else's message
        rcases ha with e | ⟨_, _, e, _⟩
        · cases e
          cases l with
          | uninitialized u =>
            have := (hc.1 u rfl).2
            rw [mem_pending_drop _ _ _ _ .stopped _ sent] at this
            simp [mailMsg, inputMsg] at this
          | initialized u id' ms cc =>
            obtain rfl := hid u id' ms cc rfl
            simp only [Live.update, Live.updateLocal, Option.map_some, Option.some.injEq, Prod.mk.injEq] at hup
            obtain ⟨rfl, rfl, _⟩ := hup
            refine ⟨[], heeded, heeded, id', by simp, by simp, by rw [h1]; simp [socketOf], by simp, fun d hd => by (cases hd), by simpa using h4, ?_⟩
            intro l'' hl''
            simp only [UserProcs.live, Option.map_some, Option.some.injEq] at hl''
            subst hl''
            refine ⟨rfl, ?_, fun _ _ _ _ e => by (cases e; rfl)⟩
            have g1 := (hc.2.2 u id' ms cc rfl).1
            rw [mem_pending_drop _ _ _ _ .stopped _ sent] at g1
            simp only [mailMsg, inputMsg, Option.toList_some, List.singleton_append, List.mem_cons, forall_eq_or_imp] at g1
            obtain ⟨sent', hs, hf⟩ := says_chatting hsays
            rw [hs]
            refine ⟨rfl, rfl, ?_⟩
            rw [List.filter_append, hf]
            simp [g1.1]
        · cases e
      · obtain ⟨id2, add, e1, e2, e3, e4⟩ := event_messages hsays ha hknown hup hid
        refine ⟨add, heeded ++ [w], heeded ++ [w], id2, e3, e1, by rw [h1]; simp [socketOf], by simp, fun d hd => by (cases hd), ?_, ?_⟩
        · rw [script_snoc, e2, h4]
        · intro l'' hl''
          simp only [UserProcs.live, Option.map_some, Option.some.injEq] at hl''
          subst hl''
          refine ⟨rfl, ?_, e4⟩
          rw [script_snoc]
          exact says_asks hsays ha hknown hup
    · by_cases hclosed : m = .ws (.error .connectionClosed)
      · subst hclosed
        refine over .stopped [.dropped] rfl (Or.inl rfl) ?_
        cases l with
        | uninitialized u => rfl
        | initialized u id ms c => rfl
      · have hign : loopStep chatComponent parse (fs proc) (withServer n.srv (.running ⟨proc, some (l, srv0), dom, ls⟩)) m =
            (.running ⟨proc, some (l, n.srv), dom, ls⟩, []) := by
          simp only [withServer, Option.map_some]
          refine step_ignored ?_ hclosed ?_
          · intro i hi
            exact hask ⟨i, by simp only [hl] at hi; exact hi⟩
          · rintro q rfl
            rcases hmm with ⟨c, hc⟩ | ⟨w, hw⟩
            · cases hc
            · cases hw
        rw [hign]
        simp only [serverAfter, Option.map_some, Option.getD_some]
        rcases hmm with ⟨c, rfl⟩ | ⟨w, rfl⟩
        · exact absurd ⟨_, Or.inl rfl⟩ hask
        · refine ⟨[], heeded ++ [w], heeded ++ [w], id, by simp, by simp, by rw [h1]; simp [socketOf], by simp, fun d hd => by (cases hd), ?_, ?_⟩
          · rw [script_snoc, says_ignored hsays hask]; simpa using h4
          · intro l'' hl''
            simp only [UserProcs.live, Option.map_some, Option.some.injEq] at hl''
            subst hl''
            rw [script_snoc, says_ignored hsays hask]
            exact ⟨rfl, hsays, hid⟩

/-- Any other step. -/
theorem heard_step {got : Nat → List (Except NextMessageError Message)} {authors : List Nat} {n n' : ChatNet} (hi : OrderInv fs n) (h : Heard parse got authors n)
    (hs : ChatStep parse fs n n')
    (hq : ∀ k u u' m, n.users k = some u → n'.users k = some u' → u'.loopBox = u.loopBox ++ [.ws m] → False) :
    ∃ more, Heard parse got (authors ++ more) n' := by
  cases hs with
  | connect k hk =>
    refine ⟨[], ?_⟩
    rw [List.append_nil]
    refine ⟨h.len, ?_, ?_⟩
    · intro j hj
      by_cases e : j = k
      · rw [e, ChatNet.set_same] at hj; cases hj
      · rw [ChatNet.set_other e] at hj; exact h.no j hj
    · intro j w hj
      by_cases e : j = k
      · subst e
        rw [ChatNet.set_same] at hj
        cases hj
        obtain ⟨e1, e2⟩ := h.no j hk
        exact ⟨[], [], 0, by rw [e1]; simp [socketOf], by simp, fun _ _ => rfl, e2, fun l hl => by (cases hl)⟩
      · rw [ChatNet.set_other e] at hj; exact h.yes j w hj
  | forward k u i rest hu hi => exact ⟨[], by rw [List.append_nil]; exact heard_set h hu (by simp [socketOf_append, socketOf]) (fun d hd => ⟨d, hd⟩) (fun l hl => hl)⟩
  | read k u w hu => exact absurd rfl (hq k u _ w hu (ChatNet.set_same _ _ _))
  | receive k u m rest hu hm => exact heard_receive hi h hu hm
  | die k u hu => exact ⟨[], by rw [List.append_nil]; exact heard_set h hu rfl (fun d hd => by (cases hd)) (fun l hl => by (cases hl))⟩
  | shuffle users hp => exact ⟨[], by rw [List.append_nil]; exact ⟨h.len, h.no, h.yes⟩⟩

/-! ## Along an execution -/

variable {x : ChatExecution parse fs}

theorem box_self {l : List (Mail LiveviewInput Nat)} {m : Mail LiveviewInput Nat} (h : l = l ++ [m]) : False := by
  have := congrArg List.length h
  simp at this

theorem passedOn_none {k i : Nat} (h : (x.state i).users k = none) : passedOn x k (i + 1) = passedOn x k i := by
  rw [passedOn, dif_neg]
  rintro ⟨m, u, v, h1, _⟩
  rw [h] at h1
  cases h1

theorem passedOn_read {k i : Nat} {u v : FineProcs} {w : Except NextMessageError Message} (h1 : (x.state i).users k = some u)
    (h2 : (x.state (i + 1)).users k = some v) (h3 : v.loopBox = u.loopBox ++ [.ws w]) : passedOn x k (i + 1) = passedOn x k i ++ [w] := by
  have h : ∃ m, ∃ u v, (x.state i).users k = some u ∧ (x.state (i + 1)).users k = some v ∧ v.loopBox = u.loopBox ++ [.ws m] := ⟨w, u, v, h1, h2, h3⟩
  rw [passedOn, dif_pos h]
  obtain ⟨u', v', e1, e2, e3⟩ := h.choose_spec
  rw [h1] at e1
  rw [h2] at e2
  cases e1; cases e2
  rw [h3] at e3
  simp only [List.append_cancel_left_eq, List.cons.injEq, and_true, Mail.ws.injEq] at e3
  rw [← e3]

theorem passedOn_quiet {k i : Nat} (h : ∀ u v m, (x.state i).users k = some u → (x.state (i + 1)).users k = some v → v.loopBox ≠ u.loopBox ++ [.ws m]) :
    passedOn x k (i + 1) = passedOn x k i := by
  rw [passedOn, dif_neg]
  rintro ⟨m, u, v, h1, h2, h3⟩
  exact h u v m h1 h2 h3

/-- What passing something on does to the simulation. -/
theorem sim_read {f : FineNet} {n : ChatNet} (h : Sim parse fs f n) {k : Nat} {u : FineProcs} (hu : f.users k = some u) (w : Except NextMessageError Message) :
    ∃ v, n.users k = some v ∧ Sim parse fs (f.set k { u with loopBox := u.loopBox ++ [.ws w] }) (n.set k { v with loopBox := v.loopBox ++ [.ws w] }) := by
  obtain ⟨v, h1, h2, h3⟩ := h.yes k u hu
  refine ⟨v, h1, h.set hu (Or.inl rfl) (fun _ => Iff.rfl) h2 ?_⟩
  unfold UserSim at h3 ⊢
  simp only
  revert h3
  cases u.talk with
  | free => rintro ⟨g1, g2⟩; exact ⟨by simp only [g1], g2⟩
  | asked m =>
    cases replyFor f.serving k with
    | none => rintro ⟨g1, g2⟩; exact ⟨by simp only [g1]; rfl, g2⟩
    | some r => rintro ⟨g1, g2⟩; exact ⟨by simp only [g1], g2⟩
  | answered m r => rintro ⟨g1, g2⟩; exact ⟨by simp only [g1], g2⟩

/-- A step that is not a reader's passes nothing on. -/
theorem fine_quiet {f f' : FineNet} (h : FineStep parse fs f f') :
    (∃ k u w, f.users k = some u ∧ f' = f.set k { u with loopBox := u.loopBox ++ [.ws w] }) ∨
    ∀ k u v m, f.users k = some u → f'.users k = some v → v.loopBox = u.loopBox ++ [.ws m] → False := by
  by_cases hr : ∃ k u w, f.users k = some u ∧ f' = f.set k { u with loopBox := u.loopBox ++ [.ws w] }
  · exact Or.inl hr
  · right
    have one : ∀ {g : FineNet} {j : Nat} {a b : FineProcs}, g.users = f.users → f.users j = some a → (∀ m, b.loopBox ≠ a.loopBox ++ [.ws m]) →
        ∀ k u v m, f.users k = some u → (g.set j b).users k = some v → v.loopBox = u.loopBox ++ [.ws m] → False := by
      intro g j a b hg ha hb k u v m h1 h2 h3
      by_cases e : k = j
      · subst e
        rw [FineNet.set_same] at h2
        rw [ha] at h1
        cases h1; cases h2
        exact hb m h3
      · rw [FineNet.set_other e, hg, h1] at h2
        cases h2
        exact box_self h3
    have stay : ∀ {g : FineNet}, g.users = f.users → ∀ k u v m, f.users k = some u → g.users k = some v → v.loopBox = u.loopBox ++ [.ws m] → False := by
      intro g hg k u v m h1 h2 h3
      rw [hg, h1] at h2
      cases h2
      exact box_self h3
    have shorter : ∀ {a : Mail LiveviewInput Nat} {l : List (Mail LiveviewInput Nat)} (m : Except NextMessageError Message), l ≠ (a :: l) ++ [.ws m] := by
      intro a l m e
      have := congrArg List.length e
      simp at this
      omega
    cases h with
    | connect j hj =>
      intro k u v m h1 h2 h3
      have e : k ≠ j := by rintro rfl; rw [hj] at h1; cases h1
      rw [FineNet.set_other e, h1] at h2
      cases h2
      exact box_self h3
    | forward j w i rest hw hi =>
      refine one rfl hw ?_
      intro m e
      simp only [List.append_cancel_left_eq, List.cons.injEq, and_true] at e
      cases e
    | read j w m hw => exact absurd ⟨j, w, m, hw, rfl⟩ hr
    | work j w m rest hw h1 h2 h3 h4 => exact one rfl hw fun m' e => by simp only [h3] at e; exact shorter m' e
    | ask j w m rest q hw h1 h2 h3 h4 =>
      exact one (g := f) rfl hw fun m' e => by simp only [h3] at e; exact shorter m' e
    | serve j q queue srv r ds h1 h2 h3 h4 => exact stay rfl
    | panic j q queue h1 h2 h3 h4 => exact stay rfl
    | send j r d ds hs =>
      unfold FineNet.deliver
      cases hd : f.users d.to with
      | none => exact stay rfl
      | some w => exact one (g := { f with serving := some ⟨j, r, ds⟩ }) rfl hd fun m e => box_self e
    | reply j r w m hs hw ht => exact one (g := { f with serving := none }) rfl hw fun m e => box_self e
    | resume j w m r hw h1 h2 => exact one rfl hw fun m e => box_self e
    | die j w hw => exact one rfl hw fun m e => box_self e
    | shuffle us hp => exact stay rfl

/-- What has been taken and logged at moment `i`. -/
def HeardAt (x : ChatExecution parse fs) (authors : List Nat) (i : Nat) : Prop :=
  ∃ n, ChatSteps parse fs .init n ∧ Heard parse (fun k => passedOn x k i) authors n ∧ Sim parse fs (x.state i) n

theorem heard_start (x : ChatExecution parse fs) : HeardAt x [] 0 := by
    unfold HeardAt
    rw [x.start]
    refine ⟨.init, .refl _, ⟨rfl, fun _ _ => ⟨rfl, rfl⟩, fun k v h => by (cases h)⟩, rfl, rfl, by simp [FineNet.init], ?_, ?_, ?_, fun _ _ => rfl, ?_⟩
    · intro k q h; simp [FineNet.init] at h
    · intro s h; cases h
    · intro k u m h; cases h
    · intro k u h; cases h

theorem heard_next (x : ChatExecution parse fs) {authors : List Nat} {i : Nat} (h : HeardAt x authors i) : ∃ more, HeardAt x (authors ++ more) (i + 1) := by
    unfold HeardAt at h ⊢
    obtain ⟨n, h1, h2, h3⟩ := h
    have keep : (∀ k u v m, (x.state i).users k = some u → (x.state (i + 1)).users k = some v → v.loopBox = u.loopBox ++ [.ws m] → False) →
        (fun k => passedOn x k (i + 1)) = fun k => passedOn x k i := by
      intro h
      funext k
      exact passedOn_quiet fun u v m e1 e2 e3 => h k u v m e1 e2 e3
    rcases x.step i with e | e
    · rw [keep fun k u v m e1 e2 e3 => by rw [e, e1] at e2; cases e2; exact box_self e3, e]
      exact ⟨[], n, h1, by rw [List.append_nil]; exact h2, h3⟩
    · rcases fine_quiet e with ⟨k, u, w, hu, hf⟩ | hq
      · obtain ⟨v, hv, hs⟩ := sim_read h3 hu w
        refine ⟨[], _, .snoc h1 (.read n k v w hv), ?_, by rw [hf]; exact hs⟩
        rw [List.append_nil]
        have : (fun j => passedOn x j (i + 1)) = fun j => if j = k then passedOn x k i ++ [w] else passedOn x j i := by
          funext j
          by_cases ej : j = k
          · subst ej
            simp only [if_true]
            exact passedOn_read hu (by rw [hf]; exact FineNet.set_same _ _ _) rfl
          · simp only [if_neg ej]
            apply passedOn_quiet
            intro a b m e1 e2 e3
            rw [hf, FineNet.set_other ej, e1] at e2
            cases e2
            exact box_self e3
        rw [this]
        exact heard_read h2 hv w
      · rw [keep hq]
        obtain ⟨n', ⟨g1, more, g2⟩, g3⟩ := sim_keeps (ok := fun _ _ => False)
          (R := fun n => ChatSteps parse fs .init n ∧ ∃ more, Heard parse (fun k => passedOn x k i) (authors ++ more) n) (fun _ h => h.1)
          (fun a b h s q => ⟨.snoc h.1 s, by
            obtain ⟨hst, more, hau⟩ := h
            obtain ⟨more', hm⟩ := heard_step (order_steps hst) hau s q
            exact ⟨more ++ more', by rw [← List.append_assoc]; exact hm⟩⟩) ⟨h1, [], by rw [List.append_nil]; exact h2⟩ h3 e fun k u v m e1 e2 e3 => hq k u v m e1 e2 e3
        exact ⟨more, n', g1, g2, g3⟩

/-- The authors of what has been logged up to each moment. -/
theorem heard_authors (x : ChatExecution parse fs) : ∃ authors : Nat → List Nat, (∀ i j, i ≤ j → authors i <+: authors j) ∧ ∀ i, HeardAt x (authors i) i := by
  let at' : (i : Nat) → { a : List Nat // HeardAt x a i } := fun i =>
    Nat.rec ⟨[], heard_start x⟩ (fun _ p => ⟨p.1 ++ (heard_next x p.2).choose, (heard_next x p.2).choose_spec⟩) i
  refine ⟨fun i => (at' i).1, ?_, fun i => (at' i).2⟩
  intro i j h
  induction j with
  | zero =>
    have : i = 0 := by omega
    subst this; simp
  | succ j ih =>
    by_cases e : i = j + 1
    · subst e; simp
    · exact (ih (by omega)).trans (List.prefix_append _ _)

theorem heard_at (x : ChatExecution parse fs) (i : Nat) : ∃ authors, HeardAt x authors i := by
  obtain ⟨a, _, h⟩ := heard_authors x
  exact ⟨a i, h i⟩

/-- What has been taken so far, in every execution. -/
theorem heard_live {i k : Nat} {u : FineProcs} {l : Live} (hu : (x.state i).users k = some u) (hl : u.live = some l) :
    ∃ taken, passedOn x k i = taken ++ socketOf u.loopBox ∧ (script parse taken).Says l := by
  obtain ⟨_, n, _, h2, h3⟩ := heard_at x i
  obtain ⟨v, hv, hvl, _, hb, _⟩ := h3.live hu hl
  obtain ⟨taken, heeded, id, t1, _, _, _, t5⟩ := h2.yes k v hv
  exact ⟨taken, by rw [← hb]; exact t1, (t5 l hvl).2.1⟩

end Puck.Chat
