import Verif.Spec.ChatPrivacy
import Verif.Props.Chat
/-!
# What a user types and does not send is seen by nobody else (C144)
-/
namespace Puck.Chat

variable {parse : String → Option ClientMessage} {fs : Nat → Bool}

/-- The acts are the steps of the application. -/
theorem chatStep_iff (n n' : ChatNet) : ChatStep parse fs n n' ↔ ∃ a, n.act parse fs a = some n' := by
  constructor
  · intro h
    cases h with
    | connect k hk => exact ⟨.connect k, by simp [ChatNet.act, hk]⟩
    | forward k u i rest hu hi =>
      obtain ⟨inbox, loop, loopBox, sent⟩ := u
      simp only at hi
      subst hi
      exact ⟨.forward k, by simp [ChatNet.act, hu]⟩
    | read k u m hu => exact ⟨.read k m, by simp [ChatNet.act, hu]⟩
    | receive k u m rest hu hm => exact ⟨.receive k, by simp [ChatNet.act, hu, hm]⟩
    | die k u hu => exact ⟨.die k, by simp [ChatNet.act, hu]⟩
    | shuffle users hp => exact ⟨.shuffle users, by simp [ChatNet.act, List.isPerm_iff.2 hp]⟩
  · rintro ⟨a, h⟩
    cases a with
    | connect k =>
      simp only [ChatNet.act] at h
      cases hk : n.users k with
      | none => simp only [hk, Option.some.injEq] at h; subst h; exact .connect n k hk
      | some u => simp [hk] at h
    | forward k =>
      simp only [ChatNet.act] at h
      cases hk : n.users k with
      | none => simp [hk] at h
      | some u =>
        obtain ⟨inbox, loop, loopBox, sent⟩ := u
        cases inbox with
        | nil => simp [hk] at h
        | cons i rest =>
          simp only [hk, Option.some.injEq] at h
          subst h
          exact .forward n k _ i rest hk rfl
    | read k m =>
      simp only [ChatNet.act] at h
      cases hk : n.users k with
      | none => simp [hk] at h
      | some u => simp only [hk, Option.some.injEq] at h; subst h; exact .read n k u m hk
    | receive k =>
      simp only [ChatNet.act] at h
      cases hk : n.users k with
      | none => simp [hk] at h
      | some u =>
        cases hb : u.loopBox with
        | nil => simp [hk, hb] at h
        | cons m rest => simp only [hk, hb, Option.some.injEq] at h; subst h; exact .receive n k u m rest hk hb
    | die k =>
      simp only [ChatNet.act] at h
      cases hk : n.users k with
      | none => simp [hk] at h
      | some u => simp only [hk, Option.some.injEq] at h; subst h; exact .die n k u hk
    | shuffle users =>
      simp only [ChatNet.act] at h
      split at h
      · rename_i hp
        simp only [Option.some.injEq] at h
        subst h
        exact .shuffle n users (List.isPerm_iff.1 hp)
      · cases h

/-! ## Two courses of events side by side -/

/-- The messages from the browser in a mailbox. -/
def wsOf : List (Mail LiveviewInput Nat) → List (Except NextMessageError Message)
  | [] => []
  | .ws m :: ms => m :: wsOf ms
  | _ :: ms => wsOf ms

theorem wsOf_append (a b : List (Mail LiveviewInput Nat)) : wsOf (a ++ b) = wsOf a ++ wsOf b := by
  induction a with
  | nil => rfl
  | cons m a ih => cases m <;> simp [wsOf, ih]

/-- Mailboxes that differ in texts only. -/
inductive Boxes : List (Mail LiveviewInput Nat) → List (Mail LiveviewInput Nat) → Prop
  | nil : Boxes [] []
  | same (m : Mail LiveviewInput Nat) {b b'} : Boxes b b' → Boxes (m :: b) (m :: b')
  | text (t t' : String) {b b'} : Boxes b b' → Boxes (.ws (.ok (.text t)) :: b) (.ws (.ok (.text t')) :: b')

theorem Boxes.append {a a' b b' : List (Mail LiveviewInput Nat)} (h : Boxes a a') (h' : Boxes b b') : Boxes (a ++ b) (a' ++ b') := by
  induction h with
  | nil => exact h'
  | same m _ ih => exact .same m ih
  | text t t' _ ih => exact .text t t' ih

theorem Boxes.wsLength {b b' : List (Mail LiveviewInput Nat)} (h : Boxes b b') : (wsOf b).length = (wsOf b').length := by
  induction h with
  | nil => rfl
  | same m _ ih => cases m <;> simp [wsOf, ih]
  | text t t' _ ih => simp [wsOf, ih]

/-- Component loops that differ in the text of the field only; `done` and `done'` is what they have taken from their browsers. -/
inductive Alike (parse : String → Option ClientMessage) (done done' : List (Except NextMessageError Message)) :
    Phase ChatServer LiveviewInput (Option (Live × ChatServer)) Nat → Phase ChatServer LiveviewInput (Option (Live × ChatServer)) Nat → Prop
  | waiting (d) : done = [] → done' = [] → Alike parse done done' (.waiting d) (.waiting d)
  | naming {p s a a' d d' ls ls'} : script parse done = .naming a → script parse done' = .naming a' →
      Alike parse done done' (.running ⟨p, some (.uninitialized a, s), d, ls⟩) (.running ⟨p, some (.uninitialized a', s), d', ls'⟩)
  | chatting {p s nm id ms c c' sent d d' ls ls'} : script parse done = .chatting nm c sent → script parse done' = .chatting nm c' sent →
      Alike parse done done' (.running ⟨p, some (.initialized nm id ms c, s), d, ls⟩) (.running ⟨p, some (.initialized nm id ms c', s), d', ls'⟩)
  | stopped : Alike parse done done' .stopped .stopped
  | crashed : Alike parse done done' .crashed .crashed

/-- The processes of user `k` in the two courses of events, in which its browser has sent `said` and `said'`. -/
def Beside (parse : String → Option ClientMessage) (said said' : List (Except NextMessageError Message)) : Option UserProcs → Option UserProcs → Prop
  | none, none => said = [] ∧ said' = []
  | some u, some u' => u.inbox = u'.inbox ∧ Boxes u.loopBox u'.loopBox ∧ ∃ done done', said = done ++ wsOf u.loopBox ∧ said' = done' ++ wsOf u'.loopBox ∧
      done.length = done'.length ∧ Alike parse done done' u.loop u'.loop
  | _, _ => False

/-- The two states, which agree on everything except the text of user `k`'s field. -/
structure SameBut (parse : String → Option ClientMessage) (k : Nat) (said said' : List (Except NextMessageError Message)) (n n' : ChatNet) : Prop where
  srv : n.srv = n'.srv
  others : ∀ j, j ≠ k → n.users j = n'.users j
  own : Beside parse said said' (n.users k) (n'.users k)

variable {k : Nat} {said said' : List (Except NextMessageError Message)} {n n' : ChatNet}

theorem SameBut.setOther (h : SameBut parse k said said' n n') {j : Nat} (hj : j ≠ k) (u : UserProcs) : SameBut parse k said said' (n.set j u) (n'.set j u) := by
  refine ⟨h.srv, ?_, ?_⟩
  · intro i hi
    simp only [ChatNet.set]
    split
    · rfl
    · exact h.others i hi
  · simp only [ChatNet.set]
    rw [if_neg (Ne.symm hj), if_neg (Ne.symm hj)]
    exact h.own

theorem SameBut.setServer (h : SameBut parse k said said' n n') (srv : ChatServer) : SameBut parse k said said' ⟨srv, n.users⟩ ⟨srv, n'.users⟩ :=
  ⟨rfl, h.others, h.own⟩

theorem SameBut.setOwn (hs : n.srv = n'.srv) (ho : ∀ j, j ≠ k → n.users j = n'.users j) {u u' : UserProcs} (h : Beside parse said said' (some u) (some u')) :
    SameBut parse k said said' (n.set k u) (n'.set k u') := by
  refine ⟨hs, ?_, ?_⟩
  · intro i hi
    simp only [ChatNet.set, if_neg hi]
    exact ho i hi
  · simpa only [ChatNet.set, if_true] using h

theorem SameBut.deliver (h : SameBut parse k said said' n n') (d : Delivery) : SameBut parse k said said' (n.deliver d) (n'.deliver d) := by
  unfold ChatNet.deliver
  by_cases hd : d.to = k
  · have ho := h.own
    rw [hd]
    revert ho
    cases hu : n.users k with
    | none =>
      cases hu' : n'.users k with
      | none => exact fun _ => h
      | some u' => exact fun e => absurd e id
    | some u =>
      cases hu' : n'.users k with
      | none => exact fun e => absurd e id
      | some u' =>
        rintro ⟨h1, h2⟩
        exact SameBut.setOwn h.srv h.others ⟨by simp [h1], h2⟩
  · rw [h.others _ hd]
    cases n'.users d.to with
    | none => exact h
    | some u => exact h.setOther hd _

theorem SameBut.deliverAll (ds : List Delivery) (h : SameBut parse k said said' n n') :
    SameBut parse k said said' (ds.foldl ChatNet.deliver n) (ds.foldl ChatNet.deliver n') := by
  induction ds generalizing n n' with
  | nil => exact h
  | cons d ds ih => exact ih (h.deliver d)

/-! ## One message -/

/-- An update, seen from outside. -/
theorem receive_update {u : UserProcs} {l : Live} {srv0 : ChatServer} {dom : Element} {ls : String → Option (Listener LiveviewInput)} {m : Mail LiveviewInput Nat}
    {rest : List (Mail LiveviewInput Nat)} {i : LiveviewInput} {l' : Live} {srv' : ChatServer} {ds : List Delivery} {p : Nat}
    (hu : u.loop = .running ⟨p, some (l, srv0), dom, ls⟩) (hr : l.render = (dom, ls)) (ha : Asks parse l.listeners m i)
    (hup : l.update i p n.srv = some (l', srv', ds)) :
    ∃ s, n.receive parse fs k u m rest =
      ds.foldl ChatNet.deliver ((⟨srv', n.users⟩ : ChatNet).set k ⟨u.inbox, .running ⟨p, some (l', srv'), l'.render.1, l'.render.2⟩, rest, s⟩) := by
  obtain ⟨ops, hs⟩ := update_step (b := fs k) (srv0 := srv0) hr ha hup
  refine ⟨u.sent ++ sends (ds.map .effect ++ [.send (serializeOps ops)]), ?_⟩
  unfold ChatNet.receive
  rw [hu, hs]
  simp only [serverAfter, Option.map_some, Option.getD_some]
  rw [effects_map _ _ rfl]

/-- A message that is ignored. -/
theorem receive_ignored {u : UserProcs} {l : Live} {srv0 : ChatServer} {dom : Element} {ls : String → Option (Listener LiveviewInput)} {m : Mail LiveviewInput Nat}
    {rest : List (Mail LiveviewInput Nat)} {p : Nat}
    (hu : u.loop = .running ⟨p, some (l, srv0), dom, ls⟩) (hr : l.render = (dom, ls)) (ha : ∀ i, ¬ Asks parse l.listeners m i)
    (hc : m ≠ .ws (.error .connectionClosed)) (hw : ∀ q, m ≠ .whoAmI q) :
    ∃ s, n.receive parse fs k u m rest = n.set k ⟨u.inbox, .running ⟨p, some (l, n.srv), dom, ls⟩, rest, s⟩ := by
  have hl : ls = l.listeners := (congrArg (·.2) hr).symm
  have hs : loopStep chatComponent parse (fs k) (withServer n.srv (.running ⟨p, some (l, srv0), dom, ls⟩)) m =
      (.running ⟨p, some (l, n.srv), dom, ls⟩, []) := by
    simp only [withServer, Option.map_some]
    refine step_ignored ?_ hc hw
    intro i hi
    exact ha i (by simp only [hl] at hi; exact hi)
  refine ⟨u.sent ++ sends (E := Delivery) [], ?_⟩
  unfold ChatNet.receive
  rw [hu, hs]
  simp only [serverAfter, Option.map_some, Option.getD_some, effects, List.foldl_nil]

/-- The component has what the script says. -/
inductive Has : ChatScript → Live → Prop
  | naming (a : String) : Has (.naming a) (.uninitialized a)
  | chatting (nm c : String) (sent : List String) (id : Nat) (ms : List ChatMessage) : Has (.chatting nm c sent) (.initialized nm id ms c)

/-- Everything but the text in the field. -/
def Live.shape : Live → Option (String × Nat × List ChatMessage)
  | .uninitialized _ => none
  | .initialized nm id ms _ => some (nm, id, ms)

/-- A text from the browser changes the text of the field at most, or enters the chat, or sends the text of the field. -/
theorem text_does {sc : ChatScript} {l : Live} (h : Has sc l) (t : String) :
    (∃ l', Has (sc.reads parse (.ok (.text t))) l' ∧ l'.shape = l.shape ∧ (sc.reads parse (.ok (.text t))).published = sc.published ∧
      (((∀ i, ¬ Asks parse l.listeners (.ws (.ok (.text t)) : Mail LiveviewInput Nat) i) ∧ l' = l) ∨
        ∃ i, Asks parse l.listeners (.ws (.ok (.text t)) : Mail LiveviewInput Nat) i ∧ ∀ p srv, l.update i p srv = some (l', srv, []))) ∨
    (∃ a, sc = .naming a ∧ sc.reads parse (.ok (.text t)) = .chatting a "" [] ∧
      Asks parse l.listeners (.ws (.ok (.text t)) : Mail LiveviewInput Nat) (.browserRequest .initializeUser)) ∨
    (∃ nm c sent, sc = .chatting nm c sent ∧ sc.reads parse (.ok (.text t)) = .chatting nm c (sent ++ [c]) ∧
      Asks parse l.listeners (.ws (.ok (.text t)) : Mail LiveviewInput Nat) (.browserRequest .sendTextMessage)) := by
  have none_asks : ∀ l' : Live, (∀ e, parse t = some e → l'.listeners e.listener = none ∨ ∃ f, l'.listeners e.listener = some (.input f) ∧ e.payload = none) →
      ∀ i, ¬ Asks parse l'.listeners (.ws (.ok (.text t)) : Mail LiveviewInput Nat) i := by
    intro l' hn i hi
    rcases hi with hi | ⟨c, e, hc, he, hi⟩
    · cases hi
    · cases hc
      rcases hn e he with hn | ⟨f, hn, hp⟩
      · simp [hn] at hi
      · simp [hn, hp] at hi
  cases hp : parse t with
  | none =>
    refine Or.inl ⟨l, ?_, rfl, ?_, Or.inl ⟨none_asks l (by simp [hp]), rfl⟩⟩
    · simpa [ChatScript.reads, hp] using h
    · simp [ChatScript.reads, hp]
  | some e =>
    have hs : sc.reads parse (.ok (.text t)) = sc.event e := by simp [ChatScript.reads, hp]
    rw [hs]
    cases h with
    | naming a =>
      by_cases h1 : e.listener = "set_username"
      · cases hv : e.payload with
        | none =>
          refine Or.inl ⟨.uninitialized a, ?_, rfl, by simp [ChatScript.event, ChatScript.published, *], Or.inl ⟨none_asks _ ?_, rfl⟩⟩
          · simp [ChatScript.event, h1, hv]; exact .naming a
          · intro e' he'
            rw [hp] at he'; cases he'
            exact Or.inr ⟨_, by simp [Live.listeners, h1]; rfl, hv⟩
        | some v =>
          refine Or.inl ⟨.uninitialized v, ?_, rfl, by simp [ChatScript.event, ChatScript.published, *], Or.inr ⟨.browserRequest (.updateInitializeUsernameTextField v), ?_, fun _ _ => rfl⟩⟩
          · simp [ChatScript.event, h1, hv]; exact .naming v
          · exact Or.inr ⟨t, e, rfl, hp, Or.inr (Or.inr ⟨fun v => .browserRequest (.updateInitializeUsernameTextField v), v, by simp [Live.listeners, h1], hv, rfl⟩)⟩
      · by_cases h2 : e.listener = "initialize_username"
        · refine Or.inr (Or.inl ⟨a, rfl, ?_, Or.inr ⟨t, e, rfl, hp, Or.inl ?_⟩⟩)
          · simp [ChatScript.event, h2]
          · simp [Live.listeners, h2]
        · refine Or.inl ⟨.uninitialized a, ?_, rfl, by simp [ChatScript.event, ChatScript.published, *], Or.inl ⟨none_asks _ ?_, rfl⟩⟩
          · simp [ChatScript.event, h1, h2]; exact .naming a
          · intro e' he'
            rw [hp] at he'; cases he'
            exact Or.inl (by simp [Live.listeners, h1, h2])
    | chatting nm c sent id ms =>
      by_cases h1 : e.listener = "update_message_contents"
      · cases hv : e.payload with
        | none =>
          refine Or.inl ⟨.initialized nm id ms c, ?_, rfl, by simp [ChatScript.event, ChatScript.published, *], Or.inl ⟨none_asks _ ?_, rfl⟩⟩
          · simp [ChatScript.event, h1, hv]; exact .chatting nm c sent id ms
          · intro e' he'
            rw [hp] at he'; cases he'
            exact Or.inr ⟨_, by simp [Live.listeners, h1]; rfl, hv⟩
        | some v =>
          refine Or.inl ⟨.initialized nm id ms v, ?_, rfl, by simp [ChatScript.event, ChatScript.published, *], Or.inr ⟨.browserRequest (.updateMessageContentsTextField v), ?_, fun _ _ => rfl⟩⟩
          · simp [ChatScript.event, h1, hv]; exact .chatting nm v sent id ms
          · exact Or.inr ⟨t, e, rfl, hp, Or.inr (Or.inr ⟨fun v => .browserRequest (.updateMessageContentsTextField v), v, by simp [Live.listeners, h1], hv, rfl⟩)⟩
      · by_cases h2 : e.listener = "submit_message"
        · refine Or.inr (Or.inr ⟨nm, c, sent, rfl, ?_, Or.inr ⟨t, e, rfl, hp, Or.inl ?_⟩⟩)
          · simp [ChatScript.event, h2]
          · simp [Live.listeners, h2]
        · refine Or.inl ⟨.initialized nm id ms c, ?_, rfl, by simp [ChatScript.event, ChatScript.published, *], Or.inl ⟨none_asks _ ?_, rfl⟩⟩
          · simp [ChatScript.event, h1, h2]; exact .chatting nm c sent id ms
          · intro e' he'
            rw [hp] at he'; cases he'
            exact Or.inl (by simp [Live.listeners, h1, h2])

theorem Alike.of_has {done done' : List (Except NextMessageError Message)} {p : Nat} {s : ChatServer} {l l' : Live} {d d' : Element}
    {ls ls' : String → Option (Listener LiveviewInput)} (h : Has (script parse done) l) (h' : Has (script parse done') l') (he : l.shape = l'.shape)
    (hp : (script parse done).published = (script parse done').published) :
    Alike parse done done' (.running ⟨p, some (l, s), d, ls⟩) (.running ⟨p, some (l', s), d', ls'⟩) := by
  generalize e : script parse done = sc at *
  generalize e' : script parse done' = sc' at *
  cases h with
  | naming a =>
    cases h' with
    | naming a' => exact .naming e e'
    | chatting => cases he
  | chatting nm c sent id ms =>
    cases h' with
    | naming a' => cases he
    | chatting nm' c' sent' id' ms' =>
      simp only [Live.shape, Option.some.injEq, Prod.mk.injEq] at he
      obtain ⟨rfl, rfl, rfl⟩ := he
      simp only [ChatScript.published, Option.some.injEq, Prod.mk.injEq, true_and] at hp
      subst hp
      exact .chatting e e'

theorem Alike.has {done done' : List (Except NextMessageError Message)} {p p' : Nat} {l l' : Live} {s s' : ChatServer} {d d' : Element}
    {ls ls' : String → Option (Listener LiveviewInput)} (h : Alike parse done done' (.running ⟨p, some (l, s), d, ls⟩) (.running ⟨p', some (l', s'), d', ls'⟩)) :
    Has (script parse done) l ∧ Has (script parse done') l' ∧ l.shape = l'.shape ∧ p = p' ∧ s = s' ∧
      (script parse done).published = (script parse done').published := by
  cases h with
  | naming e e' => rw [e, e']; exact ⟨.naming _, .naming _, rfl, rfl, rfl, rfl⟩
  | chatting e e' => rw [e, e']; exact ⟨.chatting .., .chatting .., rfl, rfl, rfl, rfl⟩

theorem script_snoc (done : List (Except NextMessageError Message)) (m : Except NextMessageError Message) :
    script parse (done ++ [m]) = (script parse done).reads parse m := by
  simp [script]

/-- Whatever is not a text says nothing. -/
theorem reads_other (done : List (Except NextMessageError Message)) {w : Except NextMessageError Message} (hw : ∀ t, w ≠ .ok (.text t)) :
    script parse (done ++ [w]) = script parse done := by
  rw [script_snoc]
  cases w with
  | error e => rfl
  | ok m => cases m with
    | text t => exact absurd rfl (hw t)
    | _ => rfl

theorem other_asks (l : Live) {w : Except NextMessageError Message} (hw : ∀ t, w ≠ .ok (.text t)) (i : LiveviewInput) :
    ¬ Asks parse l.listeners (.ws w : Mail LiveviewInput Nat) i := by
  rintro (hi | ⟨c, e, hc, _⟩)
  · cases hi
  · cases hc; exact hw c rfl

/-- The same for a component that runs. -/
theorem runs_receive (h : NetInv fs n) (h' : NetInv fs n') (R : SameBut parse k said said' n n')
    (hpub : ∀ i, (script parse (said.take i)).published = (script parse (said'.take i)).published)
    {inbox : List LiveviewInput} {p p' : Nat} {l l' : Live} {s0 s0' : ChatServer} {d d' : Element} {ls ls' : String → Option (Listener LiveviewInput)}
    {sent sent' : List (List WireOp)} {m m' : Mail LiveviewInput Nat} {rest rest' : List (Mail LiveviewInput Nat)}
    (hu : n.users k = some ⟨inbox, .running ⟨p, some (l, s0), d, ls⟩, m :: rest, sent⟩)
    (hu' : n'.users k = some ⟨inbox, .running ⟨p', some (l', s0'), d', ls'⟩, m' :: rest', sent'⟩)
    (hbox : Boxes (m :: rest) (m' :: rest')) {done done' : List (Except NextMessageError Message)}
    (hs : said = done ++ wsOf (m :: rest)) (hs' : said' = done' ++ wsOf (m' :: rest')) (hlen : done.length = done'.length)
    (hal : Alike parse done done' (.running ⟨p, some (l, s0), d, ls⟩) (.running ⟨p', some (l', s0'), d', ls'⟩)) :
    SameBut parse k said said' (n.receive parse fs k ⟨inbox, .running ⟨p, some (l, s0), d, ls⟩, m :: rest, sent⟩ m rest)
      (n'.receive parse fs k ⟨inbox, .running ⟨p', some (l', s0'), d', ls'⟩, m' :: rest', sent'⟩ m' rest') := by
  have hsrv := R.srv
  have hrest : Boxes rest rest' := by cases hbox <;> assumption
  obtain ⟨hH, hH', hshape, rfl, rfl, hP⟩ := hal.has
  have q := (h.procs k _ hu).2
  have q' := (h'.procs k _ hu').2
  simp only at q q'
  obtain ⟨hm, hp, l1, s1, hc, hr, hk⟩ := q
  obtain ⟨hm', hp', l1', s1', hc', hr', hk'⟩ := q'
  cases hc
  cases hc'
  subst hp
  have hmm := hm m (by simp)
  have still : ∀ (lp lp' : Phase ChatServer LiveviewInput (Option (Live × ChatServer)) Nat) (st st' : List (List WireOp)) (nd nd' : List (Except NextMessageError Message))
      (sv : ChatServer), said = nd ++ wsOf rest → said' = nd' ++ wsOf rest' → nd.length = nd'.length → Alike parse nd nd' lp lp' →
      SameBut parse p said said' ((⟨sv, n.users⟩ : ChatNet).set p ⟨inbox, lp, rest, st⟩) ((⟨sv, n'.users⟩ : ChatNet).set p ⟨inbox, lp', rest', st'⟩) := by
    intro lp lp' st st' nd nd' sv e1 e2 e3 e4
    exact SameBut.setOwn (n := ⟨sv, n.users⟩) (n' := ⟨sv, n'.users⟩) rfl R.others ⟨rfl, hrest, nd, nd', e1, e2, e3, e4⟩
  have both : ∀ (i i' : LiveviewInput) (l2 l2' : Live) (srv' : ChatServer) (ds : List Delivery) (nd nd' : List (Except NextMessageError Message)),
      said = nd ++ wsOf rest → said' = nd' ++ wsOf rest' → nd.length = nd'.length → l.render = (d, ls) → l'.render = (d', ls') →
      Asks parse l.listeners m i → Asks parse l'.listeners m' i' → l.update i p n.srv = some (l2, srv', ds) → l'.update i' p n.srv = some (l2', srv', ds) →
      Alike parse nd nd' (.running ⟨p, some (l2, srv'), l2.render.1, l2.render.2⟩) (.running ⟨p, some (l2', srv'), l2'.render.1, l2'.render.2⟩) →
      SameBut parse p said said' (n.receive parse fs p ⟨inbox, .running ⟨p, some (l, s0), d, ls⟩, m :: rest, sent⟩ m rest)
        (n'.receive parse fs p ⟨inbox, .running ⟨p, some (l', s0), d', ls'⟩, m' :: rest', sent'⟩ m' rest') := by
    intro i i' l2 l2' srv' ds nd nd' e1 e2 e3 hr hr' ha ha' hup hup' hal2
    obtain ⟨st2, r1⟩ := receive_update (n := n) (fs := fs) (k := p) (rest := rest) (u := ⟨inbox, .running ⟨p, some (l, s0), d, ls⟩, m :: rest, sent⟩) rfl hr ha hup
    obtain ⟨st2', r2⟩ := receive_update (n := n') (fs := fs) (k := p) (rest := rest') (u := ⟨inbox, .running ⟨p, some (l', s0), d', ls'⟩, m' :: rest', sent'⟩) rfl hr' ha'
      (by rw [← hsrv]; exact hup')
    rw [r1, r2]
    exact (still _ _ _ _ nd nd' srv' e1 e2 e3 hal2).deliverAll ds
  -- a text each
  have texts : ∀ t t', m = .ws (.ok (.text t)) → m' = .ws (.ok (.text t')) → SameBut parse p said said'
      (n.receive parse fs p ⟨inbox, .running ⟨p, some (l, s0), d, ls⟩, m :: rest, sent⟩ m rest)
      (n'.receive parse fs p ⟨inbox, .running ⟨p, some (l', s0), d', ls'⟩, m' :: rest', sent'⟩ m' rest') := by
    rintro t t' rfl rfl
    have e1 : said = (done ++ [.ok (.text t)]) ++ wsOf rest := by simp [hs, wsOf]
    have e2 : said' = (done' ++ [.ok (.text t')]) ++ wsOf rest' := by simp [hs', wsOf]
    have e3 : (done ++ [(.ok (.text t) : Except NextMessageError Message)]).length = (done' ++ [(.ok (.text t') : Except NextMessageError Message)]).length := by simp [hlen]
    have hP1 : (script parse (done ++ [.ok (.text t)])).published = (script parse (done' ++ [.ok (.text t')])).published := by
      have := hpub (done.length + 1)
      have q1 : said.take (done.length + 1) = done ++ [.ok (.text t)] := by
        rw [e1, show done.length + 1 = (done ++ [(.ok (.text t) : Except NextMessageError Message)]).length by simp]; exact List.take_left
      have q2 : said'.take (done.length + 1) = done' ++ [.ok (.text t')] := by
        rw [e2, show done.length + 1 = (done' ++ [(.ok (.text t') : Except NextMessageError Message)]).length by simp [hlen]]; exact List.take_left
      rw [q1, q2] at this
      exact this
    have hP2 := hP1
    rw [script_snoc, script_snoc] at hP2
    -- updates
    have quiet : ∀ (n : ChatNet) (w : String) (l : Live) (d : Element) (ls : String → Option (Listener LiveviewInput)) (bx rs : List (Mail LiveviewInput Nat)) (st : List (List WireOp)) (l2 : Live), l.render = (d, ls) →
        (((∀ i, ¬ Asks parse l.listeners (.ws (.ok (.text w)) : Mail LiveviewInput Nat) i) ∧ l2 = l) ∨
          ∃ i, Asks parse l.listeners (.ws (.ok (.text w)) : Mail LiveviewInput Nat) i ∧ ∀ p srv, l.update i p srv = some (l2, srv, [])) →
        ∃ d2 ls2 st2, n.receive parse fs p ⟨inbox, .running ⟨p, some (l, s0), d, ls⟩, bx, st⟩ (.ws (.ok (.text w))) rs =
          (⟨n.srv, n.users⟩ : ChatNet).set p ⟨inbox, .running ⟨p, some (l2, n.srv), d2, ls2⟩, rs, st2⟩ := by
      intro n w l d ls bx rs st l2 hr hq
      rcases hq with ⟨hq, rfl⟩ | ⟨i, hi, hup⟩
      · obtain ⟨st2, e⟩ := receive_ignored (n := n) (fs := fs) (k := p) (rest := rs) (u := ⟨inbox, .running ⟨p, some (l2, s0), d, ls⟩, bx, st⟩) rfl hr hq (by simp) (by simp)
        exact ⟨d, ls, st2, e⟩
      · obtain ⟨st2, e⟩ := receive_update (n := n) (fs := fs) (k := p) (rest := rs) (u := ⟨inbox, .running ⟨p, some (l, s0), d, ls⟩, bx, st⟩) rfl hr hi (hup p n.srv)
        exact ⟨_, _, st2, e⟩
    rcases text_does (parse := parse) hH t with ⟨l2, a1, a2, a4, a3⟩ | ⟨a, a1, a2, a3⟩ | ⟨nm, c, sn, a1, a2, a3⟩ <;>
      rcases text_does (parse := parse) hH' t' with ⟨l2', b1, b2, b4, b3⟩ | ⟨a', b1, b2, b3⟩ | ⟨nm', c', sn', b1, b2, b3⟩
    · obtain ⟨d2, ls2, st2, r1⟩ := quiet n t l d ls (.ws (.ok (.text t)) :: rest) rest sent l2 hr a3
      obtain ⟨d2', ls2', st2', r2⟩ := quiet n' t' l' d' ls' (.ws (.ok (.text t')) :: rest') rest' sent' l2' hr' b3
      rw [r1, r2, ← hsrv]
      refine still _ _ _ _ _ _ _ e1 e2 e3 ?_
      exact Alike.of_has (by rw [script_snoc]; exact a1) (by rw [script_snoc]; exact b1) (by rw [a2, b2, hshape]) hP1
    · rw [a4, hP, b2, b1] at hP2; cases hP2
    · rw [a4, hP, b2, b1] at hP2; simp [ChatScript.published] at hP2
    · rw [b4, ← hP, a2, a1] at hP2; cases hP2
    · -- both enter
      rw [a2, b2] at hP2
      simp only [ChatScript.published, Option.some.injEq, Prod.mk.injEq, and_true] at hP2
      subst hP2
      rw [a1] at hH
      rw [b1] at hH'
      cases hH
      cases hH'
      refine both _ _ _ _ _ _ _ _ e1 e2 e3 hr hr' a3 b3 rfl rfl ?_
      exact Alike.of_has (by rw [script_snoc, a2]; exact .chatting ..) (by rw [script_snoc, b2]; exact .chatting ..) rfl hP1
    · rw [a1, b1] at hP; cases hP
    · rw [b4, ← hP, a2, a1] at hP2; simp [ChatScript.published] at hP2
    · rw [a1, b1] at hP; cases hP
    · -- both send
      rw [a2, b2] at hP2
      rw [a1, b1] at hP
      simp only [ChatScript.published, Option.some.injEq, Prod.mk.injEq] at hP2 hP
      obtain ⟨rfl, rfl⟩ := hP
      have hc := List.append_cancel_left hP2.2
      cases hc
      rw [a1] at hH
      rw [b1] at hH'
      cases hH with
      | chatting _ _ _ id ms =>
      cases hH' with
      | chatting _ _ _ id' ms' =>
      simp only [Live.shape, Option.some.injEq, Prod.mk.injEq, true_and] at hshape
      obtain ⟨rfl, rfl⟩ := hshape
      have hg := hk _ _ _ _ rfl
      have up : ∀ c0, Live.update (.initialized nm id ms c) (.browserRequest .sendTextMessage) p n.srv = some (c0, (⟨n.srv.users, n.srv.idGen, n.srv.log ++ [⟨id, nm, c⟩], n.srv.joined⟩ : ChatServer),
          (n.srv.users.filter fun u => u.1 != id).map fun u => (⟨u.2.2, .receiveMessage ⟨id, nm, c⟩⟩ : Delivery)) ↔ c0 = .initialized nm id (ms ++ [⟨id, nm, c⟩]) c := by
        intro c0
        simp [Live.update, ChatServer.handle, hg, Live.updateLocal, eq_comm]
      refine both _ _ _ _ _ _ _ _ e1 e2 e3 hr hr' a3 b3 ((up _).2 rfl) ((up _).2 rfl) ?_
      exact Alike.of_has (by rw [script_snoc, a2]; exact .chatting ..) (by rw [script_snoc, b2]; exact .chatting ..) rfl hP1
  cases hbox with
  | text t t' _ => exact texts t t' rfl rfl
  | same m _ =>
    rcases hmm with ⟨c, rfl⟩ | ⟨w, rfl⟩
    · -- a message of another user
      have e1 : said = done ++ wsOf rest := by simp [hs, wsOf]
      have e2 : said' = done' ++ wsOf rest' := by simp [hs', wsOf]
      generalize hsc : script parse done = sc at hH
      generalize hsc' : script parse done' = sc' at hH'
      cases hH with
      | naming a =>
        cases hH' with
        | chatting => cases hshape
        | naming a' =>
          exact both _ _ _ _ _ _ _ _ e1 e2 hlen hr hr' (Or.inl rfl) (Or.inl rfl) rfl rfl (.naming hsc hsc')
      | chatting nm c sn id ms =>
        cases hH' with
        | naming a' => cases hshape
        | chatting nm' c' sn' id' ms' =>
          simp only [Live.shape, Option.some.injEq, Prod.mk.injEq] at hshape
          obtain ⟨rfl, rfl, rfl⟩ := hshape
          rw [hsc, hsc'] at hP
          simp only [ChatScript.published, Option.some.injEq, Prod.mk.injEq, true_and] at hP
          subst hP
          exact both _ _ _ _ _ _ _ _ e1 e2 hlen hr hr' (Or.inl rfl) (Or.inl rfl) rfl rfl (.chatting hsc hsc')
    · by_cases ht : ∃ t, w = .ok (.text t)
      · obtain ⟨t, rfl⟩ := ht
        exact texts t t rfl rfl
      · have hw : ∀ t, w ≠ .ok (.text t) := fun t e => ht ⟨t, e⟩
        have e1 : said = (done ++ [w]) ++ wsOf rest := by simp [hs, wsOf]
        have e2 : said' = (done' ++ [w]) ++ wsOf rest' := by simp [hs', wsOf]
        have e3 : (done ++ [w]).length = (done' ++ [w]).length := by simp [hlen]
        by_cases hcl : w = .error .connectionClosed
        · subst hcl
          have hsv : serverAfter n.srv (.running ⟨p, some (l, s0), d, ls⟩) .stopped = serverAfter n.srv (.running ⟨p, some (l', s0), d', ls'⟩) .stopped := by
            cases l <;> cases l' <;> simp [Live.shape] at hshape <;> simp [serverAfter, hshape]
          simp only [ChatNet.receive, withServer, loopStep, effects, List.foldl_nil, ← hsrv]
          rw [hsv]
          exact still _ _ _ _ _ _ _ e1 e2 e3 .stopped
        · obtain ⟨st2, r1⟩ := receive_ignored (n := n) (fs := fs) (k := p) (rest := rest) (u := ⟨inbox, .running ⟨p, some (l, s0), d, ls⟩, .ws w :: rest, sent⟩) rfl hr
            (other_asks (parse := parse) l hw) (by simpa using hcl) (by simp)
          obtain ⟨st2', r2⟩ := receive_ignored (n := n') (fs := fs) (k := p) (rest := rest') (u := ⟨inbox, .running ⟨p, some (l', s0), d', ls'⟩, .ws w :: rest', sent'⟩) rfl hr'
            (other_asks (parse := parse) l' hw) (by simpa using hcl) (by simp)
          rw [r1, r2, ← hsrv]
          have := still (.running ⟨p, some (l, n.srv), d, ls⟩) (.running ⟨p, some (l', n.srv), d', ls'⟩) st2 st2' _ _ n.srv e1 e2 e3
            (Alike.of_has (by rw [reads_other _ hw]; exact hH) (by rw [reads_other _ hw]; exact hH') hshape (by rw [reads_other _ hw, reads_other _ hw]; exact hP))
          rw [show (⟨n.srv, n'.users⟩ : ChatNet) = n' from by rw [hsrv]] at this
          exact this

/-- The component of user `k` takes a message. -/
theorem own_receive (h : NetInv fs n) (h' : NetInv fs n') (R : SameBut parse k said said' n n')
    (hpub : ∀ i, (script parse (said.take i)).published = (script parse (said'.take i)).published)
    {u u' : UserProcs} {m m' : Mail LiveviewInput Nat} {rest rest' : List (Mail LiveviewInput Nat)} (hu : n.users k = some u) (hu' : n'.users k = some u')
    (hb : u.loopBox = m :: rest) (hb' : u'.loopBox = m' :: rest') :
    SameBut parse k said said' (n.receive parse fs k u m rest) (n'.receive parse fs k u' m' rest') := by
  have hown := R.own
  rw [hu, hu'] at hown
  obtain ⟨hin, hbox, done, done', hs, hs', hlen, hal⟩ := hown
  rw [hb, hb'] at hbox
  rw [hb] at hs
  rw [hb'] at hs'
  have hrest : Boxes rest rest' := by cases hbox <;> assumption
  have p := (h.procs k u hu).2
  have p' := (h'.procs k u' hu').2
  obtain ⟨inbox, loop, box, sent⟩ := u
  obtain ⟨inbox', loop', box', sent'⟩ := u'
  simp only at hin hb hb' hal p p' hs hs'
  subst hin
  -- a step in which nothing happens to anybody else and the loops stay alike
  have still : ∀ (lp lp' : Phase ChatServer LiveviewInput (Option (Live × ChatServer)) Nat) (st st' : List (List WireOp)) (nd nd' : List (Except NextMessageError Message))
      (sv : ChatServer), said = nd ++ wsOf rest → said' = nd' ++ wsOf rest' → nd.length = nd'.length → Alike parse nd nd' lp lp' →
      SameBut parse k said said' ((⟨sv, n.users⟩ : ChatNet).set k ⟨inbox, lp, rest, st⟩) ((⟨sv, n'.users⟩ : ChatNet).set k ⟨inbox, lp', rest', st'⟩) := by
    intro lp lp' st st' nd nd' sv e1 e2 e3 e4
    exact SameBut.setOwn (n := ⟨sv, n.users⟩) (n' := ⟨sv, n'.users⟩) rfl R.others ⟨rfl, hrest, nd, nd', e1, e2, e3, e4⟩
  -- what is taken, for loops that have ended
  have over : ∀ lp : Phase ChatServer LiveviewInput (Option (Live × ChatServer)) Nat, (∀ nd nd', Alike parse nd nd' lp lp) → ∃ nd nd', said = nd ++ wsOf rest ∧
      said' = nd' ++ wsOf rest' ∧ nd.length = nd'.length ∧ Alike parse nd nd' lp lp := by
    intro lp hlp
    have hl := hrest.wsLength
    cases hbox with
    | same m _ =>
      cases m with
      | ws w => exact ⟨done ++ [w], done' ++ [w], by simp [hs, wsOf], by simp [hs', wsOf], by simp [hlen], hlp _ _⟩
      | input i => exact ⟨done, done', by simp [hs, wsOf], by simp [hs', wsOf], hlen, hlp _ _⟩
      | whoAmI q => exact ⟨done, done', by simp [hs, wsOf], by simp [hs', wsOf], hlen, hlp _ _⟩
    | text t t' _ => exact ⟨done ++ [.ok (.text t)], done' ++ [.ok (.text t')], by simp [hs, wsOf], by simp [hs', wsOf], by simp [hlen], hlp _ _⟩
  have stop_step : ∀ (q : Mail LiveviewInput Nat), loopStep chatComponent parse (fs k) .stopped q = (.stopped, []) := by intro q; cases q <;> rfl
  have crash_step : ∀ (q : Mail LiveviewInput Nat), loopStep chatComponent parse (fs k) .crashed q = (.crashed, []) := by intro q; cases q <;> rfl
  have hsrv := R.srv
  cases hal with
  | stopped =>
    obtain ⟨nd, nd', e1, e2, e3, e4⟩ := over .stopped fun _ _ => .stopped
    simp only [ChatNet.receive, withServer, stop_step, effects, List.foldl_nil, serverAfter]
    rw [← hsrv]
    exact still _ _ _ _ nd nd' _ e1 e2 e3 e4
  | crashed =>
    obtain ⟨nd, nd', e1, e2, e3, e4⟩ := over .crashed fun _ _ => .crashed
    simp only [ChatNet.receive, withServer, crash_step, effects, List.foldl_nil, serverAfter]
    rw [← hsrv]
    exact still _ _ _ _ nd nd' _ e1 e2 e3 e4
  | waiting d hd hd' =>
    subst hd hd'
    obtain ⟨r, e, _⟩ := p
    obtain ⟨r', e', _⟩ := p'
    rw [hb] at e
    rw [hb'] at e'
    cases e
    cases e'
    obtain ⟨ops, ho⟩ := (C59_unkeyed_partial _ _ (render_unkeyed (.uninitialized "")) (render_unkeyed (.uninitialized ""))).2
    simp only [ChatNet.receive, withServer, loopStep, chatComponent, List.map_nil, List.nil_append, ho]
    rw [← hsrv]
    cases fs k with
    | true =>
      simp only [if_true, effects, List.foldl_nil, serverAfter, Option.map_some, Option.getD_some]
      exact still _ _ _ _ [] [] _ hs hs' rfl (.naming rfl rfl)
    | false =>
      simp only [Bool.false_eq_true, if_false, effects, List.foldl_nil, serverAfter]
      exact still _ _ _ _ [] [] _ hs hs' rfl .crashed
  | naming e e' =>
    subst hb hb'
    exact runs_receive h h' R hpub hu hu' hbox hs hs' hlen (.naming e e')
  | chatting e e' =>
    subst hb hb'
    exact runs_receive h h' R hpub hu hu' hbox hs hs' hlen (.chatting e e')

/-- Another user's component takes a message. -/
theorem other_receive (R : SameBut parse k said said' n n') {j : Nat} (hj : j ≠ k) (u : UserProcs) (m : Mail LiveviewInput Nat) (rest : List (Mail LiveviewInput Nat)) :
    SameBut parse k said said' (n.receive parse fs j u m rest) (n'.receive parse fs j u m rest) := by
  unfold ChatNet.receive
  rw [← R.srv]
  exact ((R.setServer _).setOther hj _).deliverAll _

theorem SameBut.lengths (R : SameBut parse k said said' n n') : said.length = said'.length := by
  have h := R.own
  revert h
  cases n.users k with
  | none =>
    cases n'.users k with
    | none => rintro ⟨rfl, rfl⟩; rfl
    | some u' => exact fun e => absurd e id
  | some u =>
    cases n'.users k with
    | none => exact fun e => absurd e id
    | some u' =>
      rintro ⟨_, hb, done, done', rfl, rfl, hl, _⟩
      simp [hl, hb.wsLength]

/-- The processes of user `k` are there in both or in neither. -/
theorem SameBut.both (R : SameBut parse k said said' n n') : (n.users k = none ∧ n'.users k = none ∧ said = [] ∧ said' = []) ∨ ∃ u u', n.users k = some u ∧ n'.users k = some u' := by
  have h := R.own
  revert h
  cases n.users k with
  | none =>
    cases n'.users k with
    | none => rintro ⟨rfl, rfl⟩; exact Or.inl ⟨rfl, rfl, rfl, rfl⟩
    | some u' => exact fun e => absurd e id
  | some u =>
    cases n'.users k with
    | none => exact fun e => absurd e id
    | some u' => exact fun _ => Or.inr ⟨u, u', rfl, rfl⟩

/-- The browser of user `k` sends something, the same or another text. -/
theorem own_read (R : SameBut parse k said said' n n') {w w' : Except NextMessageError Message} (hw : Boxes [.ws w] [.ws w']) {m : ChatNet}
    (hm : n.act parse fs (.read k w) = some m) : ∃ m', n'.act parse fs (.read k w') = some m' ∧ SameBut parse k (said ++ [w]) (said' ++ [w']) m m' := by
  rcases R.both with ⟨h1, _⟩ | ⟨u, u', h1, h2⟩
  · simp [ChatNet.act, h1] at hm
  · simp only [ChatNet.act, h1, h2, Option.some.injEq] at hm ⊢
    subst hm
    refine ⟨_, rfl, ?_⟩
    have h := R.own
    rw [h1, h2] at h
    obtain ⟨e1, e2, done, done', e3, e4, e5, e6⟩ := h
    refine SameBut.setOwn R.srv R.others ⟨e1, e2.append hw, done, done', ?_, ?_, e5, e6⟩
    · simp [e3, wsOf_append, wsOf]
    · simp [e4, wsOf_append, wsOf]

/-- One thing that happens in both. -/
theorem same_act (h : NetInv fs n) (h' : NetInv fs n') (R : SameBut parse k said said' n n')
    (hpub : ∀ i, (script parse (said.take i)).published = (script parse (said'.take i)).published) (a : ChatAct) {m : ChatNet} (hm : n.act parse fs a = some m) :
    ∃ m', n'.act parse fs a = some m' ∧ SameBut parse k (said ++ saidBy k [a]) (said' ++ saidBy k [a]) m m' := by
  cases a with
  | connect j =>
    simp only [saidBy, List.append_nil]
    by_cases hj : j = k
    · subst hj
      rcases R.both with ⟨h1, h2, rfl, rfl⟩ | ⟨u, u', h1, h2⟩
      · simp only [ChatNet.act, h1, h2, Option.some.injEq] at hm ⊢
        subst hm
        refine ⟨_, rfl, SameBut.setOwn R.srv R.others ⟨rfl, .same _ .nil, [], [], rfl, rfl, rfl, ?_⟩⟩
        rw [R.srv]
        exact .waiting _ rfl rfl
      · simp [ChatNet.act, h1] at hm
    · simp only [ChatNet.act, ← R.others j hj, ← R.srv] at hm ⊢
      cases hu : n.users j with
      | some u => simp [hu] at hm
      | none =>
        simp only [hu, Option.some.injEq] at hm ⊢
        subst hm
        exact ⟨_, rfl, R.setOther hj _⟩
  | forward j =>
    simp only [saidBy, List.append_nil]
    by_cases hj : j = k
    · subst hj
      rcases R.both with ⟨h1, h2, rfl, rfl⟩ | ⟨u, u', h1, h2⟩
      · simp [ChatNet.act, h1] at hm
      · have ho := R.own
        rw [h1, h2] at ho
        obtain ⟨e1, e2, done, done', e3, e4, e5, e6⟩ := ho
        obtain ⟨inbox, loop, box, sent⟩ := u
        obtain ⟨inbox', loop', box', sent'⟩ := u'
        simp only at e1 e2 e3 e4 e6
        subst e1
        cases inbox with
        | nil => simp [ChatNet.act, h1] at hm
        | cons i rest =>
          simp only [ChatNet.act, h1, h2, Option.some.injEq] at hm ⊢
          subst hm
          refine ⟨_, rfl, SameBut.setOwn R.srv R.others ⟨rfl, e2.append (.same _ .nil), done, done', ?_, ?_, e5, e6⟩⟩
          · simp [e3, wsOf_append, wsOf]
          · simp [e4, wsOf_append, wsOf]
    · simp only [ChatNet.act, ← R.others j hj] at hm ⊢
      cases hu : n.users j with
      | none => simp [hu] at hm
      | some u =>
        obtain ⟨inbox, loop, box, sent⟩ := u
        cases inbox with
        | nil => simp [hu] at hm
        | cons i rest =>
          simp only [hu, Option.some.injEq] at hm ⊢
          subst hm
          exact ⟨_, rfl, R.setOther hj _⟩
  | read j w =>
    by_cases hj : j = k
    · subst hj
      simp only [saidBy, if_true]
      exact own_read R (.same _ .nil) hm
    · simp only [saidBy, if_neg hj, List.append_nil]
      simp only [ChatNet.act, ← R.others j hj] at hm ⊢
      cases hu : n.users j with
      | none => simp [hu] at hm
      | some u =>
        simp only [hu, Option.some.injEq] at hm ⊢
        subst hm
        exact ⟨_, rfl, R.setOther hj _⟩
  | receive j =>
    simp only [saidBy, List.append_nil]
    by_cases hj : j = k
    · subst hj
      rcases R.both with ⟨h1, h2, rfl, rfl⟩ | ⟨u, u', h1, h2⟩
      · simp [ChatNet.act, h1] at hm
      · have ho := R.own
        rw [h1, h2] at ho
        have hb := ho.2.1
        cases e : u.loopBox with
        | nil => simp [ChatNet.act, h1, e] at hm
        | cons q rest =>
          rw [e] at hb
          obtain ⟨q', rest', e'⟩ : ∃ q' rest', u'.loopBox = q' :: rest' := by
            generalize u'.loopBox = bb at hb
            cases hb <;> exact ⟨_, _, rfl⟩
          simp only [ChatNet.act, h1, h2, e, e', Option.some.injEq] at hm ⊢
          subst hm
          exact ⟨_, rfl, own_receive h h' R hpub h1 h2 e e'⟩
    · simp only [ChatNet.act, ← R.others j hj] at hm ⊢
      cases hu : n.users j with
      | none => simp [hu] at hm
      | some u =>
        cases e : u.loopBox with
        | nil => simp [hu, e] at hm
        | cons q rest =>
          simp only [hu, e, Option.some.injEq] at hm ⊢
          subst hm
          exact ⟨_, rfl, other_receive R hj _ _ _⟩
  | die j =>
    simp only [saidBy, List.append_nil]
    by_cases hj : j = k
    · subst hj
      rcases R.both with ⟨h1, h2, rfl, rfl⟩ | ⟨u, u', h1, h2⟩
      · simp [ChatNet.act, h1] at hm
      · simp only [ChatNet.act, h1, h2, Option.some.injEq] at hm ⊢
        subst hm
        have ho := R.own
        rw [h1, h2] at ho
        obtain ⟨e1, e2, done, done', e3, e4, e5, e6⟩ := ho
        exact ⟨_, rfl, SameBut.setOwn R.srv R.others ⟨e1, e2, done, done', e3, e4, e5, .stopped⟩⟩
    · simp only [ChatNet.act, ← R.others j hj] at hm ⊢
      cases hu : n.users j with
      | none => simp [hu] at hm
      | some u =>
        simp only [hu, Option.some.injEq] at hm ⊢
        subst hm
        exact ⟨_, rfl, R.setOther hj _⟩
  | shuffle users =>
    simp only [saidBy, List.append_nil, ChatNet.act, ← R.srv] at hm ⊢
    split at hm
    · rename_i hp
      rw [if_pos hp]
      simp only [Option.some.injEq] at hm ⊢
      subst hm
      exact ⟨_, rfl, ⟨rfl, R.others, R.own⟩⟩
    · cases hm

/-! ## Whole courses of events -/

def goOn (parse : String → Option ClientMessage) (fs : Nat → Bool) (n : Option ChatNet) (acts : List ChatAct) : Option ChatNet :=
  acts.foldl (fun n a => n.bind fun n => n.act parse fs a) n

theorem goOn_none (acts : List ChatAct) : goOn parse fs none acts = none := by
  induction acts with
  | nil => rfl
  | cons a acts ih => exact ih

theorem courses {acts acts' : List ChatAct} (hr : Retyped k acts acts') : ∀ {n n' m : ChatNet} {said said' : List (Except NextMessageError Message)}, NetInv fs n → NetInv fs n' →
    SameBut parse k said said' n n' →
    (∀ i, (script parse ((said ++ saidBy k acts).take i)).published = (script parse ((said' ++ saidBy k acts').take i)).published) →
    goOn parse fs (some n) acts = some m →
    ∃ m', goOn parse fs (some n') acts' = some m' ∧ SameBut parse k (said ++ saidBy k acts) (said' ++ saidBy k acts') m m' := by
  induction hr with
  | nil =>
    intro n n' m said said' h h' R hpub hm
    cases hm
    exact ⟨n', rfl, by simpa [saidBy] using R⟩
  | @same a acts acts' hr ih =>
    intro n n' m said said' h h' R hpub hm
    have hc : ∀ x : List ChatAct, saidBy k (a :: x) = saidBy k [a] ++ saidBy k x := by
      intro x
      cases a <;> simp [saidBy]
      split <;> simp
    have hp : ∀ i, (script parse (said.take i)).published = (script parse (said'.take i)).published := by
      intro i
      have := hpub (min i said.length)
      rw [List.take_append_of_le_length (Nat.min_le_right ..), List.take_append_of_le_length (by rw [← R.lengths]; exact Nat.min_le_right ..)] at this
      rw [List.take_eq_take_min, List.take_eq_take_min (l := said'), ← R.lengths]
      exact this
    cases hn : n.act parse fs a with
    | none =>
      have : goOn parse fs (some n) (a :: acts) = goOn parse fs (n.act parse fs a) acts := rfl
      rw [this, hn, goOn_none] at hm
      cases hm
    | some n1 =>
      obtain ⟨n1', e1, R1⟩ := same_act h h' R hp a hn
      have i1 := step_inv h ((chatStep_iff _ _).2 ⟨a, hn⟩)
      have i1' := step_inv h' ((chatStep_iff _ _).2 ⟨a, e1⟩)
      have t1 : goOn parse fs (some n) (a :: acts) = goOn parse fs (n.act parse fs a) acts := rfl
      have t2 : goOn parse fs (some n') (a :: acts') = goOn parse fs (n'.act parse fs a) acts' := rfl
      rw [t1, hn] at hm
      rw [t2, e1, hc, hc acts']
      obtain ⟨m', e2, R2⟩ := ih i1 i1' R1 (by intro i; have := hpub i; rw [hc, hc acts'] at this; simpa using this) hm
      exact ⟨m', e2, by simpa using R2⟩
  | @text t t' acts acts' hr ih =>
    intro n n' m said said' h h' R hpub hm
    have t1 : goOn parse fs (some n) (.read k (.ok (.text t)) :: acts) = goOn parse fs (n.act parse fs (.read k (.ok (.text t)))) acts := rfl
    have t2 : goOn parse fs (some n') (.read k (.ok (.text t')) :: acts') = goOn parse fs (n'.act parse fs (.read k (.ok (.text t')))) acts' := rfl
    cases hn : n.act parse fs (.read k (.ok (.text t))) with
    | none =>
      rw [t1, hn, goOn_none] at hm
      cases hm
    | some n1 =>
      obtain ⟨n1', e1, R1⟩ := own_read R (.text t t' .nil) hn
      have i1 := step_inv h ((chatStep_iff _ _).2 ⟨_, hn⟩)
      have i1' := step_inv h' ((chatStep_iff _ _).2 ⟨_, e1⟩)
      rw [t1, hn] at hm
      rw [t2, e1]
      simp only [saidBy, if_true] at hpub ⊢
      obtain ⟨m', e2, R2⟩ := ih i1 i1' R1 (by intro i; simpa using hpub i) hm
      exact ⟨m', e2, by simpa using R2⟩

/-- **C144.** Take any course of events of the chat, and another one in which the same things happen in the same order except that user `k`'s browser sends other
texts.  If what user `k` has made public - the name it has entered under and the texts it has sent - is the same after every message from its browser, the second
course of events is possible too, and everything except user `k`'s own page is the same: the coordinator's state, and every other user's processes, mailboxes and
all operations ever sent to its browser. -/
theorem C144_drafts_private (parse : String → Option ClientMessage) (firstSend : Nat → Bool) (k : Nat) (acts acts' : List ChatAct) (n : ChatNet)
    (hn : course parse firstSend acts = some n) (hr : Retyped k acts acts')
    (hpub : ∀ i, (script parse ((saidBy k acts).take i)).published = (script parse ((saidBy k acts').take i)).published) :
    ∃ n', course parse firstSend acts' = some n' ∧ n'.srv = n.srv ∧ (∀ j, j ≠ k → n'.users j = n.users j) ∧
      ∀ u, n.users k = some u → ∃ u', n'.users k = some u' ∧ u'.inbox = u.inbox := by
  obtain ⟨n', e, R⟩ := courses (parse := parse) (fs := firstSend) hr (n := .init) (n' := .init) (said := []) (said' := [])
    ⟨ServerInv.init, by intro k u hu; cases hu⟩ ⟨ServerInv.init, by intro k u hu; cases hu⟩ ⟨rfl, fun _ _ => rfl, ⟨rfl, rfl⟩⟩ (by simpa using hpub) hn
  refine ⟨n', e, R.srv.symm, fun j hj => (R.others j hj).symm, ?_⟩
  intro u hu
  have ho := R.own
  rcases R.both with ⟨h1, _⟩ | ⟨v, v', h1, h2⟩
  · rw [h1] at hu; cases hu
  · rw [h1] at hu
    cases hu
    rw [h1, h2] at ho
    exact ⟨v', h2, ho.1.symm⟩


/-! ## A concrete case -/

/-- How a browser of the case reports its events. -/
def caseParse (s : String) : Option ClientMessage :=
  if s = "enter" then some ⟨"initialize_username", none⟩
  else if s = "send" then some ⟨"submit_message", none⟩
  else some ⟨"update_message_contents", some s⟩

/-- Two users; user 0 enters, types `draft`, types `final` instead and sends it; user 1 enters before and receives the message. -/
def caseActs (draft final : String) : List ChatAct :=
  [.connect 0, .connect 1, .receive 0, .receive 1, .read 1 (.ok (.text "enter")), .receive 1, .read 0 (.ok (.text "enter")), .receive 0,
    .read 0 (.ok (.text draft)), .receive 0, .read 0 (.ok (.text final)), .receive 0, .read 0 (.ok (.text "send")), .receive 0, .forward 1, .receive 1]

/-- What user 1 has been shown of the conversation. -/
def seenBy1 (n : Option ChatNet) : Option (List String) :=
  match n with
  | some n => match n.users 1 with
    | some ⟨_, .running ⟨_, some (.initialized _ _ ms _, _), _, _⟩, _, _⟩ => some (ms.map (·.contents))
    | _ => none
  | none => none

/-- The hypotheses of C144 are met by two courses of events with different drafts, and user 1 does see the text that is sent; with another text sent, it sees
another text, so what is sent is not kept from it. -/
theorem C144_case : (course caseParse (fun _ => true) (caseActs "my secret" "hello")).isSome = true ∧ Retyped 0 (caseActs "my secret" "hello") (caseActs "nothing" "hello") ∧
    (∀ i, (script caseParse ((saidBy 0 (caseActs "my secret" "hello")).take i)).published =
      (script caseParse ((saidBy 0 (caseActs "nothing" "hello")).take i)).published) ∧
    seenBy1 (course caseParse (fun _ => true) (caseActs "my secret" "hello")) = some ["hello"] ∧
    seenBy1 (course caseParse (fun _ => true) (caseActs "my secret" "my secret")) = some ["my secret"] := by
  refine ⟨by decide +kernel, ?_, ?_, by decide +kernel, by decide +kernel⟩
  · unfold caseActs
    iterate 8 apply Retyped.same
    apply Retyped.text
    iterate 7 apply Retyped.same
    exact .nil
  · intro i
    have e : ∀ d, saidBy 0 (caseActs d "hello") = [.ok (.text "enter"), .ok (.text d), .ok (.text "hello"), .ok (.text "send")] := fun _ => rfl
    rw [e, e]
    rcases i with _ | _ | _ | _ | i
    · decide +kernel
    · decide +kernel
    · decide +kernel
    · decide +kernel
    · simp only [List.take_succ_cons, List.take_nil]
      decide +kernel

end Puck.Chat
