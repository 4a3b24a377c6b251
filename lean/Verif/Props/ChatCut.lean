import Verif.Props.ChatView
/-!
# What the chat's users see, whatever they type (C85)
-/
namespace Puck.Chat

/-! ## Specification -/

/-- The text up to its first `+`. -/
def upToPlus (s : String) : String := String.ofList (s.toList.takeWhile (· ≠ '+'))

/-- The component with only that in its input field. -/
def Live.fieldCut : Live → Live
  | .uninitialized u => .uninitialized (upToPlus u)
  | .initialized u id ms c => .initialized u id ms (upToPlus c)

/-! ## Proofs -/

theorem upToPlus_plain (s : String) : '+' ∉ (upToPlus s).toList := by
  intro h
  rw [upToPlus, String.toList_ofList] at h
  have key : ∀ l : List Char, '+' ∉ l.takeWhile (· ≠ '+') := by
    intro l
    induction l with
    | nil => simp
    | cons c cs ih =>
      by_cases e : c = '+'
      · subst e; simp
      · rw [List.takeWhile_cons_of_pos (by simpa using e)]
        intro h
        rcases List.mem_cons.1 h with h | h
        · exact e h.symm
        · exact ih h
  exact key _ h

theorem takeWhile_split (l : List Char) (h : '+' ∈ l) : ∃ r, l = l.takeWhile (· ≠ '+') ++ '+' :: r := by
  induction l with
  | nil => simp at h
  | cons c cs ih =>
    by_cases e : c = '+'
    · subst e; exact ⟨cs, by simp⟩
    · have : '+' ∈ cs := by
        rcases List.mem_cons.1 h with h | h
        · exact absurd h.symm e
        · exact h
      obtain ⟨r, hr⟩ := ih this
      refine ⟨r, ?_⟩
      rw [List.takeWhile_cons_of_pos (by simpa using e), List.cons_append, ← hr]

theorem upToPlus_of_plain {s : String} (h : '+' ∉ s.toList) : upToPlus s = s := by
  apply String.toList_injective
  rw [upToPlus, String.toList_ofList]
  generalize s.toList = l at h
  induction l with
  | nil => rfl
  | cons c cs ih =>
    rw [List.takeWhile_cons_of_pos (by simp only [ne_eq, decide_eq_true_eq]; rintro rfl; exact h (by simp)),
      ih fun hx => h (by simp [hx])]

theorem upToPlus_eq_iff (s : String) : upToPlus s = s ↔ '+' ∉ s.toList :=
  ⟨fun h => h ▸ upToPlus_plain s, upToPlus_of_plain⟩

/-- The browser sets an attribute to the value up to its first `+`. -/
theorem setAttr_upToPlus (B : Browser) (id : Nat) (key v : String) (hk : '+' ∉ key.toList) (body : List Dom) :
    clientOp B (Op.serialize ⟨id, .setAttribute key v⟩) body = clientOp B (Op.serialize ⟨id, .setAttribute key (upToPlus v)⟩) body := by
  by_cases h : '+' ∈ v.toList
  · obtain ⟨r, hr⟩ := takeWhile_split _ h
    have hv : v = upToPlus v ++ "+" ++ String.ofList r := by
      apply String.toList_injective
      rw [String.toList_append, String.toList_append, upToPlus, String.toList_ofList, String.toList_ofList]
      simpa using hr
    have := setAttr_cut B id key (upToPlus v) (String.ofList r) hk (upToPlus_plain v) body
    rw [← hv] at this
    exact this
  · rw [upToPlus_of_plain h]

theorem fieldCut_plain (l : Live) : l.fieldCut.PlainField := by
  cases l <;> exact upToPlus_plain _

/-- The ways a chat component changes, one update at a time. -/
inductive Steps : Live → Live → Prop
  | stay (l) : Steps l l
  | typeName (u v) : Steps (.uninitialized u) (.uninitialized v)
  | register (u v id) : Steps (.uninitialized u) (.initialized v id [] "")
  | typeText (u id ms c c') : Steps (.initialized u id ms c) (.initialized u id ms c')
  | «show» (u id ms ms' c) : Steps (.initialized u id ms c) (.initialized u id (ms ++ ms') c)

theorem update_steps {parse : String → Option ClientMessage} {l l' : Live} {m : Mail LiveviewInput Nat} {i : LiveviewInput} {k : Nat}
    {srv srv' : ChatServer} {ds : List Delivery} (hm : (∃ c, m = .input (.receiveMessage c)) ∨ ∃ w, m = .ws w) (hi : Asks parse l.listeners m i)
    (hup : l.update i k srv = some (l', srv', ds)) : Steps l l' := by
  rcases asks_cases hm hi with ⟨c, rfl, rfl⟩ | ⟨⟨w, rfl⟩, ⟨u, rfl, ⟨v, rfl⟩ | rfl⟩ | ⟨u, id, ms, c, rfl, ⟨v, rfl⟩ | rfl⟩⟩
  · cases l with
    | uninitialized u =>
      simp only [Live.update, Live.updateLocal, Option.map_some, Option.some.injEq, Prod.mk.injEq] at hup
      rw [← hup.1]
      exact .stay _
    | initialized u id ms cc =>
      simp only [Live.update, Live.updateLocal, Option.map_some, Option.some.injEq, Prod.mk.injEq] at hup
      rw [← hup.1]
      exact .show u id ms [c] cc
  · simp only [Live.update, Live.updateLocal, Option.map_some, Option.some.injEq, Prod.mk.injEq] at hup
    rw [← hup.1]
    exact .typeName u v
  · simp only [Live.update, ChatServer.handle, Option.some.injEq, Prod.mk.injEq] at hup
    rw [← hup.1]
    exact .register u _ _
  · simp only [Live.update, Live.updateLocal, Option.map_some, Option.some.injEq, Prod.mk.injEq] at hup
    rw [← hup.1]
    exact .typeText u id ms c v
  · cases hg : getUser id srv.users with
    | none => simp [Live.update, ChatServer.handle, hg] at hup
    | some w =>
      simp only [Live.update, ChatServer.handle, hg, Live.updateLocal, Option.map_some, Option.some.injEq, Prod.mk.injEq] at hup
      rw [← hup.1]
      exact .show u id ms [_] c

/-- The messages of an update take a page that shows one view, the fields cut, to one that shows the other. -/
def CutUpdate (B : Browser) (l l' : Live) : Prop :=
  ∃ ops, l.render.1.diff (some l'.render.1) = some ops ∧ ∀ page d, PageOk page → l.fieldCut.render.1.ShownAs d →
    ∃ d', clientMessage B (serializeOps ops) (page ++ [d]) = page ++ [d'] ∧ l'.fieldCut.render.1.ShownAs d'

theorem cutUpdate_of_eq {B : Browser} (hB : KnowsChat B) {l l' : Live} (h : Moves l.fieldCut l'.fieldCut)
    (he : l.render.1.diff (some l'.render.1) = l.fieldCut.render.1.diff (some l'.fieldCut.render.1)) : CutUpdate B l l' := by
  obtain ⟨ops, h1, h2⟩ := moves_shown hB h (fieldCut_plain l) (fieldCut_plain l')
  exact ⟨ops, he.trans h1, h2⟩

theorem msgs_diff_cut (ms ms' : List ChatMessage) (g : Nat) : diffZip (msgEls g ms) (msgEls g (ms ++ ms')) = some [] := by
  induction ms generalizing g with
  | nil => cases ms' <;> simp [msgEls, diffZip]
  | cons m ms ih =>
    rw [List.cons_append, msgEls, msgEls, diffZip]
    have h2 : Headers.same [] [] = true := by decide
    have h1 : diff (msgEl g m) (msgEl g m) = some [] := by
      simp [msgEl, diff, diffZip, allKeyed, Element.diffName, Element.diffAttributes, Element.diffText, Element.diffListeners, Element.diffId, h2]
      simp [diffKeyed, unpaired, insertionOps, deletionOps]
    simp only [h1, ih, List.append_nil]

theorem msgEls_length_cut (ms : List ChatMessage) (g : Nat) : (msgEls g ms).length = ms.length := by
  induction ms generalizing g with
  | nil => rfl
  | cons m ms ih => simp [msgEls, ih]

theorem same_self (c : String) : Headers.same [("value", c), ("type", "text"), ("placeholder", "send a new message...")]
    [("value", c), ("type", "text"), ("placeholder", "send a new message...")] = true := by
  simp [Headers.same, Headers.get]

theorem name_diff_cut {u v : String} (h : u ≠ v) :
    (Live.render (.uninitialized u)).1.diff (some (Live.render (.uninitialized v)).1) = some [⟨2, .setAttribute "value" v⟩] := by
  rw [render_uninitialized, render_uninitialized]
  have h1 : Headers.same [("type", "text"), ("placeholder", "username..."), ("value", u)] [("type", "text"), ("placeholder", "username..."), ("value", v)] = false := by
    simp [Headers.same, Headers.get, h.symm]
  have h2 : Headers.same [] [] = true := by decide
  have h3 : Headers.same [("type", "submit")] [("type", "submit")] = true := by decide
  simp [Element.diff, diff, diffZip, diffKeyed, allKeyed, unpaired, insertionOps, deletionOps, Element.diffName, Element.diffAttributes,
    Element.diffText, Element.diffListeners, Element.diffId, h1, h2, h3, Headers.get, h]

theorem text_diff_cut (u : String) (id : Nat) (ms : List ChatMessage) {c c' : String} (h : c ≠ c') :
    (Live.render (.initialized u id ms c)).1.diff (some (Live.render (.initialized u id ms c')).1) = some [⟨4, .setAttribute "value" c'⟩] := by
  rw [render_initialized, render_initialized]
  have h1 : Headers.same [("value", c), ("type", "text"), ("placeholder", "send a new message...")]
      [("value", c'), ("type", "text"), ("placeholder", "send a new message...")] = false := by
    simp [Headers.same, Headers.get, h.symm]
  have h2 : Headers.same [] [] = true := by decide
  have h3 : Headers.same [("type", "submit"), ("value", "send message")] [("type", "submit"), ("value", "send message")] = true := by decide
  have h4 := msgs_diff_cut ms [] 7
  rw [List.append_nil] at h4
  simp [Element.diff, diff, diffZip, diffKeyed, allKeyed, unpaired, insertionOps, deletionOps, Element.diffName, Element.diffAttributes,
    Element.diffText, Element.diffListeners, Element.diffId, h1, h2, h3, h4, Headers.get, h]

theorem show_diff_cut (u : String) (id : Nat) (ms ms' : List ChatMessage) :
    ∃ ops, ∀ c, (Live.render (.initialized u id ms c)).1.diff (some (Live.render (.initialized u id (ms ++ ms') c)).1) = some ops := by
  have h2 : Headers.same [] [] = true := by decide
  have h3 : Headers.same [("type", "submit"), ("value", "send message")] [("type", "submit"), ("value", "send message")] = true := by decide
  cases ms' with
  | nil =>
    refine ⟨[], fun c => ?_⟩
    have h4 := msgs_diff_cut ms [] 7
    rw [List.append_nil] at h4
    rw [List.append_nil, render_initialized]
    simp [Element.diff, diff, diffZip, diffKeyed, allKeyed, unpaired, insertionOps, deletionOps, Element.diffName, Element.diffAttributes,
      Element.diffText, Element.diffListeners, Element.diffId, same_self, h2, h3, h4]
  | cons m ms' =>
    refine ⟨createAll (some 0) ((msgEls 7 (ms ++ m :: ms')).drop ms.length), fun c => ?_⟩
    rw [render_initialized, render_initialized]
    simp [Element.diff, diff, diffZip, diffKeyed, allKeyed, unpaired, insertionOps, deletionOps, Element.diffName, Element.diffAttributes,
      Element.diffText, Element.diffListeners, Element.diffId, same_self, h2, h3, msgs_diff_cut, msgEls_length_cut,
      show ¬ ms.length + (ms'.length + 1) < ms.length by omega]

theorem register_diff_same (v : String) (id : Nat) (u u' : String) :
    (Live.render (.uninitialized u)).1.diff (some (Live.render (.initialized v id [] "")).1) =
      (Live.render (.uninitialized u')).1.diff (some (Live.render (.initialized v id [] "")).1) := by
  rw [render_uninitialized, render_uninitialized, render_initialized]
  have h1 : ∀ u, Headers.same [("type", "text"), ("placeholder", "username..."), ("value", u)] [] = false := by
    intro u
    simp [Headers.same]
  have h2 : Headers.same [] [] = true := by decide
  simp [Element.diff, diff, diffZip, diffKeyed, allKeyed, unpaired, insertionOps, deletionOps, Element.diffName, Element.diffAttributes,
    Element.diffText, Element.diffListeners, Element.diffId, Headers.get, msgEls, h1, h2]

theorem stay_diff_cut (l : Live) : l.render.1.diff (some l.render.1) = some [] := by
  have h2 : Headers.same [] [] = true := by decide
  cases l with
  | uninitialized u =>
    have h1 : Headers.same [("type", "text"), ("placeholder", "username..."), ("value", u)] [("type", "text"), ("placeholder", "username..."), ("value", u)] = true := by
      simp [Headers.same, Headers.get]
    have h3 : Headers.same [("type", "submit")] [("type", "submit")] = true := by decide
    rw [render_uninitialized]
    simp [Element.diff, diff, diffZip, diffKeyed, allKeyed, unpaired, insertionOps, deletionOps, Element.diffName, Element.diffAttributes,
      Element.diffText, Element.diffListeners, Element.diffId, h1, h2, h3]
  | initialized u id ms c =>
    have h3 : Headers.same [("type", "submit"), ("value", "send message")] [("type", "submit"), ("value", "send message")] = true := by decide
    have h4 := msgs_diff_cut ms [] 7
    rw [List.append_nil] at h4
    rw [render_initialized]
    simp [Element.diff, diff, diffZip, diffKeyed, allKeyed, unpaired, insertionOps, deletionOps, Element.diffName, Element.diffAttributes,
      Element.diffText, Element.diffListeners, Element.diffId, same_self, h2, h3, h4]

theorem typed_cut {B : Browser} (hB : KnowsChat B) {l l' : Live} {id : Nat} {v : String}
    (hd : l.render.1.diff (some l'.render.1) = some [⟨id, .setAttribute "value" v⟩])
    (ha : applyOp ⟨id, .setAttribute "value" (upToPlus v)⟩ l.fieldCut.render.1 = some l'.fieldCut.render.1) : CutUpdate B l l' := by
  refine ⟨_, hd, fun page d hpg h3 => ?_⟩
  have b4 : NoCapitals "value" ∧ '+' ∉ "value".toList := by decide +kernel
  have hok : okOp (clientRules B) ⟨id, .setAttribute "value" (upToPlus v)⟩ l.fieldCut.render.1 := by
    have b3 := hB.2 "value" (by simp)
    simp [okOp, clientRules, b3, b4, upToPlus_plain]
  obtain ⟨d', h4, h5⟩ := sim_op hpg h3 hok ha
  refine ⟨d', ?_, h5⟩
  simp only [serializeOps, List.map_cons, List.map_nil, clientMessage]
  rw [setAttr_upToPlus B id "value" v b4.2, h4]

theorem step_shown {B : Browser} (hB : KnowsChat B) {l l' : Live} (h : Steps l l') : CutUpdate B l l' := by
  have stay : ∀ l, CutUpdate B l l := by
    intro l
    refine cutUpdate_of_eq hB (.stay _) ?_
    rw [stay_diff_cut l, stay_diff_cut l.fieldCut]
  cases h with
  | stay l => exact stay l
  | typeName u v =>
    by_cases e : u = v
    · subst e; exact stay _
    · refine typed_cut hB (name_diff_cut e) ?_
      simp only [Live.fieldCut]
      rw [render_uninitialized, render_uninitialized]
      simp [applyOp, findAndMutate, mutateFirst, mutateFirstIn, Headers.insert]
  | register u v id =>
    have e : (Live.initialized v id [] "").fieldCut = .initialized v id [] "" := by simp [Live.fieldCut, upToPlus]
    refine cutUpdate_of_eq hB ?_ ?_
    · rw [e]; exact .register _ _ _
    · rw [e]
      exact register_diff_same v id _ _
  | typeText u id ms c c' =>
    by_cases e : c = c'
    · subst e; exact stay _
    · refine typed_cut hB (text_diff_cut u id ms e) ?_
      simp only [Live.fieldCut]
      rw [render_initialized, render_initialized]
      simp [applyOp, findAndMutate, mutateFirst, mutateFirstIn, Headers.insert]
  | «show» u id ms ms' c =>
    refine cutUpdate_of_eq hB (.chat _ _ _ _ _ _) ?_
    obtain ⟨ops, ho⟩ := show_diff_cut u id ms ms'
    simp only [Live.fieldCut]
    rw [ho, ho]

/-- What holds of a connection. -/
def Kept (B : Browser) (u : UserProcs) : Prop :=
  (∀ d, u.loop = .waiting d → u.sent = []) ∧
  ∀ l, u.live = some l → ∀ page, PageOk page → ∃ d, clientMessages B u.sent page = page ++ [d] ∧ l.fieldCut.render.1.ShownAs d

theorem Kept.same {B : Browser} {u u' : UserProcs} (h : Kept B u) (h1 : u'.loop = u.loop) (h2 : u'.sent = u.sent) : Kept B u' := by
  have : u'.live = u.live := by unfold UserProcs.live; rw [h1]
  unfold Kept
  rw [this, h1, h2]
  exact h

theorem Kept.over {B : Browser} {u : UserProcs} (h1 : u.loop = .stopped ∨ u.loop = .crashed) : Kept B u := by
  have : u.live = none := by unfold UserProcs.live; rcases h1 with h | h <;> rw [h]
  refine ⟨?_, ?_⟩
  · intro d e; rcases h1 with h | h <;> rw [h] at e <;> cases e
  · intro l e; rw [this] at e; cases e

theorem kept_step {B : Browser} (hB : KnowsChat B) {parse : String → Option ClientMessage} {fs : Nat → Bool} {k : Nat} {n n' : ChatNet}
    (hn : NetInv fs n) (h : ∀ u, n.users k = some u → Kept B u) (hstep : ChatStep parse fs n n') :
    ∀ u, n'.users k = some u → Kept B u := by
  intro v hv
  cases hstep with
  | connect j hj =>
    simp only [ChatNet.set] at hv
    split at hv
    · cases hv
      refine ⟨fun _ _ => rfl, ?_⟩
      intro l e; cases e
    · exact h v hv
  | forward j u i rest hu hi =>
    simp only [ChatNet.set] at hv
    split at hv
    · rename_i e; subst e
      cases hv
      exact (h u hu).same rfl rfl
    · exact h v hv
  | read j u w hu =>
    by_cases e : k = j
    · subst e
      simp only [ChatNet.set, if_true] at hv
      cases hv
      exact (h u hu).same rfl rfl
    · simp only [ChatNet.set, if_neg e] at hv
      exact h v hv
  | die j u hu =>
    simp only [ChatNet.set] at hv
    split at hv
    · rename_i e; subst e
      cases hv
      exact .over (Or.inl rfl)
    · exact h v hv
  | shuffle users hp => exact h v hv
  | receive j u m rest hu hm =>
    unfold ChatNet.receive at hv
    rw [(deliverAll_users _ _ k).2] at hv
    by_cases e : k = j
    · subst e
      simp only [ChatNet.set, if_true, Option.map_some, Option.some.injEq] at hv
      have hsk := h u hu
      have hp := hn.procs k u hu
      obtain ⟨inbox, loop, loopBox, sent⟩ := u
      simp only at hm hv
      subst hm
      obtain ⟨-, h2⟩ := hp
      simp only at h2
      cases loop with
      | unreachable => exact absurd h2 id
      | stopped =>
        have hs : loopStep chatComponent parse (fs k) (withServer n.srv .stopped) m = (.stopped, []) := by cases m <;> rfl
        rw [hs] at hv
        subst hv
        exact .over (Or.inl rfl)
      | crashed =>
        have hs : loopStep chatComponent parse (fs k) (withServer n.srv .crashed) m = (.crashed, []) := by cases m <;> rfl
        rw [hs] at hv
        subst hv
        exact .over (Or.inr rfl)
      | waiting d =>
        obtain ⟨r, h3, h4⟩ := h2
        simp only [List.cons.injEq] at h3
        obtain ⟨rfl, rfl⟩ := h3
        have hsent : sent = [] := hsk.1 d rfl
        subst hsent
        have hw0 : Live.PlainField (.uninitialized "") := by simp [Live.PlainField]
        obtain ⟨g, hg⟩ := view_element (.uninitialized "")
        have paint : ∀ page, PageOk page → ∃ ops d, (Live.render (.uninitialized "")).1.diff none = some ops ∧
            clientMessage B (serializeOps ops) page = page ++ [d] ∧ (Live.render (.uninitialized "")).1.ShownAs d :=
          fun page hpg => C62_first_paint_partial B page hpg _ (nodup_of_increasing (dense_increasing hg).1) (render_attrs _) (render_obeys hB _ hw0)
        obtain ⟨ops, ho⟩ := (C59_unkeyed_partial _ _ (render_unkeyed (.uninitialized "")) (render_unkeyed (.uninitialized ""))).2
        simp only [withServer, loopStep, chatComponent, List.map_nil, List.nil_append] at hv
        rw [ho] at hv
        simp only at hv
        cases hb : fs k with
        | true =>
          rw [hb] at hv
          simp only [if_true, effects, List.filter_nil, List.map_nil, List.append_nil, sends] at hv
          subst hv
          refine ⟨?_, ?_⟩
          · intro d e; cases e
          · intro l e
            simp only [UserProcs.live, Option.map_some, Option.some.injEq] at e
            subst e
            refine fun page hpg => ?_
            obtain ⟨ops', d', h5, h6, h7⟩ := paint page hpg
            rw [ho] at h5
            cases h5
            exact ⟨d', h6, h7⟩
        | false =>
          rw [hb] at hv
          simp only [Bool.false_eq_true, if_false] at hv
          subst hv
          exact .over (Or.inr rfl)
      | running st =>
        obtain ⟨hbx, hproc, l, srv0, hcomp, hrender, hknown⟩ := h2
        obtain ⟨proc, comp, dom, ls⟩ := st
        simp only at hproc hcomp hrender
        subst hproc hcomp
        have hmm := hbx m (by simp)
        have hl : ls = l.listeners := (congrArg (·.2) hrender).symm
        have hshown := hsk.2 l rfl
        by_cases hask : ∃ i, Asks parse l.listeners m i
        · obtain ⟨i, hi⟩ := hask
          obtain ⟨l', srv', ds, hup, -, -, -, -⟩ := update_ok hn.srv hknown (asks_expected hmm hi)
          have hmv := update_steps hmm hi hup
          obtain ⟨ops, hstep⟩ := update_step (b := fs proc) (srv0 := srv0) hrender hi hup
          obtain ⟨ops', ho', hupd⟩ := step_shown hB hmv
          have hops : serializeOps ops = serializeOps ops' := by
            have hask' : Asks parse (LoopState.mk (S := Option (Live × ChatServer)) proc (some (l, n.srv)) dom ls).listeners m i := by
              simp only [hl]; exact hi
            have hd : dom = l.render.1 := by rw [hrender]
            have h9 := hstep
            simp only [withServer, Option.map_some] at h9
            rw [step_asks hask'] at h9
            simp only [updateAndDiff, chatComponent, hup, hd] at h9
            rw [ho'] at h9
            simp only [Prod.mk.injEq, List.append_cancel_left_eq, List.cons.injEq, Out.send.injEq, and_true] at h9
            exact h9.2.symm
          rw [hstep] at hv
          simp only at hv
          subst hv
          refine ⟨?_, ?_⟩
          · intro d e; cases e
          · intro l2 e
            simp only [UserProcs.live, Option.map_some, Option.some.injEq] at e
            subst e
            refine fun page hpg => ?_
            obtain ⟨d1, h5, h6⟩ := hshown page hpg
            obtain ⟨d2, h7, h8⟩ := hupd page d1 hpg h6
            refine ⟨d2, ?_, h8⟩
            simp only at h5
            simp only [sends_append, sends_effects, List.nil_append, sends, clientMessages_append, clientMessages, h5, hops, h7]
        · by_cases hclosed : m = .ws (.error .connectionClosed)
          · subst hclosed
            have hs : loopStep chatComponent parse (fs proc) (withServer n.srv (.running ⟨proc, some (l, srv0), dom, ls⟩))
                (.ws (.error .connectionClosed)) = (.stopped, [.dropped]) := rfl
            rw [hs] at hv
            subst hv
            exact .over (Or.inl rfl)
          · have hign : loopStep chatComponent parse (fs proc) (withServer n.srv (.running ⟨proc, some (l, srv0), dom, ls⟩)) m =
                (.running ⟨proc, some (l, n.srv), dom, ls⟩, []) := by
              simp only [withServer, Option.map_some]
              refine step_ignored ?_ hclosed ?_
              · intro i hi
                exact hask ⟨i, by simp only [hl] at hi; exact hi⟩
              · rintro q rfl
                rcases hmm with ⟨c, hc⟩ | ⟨w, hw⟩
                · cases hc
                · cases hw
            rw [hign] at hv
            simp only [sends, List.append_nil] at hv
            subst hv
            refine ⟨?_, ?_⟩
            · intro d e; cases e
            · intro l2 e
              simp only [UserProcs.live, Option.map_some, Option.some.injEq] at e
              subst e
              exact hshown
    · simp only [ChatNet.set, if_neg e] at hv
      cases hk : n.users k with
      | none => rw [hk] at hv; cases hv
      | some w =>
        rw [hk] at hv
        simp only [Option.map_some, Option.some.injEq] at hv
        subst hv
        exact (h w hk).same rfl rfl

theorem steps_kept {B : Browser} (hB : KnowsChat B) {parse : String → Option ClientMessage} {fs : Nat → Bool} {n : ChatNet}
    (h : ChatSteps parse fs .init n) (k : Nat) : ∀ u, n.users k = some u → Kept B u := by
  induction h with
  | refl => intro u hu; cases hu
  | snoc h s ih => exact kept_step hB (steps_inv h) ih s

theorem field_unique_chat {u : String} {id : Nat} {ms : List ChatMessage} {a b : String} {d : Dom} (ha : (Live.render (.initialized u id ms a)).1.ShownAs d)
    (hb : (Live.render (.initialized u id ms b)).1.ShownAs d) : a = b := by
  rw [render_initialized] at ha hb
  simp only [Element.ShownAs, ShownAsAll] at ha hb
  obtain ⟨_, _, e1, -, d1, _, rfl, ⟨_, _, rfl, -, d2, _, rfl, -, d5, _, rfl, ⟨_, _, rfl, -, d6, _, rfl, ⟨at1, _, rfl, ha, -⟩, -⟩, -⟩, -⟩ := ha
  obtain ⟨_, _, e2, -, d3, _, rfl, ⟨_, _, rfl, -, d4, _, rfl, -, d7, _, rfl, ⟨_, _, rfl, -, d8, _, rfl, ⟨at2, _, rfl, hb, -⟩, -⟩, -⟩, -⟩ := hb
  rw [e1] at e2
  simp [textNodes] at e2
  have h1 := ha "value"
  have h2 := hb "value"
  grind [Headers.get]

/-- **C85, exactly.** In every state the application reaches, whatever the users type and in whatever order things happen: when a user's browser has processed
all it was sent, the page has gained one subtree, and it shows the current view of the user's component except that the input field holds the text only up to
its first `+`.  So it shows the current view exactly if there is no `+` in the field. -/
theorem C85_exact_partial (B : Browser) (hB : KnowsChat B) (parse : String → Option ClientMessage) (firstSend : Nat → Bool) (k : Nat) (n : ChatNet)
    (h : ChatSteps parse firstSend .init n) (u : UserProcs) (hu : n.users k = some u) (l : Live) (hl : u.live = some l) (page : List Dom) (hp : PageOk page) :
    ∃ d, clientMessages B u.sent page = page ++ [d] ∧ l.fieldCut.render.1.ShownAs d ∧
      (l.render.1.ShownAs d ↔ match l with | .uninitialized name => '+' ∉ name.toList | .initialized _ _ _ text => '+' ∉ text.toList) := by
  obtain ⟨d, h1, h2⟩ := (steps_kept hB h k u hu).2 l hl page hp
  refine ⟨d, h1, h2, ?_⟩
  cases l with
  | uninitialized v =>
    refine ⟨fun h3 => (upToPlus_eq_iff v).1 (field_unique h2 h3), fun h3 => ?_⟩
    simp only [Live.fieldCut, upToPlus_of_plain h3] at h2
    exact h2
  | initialized w id ms c =>
    refine ⟨fun h3 => (upToPlus_eq_iff c).1 (field_unique_chat h2 h3), fun h3 => ?_⟩
    simp only [Live.fieldCut, upToPlus_of_plain h3] at h2
    exact h2

/-- non-vacuity: a user types `a+b`; the field shows `a` -/
example (parse : String → Option ClientMessage) (t : String) (ht : parse t = some ⟨"set_username", some "a+b"⟩) :
    ∃ n u d, ChatSteps parse (fun _ => true) .init n ∧ n.users 0 = some u ∧ u.live = some (.uninitialized "a+b") ∧
      clientMessages plainBrowser u.sent [] = [d] ∧ (Live.render (.uninitialized "a")).1.ShownAs d := by
  obtain ⟨n, u, ops, hs, -, hu, hl, -⟩ := typed_run parse (fun _ => true) rfl t "a+b" (by decide) ht
  obtain ⟨d, h1, h2, -⟩ := C85_exact_partial plainBrowser (by simp [KnowsChat, plainBrowser]) parse _ 0 n hs u hu _ hl [] (by simp [PageOk, domIds])
  have e : (Live.uninitialized "a+b").fieldCut = .uninitialized "a" := by
    simp only [Live.fieldCut, upToPlus]
    congr 1
  rw [e] at h2
  exact ⟨n, u, d, hs, hu, hl, h1, h2⟩

end Puck.Chat
