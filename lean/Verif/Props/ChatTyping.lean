import Verif.Lemmas.ChatEvents
import Verif.Lemmas.ChatFine
import Verif.Props.Live
/-!
# Chat: what is sent is what the fields show (C123)
-/
namespace Puck.Chat

open Puck

abbrev Page := TypingPage LiveviewInput (Option (Live × ChatServer)) Nat

abbrev Queue := List ((String × Option String) × List LiveDom)

/-- The events under way, when the field's text is `cur` at the component and `fin` in the page: each of them that is a click for the text happened when the field showed
what the component will then have. -/
def UpOk (setN clickN : String) : String → Queue → String → Prop
  | cur, [], fin => cur = fin
  | cur, (e, pg) :: rest, fin =>
    (e.1 = setN → ∃ v, e.2 = some v ∧ UpOk setN clickN v rest fin) ∧
    (e.1 ≠ setN → (e.1 = clickN → ShowsField pg setN cur) ∧ UpOk setN clickN cur rest fin)

theorem UpOk.snoc_set {setN clickN : String} {cur : String} {up : Queue} {fin : String} (h : UpOk setN clickN cur up fin) (v : String) (pg : List LiveDom) :
    UpOk setN clickN cur (up ++ [((setN, some v), pg)]) v := by
  induction up generalizing cur with
  | nil => simp only [List.nil_append, UpOk]; exact ⟨fun _ => ⟨v, rfl, rfl⟩, fun h => absurd rfl h⟩
  | cons e up ih =>
    obtain ⟨e, p⟩ := e
    simp only [UpOk, List.cons_append] at h ⊢
    refine ⟨fun he => ?_, fun he => ⟨(h.2 he).1, ih (h.2 he).2⟩⟩
    obtain ⟨w, h1, h2⟩ := h.1 he
    exact ⟨w, h1, ih h2⟩

theorem UpOk.snoc_other {setN clickN : String} {cur : String} {up : Queue} {fin : String} (h : UpOk setN clickN cur up fin) {e : String × Option String}
    {pg : List LiveDom} (he : e.1 ≠ setN) (hs : e.1 = clickN → ShowsField pg setN fin) : UpOk setN clickN cur (up ++ [(e, pg)]) fin := by
  induction up generalizing cur with
  | nil =>
    simp only [UpOk] at h
    subst h
    simp only [List.nil_append, UpOk]
    exact ⟨fun h => absurd h he, fun _ => ⟨hs, trivial⟩⟩
  | cons x up ih =>
    obtain ⟨x, p⟩ := x
    simp only [UpOk, List.cons_append] at h ⊢
    refine ⟨fun hx => ?_, fun hx => ⟨(h.2 hx).1, ih (h.2 hx).2⟩⟩
    obtain ⟨w, h1, h2⟩ := h.1 hx
    exact ⟨w, h1, ih h2⟩

theorem UpOk.unrelated {setN clickN : String} {up : Queue} (h : ∀ e ∈ up, e.1.1 ≠ setN ∧ e.1.1 ≠ clickN) (cur : String) : UpOk setN clickN cur up cur := by
  induction up with
  | nil => rfl
  | cons e up ih =>
    obtain ⟨e, p⟩ := e
    have := h (e, p) (by simp)
    simp only [UpOk]
    exact ⟨fun he => absurd he this.1, fun _ => ⟨fun hc => absurd hc this.2, ih fun x hx => h x (by simp [hx])⟩⟩

/-- changesets for the form for the name -/
def DownName (d : List WireOp) : Prop := d = [] ∨ ∃ v, d = serializeOps [⟨2, .setAttribute "value" v⟩]

/-- changesets that bring messages -/
def DownQuiet (d : List WireOp) : Prop := ∃ ops, (∀ op ∈ ops, QuietOp op) ∧ d = serializeOps ops

/-- changesets for the page of a registered user -/
def DownChat (d : List WireOp) : Prop := DownQuiet d ∨ ∃ v, d = serializeOps [⟨4, .setAttribute "value" v⟩]

/-- events of the form for the name -/
def OldEvent (e : (String × Option String) × List LiveDom) : Prop := e.1.1 = "set_username" ∨ e.1.1 = "initialize_username"

/-- a field and what is under way -/
structure Sync (setN clickN : String) (quiet : List WireOp → Prop) (cur : String) (attrs : Headers) (t : Option String) (down : List (List WireOp)) (up : Queue) : Prop where
  queue : UpOk setN clickN cur up (t.getD "")
  fresh : t = none → attrs.get "value" = some "" ∧ (∀ d ∈ down, quiet d) ∧ ∀ e ∈ up, e.1.1 ≠ setN

/-- where the two are -/
inductive Stage : Live → Page → Prop
  | blank {n : Page} {rest : List (List WireOp)} : QuietAll n.body → n.up = [] →
      n.down = serializeOps (createFromScratch none (Live.render (.uninitialized "")).1) :: rest → (∀ d ∈ rest, d = []) → Stage (.uninitialized "") n
  | name {u : String} {n : Page} {Pre : List LiveDom} {A : Nat → Headers} {T : Nat → Option String} : n.body = Pre ++ [nameForm A T] → QuietAll Pre → Numbered A →
      (∀ d ∈ n.down, DownName d) → (∀ e ∈ n.up, OldEvent e) → Sync "set_username" "initialize_username" (· = []) u (A 2) (T 2) n.down n.up →
      Stage (.uninitialized u) n
  | registering {name : String} {id : Nat} {ms : List ChatMessage} {n : Page} {Pre : List LiveDom} {A : Nat → Headers} {T : Nat → Option String}
      {before rest : List (List WireOp)} {name' : String} {id' : Nat} : n.body = Pre ++ [nameForm A T] → QuietAll Pre → Numbered A →
      n.down = before ++ serializeOps (registerOps name' id') :: rest → (∀ d ∈ before, DownName d) → (∀ d ∈ rest, DownQuiet d) → (∀ e ∈ n.up, OldEvent e) →
      Stage (.initialized name id ms "") n
  | chat {name : String} {id : Nat} {ms : List ChatMessage} {c : String} {n : Page} {Pre : List LiveDom} {A : Nat → Headers} {T : Nat → Option String}
      {K M : List LiveDom} : n.body = Pre ++ [chatForm A T K M] → QuietAll Pre → QuietAll K → QuietAll M → Numbered A → (∀ d ∈ n.down, DownChat d) →
      Sync "update_message_contents" "submit_message" DownQuiet c (A 4) (T 4) n.down n.up → Stage (.initialized name id ms c) n

/-- the invariant -/
def TypingInv (n : Page) : Prop :=
  n.loop.comp = none ∨ ∃ l srv, n.loop.comp = some (l, srv) ∧ n.loop.dom = l.render.1 ∧ n.loop.listeners = l.render.2 ∧ Stage l n

/-- an update -/
theorem update_sends {st st' : LoopState LiveviewInput (Option (Live × ChatServer)) Nat} {os : List (Out Delivery)} {i : LiveviewInput} {l : Live} {srv : ChatServer}
    (hc : st.comp = some (l, srv)) (hd : st.dom = l.render.1) (h : updateAndDiff (D := ChatServer) chatComponent st i = (.running st', os)) :
    (l.update i st.proc srv = none ∧ st'.comp = none) ∨
    ∃ l' srv' ds ops, l.update i st.proc srv = some (l', srv', ds) ∧ st'.comp = some (l', srv') ∧ st'.dom = l'.render.1 ∧ st'.listeners = l'.render.2 ∧
      l.render.1.diff (some l'.render.1) = some ops ∧ sends os = [serializeOps ops] := by
  simp only [updateAndDiff, chatComponent, hc, hd] at h
  cases hu : l.update i st.proc srv with
  | none =>
    left
    simp only [hu] at h
    refine ⟨rfl, ?_⟩
    split at h
    · cases h
    · simp only [Prod.mk.injEq, Phase.running.injEq] at h
      rw [← h.1]
  | some r =>
    obtain ⟨l', srv', ds⟩ := r
    right
    simp only [hu] at h
    split at h
    · cases h
    · rename_i ops hops
      simp only [Prod.mk.injEq, Phase.running.injEq] at h
      obtain ⟨rfl, rfl⟩ := h
      exact ⟨l', srv', ds, ops, rfl, rfl, rfl, rfl, hops, by rw [sends_effects]; rfl⟩

theorem Stage.congr {l : Live} {n n' : Page} (h : Stage l n) (h1 : n'.body = n.body) (h2 : n'.down = n.down) (h3 : n'.up = n.up) : Stage l n' := by
  cases h with
  | blank a b c d => exact .blank (by rw [h1]; exact a) (by rw [h3]; exact b) (by rw [h2]; exact c) d
  | name a b c d e f => exact .name (by rw [h1]; exact a) b c (by rw [h2]; exact d) (by rw [h3]; exact e) (by rw [h2, h3]; exact f)
  | registering a b c d e f g => exact .registering (by rw [h1]; exact a) b c (by rw [h2]; exact d) e f (by rw [h3]; exact g)
  | chat a b c d e f g => exact .chat (by rw [h1]; exact a) b c d e (by rw [h2]; exact f) (by rw [h2, h3]; exact g)

theorem forall_snoc {α : Type} {P : α → Prop} {l : List α} (h : ∀ x ∈ l, P x) {y : α} (hy : P y) : ∀ x ∈ l ++ [y], P x := by
  intro x hx
  rcases List.mem_append.1 hx with hx | hx
  · exact h x hx
  · rw [List.mem_singleton] at hx; subst hx; exact hy

/-- the component is sent a message -/
theorem inv_message {n : Page} {l : Live} {srv : ChatServer} (hc : n.loop.comp = some (l, srv)) (hd : n.loop.dom = l.render.1) (hs : Stage l n)
    {st : LoopState LiveviewInput (Option (Live × ChatServer)) Nat} {os : List (Out Delivery)} {m : ChatMessage}
    (h : updateAndDiff (D := ChatServer) chatComponent n.loop (.receiveMessage m) = (.running st, os)) :
    TypingInv { n with loop := st, down := n.down ++ sends os } := by
  rcases update_sends hc hd h with ⟨-, hn⟩ | ⟨l', srv', ds, ops, hu, h1, h2, h3, h4, h5⟩
  · exact Or.inl hn
  · refine Or.inr ⟨l', srv', h1, h2, h3, ?_⟩
    rw [h5]
    cases l with
    | uninitialized u =>
      simp only [Live.update, Live.updateLocal, Option.map_some, Option.some.injEq, Prod.mk.injEq] at hu
      obtain ⟨rfl, -, -⟩ := hu
      rw [uninit_diff, if_pos rfl] at h4
      cases h4
      cases hs with
      | blank a b c d => exact .blank (rest := _ ++ [[]]) a b (by simp only [c]; rfl) (forall_snoc d rfl)
      | name a b c d e f =>
        refine .name a b c (forall_snoc d (Or.inl rfl)) e ⟨f.queue, fun ht => ?_⟩
        obtain ⟨p, q, r⟩ := f.fresh ht
        exact ⟨p, forall_snoc q rfl, r⟩
    | initialized u id ms c =>
      simp only [Live.update, Live.updateLocal, Option.map_some, Option.some.injEq, Prod.mk.injEq] at hu
      obtain ⟨rfl, -, -⟩ := hu
      rw [init_diff, if_pos rfl, List.nil_append] at h4
      have hq : DownQuiet (serializeOps ops) := by
        cases h4
        exact ⟨_, msgs_quiet _ _ (by omega), rfl⟩
      cases hs with
      | @registering _ _ _ _ Pre A T before rest name' id' a b c d e f g =>
        refine .registering (before := before) (rest := rest ++ [serializeOps ops]) (name' := name') (id' := id') a b c ?_ e (forall_snoc f hq) g
        simp only [d, List.append_assoc, List.cons_append]
      | chat a b c d e f g =>
        refine .chat a b c d e (forall_snoc f (Or.inl hq)) ⟨g.queue, fun ht => ?_⟩
        obtain ⟨p, q, r⟩ := g.fresh ht
        exact ⟨p, forall_snoc q hq, r⟩

/-- what an event does that happened in the page `pg` -/
def Handled (l : Live) (srv : ChatServer) (e : String × Option String) (pg : List LiveDom) (l' : Live) (srv' : ChatServer) : Prop :=
  (e.1 = "submit_message" → ∃ m, srv'.log = srv.log ++ [m] ∧ ShowsField pg "update_message_contents" m.contents) ∧
  (e.1 ≠ "submit_message" → srv'.log = srv.log) ∧
  ∀ u, l = .uninitialized u →
    (e.1 = "initialize_username" → ∃ name id, l' = .initialized name id [] "" ∧ ShowsField pg "set_username" name) ∧
    (e.1 ≠ "initialize_username" → ∃ v, l' = .uninitialized v)

/-- the component is sent an event -/
theorem inv_handle {n : Page} {l : Live} {srv : ChatServer} (hc : n.loop.comp = some (l, srv)) (hd : n.loop.dom = l.render.1)
    (hl : n.loop.listeners = l.render.2) (hs : Stage l n)
    {st : LoopState LiveviewInput (Option (Live × ChatServer)) Nat} {os : List (Out Delivery)} {e : String × Option String} {pg : List LiveDom} {rest : Queue}
    (hup : n.up = (e, pg) :: rest)
    (h : loopStep (D := ChatServer) chatComponent Json.fromStr true (.running n.loop) (.ws (.ok (.text (Json.eventText e.1 e.2)))) = (.running st, os)) :
    TypingInv { n with loop := st, up := rest, down := n.down ++ sends os } ∧
    ∀ l' srv', st.comp = some (l', srv') →
      Handled l srv e pg l' srv' := by
  rw [handle_step, hl] at h
  have keep : asked l.render.2 e = none → e.1 ≠ "submit_message" → (∀ u, l ≠ .uninitialized u) → (Stage l { n with up := rest }) →
      TypingInv { n with loop := st, up := rest, down := n.down ++ sends os } ∧ ∀ l' srv', st.comp = some (l', srv') → Handled l srv e pg l' srv' := by
    intro ha hne hu hst
    rw [ha] at h
    cases h
    refine ⟨Or.inr ⟨l, srv, hc, hd, hl, hst.congr rfl (by simp [sends]) rfl⟩, fun l' srv' e' => ?_⟩
    rw [hc] at e'
    cases e'
    exact ⟨fun e' => absurd e' hne, fun _ => rfl, fun u e' => absurd e' (hu u)⟩
  cases hs with
  | blank a b c d => rw [b] at hup; cases hup
  | @name u _ Pre A T a b c d o f =>
    have fq := f.queue
    rw [hup] at fq
    simp only [UpOk] at fq
    rcases o (e, pg) (by rw [hup]; simp) with he | he
    · simp only at he
      obtain ⟨v, hv, hq⟩ := fq.1 he
      have ha : asked (Live.render (.uninitialized u)).2 e = some (.browserRequest (.updateInitializeUsernameTextField v)) := by
        simp [asked, Live.render, Live.listeners, he, hv]
      rw [ha] at h
      rcases update_sends hc hd h with ⟨-, hn⟩ | ⟨l', srv', ds, ops, hu, h1, h2, h3, h4, h5⟩
      · exact ⟨Or.inl hn, fun l' srv' e' => by rw [hn] at e'; cases e'⟩
      simp only [Live.update, Live.updateLocal, Option.map_some, Option.some.injEq, Prod.mk.injEq] at hu
      obtain ⟨rfl, rfl, -⟩ := hu
      refine ⟨Or.inr ⟨_, _, h1, h2, h3, ?_⟩, fun l' srv' e' => ?_⟩
      · rw [h5]
        rw [uninit_diff] at h4
        have hdn : DownName (serializeOps ops) := by
          cases h4
          split
          · exact Or.inl rfl
          · exact Or.inr ⟨v, rfl⟩
        refine .name a b c (forall_snoc d hdn) (fun x hx => o x (by rw [hup]; simp [hx])) ⟨hq, fun ht => ?_⟩
        exact absurd he ((f.fresh ht).2.2 (e, pg) (by rw [hup]; simp))
      · rw [h1] at e'
        cases e'
        exact ⟨fun e' => by rw [he] at e'; simp at e', fun _ => rfl, fun _ _ => ⟨fun e' => by rw [he] at e'; simp at e', fun _ => ⟨v, rfl⟩⟩⟩
    · simp only at he
      have hne : e.1 ≠ "set_username" := by rw [he]; decide
      have hshow := (fq.2 hne).1 he
      have ha : asked (Live.render (.uninitialized u)).2 e = some (.browserRequest .initializeUser) := by
        simp [asked, Live.render, Live.listeners, he]
      rw [ha] at h
      rcases update_sends hc hd h with ⟨-, hn⟩ | ⟨l', srv', ds, ops, hu, h1, h2, h3, h4, h5⟩
      · exact ⟨Or.inl hn, fun l' srv' e' => by rw [hn] at e'; cases e'⟩
      simp only [Live.update, ChatServer.handle, Option.some.injEq, Prod.mk.injEq] at hu
      obtain ⟨rfl, rfl, -⟩ := hu
      refine ⟨Or.inr ⟨_, _, h1, h2, h3, ?_⟩, fun l' srv' e' => ?_⟩
      · rw [h5]
        rw [register_diff] at h4
        cases h4
        exact .registering (before := n.down) (rest := []) a b c rfl d (by simp) (fun x hx => o x (by rw [hup]; simp [hx]))
      · rw [h1] at e'
        cases e'
        exact ⟨fun e' => by rw [he] at e'; simp at e', fun _ => rfl, fun _ _ => ⟨fun _ => ⟨_, _, rfl, hshow⟩, fun e' => absurd he e'⟩⟩
  | @registering name id ms _ Pre A T before rest' name' id' a b c d p q o =>
    have ho := o (e, pg) (by rw [hup]; simp)
    refine keep ?_ (by rcases ho with ho | ho <;> simp only at ho <;> rw [ho] <;> decide) (fun u e' => by cases e') (.registering (before := before) (rest := rest') (name' := name') (id' := id') a b c d p q (fun x hx => o x (by rw [hup]; simp [hx])))
    simp only [OldEvent] at ho
    rcases ho with ho | ho <;> simp [asked, Live.render, Live.listeners, ho]
  | @chat name id ms c _ Pre A T K M a b p q r d f =>
    have fq := f.queue
    rw [hup] at fq
    simp only [UpOk] at fq
    by_cases he : e.1 = "update_message_contents"
    · obtain ⟨v, hv, hq⟩ := fq.1 he
      have ha : asked (Live.render (.initialized name id ms c)).2 e = some (.browserRequest (.updateMessageContentsTextField v)) := by
        simp [asked, Live.render, Live.listeners, he, hv]
      rw [ha] at h
      rcases update_sends hc hd h with ⟨-, hn⟩ | ⟨l', srv', ds, ops, hu, h1, h2, h3, h4, h5⟩
      · exact ⟨Or.inl hn, fun l' srv' e' => by rw [hn] at e'; cases e'⟩
      simp only [Live.update, Live.updateLocal, Option.map_some, Option.some.injEq, Prod.mk.injEq] at hu
      obtain ⟨rfl, rfl, -⟩ := hu
      refine ⟨Or.inr ⟨_, _, h1, h2, h3, ?_⟩, fun l' srv' e' => ?_⟩
      · rw [h5]
        have h6 := init_diff name id ms [] c v
        rw [List.append_nil, h4] at h6
        have hdn : DownChat (serializeOps ops) := by
          simp only [Option.some.injEq] at h6
          rw [h6]
          split
          · exact Or.inl ⟨[], by simp, rfl⟩
          · exact Or.inr ⟨v, rfl⟩
        refine .chat a b p q r (forall_snoc d hdn) ⟨hq, fun ht => ?_⟩
        exact absurd he ((f.fresh ht).2.2 (e, pg) (by rw [hup]; simp))
      · rw [h1] at e'
        cases e'
        exact ⟨fun e' => by rw [he] at e'; simp at e', fun _ => rfl, fun _ e' => by cases e'⟩
    · have hq := (fq.2 he).2
      have hsync : ∀ down', (∀ x ∈ down', x ∈ n.down ∨ DownQuiet x) →
          Sync "update_message_contents" "submit_message" DownQuiet c (A 4) (T 4) down' rest := by
        intro down' hdn
        refine ⟨hq, fun ht => ?_⟩
        obtain ⟨x1, x2, x3⟩ := f.fresh ht
        refine ⟨x1, fun y hy => ?_, fun x hx => x3 x (by rw [hup]; simp [hx])⟩
        rcases hdn y hy with hy | hy
        · exact x2 y hy
        · exact hy
      by_cases he2 : e.1 = "submit_message"
      · have hshow := (fq.2 he).1 he2
        have ha : asked (Live.render (.initialized name id ms c)).2 e = some (.browserRequest .sendTextMessage) := by
          simp [asked, Live.render, Live.listeners, he2]
        rw [ha] at h
        rcases update_sends hc hd h with ⟨-, hn⟩ | ⟨l', srv', ds, ops, hu, h1, h2, h3, h4, h5⟩
        · exact ⟨Or.inl hn, fun l' srv' e' => by rw [hn] at e'; cases e'⟩
        cases hg : getUser id srv.users with
        | none => simp [Live.update, ChatServer.handle, hg] at hu
        | some w =>
          simp only [Live.update, ChatServer.handle, hg, Live.updateLocal, Option.map_some, Option.some.injEq, Prod.mk.injEq] at hu
          obtain ⟨rfl, rfl, -⟩ := hu
          rw [init_diff, if_pos rfl, List.nil_append] at h4
          have hdn : DownQuiet (serializeOps ops) := by
            cases h4
            exact ⟨_, msgs_quiet _ _ (by omega), rfl⟩
          refine ⟨Or.inr ⟨_, _, h1, h2, h3, ?_⟩, fun l' srv' e' => ?_⟩
          · rw [h5]
            refine .chat a b p q r (forall_snoc d (Or.inl hdn)) (hsync _ (forall_snoc (fun x hx => Or.inl hx) (Or.inr hdn)))
          · rw [h1] at e'
            cases e'
            exact ⟨fun _ => ⟨_, rfl, hshow⟩, fun e' => absurd he2 e', fun _ e' => by cases e'⟩
      · refine keep ?_ he2 (fun u e' => by cases e') (.chat a b p q r d (hsync _ fun x hx => Or.inl hx))
        simp [asked, Live.render, Live.listeners, he, he2]

/-- the browser processes a changeset -/
theorem stage_display {B : Browser} (hB : KnowsChat B) {n : Page} {l : Live} (hs : Stage l n) {ops : List WireOp} {rest : List (List WireOp)}
    (hd : n.down = ops :: rest) : Stage l { n with body := liveMessage B ops n.body, down := rest } := by
  cases hs with
  | blank a b c d =>
    rw [c] at hd
    cases hd
    obtain ⟨A, T, h1, h2, h3, h4⟩ := paint_name hB a
    refine .name h4 a h1 (fun x hx => Or.inl (d x hx)) (by simp [b]) ⟨?_, fun _ => ⟨h2, d, by simp [b]⟩⟩
    rw [h3, b]
    rfl
  | @name u _ Pre A T a b c d o f =>
    have rest_ok : ∀ x ∈ rest, DownName x := fun x hx => d x (by rw [hd]; simp [hx])
    rcases d ops (by rw [hd]; simp) with rfl | ⟨v, rfl⟩
    · refine .name (by simp only [a, liveMessage]) b c rest_ok o ⟨f.queue, fun ht => ?_⟩
      obtain ⟨p, q, r⟩ := f.fresh ht
      exact ⟨p, fun x hx => q x (by rw [hd]; simp [hx]), r⟩
    · obtain ⟨A', h1, h2⟩ := name_value hB b c T v
      refine .name (by simp only [a]; exact h2) b h1 rest_ok o ⟨f.queue, fun ht => ?_⟩
      have := (f.fresh ht).2.1 (serializeOps [⟨2, .setAttribute "value" v⟩]) (by rw [hd]; simp)
      cases this
  | @registering name id ms _ Pre A T before rest' name' id' a b c d p q o =>
    cases before with
    | nil =>
      rw [List.nil_append] at d
      rw [d] at hd
      cases hd
      obtain ⟨A', T', K, h1, h2, h3, h4, h5⟩ := register_page hB b c T name' id'
      refine .chat (by simp only [a]; exact h5) b h2 (by rw [QuietAll]; trivial) h1 (fun x hx => Or.inl (q x hx)) ⟨?_, fun _ => ⟨h3, q, fun e he => ?_⟩⟩
      · rw [h4]
        refine UpOk.unrelated (fun e he => ?_) _
        rcases o e he with ho | ho <;> rw [ho] <;> decide
      · rcases o e he with ho | ho <;> rw [ho] <;> decide
    | cons x before =>
      rw [List.cons_append] at d
      rw [d] at hd
      cases hd
      have hb : ∀ y ∈ before, DownName y := fun y hy => p y (by simp [hy])
      rcases p ops (by simp) with rfl | ⟨v, rfl⟩
      · exact .registering (before := before) (rest := rest') (name' := name') (id' := id') (T := T) (by simp only [a, liveMessage]) b c rfl hb q o
      · obtain ⟨A', h1, h2⟩ := name_value hB b c T v
        exact .registering (before := before) (rest := rest') (name' := name') (id' := id') (by simp only [a]; exact h2) b h1 rfl hb q o
  | @chat name id ms c _ Pre A T K M a b p q r d f =>
    have rest_ok : ∀ x ∈ rest, DownChat x := fun x hx => d x (by rw [hd]; simp [hx])
    rcases d ops (by rw [hd]; simp) with ⟨os, h1, rfl⟩ | ⟨v, rfl⟩
    · obtain ⟨Pre', K', M', h2, h3, h4, h5⟩ := chat_quiet hB h1 b r (T := T) p q
      refine .chat (by simp only [a]; exact h5) h2 h3 h4 r rest_ok ⟨f.queue, fun ht => ?_⟩
      obtain ⟨x1, x2, x3⟩ := f.fresh ht
      exact ⟨x1, fun x hx => x2 x (by rw [hd]; simp [hx]), x3⟩
    · obtain ⟨A', h1, h2⟩ := chat_value hB b r T (M := M) p v
      refine .chat (by simp only [a]; exact h2) b p q h1 rest_ok ⟨f.queue, fun ht => ?_⟩
      obtain ⟨os, h3, h4⟩ := (f.fresh ht).2.1 (serializeOps [⟨4, .setAttribute "value" v⟩]) (by rw [hd]; simp)
      cases os with
      | nil => cases h4
      | cons o os =>
        have h5 := h3 o (by simp)
        simp only [serializeOps, List.map_cons, List.cons.injEq] at h4
        have h6 := congrArg WireOp.ty h4.1
        obtain ⟨k, ins⟩ := o
        obtain ⟨-, ⟨nm, pp, rfl, -, -⟩ | ⟨w, rfl⟩⟩ := h5 <;> simp [Op.serialize] at h6

theorem fieldText_sync {attrs : Headers} {t : Option String} (h : t = none → attrs.get "value" = some "") : fieldText attrs t = t.getD "" := by
  cases t with
  | some v => rfl
  | none => simp [fieldText, h rfl]

/-- the user types -/
theorem stage_typed {n : Page} {l : Live} (hs : Stage l n) {d : LiveDom} {tag : String} {attrs : Headers} {ls : List ListenerRef} {cs path : List Dom}
    {id v : String} (hd : d ∈ n.body) (ht : Target d.erase (.elem tag attrs ls cs :: path)) (hid : attrs.get "id" = some id) :
    Stage l { n with body := typeIntoAll id v n.body,
                     up := n.up ++ (dispatch "input" v (.elem tag attrs ls cs :: path)).map fun e => (e, typeIntoAll id v n.body) } := by
  cases hs with
  | blank a b c h =>
    have := dispatch_silent (tame_silent (quiet_path d _ (quietAll_mem a hd) ht)) "input" v
    exact .blank (quietAll_type id v _ a) (by simp [this, b]) c h
  | @name u _ Pre A T a b c h o f =>
    have h2 : (A 2).get "id" = some "2" := c 2 (by decide)
    rw [a] at hd
    obtain ⟨e1, e2⟩ := name_events b c hd ht "input" v
    have hbody : typeIntoAll id v n.body = typeIntoAll id v Pre ++ [nameForm A (typedNow id v A T)] := by rw [a, type_name]
    have quiet2 : id ≠ "2" → Stage (.uninitialized u) { n with body := typeIntoAll id v n.body, up := n.up } := by
      intro hne
      have ht2 : typedNow id v A T 2 = T 2 := by
        unfold typedNow
        rw [h2, if_neg (fun e => hne (Option.some.inj e).symm)]
      exact .name hbody (quietAll_type id v _ b) c h o (by rw [ht2]; exact f)
    rcases e2 with e2 | ⟨-, -, e2⟩ | ⟨e2, -⟩
    · rw [e2]
      simp only [List.map_nil, List.append_nil]
      refine quiet2 fun he => ?_
      subst he
      rw [e1 _ _ _ _ _ rfl hid] at e2
      cases e2
    · rw [e2]
      simp only [List.map_cons, List.map_nil]
      by_cases he : id = "2"
      · subst he
        have ht2 : typedNow "2" v A T 2 = some v := by
          unfold typedNow
          rw [h2, if_pos rfl]
        refine .name hbody (quietAll_type _ v _ b) c h (forall_snoc o (Or.inl rfl)) ?_
        rw [ht2]
        exact ⟨f.queue.snoc_set v _, fun e => by cases e⟩
      · obtain ⟨e1', e2'⟩ := name_events b c hd ht "input" v
        rcases e2' with e2' | ⟨-, ⟨_, _, _, _, e3⟩, -⟩ | ⟨e2', -⟩
        · rw [e2] at e2'; cases e2'
        · cases e3
          rw [h2] at hid
          exact (he (Option.some.inj hid).symm).elim
        · simp at e2'
    · simp at e2
  | @registering name id' ms _ Pre A T before rest' name' id'' a b c dn p q o =>
    rw [a] at hd
    obtain ⟨e1, e2⟩ := name_events b c hd ht "input" v
    have hbody : typeIntoAll id v n.body = typeIntoAll id v Pre ++ [nameForm A (typedNow id v A T)] := by rw [a, type_name]
    refine .registering (before := before) (rest := rest') (name' := name') (id' := id'') hbody (quietAll_type id v _ b) c dn p q ?_
    rcases e2 with e2 | ⟨-, -, e2⟩ | ⟨e2, -⟩
    · rw [e2]; simpa using o
    · rw [e2]; exact forall_snoc o (Or.inl rfl)
    · simp at e2
  | @chat name id' ms cur _ Pre A T K M a b p q c h f =>
    have h4 : (A 4).get "id" = some "4" := c 4 (by decide)
    rw [a] at hd
    obtain ⟨e1, e2⟩ := chat_events b c p q hd ht "input" v
    have hbody : typeIntoAll id v n.body = typeIntoAll id v Pre ++ [chatForm A (typedNow id v A T) (typeIntoAll id v K) (typeIntoAll id v M)] := by rw [a, type_chat]
    rcases e2 with e2 | ⟨-, ⟨_, _, _, _, e3⟩, e2⟩ | ⟨e2, -⟩
    · rw [e2]
      simp only [List.map_nil, List.append_nil]
      have hne : id ≠ "4" := by
        intro he
        subst he
        rw [e1 _ _ _ _ _ rfl hid] at e2
        cases e2
      have ht4 : typedNow id v A T 4 = T 4 := by
        unfold typedNow
        rw [h4, if_neg (fun e => hne (Option.some.inj e).symm)]
      exact .chat hbody (quietAll_type id v _ b) (quietAll_type id v _ p) (quietAll_type id v _ q) c h (by rw [ht4]; exact f)
    · rw [e2]
      cases e3
      rw [h4] at hid
      cases hid
      simp only [List.map_cons, List.map_nil]
      have ht4 : typedNow "4" v A T 4 = some v := by
        unfold typedNow
        rw [h4, if_pos rfl]
      refine .chat hbody (quietAll_type _ v _ b) (quietAll_type _ v _ p) (quietAll_type _ v _ q) c h ?_
      rw [ht4]
      exact ⟨f.queue.snoc_set v _, fun e => by cases e⟩
    · simp at e2

/-- another event happens -/
theorem stage_event {n : Page} {l : Live} (hs : Stage l n) {d : LiveDom} {path : List Dom} {on v : String} (hon : on ≠ "input") (hd : d ∈ n.body)
    (ht : Target d.erase path) : Stage l { n with up := n.up ++ (dispatch on v path).map fun e => (e, n.body) } := by
  cases hs with
  | blank a b c h =>
    have := dispatch_silent (tame_silent (quiet_path d _ (quietAll_mem a hd) ht)) on v
    exact .blank a (by simp [this, b]) c h
  | @name u _ Pre A T a b c h o f =>
    rw [a] at hd
    rcases (name_events b c hd ht on v).2 with e2 | ⟨e2, -⟩ | ⟨-, e2⟩
    · rw [e2]
      exact .name a b c h (by simpa using o) (by simpa using f)
    · exact (hon e2).elim
    · rw [e2]
      refine .name a b c h (forall_snoc o (Or.inr rfl)) ⟨f.queue.snoc_other (by decide) fun _ => ?_, fun e => ?_⟩
      · rw [a, ← fieldText_sync fun e => (f.fresh e).1]
        exact shows_name b A T
      · obtain ⟨x1, x2, x3⟩ := f.fresh e
        exact ⟨x1, x2, forall_snoc x3 (by simp)⟩
  | @registering name id' ms _ Pre A T before rest' name' id'' a b c dn p q o =>
    rw [a] at hd
    refine .registering (before := before) (rest := rest') (name' := name') (id' := id'') a b c dn p q ?_
    rcases (name_events b c hd ht on v).2 with e2 | ⟨e2, -⟩ | ⟨-, e2⟩
    · rw [e2]; simpa using o
    · exact (hon e2).elim
    · rw [e2]; exact forall_snoc o (Or.inr rfl)
  | @chat name id' ms cur _ Pre A T K M a b p q c h f =>
    rw [a] at hd
    rcases (chat_events b c p q hd ht on v).2 with e2 | ⟨e2, -⟩ | ⟨-, e2⟩
    · rw [e2]
      exact .chat a b p q c h (by simpa using f)
    · exact (hon e2).elim
    · rw [e2]
      refine .chat a b p q c h ⟨f.queue.snoc_other (by decide) fun _ => ?_, fun e => ?_⟩
      · rw [a, ← fieldText_sync fun e => (f.fresh e).1]
        exact shows_chat b A T p q
      · obtain ⟨x1, x2, x3⟩ := f.fresh e
        exact ⟨x1, x2, forall_snoc x3 (by simp)⟩

theorem none_stays {st st' : LoopState LiveviewInput (Option (Live × ChatServer)) Nat} {os : List (Out Delivery)} {i : LiveviewInput} (hc : st.comp = none)
    (h : updateAndDiff (D := ChatServer) chatComponent st i = (.running st', os)) : st'.comp = none := by
  simp only [updateAndDiff, chatComponent, hc] at h
  split at h
  · cases h
  · simp only [Prod.mk.injEq, Phase.running.injEq] at h
    rw [← h.1]

theorem typing_step {B : Browser} (hB : KnowsChat B) {n n' : Page} (h : TypingInv n) (hs : TypingStep (D := ChatServer) (E := Delivery) B chatComponent FromCoordinator OthersAct n n') :
    TypingInv n' := by
  rcases h with h | ⟨l, srv, hc, hd, hl, hst⟩
  · cases hs with
    | display _ => exact Or.inl h
    | typed _ _ _ _ _ => exact Or.inl h
    | event _ _ _ _ _ => exact Or.inl h
    | handle _ hstep =>
      left
      rw [handle_step] at hstep
      split at hstep
      · exact none_stays h hstep
      · cases hstep; exact h
    | input i _ hstep => exact Or.inl (none_stays h hstep)
    | world s hw =>
      obtain ⟨l, srv, srv', e, -⟩ := hw
      rw [h] at e
      cases e
  · cases hs with
    | display hdn => exact Or.inr ⟨l, srv, hc, hd, hl, stage_display hB hst hdn⟩
    | typed id v h1 h2 h3 => exact Or.inr ⟨l, srv, hc, hd, hl, stage_typed hst h1 h2 h3⟩
    | event on value h1 h2 h3 => exact Or.inr ⟨l, srv, hc, hd, hl, stage_event hst h1 h2 h3⟩
    | handle hup hstep => exact (inv_handle hc hd hl hst hup hstep).1
    | input i hi hstep =>
      obtain ⟨m, rfl⟩ := hi
      exact inv_message hc hd hst hstep
    | world s hw =>
      obtain ⟨l', srv', srv'', e, rfl⟩ := hw
      rw [hc] at e
      cases e
      exact Or.inr ⟨l, srv'', rfl, hd, hl, hst.congr rfl rfl rfl⟩

theorem typing_inv {B : Browser} (hB : KnowsChat B) {srv : ChatServer} {k : Nat} {page : List Dom} (hp : PageOk page) (hb : BareAll page) {n : Page}
    (h : TypingSteps B chatComponent FromCoordinator OthersAct (TypingPage.start chatComponent srv k page) n) : TypingInv n := by
  generalize hs : TypingPage.start chatComponent srv k page = n0 at h
  induction h with
  | refl =>
    subst hs
    exact Or.inr ⟨.uninitialized "", srv, rfl, rfl, rfl, .blank (rest := []) (quietAll_fresh page hb hp) rfl rfl (by simp)⟩
  | step _ s ih => exact typing_step hB ih s

/-- **C123.** Whatever the user of a chat page types and clicks, however that interleaves with changesets and events under way and with what other users do,
and whatever the text: when the component handles an event of the button for sending, exactly one message is added to those the coordinator has accepted, and its text is
the one the field for messages showed when the user clicked; no other event adds a message.  When a component without a user handles an event of the button for the
name, the user is registered under the name the field for the name showed when the user clicked; no other event does that. -/
theorem C123_what_was_shown (B : Browser) (hB : KnowsChat B) (srv0 : ChatServer) (k : Nat) (page : List Dom) (hp : PageOk page) (hb : BareAll page) (n : Page)
    (h : TypingSteps B chatComponent FromCoordinator OthersAct (TypingPage.start chatComponent srv0 k page) n)
    (e : String × Option String) (shown : List LiveDom) (rest : Queue) (hup : n.up = (e, shown) :: rest) (l : Live) (srv : ChatServer)
    (hc : n.loop.comp = some (l, srv)) (st : LoopState LiveviewInput (Option (Live × ChatServer)) Nat) (os : List (Out Delivery))
    (hstep : loopStep (D := ChatServer) chatComponent Json.fromStr true (.running n.loop) (.ws (.ok (.text (Json.eventText e.1 e.2)))) = (.running st, os))
    (l' : Live) (srv' : ChatServer) (hc' : st.comp = some (l', srv')) :
    (e.1 = "submit_message" → ∃ m, srv'.log = srv.log ++ [m] ∧ ShowsField shown "update_message_contents" m.contents) ∧
    (e.1 ≠ "submit_message" → srv'.log = srv.log) ∧
    ∀ u, l = .uninitialized u →
      (e.1 = "initialize_username" → ∃ name id, l' = .initialized name id [] "" ∧ ShowsField shown "set_username" name) ∧
      (e.1 ≠ "initialize_username" → ∃ v, l' = .uninitialized v) := by
  rcases typing_inv hB hp hb h with hn | ⟨l1, srv1, h1, h2, h3, hst⟩
  · rw [hn] at hc
    cases hc
  · rw [hc] at h1
    cases h1
    exact (inv_handle hc h2 h3 hst hup hstep).2 l' srv' hc'

theorem update_running {l l' : Live} {srv srv' : ChatServer} {ds : List Delivery} {ops : List Op} {i : LiveviewInput} {k : Nat}
    {ls : String → Option (Listener LiveviewInput)} (hu : l.update i k srv = some (l', srv', ds)) (hd : l.render.1.diff (some l'.render.1) = some ops) :
    updateAndDiff (D := ChatServer) chatComponent ⟨k, some (l, srv), l.render.1, ls⟩ i =
      (.running ⟨k, some (l', srv'), l'.render.1, l'.render.2⟩, ds.map .effect ++ [.send (serializeOps ops)]) := by
  simp only [updateAndDiff, chatComponent, hu, hd]

/-- For instance: the user clicks on the button for the name, and then types any text at all into the field for messages and clicks on the button for sending. -/
theorem C123_witness (B : Browser) (hB : KnowsChat B) (v : String) : ∃ n : Page, ∃ shown c,
    TypingSteps B chatComponent FromCoordinator OthersAct (TypingPage.start chatComponent .init 7 []) n ∧ n.up = [(("submit_message", none), shown)] ∧
    n.loop.comp = some (.initialized "" 0 [] c, ⟨[(0, "", 7)], ⟨[0], [], 1⟩, [], [(7, 0)]⟩) ∧ ShowsField shown "update_message_contents" v ∧ c = v ∧
    ∃ st os srv', loopStep (D := ChatServer) chatComponent Json.fromStr true (.running n.loop) (.ws (.ok (.text (Json.eventText "submit_message" none)))) = (.running st, os) ∧
      st.comp = some (.initialized "" 0 [⟨0, "", v⟩] v, srv') ∧ srv'.log = [⟨0, "", v⟩] := by
  let S : Live → ChatServer → LoopState LiveviewInput (Option (Live × ChatServer)) Nat := fun l srv => ⟨7, some (l, srv), l.render.1, l.render.2⟩
  let srv1 : ChatServer := ⟨[(0, "", 7)], ⟨[0], [], 1⟩, [], [(7, 0)]⟩
  obtain ⟨A, T, a1, a2, a3, a4⟩ := paint_name hB (Pre := []) (by rw [QuietAll]; trivial)
  obtain ⟨A', T', K, b1, b2, b3, b4, b5⟩ := register_page hB (Pre := []) (by rw [QuietAll]; trivial) a1 T "" 0
  have s0 : TypingSteps B chatComponent FromCoordinator OthersAct (TypingPage.start chatComponent .init 7 []) _ := .refl _
  have s1 := s0.step (.display (rest := []) rfl)
  have e1 : liveMessage B (serializeOps (createFromScratch none (Live.render (.uninitialized "")).1)) (freshAll []) = [nameForm A T] := a4
  change TypingSteps B chatComponent FromCoordinator OthersAct _ (⟨S (.uninitialized "") .init, [], liveMessage B (serializeOps (createFromScratch none (Live.render (.uninitialized "")).1)) (freshAll []), []⟩ : Page) at s1
  rw [e1] at s1
  have s2 := s1.step (.event (d := nameForm A T) "click" "" (by decide) (by simp)
    (.inside (List.mem_cons_of_mem _ (List.mem_cons_self ..)) (.inside (List.mem_cons_self ..) (.here ..))))
  have h3 : loopStep (D := ChatServer) chatComponent Json.fromStr true (.running (S (.uninitialized "") .init)) (.ws (.ok (.text (Json.eventText "initialize_username" none)))) =
      (.running (S (.initialized "" 0 [] "") srv1), [.send (serializeOps (registerOps "" 0))]) := by
    rw [handle_step chatComponent (S (.uninitialized "") .init) ("initialize_username", none)]
    exact update_running (ds := []) rfl (register_diff "" "" 0)
  have s3 := s2.step (.handle (e := ("initialize_username", none)) (page := [nameForm A T]) (rest := []) rfl h3)
  have s4 := s3.step (.display (rest := []) rfl)
  change TypingSteps B chatComponent FromCoordinator OthersAct _ (⟨S (.initialized "" 0 [] "") srv1, [], liveMessage B (serializeOps (registerOps "" 0)) ([] ++ [nameForm A T]), []⟩ : Page) at s4
  rw [b5] at s4
  have s5 := s4.step (.typed (d := chatForm A' T' K []) "4" v (by simp)
    (.inside (List.mem_cons_self ..) (.inside (List.mem_cons_of_mem _ (List.mem_cons_self ..)) (.inside (List.mem_cons_self ..) (.here ..)))) (b1 4 (by decide)))
  rw [type_chat] at s5
  have s6 := s5.step (.event (d := chatForm A' (typedNow "4" v A' T') (typeIntoAll "4" v K) (typeIntoAll "4" v [])) "click" "" (by decide) (by simp)
    (.inside (List.mem_cons_self ..) (.inside (List.mem_cons_of_mem _ (List.mem_cons_of_mem _ (List.mem_cons_self ..))) (.inside (List.mem_cons_self ..) (.here ..)))))
  have hops : ∃ ops, (Live.render (.initialized "" 0 [] "")).1.diff (some (Live.render (.initialized "" 0 [] v)).1) = some ops := by
    have := init_diff "" 0 [] [] "" v
    rw [List.append_nil] at this
    exact ⟨_, this⟩
  obtain ⟨ops, hops⟩ := hops
  have h7 : loopStep (D := ChatServer) chatComponent Json.fromStr true (.running (S (.initialized "" 0 [] "") srv1))
      (.ws (.ok (.text (Json.eventText "update_message_contents" (some v))))) = (.running (S (.initialized "" 0 [] v) srv1), [.send (serializeOps ops)]) := by
    rw [handle_step chatComponent (S (.initialized "" 0 [] "") srv1) ("update_message_contents", some v)]
    exact update_running (ds := []) rfl hops
  have s7 := s6.step (.handle (e := ("update_message_contents", some v)) (rest := [(("submit_message", none), _)]) rfl h7)
  refine ⟨_, _, v, s7, rfl, rfl, ?_, rfl, ?_⟩
  · have := shows_chat (Pre := typeIntoAll "4" v []) (by rw [typeIntoAll, QuietAll]; trivial) A' (typedNow "4" v A' T') (quietAll_type "4" v K b2)
      (M := typeIntoAll "4" v []) (by rw [typeIntoAll, QuietAll]; trivial)
    have ht : typedNow "4" v A' T' 4 = some v := by
      unfold typedNow
      exact if_pos (b1 4 (by decide))
    rw [ht] at this
    exact this
  · have := init_diff "" 0 [] [⟨0, "", v⟩] v v
    rw [List.nil_append] at this
    generalize (if v = v then [] else [(⟨4, .setAttribute "value" v⟩ : Op)]) ++ _ = ops8 at this
    have h8 : loopStep (D := ChatServer) chatComponent Json.fromStr true (.running (S (.initialized "" 0 [] v) srv1))
        (.ws (.ok (.text (Json.eventText "submit_message" none)))) =
        (.running (S (.initialized "" 0 [⟨0, "", v⟩] v) { srv1 with log := [⟨0, "", v⟩] }), [.send (serializeOps ops8)]) := by
      rw [handle_step chatComponent (S (.initialized "" 0 [] v) srv1) ("submit_message", none)]
      exact update_running (ds := []) rfl this
    exact ⟨_, _, _, h8, rfl, rfl⟩

end Puck.Chat
