import Verif.Model.Writes
import Verif.Props.Json
import Verif.Lemmas.ChatFair
import Verif.Props.ChatFine
/-!
# What the browser shows while bytes are arriving (C106)
-/
namespace Puck.Json
open Rfc6455

variable {D I S E P : Type}

/-- The browser's page once the bytes `bs` have arrived: it decodes as many RFC 6455 frames as are complete (every frame has at least one byte), takes the
text messages among them, and runs the `onmessage` handler on each. -/
def pageFrom (B : Browser) (bs : Bytes) (page : List Dom) : List Dom := pageAfter B (textsOf (decodeAll bs.length bs)) page

/-! ## Frames -/

theorem decodeServer_append {bs rest x : Bytes} {f : WireFrame} (h : decodeServer bs = some (f, rest)) :
    decodeServer (bs ++ x) = some (f, rest ++ x) := by
  have hgo : ∀ (len : Nat) (r : Bytes) (mk : Bytes → WireFrame),
      (if len ≤ r.length then some (mk (r.take len), r.drop len) else none) = some (f, rest) →
      (if len ≤ (r ++ x).length then some (mk ((r ++ x).take len), (r ++ x).drop len) else none) = some (f, rest ++ x) := by
    intro len r mk e
    by_cases hl : len ≤ r.length
    · rw [if_pos hl] at e
      simp only [Option.some.injEq, Prod.mk.injEq] at e
      rw [if_pos (by rw [List.length_append]; omega), List.take_append_of_le_length hl, List.drop_append_of_le_length hl, e.1, e.2]
    · rw [if_neg hl] at e; cases e
  match bs, h with
  | b0 :: b1 :: r, h =>
    simp only [decodeServer, List.cons_append] at h ⊢
    split at h
    · rename_i c; rw [if_pos c]
      exact hgo _ _ (fun p => ⟨b0.toNat / 128 % 2 == 1, b0.toNat / 64 % 2 == 1, b0.toNat / 32 % 2 == 1, b0.toNat / 16 % 2 == 1, b0.toNat % 16, p⟩) h
    · rename_i c; rw [if_neg c]
      split at h
      · rename_i c; rw [if_pos c]
        split at h
        · rename_i c
          rw [if_pos (by rw [List.length_append]; omega), List.take_append_of_le_length c, List.drop_append_of_le_length c]
          exact hgo _ _ (fun p => ⟨b0.toNat / 128 % 2 == 1, b0.toNat / 64 % 2 == 1, b0.toNat / 32 % 2 == 1, b0.toNat / 16 % 2 == 1, b0.toNat % 16, p⟩) h
        · cases h
      · rename_i c; rw [if_neg c]
        split at h
        · rename_i c; rw [if_pos c]
          split at h
          · rename_i c
            rw [if_pos (by rw [List.length_append]; omega), List.take_append_of_le_length c, List.drop_append_of_le_length c]
            exact hgo _ _ (fun p => ⟨b0.toNat / 128 % 2 == 1, b0.toNat / 64 % 2 == 1, b0.toNat / 32 % 2 == 1, b0.toNat / 16 % 2 == 1, b0.toNat % 16, p⟩) h
          · cases h
        · cases h

theorem decodeAll_prefix (n k : Nat) (bs x : Bytes) : decodeAll n bs <+: decodeAll (n + k) (bs ++ x) := by
  induction n generalizing bs with
  | zero => simp [decodeAll]
  | succ n ih =>
    rw [Nat.succ_add, decodeAll]
    cases h : decodeServer bs with
    | none => simp
    | some p =>
      obtain ⟨f, rest⟩ := p
      rw [decodeAll, decodeServer_append h]
      exact List.cons_prefix_cons.2 ⟨rfl, ih rest⟩

/-- More bytes: more frames, and the same ones first. -/
theorem decode_mono {bs bs' : Bytes} (h : bs <+: bs') : decodeAll bs.length bs <+: decodeAll bs'.length bs' := by
  obtain ⟨x, rfl⟩ := h
  rw [List.length_append]
  exact decodeAll_prefix _ _ _ _

theorem textsOf_append (a b : List WireFrame) : textsOf (a ++ b) = textsOf a ++ textsOf b := by
  induction a with
  | nil => rfl
  | cons f a ih =>
    rw [List.cons_append, textsOf, textsOf]
    split
    · cases fromUtf8 f.payload with
      | none => exact ih
      | some s => simp [ih]
    · exact ih

theorem texts_mono {a b : List WireFrame} (h : a <+: b) : textsOf a <+: textsOf b := by
  obtain ⟨x, rfl⟩ := h
  rw [textsOf_append]
  exact List.prefix_append _ _

/-- Frames that are not text frames make no difference. -/
theorem texts_merge {ts : List String} {os ws : List Message} (h : Merge (ts.map Message.text) os ws) (ho : ∀ m ∈ os, ∃ p, m = .pong p) :
    textsOf (ws.map wireOf) = ts := by
  generalize ha : ts.map Message.text = as at h
  induction h generalizing ts with
  | nil => cases ts with
    | nil => rfl
    | cons => cases ha
  | @left a as bs cs _ ih =>
    cases ts with
    | nil => cases ha
    | cons t ts =>
      simp only [List.map_cons, List.cons.injEq] at ha
      rw [List.map_cons, ← ha.1, textsOf, if_pos (show (wireOf (.text t)).nibble = 1 from rfl)]
      simp only [wireOf, fromUtf8_strBytes] at ih ⊢
      rw [ih ho ha.2]
  | @right b as bs cs _ ih =>
    obtain ⟨p, rfl⟩ := ho b List.mem_cons_self
    rw [List.map_cons, textsOf, if_neg (show ¬ (wireOf (.pong p)).nibble = 1 from (by cases p <;> simp [wireOf]))]
    exact ih (fun m hm => ho m (List.mem_cons_of_mem _ hm)) ha

theorem length_flat (ms : List Message) : ms.length ≤ ((ms.map Message.bytes).flatten).length := by
  induction ms with
  | nil => simp
  | cons m ms ih =>
    have := bytes_pos m
    simp only [List.length_cons, List.map_cons, List.flatten_cons, List.length_append]
    omega

/-- What the texts are of any part of the bytes of a history of sends by both processes. -/
theorem texts_part {ts : List String} {os ws : List Message} (h : Merge (ts.map Message.text) os ws) (ho : ∀ m ∈ os, ∃ p, m = .pong p)
    (hl : ∀ m ∈ ws, (wireOf m).payload.length < 2 ^ 64) :
    textsOf (decodeAll ((sendAll ws ⟨[], none⟩).2.out).length (sendAll ws ⟨[], none⟩).2.out) = ts := by
  have e : ((sendAll ws ⟨[], none⟩).2.out).length = ws.length + (((sendAll ws ⟨[], none⟩).2.out).length - ws.length) := by
    have := length_flat ws
    rw [sendAll_none]
    simp only [List.nil_append]
    omega
  rw [e, (C02_history_decoded ws _ hl).2, texts_merge h ho]

/-! ## The history of a component, cut short -/

theorem loopRun_append (C : Component D I S E P) (parse : String → Option ClientMessage) (b : Bool) (ph : Phase D I S P) (a c : List (Mail I P)) :
    loopRun C parse b ph (a ++ c) =
      ((loopRun C parse b (loopRun C parse b ph a).1 c).1, (loopRun C parse b ph a).2 ++ (loopRun C parse b (loopRun C parse b ph a).1 c).2) := by
  induction a generalizing ph with
  | nil => simp [loopRun]
  | cons m a ih =>
    rw [List.cons_append, loopRun, loopRun, ih]
    simp [List.append_assoc]

theorem prefix_le_one {α : Type} {l a b : List α} (hb : b.length ≤ 1) (h : l <+: a ++ b) : l <+: a ∨ l = a ++ b := by
  rcases Nat.lt_or_ge a.length l.length with e | e
  · right
    exact h.eq_of_length (by have := h.length_le; rw [List.length_append] at this ⊢; omega)
  · left
    exact List.prefix_of_prefix_length_le h (List.prefix_append _ _) e

/-- Every beginning of what a loop sends is all that it sends on a beginning of its mailbox. -/
theorem sends_cut (C : Component D I S E P) (parse : String → Option ClientMessage) (b : Bool) (ph : Phase D I S P) (ms : List (Mail I P)) :
    ∀ l, l <+: sends (loopRun C parse b ph ms).2 → ∃ ms', ms' <+: ms ∧ sends (loopRun C parse b ph ms').2 = l := by
  induction ms generalizing ph with
  | nil =>
    intro l hl
    refine ⟨[], List.prefix_rfl, ?_⟩
    have : l = [] := by simpa [loopRun, sends] using hl
    rw [this]; rfl
  | cons m ms ih =>
    intro l hl
    simp only [loopRun, sends_append] at hl
    have h1 := Chat.sends_le_one C parse b ph m
    cases l with
    | nil => exact ⟨[], by simp, rfl⟩
    | cons x l =>
      match hs : sends (loopStep C parse b ph m).2, h1 with
      | [], _ =>
        rw [hs, List.nil_append] at hl
        obtain ⟨ms', e1, e2⟩ := ih _ _ hl
        exact ⟨m :: ms', List.cons_prefix_cons.2 ⟨rfl, e1⟩, by simp only [loopRun, sends_append, hs, e2, List.nil_append]⟩
      | [y], _ =>
        rw [hs, List.singleton_append, List.cons_prefix_cons] at hl
        obtain ⟨ms', e1, e2⟩ := ih _ _ hl.2
        exact ⟨m :: ms', List.cons_prefix_cons.2 ⟨rfl, e1⟩, by simp only [loopRun, sends_append, hs, e2, hl.1, List.singleton_append]⟩

theorem map_prefix_inv {α β : Type} {f : α → β} {l : List β} {as : List α} (h : l <+: as.map f) : ∃ as', as' <+: as ∧ l = as'.map f := by
  refine ⟨as.take l.length, List.take_prefix _ _, ?_⟩
  rw [List.map_take]
  exact List.prefix_iff_eq_take.1 h

/-! ## C106 -/

/-- The page is as it was before the component's first message, or it has gained exactly one subtree, which shows the render of the component after the
history `h`. -/
def ShowsAfter (B : Browser) (C : Component D I S E P) (data : D) (page : List Dom) (bs : Bytes) (h : List (Mail I P)) : Prop :=
  (h = [] ∧ pageFrom B bs page = page) ∨
  ∃ st os d, loopRun C fromStr true (.waiting data) h = (.running st, os) ∧ pageFrom B bs page = page ++ [d] ∧ (C.render st.comp).1.ShownAs d

theorem shows_part {B : Browser} {C : Component D I S E P} {p : P} {data : D} {page : List Dom} (hs : StaysInStep B C fromStr data p page)
    {ms : List (Mail I P)} (hc : ∀ m ∈ ms, m ≠ .ws (.error .connectionClosed) ∧ ∀ q, m ≠ .whoAmI q) {bs : Bytes} {l : List (List WireOp)}
    (hb : textsOf (decodeAll bs.length bs) = l.map changesetText)
    (hl : l <+: sends (loopRun C fromStr true (.waiting data) (.whoAmI p :: ms)).2) :
    ∃ h, h <+: .whoAmI p :: ms ∧ sends (loopRun C fromStr true (.waiting data) h).2 = l ∧ ShowsAfter B C data page bs h := by
  obtain ⟨h, h1, h2⟩ := sends_cut C fromStr true (.waiting data) (.whoAmI p :: ms) l hl
  refine ⟨h, h1, h2, ?_⟩
  unfold ShowsAfter pageFrom
  rw [hb, pageAfter_changesets]
  cases h with
  | nil =>
    left
    refine ⟨rfl, ?_⟩
    rw [← h2]; rfl
  | cons m h =>
    right
    rw [List.cons_prefix_cons] at h1
    obtain ⟨rfl, h1⟩ := h1
    obtain ⟨st, os, d, g1, g2, g3⟩ := hs h fun m hm => hc m (h1.mem hm)
    refine ⟨st, os, d, g1, ?_, g3⟩
    rw [← h2, g1]
    exact g2

/-- **C106.** Take any component whose messages keep the page in step (C84), any history in which the connection stays open, and any order, frame by frame, of the messages the
component's loop sends and the pongs the reader process sends.  However many of the bytes have arrived, the browser shows a render that the component had
(or, before the first one, the page as it was): never a mixture of two, never half of one.  When more bytes arrive, the page moves on to a later one, and
when all have arrived it shows the current one. -/
theorem C106_any_moment (B : Browser) (C : Component D I S E P) (p : P) (data : D) (page : List Dom)
    (hs : StaysInStep B C fromStr data p page) (ms : List (Mail I P))
    (hc : ∀ m ∈ ms, m ≠ .ws (.error .connectionClosed) ∧ ∀ q, m ≠ .whoAmI q)
    (pongs ws : List Message) (hpongs : ∀ m ∈ pongs, ∃ q, m = .pong q)
    (hw : Merge (messagesOf (loopRun C fromStr true (.waiting data) (.whoAmI p :: ms)).2) pongs ws)
    (hlen : ∀ m ∈ ws, (wireOf m).payload.length < 2 ^ 64) :
    (∀ bs bs', bs <+: bs' → bs' <+: (sendAll ws ⟨[], none⟩).2.out →
      ∃ h h', h <+: h' ∧ h' <+: .whoAmI p :: ms ∧ ShowsAfter B C data page bs h ∧ ShowsAfter B C data page bs' h') ∧
    ∃ st os d, loopRun C fromStr true (.waiting data) (.whoAmI p :: ms) = (.running st, os) ∧
      pageFrom B (sendAll ws ⟨[], none⟩).2.out page = page ++ [d] ∧ (C.render st.comp).1.ShownAs d := by
  have hm : messagesOf (loopRun C fromStr true (.waiting data) (.whoAmI p :: ms)).2 =
      ((sends (loopRun C fromStr true (.waiting data) (.whoAmI p :: ms)).2).map changesetText).map Message.text := by
    simp [messagesOf]
  rw [hm] at hw
  have hall := texts_part hw hpongs hlen
  refine ⟨?_, ?_⟩
  · intro bs bs' h1 h2
    have e2 := texts_mono (decode_mono h2)
    have e1 := texts_mono (decode_mono h1)
    rw [hall] at e2
    obtain ⟨l', g1, g2⟩ := map_prefix_inv e2
    rw [g2] at e1
    obtain ⟨l, g3, g4⟩ := map_prefix_inv e1
    obtain ⟨h', k1, k2, k3⟩ := shows_part hs hc g2 g1
    cases h' with
    | nil =>
      have : l = [] := by
        have : l' = [] := by rw [← k2]; rfl
        rw [this] at g3
        simpa using g3
      subst this
      refine ⟨[], [], List.prefix_rfl, by simp, Or.inl ⟨rfl, ?_⟩, k3⟩
      unfold pageFrom
      rw [g4]; rfl
    | cons m h'' =>
      rw [List.cons_prefix_cons] at k1
      obtain ⟨rfl, k1⟩ := k1
      rw [← k2] at g3
      obtain ⟨h, j1, _, j3⟩ := shows_part hs (fun m hm => hc m (k1.mem hm)) g4 g3
      exact ⟨h, _, j1, List.cons_prefix_cons.2 ⟨rfl, k1⟩, j3, k3⟩
  · obtain ⟨st, os, d, g1, g2, g3⟩ := hs ms hc
    refine ⟨st, os, d, g1, ?_, g3⟩
    unfold pageFrom
    rw [hall, pageAfter_changesets, g1]
    exact g2

/-- **C106, crash points.** The same when the connection fails after any number of bytes: what the sends leave on the wire shows a render the component
had. -/
theorem C106_failure (B : Browser) (C : Component D I S E P) (p : P) (data : D) (page : List Dom)
    (hs : StaysInStep B C fromStr data p page) (ms : List (Mail I P))
    (hc : ∀ m ∈ ms, m ≠ .ws (.error .connectionClosed) ∧ ∀ q, m ≠ .whoAmI q)
    (pongs ws : List Message) (hpongs : ∀ m ∈ pongs, ∃ q, m = .pong q)
    (hw : Merge (messagesOf (loopRun C fromStr true (.waiting data) (.whoAmI p :: ms)).2) pongs ws)
    (hlen : ∀ m ∈ ws, (wireOf m).payload.length < 2 ^ 64) (room : Nat) :
    ∃ h, h <+: .whoAmI p :: ms ∧ ShowsAfter B C data page (sendAll ws ⟨[], some room⟩).2.out h := by
  have e : (sendAll ws ⟨[], some room⟩).2.out <+: (sendAll ws ⟨[], none⟩).2.out := by
    rw [(C02_prefix_under_failure ws [] room).1, sendAll_none, funext observed_eq]
    exact List.take_prefix _ _
  obtain ⟨h, _, h1, h2, h3, _⟩ := (C106_any_moment B C p data page hs ms hc pongs ws hpongs hw hlen).1 _ _ List.prefix_rfl e
  exact ⟨h, h1.trans h2, h3⟩

theorem merge_right {α : Type} (as bs : List α) : Merge as bs (as ++ bs) := by
  induction as with
  | cons a as ih => exact .left ih
  | nil =>
    induction bs with
    | nil => exact .nil
    | cons b bs ih => exact .right ih

/-- non-vacuity: the counter, a click, and a pong between its two messages -/
example : ∃ (x y : Message) (pongs ws : List Message), (∀ m ∈ pongs, ∃ q, m = .pong q) ∧
    messagesOf (loopRun counter fromStr true (.waiting ()) (.whoAmI () :: [.ws (.ok (.text (eventText "inc" none)))])).2 = [x, y] ∧
    Merge [x, y] pongs ws ∧ ws = [x, .pong (some [1]), y] ∧ ∀ m ∈ ws, (wireOf m).payload.length < 2 ^ 64 := by
  have h : ∃ x y, messagesOf (loopRun counter fromStr true (.waiting ()) (.whoAmI () :: [.ws (.ok (.text (eventText "inc" none)))])).2 = [x, y] ∧
      (wireOf x).payload.length < 2 ^ 64 ∧ (wireOf y).payload.length < 2 ^ 64 := by
    match hm : messagesOf (loopRun counter fromStr true (.waiting ()) (.whoAmI () :: [.ws (.ok (.text (eventText "inc" none)))])).2 with
    | [x, y] =>
      have hl : ∀ m ∈ messagesOf (loopRun counter fromStr true (.waiting ()) (.whoAmI () :: [.ws (.ok (.text (eventText "inc" none)))])).2,
          (wireOf m).payload.length < 2 ^ 64 := by decide +kernel
      rw [hm] at hl
      exact ⟨x, y, rfl, hl x (by simp), hl y (by simp)⟩
    | [] =>
      exfalso
      have : (messagesOf (loopRun counter fromStr true (.waiting ()) (.whoAmI () :: [.ws (.ok (.text (eventText "inc" none)))])).2).length = 2 := by decide +kernel
      rw [hm] at this; simp at this
    | [_] =>
      exfalso
      have : (messagesOf (loopRun counter fromStr true (.waiting ()) (.whoAmI () :: [.ws (.ok (.text (eventText "inc" none)))])).2).length = 2 := by decide +kernel
      rw [hm] at this; simp at this
    | _ :: _ :: _ :: _ =>
      exfalso
      have : (messagesOf (loopRun counter fromStr true (.waiting ()) (.whoAmI () :: [.ws (.ok (.text (eventText "inc" none)))])).2).length = 2 := by decide +kernel
      rw [hm] at this; simp at this
  obtain ⟨x, y, h1, h2, h3⟩ := h
  refine ⟨x, y, [.pong (some [1])], _, by simp, h1, .left (.right (.left .nil)), rfl, ?_⟩
  intro m hm
  simp only [List.mem_cons, List.not_mem_nil, or_false] at hm
  rcases hm with rfl | rfl | rfl
  · exact h2
  · simp [wireOf]
  · exact h3

end Puck.Json

namespace Puck.Chat
open Rfc6455 Json

/-! ## The chat -/

variable {parse : String → Option ClientMessage} {fs : Nat → Bool} {ok : Nat → Except NextMessageError Message → Prop}

/-- A loop that has sent something goes on. -/
theorem sends_running {C : Component Unit LiveviewInput (Option Live) CoordinatorInput Nat} {ph : FinePhase} {m : Mail LiveviewInput Nat}
    (h : sends (loopStep C parse true ph m).2 ≠ []) : ∃ st, (loopStep C parse true ph m).1 = .running st := by
  have he : ∀ es : List CoordinatorInput, sends (es.map .effect) = [] := by
    intro es
    have := sends_effects es []
    simpa [sends] using this
  have hu : ∀ st i, sends (updateAndDiff C st i).2 ≠ [] → ∃ st', (updateAndDiff C st i).1 = .running st' := by
    intro st i
    simp only [updateAndDiff]
    split
    · intro h; exact absurd (he _) h
    · intro _; exact ⟨_, rfl⟩
  revert h
  fun_cases loopStep C parse true ph m
  all_goals first
    | exact hu _ _
    | (intro _; exact ⟨_, rfl⟩)
    | (intro h; exact absurd (he _) h)
    | (intro h; simp [sends] at h; done)
    | contradiction

theorem FineRun.reach {f : FineNet} (h : FineRun parse fs ok f) : FineSteps parse fs .init f := by
  induction h with
  | init => exact .refl _
  | snoc _ s _ ih => exact .snoc ih s

theorem connected_fresh {f f' : FineNet} (s : FineStep parse fs f f') {k : Nat} (hk : f.users k = none) {u : FineProcs} (hu : f'.users k = some u) :
    u.sent = [] := by
  have stay : ∀ {g : FineNet}, g.users k = none → g.users k = some u → u.sent = [] := fun e1 e2 => by rw [e1] at e2; cases e2
  have stay' : ∀ {g : FineNet} {j : Nat} {w w' : FineProcs}, g.users j = some w → g.users k = none → (g.set j w').users k = some u → u.sent = [] := by
    intro g j w w' e1 e2 e3
    by_cases e : k = j
    · subst e; rw [e1] at e2; cases e2
    · rw [FineNet.set_other e, e2] at e3; cases e3
  cases s with
  | connect j hj =>
    by_cases e : k = j
    · subst e
      rw [FineNet.set_same] at hu
      cases hu
      rfl
    · rw [FineNet.set_other e, hk] at hu; cases hu
  | forward j w i rest hw hi => exact stay' hw hk hu
  | read j w m hw => exact stay' hw hk hu
  | work j w m rest hw => exact stay' hw hk hu
  | ask j w m rest q hw => exact stay' hw hk hu
  | serve => exact stay hk hu
  | panic => exact stay hk hu
  | send j r d ds hs =>
    unfold FineNet.deliver at hu
    simp only at hu
    cases hd : f.users d.to with
    | none => rw [hd] at hu; exact stay hk hu
    | some w => rw [hd] at hu; exact stay' (g := { f with serving := some ⟨j, r, ds⟩ }) hd hk hu
  | reply j r w m hs hw ht => exact stay' (g := { f with serving := none }) hw hk hu
  | resume j w m r hw h1 h2 => exact stay' hw hk hu
  | die j w hw => exact stay' hw hk hu
  | shuffle => exact stay hk hu

/-- At some moment of the execution the component of `k` was alive, not waiting, and had sent exactly `l`. -/
def HadSent (parse : String → Option ClientMessage) (fs : Nat → Bool) (ok : Nat → Except NextMessageError Message → Prop) (f : FineNet) (k : Nat)
    (l : List (List WireOp)) : Prop :=
  ∃ f' u' v, FineRun parse fs ok f' ∧ FineSteps parse fs f' f ∧ f'.users k = some u' ∧ u'.live = some v ∧ u'.sent = l

theorem had_sent {f : FineNet} (h : FineRun parse fs ok f) {k : Nat} (hk : fs k = true) {u : FineProcs} (hu : f.users k = some u) :
    ∀ l, l <+: u.sent → l = [] ∨ HadSent parse fs ok f k l := by
  induction h generalizing u with
  | init => cases hu
  | @snoc b c h s hok ih =>
    intro l hl
    have step : ∀ {l}, HadSent parse fs ok b k l → HadSent parse fs ok c k l := by
      rintro l ⟨f', u', v, h1, h2, h3⟩
      exact ⟨f', u', v, h1, h2.snoc s, h3⟩
    cases hb : b.users k with
    | none =>
      left
      rw [connected_fresh s hb hu] at hl
      simpa using hl
    | some w =>
      have ih := ih hb
      obtain ⟨u', e1, e2⟩ := user_step s hb
      rw [hu] at e1
      cases e1
      have old : l <+: w.sent → l = [] ∨ HadSent parse fs ok c k l := fun e => (ih l e).imp id step
      have more : ∀ (C : Component Unit LiveviewInput (Option Live) CoordinatorInput Nat) (m : Mail LiveviewInput Nat),
          u.loop = (loopStep C parse (fs k) w.loop m).1 → u.alive = true → u.talk = .free →
          u.sent = w.sent ++ sends (loopStep C parse (fs k) w.loop m).2 → l = [] ∨ HadSent parse fs ok c k l := by
        intro C m g1 g2 g3 g4
        rw [g4] at hl
        rcases prefix_le_one (sends_le_one C parse (fs k) w.loop m) hl with e | e
        · exact old e
        · by_cases hs : sends (loopStep C parse (fs k) w.loop m).2 = []
          · rw [hs, List.append_nil] at e
            exact old (by rw [e]; exact List.prefix_rfl)
          · right
            rw [hk] at hs g1
            obtain ⟨st, hst⟩ := sends_running hs
            rw [hst] at g1
            have hr : FineRun parse fs ok c := .snoc h s hok
            have hne := (C104_no_panic parse fs c hr.reach k u hu g2 g3).2.2 st g1
            cases hv : st.comp with
            | none => exact absurd hv hne
            | some v => exact ⟨c, u, v, hr, .refl _, hu, by simp only [FineProcs.live, g1, g2, g3, hv], by rw [g4, e]⟩
      cases e2 with
      | same => exact old hl
      | got d => exact old hl
      | forward i rest hi => exact old hl
      | read m => exact old hl
      | work m rest h1 h2 h3 h4 => exact more _ m rfl h1 h2 rfl
      | ask m rest q h1 h2 h3 h4 => exact old hl
      | reply m r h1 => exact old hl
      | resume m r h1 h2 => exact more _ m rfl h1 rfl rfl
      | die => exact old hl

/-- **C106, chat.** In every execution of the chat in which user `k` types no `+` and whose first paint could be sent, and for every order, frame by frame, of
what the user's component sends and the reader's pongs: however many of the bytes have arrived, the browser shows the page as it was at first, or a view that
the user's component had at some moment of the execution; if all have arrived, and the component is alive and not waiting, it shows its current view. -/
theorem C106_chat (B : Browser) (hB : KnowsChat B) (firstSend : Nat → Bool) (k : Nat) (hk : firstSend k = true) (f : FineNet)
    (h : FineRun fromStr firstSend (fun j m => j = k → NoPlus fromStr m) f) (u : FineProcs) (hu : f.users k = some u)
    (page : List Dom) (hp : PageOk page) (pongs ws : List Message) (hpongs : ∀ m ∈ pongs, ∃ q, m = .pong q)
    (hw : Merge (u.sent.map fun ops => Message.text (changesetText ops)) pongs ws)
    (hlen : ∀ m ∈ ws, (wireOf m).payload.length < 2 ^ 64) :
    (∀ bs, bs <+: (sendAll ws ⟨[], none⟩).2.out → pageFrom B bs page = page ∨
      ∃ f' u' l d, FineSteps fromStr firstSend .init f' ∧ FineSteps fromStr firstSend f' f ∧ f'.users k = some u' ∧ u'.live = some l ∧
        pageFrom B bs page = page ++ [d] ∧ l.render.1.ShownAs d) ∧
    ∀ l, u.live = some l → ∃ d, pageFrom B (sendAll ws ⟨[], none⟩).2.out page = page ++ [d] ∧ l.render.1.ShownAs d := by
  have hm : (u.sent.map fun ops => Message.text (changesetText ops)) = (u.sent.map changesetText).map Message.text := by simp
  rw [hm] at hw
  have hall := texts_part hw hpongs hlen
  refine ⟨?_, ?_⟩
  · intro bs h1
    have e := texts_mono (decode_mono h1)
    rw [hall] at e
    obtain ⟨l, g1, g2⟩ := map_prefix_inv e
    unfold pageFrom
    rw [g2, pageAfter_changesets]
    rcases had_sent h hk hu l g1 with rfl | ⟨f', u', v, k1, k2, k3, k4, rfl⟩
    · exact Or.inl rfl
    · obtain ⟨d, j1, j2⟩ := C104_shown B hB fromStr firstSend k f' k1 u' k3 v k4 page hp
      exact Or.inr ⟨f', u', v, d, k1.reach, k2, k3, k4, j1, j2⟩
  · intro l hl
    obtain ⟨d, j1, j2⟩ := C104_shown B hB fromStr firstSend k f h u hu l hl page hp
    refine ⟨d, ?_, j2⟩
    unfold pageFrom
    rw [hall, pageAfter_changesets, j1]

/-- What the chat sends first fits in a frame. -/
theorem first_fits : ∀ ops, (Live.render (.uninitialized "")).1.diff none = some ops →
    (wireOf (.text (changesetText (serializeOps ops)))).payload.length < 2 ^ 64 := by
  have h : ((Live.render (.uninitialized "")).1.diff none).all fun ops =>
      decide ((wireOf (.text (changesetText (serializeOps ops)))).payload.length < 2 ^ 64) := by decide +kernel
  intro ops ho
  rw [ho] at h
  exact of_decide_eq_true h

/-- non-vacuity: a user connects, the first paint is sent, and a pong after it -/
example (firstSend : Nat → Bool) (hk : firstSend 0 = true) : ∃ f u l w, FineRun fromStr firstSend (fun j m => j = 0 → NoPlus fromStr m) f ∧
    f.users 0 = some u ∧ u.live = some l ∧ Merge (u.sent.map fun ops => Message.text (changesetText ops)) [.pong none] [w, .pong none] ∧
    ∀ m ∈ [w, .pong none], (wireOf m).payload.length < 2 ^ 64 := by
  obtain ⟨ops, ho⟩ := (C59_unkeyed_partial _ _ (render_unkeyed (.uninitialized "")) (render_unkeyed (.uninitialized ""))).2
  have h1 : loopStep (asker .closed) fromStr (firstSend 0) (.waiting ()) (.whoAmI 0) =
      (.running ⟨0, some (.uninitialized ""), (Live.render (.uninitialized "")).1, (Live.render (.uninitialized "")).2⟩, [.send (serializeOps ops)]) := by
    simp only [loopStep, asker, List.map_nil, List.nil_append, ho, hk, if_true]
  have h2 : requestOf fromStr (firstSend 0) (.waiting ()) (.whoAmI 0) = none := by simp [requestOf, h1, firstRequest]
  have s2 := FineStep.work (parse := fromStr) (firstSend := firstSend) _ 0 _ _ _
    (FineNet.set_same FineNet.init 0 ⟨[], .waiting (), [.whoAmI 0], .free, true, []⟩) rfl rfl rfl h2
  simp only [h1] at s2
  refine ⟨_, _, _, _, .snoc (.snoc .init (.connect .init 0 rfl) ?_) s2 ?_, FineNet.set_same _ _ _, rfl, .left (.right .nil), ?_⟩
  · intro j u u' m e1 e2 e3; cases e1
  · intro j u u' m e1 e2 e3 e4
    subst e4
    rw [FineNet.set_same] at e1 e2
    cases e1; cases e2
    simp at e3
  · intro m hm
    simp only [List.mem_cons, List.not_mem_nil, or_false] at hm
    rcases hm with rfl | rfl
    · exact first_fits ops ho
    · simp [wireOf]

end Puck.Chat
