import Verif.Spec.Session
import Verif.Props.Diff
/-!
# The component loop (C64 - C67)
-/
namespace Puck

variable {D I S E P : Type} {C : Component D I S E P} {parse : String → Option ClientMessage} {ok : Bool}

theorem asks_unique {ls : String → Option (Listener I)} {m : Mail I P} {i j : I} (hi : Asks parse ls m i) (hj : Asks parse ls m j) :
    i = j := by
  rcases hi with rfl | ⟨c, t, rfl, h1, h2⟩
  · rcases hj with h | ⟨c, t, h, -⟩
    · cases h; rfl
    · cases h
  · rcases hj with h | ⟨c', t', h, h1', h2'⟩
    · cases h
    · cases h
      rw [h1] at h1'
      cases h1'
      rcases h2 with h | h | ⟨f, v, h, hv, rfl⟩ <;> rcases h2' with h' | h' | ⟨f', v', h', hv', rfl⟩ <;> rw [h] at h' <;> cases h'
      · rfl
      · rfl
      · rw [hv] at hv'; cases hv'; rfl

/-- The loop's page and listeners are those of the component. -/
def LoopState.InSync (C : Component D I S E P) (st : LoopState I S P) : Prop := C.render st.comp = (st.dom, st.listeners)

theorem step_asks {st : LoopState I S P} {m : Mail I P} {i : I} (h : Asks parse st.listeners m i) :
    loopStep C parse ok (.running st) m = updateAndDiff C st i := by
  rcases h with rfl | ⟨c, t, rfl, h1, h | h | ⟨f, v, h, hv, rfl⟩⟩
  · rfl
  · simp only [loopStep, h1, h]
  · simp only [loopStep, h1, h]
  · simp only [loopStep, h1, h, hv]

theorem step_ignored {st : LoopState I S P} {m : Mail I P} (h : ∀ i, ¬ Asks parse st.listeners m i)
    (hc : m ≠ .ws (.error .connectionClosed)) (hw : ∀ q, m ≠ .whoAmI q) :
    loopStep C parse ok (.running st) m = (.running st, []) := by
  cases m with
  | input i => exact absurd (Or.inl rfl) (h i)
  | whoAmI q => exact absurd rfl (hw q)
  | ws r =>
    cases r with
    | error e =>
      cases e with
      | clientError => rfl
      | connectionClosed => exact absurd rfl hc
    | ok msg =>
      cases msg with
      | text c =>
        cases hp : parse c with
        | none => simp only [loopStep, hp]
        | some t =>
          cases hl : st.listeners t.listener with
          | none => simp only [loopStep, hp, hl]
          | some l =>
            cases l with
            | click i => exact absurd (Or.inr ⟨c, t, rfl, hp, Or.inl hl⟩) (h i)
            | submit i => exact absurd (Or.inr ⟨c, t, rfl, hp, Or.inr (Or.inl hl)⟩) (h i)
            | input f =>
              cases hv : t.payload with
              | none => simp only [loopStep, hp, hl, hv]
              | some v => exact absurd (Or.inr ⟨c, t, rfl, hp, Or.inr (Or.inr ⟨f, v, hl, hv, rfl⟩)⟩) (h (f v))
      | ping _ => rfl
      | pong _ => rfl
      | binary _ => rfl

theorem update_cases (C : Component D I S E P) {st : LoopState I S P} (hs : st.InSync C) (i : I) :
    ((C.render st.comp).1.diff (some (C.render (C.update st.comp i st.proc).1).1) = none ∧
      updateAndDiff C st i = (.crashed, (C.update st.comp i st.proc).2.map .effect)) ∨
    ∃ ops, (C.render st.comp).1.diff (some (C.render (C.update st.comp i st.proc).1).1) = some ops ∧
      updateAndDiff C st i = (.running ⟨st.proc, (C.update st.comp i st.proc).1, (C.render (C.update st.comp i st.proc).1).1,
        (C.render (C.update st.comp i st.proc).1).2⟩, (C.update st.comp i st.proc).2.map .effect ++ [.send (serializeOps ops)]) := by
  have hd : st.dom = (C.render st.comp).1 := by rw [hs]
  rw [← hd]
  cases h : st.dom.diff (some (C.render (C.update st.comp i st.proc).1).1) with
  | none => exact Or.inl ⟨rfl, by simp only [updateAndDiff, h]⟩
  | some ops => exact Or.inr ⟨ops, rfl, by simp only [updateAndDiff, h]⟩

theorem run_over (ms : List (Mail I P)) {ph : Phase D I S P} (h : ph = .stopped ∨ ph = .crashed ∨ ph = .unreachable) :
    loopRun C parse ok ph ms = (ph, []) := by
  induction ms with
  | nil => rfl
  | cons m ms ih =>
    have : loopStep C parse ok ph m = (ph, []) := by
      rcases h with rfl | rfl | rfl <;> cases m <;> rfl
    rw [loopRun, this]; simp only [ih]
    rfl

theorem run_append (ms ns : List (Mail I P)) (ph : Phase D I S P) :
    loopRun C parse ok ph (ms ++ ns) = ((loopRun C parse ok (loopRun C parse ok ph ms).1 ns).1,
      (loopRun C parse ok ph ms).2 ++ (loopRun C parse ok (loopRun C parse ok ph ms).1 ns).2) := by
  induction ms generalizing ph with
  | nil => rfl
  | cons m ms ih =>
    simp only [List.cons_append, loopRun, ih]
    simp

/-- From a loop in step, messages that leave it running form a session. -/
theorem run_running {st st' : LoopState I S P} {ms : List (Mail I P)} {os : List (Out E)} (hs : st.InSync C)
    (h : loopRun C parse ok (.running st) ms = (.running st', os)) :
    st'.proc = st.proc ∧ st'.InSync C ∧ ∃ is, Session C parse st.proc st.comp ms is st'.comp ∧
      expectedOuts C st.proc st.comp is = some os := by
  induction ms generalizing st os with
  | nil =>
    rw [loopRun] at h
    cases h
    exact ⟨rfl, hs, [], .nil _, rfl⟩
  | cons m ms ih =>
    have hl : (C.render st.comp).2 = st.listeners := by rw [hs]
    by_cases hask : ∃ i, Asks parse st.listeners m i
    · obtain ⟨i, hi⟩ := hask
      rw [loopRun, step_asks hi] at h
      rcases update_cases C hs i with ⟨-, h2⟩ | ⟨ops, h1, h2⟩
      · rw [h2] at h; simp only [run_over ms (Or.inr (Or.inl rfl))] at h
        cases h
      · rw [h2] at h
        cases hr : loopRun C parse ok (.running ⟨st.proc, (C.update st.comp i st.proc).1, (C.render (C.update st.comp i st.proc).1).1,
            (C.render (C.update st.comp i st.proc).1).2⟩) ms with
        | mk ph os' =>
          simp only [hr] at h
          cases h
          obtain ⟨h3, h4, is, h5, h6⟩ := ih (st := ⟨st.proc, (C.update st.comp i st.proc).1, (C.render (C.update st.comp i st.proc).1).1,
            (C.render (C.update st.comp i st.proc).1).2⟩) rfl hr
          refine ⟨h3, h4, i :: is, .take (by rw [hl]; exact hi) h5, ?_⟩
          simp only at h6
          simp only [expectedOuts, h1, h6]
    · by_cases hc : m = .ws (.error .connectionClosed)
      · subst hc
        rw [loopRun] at h
        have : loopStep C parse ok (.running st) (.ws (.error .connectionClosed)) = (.stopped, [.dropped]) := rfl
        rw [this] at h; simp only [run_over ms (Or.inl rfl)] at h
        cases h
      · by_cases hw : ∃ q, m = .whoAmI q
        · obtain ⟨q, rfl⟩ := hw
          rw [loopRun] at h
          have : loopStep C parse ok (.running st) (.whoAmI q) = (.unreachable, []) := rfl
          rw [this] at h; simp only [run_over ms (Or.inr (Or.inr rfl))] at h
          cases h
        · have hno : ∀ i, ¬ Asks parse st.listeners m i := fun i hi => hask ⟨i, hi⟩
          have hw' : ∀ q, m ≠ .whoAmI q := fun q hq => hw ⟨q, hq⟩
          rw [loopRun, step_ignored hno hc hw'] at h
          cases hr : loopRun C parse ok (.running st) ms with
          | mk ph os' =>
            simp only [hr] at h
            cases h
            obtain ⟨h3, h4, is, h5, h6⟩ := ih hs hr
            exact ⟨h3, h4, is, .skip (by rw [hl]; exact hno) hc hw' h5, h6⟩

/-- A session is what the loop does. -/
theorem run_session {st : LoopState I S P} {ms : List (Mail I P)} {is : List I} {s' : S} {os : List (Out E)} (hs : st.InSync C)
    (h : Session C parse st.proc st.comp ms is s') (ho : expectedOuts C st.proc st.comp is = some os) :
    loopRun C parse ok (.running st) ms = (.running ⟨st.proc, s', (C.render s').1, (C.render s').2⟩, os) := by
  generalize hp : st.proc = p at h
  generalize hc : st.comp = s at h
  induction h generalizing st os with
  | nil s =>
    rw [hp, hc] at ho
    cases ho
    subst hc hp
    rw [loopRun, hs]
  | @skip s m ms is s' h1 h2 h3 _ ih =>
    have hl : (C.render s).2 = st.listeners := by rw [← hc, hs]
    rw [hl] at h1
    rw [loopRun, step_ignored h1 h2 h3]
    simp only [ih hs ho hp hc]
    simp
  | @take s m ms i is s' h1 _ ih =>
    have hl : (C.render s).2 = st.listeners := by rw [← hc, hs]
    rw [hl] at h1
    rw [loopRun, step_asks h1]
    rw [hp, hc, expectedOuts] at ho
    rcases update_cases C hs i with ⟨h2, h3⟩ | ⟨ops, h2, h3⟩
    · rw [hc, hp] at h2
      rw [h2] at ho
      cases ho
    · rw [hc, hp] at h2
      rw [h2] at ho
      cases he : expectedOuts C p (C.update s i p).1 is with
      | none => rw [he] at ho; cases ho
      | some rest =>
        rw [he] at ho
        cases ho
        rw [h3, hc, hp]
        simp only [ih (st := ⟨p, (C.update s i p).1, (C.render (C.update s i p).1).1, (C.render (C.update s i p).1).2⟩) rfl he rfl rfl]

theorem run_start (data : D) (p : P) (ms : List (Mail I P)) :
    loopRun C parse true (.waiting data) (.whoAmI p :: ms) =
      ((loopRun C parse true (.running ⟨p, (C.new data p).1, (C.render (C.new data p).1).1, (C.render (C.new data p).1).2⟩) ms).1,
        opening C data p ++
          (loopRun C parse true (.running ⟨p, (C.new data p).1, (C.render (C.new data p).1).1, (C.render (C.new data p).1).2⟩) ms).2) := by
  simp only [loopRun, loopStep, Element.diff, opening, if_true]

/-! ## C64 -/

/-- **C64.** Whatever messages a started loop has received, if it is still running then it holds its own handle, and the
page it compares with and the listeners it accepts are those of the component's current state, which is the one
reached by the updates the messages asked for. -/
theorem C64_in_step (C : Component D I S E P) (parse : String → Option ClientMessage) (ok : Bool) (data : D) (p : P)
    (ms : List (Mail I P)) (st : LoopState I S P)
    (h : (loopRun C parse ok (.waiting data) (.whoAmI p :: ms)).1 = .running st) :
    st.proc = p ∧ st.dom = (C.render st.comp).1 ∧ st.listeners = (C.render st.comp).2 ∧
      ∃ is, Session C parse p (C.new data p).1 ms is st.comp := by
  cases ok with
  | false =>
    have : loopStep C parse false (.waiting data) (.whoAmI p) =
        (.crashed, opening C data p) := by
      simp only [loopStep, Element.diff, opening]; rfl
    rw [loopRun, this] at h; simp only [run_over ms (Or.inr (Or.inl rfl))] at h
    cases h
  | true =>
    rw [run_start] at h
    cases hr : loopRun C parse true (.running ⟨p, (C.new data p).1, (C.render (C.new data p).1).1, (C.render (C.new data p).1).2⟩) ms with
    | mk ph os =>
      rw [hr] at h
      simp only at h
      rw [h] at hr
      obtain ⟨h1, h2, is, h3, -⟩ := run_running (C := C) (st := ⟨p, (C.new data p).1, (C.render (C.new data p).1).1, (C.render (C.new data p).1).2⟩) rfl hr
      have h2' : C.render st.comp = (st.dom, st.listeners) := h2
      rw [h2']
      exact ⟨h1, rfl, rfl, is, h3⟩

/-! ## C65 -/

/-- **C65.** In every state a loop reaches, a message (other than the end of the connection) that asks for an update updates the
component with exactly that input and sends exactly one changeset; any other message changes nothing and sends nothing. -/
theorem C65_events (C : Component D I S E P) (parse : String → Option ClientMessage) (ok : Bool) (data : D) (p : P)
    (ms : List (Mail I P)) (st : LoopState I S P)
    (h : (loopRun C parse ok (.waiting data) (.whoAmI p :: ms)).1 = .running st) (msg : Except NextMessageError Message)
    (hc : msg ≠ .error .connectionClosed) :
    (∀ i, Asks parse (C.render st.comp).2 (.ws msg : Mail I P) i →
      (∃ ops, (C.render st.comp).1.diff (some (C.render (C.update st.comp i p).1).1) = some ops ∧
        loopStep C parse ok (.running st) (.ws msg) =
          (.running ⟨p, (C.update st.comp i p).1, (C.render (C.update st.comp i p).1).1, (C.render (C.update st.comp i p).1).2⟩,
            (C.update st.comp i p).2.map .effect ++ [.send (serializeOps ops)])) ∨
      ((C.render st.comp).1.diff (some (C.render (C.update st.comp i p).1).1) = none ∧
        (loopStep C parse ok (.running st) (.ws msg)).1 = .crashed)) ∧
    ((∀ i, ¬ Asks parse (C.render st.comp).2 (.ws msg : Mail I P) i) →
      loopStep C parse ok (.running st) (.ws msg) = (.running st, [])) := by
  obtain ⟨h1, h2, h3, -⟩ := C64_in_step C parse ok data p ms st h
  subst h1
  have hs : st.InSync C := by
    show C.render st.comp = (st.dom, st.listeners)
    rw [h2, h3]
  rw [← h3]
  refine ⟨fun i hi => ?_, fun hno => step_ignored hno (by intro e; cases e; exact hc rfl) (fun q e => by cases e)⟩
  rw [step_asks hi]
  rcases update_cases C hs i with ⟨h4, h5⟩ | ⟨ops, h4, h5⟩
  · right
    rw [h4, h5]
    exact ⟨rfl, rfl⟩
  · exact Or.inl ⟨ops, h4, h5⟩

/-- **C65 (which messages ask).** Protocol errors, binary messages, pings and pongs, text that is not a client
message, an unknown listener, and an input listener without a value ask for nothing; click and submit listeners ask for the same
update whatever the payload. -/
theorem C65_ignored (parse : String → Option ClientMessage) (ls : String → Option (Listener I)) :
    (∀ i e, ¬ Asks parse ls (.ws (.error e) : Mail I P) i) ∧
    (∀ i b, ¬ Asks parse ls (.ws (.ok (.binary b)) : Mail I P) i) ∧
    (∀ i b, ¬ Asks parse ls (.ws (.ok (.ping b)) : Mail I P) i) ∧
    (∀ i b, ¬ Asks parse ls (.ws (.ok (.pong b)) : Mail I P) i) ∧
    (∀ i s, parse s = none → ¬ Asks parse ls (.ws (.ok (.text s)) : Mail I P) i) ∧
    (∀ i s t, parse s = some t → ls t.listener = none → ¬ Asks parse ls (.ws (.ok (.text s)) : Mail I P) i) ∧
    (∀ i s t f, parse s = some t → ls t.listener = some (.input f) → t.payload = none → ¬ Asks parse ls (.ws (.ok (.text s)) : Mail I P) i) ∧
    (∀ s t f v, parse s = some t → ls t.listener = some (.input f) → t.payload = some v → Asks parse ls (.ws (.ok (.text s)) : Mail I P) (f v)) ∧
    (∀ s t i, parse s = some t → ls t.listener = some (.click i) ∨ ls t.listener = some (.submit i) → Asks parse ls (.ws (.ok (.text s)) : Mail I P) i) := by
  refine ⟨?_, ?_, ?_, ?_, ?_, ?_, ?_, ?_, ?_⟩
  · rintro i e (h | ⟨c, t, h, -⟩) <;> cases h
  · rintro i e (h | ⟨c, t, h, -⟩) <;> cases h
  · rintro i e (h | ⟨c, t, h, -⟩) <;> cases h
  · rintro i e (h | ⟨c, t, h, -⟩) <;> cases h
  · rintro i s hp (h | ⟨c, t, h, h1, -⟩) <;> cases h
    rw [hp] at h1; cases h1
  · rintro i s t hp hl (h | ⟨c, t', h, h1, h2⟩) <;> cases h
    rw [hp] at h1; cases h1
    rw [hl] at h2
    rcases h2 with h | h | ⟨_, _, h, _⟩ <;> cases h
  · rintro i s t f hp hl hv (h | ⟨c, t', h, h1, h2⟩) <;> cases h
    rw [hp] at h1; cases h1
    rw [hl, hv] at h2
    rcases h2 with h | h | ⟨_, _, _, h, _⟩ <;> cases h
  · intro s t f v hp hl hv
    exact Or.inr ⟨s, t, rfl, hp, Or.inr (Or.inr ⟨f, v, hl, hv, rfl⟩)⟩
  · rintro s t i hp (h | h)
    · exact Or.inr ⟨s, t, rfl, hp, Or.inl h⟩
    · exact Or.inr ⟨s, t, rfl, hp, Or.inr (Or.inl h)⟩

/-! ## C66 -/

/-- **C66.** In every session whose changesets can be computed, what others see is: the effects of `new` and the first
paint; then for each update asked for, in order, its effects and one changeset from the render before to the render
after; nothing else. -/
theorem C66_trace (C : Component D I S E P) (parse : String → Option ClientMessage) (data : D) (p : P) (ms : List (Mail I P))
    (is : List I) (s' : S) (os : List (Out E)) (h : Session C parse p (C.new data p).1 ms is s')
    (ho : expectedOuts C p (C.new data p).1 is = some os) :
    loopRun C parse true (.waiting data) (.whoAmI p :: ms) =
      (.running ⟨p, s', (C.render s').1, (C.render s').2⟩, opening C data p ++ os) := by
  rw [run_start, run_session (C := C) (st := ⟨p, (C.new data p).1, (C.render (C.new data p).1).1, (C.render (C.new data p).1).2⟩) rfl h ho]

/-- Without keys every changeset can be computed. -/
theorem expected_unkeyed (hu : ∀ s, (C.render s).1.Unkeyed) (p : P) (s : S) (is : List I) : ∃ os, expectedOuts C p s is = some os := by
  induction is generalizing s with
  | nil => exact ⟨[], rfl⟩
  | cons i is ih =>
    obtain ⟨os, h1⟩ := ih (C.update s i p).1
    obtain ⟨⟨ops, h2⟩, -⟩ := C59_unkeyed_partial (C.render s).1 (C.render (C.update s i p).1).1 (hu _) (hu _)
    exact ⟨_, by simp only [expectedOuts, h1, h2]; rfl⟩

/-- Messages that neither close the connection nor claim an identity always form a session. -/
theorem session_total (C : Component D I S E P) (parse : String → Option ClientMessage) (p : P) (s : S) (ms : List (Mail I P))
    (hc : ∀ m ∈ ms, m ≠ .ws (.error .connectionClosed) ∧ ∀ q, m ≠ .whoAmI q) : ∃ is s', Session C parse p s ms is s' := by
  induction ms generalizing s with
  | nil => exact ⟨[], s, .nil s⟩
  | cons m ms ih =>
    have hc' := fun x hx => hc x (List.mem_cons_of_mem _ hx)
    by_cases hask : ∃ i, Asks parse (C.render s).2 m i
    · obtain ⟨i, hi⟩ := hask
      obtain ⟨is, s', h⟩ := ih (C.update s i p).1 hc'
      exact ⟨i :: is, s', .take hi h⟩
    · obtain ⟨is, s', h⟩ := ih s hc'
      exact ⟨is, s', .skip (fun i hi => hask ⟨i, hi⟩) (hc m (by simp)).1 (hc m (by simp)).2 h⟩

/-- **C66 (without keys).** For components whose renders have no keys (all that `into_element` builds), every history
without a close is such a session: nothing ever crashes. -/
theorem C66_unkeyed (C : Component D I S E P) (hu : ∀ s, (C.render s).1.Unkeyed) (parse : String → Option ClientMessage)
    (data : D) (p : P) (ms : List (Mail I P)) (hc : ∀ m ∈ ms, m ≠ .ws (.error .connectionClosed) ∧ ∀ q, m ≠ .whoAmI q) :
    ∃ is s' os, Session C parse p (C.new data p).1 ms is s' ∧ expectedOuts C p (C.new data p).1 is = some os ∧
      loopRun C parse true (.waiting data) (.whoAmI p :: ms) =
        (.running ⟨p, s', (C.render s').1, (C.render s').2⟩, opening C data p ++ os) := by
  obtain ⟨is, s', h⟩ := session_total C parse p (C.new data p).1 ms hc
  obtain ⟨os, ho⟩ := expected_unkeyed hu p (C.new data p).1 is
  exact ⟨is, s', os, h, ho, C66_trace C parse data p ms is s' os h ho⟩

/-! ## C67 -/

/-- **C67.** Once a running loop has received the end of the connection it drops the component, and whatever arrives later it
does nothing more and sends nothing more. -/
theorem C67_closed (C : Component D I S E P) (parse : String → Option ClientMessage) (ok : Bool) (data : D) (p : P)
    (ms later : List (Mail I P)) (st : LoopState I S P)
    (h : (loopRun C parse ok (.waiting data) (.whoAmI p :: ms)).1 = .running st) :
    loopRun C parse ok (.waiting data) (.whoAmI p :: ms ++ .ws (.error .connectionClosed) :: later) =
      (.stopped, (loopRun C parse ok (.waiting data) (.whoAmI p :: ms)).2 ++ [.dropped]) := by
  rw [run_append, h, loopRun]
  have : loopStep C parse ok (.running st) (.ws (.error .connectionClosed)) = (.stopped, [.dropped]) := rfl
  rw [this]; simp only [run_over later (Or.inl rfl)]
  rfl

/-! ## non-vacuity -/

/-- a counter: one click listener, one input listener that sets it -/
def counter : Component Unit Nat Nat String Unit where
  new := fun _ _ => (0, ["hello"])
  update := fun s i _ => (s + i, ["now " ++ toString (s + i)])
  render := fun s => (⟨0, "div", [], [], [⟨1, "p", [], [], [], some (toString s), none⟩, ⟨2, "input", [], [⟨"inc", "click"⟩], [], none, none⟩], none, none⟩,
    fun n => if n = "inc" then some (.click 1) else if n = "len" then some (.input String.length) else none)

/-- reads `name` or `name=value` -/
def toyParse (s : String) : Option ClientMessage :=
  if s = "inc" then some ⟨"inc", none⟩ else if s = "len=four" then some ⟨"len", some "four"⟩ else
    if s = "len" then some ⟨"len", none⟩ else none

/-- the history: a click, a ping, an unknown text, an input without value, an input, a value, then the connection ends -/
def toyHistory : List (Mail Nat Unit) :=
  [.ws (.ok (.text "inc")), .ws (.ok (.ping none)), .ws (.ok (.text "?")), .ws (.ok (.text "len")), .input 5, .ws (.ok (.text "len=four"))]

/-- the run of the history: three updates, three changesets -/
example : (loopRun counter toyParse true (.waiting ()) (.whoAmI () :: toyHistory)).2 =
    opening counter () () ++
    [.effect "now 1", .send [⟨"1", "setText", some "1"⟩], .effect "now 6", .send [⟨"1", "setText", some "6"⟩],
     .effect "now 10", .send [⟨"1", "setText", some "10"⟩]] := by
  decide +kernel

/-- the hypotheses of C64, C65 and C67: the loop is still running after the history -/
example : ∃ st, (loopRun counter toyParse true (.waiting ()) (.whoAmI () :: toyHistory)).1 = .running st ∧ st.comp = 10 := by
  obtain ⟨is, s', os, h1, h2, h3⟩ := C66_unkeyed counter (fun s => by simp [counter, Element.Unkeyed, UnkeyedAll]) toyParse () ()
    toyHistory (by simp [toyHistory])
  rw [h3]
  refine ⟨_, rfl, ?_⟩
  have : (loopRun counter toyParse true (.waiting ()) (.whoAmI () :: toyHistory)).1 = .running ⟨(), 10, (counter.render 10).1, (counter.render 10).2⟩ := by
    rfl
  rw [h3] at this
  cases this
  rfl

end Puck
