import Verif.Spec.FairChat
import Verif.Props.ChatFine
/-!
# Fair executions of the chat: one process at a time
-/
namespace Puck.Chat

variable {parse : String → Option ClientMessage} {fs : Nat → Bool}

/-! ## What one step does to one connection and to the coordinator -/

/-- What one step can do to one connection. -/
inductive UserStep (parse : String → Option ClientMessage) (b : Bool) : FineProcs → FineProcs → Prop
  | same (u) : UserStep parse b u u
  | got (u d) : UserStep parse b u { u with inbox := u.inbox ++ [d] }
  | forward (u i rest) : u.inbox = i :: rest → UserStep parse b u { u with inbox := rest, loopBox := u.loopBox ++ [.input i] }
  | read (u m) : UserStep parse b u { u with loopBox := u.loopBox ++ [.ws m] }
  | work (u m rest) : u.alive = true → u.talk = .free → u.loopBox = m :: rest → requestOf parse b u.loop m = none →
      UserStep parse b u { u with
        loop := (loopStep (asker .closed) parse b u.loop m).1
        loopBox := rest
        sent := u.sent ++ sends (loopStep (asker .closed) parse b u.loop m).2 }
  | ask (u m rest q) : u.alive = true → u.talk = .free → u.loopBox = m :: rest → requestOf parse b u.loop m = some q →
      UserStep parse b u { u with loopBox := rest, talk := .asked m }
  | reply (u m r) : u.talk = .asked m → UserStep parse b u { u with talk := .answered m r }
  | resume (u m r) : u.alive = true → u.talk = .answered m r →
      UserStep parse b u { u with
        loop := (loopStep (asker r) parse b u.loop m).1
        talk := .free
        sent := u.sent ++ sends (loopStep (asker r) parse b u.loop m).2 }
  | die (u) : UserStep parse b u { u with alive := false }

theorem set_step {b : Bool} {f : FineNet} {k j : Nat} {u u' w : FineProcs} (hk : f.users k = some u) (h : UserStep parse b u u')
    (hj : f.users j = some w) (hb : j = k → b = fs j) : ∃ w', (f.set k u').users j = some w' ∧ UserStep parse (fs j) w w' := by
  by_cases e : j = k
  · subst e
    rw [hk] at hj
    cases hj
    rw [hb rfl] at h
    exact ⟨u', FineNet.set_same _ _ _, h⟩
  · rw [FineNet.set_other e]
    exact ⟨w, hj, .same w⟩

theorem user_step {f f' : FineNet} (h : FineStep parse fs f f') {k : Nat} {u : FineProcs} (hu : f.users k = some u) :
    ∃ u', f'.users k = some u' ∧ UserStep parse (fs k) u u' := by
  have stay : ∀ {f'' : FineNet}, f''.users = f.users → ∃ u', f''.users k = some u' ∧ UserStep parse (fs k) u u' :=
    fun e => ⟨u, by rw [e]; exact hu, .same u⟩
  cases h with
  | connect j hj =>
    have e : k ≠ j := by rintro rfl; rw [hu] at hj; cases hj
    exact ⟨u, by rw [FineNet.set_other e]; exact hu, .same u⟩
  | forward j w i rest hw hi => exact set_step (b := fs j) hw (.forward w i rest hi) hu fun e => by rw [e]
  | read j w m hw => exact set_step (b := fs j) hw (.read w m) hu fun e => by rw [e]
  | work j w m rest hw h1 h2 h3 h4 => exact set_step (b := fs j) hw (.work w m rest h1 h2 h3 h4) hu fun e => by rw [e]
  | ask j w m rest q hw h1 h2 h3 h4 =>
    obtain ⟨u', e1, e2⟩ := set_step (b := fs j) hw (.ask w m rest q h1 h2 h3 h4) hu fun e => by rw [e]
    exact ⟨u', e1, e2⟩
  | serve j q queue srv r ds h1 h2 h3 h4 => exact stay rfl
  | panic j q queue h1 h2 h3 h4 => exact stay rfl
  | send j r d ds hs =>
    unfold FineNet.deliver
    cases hd : f.users d.to with
    | none => exact stay rfl
    | some w =>
      exact set_step (f := { f with serving := some ⟨j, r, ds⟩ }) (b := fs d.to) hd (.got w d.msg) hu fun e => by rw [e]
  | reply j r w m hs hw ht => exact set_step (f := { f with serving := none }) (b := fs j) hw (.reply w m r ht) hu fun e => by rw [e]
  | resume j w m r hw h1 h2 => exact set_step (b := fs j) hw (.resume w m r h1 h2) hu fun e => by rw [e]
  | die j w hw => exact set_step (b := fs j) hw (.die w) hu fun e => by rw [e]
  | shuffle us hp => exact stay rfl

/-- What one step can do to the coordinator's mailbox and to what it is doing. -/
theorem coord_step {f f' : FineNet} (h : FineStep parse fs f f') (hd : f'.dead = false) :
    (f'.serving = f.serving ∧ ∃ more, f'.queue = f.queue ++ more) ∨
    (f.serving = none ∧ ∃ k q rest r ds, f.queue = (k, q) :: rest ∧ f'.queue = rest ∧ f'.serving = some ⟨k, r, ds⟩ ∧
      f.srv.handle q = some (f'.srv, r, ds)) ∨
    (∃ k r d ds, f.serving = some ⟨k, r, d :: ds⟩ ∧ f'.serving = some ⟨k, r, ds⟩ ∧ f'.queue = f.queue ∧
      ∀ u, f.users d.to = some u → f'.users d.to = some { u with inbox := u.inbox ++ [d.msg] }) ∨
    (∃ k r u m, f.serving = some ⟨k, r, []⟩ ∧ f'.serving = none ∧ f'.queue = f.queue ∧ f.users k = some u ∧ u.talk = .asked m ∧
      f'.users k = some { u with talk := .answered m r }) := by
  cases h with
  | connect j hj => exact Or.inl ⟨rfl, [], by simp [FineNet.set]⟩
  | forward j w i rest hw hi => exact Or.inl ⟨rfl, [], by simp [FineNet.set]⟩
  | read j w m hw => exact Or.inl ⟨rfl, [], by simp [FineNet.set]⟩
  | work j w m rest hw h1 h2 h3 h4 => exact Or.inl ⟨rfl, [], by simp [FineNet.set]⟩
  | ask j w m rest q hw h1 h2 h3 h4 => exact Or.inl ⟨rfl, [(j, q)], rfl⟩
  | serve j q queue srv r ds h1 h2 h3 h4 => exact Or.inr (Or.inl ⟨h2, j, q, queue, r, ds, h3, rfl, rfl, h4⟩)
  | panic j q queue h1 h2 h3 h4 => cases hd
  | send j r d ds hs =>
    refine Or.inr (Or.inr (Or.inl ⟨j, r, d, ds, hs, ?_⟩))
    unfold FineNet.deliver
    cases hd : f.users d.to with
    | none => exact ⟨rfl, rfl, by intro u hu; cases hu⟩
    | some w =>
      refine ⟨rfl, rfl, ?_⟩
      rintro u ⟨⟩
      exact FineNet.set_same _ _ _
  | reply j r w m hs hw ht =>
    exact Or.inr (Or.inr (Or.inr ⟨j, r, w, m, hs, rfl, rfl, hw, ht, FineNet.set_same _ _ _⟩))
  | resume j w m r hw h1 h2 => exact Or.inl ⟨rfl, [], by simp [FineNet.set]⟩
  | die j w hw => exact Or.inl ⟨rfl, [], by simp [FineNet.set]⟩
  | shuffle us hp => exact Or.inl ⟨rfl, [], by simp⟩

/-! ## Along an execution -/

variable (x : ChatExecution parse fs)

theorem ChatExecution.reach (i : Nat) : FineSteps parse fs .init (x.state i) := by
  induction i with
  | zero => rw [x.start]; exact .refl _
  | succ i ih =>
    rcases x.step i with h | h
    · rw [h]; exact ih
    · exact .snoc ih h

theorem ChatExecution.alive (i : Nat) : (x.state i).dead = false := (C104_no_deadlock parse fs _ (x.reach i)).1

theorem ChatExecution.user {i k : Nat} {u : FineProcs} (h : (x.state i).users k = some u) :
    ∃ u', (x.state (i + 1)).users k = some u' ∧ UserStep parse (fs k) u u' := by
  rcases x.step i with e | e
  · rw [e]; exact ⟨u, h, .same u⟩
  · exact user_step e h

theorem ChatExecution.later {i k : Nat} {u : FineProcs} (h : (x.state i).users k = some u) (j : Nat) (hj : i ≤ j) :
    ∃ u', (x.state j).users k = some u' := by
  induction j with
  | zero => have : i = 0 := by omega
            subst this; exact ⟨u, h⟩
  | succ j ih =>
    by_cases e : i = j + 1
    · subst e; exact ⟨u, h⟩
    · obtain ⟨w, hw⟩ := ih (by omega)
      obtain ⟨w', h1, _⟩ := x.user hw
      exact ⟨w', h1⟩

theorem ChatExecution.coord (i : Nat) :
    ((x.state (i + 1)).serving = (x.state i).serving ∧ ∃ more, (x.state (i + 1)).queue = (x.state i).queue ++ more) ∨
    ((x.state i).serving = none ∧ ∃ k q rest r ds, (x.state i).queue = (k, q) :: rest ∧ (x.state (i + 1)).queue = rest ∧
      (x.state (i + 1)).serving = some ⟨k, r, ds⟩ ∧ (x.state i).srv.handle q = some ((x.state (i + 1)).srv, r, ds)) ∨
    (∃ k r d ds, (x.state i).serving = some ⟨k, r, d :: ds⟩ ∧ (x.state (i + 1)).serving = some ⟨k, r, ds⟩ ∧ (x.state (i + 1)).queue = (x.state i).queue ∧
      ∀ u, (x.state i).users d.to = some u → (x.state (i + 1)).users d.to = some { u with inbox := u.inbox ++ [d.msg] }) ∨
    (∃ k r u m, (x.state i).serving = some ⟨k, r, []⟩ ∧ (x.state (i + 1)).serving = none ∧ (x.state (i + 1)).queue = (x.state i).queue ∧
      (x.state i).users k = some u ∧ u.talk = .asked m ∧ (x.state (i + 1)).users k = some { u with talk := .answered m r }) := by
  rcases x.step i with e | e
  · rw [e]; exact Or.inl ⟨rfl, [], by simp⟩
  · exact coord_step e (x.alive (i + 1))

/-- Either something holds for ever, or there is a first moment at which it stops. -/
theorem forever_or {p : Nat → Prop} (i : Nat) (h : p i) : (∀ j, i ≤ j → p j) ∨ ∃ j, i ≤ j ∧ (∀ l, i ≤ l → l ≤ j → p l) ∧ ¬ p (j + 1) := by
  by_cases hall : ∀ j, i ≤ j → p j
  · exact Or.inl hall
  · right
    have : ∃ d, ¬ p (i + d) := by
      apply Classical.byContradiction
      intro hn
      apply hall
      intro j hj
      apply Classical.byContradiction
      intro hp
      exact hn ⟨j - i, by rw [show i + (j - i) = j by omega]; exact hp⟩
    obtain ⟨d, hd⟩ := this
    induction d using Nat.strongRecOn with
    | ind d ih =>
      by_cases hlt : ∃ e, e < d ∧ ¬ p (i + e)
      · obtain ⟨e, h1, h2⟩ := hlt
        exact ih e h1 h2
      · cases d with
        | zero => exact absurd h hd
        | succ d =>
          refine ⟨i + d, by omega, ?_, hd⟩
          intro l h1 h2
          apply Classical.byContradiction
          intro hp
          exact hlt ⟨l - i, by omega, by rw [show i + (l - i) = l by omega]; exact hp⟩

variable {x}

/-! ## The coordinator -/

/-- While it serves a request, the coordinator gets to the end: it sends every broadcast, and the reply. -/
theorem served (hf : x.Fair) (i : Nat) {k : Nat} {r : LiveviewInput} {ds : List Delivery} (h : (x.state i).serving = some ⟨k, r, ds⟩) :
    ∃ j u m, i ≤ j ∧ (∃ more, (x.state (j + 1)).queue = (x.state i).queue ++ more) ∧ (x.state (j + 1)).serving = none ∧
      (x.state j).users k = some u ∧ u.talk = .asked m ∧ (x.state (j + 1)).users k = some { u with talk := .answered m r } := by
  generalize hn : ds.length = n
  induction n using Nat.strongRecOn generalizing i ds with
  | ind n ih =>
    subst hn
    rcases forever_or (p := fun j => (x.state j).serving = some ⟨k, r, ds⟩ ∧ ∃ more, (x.state j).queue = (x.state i).queue ++ more) i
      ⟨h, [], by simp⟩ with hall | ⟨j, hij, hp, hnp⟩
    · obtain ⟨j, hij, hm⟩ := hf.coordinator i fun j hj => ⟨x.alive j, Or.inr (by rw [(hall j hj).1]; simp)⟩
      exact absurd ((hall j hij).1.trans (hall (j + 1) (by omega)).1.symm) hm
    · obtain ⟨hs, more, hq⟩ := hp j hij (Nat.le_refl _)
      rcases x.coord j with ⟨e1, more', e2⟩ | ⟨e1, _⟩ | ⟨k', r', d, ds', e1, e2, e3, e4⟩ | ⟨k', r', u, m, e1, e2, e3, e4, e5, e6⟩
      · exact absurd ⟨e1.trans hs, more ++ more', by rw [e2, hq, List.append_assoc]⟩ hnp
      · rw [hs] at e1; cases e1
      · rw [hs] at e1
        simp only [Option.some.injEq, Serving.mk.injEq] at e1
        obtain ⟨rfl, rfl, rfl⟩ := e1
        obtain ⟨j', u, m, g1, ⟨more', g2⟩, g3⟩ := ih ds'.length (by simp) (j + 1) e2 rfl
        exact ⟨j', u, m, by omega, ⟨more ++ more', by rw [g2, e3, hq, List.append_assoc]⟩, g3⟩
      · rw [hs] at e1
        simp only [Option.some.injEq, Serving.mk.injEq] at e1
        obtain ⟨rfl, rfl, rfl⟩ := e1
        exact ⟨j, u, m, hij, ⟨more, by rw [e3, hq]⟩, e2, e4, e5, e6⟩

/-- The coordinator gets to every request in its mailbox. -/
theorem reached (hf : x.Fair) (i : Nat) {k : Nat} {q : CoordinatorInput} {l1 l2 : List (Nat × CoordinatorInput)}
    (h : (x.state i).queue = l1 ++ (k, q) :: l2) : ∃ j r ds, i ≤ j ∧ (x.state (j + 1)).serving = some ⟨k, r, ds⟩ ∧
      (x.state j).srv.handle q = some ((x.state (j + 1)).srv, r, ds) := by
  generalize hn : l1.length = n
  induction n using Nat.strongRecOn generalizing i l1 l2 with
  | ind n ih =>
    subst hn
    -- as soon as the coordinator is not busy
    have idle : ∀ i l2, (x.state i).queue = l1 ++ (k, q) :: l2 → (x.state i).serving = none → ∃ j r ds, i ≤ j ∧ (x.state (j + 1)).serving = some ⟨k, r, ds⟩ ∧
      (x.state j).srv.handle q = some ((x.state (j + 1)).srv, r, ds) := by
      intro i l2 h hs
      rcases forever_or (p := fun j => (x.state j).serving = none ∧ ∃ l2, (x.state j).queue = l1 ++ (k, q) :: l2) i
        ⟨hs, l2, h⟩ with hall | ⟨j, hij, hp, hnp⟩
      · obtain ⟨j, hij, hm⟩ := hf.coordinator i fun j hj => ⟨x.alive j, Or.inl (by obtain ⟨_, l2, e⟩ := hall j hj; rw [e]; simp)⟩
        exact absurd ((hall j hij).1.trans (hall (j + 1) (by omega)).1.symm) hm
      · obtain ⟨hs, l2, hq⟩ := hp j hij (Nat.le_refl _)
        rcases x.coord j with ⟨e1, more', e2⟩ | ⟨_, k', q', rest, r, ds, e1, e2, e3, e4⟩ | ⟨k', r', d, ds', e1, _⟩ | ⟨k', r', u, m, e1, _⟩
        · exact absurd ⟨e1.trans hs, l2 ++ more', by rw [e2, hq]; simp⟩ hnp
        · rw [hq] at e1
          cases l1 with
          | nil =>
            simp only [List.nil_append, List.cons.injEq, Prod.mk.injEq] at e1
            obtain ⟨⟨rfl, rfl⟩, rfl⟩ := e1
            exact ⟨j, r, ds, hij, e3, e4⟩
          | cons a l1 =>
            simp only [List.cons_append, List.cons.injEq] at e1
            obtain ⟨rfl, rfl⟩ := e1
            obtain ⟨j', r, ds, g1, g2⟩ := ih l1.length (by simp) (j + 1) e2 rfl
            exact ⟨j', r, ds, by omega, g2⟩
        · rw [hs] at e1; cases e1
        · rw [hs] at e1; cases e1
    cases hs : (x.state i).serving with
    | none => exact idle i l2 h hs
    | some s =>
      obtain ⟨c, r, ds⟩ := s
      obtain ⟨j, u, m, h1, ⟨more, h2⟩, h3, _⟩ := served hf i hs
      obtain ⟨j', r, ds, g1, g2⟩ := idle (j + 1) (l2 ++ more) (by rw [h2, h]; simp) h3
      exact ⟨j', r, ds, by omega, g2⟩

/-- Whoever waits is answered. -/
theorem answered (hf : x.Fair) (i : Nat) {k : Nat} {u : FineProcs} {m : Mail LiveviewInput Nat} (hu : (x.state i).users k = some u) (ht : u.talk = .asked m) :
    ∃ j u' m' r, i ≤ j ∧ (x.state j).users k = some u' ∧ u'.talk = .answered m' r := by
  have fin : ∀ i r ds, (x.state i).serving = some ⟨k, r, ds⟩ → ∃ j u' m' r, i ≤ j ∧ (x.state j).users k = some u' ∧ u'.talk = .answered m' r := by
    intro i r ds h
    obtain ⟨j, u, m, h1, _, _, _, _, h6⟩ := served hf i h
    exact ⟨j + 1, _, m, r, by omega, h6, rfl⟩
  rcases (C104_no_deadlock parse fs _ (x.reach i)).2.2.2 k u m hu ht with ⟨⟨q, hq⟩, _⟩ | ⟨⟨r, ds, h⟩, _⟩
  · obtain ⟨l1, l2, e⟩ := List.append_of_mem hq
    obtain ⟨j, r, ds, h1, h2, _⟩ := reached hf i e
    obtain ⟨j', u', m', r', g1, g2⟩ := fin (j + 1) r ds h2
    exact ⟨j', u', m', r', by omega, g2⟩
  · exact fin i r ds h

/-! ## The component's process -/

/-- A process that waits goes on, unless it is killed. -/
theorem goes_on (hf : x.Fair) (i : Nat) {k : Nat} {u : FineProcs} (hu : (x.state i).users k = some u) :
    ∃ j u', i ≤ j ∧ (x.state j).users k = some u' ∧ (u'.alive = false ∨ u'.talk = .free) := by
  -- from the moment the reply is there
  have fin : ∀ i u m r, (x.state i).users k = some u → u.talk = .answered m r →
      ∃ j u', i ≤ j ∧ (x.state j).users k = some u' ∧ (u'.alive = false ∨ u'.talk = .free) := by
    intro i u m r hu ht
    by_cases ha : u.alive = false
    · exact ⟨i, u, Nat.le_refl _, hu, Or.inl ha⟩
    · have ha : u.alive = true := by simpa using ha
      rcases forever_or (p := fun j => ∃ u, (x.state j).users k = some u ∧ u.alive = true ∧ u.talk = .answered m r) i ⟨u, hu, ha, ht⟩ with
        hall | ⟨j, hij, hp, hnp⟩
      · obtain ⟨j, hij, v, w, e1, e2, e3⟩ := hf.loop k i fun j hj => by
          obtain ⟨u, h1, h2, h3⟩ := hall j hj
          exact ⟨u, h1, h2, Or.inr ⟨m, r, h3⟩⟩
        obtain ⟨u1, a1, a2, a3⟩ := hall j hij
        obtain ⟨u2, b1, b2, b3⟩ := hall (j + 1) (by omega)
        rw [a1] at e1
        rw [b1] at e2
        cases e1; cases e2
        obtain ⟨u', c1, c2⟩ := x.user a1
        rw [b1] at c1
        cases c1
        exfalso
        rcases e3 with e3 | ⟨_, e3⟩
        · cases c2 with
          | same => omega
          | got d => simp at e3
          | forward i rest hi => simp at e3; omega
          | read m => simp at e3; omega
          | work m' rest h1 h2 => rw [a3] at h2; cases h2
          | ask m' rest q h1 h2 => rw [a3] at h2; cases h2
          | reply m' r' h1 => rw [a3] at h1; cases h1
          | resume m' r' h1 h2 => simp at b3
          | die => simp at b2
        · rw [b3] at e3; cases e3
      · obtain ⟨u1, a1, a2, a3⟩ := hp j hij (Nat.le_refl _)
        obtain ⟨u', c1, c2⟩ := x.user a1
        have hno : ¬ (u'.alive = true ∧ u'.talk = .answered m r) := fun h => hnp ⟨u', c1, h⟩
        refine ⟨j + 1, u', by omega, c1, ?_⟩
        cases c2 with
        | same => exact absurd ⟨a2, a3⟩ hno
        | got d => exact absurd ⟨a2, a3⟩ hno
        | forward i rest hi => exact absurd ⟨a2, a3⟩ hno
        | read m => exact absurd ⟨a2, a3⟩ hno
        | work m' rest h1 h2 => rw [a3] at h2; cases h2
        | ask m' rest q h1 h2 => rw [a3] at h2; cases h2
        | reply m' r' h1 => rw [a3] at h1; cases h1
        | resume m' r' h1 h2 => exact Or.inr rfl
        | die => exact Or.inl rfl
  cases ht : u.talk with
  | free => exact ⟨i, u, Nat.le_refl _, hu, Or.inr ht⟩
  | answered m r => exact fin i u m r hu ht
  | asked m =>
    obtain ⟨j, u', m', r, h1, h2, h3⟩ := answered hf i hu ht
    obtain ⟨j', u'', g1, g2⟩ := fin j u' m' r h2 h3
    exact ⟨j', u'', by omega, g2⟩

/-- The process of connection `k` takes a message at moment `j`. -/
def TakesAt (x : ChatExecution parse fs) (k j : Nat) (v v' : FineProcs) (m : Mail LiveviewInput Nat) : Prop :=
  (x.state j).users k = some v ∧ (x.state (j + 1)).users k = some v' ∧ v.alive = true ∧ v.talk = .free ∧ v.loopBox = m :: v'.loopBox ∧
    UserStep parse (fs k) v v'

/-- A process that takes nothing has a mailbox that only grows. -/
theorem box_grows {j k : Nat} {u u' : FineProcs} (hu : (x.state j).users k = some u) (hu' : (x.state (j + 1)).users k = some u')
    (h : UserStep parse (fs k) u u') (hx : ∀ v v' m, ¬ TakesAt x k j v v' m) : u.loopBox <+: u'.loopBox ∧ (u.talk = .free → u'.talk = .free) := by
  have h0 := h
  cases h with
  | work m rest h1 h2 h3 h4 => exact absurd ⟨hu, hu', h1, h2, h3, h0⟩ (hx _ _ m)
  | ask m rest q h1 h2 h3 h4 => exact absurd ⟨hu, hu', h1, h2, h3, h0⟩ (hx _ _ m)
  | reply m r h1 => exact ⟨by simp, fun e => by rw [h1] at e; cases e⟩
  | resume m r h1 h2 => exact ⟨by simp, fun _ => rfl⟩
  | same => simp
  | got d => simp
  | forward i rest hi => simp
  | read m => simp
  | die => simp

theorem box_grows_until {i j k : Nat} {u : FineProcs} (hu : (x.state i).users k = some u) (hij : i ≤ j)
    (hx : ∀ l, i ≤ l → l < j → ∀ v v' m, ¬ TakesAt x k l v v' m) :
    ∃ u', (x.state j).users k = some u' ∧ u.loopBox <+: u'.loopBox ∧ (u.talk = .free → u'.talk = .free) := by
  induction j with
  | zero =>
    have : i = 0 := by omega
    subst this
    exact ⟨u, hu, by simp, id⟩
  | succ j ih =>
    by_cases e : i = j + 1
    · subst e; exact ⟨u, hu, by simp, id⟩
    · obtain ⟨w, h1, h2, h3⟩ := ih (by omega) fun l a b => hx l a (by omega)
      obtain ⟨w', g1, g2⟩ := x.user h1
      obtain ⟨b1, b2⟩ := box_grows h1 g1 g2 (hx j (by omega) (by omega))
      exact ⟨w', g1, h2.trans b1, fun e => b2 (h3 e)⟩

/-- A process takes the first message in its mailbox, unless it is killed. -/
theorem takes (hf : x.Fair) (i : Nat) {k : Nat} {u : FineProcs} {m : Mail LiveviewInput Nat} {rest : List (Mail LiveviewInput Nat)}
    (hu : (x.state i).users k = some u) (hb : u.loopBox = m :: rest) :
    (∃ j v, i ≤ j ∧ (x.state j).users k = some v ∧ v.alive = false) ∨
    ∃ j v v', i ≤ j ∧ TakesAt x k j v v' m ∧ rest <+: v'.loopBox := by
  by_cases hdead : ∃ j v, i ≤ j ∧ (x.state j).users k = some v ∧ v.alive = false
  · exact Or.inl hdead
  · right
    have halive : ∀ j v, i ≤ j → (x.state j).users k = some v → v.alive = true := by
      intro j v hj hv
      cases ha : v.alive with
      | true => rfl
      | false => exact absurd ⟨j, v, hj, hv, ha⟩ hdead
    -- once it takes something, it is this
    have first : ∀ j v v' m', i ≤ j → TakesAt x k j v v' m' → (∀ l, i ≤ l → l < j → ∀ v v' m, ¬ TakesAt x k l v v' m) →
        ∃ j v v', i ≤ j ∧ TakesAt x k j v v' m ∧ rest <+: v'.loopBox := by
      intro j v v' m' hij ht hx
      obtain ⟨w, h1, h2, _⟩ := box_grows_until hu hij hx
      have := ht.1
      rw [h1] at this
      cases this
      have hlb := ht.2.2.2.2.1
      rw [hb, hlb] at h2
      obtain ⟨more, h2⟩ := h2
      simp only [List.cons_append, List.cons.injEq] at h2
      obtain ⟨rfl, h2⟩ := h2
      exact ⟨j, _, v', hij, ht, more, h2⟩
    by_cases h0 : ∃ v v' m', TakesAt x k i v v' m'
    · obtain ⟨v, v', m', h0⟩ := h0
      exact first i v v' m' (Nat.le_refl _) h0 fun l a b => by omega
    · rcases forever_or (p := fun j => ∀ v v' m', ¬ TakesAt x k j v v' m') i (fun v v' m' h => h0 ⟨v, v', m', h⟩) with hall | ⟨j, hij, hp, hnp⟩
      · exfalso
        obtain ⟨i1, v1, g1, g2, g3⟩ := goes_on hf i hu
        have g3 : v1.talk = .free := by
          rcases g3 with g3 | g3
          · rw [halive i1 v1 g1 g2] at g3; cases g3
          · exact g3
        have hne : ∀ j, i1 ≤ j → ∃ w, (x.state j).users k = some w ∧ w.loopBox ≠ [] ∧ w.talk = .free := by
          intro j hj
          obtain ⟨w, a1, a2, _⟩ := box_grows_until hu (by omega : i ≤ j) fun l a b => hall l a
          obtain ⟨w', b1, b2, b3⟩ := box_grows_until g2 hj fun l a b => hall l (by omega)
          rw [a1] at b1
          cases b1
          refine ⟨w, a1, ?_, b3 g3⟩
          rw [hb] at a2
          intro e
          rw [e] at a2
          have := a2.length_le
          simp at this
        obtain ⟨j, hj, v, w, e1, e2, e3⟩ := hf.loop k i1 fun j hj => by
          obtain ⟨w, a1, a2, a3⟩ := hne j hj
          exact ⟨w, a1, halive j w (by omega) a1, Or.inl ⟨a3, a2⟩⟩
        obtain ⟨v', c1, c2⟩ := x.user e1
        rw [e2] at c1
        cases c1
        obtain ⟨b1, _⟩ := box_grows e1 e2 c2 (hall j (by omega))
        rcases e3 with e3 | ⟨⟨m', r, e3⟩, _⟩
        · have := b1.length_le
          omega
        · obtain ⟨w', a1, _, a3⟩ := hne j hj
          rw [e1] at a1
          cases a1
          rw [a3] at e3
          cases e3
      · have : ∃ v v' m', TakesAt x k (j + 1) v v' m' := by
          apply Classical.byContradiction
          intro hn
          exact hnp fun v v' m' h => hn ⟨v, v', m', h⟩
        obtain ⟨v, v', m', ht⟩ := this
        exact first (j + 1) v v' m' (by omega) ht fun l a b => hp l a (by omega)

/-- A process takes every message in its mailbox, unless it is killed. -/
theorem takes_all (hf : x.Fair) (i : Nat) {k : Nat} {u : FineProcs} {m : Mail LiveviewInput Nat} {l1 l2 : List (Mail LiveviewInput Nat)}
    (hu : (x.state i).users k = some u) (hb : u.loopBox = l1 ++ m :: l2) :
    (∃ j v, i ≤ j ∧ (x.state j).users k = some v ∧ v.alive = false) ∨ ∃ j v v', i ≤ j ∧ TakesAt x k j v v' m := by
  induction l1 generalizing i u l2 with
  | nil =>
    rcases takes hf i hu hb with h | ⟨j, v, v', h1, h2, _⟩
    · exact Or.inl h
    · exact Or.inr ⟨j, v, v', h1, h2⟩
  | cons a l1 ih =>
    rcases takes hf i hu hb with h | ⟨j, v, v', h1, h2, more, h3⟩
    · exact Or.inl h
    · rcases ih (j + 1) h2.2.1 (l2 := l2 ++ more) (by rw [← h3]; simp) with ⟨j', w, a1, a2⟩ | ⟨j', w, w', a1, a2⟩
      · exact Or.inl ⟨j', w, by omega, a2⟩
      · exact Or.inr ⟨j', w, w', by omega, a2⟩

/-! ## The managing process -/

/-- The managing process forwards every message in its mailbox. -/
theorem forwards_all (hf : x.Fair) (i : Nat) {k : Nat} {u : FineProcs} {c : LiveviewInput} {l1 l2 : List LiveviewInput}
    (hu : (x.state i).users k = some u) (hb : u.inbox = l1 ++ c :: l2) :
    ∃ j v l, i ≤ j ∧ (x.state j).users k = some v ∧ v.loopBox = l ++ [.input c] := by
  induction l1 generalizing i u l2 with
  | nil =>
    rcases forever_or (p := fun j => ∃ v more, (x.state j).users k = some v ∧ v.inbox = c :: l2 ++ more) i ⟨u, [], hu, by simpa using hb⟩ with
      hall | ⟨j, hij, hp, hnp⟩
    · by_cases hfw : ∃ j v v' rest, i ≤ j ∧ (x.state j).users k = some v ∧ (x.state (j + 1)).users k = some v' ∧ v.inbox = c :: rest ∧
          v'.loopBox = v.loopBox ++ [.input c]
      · obtain ⟨j, v, v', rest, h1, h2, h3, h4, h5⟩ := hfw
        exact ⟨j + 1, v', v.loopBox, by omega, h3, h5⟩
      · exfalso
        obtain ⟨j, hij, v, w, e1, e2, e3⟩ := hf.manager k i fun j hj => by
          obtain ⟨v, more, a1, a2⟩ := hall j hj
          exact ⟨v, a1, by rw [a2]; simp⟩
        obtain ⟨v', c1, c2⟩ := x.user e1
        rw [e2] at c1
        cases c1
        obtain ⟨v1, more, a1, a2⟩ := hall j hij
        rw [e1] at a1
        cases a1
        cases c2 with
        | forward i' rest hi =>
          rw [a2] at hi
          simp only [List.cons_append, List.cons.injEq] at hi
          obtain ⟨rfl, rfl⟩ := hi
          exact hfw ⟨j, v, _, _, hij, e1, e2, a2, rfl⟩
        | got d => simp at e3; omega
        | same => simp at e3
        | read m => simp at e3
        | work m rest h1 h2 => simp at e3
        | ask m rest q h1 h2 => simp at e3
        | reply m r h1 => simp at e3
        | resume m r h1 h2 => simp at e3
        | die => simp at e3
    · obtain ⟨v, more, a1, a2⟩ := hp j hij (Nat.le_refl _)
      obtain ⟨v', c1, c2⟩ := x.user a1
      have hno : ∀ more, v'.inbox ≠ c :: l2 ++ more := fun more h => hnp ⟨v', more, c1, h⟩
      cases c2 with
      | forward i' rest hi =>
        rw [a2] at hi
        simp only [List.cons_append, List.cons.injEq] at hi
        obtain ⟨rfl, rfl⟩ := hi
        exact ⟨j + 1, _, v.loopBox, by omega, c1, rfl⟩
      | got d => exact absurd (by rw [a2]; simp) (hno (more ++ [d]))
      | same => exact absurd a2 (hno more)
      | read m => exact absurd a2 (hno more)
      | work m rest h1 h2 => exact absurd a2 (hno more)
      | ask m rest q h1 h2 => exact absurd a2 (hno more)
      | reply m r h1 => exact absurd a2 (hno more)
      | resume m r h1 h2 => exact absurd a2 (hno more)
      | die => exact absurd a2 (hno more)
  | cons a l1 ih =>
    -- the first moment at which the manager forwards something
    by_cases h0 : ∃ j v more, i ≤ j ∧ (x.state j).users k = some v ∧ v.inbox = l1 ++ c :: l2 ++ more
    · obtain ⟨j, v, more, h1, h2, h3⟩ := h0
      obtain ⟨j', w, l, g1, g2⟩ := ih j h2 (l2 := l2 ++ more) (by rw [h3]; simp)
      exact ⟨j', w, l, by omega, g2⟩
    · exfalso
      have hall : ∀ j, i ≤ j → ∃ v more, (x.state j).users k = some v ∧ v.inbox = a :: l1 ++ c :: l2 ++ more := by
        intro j
        induction j with
        | zero =>
          intro hj
          have : i = 0 := by omega
          subst this
          exact ⟨u, [], hu, by simpa using hb⟩
        | succ j ihj =>
          intro hj
          by_cases e : i = j + 1
          · subst e; exact ⟨u, [], hu, by simpa using hb⟩
          · obtain ⟨v, more, a1, a2⟩ := ihj (by omega)
            obtain ⟨v', c1, c2⟩ := x.user a1
            cases c2 with
            | forward i' rest hi =>
              rw [a2] at hi
              simp only [List.cons_append, List.cons.injEq] at hi
              obtain ⟨rfl, rfl⟩ := hi
              exact absurd ⟨j + 1, _, more, by omega, c1, by simp⟩ h0
            | got d => exact ⟨_, more ++ [d], c1, by simp [a2]⟩
            | same => exact ⟨_, more, c1, a2⟩
            | read m => exact ⟨_, more, c1, a2⟩
            | work m rest h1 h2 => exact ⟨_, more, c1, a2⟩
            | ask m rest q h1 h2 => exact ⟨_, more, c1, a2⟩
            | reply m r h1 => exact ⟨_, more, c1, a2⟩
            | resume m r h1 h2 => exact ⟨_, more, c1, a2⟩
            | die => exact ⟨_, more, c1, a2⟩
      obtain ⟨j, hij, v, w, e1, e2, e3⟩ := hf.manager k i fun j hj => by
        obtain ⟨v, more, a1, a2⟩ := hall j hj
        exact ⟨v, a1, by rw [a2]; simp⟩
      obtain ⟨v', c1, c2⟩ := x.user e1
      rw [e2] at c1
      cases c1
      obtain ⟨v1, more, a1, a2⟩ := hall j hij
      rw [e1] at a1
      cases a1
      cases c2 with
      | forward i' rest hi =>
        rw [a2] at hi
        simp only [List.cons_append, List.cons.injEq] at hi
        obtain ⟨rfl, rfl⟩ := hi
        exact h0 ⟨j + 1, _, more, by omega, e2, by simp⟩
      | got d => simp at e3; omega
      | same => simp at e3
      | read m => simp at e3
      | work m rest h1 h2 => simp at e3
      | ask m rest q h1 h2 => simp at e3
      | reply m r h1 => simp at e3
      | resume m r h1 h2 => simp at e3
      | die => simp at e3

/-- The coordinator sends every broadcast. -/
theorem sends_all (hf : x.Fair) (i : Nat) {c : Nat} {r : LiveviewInput} {d : Delivery} {o1 o2 : List Delivery} {u : FineProcs}
    (h : (x.state i).serving = some ⟨c, r, o1 ++ d :: o2⟩) (hu : (x.state i).users d.to = some u) :
    ∃ j v l, i ≤ j ∧ (x.state j).users d.to = some v ∧ v.inbox = l ++ [d.msg] := by
  induction o1 generalizing i u with
  | nil =>
    rcases forever_or (p := fun j => (x.state j).serving = some ⟨c, r, d :: o2⟩) i h with hall | ⟨j, hij, hp, hnp⟩
    · obtain ⟨j, hij, hm⟩ := hf.coordinator i fun j hj => ⟨x.alive j, Or.inr (by rw [hall j hj]; simp)⟩
      exact absurd ((hall j hij).trans (hall (j + 1) (by omega)).symm) hm
    · have hs := hp j hij (Nat.le_refl _)
      obtain ⟨v, hv⟩ := x.later hu j hij
      rcases x.coord j with ⟨e1, _⟩ | ⟨e1, _⟩ | ⟨k', r', d', ds', e1, e2, e3, e4⟩ | ⟨k', r', u, m, e1, _⟩
      · exact absurd (e1.trans hs) hnp
      · rw [hs] at e1; cases e1
      · rw [hs] at e1
        simp only [Option.some.injEq, Serving.mk.injEq, List.cons.injEq] at e1
        obtain ⟨rfl, rfl, rfl, rfl⟩ := e1
        exact ⟨j + 1, _, v.inbox, by omega, e4 v hv, rfl⟩
      · rw [hs] at e1; simp at e1
  | cons a o1 ih =>
    rcases forever_or (p := fun j => (x.state j).serving = some ⟨c, r, a :: o1 ++ d :: o2⟩) i h with hall | ⟨j, hij, hp, hnp⟩
    · obtain ⟨j, hij, hm⟩ := hf.coordinator i fun j hj => ⟨x.alive j, Or.inr (by rw [hall j hj]; simp)⟩
      exact absurd ((hall j hij).trans (hall (j + 1) (by omega)).symm) hm
    · have hs := hp j hij (Nat.le_refl _)
      rcases x.coord j with ⟨e1, _⟩ | ⟨e1, _⟩ | ⟨k', r', d', ds', e1, e2, e3, e4⟩ | ⟨k', r', u, m, e1, _⟩
      · exact absurd (e1.trans hs) hnp
      · rw [hs] at e1; cases e1
      · rw [hs] at e1
        simp only [Option.some.injEq, Serving.mk.injEq, List.cons_append, List.cons.injEq] at e1
        obtain ⟨rfl, rfl, rfl, rfl⟩ := e1
        obtain ⟨v, hv⟩ := x.later hu (j + 1) (by omega)
        obtain ⟨j', w, l, g1, g2⟩ := ih (j + 1) e2 hv
        exact ⟨j', w, l, by omega, g2⟩
      · rw [hs] at e1; simp at e1

end Puck.Chat
