import Verif.Props.Live
import Verif.Props.ChatView
import Verif.Spec.Navigate
/-!
# Acting on a view does not lead away from the page (C125)
-/
namespace Puck

variable {D I S E P : Type}

theorem shown_tag {e : Element} {d : Dom} (h : e.ShownAs d) : d.tag = e.name ∧ d.attr = e.shownAttr := by
  cases e
  rw [Element.ShownAs] at h
  obtain ⟨attrs, kids, rfl, h1, -⟩ := h
  exact ⟨rfl, funext h1⟩

theorem shown_isLink {e : Element} {d : Dom} (h : e.ShownAs d) : d.isLink = true ↔ e.Link := by
  obtain ⟨h1, h2⟩ := shown_tag h
  simp only [Dom.isLink, h1, h2, Element.Link, Bool.and_eq_true, Bool.or_eq_true, beq_iff_eq, Option.isSome_iff_exists]

theorem shown_isSubmit {e : Element} {d : Dom} (h : e.ShownAs d) : d.isSubmit = true ↔ e.SubmitButton := by
  obtain ⟨h1, h2⟩ := shown_tag h
  simp only [Dom.isSubmit, h1, h2, Element.SubmitButton, Bool.and_eq_true, Option.isNone_iff_eq_none]
  cases ht : e.shownAttr "type" with
  | none => simp
  | some t => simp [and_assoc]

theorem submit_activates {d : Dom} (h : d.isSubmit = true) : d.activates = true := by
  simp only [Dom.isSubmit, Bool.and_eq_true] at h
  obtain ⟨-, h⟩ := h
  simp only [Dom.activates, Bool.or_eq_true]
  cases ht : (d.attr "type").map asciiLower with
  | none => rw [ht] at h; exact Or.inl (Or.inl h)
  | some t =>
    rw [ht] at h
    simp only [Bool.or_eq_true, Bool.and_eq_true] at h
    rcases h with h | h
    · exact Or.inl (Or.inl h.1.1)
    · exact Or.inl (Or.inr h.1)

/-- what is around an element is a path of its own -/
theorem target_suffix {d : Dom} {path : List Dom} (h : Target d path) : ∀ {l r : List Dom}, path = l ++ r → r ≠ [] → Target d r := by
  induction h with
  | here tag attrs ls cs =>
    intro l r h hr
    cases l with
    | nil => rw [List.nil_append] at h; rw [← h]; exact .here _ _ _ _
    | cons x l => simp at h; exact absurd h.2.2 hr
  | @inside tag attrs ls cs c path hc ht ih =>
    intro l r h hr
    rcases List.append_eq_append_iff.1 h with ⟨a, h1, h2⟩ | ⟨a, h1, h2⟩
    · cases a with
      | nil => simp at h2; rw [← h2]; exact .here _ _ _ _
      | cons x a => simp at h2; exact absurd h2.2.2 hr
    · rw [h2]
      cases a with
      | nil => exact .here _ _ _ _
      | cons x a => exact .inside hc (ih h1 (by simp))

theorem formAround_split {path : List Dom} {f : Dom} {out : List Dom} (h : formAround path = f :: out) :
    ∃ between, path = between ++ f :: out ∧ (∀ x ∈ between, x.tag ≠ "form") ∧ f.tag = "form" := by
  induction path with
  | nil => cases h
  | cons x path ih =>
    unfold formAround at h ih
    rw [List.dropWhile_cons] at h
    by_cases hx : x.tag = "form"
    · simp [hx] at h
      exact ⟨[], by simp [h], by simp, h.1 ▸ hx⟩
    · simp [hx] at h
      obtain ⟨b, h1, h2, h3⟩ := ih h
      exact ⟨x :: b, by rw [h1]; rfl, by simpa [hx] using h2, h3⟩

theorem formAround_of {between : List Dom} {f : Dom} {out : List Dom} (hb : ∀ x ∈ between, x.tag ≠ "form") (hf : f.tag = "form") :
    formAround (between ++ f :: out) = f :: out := by
  unfold formAround
  rw [List.dropWhile_append_of_pos]
  · rw [List.dropWhile_cons]; simp [hf]
  · intro x hx; simpa using hb x hx

theorem dropWhile_split {α : Type} (q : α → Bool) (l : List α) : ∃ pre, l = pre ++ l.dropWhile q :=
  ⟨l.takeWhile q, (List.takeWhile_append_dropWhile).symm⟩

/-- What leads away, in terms of where it happens. -/
theorem leaves_target {A : Away} {d : Dom} {path : List Dom} {a : Deed} (ht : Target d path) (h : leaves A a path = true) :
    (∃ l around, Target d (l :: around) ∧ l.isLink = true ∧ A.link l.attr = true) ∨
    ∃ b between f around, Target d (b :: between ++ f :: around) ∧ (b.isSubmit = true ∨ b.tag = "input") ∧ f.tag = "form" ∧
      (∀ x ∈ between, x.tag ≠ "form") ∧ A.form f.attr = true := by
  simp only [leaves, Bool.or_eq_true] at h
  rcases h with h | h
  · right
    cases hs : submitted a path with
    | nil => rw [hs] at h; cases h
    | cons f out =>
      rw [hs] at h
      cases a with
      | click =>
        simp only [submitted] at hs
        obtain ⟨pre, hpre⟩ := dropWhile_split (fun d : Dom => !d.activates) path
        split at hs
        · next b around hb =>
          split at hs
          · next hsub =>
            obtain ⟨between, h1, h2, h3⟩ := formAround_split hs
            rw [hb, h1] at hpre
            exact ⟨b, between, f, out, target_suffix ht hpre (by simp), Or.inl hsub, h3, h2, h⟩
          · cases hs
        · cases hs
      | enter =>
        cases path with
        | nil => cases hs
        | cons b around =>
          simp only [submitted] at hs
          split at hs
          · next hin =>
            obtain ⟨between, h1, h2, h3⟩ := formAround_split hs
            rw [h1] at ht
            exact ⟨b, between, f, out, ht, Or.inr (by simpa using hin), h3, h2, h⟩
          · cases hs
      | other on value => simp [submitted] at hs
  · left
    cases a with
    | click =>
      obtain ⟨pre, hpre⟩ := dropWhile_split (fun d : Dom => !d.activates) path
      simp only at h
      split at h
      · next l around hl =>
        rw [hl] at hpre
        rw [Bool.and_eq_true] at h
        exact ⟨l, around, target_suffix ht hpre (by simp), h.1, h.2⟩
      · cases h
    | enter => cases h
    | other on value => cases h

theorem link_leaves {A : Away} {l : Dom} {around : List Dom} (h : l.isLink = true) (h' : A.link l.attr = true) : leaves A .click (l :: around) = true := by
  have : l.activates = true := by simp [Dom.activates, h]
  simp [leaves, this, h, h']

theorem submit_leaves {A : Away} {b f : Dom} {between around : List Dom} (hb : b.isSubmit = true ∨ b.tag = "input") (hf : f.tag = "form")
    (hn : ∀ x ∈ between, x.tag ≠ "form") (h : A.form f.attr = true) : ∃ a, leaves A a (b :: between ++ f :: around) = true := by
  have hfa := formAround_of (out := around) hn hf
  rcases hb with hb | hb
  · refine ⟨.click, ?_⟩
    have := submit_activates hb
    simp [leaves, submitted, this, hb, hfa, h]
  · exact ⟨.enter, by simp [leaves, submitted, hb, hfa, h]⟩

theorem shownAll_cons_inv {e : Element} {es : List Element} {ds : List Dom} (h : ShownAsAll (e :: es) ds) :
    ∃ d ds', ds = d :: ds' ∧ e.ShownAs d ∧ ShownAsAll es ds' := by
  rw [ShownAsAll] at h; exact h

theorem shownAll_append_inv : ∀ (es fs : List Element) (ds : List Dom), ShownAsAll (es ++ fs) ds →
    ∃ a b, ds = a ++ b ∧ ShownAsAll es a ∧ ShownAsAll fs b
  | [], fs, ds, h => ⟨[], ds, rfl, by rw [ShownAsAll], h⟩
  | e :: es, fs, ds, h => by
    obtain ⟨d, ds', rfl, h1, h2⟩ := shownAll_cons_inv h
    obtain ⟨a, b, rfl, h3, h4⟩ := shownAll_append_inv es fs ds' h2
    exact ⟨d :: a, b, rfl, by rw [ShownAsAll]; exact ⟨d, a, rfl, h1, h3⟩, h4⟩

theorem shownAll_cons_inv' {es : List Element} {d : Dom} {ds : List Dom} (h : ShownAsAll es (d :: ds)) :
    ∃ e es', es = e :: es' ∧ e.ShownAs d ∧ ShownAsAll es' ds := by
  cases es with
  | nil => rw [ShownAsAll] at h; cases h
  | cons e es =>
    obtain ⟨d', ds', hd, h1, h2⟩ := shownAll_cons_inv h
    cases hd
    exact ⟨e, es, rfl, h1, h2⟩

theorem shownAll_append_inv' : ∀ (a b : List Dom) (es : List Element), ShownAsAll es (a ++ b) →
    ∃ xs ys, es = xs ++ ys ∧ ShownAsAll xs a ∧ ShownAsAll ys b
  | [], b, es, h => ⟨[], es, rfl, by rw [ShownAsAll], h⟩
  | d :: a, b, es, h => by
    obtain ⟨e, es', rfl, h1, h2⟩ := shownAll_cons_inv' h
    obtain ⟨xs, ys, rfl, h3, h4⟩ := shownAll_append_inv' a b es' h2
    exact ⟨e :: xs, ys, rfl, by rw [ShownAsAll]; exact ⟨d, a, rfl, h1, h3⟩, h4⟩

/-- **What leads away on a page that shows a view**: exactly what the view says. -/
theorem keeps_iff (A : Away) (e : Element) (d : Dom) (h : e.ShownAs d) :
    (∀ path a, Target d path → leaves A a path = false) ↔ e.Keeps A := by
  constructor
  · intro hk
    refine ⟨fun l around hw hl => ?_, fun b between f around hw hb hf hn => ?_⟩
    · obtain ⟨path', h1, h2⟩ := within_target hw h
      obtain ⟨d', ds', rfl, h3, -⟩ := shownAll_cons_inv h2
      cases hA : A.link l.shownAttr with
      | false => rfl
      | true =>
        rw [← (shown_tag h3).2] at hA
        rw [link_leaves ((shown_isLink h3).2 hl) hA |>.symm.trans (hk _ .click h1)]
    · obtain ⟨path', h1, h2⟩ := within_target hw h
      obtain ⟨p1, p2, rfl, h3, h4⟩ := shownAll_append_inv _ _ _ h2
      obtain ⟨b', bs', rfl, h5, h6⟩ := shownAll_cons_inv h3
      obtain ⟨f', fs', rfl, h7, h8⟩ := shownAll_cons_inv h4
      cases hA : A.form f.shownAttr with
      | false => rfl
      | true =>
        rw [← (shown_tag h7).2] at hA
        obtain ⟨a, ha⟩ := submit_leaves (A := A) (around := fs') (b := b') (between := bs') (f := f')
          (hb.elim (fun x => Or.inl ((shown_isSubmit h5).2 x)) fun x => Or.inr ((shown_tag h5).1.trans x)) ((shown_tag h7).1.trans hf)
          (fun x hx => by
            obtain ⟨y, hy, hy'⟩ := shownAll_mem' _ _ h6 x hx
            rw [(shown_tag hy').1]; exact hn y hy) hA
        exact ha.symm.trans (hk _ a h1)
  · rintro ⟨k1, k2⟩ path a ht
    cases hl : leaves A a path with
    | false => rfl
    | true =>
      rcases leaves_target ht hl with ⟨l, around, t1, t2, t3⟩ | ⟨b, between, f, around, t1, t2, t3, t4, t5⟩
      · obtain ⟨path, w1, w2⟩ := target_within t1 h
        obtain ⟨l', ls', rfl, s1, s2⟩ := shownAll_cons_inv' w2
        have := k1 l' ls' w1 ((shown_isLink s1).1 t2)
        rw [← (shown_tag s1).2] at this
        exact t3.symm.trans this
      · obtain ⟨path, w1, w2⟩ := target_within t1 h
        obtain ⟨xs, ys, rfl, s1, s2⟩ := shownAll_append_inv' _ _ _ w2
        obtain ⟨b', bs', rfl, s3, s4⟩ := shownAll_cons_inv' s1
        obtain ⟨f', fs', rfl, s5, s6⟩ := shownAll_cons_inv' s2
        have := k2 b' bs' f' fs' w1 (t2.elim (fun x => Or.inl ((shown_isSubmit s3).1 x)) fun x => Or.inr ((shown_tag s3).1.symm.trans x))
          ((shown_tag s5).1.symm.trans t3) (fun x hx => by
            obtain ⟨y, hy, hy'⟩ := shownAll_mem _ _ s4 x hx
            rw [← (shown_tag hy').1]; exact t4 y hy)
        rw [← (shown_tag s5).2] at this
        exact t5.symm.trans this

/-! ## Over a whole visit -/

theorem submitted_suffix (a : Deed) (path : List Dom) : ∃ pre, path = pre ++ submitted a path ∨ submitted a path = [] := by
  cases a with
  | click =>
    obtain ⟨pre, hpre⟩ := dropWhile_split (fun d : Dom => !d.activates) path
    simp only [submitted]
    split
    · next b around hb =>
      split
      · obtain ⟨pre', h'⟩ := dropWhile_split (fun d : Dom => d.tag != "form") around
        rw [hb, h'] at hpre
        exact ⟨pre ++ b :: pre', Or.inl (by rw [List.append_assoc]; exact hpre)⟩
      · exact ⟨[], Or.inr rfl⟩
    · exact ⟨[], Or.inr rfl⟩
  | enter =>
    cases path with
    | nil => exact ⟨[], Or.inr rfl⟩
    | cons b around =>
      simp only [submitted]
      split
      · obtain ⟨pre', h'⟩ := dropWhile_split (fun d : Dom => d.tag != "form") around
        exact ⟨b :: pre', Or.inl (congrArg (b :: ·) h')⟩
      · exact ⟨[], Or.inr rfl⟩
  | other on value => exact ⟨[], Or.inr rfl⟩

/-- what a deed sends is what one or two events send -/
theorem deed_steps {B : Browser} {C : Component D I S E P} {n : LivePage I S P} {d : Dom} {path : List Dom} (a : Deed) (hd : d ∈ n.body)
    (ht : Target d path) : LiveSteps B C n { n with up := n.up ++ (deedEvents a path).map fun e => (e, n.shown) } := by
  have first : ∃ evs, deedEvents a path = evs ++ dispatch "submit" "" (submitted a path) ∧
      LiveSteps B C n { n with up := n.up ++ evs.map fun e => (e, n.shown) } := by
    cases a with
    | click => exact ⟨_, rfl, .step (.refl n) (.event "click" "" hd ht)⟩
    | enter => exact ⟨[], rfl, by simpa using .refl n⟩
    | other on value => exact ⟨_, rfl, .step (.refl n) (.event on value hd ht)⟩
  obtain ⟨evs, h1, h2⟩ := first
  rw [h1, List.map_append, ← List.append_assoc]
  obtain ⟨pre, hp⟩ := submitted_suffix a path
  by_cases he : submitted a path = []
  · rw [he]
    simpa [dispatch] using h2
  · rcases hp with hp | hp
    · exact .step h2 (.event (n := { n with up := n.up ++ evs.map fun e => (e, n.shown) }) "submit" "" hd (target_suffix ht hp he))
    · exact absurd hp he

theorem LoopMove.live {B : Browser} {C : Component D I S E P} {n n' : LivePage I S P} (h : LoopMove C n n') : LiveStep B C n n' := by
  cases h with
  | handle h1 h2 => exact .handle h1 h2
  | input i h => exact .input i h

theorem VisitSteps.trans {A : Away} {B : Browser} {C : Component D I S E P} {page : List Dom} {a b c : Visit I S P} (h : VisitSteps A B C page a b)
    (h' : VisitSteps A B C page b c) : VisitSteps A B C page a c := by
  induction h' with
  | refl => exact h
  | step _ hs ih => exact .step ih hs

theorem visit_inputs {A : Away} {B : Browser} {C : Component D I S E P} {page : List Dom} {p : P} {s₀ : S} (hf : InStepFrom B C p s₀) (js : List I) :
    ∀ {v : Visit I S P} {is : List I}, v.page.loop.proc = p → v.page.loop.InSync C → v.page.loop.comp = C.after p s₀ is →
      ∃ n', VisitSteps A B C page v ⟨v.left, n'⟩ ∧ LiveSteps B C v.page n' ∧ n'.loop.comp = C.after p s₀ (is ++ js) ∧ n'.up = v.page.up := by
  induction js with
  | nil => intro v is h1 h2 h3; exact ⟨v.page, .refl v, .refl _, by simpa using h3, rfl⟩
  | cons j js ih =>
    intro v is h1 h2 h3
    obtain ⟨st, os, g1, g2, g3, g4⟩ := follows_update hf h1 h2 h3 j
    have hmove : LoopMove C v.page _ := .input j (st := st) (os := os) g1
    obtain ⟨n', k1, k2, k3, k4⟩ := ih (v := ⟨v.left, { v.page with loop := st, down := v.page.down ++ (sends os).map fun ops => (ops, st.comp) }⟩)
      (is := is ++ [j]) g2 g3 g4
    exact ⟨n', (VisitSteps.step (.refl v) (.loop hmove)).trans k1, (LiveSteps.step (.refl _) hmove.live).trans k2, by simpa using k3, k4⟩

theorem visit_displays {A : Away} {B : Browser} {C : Component D I S E P} {page : List Dom} (v : Visit I S P) :
    ∃ n', VisitSteps A B C page v ⟨v.left, n'⟩ ∧ LiveSteps B C v.page n' ∧ n'.down = [] ∧ n'.loop = v.page.loop ∧ n'.up = v.page.up := by
  generalize hq : v.page.down = q
  induction q generalizing v with
  | nil => exact ⟨v.page, .refl v, .refl _, hq, rfl, rfl⟩
  | cons x q ih =>
    obtain ⟨n', k1, k2, k3, k4, k5⟩ := ih ⟨v.left, { v.page with body := clientMessage B x.1 v.page.body, shown := x.2, down := q }⟩ rfl
    exact ⟨n', (VisitSteps.step (.refl v) (.display hq)).trans k1, (LiveSteps.step (.refl _) (.display hq)).trans k2, k3, k4, k5⟩

/-- A view of a state the component can be brought to can be reached without leaving. -/
theorem visit_shows {A : Away} {B : Browser} {C : Component D I S E P} {data : D} {p : P} {page : List Dom} (hp : PageOk page) (hl : domListeners page = [])
    (hf : InStepFrom B C p (C.new data p).1) (l : List (LivePage I S P)) (is : List I) : ∃ n d, VisitSteps A B C page ⟨l, LivePage.start C data p page⟩ ⟨l, n⟩ ∧
      n.down = [] ∧ n.body = page ++ [d] ∧ n.loop.comp = C.after p (C.new data p).1 is ∧ n.shown = n.loop.comp ∧
      (C.render n.shown).1.ShownAs d ∧ n.up = [] := by
  obtain ⟨n1, a1, a2, a3, a4⟩ := visit_inputs (A := A) (page := page) hf is (v := ⟨l, LivePage.start C data p page⟩) (is := []) rfl rfl rfl
  obtain ⟨n2, b1, b2, b3, b4, b5⟩ := visit_displays (A := A) (B := B) (C := C) (page := page) ⟨l, n1⟩
  have hs := a2.trans b2
  rcases (live_inv hp hl hf hs).page with ⟨-, -, rest, c, -⟩ | ⟨d, c1, c2, c3⟩
  · rw [b3] at c; cases c
  · rw [b3] at c3
    refine ⟨n2, d, a1.trans b1, b3, c1, by rw [b4]; simpa using a3, ?_, c2, by rw [b5]; exact a4⟩
    generalize n2.loop.comp = q at c3
    generalize n2.shown = s at c3
    cases c3
    rfl

/-- **C125 (what holds, exactly).** Take any component whose updates the browser can follow, on a page that does not itself lead away.  Whatever the user, the
other processes and the network do, the user stays on the page, if and only if no view the component can be brought to has a link, or a
submit button or field inside a form, that leads away. -/
theorem C125_exact_partial (A : Away) (B : Browser) (C : Component D I S E P) (data : D) (p : P) (page : List Dom) (hp : PageOk page)
    (hl : domListeners page = []) (hq : ∀ d ∈ page, ∀ path a, Target d path → leaves A a path = false) (hf : InStepFrom B C p (C.new data p).1) :
    (∀ v, VisitSteps A B C page ⟨[], LivePage.start C data p page⟩ v → v.left = []) ↔
      ∀ is, (C.render (C.after p (C.new data p).1 is)).1.Keeps A := by
  constructor
  · intro h is
    obtain ⟨n, d, h1, h2, h3, h4, h5, h6, -⟩ := visit_shows (A := A) hp hl hf [] is
    rw [h5, h4] at h6
    rw [← keeps_iff A _ d h6]
    intro path a ht
    cases hlv : leaves A a path with
    | false => rfl
    | true =>
      have := h _ (.step h1 (.leave a data p (d := d) (by rw [h3]; simp) ht hlv))
      simp at this
  · intro h v hv
    have key : v.left = [] ∧ LiveSteps B C (LivePage.start C data p page) v.page := by
      generalize hv0 : (⟨[], LivePage.start C data p page⟩ : Visit I S P) = v0 at hv
      induction hv with
      | refl => subst hv0; exact ⟨rfl, .refl _⟩
      | step _ hs ih =>
        obtain ⟨i1, i2⟩ := ih
        cases hs with
        | display hd => exact ⟨i1, .step i2 (.display hd)⟩
        | loop hm => exact ⟨i1, .step i2 hm.live⟩
        | behind hb _ => rw [i1] at hb; simp at hb
        | deed a hd ht _ => exact ⟨i1, i2.trans (deed_steps a hd ht)⟩
        | @leave d path a data' p' hd ht hlv =>
          have inv := live_inv hp hl hf i2
          exfalso
          rcases inv.page with ⟨b1, -⟩ | ⟨d', b1, b2, -⟩
          · rw [b1] at hd
            exact absurd (hq d hd path a ht) (by rw [hlv]; decide)
          · rw [b1] at hd
            rcases List.mem_append.1 hd with hd | hd
            · exact absurd (hq d hd path a ht) (by rw [hlv]; decide)
            · rw [List.mem_singleton] at hd
              subst hd
              obtain ⟨is, his⟩ := inv.reach
              have hk := h is
              rw [← his, ← keeps_iff A _ d b2] at hk
              exact absurd (hk path a ht) (by rw [hlv]; decide)
    exact key.1

/-- **What leaving means**, for every component whose updates the browser can follow: if some view it can be brought to does not keep the user on the page, the
user can leave it, and then sees, with everything processed, the first view of a new component: nothing that was done before. -/
theorem C125_lost_refuted (A : Away) (B : Browser) (C : Component D I S E P) (data : D) (p : P) (page : List Dom) (hp : PageOk page)
    (hl : domListeners page = []) (hf : InStepFrom B C p (C.new data p).1) (is : List I)
    (hk : ¬ (C.render (C.after p (C.new data p).1 is)).1.Keeps A) :
    ∃ n v d, VisitSteps A B C page ⟨[], LivePage.start C data p page⟩ v ∧ v.left = [n] ∧ n.loop.comp = C.after p (C.new data p).1 is ∧
      v.page.down = [] ∧ v.page.body = page ++ [d] ∧ (C.render (C.new data p).1).1.ShownAs d := by
  obtain ⟨n, d, h1, h2, h3, h4, h5, h6, -⟩ := visit_shows (A := A) hp hl hf [] is
  rw [h5, h4] at h6
  rw [← keeps_iff A _ d h6] at hk
  have : ∃ path a, Target d path ∧ leaves A a path = true := Classical.byContradiction fun hno => hk fun path a ht => by
    cases hlv : leaves A a path with
    | false => rfl
    | true => exact absurd ⟨path, a, ht, hlv⟩ hno
  obtain ⟨path, a, ht, hlv⟩ := this
  have hs := VisitSteps.step h1 (.leave a data p (d := d) (by rw [h3]; simp) ht hlv)
  obtain ⟨n', d', g1, g2, g3, g4, g5, g6, -⟩ := visit_shows (A := A) hp hl hf _ []
  refine ⟨_, _, d', hs.trans g1, rfl, h4, g2, g3, ?_⟩
  rw [g5, g4] at g6
  exact g6

/-- a form with a button that saves something and then says so -/
def saver : Component Unit Unit Bool String Unit where
  new := fun _ _ => (false, [])
  update := fun _ _ _ => (true, [])
  render := fun s => (⟨0, "form", [], [], [⟨1, "button", [], [⟨"save", "click"⟩], [], some (if s then "saved" else "save"), none⟩], none, none⟩,
    fun n => if n = "save" then some (.click ()) else none)

theorem saver_friendly : BrowserFriendly plainBrowser saver () where
  ids := fun s => by simp [saver, Element.ids, idsOf]
  attrs := fun s => by simp [saver, Element.AttrsOk, AttrsOkAll, Headers.Distinct]
  obeys := fun s => by
    simp [saver, Element.Obeys, ObeysAll, clientRules, plainBrowser]
    decide +kernel
  keys := fun s i => by simp [saver, KeyFit, KeyFitZip, AllKeyed]
  safe := fun s i => by cases s <;> simp [saver, Safe, SafeZip, NodeSafe, nodesAll]

/-- the view's form as it is on the page -/
def plainForm (k : String) : Option String := if k = "id" then some "0" else none

/-- **C125 is false**: in a browser in which submitting a form without attributes leads to the page itself, a click on the button of such a form is acted on by the component, but the
user never sees it: with everything processed the page shows what it showed at first. -/
theorem C125_form_refuted (A : Away) (hA : A.form plainForm = true) (page : List Dom) (hp : PageOk page) (hl : domListeners page = []) :
    ∃ v n d, VisitSteps A plainBrowser saver page ⟨[], LivePage.start saver () () page⟩ v ∧ v.left = [n] ∧ n.loop.comp = true ∧
      n.log = [(("save", none), false, false)] ∧ v.page.down = [] ∧ v.page.up = [] ∧ v.page.body = page ++ [d] ∧ (saver.render false).1.ShownAs d := by
  have hf : InStepFrom plainBrowser saver () (saver.new () ()).1 := (saver_friendly.from _).inStep
  obtain ⟨d, h1, h2⟩ := hf.paints page hp
  have s1 : VisitSteps A plainBrowser saver page ⟨[], LivePage.start saver () () page⟩ _ := .step (.refl _) (.display rfl)
  have hshown := h2
  simp only [saver, Element.ShownAs, ShownAsAll] at hshown
  obtain ⟨attrs, kids, rfl, hattrs, b, ks, rfl, ⟨attrs', kids', rfl, hattrs', rfl⟩, rfl⟩ := hshown
  have ht : Target (.elem "form" attrs [] (textNodes none ++ [.elem "button" attrs' [⟨"save", "click"⟩] (textNodes (some "save") ++ [])]))
      ([.elem "button" attrs' [⟨"save", "click"⟩] (textNodes (some "save") ++ [])] ++
        [.elem "form" attrs [] (textNodes none ++ [.elem "button" attrs' [⟨"save", "click"⟩] (textNodes (some "save") ++ [])])]) :=
    .inside (by simp) (.here _ _ _ _)
  have hform : (Dom.elem "form" attrs [] (textNodes none ++ [.elem "button" attrs' [⟨"save", "click"⟩] (textNodes (some "save") ++ [])])).attr = plainForm := by
    funext k
    simp only [Dom.attr, hattrs, plainForm]
    rfl
  have hd' : attrs'.get "disabled" = none ∧ attrs'.get "type" = none := by
    constructor <;> rw [hattrs'] <;> rfl
  have hsub : (Dom.elem "button" attrs' [⟨"save", "click"⟩] (textNodes (some "save") ++ [])).isSubmit = true := by
    simp [Dom.isSubmit, Dom.attr, Dom.tag, hd']
  have hlv : leaves A .click ([.elem "button" attrs' [⟨"save", "click"⟩] (textNodes (some "save") ++ [])] ++
      [.elem "form" attrs [] (textNodes none ++ [.elem "button" attrs' [⟨"save", "click"⟩] (textNodes (some "save") ++ [])])]) = true := by
    have hact := submit_activates hsub
    simp only [leaves, submitted, List.cons_append, List.nil_append, List.dropWhile_cons, hact, Bool.not_true, Bool.false_eq_true, ↓reduceIte, hsub,
      formAround, Dom.tag, bne_self_eq_false, hform, hA, Bool.true_or]
  have hev : deedEvents .click ([.elem "button" attrs' [⟨"save", "click"⟩] (textNodes (some "save") ++ [])] ++
      [.elem "form" attrs [] (textNodes none ++ [.elem "button" attrs' [⟨"save", "click"⟩] (textNodes (some "save") ++ [])])]) = [("save", none)] := by
    have hact := submit_activates hsub
    simp only [deedEvents, submitted, List.cons_append, List.nil_append, List.dropWhile_cons, hact, Bool.not_true, Bool.false_eq_true, ↓reduceIte, hsub,
      formAround, Dom.tag, bne_self_eq_false, dispatch, List.flatMap_cons, List.flatMap_nil, Dom.listeners]
    rfl
  have s2 := VisitSteps.step s1 (.leave .click () () (by simp only [LivePage.start, h1]; exact List.mem_append.2 (Or.inr (List.mem_singleton.2 rfl))) ht hlv)
  rw [hev] at s2
  have s3 := VisitSteps.step s2 (.behind (l := []) (r := []) rfl (.handle (e := ("save", none)) (s := false) (rest := []) rfl
    (st := ⟨(), true, (saver.render true).1, (saver.render true).2⟩) (os := (updateAndDiff saver ⟨(), false, (saver.render false).1, (saver.render false).2⟩ ()).2) ?_))
  · obtain ⟨n', d', g1, g2, g3, g4, g5, g6, g7⟩ := visit_shows (A := A) hp hl hf _ []
    refine ⟨_, _, d', s3.trans g1, rfl, rfl, rfl, g2, g7, g3, ?_⟩
    rw [g5, g4] at g6
    exact g6
  · rw [handle_step]
    obtain ⟨st, os, g1, g2, g3, g4⟩ := follows_update hf (st := ⟨(), false, (saver.render false).1, (saver.render false).2⟩) rfl rfl (is := []) rfl ()
    have ha : asked (LivePage.start saver () () page).loop.listeners ("save", none) = some () := rfl
    simp only [ha]
    refine Eq.trans (b := updateAndDiff saver ⟨(), false, (saver.render false).1, (saver.render false).2⟩ ()) rfl ?_
    rw [g1]
    obtain ⟨pr, co, dm, ls⟩ := st
    simp only [LoopState.InSync] at g2 g3 g4
    subst g4
    cases g3
    rfl

theorem saver_not_keeps (A : Away) (hA : A.form plainForm = true) (s : Bool) : ¬ (saver.render s).1.Keeps A := by
  rintro ⟨-, h⟩
  have := h ⟨1, "button", [], [⟨"save", "click"⟩], [], some (if s then "saved" else "save"), none⟩ [] (saver.render s).1 []
    (Within.inside (e := (saver.render s).1) List.mem_cons_self (.here _)) (Or.inl ⟨rfl, Or.inl ⟨rfl, by simp [Element.shownAttr, Headers.get]⟩⟩) rfl (by simp)
  have e : (saver.render s).1.shownAttr = plainForm := by
    funext k
    simp [saver, Element.shownAttr, plainForm, Headers.get]
    rfl
  rw [e, hA] at this
  cases this

/-! ## The chat application -/

theorem nameRules_within {R : Rules} {e : Element} {path : List Element} (h : Within e path) : e.Obeys R → ∀ x ∈ path, R.tag x.name := by
  induction h with
  | here e =>
    intro h x hx
    rw [List.mem_singleton] at hx
    subst hx
    cases x
    rw [Element.Obeys] at h
    exact h.1
  | @inside e c path hc hw ih =>
    intro h x hx
    have hcs : ∀ cs : List Element, ObeysAll R cs → ∀ c ∈ cs, c.Obeys R := by
      intro cs
      induction cs with
      | nil => intro _ c hc; cases hc
      | cons c' cs ih =>
        intro h c hc
        rw [ObeysAll] at h
        rcases List.mem_cons.1 hc with rfl | hc
        · exact h.1
        · exact ih h.2 c hc
    cases e
    have h' := h
    rw [Element.Obeys] at h'
    rcases List.mem_append.1 hx with hx | hx
    · exact ih (hcs _ h'.2.2.2 c hc) x hx
    · rw [List.mem_singleton] at hx
      subst hx
      exact h'.1

/-- Tags of elements that lead nowhere. -/
def quietTags : Rules where
  tag n := n ∈ ["div", "input", "p", "h3", "h1", "button"]
  attr _ _ := True
  lis _ := True
  strict := True

theorem keeps_of_tags {e : Element} (h : e.Obeys quietTags) (A : Away) : e.Keeps A := by
  have key : ∀ path, Within e path → ∀ x ∈ path, x.name ∈ ["div", "input", "p", "h3", "h1", "button"] := fun path hw => nameRules_within hw h
  refine ⟨fun l around hw hl => ?_, fun b between f around hw _ hf _ => ?_⟩
  · have := key _ hw l List.mem_cons_self
    rcases hl.1 with e | e <;> rw [e] at this <;> exact absurd this (by decide)
  · have := key _ hw f (by simp)
    rw [hf] at this
    exact absurd this (by decide)

theorem chat_tags (l : Chat.Live) : l.render.1.Obeys quietTags := by
  cases l with
  | uninitialized u =>
    rw [Chat.render_uninitialized]
    simp [Element.Obeys, ObeysAll, quietTags]
  | initialized u id ms c =>
    rw [Chat.render_initialized]
    have : ∀ g, ObeysAll quietTags (Chat.msgEls g ms) := by
      intro g
      induction ms generalizing g with
      | nil => rw [Chat.msgEls, ObeysAll]; trivial
      | cons m ms ih => rw [Chat.msgEls, ObeysAll]; exact ⟨by simp [Chat.msgEl, Element.Obeys, ObeysAll, quietTags], ih _⟩
    simp only [Element.Obeys, ObeysAll, this]
    simp [quietTags]

/-- **C125 for the chat application.**  In every browser, no view of the chat has anything that leads away: its buttons are in no form. -/
theorem C125_chat (A : Away) (l : Chat.Live) : l.render.1.Keeps A := keeps_of_tags (chat_tags l) A

/-- non-vacuity: the counter of C84 keeps the user on the page in every browser -/
example (A : Away) (v : Visit Nat Nat Unit) (hv : VisitSteps A plainBrowser counter [] ⟨[], LivePage.start counter () () []⟩ v) : v.left = [] := by
  refine (C125_exact_partial A plainBrowser counter () () [] (by simp [PageOk, domIds]) rfl (by simp) (counter_friendly.from _).inStep).2 ?_ v hv
  intro is
  refine keeps_of_tags ?_ A
  simp [counter, Element.Obeys, ObeysAll, quietTags]

/-- and the form of `C125_form_refuted` does not -/
example (A : Away) (hA : A.form plainForm = true) : ¬ ∀ v, VisitSteps A plainBrowser saver [] ⟨[], LivePage.start saver () () []⟩ v → v.left = [] := by
  rw [C125_exact_partial A plainBrowser saver () () [] (by simp [PageOk, domIds]) rfl (by simp) (saver_friendly.from _).inStep]
  exact fun h => saver_not_keeps A hA _ (h [])

end Puck
