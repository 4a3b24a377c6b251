import Verif.Lemmas.PaintDiff
import Verif.Spec.Follows
/-!
# The recursive condition, in terms of the two views
-/
namespace Puck.Shape.Paint

mutual
/-- Compared elements have the same tags, or the new one is allowed. -/
def Tagged (P : String → Prop) (a : Element) : Element → Prop
  | ⟨_, bn, _, _, bk, _, _⟩ => (a.name = bn ∨ P bn) ∧ TaggedZip P a.children bk
/-- children, paired by position -/
def TaggedZip (P : String → Prop) (as : List Element) : List Element → Prop
  | [] => True
  | b :: bs =>
    match as with
    | [] => True
    | a :: as => Tagged P a b ∧ TaggedZip P as bs
end

theorem TaggedZip_of {P : String → Prop} : ∀ (bs as : List Element), (∀ (k : Nat) (a b : Element), as[k]? = some a → bs[k]? = some b → Tagged P a b) → TaggedZip P as bs
  | [], as, _ => by rw [TaggedZip]; trivial
  | b :: bs, [], _ => by rw [TaggedZip]; trivial
  | b :: bs, a :: as, h => by
    rw [TaggedZip]
    exact ⟨h 0 a b rfl rfl, TaggedZip_of bs as fun k x y hx hy => h (k + 1) x y hx hy⟩

theorem tagged_of {P : String → Prop} {a b : Element} (h : ∀ x y, Compared a b x y → x.name = y.name ∨ P y.name) : Tagged P a b := by
  have key : ∀ (n : Nat) (a b : Element), b.ids.length ≤ n → (∀ x y, Compared a b x y → x.name = y.name ∨ P y.name) → Tagged P a b := by
    intro n
    induction n with
    | zero => intro a b h; rw [b.ids_eq] at h; simp at h
    | succ n ih =>
      intro a b hn h
      have hsz : ∀ (k : Nat) (y : Element), b.children[k]? = some y → y.ids.length ≤ n := by
        intro k y hy
        rw [b.ids_eq, List.length_cons] at hn
        have hs := split_ids hy
        have : (idsOf b.children).length = (idsOf (b.children.take k)).length + (y.ids.length + (idsOf (b.children.drop (k + 1))).length) := by
          conv => lhs; rw [hs]
          rw [idsOf_append, List.length_append, idsOf, List.length_append]
        omega
      cases hB : b with
      | mk bi bn ba bl bk bt bkey =>
      rw [Tagged]
      rw [hB] at h hsz
      refine ⟨h _ _ .root, TaggedZip_of bk a.children fun k x y hx hy => ih x y (hsz k y hy) fun u v huv => h u v (Compared.trans (.child k .root hx hy) huv)⟩
  exact key _ a b (Nat.le_refl _) h

theorem GoodZip_iff (σ : Bool) (anc : List Nat) : ∀ (bs as : List Element),
    GoodZip σ anc as bs ↔ ∀ (k : Nat) (a b : Element), as[k]? = some a → bs[k]? = some b → Good σ anc a b
  | [], as => by rw [GoodZip]; simp
  | b :: bs, [] => by rw [GoodZip]; simp
  | b :: bs, a :: as => by
    rw [GoodZip, GoodZip_iff σ anc bs as]
    constructor
    · rintro ⟨h1, h2⟩ k x y hx hy
      cases k with
      | zero => simp only [List.getElem?_cons_zero, Option.some.injEq] at hx hy; subst hx; subst hy; exact h1
      | succ k => exact h2 k x y hx hy
    · intro h
      exact ⟨h 0 a b rfl rfl, fun k x y hx hy => h (k + 1) x y hx hy⟩

theorem textFollows_iff {a b : Element} : TextFollows a b ↔ (a.text = b.text ∨ b.text ≠ none ∨ a.text = some "") ∧ (Wiped a b → a.children = []) := by
  unfold TextFollows Wiped
  constructor
  · rintro (h | ⟨h1, h2⟩ | ⟨h1, h2⟩)
    · exact ⟨Or.inl h, fun w => absurd h w.1⟩
    · exact ⟨Or.inr (Or.inl h2), fun _ => h1⟩
    · exact ⟨Or.inr (Or.inr h1), fun w => absurd h2 w.2⟩
  · rintro ⟨h1, h2⟩
    by_cases he : a.text = b.text
    · exact Or.inl he
    · by_cases hn : b.text = none
      · rcases h1 with h | h | h
        · exact absurd h he
        · exact absurd hn h
        · exact Or.inr (Or.inr ⟨h, hn⟩)
      · exact Or.inr (Or.inl ⟨h2 ⟨he, hn⟩, hn⟩)

theorem created_top {a b K : Element} (h : Created a b K) : K ∈ nodesAll (b.children.drop a.children.length) ∨
    ∃ (k : Nat) (a' b' : Element), a.children[k]? = some a' ∧ b.children[k]? = some b' ∧ Created a' b' K := by
  obtain ⟨u, v, c, h1, h2, h3⟩ := h
  rcases Compared.cases_top h1 with ⟨rfl, rfl⟩ | ⟨k, a', b', ha, hb, hc⟩
  · left
    generalize v.children.drop u.children.length = cs at h2
    induction cs with
    | nil => cases h2
    | cons d cs ih =>
      rw [nodesAll, List.mem_append]
      rcases List.mem_cons.1 h2 with rfl | h2
      · exact Or.inl h3
      · exact Or.inr (ih h2)
  · exact Or.inr ⟨k, a', b', ha, hb, u, v, c, hc, h2, h3⟩

/-- The condition, with what surrounds the two elements. -/
structure FollowsIn (σ : Bool) (anc : List Nat) (a b : Element) : Prop where
  here : Followable a b
  around : ∀ K, Created a b K → K.id ∈ anc → K.Empty
  quiet : σ = true → ∀ x y, Compared a b x y → x.listeners = y.listeners → y.listeners = []

theorem follows_step {σ : Bool} {anc : List Nat} {a b : Element} : FollowsIn σ anc a b ↔
    b.id ≤ a.id ∧ OwnGood σ a b ∧ (Wiped a b → a.children = []) ∧
    (∀ K ∈ nodesAll (b.children.drop a.children.length), K.id ∈ a.id :: anc → K.Empty) ∧
    ∀ (k : Nat) (a' b' : Element), a.children[k]? = some a' → b.children[k]? = some b' → FollowsIn (below' σ a b) (a.id :: anc) a' b' := by
  constructor
  · rintro ⟨h1, h2, h3⟩
    obtain ⟨r1, r2, r3, r4, r5⟩ := h1 a b .root
    have ht := textFollows_iff.1 r4
    refine ⟨r1, ⟨fun h => (r2 h).1, fun h => (r2 h).2, ?_, ht.1⟩, ht.2, ?_, ?_⟩
    · intro hh
      unfold hushed at hh
      rw [Bool.or_eq_true, decide_eq_true_eq] at hh
      rcases hh with hσ | hn
      · exact h3 hσ a b .root
      · exact r5 (Or.inr hn) a b .root
    · intro K hK hid
      have hcr : Created a b K := by
        obtain ⟨c, hc, hk⟩ := mem_nodesAll hK
        exact ⟨_, _, c, .root, hc, hk⟩
      rcases List.mem_cons.1 hid with h | h
      · exact r3 K hcr h
      · exact h2 K hcr h
    · intro k a' b' ha hb
      have hc : Compared a b a' b' := .child k .root ha hb
      refine ⟨fun x y hxy => h1 x y (Compared.trans hc hxy), ?_, ?_⟩
      · intro K hK hid
        have hcr : Created a b K := Created.of hc hK
        rcases List.mem_cons.1 hid with h | h
        · exact r3 K hcr h
        · exact h2 K hcr h
      · intro hb' x y hxy
        unfold below' under hushed at hb'
        rw [Bool.or_eq_true, Bool.or_eq_true, decide_eq_true_eq, decide_eq_true_eq] at hb'
        rcases hb' with (h | h) | h
        · exact h3 h x y (Compared.trans hc hxy)
        · exact r5 (Or.inr h) x y (Compared.trans hc hxy)
        · exact r5 (Or.inl h) x y (Compared.trans hc hxy)
  · rintro ⟨g1, ⟨g0, g2, g3, g4⟩, g5, g6, g7⟩
    have hσ : ∀ {k : Nat} {a' b' : Element}, a.children[k]? = some a' → b.children[k]? = some b' → ((σ = true ∨ a.name ≠ b.name) ∨ a.listeners ≠ b.listeners) →
        ∀ x y, Compared a' b' x y → x.listeners = y.listeners → y.listeners = [] := by
      intro k a' b' ha hb hor
      refine (g7 k a' b' ha hb).quiet ?_
      unfold below' under hushed
      rw [Bool.or_eq_true, Bool.or_eq_true, decide_eq_true_eq, decide_eq_true_eq]
      exact hor
    refine ⟨?_, ?_, ?_⟩
    · intro x y hxy
      rcases Compared.cases_top hxy with ⟨rfl, rfl⟩ | ⟨k, a', b', ha, hb, hc⟩
      · refine ⟨g1, fun h => ⟨g0 h, g2 h⟩, ?_, textFollows_iff.2 ⟨g4, g5⟩, ?_⟩
        · intro K hK hid
          rcases created_top hK with h | ⟨k, a', b', ha, hb, hc⟩
          · exact g6 K h (hid ▸ List.mem_cons_self ..)
          · exact (g7 k a' b' ha hb).around K hc (hid ▸ List.mem_cons_self ..)
        · intro hne x' y' hxy' he
          rcases Compared.cases_top hxy' with ⟨rfl, rfl⟩ | ⟨k, a', b', ha, hb, hc⟩
          · rcases hne with hne | hne
            · exact absurd he hne
            · exact g3 (by simp [hushed, hne]) he
          · exact hσ ha hb (hne.elim Or.inr fun h => Or.inl (Or.inr h)) x' y' hc he
      · exact (g7 k a' b' ha hb).here x y hc
    · intro K hK hid
      rcases created_top hK with h | ⟨k, a', b', ha, hb, hc⟩
      · exact g6 K h (List.mem_cons_of_mem _ hid)
      · exact (g7 k a' b' ha hb).around K hc (List.mem_cons_of_mem _ hid)
    · intro hs x y hxy he
      rcases Compared.cases_top hxy with ⟨rfl, rfl⟩ | ⟨k, a', b', ha, hb, hc⟩
      · exact g3 (by simp [hushed, hs]) he
      · exact hσ ha hb (Or.inl (Or.inl hs)) x y hc he

theorem good_iff {σ : Bool} {anc : List Nat} {a b : Element} : Good σ anc a b ↔ FollowsIn σ anc a b := by
  have key : ∀ (n : Nat) (σ : Bool) (anc : List Nat) (a b : Element), b.ids.length ≤ n → (Good σ anc a b ↔ FollowsIn σ anc a b) := by
    intro n
    induction n with
    | zero => intro σ anc a b h; rw [b.ids_eq] at h; simp at h
    | succ n ih =>
      intro σ anc a b hn
      have hsz : ∀ (k : Nat) (y : Element), b.children[k]? = some y → y.ids.length ≤ n := by
        intro k y hy
        rw [b.ids_eq, List.length_cons] at hn
        have hs := split_ids hy
        have : (idsOf b.children).length = (idsOf (b.children.take k)).length + (y.ids.length + (idsOf (b.children.drop (k + 1))).length) := by
          conv => lhs; rw [hs]
          rw [idsOf_append, List.length_append, idsOf, List.length_append]
        omega
      rw [follows_step]
      cases hB : b with
      | mk bi bn ba bl bk bt bkey =>
      rw [hB] at hsz
      rw [Good, GoodZip_iff]
      simp only
      refine and_congr Iff.rfl (and_congr Iff.rfl (and_congr Iff.rfl (and_congr Iff.rfl ?_)))
      constructor
      · intro h k x y hx hy; exact (ih _ _ x y (hsz k y hy)).1 (h k x y hx hy)
      · intro h k x y hx hy; exact (ih _ _ x y (hsz k y hy)).2 (h k x y hx hy)
  exact key _ σ anc a b (Nat.le_refl _)

theorem good_followable {a b : Element} : Good false [] a b ↔ Followable a b := by
  rw [good_iff]
  exact ⟨fun h => h.here, fun h => ⟨h, (fun _ _ h => nomatch h), (fun h => nomatch h)⟩⟩

end Puck.Shape.Paint
