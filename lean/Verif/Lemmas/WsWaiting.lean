import Verif.Lemmas.Waiting
import Verif.Lemmas.Frame
import Verif.Props.BackToBack
/-!
# Frames and messages do not depend on what comes later (for C145)
-/
namespace Puck

/-- The reader has come to the end of the stream. -/
def Buf.AtEnd (r : Buf) : Prop := r.buf = [] ∧ r.raw = []

theorem Buf.pending_or (r : Buf) : (r.buf ≠ [] ∨ r.raw ≠ []) ∨ r.AtEnd := by
  by_cases h : r.buf = []
  · by_cases h' : r.raw = []
    · exact Or.inr ⟨h, h'⟩
    · exact Or.inl (Or.inr h')
  · exact Or.inl (Or.inl h)

theorem Buf.read_atEnd {cap n : Nat} {r : Buf} (h : r.AtEnd) : r.read cap n = (some [], r) := by
  obtain ⟨buf, raw⟩ := r
  obtain ⟨rfl, rfl⟩ : buf = [] ∧ raw = [] := h
  unfold Buf.read Buf.fillBuf Raw.read
  split <;> simp

theorem readExactGo_later {cap : Nat} : ∀ (f n : Nat) (acc : Bytes) (r r' : Buf) (o : Option Bytes), r.readExactGo cap f n acc = (o, r') →
    (o = none ∧ r'.AtEnd) ∨ ∀ more, (r.later more).readExactGo cap f n acc = (o, r'.later more)
  | _, 0, acc, r, r', o, h => by
    simp only [Buf.readExactGo, Prod.mk.injEq] at h ⊢
    obtain ⟨rfl, rfl⟩ := h
    exact Or.inr fun _ => ⟨rfl, rfl⟩
  | 0, n + 1, acc, r, r', o, h => by
    simp only [Buf.readExactGo, Prod.mk.injEq] at h ⊢
    obtain ⟨rfl, rfl⟩ := h
    exact Or.inr fun _ => ⟨rfl, rfl⟩
  | f + 1, n + 1, acc, r, r', o, h => by
    rw [Buf.readExactGo] at h
    rcases Buf.pending_or r with hp | hp
    · have hl := fun more => Buf.read_later (cap := cap) (n := n + 1) hp more
      cases hr : r.read cap (n + 1) with
      | mk o1 r1 =>
        simp only [hr] at h hl
        cases o1 with
        | none =>
          simp only [Prod.mk.injEq] at h
          obtain ⟨rfl, rfl⟩ := h
          exact Or.inr fun more => by rw [Buf.readExactGo, hl more]
        | some x =>
          simp only at h
          split at h
          · rename_i hx
            simp only [Prod.mk.injEq] at h
            obtain ⟨rfl, rfl⟩ := h
            exact Or.inr fun more => by rw [Buf.readExactGo, hl more]; simp [hx]
          · rename_i hx
            rcases readExactGo_later f _ _ _ _ _ h with g | g
            · exact Or.inl g
            · exact Or.inr fun more => by rw [Buf.readExactGo, hl more]; simp only [hx, if_false]; exact g more
    · rw [Buf.read_atEnd hp] at h
      simp only [if_true, Prod.mk.injEq] at h
      obtain ⟨rfl, rfl⟩ := h
      exact Or.inl ⟨rfl, hp⟩

theorem takeToEndGo_later {cap : Nat} : ∀ (f n : Nat) (acc : Bytes) (r r' : Buf) (o : Option Bytes), r.takeToEndGo cap f n acc = (o, r') →
    (r'.AtEnd ∧ ∃ b, o = some b ∧ b.length < acc.length + n) ∨ ∀ more, (r.later more).takeToEndGo cap f n acc = (o, r'.later more)
  | _, 0, acc, r, r', o, h => by
    simp only [Buf.takeToEndGo, Prod.mk.injEq] at h ⊢
    obtain ⟨rfl, rfl⟩ := h
    exact Or.inr fun _ => ⟨rfl, rfl⟩
  | 0, n + 1, acc, r, r', o, h => by
    simp only [Buf.takeToEndGo, Prod.mk.injEq] at h ⊢
    obtain ⟨rfl, rfl⟩ := h
    exact Or.inr fun _ => ⟨rfl, rfl⟩
  | f + 1, n + 1, acc, r, r', o, h => by
    rw [Buf.takeToEndGo] at h
    rcases Buf.pending_or r with hp | hp
    · have hl := fun more => Buf.read_later (cap := cap) (n := n + 1) hp more
      cases hr : r.read cap (n + 1) with
      | mk o1 r1 =>
        simp only [hr] at h hl
        cases o1 with
        | none =>
          simp only [Prod.mk.injEq] at h
          obtain ⟨rfl, rfl⟩ := h
          exact Or.inr fun more => by rw [Buf.takeToEndGo, hl more]
        | some x =>
          simp only at h
          split at h
          · rename_i hx
            simp only [Prod.mk.injEq] at h
            obtain ⟨rfl, rfl⟩ := h
            exact Or.inr fun more => by rw [Buf.takeToEndGo, hl more]; simp [hx]
          · rename_i hx
            have hxl : x.length ≤ n + 1 := by
              unfold Buf.read at hr
              split at hr
              · cases hq : r.raw.read (n + 1) with
                | mk o2 raw2 =>
                  rw [hq] at hr
                  cases o2 with
                  | none => simp at hr
                  | some y =>
                    simp only [Prod.mk.injEq, Option.some.injEq] at hr
                    rw [← hr.1]
                    cases hraw : r.raw with
                    | nil => rw [hraw] at hq; simp [Raw.read] at hq; rw [hq.1]; simp
                    | cons e es =>
                      rw [hraw] at hq
                      cases e with
                      | fail => simp [Raw.read] at hq
                      | data d =>
                        simp only [Raw.read] at hq
                        split at hq <;> simp only [Prod.mk.injEq, Option.some.injEq] at hq <;> rw [← hq.1]
                        · assumption
                        · simp only [List.length_take]; omega
              · cases hq : r.fillBuf cap with
                | mk o2 r2 =>
                  rw [hq] at hr
                  cases o2 with
                  | none => simp at hr
                  | some y =>
                    simp only [Prod.mk.injEq, Option.some.injEq] at hr
                    rw [← hr.1]
                    simp only [List.length_take]; omega
            rcases takeToEndGo_later f _ _ _ _ _ h with ⟨g1, b, g2, g3⟩ | g
            · refine Or.inl ⟨g1, b, g2, ?_⟩
              simp only [List.length_append] at g3
              omega
            · exact Or.inr fun more => by rw [Buf.takeToEndGo, hl more]; simp only [hx, if_false]; exact g more
    · rw [Buf.read_atEnd hp] at h
      simp only [if_true, Prod.mk.injEq] at h
      obtain ⟨rfl, rfl⟩ := h
      exact Or.inl ⟨hp, acc, rfl, by omega⟩

theorem readPayload_later {W : Nat} {fin : Bool} {L : Nat} (hL : L < 2 ^ W) {r r' : Buf} {o : Outcome ParseFrameError Bytes}
    (h : readPayload W fin L r = (o, r')) :
    ((∃ e, o = .err e) ∧ r'.AtEnd) ∨ ∀ more, readPayload W fin L (r.later more) = (o, r'.later more) := by
  unfold readPayload at h
  rcases Buf.pending_or r with hp | hp
  · have hl := fun more => Buf.read_later (cap := defaultCap) (n := 4) hp more
    cases hr : r.read defaultCap 4 with
    | mk o1 r1 =>
      simp only [hr] at h hl
      cases o1 with
      | none =>
        simp only [Prod.mk.injEq] at h
        obtain ⟨rfl, rfl⟩ := h
        exact Or.inr fun more => by unfold readPayload; rw [hl more]
      | some key =>
        simp only [Nat.mod_eq_of_lt hL] at h
        by_cases hk : key.length ≠ 4
        · rw [if_pos hk] at h
          simp only [Prod.mk.injEq] at h
          obtain ⟨rfl, rfl⟩ := h
          exact Or.inr fun more => by unfold readPayload; rw [hl more]; simp only [if_pos hk]
        · rw [if_neg hk] at h
          by_cases hb : L > isizeMax W
          · rw [if_pos hb] at h
            simp only [Prod.mk.injEq] at h
            obtain ⟨rfl, rfl⟩ := h
            exact Or.inr fun more => by
              unfold readPayload; rw [hl more]; simp only [if_neg hk, Nat.mod_eq_of_lt hL, if_pos hb]
          · rw [if_neg hb] at h
            have hmin : ∀ x, ¬ min L x > isizeMax W := fun x => by have := Nat.min_le_left L x; omega
            rw [if_neg (hmin _)] at h
            cases ht : r1.takeToEnd defaultCap L with
            | mk o2 r2 =>
              rw [ht] at h
              rcases takeToEndGo_later L L [] r1 r2 o2 ht with ⟨g1, b, rfl, g3⟩ | g
              · simp only at h
                have hne : b.length ≠ L := by simp at g3; omega
                rw [if_pos hne] at h
                split at h <;> simp only [Prod.mk.injEq] at h <;> obtain ⟨rfl, rfl⟩ := h <;> exact Or.inl ⟨⟨_, rfl⟩, g1⟩
              · refine Or.inr fun more => ?_
                have g' : (r1.later more).takeToEnd defaultCap L = (o2, r2.later more) := g more
                unfold readPayload
                rw [hl more]
                simp only [if_neg hk, Nat.mod_eq_of_lt hL, if_neg hb, if_neg (hmin _), g']
                cases o2 with
                | none => simp only [Prod.mk.injEq] at h; obtain ⟨rfl, rfl⟩ := h; rfl
                | some b =>
                  simp only at h ⊢
                  split at h
                  · split at h <;> simp only [Prod.mk.injEq] at h <;> obtain ⟨rfl, rfl⟩ := h <;> simp [*]
                  · simp only [Prod.mk.injEq] at h; obtain ⟨rfl, rfl⟩ := h; simp [*]
  · rw [Buf.read_atEnd hp] at h
    simp only [List.length_nil, ne_eq, Nat.reduceEqDiff, not_false_eq_true, if_true, Prod.mk.injEq] at h
    obtain ⟨rfl, rfl⟩ := h
    exact Or.inl ⟨⟨_, rfl⟩, hp⟩

theorem readPayloadLength_later {second : UInt8} {r r' : Buf} {o : Option Nat} (h : readPayloadLength second r = (o, r')) :
    (o = none ∧ r'.AtEnd) ∨ ∀ more, readPayloadLength second (r.later more) = (o, r'.later more) := by
  have key : ∀ n o' r'', r.readExact defaultCap n = (o', r'') →
      (o' = none ∧ r''.AtEnd) ∨ ∀ more, (r.later more).readExact defaultCap n = (o', r''.later more) :=
    fun n o' r'' h => readExactGo_later n n [] r r'' o' h
  unfold readPayloadLength at h ⊢
  split at h
  · rename_i h6
    simp only [h6, if_true]
    cases hx : r.readExact defaultCap 2 with
    | mk o1 r1 =>
      rw [hx] at h
      rcases key 2 o1 r1 hx with ⟨rfl, g⟩ | g
      · simp only [Prod.mk.injEq] at h; obtain ⟨rfl, rfl⟩ := h; exact Or.inl ⟨rfl, g⟩
      · refine Or.inr fun more => ?_
        rw [g more]
        cases o1 <;> simp only [Prod.mk.injEq] at h <;> obtain ⟨rfl, rfl⟩ := h <;> rfl
  · rename_i h6
    simp only [h6, if_false]
    split at h
    · rename_i h7
      simp only [h7, if_true]
      cases hx : r.readExact defaultCap 8 with
      | mk o1 r1 =>
        rw [hx] at h
        rcases key 8 o1 r1 hx with ⟨rfl, g⟩ | g
        · simp only [Prod.mk.injEq] at h; obtain ⟨rfl, rfl⟩ := h; exact Or.inl ⟨rfl, g⟩
        · refine Or.inr fun more => ?_
          rw [g more]
          cases o1 <;> simp only [Prod.mk.injEq] at h <;> obtain ⟨rfl, rfl⟩ := h <;> rfl
    · rename_i h7
      simp only [h7, if_false]
      simp only [Prod.mk.injEq] at h; obtain ⟨rfl, rfl⟩ := h
      exact Or.inr fun _ => rfl

end Puck
