import Verif.Spec.Waiting
import Verif.Lemmas.Body
import Verif.Lemmas.Head
/-!
# Reads that do not touch what comes later
-/
namespace Puck
open Http

theorem Raw.read_later {n : Nat} {a : Raw} (h : a ≠ []) (more : Raw) :
    Raw.read n (a ++ more) = ((Raw.read n a).1, (Raw.read n a).2 ++ more) := by
  cases a with
  | nil => exact absurd rfl h
  | cons e a =>
    cases e with
    | fail => rfl
    | data b =>
      simp only [List.cons_append, Raw.read]
      split <;> rfl

/-- The same buffered reader, with `more` arriving after everything else. -/
def Buf.later (more : Raw) (r : Buf) : Buf := ⟨r.buf, r.raw ++ more⟩

theorem Buf.fillBuf_later {cap : Nat} {r : Buf} (h : r.buf ≠ [] ∨ r.raw ≠ []) (more : Raw) :
    (r.later more).fillBuf cap = ((r.fillBuf cap).1, (r.fillBuf cap).2.later more) := by
  unfold Buf.fillBuf Buf.later
  by_cases hb : r.buf = []
  · simp only [hb, if_true]
    rw [Raw.read_later (h.resolve_left (fun g => g hb))]
    cases Raw.read cap r.raw with
    | mk o raw => cases o <;> rfl
  · simp only [hb, if_false]

theorem Buf.read_later {cap n : Nat} {r : Buf} (h : r.buf ≠ [] ∨ r.raw ≠ []) (more : Raw) :
    (r.later more).read cap n = ((r.read cap n).1, (r.read cap n).2.later more) := by
  unfold Buf.read
  by_cases hb : r.buf = [] ∧ cap ≤ n
  · have hb' : (r.later more).buf = [] ∧ cap ≤ n := hb
    rw [if_pos hb, if_pos hb']
    have hl := Raw.read_later (n := n) (h.resolve_left (fun g => g hb.1)) more
    rw [show (r.later more).raw = r.raw ++ more from rfl, hl]
    cases Raw.read n r.raw with
    | mk o raw => cases o <;> rfl
  · have hb' : ¬ ((r.later more).buf = [] ∧ cap ≤ n) := hb
    rw [if_neg hb, if_neg hb', Buf.fillBuf_later h]
    cases r.fillBuf cap with
    | mk o r' => cases o <;> rfl

/-- A reader which still has something coming: bytes or an error. -/
def Src.Pending : Src → Prop
  | .cursor _ => True
  | .buf _ r => r.buf ≠ [] ∨ r.raw ≠ []
  | .other r => r ≠ []

theorem Src.read_later {n : Nat} {s : Src} (h : s.Pending) (more : Raw) :
    (s.later more).read n = ((s.read n).1, (s.read n).2.later more) := by
  cases s with
  | cursor c => rfl
  | buf cap r =>
    have := Buf.read_later (cap := cap) (n := n) h more
    simp only [Src.later, Src.read]
    simp only [Buf.later] at this
    rw [this]
  | other r =>
    simp only [Src.later, Src.read]
    rw [Raw.read_later h]

theorem Src.pending_of_avail {s : Src} (h : s.avail ≠ [] ∨ ¬ s.Clean) : s.Pending := by
  cases s with
  | cursor c => trivial
  | buf cap r =>
    by_cases hb : r.buf = []
    · refine Or.inr fun hr => ?_
      simp [Src.avail, Src.Clean, hb, hr, Raw.avail, Raw.Clean] at h
    · exact Or.inl hb
  | other r =>
    intro hr
    simp [Src.avail, Src.Clean, hr, Raw.avail, Raw.Clean] at h

/-- Nothing more is needed to read this body to its end: it is declared and has arrived, or an error has. -/
def Body.Settled (b : Body) : Prop :=
  (∃ len, b.length = some len ∧ len - b.bytesRead ≤ b.reader.avail.length) ∨ ¬ b.reader.Clean ∨ ∃ c, b.reader = .cursor c

/-- The part of `Body::read` which reads (lines 100 and 106-109 of puck/src/body/mod.rs). -/
def Body.readGo (b : Body) (m : Nat) : Outcome Unit Bytes × Body :=
  match b.reader.read m with
  | (none, r) => (.err (), { b with reader := r })
  | (some x, r) => (.ok x, { b with reader := r, bytesRead := b.bytesRead + x.length })

theorem Body.read_eq (n : Nat) (b : Body) : b.read n =
    match b.length with
    | none => b.readGo n
    | some len => if len = b.bytesRead then (.ok [], b) else if len < b.bytesRead then (.panic, b)
        else b.readGo (min (len - b.bytesRead) n) := rfl

theorem Body.read_later {n : Nat} {b : Body} (h : b.Settled) (more : Raw) :
    (b.later more).read n = ((b.read n).1, (b.read n).2.later more) := by
  have go : ∀ m, b.reader.Pending → (b.later more).readGo m = ((b.readGo m).1, (b.readGo m).2.later more) := by
    intro m hp
    unfold Body.readGo
    rw [show (b.later more).reader = b.reader.later more from rfl, Src.read_later hp]
    cases b.reader.read m with
    | mk o r => cases o <;> rfl
  have hp : (∀ len, b.length = some len → b.bytesRead < len) → b.reader.Pending := by
    intro hl
    rcases h with ⟨len, h1, h2⟩ | h | ⟨c, h⟩
    · refine Src.pending_of_avail (Or.inl fun h0 => ?_)
      rw [h0] at h2
      have := hl len h1
      simp at h2; omega
    · exact Src.pending_of_avail (Or.inr h)
    · rw [h]; trivial
  rw [Body.read_eq, Body.read_eq, show (b.later more).length = b.length from rfl,
    show (b.later more).bytesRead = b.bytesRead from rfl]
  cases hlen : b.length with
  | none => exact go n (hp (by simp [hlen]))
  | some len =>
    simp only
    by_cases h1 : len = b.bytesRead
    · simp [h1]
    · by_cases h2 : len < b.bytesRead
      · simp [h1, h2]
      · simp only [h1, h2, if_false]
        exact go (min (len - b.bytesRead) n) (hp (by simp [hlen]; omega))

theorem Body.read_settled {n : Nat} (hn : 0 < n) {b b' : Body} (hw : b.WF) (h : b.Settled) {x : Bytes}
    (hr : b.read n = (.ok x, b')) : b'.Settled := by
  obtain ⟨hwr, hl⟩ := hw
  have key : ∀ m, 0 < m → ∀ s, b.reader.read m = (some x, s) → (∀ len, b.length = some len → b.bytesRead + m ≤ len) →
      ({ b with reader := s, bytesRead := b.bytesRead + x.length } : Body).Settled := by
    intro m hm s hx hml
    obtain ⟨hs, _⟩ := Src.read_spec hm hwr hx
    have hav := hs.some_avail _ rfl
    have hxl := hs.some_len _ rfl
    rcases h with ⟨len, h1, h2⟩ | h | ⟨c, h⟩
    · refine Or.inl ⟨len, h1, ?_⟩
      simp only
      rw [hav, List.length_append] at h2
      omega
    · exact Or.inr (Or.inl fun hc => h ((hs.some_clean _ rfl).2 hc))
    · refine Or.inr (Or.inr ?_)
      rw [h] at hx
      simp only [Src.read, Prod.mk.injEq] at hx
      exact ⟨_, hx.2.symm⟩
  unfold Body.read at hr
  simp only at hr
  cases hlen : b.length with
  | none =>
    rw [hlen] at hr
    simp only at hr
    cases hx : b.reader.read n with
    | mk y s =>
      rw [hx] at hr
      cases y with
      | none => simp at hr
      | some y =>
        simp only [Prod.mk.injEq, Outcome.ok.injEq] at hr
        obtain ⟨rfl, rfl⟩ := hr
        rw [← hlen]
        exact key n hn s hx (by simp [hlen])
  | some len =>
    rw [hlen] at hr
    simp only at hr
    have hle := hl len hlen
    by_cases h1 : len = b.bytesRead
    · simp only [h1, if_true, Prod.mk.injEq] at hr
      obtain ⟨_, rfl⟩ := hr
      exact h
    · have h2 : ¬ len < b.bytesRead := by omega
      simp only [h1, h2, if_false] at hr
      cases hx : b.reader.read (min (len - b.bytesRead) n) with
      | mk y s =>
        rw [hx] at hr
        cases y with
        | none => simp at hr
        | some y =>
          simp only [Prod.mk.injEq, Outcome.ok.injEq] at hr
          obtain ⟨rfl, rfl⟩ := hr
          rw [← hlen]
          refine key _ (by omega) s hx ?_
          intro len' hlen'
          rw [hlen] at hlen'
          simp only [Option.some.injEq] at hlen'
          omega

theorem Body.readToEnd_later (sched : Nat → Nat) (more : Raw) (i : Nat) (acc : Bytes) (b : Body) (hw : b.WF) (h : b.Settled) :
    (b.later more).readToEnd sched i acc = ((b.readToEnd sched i acc).1, (b.readToEnd sched i acc).2.later more) := by
  fun_induction Body.readToEnd sched i acc b with
  | case1 i acc b e b' hr => rw [Body.readToEnd, Body.read_later h, hr]
  | case2 i acc b b' hr => rw [Body.readToEnd, Body.read_later h, hr]
  | case3 i acc b b' hr => rw [Body.readToEnd, Body.read_later h, hr]; simp
  | case4 i acc b x b' hr hx ih =>
    rw [Body.readToEnd, Body.read_later h, hr]
    simp only [hx, dite_false]
    exact ih (Body.read_spec (Nat.succ_pos _) hw hr).1 (Body.read_settled (Nat.succ_pos _) hw h hr)

theorem Body.copyTo_later (blk : Nat) (more : Raw) (b : Body) (s : Sink) (hw : b.WF) (h : b.Settled) :
    (b.later more).copyTo blk s = ((b.copyTo blk s).1, (b.copyTo blk s).2.1.later more, (b.copyTo blk s).2.2) := by
  fun_induction Body.copyTo blk b s with
  | case1 b s e b' hr => rw [Body.copyTo, Body.read_later h, hr]
  | case2 b s b' hr => rw [Body.copyTo, Body.read_later h, hr]
  | case3 b s b' hr => rw [Body.copyTo, Body.read_later h, hr]; simp
  | case4 b s x b' hr hx s' hs => rw [Body.copyTo, Body.read_later h, hr]; simp [hx, hs]
  | case5 b s x b' hr hx s' hs ih =>
    rw [Body.copyTo, Body.read_later h, hr]
    simp only [hx, dite_false, hs]
    exact ih (Body.read_spec (Nat.succ_pos _) hw hr).1 (Body.read_settled (Nat.succ_pos _) hw h hr)

/-! ## The head -/

theorem Buf.untilStep_later {cap : Nat} {d : UInt8} {r : Buf} (h : r.buf ≠ [] ∨ r.raw ≠ []) (more : Raw) :
    (r.later more).untilStep cap d = ((r.untilStep cap d).1, (r.untilStep cap d).2.later more) := by
  unfold Buf.untilStep
  rw [Buf.fillBuf_later h]
  cases r.fillBuf cap with
  | mk o r' =>
    cases o with
    | none => rfl
    | some b => simp only; cases b.findIdx? (· == d) <;> rfl

theorem Buf.untilStep_eof {cap : Nat} {d : UInt8} {r : Buf} (h : ¬ (r.buf ≠ [] ∨ r.raw ≠ [])) :
    r.untilStep cap d = (some ([], false), ⟨[], []⟩) := by
  have h1 : r.buf = [] := Classical.byContradiction fun g => h (Or.inl g)
  have h2 : r.raw = [] := Classical.byContradiction fun g => h (Or.inr g)
  simp [Buf.untilStep, Buf.fillBuf, h1, h2, Raw.read]

theorem Buf.readUntil_later {cap : Nat} {d : UInt8} {acc : Bytes} {r : Buf} (more : Raw) :
    (∃ t r', r.readUntil cap d acc = (some (acc ++ t), r') ∧ d ∉ t) ∨
      (r.later more).readUntil cap d acc = ((r.readUntil cap d acc).1, (r.readUntil cap d acc).2.later more) := by
  fun_induction Buf.readUntil cap d acc r with
  | case1 acc r r' hs =>
    by_cases hp : r.buf ≠ [] ∨ r.raw ≠ []
    · right; rw [Buf.readUntil, Buf.untilStep_later hp, hs]
    · rw [Buf.untilStep_eof hp] at hs; simp at hs
  | case2 acc r f r' hs => exact Or.inl ⟨[], r', by simp, by simp⟩
  | case3 acc r x r' hx hs =>
    by_cases hp : r.buf ≠ [] ∨ r.raw ≠ []
    · right; rw [Buf.readUntil, Buf.untilStep_later hp, hs]; simp [hx]
    · rw [Buf.untilStep_eof hp] at hs; simp at hs
  | case4 acc r x f r' hs hx hf ih =>
    have hf' : f = false := by simpa using hf
    subst hf'
    have hp : r.buf ≠ [] ∨ r.raw ≠ [] := by
      apply Classical.byContradiction
      intro hp
      rw [Buf.untilStep_eof hp] at hs
      simp only [Prod.mk.injEq, Option.some.injEq] at hs
      exact hx hs.1.1.symm
    have hd : d ∉ x := by
      unfold Buf.untilStep at hs
      split at hs
      · simp at hs
      · split at hs
        · simp at hs
        · rename_i hnone
          simp only [Prod.mk.injEq, Option.some.injEq] at hs
          obtain ⟨⟨rfl, _⟩, _⟩ := hs
          rw [List.findIdx?_eq_none_iff] at hnone
          intro hm
          simpa using hnone d hm
    rcases ih with ⟨t, r2, h1, h2⟩ | ih
    · exact Or.inl ⟨x ++ t, r2, by rw [h1, List.append_assoc], by simp [hd, h2]⟩
    · right; rw [Buf.readUntil, Buf.untilStep_later hp, hs]; simp only [hx, dite_false]; exact ih

theorem headLoop_eof {cap : Nat} {acc : Bytes} {r : Buf} (hw : r.raw.WF) (h : r.avail = []) (hc : r.raw.Clean) :
    (headLoop cap acc r).1 = some none := by
  have hb : r.buf = [] := (List.append_eq_nil_iff.1 h).1
  have hr : r.raw = [] := by
    have h2 : r.raw.avail = [] := (List.append_eq_nil_iff.1 h).2
    cases hx : r.raw with
    | nil => rfl
    | cons e t =>
      rw [hx] at h2 hw hc
      cases e with
      | fail => exact absurd List.mem_cons_self hc
      | data b =>
        simp only [Raw.avail, List.append_eq_nil_iff] at h2
        exact absurd h2.1 (hw b List.mem_cons_self)
  have hu : r.readUntil cap 10 [] = (some [], ⟨[], []⟩) := by
    rw [Buf.readUntil, Buf.untilStep_eof (by simp [hb, hr])]; simp
  rw [headLoop, hu]; simp

theorem headLoop_later {cap : Nat} (hcap : 0 < cap) {acc : Bytes} {r : Buf} (hw : r.raw.WF) (more : Raw)
    (h : (headLoop cap acc r).1 ≠ some none) :
    headLoop cap acc (r.later more) = ((headLoop cap acc r).1, (headLoop cap acc r).2.later more) := by
  fun_induction headLoop cap acc r with
  | case1 acc r r1 hs =>
    rcases Buf.readUntil_later (cap := cap) (d := 10) (acc := []) (r := r) more with ⟨t, r', h1, _⟩ | hl
    · rw [hs] at h1; simp at h1
    · rw [headLoop, hl, hs]
  | case2 acc r r1 hs => exact absurd rfl h
  | case3 acc r b r1 hs hb he =>
    rcases Buf.readUntil_later (cap := cap) (d := 10) (acc := []) (r := r) more with ⟨t, r', h1, h2⟩ | hl
    · exfalso
      rw [hs] at h1
      simp only [List.nil_append, Prod.mk.injEq, Option.some.injEq] at h1
      obtain ⟨rfl, _⟩ := h1
      obtain ⟨p, hp⟩ := (endsBlank_iff _).1 he
      have : (acc ++ b).getLast? = some 10 := by rw [← hp]; simp [blank]
      cases hl : b.getLast? with
      | none => exact hb (List.getLast?_eq_none_iff.1 hl)
      | some v =>
        rw [List.getLast?_append, hl] at this
        simp at this
        subst this
        exact h2 (List.mem_of_getLast? hl)
    · rw [headLoop, hl, hs]; simp [hb, he]
  | case4 acc r b r1 hs hb he ih =>
    obtain ⟨g1, _, g3⟩ := Buf.readUntil_spec hcap hw hs
    obtain ⟨x, hx, _, _, k3⟩ := g3 b rfl
    simp only [List.nil_append] at hx
    subst hx
    rcases Buf.readUntil_later (cap := cap) (d := 10) (acc := []) (r := r) more with ⟨t, r', h1, h2⟩ | hl
    · exfalso
      rw [hs] at h1
      simp only [List.nil_append, Prod.mk.injEq, Option.some.injEq] at h1
      obtain ⟨rfl, _⟩ := h1
      rcases k3 with ⟨y, rfl, _⟩ | ⟨_, he1, hc1⟩
      · exact h2 (by simp)
      · exact h (headLoop_eof g1 he1 hc1)
    · rw [headLoop, hl, hs]; simp only [hb, he, dite_false]; exact ih g1 h

end Puck
