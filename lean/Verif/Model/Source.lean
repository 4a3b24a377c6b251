import Verif.Lemmas.Shrink
/-!
# Readers behind a `Body`
-/
namespace Puck

/-- `Box<dyn BufRead>` (puck/src/body/mod.rs:16).  The readers puck itself constructs are
`std::io::Cursor` (lines 36, 62) and `BufReader<TcpStream>` (request/mod.rs:51, response/mod.rs:55); any other
reader an application passes to `Body::from_reader` is represented by its schedule of reads. -/
inductive Src where
  | cursor (rest : Bytes)
  | buf (cap : Nat) (r : Buf)
  | other (r : Raw)
  deriving DecidableEq, Repr

/-- `Read::read` with a buffer of `n` bytes; `none` is `Err(_)`. Used for puck/src/body/mod.rs:16, :108. -/
def Src.read (n : Nat) : Src → Option Bytes × Src
  | .cursor b => (some (b.take n), .cursor (b.drop n))
  | .buf cap r => let (o, r') := r.read cap n; (o, .buf cap r')
  | .other r => let (o, r') := r.read n; (o, .other r')

/-- Amount of data and events pending (termination measure only). Used for puck/src/body/mod.rs:16. -/
def Src.size : Src → Nat
  | .cursor b => b.length
  | .buf _ r => r.buf.length + r.raw.size
  | .other r => r.size

theorem Buf.read_size_lt {cap n : Nat} {r r' : Buf} {b : Bytes}
    (h : Buf.read cap n r = (some b, r')) (hb : b ≠ []) :
    r'.buf.length + r'.raw.size < r.buf.length + r.raw.size := by
  unfold Buf.read at h
  split at h
  · rename_i hc
    have hn : 0 < n ∨ n = 0 := by omega
    cases hr : Raw.read n r.raw with
    | mk o raw =>
      rw [hr] at h
      cases o with
      | none => simp at h
      | some x =>
        simp only [Prod.mk.injEq, Option.some.injEq] at h
        obtain ⟨rfl, rfl⟩ := h
        rcases hn with hn | rfl
        · have := Raw.read_size_lt hn hr hb
          simp [hc.1]; omega
        · exfalso
          unfold Raw.read at hr
          split at hr
          · simp at hr; exact hb hr.1
          · simp at hr
          · rename_i c _
            split at hr
            · rename_i hl
              simp only [Prod.mk.injEq, Option.some.injEq] at hr
              obtain ⟨rfl, _⟩ := hr
              exact hb (List.length_eq_zero_iff.1 (by omega))
            · simp at hr; exact hb hr.1
  · unfold Buf.fillBuf at h
    by_cases hbuf : r.buf = []
    · simp only [hbuf, if_true] at h
      cases hr : Raw.read cap r.raw with
      | mk o raw =>
        rw [hr] at h
        cases o with
        | none => simp at h
        | some x =>
          simp only [Prod.mk.injEq, Option.some.injEq] at h
          obtain ⟨rfl, rfl⟩ := h
          have hx : x ≠ [] := by rintro rfl; simp at hb
          have hsz : x.length + raw.size < r.raw.size ∨ raw.size + x.length ≤ r.raw.size := by
            unfold Raw.read at hr
            split at hr
            · simp at hr; exact absurd hr.1 hx
            · simp at hr
            · rename_i c r2 heq
              split at hr
              · simp at hr; obtain ⟨rfl, rfl⟩ := hr; rw [heq, Raw.size]; omega
              · rename_i hl
                simp at hr; obtain ⟨rfl, rfl⟩ := hr; rw [heq, Raw.size, Raw.size]
                simp; omega
          have hpos : 0 < (x.take n).length := List.length_pos_iff.2 hb
          simp only [List.length_take] at hpos
          simp only [List.length_drop, hbuf, List.length_nil]
          omega
    · simp only [hbuf, if_false, Prod.mk.injEq, Option.some.injEq] at h
      obtain ⟨rfl, rfl⟩ := h
      have hpos : 0 < (r.buf.take n).length := List.length_pos_iff.2 hb
      simp only [List.length_take] at hpos
      simp only [List.length_drop]
      omega

theorem Src.read_size_lt {n : Nat} {s s' : Src} {b : Bytes} (h : Src.read n s = (some b, s')) (hb : b ≠ []) :
    s'.size < s.size := by
  cases s with
  | cursor c =>
    simp only [Src.read, Prod.mk.injEq, Option.some.injEq] at h
    obtain ⟨rfl, rfl⟩ := h
    have hpos : 0 < (c.take n).length := List.length_pos_iff.2 hb
    simp only [List.length_take] at hpos
    simp only [Src.size, List.length_drop]
    omega
  | buf cap r =>
    simp only [Src.read] at h
    cases hr : r.read cap n with
    | mk o r' =>
      rw [hr] at h
      simp only [Prod.mk.injEq] at h
      obtain ⟨rfl, rfl⟩ := h
      exact Buf.read_size_lt hr hb
  | other r =>
    simp only [Src.read] at h
    cases hr : r.read n with
    | mk o r' =>
      rw [hr] at h
      simp only [Prod.mk.injEq] at h
      obtain ⟨rfl, rfl⟩ := h
      simp only [Src.size]
      cases n with
      | succ n => exact Raw.read_size_lt (Nat.succ_pos n) hr hb
      | zero =>
        exfalso
        unfold Raw.read at hr
        split at hr
        · simp at hr; exact hb hr.1
        · simp at hr
        · split at hr
          · rename_i hl
            simp only [Prod.mk.injEq, Option.some.injEq] at hr
            obtain ⟨rfl, _⟩ := hr
            exact hb (List.length_eq_zero_iff.1 (by omega))
          · simp at hr; exact hb hr.1

/-- One step of `BufRead::read_until`'s loop: `fill_buf`, look for the delimiter, `consume`.
Only `BufReader`s are used with it (request/mod.rs:55, response/mod.rs:62). -/
def Buf.untilStep (cap : Nat) (delim : UInt8) (r : Buf) : Option (Bytes × Bool) × Buf :=
  match r.fillBuf cap with
  | (none, r') => (none, r')
  | (some b, r') =>
    match b.findIdx? (· == delim) with
    | some i => (some (b.take (i + 1), true), ⟨b.drop (i + 1), r'.raw⟩)
    | none => (some (b, false), ⟨[], r'.raw⟩)

theorem Buf.untilStep_size_lt {cap : Nat} {d : UInt8} {r r' : Buf} {b : Bytes} {f : Bool}
    (h : Buf.untilStep cap d r = (some (b, f), r')) (hb : b ≠ []) :
    r'.buf.length + r'.raw.size < r.buf.length + r.raw.size := by
  have key : ∀ x (r1 : Buf), r.fillBuf cap = (some x, r1) → x ≠ [] →
      x.length + r1.raw.size ≤ r.buf.length + r.raw.size := by
    intro x r1 hf hx
    unfold Buf.fillBuf at hf
    by_cases hbuf : r.buf = []
    · simp only [hbuf, if_true] at hf
      cases hr : Raw.read cap r.raw with
      | mk o raw =>
        rw [hr] at hf
        cases o with
        | none => simp at hf
        | some y =>
          simp only [Prod.mk.injEq, Option.some.injEq] at hf
          obtain ⟨rfl, rfl⟩ := hf
          unfold Raw.read at hr
          split at hr
          · simp at hr; exact absurd hr.1 hx
          · simp at hr
          · rename_i c r2 heq
            split at hr
            · simp at hr; obtain ⟨rfl, rfl⟩ := hr; rw [heq, Raw.size]; simp; omega
            · simp at hr; obtain ⟨rfl, rfl⟩ := hr; rw [heq, Raw.size, Raw.size]; simp; omega
    · simp only [hbuf, if_false, Prod.mk.injEq, Option.some.injEq] at hf
      obtain ⟨rfl, rfl⟩ := hf
      omega
  unfold Buf.untilStep at h
  split at h
  · simp at h
  · rename_i x r1 hf
    split at h
    · rename_i i hi
      simp only [Prod.mk.injEq, Option.some.injEq] at h
      obtain ⟨⟨rfl, rfl⟩, rfl⟩ := h
      have hx : x ≠ [] := by rintro rfl; simp at hb
      have := key x r1 hf hx
      have hpos : 0 < (x.take (i + 1)).length := List.length_pos_iff.2 hb
      simp only [List.length_take] at hpos
      simp only [List.length_drop]
      omega
    · simp only [Prod.mk.injEq, Option.some.injEq] at h
      obtain ⟨⟨rfl, rfl⟩, rfl⟩ := h
      have := key x r1 hf hb
      have hpos := List.length_pos_iff.2 hb
      simp only [List.length_nil]
      omega

/-- `BufRead::read_until(delim, &mut acc)` on a `BufReader`: appends everything up to and including the
delimiter, or everything up to end of file; on an I/O error the bytes read before it stay in `acc`.
Returns `Some(bytes appended)` for `Ok`, `none` for `Err`. Used for puck/src/request/mod.rs:55, puck/src/response/mod.rs:62. -/
def Buf.readUntil (cap : Nat) (delim : UInt8) (acc : Bytes) (r : Buf) : Option Bytes × Buf :=
  match _h : r.untilStep cap delim with
  | (none, r') => (none, r')
  | (some (b, found), r') =>
    if _hb : b = [] then (some acc, r')
    else if found then (some (acc ++ b), r')
    else Buf.readUntil cap delim (acc ++ b) r'
termination_by r.buf.length + r.raw.size
decreasing_by exact Buf.untilStep_size_lt _h _hb

theorem Buf.untilStep_size_le {cap : Nat} {d : UInt8} {r r' : Buf} {b : Bytes} {f : Bool}
    (h : Buf.untilStep cap d r = (some (b, f), r')) :
    r'.buf.length + r'.raw.size ≤ r.buf.length + r.raw.size := by
  by_cases hb : b = []
  · subst hb
    unfold Buf.untilStep at h
    split at h
    · simp at h
    · rename_i x r1 hf
      have hx : x = [] := by
        split at h
        · simp only [Prod.mk.injEq, Option.some.injEq] at h
          cases x with
          | nil => rfl
          | cons a t => simp at h
        · simp only [Prod.mk.injEq, Option.some.injEq] at h
          exact h.1.1
      have hr : r' = ⟨[], r1.raw⟩ := by
        subst hx
        simp only [List.findIdx?_nil, Prod.mk.injEq] at h
        exact h.2.symm
      subst hr
      unfold Buf.fillBuf at hf
      by_cases hbuf : r.buf = []
      · simp only [hbuf, if_true] at hf
        have h2 := Raw.read_size cap r.raw
        cases hr : Raw.read cap r.raw with
        | mk o raw =>
          rw [hr] at hf h2
          cases o with
          | none => simp at hf
          | some y =>
            simp only [Prod.mk.injEq] at hf
            obtain ⟨_, rfl⟩ := hf
            simp only [List.length_nil] at *; omega
      · simp only [hbuf, if_false, Prod.mk.injEq] at hf
        obtain ⟨_, rfl⟩ := hf
        simp
  · exact Nat.le_of_lt (Buf.untilStep_size_lt h hb)

theorem Buf.readUntil_size_le {cap : Nat} {d : UInt8} {acc : Bytes} {r r' : Buf} {b : Bytes}
    (h : Buf.readUntil cap d acc r = (some b, r')) :
    r'.buf.length + r'.raw.size ≤ r.buf.length + r.raw.size := by
  fun_induction Buf.readUntil cap d acc r with
  | case1 => simp at h
  | case2 acc r f r1 hs =>
    simp only [Prod.mk.injEq] at h
    obtain ⟨_, rfl⟩ := h
    exact Buf.untilStep_size_le hs
  | case3 acc r x r1 hx hs =>
    simp only [Prod.mk.injEq] at h
    obtain ⟨_, rfl⟩ := h
    exact Buf.untilStep_size_le hs
  | case4 acc r x f r1 hs hx hf ih =>
    have := ih h
    have := Buf.untilStep_size_le hs
    omega

theorem Buf.readUntil_size_lt {cap : Nat} {d : UInt8} {acc : Bytes} {r r' : Buf} {b : Bytes}
    (h : Buf.readUntil cap d acc r = (some b, r')) (hb : b ≠ acc) :
    r'.buf.length + r'.raw.size < r.buf.length + r.raw.size := by
  rw [Buf.readUntil] at h
  split at h
  · simp at h
  · rename_i x f r1 hs
    split at h
    · simp only [Prod.mk.injEq, Option.some.injEq] at h; exact absurd h.1.symm hb
    · rename_i hx
      have hlt := Buf.untilStep_size_lt hs hx
      split at h
      · simp only [Prod.mk.injEq] at h
        obtain ⟨_, rfl⟩ := h
        exact hlt
      · have := Buf.readUntil_size_le h
        omega

end Puck
