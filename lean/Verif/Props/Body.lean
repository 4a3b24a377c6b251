import Verif.Lemmas.Body
/-!
# Properties of `Body` (C28 - C30)
-/
namespace Puck

/-! ## C28 -/

/-- A history of `read` calls with buffers of the given sizes (any sizes, zero included); errors do not
stop the caller. -/
def Body.reads : List Nat → Body → List (Outcome Unit Bytes) × Body
  | [], b => ([], b)
  | n :: ns, b =>
    let (o, b') := b.read n
    let (os, b'') := Body.reads ns b'
    (o :: os, b'')

/-- The bytes a call returned (none on error). -/
def returned : Outcome Unit Bytes → Bytes
  | .ok x => x
  | _ => []

theorem Body.read_inv {n : Nat} {b b' : Body} {o : Outcome Unit Bytes}
    (hle : ∀ len, b.length = some len → b.bytesRead ≤ len) (h : b.read n = (o, b')) :
    o ≠ .panic ∧ (returned o).length ≤ n ∧ b.reader.bytes = returned o ++ b'.reader.bytes ∧
    b'.bytesRead = b.bytesRead + (returned o).length ∧ b'.length = b.length ∧
    (∀ len, b'.length = some len → b'.bytesRead ≤ len) := by
  unfold Body.read at h
  simp only at h
  cases hlen : b.length with
  | none =>
    rw [hlen] at h
    simp only at h
    cases hx : b.reader.read n with
    | mk y s =>
      have := Src.read_bytes hx
      rw [hx] at h
      cases y <;> simp only [Prod.mk.injEq] at h <;> obtain ⟨rfl, rfl⟩ := h
      · simpa [returned] using this
      · simpa [returned] using this.symm
  | some len =>
    have hle := hle len hlen
    rw [hlen] at h
    simp only at h
    by_cases h1 : len = b.bytesRead
    · simp only [h1, if_true, Prod.mk.injEq] at h
      obtain ⟨rfl, rfl⟩ := h
      simp [returned, hlen, h1]
    · have h2 : ¬ len < b.bytesRead := by omega
      simp only [h1, h2, if_false] at h
      cases hx : b.reader.read (min (len - b.bytesRead) n) with
      | mk y s =>
        have := Src.read_bytes hx
        rw [hx] at h
        cases y <;> simp only [Prod.mk.injEq] at h <;> obtain ⟨rfl, rfl⟩ := h
        · simp only [Option.getD_none, List.nil_append] at this
          simp [returned, this.1]; exact hle
        · simp only [Option.getD_some] at this
          refine ⟨by simp, ?_, this.1, rfl, rfl, ?_⟩
          · simp only [returned]; omega
          · intro l hl
            simp only [Option.some.injEq] at hl
            subst hl
            simp only; omega

/-- **C28.** For every reader, declared length and sequence of buffer sizes: no read panics, each returns at
most as many bytes as asked for, the bytes returned are exactly the next bytes of the reader in order
(none lost, none invented, across any I/O errors), and with a declared length their total never exceeds
it. -/
theorem C28_bounded (r : Src) (len : Option Nat) (ns : List Nat) :
    let (os, b') := (Body.fromReader r len).reads ns
    (∀ o ∈ os, o ≠ .panic) ∧
    os.length = ns.length ∧ (∀ p ∈ os.zip ns, (returned p.1).length ≤ p.2) ∧
    (os.map returned).flatten ++ b'.reader.bytes = r.bytes ∧
    (∀ l, len = some l → ((os.map returned).flatten).length ≤ l) := by
  have gen : ∀ (ns : List Nat) (b : Body), (∀ len, b.length = some len → b.bytesRead ≤ len) →
      (∀ o ∈ (b.reads ns).1, o ≠ .panic) ∧
      (b.reads ns).1.length = ns.length ∧ (∀ p ∈ (b.reads ns).1.zip ns, (returned p.1).length ≤ p.2) ∧
      ((b.reads ns).1.map returned).flatten ++ (b.reads ns).2.reader.bytes = b.reader.bytes ∧
      (∀ l, b.length = some l → b.bytesRead + (((b.reads ns).1.map returned).flatten).length ≤ l) := by
    intro ns
    induction ns with
    | nil => intro b hle; simpa [Body.reads] using hle
    | cons n ns ih =>
      intro b hle
      cases hr : b.read n with
      | mk o b' =>
        obtain ⟨h1, h2, h3, h4, h5, h6⟩ := Body.read_inv hle hr
        obtain ⟨g1, g0, g2, g3, g4⟩ := ih b' h6
        simp only [Body.reads, hr]
        refine ⟨?_, by simp [g0], ?_, ?_, ?_⟩
        · intro o' ho'
          rcases List.mem_cons.1 ho' with rfl | ho'
          · exact h1
          · exact g1 o' ho'
        · intro p hp
          rw [List.zip_cons_cons] at hp
          rcases List.mem_cons.1 hp with rfl | hp
          · exact h2
          · exact g2 p hp
        · simp only [List.map_cons, List.flatten_cons, List.append_assoc]
          rw [g3, h3]
        · intro l hl
          have := g4 l (h5.trans hl)
          simp only [List.map_cons, List.flatten_cons, List.length_append]
          omega
  have := gen ns (Body.fromReader r len) (by simp [Body.fromReader])
  simpa [Body.fromReader] using this

/-- example: a declared length of 3 over a reader that delivers five bytes in two blocks with an error in
between; buffers of 2, 0, 9, 9 and 9 bytes. -/
example : ((Body.fromReader (.other [.data [1], .fail, .data [2, 3, 4, 5]]) (some 3)).reads [2, 0, 9, 9, 9]).1 =
    [.ok [1], .err (), .ok [2, 3], .ok [], .ok []] := by decide

/-! ## C29 -/

/-- **C29.** Reading a body to the end, whatever buffer sizes the standard library uses: all bytes of the
reader if no length was declared, the first `l` of them (or all, if fewer) if `l` was; an I/O error
surfaces iff it comes before that end. -/
theorem C29_into_bytes (sched : Nat → Nat) (r : Src) (hr : r.WF) :
    (r.Clean → (Body.fromReader r none).intoBytes sched = .ok r.avail) ∧
    (¬ r.Clean → (Body.fromReader r none).intoBytes sched = .err ()) ∧
    (∀ l, r.Clean ∨ l ≤ r.avail.length →
      (Body.fromReader r (some l)).intoBytes sched = .ok (r.avail.take l)) ∧
    (∀ l, ¬ r.Clean → r.avail.length < l → (Body.fromReader r (some l)).intoBytes sched = .err ()) := by
  refine ⟨fun h => ?_, fun h => ?_, fun l h => ?_, fun l h h' => ?_⟩
  · exact Body.intoBytes_ok sched ⟨hr, by simp [Body.fromReader]⟩ (by simp [Body.Fails, Body.fromReader, h])
  · exact Body.intoBytes_err sched ⟨hr, by simp [Body.fromReader]⟩ (by simp [Body.Fails, Body.fromReader, h])
  · have := Body.intoBytes_ok sched (b := Body.fromReader r (some l)) ⟨hr, by simp [Body.fromReader]⟩ (by
      simp only [Body.Fails, Body.fromReader]
      rintro ⟨h1, h2⟩
      rcases h with h | h
      · exact h1 h
      · omega)
    simpa [Body.avail, Body.fromReader] using this
  · exact Body.intoBytes_err sched ⟨hr, by simp [Body.fromReader]⟩ (by
      simp only [Body.Fails, Body.fromReader]
      exact ⟨h, by omega⟩)

/-- **C29 (strings).** `into_string` returns exactly the string whose UTF-8 encoding those bytes are, and
fails if there is none or the declared length is above `isize::MAX`. -/
theorem C29_into_string (W : Nat) (sched : Nat → Nat) (b : Body) (s : String) :
    b.intoString W sched = .ok s ↔ b.length.getD 0 ≤ isizeMax W ∧ b.intoBytes sched = .ok (strBytes s) := by
  unfold Body.intoString
  by_cases hl : b.length.getD 0 > isizeMax W
  · rw [if_pos hl]
    simp only [reduceCtorEq, false_iff]
    omega
  rw [if_neg hl]
  have hl' : b.length.getD 0 ≤ isizeMax W := by omega
  simp only [hl', true_and]
  cases h : b.intoBytes sched with
  | ok x =>
    simp only [Outcome.ok.injEq]
    cases hx : fromUtf8 x with
    | none =>
      simp only [Option.elim_none, reduceCtorEq, false_iff]
      rintro rfl
      rw [fromUtf8_strBytes] at hx
      cases hx
    | some t =>
      simp only [Option.elim_some, Outcome.ok.injEq]
      have := strBytes_of_fromUtf8 hx
      rw [← this, strBytes_inj]
  | err e => simp
  | panic => simp

/-- non-vacuity: a `BufReader` with a small capacity over a stream in three reads, the last being an
error that lies beyond the declared length. -/
example : (Src.buf 2 ⟨[7], [.data [8, 9, 10], .data [11], .fail]⟩).WF ∧
    (Body.fromReader (.buf 2 ⟨[7], [.data [8, 9, 10], .data [11], .fail]⟩) (some 4)).intoBytes (fun _ => 2) =
      .ok [7, 8, 9, 10] := by
  have hw : (Src.buf 2 ⟨[7], [.data [8, 9, 10], .data [11], .fail]⟩).WF := by
    refine ⟨by decide, ?_⟩
    intro b hb
    simp at hb
    rcases hb with rfl | rfl <;> simp
  exact ⟨hw, (C29_into_bytes (fun _ => 2) _ hw).2.2.1 4 (Or.inr (by decide))⟩

/-! ## C30 -/

/-- **C30.** A string body (a `String` has at most `isize::MAX` bytes) yields exactly the string, its declared length is its number of bytes, and the
empty body yields nothing. -/
theorem C30_string_body (W : Nat) (sched : Nat → Nat) (s : String) (hs : (strBytes s).length ≤ isizeMax W) :
    (Body.fromString s).intoString W sched = .ok s ∧
    (Body.fromString s).intoBytes sched = .ok (strBytes s) ∧
    (Body.fromString s).length = some (strBytes s).length ∧
    Body.empty.intoBytes sched = .ok [] := by
  have h : (Body.fromString s).intoBytes sched = .ok (strBytes s) := by
    have := (C29_into_bytes sched (.cursor (strBytes s)) trivial).2.2.1 (strBytes s).length (Or.inl trivial)
    simpa [Src.avail, Body.fromReader, Body.fromString] using this
  refine ⟨(C29_into_string W sched _ s).2 ⟨by simpa [Body.fromString] using hs, h⟩, h, rfl, ?_⟩
  have := (C29_into_bytes sched (.cursor []) trivial).2.2.1 0 (Or.inl trivial)
  simpa [Src.avail, Body.fromReader, Body.empty] using this

example : (Body.fromString "€").length = some 3 := by decide

end Puck
