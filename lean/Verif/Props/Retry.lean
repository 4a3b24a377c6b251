import Verif.Props.WriteOutcome
import Verif.Props.Response
/-!
# Responses that break off (C141) and requests whose writing failed (C142)
-/
namespace Puck
open Http

/-! ## C141 -/

/-- **C141.** `Response::parse` returns `Ok(None)` exactly when the stream ends without a blank line; an I/O error before the first blank line is reported as such; in
particular no response is ever produced from an incomplete head. -/
theorem C141_incomplete_head (env : HttpEnv) (raw : Raw) (hw : raw.WF) :
    (Response.parse env raw = .ok none ↔ raw.Clean ∧ NoBlank raw.avail) ∧
    (NoBlank raw.avail → ¬ raw.Clean → Response.parse env raw = .error .ioError) ∧
    (∀ res, Response.parse env raw = .ok (some res) → ∃ h rest, FirstBlank raw.avail h rest) := by
  cases hl : headLoop responseCap [] ⟨[], raw⟩ with
  | mk o r =>
    obtain ⟨g0, g1, g2, g3⟩ := headLoop_spec (cap := responseCap) (by decide) (r := ⟨[], raw⟩) hw noBlank_nil hl
    simp only [List.nil_append, Buf.avail_nil] at g1 g2 g3
    simp only [Response.parse, hl]
    match o with
    | none =>
      refine ⟨⟨by simp, fun h => absurd h.1 (g1 rfl).1⟩, fun _ _ => rfl, by simp⟩
    | some none =>
      refine ⟨⟨fun _ => g2 rfl, fun _ => rfl⟩, fun _ h => absurd (g2 rfl).1 h, by simp⟩
    | some (some head) =>
      have hf := (g3 head rfl).1
      refine ⟨⟨?_, fun h => absurd hf.2.1 (h.2 _ _ hf.1)⟩, fun h => absurd hf.2.1 (h _ _ hf.1), fun _ _ => ⟨_, _, hf⟩⟩
      intro h
      cases ho : Response.ofHead env head r <;> simp [ho, Except.map] at h

/-- the empty stream, and one that breaks after a byte -/
example (env : HttpEnv) : Response.parse env [] = .ok none ∧ Response.parse env [.data [72], .fail] = .error .ioError := by
  refine ⟨((C141_incomplete_head env [] Raw.WF.nil).1).2 ⟨Raw.Clean.nil, noBlank_nil⟩, ?_⟩
  have hw : Raw.WF [.data [72], .fail] := by intro b hb; simp at hb; rw [hb]; simp
  have ha : Raw.avail [.data [72], .fail] = [72] := rfl
  exact (C141_incomplete_head env _ hw).2.1 (by rw [ha]; intro h rest e hb; have h1 := hb.length_le; have h2 := congrArg List.length e; rw [List.length_append] at h2; simp [blank] at h1 h2; omega) (by intro h; simp [Raw.Clean] at h)

/-! ## C142 -/

/-- When the connection breaks within a body, the piece that was being written is lost: at least the byte at which it broke. -/
theorem copyTo_broken (blk : Nat) : ∀ (n : Nat) (b : Body) (s : Sink) (k : Nat), b.reader.size ≤ n → b.WF → ¬ b.Fails → s.room = some k → k < b.avail.length →
    ∃ consumed, b.avail = consumed ++ (b.copyTo blk s).2.1.avail ∧ k < consumed.length ∧ consumed.length ≤ k + (blk + 1) ∧
      (b.copyTo blk s).2.1.WF ∧ ¬ (b.copyTo blk s).2.1.Fails ∧ (b.copyTo blk s).2.1.mime = b.mime ∧ (b.copyTo blk s).2.1.length = b.length := by
  intro n
  induction n with
  | zero => ?_
  | succ n ih => ?_
  all_goals
    intro b s k hn hw hf hs hk
    rw [Body.copyTo]
    cases hr : b.read (blk + 1) with
    | mk o b' =>
      obtain ⟨hw', hm, hle, h⟩ := Body.read_spec (Nat.succ_pos _) hw hr
      rcases h with ⟨x, rfl, h1, h2, h3, h4⟩ | ⟨rfl, h1, h2⟩
      · by_cases hx : x = []
        · rw [(h4 hx).1] at hk; simp at hk
        · have hlt := Body.read_size_lt hr hx
          simp only [hx, dite_false]
          cases hwr : s.writeAll x with
          | mk ok s' =>
            cases ok with
            | false =>
              have hkx : k < x.length := by
                apply Classical.byContradiction
                intro hn
                have := Sink.writeAll_ok_iff (b := x) (s := s) (s' := ⟨s.out ++ x, s.room.map (· - x.length)⟩) |>.2 ⟨fun j hj => by
                  rw [hs] at hj; cases hj; omega, rfl⟩
                rw [this] at hwr
                cases hwr
              exact ⟨x, h1, hkx, by omega, hw', fun h => hf (h2.2 h), hm, hle⟩
            | true =>
              first
                | omega
                | (obtain ⟨g1, g2⟩ := Sink.writeAll_ok_iff.1 hwr
                   have hxk := g1 k hs
                   have hlen := congrArg List.length h1
                   rw [List.length_append] at hlen
                   obtain ⟨c, d1, d2, d3, d4, d5, d6, d7⟩ := ih b' s' (k - x.length) (by omega) hw' (fun h => hf (h2.2 h)) (by rw [g2, hs]; rfl) (by omega)
                   exact ⟨x ++ c, by simp only [List.append_assoc, ← d1]; exact h1, by simp only [List.length_append]; omega, by simp only [List.length_append]; omega,
                     d4, d5, d6.trans hm, d7.trans hle⟩)
      · exact absurd h2 hf

/-- The bytes of a request's head, with its headers in the order in which the map yields them. -/
def wireHead (env : HttpEnv) (r : Request) : Bytes :=
  Http.head (requestLine (strBytes r.method.text) (strBytes r.url.path)) ((env.ord r.headers).map fun p => (strBytes p.1, strBytes p.2))

theorem write_eq (env : HttpEnv) (r : Request) (s : Sink) : r.write env s =
    match s.writeAll (wireHead env r) with
    | (false, s') => (.err (), r, s')
    | (true, s') => ((r.body.copyTo copyBlk s').1, { r with body := (r.body.copyTo copyBlk s').2.1 }, (r.body.copyTo copyBlk s').2.2) := by
  unfold Request.write
  rw [Sink.writeEach_eq, Request.head_eq, asFields_raw]
  rfl

theorem write_none (env : HttpEnv) (r : Request) (hw : r.body.WF) (hf : ¬ r.body.Fails) (out : Bytes) :
    (r.write env ⟨out, none⟩).1 = .ok () ∧ (r.write env ⟨out, none⟩).2.2.out = out ++ wireHead env r ++ r.body.avail := by
  rw [write_eq, Sink.writeAll_none]
  obtain ⟨c1, c2, c3⟩ := Body.copyTo_spec copyBlk _ r.body ⟨out ++ wireHead env r, none⟩ (Nat.le_refl _) hw
  rw [Sink.writeAll_none] at c1 c2
  refine ⟨(c2 hf rfl).1, ?_⟩
  simp only
  rw [c1]

/-- **C142, what becomes of a request that could not be sent (partial: the claim that it can be sent again is false, see `C142_again_refuted`).**  The connection takes `k`
bytes and no more, fewer than the request has.  If it breaks within the head, the request is as it was, and writing it to another connection sends all of it.  If it
breaks within the body, everything of the request but its body is as it was, and of the body the bytes that were sent are gone, and always at least one and at most 8192
bytes that were not sent: writing it to another connection sends the head and what is left. -/
theorem C142_broken_partial (env : HttpEnv) (henv : env.Valid) (r : Request) (hw : r.body.WF) (hf : ¬ r.body.Fails) (s : Sink) (k : Nat) (hs : s.room = some k) :
    ∃ hs : Headers, hs.Perm r.headers ∧
      let head := Http.head (requestLine (strBytes r.method.text) (strBytes r.url.path)) (hs.map fun p => (strBytes p.1, strBytes p.2))
      let again := fun s2 => (r.write env s).2.1.write env s2
      (k < head.length → (r.write env s).2.1 = r ∧ ∀ out, (again ⟨out, none⟩).1 = .ok () ∧ (again ⟨out, none⟩).2.2.out = out ++ head ++ r.body.avail) ∧
      (head.length ≤ k → k < head.length + r.body.avail.length → ∃ lost rest, 0 < lost.length ∧ lost.length ≤ 8192 ∧
        r.body.avail = r.body.avail.take (k - head.length) ++ lost ++ rest ∧ (r.write env s).2.1 = { r with body := (r.write env s).2.1.body } ∧
        (∀ sched, (r.write env s).2.1.body.intoBytes sched = .ok rest) ∧
        ∀ out, (again ⟨out, none⟩).1 = .ok () ∧ (again ⟨out, none⟩).2.2.out = out ++ head ++ rest) := by
  refine ⟨env.ord r.headers, henv _, ?_⟩
  intro head again
  have hhead : head = wireHead env r := rfl
  constructor
  · intro hk
    have hfail : (r.write env s).2.1 = r := by
      rw [write_eq]
      have hno : (s.writeAll (wireHead env r)).1 = false := by
        cases h : (s.writeAll (wireHead env r)).1 with
        | false => rfl
        | true => have := (writeAll_fits _ _).1 h k hs; rw [hhead] at hk; omega
      cases h : s.writeAll (wireHead env r) with
      | mk ok s' => rw [h] at hno; simp only at hno; rw [hno]
    refine ⟨hfail, fun out => ?_⟩
    simp only [again]
    rw [hfail]
    exact write_none env r hw hf out
  · intro hk1 hk2
    have hyes : s.writeAll (wireHead env r) = (true, ⟨s.out ++ wireHead env r, some (k - head.length)⟩) := by
      rw [Sink.writeAll_ok_iff]
      refine ⟨fun j hj => ?_, by rw [hs]; rfl⟩
      rw [hs] at hj
      cases hj
      exact hk1
    obtain ⟨c, d1, d2, d3, d4, d5, d6, d7⟩ := copyTo_broken copyBlk _ r.body ⟨s.out ++ wireHead env r, some (k - head.length)⟩ (k - head.length) (Nat.le_refl _) hw hf rfl
      (by omega)
    have hr : (r.write env s).2.1 = { r with body := (r.body.copyTo copyBlk ⟨s.out ++ wireHead env r, some (k - head.length)⟩).2.1 } := by
      rw [write_eq, hyes]
    generalize (r.body.copyTo copyBlk ⟨s.out ++ wireHead env r, some (k - head.length)⟩).2.1 = b' at *
    have hcopy : copyBlk + 1 = 8192 := rfl
    rw [hcopy] at d3
    refine ⟨c.drop (k - head.length), b'.avail, by rw [List.length_drop]; omega, by rw [List.length_drop]; omega, ?_, by rw [hr], ?_, fun out => ?_⟩
    · rw [d1, List.take_append_of_le_length (by omega), List.take_append_drop]
    · intro sched
      rw [hr]
      exact Body.intoBytes_ok sched d4 d5
    · simp only [again]
      rw [hr]
      exact write_none env { r with body := b' } d4 d5 out

/-- The claim, false of the code: a request whose writing failed can be written to another connection. -/
def SentAgain (env : HttpEnv) : Prop :=
  ∀ (r : Request) (s : Sink), r.body.WF → ¬ r.body.Fails → (r.write env s).1 = .err () →
    ((r.write env s).2.1.write env ⟨[], none⟩).2.2.out = (r.write env ⟨[], none⟩).2.2.out

/-- **C142 is false of the code**: a request with a one-byte body and a connection that breaks just before that byte; what is sent the second time is the head alone. -/
theorem C142_again_refuted (env : HttpEnv) (henv : env.Valid) : ¬ SentAgain env := by
  intro h
  let r : Request := ⟨[], .post, Body.fromString "a", ⟨"http://a.b", "/x", none⟩⟩
  have hw : r.body.WF := ⟨trivial, by simp [r, Body.fromString]⟩
  have hf : ¬ r.body.Fails := by simp [r, Body.fromString, Body.Fails, Src.Clean]
  have ha : r.body.avail = [97] := by decide +kernel
  let head := Http.head (requestLine (strBytes r.method.text) (strBytes r.url.path)) []
  obtain ⟨hs, hp, _, h2⟩ := C142_broken_partial env henv r hw hf ⟨[], some head.length⟩ head.length rfl
  obtain ⟨hs1, hp1, _, _, e1, _⟩ := C128_outcome env henv r hw ⟨[], some head.length⟩
  obtain ⟨hs2, hp2, _, _, _, e2⟩ := C128_outcome env henv r hw ⟨[], none⟩
  have n0 : hs = [] := List.perm_nil.1 hp
  have n1 : hs1 = [] := List.perm_nil.1 hp1
  have n2 : hs2 = [] := List.perm_nil.1 hp2
  subst n0 n1 n2
  obtain ⟨lost, rest, l1, _, l2, _, _, l3⟩ := h2 (Nat.le_refl _) (by rw [ha]; exact Nat.lt_succ_self _)
  have hrest : rest = [] := by
    rw [ha] at l2
    have := congrArg List.length l2
    simp only [List.length_append, List.length_singleton] at this
    cases rest with
    | nil => rfl
    | cons => simp at this; omega
  have herr := e1.2 (by
    rintro ⟨_, h⟩
    have := h head.length rfl
    rw [List.length_append, ha] at this
    exact absurd this (Nat.not_succ_le_self _))
  have := h r _ hw hf herr
  rw [(l3 []).2, e2, hrest, ha] at this
  have := congrArg List.length this
  simp at this

end Puck
