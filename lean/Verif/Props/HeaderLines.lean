import Verif.Props.Response
/-!
# How many lines the head of a response has (C41)
-/
namespace Puck
open Http

/-- The number of line ends (CR LF) in a text. -/
def lineEnds : Bytes → Nat
  | [] => 0
  | [_] => 0
  | a :: b :: r => (if a = 13 ∧ b = 10 then 1 else 0) + lineEnds (b :: r)

theorem lineEnds_append_crlf (a b : Bytes) : lineEnds (a ++ 13 :: 10 :: b) = lineEnds a + 1 + lineEnds b := by
  fun_induction lineEnds a with
  | case1 =>
    cases b <;> simp [lineEnds]
  | case2 x =>
    by_cases h : x = 13 <;> cases b <;> simp [lineEnds]
  | case3 x y r ih =>
    simp only [List.cons_append] at ih ⊢
    rw [lineEnds, ih]
    omega

theorem lineEnds_append {a b : Bytes} (h : a.getLast? ≠ some 13 ∨ b.head? ≠ some 10) : lineEnds (a ++ b) = lineEnds a + lineEnds b := by
  fun_induction lineEnds a with
  | case1 => simp
  | case2 x =>
    cases b with
    | nil => simp [lineEnds]
    | cons y b =>
      simp only [List.singleton_append, lineEnds]
      rw [if_neg (by rintro ⟨rfl, rfl⟩; simp at h)]
  | case3 x y r ih =>
    simp only [List.cons_append] at ih ⊢
    rw [lineEnds, ih (h.imp (fun e => by simpa [List.getLast?_cons_cons] using e) id)]
    omega

theorem lineEnds_none {a : Bytes} (h : ∀ c ∈ a, c ≠ 13) : lineEnds a = 0 := by
  fun_induction lineEnds a with
  | case1 => rfl
  | case2 x => rfl
  | case3 x y r ih =>
    rw [ih (fun c hc => h c (List.mem_cons_of_mem _ hc)), if_neg (fun e => h x List.mem_cons_self e.1)]

theorem lineEnds_field (p : Bytes × Bytes) (b : Bytes) : lineEnds (fieldLine p ++ b) = lineEnds p.1 + lineEnds p.2 + 1 + lineEnds b := by
  have : fieldLine p ++ b = (p.1 ++ ([58, 32] ++ p.2)) ++ 13 :: 10 :: b := by simp [fieldLine, crlf]
  rw [this, lineEnds_append_crlf, lineEnds_append (Or.inr (by simp)), lineEnds_append (Or.inl (by simp))]
  simp [lineEnds]

theorem lineEnds_fields (ps : List (Bytes × Bytes)) (b : Bytes) :
    lineEnds ((ps.map fieldLine).flatten ++ b) = (ps.map fun p => lineEnds p.1 + lineEnds p.2).sum + ps.length + lineEnds b := by
  induction ps with
  | nil => simp
  | cons p ps ih =>
    rw [List.map_cons, List.flatten_cons, List.append_assoc, lineEnds_field, ih]
    simp only [List.map_cons, List.sum_cons, List.length_cons]
    omega

/-- **C41, exactly**: whatever the response, the head that is written before the body has one line end per header, two more (after the
status line, and the blank line), and one for each that the reason and the names and values of the headers contain themselves.  So every
header is on one line if and only if none of these contains a line end; a line end cannot come about in any other way. -/
theorem C41_exact_partial (env : HttpEnv) (henv : env.Valid) (r : Response) (hd : r.headers.Distinct) (hw : r.body.WF) (s : Sink) :
    ∃ head, (r.encode env s).2.2 = (s.writeAll (head ++ r.body.avail)).2 ∧
      lineEnds head = 2 + r.headers.length + lineEnds (strBytes r.reason) +
        (r.headers.map fun p => lineEnds (strBytes p.1) + lineEnds (strBytes p.2)).sum ∧
      (lineEnds head = 2 + r.headers.length ↔
        lineEnds (strBytes r.reason) = 0 ∧ ∀ p ∈ r.headers, lineEnds (strBytes p.1) = 0 ∧ lineEnds (strBytes p.2) = 0) := by
  have key : lineEnds r.headBytes = 2 + r.headers.length + lineEnds (strBytes r.reason) +
      (r.headers.map fun p => lineEnds (strBytes p.1) + lineEnds (strBytes p.2)).sum := by
    have hp := sortHeaders_perm r.headers
    have e : r.headBytes = ([72, 84, 84, 80, 47, 49, 46, 49, 32] ++ (strBytes (toString r.status) ++ ([32] ++ strBytes r.reason))) ++
        13 :: 10 :: ((((sortHeaders r.headers).map fieldOf).map fieldLine).flatten ++ 13 :: 10 :: []) := by
      simp [Response.headBytes, Http.head, statusLine, crlf]
    rw [e, lineEnds_append_crlf, lineEnds_fields, lineEnds_append (Or.inl (by simp)), lineEnds_append (Or.inr (by simp)),
      lineEnds_append (Or.inl (by simp)), lineEnds_none (a := strBytes (toString r.status))]
    · simp only [List.map_map, Function.comp_def, fieldOf, List.length_map, hp.length_eq]
      have := (hp.map fun p : String × String => lineEnds (strBytes p.1) + lineEnds (strBytes p.2)).sum_nat
      simp [lineEnds]
      omega
    · intro c hc
      have := (digits_toString r.status).1.2 c hc
      rintro rfl
      exact absurd this.1 (by decide)
  refine ⟨r.headBytes, (Response.encode_spec env henv r hd hw s).1, key, ?_⟩
  rw [key]
  have hz : (r.headers.map fun p => lineEnds (strBytes p.1) + lineEnds (strBytes p.2)).sum = 0 ↔
      ∀ p ∈ r.headers, lineEnds (strBytes p.1) = 0 ∧ lineEnds (strBytes p.2) = 0 := by
    generalize r.headers = hs
    induction hs with
    | nil => simp
    | cons p ps ih =>
      simp only [List.map_cons, List.sum_cons, List.forall_mem_cons]
      rw [← ih]
      omega
  rw [← hz]
  omega

/-- a header whose value contains a line end, in a response without a body: four line ends instead of three -/
example (env : HttpEnv) (henv : env.Valid) : ∃ head,
    (Response.encode env ⟨[("X", "a\r\nY: b\r")], Body.empty, 200, "OK"⟩ ⟨[], none⟩).2.2 = ⟨head, none⟩ ∧ lineEnds head = 4 := by
  obtain ⟨head, h1, h2, -⟩ := C41_exact_partial env henv ⟨[("X", "a\r\nY: b\r")], Body.empty, 200, "OK"⟩ (by simp [Headers.Distinct])
    ⟨trivial, by simp [Body.empty]⟩ ⟨[], none⟩
  refine ⟨head, ?_, ?_⟩
  · rw [h1]; simp [Sink.writeAll]; decide +kernel
  · rw [h2]; decide +kernel

end Puck
