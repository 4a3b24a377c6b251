import Verif.Props.Limits
/-!
# What bounds the body of a parsed response (C42)
-/
namespace Puck
open Http

/-- Some Content-Type of the response is the decimal number `n` (and fits in a `usize` of `W` bits). -/
def NumericType (W : Nat) (res : Response) (n : Nat) : Prop :=
  ∃ k v, (k, v) ∈ res.headers ∧ Ascii.lowered k = strBytes "content-type" ∧ Decimal.DenotesNat (strBytes v) n ∧ n < 2 ^ W

/-- **C42, exactly.**  The body of a parsed response is all that follows the head, or its first `n` bytes if the Content-*Type* is the
number `n`; Content-Length does not matter.  So it keeps to a bound `m` (such as the Content-Length) if and only if no more than `m` bytes
follow the head, or the Content-Type happens to be a number up to `m`.  (`h1`: Content-Type is not there in two spellings.) -/
theorem C42_exact_partial (env : HttpEnv) (henv : env.Valid) (sched : Nat → Nat) (raw : Raw) (hw : raw.WF) (hclean : raw.Clean) (h rest : Bytes)
    (hf : FirstBlank raw.avail h rest) (res : Response) (hp : Response.parse env raw = .ok (some res))
    (h1 : ∀ k ∈ res.headers.map (·.1), ∀ k' ∈ res.headers.map (·.1), Ascii.lowered k = strBytes "content-type" →
      Ascii.lowered k' = strBytes "content-type" → k = k') :
    ∃ body, res.body.intoBytes sched = .ok body ∧
      (∀ n, NumericType env.W res n → body = rest.take n) ∧
      ((¬ ∃ n, NumericType env.W res n) → body = rest) ∧
      ∀ m, body.length ≤ m ↔ rest.length ≤ m ∨ ∃ n, n ≤ m ∧ NumericType env.W res n := by
  obtain ⟨r, g1, g2, g3, g4⟩ := parseRes_found (env := env) hw hf
  rw [g1] at hp
  cases ho : Response.ofHead env h r with
  | error e => rw [ho] at hp; cases hp
  | ok q =>
    rw [ho] at hp
    have : q = res := by simpa [Except.map] using hp
    subst this
    obtain ⟨i1, -, i3, -⟩ := C29_into_bytes sched (.buf responseCap r) ⟨responseCap_pos, g4⟩
    have hcl : (Src.buf responseCap r).Clean := g3.1 hclean
    have hav : (Src.buf responseCap r).avail = rest := g2
    rw [hav] at i1 i3
    have hb : q.headers.Distinct ∧
        q.body = Body.fromReader (.buf responseCap r) ((findIgnoreCase env q.headers "content-type").bind (parseUsize env.W)) := by
      unfold Response.ofHead at ho
      simp only at ho
      cases hc : collectHeaders (env.httparseRes h).headers [] with
      | none => simp only [hc] at ho; cases ho
      | some hdrs =>
        have hd := ((collectHeaders_spec _ [] Headers.distinct_nil).2 hdrs hc).1
        simp only [hc] at ho
        repeat' split at ho
        all_goals first | (cases ho; done) | skip
        simp only [Except.ok.injEq] at ho
        subst ho
        exact ⟨hd, rfl⟩
    obtain ⟨hd, hb⟩ := hb
    have hfind : ∀ n, NumericType env.W q n ↔ (findIgnoreCase env q.headers "content-type").bind (parseUsize env.W) = some n := by
      intro n
      constructor
      · rintro ⟨k, v, m1, m2, m3⟩
        rw [findIgnoreCase_perm henv hd m1 (by rw [m2, lower_ct]) (fun k' hk' he =>
          h1 k' hk' k (List.mem_map_of_mem m1) (by rw [he, lower_ct]) m2)]
        exact parseUsize_iff.2 m3
      · intro he
        cases hfi : findIgnoreCase env q.headers "content-type" with
        | none => rw [hfi] at he; cases he
        | some v =>
          rw [hfi] at he
          obtain ⟨k, hk1, hk2⟩ := findIgnoreCase_mem henv hfi
          exact ⟨k, v, hk1, by rw [hk2, lower_ct], parseUsize_iff.1 he⟩
    rw [hb]
    cases hl : (findIgnoreCase env q.headers "content-type").bind (parseUsize env.W) with
    | none =>
      have hno : ∀ n, ¬ NumericType env.W q n := fun n hn => by rw [hfind, hl] at hn; cases hn
      exact ⟨rest, i1 hcl, fun n hn => absurd hn (hno n), fun _ => rfl, fun m => ⟨Or.inl, by
        rintro (e | ⟨n, -, hn⟩)
        · exact e
        · exact absurd hn (hno n)⟩⟩
    | some l =>
      have hyes : ∀ n, NumericType env.W q n ↔ n = l := fun n => by rw [hfind, hl]; simp [eq_comm]
      refine ⟨rest.take l, i3 l (Or.inl hcl), fun n hn => by rw [(hyes n).1 hn], fun hn => absurd ⟨l, (hyes l).2 rfl⟩ hn, fun m => ?_⟩
      rw [List.length_take]
      constructor
      · intro e
        by_cases e' : rest.length ≤ m
        · exact Or.inl e'
        · exact Or.inr ⟨l, by omega, (hyes l).2 rfl⟩
      · rintro (e | ⟨n, e, hn⟩)
        · omega
        · rw [(hyes n).1 hn] at e; omega

/-- A response with `Content-Length: 9` and `content-type: 2`. -/
def demoRes2 : HttpEnv where
  httparse := fun _ => none
  httparseRes := fun _ => ⟨some 200, some "OK", [("Content-Length", strBytes "9"), ("content-type", strBytes "2")]⟩
  parseUrl := fun _ => none
  ord := fun h => h
  W := 32

/-- ... gets two bytes of the three that follow. -/
example : ∃ res, Response.parse demoRes2 [.data [13, 10, 13, 10, 7, 8, 9]] = .ok (some res) ∧
    res.body.intoBytes (fun _ => 0) = .ok [7, 8] := by
  have hw : Raw.WF [.data [13, 10, 13, 10, 7, 8, 9]] := by intro b hb; simp at hb; subst hb; simp
  have hf := firstBlank_of (pre := []) (rest := [7, 8, 9]) (noBlank_of_check (by decide +kernel))
  obtain ⟨r, g1, -⟩ := parseRes_found (env := demoRes2) (raw := [.data [13, 10, 13, 10, 7, 8, 9]]) hw hf
  have hc : collectHeaders [("Content-Length", strBytes "9"), ("content-type", strBytes "2")] [] =
      some [("Content-Length", "9"), ("content-type", "2")] := by
    simp [collectHeaders, fromUtf8_strBytes, Headers.insert]
  simp only [Response.ofHead, demoRes2, hc, Except.map] at g1
  refine ⟨_, g1, ?_⟩
  obtain ⟨body, b1, b2, -⟩ := C42_exact_partial demoRes2 (fun _ => .refl _) (fun _ => 0) [.data [13, 10, 13, 10, 7, 8, 9]] hw
    (by intro h; simp at h) _ [7, 8, 9] hf _ g1 (by
      intro k hk k' hk' e e'
      simp only [List.map_cons, List.map_nil, List.mem_cons, List.not_mem_nil, or_false] at hk hk'
      rcases hk with rfl | rfl
      · exact absurd e (by decide +kernel)
      · rcases hk' with rfl | rfl
        · exact absurd e' (by decide +kernel)
        · rfl)
  rw [b1, b2 2 ⟨"content-type", "2", by simp, by decide +kernel, (parseUsize_iff.1 (by decide +kernel : parseUsize 32 "2" = some 2))⟩]
  rfl

end Puck
