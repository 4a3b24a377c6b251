import Verif.Props.Limits
/-!
# C79, exactly: which responses a client can tell from what follows them
-/
namespace Puck
open Rfc6455 Http

/-- The headers of a response give the body's length: there is a Content-Length, in any spelling, and each is the number of bytes of the body. -/
def Response.SaysLength (r : Response) : Prop :=
  (∃ p ∈ r.headers, lower (strBytes p.1) = strBytes "content-length") ∧
  ∀ p ∈ r.headers, lower (strBytes p.1) = strBytes "content-length" →
    Decimal.Digits (trim (strBytes p.2)) ∧ Decimal.value (trim (strBytes p.2)) = r.body.avail.length

theorem flatten_le_chunked (cs : List Bytes) : cs.flatten.length < (chunked cs).length := by
  have h : cs.flatten.length ≤ (cs.map chunk).flatten.length := by
    induction cs with
    | nil => simp
    | cons c cs ih => simp only [List.flatten_cons, List.map_cons, List.length_append, chunk, List.length_cons, List.length_nil]; omega
  simp only [chunked, List.length_append, List.length_cons, List.length_nil]
  omega

/-- **C79, exactly.**  Take any well-formed response (the application may also have declared the chunked coding; other transfer codings are outside of the specification).  A client that follows
RFC 9112 finds its end, whatever comes after it on the connection, if and only if it is a response without a body whose status says so, or the application itself
has given it the right Content-Length and no Transfer-Encoding. -/
theorem C79_exact_partial (r : Response) (hd : r.headers.Distinct) (hw : r.body.WF) (hwf : r.WellFormed) (env : HttpEnv) (henv : env.Valid)
    (_hte : ∀ p ∈ r.headers, lower (strBytes p.1) = strBytes "transfer-encoding" → trim (strBytes p.2) = strBytes "chunked") :
    (∀ more, ∃ m, readResponse ((r.encode env ⟨[], none⟩).2.2.out ++ more) = some m ∧ SplitResponse m.code m.fields m.rest r.body.avail more ∧
      ∀ b l, SplitResponse m.code m.fields m.rest b l → b = r.body.avail ∧ l = more) ↔
    (Bodiless r.status ∧ r.body.avail = []) ∨
    (¬ Bodiless r.status ∧ r.SaysLength ∧ ∀ p ∈ r.headers, lower (strBytes p.1) ≠ strBytes "transfer-encoding") := by
  obtain ⟨hs, h1, h2, h3⟩ := C39_deterministic r hd hw
  obtain ⟨h4, h5⟩ := h3 env henv ⟨[], none⟩
  obtain ⟨w1, w2, w3, w4⟩ := hwf
  have hread : ∀ more, readResponse ((r.encode env ⟨[], none⟩).2.2.out ++ more) =
      some ⟨r.status, strBytes r.reason, hs.map fun p => (strBytes p.1, trim (strBytes p.2)), r.body.avail ++ more⟩ := by
    intro more
    rw [h4]
    simp only [Sink.writeAll, List.nil_append, wireBytes, List.append_assoc]
    have hc : strBytes (toString r.status) = code3 r.status := code3_toString w1 w2
    rw [hc, readResponse_head w2 w3]
    · simp [List.map_map, Function.comp_def]
    · intro p hp
      simp only [List.mem_map] at hp
      obtain ⟨q, hq, rfl⟩ := hp
      exact (w4 q (h1.mem_iff.1 hq)).1
    · intro p hp
      simp only [List.mem_map] at hp
      obtain ⟨q, hq, rfl⟩ := hp
      exact (w4 q (h1.mem_iff.1 hq)).2
  generalize hfs : (hs.map fun p => (strBytes p.1, trim (strBytes p.2))) = fs at hread
  have hmem : ∀ q, q ∈ fs ↔ ∃ p ∈ r.headers, q = (strBytes p.1, trim (strBytes p.2)) := by
    intro q
    rw [← hfs, List.mem_map]
    constructor
    · rintro ⟨p, hp, rfl⟩; exact ⟨p, h1.mem_iff.1 hp, rfl⟩
    · rintro ⟨p, hp, rfl⟩; exact ⟨p, h1.mem_iff.2 hp, rfl⟩
  have hhas : ∀ n, Has fs n ↔ ∃ p ∈ r.headers, lower (strBytes p.1) = strBytes n := by
    intro n
    constructor
    · rintro ⟨q, hq, hl⟩
      obtain ⟨p, hp, rfl⟩ := (hmem q).1 hq
      exact ⟨p, hp, hl⟩
    · rintro ⟨p, hp, hl⟩
      exact ⟨_, (hmem _).2 ⟨p, hp, rfl⟩, hl⟩
  constructor
  · intro h
    obtain ⟨m, hm, hsp, -⟩ := h [0]
    rw [hread] at hm
    obtain rfl := (Option.some.inj hm).symm
    simp only at hsp
    generalize hb : r.body.avail = b at hsp
    generalize hx : b ++ [0] = x at hsp
    generalize hl : ([0] : Bytes) = l at hsp hx
    cases hsp with
    | none hcode => exact Or.inl ⟨hcode, rfl⟩
    | chunked cs _ hcode hh hall hne he =>
      have := flatten_le_chunked cs
      rw [he] at hx
      have := congrArg List.length hx
      simp only [List.length_append] at this
      omega
    | length n hcode hnt hcl hall hn =>
      refine Or.inr ⟨hcode, ⟨(hhas _).1 hcl, ?_⟩, fun p hp e => hnt ((hhas _).2 ⟨p, hp, e⟩)⟩
      intro p hp e
      obtain ⟨d1, d2⟩ := hall _ ((hmem _).2 ⟨p, hp, rfl⟩) e
      refine ⟨d1, d2.trans ?_⟩
      rw [hb]
      have := congrArg List.length hx
      simp only [List.length_append, List.length_take, List.length_drop] at this ⊢
      omega
    | close hcode hnt hncl => cases hl
  · rintro (⟨hcode, hb⟩ | ⟨hcode, ⟨hcl, hall⟩, hnt⟩) more
    · refine ⟨_, hread more, ?_, ?_⟩
      · simp only [hb, List.nil_append]; exact .none hcode
      · intro b l hsp
        simp only [hb, List.nil_append] at hsp ⊢
        cases hsp with
        | none _ => exact ⟨rfl, rfl⟩
        | chunked _ _ h => exact absurd hcode h
        | length _ h => exact absurd hcode h
        | close h => exact absurd hcode h
    · have hnt' : ¬ Has fs "transfer-encoding" := by
        rw [hhas]; rintro ⟨p, hp, e⟩; exact hnt p hp e
      have hall' : ∀ p ∈ fs, lower p.1 = strBytes "content-length" → Decimal.Digits p.2 ∧ Decimal.value p.2 = r.body.avail.length := by
        intro q hq e
        obtain ⟨p, hp, rfl⟩ := (hmem q).1 hq
        exact hall p hp e
      refine ⟨_, hread more, ?_, ?_⟩
      · have := SplitResponse.length (code := r.status) (fs := fs) (after := r.body.avail ++ more) _ hcode hnt' ((hhas _).2 hcl) hall' (by simp)
        simpa using this
      · intro b l hsp
        simp only at hsp
        cases hsp with
        | none h => exact absurd h hcode
        | chunked _ _ _ h => exact absurd h hnt'
        | length n _ _ _ hn =>
          obtain ⟨p, hp, e⟩ := (hhas _).2 hcl
          have e1 := (hall' p hp e).2
          have e2 := (hn p hp e).2
          have : n = r.body.avail.length := e2.symm.trans e1
          subst this
          simp
        | close _ _ h => exact absurd ((hhas _).2 hcl) h

/-- non-vacuity: both sides of the condition occur among the responses of the library: the canned 404 cannot be told from what follows it,
a page of two bytes that says so can. -/
example : ¬ Bodiless err404.status ∧ ¬ err404.SaysLength ∧
    Response.SaysLength ⟨[("content-LENGTH", "2")], Body.fromString "OK", 200, "OK"⟩ := by
  refine ⟨by rintro (h | h | h) <;> revert h <;> decide, ?_, ⟨⟨("content-LENGTH", "2"), by simp, by decide +kernel⟩, ?_⟩⟩
  · rintro ⟨⟨p, hp, e⟩, -⟩
    revert p
    simp only [err404, Headers.insert]
    decide +kernel
  · intro p hp _
    simp only [List.mem_singleton] at hp
    subst hp
    exact ⟨⟨by decide +kernel, by decide +kernel⟩, by decide +kernel⟩

end Puck
