import Verif.Props.Response
import Verif.Lemmas.HeadBlank
import Verif.Spec.HttpContract
/-!
# Writing and parsing back (C37, C43)
-/
namespace Puck
open Http

theorem text_no_cr {b : Bytes} (h : Text b) : ∀ c ∈ b, c ≠ 13 := by
  intro c hc hn
  have := h c hc
  rw [hn] at this
  revert this; decide

theorem asciiText_no_cr {b : Bytes} (h : AsciiText b) : ∀ c ∈ b, c ≠ 13 := by
  intro c hc hn
  have := h c hc
  rw [hn] at this
  revert this; decide

theorem target_no {b : Bytes} (h : Target b) : ∀ c ∈ b, c ≠ 32 ∧ c ≠ 13 := by
  intro c hc
  have := h.2 c hc
  constructor <;> intro hn <;> rw [hn] at this <;> revert this <;> decide

/-- A header the grammar allows. -/
def GoodHeader (p : String × String) : Prop := GoodField (p.1, strBytes p.2)

/-- Header list as the header parser reports it. -/
def asFields (hs : List (String × String)) : List (String × Bytes) := hs.map fun p => (p.1, strBytes p.2)

theorem asFields_raw (hs : List (String × String)) :
    (asFields hs).map rawField = hs.map fun p => (strBytes p.1, strBytes p.2) := by
  simp [asFields, rawField]

/-- With distinct names, the last value of a name is its only value. -/
theorem lastValue_asFields {hs h : Headers} (hd : h.Distinct) (hp : hs.Perm h) (k : String) :
    lastValue (asFields hs) k = (h.get k).map strBytes := by
  have hp' : hs.reverse.Perm h := (List.reverse_perm hs).trans hp
  rw [← Headers.perm_get hd hp' k]
  unfold lastValue Headers.get asFields
  rw [← List.map_reverse, List.find?_map, Option.map_map, Option.map_map]
  rfl

/-! ## C43 -/

/-- A response that can be written and read back. -/
structure Response.Good (W : Nat) (r : Response) : Prop where
  distinct : r.headers.Distinct
  body : r.body.WF
  readable : ¬ r.body.Fails
  code : 100 ≤ r.status ∧ r.status < 1000
  reason : AsciiText (strBytes r.reason)
  headers : ∀ p ∈ r.headers, GoodHeader p
  few : r.headers.length ≤ 20
  contentType : ∀ k v, r.headers.get k = some v → Ascii.lowered k = strBytes "content-type" →
    ¬ ∃ n, Decimal.DenotesNat (strBytes v) n ∧ n < 2 ^ W

/-- **C43.** Every good response, once encoded, is parsed back (in any segmentation of the bytes) to a
response with the same status, reason, headers and body bytes. -/
theorem C43_response_roundtrip (env : HttpEnv) (henv : env.Valid) (hp : ResponseContract env.httparseRes)
    (sched : Nat → Nat) (r : Response) (hr : r.Good env.W) (raw : Raw) (hw : raw.WF) (hclean : raw.Clean)
    (hraw : raw.avail = (r.encode env ⟨[], none⟩).2.2.out) :
    ∃ r', Response.parse env raw = .ok (some r') ∧ r'.status = r.status ∧ r'.reason = r.reason ∧
      r'.headers.Distinct ∧ (∀ k, r'.headers.get k = r.headers.get k) ∧
      r'.body.intoBytes sched = .ok r.body.avail := by
  obtain ⟨hs, h1, _, h3⟩ := C39_deterministic r hr.distinct hr.body
  rw [(h3 env henv ⟨[], none⟩).1] at hraw
  simp only [Sink.writeAll, List.nil_append, wireBytes] at hraw
  have hc : strBytes (toString r.status) = code3 r.status := code3_toString hr.code.1 hr.code.2
  rw [hc, ← asFields_raw] at hraw
  have hgood : ∀ p ∈ asFields hs, GoodField p := by
    intro p hp
    obtain ⟨q, hq, rfl⟩ := List.mem_map.1 hp
    exact hr.headers q (h1.mem_iff.1 hq)
  have hf : FirstBlank raw.avail (Http.head (statusLine (code3 r.status) (strBytes r.reason)) ((asFields hs).map rawField))
      r.body.avail := by
    rw [hraw]
    refine firstBlank_head ⟨by simp [statusLine], ?_⟩ ?_ ?_ _
    · intro c hcm
      simp only [statusLine, code3, List.mem_append, List.mem_cons, List.not_mem_nil, or_false] at hcm
      have dig : ∀ k, k < 10 → UInt8.ofNat (48 + k) ≠ 13 := by decide
      have hlt := hr.code.2
      rcases hcm with (((rfl | rfl | rfl | rfl | rfl | rfl | rfl | rfl | rfl) | (rfl | rfl | rfl)) | rfl) | hcm
      all_goals first | decide | exact dig _ (by omega) | exact asciiText_no_cr hr.reason c hcm
    · intro p hp c hcm
      obtain ⟨q, hq, rfl⟩ := List.mem_map.1 hp
      exact (tchar_ne ((hgood q hq).1.2 c hcm)).2.1
    · intro p hp
      obtain ⟨q, hq, rfl⟩ := List.mem_map.1 hp
      exact text_no_cr (hgood q hq).2.1
  have hlv := lastValue_asFields hr.distinct h1
  obtain ⟨r', g1, g2, g3, g4, g5, g6⟩ := C42_content_length_refuted env henv sched raw hw hclean _ _ hf r.status r.reason
    (asFields hs) (hp r.status r.reason (asFields hs) hr.code.1 hr.code.2 hr.reason hgood
      (by simp only [asFields, List.length_map]; rw [h1.length_eq]; exact hr.few))
    (by
      intro p hp
      obtain ⟨q, hq, rfl⟩ := List.mem_map.1 hp
      exact ⟨q.2, rfl⟩)
    (by
      intro k v hl hk
      rw [hlv] at hl
      cases hg : r.headers.get k with
      | none => rw [hg] at hl; cases hl
      | some v' =>
        rw [hg] at hl
        simp [strBytes_inj] at hl
        subst hl
        exact hr.contentType k v' hg hk)
  refine ⟨r', g1, g2, g3, g4, fun k => ?_, g6⟩
  have := g5 k
  rw [hlv] at this
  cases h1 : r'.headers.get k <;> cases h2 : r.headers.get k <;> rw [h1, h2] at this <;>
    simp [strBytes_inj] at this <;> simp [this]

/-- A response parser made from the independent reader. -/
def hpRes (b : Bytes) : HpResponse :=
  match readResponse b with
  | none => ⟨none, none, []⟩
  | some m => ⟨some m.code, fromUtf8 m.reason, m.fields.map fun p => ((fromUtf8 p.1).getD "", p.2)⟩

/-- A request parser made from the independent reader. -/
def hpReq (b : Bytes) : Option HpRequest :=
  match readRequest b with
  | none => none
  | some m => some ⟨fromUtf8 m.method, fromUtf8 m.target, m.fields.map fun p => ((fromUtf8 p.1).getD "", p.2)⟩

theorem fields_back {fs : List (String × Bytes)} (h : ∀ p ∈ fs, GoodField p) :
    ((fs.map rawField).map fun p => (p.1, trim p.2)).map (fun p : Bytes × Bytes => ((fromUtf8 p.1).getD "", p.2)) = fs := by
  rw [List.map_map, List.map_map]
  conv => rhs; rw [← List.map_id fs]
  apply List.map_congr_left
  intro p hp
  simp [rawField, fromUtf8_strBytes, trim_trimmed (h p hp).2.2]

/-- The contracts can be met: parsers built from the independent reader do. -/
theorem hpRes_contract : ResponseContract hpRes := by
  intro code reason fs h1 h2 h3 h4 _
  unfold hpRes
  have := readResponse_head h2 (asciiText_no_cr h3) (fs := fs.map rawField)
    (by intro p hp; obtain ⟨q, hq, rfl⟩ := List.mem_map.1 hp; exact (h4 q hq).1)
    (by intro p hp; obtain ⟨q, hq, rfl⟩ := List.mem_map.1 hp; exact text_no_cr (h4 q hq).2.1) []
  rw [List.append_nil] at this
  rw [this]
  simp only [fromUtf8_strBytes, fields_back h4]

theorem token_no {b : Bytes} (h : Token b) : ∀ c ∈ b, c ≠ 32 ∧ c ≠ 13 := fun c hc =>
  ⟨(tchar_ne (h.2 c hc)).2.2, (tchar_ne (h.2 c hc)).2.1⟩

theorem hpReq_contract : RequestContract hpReq := by
  intro method tgt fs h1 h2 h4 _
  unfold hpReq
  have := readRequest_head (token_no h1) (target_no h2) (fs := fs.map rawField)
    (by intro p hp; obtain ⟨q, hq, rfl⟩ := List.mem_map.1 hp; exact (h4 q hq).1)
    (by intro p hp; obtain ⟨q, hq, rfl⟩ := List.mem_map.1 hp; exact text_no_cr (h4 q hq).2.1) []
  rw [List.append_nil] at this
  rw [this]
  simp only [fromUtf8_strBytes, fields_back h4]

/-- non-vacuity: a good response. -/
example : Response.Good 64 ⟨[("Content-Type", "text/html"), ("X-A", "b c")], Body.fromString "hi", 200, "OK"⟩ where
  distinct := by simp [Headers.Distinct]
  body := ⟨trivial, by simp [Body.fromString]⟩
  readable := by rintro ⟨h, _⟩; exact h trivial
  code := by decide
  reason := by unfold AsciiText; decide +kernel
  headers := by
    intro p hp
    simp only [List.mem_cons, List.not_mem_nil, or_false] at hp
    rcases hp with rfl | rfl
    · refine ⟨⟨by decide +kernel, by decide +kernel⟩, by unfold Text; decide +kernel, ?_⟩
      have : strBytes "text/html" = [116, 101, 120, 116, 47, 104, 116, 109, 108] := by decide +kernel
      simp only [this, Trimmed]
      exact ⟨by simp; decide, by simp; decide⟩
    · refine ⟨⟨by decide +kernel, by decide +kernel⟩, by unfold Text; decide +kernel, ?_⟩
      have : strBytes "b c" = [98, 32, 99] := by decide +kernel
      simp only [this, Trimmed]
      exact ⟨by simp; decide, by simp; decide⟩
  few := by decide
  contentType := by
    intro k v hg hk
    rintro ⟨n, hn, _⟩
    have hv : v = "text/html" := by
      unfold Headers.get at hg
      simp only [List.find?_cons, List.find?_nil] at hg
      split at hg
      · simpa using hg.symm
      · split at hg
        · rename_i heq
          simp at heq
          subst heq
          exact absurd hk (by decide +kernel)
        · simp at hg
    subst hv
    have : strBytes "text/html" = [116, 101, 120, 116, 47, 104, 116, 109, 108] := by decide +kernel
    rw [this] at hn
    generalize hb : [116, 101, 120, 116, 47, 104, 116, 109, 108] = b at hn
    cases hn with
    | plain h =>
      subst hb
      have := h.2 116 (by simp)
      revert this; decide

/-! ## C37 -/

/-- The head of a request as it is written. -/
theorem Request.head_eq (m path : String) (hs : List (String × String)) :
    ([strBytes m, strBytes (" " ++ path ++ " "), strBytes "HTTP/1.1\r\n"] ++ hs.map headerLine ++ [strBytes "\r\n"]).flatten =
      Http.head (requestLine (strBytes m) (strBytes path)) ((asFields hs).map rawField) := by
  have h1 : strBytes "HTTP/1.1\r\n" = [72, 84, 84, 80, 47, 49, 46, 49, 13, 10] := by decide +kernel
  have h2 : strBytes "\r\n" = [13, 10] := by decide +kernel
  have h3 : strBytes " " = [32] := by decide +kernel
  have h4 : hs.map headerLine = ((asFields hs).map rawField).map Http.fieldLine := by
    rw [asFields_raw, List.map_map]
    exact List.map_congr_left fun p _ => headerLine_eq p
  rw [h4]
  simp [Http.head, requestLine, crlf, h1, h2, h3]

theorem Request.write_out (env : HttpEnv) (r : Request) (hw : r.body.WF) :
    (r.write env ⟨[], none⟩).2.2.out =
      Http.head (requestLine (strBytes r.method.text) (strBytes r.url.path)) ((asFields (env.ord r.headers)).map rawField) ++
        r.body.avail := by
  unfold Request.write
  rw [Sink.writeEach_eq, Request.head_eq]
  simp only [Sink.writeAll, List.nil_append]
  have := (Body.copyTo_spec copyBlk _ r.body
    ⟨Http.head (requestLine (strBytes r.method.text) (strBytes r.url.path)) ((asFields (env.ord r.headers)).map rawField), none⟩
    (Nat.le_refl _) hw).1
  simp only [Sink.writeAll] at this
  rw [this]

/-- A request that can be written and read back. -/
structure Request.Good (W : Nat) (r : Request) (hostName host : String) : Prop where
  distinct : r.headers.Distinct
  body : r.body.WF
  readable : ¬ r.body.Fails
  /-- not HEAD (C36), and not an unknown method spelled like GET or POST -/
  method : r.method ≠ .head ∧ Token (strBytes r.method.text) ∧
    ∀ s, r.method = .other s → Ascii.lowered s ≠ strBytes "get" ∧ Ascii.lowered s ≠ strBytes "post"
  path : Target (strBytes r.url.path) ∧ strBytes "/" <+: strBytes r.url.path
  headers : ∀ p ∈ r.headers, GoodHeader p
  few : r.headers.length ≤ 20
  hasHost : r.headers.get hostName = some host ∧ Ascii.lowered hostName = strBytes "host"
  /-- one spelling of Host -/
  oneHost : ∀ k v, r.headers.get k = some v → Ascii.lowered k = strBytes "host" → k = hostName
  /-- one spelling of Content-Length, telling the truth -/
  oneLength : ∀ k v k' v', r.headers.get k = some v → Ascii.lowered k = strBytes "content-length" →
    r.headers.get k' = some v' → Ascii.lowered k' = strBytes "content-length" → k = k'
  length : ∀ k v, r.headers.get k = some v → Ascii.lowered k = strBytes "content-length" →
    Decimal.DenotesNat (strBytes v) r.body.avail.length ∧ r.body.avail.length < 2 ^ W

/-- **C37.** Every good request, once written, is parsed back (in any segmentation of the bytes) to a
request with the same method, headers and body bytes, and the URL `http://host` + path. -/
theorem C37_request_roundtrip (env : HttpEnv) (henv : env.Valid) (hp : RequestContract env.httparse)
    (sched : Nat → Nat) (r : Request) (hostName host : String) (hr : r.Good env.W hostName host) (u : Url)
    (hu : env.parseUrl ("http://" ++ host ++ r.url.path) = some u) (raw : Raw) (hw : raw.WF) (hclean : raw.Clean)
    (hraw : raw.avail = (r.write env ⟨[], none⟩).2.2.out) :
    ∃ r', Request.parse env raw = .ok (some r') ∧ r'.method = r.method ∧ r'.url = u ∧
      r'.headers.Distinct ∧ (∀ k, r'.headers.get k = r.headers.get k) ∧
      r'.body.intoBytes sched = .ok r.body.avail := by
  have h1 := henv r.headers
  rw [Request.write_out env r hr.body] at hraw
  have hgood : ∀ p ∈ asFields (env.ord r.headers), GoodField p := by
    intro p hp
    obtain ⟨q, hq, rfl⟩ := List.mem_map.1 hp
    exact hr.headers q (h1.mem_iff.1 hq)
  have hf : FirstBlank raw.avail (Http.head (requestLine (strBytes r.method.text) (strBytes r.url.path))
      ((asFields (env.ord r.headers)).map rawField)) r.body.avail := by
    rw [hraw]
    refine firstBlank_head ⟨by simp [requestLine], ?_⟩ ?_ ?_ _
    · intro c hcm
      simp only [requestLine, List.mem_append, List.mem_cons, List.not_mem_nil, or_false] at hcm
      rcases hcm with ((hc | rfl) | hc) | (rfl | rfl | rfl | rfl | rfl | rfl | rfl | rfl | rfl)
      all_goals first | decide | exact (token_no hr.method.2.1 c hc).2 | exact (target_no hr.path.1 c hc).2
    · intro p hp c hcm
      obtain ⟨q, hq, rfl⟩ := List.mem_map.1 hp
      exact (tchar_ne ((hgood q hq).1.2 c hcm)).2.1
    · intro p hp
      obtain ⟨q, hq, rfl⟩ := List.mem_map.1 hp
      exact text_no_cr (hgood q hq).2.1
  have hlv := lastValue_asFields hr.distinct h1
  have hq := hp r.method.text r.url.path (asFields (env.ord r.headers)) hr.method.2.1 hr.path.1 hgood
    (by simp only [asFields, List.length_map]; rw [h1.length_eq]; exact hr.few)
  have hmem : ∀ k, k ∈ (asFields (env.ord r.headers)).map (·.1) ↔ r.headers.get k ≠ none := by
    intro k
    rw [Ne, Headers.get_eq_none]
    have : (asFields (env.ord r.headers)).map (·.1) = (env.ord r.headers).map (·.1) := by
      simp [asFields]
    rw [this, Classical.not_not]
    exact (h1.map (fun p : String × String => p.1)).mem_iff
  obtain ⟨host', k, hk, hv, _, h5⟩ := ((((C33_decision env henv raw hw _ _ hf).2 _ hq).2 r.method.text rfl).2
    (by
      intro p hp
      obtain ⟨q, hq, rfl⟩ := List.mem_map.1 hp
      simp [fromUtf8_strBytes])).2 ⟨hostName, (hmem _).2 (by rw [hr.hasHost.1]; simp), hr.hasHost.2⟩
  have hkh : k = hostName := by
    rw [hlv] at hv
    cases hg : r.headers.get k with
    | none => rw [hg] at hv; cases hv
    | some v => exact hr.oneHost k v hg hk
  subst hkh
  have hhh : host' = host := by
    rw [hlv, hr.hasHost.1] at hv
    simp [strBytes_inj] at hv
    exact hv.symm
  subst hhh
  have hstart : ¬ Absolute r.url.path := by
    obtain ⟨w, hw⟩ := hr.path.2
    have e0 : strBytes "/" = [47] := by decide +kernel
    have e1 : strBytes "http://" = [104, 116, 116, 112, 58, 47, 47] := by decide +kernel
    have e2 : strBytes "https://" = [104, 116, 116, 112, 115, 58, 47, 47] := by decide +kernel
    unfold Absolute
    rw [← hw, e0, e1, e2]
    simp [List.cons_prefix_cons]
  obtain ⟨r', g1, g2, g3, g4⟩ := h5 r.url.path u rfl (.origin hstart hr.path.2 hu)
  have hget : ∀ k, r'.headers.get k = r.headers.get k := by
    intro k
    have := g4 k
    rw [hlv] at this
    cases h1 : r'.headers.get k <;> cases h2 : r.headers.get k <;> rw [h1, h2] at this <;>
      simp [strBytes_inj] at this <;> simp [this]
  obtain ⟨head, rest, q, f1, f2, f3, f4⟩ := C77_content_length env henv sched raw hw hclean r' g1
  obtain ⟨_, _, _, _, _, hdist, _⟩ := C34_last_wins env raw hw r' g1
  obtain ⟨rfl, rfl⟩ := firstBlank_unique f1 hf
  rw [hq] at f2
  simp only [Option.some.injEq] at f2
  subst f2
  refine ⟨r', g1, ?_, g2, hdist, hget, ?_⟩
  · rw [g3]
    exact (C36_method_roundtrip_partial r.method).2 ⟨hr.method.1, hr.method.2.2⟩
  · by_cases hcl : ∃ k v, r.headers.get k = some v ∧ Ascii.lowered k = strBytes "content-length"
    · obtain ⟨k, v, hkv, hkl⟩ := hcl
      obtain ⟨l1, l2⟩ := hr.length k v hkv hkl
      have := (f4 k v hkl (by rw [hlv, hkv]; rfl) (by
        intro k' hk' hl'
        obtain ⟨v', hv'⟩ := Option.ne_none_iff_exists'.1 ((hmem k').1 hk')
        exact (hr.oneLength k v k' v' hkv hkl hv' hl').symm)).1 _ l1 l2
      rw [this, List.take_length]
    · apply f3
      rintro ⟨k, hk, hl⟩
      obtain ⟨v, hv⟩ := Option.ne_none_iff_exists'.1 ((hmem k).1 hk)
      exact hcl ⟨k, v, hv, hl⟩

/-- non-vacuity: a good request. -/
example : Request.Good 64 ⟨[("Host", "a")], .other "PUT", Body.fromString "hi", ⟨"http://a", "/x", none⟩⟩ "Host" "a" := by
  have hnl : ∀ k v, Headers.get [("Host", "a")] k = some v → k = "Host" := by
    intro k v h
    unfold Headers.get at h
    simp only [List.find?_cons, List.find?_nil] at h
    split at h
    · rename_i heq; simpa using (eq_of_beq heq).symm
    · simp at h
  have hncl : Ascii.lowered "Host" ≠ strBytes "content-length" := by decide +kernel
  refine ⟨by simp [Headers.Distinct], ⟨trivial, by simp [Body.fromString]⟩, ?_, ⟨by simp, ⟨by decide +kernel, by decide +kernel⟩, ?_⟩,
    ⟨⟨by decide +kernel, by decide +kernel⟩, by decide +kernel⟩, ?_, by decide, ⟨by decide +kernel, by decide +kernel⟩,
    fun k v h _ => hnl k v h, ?_, ?_⟩
  · rintro ⟨h, _⟩; exact h trivial
  · intro s hs
    simp at hs
    subst hs
    decide +kernel
  · intro p hp
    simp only [List.mem_cons, List.not_mem_nil, or_false] at hp
    subst hp
    refine ⟨⟨by decide +kernel, by decide +kernel⟩, by unfold Text; decide +kernel, ?_⟩
    have : strBytes "a" = [97] := by decide +kernel
    simp only [this, Trimmed]
    exact ⟨by simp; decide, by simp; decide⟩
  · intro k v k' v' h hl
    exact absurd (hnl k v h ▸ hl) hncl
  · intro k v h hl
    exact absurd (hnl k v h ▸ hl) hncl

end Puck
