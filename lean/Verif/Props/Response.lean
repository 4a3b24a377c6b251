import Verif.Lemmas.Response
import Verif.Props.Request
/-!
# Properties of responses (C39 - C42, C44, C45, C47, C79)
-/
namespace Puck
open Http

/-! ## C39 -/

/-- The bytes of a response with its headers in the given order: status line, one line per header, blank
line, body. -/
def wireBytes (status : Nat) (reason : String) (hs : List (String × String)) (body : Bytes) : Bytes :=
  Http.head (statusLine (strBytes (toString status)) (strBytes reason))
    (hs.map fun p => (strBytes p.1, strBytes p.2)) ++ body

/-- **C39.** Encoding a response writes status line, headers in strictly increasing byte order of their
names, blank line and body, the same bytes for every iteration order of the header map; it succeeds iff
the body can be read and the sink takes all the bytes, and otherwise has written a prefix of them. -/
theorem C39_deterministic (r : Response) (hd : r.headers.Distinct) (hw : r.body.WF) :
    ∃ hs, hs.Perm r.headers ∧ hs.Pairwise (fun a b => strBytes a.1 < strBytes b.1) ∧
      ∀ (env : HttpEnv), env.Valid → ∀ s : Sink,
        (r.encode env s).2.2 = (s.writeAll (wireBytes r.status r.reason hs r.body.avail)).2 ∧
        ((r.encode env s).1 = .ok () ↔
          ¬ r.body.Fails ∧ ∀ k, s.room = some k → (wireBytes r.status r.reason hs r.body.avail).length ≤ k) := by
  refine ⟨sortHeaders r.headers, sortHeaders_perm _, sortHeaders_lt hd, fun env henv s => ?_⟩
  obtain ⟨h1, h2, h3⟩ := Response.encode_spec env henv r hd hw s
  have e : r.headBytes ++ r.body.avail =
      wireBytes r.status r.reason (sortHeaders r.headers) r.body.avail := rfl
  rw [e] at h1 h2 h3
  refine ⟨h1, ?_⟩
  cases hwr : s.writeAll (wireBytes r.status r.reason (sortHeaders r.headers) r.body.avail) with
  | mk ok s' =>
    rw [hwr] at h2 h3
    cases ok with
    | false =>
      rw [h3 (Or.inr rfl)]
      simp only [reduceCtorEq, false_iff, not_and]
      intro _ hall
      have := (Sink.writeAll_ok_iff (s' := ⟨s.out ++ _, s.room.map (· - _)⟩)).2 ⟨hall, rfl⟩
      rw [hwr] at this
      cases this
    | true =>
      have hall := (Sink.writeAll_ok_iff.1 hwr).1
      by_cases hf : r.body.Fails
      · rw [h3 (Or.inl hf)]; simp [hf]
      · rw [h2 hf rfl]; simp [hf]; exact hall

/-- example: two headers given in the "wrong" order. -/
example (env : HttpEnv) (henv : env.Valid) :
    (Response.encode env ⟨[("b", "2"), ("a", "1")], Body.fromString "x", 200, "OK"⟩ ⟨[], none⟩).2.2.out =
      strBytes "HTTP/1.1 200 OK\r\na: 1\r\nb: 2\r\n\r\nx" := by
  obtain ⟨hs, h1, h2, h3⟩ := C39_deterministic ⟨[("b", "2"), ("a", "1")], Body.fromString "x", 200, "OK"⟩
    (by simp [Headers.Distinct]) ⟨trivial, by simp [Body.fromString]⟩
  rw [(h3 env henv _).1]
  have : hs = [("a", "1"), ("b", "2")] := by
    refine List.Perm.eq_of_pairwise (le := fun a b => strBytes a.1 < strBytes b.1) ?_ h2 ?_
      (h1.trans (List.Perm.swap _ _ _))
    · intro a b _ _ h1 h2; exact absurd h2 (List.lt_asymm h1)
    · simp; decide +kernel
  subst this
  simp only [Sink.writeAll, List.nil_append]
  decide +kernel

/-! ## C40 -/

/-- Field names are tokens and neither reason nor values contain a carriage return. -/
def Response.WellFormed (r : Response) : Prop :=
  100 ≤ r.status ∧ r.status < 1000 ∧ (∀ c ∈ strBytes r.reason, c ≠ 13) ∧
  ∀ p ∈ r.headers, Token (strBytes p.1) ∧ ∀ c ∈ strBytes p.2, c ≠ 13

/-- **C40.** An independent HTTP/1.1 reader recovers the status, the reason, exactly the headers (white space
around values aside) and the body from what the encoder wrote. -/
theorem C40_client_reads_back (r : Response) (hd : r.headers.Distinct) (hw : r.body.WF) (hf : ¬ r.body.Fails)
    (hwf : r.WellFormed) (env : HttpEnv) (henv : env.Valid) :
    (r.encode env ⟨[], none⟩).1 = .ok () ∧
    ∃ fs, readResponse (r.encode env ⟨[], none⟩).2.2.out = some ⟨r.status, strBytes r.reason, fs, r.body.avail⟩ ∧
      fs.Perm (r.headers.map fun p => (strBytes p.1, trim (strBytes p.2))) := by
  obtain ⟨hs, h1, h2, h3⟩ := C39_deterministic r hd hw
  obtain ⟨h4, h5⟩ := h3 env henv ⟨[], none⟩
  refine ⟨h5.2 ⟨hf, by simp⟩, ?_⟩
  obtain ⟨w1, w2, w3, w4⟩ := hwf
  rw [h4]
  simp only [Sink.writeAll, List.nil_append, wireBytes]
  have hc : strBytes (toString r.status) = code3 r.status := code3_toString w1 w2
  rw [hc, readResponse_head w2 w3]
  · refine ⟨_, rfl, ?_⟩
    rw [List.map_map]
    exact h1.map _
  · intro p hp
    obtain ⟨q, hq, rfl⟩ := List.mem_map.1 hp
    exact (w4 q (h1.mem_iff.1 hq)).1
  · intro p hp
    obtain ⟨q, hq, rfl⟩ := List.mem_map.1 hp
    exact (w4 q (h1.mem_iff.1 hq)).2

/-- non-vacuity -/
example : Response.WellFormed ⟨[("Content-Type", "text/html"), ("X-A", "")], Body.fromString "<h1>", 404, "not found"⟩ := by
  refine ⟨by decide, by decide, by decide +kernel, ?_⟩
  intro p hp
  simp only [List.mem_cons, List.not_mem_nil, or_false] at hp
  rcases hp with rfl | rfl
  · exact ⟨⟨by decide +kernel, by decide +kernel⟩, by decide +kernel⟩
  · exact ⟨⟨by decide +kernel, by decide +kernel⟩, by decide +kernel⟩

/-! ## C41 -/

theorem sortHeaders_pair {a b : String × String} (h : strBytes a.1 < strBytes b.1) : sortHeaders [a, b] = [a, b] := by
  refine List.Perm.eq_of_pairwise (le := fun a b : String × String => strBytes a.1 < strBytes b.1) ?_
    (sortHeaders_lt ?_) (by simpa using h) (sortHeaders_perm _)
  · intro a b _ _ h1 h2; exact absurd h2 (List.lt_asymm h1)
  · simp only [Headers.Distinct, List.map_cons, List.map_nil, List.nodup_cons, List.mem_cons, List.not_mem_nil,
      or_false, not_false_eq_true, List.nodup_nil, and_true]
    intro he
    rw [he] at h
    exact List.lt_irrefl _ h

/-- **C41 is false**: a value containing a line break puts a second header on the wire: the bytes are those
of a response that has it as a header of its own.  (For all names, values and bodies.) -/
theorem C41_injection_refuted (env : HttpEnv) (henv : env.Valid) (k v k' v' : String)
    (hlt : strBytes k < strBytes k') (body : Body) (hw : body.WF) (status : Nat) (reason : String) (s : Sink) :
    (Response.encode env ⟨[(k, v ++ "\r\n" ++ k' ++ ": " ++ v')], body, status, reason⟩ s).2.2 =
      (Response.encode env ⟨[(k, v), (k', v')], body, status, reason⟩ s).2.2 := by
  have hne : k ≠ k' := by rintro rfl; exact List.lt_irrefl _ hlt
  rw [(Response.encode_spec env henv _ (by simp [Headers.Distinct]) hw s).1,
    (Response.encode_spec env henv _ (by simp [Headers.Distinct, hne]) hw s).1]
  congr 3
  have h1 : strBytes ": " = [58, 32] := by decide +kernel
  have h2 : strBytes "\r\n" = [13, 10] := by decide +kernel
  have h3 : ∀ p, sortHeaders [p] = [p] := fun p => by simp [sortHeaders]
  simp only [Response.headBytes, sortHeaders_pair (a := (k, v)) (b := (k', v')) hlt, h3, Http.head, List.map_cons, List.map_nil, fieldOf, fieldLine,
    strBytes_append, h1, h2, crlf]
  simp

/-- **C41 (what holds).** If names are tokens and values have no carriage return, the reader sees exactly as
many fields as the response has headers. -/
theorem C41_one_line_each_partial (r : Response) (hd : r.headers.Distinct) (hw : r.body.WF) (hf : ¬ r.body.Fails)
    (hwf : r.WellFormed) (env : HttpEnv) (henv : env.Valid) :
    ∃ m, readResponse (r.encode env ⟨[], none⟩).2.2.out = some m ∧ m.fields.length = r.headers.length := by
  obtain ⟨_, fs, h1, h2⟩ := C40_client_reads_back r hd hw hf hwf env henv
  refine ⟨_, h1, ?_⟩
  have := h2.length_eq
  simpa using this

/-! ## C42 -/

theorem responseCap_pos : 0 < responseCap := by decide

theorem parseRes_found {env : HttpEnv} {raw : Raw} (hw : raw.WF) {h rest : Bytes} (hf : FirstBlank raw.avail h rest) :
    ∃ r, Response.parse env raw = (Response.ofHead env h r).map some ∧ r.avail = rest ∧
      (raw.Clean ↔ r.raw.Clean) ∧ r.raw.WF := by
  obtain ⟨r, h1, h2, h3, h4⟩ := headLoop_found (r := ⟨[], raw⟩) responseCap_pos hw hf
  exact ⟨r, by simp only [Response.parse, h1], h2, h3, h4⟩

theorem lower_ct : Ascii.lowered "content-type" = strBytes "content-type" := by decide +kernel

/-- Some header has this name, ignoring ASCII case. -/
def HasField (hs : List (String × Bytes)) (name : String) : Prop := ∃ k ∈ hs.map (·.1), Ascii.lowered k = strBytes name

/-- **C42 is false**: the body's length is taken from the Content-*Type* header.  A response with no numeric
Content-Type, whatever its Content-Length, gets everything that follows as its body. -/
theorem C42_content_length_refuted (env : HttpEnv) (henv : env.Valid) (sched : Nat → Nat) (raw : Raw) (hw : raw.WF)
    (hclean : raw.Clean) (h rest : Bytes) (hf : FirstBlank raw.avail h rest) (code : Nat) (reason : String)
    (fs : List (String × Bytes)) (hp : env.httparseRes h = ⟨some code, some reason, fs⟩)
    (hutf : ∀ p ∈ fs, ∃ v, p.2 = strBytes v)
    (hct : ∀ k v, lastValue fs k = some (strBytes v) → Ascii.lowered k = strBytes "content-type" →
      ¬ ∃ n, Decimal.DenotesNat (strBytes v) n ∧ n < 2 ^ env.W) :
    ∃ res, Response.parse env raw = .ok (some res) ∧ res.status = code ∧ res.reason = reason ∧
      res.headers.Distinct ∧ (∀ k, (res.headers.get k).map strBytes = lastValue fs k) ∧
      res.body.intoBytes sched = .ok rest := by
  obtain ⟨r, h1, h2, h3, h4⟩ := parseRes_found (env := env) hw hf
  obtain ⟨c1, c2⟩ := collectHeaders_spec fs [] Headers.distinct_nil
  have hne : collectHeaders fs [] ≠ none := fun hn => by
    obtain ⟨p, hp1, hp2⟩ := c1.1 hn
    obtain ⟨v, hv⟩ := hutf p hp1
    rw [hv, fromUtf8_strBytes] at hp2
    cases hp2
  obtain ⟨hdrs, hh⟩ := Option.ne_none_iff_exists'.1 hne
  obtain ⟨d1, d2⟩ := c2 hdrs hh
  have d2' : ∀ n, (hdrs.get n).map strBytes = lastValue fs n := by
    intro n; rw [d2 n]; simp [Headers.get]
  have hlen : (findIgnoreCase env hdrs "content-type").bind (parseUsize env.W) = none := by
    cases hfi : findIgnoreCase env hdrs "content-type" with
    | none => rfl
    | some v =>
      obtain ⟨k, hk1, hk2⟩ := findIgnoreCase_mem henv hfi
      have hget : hdrs.get k = some v := (Headers.get_eq_some d1).2 hk1
      cases hpu : parseUsize env.W v with
      | none => simp [hpu]
      | some n =>
        exact absurd ⟨n, parseUsize_iff.1 hpu⟩ (hct k v (by rw [← d2', hget]; rfl) (by rw [hk2, lower_ct]))
  rw [h1]
  simp only [Response.ofHead, hp, hh, hlen, Except.map]
  refine ⟨_, rfl, rfl, rfl, d1, d2', ?_⟩
  have := (C29_into_bytes sched (.buf responseCap r) ⟨responseCap_pos, h4⟩).1 (h3.1 hclean)
  rw [this]
  exact congrArg _ h2

/-- An environment whose response has `Content-Length: 1`. -/
def demoRes : HttpEnv where
  httparse := fun _ => none
  httparseRes := fun _ => ⟨some 200, some "OK", [("Content-Length", strBytes "1")]⟩
  parseUrl := fun _ => none
  ord := fun h => h
  W := 32

/-- ... and gets a body of three bytes. -/
example : ∃ res, Response.parse demoRes [.data [13, 10, 13, 10, 7, 8, 9]] = .ok (some res) ∧
    res.headers.get "Content-Length" = some "1" ∧ res.body.intoBytes (fun _ => 0) = .ok [7, 8, 9] := by
  obtain ⟨res, h1, _, _, h2, h3, h4⟩ := C42_content_length_refuted demoRes (fun _ => .refl _) (fun _ => 0)
    [.data [13, 10, 13, 10, 7, 8, 9]] (by intro b hb; simp at hb; subst hb; simp) (by intro h; simp at h)
    [13, 10, 13, 10] [7, 8, 9]
    (firstBlank_of (pre := []) (rest := [7, 8, 9]) (noBlank_of_check (by decide +kernel))) 200 "OK" _ rfl
    (by intro p hp; simp at hp; subst hp; exact ⟨"1", rfl⟩)
    (by
      intro k v hl hk
      unfold lastValue at hl
      simp only [List.reverse_cons, List.reverse_nil, List.nil_append, List.find?_cons, List.find?_nil] at hl
      split at hl
      · rename_i heq
        simp at heq
        subst heq
        exact absurd hk (by decide +kernel)
      · simp at hl)
  refine ⟨res, h1, ?_, h4⟩
  have := h3 "Content-Length"
  have e : lastValue [("Content-Length", strBytes "1")] "Content-Length" = some (strBytes "1") := by decide +kernel
  rw [e] at this
  cases hg : res.headers.get "Content-Length" with
  | none => rw [hg] at this; cases this
  | some v => rw [hg] at this; simp [strBytes_inj] at this; rw [this]

/-! ## C44 -/

/-- A call on a response builder. -/
inductive ResOp where
  | header (k v : String)
  | headers (l : List (String × String))
  | body (b : Body)
  | status (code : Nat) (reason : String)

/-- Performing it. -/
def ResponseBuilder.step (b : ResponseBuilder) : ResOp → ResponseBuilder
  | .header k v => b.header k v
  | .headers l => b.addHeaders l
  | .body x => b.setBody x
  | .status c r => b.setStatus c r

/-- The headers an operation sets, in order. -/
def ResOp.sets : ResOp → List (String × String)
  | .header k v => [(k, v)]
  | .headers l => l
  | _ => []

/-- The last value set for a name. -/
def lastSet (l : List (String × String)) (k : String) : Option String := (l.reverse.find? fun p => p.1 == k).map (·.2)

theorem lastSet_append (a b : List (String × String)) (k : String) :
    lastSet (a ++ b) k = (lastSet b k).or (lastSet a k) := by
  unfold lastSet
  rw [List.reverse_append, List.find?_append, Option.map_or]

theorem Headers.extend_spec (new : List (String × String)) (h : Headers) (hd : h.Distinct) :
    (h.extend new).Distinct ∧ ∀ k, (h.extend new).get k = (lastSet new k).or (h.get k) := by
  induction new generalizing h with
  | nil => exact ⟨hd, fun k => by simp [Headers.extend, lastSet]⟩
  | cons p new ih =>
    obtain ⟨h1, h2⟩ := ih (h.insert p.1 p.2) (Headers.insert_distinct hd _ _)
    refine ⟨h1, fun k => ?_⟩
    have h3 := h2 k
    have e : p :: new = [p] ++ new := rfl
    rw [e, lastSet_append]
    simp only [Headers.extend, List.foldl_cons, List.singleton_append] at h3 ⊢
    rw [h3, Headers.get_insert, Option.or_assoc]
    congr 1
    by_cases hk : k = p.1
    · subst hk; simp [lastSet]
    · have : (p.1 == k) = false := by simpa using Ne.symm hk
      simp [lastSet, hk, this]

/-- The last body, and the last status, among the operations. -/
def lastBody (ops : List ResOp) : Option Body :=
  ops.reverse.findSome? fun | .body b => some b | _ => none
def lastStatus (ops : List ResOp) : Option (Nat × String) :=
  ops.reverse.findSome? fun | .status c r => some (c, r) | _ => none

theorem ResponseBuilder.steps_spec (ops : List ResOp) (b : ResponseBuilder) (hd : b.headers.Distinct) :
    (ops.foldl ResponseBuilder.step b).headers.Distinct ∧
    (∀ k, (ops.foldl ResponseBuilder.step b).headers.get k = (lastSet (ops.map ResOp.sets).flatten k).or (b.headers.get k)) ∧
    (ops.foldl ResponseBuilder.step b).body = (lastBody ops).or b.body ∧
    (ops.foldl ResponseBuilder.step b).status = ((lastStatus ops).map (·.1)).or b.status ∧
    (ops.foldl ResponseBuilder.step b).reason = ((lastStatus ops).map (·.2)).or b.reason := by
  induction ops generalizing b with
  | nil => exact ⟨hd, fun k => by simp [lastSet], rfl, rfl, rfl⟩
  | cons op ops ih =>
    have e2 : lastBody (op :: ops) = (lastBody ops).or (lastBody [op]) := by
      simp [lastBody, List.findSome?_append]
    have e3 : lastStatus (op :: ops) = (lastStatus ops).or (lastStatus [op]) := by
      simp [lastStatus, List.findSome?_append]
    have hd' : (b.step op).headers.Distinct := by
      cases op with
      | header k v => exact Headers.insert_distinct hd _ _
      | headers l => exact (Headers.extend_spec l _ hd).1
      | body x => exact hd
      | status c r => exact hd
    obtain ⟨i1, i2, i3, i4, i5⟩ := ih (b.step op) hd'
    refine ⟨i1, fun k => ?_, ?_, ?_, ?_⟩
    · rw [List.foldl_cons, i2 k, List.map_cons, List.flatten_cons, lastSet_append, Option.or_assoc]
      congr 1
      cases op with
      | header k' v =>
        simp only [ResponseBuilder.step, ResponseBuilder.header, Headers.get_insert, ResOp.sets]
        by_cases hk : k = k'
        · subst hk; simp [lastSet]
        · have : (k' == k) = false := by simpa using Ne.symm hk
          simp [lastSet, hk, this]
      | headers l => exact (Headers.extend_spec l _ hd).2 k
      | body x => simp [ResponseBuilder.step, ResponseBuilder.setBody, ResOp.sets, lastSet]
      | status c r => simp [ResponseBuilder.step, ResponseBuilder.setStatus, ResOp.sets, lastSet]
    · rw [List.foldl_cons, i3, e2, Option.or_assoc]
      congr 1
      cases op <;> rfl
    · rw [List.foldl_cons, i4, e3, Option.map_or, Option.or_assoc]
      congr 1
      cases op <;> rfl
    · rw [List.foldl_cons, i5, e3, Option.map_or, Option.or_assoc]
      congr 1
      cases op <;> rfl

/-- **C44 (responses).** After any sequence of builder calls: every header has the last value set for it, the
body is the last one set (or empty), status and reason are the last ones set (200 and empty by default). -/
theorem C44_response_builder (ops : List ResOp) :
    let r := (ops.foldl ResponseBuilder.step ResponseBuilder.new).build
    r.headers.Distinct ∧
    (∀ k, r.headers.get k = lastSet (ops.map ResOp.sets).flatten k) ∧
    r.body = (lastBody ops).getD Body.empty ∧
    (r.status, r.reason) = (lastStatus ops).getD (200, "") := by
  obtain ⟨i1, i2, i3, i4, i5⟩ := ResponseBuilder.steps_spec ops ResponseBuilder.new Headers.distinct_nil
  refine ⟨i1, fun k => ?_, ?_, ?_⟩
  · simp only [ResponseBuilder.build]
    rw [i2 k]; simp [ResponseBuilder.new, Headers.get]
  · simp only [ResponseBuilder.build]
    rw [i3]; simp [ResponseBuilder.new]
  · simp only [ResponseBuilder.build]
    rw [i4, i5]
    cases lastStatus ops <;> rfl

example : ((([.header "A" "1", .status 404 "nope", .headers [("B", "2"), ("A", "3")], .status 201 "made"] :
    List ResOp).foldl ResponseBuilder.step ResponseBuilder.new).build).headers.get "A" = some "3" := by decide +kernel

/-- A call on a request builder. -/
inductive ReqOp where
  | header (k v : String)
  | headers (l : List (String × String))
  | body (b : Body)
  | method (m : Method)

/-- Performing it. -/
def RequestBuilder.step (b : RequestBuilder) : ReqOp → RequestBuilder
  | .header k v => b.header k v
  | .headers l => b.addHeaders l
  | .body x => b.setBody x
  | .method m => b.setMethod m

/-- The headers an operation sets, in order. -/
def ReqOp.sets : ReqOp → List (String × String)
  | .header k v => [(k, v)]
  | .headers l => l
  | _ => []

def lastReqBody (ops : List ReqOp) : Option Body :=
  ops.reverse.findSome? fun | .body b => some b | _ => none
def lastMethod (ops : List ReqOp) : Option Method :=
  ops.reverse.findSome? fun | .method m => some m | _ => none

theorem RequestBuilder.steps_spec (ops : List ReqOp) (b : RequestBuilder) (hd : b.headers.Distinct) :
    (ops.foldl RequestBuilder.step b).headers.Distinct ∧
    (∀ k, (ops.foldl RequestBuilder.step b).headers.get k = (lastSet (ops.map ReqOp.sets).flatten k).or (b.headers.get k)) ∧
    (ops.foldl RequestBuilder.step b).body = (lastReqBody ops).or b.body ∧
    (ops.foldl RequestBuilder.step b).method = (lastMethod ops).or b.method ∧
    (ops.foldl RequestBuilder.step b).url = b.url := by
  induction ops generalizing b with
  | nil => exact ⟨hd, fun k => by simp [lastSet], rfl, rfl, rfl⟩
  | cons op ops ih =>
    have e2 : lastReqBody (op :: ops) = (lastReqBody ops).or (lastReqBody [op]) := by
      simp [lastReqBody, List.findSome?_append]
    have e3 : lastMethod (op :: ops) = (lastMethod ops).or (lastMethod [op]) := by
      simp [lastMethod, List.findSome?_append]
    have hd' : (b.step op).headers.Distinct := by
      cases op with
      | header k v => exact Headers.insert_distinct hd _ _
      | headers l => exact (Headers.extend_spec l _ hd).1
      | body x => exact hd
      | method m => exact hd
    obtain ⟨i1, i2, i3, i4, i5⟩ := ih (b.step op) hd'
    refine ⟨i1, fun k => ?_, ?_, ?_, ?_⟩
    · rw [List.foldl_cons, i2 k, List.map_cons, List.flatten_cons, lastSet_append, Option.or_assoc]
      congr 1
      cases op with
      | header k' v =>
        simp only [RequestBuilder.step, RequestBuilder.header, Headers.get_insert, ReqOp.sets]
        by_cases hk : k = k'
        · subst hk; simp [lastSet]
        · have : (k' == k) = false := by simpa using Ne.symm hk
          simp [lastSet, hk, this]
      | headers l => exact (Headers.extend_spec l _ hd).2 k
      | body x => simp [RequestBuilder.step, RequestBuilder.setBody, ReqOp.sets, lastSet]
      | method m => simp [RequestBuilder.step, RequestBuilder.setMethod, ReqOp.sets, lastSet]
    · rw [List.foldl_cons, i3, e2, Option.or_assoc]
      congr 1
      cases op <;> rfl
    · rw [List.foldl_cons, i4, e3, Option.or_assoc]
      congr 1
      cases op <;> rfl
    · rw [List.foldl_cons, i5]
      cases op <;> rfl

/-- **C44 (requests).** `try_new` fails iff the URL does not parse.  After any sequence of builder calls,
`try_build` fails iff no method was ever set; otherwise every header has the last value set for it, the
body is the last one set (or empty), the method the last one set, and the URL the one given. -/
theorem C44_request_builder (env : HttpEnv) (url : String) (ops : List ReqOp) :
    (RequestBuilder.tryNew env url = none ↔ env.parseUrl url = none) ∧
    ∀ b u, env.parseUrl url = some u → RequestBuilder.tryNew env url = some b →
      ((ops.foldl RequestBuilder.step b).tryBuild = none ↔ ∀ m, ReqOp.method m ∉ ops) ∧
      ∀ r, (ops.foldl RequestBuilder.step b).tryBuild = some r →
        r.headers.Distinct ∧
        (∀ k, r.headers.get k = lastSet (ops.map ReqOp.sets).flatten k) ∧
        r.body = (lastReqBody ops).getD Body.empty ∧
        lastMethod ops = some r.method ∧
        r.url = u := by
  refine ⟨by simp [RequestBuilder.tryNew], fun b u hu hb => ?_⟩
  have hb' : b = ⟨[], none, none, u⟩ := by
    simp [RequestBuilder.tryNew, hu] at hb
    exact hb.symm
  subst hb'
  obtain ⟨i1, i2, i3, i4, i5⟩ := RequestBuilder.steps_spec ops ⟨[], none, none, u⟩ Headers.distinct_nil
  simp only [Option.or_none] at i3 i4
  constructor
  · unfold RequestBuilder.tryBuild
    rw [i4]
    have : lastMethod ops = none ↔ ∀ m, ReqOp.method m ∉ ops := by
      unfold lastMethod
      rw [List.findSome?_eq_none_iff]
      constructor
      · intro h m hm
        have := h (.method m) (by simpa using hm)
        simp at this
      · intro h x hx
        cases x with
        | method m => exact absurd (by simpa using hx) (h m)
        | _ => rfl
    rw [← this]
    cases lastMethod ops <;> simp
  · intro r hr
    unfold RequestBuilder.tryBuild at hr
    rw [i4] at hr
    cases hm : lastMethod ops with
    | none => rw [hm] at hr; cases hr
    | some m =>
      rw [hm] at hr
      simp only [Option.some.injEq] at hr
      subst hr
      refine ⟨i1, fun k => ?_, by simp only [i3], rfl, i5⟩
      rw [i2 k]; simp [Headers.get]

/-- non-vacuity: a builder run that succeeds. -/
example : (([ReqOp.method .post, .header "A" "1", .method .get] : List ReqOp).foldl RequestBuilder.step
    ⟨[], none, none, ⟨"http://a", "/", none⟩⟩).tryBuild =
    some ⟨[("A", "1")], .get, Body.empty, ⟨"http://a", "/", none⟩⟩ := by decide +kernel

/-! ## C45 -/

/-- **C45.** `replace_body`/`take_body` return the body in place, leave the new one (an empty one, which
yields nothing) and set Content-Type to its MIME type, touching nothing else. -/
theorem C45_take_body (sched : Nat → Nat) (r : Response) (q : Request) (b : Body) :
    (r.replaceBody b).1 = r.body ∧ (r.replaceBody b).2.body = b ∧
    (r.replaceBody b).2.status = r.status ∧ (r.replaceBody b).2.reason = r.reason ∧
    (∀ k, (r.replaceBody b).2.headers.get k = if k = "Content-Type" then some b.mime.toStr else r.headers.get k) ∧
    r.takeBody.1 = r.body ∧ r.takeBody.2.takeBody.1.intoBytes sched = .ok [] ∧
    r.takeBody.2.headers.get "Content-Type" = some "application/octet-stream" ∧
    (q.replaceBody b).1 = q.body ∧ (q.replaceBody b).2.body = b ∧
    (q.replaceBody b).2.method = q.method ∧ (q.replaceBody b).2.url = q.url ∧
    (∀ k, (q.replaceBody b).2.headers.get k = if k = "Content-Type" then some b.mime.toStr else q.headers.get k) ∧
    q.takeBody.1 = q.body ∧ q.takeBody.2.takeBody.1.intoBytes sched = .ok [] ∧
    q.takeBody.2.headers.get "Content-Type" = some "application/octet-stream" := by
  have he := (C30_string_body 8 sched "" (by decide +kernel)).2.2.2
  have hm : Body.empty.mime.toStr = "application/octet-stream" := by decide +kernel
  refine ⟨rfl, rfl, rfl, rfl, fun k => Headers.get_insert _ _ _ _, rfl, he, ?_, rfl, rfl, rfl, rfl,
    fun k => Headers.get_insert _ _ _ _, rfl, he, ?_⟩
  · simp only [Response.takeBody, Response.replaceBody, Headers.get_insert, if_true, hm]
  · simp only [Request.takeBody, Request.replaceBody, Headers.get_insert, if_true, hm]

/-! ## C47 -/

/-- **C47.** The canned errors are written as exactly these bytes; on a broken connection `write_response`
panics after writing a prefix. -/
theorem C47_canned_errors (env : HttpEnv) (henv : env.Valid) (s : Sink) :
    ∀ r w, (r = err404 ∧ w = strBytes "HTTP/1.1 404 not found\r\nContent-Type: text/html;charset=utf-8\r\n\r\n<h1>404: Not found</h1>") ∨
      (r = err400 ∧ w = strBytes "HTTP/1.1 400 bad request\r\nContent-Type: text/html;charset=utf-8\r\n\r\n<h1>400: bad request</h1>") →
    (writeResponse env r s).2 = (s.writeAll w).2 ∧
    ((writeResponse env r s).1 = some () ↔ ∀ k, s.room = some k → w.length ≤ k) := by
  intro r w hrw
  have key : r.headers.Distinct ∧ r.body.WF ∧ ¬ r.body.Fails ∧ r.headBytes ++ r.body.avail = w := by
    rcases hrw with ⟨rfl, rfl⟩ | ⟨rfl, rfl⟩
    · refine ⟨by simp [err404, Headers.insert, Headers.Distinct], ⟨trivial, by simp [err404, Body.fromString]⟩, ?_, ?_⟩
      · rintro ⟨h, _⟩; exact h trivial
      · have : sortHeaders err404.headers = err404.headers := by simp [err404, Headers.insert, sortHeaders]
        unfold Response.headBytes
        rw [this]; decide +kernel
    · refine ⟨by simp [err400, Headers.insert, Headers.Distinct], ⟨trivial, by simp [err400, Body.fromString]⟩, ?_, ?_⟩
      · rintro ⟨h, _⟩; exact h trivial
      · have : sortHeaders err400.headers = err400.headers := by simp [err400, Headers.insert, sortHeaders]
        unfold Response.headBytes
        rw [this]; decide +kernel
  obtain ⟨k1, k2, k3, k4⟩ := key
  obtain ⟨h1, h2, h3⟩ := Response.encode_spec env henv r k1 k2 s
  rw [k4] at h1 h2 h3
  unfold writeResponse
  cases hwr : s.writeAll w with
  | mk ok s' =>
    rw [hwr] at h1 h2 h3
    cases ok with
    | false =>
      have := h3 (Or.inr rfl)
      cases he : r.encode env s with
      | mk o rs =>
        rw [he] at this h1
        simp only at this h1
        subst this
        refine ⟨h1, ?_⟩
        simp only [reduceCtorEq, false_iff]
        intro hall
        have := (Sink.writeAll_ok_iff (s' := ⟨s.out ++ _, s.room.map (· - _)⟩)).2 ⟨hall, rfl⟩
        rw [hwr] at this
        cases this
    | true =>
      have := h2 k3 rfl
      cases he : r.encode env s with
      | mk o rs =>
        rw [he] at this h1
        simp only at this h1
        subst this
        exact ⟨h1, by simpa using (Sink.writeAll_ok_iff.1 hwr).1⟩

/-! ## C79 -/

/-- **C79 is false**: nothing on the wire says where a body ends.  Two responses in a row are the same bytes
as one response with a longer body. -/
theorem C79_framing_refuted (env : HttpEnv) (henv : env.Valid) (r r' : Response) (hd : r.headers.Distinct)
    (hd' : r'.headers.Distinct) (hw' : r'.body.WF) (x : Bytes) (s : Sink) (hs : s.room = none) :
    let wire (s : Sink) (r : Response) := (r.encode env s).2.2
    wire (wire s { r with body := ⟨.cursor x, .byteStream, some x.length, 0⟩ }) r' =
      wire s { r with body := ⟨.cursor (x ++ (wire ⟨[], none⟩ r').out), .byteStream,
        some (x ++ (wire ⟨[], none⟩ r').out).length, 0⟩ } := by
  intro wire
  have e1 : ∀ s y, wire s { r with body := ⟨.cursor y, .byteStream, some y.length, 0⟩ } =
      (s.writeAll (r.headBytes ++ y)).2 := by
    intro s y
    have := (Response.encode_spec env henv { r with body := ⟨.cursor y, .byteStream, some y.length, 0⟩ } hd
      ⟨trivial, by simp⟩ s).1
    simp only [Body.avail, Src.avail, Nat.sub_zero, List.take_length] at this
    exact this
  have e2 : ∀ s, wire s r' = (s.writeAll (r'.headBytes ++ r'.body.avail)).2 := fun s =>
    (Response.encode_spec env henv r' hd' hw' s).1
  rw [e1, e2, e1, e2]
  obtain ⟨out, room⟩ := s
  simp only at hs
  subst hs
  simp [Sink.writeAll]

/-- the hypotheses are met by the canned errors -/
example : err404.headers.Distinct ∧ err400.headers.Distinct ∧ err400.body.WF := by
  refine ⟨?_, ?_, trivial, ?_⟩ <;> simp [err404, err400, Headers.insert, Headers.Distinct, Body.fromString]

end Puck
