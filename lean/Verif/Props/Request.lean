import Verif.Lemmas.Head
import Verif.Lemmas.Headers
import Verif.Lemmas.Decimal
import Verif.Props.Body
/-!
# Properties of requests (C31 - C36, C38)
-/
namespace Puck
open Http

/-- The environment's map order is really an order of the same map. -/
def HttpEnv.Valid (env : HttpEnv) : Prop := ∀ h, (env.ord h).Perm h

theorem requestCap_pos : 0 < requestCap := by decide

theorem Buf.avail_nil (raw : Raw) : Buf.avail ⟨[], raw⟩ = raw.avail := rfl

theorem parse_found {env : HttpEnv} {raw : Raw} (hw : raw.WF) {h rest : Bytes} (hf : FirstBlank raw.avail h rest) :
    ∃ r, Request.parse env raw = (Request.ofHead env h r).map some ∧ r.avail = rest ∧
      (raw.Clean ↔ r.raw.Clean) ∧ r.raw.WF := by
  obtain ⟨r, h1, h2, h3, h4⟩ := headLoop_found (r := ⟨[], raw⟩) requestCap_pos hw hf
  exact ⟨r, by simp only [Request.parse, h1], h2, h3, h4⟩

theorem ofHead_body {env : HttpEnv} {h : Bytes} {r : Buf} {req : Request} (hr : Request.ofHead env h r = .ok req) :
    req.body.reader = .buf requestCap r ∧ req.body.bytesRead = 0 := by
  unfold Request.ofHead at hr
  repeat' split at hr
  all_goals first | (cases hr; done) | skip
  simp only [Except.ok.injEq] at hr
  subst hr
  exact ⟨rfl, rfl⟩

/-- Everything about a parsed request except how its body is buffered. -/
structure RequestView where
  headers : Headers
  method : Method
  url : Url
  length : Option Nat
  deriving DecidableEq

def Request.view (r : Request) : RequestView := ⟨r.headers, r.method, r.url, r.body.length⟩

theorem ofHead_view (env : HttpEnv) (h : Bytes) (r r' : Buf) :
    (Request.ofHead env h r).map Request.view = (Request.ofHead env h r').map Request.view := by
  unfold Request.ofHead
  split
  · rfl
  split
  · rfl
  split
  · rfl
  split
  · rfl
  split
  · rfl
  · rfl

/-! ## C31 -/

/-- **C31.** If the bytes that arrive contain a blank line, the header parser is given exactly the bytes up
to and including the first one (the outcome depends on nothing else: any header parser that agrees on
those bytes, and any segmentation of the same bytes, gives the same result), and the body reader is left
with exactly the bytes after it. -/
theorem C31_head_and_body (env : HttpEnv) (raw : Raw) (hw : raw.WF) (h rest : Bytes)
    (hf : FirstBlank raw.avail h rest) :
    (∀ hp', hp' h = env.httparse h →
      Request.parse { env with httparse := hp' } raw = Request.parse env raw) ∧
    (∀ raw', raw'.WF → raw'.avail = raw.avail →
      (Request.parse env raw').map (·.map Request.view) = (Request.parse env raw).map (·.map Request.view)) ∧
    (∀ req, Request.parse env raw = .ok (some req) →
      req.body.reader.avail = rest ∧ (req.body.reader.Clean ↔ raw.Clean) ∧ req.body.WF ∧ req.body.bytesRead = 0) := by
  obtain ⟨r, h1, h2, h3, h4⟩ := parse_found (env := env) hw hf
  refine ⟨?_, ?_, ?_⟩
  · intro hp' hh
    obtain ⟨r', k1, k2, k3, k4⟩ := headLoop_found (r := ⟨[], raw⟩) requestCap_pos hw hf
    simp only [Request.parse, k1, Request.ofHead, hh]
    rfl
  · intro raw' hw' hav
    obtain ⟨r', k1, _, _, _⟩ := parse_found (env := env) hw' (hav ▸ hf)
    rw [h1, k1]
    have := ofHead_view env h r' r
    cases ho : Request.ofHead env h r <;> cases ho' : Request.ofHead env h r' <;> rw [ho, ho'] at this <;>
      simp [Except.map] at this ⊢ <;> exact this
  · intro req hreq
    rw [h1] at hreq
    cases ho : Request.ofHead env h r with
    | error e => rw [ho] at hreq; cases hreq
    | ok q =>
      rw [ho] at hreq
      have : q = req := by simpa [Except.map] using hreq
      subst this
      obtain ⟨g1, g2⟩ := ofHead_body ho
      rw [g1]
      refine ⟨h2, h3.symm, ⟨?_, fun len _ => by omega⟩, g2⟩
      rw [g1]
      exact ⟨requestCap_pos, h4⟩

/-- A head and its first blank line. -/
theorem firstBlank_of {pre rest : Bytes} (h : NoBlank (pre ++ [13, 10, 13])) :
    FirstBlank (pre ++ blank ++ rest) (pre ++ blank) rest := by
  refine ⟨rfl, List.suffix_append _ _, ?_⟩
  intro q z hq hb
  apply Nat.le_of_not_lt
  intro hlt
  have h1 : q <+: pre ++ blank ++ rest := ⟨z, hq.symm⟩
  have h2 : pre ++ [13, 10, 13] <+: pre ++ blank ++ rest := ⟨[10] ++ rest, by simp [blank]⟩
  have : q <+: pre ++ [13, 10, 13] := List.prefix_of_prefix_length_le h1 h2 (by
    simp [blank] at hlt ⊢; omega)
  obtain ⟨w, hw⟩ := this
  exact h q w hw.symm hb

theorem noBlank_of_check {a : Bytes} (h : ∀ k, k ≤ a.length → ¬ blank <:+ a.take k) : NoBlank a := by
  intro q z hq hb
  have : q = a.take q.length := by rw [hq]; simp
  exact h q.length (by rw [hq]; simp) (this ▸ hb)

instance (a : Bytes) : Decidable (blank <:+ a) := inferInstance

/-- non-vacuity: a request whose blank line is split between two reads, followed by body bytes in the same
read. -/
example : ∃ raw : Raw, raw.WF ∧ FirstBlank raw.avail (strBytes "GET / HTTP/1.1\r\nHost: a\r\n\r\n") [120, 121] := by
  refine ⟨[.data (strBytes "GET / HTTP/1.1\r\nHost: a\r\n\r"), .data [10, 120, 121]], ?_, ?_⟩
  · intro b hb
    simp only [List.mem_cons, Ev.data.injEq, List.not_mem_nil, or_false] at hb
    rcases hb with rfl | rfl
    · decide +kernel
    · simp
  · have h := firstBlank_of (pre := strBytes "GET / HTTP/1.1\r\nHost: a") (rest := [120, 121])
      (noBlank_of_check (by decide +kernel))
    have e1 : Raw.avail [.data (strBytes "GET / HTTP/1.1\r\nHost: a\r\n\r"), .data [10, 120, 121]] =
        strBytes "GET / HTTP/1.1\r\nHost: a" ++ blank ++ [120, 121] := by decide +kernel
    have e2 : strBytes "GET / HTTP/1.1\r\nHost: a\r\n\r\n" = strBytes "GET / HTTP/1.1\r\nHost: a" ++ blank := by
      decide +kernel
    rw [e1, e2]; exact h

/-! ## C32 -/

/-- **C32.** `Ok(None)` is returned exactly when the stream ends without a blank line; an I/O error before the
first blank line is reported as such; in particular no request is ever produced from an incomplete head. -/
theorem C32_incomplete_head (env : HttpEnv) (raw : Raw) (hw : raw.WF) :
    (Request.parse env raw = .ok none ↔ raw.Clean ∧ NoBlank raw.avail) ∧
    (NoBlank raw.avail → ¬ raw.Clean → Request.parse env raw = .error .ioError) ∧
    (∀ req, Request.parse env raw = .ok (some req) → ∃ h rest, FirstBlank raw.avail h rest) := by
  cases hl : headLoop requestCap [] ⟨[], raw⟩ with
  | mk o r =>
    obtain ⟨g0, g1, g2, g3⟩ := headLoop_spec requestCap_pos (r := ⟨[], raw⟩) hw noBlank_nil hl
    simp only [List.nil_append, Buf.avail_nil] at g1 g2 g3
    simp only [Request.parse, hl]
    match o with
    | none =>
      refine ⟨⟨by simp, fun h => absurd h.1 (g1 rfl).1⟩, fun _ _ => rfl, by simp⟩
    | some none =>
      refine ⟨⟨fun _ => g2 rfl, fun _ => rfl⟩, fun _ h => absurd (g2 rfl).1 h, by simp⟩
    | some (some head) =>
      have hf := (g3 head rfl).1
      refine ⟨⟨?_, fun h => absurd hf.2.1 (h.2 _ _ hf.1)⟩, fun h => absurd hf.2.1 (h _ _ hf.1), fun _ _ => ⟨_, _, hf⟩⟩
      intro h
      cases ho : Request.ofHead env head r <;> simp [ho, Except.map] at h

/-- non-vacuity: the empty stream. -/
example (env : HttpEnv) : Request.parse env [] = .ok none :=
  ((C32_incomplete_head env [] Raw.WF.nil).1).2 ⟨Raw.Clean.nil, noBlank_nil⟩

/-! ## C33 -/

/-- Absolute-form request target. -/
def Absolute (t : String) : Prop := strBytes "http://" <+: strBytes t ∨ strBytes "https://" <+: strBytes t

/-- Origin-form request target. -/
def Origin (t : String) : Prop := strBytes "/" <+: strBytes t

/-- The URL of a request with target `t`, method `m` and the given host. -/
inductive UrlOf (env : HttpEnv) (m host t : String) (u : Url) : Prop
  | absolute : Absolute t → env.parseUrl t = some u → UrlOf env m host t u
  | origin : ¬ Absolute t → Origin t → env.parseUrl ("http://" ++ host ++ t) = some u → UrlOf env m host t u
  | connect : ¬ Absolute t → ¬ Origin t → Ascii.lowered m = strBytes "connect" →
      env.parseUrl ("http://" ++ host ++ "/") = some u → UrlOf env m host t u

theorem lower_connect : Ascii.lowered "connect" = strBytes "connect" := by decide +kernel
theorem lower_host : Ascii.lowered "host" = strBytes "host" := by decide +kernel

theorem requestUrl_iff {env : HttpEnv} {m host : String} {p : Option String} {u : Url} :
    requestUrl env m host p = some u ↔ ∃ t, p = some t ∧ UrlOf env m host t u := by
  cases p with
  | none => simp [requestUrl]
  | some t =>
    simp only [requestUrl, Option.some.injEq, exists_eq_left']
    by_cases ha : Absolute t
    · have : ((strBytes "http://").isPrefixOf (strBytes t) || (strBytes "https://").isPrefixOf (strBytes t)) = true := by
        simpa [Absolute] using ha
      rw [if_pos this]
      constructor
      · exact .absolute ha
      · rintro (⟨_, h⟩ | ⟨h, _⟩ | ⟨h, _⟩)
        · exact h
        · exact absurd ha h
        · exact absurd ha h
    · have : ((strBytes "http://").isPrefixOf (strBytes t) || (strBytes "https://").isPrefixOf (strBytes t)) = false := by
        simp [Absolute] at ha
        cases h1 : (strBytes "http://").isPrefixOf (strBytes t) <;>
          cases h2 : (strBytes "https://").isPrefixOf (strBytes t) <;> simp_all
      rw [if_neg (by rw [this]; simp)]
      by_cases ho : Origin t
      · have h2 : (strBytes "/").isPrefixOf (strBytes t) = true := by simpa [Origin] using ho
        rw [if_pos h2]
        constructor
        · exact .origin ha ho
        · rintro (⟨h, _⟩ | ⟨_, _, h⟩ | ⟨_, h, _⟩)
          · exact absurd h ha
          · exact h
          · exact absurd ho h
      · have h2 : ¬ (strBytes "/").isPrefixOf (strBytes t) = true := by simpa [Origin] using ho
        rw [if_neg h2]
        by_cases hc : Ascii.lowered m = strBytes "connect"
        · have h3 : eqIgnoreCase m "connect" = true := by rw [eqIgnoreCase_iff, lower_connect]; exact hc
          rw [if_pos h3]
          constructor
          · exact .connect ha ho hc
          · rintro (⟨h, _⟩ | ⟨_, h, _⟩ | ⟨_, _, _, h⟩)
            · exact absurd h ha
            · exact absurd h ho
            · exact h
        · have h3 : ¬ eqIgnoreCase m "connect" = true := by rw [eqIgnoreCase_iff, lower_connect]; exact hc
          rw [if_neg h3]
          constructor
          · intro h; cases h
          · rintro (⟨h, _⟩ | ⟨_, h, _⟩ | ⟨_, _, h, _⟩)
            · exact absurd h ha
            · exact absurd h ho
            · exact absurd h hc

/-- Some header of the head has this name, ignoring ASCII case. -/
def HasHeader (q : HpRequest) (name : String) : Prop := ∃ k ∈ q.headers.map (·.1), Ascii.lowered k = strBytes name

/-- **C33.** Given a complete head and what the header parser made of it, the outcome is decided in this
order: parse error, missing method, a non-UTF-8 header value, no Host header (any case), no acceptable
URL; otherwise the request is accepted, and its URL is the absolute target itself, `http://host` + an
origin-form target, or `http://host/` for CONNECT, for the value of a Host header. -/
theorem C33_decision (env : HttpEnv) (henv : env.Valid) (raw : Raw) (hw : raw.WF) (h rest : Bytes)
    (hf : FirstBlank raw.avail h rest) :
    (env.httparse h = none → Request.parse env raw = .error .couldNotParse) ∧
    ∀ q, env.httparse h = some q →
      (q.method = none → Request.parse env raw = .error .missingMethod) ∧
      ∀ m, q.method = some m →
        ((∃ p ∈ q.headers, fromUtf8 p.2 = none) → Request.parse env raw = .error .utf8Error) ∧
        ((∀ p ∈ q.headers, fromUtf8 p.2 ≠ none) →
          (¬ HasHeader q "host" → Request.parse env raw = .error (.missingHeader "Host")) ∧
          (HasHeader q "host" → ∃ host k, Ascii.lowered k = strBytes "host" ∧
            lastValue q.headers k = some (strBytes host) ∧
            ((¬ ∃ t u, q.path = some t ∧ UrlOf env m host t u) → Request.parse env raw = .error .invalidUrl) ∧
            (∀ t u, q.path = some t → UrlOf env m host t u →
              ∃ req, Request.parse env raw = .ok (some req) ∧ req.url = u ∧ req.method = Method.newFromStr m ∧
                (∀ n, (req.headers.get n).map strBytes = lastValue q.headers n)))) := by
  obtain ⟨r, h1, _, _, _⟩ := parse_found (env := env) hw hf
  rw [h1]
  refine ⟨fun hn => by simp [Request.ofHead, hn, Except.map], fun q hq => ⟨fun hn => by simp [Request.ofHead, hq, hn, Except.map], fun m hm => ?_⟩⟩
  obtain ⟨c1, c2⟩ := collectHeaders_spec q.headers [] Headers.distinct_nil
  refine ⟨fun hu => ?_, fun hu => ?_⟩
  · simp [Request.ofHead, hq, hm, c1.2 hu, Except.map]
  · have hne : collectHeaders q.headers [] ≠ none := fun hn => by
      obtain ⟨p, hp1, hp2⟩ := c1.1 hn
      exact hu p hp1 hp2
    obtain ⟨hdrs, hh⟩ := Option.ne_none_iff_exists'.1 hne
    obtain ⟨d1, d2⟩ := c2 hdrs hh
    have hkeys := collectHeaders_keys hh
    have d2' : ∀ n, (hdrs.get n).map strBytes = lastValue q.headers n := by
      intro n; rw [d2 n]; simp [Headers.get]
    have hhas : HasHeader q "host" ↔ findIgnoreCase env hdrs "host" ≠ none := by
      rw [Ne, findIgnoreCase_none henv]
      simp only [HasHeader, lower_host]
      constructor
      · rintro ⟨k, hk1, hk2⟩ hall
        exact hall k ((hkeys k).2 hk1) hk2
      · intro hn
        apply Classical.byContradiction
        intro hno
        exact hn fun k hk hl => hno ⟨k, (hkeys k).1 hk, hl⟩
    refine ⟨fun hno => ?_, fun hyes => ?_⟩
    · have : findIgnoreCase env hdrs "host" = none := by
        apply Classical.byContradiction
        intro hc; exact hno (hhas.2 hc)
      simp [Request.ofHead, hq, hm, hh, this, Except.map]
    · obtain ⟨host, hhost⟩ := Option.ne_none_iff_exists'.1 (hhas.1 hyes)
      obtain ⟨k, hk1, hk2⟩ := findIgnoreCase_mem henv hhost
      have hget : hdrs.get k = some host := (Headers.get_eq_some d1).2 hk1
      refine ⟨host, k, by rw [hk2, lower_host], by rw [← d2' k, hget]; rfl, fun hno => ?_, fun t u ht hu => ?_⟩
      · have : requestUrl env m host q.path = none := by
          cases hr : requestUrl env m host q.path with
          | none => rfl
          | some u =>
            obtain ⟨t, ht, hu⟩ := requestUrl_iff.1 hr
            exact absurd ⟨t, u, ht, hu⟩ hno
        simp [Request.ofHead, hq, hm, hh, hhost, this, Except.map]
      · have : requestUrl env m host q.path = some u := requestUrl_iff.2 ⟨t, ht, hu⟩
        simp only [Request.ofHead, hq, hm, hh, hhost, this, Except.map]
        exact ⟨_, rfl, rfl, rfl, d2'⟩

/-- An environment for examples: a header parser and a URL parser that know one request. -/
def demoEnv : HttpEnv where
  httparse := fun b => if b = strBytes "GET / HTTP/1.1\r\nHost: a\r\n\r\n" then
    some ⟨some "GET", some "/", [("Host", strBytes "a")]⟩ else none
  httparseRes := fun _ => ⟨none, none, []⟩
  parseUrl := fun s => if s = "http://a/" then some ⟨"http://a", "/", none⟩ else none
  ord := fun h => h
  W := 32

/-- non-vacuity: the whole chain of hypotheses is met by a plain GET. -/
example : demoEnv.Valid ∧
    demoEnv.httparse (strBytes "GET / HTTP/1.1\r\nHost: a\r\n\r\n") = some ⟨some "GET", some "/", [("Host", strBytes "a")]⟩ ∧
    HasHeader ⟨some "GET", some "/", [("Host", strBytes "a")]⟩ "host" ∧
    UrlOf demoEnv "GET" "a" "/" ⟨"http://a", "/", none⟩ := by
  refine ⟨fun h => .refl _, by decide +kernel, ⟨"Host", by simp, by decide +kernel⟩, ?_⟩
  refine .origin ?_ ?_ (by decide +kernel)
  · simp only [Absolute]; decide +kernel
  · simp only [Origin]; decide +kernel

/-! ## C34 -/

/-- **C34.** In an accepted request, looking up any name gives the text whose UTF-8 bytes are the value of the
last header with exactly that name, and nothing if there is none; every header value was valid UTF-8. -/
theorem C34_last_wins (env : HttpEnv) (raw : Raw) (hw : raw.WF) (req : Request)
    (h : Request.parse env raw = .ok (some req)) :
    ∃ head rest q, FirstBlank raw.avail head rest ∧ env.httparse head = some q ∧
      req.headers.Distinct ∧ (∀ k, (req.headers.get k).map strBytes = lastValue q.headers k) ∧
      (∀ p ∈ q.headers, ∃ s, p.2 = strBytes s) := by
  obtain ⟨head, rest, hf⟩ := (C32_incomplete_head env raw hw).2.2 req h
  obtain ⟨r, h1, _, _, _⟩ := parse_found (env := env) hw hf
  rw [h1] at h
  cases ho : Request.ofHead env head r with
  | error e => rw [ho] at h; cases h
  | ok q' =>
    rw [ho] at h
    have : q' = req := by simpa [Except.map] using h
    subst this
    unfold Request.ofHead at ho
    cases hq : env.httparse head with
    | none => rw [hq] at ho; cases ho
    | some q =>
      rw [hq] at ho
      simp only at ho
      split at ho
      · cases ho
      · rename_i m hm
        cases hc : collectHeaders q.headers [] with
        | none => rw [hc] at ho; cases ho
        | some hdrs =>
          rw [hc] at ho
          simp only at ho
          split at ho
          · cases ho
          split at ho
          · cases ho
          · simp only [Except.ok.injEq] at ho
            subst ho
            obtain ⟨c1, c2⟩ := collectHeaders_spec q.headers [] Headers.distinct_nil
            obtain ⟨d1, d2⟩ := c2 hdrs hc
            refine ⟨head, rest, q, hf, hq, d1, fun k => by rw [d2 k]; simp [Headers.get], ?_⟩
            intro p hp
            cases hu : fromUtf8 p.2 with
            | none => have := c1.2 ⟨p, hp, hu⟩; rw [hc] at this; cases this
            | some s => exact ⟨s, (strBytes_of_fromUtf8 hu).symm⟩

/-- `lastValue` on a repeated header. -/
example : lastValue [("A", [1]), ("B", [2]), ("A", [3])] "A" = some [3] := by decide

/-- non-vacuity: the demonstration request is accepted. -/
example : ∃ req, Request.parse demoEnv [.data (strBytes "GET / HTTP/1.1\r\nHost: a\r\n\r\n")] = .ok (some req) := by
  have hw : Raw.WF [.data (strBytes "GET / HTTP/1.1\r\nHost: a\r\n\r\n")] := by
    intro b hb
    simp only [List.mem_cons, Ev.data.injEq, List.not_mem_nil, or_false] at hb
    subst hb; decide +kernel
  have hf : FirstBlank (Raw.avail [.data (strBytes "GET / HTTP/1.1\r\nHost: a\r\n\r\n")])
      (strBytes "GET / HTTP/1.1\r\nHost: a\r\n\r\n") [] := by
    have h := firstBlank_of (pre := strBytes "GET / HTTP/1.1\r\nHost: a") (rest := [])
      (noBlank_of_check (by decide +kernel))
    have e1 : Raw.avail [.data (strBytes "GET / HTTP/1.1\r\nHost: a\r\n\r\n")] =
        strBytes "GET / HTTP/1.1\r\nHost: a" ++ blank ++ [] := by decide +kernel
    have e2 : strBytes "GET / HTTP/1.1\r\nHost: a\r\n\r\n" = strBytes "GET / HTTP/1.1\r\nHost: a" ++ blank := by
      decide +kernel
    rw [e1, e2]; exact h
  obtain ⟨r, h1, _⟩ := parse_found (env := demoEnv) hw hf
  rw [h1]
  have : (Request.ofHead demoEnv (strBytes "GET / HTTP/1.1\r\nHost: a\r\n\r\n") r).toOption.isSome = true := by
    have : ∀ r r', (Request.ofHead demoEnv (strBytes "GET / HTTP/1.1\r\nHost: a\r\n\r\n") r).toOption.isSome =
      (Request.ofHead demoEnv (strBytes "GET / HTTP/1.1\r\nHost: a\r\n\r\n") r').toOption.isSome := by
      intro r r'
      have := ofHead_view demoEnv (strBytes "GET / HTTP/1.1\r\nHost: a\r\n\r\n") r r'
      cases ho : Request.ofHead demoEnv (strBytes "GET / HTTP/1.1\r\nHost: a\r\n\r\n") r <;>
        cases ho' : Request.ofHead demoEnv (strBytes "GET / HTTP/1.1\r\nHost: a\r\n\r\n") r' <;> rw [ho, ho'] at this <;>
        simp [Except.map, Except.toOption] at this ⊢
    rw [this r ⟨[], []⟩]
    decide +kernel
  cases ho : Request.ofHead demoEnv (strBytes "GET / HTTP/1.1\r\nHost: a\r\n\r\n") r with
  | error e => rw [ho] at this; cases this
  | ok q => exact ⟨q, rfl⟩

/-! ## C35 -/

/-- **C35 (what holds).** If no two differently spelled headers are the same header ignoring case (for Host
and Content-Length), the interpretation of the request is the same for every iteration order of the
header map. -/
theorem C35_order_independent_partial (env : HttpEnv) (ord' : Headers → Headers) (henv : env.Valid)
    (hord : ∀ h, (ord' h).Perm h) (raw : Raw) (hw : raw.WF)
    (huniq : ∀ head rest q, FirstBlank raw.avail head rest → env.httparse head = some q →
      ∀ name ∈ ["host", "content-length"], ∀ a ∈ q.headers.map (·.1), ∀ b ∈ q.headers.map (·.1),
        Ascii.lowered a = strBytes name → Ascii.lowered b = strBytes name → a = b) :
    Request.parse { env with ord := ord' } raw = Request.parse env raw := by
  unfold Request.parse
  cases hl : headLoop requestCap [] ⟨[], raw⟩ with
  | mk o r =>
    obtain ⟨_, _, _, g3⟩ := headLoop_spec requestCap_pos (r := ⟨[], raw⟩) hw noBlank_nil hl
    simp only [List.nil_append, Buf.avail_nil] at g3
    match o with
    | none => rfl
    | some none => rfl
    | some (some head) =>
      have hf := (g3 head rfl).1
      simp only
      congr 1
      unfold Request.ofHead
      simp only
      cases hq : env.httparse head with
      | none => rfl
      | some q =>
        simp only
        cases q.method with
        | none => rfl
        | some m =>
          simp only
          cases hc : collectHeaders q.headers [] with
          | none => rfl
          | some hdrs =>
            obtain ⟨d1, _⟩ := (collectHeaders_spec q.headers [] Headers.distinct_nil).2 hdrs hc
            have key : ∀ name : String, name = "host" ∨ name = "content-length" → Ascii.lowered name = strBytes name →
                findIgnoreCase { env with ord := ord' } hdrs name = findIgnoreCase env hdrs name := by
              intro name hn hlow
              cases hfi : findIgnoreCase env hdrs name with
              | none =>
                rw [findIgnoreCase_none henv] at hfi
                exact (findIgnoreCase_none (env := { env with ord := ord' }) hord).2 hfi
              | some v =>
                obtain ⟨k, hk1, hk2⟩ := findIgnoreCase_mem henv hfi
                refine findIgnoreCase_perm (env := { env with ord := ord' }) hord d1 hk1 hk2 ?_
                intro k' hk' hkl
                refine huniq head _ q hf hq name (by simpa using hn) k' ((collectHeaders_keys hc k').1 hk') k
                  ((collectHeaders_keys hc k).1 (List.mem_map_of_mem (f := (·.1)) hk1)) ?_ ?_
                · rw [hkl, hlow]
                · rw [hk2, hlow]
            have e1 := key "host" (Or.inl rfl) (by decide +kernel)
            have e2 := key "content-length" (Or.inr rfl) (by decide +kernel)
            simp only [e1, e2]
            rfl

/-- An environment in which `Host: a` and `host: b` are both present. -/
def twoHosts (ord : Headers → Headers) : HttpEnv where
  httparse := fun _ => some ⟨some "GET", some "/", [("Host", strBytes "a"), ("host", strBytes "b")]⟩
  httparseRes := fun _ => ⟨none, none, []⟩
  parseUrl := fun s => some ⟨s, "/", none⟩
  ord := ord
  W := 32

/-- **C35 is false in general**: with `Host: a` and `host: b` the URL is whichever the hash map yields
first. -/
theorem C35_order_refuted (raw : Raw) (hw : raw.WF) (h rest : Bytes) (hf : FirstBlank raw.avail h rest) :
    ∃ r1 r2, Request.parse (twoHosts id) raw = .ok (some r1) ∧
      Request.parse (twoHosts List.reverse) raw = .ok (some r2) ∧
      r1.url = ⟨"http://a/", "/", none⟩ ∧ r2.url = ⟨"http://b/", "/", none⟩ := by
  obtain ⟨b1, h1, _⟩ := parse_found (env := twoHosts id) hw hf
  obtain ⟨b2, h2, _⟩ := parse_found (env := twoHosts List.reverse) hw hf
  rw [h1, h2]
  have key : ∀ ord host b, findIgnoreCase (twoHosts ord) [("Host", "a"), ("host", "b")] "host" = some host →
      ∃ r, Request.ofHead (twoHosts ord) h b = .ok r ∧ r.url = ⟨"http://" ++ host ++ "/", "/", none⟩ := by
    intro ord host b hfi
    have hc : collectHeaders [("Host", strBytes "a"), ("host", strBytes "b")] [] = some [("Host", "a"), ("host", "b")] := by
      simp [collectHeaders, fromUtf8_strBytes, Headers.insert]
    have hu : requestUrl (twoHosts ord) "GET" host (some "/") = some ⟨"http://" ++ host ++ "/", "/", none⟩ := by
      rw [requestUrl_iff]
      refine ⟨"/", rfl, .origin ?_ ?_ rfl⟩
      · simp only [Absolute]; decide +kernel
      · simp only [Origin]; decide +kernel
    refine ⟨⟨[("Host", "a"), ("host", "b")], Method.newFromStr "GET", Body.fromReader (.buf requestCap b)
      ((findIgnoreCase (twoHosts ord) [("Host", "a"), ("host", "b")] "content-length").bind (parseUsize 32)),
      ⟨"http://" ++ host ++ "/", "/", none⟩⟩, ?_, rfl⟩
    simp only [Request.ofHead, show (twoHosts ord).httparse h = some ⟨some "GET", some "/",
      [("Host", strBytes "a"), ("host", strBytes "b")]⟩ from rfl, hc, hfi, hu]
    rfl
  obtain ⟨r1, e1, u1⟩ := key id "a" b1 (by decide +kernel)
  obtain ⟨r2, e2, u2⟩ := key List.reverse "b" b2 (by decide +kernel)
  refine ⟨r1, r2, by rw [e1]; rfl, by rw [e2]; rfl, u1, u2⟩

/-- both orders are orders of the map -/
example : (twoHosts id).Valid ∧ (twoHosts List.reverse).Valid :=
  ⟨fun _ => .refl _, fun h => List.reverse_perm h⟩

/-! ## C36 -/

/-- **C36 (exact).** Writing a method and reading the text back gives the same method iff it is not `Head` and
not an `OtherMethod` spelling GET or POST. -/
theorem C36_method_roundtrip_partial (m : Method) :
    Method.newFromStr m.text = m ↔
      m ≠ .head ∧ ∀ s, m = .other s → Ascii.lowered s ≠ strBytes "get" ∧ Ascii.lowered s ≠ strBytes "post" := by
  cases m with
  | get => simp [Method.text]; decide +kernel
  | post => simp [Method.text]; decide +kernel
  | head => simp [Method.text]; decide +kernel
  | other s =>
    simp only [Method.text, Method.newFromStr, lowerAscii_eq, ne_eq, reduceCtorEq, not_false_eq_true, Method.other.injEq,
      true_and]
    by_cases h1 : Ascii.lowered s = strBytes "get"
    · simp [h1]
    · by_cases h2 : Ascii.lowered s = strBytes "post"
      · simp only [h2, if_true]
        constructor
        · intro h; cases h
        · intro h; exact absurd h2 (h s rfl).2
      · simp only [h1, h2, if_false]
        exact ⟨fun _ t ht => ⟨ht ▸ h1, ht ▸ h2⟩, fun _ => trivial⟩

/-- **C36 is false for HEAD**: it is written as `HEAD /` (so the request line has an extra token) and read
back as another method; no text is ever read as `Head`. -/
theorem C36_head_refuted : Method.newFromStr Method.head.text = .other "HEAD /" ∧
    ∀ s, Method.newFromStr s ≠ .head := by
  refine ⟨by decide +kernel, fun s => ?_⟩
  unfold Method.newFromStr
  split
  · simp
  split <;> simp

example : Method.newFromStr (Method.other "PATCH").text = .other "PATCH" := by decide +kernel

/-! ## C38 -/

/-- **C38 is false**: what is written does not depend on the query at all. -/
theorem C38_query_dropped_refuted (env : HttpEnv) (r : Request) (q : Option String) (s : Sink) :
    (Request.write env { r with url := { r.url with query := q } } s).2.2 = (Request.write env r s).2.2 ∧
    (Request.write env { r with url := { r.url with query := q } } s).1 = (Request.write env r s).1 := by
  unfold Request.write
  simp only
  split <;> simp

/-! ## C77 -/

theorem lower_cl : Ascii.lowered "content-length" = strBytes "content-length" := by decide +kernel

/-- The pieces of an accepted request. -/
theorem ofHead_ok {env : HttpEnv} {h : Bytes} {r : Buf} {req : Request} (hr : Request.ofHead env h r = .ok req) :
    ∃ q m hdrs host, env.httparse h = some q ∧ q.method = some m ∧ collectHeaders q.headers [] = some hdrs ∧
      findIgnoreCase env hdrs "host" = some host ∧ requestUrl env m host q.path = some req.url ∧
      req.headers = hdrs ∧ req.method = Method.newFromStr m ∧
      req.body = Body.fromReader (.buf requestCap r)
        ((findIgnoreCase env hdrs "content-length").bind (parseUsize env.W)) := by
  unfold Request.ofHead at hr
  cases hq : env.httparse h with
  | none => rw [hq] at hr; cases hr
  | some q =>
    rw [hq] at hr
    simp only at hr
    cases hm : q.method with
    | none => rw [hm] at hr; cases hr
    | some m =>
      rw [hm] at hr
      simp only at hr
      cases hc : collectHeaders q.headers [] with
      | none => rw [hc] at hr; cases hr
      | some hdrs =>
        rw [hc] at hr
        simp only at hr
        cases hh : findIgnoreCase env hdrs "host" with
        | none => rw [hh] at hr; cases hr
        | some host =>
          rw [hh] at hr
          simp only at hr
          cases hu : requestUrl env m host q.path with
          | none => rw [hu] at hr; cases hr
          | some u =>
            rw [hu] at hr
            simp only [Except.ok.injEq] at hr
            subst hr
            exact ⟨q, m, hdrs, host, rfl, hm, hc, hh, hu, rfl, rfl, rfl⟩

/-- **C77.** The body of an accepted request: with no Content-Length header (any case) it is everything that
follows the head; with one spelling of it whose value is a decimal number that fits `usize`, it is the
first that many bytes after the head (or all there are); with an unparsable value, everything again. -/
theorem C77_content_length (env : HttpEnv) (henv : env.Valid) (sched : Nat → Nat) (raw : Raw) (hw : raw.WF)
    (hclean : raw.Clean) (req : Request) (h : Request.parse env raw = .ok (some req)) :
    ∃ head rest q, FirstBlank raw.avail head rest ∧ env.httparse head = some q ∧
      (¬ HasHeader q "content-length" → req.body.intoBytes sched = .ok rest) ∧
      (∀ k v, Ascii.lowered k = strBytes "content-length" → lastValue q.headers k = some (strBytes v) →
        (∀ k' ∈ q.headers.map (·.1), Ascii.lowered k' = strBytes "content-length" → k' = k) →
        (∀ n, Decimal.DenotesNat (strBytes v) n → n < 2 ^ env.W → req.body.intoBytes sched = .ok (rest.take n)) ∧
        ((¬ ∃ n, Decimal.DenotesNat (strBytes v) n ∧ n < 2 ^ env.W) → req.body.intoBytes sched = .ok rest)) := by
  obtain ⟨head, rest, hf⟩ := (C32_incomplete_head env raw hw).2.2 req h
  obtain ⟨b1, b2, b3, b4⟩ := (C31_head_and_body env raw hw head rest hf).2.2 req h
  obtain ⟨r, h1, h2, h3, h4⟩ := parse_found (env := env) hw hf
  rw [h1] at h
  cases ho : Request.ofHead env head r with
  | error e => rw [ho] at h; cases h
  | ok q' =>
    rw [ho] at h
    have : q' = req := by simpa [Except.map] using h
    subst this
    obtain ⟨q, m, hdrs, host, g1, g2, g3, g4, g5, g6, g7, g8⟩ := ofHead_ok ho
    obtain ⟨d1, d2⟩ := (collectHeaders_spec q.headers [] Headers.distinct_nil).2 hdrs g3
    have hwf : (Src.buf requestCap r).WF := ⟨requestCap_pos, h4⟩
    have hcl : (Src.buf requestCap r).Clean := h3.1 hclean
    have hav : (Src.buf requestCap r).avail = rest := h2
    obtain ⟨i1, _, i3, _⟩ := C29_into_bytes sched _ hwf
    rw [hav] at i1 i3
    refine ⟨head, rest, q, hf, g1, ?_, ?_⟩
    · intro hno
      have : findIgnoreCase env hdrs "content-length" = none := by
        rw [findIgnoreCase_none henv, lower_cl]
        intro k hk hl
        exact hno ⟨k, (collectHeaders_keys g3 k).1 hk, hl⟩
      rw [g8, this]
      exact i1 hcl
    · intro k v hk hv hu
      have hget : hdrs.get k = some v := by
        have := d2 k
        rw [hv] at this
        cases hg : hdrs.get k with
        | none => rw [hg] at this; simp [Headers.get] at this
        | some v' => rw [hg] at this; simp [strBytes_inj] at this; rw [this]
      have hmem : (k, v) ∈ hdrs := (Headers.get_eq_some d1).1 hget
      have hfi : findIgnoreCase env hdrs "content-length" = some v := by
        refine findIgnoreCase_perm henv d1 hmem (by rw [hk, lower_cl]) ?_
        intro k' hk' hl
        exact hu k' ((collectHeaders_keys g3 k').1 hk') (by rw [hl, lower_cl])
      rw [g8, hfi]
      refine ⟨fun n hn hlt => ?_, fun hno => ?_⟩
      · have : parseUsize env.W v = some n := parseUsize_iff.2 ⟨hn, hlt⟩
        simp only [Option.bind_some, this]
        exact i3 n (Or.inl hcl)
      · have : parseUsize env.W v = none := by
          cases hp : parseUsize env.W v with
          | none => rfl
          | some n => exact absurd ⟨n, parseUsize_iff.1 hp⟩ hno
        simp only [Option.bind_some, this]
        exact i1 hcl

/-- The declared length of the body of an accepted request, read off the bytes: the same cases as C77. -/
theorem declared_length (env : HttpEnv) (henv : env.Valid) (raw : Raw) (hw : raw.WF) (req : Request)
    (h : Request.parse env raw = .ok (some req)) :
    ∃ head rest q, FirstBlank raw.avail head rest ∧ env.httparse head = some q ∧
      (¬ HasHeader q "content-length" → req.body.length = none) ∧
      (∀ k v, Ascii.lowered k = strBytes "content-length" → lastValue q.headers k = some (strBytes v) →
        (∀ k' ∈ q.headers.map (·.1), Ascii.lowered k' = strBytes "content-length" → k' = k) →
        (∀ n, Decimal.DenotesNat (strBytes v) n → n < 2 ^ env.W → req.body.length = some n) ∧
        ((¬ ∃ n, Decimal.DenotesNat (strBytes v) n ∧ n < 2 ^ env.W) → req.body.length = none)) := by
  obtain ⟨head, rest, hf⟩ := (C32_incomplete_head env raw hw).2.2 req h
  obtain ⟨r, h1, h2, h3, h4⟩ := parse_found (env := env) hw hf
  rw [h1] at h
  cases ho : Request.ofHead env head r with
  | error e => rw [ho] at h; cases h
  | ok q' =>
    rw [ho] at h
    have : q' = req := by simpa [Except.map] using h
    subst this
    obtain ⟨q, m, hdrs, host, g1, g2, g3, g4, g5, g6, g7, g8⟩ := ofHead_ok ho
    obtain ⟨d1, d2⟩ := (collectHeaders_spec q.headers [] Headers.distinct_nil).2 hdrs g3
    refine ⟨head, rest, q, hf, g1, ?_, ?_⟩
    · intro hno
      have : findIgnoreCase env hdrs "content-length" = none := by
        rw [findIgnoreCase_none henv, lower_cl]
        intro k hk hl
        exact hno ⟨k, (collectHeaders_keys g3 k).1 hk, hl⟩
      rw [g8, this]
      rfl
    · intro k v hk hv hu
      have hget : hdrs.get k = some v := by
        have := d2 k
        rw [hv] at this
        cases hg : hdrs.get k with
        | none => rw [hg] at this; simp [Headers.get] at this
        | some v' => rw [hg] at this; simp [strBytes_inj] at this; rw [this]
      have hmem : (k, v) ∈ hdrs := (Headers.get_eq_some d1).1 hget
      have hfi : findIgnoreCase env hdrs "content-length" = some v := by
        refine findIgnoreCase_perm henv d1 hmem (by rw [hk, lower_cl]) ?_
        intro k' hk' hl
        exact hu k' ((collectHeaders_keys g3 k').1 hk') (by rw [hl, lower_cl])
      rw [g8, hfi]
      refine ⟨fun n hn hlt => ?_, fun hno => ?_⟩
      · have : parseUsize env.W v = some n := parseUsize_iff.2 ⟨hn, hlt⟩
        simp only [Option.bind_some, this]
        rfl
      · have : parseUsize env.W v = none := by
          cases hp : parseUsize env.W v with
          | none => rfl
          | some n => exact absurd ⟨n, parseUsize_iff.1 hp⟩ hno
        simp only [Option.bind_some, this]
        rfl

/-- A POST with a two-byte body. -/
def demoPost : HttpEnv where
  httparse := fun _ => some ⟨some "POST", some "/", [("Host", strBytes "a"), ("Content-Length", strBytes "2")]⟩
  httparseRes := fun _ => ⟨none, none, []⟩
  parseUrl := fun s => some ⟨s, "/", none⟩
  ord := fun h => h
  W := 32

/-- non-vacuity: three bytes follow the head, two are the body. -/
example : ∃ req, Request.parse demoPost [.data [13, 10, 13, 10, 7], .data [8, 9]] = .ok (some req) ∧
    req.body.intoBytes (fun _ => 0) = .ok [7, 8] := by
  have hw : Raw.WF [.data [13, 10, 13, 10, 7], .data [8, 9]] := by
    intro b hb; simp at hb; rcases hb with rfl | rfl <;> simp
  have hf : FirstBlank (Raw.avail [.data [13, 10, 13, 10, 7], .data [8, 9]]) [13, 10, 13, 10] [7, 8, 9] :=
    firstBlank_of (pre := []) (rest := [7, 8, 9]) (noBlank_of_check (by decide +kernel))
  obtain ⟨r, h1, _⟩ := parse_found (env := demoPost) hw hf
  have hd : ∃ req, Request.parse demoPost [.data [13, 10, 13, 10, 7], .data [8, 9]] = .ok (some req) := by
    have hc : collectHeaders [("Host", strBytes "a"), ("Content-Length", strBytes "2")] [] =
        some [("Host", "a"), ("Content-Length", "2")] := by
      simp [collectHeaders, fromUtf8_strBytes, Headers.insert]
    have hu : requestUrl demoPost "POST" "a" (some "/") = some ⟨"http://a/", "/", none⟩ := by decide +kernel
    have hh : findIgnoreCase demoPost [("Host", "a"), ("Content-Length", "2")] "host" = some "a" := by decide +kernel
    rw [h1]
    simp only [Request.ofHead, show demoPost.httparse [13, 10, 13, 10] = some ⟨some "POST", some "/",
      [("Host", strBytes "a"), ("Content-Length", strBytes "2")]⟩ from rfl, hc, hh, hu]
    exact ⟨_, rfl⟩
  obtain ⟨req, hreq⟩ := hd
  refine ⟨req, hreq, ?_⟩
  obtain ⟨head, rest, q, g1, g2, _, g4⟩ := C77_content_length demoPost (fun _ => .refl _) (fun _ => 0) _ hw
    (by intro h; simp at h) req hreq
  obtain ⟨rfl, rfl⟩ := firstBlank_unique g1 hf
  have hq : q = ⟨some "POST", some "/", [("Host", strBytes "a"), ("Content-Length", strBytes "2")]⟩ := by
    have := g2; simp [demoPost] at this; exact this.symm
  subst hq
  refine (g4 "Content-Length" "2" (by decide +kernel) (by decide +kernel) ?_).1 2 ?_ (by decide)
  · intro k' hk' hl
    simp only [List.map_cons, List.map_nil, List.mem_cons, List.not_mem_nil, or_false] at hk'
    rcases hk' with rfl | rfl
    · revert hl; decide +kernel
    · rfl
  · have : strBytes "2" = [50] := by decide +kernel
    rw [this]
    exact .plain ⟨by simp, by decide⟩

/-! ## C78 -/

/-- **C78 is false**: a request without Content-Length (a plain GET) is given as its body everything the
client sends afterwards, for instance its next request. -/
theorem C78_pipelined_refuted (sched : Nat → Nat) (raw : Raw) (hw : raw.WF) (hclean : raw.Clean)
    (next : Bytes) (hav : raw.avail = strBytes "GET / HTTP/1.1\r\nHost: a\r\n\r\n" ++ next) :
    ∃ req, Request.parse demoEnv raw = .ok (some req) ∧ req.method = .get ∧
      req.body.intoBytes sched = .ok next := by
  have hf : FirstBlank raw.avail (strBytes "GET / HTTP/1.1\r\nHost: a\r\n\r\n") next := by
    have h := firstBlank_of (pre := strBytes "GET / HTTP/1.1\r\nHost: a") (rest := next)
      (noBlank_of_check (by decide +kernel))
    have e2 : strBytes "GET / HTTP/1.1\r\nHost: a\r\n\r\n" = strBytes "GET / HTTP/1.1\r\nHost: a" ++ blank := by
      decide +kernel
    rw [hav, e2]; exact h
  have hq : demoEnv.httparse (strBytes "GET / HTTP/1.1\r\nHost: a\r\n\r\n") =
      some ⟨some "GET", some "/", [("Host", strBytes "a")]⟩ := by decide +kernel
  have hval : demoEnv.Valid := fun _ => .refl _
  obtain ⟨host, k, hk, hv, _, h5⟩ := ((((C33_decision demoEnv hval raw hw _ _ hf).2 _ hq).2 "GET" rfl).2
    (by intro p hp; simp at hp; subst hp; simp [fromUtf8_strBytes])).2 ⟨"Host", by simp, by decide +kernel⟩
  have hhost : host = "a" := by
    unfold lastValue at hv
    simp only [List.reverse_cons, List.reverse_nil, List.nil_append, List.find?_cons, List.find?_nil] at hv
    split at hv
    · simp [strBytes_inj] at hv; exact hv.symm
    · simp at hv
  subst hhost
  obtain ⟨req, hreq, _, hm, _⟩ := h5 "/" ⟨"http://a", "/", none⟩ rfl (by
    refine .origin ?_ ?_ (by decide +kernel)
    · simp only [Absolute]; decide +kernel
    · simp only [Origin]; decide +kernel)
  refine ⟨req, hreq, by rw [hm]; decide +kernel, ?_⟩
  obtain ⟨head, rest, q, g1, g2, g3, _⟩ := C77_content_length demoEnv hval sched raw hw hclean req hreq
  obtain ⟨rfl, rfl⟩ := firstBlank_unique g1 hf
  rw [hq] at g2
  simp only [Option.some.injEq] at g2
  subst g2
  apply g3
  rintro ⟨k, hk, hl⟩
  simp at hk
  subst hk
  revert hl; decide +kernel

end Puck
