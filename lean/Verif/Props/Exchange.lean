import Verif.Props.Socket
import Verif.Props.Router
import Verif.Props.ListApp
/-!
# A whole HTTP exchange, from the client's bytes to the client's bytes (C109)
-/
namespace Puck
open Http

/-- A route whose handler answers with `stream.respond(answer).unwrap()`. -/
def answering {σ : Type} (env : HttpEnv) (matcher : Request → Bool) (f : Request → σ → Response) : Route σ :=
  ⟨matcher, fun req st s => respondUnwrap env (f req st) s⟩

theorem respondUnwrap_ok (env : HttpEnv) (r : Response) (s : Sink) (h : (r.encode env s).1 = .ok ()) :
    respondUnwrap env r s = (.ok (), (r.encode env s).2.2) := by
  unfold respondUnwrap Stream.respond
  cases he : r.encode env s with
  | mk o bs =>
    obtain ⟨b, s'⟩ := bs
    rw [he] at h
    simp only at h
    subst h
    rfl

theorem conn_of_parse {σ : Type} (env : HttpEnv) (routes : List (Route σ)) (mode : Serve σ)
    (hm : mode = .serveRouter routes ∨ mode = .run routes) (st : σ) (raw : Raw) (s : Sink) (req : Request)
    (h : Request.parse env raw = .ok (some req)) : mode.conn env st raw s = Router.respond routes req st s := by
  rcases hm with rfl | rfl <;> simp [Serve.conn, serveRouterConn, runRouterConn, h]

/-- What the connection's process has done once it has run, in any history of the server. -/
theorem exchange {σ : Type} (env : HttpEnv) (routes : List (Route σ)) (mode : Serve σ)
    (hm : mode = .serveRouter routes ∨ mode = .run routes) (st : σ) (es : List ServeEvent) (k : Nat) (raw : Raw) (s : Sink)
    (hk : (acceptedConns es)[k]? = some (raw, s)) (hs : Scheduled es k) (req : Request) (h : Request.parse env raw = .ok (some req)) :
    ∃ p, (Server.exec env mode ⟨st, []⟩ es).procs[k]? = some p ∧ p.ended = some (Router.respond routes req st s).1 ∧
      p.sink = (Router.respond routes req st s).2 := by
  obtain ⟨p, h1, h2⟩ := (C53_isolated env mode st es).2.2 k _ hk
  obtain ⟨h3, h4⟩ := h2.2.2.1 hs
  rw [conn_of_parse env routes mode hm st raw s req h] at h3 h4
  exact ⟨p, h1, h3, h4⟩

/-- **C109.** In any history of the server (other connections, failures, crashes, any schedule): a client that sends a request with any method,
target and fields the grammar allows, in any reads, on a working connection, and whose process is scheduled, reads back with an HTTP reader of
its own exactly the status, reason, fields and body of the response that the first matching handler returns for a request with that
method, URL, those fields and that body; if no route matches it reads nothing. -/
theorem C109_exchange {σ : Type} (env : HttpEnv) (henv : env.Valid) (hp : RequestContract env.httparse) (routes : List (Route σ))
    (mode : Serve σ) (hm : mode = .serveRouter routes ∨ mode = .run routes) (st : σ) (es : List ServeEvent) (k : Nat)
    (method t : String) (fs : List (String × Bytes)) (hostName host : String) (hg : GoodHead method t fs hostName host)
    (u : Url) (hu : env.parseUrl ("http://" ++ host ++ t) = some u) (after : Bytes) (raw : Raw) (hw : raw.WF)
    (hav : raw.avail = headBytes method t fs ++ after) (hk : (acceptedConns es)[k]? = some (raw, ⟨[], none⟩)) (hs : Scheduled es k) :
    ∃ req p, (Server.exec env mode ⟨st, []⟩ es).procs[k]? = some p ∧
      req.method = Method.newFromStr method ∧ req.url = u ∧ (∀ n, (req.headers.get n).map strBytes = lastValue fs n) ∧
      req.body.reader.avail = after ∧
      (∀ pre matcher f post, routes = pre ++ answering env matcher f :: post → (∀ r ∈ pre, r.matcher req = false) → matcher req = true →
        (f req st).headers.Distinct → (f req st).body.WF → ¬ (f req st).body.Fails → (f req st).WellFormed →
        p.ended = some (.ok ()) ∧ ∃ fields,
          readResponse p.sink.out = some ⟨(f req st).status, strBytes (f req st).reason, fields, (f req st).body.avail⟩ ∧
          fields.Perm ((f req st).headers.map fun q => (strBytes q.1, trim (strBytes q.2)))) ∧
      ((∀ r ∈ routes, r.matcher req = false) → p.ended = some (.ok ()) ∧ p.sink.out = []) := by
  obtain ⟨req, h1, h2, h3, h4⟩ := request_of_head env henv hp hg hu raw hw after hav
  have hf : FirstBlank raw.avail (headBytes method t fs) after := by rw [hav]; exact headBytes_blank hg after
  obtain ⟨p, p1, p2, p3⟩ := exchange env routes mode hm st es k raw _ hk hs req h1
  obtain ⟨c1, c2, -⟩ := C50_first_match routes req st ⟨[], none⟩
  refine ⟨req, p, p1, h3, h2, h4, ((C31_head_and_body env raw hw _ _ hf).2.2 req h1).1, ?_, ?_⟩
  · intro pre matcher f post hr hpre hmt hd hb hn hwf
    have hc := c1 pre (answering env matcher f) post hr hpre hmt
    obtain ⟨e1, fields, e2, e3⟩ := C40_client_reads_back (f req st) hd hb hn hwf env henv
    rw [hc] at p2 p3
    simp only [answering, respondUnwrap_ok env _ _ e1] at p2 p3
    exact ⟨p2, fields, by rw [p3]; exact e2, e3⟩
  · intro hno
    rw [c2 hno] at p2 p3
    exact ⟨p2, by rw [p3]⟩

/-- **C109, for puck's own client**: a request written with `Request::write`, and the answer read with `Response::parse`, over any
segmentation in both directions: the handler is given the same method, headers and body bytes, and the client gets the same status, reason,
headers and body bytes as the handler's response. -/
theorem C109_puck_client {σ : Type} (env : HttpEnv) (henv : env.Valid) (hp : RequestContract env.httparse)
    (hp' : ResponseContract env.httparseRes) (routes : List (Route σ)) (mode : Serve σ)
    (hm : mode = .serveRouter routes ∨ mode = .run routes) (st : σ) (es : List ServeEvent) (k : Nat) (sched : Nat → Nat)
    (r : Request) (hostName host : String) (hr : r.Good env.W hostName host) (u : Url)
    (hu : env.parseUrl ("http://" ++ host ++ r.url.path) = some u) (raw : Raw) (hw : raw.WF) (hc : raw.Clean)
    (hav : raw.avail = (r.write env ⟨[], none⟩).2.2.out) (hk : (acceptedConns es)[k]? = some (raw, ⟨[], none⟩)) (hs : Scheduled es k) :
    ∃ req p, (Server.exec env mode ⟨st, []⟩ es).procs[k]? = some p ∧
      req.method = r.method ∧ req.url = u ∧ (∀ n, req.headers.get n = r.headers.get n) ∧ req.body.intoBytes sched = .ok r.body.avail ∧
      (∀ pre matcher f post, routes = pre ++ answering env matcher f :: post → (∀ q ∈ pre, q.matcher req = false) → matcher req = true →
        (f req st).Good env.W → p.ended = some (.ok ()) ∧
        ∀ back : Raw, back.WF → back.Clean → back.avail = p.sink.out →
          ∃ got, Response.parse env back = .ok (some got) ∧ got.status = (f req st).status ∧ got.reason = (f req st).reason ∧
            (∀ n, got.headers.get n = (f req st).headers.get n) ∧ got.body.intoBytes sched = .ok (f req st).body.avail) := by
  obtain ⟨req, h1, h2, h3, -, h4, h5⟩ := C37_request_roundtrip env henv hp sched r hostName host hr u hu raw hw hc hav
  obtain ⟨p, p1, p2, p3⟩ := exchange env routes mode hm st es k raw _ hk hs req h1
  refine ⟨req, p, p1, h2, h3, h4, h5, ?_⟩
  intro pre matcher f post hro hpre hmt hgood
  have hc := (C50_first_match routes req st ⟨[], none⟩).1 pre (answering env matcher f) post hro hpre hmt
  have e1 : ((f req st).encode env ⟨[], none⟩).1 = .ok () := by
    obtain ⟨_, _, _, h⟩ := C39_deterministic (f req st) hgood.distinct hgood.body
    exact (h env henv ⟨[], none⟩).2.2 ⟨hgood.readable, by simp⟩
  rw [hc] at p2 p3
  simp only [answering, respondUnwrap_ok env _ _ e1] at p2 p3
  refine ⟨p2, fun back hbw hbc hba => ?_⟩
  obtain ⟨got, g1, g2, g3, -, g4, g5⟩ := C43_response_roundtrip env henv hp' sched (f req st) hgood back hbw hbc (by rw [hba, p3])
  exact ⟨got, g1, g2, g3, g4, g5⟩

/-! ## C110 -/

/-- A connection on which a client sends a form submission of the text `s` to `/submit`: any fields, any reads; a Content-Length header, if
there is one, has one spelling and tells the truth (and the text, like any text in memory, has at most `isize::MAX` bytes). -/
structure WirePost (env : HttpEnv) (raw : Raw) (s : String) : Prop where
  wf : raw.WF
  clean : raw.Clean
  sent : ∃ method t fs hostName host u, GoodHead method t fs hostName host ∧ Method.newFromStr method = .post ∧
    env.parseUrl ("http://" ++ host ++ t) = some u ∧ u.path = "/submit" ∧
    raw.avail = headBytes method t fs ++ strBytes ("message=" ++ s) ∧
    (∀ p ∈ fs, Ascii.lowered p.1 = strBytes "content-length" → ∃ v, lastValue fs p.1 = some (strBytes v) ∧
      Decimal.DenotesNat (strBytes v) (strBytes ("message=" ++ s)).length ∧ (strBytes ("message=" ++ s)).length ≤ isizeMax env.W ∧
      ∀ q ∈ fs, Ascii.lowered q.1 = strBytes "content-length" → q.1 = p.1)

/-- A connection on which a client sends something else: a request with another method or to another path, or no complete head. -/
structure WireOther (env : HttpEnv) (raw : Raw) : Prop where
  wf : raw.WF
  sent : NoBlank raw.avail ∨ ∃ method t fs hostName host u after, GoodHead method t fs hostName host ∧
    env.parseUrl ("http://" ++ host ++ t) = some u ∧ (Method.newFromStr method ≠ .post ∨ u.path ≠ "/submit") ∧
    raw.avail = headBytes method t fs ++ after

/-- The texts submitted by a sequence of connections. -/
inductive WireSubmitted (env : HttpEnv) : List Raw → List String → Prop
  | nil : WireSubmitted env [] []
  | post {raw raws s items} : WirePost env raw s → WireSubmitted env raws items → WireSubmitted env (raw :: raws) (s :: items)
  | other {raw raws items} : WireOther env raw → WireSubmitted env raws items → WireSubmitted env (raw :: raws) items

/-- The requests that reach the handlers. -/
def reached (env : HttpEnv) (raws : List Raw) : List Request :=
  raws.filterMap fun raw => match Request.parse env raw with | .ok (some req) => some req | _ => none

theorem reached_cons_some {env : HttpEnv} {raw : Raw} {raws : List Raw} {req : Request} (h : Request.parse env raw = .ok (some req)) :
    reached env (raw :: raws) = req :: reached env raws := by
  simp [reached, h]

theorem reached_cons_none {env : HttpEnv} {raw : Raw} {raws : List Raw} (h : ∀ req, Request.parse env raw ≠ .ok (some req)) :
    reached env (raw :: raws) = reached env raws := by
  unfold reached
  rw [List.filterMap_cons]
  cases hp : Request.parse env raw with
  | error e => rfl
  | ok o =>
    cases o with
    | none => rfl
    | some req => exact absurd hp (h req)

theorem listConns_items (env : HttpEnv) (sched : Nat → Nat) (raws : List Raw) (items : List String) :
    (listConns env sched items raws).2 = (listHistory env.W sched items (reached env raws)).2 ∧
    (listConns env sched items raws).1.length = raws.length := by
  induction raws generalizing items with
  | nil => exact ⟨rfl, rfl⟩
  | cons raw raws ih =>
    rw [listConns]
    by_cases h : ∃ req, Request.parse env raw = .ok (some req)
    · obtain ⟨req, h⟩ := h
      rw [reached_cons_some h]
      simp only [h, listHistory]
      exact ⟨(ih _).1, by simp [(ih _).2]⟩
    · have h' : ∀ req, Request.parse env raw ≠ .ok (some req) := fun req hr => h ⟨req, hr⟩
      rw [reached_cons_none h']
      split
      · rename_i req hr; exact absurd hr (h' req)
      · exact ⟨(ih _).1, by simp [(ih _).2]⟩

theorem listConns_append (env : HttpEnv) (sched : Nat → Nat) (a b : List Raw) (items : List String) :
    (listConns env sched items (a ++ b)).1 =
      (listConns env sched items a).1 ++ (listConns env sched (listConns env sched items a).2 b).1 := by
  induction a generalizing items with
  | nil => rfl
  | cons raw a ih =>
    rw [List.cons_append, listConns, listConns]
    split
    · simp [ih]
    · simp [ih]

theorem body_wf {env : HttpEnv} {raw : Raw} (hw : raw.WF) {req : Request} (h : Request.parse env raw = .ok (some req)) : req.body.WF := by
  obtain ⟨head, rest, hf⟩ := (C32_incomplete_head env raw hw).2.2 req h
  exact ((C31_head_and_body env raw hw head rest hf).2.2 req h).2.2.1

theorem WirePost.submits {env : HttpEnv} (henv : env.Valid) (hp : RequestContract env.httparse) {raw : Raw} {s : String}
    (h : WirePost env raw s) : ∃ req, Request.parse env raw = .ok (some req) ∧ Submits env.W req s := by
  obtain ⟨method, t, fs, hostName, host, u, hg, hm, hu, hpath, hav, hcl⟩ := h.sent
  obtain ⟨req, h1, h2, h3, h4⟩ := request_of_head env henv hp hg hu raw h.wf _ hav
  have hf : FirstBlank raw.avail (headBytes method t fs) (strBytes ("message=" ++ s)) := by rw [hav]; exact headBytes_blank hg _
  have hbw := body_wf h.wf h1
  have hnf : ¬ req.body.Fails := by
    rintro ⟨hn, -⟩
    exact hn (((C31_head_and_body env raw h.wf _ _ hf).2.2 req h1).2.1.2 h.clean)
  refine ⟨req, h1, by rw [h3, hm], by rw [h2, hpath], ?_, hnf, ?_⟩
  · obtain ⟨head, rest, q, f1, f2, f3, f4⟩ := declared_length env henv raw h.wf req h1
    obtain ⟨rfl, rfl⟩ := firstBlank_unique f1 hf
    have hq : env.httparse (headBytes method t fs) = some ⟨some method, some t, fs⟩ := hp method t fs hg.method hg.target.1 hg.fields hg.few
    rw [hq] at f2
    simp only [Option.some.injEq] at f2
    subst f2
    by_cases hex : ∃ p ∈ fs, Ascii.lowered p.1 = strBytes "content-length"
    · obtain ⟨p, hp1, hp2⟩ := hex
      obtain ⟨v, v1, v2, v3, v4⟩ := hcl p hp1 hp2
      have := (f4 p.1 v hp2 v1 (by
        intro k' hk' hl
        obtain ⟨q, hq1, rfl⟩ := List.mem_map.1 hk'
        exact v4 q hq1 hl)).1 _ v2 (Nat.lt_of_le_of_lt v3 (isizeMax_lt _))
      rw [this]
      exact v3
    · rw [f3 (by
        rintro ⟨k, hk, hl⟩
        obtain ⟨q, hq1, rfl⟩ := List.mem_map.1 hk
        exact hex ⟨q, hq1, hl⟩)]
      exact Nat.zero_le _
  have hb := Body.intoBytes_ok (fun _ => 0) hbw hnf
  obtain ⟨head, rest, q, f1, f2, f3, f4⟩ := C77_content_length env henv (fun _ => 0) raw h.wf h.clean req h1
  obtain ⟨rfl, rfl⟩ := firstBlank_unique f1 hf
  have hq : env.httparse (headBytes method t fs) = some ⟨some method, some t, fs⟩ := hp method t fs hg.method hg.target.1 hg.fields hg.few
  rw [hq] at f2
  simp only [Option.some.injEq] at f2
  subst f2
  have key : req.body.intoBytes (fun _ => 0) = .ok (strBytes ("message=" ++ s)) := by
    by_cases hex : ∃ p ∈ fs, Ascii.lowered p.1 = strBytes "content-length"
    · obtain ⟨p, hp1, hp2⟩ := hex
      obtain ⟨v, v1, v2, v3, v4⟩ := hcl p hp1 hp2
      have := (f4 p.1 v hp2 v1 (by
        intro k' hk' hl
        obtain ⟨q, hq1, rfl⟩ := List.mem_map.1 hk'
        exact v4 q hq1 hl)).1 _ v2 (Nat.lt_of_le_of_lt v3 (isizeMax_lt _))
      rw [this, List.take_length]
    · apply f3
      rintro ⟨k, hk, hl⟩
      obtain ⟨q, hq1, rfl⟩ := List.mem_map.1 hk
      exact hex ⟨q, hq1, hl⟩
  rw [hb] at key
  simpa using key

theorem WireOther.not {env : HttpEnv} (henv : env.Valid) (hp : RequestContract env.httparse) {raw : Raw} (h : WireOther env raw)
    (req : Request) (hr : Request.parse env raw = .ok (some req)) (s : String) : ¬ Submits env.W req s := by
  rintro ⟨h1, h2, -, -, -⟩
  rcases h.sent with hn | ⟨method, t, fs, hostName, host, u, after, hg, hu, hne, hav⟩
  · obtain ⟨head, rest, hf⟩ := (C32_incomplete_head env raw h.wf).2.2 req hr
    exact hn _ _ hf.1 hf.2.1
  · obtain ⟨req', g1, g2, g3, -⟩ := request_of_head env henv hp hg hu raw h.wf _ hav
    rw [hr] at g1
    cases g1
    rcases hne with hne | hne
    · exact hne (g3 ▸ h1)
    · exact hne (g2 ▸ h2)

theorem WireSubmitted.reached {env : HttpEnv} (henv : env.Valid) (hp : RequestContract env.httparse) {raws : List Raw} {items : List String}
    (h : WireSubmitted env raws items) : Submitted env.W (reached env raws) items ∧ ∀ r ∈ reached env raws, r.body.WF := by
  induction h with
  | nil => exact ⟨.nil, by simp [Puck.reached]⟩
  | post h1 _ ih =>
    obtain ⟨req, g1, g2⟩ := h1.submits henv hp
    rw [reached_cons_some g1]
    refine ⟨.take g2 ih.1, ?_⟩
    intro r hr
    rcases List.mem_cons.1 hr with rfl | hr
    · exact body_wf h1.wf g1
    · exact ih.2 r hr
  | @other raw raws items h1 _ ih =>
    by_cases h : ∃ req, Request.parse env raw = .ok (some req)
    · obtain ⟨req, g1⟩ := h
      rw [reached_cons_some g1]
      refine ⟨.skip (h1.not henv hp req g1) ih.1, ?_⟩
      intro r hr
      rcases List.mem_cons.1 hr with rfl | hr
      · exact body_wf h1.wf g1
      · exact ih.2 r hr
    · rw [reached_cons_none fun req hr => h ⟨req, hr⟩]
      exact ih

/-- **C110.** The list example over bytes: whatever connections have been served before - form submissions, requests for other pages,
incomplete requests, in any segmentation - a client that asks for `/read/<number>` is answered with the page that shows exactly the texts
submitted before, in order. -/
theorem C110_read_over_bytes (env : HttpEnv) (henv : env.Valid) (hp : RequestContract env.httparse) (hW : 31 ≤ env.W) (sched : Nat → Nat)
    (before after : List Raw) (items : List String) (hs : WireSubmitted env before items) (raw : Raw) (hw : raw.WF)
    (method t : String) (fs : List (String × Bytes)) (hostName host : String) (u : Url) (rest : Bytes) (hg : GoodHead method t fs hostName host)
    (hu : env.parseUrl ("http://" ++ host ++ t) = some u) (n : Nat) (seg : String) (hpath : u.path = "/read/" ++ seg)
    (hn : Decimal.DenotesNat (strBytes seg) n) (hr : n < 2 ^ 31) (hav : raw.avail = headBytes method t fs ++ rest) :
    (listConns env sched [] (before ++ raw :: after)).1[before.length]? =
      some (some (if items = [] then .noMessages else .messages items)) := by
  obtain ⟨req, h1, h2, -, -⟩ := request_of_head env henv hp hg hu raw hw _ hav
  obtain ⟨g1, g2⟩ := hs.reached henv hp
  have hC := C86_read_submitted env.W hW sched (reached env before) [] items req g2 g1 n seg (by rw [h2, hpath]) hn hr
  rw [listHistory_append, List.getElem?_append_right (by rw [listHistory_length]; exact Nat.le_refl _), listHistory_length, Nat.sub_self] at hC
  simp only [listHistory, List.getElem?_cons_zero] at hC
  obtain ⟨l1, l2⟩ := listConns_items env sched before []
  rw [listConns_append, List.getElem?_append_right (by rw [l2]; exact Nat.le_refl _), l2, Nat.sub_self, listConns]
  simp only [h1, List.getElem?_cons_zero, l1]
  exact hC

/-! ## non-vacuity -/

/-- an environment with a header parser that satisfies the contracts and a URL parser that knows the host `a` -/
def wireEnv : HttpEnv where
  httparse := hpReq
  httparseRes := hpRes
  parseUrl := fun s => if "http://a".toList.isPrefixOf s.toList then some ⟨"http://a", String.ofList (s.toList.drop 8), none⟩ else none
  ord := fun h => h
  W := 32

theorem wire_head (t : String) (ht : Target (strBytes t) ∧ strBytes "/" <+: strBytes t) (m : String) (hm : Token (strBytes m)) :
    GoodHead m t [("Host", strBytes "a"), ("Content-Length", strBytes "10")] "Host" "a" where
  method := hm
  target := ht
  fields := by
    intro p hp
    simp only [List.mem_cons, List.not_mem_nil, or_false] at hp
    rcases hp with rfl | rfl <;>
      exact ⟨⟨by decide +kernel, by decide +kernel⟩, by unfold Text; decide +kernel, by unfold Trimmed; decide +kernel⟩
  text := by
    intro p hp
    simp only [List.mem_cons, List.not_mem_nil, or_false] at hp
    rcases hp with rfl | rfl <;> exact ⟨_, rfl⟩
  few := by decide
  host := by decide +kernel
  oneHost := by decide +kernel

/-- C109: a request for `/b` in two reads among other connections, one of which sends nothing that parses; the second route answers. -/
example : ∃ p, (Server.exec wireEnv (.run [answering wireEnv (fun r => r.url.path == "/a") fun _ _ => initIndex,
      answering wireEnv (fun r => r.url.path == "/b") fun _ (st : Nat) => ⟨[("X-State", toString st)], Body.fromString "hello", 201, "made"⟩])
    ⟨7, []⟩ [.accept [.data [1, 2, 3], .fail] ⟨[], some 3⟩, .runs 0, .acceptFails,
      .accept [.data ((headBytes "GET" "/b" [("Host", strBytes "a"), ("Content-Length", strBytes "10")]).take 5),
        .data ((headBytes "GET" "/b" [("Host", strBytes "a"), ("Content-Length", strBytes "10")]).drop 5 ++ [0])] ⟨[], none⟩, .runs 1]).procs[1]? =
      some p ∧ p.ended = some (.ok ()) ∧
      ∃ fields, readResponse p.sink.out = some ⟨201, strBytes "made", fields, strBytes "hello"⟩ ∧
        fields.Perm [(strBytes "X-State", trim (strBytes "7"))] := by
  have ht : Target (strBytes "/b") ∧ strBytes "/" <+: strBytes "/b" := ⟨⟨by decide +kernel, by decide +kernel⟩, by decide +kernel⟩
  obtain ⟨req, p, h1, h2, h3, h4, h5, h6, -⟩ := C109_exchange (σ := Nat) wireEnv (fun _ => .refl _) hpReq_contract
    [answering wireEnv (fun r => r.url.path == "/a") fun _ _ => initIndex,
      answering wireEnv (fun r => r.url.path == "/b") fun _ (st : Nat) => ⟨[("X-State", toString st)], Body.fromString "hello", 201, "made"⟩]
    _ (Or.inr rfl) 7
    [.accept [.data [1, 2, 3], .fail] ⟨[], some 3⟩, .runs 0, .acceptFails,
      .accept [.data ((headBytes "GET" "/b" [("Host", strBytes "a"), ("Content-Length", strBytes "10")]).take 5),
        .data ((headBytes "GET" "/b" [("Host", strBytes "a"), ("Content-Length", strBytes "10")]).drop 5 ++ [0])] ⟨[], none⟩, .runs 1] 1
    "GET" "/b" _ "Host" "a" (wire_head "/b" ht "GET" ⟨by decide +kernel, by decide +kernel⟩) ⟨"http://a", "/b", none⟩ (by decide +kernel)
    [0] _ ((Raw.WF.nil.cons (by simp)).cons (by decide +kernel)) (by simp [Raw.avail]; rw [← List.append_assoc, List.take_append_drop])
    rfl ⟨[_, _, _, _], [], rfl, by simp [acceptedConns]⟩
  refine ⟨p, h1, ?_⟩
  have hb : (Body.fromString "hello").avail = strBytes "hello" := fromString_avail _
  obtain ⟨a1, fields, a2, a3⟩ := h6 [answering wireEnv (fun r => r.url.path == "/a") fun _ _ => initIndex] (fun r => r.url.path == "/b")
    (fun _ st => ⟨[("X-State", toString st)], Body.fromString "hello", 201, "made"⟩) [] rfl (by
      intro r hr
      simp only [List.mem_singleton] at hr
      subst hr
      simp only [answering, h3]; decide) (by simp only [h3]; decide) (by simp [Headers.Distinct]) ⟨trivial, by simp [Body.fromString]⟩
    (fromString_ok _) ⟨by decide, by decide, by decide +kernel, by
      intro q hq
      simp only [List.mem_singleton] at hq
      subst hq
      exact ⟨⟨by decide +kernel, by decide +kernel⟩, by decide +kernel⟩⟩
  exact ⟨a1, fields, by rw [a2, hb], a3⟩

/-- C110: a submission in two reads, half a request, the form's page, then a read. -/
example (sched : Nat → Nat) : (listConns wireEnv sched []
    ([[.data ((headBytes "POST" "/submit" [("Host", strBytes "a"), ("Content-Length", strBytes "10")]).take 7),
       .data ((headBytes "POST" "/submit" [("Host", strBytes "a"), ("Content-Length", strBytes "10")]).drop 7 ++ strBytes "message=hi")],
      [.data (strBytes "GET /")],
      [.data (headBytes "GET" "/submit" [("Host", strBytes "a"), ("Content-Length", strBytes "10")])]] ++
      [.data (headBytes "GET" "/read/3" [("Host", strBytes "a"), ("Content-Length", strBytes "10")])] :: [])).1[3]? =
    some (some (.messages ["hi"])) := by
  have tok : Token (strBytes "GET") ∧ Token (strBytes "POST") := ⟨⟨by decide +kernel, by decide +kernel⟩, by decide +kernel, by decide +kernel⟩
  have ts : Target (strBytes "/submit") ∧ strBytes "/" <+: strBytes "/submit" := ⟨⟨by decide +kernel, by decide +kernel⟩, by decide +kernel⟩
  have tr : Target (strBytes "/read/3") ∧ strBytes "/" <+: strBytes "/read/3" := ⟨⟨by decide +kernel, by decide +kernel⟩, by decide +kernel⟩
  have hs : WireSubmitted wireEnv
      [[.data ((headBytes "POST" "/submit" [("Host", strBytes "a"), ("Content-Length", strBytes "10")]).take 7),
       .data ((headBytes "POST" "/submit" [("Host", strBytes "a"), ("Content-Length", strBytes "10")]).drop 7 ++ strBytes "message=hi")],
      [.data (strBytes "GET /")],
      [.data (headBytes "GET" "/submit" [("Host", strBytes "a"), ("Content-Length", strBytes "10")])]] ["hi"] := by
    refine .post ⟨(Raw.WF.nil.cons (by decide +kernel)).cons (by decide +kernel), by simp [Raw.Clean], "POST", "/submit", _, "Host", "a",
      ⟨"http://a", "/submit", none⟩, wire_head _ ts _ tok.2, by decide +kernel, by decide +kernel, rfl, ?_, ?_⟩ (.other ⟨Raw.WF.nil.cons (by decide +kernel), Or.inl ?_⟩
        (.other ⟨Raw.WF.nil.cons (by decide +kernel), Or.inr ⟨"GET", "/submit", _, "Host", "a", ⟨"http://a", "/submit", none⟩, [],
          wire_head _ ts _ tok.1, by decide +kernel, Or.inl (by decide +kernel), by simp [Raw.avail]⟩⟩ .nil))
    · simp only [Raw.avail, List.append_nil]
      rw [← List.append_assoc, List.take_append_drop]
      rfl
    · intro p hp hl
      simp only [List.mem_cons, List.not_mem_nil, or_false] at hp
      rcases hp with rfl | rfl
      · exact absurd hl (by decide +kernel)
      · refine ⟨"10", by decide +kernel, ?_, by decide +kernel, by decide +kernel⟩
        have e1 : (strBytes ("message=" ++ "hi")).length = Decimal.value (strBytes "10") := by decide +kernel
        rw [e1]
        exact .plain ⟨by decide +kernel, by decide +kernel⟩
    · exact noBlank_of_check (by decide +kernel)
  have := C110_read_over_bytes wireEnv (fun _ => .refl _) hpReq_contract (by decide) sched _ [] ["hi"] hs
    [.data (headBytes "GET" "/read/3" [("Host", strBytes "a"), ("Content-Length", strBytes "10")])] (Raw.WF.nil.cons (by decide +kernel))
    "GET" "/read/3" _ "Host" "a" ⟨"http://a", "/read/3", none⟩ [] (wire_head _ tr _ tok.1) (by decide +kernel) 3 "3" (by decide +kernel)
    (by
      have : (3 : Nat) = Decimal.value (strBytes "3") := by decide +kernel
      rw [this]
      exact .plain ⟨by decide +kernel, by decide +kernel⟩) (by decide) (by simp [Raw.avail])
  simpa using this

end Puck
