import Verif.Props.Exchange
/-!
# What HTTP/1.1 asks of a server beyond one exchange (C134 - C137)
-/
namespace Puck
open Http

/-- The bytes of a response on the wire. -/
def Response.wire (env : HttpEnv) (r : Response) : Bytes := (r.encode env ⟨[], none⟩).2.2.out

/-- A response the application may send: distinct header names, a body that can be read, a three-digit status, names and values the grammar
allows. -/
structure Response.Sendable (r : Response) : Prop where
  distinct : r.headers.Distinct
  wf : r.body.WF
  readable : ¬ r.body.Fails
  formed : r.WellFormed

theorem Response.Sendable.wire_ne {r : Response} (h : r.Sendable) (env : HttpEnv) (henv : env.Valid) : r.wire env ≠ [] := by
  obtain ⟨hs, -, -, h3⟩ := C39_deterministic r h.distinct h.wf
  rw [Response.wire, (h3 env henv ⟨[], none⟩).1]
  simp [Sink.writeAll, wireBytes, Http.head, statusLine]

/-! ## C134 -/

/-- **C134, exactly.** In any history of the server: a client that sends a request and after it anything at all (a body, further requests) on
the same connection is sent the response that the first matching handler returns for the first request, and not one byte more. -/
theorem C134_first_only_partial {σ : Type} (env : HttpEnv) (henv : env.Valid) (hp : RequestContract env.httparse) (routes : List (Route σ))
    (mode : Serve σ) (hm : mode = .serveRouter routes ∨ mode = .run routes) (st : σ) (es : List ServeEvent) (k : Nat)
    (method t : String) (fs : List (String × Bytes)) (hostName host : String) (hg : GoodHead method t fs hostName host)
    (u : Url) (hu : env.parseUrl ("http://" ++ host ++ t) = some u) (after : Bytes) (raw : Raw) (hw : raw.WF)
    (hav : raw.avail = headBytes method t fs ++ after) (hk : (acceptedConns es)[k]? = some (raw, ⟨[], none⟩)) (hs : Scheduled es k) :
    ∃ req p, (Server.exec env mode ⟨st, []⟩ es).procs[k]? = some p ∧
      req.method = Method.newFromStr method ∧ req.url = u ∧ (∀ n, (req.headers.get n).map strBytes = lastValue fs n) ∧
      ∀ pre matcher f post, routes = pre ++ answering env matcher f :: post → (∀ r ∈ pre, r.matcher req = false) → matcher req = true →
        (f req st).Sendable → p.ended = some (.ok ()) ∧ p.sink.out = (f req st).wire env := by
  obtain ⟨req, h1, h2, h3, h4⟩ := request_of_head env henv hp hg hu raw hw after hav
  obtain ⟨p, p1, p2, p3⟩ := exchange env routes mode hm st es k raw _ hk hs req h1
  obtain ⟨c1, -, -⟩ := C50_first_match routes req st ⟨[], none⟩
  refine ⟨req, p, p1, h3, h2, h4, fun pre matcher f post hr hpre hmt hok => ?_⟩
  have hc := c1 pre (answering env matcher f) post hr hpre hmt
  obtain ⟨e1, -⟩ := C40_client_reads_back (f req st) hok.distinct hok.wf hok.readable hok.formed env henv
  rw [hc] at p2 p3
  simp only [answering, respondUnwrap_ok env _ _ e1] at p2 p3
  exact ⟨p2, by rw [p3]; rfl⟩

/-- **C134 is false**: a client that sends two complete requests on one connection is never sent two responses: what it is sent is not a
response followed by another one of which the first is the answer to its first request, whatever the second might be. -/
theorem C134_persistent_refuted {σ : Type} (env : HttpEnv) (henv : env.Valid) (hp : RequestContract env.httparse) (routes : List (Route σ))
    (mode : Serve σ) (hm : mode = .serveRouter routes ∨ mode = .run routes) (st : σ) (es : List ServeEvent) (k : Nat)
    (method t : String) (fs : List (String × Bytes)) (hostName host : String) (hg : GoodHead method t fs hostName host)
    (u : Url) (hu : env.parseUrl ("http://" ++ host ++ t) = some u)
    (method₂ t₂ : String) (fs₂ : List (String × Bytes)) (hostName₂ host₂ : String) (_hg₂ : GoodHead method₂ t₂ fs₂ hostName₂ host₂)
    (raw : Raw) (hw : raw.WF) (hav : raw.avail = headBytes method t fs ++ headBytes method₂ t₂ fs₂)
    (hk : (acceptedConns es)[k]? = some (raw, ⟨[], none⟩)) (hs : Scheduled es k) :
    ∃ req p, (Server.exec env mode ⟨st, []⟩ es).procs[k]? = some p ∧
      req.method = Method.newFromStr method ∧ req.url = u ∧ (∀ n, (req.headers.get n).map strBytes = lastValue fs n) ∧
      ∀ pre matcher f post, routes = pre ++ answering env matcher f :: post → (∀ r ∈ pre, r.matcher req = false) → matcher req = true →
        (f req st).Sendable → p.ended ≠ none ∧ ∀ second : Response, second.Sendable → p.sink.out ≠ (f req st).wire env ++ second.wire env := by
  obtain ⟨req, p, h1, h2, h3, h4, h5⟩ := C134_first_only_partial env henv hp routes mode hm st es k method t fs hostName host hg u hu _ raw hw hav hk hs
  refine ⟨req, p, h1, h2, h3, h4, fun pre matcher f post hr hpre hmt hok => ?_⟩
  obtain ⟨a1, a2⟩ := h5 pre matcher f post hr hpre hmt hok
  refine ⟨by rw [a1]; simp, fun second h2 he => ?_⟩
  rw [a2] at he
  have : second.wire env = [] := by
    have := congrArg List.length he
    simp only [List.length_append] at this
    exact List.eq_nil_of_length_eq_zero (by omega)
  exact h2.wire_ne env henv this

/-! ## C135 -/

/-- **C135, exactly.** The body of the answer to a HEAD request is the body of the handler's response: it has none iff the handler gave none.
(The handler sees the method as `OtherMethod("HEAD")`, never as `Method::Head`.) -/
theorem C135_exact_partial {σ : Type} (env : HttpEnv) (henv : env.Valid) (hp : RequestContract env.httparse) (routes : List (Route σ))
    (mode : Serve σ) (hm : mode = .serveRouter routes ∨ mode = .run routes) (st : σ) (es : List ServeEvent) (k : Nat)
    (t : String) (fs : List (String × Bytes)) (hostName host : String) (hg : GoodHead "HEAD" t fs hostName host)
    (u : Url) (hu : env.parseUrl ("http://" ++ host ++ t) = some u) (after : Bytes) (raw : Raw) (hw : raw.WF)
    (hav : raw.avail = headBytes "HEAD" t fs ++ after) (hk : (acceptedConns es)[k]? = some (raw, ⟨[], none⟩)) (hs : Scheduled es k) :
    ∃ req p, (Server.exec env mode ⟨st, []⟩ es).procs[k]? = some p ∧ req.method = .other "HEAD" ∧ req.url = u ∧
      ∀ pre matcher f post, routes = pre ++ answering env matcher f :: post → (∀ r ∈ pre, r.matcher req = false) → matcher req = true →
        (f req st).Sendable → ∃ m, readResponse p.sink.out = some m ∧ m.code = (f req st).status ∧
          (m.rest = [] ↔ (f req st).body.avail = []) := by
  obtain ⟨req, p, h1, h2, h3, -, h5⟩ := C134_first_only_partial env henv hp routes mode hm st es k "HEAD" t fs hostName host hg u hu _ raw hw hav hk hs
  refine ⟨req, p, h1, by rw [h2]; decide +kernel, h3, fun pre matcher f post hr hpre hmt hok => ?_⟩
  obtain ⟨-, a2⟩ := h5 pre matcher f post hr hpre hmt hok
  obtain ⟨-, fields, e2, -⟩ := C40_client_reads_back (f req st) hok.distinct hok.wf hok.readable hok.formed env henv
  exact ⟨_, by rw [a2]; exact e2, rfl, Iff.rfl⟩

/-- The routes of an application that, like the examples, chooses the handler by the URL and answers by the URL and its state. -/
def urlRoutes {σ : Type} (env : HttpEnv) (app : List ((Url → Bool) × (Url → σ → Response))) : List (Route σ) :=
  app.map fun a => answering env (fun req => a.1 req.url) fun req st => a.2 req.url st

/-- **C135 is false**: an application that chooses handlers with `Match` (so by the URL) and whose handlers do not look at the method sends
the same bytes, body included, to a client that asks with HEAD as to one that asks with GET - or with any other method. -/
theorem C135_head_refuted {σ : Type} (env : HttpEnv) (henv : env.Valid) (hp : RequestContract env.httparse)
    (app : List ((Url → Bool) × (Url → σ → Response))) (mode : Serve σ)
    (hm : mode = .serveRouter (urlRoutes env app) ∨ mode = .run (urlRoutes env app)) (st : σ) (es : List ServeEvent) (k k' : Nat)
    (method t : String) (fs : List (String × Bytes)) (hostName host : String) (hg : GoodHead "HEAD" t fs hostName host)
    (hg' : GoodHead method t fs hostName host) (u : Url) (hu : env.parseUrl ("http://" ++ host ++ t) = some u) (raw raw' : Raw) (hw : raw.WF)
    (hw' : raw'.WF) (hav : raw.avail = headBytes "HEAD" t fs) (hav' : raw'.avail = headBytes method t fs)
    (hk : (acceptedConns es)[k]? = some (raw, ⟨[], none⟩)) (hk' : (acceptedConns es)[k']? = some (raw', ⟨[], none⟩)) (hs : Scheduled es k)
    (hs' : Scheduled es k') :
    ∃ p p', (Server.exec env mode ⟨st, []⟩ es).procs[k]? = some p ∧ (Server.exec env mode ⟨st, []⟩ es).procs[k']? = some p' ∧
      p.sink.out = p'.sink.out ∧
      ∀ pre matcher f post, app = pre ++ (matcher, f) :: post → (∀ a ∈ pre, a.1 u = false) → matcher u = true → (f u st).Sendable →
        ∃ m, readResponse p.sink.out = some m ∧ m.rest = (f u st).body.avail := by
  obtain ⟨req, h1, h2, -, -⟩ := request_of_head env henv hp hg hu raw hw [] (by rw [hav, List.append_nil])
  obtain ⟨req', h1', h2', -, -⟩ := request_of_head env henv hp hg' hu raw' hw' [] (by rw [hav', List.append_nil])
  obtain ⟨p, p1, p2, p3⟩ := exchange env _ mode hm st es k raw _ hk hs req h1
  obtain ⟨p', p1', p2', p3'⟩ := exchange env _ mode hm st es k' raw' _ hk' hs' req' h1'
  refine ⟨p, p', p1, p1', ?_, fun pre matcher f post hr hpre hmt hok => ?_⟩
  · have : ∀ app : List ((Url → Bool) × (Url → σ → Response)),
        Router.respond (urlRoutes env app) req st ⟨[], none⟩ = Router.respond (urlRoutes env app) req' st ⟨[], none⟩ := by
      intro app
      induction app with
      | nil => rfl
      | cons a app ih =>
        simp only [urlRoutes, List.map_cons, Router.respond, answering, h2, h2'] at ih ⊢
        rw [ih]
    rw [p3, p3', this]
  · obtain ⟨c1, -, -⟩ := C50_first_match (urlRoutes env app) req st ⟨[], none⟩
    have hc := c1 (urlRoutes env pre) (answering env (fun req => matcher req.url) fun req st => f req.url st) (urlRoutes env post)
      (by simp [urlRoutes, hr]) (by
        intro r hr
        obtain ⟨a, ha, rfl⟩ := List.mem_map.1 hr
        simp only [answering, h2]
        exact hpre a ha) (by simp only [answering, h2]; exact hmt)
    obtain ⟨e1, fields, e2, -⟩ := C40_client_reads_back (f u st) hok.distinct hok.wf hok.readable hok.formed env henv
    rw [hc] at p3
    simp only [answering, h2, respondUnwrap_ok env _ _ e1] at p3
    exact ⟨_, by rw [p3]; exact e2, rfl⟩

/-! ## C136 -/

/-- The headers an application adds to a response, in order. -/
def added (ops : List ResOp) : List (String × String) := (ops.map ResOp.sets).flatten

theorem Headers.mem_of_get {h : Headers} {k v : String} (hg : h.get k = some v) : (k, v) ∈ h := by
  unfold Headers.get at hg
  cases hf : h.find? (fun p => p.1 == k) with
  | none => rw [hf] at hg; cases hg
  | some q =>
    rw [hf] at hg
    have hq := List.find?_some hf
    have hm := List.mem_of_find?_eq_some hf
    simp only [Option.map_some, Option.some.injEq] at hg
    simp only [beq_iff_eq] at hq
    subst hg; subst hq
    exact hm

theorem Headers.get_of_mem {h : Headers} (hd : h.Distinct) {k v : String} (hm : (k, v) ∈ h) : h.get k = some v := by
  unfold Headers.get
  induction h with
  | nil => cases hm
  | cons a h ih =>
    simp only [Headers.Distinct, List.map_cons, List.nodup_cons] at hd
    rw [List.find?_cons]
    rcases List.mem_cons.1 hm with rfl | hm
    · simp
    · have : ¬ a.1 = k := by
        rintro rfl
        exact hd.1 (List.mem_map_of_mem (f := (·.1)) hm)
      simp only [beq_eq_false_iff_ne.2 this]
      exact ih hd.2 hm

/-- **C136, exactly.** A client is sent, for every header name the application added, one field, with the value added last for that name
(white space around it aside); and no other field. -/
theorem C136_exact_partial (env : HttpEnv) (henv : env.Valid) (ops : List ResOp)
    (hok : ((ops.foldl ResponseBuilder.step ResponseBuilder.new).build).Sendable) :
    ∃ m, readResponse (((ops.foldl ResponseBuilder.step ResponseBuilder.new).build).wire env) = some m ∧
      (∀ name value, (name, value) ∈ m.fields ↔ ∃ k v, lastSet (added ops) k = some v ∧ name = strBytes k ∧ value = trim (strBytes v)) ∧
      (m.fields.map (·.1)).Nodup := by
  obtain ⟨c1, c2, -, -⟩ := C44_response_builder ops
  obtain ⟨-, fields, e2, e3⟩ := C40_client_reads_back _ hok.distinct hok.wf hok.readable hok.formed env henv
  refine ⟨_, e2, fun name value => ?_, ?_⟩
  · rw [e3.mem_iff]
    simp only [List.mem_map, Prod.mk.injEq]
    constructor
    · rintro ⟨⟨k, v⟩, hm, rfl, rfl⟩
      exact ⟨k, v, by rw [added, ← c2 k]; exact Headers.get_of_mem c1 hm, rfl, rfl⟩
    · rintro ⟨k, v, hl, rfl, rfl⟩
      rw [added, ← c2 k] at hl
      exact ⟨(k, v), Headers.mem_of_get hl, rfl, rfl⟩
  · have := (e3.map (·.1)).nodup_iff.2 (by
      rw [List.map_map]
      have hd := hok.distinct
      unfold Headers.Distinct at hd
      show (List.map (strBytes ∘ fun p : String × String => p.1) _).Nodup
      rw [← List.map_map]
      exact List.Pairwise.map strBytes (fun a b (hab : a ≠ b) h => hab (strBytes_inj.1 h)) hd)
    exact this

/-- **C136 is false**: of two cookies, one is sent. -/
theorem C136_repeated_refuted (env : HttpEnv) (henv : env.Valid) :
    ∃ m, readResponse (((([.header "Set-Cookie" "a=1", .header "Set-Cookie" "b=2"] : List ResOp).foldl
        ResponseBuilder.step ResponseBuilder.new).build).wire env) = some m ∧
      (strBytes "Set-Cookie", strBytes "b=2") ∈ m.fields ∧ (strBytes "Set-Cookie", strBytes "a=1") ∉ m.fields := by
  have hb : ((([.header "Set-Cookie" "a=1", .header "Set-Cookie" "b=2"] : List ResOp).foldl
      ResponseBuilder.step ResponseBuilder.new).build).headers = [("Set-Cookie", "b=2")] := by decide +kernel
  obtain ⟨m, h1, h2, -⟩ := C136_exact_partial env henv [.header "Set-Cookie" "a=1", .header "Set-Cookie" "b=2"] ⟨by rw [hb]; simp [Headers.Distinct],
    ⟨trivial, by simp [ResponseBuilder.step, ResponseBuilder.build, ResponseBuilder.header, ResponseBuilder.new, Body.empty]⟩, (fun h => h.1 (by
      simp [ResponseBuilder.step, ResponseBuilder.build, ResponseBuilder.header, ResponseBuilder.new, Body.empty, Src.Clean])),
    by decide +kernel, by decide +kernel, by decide +kernel, by
      rw [hb]
      intro p hp
      simp only [List.mem_singleton] at hp
      subst hp
      exact ⟨⟨by decide +kernel, by decide +kernel⟩, by decide +kernel⟩⟩
  refine ⟨m, h1, (h2 _ _).2 ⟨"Set-Cookie", "b=2", by decide +kernel, rfl, by decide +kernel⟩, fun h => ?_⟩
  obtain ⟨k, v, a1, a2, a3⟩ := (h2 _ _).1 h
  have := strBytes_inj.1 a2
  subst this
  have : lastSet (added [.header "Set-Cookie" "a=1", .header "Set-Cookie" "b=2"]) "Set-Cookie" = some "b=2" := by decide +kernel
  rw [this] at a1
  cases a1
  revert a3
  decide +kernel

/-! ## C137 -/

theorem Buf.untilStep_ahead {cap : Nat} (hc : 0 < cap) {d : UInt8} {r r' : Buf} {o : Option (Bytes × Bool)} (h : Buf.untilStep cap d r = (o, r'))
    (hr : r.buf.length ≤ cap) : r'.buf.length < cap := by
  have key : ∀ x (r1 : Buf), r.fillBuf cap = (some x, r1) → x.length ≤ cap := by
    intro x r1 hf
    unfold Buf.fillBuf at hf
    split at hf
    · split at hf
      · cases hf
      · rename_i b raw hb
        simp only [Prod.mk.injEq, Option.some.injEq] at hf
        rw [← hf.1]
        unfold Raw.read at hb
        split at hb
        · simp only [Prod.mk.injEq, Option.some.injEq] at hb
          rw [← hb.1]; simp
        · cases hb
        · split at hb
          · simp only [Prod.mk.injEq, Option.some.injEq] at hb
            rw [← hb.1]; assumption
          · simp only [Prod.mk.injEq, Option.some.injEq] at hb
            rw [← hb.1]; simp; omega
    · simp only [Prod.mk.injEq, Option.some.injEq] at hf
      rw [← hf.1]; exact hr
  unfold Buf.untilStep at h
  split at h
  · rename_i r1 hf
    simp only [Prod.mk.injEq] at h
    rw [← h.2]
    unfold Buf.fillBuf at hf
    split at hf
    · split at hf
      · simp only [Prod.mk.injEq, true_and] at hf
        rw [← hf]; simpa using hc
      · cases hf
    · cases hf
  · rename_i b r1 hf
    have := key b r1 hf
    split at h <;> (simp only [Prod.mk.injEq] at h; rw [← h.2]; simp; omega)

theorem Buf.readUntil_ahead {cap : Nat} (hc : 0 < cap) {d : UInt8} {acc : Bytes} {r r' : Buf} {o : Option Bytes}
    (h : r.readUntil cap d acc = (o, r')) (hr : r.buf.length ≤ cap) : r'.buf.length < cap := by
  fun_induction Buf.readUntil cap d acc r with
  | case1 acc r r1 hs => simp only [Prod.mk.injEq] at h; rw [← h.2]; exact Buf.untilStep_ahead hc hs hr
  | case2 acc r f r1 hs => simp only [Prod.mk.injEq] at h; rw [← h.2]; exact Buf.untilStep_ahead hc hs hr
  | case3 acc r x r1 hx hs => simp only [Prod.mk.injEq] at h; rw [← h.2]; exact Buf.untilStep_ahead hc hs hr
  | case4 acc r x f r1 hs hx hf ih => exact ih h (Nat.le_of_lt (Buf.untilStep_ahead hc hs hr))

theorem headLoop_ahead {cap : Nat} (hc : 0 < cap) {acc : Bytes} {r r' : Buf} {o : Option (Option Bytes)}
    (h : headLoop cap acc r = (o, r')) (hr : r.buf.length ≤ cap) : r'.buf.length < cap := by
  fun_induction headLoop cap acc r with
  | case1 acc r r1 hs => simp only [Prod.mk.injEq] at h; rw [← h.2]; exact Buf.readUntil_ahead hc hs hr
  | case2 acc r r1 hs => simp only [Prod.mk.injEq] at h; rw [← h.2]; exact Buf.readUntil_ahead hc hs hr
  | case3 acc r b r1 hs hb he => simp only [Prod.mk.injEq] at h; rw [← h.2]; exact Buf.readUntil_ahead hc hs hr
  | case4 acc r b r1 hs hb he ih => exact ih h (Nat.le_of_lt (Buf.readUntil_ahead hc hs hr))

/-- **C137, the part that holds.** When a request is given to a handler, what the server has taken from the connection is the request's head
and less than 10000 bytes more, however much the client has sent and in whatever reads; the rest is still in the connection. -/
theorem C137_read_ahead_partial (env : HttpEnv) (raw : Raw) (hw : raw.WF) (req : Request) (h : Request.parse env raw = .ok (some req)) :
    ∃ head ahead, FirstBlank raw.avail head (ahead ++ req.socketInput.avail) ∧ ahead.length < 10000 := by
  obtain ⟨head, after, hf⟩ := (C32_incomplete_head env raw hw).2.2 req h
  obtain ⟨r, h1, h2, -, -⟩ := headLoop_found (r := ⟨[], raw⟩) requestCap_pos hw hf
  simp only [Request.parse, h1] at h
  have ha := headLoop_ahead requestCap_pos h1 (by simp)
  cases ho : Request.ofHead env head r with
  | error e => rw [ho] at h; cases h
  | ok q =>
    rw [ho] at h
    have : q = req := by simpa [Except.map] using h
    subst this
    have hb := (ofHead_body ho).1
    refine ⟨head, r.buf, ?_, ha⟩
    simp only [Request.socketInput, hb]
    have : r.buf ++ r.raw.avail = after := h2
    rw [this]
    exact hf

/-- **C137 is false**: a client can make the server hold as much as it likes.  For every `n`, one header with a value of `n` bytes is accepted,
read completely before any handler runs, and kept with the request; and one WebSocket message of `n` bytes (as many as a vector can have) is
read completely before the application gets it. -/
theorem C137_unbounded_refuted (env : HttpEnv) (henv : env.Valid) (hp : RequestContract env.httparse) (u : Url)
    (hu : env.parseUrl "http://a/" = some u) (n : Nat) :
    (∃ raw req v, Request.parse env raw = .ok (some req) ∧ req.headers.get "X" = some v ∧ (strBytes v).length = n) ∧
    (n ≤ isizeMax env.W → n < 2 ^ 64 → ∃ raw b, Message.next env.W raw = (.ok (.binary b), []) ∧ b.length = n) := by
  constructor
  · have hv : strBytes (String.ofList (List.replicate n 'a')) = List.replicate n 97 := by
      rw [strBytes]
      induction n with
      | zero => decide +kernel
      | succ n ih =>
        rw [List.replicate_succ, List.replicate_succ, ← ih]
        have : String.ofList ('a' :: List.replicate n 'a') = "a" ++ String.ofList (List.replicate n 'a') := by
          apply String.toList_injective; simp
        rw [this]
        exact strBytes_append "a" _
    have hg : GoodHead "GET" "/" [("Host", strBytes "a"), ("X", List.replicate n 97)] "Host" "a" := by
      refine ⟨⟨by decide +kernel, by decide +kernel⟩, ⟨⟨by decide +kernel, by decide +kernel⟩, by decide +kernel⟩, ?_, ?_, by simp, ⟨?_, by decide +kernel⟩, ?_⟩
      · intro p hp
        simp only [List.mem_cons, List.not_mem_nil, or_false] at hp
        rcases hp with rfl | rfl
        · exact ⟨⟨by decide +kernel, by decide +kernel⟩, by unfold Text; decide +kernel, by unfold Trimmed; decide +kernel⟩
        · refine ⟨(⟨by decide +kernel, by decide +kernel⟩ : Token (strBytes "X")), fun c hc => ?_, fun c hc => ?_, fun c hc => ?_⟩
          · rw [(List.mem_replicate.1 hc).2]; decide
          · rw [(List.mem_replicate.1 (List.mem_of_head? hc)).2]; decide
          · rw [(List.mem_replicate.1 (List.mem_of_getLast? hc)).2]; decide
      · intro p hp
        simp only [List.mem_cons, List.not_mem_nil, or_false] at hp
        rcases hp with rfl | rfl
        · exact ⟨_, rfl⟩
        · exact ⟨_, hv.symm⟩
      · simp [lastValue]
      · intro p hp
        simp only [List.mem_cons, List.not_mem_nil, or_false] at hp
        rcases hp with rfl | rfl
        · intro; rfl
        · exact fun h => absurd h (show ¬ Ascii.lowered "X" = strBytes "host" by decide +kernel)
    obtain ⟨req, h1, -, -, h4⟩ := request_of_head env henv hp hg (by exact hu)
      [.data (headBytes "GET" "/" [("Host", strBytes "a"), ("X", List.replicate n 97)])]
      (Raw.WF.nil.cons (by simp [headBytes, Http.head, requestLine])) [] (by simp [Raw.avail])
    have h5 := h4 "X"
    have : lastValue [("Host", strBytes "a"), ("X", List.replicate n (97 : UInt8))] "X" = some (List.replicate n 97) := by
      simp [lastValue]
    rw [this] at h5
    cases hx : req.headers.get "X" with
    | none => rw [hx] at h5; cases h5
    | some v =>
      rw [hx] at h5
      simp only [Option.map_some, Option.some.injEq] at h5
      exact ⟨_, req, v, h1, hx, by rw [h5]; simp⟩
  · intro hn hn64
    have hok := ok_single (W := env.W) ⟨true, false, false, false, 2, (1, 2, 3, 4), List.replicate n 0, .long⟩
      ⟨show 2 < 16 by decide, by simpa [Rfc6455.Form.Carries] using hn64⟩ (by simpa using hn)
    have := C17_client_message env.W (.binary (List.replicate n 0)) _ [] hok rfl rfl rfl
    exact ⟨_, _, this, by simp⟩

/-! ## non-vacuity -/

theorem sendable_hello : Response.Sendable ⟨[("X-A", "7")], Body.fromString "hello", 201, "made"⟩ :=
  ⟨by simp [Headers.Distinct], ⟨trivial, by simp [Body.fromString]⟩, fromString_ok _, by decide, by decide, by decide +kernel, by
    intro q hq
    simp only [List.mem_singleton] at hq
    subst hq
    exact ⟨⟨by decide +kernel, by decide +kernel⟩, by decide +kernel⟩⟩

/-- C134: two requests in one read on one connection (another connection fails in between): one answer. -/
example : ∃ p, (Server.exec wireEnv (.run [answering wireEnv (fun r => r.url.path == "/b") fun _ (_ : Nat) => ⟨[("X-A", "7")], Body.fromString "hello", 201, "made"⟩])
    ⟨7, []⟩ [.accept [.data [1, 2, 3], .fail] ⟨[], some 3⟩, .runs 0,
      .accept [.data (headBytes "GET" "/b" [("Host", strBytes "a"), ("Content-Length", strBytes "10")] ++
        headBytes "GET" "/b" [("Host", strBytes "a"), ("Content-Length", strBytes "10")])] ⟨[], none⟩, .runs 1]).procs[1]? = some p ∧
      ∀ second : Response, second.Sendable →
        p.sink.out ≠ Response.wire wireEnv ⟨[("X-A", "7")], Body.fromString "hello", 201, "made"⟩ ++ second.wire wireEnv := by
  have ht : Target (strBytes "/b") ∧ strBytes "/" <+: strBytes "/b" := ⟨⟨by decide +kernel, by decide +kernel⟩, by decide +kernel⟩
  have hg := wire_head "/b" ht "GET" ⟨by decide +kernel, by decide +kernel⟩
  obtain ⟨req, p, h1, -, h3, -, h5⟩ := C134_persistent_refuted (σ := Nat) wireEnv (fun _ => .refl _) hpReq_contract
    [answering wireEnv (fun r => r.url.path == "/b") fun _ (_ : Nat) => ⟨[("X-A", "7")], Body.fromString "hello", 201, "made"⟩] _ (Or.inr rfl) 7
    [.accept [.data [1, 2, 3], .fail] ⟨[], some 3⟩, .runs 0,
      .accept [.data (headBytes "GET" "/b" [("Host", strBytes "a"), ("Content-Length", strBytes "10")] ++
        headBytes "GET" "/b" [("Host", strBytes "a"), ("Content-Length", strBytes "10")])] ⟨[], none⟩, .runs 1] 1
    "GET" "/b" _ "Host" "a" hg ⟨"http://a", "/b", none⟩ (by decide +kernel) "GET" "/b" _ "Host" "a" hg _
    (Raw.WF.nil.cons (by decide +kernel)) (by simp [Raw.avail]) rfl ⟨[_, _, _], [], rfl, by simp [acceptedConns]⟩
  exact ⟨p, h1, (h5 [] _ _ [] rfl (by simp) (by simp only [h3]; decide) sendable_hello).2⟩

/-- C135: the answer to a HEAD request has the body "hello". -/
example : ∃ p m, (Server.exec wireEnv (.run (urlRoutes wireEnv [(fun u => u.path == "/b", fun _ (_ : Nat) => ⟨[("X-A", "7")], Body.fromString "hello", 201, "made"⟩)]))
    ⟨7, []⟩ [.accept [.data (headBytes "HEAD" "/b" [("Host", strBytes "a"), ("Content-Length", strBytes "10")])] ⟨[], none⟩,
      .accept [.data (headBytes "GET" "/b" [("Host", strBytes "a"), ("Content-Length", strBytes "10")])] ⟨[], none⟩, .runs 1, .runs 0]).procs[0]? = some p ∧
      readResponse p.sink.out = some m ∧ m.rest = strBytes "hello" := by
  have ht : Target (strBytes "/b") ∧ strBytes "/" <+: strBytes "/b" := ⟨⟨by decide +kernel, by decide +kernel⟩, by decide +kernel⟩
  obtain ⟨p, p', h1, -, -, h5⟩ := C135_head_refuted (σ := Nat) wireEnv (fun _ => .refl _) hpReq_contract
    [(fun u => u.path == "/b", fun _ (_ : Nat) => ⟨[("X-A", "7")], Body.fromString "hello", 201, "made"⟩)] _ (Or.inr rfl) 7
    [.accept [.data (headBytes "HEAD" "/b" [("Host", strBytes "a"), ("Content-Length", strBytes "10")])] ⟨[], none⟩,
      .accept [.data (headBytes "GET" "/b" [("Host", strBytes "a"), ("Content-Length", strBytes "10")])] ⟨[], none⟩, .runs 1, .runs 0] 0 1
    "GET" "/b" _ "Host" "a" (wire_head "/b" ht "HEAD" ⟨by decide +kernel, by decide +kernel⟩) (wire_head "/b" ht "GET" ⟨by decide +kernel, by decide +kernel⟩)
    ⟨"http://a", "/b", none⟩ (by decide +kernel) _ _
    (Raw.WF.nil.cons (by decide +kernel)) (Raw.WF.nil.cons (by decide +kernel)) (by simp [Raw.avail]) (by simp [Raw.avail]) rfl rfl
    ⟨[_, _, _], [], rfl, by simp [acceptedConns]⟩ ⟨[_, _], [_], rfl, by simp [acceptedConns]⟩
  obtain ⟨m, m1, m2⟩ := h5 [] _ _ [] rfl (by simp) (by decide) sendable_hello
  exact ⟨p, m, h1, m1, by rw [m2]; exact fromString_avail _⟩

/-- C136: names that differ in case are different names for the builder, and both are sent. -/
example (env : HttpEnv) (henv : env.Valid) : ∃ m, readResponse (((([.header "Vary" "a", .header "vary" "b", .header "Vary" " c "] : List ResOp).foldl
        ResponseBuilder.step ResponseBuilder.new).build).wire env) = some m ∧
      (strBytes "Vary", strBytes "c") ∈ m.fields ∧ (strBytes "vary", strBytes "b") ∈ m.fields := by
  have hb : ((([.header "Vary" "a", .header "vary" "b", .header "Vary" " c "] : List ResOp).foldl
      ResponseBuilder.step ResponseBuilder.new).build).headers.Perm [("Vary", " c "), ("vary", "b")] := by decide +kernel
  obtain ⟨m, h1, h2, -⟩ := C136_exact_partial env henv [.header "Vary" "a", .header "vary" "b", .header "Vary" " c "]
    ⟨(C44_response_builder _).1,
    ⟨trivial, by simp [ResponseBuilder.step, ResponseBuilder.build, ResponseBuilder.header, ResponseBuilder.new, Body.empty]⟩, (fun h => h.1 (by
      simp [ResponseBuilder.step, ResponseBuilder.build, ResponseBuilder.header, ResponseBuilder.new, Body.empty, Src.Clean])),
    by decide +kernel, by decide +kernel, by decide +kernel, by
      intro p hp
      have hp := hb.mem_iff.1 hp
      simp only [List.mem_cons, List.not_mem_nil, or_false] at hp
      rcases hp with rfl | rfl <;> exact ⟨⟨by decide +kernel, by decide +kernel⟩, by decide +kernel⟩⟩
  exact ⟨m, h1, (h2 _ _).2 ⟨"Vary", " c ", by decide +kernel, rfl, by decide +kernel⟩, (h2 _ _).2 ⟨"vary", "b", by decide +kernel, rfl, by decide +kernel⟩⟩

/-- C137: the body that comes with the head is what was taken ahead. -/
example : ∃ req head ahead, Request.parse demoEnv [.data (strBytes "GET / HTTP/1.1\r\nHost: a\r\n\r\n"), .data [1, 2]] = .ok (some req) ∧
    FirstBlank (Raw.avail [.data (strBytes "GET / HTTP/1.1\r\nHost: a\r\n\r\n"), .data [1, 2]]) head (ahead ++ req.socketInput.avail) ∧ ahead.length < 10000 := by
  have hw : Raw.WF [.data (strBytes "GET / HTTP/1.1\r\nHost: a\r\n\r\n"), .data [1, 2]] := by
    intro b hb; simp at hb; rcases hb with rfl | rfl <;> decide +kernel
  obtain ⟨req, h1, -, _⟩ := C78_pipelined_refuted id _ hw (by simp [Raw.Clean]) [1, 2] (by simp [Raw.avail])
  obtain ⟨head, ahead, h⟩ := C137_read_ahead_partial demoEnv _ hw req h1
  exact ⟨req, head, ahead, h1, h⟩

end Puck
