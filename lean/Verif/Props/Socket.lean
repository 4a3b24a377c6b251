import Verif.Lemmas.Ahead
import Verif.Props.RoundTrip
import Verif.Props.Init
import Verif.Props.Fair
/-!
# From the request to the WebSocket: which bytes the socket gets (C107), a whole session (C108)
-/
namespace Puck
open Http

theorem avail_clean_append {a : Raw} (h : a.Clean) (b : Raw) : Raw.avail (a ++ b) = Raw.bytes a ++ Raw.avail b := by
  induction a with
  | nil => rfl
  | cons e a ih =>
    cases e with
    | fail => exact absurd List.mem_cons_self h
    | data x => simp [Raw.avail, Raw.bytes, ih h.tail]

/-- Where a byte string of a stream ends: in some block. -/
theorem block_of_prefix : ∀ (raw : Raw) (head after : Bytes), raw.WF → head ≠ [] → raw.avail = head ++ after →
    ∃ es kept lost rest, raw = es ++ .data (kept ++ lost) :: rest ∧ Raw.Clean es ∧ kept ≠ [] ∧ head = Raw.bytes es ++ kept ∧
      after = lost ++ Raw.avail rest
  | [], head, after, _, hh, h => by simp [Raw.avail] at h; exact absurd h.1 hh
  | .fail :: r, head, after, _, hh, h => by simp [Raw.avail] at h; exact absurd h.1 hh
  | .data b :: r, head, after, hw, hh, h => by
    simp only [Raw.avail] at h
    by_cases hl : head.length ≤ b.length
    · have hp : head <+: b := List.prefix_of_prefix_length_le ⟨after, rfl⟩ (h ▸ List.prefix_append b (Raw.avail r)) hl
      obtain ⟨lost, rfl⟩ := hp
      refine ⟨[], head, lost, r, rfl, Raw.Clean.nil, hh, by simp [Raw.bytes], ?_⟩
      rw [List.append_assoc] at h
      exact (List.append_cancel_left h).symm
    · have hp : b <+: head := List.prefix_of_prefix_length_le (List.prefix_append b (Raw.avail r)) (h ▸ List.prefix_append head after) (by omega)
      obtain ⟨hd, rfl⟩ := hp
      rw [List.append_assoc] at h
      have hd' : hd ≠ [] := by rintro rfl; simp at hl
      obtain ⟨es, kept, lost, rest, h1, h2, h3, h4, h5⟩ := block_of_prefix r hd after hw.tail hd' (List.append_cancel_left h)
      exact ⟨.data b :: es, kept, lost, rest, by rw [h1]; rfl, h2.cons, h3, by rw [h4]; simp [Raw.bytes], h5⟩

/-! ## C107 -/

theorem socket_input {env : HttpEnv} {raw : Raw} (hw : raw.WF) {es rest : Raw} {kept lost : Bytes}
    (hraw : raw = es ++ .data (kept ++ lost) :: rest) (hc : Raw.Clean es) (hk : kept ≠ [])
    (hlen : (kept ++ lost).length ≤ 10000 ∨ lost = [])
    (hf : FirstBlank raw.avail (Raw.bytes es ++ kept) (lost ++ Raw.avail rest)) {req : Request}
    (hreq : Request.parse env raw = .ok (some req)) : req.socketInput = rest := by
  obtain ⟨r, h1, _, _, _⟩ := headLoop_found (r := ⟨[], raw⟩) requestCap_pos hw hf
  simp only [Request.parse, h1] at hreq
  have ha : Ahead requestCap rest lost (Raw.bytes es ++ kept ++ lost) ⟨[], raw⟩ := by
    have hwe : Raw.WF (es ++ [.data (kept ++ lost)]) := by
      rw [hraw] at hw
      refine hw.left.append ?_
      intro b hb
      simp only [List.mem_singleton, Ev.data.injEq] at hb
      subst hb
      simp [hk]
    refine ⟨es ++ [.data (kept ++ lost)], by simp [hraw], ?_, hwe, by simp [Raw.bytes], Or.inr ⟨es, kept ++ lost, rfl, ?_, hlen⟩⟩
    · intro h
      simp only [List.mem_append, List.mem_singleton, reduceCtorEq, or_false] at h
      exact hc h
    · have := List.length_pos_iff.2 hk
      simp only [List.length_append]; omega
  have hd := (Ahead.head requestCap_pos ha (acc := []) (head := Raw.bytes es ++ kept) rfl
    (by
      have := List.length_pos_iff.2 hk
      simp only [List.length_nil, List.length_append]; omega) hf.2.1 h1).done
  cases ho : Request.ofHead env (Raw.bytes es ++ kept) r with
  | error e => rw [ho] at hreq; cases hreq
  | ok q =>
    rw [ho] at hreq
    have : q = req := by simpa [Except.map] using hreq
    subst this
    unfold Request.socketInput
    rw [(ofHead_body ho).1]
    exact hd.1

/-- **C107, exactly.** Whatever the client sends, in any reads of at most 10000 bytes: the socket that `Stream::upgrade` makes for the
request gets the reads after the one in which the request's head ended, and so not the bytes which came in that same read after the head. -/
theorem C107_exact (env : HttpEnv) (raw : Raw) (hw : raw.WF) (hb : ∀ b, Ev.data b ∈ raw → b.length ≤ 10000) (req : Request)
    (hreq : Request.parse env raw = .ok (some req)) :
    ∃ es kept lost rest, raw = es ++ .data (kept ++ lost) :: rest ∧ Raw.Clean es ∧ kept ≠ [] ∧
      FirstBlank raw.avail (Raw.bytes es ++ kept) (lost ++ Raw.avail rest) ∧ req.socketInput = rest := by
  obtain ⟨head, after, hf⟩ := (C32_incomplete_head env raw hw).2.2 req hreq
  have hh : head ≠ [] := by
    obtain ⟨p, hp⟩ := hf.2.1
    rw [← hp]; simp [blank]
  obtain ⟨es, kept, lost, rest, h1, h2, h3, h4, h5⟩ := block_of_prefix raw head after hw hh hf.1
  subst h4 h5
  exact ⟨es, kept, lost, rest, h1, h2, h3, hf, socket_input hw h1 h2 h3 (Or.inl (hb _ (by rw [h1]; simp))) hf hreq⟩

/-- **C107, what holds.** If a read of the connection ends where the request's head ends (the client waits for the server's answer, as
browsers do), then the socket gets everything that comes after the head: the same reads `b`, nothing lost and nothing added. -/
theorem C107_waiting_partial (env : HttpEnv) (a b : Raw) (hw : Raw.WF (a ++ b)) (hc : a.Clean)
    (hf : FirstBlank (Raw.avail (a ++ b)) (Raw.bytes a) (Raw.avail b)) (req : Request)
    (hreq : Request.parse env (a ++ b) = .ok (some req)) : req.socketInput = b := by
  have hne : a ≠ [] := by
    rintro rfl
    obtain ⟨p, hp⟩ := hf.2.1
    simp [blank, Raw.bytes] at hp
  obtain ⟨es, e, rfl⟩ : ∃ es e, a = es ++ [e] := ⟨a.dropLast, a.getLast hne, (List.dropLast_concat_getLast hne).symm⟩
  cases e with
  | fail => exact absurd (by simp) hc
  | data kept =>
    refine socket_input (es := es) (kept := kept) (lost := []) hw (by simp) (fun h => hc (by simp [h])) (hw kept (by simp)) (Or.inr rfl) ?_ hreq
    simpa [Raw.bytes] using hf

/-- **C107 is false** when the client does not wait: if the read that brings the end of the head brings more (`lost`: frames sent right after
the handshake request), the socket never sees those bytes; it behaves as if they had not been sent. -/
theorem C107_pipelined_refuted (env : HttpEnv) (sha1 : Bytes → Bytes) (head lost : Bytes) (rest : Raw) (s : Sink) (req req' : Request)
    (hw : Raw.WF rest) (hlen : (head ++ lost).length ≤ 10000) (hf : FirstBlank head head [])
    (h1 : Request.parse env (.data (head ++ lost) :: rest) = .ok (some req))
    (h2 : Request.parse env (.data head :: rest) = .ok (some req')) :
    upgradedSocket env sha1 req s = upgradedSocket env sha1 req' s ∧ req.socketInput = rest ∧
      req.body.reader.avail = lost ++ Raw.avail rest := by
  have hh : head ≠ [] := by
    obtain ⟨p, hp⟩ := hf.2.1
    rw [← hp]; simp [blank]
  have ext : ∀ x : Bytes, FirstBlank (head ++ x) head x := by
    intro x
    refine ⟨rfl, hf.2.1, fun h' rest' he hb => ?_⟩
    apply Nat.le_of_not_lt
    intro hlt
    have hp : h' <+: head := List.prefix_of_prefix_length_le ⟨rest', he.symm⟩ (List.prefix_append _ _) (by omega)
    obtain ⟨t, ht⟩ := hp
    have := hf.2.2 h' t ht.symm hb
    omega
  have w1 : Raw.WF (.data (head ++ lost) :: rest) := hw.cons (by simp [hh])
  have w2 : Raw.WF (.data head :: rest) := hw.cons hh
  have f1 : FirstBlank (Raw.avail (.data (head ++ lost) :: rest)) head (lost ++ Raw.avail rest) := by
    simp only [Raw.avail, List.append_assoc]; exact ext _
  have f2 : FirstBlank (Raw.avail (.data head :: rest)) head (Raw.avail rest) := by
    simp only [Raw.avail]; exact ext _
  have k1 := socket_input (es := []) (kept := head) (lost := lost) w1 rfl Raw.Clean.nil hh (Or.inl hlen) (by simpa [Raw.bytes] using f1) h1
  have k2 := socket_input (es := []) (kept := head) (lost := []) (rest := rest) w2 (by simp) Raw.Clean.nil hh (Or.inr rfl) (by simpa [Raw.bytes] using f2) h2
  refine ⟨?_, k1, ((C31_head_and_body env _ w1 _ _ f1).2.2 req h1).1⟩
  have hh : req.headers = req'.headers := by
    obtain ⟨r1, g1, _⟩ := parse_found (env := env) w1 f1
    obtain ⟨r2, g2, _⟩ := parse_found (env := env) w2 f2
    rw [g1] at h1; rw [g2] at h2
    have hv := ofHead_view env head r1 r2
    cases o1 : Request.ofHead env head r1 with
    | error e => rw [o1] at h1; cases h1
    | ok q1 =>
      cases o2 : Request.ofHead env head r2 with
      | error e => rw [o2] at h2; cases h2
      | ok q2 =>
        rw [o1] at h1 hv; rw [o2] at h2 hv
        have e1 : q1 = req := by simpa [Except.map] using h1
        have e2 : q2 = req' := by simpa [Except.map] using h2
        subst e1 e2
        simp only [Except.map, Except.ok.injEq, Request.view, RequestView.mk.injEq] at hv
        exact hv.1
  unfold upgradedSocket
  rw [C80_version_ignored_refuted env sha1 req req' s (fun k _ => by rw [hh]), k1, k2]

/-! ## A request as any HTTP client writes it -/

/-- A request head that puck accepts: the grammar, an origin-form target, text in the values, one spelling of Host. -/
structure GoodHead (m t : String) (fs : List (String × Bytes)) (hostName host : String) : Prop where
  method : Token (strBytes m)
  target : Target (strBytes t) ∧ strBytes "/" <+: strBytes t
  fields : ∀ p ∈ fs, GoodField p
  text : ∀ p ∈ fs, ∃ s, p.2 = strBytes s
  few : fs.length ≤ 20
  host : lastValue fs hostName = some (strBytes host) ∧ Ascii.lowered hostName = strBytes "host"
  oneHost : ∀ p ∈ fs, Ascii.lowered p.1 = strBytes "host" → p.1 = hostName

/-- Its bytes. -/
def headBytes (m t : String) (fs : List (String × Bytes)) : Bytes :=
  Http.head (requestLine (strBytes m) (strBytes t)) (fs.map rawField)

theorem headBytes_blank {m t : String} {fs : List (String × Bytes)} {hostName host : String} (hg : GoodHead m t fs hostName host) (after : Bytes) :
    FirstBlank (headBytes m t fs ++ after) (headBytes m t fs) after := by
  refine firstBlank_head ⟨by simp [requestLine], ?_⟩ ?_ ?_ _
  · intro c hcm
    simp only [requestLine, List.mem_append, List.mem_cons, List.not_mem_nil, or_false] at hcm
    rcases hcm with ((hc | rfl) | hc) | (rfl | rfl | rfl | rfl | rfl | rfl | rfl | rfl | rfl)
    all_goals first | decide | exact (token_no hg.method c hc).2 | exact (target_no hg.target.1 c hc).2
  · intro p hp c hcm
    obtain ⟨q, hq, rfl⟩ := List.mem_map.1 hp
    exact (tchar_ne ((hg.fields q hq).1.2 c hcm)).2.1
  · intro p hp
    obtain ⟨q, hq, rfl⟩ := List.mem_map.1 hp
    exact text_no_cr (hg.fields q hq).2.1

theorem lastValue_mem {fs : List (String × Bytes)} {k : String} {v : Bytes} (h : lastValue fs k = some v) : (k, v) ∈ fs := by
  unfold lastValue at h
  cases hf : fs.reverse.find? (fun p => p.1 == k) with
  | none => rw [hf] at h; cases h
  | some p =>
    rw [hf] at h
    have h1 := List.find?_some hf
    have h2 := List.mem_of_find?_eq_some hf
    simp only [Option.map_some, Option.some.injEq] at h
    subst h
    rw [List.mem_reverse] at h2
    simp only [beq_iff_eq] at h1
    subst h1
    exact h2

theorem request_of_head (env : HttpEnv) (henv : env.Valid) (hp : RequestContract env.httparse) {m t : String} {fs : List (String × Bytes)}
    {hostName host : String} (hg : GoodHead m t fs hostName host) {u : Url} (hu : env.parseUrl ("http://" ++ host ++ t) = some u)
    (raw : Raw) (hw : raw.WF) (after : Bytes) (hav : raw.avail = headBytes m t fs ++ after) :
    ∃ req, Request.parse env raw = .ok (some req) ∧ req.url = u ∧ req.method = Method.newFromStr m ∧
      (∀ n, (req.headers.get n).map strBytes = lastValue fs n) := by
  have hf : FirstBlank raw.avail (headBytes m t fs) after := by rw [hav]; exact headBytes_blank hg after
  have hq := hp m t fs hg.method hg.target.1 hg.fields hg.few
  have hmem := lastValue_mem hg.host.1
  obtain ⟨host', k, hk, hv, _, h5⟩ := ((((C33_decision env henv raw hw _ _ hf).2 _ hq).2 m rfl).2 (by
    intro p hp
    obtain ⟨s, hs⟩ := hg.text p hp
    rw [hs, fromUtf8_strBytes]; simp)).2 ⟨hostName, List.mem_map_of_mem (f := (·.1)) hmem, hg.host.2⟩
  have hkh : k = hostName := hg.oneHost _ (lastValue_mem hv) hk
  subst hkh
  have hhh : host' = host := by
    rw [hg.host.1] at hv
    simp [strBytes_inj] at hv
    exact hv.symm
  subst hhh
  have hstart : ¬ Absolute t := by
    obtain ⟨w, hw⟩ := hg.target.2
    have e0 : strBytes "/" = [47] := by decide +kernel
    have e1 : strBytes "http://" = [104, 116, 116, 112, 58, 47, 47] := by decide +kernel
    have e2 : strBytes "https://" = [104, 116, 116, 112, 115, 58, 47, 47] := by decide +kernel
    unfold Absolute
    rw [← hw, e0, e1, e2]
    simp [List.cons_prefix_cons]
  obtain ⟨r', g1, g2, g3, g4⟩ := h5 t u rfl (.origin hstart hg.target.2 hu)
  exact ⟨r', g1, g2, g3, g4⟩

/-! ## C108 -/

/-- The fields of a WebSocket handshake request, as browsers spell them. -/
structure HandshakeFields (fs : List (String × Bytes)) (key : String) : Prop where
  upgrade : ∃ v, lastValue fs "Upgrade" = some (strBytes v) ∧ Ascii.lowered v = strBytes "websocket"
  connection : ∃ v, lastValue fs "Connection" = some (strBytes v) ∧ strBytes "upgrade" <:+: Ascii.lowered v
  key : lastValue fs "Sec-WebSocket-Key" = some (strBytes key)

theorem get_of_last {h : Headers} {fs : List (String × Bytes)} (hh : ∀ n, (h.get n).map strBytes = lastValue fs n) {n v : String}
    (hl : lastValue fs n = some (strBytes v)) : h.get n = some v := by
  have := hh n
  rw [hl] at this
  cases hg : h.get n with
  | none => rw [hg] at this; cases this
  | some w =>
    rw [hg] at this
    simp [strBytes_inj] at this
    rw [this]

/-- **C108.** A whole session with the chat application's server, from the first byte.  A client sends a WebSocket handshake request for `/ws`
(any reads `hd` that end where the head ends), then messages `items` (each in its own reads), then `rest`.  The connection's process answers with
the 101 response whose accept value is that of the key; the WebSocket that is made is open and reads exactly the client's messages; and for any
component served over it by `Component::manage`, in every fair execution in which the reader does not die, those messages are received by the
component loop, in order; and if a close frame follows them, the loop stops for good (component dropped, or crashed). -/
theorem C108_session {D I S E P : Type} (env : HttpEnv) (henv : env.Valid) (hp : RequestContract env.httparse) (sha1 : Bytes → Bytes)
    (script : String) (t : String) (fs : List (String × Bytes)) (hostName host key : String) (hg : GoodHead "GET" t fs hostName host)
    (hh : HandshakeFields fs key) (u : Url) (hu : env.parseUrl ("http://" ++ host ++ t) = some u) (hpath : u.path = "/ws")
    (hd rest : Raw) (hc : hd.Clean) (hbytes : Raw.bytes hd = headBytes "GET" t fs)
    (items : List (Rfc6455.Kind × List Delivery × Message))
    (hi : ∀ y ∈ items, (∀ d ∈ y.2.1, d.Ok env.W) ∧ y.1 ≠ .close ∧ IsMessage y.1 (y.2.1.map Delivery.frame) ∧
      Means y.1 (payloads (y.2.1.map Delivery.frame)) y.2.2)
    (hw : Raw.WF (hd ++ ((items.map fun y => (y.2.1.map Delivery.reads).flatten).flatten ++ rest))) (o : Bytes) :
    ∃ req accept,
      Request.parse env (hd ++ ((items.map fun y => (y.2.1.map Delivery.reads).flatten).flatten ++ rest)) = .ok (some req) ∧
      Base64.decode accept = some (sha1 (strBytes key ++ strBytes "258EAFA5-E914-47DA-95CA-C5AB0DC85B11")) ∧
      serveRouterConn env (chatRoutes env sha1 script) ()
          (hd ++ ((items.map fun y => (y.2.1.map Delivery.reads).flatten).flatten ++ rest)) ⟨o, none⟩ =
        (.ok (), ⟨o ++ switchingBytes accept, none⟩) ∧
      ∃ socket : WsState × Conn, upgradedSocket env sha1 req ⟨o, none⟩ = some socket ∧ socket.1 = .open ∧
        socket.2.out.out = o ++ switchingBytes accept ∧
      ∀ (N : NetEnv D I S E P (WsState × Conn)), N.next = socketNext env.W → N.socket = socket →
        ∀ (data : D) (x : Execution N data), x.Fair → x.ReaderLives →
          (∃ j, (items.map fun y => Except.ok y.2.2) <+: socketOf (x.state j).received) ∧
          (∀ (d : Delivery) (after : Raw), d.Ok env.W → Rfc6455.kindOf d.frame.nibble = .close → rest = d.reads ++ after →
            ∃ j, ∀ k, j ≤ k → ((x.state k).loop = .stopped ∧ .dropped ∈ (x.state k).outs) ∨ (x.state k).loop = .crashed) := by
  have hf := headBytes_blank hg
  obtain ⟨req, h1, h2, h3, h4⟩ := request_of_head env henv hp hg hu _ hw _ (by rw [avail_clean_append hc, hbytes])
  have hin : req.socketInput = (items.map fun y => (y.2.1.map Delivery.reads).flatten).flatten ++ rest :=
    C107_waiting_partial env hd _ hw hc (by rw [avail_clean_append hc, hbytes]; exact hf _) req h1
  have hsu : shouldUpgrade req = true := by
    obtain ⟨v, v1, v2⟩ := hh.upgrade
    obtain ⟨w, w1, w2⟩ := hh.connection
    exact (C24_decision_partial req).2 ⟨⟨v, get_of_last h4 v1, v2⟩, w, get_of_last h4 w1, w2⟩
  have hkey := get_of_last h4 hh.key
  obtain ⟨accept, a1, a2⟩ := (C27_upgrade env henv sha1 req ⟨o, none⟩ rfl).1 key hsu hkey
  have hr : Router.respond (chatRoutes env sha1 script) req () ⟨o, none⟩ = socketHandler env sha1 req ⟨o, none⟩ := by
    have m1 := static_one "js" (by decide +kernel) req.url
    have m2 := static_one "" (by decide +kernel) req.url
    have m3 := static_one "ws" (by decide +kernel) req.url
    have f1 : ¬ doesMatch [.static "js"] req.url = true := by rw [m1, h2, hpath]; decide
    have f2 : ¬ doesMatch [.static ""] req.url = true := by rw [m2, h2, hpath]; decide
    have f3 : doesMatch [.static "ws"] req.url = true := by rw [m3, h2, hpath]; decide
    show (if doesMatch [.static "js"] req.url then respondUnwrap env (initJs script) ⟨o, none⟩
      else if doesMatch [.static ""] req.url then respondUnwrap env initIndex ⟨o, none⟩
      else if doesMatch [.static "ws"] req.url then socketHandler env sha1 req ⟨o, none⟩ else (.ok (), ⟨o, none⟩)) = _
    rw [if_neg f1, if_neg f2, if_pos f3]
  refine ⟨req, accept, h1, a1, ?_, (.open, ⟨req.socketInput, ⟨o ++ switchingBytes accept, none⟩⟩), ?_, rfl, rfl, ?_⟩
  · unfold serveRouterConn
    rw [h1]
    simp only
    rw [hr]
    simp only [socketHandler, a2]
  · simp only [upgradedSocket, a2]
  · intro N hN hs data x hfair hlives
    exact C100_client_messages env.W N hN data items rest _ hi (by rw [hs, hin]) x hfair hlives

/-- an environment with a header parser that satisfies the contract -/
def sessionEnv : HttpEnv where
  httparse := hpReq
  httparseRes := hpRes
  parseUrl := fun s => if s = "http://a/ws" then some ⟨"http://a", "/ws", none⟩ else none
  ord := fun h => h
  W := 32

/-- the handshake request of a browser -/
def sessionFields : List (String × Bytes) :=
  [("Host", strBytes "a"), ("Upgrade", strBytes "websocket"), ("Connection", strBytes "keep-alive, Upgrade"),
    ("Sec-WebSocket-Key", strBytes "dGhlIHNhbXBsZSBub25jZQ=="), ("Sec-WebSocket-Version", strBytes "13")]

theorem session_head : GoodHead "GET" "/ws" sessionFields "Host" "a" where
  method := ⟨by decide +kernel, by decide +kernel⟩
  target := ⟨⟨by decide +kernel, by decide +kernel⟩, by decide +kernel⟩
  fields := by
    intro p hp
    simp only [sessionFields, List.mem_cons, List.not_mem_nil, or_false] at hp
    rcases hp with rfl | rfl | rfl | rfl | rfl <;>
      exact ⟨⟨by decide +kernel, by decide +kernel⟩, by unfold Text; decide +kernel, by unfold Trimmed; decide +kernel⟩
  text := by
    intro p hp
    simp only [sessionFields, List.mem_cons, List.not_mem_nil, or_false] at hp
    rcases hp with rfl | rfl | rfl | rfl | rfl <;> exact ⟨_, rfl⟩
  few := by decide
  host := by decide +kernel
  oneHost := by decide +kernel

/-- non-vacuity of C107: the handshake request, a frame in the next read, and a frame in the same read -/
example (frame : Bytes) (hf : frame ≠ []) :
    (∃ req, Request.parse sessionEnv [.data (headBytes "GET" "/ws" sessionFields), .data frame] = .ok (some req) ∧
      req.socketInput = [.data frame]) ∧
    (frame.length ≤ 9000 → ∃ req, Request.parse sessionEnv [.data (headBytes "GET" "/ws" sessionFields ++ frame)] = .ok (some req) ∧
      req.socketInput = []) := by
  have hv : sessionEnv.Valid := fun _ => .refl _
  have hu : sessionEnv.parseUrl ("http://" ++ "a" ++ "/ws") = some ⟨"http://a", "/ws", none⟩ := by decide +kernel
  have hb := headBytes_blank session_head
  have hne : headBytes "GET" "/ws" sessionFields ≠ [] := by decide +kernel
  have hl : (headBytes "GET" "/ws" sessionFields).length ≤ 1000 := by decide +kernel
  constructor
  · have hw : Raw.WF [.data (headBytes "GET" "/ws" sessionFields), .data frame] := (Raw.WF.nil.cons hf).cons hne
    obtain ⟨req, h1, -⟩ := request_of_head sessionEnv hv hpReq_contract session_head hu _ hw frame (by simp [Raw.avail])
    refine ⟨req, h1, C107_waiting_partial sessionEnv [.data (headBytes "GET" "/ws" sessionFields)] [.data frame] hw
      (by simp [Raw.Clean]) ?_ req h1⟩
    simpa [Raw.avail, Raw.bytes] using hb frame
  · intro hlen
    have hw : Raw.WF [.data (headBytes "GET" "/ws" sessionFields ++ frame)] := Raw.WF.nil.cons (by simp [hne])
    have hw2 : Raw.WF [.data (headBytes "GET" "/ws" sessionFields)] := Raw.WF.nil.cons hne
    obtain ⟨req, h1, -⟩ := request_of_head sessionEnv hv hpReq_contract session_head hu _ hw frame (by simp [Raw.avail])
    obtain ⟨req', h2, -⟩ := request_of_head sessionEnv hv hpReq_contract session_head hu _ hw2 [] (by simp [Raw.avail])
    exact ⟨req, h1, (C107_pipelined_refuted sessionEnv (fun _ => []) _ frame [] ⟨[], none⟩ req req' Raw.WF.nil
      (by simp only [List.length_append]; omega) (by simpa using hb []) h1 h2).2.1⟩

/-- non-vacuity of C108: the handshake in two reads, a ping, a close frame; a counter served by a round robin -/
example : ∃ (N : NetEnv Unit Nat Nat String Unit (WsState × Conn)) (x : Execution N ()), x.Fair ∧ x.ReaderLives ∧
    ∃ j, ∀ k, j ≤ k → ((x.state k).loop = .stopped ∧ .dropped ∈ (x.state k).outs) ∨ (x.state k).loop = .crashed := by
  let f0 : Rfc6455.ClientFrame := ⟨true, false, false, false, 9, (7, 7, 7, 7), [], .short⟩
  let f1 : Rfc6455.ClientFrame := ⟨true, false, false, false, 8, (7, 7, 7, 7), [], .short⟩
  let items : List (Rfc6455.Kind × List Delivery × Message) := [(.ping, [⟨f0, [.data f0.encode]⟩], .ping none)]
  let C : Component Unit Nat Nat String Unit := ⟨fun _ _ => (0, []), fun s i _ => (s + i, []), fun s => (⟨s, "p", [], [], [], none, none⟩, fun _ => none)⟩
  let hd : Raw := [.data ((headBytes "GET" "/ws" sessionFields).take 20), .data ((headBytes "GET" "/ws" sessionFields).drop 20)]
  have hw : Raw.WF (hd ++ ((items.map fun y => (y.2.1.map Delivery.reads).flatten).flatten ++ [.data f1.encode])) := by
    refine Raw.WF.cons (by decide +kernel) (Raw.WF.cons (by decide +kernel) (Raw.WF.cons ?_ (Raw.WF.cons ?_ Raw.WF.nil)))
    · show f0.encode ≠ []; decide +kernel
    · show f1.encode ≠ []; decide +kernel
  obtain ⟨req, accept, -, -, -, socket, -, -, -, hN⟩ := C108_session (D := Unit) (I := Nat) (S := Nat) (E := String) (P := Unit) sessionEnv
    (fun _ => .refl _) hpReq_contract (fun _ => []) "" "/ws" sessionFields "Host" "a" "dGhlIHNhbXBsZSBub25jZQ==" session_head
    ⟨⟨"websocket", by decide +kernel, by decide +kernel⟩, ⟨"keep-alive, Upgrade", by decide +kernel, by decide +kernel⟩, by decide +kernel⟩
    ⟨"http://a", "/ws", none⟩ (by decide +kernel) rfl hd [.data f1.encode] (by simp [hd, Raw.Clean])
    (by simp [hd, Raw.bytes]) items (by
      intro y hy
      simp only [items, List.mem_singleton] at hy
      subst hy
      refine ⟨?_, by simp, ⟨rfl, Or.inl ⟨rfl, rfl⟩⟩, Means.pingEmpty⟩
      intro d hd; simp only [List.mem_singleton] at hd; subst hd; exact ok_single _ (by decide) (by decide)) hw []
  let N : NetEnv Unit Nat Nat String Unit (WsState × Conn) := ⟨C, fun _ => none, true, (), socket, socketNext 32⟩
  obtain ⟨x, hf, hl, -⟩ := fair_exists 32 N rfl () (fun _ => some 1)
  exact ⟨N, x, hf, hl, (hN N rfl rfl () x hf hl).2 ⟨f1, [.data f1.encode]⟩ [] (ok_single _ (by decide) (by decide)) rfl rfl⟩

end Puck
