import Verif.Props.Message
import Verif.Props.Send
import Verif.Props.Manage
import Verif.Props.RoundTrip
import Verif.Props.Upgrade
import Verif.Spec.Framing
/-!
# What does hold of the properties that are refuted as stated (C14, C38, C42, C69, C78, C79, C80, C81)
-/
namespace Puck
open Rfc6455 Http

/-! ## C14 -/

/-- Repeated calls of `Message::next` give these messages, one per call, and leave this input. -/
inductive NextReads (W : Nat) : Raw → List Message → Raw → Prop
  | done (raw : Raw) : NextReads W raw [] raw
  | next {raw raw' raw'' : Raw} {m : Message} {ms : List Message} : Message.next W raw = (.ok m, raw') → NextReads W raw' ms raw'' →
      NextReads W raw (m :: ms) raw''

/-- **C14, the part that holds.**  Control frames *between* messages: a history of messages, each a single frame (pings, pongs,
data) or a list of fragments with nothing in between, is delivered in order, nothing lost or merged.  Missing from C14: control
frames between the fragments of one message (`C14_interleaved_refuted`). -/
theorem C14_between_partial (W : Nat) (items : List (Kind × List Delivery × Message)) (rest : Raw)
    (h : ∀ x ∈ items, (∀ d ∈ x.2.1, d.Ok W) ∧ x.1 ≠ .close ∧ IsMessage x.1 (x.2.1.map Delivery.frame) ∧
      Means x.1 (payloads (x.2.1.map Delivery.frame)) x.2.2) :
    NextReads W ((items.map fun x => (x.2.1.map Delivery.reads).flatten).flatten ++ rest) (items.map (·.2.2)) rest := by
  induction items with
  | nil => exact .done _
  | cons x xs ih =>
    obtain ⟨h1, h2, h3, h4⟩ := h x (by simp)
    simp only [List.map_cons, List.flatten_cons, List.append_assoc]
    exact .next ((C13_reassembled W x.1 x.2.1 _ h1 h2 h3).1 _ h4) (ih fun y hy => h y (List.mem_cons_of_mem _ hy))

/-- non-vacuity: a ping, then a text in two fragments. -/
example : ∃ ping a b : Delivery, NextReads 32 (ping.reads ++ (a.reads ++ b.reads)) [.ping none, .text "Hi"] [] := by
  let f0 : ClientFrame := ⟨true, false, false, false, 9, (7, 7, 7, 7), [], .short⟩
  let f1 : ClientFrame := ⟨false, false, false, false, 1, (1, 2, 3, 4), strBytes "H", .short⟩
  let f2 : ClientFrame := ⟨true, false, false, false, 0, (5, 6, 7, 8), strBytes "i", .short⟩
  refine ⟨⟨f0, [.data f0.encode]⟩, ⟨f1, [.data f1.encode]⟩, ⟨f2, [.data f2.encode]⟩, ?_⟩
  have := C14_between_partial 32 [(.ping, [⟨f0, [.data f0.encode]⟩], .ping none),
    (.text, [⟨f1, [.data f1.encode]⟩, ⟨f2, [.data f2.encode]⟩], .text "Hi")] [] (by
    intro x hx
    simp only [List.mem_cons, List.not_mem_nil, or_false] at hx
    rcases hx with rfl | rfl
    · refine ⟨?_, by simp, ⟨rfl, Or.inl ⟨rfl, rfl⟩⟩, Means.pingEmpty⟩
      intro d hd; simp only [List.mem_singleton] at hd; subst hd; exact ok_single _ (by decide) (by decide)
    · refine ⟨?_, by simp, ⟨rfl, Or.inr ⟨rfl, rfl, Or.inl ⟨rfl, rfl⟩⟩⟩, ?_⟩
      · intro d hd; simp only [List.mem_cons, List.not_mem_nil, or_false] at hd
        rcases hd with rfl | rfl <;> exact ok_single _ (by decide +kernel) (by decide +kernel)
      · have e : payloads ([⟨f1, [.data f1.encode]⟩, ⟨f2, [.data f2.encode]⟩].map Delivery.frame) = strBytes "Hi" := by decide +kernel
        rw [e]; exact Means.text "Hi")
  simpa using this

/-! ## C38 -/

/-- **C38, the part that holds.**  What `Request::write` puts on the request line is exactly the URL's path (followed by the
headers, blank line and body): for a URL without a query that is the whole request target. -/
theorem C38_no_query_partial (env : HttpEnv) (r : Request) (hw : r.body.WF) (target : String)
    (ht : target = r.url.path ++ (match r.url.query with | none => "" | some q => "?" ++ q)) (hq : r.url.query = none) :
    (r.write env ⟨[], none⟩).2.2.out =
      Http.head (requestLine (strBytes r.method.text) (strBytes target)) ((env.ord r.headers).map fun p => (strBytes p.1, strBytes p.2)) ++
        r.body.avail := by
  rw [Request.write_out env r hw, ht, hq]
  simp [asFields]
  rfl

/-! ## C80 -/

/-- **C80, the part that holds.**  A request that is upgraded (on any connection, working or not) has a header `Upgrade` whose value
is `websocket` ignoring case, a header `Connection` containing `upgrade` ignoring case, and a header `Sec-WebSocket-Key`, with whose
value the server's answer is computed.  Missing: method, version and the form of the key. -/
theorem C80_headers_partial (env : HttpEnv) (sha1 : Bytes → Bytes) (r : Request) (s s' : Sink) (st : WsState)
    (h : Stream.upgrade env sha1 r s = (.ok st, s')) :
    (∃ v, r.headers.get "Upgrade" = some v ∧ Ascii.lowered v = strBytes "websocket") ∧
    (∃ v, r.headers.get "Connection" = some v ∧ strBytes "upgrade" <:+: Ascii.lowered v) ∧
    (∃ key, r.headers.get "Sec-WebSocket-Key" = some key) ∧ st = .open := by
  have hsu : shouldUpgrade r = true := by
    cases hs : shouldUpgrade r with
    | true => rfl
    | false =>
      unfold Stream.upgrade at h
      rw [if_pos hs] at h
      split at h <;> cases h
  obtain ⟨h1, h2⟩ := (C24_decision_partial r).1 hsu
  refine ⟨h1, h2, ?_⟩
  unfold Stream.upgrade at h
  rw [if_neg (by simp [hsu])] at h
  unfold performUpgrade at h
  cases hk : r.headers.get "Sec-WebSocket-Key" with
  | none =>
    rw [hk] at h
    simp only at h
    cases hwr : writeResponse env err400 s with
    | mk a b => rw [hwr] at h; cases a <;> simp at h
  | some key =>
    rw [hk] at h
    refine ⟨⟨key, rfl⟩, ?_⟩
    simp only at h
    cases hwr : writeResponse env (switchingResponse sha1 key) s with
    | mk a b => rw [hwr] at h; cases a <;> simp at h; exact h.1.symm

/-- non-vacuity: what browsers send is upgraded. -/
example : ∃ s', Stream.upgrade demoEnv (fun _ => []) demoUpgrade ⟨[], none⟩ = (.ok .open, s') := by
  obtain ⟨a, -, h⟩ := (C27_upgrade demoEnv (fun _ => .refl _) (fun _ => []) demoUpgrade ⟨[], none⟩ rfl).1 _ (by decide +kernel)
    (show _ = some "dGhlIHNhbXBsZSBub25jZQ==" by decide +kernel)
  exact ⟨_, h⟩

/-! ## C42 -/

/-- **C42, the part that holds.**  The body of a parsed response is made of the bytes that follow the head, from the first one on
and in order; so if the server sends no more than Content-Length bytes before closing, the body is no longer than that.  Missing: a
bound when more bytes follow (`C42_content_length_refuted`). -/
theorem C42_prefix_partial (env : HttpEnv) (sched : Nat → Nat) (raw : Raw) (hw : raw.WF) (hclean : raw.Clean) (h rest : Bytes)
    (hf : FirstBlank raw.avail h rest) (res : Response) (hp : Response.parse env raw = .ok (some res)) :
    ∃ body, res.body.intoBytes sched = .ok body ∧ body <+: rest ∧ ∀ n, rest.length ≤ n → body.length ≤ n := by
  obtain ⟨r, h1, h2, h3, h4⟩ := parseRes_found (env := env) hw hf
  rw [h1] at hp
  cases ho : Response.ofHead env h r with
  | error e => rw [ho] at hp; cases hp
  | ok q =>
    rw [ho] at hp
    have : q = res := by simpa [Except.map] using hp
    subst this
    obtain ⟨i1, -, i3, -⟩ := C29_into_bytes sched (.buf responseCap r) ⟨responseCap_pos, h4⟩
    have hcl : (Src.buf responseCap r).Clean := h3.1 hclean
    have hav : (Src.buf responseCap r).avail = rest := h2
    rw [hav] at i1 i3
    have hb : ∃ l, q.body = Body.fromReader (.buf responseCap r) l := by
      unfold Response.ofHead at ho
      simp only at ho
      repeat' split at ho
      all_goals first | (cases ho; done) | skip
      simp only [Except.ok.injEq] at ho
      subst ho
      exact ⟨_, rfl⟩
    obtain ⟨l, hb⟩ := hb
    rw [hb]
    cases l with
    | none => exact ⟨rest, i1 hcl, List.prefix_refl _, fun n hn => hn⟩
    | some l =>
      refine ⟨rest.take l, i3 l (Or.inl hcl), List.take_prefix _ _, fun n hn => ?_⟩
      simp only [List.length_take]
      omega

/-! ## C78 -/

/-- **C78, the part that holds.**  If nothing follows the head of a request, its body is empty, whatever its headers say; and if
bytes do follow, a declared length is needed to bound the body (C77). -/
theorem C78_nothing_follows_partial (env : HttpEnv) (sched : Nat → Nat) (raw : Raw) (hw : raw.WF) (hclean : raw.Clean) (h : Bytes)
    (hf : FirstBlank raw.avail h []) (req : Request) (hp : Request.parse env raw = .ok (some req)) :
    req.body.intoBytes sched = .ok [] := by
  obtain ⟨b1, b2, b3, b4⟩ := (C31_head_and_body env raw hw h [] hf).2.2 req hp
  have ha : req.body.avail = [] := by simp [Body.avail, b1]; cases req.body.length <;> simp
  rw [← ha]
  refine Body.intoBytes_ok sched b3 ?_
  simp only [Body.Fails]
  rintro ⟨hc, -⟩
  exact hc (b2.2 hclean)

/-! ## C79 -/

/-- Some field declares the length of the body (RFC 7230 3.3.2). -/
def _root_.Http.Declares (fs : List (Bytes × Bytes)) (n : Nat) : Prop :=
  ∃ p ∈ fs, Http.lower p.1 = strBytes "content-length" ∧ Decimal.Digits p.2 ∧ Decimal.value p.2 = n

theorem digits_trimmed {b : Bytes} (h : Decimal.Digits b) : Trimmed b := by
  have key : ∀ c ∈ b, ws c = false := by
    intro c hc
    obtain ⟨h1, h2⟩ := h.2 c hc
    simp only [ws, Bool.or_eq_false_iff, beq_eq_false_iff_ne]
    constructor <;> rintro rfl <;> revert h1 <;> decide
  exact ⟨fun c hc => key c (List.mem_of_mem_head? hc), fun c hc => key c (List.mem_of_mem_getLast? hc)⟩

/-- **C79, the part that holds.**  If the application itself gives a response the right Content-Length, a client that uses
that field splits what it receives exactly at the end of this response, whatever follows.  Missing: the library adds no
Content-Length of its own (`C79_framing_refuted`). -/
theorem C79_declared_partial (r : Response) (hd : r.headers.Distinct) (hw : r.body.WF)
    (hwf : r.WellFormed) (env : HttpEnv) (henv : env.Valid)
    (hcl : ∃ p ∈ r.headers, Http.lower (strBytes p.1) = strBytes "content-length")
    (hall : ∀ p ∈ r.headers, Http.lower (strBytes p.1) = strBytes "content-length" →
      Decimal.Digits (strBytes p.2) ∧ Decimal.value (strBytes p.2) = r.body.avail.length) (more : Bytes) :
    ∃ fs rest, readResponse ((r.encode env ⟨[], none⟩).2.2.out ++ more) = some ⟨r.status, strBytes r.reason, fs, rest⟩ ∧
      (∃ n, Http.Declares fs n) ∧ ∀ n, Http.Declares fs n → rest.take n = r.body.avail ∧ rest.drop n = more := by
  obtain ⟨hs, h1, h2, h3⟩ := C39_deterministic r hd hw
  obtain ⟨h4, h5⟩ := h3 env henv ⟨[], none⟩
  obtain ⟨w1, w2, w3, w4⟩ := hwf
  rw [h4]
  simp only [Sink.writeAll, List.nil_append, wireBytes, List.append_assoc]
  have hc : strBytes (toString r.status) = code3 r.status := code3_toString w1 w2
  rw [hc, readResponse_head w2 w3]
  · refine ⟨_, _, rfl, ?_, ?_⟩
    · obtain ⟨p, hp, hl⟩ := hcl
      obtain ⟨d1, d2⟩ := hall p hp hl
      refine ⟨r.body.avail.length, (strBytes p.1, trim (strBytes p.2)), ?_, hl, ?_⟩
      · simp only [List.mem_map]
        exact ⟨(strBytes p.1, strBytes p.2), ⟨p, h1.mem_iff.2 hp, rfl⟩, rfl⟩
      · simp only [trim_trimmed (digits_trimmed d1)]
        exact ⟨d1, d2⟩
    · rintro n ⟨q, hq, hl, -, hv⟩
      simp only [List.mem_map] at hq
      obtain ⟨-, ⟨p, hp, rfl⟩, rfl⟩ := hq
      simp only at hl hv
      obtain ⟨d1, d2⟩ := hall p (h1.mem_iff.1 hp) hl
      rw [trim_trimmed (digits_trimmed d1), d2] at hv
      subst hv
      simp
  · intro p hp
    simp only [List.mem_map] at hp
    obtain ⟨q, hq, rfl⟩ := hp
    exact (w4 q (h1.mem_iff.1 hq)).1
  · intro p hp
    simp only [List.mem_map] at hp
    obtain ⟨q, hq, rfl⟩ := hp
    exact (w4 q (h1.mem_iff.1 hq)).2

/-- non-vacuity: a page of two bytes that says so. -/
example : ∃ r : Response, r.headers.Distinct ∧ r.body.WF ∧ r.WellFormed ∧ r.body.avail = [79, 75] ∧
    (∃ p ∈ r.headers, Http.lower (strBytes p.1) = strBytes "content-length") ∧
    ∀ p ∈ r.headers, Http.lower (strBytes p.1) = strBytes "content-length" →
      Decimal.Digits (strBytes p.2) ∧ Decimal.value (strBytes p.2) = r.body.avail.length := by
  refine ⟨⟨[("Content-Length", "2")], Body.fromString "OK", 200, "OK"⟩, by simp [Headers.Distinct], ⟨trivial, ?_⟩, ⟨by decide, by decide, ?_, ?_⟩,
    by decide +kernel, ⟨("Content-Length", "2"), by simp, by decide +kernel⟩, ?_⟩
  · simp [Body.fromString]
  · decide +kernel
  · intro p hp
    simp only [List.mem_singleton] at hp
    subst hp
    exact ⟨⟨by decide +kernel, by decide +kernel⟩, by decide +kernel⟩
  · intro p hp _
    simp only [List.mem_singleton] at hp
    subst hp
    exact ⟨⟨by decide +kernel, by decide +kernel⟩, by decide +kernel⟩

/-! ## C69 -/

variable {D I S E P : Type}

/-- **C69, the part that holds.**  Once the reader's socket is closed, whatever the schedule, all that the reader ever sends to the
component loop is that the connection is closed: no message of the client any more. -/
theorem C69_only_closed_partial (W : Nat) (N : NetEnv D I S E P (WsState × Conn)) (hN : N.next = socketNext W)
    (n n' : Net D I S E P (WsState × Conn)) (c : Conn) (hr : n.reader = some (.closed, c)) (hm : n.manager = .forwarding)
    (h' : NetSteps N n n') :
    (n'.reader = some (.closed, c) ∨ n'.reader = none) ∧ ∃ k, n'.got = n.got ++ List.replicate k (.error .connectionClosed) := by
  have key : ((n'.reader = some (.closed, c) ∨ n'.reader = none) ∧ n'.manager = .forwarding) ∧
      ∃ k, n'.got = n.got ++ List.replicate k (.error .connectionClosed) := by
    induction h' with
    | refl => exact ⟨⟨Or.inl hr, hm⟩, 0, by simp⟩
    | snoc _ hs ih =>
      obtain ⟨⟨h1, h2⟩, k, h3⟩ := ih
      cases hs with
      | outside i => exact ⟨⟨h1, h2⟩, k, h3⟩
      | spawnLoop hm => rw [h2] at hm; cases hm
      | tell hm => rw [h2] at hm; cases hm
      | spawnReader hm => rw [h2] at hm; cases hm
      | forward i rest hm hi => exact ⟨⟨h1, h2⟩, k, h3⟩
      | read r r' m hr hn =>
        rcases h1 with h1 | h1
        · rw [h1] at hr
          cases hr
          rw [hN] at hn
          obtain ⟨hm, rfl⟩ := hn
          cases hm
          refine ⟨⟨Or.inl rfl, h2⟩, k + 1, ?_⟩
          rw [h3, List.replicate_succ', List.append_assoc]
        · rw [h1] at hr; cases hr
      | readNone r r' hr hn =>
        rcases h1 with h1 | h1
        · rw [h1] at hr
          cases hr
          rw [hN] at hn
          obtain ⟨hm, -⟩ := hn
          cases hm
        · rw [h1] at hr; cases hr
      | readerDies r hr => exact ⟨⟨Or.inr rfl, h2⟩, k, h3⟩
      | receive m rest hm hb => exact ⟨⟨h1, h2⟩, k, h3⟩
  exact ⟨key.1.1, key.2⟩

/-! ## C81 -/

theorem run_closed (C : Component D I S E P) (parse : String → Option ClientMessage) (ok : Bool) :
    ∀ (ms : List (Mail I P)) (ph : Phase D I S P), NoWho ms → ph ≠ .unreachable → ph ≠ .stopped → (∀ d, ph ≠ .waiting d) →
      Mail.ws (.error .connectionClosed) ∈ ms →
      ((loopRun C parse ok ph ms).1 = .stopped ∧ .dropped ∈ (loopRun C parse ok ph ms).2) ∨ (loopRun C parse ok ph ms).1 = .crashed
  | [], _, _, _, _, _, h => by cases h
  | m :: ms, ph, hn, hu, hs, hw, h => by
    rw [loopRun]
    have hm := hn m (by simp)
    have hn' : NoWho ms := fun x hx => hn x (List.mem_cons_of_mem _ hx)
    cases ph with
    | waiting d => exact absurd rfl (hw d)
    | unreachable => exact absurd rfl hu
    | stopped => exact absurd rfl hs
    | crashed =>
      have : loopStep C parse ok (.crashed : Phase D I S P) m = (.crashed, []) := rfl
      rw [this]
      simp only [run_over ms (Or.inr (Or.inl rfl))]
      exact Or.inr trivial
    | running st =>
      by_cases hc : m = .ws (.error .connectionClosed)
      · subst hc
        have : loopStep C parse ok (.running st : Phase D I S P) (.ws (.error .connectionClosed)) = (.stopped, [.dropped]) := rfl
        rw [this]
        simp only [run_over ms (Or.inl rfl)]
        exact Or.inl ⟨trivial, by simp⟩
      · have hin : Mail.ws (.error .connectionClosed) ∈ ms := by
          rcases List.mem_cons.1 h with h | h
          · exact absurd h.symm hc
          · exact h
        have key : (loopStep C parse ok (.running st : Phase D I S P) m).1 ≠ .unreachable ∧
            (loopStep C parse ok (.running st : Phase D I S P) m).1 ≠ .stopped ∧
            ∀ d, (loopStep C parse ok (.running st : Phase D I S P) m).1 ≠ .waiting d := by
          by_cases hask : ∃ i, Asks parse st.listeners m i
          · obtain ⟨i, hi⟩ := hask
            rw [step_asks hi]
            simp only [updateAndDiff]
            split <;> simp
          · rw [step_ignored (fun i hi => hask ⟨i, hi⟩) hc hm]; simp
        rcases run_closed C parse ok ms _ hn' key.1 key.2.1 key.2.2 hin with ⟨h1, h2⟩ | h1
        · exact Or.inl ⟨h1, List.mem_append.2 (Or.inr h2)⟩
        · exact Or.inr h1

theorem mem_of_socketOf {ms : List (Mail I P)} {m : Except NextMessageError Message} (h : m ∈ socketOf ms) : Mail.ws m ∈ ms := by
  induction ms with
  | nil => cases h
  | cons x xs ih =>
    cases x with
    | ws r =>
      simp only [socketOf, List.mem_cons] at h
      rcases h with rfl | h
      · simp
      · exact List.mem_cons_of_mem _ (ih h)
    | input i => exact List.mem_cons_of_mem _ (ih h)
    | whoAmI p => exact List.mem_cons_of_mem _ (ih h)

theorem drain {N : NetEnv D I S E P (WsState × Conn)} : ∀ (box : List (Mail I P)) (n : Net D I S E P (WsState × Conn)),
    n.manager ≠ .start → n.loopBox = box → ∃ n', NetSteps N n n' ∧ n'.loopBox = [] ∧ n'.got = n.got
  | [], n, _, hb => ⟨n, .refl n, hb, rfl⟩
  | m :: rest, n, hm, hb => by
    obtain ⟨n', h1, h2, h3⟩ := drain (N := N) rest { n with
        loopBox := rest
        loop := (loopStep N.comp N.parse N.firstSend n.loop m).1
        outs := n.outs ++ (loopStep N.comp N.parse N.firstSend n.loop m).2
        received := n.received ++ [m] } hm rfl
    exact ⟨n', steps_trans (.snoc (.refl n) (.receive n m rest hm hb)) h1, h2, h3⟩

/-- **C81, the part that holds.**  If the client does send a close frame: the reader's next result can only be that the connection is
closed, and its socket is closed; and in every reachable state in which the reader has reported that, the loop ends up having dropped the component (unless
it has crashed): it has done so whenever its mailbox is empty, and receiving what is in the mailbox is enough to get there.
Missing: connections that end without a close frame (`C81_leak_refuted`). -/
theorem C81_close_frame_partial (W : Nat) (N : NetEnv D I S E P (WsState × Conn)) (hN : N.next = socketNext W) (data : D)
    (n : Net D I S E P (WsState × Conn)) (h : NetSteps N (Net.init data) n) :
    (∀ (d : Delivery) (rest : Raw) (out : Sink), d.Ok W → kindOf d.frame.nibble = .close → out.room = none →
      n.reader = some (.open, ⟨d.reads ++ rest, out⟩) →
      ∀ m r', N.next (.open, ⟨d.reads ++ rest, out⟩) m r' → m = some (.error .connectionClosed) ∧ r'.1 = .closed) ∧
    (.error .connectionClosed ∈ n.got →
      (n.loopBox = [] → (n.loop = .stopped ∧ .dropped ∈ n.outs) ∨ n.loop = .crashed) ∧
      ∃ n', NetSteps N n n' ∧ n'.loopBox = [] ∧ n'.got = n.got) := by
  constructor
  · intro d rest out hd hk ho _ m r' hn
    rw [hN] at hn
    have hc := C16_close_anywhere W .text [] d rest (by simp) (by simp) (Or.inl rfl) hd hk
    simp only [List.map_nil, List.flatten_nil, List.nil_append] at hc
    have hs : ∃ out', sendFrame closeFrame out = (true, out') := by
      cases hf : sendFrame closeFrame out with
      | mk a b =>
        cases a with
        | true => exact ⟨b, rfl⟩
        | false =>
          exfalso
          obtain ⟨o, rm⟩ := out
          simp only at ho; subst ho
          rw [sendFrame_eq] at hf
          simp [Sink.writeAll] at hf
    obtain ⟨out', hs⟩ := hs
    simp only [socketNext, WebSocket.next, hc, hs] at hn
    exact ⟨hn.1, by rw [hn.2]⟩
  · intro hg
    have hi := inv_steps (inv_init N data) h
    obtain ⟨hu, hrec, hl, ho⟩ := C68_processes N data n h
    have hmgr : n.manager = .told ∨ n.manager = .forwarding := by
      rcases manager_cases n.manager with hm | hm
      · rw [(hi.early hm).2.2.2.1] at hg; cases hg
      · exact hm
    refine ⟨fun hb => ?_, drain _ n (by rcases hmgr with h | h <;> rw [h] <;> simp) rfl⟩
    rcases hrec with ⟨-, -, h3⟩ | ⟨rest, h1, h2, -, h4⟩
    · rw [h3] at hg; cases hg
    · rw [hb, List.append_nil] at h1
      rw [hl, ho, h1, loopRun]
      have hin : (Mail.ws (.error .connectionClosed) : Mail I P) ∈ rest := mem_of_socketOf (by rw [h4]; exact hg)
      have key : (loopStep N.comp N.parse N.firstSend (.waiting data) (.whoAmI N.me)).1 ≠ .unreachable ∧
          (loopStep N.comp N.parse N.firstSend (.waiting data) (.whoAmI N.me)).1 ≠ .stopped ∧
          ∀ d, (loopStep N.comp N.parse N.firstSend (.waiting data) (.whoAmI N.me)).1 ≠ .waiting d := by
        simp only [loopStep, Element.diff]
        split <;> simp
      rcases run_closed N.comp N.parse N.firstSend rest _ h2 key.1 key.2.1 key.2.2 hin with ⟨r1, r2⟩ | r1
      · exact Or.inl ⟨r1, List.mem_append.2 (Or.inr r2)⟩
      · exact Or.inr r1

/-- non-vacuity: a state in which the reader has reported the end is reached -/
example (W : Nat) (N : NetEnv D I S E P (WsState × Conn)) (hN : N.next = socketNext W) (data : D)
    (hs : N.socket = (.open, ⟨[.data [0x88, 0x80]], ⟨[], none⟩⟩)) :
    ∃ n, NetSteps N (Net.init data) n ∧ .error .connectionClosed ∈ n.got ∧ n.manager = .forwarding := by
  have h1 : NetSteps N (Net.init data) _ := .snoc (.snoc (.snoc (.refl _) (.spawnLoop _ rfl)) (.tell _ rfl)) (.spawnReader _ rfl)
  have hn : N.next (.open, ⟨[.data [0x88, 0x80]], ⟨[], none⟩⟩) (some (.error .connectionClosed)) (.closed, ⟨[], ⟨[0x88, 0], none⟩⟩) := by
    rw [hN]
    have : WebSocket.next W .open ⟨[.data [0x88, 0x80]], ⟨[], none⟩⟩ = (.err .connectionClosed, .closed, ⟨[], ⟨[0x88, 0], none⟩⟩) := rfl
    simp only [socketNext, this, and_self]
  exact ⟨_, .snoc h1 (.read _ _ _ _ (by rw [hs]) hn), by simp, rfl⟩

/-- non-vacuity of C42, C78: a response and a request after which nothing, or three bytes, are sent -/
example : (∃ res, Response.parse demoRes [.data [13, 10, 13, 10, 7, 8, 9]] = .ok (some res)) ∧
    ∃ req, Request.parse demoPost [.data [13, 10, 13, 10]] = .ok (some req) := by
  have h1 : (match Response.parse demoRes [.data [13, 10, 13, 10, 7, 8, 9]] with | .ok (some _) => true | _ => false) = true := by
    decide +kernel
  have h2 : (match Request.parse demoPost [.data [13, 10, 13, 10]] with | .ok (some _) => true | _ => false) = true := by
    decide +kernel
  constructor
  · split at h1
    · rename_i r h; exact ⟨r, h⟩
    · cases h1
  · split at h2
    · rename_i r h; exact ⟨r, h⟩
    · cases h2

end Puck
