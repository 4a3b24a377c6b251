import Verif.Lemmas.Waiting
import Verif.Props.Limits
/-!
# What is waited for: C129, C130
-/
namespace Puck
open Http

theorem later_ofHead (env : HttpEnv) (head : Bytes) (r : Buf) (more : Raw) :
    Request.ofHead env head (r.later more) = Except.map (Request.later more) (Request.ofHead env head r) := by
  unfold Request.ofHead
  repeat' split
  all_goals first | rfl | skip

theorem later_ofHeadRes (env : HttpEnv) (head : Bytes) (r : Buf) (more : Raw) :
    Response.ofHead env head (r.later more) = Except.map (Response.later more) (Response.ofHead env head r) := by
  unfold Response.ofHead
  simp only
  repeat' split
  all_goals first | rfl | skip

theorem request_later (env : HttpEnv) {a : Raw} (hw : a.WF) (h : (headLoop requestCap [] ⟨[], a⟩).1 ≠ some none) (more : Raw) :
    Request.parse env (a ++ more) = Except.map (Option.map (Request.later more)) (Request.parse env a) := by
  have hl := headLoop_later (r := ⟨[], a⟩) requestCap_pos hw more h
  unfold Request.parse
  rw [show (⟨[], a ++ more⟩ : Buf) = Buf.later more ⟨[], a⟩ from rfl, hl]
  cases hx : headLoop requestCap [] ⟨[], a⟩ with
  | mk o r =>
    match o with
    | none => rfl
    | some none => rw [hx] at h; exact absurd rfl h
    | some (some head) =>
      simp only [later_ofHead]
      cases Request.ofHead env head r <;> rfl

theorem response_later (env : HttpEnv) {a : Raw} (hw : a.WF) (h : (headLoop responseCap [] ⟨[], a⟩).1 ≠ some none) (more : Raw) :
    Response.parse env (a ++ more) = Except.map (Option.map (Response.later more)) (Response.parse env a) := by
  have hl := headLoop_later (r := ⟨[], a⟩) responseCap_pos hw more h
  unfold Response.parse
  rw [show (⟨[], a ++ more⟩ : Buf) = Buf.later more ⟨[], a⟩ from rfl, hl]
  cases hx : headLoop responseCap [] ⟨[], a⟩ with
  | mk o r =>
    match o with
    | none => rfl
    | some none => rw [hx] at h; exact absurd rfl h
    | some (some head) =>
      simp only [later_ofHeadRes]
      cases Response.ofHead env head r <;> rfl

/-- what decides whether the head loop gets to an end of its own -/
theorem head_decided {cap : Nat} (hcap : 0 < cap) {a : Raw} (hw : a.WF) :
    (headLoop cap [] ⟨[], a⟩).1 ≠ some none ↔ ¬ a.Clean ∨ ∃ h rest, FirstBlank a.avail h rest := by
  cases hl : headLoop cap [] ⟨[], a⟩ with
  | mk o r' =>
    obtain ⟨_, g1, g2, g3⟩ := headLoop_spec hcap (r := ⟨[], a⟩) hw noBlank_nil hl
    simp only [List.nil_append, show Buf.avail ⟨[], a⟩ = a.avail from rfl] at g1 g2 g3
    match o with
    | none => exact ⟨fun _ => Or.inl (g1 rfl).1, fun _ => by simp⟩
    | some none =>
      refine ⟨fun h => absurd rfl h, ?_⟩
      rintro (h | ⟨h, rest, hf⟩)
      · exact absurd (g2 rfl).1 h
      · exact absurd hf.2.1 ((g2 rfl).2 _ _ hf.1)
    | some (some head) => exact ⟨fun _ => Or.inr ⟨head, _, (g3 head rfl).1⟩, fun _ => by simp⟩

theorem wf_fail : Raw.WF [.fail] := by intro b hb; simp at hb

/-- **C129 (heads).** `Request::parse` and `Response::parse` answer - the same whatever comes later, and leaving all of it - exactly when a
blank line or an I/O error has arrived: they never wait for a byte after the blank line. -/
theorem C129_head (env : HttpEnv) (a : Raw) (hw : a.WF) :
    (RequestAnswers env a ↔ ¬ a.Clean ∨ ∃ h rest, FirstBlank a.avail h rest) ∧
    (ResponseAnswers env a ↔ ¬ a.Clean ∨ ∃ h rest, FirstBlank a.avail h rest) := by
  constructor
  · constructor
    · rintro ⟨o, h⟩
      rw [← head_decided requestCap_pos hw]
      intro hn
      have hd := mt (head_decided requestCap_pos hw).2 (not_not_intro hn)
      have hc : a.Clean := Classical.byContradiction fun hc => hd (Or.inl hc)
      have h0 := h [] Raw.WF.nil
      have h1 := h [.fail] wf_fail
      rw [List.append_nil] at h0
      have e0 : Request.parse env a = .ok none := by
        unfold Request.parse
        cases hx : headLoop requestCap [] ⟨[], a⟩ with
        | mk o r => rw [hx] at hn; simp only at hn; subst hn; rfl
      have hnb : NoBlank a.avail := ((C32_incomplete_head env a hw).1.1 e0).2
      have hav : Raw.avail (a ++ [.fail]) = a.avail := by
        clear h h0 h1 e0 hnb hd hn hw
        induction a with
        | nil => rfl
        | cons e a ih =>
          cases e with
          | fail => exact absurd List.mem_cons_self hc
          | data x => simp [Raw.avail, ih hc.tail]
      have e1 := (C32_incomplete_head env (a ++ [.fail]) (hw.append wf_fail)).2.1 (by rw [hav]; exact hnb) (by simp [Raw.Clean])
      rw [e0] at h0
      rw [e1] at h1
      match o with
      | .error e => cases h0
      | .ok x => cases h1
    · intro h
      exact ⟨_, fun more _ => request_later env hw ((head_decided requestCap_pos hw).2 h) more⟩
  · constructor
    · rintro ⟨o, h⟩
      rw [← head_decided responseCap_pos hw]
      intro hn
      have hd := mt (head_decided responseCap_pos hw).2 (not_not_intro hn)
      have hc : a.Clean := Classical.byContradiction fun hc => hd (Or.inl hc)
      have h0 := h [] Raw.WF.nil
      have h1 := h [.fail] wf_fail
      rw [List.append_nil] at h0
      have e0 : Response.parse env a = .ok none := by
        unfold Response.parse
        cases hx : headLoop responseCap [] ⟨[], a⟩ with
        | mk o r => rw [hx] at hn; simp only at hn; subst hn; rfl
      have hav : Raw.avail (a ++ [.fail]) = a.avail := by
        clear h h0 h1 e0 hd hn hw
        induction a with
        | nil => rfl
        | cons e a ih =>
          cases e with
          | fail => exact absurd List.mem_cons_self hc
          | data x => simp [Raw.avail, ih hc.tail]
      have hnb : NoBlank a.avail := by
        cases hx : headLoop responseCap [] ⟨[], a⟩ with
        | mk o r =>
          rw [hx] at hn
          simp only at hn
          have := ((headLoop_spec responseCap_pos (r := ⟨[], a⟩) hw noBlank_nil hx).2.2.1 hn).2
          simpa [Buf.avail] using this
      have e1 : Response.parse env (a ++ [.fail]) = .error .ioError := by
        have hh := (headLoop_none (r := ⟨[], a ++ [.fail]⟩) responseCap_pos (hw.append wf_fail)
          (by simp only [Buf.avail, List.nil_append, hav]; exact hnb)).2 (by simp [Raw.Clean])
        unfold Response.parse
        cases hx : headLoop responseCap [] ⟨[], a ++ [.fail]⟩ with
        | mk o r => rw [hx] at hh; simp only at hh; subst hh; rfl
      rw [e0] at h0
      rw [e1] at h1
      match o with
      | .error e => cases h0
      | .ok x => cases h1
    · intro h
      exact ⟨_, fun more _ => response_later env hw ((head_decided responseCap_pos hw).2 h) more⟩

/-! ## Bodies -/

theorem settled_answers (sched : Nat → Nat) {b : Body} (hw : b.WF) (h : b.Settled) :
    Answers (fun b => b.readToEnd sched 0 []) b :=
  ⟨_, _, fun more _ => Body.readToEnd_later sched more 0 [] b hw h⟩

/-- **C129 (bodies).** A body with a declared length whose bytes have all arrived: reading it to the end - whatever buffers the standard
library uses - or copying it to a writer gives the declared bytes and takes nothing of what comes later: the client may wait for the
answer with the connection open. -/
theorem C129_body (b : Body) (hw : b.WF) (len : Nat) (hl : b.length = some len) (ha : len ≤ b.bytesRead + b.reader.avail.length) :
    (∀ sched, ∃ b', ∀ more : Raw, more.WF →
      (Body.later more b).readToEnd sched 0 [] = (.ok (b.reader.avail.take (len - b.bytesRead)), Body.later more b')) ∧
    (∀ blk s, s.room = none → ∃ b', ∀ more : Raw, more.WF →
      (Body.later more b).copyTo blk s = (.ok (), Body.later more b', { s with out := s.out ++ b.reader.avail.take (len - b.bytesRead) })) := by
  have hs : b.Settled := Or.inl ⟨len, hl, by omega⟩
  have hf : ¬ b.Fails := by rintro ⟨_, h⟩; rw [hl] at h; simp only at h; omega
  have hav : b.avail = b.reader.avail.take (len - b.bytesRead) := by simp [Body.avail, hl]
  constructor
  · intro sched
    refine ⟨(b.readToEnd sched 0 []).2, fun more _ => ?_⟩
    rw [Body.readToEnd_later sched more 0 [] b hw hs]
    obtain ⟨h1, _⟩ := (Body.readToEnd_spec sched _ 0 [] b (Nat.le_refl _) hw).1 hf
    rw [h1, List.nil_append, hav]
  · intro blk s hr
    refine ⟨(b.copyTo blk s).2.1, fun more _ => ?_⟩
    rw [Body.copyTo_later blk more b s hw hs]
    obtain ⟨h1, h2, _⟩ := Body.copyTo_spec blk _ b s (Nat.le_refl _) hw
    have hwr : s.writeAll b.avail = (true, { s with out := s.out ++ b.avail }) := by
      cases s; subst hr; exact Sink.writeAll_none _ _
    rw [hwr] at h1 h2
    rw [h1, (h2 hf rfl).1, hav]

/-- **C129 (requests).** On a connection on which a request with a declared body has arrived, `Request::parse` and then reading the body return
the request and its body, the same whatever the client sends later and whether or not it closes the connection, and leave all of that. -/
theorem C129_request (env : HttpEnv) (W : Nat) (sched : Nat → Nat) (a : Raw) (hw : a.WF) (head after : Bytes) (hf : FirstBlank a.avail head after)
    (req : Request) (hreq : Request.parse env a = .ok (some req)) (n : Nat) (hn : req.body.length = some n) (hl : n ≤ after.length) :
    ∃ b', ∀ more : Raw, more.WF → ∃ req', Request.parse env (a ++ more) = .ok (some req') ∧
      req'.method = req.method ∧ req'.url = req.url ∧ req'.headers = req.headers ∧
      req'.body.readToEnd sched 0 [] = (.ok (after.take n), Body.later more b') ∧
      (∀ s, strBytes s = after.take n → n ≤ isizeMax W → req'.body.intoString W sched = .ok s) := by
  obtain ⟨b1, b2, b3, b4⟩ := (C31_head_and_body env a hw head after hf).2.2 req hreq
  have hd : (headLoop requestCap [] ⟨[], a⟩).1 ≠ some none := (head_decided requestCap_pos hw).2 (Or.inr ⟨_, _, hf⟩)
  obtain ⟨b', hb'⟩ := (C129_body req.body b3 n hn (by rw [b1]; omega)).1 sched
  refine ⟨b', fun more hm => ⟨Request.later more req, ?_, rfl, rfl, rfl, ?_, ?_⟩⟩
  · rw [request_later env hw hd, hreq]; rfl
  · have := hb' more hm
    rw [b1, b4] at this
    exact this
  · intro s hs hle
    have := hb' more hm
    rw [b1, b4] at this
    refine (C29_into_string W sched _ s).2 ⟨?_, ?_⟩
    · show (req.body.length).getD 0 ≤ _
      rw [hn]; exact hle
    · show ((Body.later more req.body).readToEnd sched 0 []).1 = _
      rw [this, hs]; rfl

/-! ## C130 -/

theorem later_fails {b : Body} (hw : b.WF) {cap : Nat} {r : Buf} (hr : b.reader = .buf cap r) (h : ¬ b.Settled) :
    (Body.later [.fail] b).Fails ∧ (Body.later [.fail] b).WF ∧ ¬ b.Fails := by
  have hc : b.reader.Clean := Classical.byContradiction fun hc => h (Or.inr (Or.inl hc))
  have hav : (Src.later [.fail] b.reader).avail = b.reader.avail := by
    rw [hr] at hc ⊢
    have hc' : r.raw.Clean := hc
    simp only [Src.later, Src.avail]
    congr 1
    generalize r.raw = a at hc'
    induction a with
    | nil => rfl
    | cons e a ih =>
      cases e with
      | fail => exact absurd List.mem_cons_self hc'
      | data x => simp [Raw.avail, ih hc'.tail]
  refine ⟨⟨?_, ?_⟩, ⟨?_, hw.2⟩, fun hf => hf.1 hc⟩
  · simp only [Body.later, hr, Src.later, Src.Clean, Raw.Clean]
    simp
  · show match b.length with | none => True | some len => (Src.later [.fail] b.reader).avail.length < len - b.bytesRead
    rw [hav]
    cases hlen : b.length with
    | none => trivial
    | some len => exact Nat.lt_of_not_le fun hle => h (Or.inl ⟨len, hlen, hle⟩)
  · have := hw.1
    rw [hr] at this
    simp only [Body.later, hr, Src.later, Src.WF]
    exact ⟨this.1, this.2.append wf_fail⟩

/-- A body read from a connection answers exactly when it is declared and has arrived, or an I/O error has. -/
theorem answers_iff (sched : Nat → Nat) {b : Body} (hw : b.WF) {cap : Nat} {r : Buf} (hr : b.reader = .buf cap r) :
    Answers (fun b => b.readToEnd sched 0 []) b ↔ b.Settled := by
  refine ⟨fun ⟨x, b', h⟩ => ?_, settled_answers sched hw⟩
  apply Classical.byContradiction
  intro hn
  obtain ⟨h1, h2, h3⟩ := later_fails hw hr hn
  have e1 := congrArg Prod.fst (h [.fail] wf_fail)
  have e0 := congrArg Prod.fst (h [] Raw.WF.nil)
  have hb : Body.later [] b = b := by
    cases b with
    | mk rd m l n => simp only at hr; subst hr; simp [Body.later, Src.later]
  simp only [hb] at e0
  simp only at e1
  rw [((Body.readToEnd_spec sched _ 0 [] _ (Nat.le_refl _) h2).2 h1)] at e1
  rw [((Body.readToEnd_spec sched _ 0 [] b (Nat.le_refl _) hw).1 h3).1] at e0
  rw [← e1] at e0
  cases e0

/-- **C130, exactly.** Reading the body of a received request to its end returns without anything more from the client if and only if the
connection has failed, or the request declared a length (one spelling of Content-Length, a number) and that many bytes have arrived after
the head.  In particular a request with no (readable) Content-Length - by RFC 7230 3.3.3 its body is empty - is waited on until the client
closes the connection. -/
theorem C130_exact_partial (env : HttpEnv) (henv : env.Valid) (sched : Nat → Nat) (a : Raw) (hw : a.WF) (req : Request)
    (h : Request.parse env a = .ok (some req)) :
    ∃ head after q, FirstBlank a.avail head after ∧ env.httparse head = some q ∧
      (¬ HasHeader q "content-length" → (Answers (fun b => b.readToEnd sched 0 []) req.body ↔ ¬ a.Clean)) ∧
      (∀ k v, Ascii.lowered k = strBytes "content-length" → lastValue q.headers k = some (strBytes v) →
        (∀ k' ∈ q.headers.map (·.1), Ascii.lowered k' = strBytes "content-length" → k' = k) →
        (∀ n, Decimal.DenotesNat (strBytes v) n → n < 2 ^ env.W →
          (Answers (fun b => b.readToEnd sched 0 []) req.body ↔ ¬ a.Clean ∨ n ≤ after.length)) ∧
        ((¬ ∃ n, Decimal.DenotesNat (strBytes v) n ∧ n < 2 ^ env.W) →
          (Answers (fun b => b.readToEnd sched 0 []) req.body ↔ ¬ a.Clean))) := by
  obtain ⟨head, after, hf⟩ := (C32_incomplete_head env a hw).2.2 req h
  obtain ⟨r, h1, h2, h3, h4⟩ := parse_found (env := env) hw hf
  rw [h1] at h
  cases ho : Request.ofHead env head r with
  | error e => rw [ho] at h; cases h
  | ok q' =>
    rw [ho] at h
    have : q' = req := by simpa [Except.map] using h
    subst this
    obtain ⟨q, m, hdrs, host, g1, g2, g3, g4, g5, g6, g7, g8⟩ := ofHead_ok ho
    obtain ⟨d1, d2⟩ := (collectHeaders_spec q.headers [] Headers.distinct_nil).2 hdrs g3
    have hwf : (Src.buf requestCap r).WF := ⟨requestCap_pos, h4⟩
    have key : ∀ l, Answers (fun b => b.readToEnd sched 0 []) (Body.fromReader (.buf requestCap r) l) ↔
        ¬ a.Clean ∨ ∃ n, l = some n ∧ n ≤ after.length := by
      intro l
      rw [answers_iff sched (b := Body.fromReader (.buf requestCap r) l) ⟨hwf, by simp [Body.fromReader]⟩ rfl]
      have hc : (Src.buf requestCap r).Clean ↔ a.Clean := h3.symm
      have hav : (Src.buf requestCap r).avail = after := h2
      constructor
      · rintro (⟨n, k1, k2⟩ | k | ⟨c, k⟩)
        · refine Or.inr ⟨n, k1, ?_⟩
          simp only [Body.fromReader, hav] at k2
          omega
        · exact Or.inl fun hh => k (hc.2 hh)
        · cases k
      · rintro (k | ⟨n, k1, k2⟩)
        · exact Or.inr (Or.inl fun hh => k (hc.1 hh))
        · refine Or.inl ⟨n, k1, ?_⟩
          simp only [Body.fromReader, hav]
          omega
    refine ⟨head, after, q, hf, g1, ?_, ?_⟩
    · intro hno
      have : findIgnoreCase env hdrs "content-length" = none := by
        rw [findIgnoreCase_none henv, lower_cl]
        intro k hk hl
        exact hno ⟨k, (collectHeaders_keys g3 k).1 hk, hl⟩
      rw [g8, this, key]; simp
    · intro k v hk hv hu
      have hget : hdrs.get k = some v := by
        have := d2 k
        rw [hv] at this
        cases hg : hdrs.get k with
        | none => rw [hg] at this; simp [Headers.get] at this
        | some v' => rw [hg] at this; simp [strBytes_inj] at this; rw [this]
      have hmem : (k, v) ∈ hdrs := (Headers.get_eq_some d1).1 hget
      have hfi : findIgnoreCase env hdrs "content-length" = some v := by
        refine findIgnoreCase_perm henv d1 hmem (by rw [hk, lower_cl]) ?_
        intro k' hk' hl
        exact hu k' ((collectHeaders_keys g3 k').1 hk') (by rw [hl, lower_cl])
      rw [g8, hfi]
      refine ⟨fun n hn hlt => ?_, fun hno => ?_⟩
      · have : parseUsize env.W v = some n := parseUsize_iff.2 ⟨hn, hlt⟩
        simp only [Option.bind_some, this]
        rw [key]; simp
      · have : parseUsize env.W v = none := by
          cases hp : parseUsize env.W v with
          | none => rfl
          | some n => exact absurd ⟨n, parseUsize_iff.1 hp⟩ hno
        simp only [Option.bind_some, this]
        rw [key]; simp

/-- **C130 is false**: a plain GET, complete as sent.  `Request::parse` answers, but a handler that reads the request's body waits until
the client closes the connection - which a client waiting for its answer does not do. -/
theorem C130_get_refuted (sched : Nat → Nat) :
    RequestAnswers demoEnv [.data (strBytes "GET / HTTP/1.1\r\nHost: a\r\n\r\n")] ∧
    ∃ req, Request.parse demoEnv [.data (strBytes "GET / HTTP/1.1\r\nHost: a\r\n\r\n")] = .ok (some req) ∧ req.method = .get ∧
      ¬ Answers (fun b => b.readToEnd sched 0 []) req.body := by
  have hw : Raw.WF [.data (strBytes "GET / HTTP/1.1\r\nHost: a\r\n\r\n")] := by
    intro b hb; simp at hb; subst hb; decide +kernel
  have hc : Raw.Clean [.data (strBytes "GET / HTTP/1.1\r\nHost: a\r\n\r\n")] := by simp [Raw.Clean]
  obtain ⟨req, h1, h2, _⟩ := C78_pipelined_refuted sched _ hw hc [] (by simp [Raw.avail])
  obtain ⟨head, after, q, hf, hq, h3, _⟩ := C130_exact_partial demoEnv (fun _ => .refl _) sched _ hw req h1
  refine ⟨(C129_head demoEnv _ hw).1.2 (Or.inr ⟨_, _, hf⟩), req, h1, h2, fun h => ?_⟩
  have hf' : FirstBlank (Raw.avail [.data (strBytes "GET / HTTP/1.1\r\nHost: a\r\n\r\n")]) (strBytes "GET / HTTP/1.1\r\nHost: a\r\n\r\n") [] := by
    have h := firstBlank_of (pre := strBytes "GET / HTTP/1.1\r\nHost: a") (rest := [])
      (noBlank_of_check (by decide +kernel))
    have e2 : strBytes "GET / HTTP/1.1\r\nHost: a\r\n\r\n" = strBytes "GET / HTTP/1.1\r\nHost: a" ++ blank := by
      decide +kernel
    simp only [Raw.avail]
    rw [e2]; exact h
  obtain ⟨rfl, rfl⟩ := firstBlank_unique hf hf'
  have hq' : demoEnv.httparse (strBytes "GET / HTTP/1.1\r\nHost: a\r\n\r\n") =
      some ⟨some "GET", some "/", [("Host", strBytes "a")]⟩ := by decide +kernel
  rw [hq'] at hq
  cases hq
  refine (h3 ?_).1 h hc
  rintro ⟨k, hk, hl⟩
  simp at hk
  subst hk
  revert hl
  decide +kernel

theorem firstBlank_more {x h rest : Bytes} (hf : FirstBlank x h rest) (y : Bytes) : FirstBlank (x ++ y) h (rest ++ y) := by
  obtain ⟨h1, h2, h3⟩ := hf
  refine ⟨by rw [h1, List.append_assoc], h2, fun h' rest' he hb => ?_⟩
  apply Nat.le_of_not_lt
  intro hlt
  have hp : h' <+: x := by
    refine List.prefix_of_prefix_length_le ⟨rest', he.symm⟩ (List.prefix_append x y) ?_
    rw [h1, List.length_append]; omega
  obtain ⟨t, ht⟩ := hp
  have := h3 h' t ht.symm hb
  omega

/-- **C130 is false (responses)**: reading the body of a response whose Content-Type is not a number, whatever its Content-Length, waits
until the server closes the connection. -/
theorem C130_response_refuted (env : HttpEnv) (henv : env.Valid) (sched : Nat → Nat) (a : Raw) (hw : a.WF) (hc : a.Clean) (h rest : Bytes)
    (hf : FirstBlank a.avail h rest) (code : Nat) (reason : String)
    (fs : List (String × Bytes)) (hp : env.httparseRes h = ⟨some code, some reason, fs⟩)
    (hutf : ∀ p ∈ fs, ∃ v, p.2 = strBytes v)
    (hct : ∀ k v, lastValue fs k = some (strBytes v) → Ascii.lowered k = strBytes "content-type" →
      ¬ ∃ n, Decimal.DenotesNat (strBytes v) n ∧ n < 2 ^ env.W) :
    ∃ res, Response.parse env a = .ok (some res) ∧ ¬ Answers (fun b => b.readToEnd sched 0 []) res.body := by
  have hd : (headLoop responseCap [] ⟨[], a⟩).1 ≠ some none := (head_decided responseCap_pos hw).2 (Or.inr ⟨_, _, hf⟩)
  obtain ⟨res, h1, _⟩ := C42_content_length_refuted env henv sched a hw hc h rest hf code reason fs hp hutf hct
  refine ⟨res, h1, fun ⟨x, b', hans⟩ => ?_⟩
  have key : ∀ y : Bytes, y ≠ [] → (res.body.later [.data y]).intoBytes sched = .ok (rest ++ y) := by
    intro y hy
    have hav : Raw.avail (a ++ [.data y]) = a.avail ++ y := by
      clear hf hd h1 hans hw
      induction a with
      | nil => simp [Raw.avail]
      | cons e a ih =>
        cases e with
        | fail => exact absurd List.mem_cons_self hc
        | data x => simp [Raw.avail, ih hc.tail]
    have hcy : Raw.Clean (a ++ [.data y]) := by
      intro hm
      simp only [List.mem_append, List.mem_singleton, reduceCtorEq, or_false] at hm
      exact hc hm
    obtain ⟨res', g1, _, _, _, _, g2⟩ := C42_content_length_refuted env henv sched (a ++ [.data y]) (hw.append (Raw.WF.nil.cons hy)) hcy h (rest ++ y)
      (by rw [hav]; exact firstBlank_more hf y) code reason fs hp hutf hct
    rw [response_later env hw hd, h1] at g1
    simp only [Except.map, Option.map, Except.ok.injEq, Option.some.injEq] at g1
    subst g1
    exact g2
  have k1 := key [0] (by simp)
  have k2 := key [1] (by simp)
  have e1 := congrArg Prod.fst (hans [.data [0]] (Raw.WF.nil.cons (by simp)))
  have e2 := congrArg Prod.fst (hans [.data [1]] (Raw.WF.nil.cons (by simp)))
  simp only [Body.intoBytes] at k1 k2
  simp only at e1 e2
  rw [k1] at e1; rw [k2] at e2
  rw [← e1] at e2
  simp at e2

/-- non-vacuity of C129: a POST of which two bytes are the body; and of C130 for responses: one with `Content-Length: 1` -/
example : (∃ req, Request.parse demoPost [.data [13, 10, 13, 10, 7], .data [8]] = .ok (some req) ∧ req.body.length = some 2) ∧
    (∃ res, Response.parse demoRes [.data [13, 10, 13, 10, 7, 8, 9]] = .ok (some res) ∧ res.body.length = none) := by
  have h1 : (match Request.parse demoPost [.data [13, 10, 13, 10, 7], .data [8]] with | .ok (some r) => r.body.length == some 2 | _ => false) = true := by
    decide +kernel
  have h2 : (match Response.parse demoRes [.data [13, 10, 13, 10, 7, 8, 9]] with | .ok (some r) => r.body.length == none | _ => false) = true := by
    decide +kernel
  constructor
  · split at h1
    · rename_i r h; exact ⟨r, h, by simpa using h1⟩
    · cases h1
  · split at h2
    · rename_i r h; exact ⟨r, h, by simpa using h2⟩
    · cases h2

end Puck
