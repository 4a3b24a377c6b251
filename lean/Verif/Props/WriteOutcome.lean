import Verif.Props.RoundTrip
import Verif.Props.Init
/-!
# Writing a request reports its outcome (C128); the chat's answers on connections that break (C98)
-/
namespace Puck
open Http

theorem writeAll_out (wire : Bytes) (s : Sink) : (s.writeAll wire).2.out = s.out ++ wire.take (s.room.getD wire.length) := by
  unfold Sink.writeAll
  cases s.room with
  | none => simp
  | some k =>
    by_cases h : wire.length ≤ k
    · simp [h, List.take_of_length_le h]
    · simp [h]

theorem writeAll_fits (wire : Bytes) (s : Sink) : (s.writeAll wire).1 = true ↔ ∀ k, s.room = some k → wire.length ≤ k := by
  unfold Sink.writeAll
  cases s.room with
  | none => simp
  | some k => by_cases h : wire.length ≤ k <;> simp [h]

/-- **C128.** `Request::write` never crashes.  It returns `Ok` exactly if the body could be read to its end and the connection took every byte of the request; otherwise it
returns `Err`.  What the connection has got is always the request's bytes - the request line, each header once, a blank line, the body - as far
as the connection took them; for a body that fails they end where the body failed. -/
theorem C128_outcome (env : HttpEnv) (henv : env.Valid) (r : Request) (hw : r.body.WF) (s : Sink) :
    ∃ hs : Headers, hs.Perm r.headers ∧
      let wire := Http.head (requestLine (strBytes r.method.text) (strBytes r.url.path)) (hs.map fun p => (strBytes p.1, strBytes p.2)) ++ r.body.avail
      let Sent := ¬ r.body.Fails ∧ ∀ k, s.room = some k → wire.length ≤ k
      (r.write env s).1 ≠ .panic ∧ ((r.write env s).1 = .ok () ↔ Sent) ∧ ((r.write env s).1 = .err () ↔ ¬ Sent) ∧
      (r.write env s).2.2.out = s.out ++ wire.take (s.room.getD wire.length) := by
  refine ⟨env.ord r.headers, henv _, ?_⟩
  intro wire Sent
  have key : (r.write env s).2.2 = (s.writeAll wire).2 ∧
      ((Sent ∧ (r.write env s).1 = .ok ()) ∨ (¬ Sent ∧ (r.write env s).1 = .err ())) := by
    unfold Request.write
    rw [Sink.writeEach_eq, Request.head_eq]
    have hf := writeAll_fits wire s
    have ha := Sink.writeAll_append (Http.head (requestLine (strBytes r.method.text) (strBytes r.url.path))
      ((asFields (env.ord r.headers)).map rawField)) r.body.avail s
    have hwire : Http.head (requestLine (strBytes r.method.text) (strBytes r.url.path)) ((asFields (env.ord r.headers)).map rawField) ++
        r.body.avail = wire := by rw [asFields_raw]
    rw [hwire] at ha
    cases h : s.writeAll (Http.head (requestLine (strBytes r.method.text) (strBytes r.url.path))
        ((asFields (env.ord r.headers)).map rawField)) with
    | mk ok s' =>
      rw [h] at ha
      cases ok with
      | false =>
        simp only at ha ⊢
        rw [ha] at hf
        refine ⟨by rw [ha], .inr ⟨fun hs => ?_, trivial⟩⟩
        have := hf.mpr hs.2
        simp at this
      | true =>
        simp only at ha ⊢
        obtain ⟨c1, c2, c3⟩ := Body.copyTo_spec copyBlk _ r.body s' (Nat.le_refl _) hw
        cases hc : r.body.copyTo copyBlk s' with
        | mk o bs =>
          obtain ⟨b, s''⟩ := bs
          rw [hc] at c1 c2 c3
          simp only at c1 c2 c3 ⊢
          refine ⟨by rw [ha]; exact c1, ?_⟩
          rw [ha] at hf
          by_cases hF : r.body.Fails
          · exact .inr ⟨fun h => h.1 hF, c3 (.inl hF)⟩
          · cases hb : (s'.writeAll r.body.avail).1 with
            | false => exact .inr ⟨fun h => (by rw [hf.mpr h.2] at hb; cases hb), c3 (.inr hb)⟩
            | true => exact .inl ⟨⟨hF, hf.mp hb⟩, (c2 hF hb).1⟩
  obtain ⟨k1, k2⟩ := key
  refine ⟨?_, ?_, ?_, by rw [k1]; exact writeAll_out wire s⟩ <;> rcases k2 with ⟨h, e⟩ | ⟨h, e⟩ <;> rw [e] <;> simp [h]

/-- a request and connections that meet the hypotheses, with both outcomes -/
theorem C128_witness (env : HttpEnv) (henv : env.Valid) :
    let r : Request := ⟨[("Host", "a.b")], .get, Body.empty, ⟨"http://a.b", "/x", none⟩⟩
    (r.write env ⟨[], none⟩).1 = .ok () ∧ (r.write env ⟨[], none⟩).2.2.out = strBytes "GET /x HTTP/1.1\r\nHost: a.b\r\n\r\n" ∧
    (r.write env ⟨[], some 10⟩).1 = .err () ∧ (r.write env ⟨[], some 10⟩).2.2.out = strBytes "GET /x HTT" := by
  intro r
  have hw : r.body.WF := ⟨trivial, by simp [r, Body.empty]⟩
  have hf : ¬ r.body.Fails := by simp [r, Body.empty, Body.Fails, Src.Clean]
  obtain ⟨hs, p1, -, a1, -, a2⟩ := C128_outcome env henv r hw ⟨[], none⟩
  obtain ⟨hs', p2, -, -, b1, b2⟩ := C128_outcome env henv r hw ⟨[], some 10⟩
  have e1 : hs = [("Host", "a.b")] := List.perm_singleton.mp p1
  have e2 : hs' = [("Host", "a.b")] := List.perm_singleton.mp p2
  subst e1 e2
  refine ⟨a1.mpr ⟨hf, by simp⟩, ?_, b1.mpr ?_, ?_⟩
  · rw [a2]; decide +kernel
  · rintro ⟨-, h⟩
    have := h 10 rfl
    revert this
    decide +kernel
  · rw [b2]; decide +kernel

/-- **C98, connections that break.** If the connection cannot take the whole of the chat application's answer, the process that serves it crashes and the client has
got the beginning of that one answer and nothing else. -/
theorem C98_broken (env : HttpEnv) (henv : env.Valid) (sha1 : Bytes → Bytes) (script : String) (req : Request) (s : Sink) (k : Nat)
    (hs : s.room = some k) :
    (req.url.path = "/" → k < (pageBytes "text/html" indexHtml).length → Router.respond (chatRoutes env sha1 script) req () s =
      (.panic, ⟨s.out ++ (pageBytes "text/html" indexHtml).take k, some 0⟩)) ∧
    (req.url.path = "/js" → k < (pageBytes "application/javascript" script).length → Router.respond (chatRoutes env sha1 script) req () s =
      (.panic, ⟨s.out ++ (pageBytes "application/javascript" script).take k, some 0⟩)) ∧
    (req.url.path = "/ws" →
      (∀ key, shouldUpgrade req = true → req.headers.get "Sec-WebSocket-Key" = some key →
        ∃ accept, Base64.decode accept = some (sha1 (strBytes key ++ strBytes "258EAFA5-E914-47DA-95CA-C5AB0DC85B11")) ∧
          (k < (switchingBytes accept).length → Router.respond (chatRoutes env sha1 script) req () s =
            (.panic, ⟨s.out ++ (switchingBytes accept).take k, some 0⟩))) ∧
      (shouldUpgrade req = false ∨ req.headers.get "Sec-WebSocket-Key" = none → k < badRequestBytes.length →
        Router.respond (chatRoutes env sha1 script) req () s = (.panic, ⟨s.out ++ badRequestBytes.take k, some 0⟩))) := by
  have m1 := static_one "js" (by decide +kernel) req.url
  have m2 := static_one "" (by decide +kernel) req.url
  have m3 := static_one "ws" (by decide +kernel) req.url
  have e1 : "/" ++ "js" = "/js" := by decide +kernel
  have e2 : "/" ++ "" = "/" := by decide +kernel
  have e3 : "/" ++ "ws" = "/ws" := by decide +kernel
  rw [e1] at m1; rw [e2] at m2; rw [e3] at m3
  obtain ⟨c1, c2⟩ := C96_broken_connection env henv script s k hs
  have hr : Router.respond (chatRoutes env sha1 script) req () s =
      if doesMatch [.static "js"] req.url then respondUnwrap env (initJs script) s
      else if doesMatch [.static ""] req.url then respondUnwrap env initIndex s
      else if doesMatch [.static "ws"] req.url then socketHandler env sha1 req s else (.ok (), s) := rfl
  rw [hr]
  refine ⟨fun h hk => ?_, fun h hk => ?_, fun h => ?_⟩
  · have f1 : ¬ doesMatch [.static "js"] req.url = true := by rw [m1, h]; decide
    rw [if_neg f1, if_pos (m2.mpr h), c1 hk]
  · rw [if_pos (m1.mpr h), c2 hk]
  · have f1 : ¬ doesMatch [.static "js"] req.url = true := by rw [m1, h]; decide
    have f2 : ¬ doesMatch [.static ""] req.url = true := by rw [m2, h]; decide
    rw [if_neg f1, if_neg f2, if_pos (m3.mpr h)]
    obtain ⟨u1, u2⟩ := C27_broken env henv sha1 req s k hs
    refine ⟨fun key hk1 hk2 => ?_, fun hn hk => ?_⟩
    · obtain ⟨accept, a1, a2, -⟩ := u1 key hk1 hk2
      exact ⟨accept, a1, fun hk => by simp only [socketHandler, a2 hk]⟩
    · simp only [socketHandler, (u2 hn).1 hk]

end Puck
