import Verif.Props.Framing
import Verif.Props.Limits
/-!
# Exact conditions for C78, C80 and C121
-/
namespace Puck
open Http

/-- **C78, exactly.** The body of a request without Content-Length is empty if and only if nothing follows its head. -/
theorem C78_exact_partial (env : HttpEnv) (henv : env.Valid) (sched : Nat → Nat) (raw : Raw) (hw : raw.WF) (hclean : raw.Clean)
    (req : Request) (hp : Request.parse env raw = .ok (some req)) :
    ∃ head rest q, FirstBlank raw.avail head rest ∧ env.httparse head = some q ∧
      (¬ HasHeader q "content-length" → (req.body.intoBytes sched = .ok [] ↔ rest = [])) := by
  obtain ⟨head, rest, q, h1, h2, h3, -⟩ := C77_content_length env henv sched raw hw hclean req hp
  refine ⟨head, rest, q, h1, h2, fun hn => ?_⟩
  rw [h3 hn]
  constructor
  · intro h; injection h
  · rintro rfl; rfl

/-- **C80, exactly.** On a working connection a request is upgraded if and only if it has a header `Upgrade` that is `websocket` ignoring case, a header
`Connection` that contains `upgrade` ignoring case, and a header `Sec-WebSocket-Key`; nothing else about it matters. -/
theorem C80_exact_partial (env : HttpEnv) (henv : env.Valid) (sha1 : Bytes → Bytes) (r : Request) (s : Sink) (hs : s.room = none) :
    (∃ st s', Stream.upgrade env sha1 r s = (.ok st, s')) ↔
      (∃ v, r.headers.get "Upgrade" = some v ∧ Ascii.lowered v = strBytes "websocket") ∧
      (∃ v, r.headers.get "Connection" = some v ∧ strBytes "upgrade" <:+: Ascii.lowered v) ∧
      (∃ key, r.headers.get "Sec-WebSocket-Key" = some key) := by
  constructor
  · rintro ⟨st, s', h⟩
    obtain ⟨h1, h2, h3, -⟩ := C80_headers_partial env sha1 r s s' st h
    exact ⟨h1, h2, h3⟩
  · rintro ⟨h1, h2, key, h3⟩
    obtain ⟨accept, -, h⟩ := (C27_upgrade env henv sha1 r s hs).1 key ((C24_decision_partial r).2 ⟨h1, h2⟩) h3
    exact ⟨_, _, h⟩

/-- **C121, exactly, without Transfer-Encoding.** A request whose Content-Length (if any) is given under one spelling: the handler reads the body that the
client framed if and only if there is a Content-Length or nothing follows the head. -/
theorem C121_exact_partial (env : HttpEnv) (henv : env.Valid) (hp : RequestContract env.httparse) {m t : String} {fs : List (String × Bytes)}
    {hostName host : String} (hg : GoodHead m t fs hostName host) {u : Url} (hu : env.parseUrl ("http://" ++ host ++ t) = some u)
    (raw : Raw) (hw : raw.WF) (hc : raw.Clean) (after : Bytes) (hav : raw.avail = headBytes m t fs ++ after) (sched : Nat → Nat)
    (body : Bytes) (h : FramedBody fs after body) (hte : ¬ Given fs "transfer-encoding")
    (hone : ∀ p ∈ fs, ∀ q ∈ fs, Ascii.lowered p.1 = strBytes "content-length" → Ascii.lowered q.1 = strBytes "content-length" → p.1 = q.1)
    (hbig : after.length < 2 ^ env.W) :
    (∃ req, Request.parse env raw = .ok (some req) ∧ req.body.intoBytes sched = .ok body) ↔ (Given fs "content-length" ∨ after = []) := by
  constructor
  · rintro ⟨req, h1, h2⟩
    by_cases hcl : Given fs "content-length"
    · exact Or.inl hcl
    · right
      obtain ⟨req', g1, g2, -⟩ := framed_body env henv hp hg hu raw hw hc after hav sched
      rw [h1] at g1
      simp only [Except.ok.injEq, Option.some.injEq] at g1
      subst g1
      rw [g2 hcl] at h2
      have h2 : after = body := by injection h2
      cases h with
      | chunked cs next h => obtain ⟨p, h, hk, _⟩ := h; exact absurd ⟨p, h, hk⟩ hte
      | empty _ _ => exact h2
      | length n _ h _ _ => exact absurd h hcl
  · rintro (hcl | rfl)
    · exact C121_length_partial env henv hp hg hu raw hw hc after hav sched body h hte hcl hone hbig
    · by_cases hcl : Given fs "content-length"
      · exact C121_length_partial env henv hp hg hu raw hw hc [] hav sched body h hte hcl hone hbig
      · obtain ⟨req', g1, g2, -⟩ := framed_body env henv hp hg hu raw hw hc [] hav sched
        refine ⟨req', g1, ?_⟩
        rw [g2 hcl]
        cases h with
        | chunked cs next h => obtain ⟨p, h, hk, _⟩ := h; exact absurd ⟨p, h, hk⟩ hte
        | empty _ _ => rfl
        | length n _ h _ _ => exact absurd h hcl

/-- C78: a plain GET with something after it. -/
example (sched : Nat → Nat) : ∃ req, Request.parse demoEnv [.data (strBytes "GET / HTTP/1.1\r\nHost: a\r\n\r\nGET")] = .ok (some req) ∧
    req.body.intoBytes sched ≠ .ok [] := by
  obtain ⟨req, h1, -, h2⟩ := C78_pipelined_refuted sched [.data (strBytes "GET / HTTP/1.1\r\nHost: a\r\n\r\nGET")] (Raw.WF.nil.cons (by decide +kernel))
    (by simp [Raw.Clean]) (strBytes "GET") (by simp only [Raw.avail, List.append_nil]; decide +kernel)
  refine ⟨req, h1, ?_⟩
  rw [h2]
  intro h
  injection h with h
  exact absurd h (by decide +kernel)

/-- C80: a POST without a version is upgraded; without `Connection` it is not. -/
example (env : HttpEnv) (henv : env.Valid) (sha1 : Bytes → Bytes) :
    (∃ st s', Stream.upgrade env sha1 ⟨[("Upgrade", "WebSocket"), ("Connection", "keep-alive, Upgrade"), ("Sec-WebSocket-Key", "x")], .post, Body.empty,
      ⟨"http://a", "/", none⟩⟩ ⟨[], none⟩ = (.ok st, s')) ∧
    ¬ (∃ st s', Stream.upgrade env sha1 ⟨[("Upgrade", "WebSocket"), ("Sec-WebSocket-Key", "x")], .post, Body.empty,
      ⟨"http://a", "/", none⟩⟩ ⟨[], none⟩ = (.ok st, s')) := by
  constructor
  · refine (C80_exact_partial env henv sha1 _ ⟨[], none⟩ rfl).2 ⟨⟨"WebSocket", by decide, by decide +kernel⟩,
      ⟨"keep-alive, Upgrade", by decide, ⟨strBytes "keep-alive, ", [], by decide +kernel⟩⟩, "x", by decide⟩
  · intro h
    obtain ⟨-, ⟨v, hv, -⟩, -⟩ := (C80_exact_partial env henv sha1 _ ⟨[], none⟩ rfl).1 h
    simp [Headers.get] at hv

end Puck
