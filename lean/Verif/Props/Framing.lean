import Verif.Props.Socket
import Verif.Spec.Framing
/-!
# The body the client framed is the body the handler reads (C121)
-/
namespace Puck
open Http Rfc6455

theorem chunk_longer (d : Bytes) : d.length + 4 ≤ (chunk d).length := by simp [chunk]

theorem chunked_longer (cs : List Bytes) : cs.flatten.length < (chunked cs).length := by
  have : cs.flatten.length ≤ ((cs.map chunk).flatten).length := by
    induction cs with
    | nil => simp
    | cons c cs ih =>
      rw [List.map_cons, List.flatten_cons, List.flatten_cons, List.length_append, List.length_append]
      have := chunk_longer c
      omega
  rw [chunked, List.length_append]
  simp only [List.length_cons, List.length_nil]
  omega

section
variable (env : HttpEnv) (henv : env.Valid) (hp : RequestContract env.httparse) {m t : String} {fs : List (String × Bytes)}
  {hostName host : String} (hg : GoodHead m t fs hostName host) {u : Url} (hu : env.parseUrl ("http://" ++ host ++ t) = some u)
  (raw : Raw) (hw : raw.WF) (hc : raw.Clean) (after : Bytes) (hav : raw.avail = headBytes m t fs ++ after) (sched : Nat → Nat)
include henv hp hg hu hw hc hav

/-- the body of a request, by its header fields -/
theorem framed_body : ∃ req, Request.parse env raw = .ok (some req) ∧
    (¬ Given fs "content-length" → req.body.intoBytes sched = .ok after) ∧
    (∀ k v, Ascii.lowered k = strBytes "content-length" → lastValue fs k = some (strBytes v) →
        (∀ p ∈ fs, Ascii.lowered p.1 = strBytes "content-length" → p.1 = k) →
        ∀ n, Decimal.DenotesNat (strBytes v) n → n < 2 ^ env.W → req.body.intoBytes sched = .ok (after.take n)) := by
  obtain ⟨req, h1, _⟩ := request_of_head env henv hp hg hu raw hw after hav
  obtain ⟨head, rest, q, g1, g2, g3, g4⟩ := C77_content_length env henv sched raw hw hc req h1
  obtain ⟨rfl, rfl⟩ := firstBlank_unique g1 (by rw [hav]; exact headBytes_blank hg after)
  have hq := hp m t fs hg.method hg.target.1 hg.fields hg.few
  rw [show headBytes m t fs = Http.head (requestLine (strBytes m) (strBytes t)) (fs.map rawField) from rfl, hq, Option.some.injEq] at g2
  subst g2
  refine ⟨req, h1, fun hn => g3 ?_, fun k v hk hv hone => (g4 k v hk hv ?_).1⟩
  · rintro ⟨k, hk, hl⟩
    obtain ⟨p, hp, rfl⟩ := List.mem_map.1 hk
    exact hn ⟨p, hp, hl⟩
  · intro k' hk' hl
    obtain ⟨p, hp, rfl⟩ := List.mem_map.1 hk'
    exact hone p hp hl

/-- **C121 (what holds).** Without Transfer-Encoding, and with Content-Length given once (or several times under one spelling, with the same number),
the handler reads exactly the body that the client framed. -/
theorem C121_length_partial (body : Bytes) (h : FramedBody fs after body) (hte : ¬ Given fs "transfer-encoding") (hcl : Given fs "content-length")
    (hone : ∀ p ∈ fs, ∀ q ∈ fs, Ascii.lowered p.1 = strBytes "content-length" → Ascii.lowered q.1 = strBytes "content-length" → p.1 = q.1)
    (hbig : after.length < 2 ^ env.W) :
    ∃ req, Request.parse env raw = .ok (some req) ∧ req.body.intoBytes sched = .ok body := by
  obtain ⟨req, h1, _, h3⟩ := framed_body env henv hp hg hu raw hw hc after hav sched
  refine ⟨req, h1, ?_⟩
  cases h with
  | chunked cs next h => obtain ⟨p, h, hk, _⟩ := h; exact absurd ⟨p, h, hk⟩ hte
  | empty _ h => exact absurd hcl h
  | length n _ _ hall hn =>
    obtain ⟨p, hpm, hk⟩ := hcl
    have hlast : ∃ v, lastValue fs p.1 = some v := by
      unfold lastValue
      cases hf : fs.reverse.find? (fun q => q.1 == p.1) with
      | none =>
        have := List.find?_eq_none.1 hf p (List.mem_reverse.2 hpm)
        simp at this
      | some q => exact ⟨_, rfl⟩
    obtain ⟨v, hv⟩ := hlast
    have hvm := lastValue_mem hv
    obtain ⟨s, hs⟩ := hg.text _ hvm
    simp only at hs
    subst hs
    have hd := hall _ hvm hk
    exact h3 p.1 s hk hv (fun q hq hl => hone q hq p hpm hl hk) n (by rw [← hd.2]; exact .plain hd.1) (by omega)

/-- **C121 is false** with Transfer-Encoding chunked: the handler never reads the content, whatever it is and however it is cut into chunks.  (1) Without Content-Length
it reads the chunk sizes along with it, and whatever the client sends next; (2) with a Content-Length (which RFC 9112 tells a server to ignore)
that many bytes of the chunked form. -/
theorem C121_chunked_refuted (chunks : List Bytes) (next : Bytes)
    (hte : ∃ p ∈ fs, Ascii.lowered p.1 = strBytes "transfer-encoding" ∧ p.2 = strBytes "chunked")
    (hte' : ∀ p ∈ fs, Ascii.lowered p.1 = strBytes "transfer-encoding" → p.2 = strBytes "chunked") (hne : ∀ c ∈ chunks, c ≠ [])
    (haf : after = chunked chunks ++ next) :
    FramedBody fs after chunks.flatten ∧ ∃ req, Request.parse env raw = .ok (some req) ∧
      (¬ Given fs "content-length" → req.body.intoBytes sched = .ok (chunked chunks ++ next) ∧ req.body.intoBytes sched ≠ .ok chunks.flatten) ∧
      (∀ k v, Ascii.lowered k = strBytes "content-length" → lastValue fs k = some (strBytes v) →
        (∀ p ∈ fs, Ascii.lowered p.1 = strBytes "content-length" → p.1 = k) →
        ∀ n, Decimal.DenotesNat (strBytes v) n → n < 2 ^ env.W → req.body.intoBytes sched = .ok ((chunked chunks ++ next).take n)) := by
  obtain ⟨req, h1, h2, h3⟩ := framed_body env henv hp hg hu raw hw hc after hav sched
  subst haf
  refine ⟨.chunked chunks next hte hte' hne rfl, req, h1, fun hn => ⟨h2 hn, ?_⟩, h3⟩
  rw [h2 hn]
  intro he
  have he : chunked chunks ++ next = chunks.flatten := by injection he
  have := congrArg List.length he
  rw [List.length_append] at this
  have := chunked_longer chunks
  omega

/-- **C121 is false** without both headers: what follows the head (the client's next request, say) becomes the body, which should be empty. -/
theorem C121_no_length_refuted (hte : ¬ Given fs "transfer-encoding") (hcl : ¬ Given fs "content-length") (hne : after ≠ []) :
    FramedBody fs after [] ∧ ∃ req, Request.parse env raw = .ok (some req) ∧ req.body.intoBytes sched = .ok after ∧ after ≠ [] := by
  obtain ⟨req, h1, h2, h3⟩ := framed_body env henv hp hg hu raw hw hc after hav sched
  exact ⟨.empty hte hcl, req, h1, h2 hcl, hne⟩

/-- **C121 is false** with two Content-Lengths that disagree: RFC 9112 gives such a request no body at all (it is to be refused), but it is accepted, and the last
one counts. -/
theorem C121_conflict_refuted (hte : ¬ Given fs "transfer-encoding") (k v : String) (hk : Ascii.lowered k = strBytes "content-length")
    (hlast : lastValue fs k = some (strBytes v)) (hone : ∀ p ∈ fs, Ascii.lowered p.1 = strBytes "content-length" → p.1 = k) (n : Nat)
    (hv : Decimal.DenotesNat (strBytes v) n) (hn : n < 2 ^ env.W)
    (hother : ∃ p ∈ fs, p.1 = k ∧ Decimal.Digits p.2 ∧ Decimal.value p.2 ≠ n) :
    (∀ body, ¬ FramedBody fs after body) ∧ ∃ req, Request.parse env raw = .ok (some req) ∧ req.body.intoBytes sched = .ok (after.take n) := by
  obtain ⟨req, h1, h2, h3⟩ := framed_body env henv hp hg hu raw hw hc after hav sched
  refine ⟨fun body h => ?_, req, h1, h3 k v hk hlast hone n hv hn⟩
  obtain ⟨p, hp1, hp2, hp3, hp4⟩ := hother
  subst hp2
  cases h with
  | chunked cs next h => obtain ⟨p, h, hk, _⟩ := h; exact absurd ⟨p, h, hk⟩ hte
  | empty _ h => exact h ⟨p, hp1, hk⟩
  | length n' _ _ hall _ =>
    have h5 := hall p hp1 hk
    have h6 := hall _ (lastValue_mem hlast) hk
    simp only at h6
    have : Decimal.value (strBytes v) = n := by
      generalize strBytes v = w at hv h6
      cases hv with
      | plain _ => rfl
      | plus _ =>
        have := (h6.1.2 43 List.mem_cons_self).1
        exact absurd this (by decide)
    omega

end

/-- an upload in chunks -/
def chunkedFields : List (String × Bytes) := [("Host", strBytes "a"), ("Transfer-Encoding", strBytes "chunked")]

/-- an upload with a length -/
def lengthFields : List (String × Bytes) := [("Host", strBytes "a"), ("Content-Length", strBytes "2")]

theorem chunked_head : GoodHead "POST" "/ws" chunkedFields "Host" "a" where
  method := ⟨by decide +kernel, by decide +kernel⟩
  target := ⟨⟨by decide +kernel, by decide +kernel⟩, by decide +kernel⟩
  fields := by
    intro p hp
    simp only [chunkedFields, List.mem_cons, List.not_mem_nil, or_false] at hp
    rcases hp with rfl | rfl <;> exact ⟨⟨by decide +kernel, by decide +kernel⟩, by unfold Text; decide +kernel, by unfold Trimmed; decide +kernel⟩
  text := by
    intro p hp
    simp only [chunkedFields, List.mem_cons, List.not_mem_nil, or_false] at hp
    rcases hp with rfl | rfl <;> exact ⟨_, rfl⟩
  few := by decide
  host := by decide +kernel
  oneHost := by decide +kernel

theorem length_head : GoodHead "POST" "/ws" lengthFields "Host" "a" where
  method := ⟨by decide +kernel, by decide +kernel⟩
  target := ⟨⟨by decide +kernel, by decide +kernel⟩, by decide +kernel⟩
  fields := by
    intro p hp
    simp only [lengthFields, List.mem_cons, List.not_mem_nil, or_false] at hp
    rcases hp with rfl | rfl <;> exact ⟨⟨by decide +kernel, by decide +kernel⟩, by unfold Text; decide +kernel, by unfold Trimmed; decide +kernel⟩
  text := by
    intro p hp
    simp only [lengthFields, List.mem_cons, List.not_mem_nil, or_false] at hp
    rcases hp with rfl | rfl <;> exact ⟨_, rfl⟩
  few := by decide
  host := by decide +kernel
  oneHost := by decide +kernel

/-- non-vacuity: "hi" and "!" in two chunks; "hi" with a length, followed by another request -/
example (sched : Nat → Nat) :
    (∃ req, Request.parse sessionEnv [.data (headBytes "POST" "/ws" chunkedFields), .data (chunked [strBytes "hi", strBytes "!"])] = .ok (some req) ∧
      req.body.intoBytes sched = .ok (strBytes "2\r\nhi\r\n1\r\n!\r\n0\r\n\r\n")) ∧
    (∃ req, Request.parse sessionEnv [.data (headBytes "POST" "/ws" lengthFields), .data (strBytes "hiGET /")] = .ok (some req) ∧
      req.body.intoBytes sched = .ok (strBytes "hi")) := by
  have hv : sessionEnv.Valid := fun _ => .refl _
  have hu : sessionEnv.parseUrl ("http://" ++ "a" ++ "/ws") = some ⟨"http://a", "/ws", none⟩ := by decide +kernel
  constructor
  · have hw : Raw.WF [.data (headBytes "POST" "/ws" chunkedFields), .data (chunked [strBytes "hi", strBytes "!"])] :=
      (Raw.WF.nil.cons (by decide +kernel)).cons (by decide +kernel)
    obtain ⟨_, req, h1, h2, _⟩ := C121_chunked_refuted sessionEnv hv hpReq_contract chunked_head hu _ hw (by simp [Raw.Clean]) _
      (by simp [Raw.avail]; rfl) sched [strBytes "hi", strBytes "!"] [] ⟨("Transfer-Encoding", strBytes "chunked"), by simp [chunkedFields], by decide +kernel, rfl⟩
      (by decide +kernel) (by decide +kernel) (by simp)
    refine ⟨req, h1, ?_⟩
    rw [(h2 (by rintro ⟨p, hp, hl⟩; simp only [chunkedFields, List.mem_cons, List.not_mem_nil, or_false] at hp
                rcases hp with rfl | rfl <;> revert hl <;> decide +kernel)).1]
    congr 1
  · have hw : Raw.WF [.data (headBytes "POST" "/ws" lengthFields), .data (strBytes "hiGET /")] :=
      (Raw.WF.nil.cons (by decide +kernel)).cons (by decide +kernel)
    have hte : ¬ Given lengthFields "transfer-encoding" := by
      rintro ⟨p, hp, hl⟩
      simp only [lengthFields, List.mem_cons, List.not_mem_nil, or_false] at hp
      rcases hp with rfl | rfl <;> revert hl <;> decide +kernel
    have hcl : Given lengthFields "content-length" := ⟨("Content-Length", strBytes "2"), by simp [lengthFields], by decide +kernel⟩
    have hb : FramedBody lengthFields (strBytes "hiGET /") ((strBytes "hiGET /").take 2) :=
      .length 2 hte hcl (by
        intro p hp hl
        simp only [lengthFields, List.mem_cons, List.not_mem_nil, or_false] at hp
        rcases hp with rfl | rfl
        · exact absurd hl (by decide +kernel)
        · exact ⟨⟨by decide +kernel, by decide +kernel⟩, by decide +kernel⟩) (by decide +kernel)
    obtain ⟨req, h1, h2⟩ := C121_length_partial sessionEnv hv hpReq_contract length_head hu _ hw (by simp [Raw.Clean]) (strBytes "hiGET /")
      (by simp [Raw.avail]) sched _ hb hte hcl (by decide +kernel) (by decide +kernel)
    exact ⟨req, h1, by rw [h2]; congr 1⟩

end Puck
