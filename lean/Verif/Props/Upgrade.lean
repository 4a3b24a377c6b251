import Verif.Model.Upgrade
import Verif.Spec.Base64
import Verif.Props.Response
/-!
# Properties of the WebSocket handshake (C24 - C27, C80)
-/
namespace Puck
open Http

/-! ## C24 -/

theorem containsBytes_iff (n b : Bytes) : containsBytes n b = true ↔ n <:+: b := by
  induction b with
  | nil => simp [containsBytes]
  | cons a b ih => simp [containsBytes, ih, List.infix_cons_iff]

/-- **C24.** A request is accepted for upgrade iff it has a header named exactly `Upgrade` whose value is
`websocket` ignoring ASCII case and a header named exactly `Connection` whose value contains `upgrade`
ignoring ASCII case. -/
theorem C24_decision_partial (r : Request) :
    shouldUpgrade r = true ↔
      (∃ v, r.headers.get "Upgrade" = some v ∧ Ascii.lowered v = strBytes "websocket") ∧
      (∃ v, r.headers.get "Connection" = some v ∧ strBytes "upgrade" <:+: Ascii.lowered v) := by
  unfold shouldUpgrade
  rw [lowerAscii_eq]
  rw [Bool.and_eq_true]
  constructor
  · rintro ⟨h1, h2⟩
    constructor
    · cases hg : r.headers.get "Upgrade" with
      | none => simp [hg] at h1
      | some v => exact ⟨v, rfl, by simpa [hg] using h1⟩
    · cases hg : r.headers.get "Connection" with
      | none => simp [hg] at h2
      | some v => exact ⟨v, rfl, by simpa [hg, containsBytes_iff] using h2⟩
  · rintro ⟨⟨v, h1, h2⟩, w, h3, h4⟩
    simp [h1, h2, h3, containsBytes_iff, h4]

/-- non-vacuity: what browsers send. -/
def demoUpgrade : Request :=
  ⟨[("Upgrade", "WebSocket"), ("Connection", "keep-alive, Upgrade"), ("Sec-WebSocket-Key", "dGhlIHNhbXBsZSBub25jZQ==")],
    .get, Body.empty, ⟨"http://a", "/", none⟩⟩

example : shouldUpgrade demoUpgrade = true := by decide +kernel

/-- **C24 is false about header names**: they are compared case-sensitively.  Of two requests whose headers are
the same ignoring the case of names, one is accepted and the other refused. -/
theorem C24_name_case_refuted :
    let r : Request := ⟨[("upgrade", "websocket"), ("connection", "Upgrade")], .get, Body.empty, ⟨"http://a", "/", none⟩⟩
    let r' : Request := ⟨[("Upgrade", "websocket"), ("Connection", "Upgrade")], .get, Body.empty, ⟨"http://a", "/", none⟩⟩
    r.headers.map (fun p => (Ascii.lowered p.1, p.2)) = r'.headers.map (fun p => (Ascii.lowered p.1, p.2)) ∧
    shouldUpgrade r' = true ∧ shouldUpgrade r = false := by
  decide +kernel

/-! ## C26 -/

theorem b64_val {n : Nat} (h : n < 64) : Base64.val (b64Char n) = some n ∧ b64Char n ≠ 61 ∧ b64Char n < 128 := by
  have : ∀ n, n < 64 → Base64.val (b64Char n) = some n ∧ b64Char n ≠ 61 ∧ b64Char n < 128 := by decide +kernel
  exact this n h

theorem ofNat_join {x : UInt8} {n : Nat} (h : n = x.toNat) : UInt8.ofNat n = x := by subst h; simp

/-- Decoding inverts encoding. -/
theorem base64_decode (b : Bytes) : Base64.decode (base64 b) = some b := by
  fun_induction base64 b with
  | case1 => rfl
  | case2 a =>
    have ha : a.toNat < 256 := a.toNat_lt
    have h1 := b64_val (n := a.toNat / 4) (by omega)
    have h2 := b64_val (n := a.toNat % 4 * 16) (by omega)
    simp only [Base64.decode, h1.1, h2.1, if_true]
    rw [if_pos ⟨trivial, trivial, by omega⟩, ofNat_join (x := a) (by omega)]
  | case3 a b =>
    have ha : a.toNat < 256 := a.toNat_lt
    have hb : b.toNat < 256 := b.toNat_lt
    have h1 := b64_val (n := a.toNat / 4) (by omega)
    have h2 := b64_val (n := a.toNat % 4 * 16 + b.toNat / 16) (by omega)
    have h3 := b64_val (n := b.toNat % 16 * 4) (by omega)
    simp only [Base64.decode, h1.1, h2.1, h3.1, if_neg h3.2.1, if_true]
    rw [if_pos ⟨trivial, by omega⟩, ofNat_join (x := a) (by omega), ofNat_join (x := b) (by omega)]
  | case4 a b c t ih =>
    have ha : a.toNat < 256 := a.toNat_lt
    have hb : b.toNat < 256 := b.toNat_lt
    have hc : c.toNat < 256 := c.toNat_lt
    have h1 := b64_val (n := a.toNat / 4) (by omega)
    have h2 := b64_val (n := a.toNat % 4 * 16 + b.toNat / 16) (by omega)
    have h3 := b64_val (n := b.toNat % 16 * 4 + c.toNat / 64) (by omega)
    have h4 := b64_val (n := c.toNat % 64) (by omega)
    simp only [Base64.decode, h1.1, h2.1, h3.1, h4.1, if_neg h3.2.1, if_neg h4.2.1, ih]
    rw [ofNat_join (x := a) (by omega), ofNat_join (x := b) (by omega), ofNat_join (x := c) (by omega)]

theorem base64_length (b : Bytes) : (base64 b).length = 4 * ((b.length + 2) / 3) := by
  fun_induction base64 b with
  | case1 => rfl
  | case2 a => simp
  | case3 a b => simp
  | case4 a b c t ih => simp only [List.length_cons, ih]; omega

theorem base64_ascii (b : Bytes) : ∀ c ∈ base64 b, c < 128 := by
  fun_induction base64 b with
  | case1 => simp
  | case2 a =>
    have ha : a.toNat < 256 := a.toNat_lt
    intro c hc
    simp only [List.mem_cons, List.not_mem_nil, or_false] at hc
    rcases hc with rfl | rfl | rfl | rfl
    · exact (b64_val (by omega)).2.2
    · exact (b64_val (by omega)).2.2
    · decide
    · decide
  | case3 a b =>
    have ha : a.toNat < 256 := a.toNat_lt
    have hb : b.toNat < 256 := b.toNat_lt
    intro c hc
    simp only [List.mem_cons, List.not_mem_nil, or_false] at hc
    rcases hc with rfl | rfl | rfl | rfl
    · exact (b64_val (by omega)).2.2
    · exact (b64_val (by omega)).2.2
    · exact (b64_val (by omega)).2.2
    · decide
  | case4 a b c t ih =>
    have ha : a.toNat < 256 := a.toNat_lt
    have hb : b.toNat < 256 := b.toNat_lt
    have hc : c.toNat < 256 := c.toNat_lt
    intro x hx
    simp only [List.mem_cons] at hx
    rcases hx with rfl | rfl | rfl | rfl | hx
    · exact (b64_val (by omega)).2.2
    · exact (b64_val (by omega)).2.2
    · exact (b64_val (by omega)).2.2
    · exact (b64_val (by omega)).2.2
    · exact ih x hx

theorem asciiString_bytes {b : Bytes} (h : ∀ c ∈ b, c < 128) : strBytes (asciiString b) = b := by
  have hc : ∀ c : UInt8, c < 128 → (Char.ofNat c.toNat).toNat = c.toNat := by
    intro c hc
    have : c.toNat < 128 := UInt8.lt_iff_toNat_lt.1 hc
    have all : ∀ n, n < 128 → (Char.ofNat n).toNat = n := by decide +kernel
    exact all _ this
  unfold asciiString
  rw [strBytes_ascii]
  · rw [List.map_map]
    conv => rhs; rw [← List.map_id b]
    apply List.map_congr_left
    intro c hm
    simp [hc c (h c hm)]
  · intro x hx
    obtain ⟨c, hm, rfl⟩ := List.mem_map.1 hx
    rw [hc c (h c hm)]
    exact UInt8.lt_iff_toNat_lt.1 (h c hm)

/-- **C26.** The accept value is an RFC 4648 encoding of the digest: a decoder gets the digest back (for every
byte string), and for a 20-byte digest it has 28 characters. -/
theorem C26_base64 (sha1 : Bytes → Bytes) (key : String) :
    Base64.decode (strBytes (computeAccept sha1 key)) =
      some (sha1 (strBytes key ++ strBytes "258EAFA5-E914-47DA-95CA-C5AB0DC85B11")) ∧
    ((sha1 (strBytes key ++ strBytes "258EAFA5-E914-47DA-95CA-C5AB0DC85B11")).length = 20 →
      (strBytes (computeAccept sha1 key)).length = 28) ∧
    ∀ b, Base64.decode (base64 b) = some b := by
  unfold computeAccept guid
  rw [asciiString_bytes (base64_ascii _), strBytes_append]
  refine ⟨base64_decode _, fun h => ?_, base64_decode⟩
  rw [base64_length, h]

/-- With real SHA-1: the example of RFC 6455 1.3 (also the repository's unit test). -/
theorem C26_rfc_example :
    computeAccept Sha1.sha1 "dGhlIHNhbXBsZSBub25jZQ==" = "s3pPLMBiTxaQ9kYGzzhZRbK+xOo=" := by
  decide +kernel

/-! ## C25 -/

/-- The 101 response's bytes. -/
def switchingBytes (accept : Bytes) : Bytes :=
  strBytes "HTTP/1.1 101 Web Socket Protocol Handshake\r\nConnection: Upgrade\r\nSec-WebSocket-Accept: " ++ accept ++
    strBytes "\r\nUpgrade: websocket\r\n\r\n"

theorem switching_bytes (sha1 : Bytes → Bytes) (key : String) :
    (switchingResponse sha1 key).headBytes ++ (switchingResponse sha1 key).body.avail =
      switchingBytes (strBytes (computeAccept sha1 key)) := by
  have hsort : sortHeaders (switchingResponse sha1 key).headers =
      [("Connection", "Upgrade"), ("Sec-WebSocket-Accept", computeAccept sha1 key), ("Upgrade", "websocket")] := by
    have hh : (switchingResponse sha1 key).headers =
        [("Sec-WebSocket-Accept", computeAccept sha1 key), ("Upgrade", "websocket"), ("Connection", "Upgrade")] := by
      simp [switchingResponse, ResponseBuilder.build, ResponseBuilder.setStatus, ResponseBuilder.header,
        ResponseBuilder.new, Headers.insert]
    rw [hh]
    have l1 : strBytes "Connection" < strBytes "Sec-WebSocket-Accept" := by decide +kernel
    have l2 : strBytes "Connection" < strBytes "Upgrade" := by decide +kernel
    have l3 : strBytes "Sec-WebSocket-Accept" < strBytes "Upgrade" := by decide +kernel
    refine List.Perm.eq_of_pairwise (le := fun a b : String × String => strBytes a.1 < strBytes b.1) ?_
      (sortHeaders_lt (by simp [Headers.Distinct])) (by simp [l1, l2, l3]) ((sortHeaders_perm _).trans ?_)
    · intro a b _ _ h1 h2; exact absurd h2 (List.lt_asymm h1)
    · exact ((List.Perm.swap _ _ _).cons _).trans (List.Perm.swap _ _ _)
  have hst : (switchingResponse sha1 key).status = 101 := rfl
  have hre : (switchingResponse sha1 key).reason = "Web Socket Protocol Handshake" := rfl
  have hb : (switchingResponse sha1 key).body.avail = [] := rfl
  have e1 : statusLine (strBytes (toString 101)) (strBytes "Web Socket Protocol Handshake") ++ crlf ++
      (strBytes "Connection" ++ [58, 32] ++ strBytes "Upgrade" ++ crlf ++ strBytes "Sec-WebSocket-Accept" ++ [58, 32]) =
      strBytes "HTTP/1.1 101 Web Socket Protocol Handshake\r\nConnection: Upgrade\r\nSec-WebSocket-Accept: " := by decide +kernel
  have e2 : crlf ++ (strBytes "Upgrade" ++ [58, 32] ++ strBytes "websocket" ++ crlf ++ crlf) =
      strBytes "\r\nUpgrade: websocket\r\n\r\n" := by decide +kernel
  unfold Response.headBytes switchingBytes
  rw [hsort, hst, hre, hb, ← e1, ← e2]
  simp [Http.head, fieldOf, fieldLine]

/-- What `write_response` does. -/
theorem writeResponse_spec (env : HttpEnv) (henv : env.Valid) (r : Response) (hd : r.headers.Distinct)
    (hw : r.body.WF) (hf : ¬ r.body.Fails) (s : Sink) :
    writeResponse env r s = (if (s.writeAll (r.headBytes ++ r.body.avail)).1 then some () else none,
      (s.writeAll (r.headBytes ++ r.body.avail)).2) := by
  obtain ⟨h1, h2, h3⟩ := Response.encode_spec env henv r hd hw s
  unfold writeResponse
  cases hb : (s.writeAll (r.headBytes ++ r.body.avail)).1 with
  | true =>
    have := h2 hf hb
    cases he : r.encode env s with
    | mk o rs =>
      rw [he] at this h1
      simp only at this h1
      subst this
      simp [h1]
  | false =>
    have := h3 (Or.inr hb)
    cases he : r.encode env s with
    | mk o rs =>
      rw [he] at this h1
      simp only at this h1
      subst this
      simp [h1]

theorem switching_good (sha1 : Bytes → Bytes) (key : String) : (switchingResponse sha1 key).headers.Distinct ∧
    (switchingResponse sha1 key).body.WF ∧ ¬ (switchingResponse sha1 key).body.Fails := by
  refine ⟨?_, ⟨trivial, ?_⟩, ?_⟩
  · simp [switchingResponse, ResponseBuilder.build, ResponseBuilder.setStatus, ResponseBuilder.header,
      ResponseBuilder.new, Headers.insert, Headers.Distinct]
  · simp [switchingResponse, ResponseBuilder.build, ResponseBuilder.setStatus, ResponseBuilder.header,
      ResponseBuilder.new, Body.empty]
  · rintro ⟨h, _⟩; exact h trivial

/-- **C25.** For a request with a key, `perform_upgrade` writes exactly the 101 response with the accept value
for that key (base64 of the digest of key and GUID) and returns true; if the connection breaks while
writing, a prefix of it has been written and the call panics. -/
theorem C25_switching (env : HttpEnv) (henv : env.Valid) (sha1 : Bytes → Bytes) (r : Request) (key : String)
    (hk : r.headers.get "Sec-WebSocket-Key" = some key) (s : Sink) :
    ∃ accept, Base64.decode accept = some (sha1 (strBytes key ++ strBytes "258EAFA5-E914-47DA-95CA-C5AB0DC85B11")) ∧
      performUpgrade env sha1 r s = (if (s.writeAll (switchingBytes accept)).1 then some true else none,
        (s.writeAll (switchingBytes accept)).2) := by
  refine ⟨strBytes (computeAccept sha1 key), (C26_base64 sha1 key).1, ?_⟩
  obtain ⟨g1, g2, g3⟩ := switching_good sha1 key
  unfold performUpgrade
  rw [hk]
  simp only
  rw [writeResponse_spec env henv _ g1 g2 g3 s, switching_bytes]
  cases (s.writeAll (switchingBytes (strBytes (computeAccept sha1 key)))).1 <;> simp

/-- A client reading the reply sees status 101 and exactly the three handshake headers. -/
theorem C25_client_view (env : HttpEnv) (henv : env.Valid) (sha1 : Bytes → Bytes) (r : Request) (key : String)
    (hk : r.headers.get "Sec-WebSocket-Key" = some key) :
    (performUpgrade env sha1 r ⟨[], none⟩).1 = some true ∧
    ∃ m, readResponse (performUpgrade env sha1 r ⟨[], none⟩).2.out = some m ∧ m.code = 101 ∧ m.rest = [] ∧
      m.fields.Perm [(strBytes "Sec-WebSocket-Accept", trim (strBytes (computeAccept sha1 key))),
        (strBytes "Upgrade", strBytes "websocket"), (strBytes "Connection", strBytes "Upgrade")] := by
  obtain ⟨g1, g2, g3⟩ := switching_good sha1 key
  have hh : (switchingResponse sha1 key).headers =
      [("Sec-WebSocket-Accept", computeAccept sha1 key), ("Upgrade", "websocket"), ("Connection", "Upgrade")] := by
    simp [switchingResponse, ResponseBuilder.build, ResponseBuilder.setStatus, ResponseBuilder.header,
      ResponseBuilder.new, Headers.insert]
  have hwf : (switchingResponse sha1 key).WellFormed := by
    refine ⟨(by decide : 100 ≤ 101), (by decide : 101 < 1000), ?_, ?_⟩
    · have : (switchingResponse sha1 key).reason = "Web Socket Protocol Handshake" := rfl
      rw [this]; decide +kernel
    · rw [hh]
      intro p hp
      simp only [List.mem_cons, List.not_mem_nil, or_false] at hp
      rcases hp with rfl | rfl | rfl
      · have htok : Token (strBytes "Sec-WebSocket-Accept") := ⟨by decide +kernel, by decide +kernel⟩
        refine ⟨htok, ?_⟩
        simp only [computeAccept]
        rw [asciiString_bytes (base64_ascii _)]
        intro c hc h13
        have : ∀ b : Bytes, (13 : UInt8) ∉ base64 b := by
          intro b
          fun_induction base64 b with
          | case1 => simp
          | case2 a =>
            have ha : a.toNat < 256 := a.toNat_lt
            have n : ∀ n, n < 64 → b64Char n ≠ 13 := by decide +kernel
            simp [Ne.symm (n (a.toNat / 4) (by omega)), Ne.symm (n (a.toNat % 4 * 16) (by omega))]
          | case3 a b =>
            have ha : a.toNat < 256 := a.toNat_lt
            have hb : b.toNat < 256 := b.toNat_lt
            have n : ∀ n, n < 64 → b64Char n ≠ 13 := by decide +kernel
            simp [Ne.symm (n (a.toNat / 4) (by omega)), Ne.symm (n (a.toNat % 4 * 16 + b.toNat / 16) (by omega)),
              Ne.symm (n (b.toNat % 16 * 4) (by omega))]
          | case4 a b c t ih =>
            have ha : a.toNat < 256 := a.toNat_lt
            have hb : b.toNat < 256 := b.toNat_lt
            have hc : c.toNat < 256 := c.toNat_lt
            have n : ∀ n, n < 64 → b64Char n ≠ 13 := by decide +kernel
            simp [Ne.symm (n (a.toNat / 4) (by omega)), Ne.symm (n (a.toNat % 4 * 16 + b.toNat / 16) (by omega)),
              Ne.symm (n (b.toNat % 16 * 4 + c.toNat / 64) (by omega)), Ne.symm (n (c.toNat % 64) (by omega)), ih]
        exact this _ (h13 ▸ hc)
      · exact ⟨⟨by decide +kernel, by decide +kernel⟩, by decide +kernel⟩
      · exact ⟨⟨by decide +kernel, by decide +kernel⟩, by decide +kernel⟩
  obtain ⟨h1, fs, h2, h3⟩ := C40_client_reads_back (switchingResponse sha1 key) g1 g2 g3 hwf env henv
  have hp : performUpgrade env sha1 r ⟨[], none⟩ =
      (some true, ((switchingResponse sha1 key).encode env ⟨[], none⟩).2.2) := by
    unfold performUpgrade writeResponse
    rw [hk]
    cases he : (switchingResponse sha1 key).encode env ⟨[], none⟩ with
    | mk o rs =>
      rw [he] at h1
      simp only at h1
      subst h1
      obtain ⟨b, s'⟩ := rs
      simp [he]
  rw [hp]
  refine ⟨rfl, _, h2, rfl, rfl, ?_⟩
  rw [hh] at h3
  have e1 : trim (strBytes "websocket") = strBytes "websocket" := by decide +kernel
  have e2 : trim (strBytes "Upgrade") = strBytes "Upgrade" := by decide +kernel
  simpa [e1, e2] using h3

/-- non-vacuity: a key is present. -/
example : demoUpgrade.headers.get "Sec-WebSocket-Key" = some "dGhlIHNhbXBsZSBub25jZQ==" := by decide +kernel

/-! ## C27 -/

/-- The 400 response's bytes. -/
def badRequestBytes : Bytes :=
  strBytes "HTTP/1.1 400 bad request\r\nContent-Type: text/html;charset=utf-8\r\n\r\n<h1>400: bad request</h1>"

/-- **C27.** On a working connection `Stream::upgrade` returns a WebSocket (in the open state) iff the upgrade
headers and the key are there, having written exactly the 101 response; in every other case it has written
exactly the 400 response and returns `Err`. -/
theorem C27_upgrade (env : HttpEnv) (henv : env.Valid) (sha1 : Bytes → Bytes) (r : Request) (s : Sink)
    (hs : s.room = none) :
    (∀ key, shouldUpgrade r = true → r.headers.get "Sec-WebSocket-Key" = some key →
      ∃ accept, Base64.decode accept = some (sha1 (strBytes key ++ strBytes "258EAFA5-E914-47DA-95CA-C5AB0DC85B11")) ∧
        Stream.upgrade env sha1 r s = (.ok .open, ⟨s.out ++ switchingBytes accept, none⟩)) ∧
    (shouldUpgrade r = false ∨ r.headers.get "Sec-WebSocket-Key" = none →
      ∃ u, Stream.upgrade env sha1 r s = (.err u, ⟨s.out ++ badRequestBytes, none⟩)) := by
  have hok : ∀ w, s.writeAll w = (true, ⟨s.out ++ w, none⟩) := by
    intro w
    cases s with
    | mk out room => simp only at hs; subst hs; rfl
  have h400 : writeResponse env err400 s = (some (), ⟨s.out ++ badRequestBytes, none⟩) := by
    have := C47_canned_errors env henv s err400 badRequestBytes (Or.inr ⟨rfl, rfl⟩)
    rw [hok] at this
    exact Prod.ext (this.2.2 (by simp [hs])) this.1
  constructor
  · intro key hsu hk
    obtain ⟨accept, h1, h2⟩ := C25_switching env henv sha1 r key hk s
    refine ⟨accept, h1, ?_⟩
    rw [hok] at h2
    unfold Stream.upgrade
    rw [if_neg (by simp [hsu]), h2]
    simp
  · intro h
    by_cases hsu : shouldUpgrade r = false
    · unfold Stream.upgrade
      rw [if_pos hsu]
      have he : (err400.encode env s).1 = .ok () ∧ (err400.encode env s).2.2 = ⟨s.out ++ badRequestBytes, none⟩ := by
        unfold writeResponse at h400
        cases hh : err400.encode env s with
        | mk o rs =>
          obtain ⟨b, s'⟩ := rs
          rw [hh] at h400
          cases o <;> simp at h400 <;> exact ⟨rfl, h400⟩
      unfold Stream.respond
      cases hh : err400.encode env s with
      | mk o rs =>
        obtain ⟨b, s'⟩ := rs
        rw [hh] at he
        obtain ⟨h1, h2⟩ := he
        simp only at h1 h2
        subst h1 h2
        exact ⟨_, rfl⟩
    · have hk := h.resolve_left hsu
      unfold Stream.upgrade performUpgrade
      rw [if_neg hsu, hk]
      simp only [h400]
      exact ⟨_, rfl⟩

/-- **C27, a connection that breaks.** If the connection cannot take the whole answer (the 101 response if the request asks for an
upgrade and has a key, the 400 response otherwise), `Stream::upgrade` returns neither a WebSocket nor `Err`: it crashes, and the
client got the beginning of that one answer and nothing else. -/
theorem C27_broken (env : HttpEnv) (henv : env.Valid) (sha1 : Bytes → Bytes) (r : Request) (s : Sink) (k : Nat)
    (hs : s.room = some k) :
    (∀ key, shouldUpgrade r = true → r.headers.get "Sec-WebSocket-Key" = some key →
      ∃ accept, Base64.decode accept = some (sha1 (strBytes key ++ strBytes "258EAFA5-E914-47DA-95CA-C5AB0DC85B11")) ∧
        (k < (switchingBytes accept).length →
          Stream.upgrade env sha1 r s = (.panic, ⟨s.out ++ (switchingBytes accept).take k, some 0⟩)) ∧
        ((switchingBytes accept).length ≤ k → (Stream.upgrade env sha1 r s).1 = .ok .open)) ∧
    (shouldUpgrade r = false ∨ r.headers.get "Sec-WebSocket-Key" = none →
      (k < badRequestBytes.length →
        Stream.upgrade env sha1 r s = (.panic, ⟨s.out ++ badRequestBytes.take k, some 0⟩)) ∧
      (badRequestBytes.length ≤ k → ∃ u, (Stream.upgrade env sha1 r s).1 = .err u)) := by
  have hno : ∀ w : Bytes, k < w.length → s.writeAll w = (false, ⟨s.out ++ w.take k, some 0⟩) := by
    intro w hw
    unfold Sink.writeAll
    simp only [hs, if_neg (Nat.not_le.2 hw)]
  have hyes : ∀ w : Bytes, w.length ≤ k → (s.writeAll w).1 = true := by
    intro w hw
    unfold Sink.writeAll
    simp only [hs, if_pos hw]
  have h400 := C47_canned_errors env henv s err400 badRequestBytes (Or.inr ⟨rfl, rfl⟩)
  constructor
  · intro key hsu hk
    obtain ⟨accept, h1, h2⟩ := C25_switching env henv sha1 r key hk s
    refine ⟨accept, h1, fun hw => ?_, fun hw => ?_⟩
    · rw [hno _ hw] at h2
      unfold Stream.upgrade
      rw [if_neg (by simp [hsu]), h2]
      simp
    · unfold Stream.upgrade
      rw [if_neg (by simp [hsu]), h2]
      simp [hyes _ hw]
  · intro h
    have hcases : ∀ o b s', err400.encode env s = (o, b, s') →
        (k < badRequestBytes.length → o ≠ .ok () ∧ s' = ⟨s.out ++ badRequestBytes.take k, some 0⟩) ∧
        (badRequestBytes.length ≤ k → o = .ok ()) := by
      intro o b s' he
      unfold writeResponse at h400
      rw [he] at h400
      cases o with
      | ok u =>
        refine ⟨fun hk => absurd (h400.2.1 rfl k hs) (Nat.not_le.2 hk), fun _ => rfl⟩
      | err e =>
        refine ⟨fun hk => ⟨by simp, ?_⟩, fun hk => ?_⟩
        · rw [hno _ hk] at h400; exact h400.1
        · exact absurd (h400.2.2 (by intro k' hk'; rw [hs] at hk'; cases hk'; exact hk)) (by simp)
      | panic =>
        refine ⟨fun hk => ⟨by simp, ?_⟩, fun hk => ?_⟩
        · rw [hno _ hk] at h400; exact h400.1
        · exact absurd (h400.2.2 (by intro k' hk'; rw [hs] at hk'; cases hk'; exact hk)) (by simp)
    cases he : err400.encode env s with
    | mk o rs =>
      obtain ⟨b, s'⟩ := rs
      have hc := hcases o b s' he
      by_cases hsu : shouldUpgrade r = false
      · unfold Stream.upgrade Stream.respond
        rw [if_pos hsu, he]
        constructor
        · intro hk
          obtain ⟨h1, rfl⟩ := hc.1 hk
          cases o with
          | ok u => exact absurd rfl h1
          | err e => rfl
          | panic => rfl
        · intro hk
          cases hc.2 hk
          exact ⟨_, rfl⟩
      · have hkey := h.resolve_left hsu
        unfold Stream.upgrade performUpgrade writeResponse
        rw [if_neg hsu, hkey]
        simp only [he]
        constructor
        · intro hk
          obtain ⟨h1, rfl⟩ := hc.1 hk
          cases o with
          | ok u => exact absurd rfl h1
          | err e => rfl
          | panic => rfl
        · intro hk
          cases hc.2 hk
          exact ⟨_, rfl⟩

/-! ## C80 -/

/-- **C80 is false**: the decision and everything written depend on three headers only.  Method, URL, body
and every other header (Sec-WebSocket-Version, Host, Origin) are ignored. -/
theorem C80_version_ignored_refuted (env : HttpEnv) (sha1 : Bytes → Bytes) (r r' : Request) (s : Sink)
    (h : ∀ k ∈ ["Upgrade", "Connection", "Sec-WebSocket-Key"], r.headers.get k = r'.headers.get k) :
    Stream.upgrade env sha1 r s = Stream.upgrade env sha1 r' s := by
  have h1 := h "Upgrade" (by simp)
  have h2 := h "Connection" (by simp)
  have h3 := h "Sec-WebSocket-Key" (by simp)
  simp only [Stream.upgrade, shouldUpgrade, performUpgrade, h1, h2, h3]
  rfl

/-- for instance a POST announcing version 8 is upgraded like a GET announcing version 13. -/
example : shouldUpgrade { demoUpgrade with method := .post, headers := demoUpgrade.headers.insert "Sec-WebSocket-Version" "8" } = true := by
  decide +kernel

end Puck
