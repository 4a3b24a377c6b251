import Verif.Props.ListApp
import Verif.Props.WordSize
import Verif.Model.Response

/-!
# The word size of the machine: HTTP (C160)
-/

namespace Puck

/-- The body with a declared length that does not fit in `W` bits forgotten. -/
def Body.forgetting (W : Nat) (b : Body) : Body := { b with length := b.length.filter fun n => decide (n < 2 ^ W) }

theorem parseUsize_word {W W' : Nat} (hle : W ≤ W') (s : String) :
    parseUsize W s = (parseUsize W' s).filter fun n => decide (n < 2 ^ W) := by
  have hp : 2 ^ W ≤ 2 ^ W' := Nat.pow_le_pow_right (by omega) hle
  apply Option.ext
  intro n
  rw [Option.filter_eq_some_iff, parseUsize_iff, parseUsize_iff]
  constructor
  · rintro ⟨h1, h2⟩; exact ⟨⟨h1, by omega⟩, by simpa using h2⟩
  · rintro ⟨⟨h1, _⟩, h2⟩; exact ⟨h1, by simpa using h2⟩

theorem bind_word {W W' : Nat} (hle : W ≤ W') (o : Option String) :
    o.bind (parseUsize W) = (o.bind (parseUsize W')).filter fun n => decide (n < 2 ^ W) := by
  cases o with
  | none => rfl
  | some s => exact parseUsize_word hle s

/-- **C160, requests, exactly.** What `Request::parse` makes of a stream on the machine with the smaller words is what it makes of it on the other,
with a `Content-Length` of `2^W` or more forgotten: then the body is taken to go on to the end of the connection. -/
theorem C160_request_exact_partial (env : HttpEnv) (W W' : Nat) (hle : W ≤ W') (raw : Raw) :
    Request.parse { env with W := W } raw =
      (Request.parse { env with W := W' } raw).map (Option.map fun r => { r with body := r.body.forgetting W }) := by
  have hf : ∀ h n, findIgnoreCase { env with W := W } h n = findIgnoreCase { env with W := W' } h n := fun _ _ => rfl
  have hu : ∀ m h p, requestUrl { env with W := W } m h p = requestUrl { env with W := W' } m h p := fun _ _ _ => rfl
  unfold Request.parse
  cases headLoop requestCap [] ⟨[], raw⟩ with
  | mk o r =>
    cases o with
    | none => rfl
    | some o =>
      cases o with
      | none => rfl
      | some head =>
        simp only [Request.ofHead, hf, hu, bind_word hle]
        cases env.httparse head with
        | none => rfl
        | some req =>
          simp only
          cases req.method with
          | none => rfl
          | some m =>
            simp only
            cases collectHeaders req.headers [] with
            | none => rfl
            | some hs =>
              simp only
              cases findIgnoreCase { env with W := W' } hs "host" with
              | none => rfl
              | some host =>
                simp only
                cases requestUrl { env with W := W' } m host req.path with
                | none => rfl
                | some u => rfl

/-- **C160, responses, exactly.** The same for `Response::parse` (whose length is the number in the `Content-Type`: C42). -/
theorem C160_response_exact_partial (env : HttpEnv) (W W' : Nat) (hle : W ≤ W') (raw : Raw) :
    Response.parse { env with W := W } raw =
      (Response.parse { env with W := W' } raw).map (Option.map fun r => { r with body := r.body.forgetting W }) := by
  have hf : ∀ h n, findIgnoreCase { env with W := W } h n = findIgnoreCase { env with W := W' } h n := fun _ _ => rfl
  unfold Response.parse
  cases headLoop responseCap [] ⟨[], raw⟩ with
  | mk o r =>
    cases o with
    | none => rfl
    | some o =>
      cases o with
      | none => rfl
      | some head =>
        simp only [Response.ofHead, hf, bind_word hle]
        cases collectHeaders (env.httparseRes head).headers [] with
        | none => rfl
        | some hs =>
          simp only
          cases (env.httparseRes head).code with
          | none => rfl
          | some st =>
            simp only
            cases (env.httparseRes head).reason with
            | none => rfl
            | some re => rfl

theorem Body.forgetting_fits {W : Nat} {b : Body} (h : ∀ n, b.length = some n → n < 2 ^ W) : b.forgetting W = b := by
  obtain ⟨r, m, l, k⟩ := b
  cases l with
  | none => rfl
  | some n =>
    have : n < 2 ^ W := h n rfl
    simp [Body.forgetting, Option.filter, this]

/-- **C160, requests.** A request that does not declare `2^W` bytes or more is the same request on both machines. -/
theorem C160_request_partial (env : HttpEnv) (W W' : Nat) (hle : W ≤ W') (raw : Raw)
    (h : ∀ r n, Request.parse { env with W := W' } raw = .ok (some r) → r.body.length = some n → n < 2 ^ W) :
    Request.parse { env with W := W } raw = Request.parse { env with W := W' } raw := by
  rw [C160_request_exact_partial env W W' hle raw]
  cases e : Request.parse { env with W := W' } raw with
  | error x => rfl
  | ok o =>
    cases o with
    | none => rfl
    | some r =>
      show Except.ok (some { r with body := r.body.forgetting W }) = _
      rw [Body.forgetting_fits fun n hn => h r n e hn]

/-- **C160, bodies as text, exactly.** `into_string` gives the same on both machines exactly if the declared length is below `2^(W-1)`, or too large for the
larger machine too; otherwise the smaller one panics where the larger one does not. -/
theorem C160_text_exact_partial (W W' : Nat) (hle : W ≤ W') (sched : Nat → Nat) (r : Src) (hr : r.WF) (len : Option Nat) :
    (Body.fromReader r len).intoString W sched = (Body.fromReader r len).intoString W' sched ↔
      len.getD 0 < 2 ^ (W - 1) ∨ 2 ^ (W' - 1) ≤ len.getD 0 := by
  have hw : (Body.fromReader r len).intoBytes sched ≠ .panic := by
    obtain ⟨a1, a2, a3, a4⟩ := C29_into_bytes sched r hr
    cases len with
    | none =>
      by_cases hc : r.Clean
      · rw [a1 hc]; simp
      · rw [a2 hc]; simp
    | some l =>
      by_cases hc : r.Clean ∨ l ≤ r.avail.length
      · rw [a3 l hc]; simp
      · rw [a4 l (fun h => hc (.inl h)) (by omega)]; simp
  have hlen : len = (Body.fromReader r len).length := rfl
  generalize Body.fromReader r len = b at hlen hw ⊢
  subst hlen
  have hp : 2 ^ (W - 1) ≤ 2 ^ (W' - 1) := Nat.pow_le_pow_right (by omega) (by omega)
  unfold Body.intoString
  simp only [gt_iff_lt, isizeMax_lt_iff]
  by_cases h1 : 2 ^ (W - 1) ≤ b.length.getD 0
  · by_cases h2 : 2 ^ (W' - 1) ≤ b.length.getD 0
    · simp [h1, h2]
    · simp only [h1, h2, if_true, if_false, or_false]
      constructor
      · intro h
        cases e : b.intoBytes sched with
        | ok x => rw [e] at h; simp only at h; cases e3 : fromUtf8 x <;> rw [e3] at h <;> simp at h
        | err x => rw [e] at h; cases h
        | panic => exact absurd e hw
      · intro h; omega
  · have h2 : ¬ 2 ^ (W' - 1) ≤ b.length.getD 0 := by omega
    simp only [h1, h2, if_false, or_false, true_iff]
    omega

/-- **C160, the list application.** Whatever the integer in the path, and as long as a submitted body does not declare `2^(W-1)` bytes or more, both machines
answer a request with the same page and keep the same list. -/
theorem C160_list_partial (W W' : Nat) (h31 : 31 ≤ W) (hle : W ≤ W') (sched : Nat → Nat) (req : Request) (items : List String)
    (h : req.body.length.getD 0 < 2 ^ (W - 1)) : listServe W sched req items = listServe W' sched req items := by
  have hp : 2 ^ (W - 1) ≤ 2 ^ (W' - 1) := Nat.pow_le_pow_right (by omega) (by omega)
  have ht : req.body.intoString W sched = req.body.intoString W' sched := by
    unfold Body.intoString
    simp only [gt_iff_lt, isizeMax_lt_iff]
    rw [if_neg (by omega), if_neg (by omega)]
  unfold listServe
  have hs : submitHandler W sched req items = submitHandler W' sched req items := by unfold submitHandler; rw [ht]
  rw [hs]
  by_cases hm : doesMatch [.static "read", .intParam] req.url = true
  · rw [C76_read_partial W h31 req items hm, C76_read_partial W' (by omega) req items hm]
  · simp [hm]

/-- An environment in which every request has a body of `2^31` bytes, as far as its header goes. -/
def halfWord (len : String) (W : Nat) : HttpEnv where
  httparse := fun _ => some ⟨some "POST", some "/submit", [("Host", strBytes "a"), ("Content-Length", strBytes len)]⟩
  httparseRes := fun _ => ⟨none, none, []⟩
  parseUrl := fun s => some ⟨s, "/submit", none⟩
  ord := id
  W := W

theorem Except.ok_of_toOption {α ε : Type} {e : Except ε α} {x : α} (h : e.toOption = some x) : e = .ok x := by
  cases e with
  | error _ => cases h
  | ok y => cases h; rfl

/-- What is made of it. -/
def halfRequest (len : String) (n : Option Nat) : Request :=
  ⟨Headers.insert "Content-Length" len (Headers.insert "Host" "a" []), .post, Body.fromReader (.buf requestCap ⟨[97, 98, 99, 100], []⟩) n,
    ⟨"http://a/submit", "/submit", none⟩⟩

/-- **C160 is false for HTTP too.** A request that declares a body of `2^31` bytes and has one of four: a handler that reads it as text gets the four bytes on the
64-bit machine and ends in a panic on the 32-bit machine. And one that declares `2^32` bytes declares nothing on the 32-bit machine. -/
theorem C160_http_refuted : ∃ (head : Bytes) (r32 r64 s32 s64 : Request),
    Request.parse (halfWord "2147483648" 32) [.data head] = .ok (some r32) ∧ Request.parse (halfWord "2147483648" 64) [.data head] = .ok (some r64) ∧
    r32.body.intoString 32 (fun _ => 9) = .panic ∧ r64.body.intoString 64 (fun _ => 9) = .ok "abcd" ∧
    Request.parse (halfWord "4294967296" 32) [.data head] = .ok (some s32) ∧ Request.parse (halfWord "4294967296" 64) [.data head] = .ok (some s64) ∧
    s32.body.length = none ∧ s64.body.length = some 4294967296 := by
  refine ⟨[120, 13, 10, 13, 10, 97, 98, 99, 100], halfRequest "2147483648" (some 2147483648), halfRequest "2147483648" (some 2147483648),
    halfRequest "4294967296" none, halfRequest "4294967296" (some 4294967296),
    Except.ok_of_toOption ?_, Except.ok_of_toOption ?_, ?_, ?_, Except.ok_of_toOption ?_, Except.ok_of_toOption ?_, rfl, rfl⟩ <;> decide +kernel

/-- non-vacuity: a request that declares four bytes is the same on both machines -/
example : ∃ r, Request.parse { halfWord "4" 0 with W := 32 } [.data [120, 13, 10, 13, 10, 97, 98, 99, 100]] = .ok (some r) ∧
    Request.parse { halfWord "4" 0 with W := 32 } [.data [120, 13, 10, 13, 10, 97, 98, 99, 100]] =
      Request.parse { halfWord "4" 0 with W := 64 } [.data [120, 13, 10, 13, 10, 97, 98, 99, 100]] ∧ r.body.length = some 4 := by
  have e : Request.parse { halfWord "4" 0 with W := 64 } [.data [120, 13, 10, 13, 10, 97, 98, 99, 100]] = .ok (some (halfRequest "4" (some 4))) :=
    Except.ok_of_toOption (by decide +kernel)
  have same := C160_request_partial (halfWord "4" 0) 32 64 (by decide) [.data [120, 13, 10, 13, 10, 97, 98, 99, 100]] (fun r n h hn => by
    rw [e] at h
    cases h
    cases hn
    decide)
  exact ⟨halfRequest "4" (some 4), by rw [same, e], same, rfl⟩

end Puck
