import Verif.Props.Exchange
/-!
# Reading the body of a received request as text (C111)
-/
namespace Puck
open Http

/-- The head declares a body of `n` bytes: one spelling of Content-Length, whose value is a decimal number in the range of `usize`. -/
def Declares (env : HttpEnv) (fs : List (String × Bytes)) (n : Nat) : Prop :=
  ∃ k v, Ascii.lowered k = strBytes "content-length" ∧ lastValue fs k = some (strBytes v) ∧ Decimal.DenotesNat (strBytes v) n ∧ n < 2 ^ env.W ∧
    ∀ q ∈ fs, Ascii.lowered q.1 = strBytes "content-length" → q.1 = k

/-- **C111 (what holds).** For every request a client can send, in any reads: `into_string` on its body panics exactly when the head declares a
length above `isize::MAX` (half the range of `usize`) - whatever follows the head; with a smaller length it returns the first that many bytes, or
all there are, if they are UTF-8, and an error if not; with no declared length everything that follows the head. -/
theorem C111_text_partial (env : HttpEnv) (henv : env.Valid) (hp : RequestContract env.httparse) (sched : Nat → Nat)
    (method t : String) (fs : List (String × Bytes)) (hostName host : String) (hg : GoodHead method t fs hostName host)
    (u : Url) (hu : env.parseUrl ("http://" ++ host ++ t) = some u) (after : Bytes) (raw : Raw) (hw : raw.WF) (hc : raw.Clean)
    (hav : raw.avail = headBytes method t fs ++ after) :
    ∃ req, Request.parse env raw = .ok (some req) ∧
      (∀ n, Declares env fs n → 2 ^ (env.W - 1) ≤ n → req.body.intoString env.W sched = .panic) ∧
      (∀ n, Declares env fs n → n < 2 ^ (env.W - 1) → req.body.intoString env.W sched ≠ .panic ∧
        ∀ s, req.body.intoString env.W sched = .ok s ↔ after.take n = strBytes s) ∧
      ((∀ q ∈ fs, Ascii.lowered q.1 ≠ strBytes "content-length") → req.body.intoString env.W sched ≠ .panic ∧
        ∀ s, req.body.intoString env.W sched = .ok s ↔ after = strBytes s) := by
  have big := isizeMax_lt_iff env.W
  have small : ∀ n, n < 2 ^ (env.W - 1) ↔ n ≤ isizeMax env.W := fun n => by have := big n; omega
  simp only [← big, small]
  obtain ⟨req, h1, h2, h3, h4⟩ := request_of_head env henv hp hg hu raw hw _ hav
  have hf : FirstBlank raw.avail (headBytes method t fs) after := by rw [hav]; exact headBytes_blank hg _
  have hq : env.httparse (headBytes method t fs) = some ⟨some method, some t, fs⟩ := hp method t fs hg.method hg.target.1 hg.fields hg.few
  obtain ⟨head, rest, q, f1, f2, f3, f4⟩ := C77_content_length env henv sched raw hw hc req h1
  obtain ⟨rfl, rfl⟩ := firstBlank_unique f1 hf
  rw [hq] at f2
  simp only [Option.some.injEq] at f2
  subst f2
  obtain ⟨head, rest, q, g1, g2, g3, g4⟩ := declared_length env henv raw hw req h1
  obtain ⟨rfl, rfl⟩ := firstBlank_unique g1 hf
  rw [hq] at g2
  simp only [Option.some.injEq] at g2
  subst g2
  have len : ∀ n, Declares env fs n → req.body.length = some n ∧ req.body.intoBytes sched = .ok (rest.take n) := by
    rintro n ⟨k, v, k1, k2, k3, k4, k5⟩
    have one : ∀ k' ∈ fs.map (·.1), Ascii.lowered k' = strBytes "content-length" → k' = k := by
      intro k' hk' hl
      obtain ⟨q, hq1, rfl⟩ := List.mem_map.1 hk'
      exact k5 q hq1 hl
    exact ⟨(g4 k v k1 k2 one).1 n k3 k4, (f4 k v k1 k2 one).1 n k3 k4⟩
  have text : ∀ bs, req.body.length.getD 0 ≤ isizeMax env.W → req.body.intoBytes sched = .ok bs →
      req.body.intoString env.W sched ≠ .panic ∧ ∀ s, req.body.intoString env.W sched = .ok s ↔ bs = strBytes s := by
    intro bs hl hb
    refine ⟨?_, fun s => ?_⟩
    · unfold Body.intoString
      rw [if_neg (by omega), hb]
      simp only
      cases fromUtf8 bs <;> simp
    · rw [C29_into_string, hb]
      simp [hl]
  refine ⟨req, h1, ?_, ?_, ?_⟩
  · intro n hn hlt
    unfold Body.intoString
    rw [(len n hn).1]
    simp only [Option.getD_some, gt_iff_lt, if_pos hlt]
  · intro n hn hle
    exact text _ (by rw [(len n hn).1]; exact hle) (len n hn).2
  · intro hno
    have no : ¬ HasHeader ⟨some method, some t, fs⟩ "content-length" := by
      rintro ⟨k, hk, hl⟩
      obtain ⟨q, hq1, rfl⟩ := List.mem_map.1 hk
      exact hno q hq1 hl
    exact text _ (by rw [g3 no]; exact Nat.zero_le _) (f3 no)

/-- The head of a form submission that declares `2147483648` bytes. -/
def longFields : List (String × Bytes) := [("Host", strBytes "a"), ("Content-Length", strBytes "2147483648")]

theorem long_head : GoodHead "POST" "/submit" longFields "Host" "a" where
  method := ⟨by decide +kernel, by decide +kernel⟩
  target := ⟨⟨by decide +kernel, by decide +kernel⟩, by decide +kernel⟩
  fields := by
    intro p hp
    simp only [longFields, List.mem_cons, List.not_mem_nil, or_false] at hp
    rcases hp with rfl | rfl <;>
      exact ⟨⟨by decide +kernel, by decide +kernel⟩, by unfold Text; decide +kernel, by unfold Trimmed; decide +kernel⟩
  text := by
    intro p hp
    simp only [longFields, List.mem_cons, List.not_mem_nil, or_false] at hp
    rcases hp with rfl | rfl <;> exact ⟨_, rfl⟩
  few := by decide
  host := by decide +kernel
  oneHost := by decide +kernel

theorem long_declares : Declares wireEnv longFields 2147483648 := by
  refine ⟨"Content-Length", "2147483648", by decide +kernel, by decide +kernel, ?_, by decide +kernel, by decide +kernel⟩
  have e : (2147483648 : Nat) = Decimal.value (strBytes "2147483648") := by decide +kernel
  rw [e]
  exact .plain ⟨by decide +kernel, by decide +kernel⟩

/-- **C111 is false**: with a 32-bit `usize` a `POST /submit` that declares 2147483648 bytes and sends ten of them, a correct submission, makes
`into_string` panic; in the list example its sender gets no answer and nothing is added. -/
theorem C111_text_refuted (sched : Nat → Nat) (items : List String) :
    let raw : Raw := [.data (headBytes "POST" "/submit" longFields ++ strBytes "message=hi")]
    (∃ req, Request.parse wireEnv raw = .ok (some req) ∧ req.body.intoBytes sched = .ok (strBytes "message=hi") ∧
      req.body.intoString 32 sched = .panic) ∧
    listConns wireEnv sched items [raw] = ([none], items) := by
  intro raw
  have hw : raw.WF := Raw.WF.nil.cons (by decide +kernel)
  have hc : raw.Clean := by simp [raw, Raw.Clean]
  have hav : raw.avail = headBytes "POST" "/submit" longFields ++ strBytes "message=hi" := by simp [raw, Raw.avail]
  have hu : wireEnv.parseUrl ("http://" ++ "a" ++ "/submit") = some ⟨"http://a", "/submit", none⟩ := by decide +kernel
  obtain ⟨req, h1, h2, -, -⟩ := C111_text_partial wireEnv (fun _ => .refl _) hpReq_contract sched "POST" "/submit" longFields "Host" "a" long_head
    _ hu _ raw hw hc hav
  have hpan := h2 _ long_declares (by decide +kernel)
  obtain ⟨req', g1, g2, g3, -⟩ := request_of_head wireEnv (fun _ => .refl _) hpReq_contract long_head hu raw hw _ hav
  rw [h1] at g1
  cases g1
  have hf : FirstBlank raw.avail (headBytes "POST" "/submit" longFields) (strBytes "message=hi") := by
    rw [hav]; exact headBytes_blank long_head _
  refine ⟨⟨req, h1, ?_, hpan⟩, ?_⟩
  · obtain ⟨head, rest, q, f1, f2, f3, f4⟩ := C77_content_length wireEnv (fun _ => .refl _) sched raw hw hc req h1
    obtain ⟨rfl, rfl⟩ := firstBlank_unique f1 hf
    have hq : wireEnv.httparse (headBytes "POST" "/submit" longFields) = some ⟨some "POST", some "/submit", longFields⟩ :=
      hpReq_contract _ _ _ long_head.method long_head.target.1 long_head.fields long_head.few
    rw [hq] at f2
    simp only [Option.some.injEq] at f2
    subst f2
    obtain ⟨k, v, k1, k2, k3, k4, k5⟩ := long_declares
    have := (f4 k v k1 k2 (by
      intro k' hk' hl
      obtain ⟨q, hq1, rfl⟩ := List.mem_map.1 hk'
      exact k5 q hq1 hl)).1 _ k3 k4
    rw [this, List.take_of_length_le]
    decide +kernel
  · have hs : listServe 32 sched req items = none := by
      have hm : req.method = .post := by rw [g3]; decide +kernel
      have hb := body_wf hw h1
      have hlen : isizeMax 32 < req.body.length.getD 0 := by
        apply Classical.byContradiction
        intro hn
        have := hpan
        unfold Body.intoString at this
        rw [if_neg (by exact hn)] at this
        by_cases hfl : req.body.Fails
        · rw [Body.intoBytes_err sched hb hfl] at this; cases this
        · rw [Body.intoBytes_ok sched hb hfl] at this
          simp only at this
          cases hx : fromUtf8 req.body.avail with
          | none => rw [hx] at this; cases this
          | some _ => rw [hx] at this; cases this
      exact (C87_submit_partial 32 sched req items hb hm (by rw [g2])).2.2 (Or.inl hlen)
    rw [listConns, h1]
    have : wireEnv.W = 32 := rfl
    simp only [this, hs, Option.map_none, Option.getD_none, listConns]

end Puck
