import Verif.Props.Response
import Verif.Model.Upgrade
/-!
# Sending a response reports its outcome (C126)
-/
namespace Puck
open Http

/-- **C126.** `Stream::respond` never crashes.  It returns `Ok` exactly if the body could be read to its end and the connection took
every byte of the response; otherwise it returns `Err`.  What the connection has got is always the response's bytes, as far as the
connection took them; for a body that fails they end where the body failed.  The answer keeps the stream and its keep-alive mark. -/
theorem C126_outcome (r : Response) (hd : r.headers.Distinct) (hw : r.body.WF) :
    ∃ hs, hs.Perm r.headers ∧ hs.Pairwise (fun a b => strBytes a.1 < strBytes b.1) ∧
      ∀ (env : HttpEnv), env.Valid → ∀ (keepAlive : Bool) (s : Sink),
        let wire := wireBytes r.status r.reason hs r.body.avail
        let Sent := ¬ r.body.Fails ∧ ∀ k, s.room = some k → wire.length ≤ k
        (Stream.respond env keepAlive r s).1 ≠ .panic ∧
        ((Stream.respond env keepAlive r s).1 = .ok ⟨true, keepAlive⟩ ↔ Sent) ∧
        ((Stream.respond env keepAlive r s).1 = .err () ↔ ¬ Sent) ∧
        (Stream.respond env keepAlive r s).2.out = s.out ++ wire.take (s.room.getD wire.length) := by
  refine ⟨sortHeaders r.headers, sortHeaders_perm _, sortHeaders_lt hd, fun env henv ka s => ?_⟩
  intro wire Sent
  obtain ⟨h1, h2, h3⟩ := Response.encode_spec env henv r hd hw s
  have e : r.headBytes ++ r.body.avail = wire := rfl
  rw [e] at h1 h2 h3
  have hout : (s.writeAll wire).2.out = s.out ++ wire.take (s.room.getD wire.length) := by
    unfold Sink.writeAll
    cases s.room with
    | none => simp
    | some k =>
      by_cases h : wire.length ≤ k
      · simp [h, List.take_of_length_le h]
      · simp [h]
  have hfit : (s.writeAll wire).1 = true ↔ ∀ k, s.room = some k → wire.length ≤ k := by
    unfold Sink.writeAll
    cases s.room with
    | none => simp
    | some k =>
      by_cases h : wire.length ≤ k <;> simp [h]
  have key : (Sent ∧ (r.encode env s).1 = .ok ()) ∨ (¬ Sent ∧ (r.encode env s).1 = .err ()) := by
    by_cases hf : r.body.Fails
    · exact .inr ⟨fun h => h.1 hf, h3 (.inl hf)⟩
    · cases hb : (s.writeAll wire).1 with
      | false => exact .inr ⟨fun h => (by rw [hfit.2 h.2] at hb; cases hb), h3 (.inr hb)⟩
      | true => exact .inl ⟨⟨hf, hfit.1 hb⟩, h2 hf hb⟩
  unfold Stream.respond
  cases he : r.encode env s with
  | mk o rs =>
    obtain ⟨b, s'⟩ := rs
    rw [he] at key h1
    simp only at key h1
    subst h1
    rcases key with ⟨hs, rfl⟩ | ⟨hs, rfl⟩
    · exact ⟨by simp, by simp [hs], by simp [hs], hout⟩
    · exact ⟨by simp, by simp [hs], by simp [hs], hout⟩

/-- a response and connections that meet the hypotheses, with both outcomes: the canned error is sent whole if the connection takes
it, and a connection that breaks after ten bytes gets the first ten and an error is returned -/
theorem C126_witness (env : HttpEnv) (henv : env.Valid) (ka : Bool) :
    (Stream.respond env ka err404 ⟨[], none⟩).1 = .ok ⟨true, ka⟩ ∧
    Stream.respond env ka err404 ⟨[], some 10⟩ = (.err (), ⟨strBytes "HTTP/1.1 4", some 0⟩) := by
  have hd : err404.headers.Distinct := by simp [err404, Headers.insert, Headers.Distinct]
  have hw : err404.body.WF := ⟨trivial, by simp [err404, Body.fromString]⟩
  have hok : ¬ err404.body.Fails := by
    simp [err404, Body.fromString, Body.Fails, Src.Clean]
  have hl : sortHeaders err404.headers = err404.headers := by
    simp [err404, Headers.insert, sortHeaders]
  obtain ⟨h1, h2, h3⟩ := Response.encode_spec env henv err404 hd hw ⟨[], none⟩
  obtain ⟨g1, g2, g3⟩ := Response.encode_spec env henv err404 hd hw ⟨[], some 10⟩
  have hb : err404.headBytes ++ err404.body.avail = strBytes "HTTP/1.1 404 not found\r\nContent-Type: text/html;charset=utf-8\r\n\r\n<h1>404: Not found</h1>" := by
    unfold Response.headBytes
    rw [hl]
    decide +kernel
  rw [hb] at h1 h2 g1 g3
  constructor
  · unfold Stream.respond
    have := h2 hok rfl
    cases he : err404.encode env ⟨[], none⟩ with
    | mk o rs => rw [he] at this; simp only at this; subst this; rfl
  · unfold Stream.respond
    have ho := g3 (.inr (by decide +kernel))
    have hg : (Sink.writeAll (strBytes "HTTP/1.1 404 not found\r\nContent-Type: text/html;charset=utf-8\r\n\r\n<h1>404: Not found</h1>") ⟨[], some 10⟩).2 =
        ⟨strBytes "HTTP/1.1 4", some 0⟩ := by decide +kernel
    rw [hg] at g1
    cases he : err404.encode env ⟨[], some 10⟩ with
    | mk o rs => obtain ⟨b, s'⟩ := rs; rw [he] at ho g1; simp only at ho g1; subst ho g1; rfl

end Puck
