import Verif.Props.Request
import Verif.Props.Response
/-!
# Writing a request or response uses up its body and nothing else (C127)
-/
namespace Puck

/-- Whatever is written of a body from which nothing comes any more: nothing. -/
theorem copyTo_nothing {b : Body} (hw : b.WF) (hf : ¬ b.Fails) (ha : b.avail = []) (s : Sink) :
    (b.copyTo copyBlk s).1 = .ok () ∧ (b.copyTo copyBlk s).2.2 = s := by
  obtain ⟨h1, h2, -⟩ := Body.copyTo_spec copyBlk _ b s (Nat.le_refl _) hw
  rw [ha, Sink.writeAll_nil] at h1
  rw [ha, Sink.writeAll_nil] at h2
  exact ⟨(h2 hf rfl).1, h1⟩

theorem empty_nothing : Body.empty.WF ∧ ¬ Body.empty.Fails ∧ Body.empty.avail = [] :=
  ⟨⟨trivial, by simp [Body.empty]⟩, by simp [Body.Fails, Body.empty, Src.Clean], by simp [Body.avail, Body.empty]⟩

/-- **C127, requests.** After `Request::write` succeeded, the request has the method, URL and headers it had; its body yields nothing, however it is read,
but still declares its length; and writing it again, to whatever connection, does exactly what writing the same request with an empty body does. -/
theorem C127_request (env : HttpEnv) (r : Request) (hw : r.body.WF) (s : Sink) (hok : (r.write env s).1 = .ok ()) :
    let r' := (r.write env s).2.1
    r'.method = r.method ∧ r'.url = r.url ∧ r'.headers = r.headers ∧ r'.body.length = r.body.length ∧ r'.body.mime = r.body.mime ∧
    (∀ sched, r'.body.intoBytes sched = .ok []) ∧
    ∀ s2, (r'.write env s2).1 = (({ r with body := Body.empty } : Request).write env s2).1 ∧
      (r'.write env s2).2.2 = (({ r with body := Body.empty } : Request).write env s2).2.2 := by
  unfold Request.write at hok ⊢
  cases hs : Sink.writeEach ([strBytes r.method.text, strBytes (" " ++ r.url.path ++ " "), strBytes "HTTP/1.1\r\n"] ++
      (env.ord r.headers).map headerLine ++ [strBytes "\r\n"]) s with
  | mk ok s' =>
    rw [hs] at hok
    cases ok with
    | false => simp at hok
    | true =>
      obtain ⟨c1, c2, c3⟩ := Body.copyTo_spec copyBlk _ r.body s' (Nat.le_refl _) hw
      cases hc : r.body.copyTo copyBlk s' with
      | mk o bs =>
        obtain ⟨b, s''⟩ := bs
        simp only [hc] at hok
        subst hok
        rw [hc] at c1 c2 c3
        have hnf : ¬ r.body.Fails := fun hf => by have := c3 (.inl hf); cases this
        have hwt : (s'.writeAll r.body.avail).1 = true := by
          cases hx : (s'.writeAll r.body.avail).1 with
          | true => rfl
          | false => have := c3 (.inr hx); cases this
        obtain ⟨-, d2, d3, d4, d5, d6⟩ := c2 hnf hwt
        simp only at d2 d3 d4 d5 d6
        simp only [hc]
        refine ⟨trivial, trivial, trivial, d6, d5, fun sched => ?_, fun s2 => ?_⟩
        · rw [Body.intoBytes_ok sched d3 d4, d2]
        · cases hs2 : Sink.writeEach ([strBytes r.method.text, strBytes (" " ++ r.url.path ++ " "), strBytes "HTTP/1.1\r\n"] ++
              (env.ord r.headers).map headerLine ++ [strBytes "\r\n"]) s2 with
          | mk ok s3 =>
            cases ok with
            | false => exact ⟨rfl, rfl⟩
            | true =>
              simp only
              rw [(copyTo_nothing d3 d4 d2 s3).1, (copyTo_nothing d3 d4 d2 s3).2, (copyTo_nothing empty_nothing.1 empty_nothing.2.1 empty_nothing.2.2 s3).1,
                (copyTo_nothing empty_nothing.1 empty_nothing.2.1 empty_nothing.2.2 s3).2]
              exact ⟨rfl, rfl⟩

/-- **C127, responses.** The same of a response that an `Encoder` has written: a second `write_tcp_stream` writes its head and no body. -/
theorem C127_response (env : HttpEnv) (r : Response) (hw : r.body.WF) (s : Sink) (hok : (r.encode env s).1 = .ok ()) :
    let r' := (r.encode env s).2.1
    r'.status = r.status ∧ r'.reason = r.reason ∧ r'.headers = r.headers ∧ r'.body.length = r.body.length ∧ r'.body.mime = r.body.mime ∧
    (∀ sched, r'.body.intoBytes sched = .ok []) ∧
    ∀ s2, (r'.encode env s2).1 = (({ r with body := Body.empty } : Response).encode env s2).1 ∧
      (r'.encode env s2).2.2 = (({ r with body := Body.empty } : Response).encode env s2).2.2 := by
  unfold Response.encode at hok ⊢
  cases hs : Sink.writeEach ([strBytes ("HTTP/1.1 " ++ toString r.status ++ " " ++ r.reason ++ "\r\n")] ++
      (sortHeaders (env.ord r.headers)).map headerLine ++ [strBytes "\r\n"]) s with
  | mk ok s' =>
    rw [hs] at hok
    cases ok with
    | false => simp at hok
    | true =>
      obtain ⟨c1, c2, c3⟩ := Body.copyTo_spec copyBlk _ r.body s' (Nat.le_refl _) hw
      cases hc : r.body.copyTo copyBlk s' with
      | mk o bs =>
        obtain ⟨b, s''⟩ := bs
        simp only [hc] at hok
        subst hok
        rw [hc] at c1 c2 c3
        have hnf : ¬ r.body.Fails := fun hf => by have := c3 (.inl hf); cases this
        have hwt : (s'.writeAll r.body.avail).1 = true := by
          cases hx : (s'.writeAll r.body.avail).1 with
          | true => rfl
          | false => have := c3 (.inr hx); cases this
        obtain ⟨-, d2, d3, d4, d5, d6⟩ := c2 hnf hwt
        simp only at d2 d3 d4 d5 d6
        simp only [hc]
        refine ⟨trivial, trivial, trivial, d6, d5, fun sched => ?_, fun s2 => ?_⟩
        · rw [Body.intoBytes_ok sched d3 d4, d2]
        · cases hs2 : Sink.writeEach ([strBytes ("HTTP/1.1 " ++ toString r.status ++ " " ++ r.reason ++ "\r\n")] ++
              (sortHeaders (env.ord r.headers)).map headerLine ++ [strBytes "\r\n"]) s2 with
          | mk ok s3 =>
            cases ok with
            | false => exact ⟨rfl, rfl⟩
            | true =>
              simp only
              rw [(copyTo_nothing d3 d4 d2 s3).1, (copyTo_nothing d3 d4 d2 s3).2, (copyTo_nothing empty_nothing.1 empty_nothing.2.1 empty_nothing.2.2 s3).1,
                (copyTo_nothing empty_nothing.1 empty_nothing.2.1 empty_nothing.2.2 s3).2]
              exact ⟨rfl, rfl⟩

/-- non-vacuity: a response with a body that is written -/
example (env : HttpEnv) (henv : env.Valid) : err404.body.WF ∧ (err404.encode env ⟨[], none⟩).1 = .ok () ∧ err404.body.avail ≠ [] := by
  have hd : err404.headers.Distinct := by simp [err404, Headers.insert, Headers.Distinct]
  have hw : err404.body.WF := ⟨trivial, by simp [err404, Body.fromString]⟩
  refine ⟨hw, (Response.encode_spec env henv err404 hd hw ⟨[], none⟩).2.1 ?_ rfl, by decide +kernel⟩
  simp [err404, Body.fromString, Body.Fails, Src.Clean]

end Puck
