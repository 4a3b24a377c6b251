import Verif.Props.WireStep
import Verif.Props.Socket
/-!
# The three processes of a component, the bytes they write and the page (C106, C108)
-/
namespace Puck.Json
open Http

variable {D I S E P R : Type}

/-- what has been received, up to the end of the connection -/
theorem split_closed (ms : List (Mail I P)) (hn : NoWho ms) : ∃ ms', ms' <+: ms ∧ (∀ m ∈ ms', m ≠ .ws (.error .connectionClosed) ∧ ∀ q, m ≠ .whoAmI q) ∧
    (ms' = ms ∨ ∃ rest, ms = ms' ++ .ws (.error .connectionClosed) :: rest) := by
  induction ms with
  | nil => exact ⟨[], List.prefix_rfl, by simp, Or.inl rfl⟩
  | cons m ms ih =>
    by_cases hm : m = .ws (.error .connectionClosed)
    · exact ⟨[], by simp, by simp, Or.inr ⟨ms, by rw [hm]; rfl⟩⟩
    · obtain ⟨ms', h1, h2, h3⟩ := ih fun x hx => hn x (List.mem_cons_of_mem _ hx)
      refine ⟨m :: ms', List.cons_prefix_cons.2 ⟨rfl, h1⟩, ?_, ?_⟩
      · intro x hx
        rcases List.mem_cons.1 hx with rfl | hx
        · exact ⟨hm, hn _ List.mem_cons_self⟩
        · exact h2 x hx
      · rcases h3 with rfl | ⟨rest, rfl⟩
        · exact Or.inl rfl
        · exact Or.inr ⟨rest, rfl⟩

theorem stopped_silent (C : Component D I S E P) (parse : String → Option ClientMessage) (b : Bool) (ms : List (Mail I P)) :
    loopRun C parse b .stopped ms = (.stopped, []) := by
  induction ms with
  | nil => rfl
  | cons m ms ih => simp only [loopRun, loopStep, ih, List.append_nil]

/-- what the loop has received begins with the identity -/
theorem received_form {N : NetEnv D I S E P R} {data : D} {n : Net D I S E P R} (h : NetSteps N (Net.init data) n) :
    n.received = [] ∨ ∃ ms, n.received = .whoAmI N.me :: ms ∧ NoWho ms := by
  have inv := inv_steps (inv_init N data) h
  rcases manager_cases n.manager with hm | hm
  · exact Or.inl (inv.early hm).1
  · obtain ⟨rest, h1, h2, -⟩ := inv.late hm
    cases hr : n.received with
    | nil => exact Or.inl rfl
    | cons m ms =>
      rw [hr, List.cons_append, List.cons.injEq] at h1
      exact Or.inr ⟨ms, by rw [h1.1], fun x hx => h2 x (by rw [← h1.2]; exact List.mem_append_left _ hx)⟩

/-- **C106, for the processes of `Component::manage`.** In every state that any schedule of the three processes reaches, for any component whose messages keep
the page in step, with any pongs in between: whatever part of the bytes has arrived, the browser shows the page as it was or a render the component
had after some of the messages its loop has received, more bytes show a later one, and, while the connection is open and the loop has started, all the bytes
show the render of its present state. -/
theorem C106_processes (B : Browser) (N : NetEnv D I S E P R) (hN : N.parse = fromStr) (hsend : N.firstSend = true) (data : D) (page : List Dom)
    (hs : StaysInStep B N.comp fromStr data N.me page) (n : Net D I S E P R) (h : NetSteps N (Net.init data) n)
    (pongs ws : List Message) (hpongs : ∀ m ∈ pongs, ∃ q, m = .pong q) (hw : Merge (messagesOf n.outs) pongs ws)
    (hlen : ∀ m ∈ ws, (wireOf m).payload.length < 2 ^ 64) :
    (∀ bs bs', bs <+: bs' → bs' <+: (sendAll ws ⟨[], none⟩).2.out →
      ∃ h h', h <+: h' ∧ h' <+: n.received ∧ ShowsAfter B N.comp data page bs h ∧ ShowsAfter B N.comp data page bs' h') ∧
    (n.received ≠ [] → .ws (.error .connectionClosed) ∉ n.received →
      ∃ st d, n.loop = .running st ∧ pageFrom B (sendAll ws ⟨[], none⟩).2.out page = page ++ [d] ∧ (N.comp.render st.comp).1.ShownAs d) := by
  have inv := inv_steps (inv_init N data) h
  have hl := inv.loop
  have ho := inv.outs
  rw [hN, hsend] at hl ho
  rcases received_form h with hr | ⟨ms, hr, hno⟩
  · rw [hr] at ho ⊢
    simp only [loopRun] at ho
    rw [ho] at hw
    refine ⟨?_, fun h => absurd rfl h⟩
    intro bs bs' h1 h2
    have hm : messagesOf ([] : List (Out E)) = (([] : List (List WireOp)).map changesetText).map Message.text := by simp [messagesOf, sends]
    rw [hm] at hw
    have hall := texts_part hw hpongs hlen
    have aux : ∀ b, b <+: (sendAll ws ⟨[], none⟩).2.out → ShowsAfter B N.comp data page b [] := by
      intro b hb
      have e2 := texts_mono (decode_mono hb)
      rw [hall, List.map_nil, List.prefix_nil] at e2
      refine Or.inl ⟨rfl, ?_⟩
      unfold pageFrom
      rw [e2]
      rfl
    exact ⟨[], [], List.prefix_rfl, List.prefix_rfl, aux _ (h1.trans h2), aux _ h2⟩
  · obtain ⟨ms', h1, h2, h3⟩ := split_closed ms hno
    have hmsg : messagesOf n.outs = messagesOf (loopRun N.comp fromStr true (.waiting data) (.whoAmI N.me :: ms')).2 := by
      rw [ho, hr]
      rcases h3 with rfl | ⟨rest, rfl⟩
      · rfl
      · obtain ⟨st, os, d, g1, -⟩ := hs ms' h2
        rw [← List.cons_append, run_append, g1]
        simp only [loopRun, loopStep, stopped_silent]
        simp [messagesOf, sends_append, sends]
    rw [hmsg] at hw
    obtain ⟨a1, a2⟩ := C106_any_moment B N.comp N.me data page hs ms' h2 pongs ws hpongs hw hlen
    refine ⟨fun bs bs' b1 b2 => ?_, fun _ hopen => ?_⟩
    · obtain ⟨x, y, c1, c2, c3, c4⟩ := a1 bs bs' b1 b2
      exact ⟨x, y, c1, c2.trans (by rw [hr]; exact List.cons_prefix_cons.2 ⟨rfl, h1⟩), c3, c4⟩
    · have : ms' = ms := by
        rcases h3 with h3 | ⟨rest, rfl⟩
        · exact h3
        · exact absurd (by rw [hr]; simp) hopen
      subst this
      obtain ⟨st, os, d, g1, g2, g3⟩ := a2
      exact ⟨st, d, by rw [hl, hr, g1], g2, g3⟩

/-- in a fair execution the loop receives its identity, and from then on has received something -/
theorem eventually_started {N : NetEnv D I S E P R} {data : D} {x : Execution N data} (hf : x.Fair) : ∃ j, ∀ k, j ≤ k → (x.state k).received ≠ [] := by
  obtain ⟨i, -, hi⟩ := eventually_forwarding hf 0
  have inv := inv_steps (inv_init N data) (x.reach i)
  obtain ⟨rest, h1, -⟩ := inv.late (Or.inr hi)
  obtain ⟨j, -, hj⟩ := eventually_received hf i 1 (by rw [h1]; simp)
  refine ⟨j, fun k hk he => ?_⟩
  have := (steps_grow (x.steps j k hk)).1
  rw [he, List.prefix_nil] at this
  rw [this] at hj
  simp at hj

/-- **C108, as the client sees it.** In the session of `C108_session`, if the component's messages keep the page in step (C84): in every fair execution in
which the reader does not die there is a moment from which on the component's loop has received all of the client's messages, in order, and, as long as it has not been
told that the connection is closed, the bytes that the server has written after the 101 response (the component's messages and the reader's pongs, in any
order) lead the browser from its page to that page with the component's present render in it. -/
theorem C108_page (B : Browser) (env : HttpEnv) (henv : env.Valid) (hp : RequestContract env.httparse) (sha1 : Bytes → Bytes)
    (script : String) (t : String) (fs : List (String × Bytes)) (hostName host key : String) (hg : GoodHead "GET" t fs hostName host)
    (hh : HandshakeFields fs key) (u : Url) (hu : env.parseUrl ("http://" ++ host ++ t) = some u) (hpath : u.path = "/ws")
    (hd rest : Raw) (hc : hd.Clean) (hbytes : Raw.bytes hd = headBytes "GET" t fs)
    (items : List (Rfc6455.Kind × List Delivery × Message))
    (hi : ∀ y ∈ items, (∀ d ∈ y.2.1, d.Ok env.W) ∧ y.1 ≠ .close ∧ IsMessage y.1 (y.2.1.map Delivery.frame) ∧
      Means y.1 (payloads (y.2.1.map Delivery.frame)) y.2.2)
    (hw : Raw.WF (hd ++ ((items.map fun y => (y.2.1.map Delivery.reads).flatten).flatten ++ rest))) (o : Bytes) :
    ∃ (req : Request) (socket : WsState × Conn),
      Request.parse env (hd ++ ((items.map fun y => (y.2.1.map Delivery.reads).flatten).flatten ++ rest)) = .ok (some req) ∧
      upgradedSocket env sha1 req ⟨o, none⟩ = some socket ∧
      ∀ (N : NetEnv D I S E P (WsState × Conn)), N.next = socketNext env.W → N.socket = socket → N.parse = fromStr → N.firstSend = true →
        ∀ (data : D) (page : List Dom), StaysInStep B N.comp fromStr data N.me page →
        ∀ (x : Execution N data), x.Fair → x.ReaderLives →
          ∃ j, ∀ k, j ≤ k →
            (items.map fun y => Except.ok y.2.2) <+: socketOf (x.state k).received ∧
            (.ws (.error .connectionClosed) ∉ (x.state k).received →
              ∀ pongs ws : List Message, (∀ m ∈ pongs, ∃ q, m = .pong q) → Merge (messagesOf (x.state k).outs) pongs ws →
                (∀ m ∈ ws, (wireOf m).payload.length < 2 ^ 64) →
                ∃ st d, (x.state k).loop = .running st ∧ pageFrom B (sendAll ws ⟨[], none⟩).2.out page = page ++ [d] ∧
                  (N.comp.render st.comp).1.ShownAs d) := by
  obtain ⟨req, accept, h1, -, -, socket, h2, -, -, h3⟩ := C108_session (D := D) (I := I) (S := S) (E := E) (P := P) env henv hp sha1 script t fs hostName host
    key hg hh u hu hpath hd rest hc hbytes items hi hw o
  refine ⟨req, socket, h1, h2, ?_⟩
  intro N n1 n2 n3 n4 data page hs x hf hl
  obtain ⟨j, hj⟩ := (h3 N n1 n2 data x hf hl).1
  obtain ⟨j', hj'⟩ := eventually_started hf
  refine ⟨max j j', fun k hk => ⟨hj.trans (socketOf_prefix (steps_grow (x.steps j k (by omega))).1), ?_⟩⟩
  intro hopen pongs ws a1 a2 a3
  exact (C106_processes B N n3 n4 data page hs (x.state k) (x.reach k) pongs ws a1 a2 a3).2 (hj' k (by omega)) hopen

/-- non-vacuity of C108_page: the handshake in two reads, a click on the counter's button as one text frame; a round robin; with no pongs the page ends up
showing the counter's present render -/
example : ∃ (N : NetEnv Unit Nat Nat String Unit (WsState × Conn)) (x : Execution N ()), N.comp = counter ∧ x.Fair ∧ x.ReaderLives ∧
    ∃ j, ∀ k, j ≤ k → [Except.ok (Message.text (eventText "inc" none))] <+: socketOf (x.state k).received ∧
      (.ws (.error .connectionClosed) ∉ (x.state k).received → (∀ m ∈ messagesOf (x.state k).outs, (wireOf m).payload.length < 2 ^ 64) →
        ∃ st d, (x.state k).loop = .running st ∧ pageFrom plainBrowser (sendAll (messagesOf (x.state k).outs) ⟨[], none⟩).2.out [] = [d] ∧
          (counter.render st.comp).1.ShownAs d) := by
  let f0 : Rfc6455.ClientFrame := ⟨true, false, false, false, 1, (7, 7, 7, 7), strBytes (eventText "inc" none), .short⟩
  let items : List (Rfc6455.Kind × List Delivery × Message) := [(.text, [⟨f0, [.data f0.encode]⟩], .text (eventText "inc" none))]
  let hd : Raw := [.data ((headBytes "GET" "/ws" sessionFields).take 20), .data ((headBytes "GET" "/ws" sessionFields).drop 20)]
  have hw : Raw.WF (hd ++ ((items.map fun y => (y.2.1.map Delivery.reads).flatten).flatten ++ [])) := by
    refine Raw.WF.cons (by decide +kernel) (Raw.WF.cons (by decide +kernel) (Raw.WF.cons ?_ Raw.WF.nil))
    show f0.encode ≠ []; decide +kernel
  obtain ⟨req, socket, -, -, hN⟩ := C108_page (D := Unit) (I := Nat) (S := Nat) (E := String) (P := Unit) plainBrowser sessionEnv
    (fun _ => .refl _) hpReq_contract (fun _ => []) "" "/ws" sessionFields "Host" "a" "dGhlIHNhbXBsZSBub25jZQ==" session_head
    ⟨⟨"websocket", by decide +kernel, by decide +kernel⟩, ⟨"keep-alive, Upgrade", by decide +kernel, by decide +kernel⟩, by decide +kernel⟩
    ⟨"http://a", "/ws", none⟩ (by decide +kernel) rfl hd [] (by simp [hd, Raw.Clean])
    (by simp [hd, Raw.bytes]) items (by
      intro y hy
      simp only [items, List.mem_singleton] at hy
      subst hy
      refine ⟨?_, by simp, ⟨rfl, Or.inl ⟨rfl, rfl⟩⟩, ?_⟩
      · intro d hd; simp only [List.mem_singleton] at hd; subst hd; exact ok_single _ (by decide +kernel) (by decide +kernel)
      · have : payloads ([f0]) = strBytes (eventText "inc" none) := by simp [payloads, f0]
        show Means .text (payloads [f0]) _
        rw [this]
        exact Means.text _) hw []
  let N : NetEnv Unit Nat Nat String Unit (WsState × Conn) := ⟨counter, fromStr, true, (), socket, socketNext 32⟩
  obtain ⟨x, hf, hl, -⟩ := fair_exists 32 N rfl () (fun _ => none)
  have hp : PageOk [] := by simp [PageOk, domIds]
  have hs : StaysInStep plainBrowser counter fromStr () () [] := (C106_components plainBrowser counter () fromStr () [] hp).1 (counter_friendly.from _)
  obtain ⟨j, hj⟩ := hN N rfl rfl rfl rfl () [] hs x hf hl
  refine ⟨N, x, rfl, hf, hl, j, fun k hk => ⟨(hj k hk).1, fun h1 h2 => ?_⟩⟩
  obtain ⟨st, d, e1, e2, e3⟩ := (hj k hk).2 h1 [] _ (by simp) (by have := merge_right (messagesOf (x.state k).outs) []; rwa [List.append_nil] at this) h2
  exact ⟨st, d, e1, by simpa using e2, e3⟩

end Puck.Json
