import Verif.Props.Conform
import Verif.Spec.Lenient
/-!
# What the iterator reports for any frames (C120)
-/
namespace Puck
open Rfc6455

theorem report_unique {s : Option (Kind × Bytes)} {fs rest : List ClientFrame} {v : Verdict} (h : Report s fs v rest) :
    ∀ v' rest', Report s fs v' rest' → v = v' ∧ rest = rest' := by
  induction h <;> intro v' rest' h' <;> cases h' <;> first | exact ⟨rfl, rfl⟩ | contradiction | grind [means_unique]

theorem message_nonsense {k : Kind} {p : Bytes} (h : ¬ ∃ m, Means k p m) : messageOf (opFor k) p = .err .clientProtocolViolationError := by
  cases k with
  | text => exact message_none h
  | binary => exact absurd ⟨_, Means.binary p⟩ h
  | ping =>
    by_cases hp : p = []
    · subst hp; exact absurd ⟨_, Means.pingEmpty⟩ h
    · exact absurd ⟨_, Means.ping p hp⟩ h
  | pong =>
    by_cases hp : p = []
    · subst hp; exact absurd ⟨_, Means.pongEmpty⟩ h
    · exact absurd ⟨_, Means.pong p hp⟩ h
  | «continue» => rfl
  | close => rfl
  | reserved => rfl

/-- all reads of some deliveries -/
abbrev readsOf (ds : List Delivery) : Raw := (ds.map Delivery.reads).flatten

theorem resume_report (W : Nat) : ∀ (ds : List Delivery) (s : Option (Kind × Bytes)), (∀ d ∈ ds, d.Ok W) →
    (∃ v es, Report s (ds.map Delivery.frame) v (es.map Delivery.frame) ∧ (∃ a, a ≠ [] ∧ ds = a ++ es) ∧
      ∀ rest, resume W s (readsOf ds ++ rest) = (Verdict.outcome v, readsOf es ++ rest)) ∨
    ((¬ ∃ v r, Report s (ds.map Delivery.frame) v r) ∧ ∃ s', ∀ rest, resume W s (readsOf ds ++ rest) = resume W s' rest)
  | [], s, _ => Or.inr ⟨(by rintro ⟨v, r, h⟩; cases h), s, fun rest => rfl⟩
  | d :: ds, s, hok => by
    have hd := hok d List.mem_cons_self
    have ih := fun s => resume_report W ds s (fun e he => hok e (List.mem_cons_of_mem _ he))
    have hreads : ∀ rest, readsOf (d :: ds) ++ rest = d.reads ++ (readsOf ds ++ rest) := fun rest => by simp [readsOf]
    have one : ds = [] ++ ds ∧ ∃ a : List Delivery, a ≠ [] ∧ d :: ds = a ++ ds := ⟨rfl, [d], by simp, rfl⟩
    by_cases hc : kindOf d.frame.nibble = .close
    · refine Or.inl ⟨.closed, ds, .close hc, one.2, fun rest => ?_⟩
      rw [hreads]
      cases s with
      | none => rw [resume_none hd, if_pos hc]; rfl
      | some kp => obtain ⟨k, p⟩ := kp; rw [resume_some hd, if_pos hc]; rfl
    · cases s with
      | none =>
        cases hf : d.frame.fin with
        | true =>
          by_cases hm : ∃ m, Means (kindOf d.frame.nibble) d.frame.payload m
          · obtain ⟨m, hm⟩ := hm
            refine Or.inl ⟨.message m, ds, .whole hc hf hm, one.2, fun rest => ?_⟩
            rw [hreads, resume_none hd, if_neg hc, if_pos hf, message_of hm]; rfl
          · refine Or.inl ⟨.failed, ds, .nonsense hc hf hm, one.2, fun rest => ?_⟩
            rw [hreads, resume_none hd, if_neg hc, if_pos hf, message_nonsense hm]; rfl
        | false =>
          have e : ∀ rest, resume W none (readsOf (d :: ds) ++ rest) =
              resume W (some (kindOf d.frame.nibble, d.frame.payload)) (readsOf ds ++ rest) := fun rest => by
            rw [hreads, resume_none hd, if_neg hc, if_neg (by simp [hf])]
          rcases ih (some (kindOf d.frame.nibble, d.frame.payload)) with ⟨v, es, h1, ⟨a, -, h2⟩, h3⟩ | ⟨h1, s', h2⟩
          · exact Or.inl ⟨v, es, .start hc hf h1, ⟨d :: a, by simp, by rw [h2]; rfl⟩, fun rest => by rw [e, h3]⟩
          · refine Or.inr ⟨?_, s', fun rest => by rw [e, h2]⟩
            rintro ⟨v, r, h⟩
            cases h with
            | close h => exact hc h
            | whole _ h _ => simp [hf] at h
            | nonsense _ h _ => simp [hf] at h
            | start _ _ h => exact h1 ⟨_, _, h⟩
      | some kp =>
        obtain ⟨k, p⟩ := kp
        by_cases hcont : kindOf d.frame.nibble = .continue
        · cases hf : d.frame.fin with
          | true =>
            by_cases hm : ∃ m, Means k (p ++ d.frame.payload) m
            · obtain ⟨m, hm⟩ := hm
              refine Or.inl ⟨.message m, ds, .last hcont hf hm, one.2, fun rest => ?_⟩
              rw [hreads, resume_some hd, if_neg hc, if_neg (by simp [hcont]), if_pos hf, message_of hm]; rfl
            · refine Or.inl ⟨.failed, ds, .garbled hcont hf hm, one.2, fun rest => ?_⟩
              rw [hreads, resume_some hd, if_neg hc, if_neg (by simp [hcont]), if_pos hf, message_nonsense hm]; rfl
          | false =>
            have e : ∀ rest, resume W (some (k, p)) (readsOf (d :: ds) ++ rest) =
                resume W (some (k, p ++ d.frame.payload)) (readsOf ds ++ rest) := fun rest => by
              rw [hreads, resume_some hd, if_neg hc, if_neg (by simp [hcont]), if_neg (by simp [hf])]
            rcases ih (some (k, p ++ d.frame.payload)) with ⟨v, es, h1, ⟨a, -, h2⟩, h3⟩ | ⟨h1, s', h2⟩
            · exact Or.inl ⟨v, es, .more hcont hf h1, ⟨d :: a, by simp, by rw [h2]; rfl⟩, fun rest => by rw [e, h3]⟩
            · refine Or.inr ⟨?_, s', fun rest => by rw [e, h2]⟩
              rintro ⟨v, r, h⟩
              cases h with
              | close h => exact hc h
              | other _ h => exact h hcont
              | last _ h _ => simp [hf] at h
              | garbled _ h _ => simp [hf] at h
              | more _ _ h => exact h1 ⟨_, _, h⟩
        · refine Or.inl ⟨.failed, ds, .other hc hcont, one.2, fun rest => ?_⟩
          rw [hreads, resume_some hd, if_neg hc, if_pos hcont]; rfl

/-- the lenient rules give at most one sequence of reports -/
theorem reports_unique {fs : List ClientFrame} {vs : List Verdict} (h : Reports fs vs) : ∀ vs', Reports fs vs' → vs = vs' := by
  induction h with
  | wait h =>
    intro vs' h'
    cases h' with
    | wait => rfl
    | closed h' => exact absurd ⟨_, _, h'⟩ h
    | next h' _ _ => exact absurd ⟨_, _, h'⟩ h
  | closed h =>
    intro vs' h'
    cases h' with
    | wait h' => exact absurd ⟨_, _, h⟩ h'
    | closed h' => rfl
    | next h' hn _ => exact absurd (report_unique h _ _ h').1.symm hn
  | next h hv _ ih =>
    intro vs' h'
    cases h' with
    | wait h' => exact absurd ⟨_, _, h⟩ h'
    | closed h' => exact absurd (report_unique h _ _ h').1 hv
    | next h' hn hr =>
      obtain ⟨rfl, rfl⟩ := report_unique h _ _ h'
      rw [ih _ hr]

theorem report_shorter {s : Option (Kind × Bytes)} {fs rest : List ClientFrame} {v : Verdict} (h : Report s fs v rest) : rest.length < fs.length := by
  induction h <;> simp_all <;> omega

/-- ... and at least one -/
theorem reports_total (fs : List ClientFrame) : ∃ vs, Reports fs vs := by
  by_cases h : ∃ v rest, Report none fs v rest
  · obtain ⟨v, rest, h⟩ := h
    by_cases hv : v = .closed
    · subst hv; exact ⟨_, .closed h⟩
    · have := report_shorter h
      obtain ⟨vs, hvs⟩ := reports_total rest
      exact ⟨_, .next h hv hvs⟩
  · exact ⟨_, .wait h⟩
termination_by fs.length

theorem run_closed_next (W : Nat) (n : Nat) (c : Conn) :
    (WebSocket.run W (List.replicate n .next) .closed c).1 = List.replicate n (Verdict.item .closed) := by
  induction n with
  | zero => rfl
  | succ n ih => rw [List.replicate_succ, WebSocket.run]; simp only [WebSocket.next]; rw [ih]; rfl

/-- Calls of the iterator, the first of which reports `v`. -/
theorem run_next {W : Nat} {raw raw' : Raw} {v : Verdict} (h : Message.next W raw = (Verdict.outcome v, raw')) (n : Nat) (o : Bytes) :
    ∃ o', (WebSocket.run W (List.replicate (n + 1) .next) .open ⟨raw, ⟨o, none⟩⟩).1 =
      Verdict.item v :: (WebSocket.run W (List.replicate n .next) .open ⟨raw', ⟨o', none⟩⟩).1 ∨
    (v = .closed ∧ (WebSocket.run W (List.replicate (n + 1) .next) .open ⟨raw, ⟨o, none⟩⟩).1 = List.replicate (n + 1) (Verdict.item .closed)) := by
  obtain ⟨r, st, o', g1, g2, g3, g4⟩ := next_verdict h o
  refine ⟨o', ?_⟩
  have e : (WebSocket.run W (List.replicate (n + 1) .next) .open ⟨raw, ⟨o, none⟩⟩).1 =
      Verdict.item v :: (WebSocket.run W (List.replicate n .next) st ⟨raw', ⟨o', none⟩⟩).1 := by
    rw [List.replicate_succ, WebSocket.run, g1, g2]
    cases r with
    | panic => exact absurd rfl g3
    | ok m => rfl
    | err e => rfl
  cases st with
  | «open» => exact Or.inl e
  | closed =>
    have hv := g4.1 rfl
    refine Or.inr ⟨hv, ?_⟩
    rw [e, run_closed_next, hv]
    rfl

theorem run_next_open {W : Nat} {raw raw' : Raw} {v : Verdict} (h : Message.next W raw = (Verdict.outcome v, raw')) (hv : v ≠ .closed) (n : Nat) (o : Bytes) :
    ∃ o', (WebSocket.run W (List.replicate (n + 1) .next) .open ⟨raw, ⟨o, none⟩⟩).1 =
      Verdict.item v :: (WebSocket.run W (List.replicate n .next) .open ⟨raw', ⟨o', none⟩⟩).1 := by
  obtain ⟨o', h1 | ⟨h1, -⟩⟩ := run_next h n o
  · exact ⟨o', h1⟩
  · exact absurd h1 hv

theorem run_head {W : Nat} {raw raw' : Raw} {v : Verdict} (h : Message.next W raw = (Verdict.outcome v, raw')) (n : Nat) (o : Bytes) :
    ∃ rs, (WebSocket.run W (List.replicate (n + 1) .next) .open ⟨raw, ⟨o, none⟩⟩).1 = Verdict.item v :: rs := by
  obtain ⟨o', h1 | ⟨rfl, h1⟩⟩ := run_next h n o
  · exact ⟨_, h1⟩
  · exact ⟨_, h1⟩

theorem Verdict.item_inj {v v' : Verdict} (h : Verdict.item v = Verdict.item v') : v = v' := by
  cases v <;> cases v' <;> simp [Verdict.item] at h <;> simp_all

theorem deliveries_of {W : Nat} {ds : List Delivery} {s : Option (Kind × Bytes)} {v : Verdict} {r : List ClientFrame} (hok : ∀ d ∈ ds, d.Ok W)
    (h : Report s (ds.map Delivery.frame) v r) : ∃ es, r = es.map Delivery.frame ∧ (∀ d ∈ es, d.Ok W) ∧
      ∀ rest, resume W s (readsOf ds ++ rest) = (Verdict.outcome v, readsOf es ++ rest) := by
  rcases resume_report W ds s hok with ⟨v', es, h1, ⟨a, -, h2⟩, h3⟩ | ⟨h1, -⟩
  · obtain ⟨rfl, rfl⟩ := report_unique h _ _ h1
    exact ⟨es, rfl, fun d hd => hok d (by rw [h2]; exact List.mem_append_right _ hd), h3⟩
  · exact absurd ⟨_, _, h⟩ h1

/-- **C120, what the iterator reports, exactly**: for any frames at all, in reads of their own, successive calls report what the lenient rules
(`Reports`) say, message by message, whatever comes after them. -/
theorem C120_reports (W : Nat) {fs : List ClientFrame} {rs : List Verdict} (h : Reports fs rs) : ∀ (ds : List Delivery), ds.map Delivery.frame = fs →
    (∀ d ∈ ds, d.Ok W) → ∀ (rest : Raw) (o : Bytes) (n : Nat), n ≤ rs.length →
    (WebSocket.run W (List.replicate n .next) .open ⟨readsOf ds ++ rest, ⟨o, none⟩⟩).1 = (rs.take n).map Verdict.item := by
  induction h with
  | wait h =>
    intro ds hf hok rest o n hn
    have : n = 0 := by simpa using hn
    subst this
    rfl
  | closed h =>
    intro ds hf hok rest o n hn
    subst hf
    obtain ⟨es, rfl, -, h3⟩ := deliveries_of hok h
    have : n = 0 ∨ n = 1 := by simp at hn; omega
    rcases this with rfl | rfl
    · rfl
    · obtain ⟨o', h1 | ⟨-, h1⟩⟩ := run_next (h3 rest) 0 o
      · rw [h1]; rfl
      · rw [h1]; rfl
  | next h hv _ ih =>
    intro ds hf hok rest o n hn
    subst hf
    obtain ⟨es, rfl, hes, h3⟩ := deliveries_of hok h
    cases n with
    | zero => rfl
    | succ n =>
      obtain ⟨o', h1⟩ := run_next_open (h3 rest) hv n o
      rw [h1, ih es rfl hes rest o' n (by simpa using hn)]
      rfl

/-- an empty close frame -/
def closeBare : ClientFrame := ⟨true, false, false, false, 8, (1, 2, 3, 4), [], .short⟩

theorem resume_eof (W : Nat) (s : Option (Kind × Bytes)) : resume W s [] = (Verdict.outcome .failed, []) := by
  cases s with
  | none => simp only [resume, Message.next, parse_eof]; rfl
  | some kp => obtain ⟨k, p⟩ := kp; simp only [resume]; rw [nextLoop, parse_eof]; rfl

theorem resume_close (W : Nat) (s : Option (Kind × Bytes)) : resume W s [.data closeBare.encode] = (Verdict.outcome .closed, []) := by
  have hd : Delivery.Ok W ⟨closeBare, [.data closeBare.encode]⟩ := ok_single _ (by decide) (by simp [closeBare])
  cases s with
  | none => have := resume_none hd []; rw [if_pos (by rfl)] at this; exact this
  | some kp => obtain ⟨k, p⟩ := kp; have := resume_some hd k p []; rw [if_pos (by rfl)] at this; exact this

theorem reports_prefix (W : Nat) {fs : List ClientFrame} {rs : List Verdict} (h : Reports fs rs) : ∀ (ds : List Delivery), ds.map Delivery.frame = fs →
    (∀ d ∈ ds, d.Ok W) → ∀ vs : List Verdict, (∀ a b, vs = a ++ .closed :: b → b = []) →
    (∀ rest, ∃ o, (WebSocket.run W (List.replicate vs.length .next) .open ⟨readsOf ds ++ rest, ⟨o, none⟩⟩).1 = vs.map Verdict.item) → vs <+: rs := by
  induction h with
  | wait h =>
    intro ds hf hok vs hl hvs
    subst hf
    cases vs with
    | nil => exact List.prefix_rfl
    | cons v vs =>
      exfalso
      rcases resume_report W ds none hok with ⟨v', es, h1, -⟩ | ⟨-, s', h2⟩
      · exact h ⟨_, _, h1⟩
      · obtain ⟨o1, e1⟩ := hvs []
        obtain ⟨o2, e2⟩ := hvs [.data closeBare.encode]
        have a1 := h2 []
        have a2 := h2 [.data closeBare.encode]
        rw [resume_eof] at a1
        rw [resume_close] at a2
        obtain ⟨r1, f1⟩ := run_head a1 vs.length o1
        obtain ⟨r2, f2⟩ := run_head a2 vs.length o2
        rw [List.length_cons, f1] at e1
        rw [List.length_cons, f2] at e2
        have b1 := Verdict.item_inj (List.cons.inj e1).1
        have b2 := Verdict.item_inj (List.cons.inj e2).1
        rw [← b1] at b2
        cases b2
  | closed h =>
    intro ds hf hok vs hl hvs
    subst hf
    obtain ⟨es, rfl, -, h3⟩ := deliveries_of hok h
    cases vs with
    | nil => exact List.nil_prefix
    | cons v vs =>
      obtain ⟨o, e⟩ := hvs []
      obtain ⟨r, f⟩ := run_head (h3 []) vs.length o
      rw [List.length_cons, f] at e
      have b := Verdict.item_inj (List.cons.inj e).1
      subst b
      rw [hl [] vs rfl]
      exact List.prefix_rfl
  | @next fs v rest₀ vs₀ h hv _ ih =>
    intro ds hf hok vs hl hvs
    subst hf
    obtain ⟨es, rfl, hes, h3⟩ := deliveries_of hok h
    cases vs with
    | nil => exact List.nil_prefix
    | cons v' vs =>
      have key : ∀ rest, ∃ o', (Verdict.item v' = Verdict.item v) ∧
          (WebSocket.run W (List.replicate vs.length .next) .open ⟨readsOf es ++ rest, ⟨o', none⟩⟩).1 = vs.map Verdict.item := by
        intro rest
        obtain ⟨o, e⟩ := hvs rest
        obtain ⟨o', f⟩ := run_next_open (h3 rest) hv vs.length o
        rw [List.length_cons, f] at e
        exact ⟨o', (List.cons.inj e).1.symm, (List.cons.inj e).2⟩
      obtain ⟨_, hv', -⟩ := key []
      rw [Verdict.item_inj hv']
      refine (List.cons_prefix_cons).2 ⟨rfl, ih es rfl hes vs (fun a b hab => ?_) (fun rest => ?_)⟩
      · exact hl (v' :: a) b (by rw [hab]; rfl)
      · obtain ⟨o', -, e⟩ := key rest
        exact ⟨o', e⟩

theorem receives_closed_last {s : Option (Kind × Bytes)} {fs : List ClientFrame} {vs : List Verdict} (h : Receives s fs vs) :
    ∀ a b, vs = a ++ .closed :: b → b = [] := by
  induction h with
  | done => intro a b h; simp at h
  | control _ _ _ _ ih | whole _ _ _ _ _ ih | last _ _ _ _ _ ih =>
    intro a b h
    cases a with
    | nil => cases h
    | cons x a => exact ih a b (List.cons.inj h).2
  | start _ _ _ _ ih | more _ _ _ _ ih => exact ih
  | close | illegal | stray | restart | text | texts =>
    intro a b h
    cases a with
    | nil => exact (List.cons.inj h).2.symm
    | cons x a => simp at h

/-- **C120, exactly.**  For any frames, in reads of their own: the iterator reports what RFC 6455 prescribes if and only if that is what the
lenient rules say of these frames.  (`receives_total`, `reports_total`: there is always exactly one answer on either side; whatever the frames
after these are.) -/
theorem C120_exact_partial (W : Nat) (ds : List Delivery) (hok : ∀ d ∈ ds, d.Ok W) (vs rs : List Verdict)
    (hv : Receives none (ds.map Delivery.frame) vs) (hr : Reports (ds.map Delivery.frame) rs) :
    (∀ (rest : Raw) (o : Bytes),
      (WebSocket.run W (vs.map fun _ => .next) .open ⟨(ds.map Delivery.reads).flatten ++ rest, ⟨o, none⟩⟩).1 = vs.map Verdict.item) ↔ vs <+: rs := by
  have hrep : (vs.map fun _ => Call.next) = List.replicate vs.length .next := List.map_const' ..
  rw [hrep]
  constructor
  · intro h
    exact reports_prefix W hr ds rfl hok vs (receives_closed_last hv) (fun rest => ⟨[], h rest []⟩)
  · rintro ⟨t, rfl⟩ rest o
    have := C120_reports W hr ds rfl hok rest o vs.length (by simp)
    rw [this]
    simp

/-- a ping between two fragments: RFC 6455 wants the ping, then the message; the iterator fails, twice -/
example : ∃ ds : List Delivery, (∀ d ∈ ds, d.Ok 32) ∧ Receives none (ds.map Delivery.frame) [.message (.ping (some [104, 105])), .message (.text "€")] ∧
    Reports (ds.map Delivery.frame) [.failed, .failed] := by
  refine ⟨[⟨frag1, [.data frag1.encode]⟩, ⟨pingFrame, [.data pingFrame.encode]⟩, ⟨frag2, [.data frag2.encode]⟩], ?_, ?_, ?_⟩
  · simp only [List.mem_cons, List.not_mem_nil, or_false, forall_eq_or_imp, forall_eq]
    exact ⟨ok_single _ (by decide) (by decide), ok_single _ (by decide) (by decide), ok_single _ (by decide) (by decide)⟩
  · refine .start ?_ (by decide) rfl (.control (m := .ping (some [104, 105])) ?_ (by decide) ?_ (.last (m := .text "€") ?_ (by decide) rfl ?_ .done))
    · simp [Legal, frag1, kindOf, IsControl, Form.shortest]
    · simp [Legal, pingFrame, kindOf, IsControl, Form.shortest]
    · exact Means.ping _ (by decide)
    · simp [Legal, frag2, kindOf, IsControl, Form.shortest]
    · have : strBytes "€" = [226] ++ [130, 172] := by decide +kernel
      exact this ▸ Means.text "€"
  · refine .next (.start (by decide) rfl (.other (by decide) (by decide))) (by simp) (.next (.nonsense (by decide) rfl ?_) (by simp) (.wait ?_))
    · rintro ⟨m, h⟩; cases h
    · rintro ⟨v, r, h⟩; cases h

end Puck
