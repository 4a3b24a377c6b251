import Verif.Props.Request
/-!
# C35, exactly: when the iteration order of the header map matters
-/
namespace Puck
open Http

/-- One of the spellings of the header `name` (lower case) in the head `q` has the value `v`: the last one with this spelling. -/
def Says (q : HpRequest) (name v : String) : Prop :=
  ∃ k b, Ascii.lowered k = strBytes name ∧ lastValue q.headers k = some b ∧ fromUtf8 b = some v

/-- The request for this host and this content length. -/
def decideRequest (env : HttpEnv) (m : String) (path : Option String) (hdrs : Headers) (r : Buf) (host cl : Option String) : Except RequestParseError (Option Request) :=
  match host with
  | none => .error (.missingHeader "Host")
  | some host =>
    match requestUrl env m host path with
    | none => .error .invalidUrl
    | some url => .ok (some ⟨hdrs, Method.newFromStr m, Body.fromReader (.buf requestCap r) (cl.bind (parseUsize env.W)), url⟩)

theorem ofHead_decide {env : HttpEnv} {head : Bytes} {q : HpRequest} {m : String} {hdrs : Headers} (r : Buf) (hq : env.httparse head = some q)
    (hm : q.method = some m) (hc : collectHeaders q.headers [] = some hdrs) :
    (Request.ofHead env head r).map some =
      decideRequest env m q.path hdrs r (findIgnoreCase env hdrs "host") (findIgnoreCase env hdrs "content-length") := by
  unfold Request.ofHead decideRequest
  simp only [hq, hm, hc]
  cases findIgnoreCase env hdrs "host" with
  | none => rfl
  | some host =>
    simp only
    cases requestUrl env m host q.path with
    | none => rfl
    | some u => rfl

/-- the order that yields the entry `p` first -/
def firstOf (p : String × String) (h : Headers) : Headers := if p ∈ h then p :: h.erase p else h

theorem firstOf_perm (p : String × String) (h : Headers) : (firstOf p h).Perm h := by
  unfold firstOf
  split
  · rename_i hp; exact (List.perm_cons_erase hp).symm
  · exact .refl _

theorem find_firstOf (env : HttpEnv) {h : Headers} {k v name : String} (hm : (k, v) ∈ h) (hk : Ascii.lowered k = Ascii.lowered name) :
    findIgnoreCase { env with ord := firstOf (k, v) } h name = some v := by
  unfold findIgnoreCase firstOf
  simp only [hm, if_true]
  rw [List.find?_cons_of_pos (by simpa [eqIgnoreCase_iff] using hk)]
  rfl

theorem says_iff {q : HpRequest} {hdrs : Headers} (hc : collectHeaders q.headers [] = some hdrs) {name v : String} (hn : Ascii.lowered name = strBytes name) :
    Says q name v ↔ ∃ k, (k, v) ∈ hdrs ∧ Ascii.lowered k = Ascii.lowered name := by
  obtain ⟨hd, hg⟩ := (collectHeaders_spec q.headers [] Headers.distinct_nil).2 hdrs hc
  have hg' : ∀ k, (hdrs.get k).map strBytes = lastValue q.headers k := by
    intro k; rw [hg k]; simp [Headers.get]
  constructor
  · rintro ⟨k, b, h1, h2, h3⟩
    refine ⟨k, ?_, by rw [h1, hn]⟩
    rw [← hg' k] at h2
    cases hk : hdrs.get k with
    | none => rw [hk] at h2; cases h2
    | some w =>
      rw [hk] at h2
      simp only [Option.map_some, Option.some.injEq] at h2
      subst h2
      rw [fromUtf8_strBytes] at h3
      cases h3
      exact (Headers.get_eq_some hd).1 hk
  · rintro ⟨k, h1, h2⟩
    refine ⟨k, strBytes v, by rw [h2, hn], ?_, fromUtf8_strBytes v⟩
    rw [← hg' k, (Headers.get_eq_some hd).2 h1]
    rfl

/-- **C35, exactly.**  Given what the header parser made of a complete head (with a method, and with header values that are UTF-8: otherwise
the request is refused whatever the order), the result is the same for every iteration order of the header map if and only if all spellings of
Host lead to the same URL (or all to none) and, when there is a URL, all spellings of Content-Length declare the same length (or none). -/
theorem C35_exact_partial (env : HttpEnv) (henv : env.Valid) (raw : Raw) (hw : raw.WF) (head rest : Bytes) (hf : FirstBlank raw.avail head rest)
    (q : HpRequest) (hq : env.httparse head = some q) (m : String) (hm : q.method = some m) (hu : ∀ p ∈ q.headers, fromUtf8 p.2 ≠ none) :
    (∀ ord' : Headers → Headers, (∀ h, (ord' h).Perm h) → Request.parse { env with ord := ord' } raw = Request.parse env raw) ↔
      ∀ t, q.path = some t →
        (∀ h h' u, Says q "host" h → Says q "host" h' → UrlOf env m h t u → UrlOf env m h' t u) ∧
        ((∃ h u, Says q "host" h ∧ UrlOf env m h t u) → ∀ v v' n, Says q "content-length" v → Says q "content-length" v' →
          (Decimal.DenotesNat (strBytes v) n ∧ n < 2 ^ env.W) → (Decimal.DenotesNat (strBytes v') n ∧ n < 2 ^ env.W)) := by
  cases hc : collectHeaders q.headers [] with
  | none =>
    obtain ⟨p, hp, hp2⟩ := ((collectHeaders_spec q.headers [] Headers.distinct_nil).1).1 hc
    exact absurd hp2 (hu p hp)
  | some hdrs =>
    obtain ⟨r, h1, -⟩ := headLoop_found (r := ⟨[], raw⟩) requestCap_pos hw hf
    have hp : ∀ ord', Request.parse { env with ord := ord' } raw = decideRequest env m q.path hdrs r
        (findIgnoreCase { env with ord := ord' } hdrs "host") (findIgnoreCase { env with ord := ord' } hdrs "content-length") := by
      intro ord'
      rw [show Request.parse { env with ord := ord' } raw = (Request.ofHead { env with ord := ord' } head r).map some by
        simp only [Request.parse, h1]]
      exact ofHead_decide (env := { env with ord := ord' }) r hq hm hc
    have he : Request.parse env raw = decideRequest env m q.path hdrs r (findIgnoreCase env hdrs "host") (findIgnoreCase env hdrs "content-length") := hp env.ord
    have hurl : ∀ {t h u}, q.path = some t → (requestUrl env m h q.path = some u ↔ UrlOf env m h t u) := by
      intro t h u ht
      rw [requestUrl_iff, ht]
      simp
    constructor
    · intro hall t ht
      have hosts : ∀ h, Says q "host" h → ∃ cl, Request.parse env raw = decideRequest env m q.path hdrs r (some h) cl := by
        intro h hs
        obtain ⟨k, hk, hk2⟩ := (says_iff hc lower_host).1 hs
        refine ⟨findIgnoreCase { env with ord := firstOf (k, h) } hdrs "content-length", ?_⟩
        rw [← hall _ (firstOf_perm (k, h)), hp, find_firstOf env hk hk2]
      have part : ∀ h h' u, Says q "host" h → Says q "host" h' → UrlOf env m h t u → UrlOf env m h' t u := by
        intro h h' u hs hs' hu
        obtain ⟨cl, e⟩ := hosts h hs
        obtain ⟨cl', e'⟩ := hosts h' hs'
        rw [e] at e'
        simp only [decideRequest, (hurl ht).2 hu] at e'
        cases hr : requestUrl env m h' q.path with
        | none => simp only [hr] at e'; cases e'
        | some u' =>
          simp only [hr, Except.ok.injEq, Option.some.injEq, Request.mk.injEq] at e'
          rw [e'.2.2.2]
          exact (hurl ht).1 hr
      refine ⟨part, ?_⟩
      rintro ⟨h, u, hs, hu⟩
      have lens : ∀ v, Says q "content-length" v → Request.parse env raw =
          .ok (some ⟨hdrs, Method.newFromStr m, Body.fromReader (.buf requestCap r) (parseUsize env.W v), u⟩) := by
        intro v hv
        obtain ⟨k, hk, hk2⟩ := (says_iff hc lower_cl).1 hv
        rw [← hall _ (firstOf_perm (k, v)), hp, find_firstOf env hk hk2]
        cases hfi : findIgnoreCase { env with ord := firstOf (k, v) } hdrs "host" with
        | none =>
          rw [findIgnoreCase_none (env := { env with ord := firstOf (k, v) }) (firstOf_perm _)] at hfi
          obtain ⟨k', hk', hk2'⟩ := (says_iff hc lower_host).1 hs
          exact absurd hk2' (hfi k' (List.mem_map_of_mem (f := (·.1)) hk'))
        | some h2 =>
          have := part h h2 u hs ((says_iff hc lower_host).2 (findIgnoreCase_mem (env := { env with ord := firstOf (k, v) }) (firstOf_perm _) hfi)) hu
          simp only [decideRequest, (hurl ht).2 this]
          rfl
      intro v v' n hv hv' hn
      have := (lens v hv).symm.trans (lens v' hv')
      simp only [Except.ok.injEq, Option.some.injEq, Request.mk.injEq, Body.fromReader, Body.mk.injEq] at this
      rw [← parseUsize_iff] at hn ⊢
      rw [← this.2.2.1.2.2.1]
      exact hn
    · intro hall ord' hord
      rw [hp ord', he]
      have says : ∀ {ord''} (_ : ∀ h, (ord'' h : Headers).Perm h) {name v}, Ascii.lowered name = strBytes name →
          findIgnoreCase { env with ord := ord'' } hdrs name = some v → Says q name v := fun ho _ _ hn h =>
        (says_iff hc hn).2 (findIgnoreCase_mem (env := { env with ord := _ }) ho h)
      have nones : ∀ name, findIgnoreCase { env with ord := ord' } hdrs name = none ↔ findIgnoreCase env hdrs name = none := fun name =>
        (findIgnoreCase_none (env := { env with ord := ord' }) hord).trans (findIgnoreCase_none henv).symm
      cases h1 : findIgnoreCase { env with ord := ord' } hdrs "host" with
      | none => rw [(nones _).1 h1]; rfl
      | some a =>
        cases h2 : findIgnoreCase env hdrs "host" with
        | none => rw [(nones _).2 h2] at h1; cases h1
        | some b =>
          have sa := says hord lower_host h1
          have sb : Says q "host" b := says (ord'' := env.ord) henv lower_host h2
          cases ht : q.path with
          | none => rfl
          | some t =>
            obtain ⟨g1, g2⟩ := hall t ht
            have hr : requestUrl env m a (some t) = requestUrl env m b (some t) := by
              apply Option.ext
              intro u
              rw [← ht, hurl ht, hurl ht]
              exact ⟨g1 a b u sa sb, g1 b a u sb sa⟩
            simp only [decideRequest, hr]
            cases hb : requestUrl env m b (some t) with
            | none => rfl
            | some u =>
              have hub : UrlOf env m b t u := (hurl ht).1 (ht ▸ hb)
              have hcl : (findIgnoreCase { env with ord := ord' } hdrs "content-length").bind (parseUsize env.W) =
                  (findIgnoreCase env hdrs "content-length").bind (parseUsize env.W) := by
                cases c1 : findIgnoreCase { env with ord := ord' } hdrs "content-length" with
                | none => rw [(nones _).1 c1]
                | some v =>
                  cases c2 : findIgnoreCase env hdrs "content-length" with
                  | none => rw [(nones _).2 c2] at c1; cases c1
                  | some v' =>
                    have sv := says hord lower_cl c1
                    have sv' : Says q "content-length" v' := says (ord'' := env.ord) henv lower_cl c2
                    apply Option.ext
                    intro n
                    simp only [Option.bind_some]
                    rw [parseUsize_iff, parseUsize_iff]
                    exact ⟨g2 ⟨b, u, sb, hub⟩ v v' n sv sv', g2 ⟨b, u, sb, hub⟩ v' v n sv' sv⟩
              simp only [hcl]

/-- two spellings of Host that disagree -/
example (raw : Raw) (hw : raw.WF) (h rest : Bytes) (hf : FirstBlank raw.avail h rest) :
    ¬ ∀ ord' : Headers → Headers, (∀ h, (ord' h).Perm h) → Request.parse { twoHosts id with ord := ord' } raw = Request.parse (twoHosts id) raw := by
  intro hall
  obtain ⟨r1, r2, e1, e2, u1, u2⟩ := C35_order_refuted raw hw h rest hf
  have := hall List.reverse (fun h => List.reverse_perm h)
  rw [show ({ twoHosts id with ord := List.reverse } : HttpEnv) = twoHosts List.reverse from rfl, e1, e2] at this
  cases this
  rw [u1] at u2
  exact absurd u2 (by decide)

/-- `Content-Length: 2` and `content-length: +2` declare the same length: the order does not matter -/
example (raw : Raw) (hw : raw.WF) (h rest : Bytes) (hf : FirstBlank raw.avail h rest) (ord' : Headers → Headers) (hord : ∀ h, (ord' h).Perm h) :
    let env : HttpEnv := ⟨fun _ => some ⟨some "GET", some "/", [("Host", strBytes "a"), ("Content-Length", strBytes "2"), ("content-length", strBytes "+2")]⟩,
      fun _ => ⟨none, none, []⟩, fun s => some ⟨s, "/", none⟩, id, 32⟩
    Request.parse { env with ord := ord' } raw = Request.parse env raw := by
  intro env
  refine (C35_exact_partial env (fun h => .refl _) raw hw h rest hf _ rfl "GET" rfl ?_).2 ?_ ord' hord
  · simp [fromUtf8_strBytes]
  · rintro t ⟨⟩
    have hh : ∀ v, Says ⟨some "GET", some "/", [("Host", strBytes "a"), ("Content-Length", strBytes "2"), ("content-length", strBytes "+2")]⟩ "host" v → v = "a" := by
      intro v hv
      obtain ⟨k, hk, hk2⟩ := (says_iff (hdrs := [("Host", "a"), ("Content-Length", "2"), ("content-length", "+2")]) (by decide +kernel) lower_host).1 hv
      simp only [List.mem_cons, Prod.mk.injEq, List.not_mem_nil, or_false] at hk
      rcases hk with ⟨-, rfl⟩ | ⟨rfl, -⟩ | ⟨rfl, -⟩
      · rfl
      · exact absurd hk2 (by decide +kernel)
      · exact absurd hk2 (by decide +kernel)
    have hc : ∀ v, Says ⟨some "GET", some "/", [("Host", strBytes "a"), ("Content-Length", strBytes "2"), ("content-length", strBytes "+2")]⟩ "content-length" v →
        v = "2" ∨ v = "+2" := by
      intro v hv
      obtain ⟨k, hk, hk2⟩ := (says_iff (hdrs := [("Host", "a"), ("Content-Length", "2"), ("content-length", "+2")]) (by decide +kernel) lower_cl).1 hv
      simp only [List.mem_cons, Prod.mk.injEq, List.not_mem_nil, or_false] at hk
      rcases hk with ⟨rfl, -⟩ | ⟨-, rfl⟩ | ⟨-, rfl⟩
      · exact absurd hk2 (by decide +kernel)
      · exact Or.inl rfl
      · exact Or.inr rfl
    refine ⟨fun a b u ha hb hu => by rw [hh b hb, ← hh a ha]; exact hu, fun _ v v' n hv hv' hn => ?_⟩
    rw [← parseUsize_iff] at hn ⊢
    have h2 : parseUsize env.W "2" = parseUsize env.W "+2" := by decide +kernel
    rcases hc v hv with rfl | rfl <;> rcases hc v' hv' with rfl | rfl
    · exact hn
    · rw [← h2]; exact hn
    · rw [h2]; exact hn
    · exact hn

end Puck
