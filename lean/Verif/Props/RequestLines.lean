import Verif.Props.HeaderLines
import Verif.Props.RoundTrip
/-!
# How many lines the head of a written request has (C154)

The twin of C41 for the client side: what `Request::write` puts on the connection is one request line, one line per header and an empty
line — unless the method, the path, or the name or value of a header contains a line end itself, which nothing refuses.
-/
namespace Puck
open Http

/-- **C154, exactly**: whatever the request, the head that is written before the body has one line end per header, two more (after the
request line, and the empty line), and one for each that the method, the path and the names and values of the headers contain
themselves.  So there is one line per header exactly when none of these contains a line end. -/
theorem C154_exact_partial (env : HttpEnv) (henv : env.Valid) (r : Request) (hw : r.body.WF) :
    ∃ head, (r.write env ⟨[], none⟩).2.2.out = head ++ r.body.avail ∧
      lineEnds head = 2 + r.headers.length + lineEnds (strBytes r.method.text) + lineEnds (strBytes r.url.path) +
        (r.headers.map fun p => lineEnds (strBytes p.1) + lineEnds (strBytes p.2)).sum ∧
      (lineEnds head = 2 + r.headers.length ↔
        lineEnds (strBytes r.method.text) = 0 ∧ lineEnds (strBytes r.url.path) = 0 ∧
          ∀ p ∈ r.headers, lineEnds (strBytes p.1) = 0 ∧ lineEnds (strBytes p.2) = 0) := by
  have hp := henv r.headers
  have key : lineEnds (Http.head (requestLine (strBytes r.method.text) (strBytes r.url.path)) ((asFields (env.ord r.headers)).map rawField)) =
      2 + r.headers.length + lineEnds (strBytes r.method.text) + lineEnds (strBytes r.url.path) +
        (r.headers.map fun p => lineEnds (strBytes p.1) + lineEnds (strBytes p.2)).sum := by
    have e : Http.head (requestLine (strBytes r.method.text) (strBytes r.url.path)) ((asFields (env.ord r.headers)).map rawField) =
        (strBytes r.method.text ++ ([32] ++ (strBytes r.url.path ++ [32, 72, 84, 84, 80, 47, 49, 46, 49]))) ++
        13 :: 10 :: ((((asFields (env.ord r.headers)).map rawField).map fieldLine).flatten ++ 13 :: 10 :: []) := by
      simp [Http.head, requestLine, crlf]
    rw [e, lineEnds_append_crlf, lineEnds_fields, lineEnds_append (Or.inr (by simp)), lineEnds_append (Or.inl (by simp)),
      lineEnds_append (Or.inr (by simp)), asFields_raw]
    have := (hp.map fun p : String × String => lineEnds (strBytes p.1) + lineEnds (strBytes p.2)).sum_nat
    simp only [List.map_map, Function.comp_def, List.length_map, hp.length_eq]
    simp [lineEnds] at this ⊢
    omega
  refine ⟨_, Request.write_out env r hw, key, ?_⟩
  rw [key]
  have hz : (r.headers.map fun p => lineEnds (strBytes p.1) + lineEnds (strBytes p.2)).sum = 0 ↔
      ∀ p ∈ r.headers, lineEnds (strBytes p.1) = 0 ∧ lineEnds (strBytes p.2) = 0 := by
    generalize r.headers = hs
    induction hs with
    | nil => simp
    | cons p ps ih =>
      simp only [List.map_cons, List.sum_cons, List.forall_mem_cons]
      rw [← ih]
      omega
  rw [← hz]
  omega


theorem singleton_ord {env : HttpEnv} (henv : env.Valid) (p : String × String) : env.ord [p] = [p] :=
  List.perm_singleton.1 (henv [p])

/-- **C154, refuted: a header's value can hold a second request.**  Whatever two requests a program could build — one for `u` with the
header `k: v`, the other for `u₂` with the header `k₂: v₂`, both without a body — there is a value `w` such that the *single* request for
`u` with the header `k: w` writes exactly the bytes of the first followed by the bytes of the second.  So whoever chooses the value of a
header can send a request of its own, and nothing (neither the builder nor the writer) refuses it. -/
theorem C154_split_refuted (env : HttpEnv) (henv : env.Valid) (m m₂ : Method) (u u₂ : Url) (k v k₂ v₂ : String) :
    ∃ w one first second,
      (((RequestBuilder.mk [] none none u).header k w).setMethod m).tryBuild = some one ∧
      (((RequestBuilder.mk [] none none u).header k v).setMethod m).tryBuild = some first ∧
      (((RequestBuilder.mk [] none none u₂).header k₂ v₂).setMethod m₂).tryBuild = some second ∧
      (one.write env ⟨[], none⟩).2.2.out = (first.write env ⟨[], none⟩).2.2.out ++ (second.write env ⟨[], none⟩).2.2.out := by
  refine ⟨v ++ "\r\n\r\n" ++ m₂.text ++ " " ++ u₂.path ++ " HTTP/1.1\r\n" ++ k₂ ++ ": " ++ v₂, _, _, _, rfl, rfl, rfl, ?_⟩
  have hb : (Body.empty).WF := ⟨trivial, by simp [Body.empty]⟩
  have h1 : strBytes "\r\n\r\n" = [13, 10, 13, 10] := by decide +kernel
  have h2 : strBytes " HTTP/1.1\r\n" = [32, 72, 84, 84, 80, 47, 49, 46, 49, 13, 10] := by decide +kernel
  have h3 : strBytes " " = [32] := by decide +kernel
  have h4 : strBytes ": " = [58, 32] := by decide +kernel
  rw [Request.write_out _ _ hb, Request.write_out _ _ hb, Request.write_out _ _ hb]
  simp only [RequestBuilder.setMethod, RequestBuilder.header, Headers.insert, singleton_ord henv]
  simp [asFields, rawField, Http.head, requestLine, fieldLine, crlf, Body.avail, Body.empty, h1, h2, h3, h4, strBytes_append]

/-- A request to read a page, holding a request to delete one. -/
example (env : HttpEnv) (henv : env.Valid) : ∃ w one first second,
    (((RequestBuilder.mk [] none none ⟨"http://h", "/page", none⟩).header "X-Name" w).setMethod .get).tryBuild = some one ∧
    (((RequestBuilder.mk [] none none ⟨"http://h", "/page", none⟩).header "X-Name" "ada").setMethod .get).tryBuild = some first ∧
    (((RequestBuilder.mk [] none none ⟨"http://h", "/page", none⟩).header "Host" "h").setMethod (.other "DELETE")).tryBuild = some second ∧
    (one.write env ⟨[], none⟩).2.2.out = (first.write env ⟨[], none⟩).2.2.out ++ (second.write env ⟨[], none⟩).2.2.out :=
  C154_split_refuted env henv _ _ _ _ _ _ _ _

end Puck
