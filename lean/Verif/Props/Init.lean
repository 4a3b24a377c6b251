import Verif.Model.Init
import Verif.Spec.Url
import Verif.Props.Router
/-!
# Loading a page (C96 - C98)
-/
namespace Puck
open Http

/-! ## C96 -/

theorem builder_string (ct body : String) :
    ((ResponseBuilder.new.header "Content-Type" ct).setBody (Body.fromString body)).build =
      ⟨[("Content-Type", ct)], Body.fromString body, 200, ""⟩ := rfl

theorem fromString_avail (s : String) : (Body.fromString s).avail = strBytes s := by
  simp [Body.fromString, Body.avail, Src.avail]

theorem fromString_ok (s : String) : ¬ (Body.fromString s).Fails := by
  rintro ⟨h, -⟩; exact h trivial

theorem respond_string (env : HttpEnv) (henv : env.Valid) (ct body : String) (s : Sink) (hs : s.room = none) :
    respondUnwrap env ⟨[("Content-Type", ct)], Body.fromString body, 200, ""⟩ s =
      (.ok (), ⟨s.out ++ wireBytes 200 "" [("Content-Type", ct)] (strBytes body), none⟩) := by
  have hd : Headers.Distinct [("Content-Type", ct)] := by simp [Headers.Distinct]
  have hw : (Body.fromString body).WF := ⟨trivial, by simp [Body.fromString]⟩
  obtain ⟨l, h1, -, h3⟩ := C39_deterministic ⟨[("Content-Type", ct)], Body.fromString body, 200, ""⟩ hd hw
  have hl : l = [("Content-Type", ct)] := List.perm_singleton.mp h1
  subst hl
  obtain ⟨h4, h5⟩ := h3 env henv s
  have h6 := h5.2 ⟨fromString_ok body, by simp [hs]⟩
  simp only [fromString_avail] at h4
  obtain ⟨out, room⟩ := s
  simp only at hs
  subst hs
  unfold respondUnwrap Stream.respond
  generalize he : Response.encode env _ _ = e at h4 h6 ⊢
  obtain ⟨o, r, s'⟩ := e
  simp only at h4 h6
  subst h6
  simp only [h4, Sink.writeAll]

theorem respond_string_fails (env : HttpEnv) (henv : env.Valid) (ct body : String) (s : Sink) (k : Nat) (hs : s.room = some k)
    (hk : k < (wireBytes 200 "" [("Content-Type", ct)] (strBytes body)).length) :
    respondUnwrap env ⟨[("Content-Type", ct)], Body.fromString body, 200, ""⟩ s =
      (.panic, ⟨s.out ++ (wireBytes 200 "" [("Content-Type", ct)] (strBytes body)).take k, some 0⟩) := by
  have hd : Headers.Distinct [("Content-Type", ct)] := by simp [Headers.Distinct]
  have hw : (Body.fromString body).WF := ⟨trivial, by simp [Body.fromString]⟩
  obtain ⟨l, h1, -, h3⟩ := C39_deterministic ⟨[("Content-Type", ct)], Body.fromString body, 200, ""⟩ hd hw
  have hl : l = [("Content-Type", ct)] := List.perm_singleton.mp h1
  subst hl
  obtain ⟨h4, h5⟩ := h3 env henv s
  simp only [fromString_avail] at h4 h5
  have h6 : ¬ (Response.encode env ⟨[("Content-Type", ct)], Body.fromString body, 200, ""⟩ s).1 = .ok () := by
    intro h
    have := (h5.1 h).2 k hs
    omega
  unfold respondUnwrap Stream.respond
  generalize he : Response.encode env _ _ = e at h4 h6 ⊢
  obtain ⟨o, r, s'⟩ := e
  simp only [Sink.writeAll, hs, if_neg (Nat.not_le.2 hk)] at h4 h6
  subst h4
  cases o with
  | ok u => exact absurd rfl h6
  | err e => rfl
  | panic => rfl

/-- The bytes of a page of the given type and text, as written here in full. -/
def pageBytes (contentType text : String) : Bytes :=
  strBytes ("HTTP/1.1 200 \r\nContent-Type: " ++ contentType ++ "\r\n\r\n" ++ text)

theorem wireBytes_page (ct body : String) : wireBytes 200 "" [("Content-Type", ct)] (strBytes body) = pageBytes ct body := by
  have h1 : toString 200 = "200" := by decide
  have h2 : strBytes ("HTTP/1.1 200 \r\nContent-Type: " ++ ct ++ "\r\n\r\n" ++ body) =
      strBytes "HTTP/1.1 200 \r\nContent-Type: " ++ strBytes ct ++ strBytes "\r\n\r\n" ++ strBytes body := by
    simp
  rw [pageBytes, h2, wireBytes, h1]
  have h3 : strBytes "HTTP/1.1 200 \r\nContent-Type: " =
      [72, 84, 84, 80, 47, 49, 46, 49, 32] ++ strBytes "200" ++ [32, 13, 10] ++ strBytes "Content-Type" ++ [58, 32] := by
    decide +kernel
  have h4 : strBytes "\r\n\r\n" = [13, 10, 13, 10] := by decide +kernel
  rw [h3, h4]
  simp [Http.head, Http.statusLine, Http.crlf, Http.fieldLine]

/-- **C96.** Whatever the script and whatever the iteration order of the header map, a connection that takes the bytes gets exactly
the page, as `text/html`, with the script reference `./js`; or exactly the script, as `application/javascript`.  An independent
HTTP reader reads them back as such. -/
theorem C96_page_and_script (env : HttpEnv) (henv : env.Valid) (script : String) (s : Sink) (hs : s.room = none) :
    respondUnwrap env initIndex s = (.ok (), ⟨s.out ++ pageBytes "text/html"
      "\n        <!DOCTYPE html>\n        <html>\n            <head>\n                <script src=\"./js\"></script>\n            </head>\n            <body>\n            </body>\n        </html>\n        ", none⟩) ∧
    respondUnwrap env (initJs script) s = (.ok (), ⟨s.out ++ pageBytes "application/javascript" script, none⟩) ∧
    ∀ ct text, ct = "text/html" ∨ ct = "application/javascript" →
      readResponse (pageBytes ct text) = some ⟨200, [], [(strBytes "Content-Type", strBytes ct)], strBytes text⟩ := by
  refine ⟨?_, ?_, ?_⟩
  · rw [initIndex, builder_string, respond_string env henv _ _ _ hs, wireBytes_page]; rfl
  · rw [initJs, builder_string, respond_string env henv _ _ _ hs, wireBytes_page]
  · intro ct text hct
    have hok : (∀ c ∈ strBytes ct, c ≠ 13) ∧ trim (strBytes ct) = strBytes ct := by
      rcases hct with rfl | rfl <;> decide +kernel
    have htok : Token (strBytes "Content-Type") := ⟨by decide +kernel, by decide +kernel⟩
    have hd : Headers.Distinct [("Content-Type", ct)] := by simp [Headers.Distinct]
    have hw : (Body.fromString text).WF := ⟨trivial, by simp [Body.fromString]⟩
    obtain ⟨h1, fs, h2, h3⟩ := C40_client_reads_back ⟨[("Content-Type", ct)], Body.fromString text, 200, ""⟩ hd hw (fromString_ok text)
      ⟨Nat.le_of_ble_eq_true rfl, Nat.le_of_ble_eq_true rfl, by simp, by
        intro p hp
        simp only [List.mem_singleton] at hp
        subst hp
        exact ⟨htok, hok.1⟩⟩ env henv
    obtain ⟨l, h4, -, h5⟩ := C39_deterministic ⟨[("Content-Type", ct)], Body.fromString text, 200, ""⟩ hd hw
    have hl : l = [("Content-Type", ct)] := List.perm_singleton.mp h4
    subst hl
    rw [(h5 env henv ⟨[], none⟩).1] at h2
    simp only [Sink.writeAll, List.nil_append, fromString_avail, wireBytes_page, List.map_cons, List.map_nil, hok.2] at h2 h3
    rw [List.perm_singleton.mp h3] at h2
    simpa using h2

/-- **C96 (connections that break).** A connection that takes only `k` bytes of the page or the script gets the first `k` of them, and the
handler's `unwrap` panics, so the failure is not silent. -/
theorem C96_broken_connection (env : HttpEnv) (henv : env.Valid) (script : String) (s : Sink) (k : Nat) (hs : s.room = some k) :
    (k < (pageBytes "text/html" indexHtml).length →
      respondUnwrap env initIndex s = (.panic, ⟨s.out ++ (pageBytes "text/html" indexHtml).take k, some 0⟩)) ∧
    (k < (pageBytes "application/javascript" script).length →
      respondUnwrap env (initJs script) s = (.panic, ⟨s.out ++ (pageBytes "application/javascript" script).take k, some 0⟩)) := by
  constructor
  · intro hk
    rw [← wireBytes_page] at hk
    rw [initIndex, builder_string, respond_string_fails env henv _ _ _ k hs hk, wireBytes_page]
  · intro hk
    rw [← wireBytes_page] at hk
    rw [initJs, builder_string, respond_string_fails env henv _ _ _ k hs hk, wireBytes_page]

/-- non-vacuity: the connection takes one byte -/
example (env : HttpEnv) (henv : env.Valid) : respondUnwrap env (initJs "") ⟨[], some 1⟩ = (.panic, ⟨[72], some 0⟩) := by
  have h := (C96_broken_connection env henv "" ⟨[], some 1⟩ 1 rfl).2 (by decide +kernel)
  rw [h]
  decide +kernel

/-- non-vacuity: a valid environment and a connection that takes everything -/
example : demoEnv.Valid ∧ (⟨[], none⟩ : Sink).room = none := ⟨fun _ => List.Perm.refl _, rfl⟩

/-! ## C97 -/

/-- A static pattern. -/
def statics (parts : List String) : List Segment := parts.map .static

theorem zip_statics (parts as : List String) (hl : parts.length = as.length) :
    (∀ p ∈ (statics parts).zip as, SegMatch p.1 p.2) ↔ parts = as := by
  induction parts generalizing as with
  | nil => cases as with
    | nil => simp [statics]
    | cons a as => simp at hl
  | cons p ps ih =>
    cases as with
    | nil => simp at hl
    | cons a as =>
      have := ih as (by simpa using hl)
      simp only [statics, List.map_cons, List.zip_cons_cons, List.mem_cons, forall_eq_or_imp] at this ⊢
      rw [this]
      constructor
      · rintro ⟨h1, h2⟩
        cases h1
        rw [h2]
      · intro h
        obtain ⟨rfl, rfl⟩ := List.cons.inj h
        exact ⟨.static _, rfl⟩

theorem statics_match (parts : List String) (u : Url) :
    doesMatch (statics parts) u = true ↔ parts ≠ [] ∧ (∀ p ∈ parts, '/' ∉ p.toList) ∧ u.path = joinPath parts := by
  rw [C48_matches]
  constructor
  · rintro ⟨as, h1, h2, h3, h4, h5⟩
    have hl : parts.length = as.length := by simpa [statics] using h4
    have := (zip_statics parts as hl).mp h5
    subst this
    exact ⟨h1, h2, h3⟩
  · rintro ⟨h1, h2, h3⟩
    exact ⟨parts, h1, h2, h3, by simp [statics], (zip_statics parts parts rfl).mpr rfl⟩

theorem directory_append (d p : List Char) (hp : '/' ∉ p) : directoryChars (d ++ '/' :: p) = d ++ ['/'] := by
  induction d with
  | nil => rw [List.nil_append, directoryChars, if_neg hp, if_pos rfl]; rfl
  | cons c cs ih => rw [List.cons_append, directoryChars, if_pos (by simp), ih]; rfl

theorem joinPath_append (a b : List String) : joinPath (a ++ b) = joinPath a ++ joinPath b := by
  apply String.toList_injective
  simp [joinPath, String.toList_join, String.toList_append]

theorem joinPath_one (s : String) : joinPath [s] = "/" ++ s := by simp [joinPath, String.join]

theorem scriptPath_join (dir : List String) (last name : String) (hl : '/' ∉ last.toList) :
    scriptPath (joinPath (dir ++ [last])) name = joinPath (dir ++ [name]) := by
  have hs : "/".toList = ['/'] := by decide +kernel
  apply String.toList_injective
  rw [scriptPath, String.toList_append, String.toList_ofList, joinPath_append, joinPath_append, joinPath_one, joinPath_one,
    String.toList_append, String.toList_append, String.toList_append, String.toList_append, hs, List.cons_append, List.nil_append,
    directory_append _ _ hl]
  simp

theorem count_slashed (ps : List (List Char)) (h : ∀ p ∈ ps, '/' ∉ p) : (slashed ps).count '/' = ps.length := by
  induction ps with
  | nil => rfl
  | cons p ps ih =>
    have h1 : slashed (p :: ps) = '/' :: (p ++ slashed ps) := by simp [slashed]
    rw [h1, List.count_cons_self, List.count_append, List.count_eq_zero.mpr (h p (by simp)), ih fun q hq => h q (by simp [hq])]
    simp

theorem count_joinPath (parts : List String) (h : ∀ p ∈ parts, '/' ∉ p.toList) : (joinPath parts).toList.count '/' = parts.length := by
  rw [joinPath_toList, count_slashed]
  · simp
  · intro p hp
    obtain ⟨q, hq, rfl⟩ := List.mem_map.mp hp
    exact h q hq

/-- **C97 (refuted).** The documentation says that the page can be mounted anywhere if the script is mounted at `/<path of the page>/js`.
But wherever the page is mounted by a pattern of names, the browser does not look for the script there, and it does not look for the
WebSocket at `/<path of the page>/ws` either. -/
theorem C97_mount_refuted (mount : List String) (u : Url) (h : doesMatch (statics mount) u = true) :
    doesMatch (statics (mount ++ ["js"])) { u with path := scriptPath u.path "js" } = false ∧
    doesMatch (statics (mount ++ ["ws"])) { u with path := socketPath u.path } = false := by
  obtain ⟨h1, h2, h3⟩ := (statics_match _ _).mp h
  have hm : mount = mount.dropLast ++ [mount.getLast h1] := (List.dropLast_concat_getLast h1).symm
  have hlast : '/' ∉ (mount.getLast h1).toList := h2 _ (List.getLast_mem h1)
  refine ⟨?_, ?_⟩ <;> rw [← Bool.not_eq_true, statics_match] <;> rintro ⟨-, h4, h5⟩ <;> simp only [h3] at h5
  · have hc := count_joinPath _ h4
    rw [← h5, hm, scriptPath_join _ _ _ hlast, count_joinPath] at hc
    · simp at hc
    · intro p hp
      rcases List.mem_append.mp hp with hp | hp
      · exact h2 p (List.dropLast_subset mount hp)
      · exact h4 p (by simp [List.mem_singleton.mp hp])
  · have hc := count_joinPath _ h4
    have hw : "ws".toList.count '/' = 0 := by decide +kernel
    rw [← h5, socketPath, String.toList_append, List.count_append, hw, count_joinPath _ h2] at hc
    simp at hc

/-- The page at `/chat`: the browser asks for `/js` and `/chatws`. -/
example : doesMatch (statics ["chat"]) ⟨"http://h", "/chat", none⟩ = true ∧ scriptPath "/chat" "js" = "/js" ∧ socketPath "/chat" = "/chatws" := by
  decide +kernel

/-- **C97 (what holds).** If the page's pattern ends in an empty segment, that is, its URL ends in a slash, the script and the
WebSocket are looked for next to it, in the same directory. -/
theorem C97_directory_partial (dir : List String) (u : Url) (h : doesMatch (statics (dir ++ [""])) u = true) :
    doesMatch (statics (dir ++ ["js"])) { u with path := scriptPath u.path "js" } = true ∧
    doesMatch (statics (dir ++ ["ws"])) { u with path := socketPath u.path } = true := by
  obtain ⟨h1, h2, h3⟩ := (statics_match _ _).mp h
  have hno : ∀ s : String, '/' ∉ s.toList → ∀ p ∈ dir ++ [s], '/' ∉ p.toList := by
    intro s hs p hp
    rcases List.mem_append.mp hp with hp | hp
    · exact h2 p (by simp [hp])
    · rw [List.mem_singleton.mp hp]; exact hs
  refine ⟨(statics_match _ _).mpr ⟨by simp, hno "js" (by decide +kernel), ?_⟩, (statics_match _ _).mpr ⟨by simp, hno "ws" (by decide +kernel), ?_⟩⟩
  · simp only [h3]
    exact scriptPath_join dir "" "js" (by decide)
  · simp only [h3, socketPath]
    rw [joinPath_append, joinPath_append, joinPath_one, joinPath_one, String.append_assoc]
    simp

/-- non-vacuity: the root, as in the chat example, and a directory -/
example : doesMatch (statics ([] ++ [""])) ⟨"http://h", "/", none⟩ = true ∧
    doesMatch (statics (["apps", "chat"] ++ [""])) ⟨"http://h", "/apps/chat/", none⟩ = true ∧
    scriptPath "/apps/chat/" "js" = "/apps/chat/js" := by decide +kernel

theorem joinPath_inj {a b : List String} (ha : a ≠ []) (hb : b ≠ []) (hna : ∀ p ∈ a, '/' ∉ p.toList) (hnb : ∀ p ∈ b, '/' ∉ p.toList)
    (h : joinPath a = joinPath b) : a = b := by
  have key : ∀ l : List String, (∀ p ∈ l, '/' ∉ p.toList) → ∀ p ∈ l.map String.toList, '/' ∉ p := by
    intro l hl p hp
    obtain ⟨q, hq, rfl⟩ := List.mem_map.1 hp
    exact hl q hq
  obtain ⟨r, h1, h2⟩ := split_slashed (by simpa using ha) (key a hna)
  obtain ⟨r', h1', h2'⟩ := split_slashed (by simpa using hb) (key b hnb)
  have e : r = r' := by
    have := congrArg String.toList h
    rw [joinPath_toList, joinPath_toList, h1, h1'] at this
    exact (List.cons.inj this).2
  rw [e, h2'] at h2
  exact (List.map_inj_right fun _ _ h => String.toList_injective h).1 h2.symm

/-- matching a path whose segments are given -/
theorem match_join (segs : List Segment) (u : Url) (parts : List String) (hne : parts ≠ []) (hno : ∀ p ∈ parts, '/' ∉ p.toList)
    (hp : u.path = joinPath parts) : doesMatch segs u = true ↔ segs.length = parts.length ∧ ∀ p ∈ segs.zip parts, SegMatch p.1 p.2 := by
  rw [C48_matches]
  constructor
  · rintro ⟨as, h1, h2, h3, h4, h5⟩
    have := joinPath_inj hne h1 hno h2 (by rw [← hp, h3])
    subst this
    exact ⟨h4, h5⟩
  · rintro ⟨h4, h5⟩
    exact ⟨parts, hne, hno, hp, h4, h5⟩

/-- **C97, exactly**, for all patterns, with parameters or not: the page being at `/dir/.../last`, the browser's request for the script is matched by exactly
the patterns that match `/dir/.../js`, and its request for the WebSocket by exactly those that match `/dir/.../lastws`. -/
theorem C97_exact_partial (page js ws : List Segment) (u : Url) (h : doesMatch page u = true) :
    ∃ (dir : List String) (last : String), u.path = joinPath (dir ++ [last]) ∧ (∀ p ∈ dir ++ [last], '/' ∉ p.toList) ∧
      (doesMatch js { u with path := scriptPath u.path "js" } = true ↔
        js.length = dir.length + 1 ∧ ∀ p ∈ js.zip (dir ++ ["js"]), SegMatch p.1 p.2) ∧
      (doesMatch ws { u with path := socketPath u.path } = true ↔
        ws.length = dir.length + 1 ∧ ∀ p ∈ ws.zip (dir ++ [last ++ "ws"]), SegMatch p.1 p.2) := by
  obtain ⟨as, h1, h2, h3, -, -⟩ := (C48_matches _ _).1 h
  have hm : as = as.dropLast ++ [as.getLast h1] := (List.dropLast_concat_getLast h1).symm
  generalize as.dropLast = dir at hm
  generalize as.getLast h1 = last at hm
  subst hm
  have hlast : '/' ∉ last.toList := h2 _ (by simp)
  have hdir : ∀ (s : String), '/' ∉ s.toList → ∀ p ∈ dir ++ [s], '/' ∉ p.toList := by
    intro s hs p hp
    rcases List.mem_append.mp hp with hp | hp
    · exact h2 p (by simp [hp])
    · rw [List.mem_singleton.mp hp]; exact hs
  refine ⟨dir, last, h3, h2, ?_, ?_⟩
  · rw [match_join js _ (dir ++ ["js"]) (by simp) (hdir _ (by decide +kernel)) (by
      simp only [h3]
      exact scriptPath_join dir last "js" hlast)]
    simp
  · rw [match_join ws _ (dir ++ [last ++ "ws"]) (by simp) (hdir _ (by
        rw [String.toList_append, List.mem_append]
        rintro (h | h)
        · exact hlast h
        · revert h; decide +kernel)) (by
      simp only [h3, socketPath]
      rw [joinPath_append, joinPath_append, joinPath_one, joinPath_one, String.append_assoc, String.append_assoc])]
    simp

/-- **C97, exactly, for patterns of names**: of a page mounted at `mount` the browser finds the script and the WebSocket iff they are mounted at these patterns.
So they are found at `dir/js` and `dir/ws` for the same `dir` iff the page is at `dir/`. -/
theorem C97_names_partial (mount js ws : List String) (u : Url) (h : doesMatch (statics mount) u = true) :
    (doesMatch (statics js) { u with path := scriptPath u.path "js" } = true ↔ js = mount.dropLast ++ ["js"]) ∧
    (doesMatch (statics ws) { u with path := socketPath u.path } = true ↔ ws = mount.dropLast ++ [mount.getLastD "" ++ "ws"]) ∧
    ∀ dir, (doesMatch (statics (dir ++ ["js"])) { u with path := scriptPath u.path "js" } = true ∧
      doesMatch (statics (dir ++ ["ws"])) { u with path := socketPath u.path } = true ↔ mount = dir ++ [""]) := by
  obtain ⟨h1, h2, h3⟩ := (statics_match _ _).mp h
  have first : ∀ js ws : List String, (doesMatch (statics js) { u with path := scriptPath u.path "js" } = true ↔ js = mount.dropLast ++ ["js"]) ∧
      (doesMatch (statics ws) { u with path := socketPath u.path } = true ↔ ws = mount.dropLast ++ [mount.getLastD "" ++ "ws"]) := by
    intro js ws
    obtain ⟨dir, last, e1, e2, e3, e4⟩ := C97_exact_partial (statics mount) (statics js) (statics ws) u h
    have := joinPath_inj h1 (by simp) h2 e2 (by rw [← h3, e1])
    subst this
    have len : ∀ (l : List String) (x : String), ((statics l).length = dir.length + 1 ∧ ∀ p ∈ (statics l).zip (dir ++ [x]), SegMatch p.1 p.2) ↔ l = dir ++ [x] := by
      intro l x
      constructor
      · rintro ⟨a, b⟩
        exact (zip_statics l (dir ++ [x]) (by simpa [statics] using a)).1 b
      · rintro rfl
        exact ⟨by simp [statics], (zip_statics _ _ rfl).2 rfl⟩
    rw [e3, e4, len, len]
    simp
  refine ⟨(first js ws).1, (first js ws).2, fun dir => ?_⟩
  obtain ⟨f1, f2⟩ := first (dir ++ ["js"]) (dir ++ ["ws"])
  rw [f1, f2]
  have hm : mount = mount.dropLast ++ [mount.getLast h1] := (List.dropLast_concat_getLast h1).symm
  generalize mount.dropLast = d at hm
  generalize mount.getLast h1 = last at hm
  subst hm
  simp only [List.getLastD_concat]
  constructor
  · rintro ⟨a, b⟩
    obtain ⟨rfl, -⟩ := List.append_inj' a rfl
    have hl := congrArg String.toList (List.singleton_inj.1 (List.append_cancel_left b))
    rw [String.toList_append] at hl
    have : last.toList = [] := by
      have := congrArg List.length hl
      rw [List.length_append] at this
      exact List.length_eq_zero_iff.1 (by omega)
    have : last = "" := String.toList_injective (by rw [this]; rfl)
    rw [this]
  · intro h
    obtain ⟨rfl, hl⟩ := List.append_inj' h rfl
    cases hl
    simp

/-- non-vacuity: the page at `/apps/<id>`: the script is looked for at `/apps/js`, the WebSocket at `/apps/7ws` -/
example : doesMatch [.static "apps", .param] ⟨"http://h", "/apps/7", none⟩ = true ∧ scriptPath "/apps/7" "js" = "/apps/js" ∧
    socketPath "/apps/7" = "/apps/7ws" ∧ doesMatch [.static "apps", .param] ⟨"http://h", "/apps/7ws", none⟩ = true := by decide +kernel

/-! ## C98 -/

theorem static_one (s : String) (hs : '/' ∉ s.toList) (u : Url) : doesMatch [.static s] u = true ↔ u.path = "/" ++ s := by
  have := statics_match [s] u
  simp only [statics, List.map_cons, List.map_nil] at this
  rw [this, joinPath_one]
  simp [hs]

/-- **C98.** The chat application, asked anything over a connection that takes the bytes: the page at `/`; from there the browser asks for
`/js` and gets the script, and it opens a WebSocket at `/ws`, where a WebSocket request gets the handshake and any other
the error response; asked for any other path, the application writes nothing. -/
theorem C98_chat_loads (env : HttpEnv) (henv : env.Valid) (sha1 : Bytes → Bytes) (script : String) (req : Request) (s : Sink)
    (hs : s.room = none) :
    (req.url.path = "/" → Router.respond (chatRoutes env sha1 script) req () s =
      (.ok (), ⟨s.out ++ pageBytes "text/html" indexHtml, none⟩)) ∧
    (req.url.path = scriptPath "/" "js" → Router.respond (chatRoutes env sha1 script) req () s =
      (.ok (), ⟨s.out ++ pageBytes "application/javascript" script, none⟩)) ∧
    (req.url.path = socketPath "/" →
      (∀ key, shouldUpgrade req = true → req.headers.get "Sec-WebSocket-Key" = some key →
        ∃ accept, Base64.decode accept = some (sha1 (strBytes key ++ strBytes "258EAFA5-E914-47DA-95CA-C5AB0DC85B11")) ∧
          Router.respond (chatRoutes env sha1 script) req () s = (.ok (), ⟨s.out ++ switchingBytes accept, none⟩)) ∧
      (shouldUpgrade req = false ∨ req.headers.get "Sec-WebSocket-Key" = none →
        Router.respond (chatRoutes env sha1 script) req () s = (.ok (), ⟨s.out ++ badRequestBytes, none⟩))) ∧
    (req.url.path ≠ "/" → req.url.path ≠ "/js" → req.url.path ≠ "/ws" →
      Router.respond (chatRoutes env sha1 script) req () s = (.ok (), s)) := by
  have m1 := static_one "js" (by decide +kernel) req.url
  have m2 := static_one "" (by decide +kernel) req.url
  have m3 := static_one "ws" (by decide +kernel) req.url
  have e1 : "/" ++ "js" = "/js" := by decide +kernel
  have e2 : "/" ++ "" = "/" := by decide +kernel
  have e3 : "/" ++ "ws" = "/ws" := by decide +kernel
  rw [e1] at m1; rw [e2] at m2; rw [e3] at m3
  have p1 : scriptPath "/" "js" = "/js" := by decide +kernel
  have p2 : socketPath "/" = "/ws" := by decide +kernel
  obtain ⟨c1, c2, -⟩ := C96_page_and_script env henv script s hs
  have hr : Router.respond (chatRoutes env sha1 script) req () s =
      if doesMatch [.static "js"] req.url then respondUnwrap env (initJs script) s
      else if doesMatch [.static ""] req.url then respondUnwrap env initIndex s
      else if doesMatch [.static "ws"] req.url then socketHandler env sha1 req s else (.ok (), s) := rfl
  rw [hr, p1, p2]
  refine ⟨fun h => ?_, fun h => ?_, fun h => ?_, fun n1 n2 n3 => ?_⟩
  · have f1 : ¬ doesMatch [.static "js"] req.url = true := by rw [m1, h]; decide
    rw [if_neg f1, if_pos (m2.mpr h), c1]; rfl
  · rw [if_pos (m1.mpr h), c2]
  · have f1 : ¬ doesMatch [.static "js"] req.url = true := by rw [m1, h]; decide
    have f2 : ¬ doesMatch [.static ""] req.url = true := by rw [m2, h]; decide
    rw [if_neg f1, if_neg f2, if_pos (m3.mpr h)]
    obtain ⟨u1, u2⟩ := C27_upgrade env henv sha1 req s hs
    refine ⟨fun key hk1 hk2 => ?_, fun hn => ?_⟩
    · obtain ⟨accept, a1, a2⟩ := u1 key hk1 hk2
      exact ⟨accept, a1, by simp only [socketHandler, a2]⟩
    · obtain ⟨u, a⟩ := u2 hn
      simp only [socketHandler, a]
  · have f1 : ¬ doesMatch [.static "js"] req.url = true := by rw [m1]; exact n2
    have f2 : ¬ doesMatch [.static ""] req.url = true := by rw [m2]; exact n1
    have f3 : ¬ doesMatch [.static "ws"] req.url = true := by rw [m3]; exact n3
    rw [if_neg f1, if_neg f2, if_neg f3]

/-- non-vacuity: the handshake request of a browser -/
example : shouldUpgrade ⟨[("Upgrade", "websocket"), ("Connection", "keep-alive, Upgrade"), ("Sec-WebSocket-Key", "dGhlIHNhbXBsZSBub25jZQ==")],
    .get, Body.empty, ⟨"http://localhost:8081", "/ws", none⟩⟩ = true := by decide +kernel

end Puck
