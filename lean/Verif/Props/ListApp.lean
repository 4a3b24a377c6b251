import Verif.Model.ListApp
import Verif.Props.Router
import Verif.Props.Body
import Verif.Spec.Form
import Verif.Lemmas.Ascii
import Verif.Lemmas.Frame
/-!
# Properties of the list example (C74 - C76, C86 - C88)
-/
namespace Puck

/-! ## C74 -/

/-- The items added by a history, oldest first. -/
def addedItems (ms : List ListMsg) : List String := ms.filterMap fun m => match m with | .add s => some s | _ => none

theorem addedItems_snoc (ms : List ListMsg) (m : ListMsg) : addedItems (ms ++ [m]) = addedItems ms ++ addedItems [m] := by
  simp [addedItems]

theorem listRun_append (items : List String) (a b : List ListMsg) :
    listRun items (a ++ b) = ((listRun (listRun items a).1 b).1, (listRun items a).2 ++ (listRun (listRun items a).1 b).2) := by
  induction a generalizing items with
  | nil => simp [listRun]
  | cons m a ih => simp [listRun, ih]

theorem listRun_items (ms : List ListMsg) (items : List String) : (listRun items ms).1 = items ++ addedItems ms := by
  induction ms generalizing items with
  | nil => simp [listRun, addedItems]
  | cons m ms ih =>
    simp only [listRun, ih]
    cases m with
    | add s => simp [listHandle, addedItems]
    | allItems => simp [listHandle, addedItems]
    | lastN n =>
      simp only [listHandle]
      split <;> simp [addedItems]

/-- **C74.** Wherever `AllItems` occurs in a history of requests, its answer is every item added before it, once each, in the order added. -/
theorem C74_all_items (before after : List ListMsg) :
    (listRun [] (before ++ .allItems :: after)).2[before.length]? = some (.items (addedItems before)) := by
  have hl : ∀ (ms : List ListMsg) items, (listRun items ms).2.length = ms.length := by
    intro ms
    induction ms with
    | nil => intro _; rfl
    | cons m ms ih => intro items; simp [listRun, ih]
  rw [listRun_append]
  simp only
  rw [List.getElem?_append_right (by rw [hl]; exact Nat.le_refl _), hl, Nat.sub_self]
  simp [listRun, listHandle, listRun_items]

example : (listRun [] [.add "a", .lastN 1, .add "b", .add "a", .allItems, .add "c"]).2[4]? = some (.items ["a", "b", "a"]) :=
  C74_all_items [.add "a", .lastN 1, .add "b", .add "a"] [.add "c"]

/-! ## C75 -/

/-- The last `n` items: the ones left when all but `n` have been dropped from the front. -/
def lastItems (n : Nat) (l : List String) : List String := l.drop (l.length - n)

/-- **C75 (what holds).** The answer to `LastN(n)` is the last `n` items exactly when there are no more than `n`. -/
theorem C75_lastN_partial (before after : List ListMsg) (n : Nat) :
    (listRun [] (before ++ .lastN n :: after)).2[before.length]? = some (.items (lastItems n (addedItems before))) ↔
      (addedItems before).length ≤ n := by
  have hl : ∀ (ms : List ListMsg) items, (listRun items ms).2.length = ms.length := by
    intro ms
    induction ms with
    | nil => intro _; rfl
    | cons m ms ih => intro items; simp [listRun, ih]
  have all : (listHandle (addedItems before) (.lastN n)).2 = .items (addedItems before) := by
    simp only [listHandle]; split <;> simp
  rw [listRun_append]
  simp only
  rw [List.getElem?_append_right (by rw [hl]; exact Nat.le_refl _), hl, Nat.sub_self]
  simp only [listRun, listRun_items, List.nil_append, all, List.getElem?_cons_zero, Option.some.injEq, ListReply.items.injEq]
  constructor
  · intro h
    have := congrArg List.length h
    simp only [lastItems, List.length_drop] at this
    omega
  · intro h
    simp [lastItems, Nat.sub_eq_zero_of_le h]

/-- **C75 is false**: with two items, `LastN(1)` returns both. -/
theorem C75_lastN_refuted : ∃ before n, lastItems n (addedItems before) = ["b"] ∧
    (listRun [] (before ++ [.lastN n])).2[before.length]? = some (.items ["a", "b"]) :=
  ⟨[.add "a", .add "b"], 1, by decide, by decide⟩

/-! ## C76 -/

theorem splitAtSnd_append (a b : String) : splitAtSnd (strBytes a).length (a ++ b) = some b := by
  unfold splitAtSnd
  simp [strBytes_append, fromUtf8_strBytes]

/-- The path `/read/s`, and a segment without a slash. -/
theorem read_match (u : Url) (h : doesMatch [.static "read", .intParam] u = true) :
    ∃ seg n, u.path = "/read/" ++ seg ∧ Decimal.Denotes (strBytes seg) n ∧ -2 ^ 31 ≤ n ∧ n < 2 ^ 31 := by
  obtain ⟨parts, _, _, hp, hl, hz⟩ := (C48_matches _ u).1 h
  match parts, hl with
  | [a, b], _ =>
    have h1 := hz (.static "read", a) (by simp)
    have h2 := hz (.intParam, b) (by simp)
    cases h1
    cases h2 with
    | int _ n g1 g2 g3 =>
      refine ⟨b, n, ?_, g1, g2, g3⟩
      rw [hp]
      apply String.toList_injective
      have : "/read/".toList = '/' :: ("read".toList ++ ['/']) := by decide +kernel
      rw [joinPath_toList, String.toList_append, this]
      simp [slashed]

/-- **C76 (what holds).** With a `usize` of 31 bits or more: a request routed to the read handler is answered exactly when the
integer is written without a minus sign, and then the page shows the items. -/
theorem C76_read_partial (W : Nat) (hW : 31 ≤ W) (req : Request) (items : List String)
    (h : doesMatch [.static "read", .intParam] req.url = true) :
    (readHandler W req items =
      if startsWith "/read/-" req.url.path then none
      else some (if items = [] then .noMessages else .messages items, items)) := by
  obtain ⟨seg, n, hp, hd, h1, h2⟩ := read_match _ h
  have hsw : startsWith "/read/-" req.url.path = startsWith "-" seg := by
    have : strBytes "/read/-" = strBytes "/read/" ++ strBytes "-" := by decide +kernel
    rw [hp]
    unfold startsWith
    rw [this, strBytes_append]
    generalize strBytes "/read/" = l
    induction l with
    | nil => rfl
    | cons c l ih => simp [ih]
  have hm : strBytes "-" = [45] := by decide +kernel
  unfold readHandler
  rw [hp, splitAtSnd_append, ← hp, hsw]
  simp only
  have hlast : ∀ k, listHandle items (.lastN k) = (items, .items items) := by
    intro k; simp only [listHandle]; split <;> simp
  have yes : ∀ k, Decimal.DenotesNat (strBytes seg) k → (k : Int) < 2 ^ 31 → startsWith "-" seg = false →
      (match parseUsize W seg with
        | none => none
        | some n =>
          match listHandle items (.lastN n) with
          | (_, .added) => none
          | (items', .items l) => some (if l.isEmpty then ListPage.noMessages else .messages l, items')) =
      if startsWith "-" seg = true then none else some (if items = [] then ListPage.noMessages else .messages items, items) := by
    intro k hk hlt hno
    have hlt' : k < 2 ^ W := by
      have : 2 ^ 31 ≤ 2 ^ W := Nat.pow_le_pow_right (by omega) hW
      omega
    rw [(parseUsize_iff).2 ⟨hk, hlt'⟩]
    simp only [hlast, hno, Bool.false_eq_true, if_false, List.isEmpty_iff]
  generalize hb : strBytes seg = b at hd
  cases hd with
  | plain hds =>
    refine yes _ (by rw [hb]; exact .plain hds) h2 ?_
    unfold startsWith
    rw [hb, hm]
    cases b with
    | nil => exact absurd rfl hds.1
    | cons c t =>
      have := (Digits.head hds).2
      simp only [List.isPrefixOf, Bool.and_true, beq_eq_false_iff_ne]
      exact fun h => this h.symm
  | plus hds =>
    refine yes _ (by rw [hb]; exact .plus hds) h2 ?_
    unfold startsWith
    rw [hb, hm]
    simp [List.isPrefixOf]
  | minus hds =>
    have hno : parseUsize W seg = none := by
      cases hpu : parseUsize W seg with
      | none => rfl
      | some k =>
        obtain ⟨g, _⟩ := parseUsize_iff.1 hpu
        rw [hb] at g
        cases g with
        | plain g => exact absurd rfl (Digits.head g).2
    have hst : startsWith "-" seg = true := by
      unfold startsWith
      rw [hb, hm]
      simp [List.isPrefixOf]
    rw [hno, hst]
    rfl

/-- **C76 is false**: a GET of path `/read` with the segment `-1` is routed to the read handler, which panics. -/
theorem C76_negative_refuted (W : Nat) (hW : 31 ≤ W) (sched : Nat → Nat) (items : List String) (headers : Headers) (body : Body)
    (base : String) (query : Option String) :
    listServe W sched ⟨headers, .get, body, ⟨base, "/read/-1", query⟩⟩ items = none := by
  have e : joinPath ["read", "-1"] = "/read/-1" := by decide +kernel
  have h : doesMatch [.static "read", .intParam] ⟨base, "/read/-1", query⟩ = true := by
    rw [C48_matches]
    refine ⟨["read", "-1"], by simp, ?_, e.symm, rfl, ?_⟩
    · intro p hp
      simp only [List.mem_cons, List.not_mem_nil, or_false] at hp
      rcases hp with rfl | rfl <;> decide +kernel
    · intro p hp
      simp only [List.zip_cons_cons, List.zip_nil_right, List.mem_cons, List.not_mem_nil, or_false] at hp
      rcases hp with rfl | rfl
      · exact .static _
      · have hb : strBytes "-1" = [45, 49] := by decide +kernel
        refine .int _ (-1) ?_ (by decide) (by decide)
        rw [hb]
        exact .minus (ds := [49]) ⟨by simp, by decide⟩
  have hs : doesMatch [.static "submit"] ⟨base, "/read/-1", query⟩ = false := by
    cases hx : doesMatch [.static "submit"] ⟨base, "/read/-1", query⟩ with
    | false => rfl
    | true =>
      obtain ⟨parts, _, _, hp, hl, hz⟩ := (C48_matches _ _).1 hx
      match parts, hl with
      | [a], _ =>
        have := hz (.static "submit", a) (by simp)
        cases this
        have : "/read/-1" ≠ joinPath ["submit"] := by decide +kernel
        exact absurd hp this
  have hst : startsWith "/read/-" "/read/-1" = true := by decide +kernel
  unfold listServe
  simp only [hs, h, Bool.and_false, Bool.false_eq_true, if_false, if_true]
  rw [C76_read_partial W hW _ items h]
  simp only [hst, if_true]

/-! ## C86, C87 -/

/-- The request is a submission of the form: `POST /submit`, with the body `message=s` and no declared length above `isize::MAX`. -/
def Submits (W : Nat) (req : Request) (s : String) : Prop :=
  req.method = .post ∧ req.url.path = "/submit" ∧ req.body.length.getD 0 ≤ isizeMax W ∧ ¬ req.body.Fails ∧
    req.body.avail = strBytes ("message=" ++ s)

/-- The submissions among the requests are `items`, in order. -/
inductive Submitted (W : Nat) : List Request → List String → Prop
  | nil : Submitted W [] []
  | take {req reqs s items} : Submits W req s → Submitted W reqs items → Submitted W (req :: reqs) (s :: items)
  | skip {req reqs items} : (∀ s, ¬ Submits W req s) → Submitted W reqs items → Submitted W (req :: reqs) items

theorem submit_match (u : Url) : doesMatch [.static "submit"] u = true ↔ u.path = "/submit" := by
  have e : joinPath ["submit"] = "/submit" := by decide +kernel
  rw [C48_matches]
  constructor
  · rintro ⟨parts, _, _, hp, hl, hz⟩
    match parts, hl with
    | [a], _ =>
      have := hz (.static "submit", a) (by simp)
      cases this
      rw [hp, e]
  · intro h
    refine ⟨["submit"], by simp, ?_, by rw [h, e], rfl, ?_⟩
    · intro p hp
      simp only [List.mem_cons, List.not_mem_nil, or_false] at hp
      subst hp
      decide +kernel
    · intro p hp
      simp only [List.zip_cons_cons, List.zip_nil_right, List.mem_cons, List.not_mem_nil, or_false] at hp
      subst hp
      exact .static _

theorem startsWith_iff (a s : String) : startsWith a s = true ↔ ∃ t, s = a ++ t := by
  unfold startsWith
  rw [List.isPrefixOf_iff_prefix]
  constructor
  · rintro ⟨t, ht⟩
    have hv : ∃ u, strBytes u = t := by
      have h1 := strBytes_eq_flatMap s
      have h2 := strBytes_eq_flatMap a
      have : s = a ++ String.ofList (s.toList.drop a.toList.length) := by
        apply String.toList_injective
        rw [String.toList_append, String.toList_ofList]
        have hp : a.toList <+: s.toList := by
          refine List.isPrefix_of_utf8Encode_append_eq_utf8Encode ⟨t.toArray⟩ ?_
          apply ByteArray.ext
          apply Array.toList_inj.1
          simpa [List.utf8Encode, ← h1, ← h2] using ht
        obtain ⟨w, hw⟩ := hp
        rw [← hw]
        simp
      refine ⟨String.ofList (s.toList.drop a.toList.length), ?_⟩
      have h3 : strBytes s = strBytes a ++ strBytes (String.ofList (s.toList.drop a.toList.length)) := by
        rw [← strBytes_append, ← this]
      rw [h3] at ht
      exact (List.append_cancel_left ht).symm
    obtain ⟨u, rfl⟩ := hv
    refine ⟨u, ?_⟩
    rw [← strBytes_append] at ht
    exact (strBytes_inj.1 ht).symm
  · rintro ⟨t, rfl⟩
    exact ⟨strBytes t, by rw [strBytes_append]⟩

/-- **C87 (what holds).** The exact behaviour of `POST /submit`, by the bytes of the body: `message=s` adds `s` and is answered with the
page that says so; other text is answered with the 400 response and adds nothing; and (the part that fails) a body that cannot be read or
is not UTF-8, or whose declared length is above `isize::MAX`, gets no answer. -/
theorem C87_submit_partial (W : Nat) (sched : Nat → Nat) (req : Request) (items : List String) (hb : req.body.WF)
    (hm : req.method = .post) (hp : req.url.path = "/submit") :
    (∀ s, req.body.length.getD 0 ≤ isizeMax W → ¬ req.body.Fails → req.body.avail = strBytes ("message=" ++ s) →
      listServe W sched req items = some (.added, items ++ [s])) ∧
    (∀ t, req.body.length.getD 0 ≤ isizeMax W → ¬ req.body.Fails → req.body.avail = strBytes t → (∀ s, t ≠ "message=" ++ s) →
      listServe W sched req items = some (.badRequest, items)) ∧
    (isizeMax W < req.body.length.getD 0 ∨ req.body.Fails ∨ (∀ t, req.body.avail ≠ strBytes t) → listServe W sched req items = none) := by
  have route : listServe W sched req items = submitHandler W sched req items := by
    have := (submit_match req.url).2 hp
    simp [listServe, hm, this]
  rw [route]
  refine ⟨?_, ?_, ?_⟩
  · intro s hl hf ha
    have h1 := (C29_into_string W sched req.body ("message=" ++ s)).2 ⟨hl, by rw [← ha]; exact Body.intoBytes_ok sched hb hf⟩
    have h2 := (startsWith_iff "message=" ("message=" ++ s)).2 ⟨s, rfl⟩
    simp only [submitHandler, h1, h2, if_true, splitAtSnd_append, listHandle]
  · intro t hl hf ha hno
    have h1 := (C29_into_string W sched req.body t).2 ⟨hl, by rw [← ha]; exact Body.intoBytes_ok sched hb hf⟩
    have h2 : ¬ startsWith "message=" t = true := fun h => by
      obtain ⟨s, hs⟩ := (startsWith_iff _ _).1 h
      exact hno s hs
    simp only [submitHandler, h1, if_neg h2]
  · intro h
    have : ∀ res, req.body.intoString W sched ≠ .ok res := by
      intro res hr
      obtain ⟨hl, this⟩ := (C29_into_string W sched req.body res).1 hr
      by_cases hf : req.body.Fails
      · rw [Body.intoBytes_err sched hb hf] at this
        cases this
      · rw [Body.intoBytes_ok sched hb hf] at this
        rcases h with h | h | h
        · omega
        · exact hf h
        · exact h res (by simpa using this)
    unfold submitHandler
    split
    · rename_i res hr; exact absurd hr (this res)
    · rfl

/-- **C87 is false**: one byte that is not UTF-8 and the handler panics. -/
theorem C87_submit_refuted (W : Nat) (sched : Nat → Nat) (items : List String) (headers : Headers) (base : String) (query : Option String) :
    listServe W sched ⟨headers, .post, Body.fromReader (.cursor [255]) (some 1), ⟨base, "/submit", query⟩⟩ items = none := by
  refine (C87_submit_partial W sched ⟨headers, .post, Body.fromReader (.cursor [255]) (some 1), ⟨base, "/submit", query⟩⟩ items ⟨trivial, by simp [Body.fromReader]⟩ rfl rfl).2.2 (Or.inr (Or.inr ?_))
  intro t ht
  have h1 : fromUtf8 [255] = some t := fromUtf8_eq_some_iff.2 ht.symm
  have h2 : fromUtf8 [255] = none := by decide +kernel
  rw [h2] at h1
  cases h1

theorem listServe_items (W : Nat) (sched : Nat → Nat) (req : Request) (items : List String) (hb : req.body.WF) :
    (∀ s, Submits W req s → ((listServe W sched req items).map (·.2)).getD items = items ++ [s]) ∧
    ((∀ s, ¬ Submits W req s) → ((listServe W sched req items).map (·.2)).getD items = items) := by
  constructor
  · rintro s ⟨h1, h2, hl, h3, h4⟩
    rw [(C87_submit_partial W sched req items hb h1 h2).1 s hl h3 h4]
    rfl
  · intro hno
    have hread : ((readHandler W req items).map (·.2)).getD items = items := by
      unfold readHandler
      split
      · rfl
      · split
        · rfl
        · split
          · rfl
          · rename_i heq
            simp only [listHandle] at heq
            split at heq <;> · cases heq; rfl
    unfold listServe
    split
    · rfl
    · split
      · rename_i _ hc
        simp only [Bool.and_eq_true, decide_eq_true_eq] at hc
        have hp := (submit_match _).1 hc.2
        have C := C87_submit_partial W sched req items hb hc.1 hp
        have route : listServe W sched req items = submitHandler W sched req items := by
          simp [listServe, hc.1, hc.2]
        rw [← route]
        by_cases hl : isizeMax W < req.body.length.getD 0
        · rw [C.2.2 (Or.inl hl)]; rfl
        have hl' : req.body.length.getD 0 ≤ isizeMax W := by omega
        by_cases hf : req.body.Fails
        · rw [C.2.2 (Or.inr (Or.inl hf))]; rfl
        · by_cases ht : ∃ t, req.body.avail = strBytes t
          · obtain ⟨t, ht⟩ := ht
            rw [C.2.1 t hl' hf ht (by rintro s rfl; exact hno s ⟨hc.1, hp, hl', hf, ht⟩)]
            rfl
          · rw [C.2.2 (Or.inr (Or.inr fun t h => ht ⟨t, h⟩))]; rfl
      · split
        · exact hread
        · rfl

theorem listHistory_items (W : Nat) (sched : Nat → Nat) {reqs : List Request} {items : List String} (h : Submitted W reqs items)
    (hb : ∀ r ∈ reqs, r.body.WF) (start : List String) : (listHistory W sched start reqs).2 = start ++ items := by
  induction h generalizing start with
  | nil => simp [listHistory]
  | @take req reqs s items hs _ ih =>
    simp only [listHistory]
    rw [(listServe_items W sched req start (hb req (by simp))).1 s hs, ih fun r hr => hb r (by simp [hr])]
    simp
  | @skip req reqs items hs _ ih =>
    simp only [listHistory]
    rw [(listServe_items W sched req start (hb req (by simp))).2 hs, ih fun r hr => hb r (by simp [hr])]

theorem listHistory_append (W : Nat) (sched : Nat → Nat) (start : List String) (a b : List Request) :
    (listHistory W sched start (a ++ b)).1 =
      (listHistory W sched start a).1 ++ (listHistory W sched (listHistory W sched start a).2 b).1 := by
  induction a generalizing start with
  | nil => rfl
  | cons r a ih => simp [listHistory, ih]

theorem listHistory_length (W : Nat) (sched : Nat → Nat) (start : List String) (a : List Request) :
    (listHistory W sched start a).1.length = a.length := by
  induction a generalizing start with
  | nil => rfl
  | cons r a ih => simp [listHistory, ih]

/-- A path `/read/<number>` is routed to the read handler, and the number is not negative. -/
theorem read_route (u : Url) (n : Nat) (seg : String) (hp : u.path = "/read/" ++ seg) (hn : Decimal.DenotesNat (strBytes seg) n)
    (hr : n < 2 ^ 31) :
    doesMatch [.static "read", .intParam] u = true ∧ doesMatch [.static "submit"] u = false ∧ startsWith "/read/-" u.path = false := by
  have hno : '/' ∉ seg.toList ∧ startsWith "-" seg = false := by
    have hd : ∀ ds, Decimal.Digits ds → (47 : UInt8) ∉ ds := by
      intro ds h hm
      have := h.2 47 hm
      revert this; decide
    have hslash : (47 : UInt8) ∉ strBytes seg := by
      generalize strBytes seg = b at hn
      cases hn with
      | plain h => exact hd _ h
      | plus h =>
        intro hm
        simp only [List.mem_cons] at hm
        rcases hm with h' | h'
        · revert h'; decide
        · exact hd _ h h'
    constructor
    · intro hm
      apply hslash
      rw [strBytes_eq_flatMap]
      exact List.mem_flatMap.2 ⟨'/', hm, by decide⟩
    · have hm : strBytes "-" = [45] := by decide +kernel
      unfold startsWith
      rw [hm]
      generalize strBytes seg = b at hn
      cases hn with
      | plain h =>
        cases b with
        | nil => exact absurd rfl h.1
        | cons c t =>
          have := (Digits.head h).2
          simp only [List.isPrefixOf, Bool.and_true, beq_eq_false_iff_ne]
          exact fun h => this h.symm
      | plus h => simp [List.isPrefixOf]
  have hmatch : doesMatch [.static "read", .intParam] u = true := by
    rw [C48_matches]
    refine ⟨["read", seg], by simp, ?_, ?_, rfl, ?_⟩
    · intro p hp
      simp only [List.mem_cons, List.not_mem_nil, or_false] at hp
      rcases hp with rfl | rfl
      · decide +kernel
      · exact hno.1
    · rw [hp]
      apply String.toList_injective
      have : "/read/".toList = '/' :: ("read".toList ++ ['/']) := by decide +kernel
      rw [joinPath_toList, String.toList_append, this]
      simp [slashed]
    · intro p hp
      simp only [List.zip_cons_cons, List.zip_nil_right, List.mem_cons, List.not_mem_nil, or_false] at hp
      rcases hp with rfl | rfl
      · exact .static _
      · generalize hbs : strBytes seg = b at hn
        cases hn with
        | plain h => exact .int _ _ (by rw [hbs]; exact .plain h) (by omega) (by omega)
        | plus h => exact .int _ _ (by rw [hbs]; exact .plus h) (by omega) (by omega)
  have hsub : doesMatch [.static "submit"] u = false := by
    cases hx : doesMatch [.static "submit"] u with
    | false => rfl
    | true =>
      have h1 := (submit_match _).1 hx
      rw [hp] at h1
      have h2 := congrArg String.toList h1
      have e1 : "/read/".toList = '/' :: 'r' :: ("ead".toList ++ ['/']) := by decide +kernel
      have e2 : "/submit".toList = '/' :: 's' :: "ubmit".toList := by decide +kernel
      rw [String.toList_append, e1, e2] at h2
      simp at h2
  have hstart : startsWith "/read/-" u.path = false := by
    have : strBytes "/read/-" = strBytes "/read/" ++ strBytes "-" := by decide +kernel
    rw [hp]
    unfold startsWith
    rw [this, strBytes_append, ← hno.2]
    unfold startsWith
    generalize strBytes "/read/" = l
    induction l with
    | nil => rfl
    | cons c l ih => simp [ih]
  exact ⟨hmatch, hsub, hstart⟩

/-- **C86.** After any history of requests - submissions, reads, requests for other pages, requests whose handler panics - a read (of
any non-negative integer in range) is answered with exactly the messages submitted before it, in order. -/
theorem C86_read_submitted (W : Nat) (hW : 31 ≤ W) (sched : Nat → Nat) (before after : List Request) (items : List String) (req : Request)
    (hb : ∀ r ∈ before, r.body.WF) (hs : Submitted W before items) (n : Nat) (seg : String)
    (hp : req.url.path = "/read/" ++ seg) (hn : Decimal.DenotesNat (strBytes seg) n) (hr : n < 2 ^ 31) :
    (listHistory W sched [] (before ++ req :: after)).1[before.length]? =
      some (some (if items = [] then .noMessages else .messages items)) := by
  obtain ⟨hmatch, hsub, hstart⟩ := read_route req.url n seg hp hn hr
  rw [listHistory_append, List.getElem?_append_right (by rw [listHistory_length]; exact Nat.le_refl _), listHistory_length, Nat.sub_self,
    listHistory_items W sched hs hb]
  simp only [listHistory, List.nil_append, List.getElem?_cons_zero, Option.some.injEq]
  have : listServe W sched req items = readHandler W req items := by simp [listServe, hsub, hmatch]
  rw [this, C76_read_partial W hW req items hmatch, hstart]
  rfl

/-! ## C88 -/

/-- The request a browser sends when the user types `t` into the form's field and submits it. -/
def FormPost (W : Nat) (req : Request) (t : String) : Prop :=
  req.method = .post ∧ req.url.path = "/submit" ∧ req.body.length.getD 0 ≤ isizeMax W ∧ ¬ req.body.Fails ∧
    req.body.avail = strBytes "message=" ++ Form.encode (strBytes t)

/-- **C88 (what holds).** A message made of ASCII letters, digits, `*`, `-`, `.` and `_` is stored exactly as typed - and no other message is:
what is stored is the encoded text. -/
theorem C88_typed_partial (W : Nat) (sched : Nat → Nat) (req : Request) (items : List String) (t : String) (hb : req.body.WF)
    (h : FormPost W req t) :
    ∃ s, listServe W sched req items = some (.added, items ++ [s]) ∧ strBytes s = Form.encode (strBytes t) ∧
      (s = t ↔ ∀ b ∈ strBytes t, Form.Plain b = true) := by
  obtain ⟨h1, h2, hl, h3, h4⟩ := h
  have ascii : ∀ b : UInt8, ∀ c ∈ Form.encodeByte b, c < 128 := u8_forall (by decide +kernel)
  have hv : ∀ bs : Bytes, (∀ c ∈ bs, c < 128) → ∃ s, strBytes s = bs := by
    intro bs hbs
    refine ⟨String.ofList (bs.map fun c => Char.ofNat c.toNat), ?_⟩
    have lt : ∀ c : UInt8, c < 128 → (Char.ofNat c.toNat).toNat < 128 ∧ UInt8.ofNat (Char.ofNat c.toNat).toNat = c := u8_forall (by decide +kernel)
    rw [strBytes_ascii]
    · rw [List.map_map]
      conv => rhs; rw [← List.map_id bs]
      apply List.map_congr_left
      intro c hc
      exact (lt c (hbs c hc)).2
    · intro c hc
      obtain ⟨b, hb, rfl⟩ := List.mem_map.1 hc
      exact (lt b (hbs b hb)).1
  obtain ⟨s, hs⟩ := hv (Form.encode (strBytes t)) (by
    intro c hc
    obtain ⟨b, _, hb⟩ := List.mem_flatMap.1 hc
    exact ascii b c hb)
  refine ⟨s, (C87_submit_partial W sched req items hb h1 h2).1 s hl h3 (by rw [h4, strBytes_append, hs]), hs, ?_⟩
  rw [← strBytes_inj, hs]
  have one : ∀ b : UInt8, 1 ≤ (Form.encodeByte b).length := u8_forall (by decide +kernel)
  have grow : ∀ bs : Bytes, bs.length ≤ (Form.encode bs).length := by
    intro bs
    induction bs with
    | nil => simp
    | cons b bs ih =>
      have := one b
      simp only [Form.encode, List.flatMap_cons, List.length_append, List.length_cons] at ih ⊢
      omega
  generalize strBytes t = bs
  induction bs with
  | nil => simp [Form.encode]
  | cons b bs ih =>
    have hcons : Form.encode (b :: bs) = Form.encodeByte b ++ Form.encode bs := rfl
    rw [hcons]
    unfold Form.encodeByte
    split
    · rename_i hp
      simp only [List.cons_append, List.nil_append, List.cons.injEq, true_and, List.mem_cons, forall_eq_or_imp, hp]
      exact ih
    · rename_i hp
      have no : ¬ ∀ c ∈ b :: bs, Form.Plain c = true := fun h => hp (h b (by simp))
      simp only [no, iff_false]
      split
      · rename_i h32
        subst h32
        intro h
        have := List.head_eq_of_cons_eq h
        revert this
        decide
      · intro h
        have h1 := congrArg List.length h
        have h2 := grow bs
        simp only [List.length_append, List.length_cons, List.length_nil] at h1
        omega

/-- **C88 is false**: `a b` is stored as `a+b`. -/
theorem C88_typed_refuted (W : Nat) (hW : 5 ≤ W) (sched : Nat → Nat) (items : List String) (headers : Headers) (base : String) (query : Option String) :
    FormPost W ⟨headers, .post, Body.fromString "message=a+b", ⟨base, "/submit", query⟩⟩ "a b" ∧
    listServe W sched ⟨headers, .post, Body.fromString "message=a+b", ⟨base, "/submit", query⟩⟩ items =
      some (.added, items ++ ["a+b"]) := by
  have hw : (Body.fromString "message=a+b").WF := ⟨trivial, by simp [Body.fromString]⟩
  have hf : ¬ (Body.fromString "message=a+b").Fails := by simp [Body.Fails, Body.fromString, Src.Clean]
  have ha : (Body.fromString "message=a+b").avail = strBytes "message=a+b" := by
    simp [Body.avail, Body.fromString, Src.avail]
  have e1 : strBytes "message=a+b" = strBytes "message=" ++ Form.encode (strBytes "a b") := by decide +kernel
  have e2 : "message=a+b" = "message=" ++ "a+b" := by decide +kernel
  have hl : (Body.fromString "message=a+b").length.getD 0 ≤ isizeMax W := by
    have e : (Body.fromString "message=a+b").length.getD 0 = 11 := by decide +kernel
    have : 2 ^ 4 ≤ 2 ^ (W - 1) := Nat.pow_le_pow_right (by omega) (by omega)
    unfold isizeMax
    omega
  refine ⟨⟨rfl, rfl, hl, hf, ha.trans e1⟩, ?_⟩
  exact (C87_submit_partial W sched ⟨headers, .post, Body.fromString "message=a+b", ⟨base, "/submit", query⟩⟩ items hw rfl rfl).1
    "a+b" hl hf (ha.trans (congrArg strBytes e2))

/-- non-vacuity of C86: a submission, a crashing read, a submission of something else, and a read of `+7`. -/
example (sched : Nat → Nat) (base : String) :
    (listHistory 32 sched [] [⟨[], .post, Body.fromString "message=a+b", ⟨base, "/submit", none⟩⟩,
      ⟨[], .get, Body.empty, ⟨base, "/read/-1", none⟩⟩, ⟨[], .post, Body.fromString "hello", ⟨base, "/submit", none⟩⟩,
      ⟨[], .get, Body.empty, ⟨base, "/read/+7", none⟩⟩]).1[3]? = some (some (.messages ["a+b"])) := by
  have hs : ∀ s, (Body.fromString s).WF ∧ ¬ (Body.fromString s).Fails ∧ (Body.fromString s).avail = strBytes s := fun s =>
    ⟨⟨trivial, by simp [Body.fromString]⟩, by simp [Body.Fails, Body.fromString, Src.Clean], by
      simp [Body.avail, Body.fromString, Src.avail]⟩
  have e2 : "message=a+b" = "message=" ++ "a+b" := by decide +kernel
  have e3 : startsWith "message=" "hello" = false := by decide +kernel
  have e4 : "/read/+7" = "/read/" ++ "+7" := by decide +kernel
  have hw : Body.empty.WF := ⟨trivial, by simp [Body.empty]⟩
  have hle : (Body.fromString "message=a+b").length.getD 0 ≤ isizeMax 32 := by decide +kernel
  refine C86_read_submitted 32 (by decide) sched
    [⟨[], .post, Body.fromString "message=a+b", ⟨base, "/submit", none⟩⟩,
      ⟨[], .get, Body.empty, ⟨base, "/read/-1", none⟩⟩, ⟨[], .post, Body.fromString "hello", ⟨base, "/submit", none⟩⟩]
    [] ["a+b"] ⟨[], .get, Body.empty, ⟨base, "/read/+7", none⟩⟩ ?_ ?_ 7 "+7" e4 ?_ (by decide)
  · intro r hr
    simp only [List.mem_cons, List.not_mem_nil, or_false] at hr
    rcases hr with rfl | rfl | rfl
    · exact (hs _).1
    · exact hw
    · exact (hs _).1
  · refine .take ⟨rfl, rfl, hle, (hs _).2.1, (hs _).2.2.trans (congrArg strBytes e2)⟩ (.skip ?_ (.skip ?_ .nil))
    · rintro s ⟨h, _⟩; cases h
    · rintro s ⟨_, _, _, _, h⟩
      have h1 := strBytes_inj.1 ((hs "hello").2.2.symm.trans h)
      have h2 := (startsWith_iff "message=" "hello").2 ⟨s, h1⟩
      rw [e3] at h2
      cases h2
  · have hb : strBytes "+7" = [43, 55] := by decide +kernel
    rw [hb]
    exact .plus (ds := [55]) ⟨by simp, by decide⟩

end Puck
