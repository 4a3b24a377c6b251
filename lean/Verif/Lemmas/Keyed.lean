import Verif.Lemmas.DiffApply
/-!
# Pairing children by key and by position
-/
namespace Puck

theorem allKeyed_iff (ms : List Element) : allKeyed ms = true ↔ AllKeyed ms := by
  unfold allKeyed AllKeyed
  simp [Option.isSome_iff_ne_none]

theorem locateByKey_some {ms : List Element} {k : Option String} {m : Element} :
    locateByKey ms k = some m ↔ FirstKeyed ms k m := by
  unfold locateByKey FirstKeyed
  rw [List.find?_eq_some_iff_append]
  constructor
  · rintro ⟨h1, l, r, h2, h3⟩
    exact ⟨l, r, h2, by simpa using h1, fun x hx => by simpa using h3 x hx⟩
  · rintro ⟨l, r, h1, h2, h3⟩
    exact ⟨by simpa using h2, l, r, h1, fun x hx => by simpa using h3 x hx⟩

theorem locateByKey_none {ms : List Element} {k : Option String} :
    locateByKey ms k = none ↔ ∀ m ∈ ms, m.key ≠ k := by
  unfold locateByKey
  simp

/-- the children part of any changeset -/
def kidOps (a b : Element) : Option (List Op) :=
  if allKeyed a.children && allKeyed b.children then
    match diffKeyed a.children b.children with
    | none => none
    | some pairs =>
      match insertionOps b.children (unpaired a.children b.children).length (unpaired a.children b.children) with
      | none => none
      | some ins => some (pairs ++ ins ++ deletionOps a.children b.children)
  else if a.children.length = b.children.length then diffZip a.children b.children
  else if b.children.length < a.children.length then
    match diffZip a.children b.children with
    | none => none
    | some pairs => some ((a.children.drop b.children.length).map (fun c => ⟨c.id, .deleteEl⟩) ++ pairs)
  else
    match diffZip a.children b.children with
    | none => none
    | some pairs => some (pairs ++ createAll (some a.id) (b.children.drop a.children.length))

theorem diff_eq (a b : Element) : diff a b = match kidOps a b with
    | none => none
    | some cs => some (a.diffName b ++ a.diffAttributes b ++ a.diffText b ++ a.diffListeners b ++ cs ++ a.diffId b) := by
  cases b; rfl

theorem allKeyed_unkeyed {cs : List Element} (h : UnkeyedAll cs) : allKeyed cs = true ↔ cs = [] := by
  cases cs with
  | nil => simp [allKeyed]
  | cons c cs =>
    rw [UnkeyedAll] at h
    have : c.key = none := by have := h.1; cases c; rw [Element.Unkeyed] at this; exact this.1
    simp [allKeyed, this]

/-- the children part of a changeset, when keys do not get in the way -/
def childOps (a b : Element) : Option (List Op) :=
  match diffZip a.children b.children with
  | none => none
  | some pairs => some ((a.children.drop b.children.length).map (fun c => ⟨c.id, .deleteEl⟩) ++ pairs ++
      createAll (some a.id) (b.children.drop a.children.length))

theorem firstKeyed_at {pre : List Element} {m : Element} {suf : List Element} {k : Option String} (hk : m.key = k)
    (hn : ((pre ++ m :: suf).map fun c => c.key).Nodup) : locateByKey (pre ++ m :: suf) k = some m := by
  rw [locateByKey_some]
  refine ⟨pre, suf, rfl, hk, ?_⟩
  intro x hx he
  rw [List.map_append, List.nodup_append] at hn
  exact hn.2.2 k (List.mem_map.2 ⟨x, hx, he⟩) k (List.mem_map.2 ⟨m, by simp, hk⟩) rfl

/-- with the same distinct keys in the same order, pairing by key is pairing by position -/
theorem diffKeyed_eq_zip : ∀ (bs pre suf : List Element), (suf.map fun c => c.key) = (bs.map fun c => c.key) →
    ((pre ++ suf).map fun c => c.key).Nodup → diffKeyed (pre ++ suf) bs = diffZip suf bs
  | [], pre, suf, _, _ => by rw [diffKeyed, diffZip]
  | b :: bs, pre, [], h, _ => by simp at h
  | b :: bs, pre, m :: suf, h, hn => by
    simp only [List.map_cons, List.cons.injEq] at h
    have ih := diffKeyed_eq_zip bs (pre ++ [m]) suf h.2 (by rw [List.append_assoc]; exact hn)
    rw [List.append_assoc] at ih
    simp only [List.cons_append, List.nil_append] at ih
    rw [diffKeyed, diffZip, firstKeyed_at h.1 hn]
    simp only [ih]

theorem unpaired_keys {as bs : List Element} (h : ∀ b ∈ bs, b.key ∈ as.map fun e => e.key) : unpaired as bs = [] := by
  unfold unpaired
  rw [List.filter_eq_nil_iff]
  intro i hi
  rw [List.mem_range] at hi
  rw [List.getElem?_eq_getElem hi]
  simp only [Option.isNone_iff_eq_none, locateByKey_none]
  intro hno
  obtain ⟨m, h1, h2⟩ := List.mem_map.1 (h _ (List.getElem_mem hi))
  exact hno m h1 h2

theorem deletionOps_keys {as bs : List Element} (h : ∀ a ∈ as, a.key ∈ bs.map fun e => e.key) : deletionOps as bs = [] := by
  unfold deletionOps
  rw [List.filterMap_eq_nil_iff]
  intro m hm
  obtain ⟨t, h1, h2⟩ := List.mem_map.1 (h m hm)
  rw [if_neg]
  simp only [Option.isNone_iff_eq_none, locateByKey_none]
  exact fun hno => hno t h1 h2

theorem deletionOps_nil (as : List Element) : deletionOps as [] = as.map (fun c => ⟨c.id, .deleteEl⟩) := by
  unfold deletionOps
  induction as with
  | nil => rfl
  | cons a as ih =>
    rw [List.filterMap_cons, ih]
    simp [locateByKey]

theorem KeyFit.parts {a b : Element} (h : KeyFit a b) : a.key = b.key ∧
    (AllKeyed a.children → AllKeyed b.children → b.children = [] ∨
      ((a.children.map fun c => c.key) = (b.children.map fun c => c.key) ∧ (a.children.map fun c => c.key).Nodup)) ∧
    KeyFitZip a.children b.children := by
  cases b; rw [KeyFit] at h; exact h

theorem kidOps_fit {a b : Element} (h : KeyFit a b) : kidOps a b = childOps a b := by
  unfold kidOps childOps
  by_cases hak : AllKeyed a.children ∧ AllKeyed b.children
  · have hc : (allKeyed a.children && allKeyed b.children) = true := by
      rw [Bool.and_eq_true, allKeyed_iff, allKeyed_iff]; exact hak
    rw [if_pos hc]
    rcases h.parts.2.1 hak.1 hak.2 with hnil | ⟨hk, hn⟩
    · rw [hnil]
      simp [diffKeyed, unpaired, insertionOps, deletionOps_nil, diffZip, createAll]
    · have hl : a.children.length = b.children.length := by simpa using congrArg List.length hk
      have hz := diffKeyed_eq_zip b.children [] a.children hk hn
      rw [List.nil_append] at hz
      rw [hz, unpaired_keys (fun x hx => by rw [hk]; exact List.mem_map.2 ⟨x, hx, rfl⟩),
        deletionOps_keys (fun x hx => by rw [← hk]; exact List.mem_map.2 ⟨x, hx, rfl⟩),
        List.drop_eq_nil_of_le (by omega), List.drop_eq_nil_of_le (by omega)]
      cases diffZip a.children b.children <;> simp [insertionOps, createAll]
  · have hc : ¬ (allKeyed a.children && allKeyed b.children) = true := by
      rw [Bool.and_eq_true, allKeyed_iff, allKeyed_iff]; exact hak
    rw [if_neg hc]
    split
    · rename_i he
      rw [List.drop_eq_nil_of_le (by omega), List.drop_eq_nil_of_le (by omega)]
      cases diffZip a.children b.children <;> simp [createAll]
    · split
      · rw [List.drop_eq_nil_of_le (as := b.children) (by omega)]
        cases diffZip a.children b.children <;> simp [createAll]
      · rw [List.drop_eq_nil_of_le (as := a.children) (by omega)]
        cases diffZip a.children b.children <;> simp

theorem keyFitZip_take : ∀ (bs as : List Element), KeyFitZip as bs → KeyFitZip (as.take bs.length) bs
  | [], as, _ => by rw [KeyFitZip]; trivial
  | b :: bs, [], h => by simpa using h
  | b :: bs, a :: as, h => by
    rw [KeyFitZip] at h
    rw [List.length_cons, List.take_succ_cons, KeyFitZip]
    exact ⟨h.1, keyFitZip_take bs as h.2⟩

theorem keyFitZip_drop : ∀ (bs as : List Element), KeyFitZip as bs → UnkeyedAll (bs.drop as.length)
  | [], as, _ => by simp [UnkeyedAll]
  | b :: bs, [], h => by rw [KeyFitZip] at h; exact h
  | b :: bs, a :: as, h => by
    rw [KeyFitZip] at h
    exact keyFitZip_drop bs as h.2

mutual
theorem keyFit_unkeyed : ∀ (b a : Element), a.Unkeyed → b.Unkeyed → KeyFit a b
  | ⟨bid, bname, battrs, blis, bch, btext, bkey⟩, a, ha, hb => by
    rw [Element.Unkeyed] at hb
    have ha' : a.key = none ∧ UnkeyedAll a.children := by cases a; rw [Element.Unkeyed] at ha; exact ha
    rw [KeyFit]
    refine ⟨ha'.1.trans hb.1.symm, fun _ h2 => Or.inl ?_, keyFitZip_unkeyed bch a.children ha'.2 hb.2⟩
    exact (allKeyed_unkeyed hb.2).1 ((allKeyed_iff _).2 h2)
theorem keyFitZip_unkeyed : ∀ (bs as : List Element), UnkeyedAll as → UnkeyedAll bs → KeyFitZip as bs
  | [], as, _, _ => by rw [KeyFitZip]; trivial
  | b :: bs, [], _, hb => by rw [KeyFitZip]; exact hb
  | b :: bs, a :: as, ha, hb => by
    rw [UnkeyedAll] at ha hb
    rw [KeyFitZip]
    exact ⟨keyFit_unkeyed b a ha.1 hb.1, keyFitZip_unkeyed bs as ha.2 hb.2⟩
end

end Puck
