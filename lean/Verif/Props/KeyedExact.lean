import Verif.Props.Apply
/-!
# Between which lists of keyed children changesets work (C58), exactly
-/
namespace Puck

theorem insertion_head {cs : List Element} {len i : Nat} {rest : List Nat} {ins : List Op} (h : insertionOps cs len (i :: rest) = some ins) :
    ∃ t op ops, cs[i]? = some t ∧ ins = op :: ops ∧ op.id = t.id ∧ ∀ n p, op.instruction ≠ .createTag n (some p) := by
  rw [insertionOps] at h
  cases hop : insertionOp cs len i with
  | none => rw [hop] at h; cases h
  | some op =>
    rw [hop] at h
    simp only at h
    cases hr : insertionOps cs len rest with
    | none => rw [hr] at h; cases h
    | some ops =>
      rw [hr] at h
      simp only [Option.some.injEq] at h
      unfold insertionOp at hop
      cases ht : cs[i]? with
      | none => rw [ht] at hop; cases hop
      | some t =>
        rw [ht] at hop
        refine ⟨t, op, ops, rfl, h.symm, ?_⟩
        simp only at hop
        split at hop
        · split at hop
          · cases hop; exact ⟨rfl, fun _ _ => by simp⟩
          · cases hop
        · split at hop
          · cases hop; exact ⟨rfl, fun _ _ => by simp⟩
          · split at hop
            · cases hop; exact ⟨rfl, fun _ _ => by simp⟩
            · cases hop

theorem unpaired_first {mine cs : List Element} {i : Nat} {rest : List Nat} (h : unpaired mine cs = i :: rest) :
    ∃ t, cs[i]? = some t ∧ locateByKey mine t.key = none := by
  have hi : i ∈ unpaired mine cs := by rw [h]; simp
  unfold unpaired at hi
  obtain ⟨-, h2⟩ := List.mem_filter.1 hi
  cases ht : cs[i]? with
  | none => rw [ht] at h2; cases h2
  | some t => rw [ht] at h2; exact ⟨t, rfl, by simpa using h2⟩

/-- **C58, exactly.** A node whose children all have distinct keys gets new children, all with keys: each of them one of the old children, or one with a
new key and a new id.  The changeset can be applied to the old node and gives the new one if and only if some old children were removed and the others are
left as they were, in the same order: nothing inserted, nothing moved. -/
theorem C58_exact_partial (a : Element) (cs : List Element) (ha : a.AttrsOk) (hko : a.KeysOk) (hm : AllKeyed a.children) (hn : a.ids.Nodup)
    (hc : AllKeyed cs) (hcs : ∀ t ∈ cs, t ∈ a.children ∨ (t.id ∉ a.ids ∧ ∀ m ∈ a.children, m.key ≠ t.key)) :
    a.UpdatesTo { a with children := cs } ↔ cs.Sublist a.children := by
  refine ⟨?_, C58_removal_partial a cs ha hko hm hn⟩
  have hk : (a.children.map fun c => c.key).Nodup := by
    have : (a.children.filterMap fun c => c.key).Nodup := by cases a; rw [Element.KeysOk] at hko; exact hko.1
    exact keys_nodup hm this
  rintro ⟨ops, t, h1, h2, h3⟩
  rw [diff_children ha hko hm hc hk fun t ht => (hcs t ht).imp id fun h => locateByKey_none.2 h.2] at h1
  cases hun : unpaired a.children cs with
  | cons i rest =>
    exfalso
    rw [hun] at h1
    cases hins : insertionOps cs (i :: rest).length (i :: rest) with
    | none => rw [hins] at h1; cases h1
    | some ins =>
      rw [hins] at h1
      obtain ⟨u, op, ops', e1, rfl, e3, e4⟩ := insertion_head hins
      obtain ⟨u', e5, e6⟩ := unpaired_first hun
      cases e1.symm.trans e5
      simp only [Option.some.injEq] at h1
      subst h1
      rcases hcs u (List.mem_of_getElem? e1) with hin | ⟨hid, -⟩
      · rw [locate_self hk hin] at e6; cases e6
      · rw [List.cons_append, applyOps, applyOp_absent (by rw [e3]; exact hid) e4] at h2
        cases h2
  | nil =>
    rw [hun] at h1
    simp only [insertionOps, List.nil_append, Option.some.injEq] at h1
    subst h1
    have hn' := Element.nodup_children hn
    have hdel : deletionOps a.children cs = a.children.filterMap fun m => if (locateByKey cs m.key).isSome then none else some ⟨m.id, .deleteEl⟩ := by
      unfold deletionOps
      congr 1
      funext m
      cases locateByKey cs m.key <;> simp
    have hap := apply_deletions a (fun m => (locateByKey cs m.key).isSome) a.children [] hn'.2 hn'.1
    have e : { a with children := [] ++ a.children } = a := by cases a; rfl
    rw [e, List.nil_append] at hap
    rw [hdel, hap] at h2
    cases h2
    have hkeys := h3.eqs.2.2.2.2.2.2.keys
    simp only at hkeys
    have hall : ∀ x ∈ cs, x ∈ a.children := by
      intro x hx
      rcases hcs x hx with h | ⟨-, hno⟩
      · exact h
      · exfalso
        have : x.key ∈ (a.children.filter fun m => (locateByKey cs m.key).isSome).map fun c => c.key := by
          rw [hkeys]; exact List.mem_map.2 ⟨x, hx, rfl⟩
        obtain ⟨m, hm1, hm2⟩ := List.mem_map.1 this
        exact hno m (List.mem_filter.1 hm1).1 hm2
    have := eq_of_keys hk (fun x hx => (List.mem_filter.1 hx).1) hall hkeys
    rw [← this]
    exact List.filter_sublist

/-- non-vacuity, first side: the middle one of three keyed children is removed -/
example : Element.UpdatesTo
    ⟨0, "ul", [], [], [⟨1, "li", [], [], [], some "x", some "a"⟩, ⟨2, "li", [], [], [], some "y", some "b"⟩, ⟨3, "li", [], [], [], some "z", some "c"⟩], none, none⟩
    ⟨0, "ul", [], [], [⟨1, "li", [], [], [], some "x", some "a"⟩, ⟨3, "li", [], [], [], some "z", some "c"⟩], none, none⟩ :=
  (C58_exact_partial ⟨0, "ul", [], [], [⟨1, "li", [], [], [], some "x", some "a"⟩, ⟨2, "li", [], [], [], some "y", some "b"⟩, ⟨3, "li", [], [], [], some "z", some "c"⟩], none, none⟩
    [⟨1, "li", [], [], [], some "x", some "a"⟩, ⟨3, "li", [], [], [], some "z", some "c"⟩]
    (by simp [Element.AttrsOk, AttrsOkAll, Headers.Distinct]) (by simp [Element.KeysOk, KeysOkAll]) (by simp [AllKeyed]) (by decide) (by simp [AllKeyed])
    (by simp)).2 (.cons_cons _ (.cons _ (.cons_cons _ .slnil)))

/-- non-vacuity, second side: one is removed and another one appended -/
example : ¬ Element.UpdatesTo
    ⟨0, "ul", [], [], [⟨1, "li", [], [], [], some "x", some "a"⟩, ⟨2, "li", [], [], [], some "y", some "b"⟩], none, none⟩
    ⟨0, "ul", [], [], [⟨2, "li", [], [], [], some "y", some "b"⟩, ⟨3, "li", [], [], [], some "z", some "c"⟩], none, none⟩ := by
  intro h
  have := (C58_exact_partial ⟨0, "ul", [], [], [⟨1, "li", [], [], [], some "x", some "a"⟩, ⟨2, "li", [], [], [], some "y", some "b"⟩], none, none⟩
    [⟨2, "li", [], [], [], some "y", some "b"⟩, ⟨3, "li", [], [], [], some "z", some "c"⟩]
    (by simp [Element.AttrsOk, AttrsOkAll, Headers.Distinct]) (by simp [Element.KeysOk, KeysOkAll]) (by simp [AllKeyed]) (by decide) (by simp [AllKeyed])
    (by simp; decide)).1 h
  have := this.subset (a := ⟨3, "li", [], [], [], some "z", some "c"⟩) (by simp)
  simp at this

end Puck
