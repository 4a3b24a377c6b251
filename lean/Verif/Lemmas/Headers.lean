import Verif.Spec.Ascii
import Verif.Model.Request
import Verif.Lemmas.Io
import Verif.Spec.Http
/-!
# Header maps
-/
namespace Puck
open Http

theorem Headers.get_insert (h : Headers) (k v k' : String) :
    (h.insert k v).get k' = if k' = k then some v else h.get k' := by
  induction h with
  | nil =>
    by_cases hk : k' = k
    · subst hk; simp [Headers.insert, Headers.get]
    · simp [Headers.insert, Headers.get, hk, Ne.symm hk]
  | cons p h ih =>
    simp only [Headers.insert]
    by_cases hp : p.1 = k
    · simp only [hp, if_true]
      by_cases hk : k' = k
      · subst hk; simp [Headers.get]
      · simp only [Headers.get, List.find?_cons, hk, if_false]
        have h1 : (k == k') = false := by simpa using Ne.symm hk
        have h2 : (p.1 == k') = false := by rw [hp]; exact h1
        rw [h1, h2]
    · simp only [hp, if_false]
      by_cases hpk : p.1 = k'
      · subst hpk
        simp [Headers.get, hp]
      · have h1 : (p.1 == k') = false := by simpa using hpk
        simp only [Headers.get, List.find?_cons, h1] at ih ⊢
        exact ih

theorem Headers.insert_keys (h : Headers) (k v : String) (x : String) :
    x ∈ (h.insert k v).map (·.1) ↔ x = k ∨ x ∈ h.map (·.1) := by
  induction h with
  | nil => simp [Headers.insert]
  | cons p h ih =>
    simp only [Headers.insert]
    by_cases hp : p.1 = k
    · simp [hp]
    · simp only [hp, if_false, List.map_cons, List.mem_cons]
      rw [ih]
      constructor
      · rintro (h | h | h) <;> simp [h]
      · rintro (h | h | h) <;> simp [h]

theorem Headers.insert_distinct {h : Headers} (hd : h.Distinct) (k v : String) : (h.insert k v).Distinct := by
  induction h with
  | nil => simp [Headers.insert, Headers.Distinct]
  | cons p h ih =>
    unfold Headers.Distinct at hd ih ⊢
    simp only [List.map_cons, List.nodup_cons] at hd
    simp only [Headers.insert]
    by_cases hp : p.1 = k
    · simp only [hp, if_true, List.map_cons, List.nodup_cons]
      exact ⟨hp ▸ hd.1, hd.2⟩
    · simp only [hp, if_false, List.map_cons, List.nodup_cons]
      refine ⟨?_, ih hd.2⟩
      rw [Headers.insert_keys]
      rintro (h | h)
      · exact hp h
      · exact hd.1 h

theorem Headers.distinct_nil : Headers.Distinct [] := by simp [Headers.Distinct]

theorem Headers.get_eq_some {h : Headers} (hd : h.Distinct) {k v : String} :
    h.get k = some v ↔ (k, v) ∈ h := by
  induction h with
  | nil => simp [Headers.get]
  | cons p h ih =>
    unfold Headers.Distinct at hd
    simp only [List.map_cons, List.nodup_cons] at hd
    have ih := ih hd.2
    by_cases hp : p.1 = k
    · have hnot : (k, v) ∉ h := fun hm => hd.1 (hp ▸ List.mem_map_of_mem (f := (·.1)) hm)
      obtain ⟨p1, p2⟩ := p
      simp only at hp
      subst hp
      simp only [Headers.get, List.find?_cons, beq_self_eq_true, Option.map_some, Option.some.injEq,
        List.mem_cons, Prod.mk.injEq, true_and]
      constructor
      · intro h; exact Or.inl h.symm
      · rintro (h | h)
        · exact h.symm
        · exact absurd h hnot
    · have h1 : (p.1 == k) = false := by simpa using hp
      simp only [Headers.get, List.find?_cons, h1] at ih ⊢
      rw [ih]
      constructor
      · exact List.mem_cons_of_mem _
      · intro hm
        rcases List.mem_cons.1 hm with h | h
        · rw [← h] at hp; exact absurd rfl hp
        · exact h

theorem Headers.get_eq_none {h : Headers} {k : String} : h.get k = none ↔ k ∉ h.map (·.1) := by
  induction h with
  | nil => simp [Headers.get]
  | cons p h ih =>
    by_cases hp : p.1 = k
    · simp [Headers.get, hp]
    · have h1 : (p.1 == k) = false := by simpa using hp
      simp only [Headers.get, List.find?_cons, h1] at ih ⊢
      rw [ih]
      simp [Ne.symm hp]

theorem Headers.perm_get {h h' : Headers} (hd : h.Distinct) (hp : h'.Perm h) (k : String) :
    h'.get k = h.get k := by
  have hd' : h'.Distinct := by
    unfold Headers.Distinct at hd ⊢
    exact (hp.map (fun p : String × String => p.1)).nodup_iff.2 hd
  cases hg : h.get k with
  | none =>
    rw [Headers.get_eq_none] at hg ⊢
    intro hm; exact hg ((hp.map (fun p : String × String => p.1)).mem_iff.1 hm)
  | some v =>
    rw [Headers.get_eq_some hd] at hg
    rw [Headers.get_eq_some hd']
    exact hp.mem_iff.2 hg

theorem lastValue_cons (p : String × Bytes) (hs : List (String × Bytes)) (k : String) :
    lastValue (p :: hs) k = (lastValue hs k).or (if p.1 = k then some p.2 else none) := by
  unfold lastValue
  rw [List.reverse_cons, List.find?_append]
  cases h : List.find? (fun q : String × Bytes => q.1 == k) hs.reverse with
  | some q => simp
  | none =>
    by_cases hp : p.1 = k
    · simp [hp]
    · have h1 : (p.1 == k) = false := by simpa using hp
      simp [hp, h1]

theorem collectHeaders_spec (hs : List (String × Bytes)) (h0 : Headers) (hd : h0.Distinct) :
    (collectHeaders hs h0 = none ↔ ∃ p ∈ hs, fromUtf8 p.2 = none) ∧
    ∀ h, collectHeaders hs h0 = some h → h.Distinct ∧
      ∀ k, (h.get k).map strBytes = (lastValue hs k).or ((h0.get k).map strBytes) := by
  induction hs generalizing h0 with
  | nil => simp [collectHeaders, lastValue, hd]
  | cons p hs ih =>
    obtain ⟨k0, v0⟩ := p
    simp only [collectHeaders]
    cases hu : fromUtf8 v0 with
    | none => simp [hu]
    | some v =>
      obtain ⟨g1, g2⟩ := ih (h0.insert k0 v) (Headers.insert_distinct hd _ _)
      refine ⟨?_, ?_⟩
      · rw [g1]; simp [hu]
      · intro h hh
        obtain ⟨k1, k2⟩ := g2 h hh
        refine ⟨k1, fun k => ?_⟩
        rw [k2, lastValue_cons, Headers.get_insert]
        have := strBytes_of_fromUtf8 hu
        by_cases hk : k = k0
        · subst hk
          cases lastValue hs k <;> simp [this]
        · have hk' : ¬ k0 = k := fun h => hk h.symm
          cases lastValue hs k <;> simp [hk, hk']

theorem collectHeaders_keys {hs : List (String × Bytes)} {h : Headers} (hc : collectHeaders hs [] = some h)
    (k : String) : k ∈ h.map (·.1) ↔ k ∈ hs.map (·.1) := by
  obtain ⟨hd, hg⟩ := (collectHeaders_spec hs [] Headers.distinct_nil).2 h hc
  have h1 : k ∈ h.map (·.1) ↔ h.get k ≠ none := by
    rw [Ne, Headers.get_eq_none, Classical.not_not]
  rw [h1]
  have h2 := hg k
  have h3 : lastValue hs k = none ↔ k ∉ hs.map (·.1) := by
    unfold lastValue
    simp only [Option.map_eq_none_iff, List.find?_eq_none, List.mem_reverse, beq_iff_eq, List.mem_map,
      not_exists, not_and]
  have h0 : Headers.get [] k = none := rfl
  rw [h0] at h2
  simp only [Option.map_none, Option.or_none] at h2
  constructor
  · intro hne
    apply Classical.byContradiction
    intro hn
    rw [h3.2 hn] at h2
    exact hne (Option.map_eq_none_iff.1 h2)
  · intro hm hne
    rw [hne] at h2
    exact h3.1 h2.symm hm

/-- `to_ascii_lowercase` is the specification's lower-casing, for each of the 256 bytes. -/
theorem lowerByte_small (b : UInt8) : lowerByte b = Ascii.small b := by
  have h : ∀ n : Fin 256, lowerByte (UInt8.ofNat n) = Ascii.small (UInt8.ofNat n) := by decide +kernel
  have := h ⟨b.toNat, b.toNat_lt⟩
  simpa using this

theorem lowerAscii_eq : lowerAscii = Ascii.lowered := by
  funext s
  unfold lowerAscii Ascii.lowered
  exact List.map_congr_left fun b _ => lowerByte_small b

theorem eqIgnoreCase_iff {a b : String} : eqIgnoreCase a b = true ↔ Ascii.lowered a = Ascii.lowered b := by
  simp [eqIgnoreCase, lowerAscii_eq]

/-- Iterating in another order finds the same header, provided only one name matches. -/
theorem findIgnoreCase_perm {env : HttpEnv} (hp : ∀ h, (env.ord h).Perm h) {h : Headers} (hd : h.Distinct)
    {name k v : String} (hm : (k, v) ∈ h) (hk : Ascii.lowered k = Ascii.lowered name)
    (hu : ∀ k' ∈ h.map (·.1), Ascii.lowered k' = Ascii.lowered name → k' = k) :
    findIgnoreCase env h name = some v := by
  unfold findIgnoreCase
  cases hf : (env.ord h).find? (fun p => eqIgnoreCase p.1 name) with
  | none =>
    rw [List.find?_eq_none] at hf
    have := hf (k, v) ((hp h).mem_iff.2 hm)
    simp [eqIgnoreCase_iff, hk] at this
  | some p =>
    have h1 := List.mem_of_find?_eq_some hf
    have h2 := List.find?_some hf
    rw [eqIgnoreCase_iff] at h2
    have h3 : p ∈ h := (hp h).mem_iff.1 h1
    have h4 := hu p.1 (List.mem_map_of_mem h3) h2
    have h5 : h.get k = some p.2 := (Headers.get_eq_some hd).2 (by rw [← h4]; exact h3)
    have h6 : h.get k = some v := (Headers.get_eq_some hd).2 hm
    rw [h5] at h6
    simpa using h6

theorem findIgnoreCase_none {env : HttpEnv} (hp : ∀ h, (env.ord h).Perm h) {h : Headers} {name : String} :
    findIgnoreCase env h name = none ↔ ∀ k ∈ h.map (·.1), Ascii.lowered k ≠ Ascii.lowered name := by
  unfold findIgnoreCase
  simp only [Option.map_eq_none_iff, List.find?_eq_none, eqIgnoreCase_iff]
  constructor
  · intro hh k hk
    obtain ⟨p, hp1, rfl⟩ := List.mem_map.1 hk
    exact hh p ((hp h).mem_iff.2 hp1)
  · intro hh p hp1
    exact hh p.1 (List.mem_map_of_mem ((hp h).mem_iff.1 hp1))

theorem findIgnoreCase_mem {env : HttpEnv} (hp : ∀ h, (env.ord h).Perm h) {h : Headers} {name v : String}
    (hf : findIgnoreCase env h name = some v) : ∃ k, (k, v) ∈ h ∧ Ascii.lowered k = Ascii.lowered name := by
  unfold findIgnoreCase at hf
  cases hf' : (env.ord h).find? (fun p => eqIgnoreCase p.1 name) with
  | none => rw [hf'] at hf; simp at hf
  | some p =>
    rw [hf'] at hf
    simp at hf
    have h1 := List.mem_of_find?_eq_some hf'
    have h2 := List.find?_some hf'
    rw [eqIgnoreCase_iff] at h2
    exact ⟨p.1, by rw [← hf]; exact (hp h).mem_iff.1 h1, h2⟩

end Puck
