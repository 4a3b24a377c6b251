import Verif.Model.Chat
/-!
# The chat's user ids (C71)
-/
namespace Puck.Chat

/-- A call to the id creator. -/
inductive IdCall where
  | get
  | release (id : Nat)
  deriving DecidableEq

/-- What happened: an id was handed out, or somebody said it is free. -/
inductive IdEvent where
  | got (id : Nat)
  | released (id : Nat)
  deriving DecidableEq

/-- A history of calls: what happened, and the creator afterwards. -/
def idRun (c : UserIdCreator) : List IdCall → List IdEvent × UserIdCreator
  | [] => ([], c)
  | .get :: cs =>
    let rest := idRun c.getId.2 cs
    (.got c.getId.1 :: rest.1, rest.2)
  | .release id :: cs =>
    let rest := idRun (c.releaseId id) cs
    (.released id :: rest.1, rest.2)

/-! Specification: read off what happened, without looking at the creator. -/

/-- The ids held: handed out and not released since. -/
def held : List IdEvent → List Nat
  | evs => evs.foldl (fun h e => match e with | .got id => id :: h | .released id => h.filter (· != id)) []

/-- The ids ever handed out. -/
def issued : List IdEvent → List Nat
  | evs => evs.filterMap fun e => match e with | .got id => some id | .released _ => none

structure IdInv (c : UserIdCreator) (evs : List IdEvent) : Prop where
  use : ∀ i, i ∈ c.inUse ↔ i ∈ held evs
  nodup : (held evs).Nodup
  recN : c.recycle.Nodup
  disj : ∀ i ∈ c.recycle, i ∉ c.inUse
  all : ∀ i, (i ∈ c.inUse ∨ i ∈ c.recycle) ↔ i < c.head
  iss : ∀ i, i ∈ issued evs ↔ i < c.head

theorem held_snoc (evs : List IdEvent) (e : IdEvent) :
    held (evs ++ [e]) = match e with | .got id => id :: held evs | .released id => (held evs).filter (· != id) := by
  simp [held, List.foldl_append]

theorem issued_snoc (evs : List IdEvent) (e : IdEvent) :
    issued (evs ++ [e]) = issued evs ++ match e with | .got id => [id] | .released _ => [] := by
  cases e <;> simp [issued]

theorem mem_setInsert {i id : Nat} {l : List Nat} : i ∈ setInsert id l ↔ i = id ∨ i ∈ l := by
  unfold setInsert
  split
  · constructor
    · exact Or.inr
    · rintro (rfl | h) <;> assumption
  · simp

theorem IdInv.get {c : UserIdCreator} {evs : List IdEvent} (h : IdInv c evs) :
    IdInv c.getId.2 (evs ++ [.got c.getId.1]) ∧ c.getId.1 ∉ c.inUse := by
  unfold UserIdCreator.getId
  cases hr : c.recycle with
  | cons id rest =>
    have hid : id ∈ c.recycle := by rw [hr]; simp
    have hn := h.disj id hid
    have hnd : (id :: rest).Nodup := hr ▸ h.recN
    rw [List.nodup_cons] at hnd
    have hlt : id < c.head := (h.all id).1 (Or.inr hid)
    simp only
    refine ⟨⟨?_, ?_, hnd.2, ?_, ?_, ?_⟩, hn⟩
    · intro i
      rw [mem_setInsert, held_snoc, h.use]
      simp
    · rw [held_snoc]
      simp only [List.nodup_cons]
      exact ⟨fun hm => hn ((h.use id).2 hm), h.nodup⟩
    · intro i hi
      rw [mem_setInsert]
      rintro (rfl | hu)
      · exact hnd.1 hi
      · exact h.disj i (by rw [hr]; simp [hi]) hu
    · intro i
      rw [mem_setInsert, ← h.all, hr]
      simp only [List.mem_cons]
      constructor
      · rintro ((h' | h') | h')
        · exact Or.inr (Or.inl h')
        · exact Or.inl h'
        · exact Or.inr (Or.inr h')
      · rintro (h' | h' | h')
        · exact Or.inl (Or.inr h')
        · exact Or.inl (Or.inl h')
        · exact Or.inr h'
    · intro i
      rw [issued_snoc]
      simp only [List.mem_append, h.iss, List.mem_cons, List.not_mem_nil, or_false]
      constructor
      · rintro (h' | rfl) <;> assumption
      · exact Or.inl
  | nil =>
    have hn : c.head ∉ c.inUse := fun hm => Nat.lt_irrefl _ ((h.all _).1 (Or.inl hm))
    simp only
    refine ⟨⟨?_, ?_, by simp, by simp, ?_, ?_⟩, hn⟩
    · intro i
      rw [mem_setInsert, held_snoc, h.use]
      simp
    · rw [held_snoc]
      simp only [List.nodup_cons]
      exact ⟨fun hm => hn ((h.use _).2 hm), h.nodup⟩
    · intro i
      have := h.all i
      rw [hr] at this
      simp only [List.not_mem_nil, or_false] at this ⊢
      rw [mem_setInsert, this]
      omega
    · intro i
      rw [issued_snoc]
      simp only [List.mem_append, h.iss, List.mem_cons, List.not_mem_nil, or_false]
      omega

theorem IdInv.release {c : UserIdCreator} {evs : List IdEvent} (h : IdInv c evs) (id : Nat) :
    IdInv (c.releaseId id) (evs ++ [.released id]) := by
  unfold UserIdCreator.releaseId
  split
  · rename_i hu
    refine ⟨?_, ?_, ?_, ?_, ?_, ?_⟩
    · intro i
      rw [held_snoc]
      simp [h.use]
    · rw [held_snoc]
      exact h.nodup.filter _
    · simp only [List.nodup_cons]
      exact ⟨fun hm => h.disj id hm hu, h.recN⟩
    · intro i hi hm
      simp only [List.mem_cons] at hi
      simp only [List.mem_filter, bne_iff_ne, ne_eq] at hm
      rcases hi with rfl | hi
      · exact hm.2 rfl
      · exact h.disj i hi hm.1
    · intro i
      rw [← h.all]
      simp only [List.mem_filter, bne_iff_ne, ne_eq, List.mem_cons]
      by_cases hi : i = id
      · subst hi; simp [hu]
      · simp [hi]
    · intro i
      rw [issued_snoc]
      simp [h.iss]
  · rename_i hu
    have hh : (held evs).filter (· != id) = held evs := by
      apply List.filter_eq_self.2
      intro a ha
      simp only [bne_iff_ne, ne_eq]
      rintro rfl
      exact hu ((h.use _).2 ha)
    refine ⟨?_, ?_, h.recN, h.disj, h.all, ?_⟩
    · intro i; rw [held_snoc, h.use]; simp only; rw [hh]
    · rw [held_snoc]; simp only; rw [hh]; exact h.nodup
    · intro i; rw [issued_snoc]; simp [h.iss]

theorem IdInv.run {c : UserIdCreator} {evs : List IdEvent} (h : IdInv c evs) (cs : List IdCall) :
    IdInv (idRun c cs).2 (evs ++ (idRun c cs).1) := by
  induction cs generalizing c evs with
  | nil => simpa [idRun] using h
  | cons call cs ih =>
    cases call with
    | get => simpa [idRun] using ih h.get.1
    | release id => simpa [idRun] using ih (h.release id)

theorem IdInv.start : IdInv .default [] := by
  refine ⟨?_, ?_, ?_, ?_, ?_, ?_⟩ <;> simp [UserIdCreator.default, held, issued]

/-- **C71.** After any history of calls (including releases of ids nobody holds, and repeated ones): the ids held are pairwise distinct; the next
id handed out is held by nobody; and it is one handed out before if any such id is free, and a new one otherwise. -/
theorem C71_ids (cs : List IdCall) :
    (held (idRun .default cs).1).Nodup ∧
    (idRun .default cs).2.getId.1 ∉ held (idRun .default cs).1 ∧
    ((idRun .default cs).2.getId.1 ∈ issued (idRun .default cs).1 ↔
      ∃ i ∈ issued (idRun .default cs).1, i ∉ held (idRun .default cs).1) := by
  have h : IdInv (idRun .default cs).2 (idRun .default cs).1 := by simpa using IdInv.start.run cs
  generalize (idRun .default cs).2 = c at h ⊢
  generalize (idRun .default cs).1 = evs at h ⊢
  have hn := h.get.2
  refine ⟨h.nodup, fun hm => hn ((h.use _).2 hm), ?_⟩
  constructor
  · intro hi
    exact ⟨_, hi, fun hm => hn ((h.use _).2 hm)⟩
  · rintro ⟨i, hi, hno⟩
    rw [h.iss] at hi ⊢
    have hrec : i ∈ c.recycle := by
      rcases (h.all i).2 hi with hu | hr
      · exact absurd ((h.use i).1 hu) hno
      · exact hr
    unfold UserIdCreator.getId
    cases hr : c.recycle with
    | nil => rw [hr] at hrec; simp at hrec
    | cons id rest => exact (h.all id).1 (Or.inr (by rw [hr]; simp))

/-- The ids handed out by the calls of a history, and what is held in the end: get, get, get, release 1, release 1, release 7, get, get. -/
example : (idRun .default [.get, .get, .get, .release 1, .release 1, .release 7, .get, .get]).1 =
      [.got 0, .got 1, .got 2, .released 1, .released 1, .released 7, .got 1, .got 3] ∧
    held (idRun .default [.get, .get, .get, .release 1, .release 1, .release 7, .get, .get]).1 = [3, 1, 2, 0] := by decide

end Puck.Chat
