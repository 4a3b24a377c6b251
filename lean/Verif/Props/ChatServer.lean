import Verif.Props.ChatIds
/-!
# The chat's coordinator (C72)
-/
namespace Puck.Chat

/-- A request, its response, and the messages sent meanwhile. -/
structure Served where
  request : CoordinatorInput
  response : LiveviewInput
  sent : List Delivery

/-- The coordinator has served these requests, in this order, and is in this state; between requests the order in which its map is iterated may
change in any way. -/
inductive Serves : List Served → ChatServer → Prop
  | init : Serves [] .init
  | request {tr s i s' r ds} : Serves tr s → s.handle i = some (s', r, ds) → Serves (tr ++ [⟨i, r, ds⟩]) s'
  | shuffle {tr s us} : Serves tr s → s.users.Perm us → Serves tr { s with users := us }

/-- Specification: who is registered (id, name, process), read off what was asked and answered. -/
def registryStep (reg : List (Nat × String × Nat)) (v : Served) : List (Nat × String × Nat) :=
  match v.request, v.response with
  | .registerNewUser name p, .userRegistered id _ => reg ++ [(id, name, p)]
  | .setUsername id name, _ => reg.map fun u => if u.1 = id then (u.1, name, u.2.2) else u
  | .removeUser id, _ => reg.filter fun u => u.1 != id
  | _, _ => reg

/-- Specification: the registered users after a history. -/
def registry (tr : List Served) : List (Nat × String × Nat) := tr.foldl registryStep []

theorem registry_snoc (tr : List Served) (v : Served) : registry (tr ++ [v]) = registryStep (registry tr) v := by
  simp [registry, List.foldl_append]

theorem insertUser_new {id : Nat} {v : String × Nat} {us : List (Nat × String × Nat)} (h : id ∉ us.map (·.1)) :
    insertUser id v us = us ++ [(id, v)] := by
  induction us with
  | nil => rfl
  | cons u us ih =>
    simp only [List.map_cons, List.mem_cons, not_or] at h
    rw [insertUser, if_neg (fun e => h.1 e.symm), ih h.2]
    rfl

theorem getUser_some {id : Nat} {us : List (Nat × String × Nat)} (h : (us.map (·.1)).Nodup) {name : String} {p : Nat} :
    getUser id us = some (name, p) ↔ (id, name, p) ∈ us := by
  unfold getUser
  induction us with
  | nil => simp
  | cons u us ih =>
    simp only [List.map_cons, List.nodup_cons] at h
    rw [List.find?_cons]
    by_cases hu : u.1 = id
    · simp only [hu, beq_self_eq_true, Option.map_some, Option.some.injEq, List.mem_cons]
      constructor
      · intro e; left; rw [← hu, ← e]
      · rintro (e | e)
        · rw [← e]
        · exact absurd (List.mem_map.2 ⟨_, e, hu.symm⟩) h.1
    · have : (u.1 == id) = false := by simpa using hu
      simp only [this, List.mem_cons]
      rw [ih h.2]
      constructor
      · exact Or.inr
      · rintro (e | e)
        · exact absurd (by rw [← e]) hu
        · exact e

theorem getUser_none {id : Nat} {us : List (Nat × String × Nat)} : getUser id us = none ↔ id ∉ us.map (·.1) := by
  unfold getUser
  simp only [Option.map_eq_none_iff, List.find?_eq_none, List.mem_map, not_exists, not_and]
  constructor
  · intro h u hu e; exact h u hu (by simpa using e)
  · intro h u hu e; exact h u hu (by simpa using e)

structure ServerInv (s : ChatServer) : Prop where
  keys : (s.users.map (·.1)).Nodup
  use : ∀ i, i ∈ s.users.map (·.1) → i ∈ s.idGen.inUse
  ids : ∃ evs, IdInv s.idGen evs

theorem map_keys (id : Nat) (name : String) (us : List (Nat × String × Nat)) :
    (us.map fun u => if u.1 = id then (u.1, name, u.2.2) else u).map (·.1) = us.map (·.1) := by
  rw [List.map_map]
  apply List.map_congr_left
  intro u _
  simp only [Function.comp]
  split <;> rfl

theorem filter_keys {id : Nat} {us : List (Nat × String × Nat)} (h : (us.map (·.1)).Nodup) :
    ((us.filter fun u => u.1 != id).map (·.1)).Nodup := by
  have : (us.filter fun u => u.1 != id).map (·.1) = (us.map (·.1)).filter (· != id) := by
    rw [List.filter_map]; rfl
  rw [this]
  exact h.filter _

theorem ServerInv.handle {s s' : ChatServer} {i : CoordinatorInput} {r : LiveviewInput} {ds : List Delivery} (h : ServerInv s)
    (e : s.handle i = some (s', r, ds)) : ServerInv s' := by
  obtain ⟨evs, hi⟩ := h.ids
  cases i with
  | registerNewUser name p =>
    simp only [ChatServer.handle, Option.some.injEq, Prod.mk.injEq] at e
    obtain ⟨rfl, rfl, rfl⟩ := e
    have hn : s.idGen.getId.1 ∉ s.users.map (·.1) := fun hm => hi.get.2 (h.use _ hm)
    have hu : ∀ i, i ∈ s.idGen.getId.2.inUse ↔ i = s.idGen.getId.1 ∨ i ∈ s.idGen.inUse := by
      intro i
      unfold UserIdCreator.getId
      cases s.idGen.recycle <;> simp [mem_setInsert]
    refine ⟨?_, ?_, ⟨_, hi.get.1⟩⟩
    · simp only [insertUser_new hn, List.map_append, List.map_cons, List.map_nil]
      rw [List.nodup_append]
      refine ⟨h.keys, by simp, ?_⟩
      intro a ha b hb
      simp only [List.mem_singleton] at hb
      subst hb
      rintro rfl
      exact hn ha
    · intro i hm
      simp only [insertUser_new hn, List.map_append, List.map_cons, List.map_nil, List.mem_append, List.mem_singleton] at hm
      rw [hu]
      rcases hm with hm | hm
      · exact Or.inr (h.use i hm)
      · exact Or.inl hm
  | setUsername id name =>
    simp only [ChatServer.handle, Option.some.injEq, Prod.mk.injEq] at e
    obtain ⟨rfl, rfl, rfl⟩ := e
    refine ⟨?_, ?_, ⟨evs, hi⟩⟩
    · simp only [map_keys]; exact h.keys
    · simp only [map_keys]; exact h.use
  | sendMessage id m =>
    simp only [ChatServer.handle] at e
    split at e
    · cases e
    · simp only [Option.some.injEq, Prod.mk.injEq] at e
      obtain ⟨rfl, _⟩ := e
      exact ⟨h.keys, h.use, h.ids⟩
  | removeUser id =>
    simp only [ChatServer.handle, Option.some.injEq, Prod.mk.injEq] at e
    obtain ⟨rfl, rfl, rfl⟩ := e
    refine ⟨filter_keys h.keys, ?_, ⟨_, hi.release id⟩⟩
    intro i hm
    simp only [List.mem_map, List.mem_filter, bne_iff_ne, ne_eq] at hm
    obtain ⟨u, ⟨h1, h2⟩, rfl⟩ := hm
    have := h.use u.1 (List.mem_map.2 ⟨u, h1, rfl⟩)
    unfold UserIdCreator.releaseId
    split
    · simp [this, h2]
    · exact this

theorem ServerInv.perm {s : ChatServer} {us : List (Nat × String × Nat)} (h : ServerInv s) (hp : s.users.Perm us) :
    ServerInv { s with users := us } :=
  ⟨(hp.map _).nodup_iff.1 h.keys, fun i hm => h.use i (((hp.map _).mem_iff).2 hm), h.ids⟩

theorem ServerInv.init : ServerInv .init := ⟨by simp [ChatServer.init], by simp [ChatServer.init], [], IdInv.start⟩

theorem serves_inv {tr : List Served} {s : ChatServer} (h : Serves tr s) : ServerInv s ∧ s.users.Perm (registry tr) := by
  induction h with
  | init => exact ⟨ServerInv.init, .refl _⟩
  | @request tr s i s' r ds _ e ih =>
    obtain ⟨hi, hp⟩ := ih
    refine ⟨hi.handle e, ?_⟩
    rw [registry_snoc]
    cases i with
    | registerNewUser name p =>
      obtain ⟨evs, hid⟩ := hi.ids
      have hn : s.idGen.getId.1 ∉ s.users.map (·.1) := fun hm => hid.get.2 (hi.use _ hm)
      simp only [ChatServer.handle, Option.some.injEq, Prod.mk.injEq] at e
      obtain ⟨rfl, rfl, rfl⟩ := e
      simp only [insertUser_new hn, registryStep]
      exact hp.append_right _
    | setUsername id name =>
      simp only [ChatServer.handle, Option.some.injEq, Prod.mk.injEq] at e
      obtain ⟨rfl, rfl, rfl⟩ := e
      exact hp.map _
    | sendMessage id m =>
      simp only [ChatServer.handle] at e
      split at e
      · cases e
      · simp only [Option.some.injEq, Prod.mk.injEq] at e
        obtain ⟨rfl, rfl, _⟩ := e
        exact hp
    | removeUser id =>
      simp only [ChatServer.handle, Option.some.injEq, Prod.mk.injEq] at e
      obtain ⟨rfl, rfl, rfl⟩ := e
      exact hp.filter _
  | shuffle _ e ih => exact ⟨ih.1.perm e, e.symm.trans ih.2⟩

/-- **C72.** After any history of requests, with the users' map in any order: the registered ids are distinct; a message from a registered user is
answered with the message (its id, current name and contents) and sent once to the process of each other registered user and to nobody else; a message
from an id that is not registered, and no other request, crashes the coordinator; and requests other than messages send nothing. -/
theorem C72_broadcast (tr : List Served) (s : ChatServer) (h : Serves tr s) :
    ((registry tr).map (·.1)).Nodup ∧
    (∀ id name p contents, (id, name, p) ∈ registry tr → ∃ ds,
      s.handle (.sendMessage id contents) = some ({ s with log := s.log ++ [⟨id, name, contents⟩] }, .receiveMessage ⟨id, name, contents⟩, ds) ∧
      ds.Perm (((registry tr).filter fun u => u.1 != id).map fun u => ⟨u.2.2, .receiveMessage ⟨id, name, contents⟩⟩)) ∧
    (∀ i, s.handle i = none ↔ ∃ id contents, i = .sendMessage id contents ∧ ∀ u ∈ registry tr, u.1 ≠ id) ∧
    (∀ i s' r ds, s.handle i = some (s', r, ds) → (∀ id contents, i ≠ .sendMessage id contents) → ds = []) := by
  obtain ⟨hi, hp⟩ := serves_inv h
  refine ⟨(hp.map _).nodup_iff.1 hi.keys, ?_, ?_, ?_⟩
  · intro id name p contents hm
    have hg : getUser id s.users = some (name, p) := (getUser_some hi.keys).2 ((hp.mem_iff).2 hm)
    refine ⟨(s.users.filter fun u => u.1 != id).map fun u => ⟨u.2.2, .receiveMessage ⟨id, name, contents⟩⟩, by
      simp only [ChatServer.handle, hg], ?_⟩
    exact (hp.filter _).map _
  · intro i
    constructor
    · intro e
      cases i with
      | sendMessage id contents =>
        refine ⟨id, contents, rfl, ?_⟩
        simp only [ChatServer.handle] at e
        split at e
        · rename_i hg
          rw [getUser_none] at hg
          intro u hu hid
          exact hg (List.mem_map.2 ⟨u, (hp.mem_iff).2 hu, hid⟩)
        · cases e
      | _ => simp [ChatServer.handle] at e
    · rintro ⟨id, contents, rfl, hno⟩
      have hg : getUser id s.users = none := by
        rw [getUser_none]
        intro hm
        obtain ⟨u, hu, hid⟩ := List.mem_map.1 hm
        exact hno u ((hp.mem_iff).1 hu) hid
      simp only [ChatServer.handle, hg]
  · intro i s' r ds e hno
    cases i with
    | sendMessage id contents => exact absurd rfl (hno id contents)
    | registerNewUser name p => simp only [ChatServer.handle, Option.some.injEq, Prod.mk.injEq] at e; exact e.2.2.symm
    | setUsername id name => simp only [ChatServer.handle, Option.some.injEq, Prod.mk.injEq] at e; exact e.2.2.symm
    | removeUser id => simp only [ChatServer.handle, Option.some.injEq, Prod.mk.injEq] at e; exact e.2.2.symm

/-- non-vacuity: three users register, the map is turned around, the first leaves and the last is renamed: it can send, to one other. -/
example : ∃ tr s, Serves tr s ∧ registry tr = [(1, "b", 11), (2, "z", 12)] ∧
    s.handle (.sendMessage 2 "hi") = some ({ s with log := [⟨2, "z", "hi"⟩] }, .receiveMessage ⟨2, "z", "hi"⟩, [⟨11, .receiveMessage ⟨2, "z", "hi"⟩⟩]) := by
  have h1 : Serves _ _ := Serves.init.request (i := .registerNewUser "a" 10) rfl
  have h2 := h1.request (i := .registerNewUser "b" 11) rfl
  have h3 := h2.request (i := .registerNewUser "c" 12) rfl
  have h4 := h3.shuffle (List.reverse_perm _).symm
  have h5 := h4.request (i := .removeUser 0) rfl
  have h6 := h5.request (i := .setUsername 2 "z") rfl
  exact ⟨_, _, h6, by decide, by decide⟩

end Puck.Chat
