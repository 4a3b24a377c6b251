import Verif.Spec.ListHistory
import Verif.Props.Exchange
/-!
# Lemmas on the concurrent list example
-/
namespace Puck

variable {env : HttpEnv} {html : ListPage → String} {sched : Nat → Nat}

theorem listBegin_add {raw : Raw} {s : Sink} (hw : raw.WF) (t : String) :
    listBegin env html sched raw s = .inr (.add t) ↔ Adds env raw t := by
  constructor
  · intro h
    unfold listBegin at h
    split at h
    · cases h
    · split at h <;> cases h
    · rename_i req hreq
      refine ⟨req, hreq, ?_⟩
      have hb := body_wf hw hreq
      split at h
      · cases h
      · split at h
        · rename_i hc
          simp only [Bool.and_eq_true, decide_eq_true_eq] at hc
          split at h
          · rename_i res hres
            obtain ⟨hl, hbytes⟩ := (C29_into_string env.W sched req.body res).1 hres
            split at h
            · rename_i hsw
              obtain ⟨u, rfl⟩ := (startsWith_iff _ _).1 hsw
              rw [splitAtSnd_append] at h
              simp only [Sum.inr.injEq, ListMsg.add.injEq] at h
              subst h
              have hnf : ¬ req.body.Fails := by
                intro hf
                rw [Body.intoBytes_err sched hb hf] at hbytes
                cases hbytes
              rw [Body.intoBytes_ok sched hb hnf] at hbytes
              exact ⟨hc.1, (submit_match _).1 hc.2, hl, hnf, by simpa using hbytes⟩
            · cases h
          · cases h
        · split at h
          · split at h
            · cases h
            · split at h <;> cases h
          · cases h
  · rintro ⟨req, hreq, h1, h2, hl, hnf, ha⟩
    have hb := body_wf hw hreq
    have h3 := (C29_into_string env.W sched req.body ("message=" ++ t)).2 ⟨hl, by rw [← ha]; exact Body.intoBytes_ok sched hb hnf⟩
    have h4 := (startsWith_iff "message=" ("message=" ++ t)).2 ⟨t, rfl⟩
    have h5 := (submit_match req.url).2 h2
    unfold listBegin
    simp only [hreq, h1, h5, h3, h4, if_true, splitAtSnd_append]
    rfl

theorem listBegin_reads (hW : 31 ≤ env.W) {raw : Raw} {s : Sink} : (∃ n, listBegin env html sched raw s = .inr (.lastN n)) ↔ AsksList env raw := by
  constructor
  · rintro ⟨n, h⟩
    unfold listBegin at h
    split at h
    · cases h
    · split at h <;> cases h
    · rename_i req hreq
      split at h
      · cases h
      · split at h
        · split at h
          · split at h
            · split at h <;> cases h
            · cases h
          · cases h
        · split at h
          · rename_i hm
            obtain ⟨seg, k, hp, hd, h1, h2⟩ := read_match _ hm
            rw [hp, splitAtSnd_append] at h
            simp only at h
            split at h
            · cases h
            · rename_i n' hn'
              obtain ⟨g1, g2⟩ := parseUsize_iff.1 hn'
              refine ⟨req, seg, n', hreq, hp, g1, ?_⟩
              generalize hb : strBytes seg = b at hd g1
              cases hd with
              | plain hds =>
                cases g1 with
                | plain g => omega
                | plus g => exact absurd rfl (Digits.head hds).1
              | plus hds =>
                cases g1 with
                | plain g => exact absurd rfl (Digits.head g).1
                | plus g => omega
              | minus hds =>
                cases g1 with
                | plain g => exact absurd rfl (Digits.head g).2
          · cases h
  · rintro ⟨req, seg, n, hreq, hp, hn, hlt⟩
    obtain ⟨h1, h2, -⟩ := read_route req.url n seg hp hn hlt
    have hlt' : n < 2 ^ env.W := Nat.lt_of_lt_of_le hlt (Nat.pow_le_pow_right (by omega) hW)
    refine ⟨n, ?_⟩
    unfold listBegin
    simp only [hreq, h1, h2, Bool.and_false, Bool.false_eq_true, if_false, if_true]
    rw [hp, splitAtSnd_append]
    simp only
    rw [parseUsize_iff.2 ⟨hn, hlt'⟩]

theorem listBegin_not_all {raw : Raw} {s : Sink} : listBegin env html sched raw s ≠ .inr .allItems := by
  intro h
  unfold listBegin at h
  split at h
  · cases h
  · split at h <;> cases h
  · split at h
    · cases h
    · split at h
      · split at h
        · split at h
          · split at h <;> cases h
          · cases h
        · cases h
      · split at h
        · split at h
          · cases h
          · split at h <;> cases h
        · cases h

theorem listHandle_lastN (items : List String) (n : Nat) : listHandle items (.lastN n) = (items, .items items) := by
  simp only [listHandle]; split <;> simp

/-- The request `(k, m)` was handled after those of `x`, and answered `r`. -/
def AtPoint (log : List (Nat × ListMsg)) (k : Nat) (m : ListMsg) (r : ListReply) : Prop :=
  ∃ x y, log = x ++ (k, m) :: y ∧ r = (listHandle (listRun [] (x.map (·.2))).1 m).2

theorem AtPoint.snoc {log : List (Nat × ListMsg)} {k : Nat} {m : ListMsg} {r : ListReply} (h : AtPoint log k m r) (p : Nat × ListMsg) :
    AtPoint (log ++ [p]) k m r := by
  obtain ⟨x, y, rfl, h⟩ := h
  exact ⟨x, y ++ [p], by simp, h⟩

theorem AtPoint.mem {log : List (Nat × ListMsg)} {k : Nat} {m : ListMsg} {r : ListReply} (h : AtPoint log k m r) : k ∈ log.map (·.1) := by
  obtain ⟨x, y, rfl, h⟩ := h
  simp

/-- What is known of connection `k`. -/
def ConnInv (env : HttpEnv) (html : ListPage → String) (sched : Nat → Nat) (mailbox log : List (Nat × ListMsg)) (k : Nat) (raw : Raw) (s0 : Sink) :
    ListConn → Prop
  | .fresh r s => r = raw ∧ s = s0 ∧ k ∉ log.map (·.1)
  | .waiting m s => s = s0 ∧ listBegin env html sched raw s0 = .inr m ∧ (k, m) ∈ mailbox ∧ k ∉ log.map (·.1)
  | .replied m r s => s = s0 ∧ listBegin env html sched raw s0 = .inr m ∧ AtPoint log k m r
  | .done o s => (listBegin env html sched raw s0 = .inl (o, s) ∧ k ∉ log.map (·.1)) ∨
      ∃ m r, listBegin env html sched raw s0 = .inr m ∧ AtPoint log k m r ∧ (o, s) = listEnd env html m r s0

/-- The invariant: `log` are the requests handled so far, in order. -/
structure ListInv (env : HttpEnv) (html : ListPage → String) (sched : Nat → Nat) (acc : List (Raw × Sink)) (log : List (Nat × ListMsg))
    (n : ListNet) : Prop where
  len : n.conns.length = acc.length
  items : n.items = (listRun [] (log.map (·.2))).1
  once : (log.map (·.1)).Nodup
  boxOnce : (n.mailbox.map (·.1)).Nodup
  box : ∀ k m, (k, m) ∈ n.mailbox → ∃ s, n.conns[k]? = some (.waiting m s)
  conn : ∀ k c, n.conns[k]? = some c → ∃ raw s0, acc[k]? = some (raw, s0) ∧ ConnInv env html sched n.mailbox log k raw s0 c
  logged : ∀ k m, (k, m) ∈ log → ∃ raw s0, acc[k]? = some (raw, s0) ∧ listBegin env html sched raw s0 = .inr m

theorem listInv_init : ListInv env html sched [] [] ListNet.init where
  len := rfl
  items := rfl
  once := by simp
  boxOnce := by simp [ListNet.init]
  box := by simp [ListNet.init]
  conn := by simp [ListNet.init]
  logged := by simp

theorem listRun_snoc (ms : List ListMsg) (m : ListMsg) : (listRun [] (ms ++ [m])).1 = (listHandle (listRun [] ms).1 m).1 := by
  rw [listRun_append]
  rfl

theorem getElem?_set_cases {α : Type} {l : List α} {k j : Nat} {a c : α} (h : (l.set k a)[j]? = some c) :
    (j = k ∧ c = a) ∨ (j ≠ k ∧ l[j]? = some c) := by
  rw [List.getElem?_set] at h
  split at h
  · rename_i hk
    split at h
    · exact Or.inl ⟨hk.symm, by simpa using h.symm⟩
    · cases h
  · rename_i hk
    exact Or.inr ⟨fun e => hk e.symm, h⟩

/-- One step keeps the invariant; only `serve` makes the log longer, by the request at the head of the mailbox. -/
theorem listInv_step {acts : List ListAct} {log : List (Nat × ListMsg)} {n : ListNet} (a : ListAct)
    (h : ListInv env html sched (listAccepted acts) log n) :
    ∃ log', ListInv env html sched (listAccepted (acts ++ [a])) log' (n.step env html sched a) ∧
      (log' = log ∨ ∃ k m s, log' = log ++ [(k, m)] ∧ n.conns[k]? = some (.waiting m s)) := by
  have hacc : listAccepted (acts ++ [a]) = listAccepted acts ++ listAccepted [a] := by simp [listAccepted]
  rw [hacc]
  cases a with
  | accept raw s =>
    refine ⟨log, ?_, Or.inl rfl⟩
    have e : listAccepted [ListAct.accept raw s] = [(raw, s)] := rfl
    rw [e]
    refine ⟨by simp [ListNet.step, h.len], h.items, h.once, h.boxOnce, ?_, ?_, ?_⟩
    · intro k m hk
      obtain ⟨s', hs⟩ := h.box k m hk
      refine ⟨s', ?_⟩
      simp only [ListNet.step]
      rw [List.getElem?_append_left (List.getElem?_eq_some_iff.1 hs).1]
      exact hs
    · intro k c hk
      simp only [ListNet.step] at hk ⊢
      by_cases hlt : k < n.conns.length
      · rw [List.getElem?_append_left hlt] at hk
        obtain ⟨r, s0, h1, h2⟩ := h.conn k c hk
        refine ⟨r, s0, ?_, h2⟩
        rw [List.getElem?_append_left (by rw [← h.len]; exact hlt)]
        exact h1
      · have hk' := (List.getElem?_eq_some_iff.1 hk).1
        simp only [List.length_append, List.length_singleton] at hk'
        have : k = n.conns.length := by omega
        subst this
        simp only [List.getElem?_append_right (Nat.le_refl _), Nat.sub_self, List.getElem?_cons_zero, Option.some.injEq] at hk
        subst hk
        refine ⟨raw, s, ?_, rfl, rfl, ?_⟩
        · rw [h.len, List.getElem?_append_right (Nat.le_refl _)]
          simp
        · intro hm
          obtain ⟨⟨k', m⟩, hp, rfl⟩ := List.mem_map.1 hm
          obtain ⟨r, s0, h1, -⟩ := h.logged _ _ hp
          have := (List.getElem?_eq_some_iff.1 h1).1
          rw [← h.len] at this
          simp at this
    · intro k m hk
      obtain ⟨r, s0, h1, h2⟩ := h.logged k m hk
      refine ⟨r, s0, ?_, h2⟩
      rw [List.getElem?_append_left (List.getElem?_eq_some_iff.1 h1).1]
      exact h1
  | start k =>
    have e : listAccepted [ListAct.start k] = [] := rfl
    rw [e, List.append_nil]
    refine ⟨log, ?_, Or.inl rfl⟩
    simp only [ListNet.step]
    split
    · rename_i raw s hk
      obtain ⟨raw', s0, h1, rfl, rfl, h4⟩ := h.conn k _ hk
      have notbox : ∀ m, (k, m) ∉ n.mailbox := by
        intro m hm
        obtain ⟨s', hs⟩ := h.box k m hm
        rw [hk] at hs
        cases hs
      split
      · rename_i o s' hb
        refine ⟨by simp [h.len], h.items, h.once, h.boxOnce, ?_, ?_, h.logged⟩
        · intro j m hj
          obtain ⟨s'', hs⟩ := h.box j m hj
          refine ⟨s'', ?_⟩
          have : j ≠ k := by rintro rfl; exact notbox m hj
          simp only
          rw [List.getElem?_set_ne (Ne.symm this)]
          exact hs
        · intro j c hj
          rcases getElem?_set_cases hj with ⟨rfl, rfl⟩ | ⟨hne, hj⟩
          · exact ⟨_, _, h1, Or.inl ⟨hb, h4⟩⟩
          · exact h.conn j c hj
      · rename_i msg hb
        refine ⟨by simp [h.len], h.items, h.once, ?_, ?_, ?_, h.logged⟩
        · simp only [List.map_append, List.map_cons, List.map_nil]
          refine List.nodup_append.2 ⟨h.boxOnce, by simp, ?_⟩
          intro a ha b hb'
          simp only [List.mem_singleton] at hb'
          subst hb'
          rintro rfl
          obtain ⟨⟨k', m⟩, hp, rfl⟩ := List.mem_map.1 ha
          exact notbox m hp
        · intro j m hj
          simp only [List.mem_append, List.mem_singleton, Prod.mk.injEq] at hj
          rcases hj with hj | ⟨rfl, rfl⟩
          · obtain ⟨s'', hs⟩ := h.box j m hj
            refine ⟨s'', ?_⟩
            have : j ≠ k := by rintro rfl; exact notbox m hj
            simp only
            rw [List.getElem?_set_ne (Ne.symm this)]
            exact hs
          · refine ⟨s, ?_⟩
            simp only
            rw [List.getElem?_set_self (List.getElem?_eq_some_iff.1 hk).1]
        · intro j c hj
          rcases getElem?_set_cases hj with ⟨rfl, rfl⟩ | ⟨hne, hj⟩
          · exact ⟨_, _, h1, rfl, hb, by simp, h4⟩
          · obtain ⟨r, s0, g1, g2⟩ := h.conn j c hj
            refine ⟨r, s0, g1, ?_⟩
            cases c with
            | fresh r s => exact g2
            | waiting m s => exact ⟨g2.1, g2.2.1, by simp [g2.2.2.1], g2.2.2.2⟩
            | replied m r s => exact g2
            | done o s => exact g2
    · exact h
  | finish k =>
    have e : listAccepted [ListAct.finish k] = [] := rfl
    rw [e, List.append_nil]
    refine ⟨log, ?_, Or.inl rfl⟩
    simp only [ListNet.step]
    split
    · rename_i msg r s hk
      obtain ⟨raw', s0, h1, rfl, h3, h4⟩ := h.conn k _ hk
      refine ⟨by simp [h.len], h.items, h.once, h.boxOnce, ?_, ?_, h.logged⟩
      · intro j m hj
        obtain ⟨s'', hs⟩ := h.box j m hj
        refine ⟨s'', ?_⟩
        have : j ≠ k := by rintro rfl; rw [hk] at hs; cases hs
        simp only
        rw [List.getElem?_set_ne (Ne.symm this)]
        exact hs
      · intro j c hj
        rcases getElem?_set_cases hj with ⟨rfl, rfl⟩ | ⟨hne, hj⟩
        · exact ⟨_, _, h1, Or.inr ⟨msg, r, h3, h4, rfl⟩⟩
        · exact h.conn j c hj
    · exact h
  | serve =>
    have e : listAccepted [ListAct.serve] = [] := rfl
    rw [e, List.append_nil]
    simp only [ListNet.step]
    cases hm : n.mailbox with
    | nil => exact ⟨log, h, Or.inl rfl⟩
    | cons p rest =>
      obtain ⟨k, msg⟩ := p
      obtain ⟨s, hs⟩ := h.box k msg (by rw [hm]; simp)
      obtain ⟨raw, s0, h1, rfl, h3, h4, h5⟩ := h.conn k _ hs
      have hnd := h.boxOnce
      rw [hm] at hnd
      simp only [List.map_cons, List.nodup_cons] at hnd
      have notrest : ∀ m, (k, m) ∉ rest := fun m hmem => hnd.1 (List.mem_map.2 ⟨_, hmem, rfl⟩)
      refine ⟨log ++ [(k, msg)], ?_, Or.inr ⟨k, msg, s, rfl, hs⟩⟩
      simp only [hs]
      refine ⟨by simp [h.len], ?_, ?_, hnd.2, ?_, ?_, ?_⟩
      · simp only [List.map_append, List.map_cons, List.map_nil]
        rw [listRun_snoc, ← h.items]
      · simp only [List.map_append, List.map_cons, List.map_nil]
        refine List.nodup_append.2 ⟨h.once, by simp, ?_⟩
        intro a ha b hb
        simp only [List.mem_singleton] at hb
        subst hb
        rintro rfl
        exact h5 ha
      · intro j m hj
        obtain ⟨s'', hs'⟩ := h.box j m (by rw [hm]; simp [hj])
        refine ⟨s'', ?_⟩
        have : j ≠ k := by rintro rfl; exact notrest m hj
        simp only
        rw [List.getElem?_set_ne (Ne.symm this)]
        exact hs'
      · intro j c hj
        rcases getElem?_set_cases hj with ⟨rfl, rfl⟩ | ⟨hne, hj⟩
        · exact ⟨_, _, h1, rfl, h3, log, [], rfl, by rw [h.items]⟩
        · obtain ⟨r, s0, g1, g2⟩ := h.conn j c hj
          refine ⟨r, s0, g1, ?_⟩
          have notlog : j ∉ log.map (·.1) → j ∉ (log ++ [(k, msg)]).map (·.1) := by
            intro hno hmem
            simp only [List.map_append, List.map_cons, List.map_nil, List.mem_append, List.mem_singleton] at hmem
            exact hmem.elim hno hne
          cases c with
          | fresh r s => exact ⟨g2.1, g2.2.1, notlog g2.2.2⟩
          | waiting m s =>
            refine ⟨g2.1, g2.2.1, ?_, notlog g2.2.2.2⟩
            have := g2.2.2.1
            rw [hm] at this
            simp only [List.mem_cons, Prod.mk.injEq] at this
            exact this.resolve_left fun hh => hne hh.1
          | replied m r s => exact ⟨g2.1, g2.2.1, g2.2.2.snoc _⟩
          | done o s =>
            rcases g2 with g2 | ⟨m, r, g1', g2', g3'⟩
            · exact Or.inl ⟨g2.1, notlog g2.2⟩
            · exact Or.inr ⟨m, r, g1', g2'.snoc _, g3'⟩
      · intro j m hj
        simp only [List.mem_append, List.mem_singleton, Prod.mk.injEq] at hj
        rcases hj with hj | ⟨rfl, rfl⟩
        · exact h.logged j m hj
        · exact ⟨_, _, h1, h3⟩

theorem ListNet.exec_snoc (acts : List ListAct) (a : ListAct) :
    ListNet.exec env html sched (acts ++ [a]) = (ListNet.exec env html sched acts).step env html sched a := by
  simp [ListNet.exec]

/-- What has ended stays as it is. -/
theorem served_step {n : ListNet} {k : Nat} {o : Outcome Unit Unit} {s : Sink} (h : n.Served k o s) (a : ListAct) :
    (n.step env html sched a).Served k o s := by
  unfold ListNet.Served at h ⊢
  cases a with
  | accept raw s =>
    simp only [ListNet.step]
    rw [List.getElem?_append_left (List.getElem?_eq_some_iff.1 h).1]
    exact h
  | start j =>
    simp only [ListNet.step]
    split
    · rename_i raw s' hj
      have : j ≠ k := by rintro rfl; rw [h] at hj; cases hj
      split <;> · simp only; rw [List.getElem?_set_ne this]; exact h
    · exact h
  | serve =>
    simp only [ListNet.step]
    split
    · exact h
    · split
      · rename_i j _ _ _ _ _ _ hj
        have : j ≠ k := by rintro rfl; rw [h] at hj; cases hj
        simp only; rw [List.getElem?_set_ne this]; exact h
      · exact h
  | finish j =>
    simp only [ListNet.step]
    split
    · rename_i m r s' hj
      have : j ≠ k := by rintro rfl; rw [h] at hj; cases hj
      simp only; rw [List.getElem?_set_ne this]; exact h
    · exact h

theorem served_exec {a : List ListAct} {k : Nat} {o : Outcome Unit Unit} {s : Sink} (h : (ListNet.exec env html sched a).Served k o s)
    (b : List ListAct) : (ListNet.exec env html sched (a ++ b)).Served k o s := by
  induction b using snoc_induction with
  | nil => simpa using h
  | snoc b x ih => rw [← List.append_assoc, ListNet.exec_snoc]; exact served_step ih x

/-- Every history has a log, and it keeps to real time. -/
theorem listInv_exec (acts : List ListAct) : ∃ log, ListInv env html sched (listAccepted acts) log (ListNet.exec env html sched acts) ∧
    ∀ a b j k, acts = a ++ b → (∃ o s, (ListNet.exec env html sched a).Served j o s) → (listAccepted a).length ≤ k →
      j ∈ log.map (·.1) → k ∈ log.map (·.1) → [j, k].Sublist (log.map (·.1)) := by
  induction acts using snoc_induction with
  | nil => exact ⟨[], listInv_init, by simp⟩
  | snoc acts x ih =>
    obtain ⟨log, hinv, hrt⟩ := ih
    obtain ⟨log', hinv', hlog⟩ := listInv_step x hinv
    rw [← ListNet.exec_snoc] at hinv'
    refine ⟨log', hinv', ?_⟩
    intro a b j k hab hserved hk hj hkm
    rcases List.eq_nil_or_concat b with rfl | ⟨b', y, rfl⟩
    · rw [List.append_nil] at hab
      subst hab
      obtain ⟨⟨k', m⟩, hp, rfl⟩ := List.mem_map.1 hkm
      obtain ⟨r, s0, h1, -⟩ := hinv'.logged _ _ hp
      have := (List.getElem?_eq_some_iff.1 h1).1
      simp only at hk
      omega
    · rw [List.concat_eq_append, ← List.append_assoc] at hab
      obtain ⟨rfl, hxy⟩ := List.append_inj' hab rfl
      rcases hlog with rfl | ⟨k0, m0, s0, rfl, hw⟩
      · exact hrt a b' j k rfl hserved hk hj hkm
      · obtain ⟨o, s, hs⟩ := hserved
        have hs' := served_exec (env := env) (html := html) (sched := sched) hs b'
        have hne : j ≠ k0 := by
          rintro rfl
          rw [ListNet.Served, hw] at hs'
          cases hs'
        simp only [List.map_append, List.map_cons, List.map_nil, List.mem_append, List.mem_singleton] at hj hkm ⊢
        have hj' := hj.resolve_right hne
        rcases hkm with hkm | rfl
        · exact (hrt a b' j k rfl ⟨o, s, hs⟩ hk hj' hkm).trans (List.sublist_append_left _ _)
        · exact (List.singleton_sublist.2 hj').append (List.Sublist.refl [k])

end Puck
