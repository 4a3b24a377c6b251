import Verif.Lemmas.ListNet
/-!
# The list example with concurrent clients (C131 - C133)
-/
namespace Puck
open Http

variable {env : HttpEnv} {html : ListPage → String} {sched : Nat → Nat}

/-! ## C131 -/

theorem texts_of_log (hW : 31 ≤ env.W) {acts : List ListAct} (hw : ∀ raw s, ListAct.accept raw s ∈ acts → raw.WF)
    (log : List (Nat × ListMsg))
    (h : ∀ k m, (k, m) ∈ log → ∃ raw s0, (listAccepted acts)[k]? = some (raw, s0) ∧ listBegin env html sched raw s0 = .inr m) :
    Texts env (listAccepted acts) (log.map (·.1)) (listRun [] (log.map (·.2))).1 := by
  induction log using snoc_induction with
  | nil => exact .nil
  | snoc log p ih =>
    obtain ⟨k, m⟩ := p
    have ih := ih fun k m hk => h k m (by simp [hk])
    obtain ⟨raw, s0, h1, h2⟩ := h k m (by simp)
    have hraw : raw.WF := by
      obtain ⟨a, ha, ha'⟩ := List.mem_filterMap.1 (List.mem_of_getElem? h1)
      cases a <;> simp only [Option.some.injEq, reduceCtorEq, Prod.mk.injEq] at ha'
      obtain ⟨rfl, rfl⟩ := ha'
      exact hw _ _ ha
    simp only [List.map_append, List.map_cons, List.map_nil]
    rw [listRun_snoc]
    cases m with
    | add t => exact .add ih h1 ((listBegin_add hraw t).1 h2)
    | allItems => exact absurd h2 listBegin_not_all
    | lastN n =>
      rw [listHandle_lastN]
      exact .read ih h1 ((listBegin_reads hW).1 ⟨n, h2⟩)

theorem accepted_wf {acts : List ListAct} (hw : ∀ raw s, ListAct.accept raw s ∈ acts → raw.WF) {k : Nat} {raw : Raw} {s : Sink}
    (h1 : (listAccepted acts)[k]? = some (raw, s)) : raw.WF := by
  obtain ⟨a, ha, ha'⟩ := List.mem_filterMap.1 (List.mem_of_getElem? h1)
  cases a <;> simp only [Option.some.injEq, reduceCtorEq, Prod.mk.injEq] at ha'
  obtain ⟨rfl, rfl⟩ := ha'
  exact hw _ _ ha

/-- **C131.** The list example is linearizable.  However the processes of any number of connections are interleaved, there is one order of
the submissions and reads that have taken effect such that: the list holds the texts submitted, in that order; every submission that has been
served is in it and was answered with the page that says so; every read that has been served was answered with exactly the texts
submitted before it in that order; a connection served before another was accepted comes before it; every other connection was served
as if it were the only one. -/
theorem C131_linearizable (env : HttpEnv) (hW : 31 ≤ env.W) (html : ListPage → String) (sched : Nat → Nat) (acts : List ListAct)
    (hw : ∀ raw s, ListAct.accept raw s ∈ acts → raw.WF) :
    ∃ order : List Nat, order.Nodup ∧ Texts env (listAccepted acts) order (ListNet.exec env html sched acts).items ∧
      (∀ k raw s o s', (listAccepted acts)[k]? = some (raw, s) → (ListNet.exec env html sched acts).Served k o s' →
        (∀ text, Adds env raw text → k ∈ order ∧ (o, s') = respondUnwrap env (listResponse html .added) s) ∧
        (AsksList env raw → ∃ before after texts, order = before ++ k :: after ∧ Texts env (listAccepted acts) before texts ∧
          (o, s') = respondUnwrap env (listResponse html (listPage texts)) s) ∧
        ((∀ text, ¬ Adds env raw text) → ¬ AsksList env raw →
          (ListNet.exec env html sched [.accept raw s, .start 0]).Served 0 o s')) ∧
      (∀ j k, ListPrecedes env html sched acts j k → j ∈ order → k ∈ order → [j, k].Sublist order) := by
  obtain ⟨log, hinv, hrt⟩ := listInv_exec (env := env) (html := html) (sched := sched) acts
  refine ⟨log.map (·.1), hinv.once, ?_, ?_, ?_⟩
  rotate_right
  · rintro j k ⟨a, b, o, s, h1, h2, h3⟩
    exact hrt a b j k h1 ⟨o, s, h2⟩ h3
  · rw [hinv.items]
    exact texts_of_log hW hw log hinv.logged
  · intro k raw s o s' hk hserved
    obtain ⟨raw', s0, h1, h2⟩ := hinv.conn k _ hserved
    rw [hk] at h1
    simp only [Option.some.injEq, Prod.mk.injEq] at h1
    obtain ⟨rfl, rfl⟩ := h1
    have hraw := accepted_wf hw hk
    refine ⟨?_, ?_, ?_⟩
    · intro text hadd
      have hb := (listBegin_add (html := html) (sched := sched) (s := s) hraw text).2 hadd
      rcases h2 with ⟨h2, -⟩ | ⟨m, r, h2, h3, h4⟩
      · rw [hb] at h2; cases h2
      · rw [hb] at h2
        simp only [Sum.inr.injEq] at h2
        subst h2
        obtain ⟨x, y, hx, rfl⟩ := h3
        exact ⟨by rw [hx]; simp, h4⟩
    · intro hread
      obtain ⟨n, hb⟩ := (listBegin_reads (html := html) (sched := sched) (s := s) hW).2 hread
      rcases h2 with ⟨h2, -⟩ | ⟨m, r, h2, h3, h4⟩
      · rw [hb] at h2; cases h2
      · rw [hb] at h2
        simp only [Sum.inr.injEq] at h2
        subst h2
        obtain ⟨x, y, hx, rfl⟩ := h3
        refine ⟨x.map (·.1), y.map (·.1), _, by rw [hx]; simp,
          texts_of_log hW hw x fun k m hm => hinv.logged k m (by rw [hx]; simp [hm]), ?_⟩
        rw [h4, listHandle_lastN]
        simp only [listEnd, listPage, List.isEmpty_iff]
    · intro h5 h6
      rcases h2 with ⟨h2, -⟩ | ⟨m, r, h2, -, -⟩
      · simp [ListNet.Served, ListNet.exec, ListNet.step, ListNet.init, h2]
      · cases m with
        | add t => exact absurd ((listBegin_add hraw t).1 h2) (h5 t)
        | allItems => exact absurd h2 listBegin_not_all
        | lastN n => exact absurd ((listBegin_reads hW).1 ⟨n, h2⟩) h6

/-! ## C132 -/

theorem WireRead.reads {env : HttpEnv} (henv : env.Valid) (hp : RequestContract env.httparse) {raw : Raw} (h : WireRead env raw) : AsksList env raw := by
  obtain ⟨method, t, fs, hostName, host, u, seg, n, after, hg, hu, hpath, hn, hlt, hav⟩ := h.sent
  obtain ⟨req, h1, h2, -, -⟩ := request_of_head env henv hp hg hu raw h.wf _ hav
  exact ⟨req, seg, n, h1, by rw [h2, hpath], hn, hlt⟩

theorem Adds.unique {raw : Raw} {a b : String} (ha : Adds env raw a) (hb : Adds env raw b) : a = b := by
  obtain ⟨r1, h1, -, -, -, -, h2⟩ := ha
  obtain ⟨r2, h3, -, -, -, -, h4⟩ := hb
  rw [h1] at h3
  simp only [Except.ok.injEq, Option.some.injEq] at h3
  subst h3
  rw [h2] at h4
  have := strBytes_inj.1 h4
  exact (String.append_right_inj _).1 this

theorem Adds.not_reads {raw : Raw} {a : String} (ha : Adds env raw a) (hb : AsksList env raw) : False := by
  obtain ⟨r1, h1, -, hp, -⟩ := ha
  obtain ⟨r2, seg, n, h3, hp', hn, hlt⟩ := hb
  rw [h1] at h3
  simp only [Except.ok.injEq, Option.some.injEq] at h3
  subst h3
  have := (read_route r1.url n seg hp' hn hlt).2.1
  rw [(submit_match _).2 hp] at this
  cases this

/-- The texts of an order are determined, and those of a beginning are a beginning. -/
theorem Texts.append_inv {conns : List (Raw × Sink)} {a b : List Nat} {texts : List String} (h : Texts env conns (a ++ b) texts) :
    ∃ t1 t2, texts = t1 ++ t2 ∧ Texts env conns a t1 := by
  induction b using snoc_induction generalizing texts with
  | nil => exact ⟨texts, [], by simp, by simpa using h⟩
  | snoc b k ih =>
    generalize ho : a ++ (b ++ [k]) = o at h
    rw [← List.append_assoc] at ho
    cases h with
    | nil => simp at ho
    | @add order texts k' raw s text h1 h2 h3 =>
      obtain ⟨rfl, -⟩ := List.append_inj' ho rfl
      obtain ⟨t1, t2, rfl, h4⟩ := ih h1
      exact ⟨t1, t2 ++ [text], by simp, h4⟩
    | @read order texts k' raw s h1 h2 h3 =>
      obtain ⟨rfl, -⟩ := List.append_inj' ho rfl
      exact ih h1

theorem Texts.unique {conns : List (Raw × Sink)} {a : List Nat} {t1 t2 : List String} (h1 : Texts env conns a t1) (h2 : Texts env conns a t2) :
    t1 = t2 := by
  induction h1 generalizing t2 with
  | nil =>
    generalize ho : ([] : List Nat) = o at h2
    cases h2 with
    | nil => rfl
    | add => simp at ho
    | read => simp at ho
  | @add order texts k raw s text h1 hk ha ih =>
    generalize ho : order ++ [k] = o at h2
    cases h2 with
    | nil => simp at ho
    | @add order' texts' k' raw' s' text' h1' hk' ha' =>
      obtain ⟨rfl, e⟩ := List.append_inj' ho rfl
      simp only [List.cons.injEq, and_true] at e
      subst e
      rw [hk] at hk'
      simp only [Option.some.injEq, Prod.mk.injEq] at hk'
      obtain ⟨rfl, rfl⟩ := hk'
      rw [ih h1', ha.unique ha']
    | @read order' texts' k' raw' s' h1' hk' ha' =>
      obtain ⟨rfl, e⟩ := List.append_inj' ho rfl
      simp only [List.cons.injEq, and_true] at e
      subst e
      rw [hk] at hk'
      simp only [Option.some.injEq, Prod.mk.injEq] at hk'
      obtain ⟨rfl, rfl⟩ := hk'
      exact (ha.not_reads ha').elim
  | @read order texts k raw s h1 hk ha ih =>
    generalize ho : order ++ [k] = o at h2
    cases h2 with
    | nil => simp at ho
    | @add order' texts' k' raw' s' text' h1' hk' ha' =>
      obtain ⟨rfl, e⟩ := List.append_inj' ho rfl
      simp only [List.cons.injEq, and_true] at e
      subst e
      rw [hk] at hk'
      simp only [Option.some.injEq, Prod.mk.injEq] at hk'
      obtain ⟨rfl, rfl⟩ := hk'
      exact (ha'.not_reads ha).elim
    | @read order' texts' k' raw' s' h1' hk' ha' =>
      obtain ⟨rfl, e⟩ := List.append_inj' ho rfl
      exact ih h1'

theorem Texts.prefix {conns : List (Raw × Sink)} {a b : List Nat} {t1 t2 : List String} (h1 : Texts env conns a t1) (h2 : Texts env conns b t2)
    (hab : a <+: b) : t1 <+: t2 := by
  obtain ⟨c, rfl⟩ := hab
  obtain ⟨u, v, rfl, h3⟩ := h2.append_inv
  rw [h1.unique h3]
  exact List.prefix_append _ _

theorem Texts.subs {conns : List (Raw × Sink)} {order : List Nat} {texts : List String} (h : Texts env conns order texts) :
    ∃ subs : List (Nat × String), (subs.map (·.1)).Sublist order ∧ subs.map (·.2) = texts ∧
      ∀ j t, (j, t) ∈ subs → ∃ raw s, conns[j]? = some (raw, s) ∧ Adds env raw t := by
  induction h with
  | nil => exact ⟨[], by simp, rfl, by simp⟩
  | @add order texts k raw s text h1 hk ha ih =>
    obtain ⟨subs, g1, g2, g3⟩ := ih
    refine ⟨subs ++ [(k, text)], by simpa using g1, by simp [g2], ?_⟩
    intro j t hj
    simp only [List.mem_append, List.mem_singleton, Prod.mk.injEq] at hj
    rcases hj with hj | ⟨rfl, rfl⟩
    · exact g3 j t hj
    · exact ⟨raw, s, hk, ha⟩
  | @read order texts k raw s h1 hk ha ih =>
    obtain ⟨subs, g1, g2, g3⟩ := ih
    exact ⟨subs, g1.trans (List.sublist_append_left _ _), g2, g3⟩

theorem Texts.sublist {conns : List (Raw × Sink)} {order : List Nat} {texts : List String} (h : Texts env conns order texts)
    (subs : List (Nat × String)) (hs : (subs.map (·.1)).Sublist order)
    (ha : ∀ j t, (j, t) ∈ subs → ∃ raw s, conns[j]? = some (raw, s) ∧ Adds env raw t) : (subs.map (·.2)).Sublist texts := by
  induction h generalizing subs with
  | nil =>
    have := List.sublist_nil.1 hs
    simp only [List.map_eq_nil_iff] at this
    subst this
    simp
  | @add order texts k raw s text h1 hk had ih =>
    rcases List.eq_nil_or_concat subs with rfl | ⟨subs', ⟨j, t⟩, rfl⟩
    · simp
    · rw [List.concat_eq_append] at hs ha ⊢
      simp only [List.map_append, List.map_cons, List.map_nil] at hs ⊢
      obtain ⟨l1, l2, he, hl1, hl2⟩ := List.sublist_append_iff.1 hs
      rcases List.eq_nil_or_concat l2 with rfl | ⟨l2', j', rfl⟩
      · rw [List.append_nil] at he
        subst he
        have := ih (subs' ++ [(j, t)]) (by simpa using hl1) ha
        simp only [List.map_append, List.map_cons, List.map_nil] at this
        exact this.trans (List.sublist_append_left _ _)
      · rw [List.concat_eq_append] at he hl2
        have h0 : l2' = [] ∧ j' = k := by
          have hlen := hl2.length_le
          simp only [List.length_append, List.length_singleton] at hlen
          have : l2' = [] := List.eq_nil_of_length_eq_zero (by omega)
          subst this
          exact ⟨rfl, by simpa using hl2.subset (a := j') (by simp)⟩
        obtain ⟨rfl, rfl⟩ := h0
        rw [List.nil_append] at he
        obtain ⟨rfl, e⟩ := List.append_inj' he rfl
        simp only [List.cons.injEq, and_true] at e
        subst e
        have h1' := ih subs' hl1 fun j t hj => ha j t (by simp [hj])
        obtain ⟨raw', s', g1, g2⟩ := ha j t (by simp)
        rw [hk] at g1
        simp only [Option.some.injEq, Prod.mk.injEq] at g1
        obtain ⟨rfl, rfl⟩ := g1
        rw [g2.unique had]
        exact h1'.append (List.Sublist.refl _)
  | @read order texts k raw s h1 hk hread ih =>
    rcases List.eq_nil_or_concat subs with rfl | ⟨subs', ⟨j, t⟩, rfl⟩
    · simp
    · rw [List.concat_eq_append] at hs ha ⊢
      obtain ⟨l1, l2, he, hl1, hl2⟩ := List.sublist_append_iff.1 hs
      rcases List.eq_nil_or_concat l2 with rfl | ⟨l2', j', rfl⟩
      · rw [List.append_nil] at he
        rw [← he] at hl1
        exact ih _ hl1 ha
      · exfalso
        rw [List.concat_eq_append] at he hl2
        have hjk : j' = k := by simpa using hl2.subset (a := j') (by simp)
        subst hjk
        simp only [List.map_append, List.map_cons, List.map_nil] at he
        rw [← List.append_assoc] at he
        obtain ⟨-, e⟩ := List.append_inj' he rfl
        simp only [List.cons.injEq, and_true] at e
        subst e
        obtain ⟨raw', s', g1, g2⟩ := ha j t (by simp)
        rw [hk] at g1
        simp only [Option.some.injEq, Prod.mk.injEq] at g1
        obtain ⟨rfl, rfl⟩ := g1
        exact g2.not_reads hread

/-- Pairwise in order is in order. -/
theorem sublist_of_pairwise {order : List Nat} (hn : order.Nodup) (js : List Nat) (hm : ∀ j ∈ js, j ∈ order)
    (hp : js.Pairwise fun a b => [a, b].Sublist order) : js.Sublist order := by
  induction order generalizing js with
  | nil =>
    cases js with
    | nil => simp
    | cons a js => exact absurd (hm a (by simp)) (by simp)
  | cons x rest ih =>
    have hx := (List.nodup_cons.1 hn).1
    have hn' := (List.nodup_cons.1 hn).2
    have tl : ∀ a b, a ≠ x → [a, b].Sublist (x :: rest) → [a, b].Sublist rest := by
      intro a b hne h
      cases h with
      | cons _ h => exact h
      | cons_cons => exact absurd rfl hne
    cases js with
    | nil => simp
    | cons a js =>
      have hp1 := (List.pairwise_cons.1 hp).1
      have hp2 := (List.pairwise_cons.1 hp).2
      have notx : ∀ b ∈ js, b ≠ x := by
        rintro b hb rfl
        have h := hp1 b hb
        cases h with
        | cons _ h => exact hx (h.subset (by simp))
        | cons_cons _ h => exact hx (h.subset (by simp))
      have hjs : js.Pairwise fun a b => [a, b].Sublist rest :=
        hp2.imp_of_mem fun {a b} h1 h2 h => tl a b (notx a h1) h
      have hmem : ∀ j ∈ js, j ∈ rest := by
        intro j hj
        have := hm j (by simp [hj])
        simp only [List.mem_cons] at this
        exact this.resolve_left (notx j hj)
      by_cases hax : a = x
      · subst hax
        exact List.Sublist.cons_cons _ (ih hn' js hmem hjs)
      · refine List.Sublist.cons _ (ih hn' (a :: js) ?_ ?_)
        · intro j hj
          rcases List.mem_cons.1 hj with rfl | hj
          · have := hm j (by simp)
            simp only [List.mem_cons] at this
            exact this.resolve_left hax
          · exact hmem j hj
        · exact List.pairwise_cons.2 ⟨fun b hb => tl a b hax (hp1 b hb), hjs⟩

theorem sublist_before {js before after : List Nat} {k : Nat} (hn : (before ++ k :: after).Nodup)
    (h : (js ++ [k]).Sublist (before ++ k :: after)) : js.Sublist before := by
  have hkb : k ∉ before := by
    intro hm
    exact (List.nodup_append.1 hn).2.2 k hm k (by simp) rfl
  have hka : k ∉ after := (List.nodup_cons.1 (List.nodup_append.1 hn).2.1).1
  obtain ⟨l1, l2, he, h1, h2⟩ := List.sublist_append_iff.1 h
  rcases List.eq_nil_or_concat l2 with rfl | ⟨l2', j', rfl⟩
  · rw [List.append_nil] at he
    subst he
    exact absurd (h1.subset (by simp)) hkb
  · rw [List.concat_eq_append, ← List.append_assoc] at he
    obtain ⟨rfl, e⟩ := List.append_inj' he rfl
    simp only [List.cons.injEq, and_true] at e
    subst e
    rw [List.concat_eq_append] at h2
    cases l2' with
    | nil => simpa using h1
    | cons a l =>
      exfalso
      cases h2 with
      | cons _ h => exact hka (h.subset (by simp))
      | cons_cons _ h => exact hka (h.subset (by simp))

theorem list_receives (henv : env.Valid) {n : ListNet} {k : Nat} {o : Outcome Unit Unit} {s' : Sink} (page : ListPage)
    (hs : n.Served k o s') (h : (o, s') = respondUnwrap env (listResponse html page) ⟨[], none⟩) : n.Receives k (html page) := by
  have e : listResponse html page = ⟨[("Content-Type", "text/html")], Body.fromString (html page), 200, ""⟩ := rfl
  have hw : (listResponse html page).WellFormed := by
    rw [e]
    refine ⟨by show 100 ≤ 200; decide, by show 200 < 1000; decide, by show ∀ c ∈ strBytes "", c ≠ 13; decide +kernel, ?_⟩
    intro p hp
    simp only [List.mem_singleton] at hp
    subst hp
    exact ⟨⟨by decide +kernel, by decide +kernel⟩, by decide +kernel⟩
  obtain ⟨e1, fields, e2, e3⟩ := C40_client_reads_back (listResponse html page) (by rw [e]; simp [Headers.Distinct])
    (by rw [e]; exact ⟨trivial, by simp [Body.fromString]⟩) (by rw [e]; exact fromString_ok _) hw env henv
  rw [respondUnwrap_ok env _ _ e1] at h
  simp only [Prod.mk.injEq] at h
  obtain ⟨rfl, rfl⟩ := h
  refine ⟨_, hs, ?_⟩
  rw [e2, e]
  have : fields = [(strBytes "Content-Type", strBytes "text/html")] := by
    rw [e] at e3
    have e4 : trim (strBytes "text/html") = strBytes "text/html" := by decide +kernel
    simp only [List.map_cons, List.map_nil, e4] at e3
    exact List.perm_singleton.1 e3
  rw [this, fromString_avail]
  rfl

/-- **C132.** What concurrent clients of the list example see, in bytes.  However the processes are interleaved: a client that submits a
text receives the page that says so, and every client that reads receives a page with a list of texts `shown k` such that: these are texts of
submissions, each taken once; the texts of any submissions made one after the other (each accepted after the one before had been served), all
served before the read was accepted, are among them in that order; and the lists of any two readers agree - one is a beginning of the
other, and the earlier reader's is the beginning. -/
theorem C132_clients_agree (env : HttpEnv) (henv : env.Valid) (hp : RequestContract env.httparse) (hW : 31 ≤ env.W) (html : ListPage → String)
    (sched : Nat → Nat) (acts : List ListAct) (hw : ∀ raw s, ListAct.accept raw s ∈ acts → raw.WF) :
    (∀ k raw text o s', (listAccepted acts)[k]? = some (raw, ⟨[], none⟩) → WirePost env raw text →
      (ListNet.exec env html sched acts).Served k o s' → (ListNet.exec env html sched acts).Receives k (html .added)) ∧
    ∃ shown : Nat → List String,
      ∀ k raw o s', (listAccepted acts)[k]? = some (raw, ⟨[], none⟩) → WireRead env raw → (ListNet.exec env html sched acts).Served k o s' →
        (ListNet.exec env html sched acts).Receives k (html (listPage (shown k))) ∧
        (∃ subs : List (Nat × String), (subs.map (·.1)).Nodup ∧ subs.map (·.2) = shown k ∧
          ∀ j t, (j, t) ∈ subs → ∃ raw s, (listAccepted acts)[j]? = some (raw, s) ∧ Adds env raw t) ∧
        (∀ subs : List (Nat × String), (∀ j t, (j, t) ∈ subs → ListPrecedes env html sched acts j k ∧
            ∃ raw s, (listAccepted acts)[j]? = some (raw, s) ∧ WirePost env raw t) →
          subs.Pairwise (fun p q => ListPrecedes env html sched acts p.1 q.1) → (subs.map (·.2)).Sublist (shown k)) ∧
        (∀ j raw o s', (listAccepted acts)[j]? = some (raw, ⟨[], none⟩) → WireRead env raw → (ListNet.exec env html sched acts).Served j o s' →
          (shown j <+: shown k ∨ shown k <+: shown j) ∧ (ListPrecedes env html sched acts j k → shown j <+: shown k)) := by
  obtain ⟨order, hnd, htexts, hserved, hrt⟩ := C131_linearizable env hW html sched acts hw
  refine ⟨?_, ?_⟩
  · intro k raw text o s' hk hpost hs
    obtain ⟨req, h1, h2⟩ := hpost.submits henv hp
    exact list_receives henv _ hs ((hserved k raw _ o s' hk hs).1 text ⟨req, h1, h2⟩).2
  · have hpoint : ∀ k, ∃ texts, ∀ raw o s', (listAccepted acts)[k]? = some (raw, ⟨[], none⟩) → WireRead env raw →
        (ListNet.exec env html sched acts).Served k o s' → ∃ before after, order = before ++ k :: after ∧
          Texts env (listAccepted acts) before texts ∧ (o, s') = respondUnwrap env (listResponse html (listPage texts)) ⟨[], none⟩ := by
      intro k
      by_cases h : ∃ raw o s', (listAccepted acts)[k]? = some (raw, (⟨[], none⟩ : Sink)) ∧ WireRead env raw ∧
          (ListNet.exec env html sched acts).Served k o s'
      · obtain ⟨raw, o, s', h1, h2, h3⟩ := h
        obtain ⟨before, after, texts, g1, g2, g3⟩ := (hserved k raw _ o s' h1 h3).2.1 (h2.reads henv hp)
        refine ⟨texts, ?_⟩
        intro raw' o' s'' h1' h2' h3'
        rw [ListNet.Served] at h3 h3'
        rw [h3] at h3'
        simp only [Option.some.injEq, ListConn.done.injEq] at h3'
        obtain ⟨rfl, rfl⟩ := h3'
        exact ⟨before, after, g1, g2, g3⟩
      · exact ⟨[], fun raw o s' h1 h2 h3 => absurd ⟨raw, o, s', h1, h2, h3⟩ h⟩
    obtain ⟨shown, hshown⟩ := Classical.axiomOfChoice hpoint
    refine ⟨shown, ?_⟩
    intro k raw o s' hk hread hs
    obtain ⟨before, after, g1, g2, g3⟩ := hshown k raw o s' hk hread hs
    have hkm : k ∈ order := by rw [g1]; simp
    have pref : before <+: order := by rw [g1]; exact List.prefix_append _ _
    refine ⟨list_receives henv _ hs g3, ?_, ?_, ?_⟩
    · obtain ⟨subs, h1, h2, h3⟩ := g2.subs
      exact ⟨subs, h1.nodup (pref.sublist.nodup hnd), h2, h3⟩
    · intro subs hsub hpw
      have hadds : ∀ j t, (j, t) ∈ subs → ∃ raw s, (listAccepted acts)[j]? = some (raw, s) ∧ Adds env raw t := by
        intro j t hj
        obtain ⟨-, raw, s, h1, h2⟩ := hsub j t hj
        exact ⟨raw, s, h1, h2.submits henv hp⟩
      have hmem : ∀ j ∈ subs.map (·.1), j ∈ order ∧ ListPrecedes env html sched acts j k := by
        intro j hj
        obtain ⟨⟨j, t⟩, hjt, rfl⟩ := List.mem_map.1 hj
        obtain ⟨hpre, raw, s, h1, h2⟩ := hsub j t hjt
        obtain ⟨a, b, oj, sj, e1, e2, e3⟩ := id hpre
        have hsj : (ListNet.exec env html sched acts).Served j oj sj := by rw [e1]; exact served_exec e2 b
        exact ⟨((hserved j raw s oj sj h1 hsj).1 t (h2.submits henv hp)).1, hpre⟩
      have hsl : (subs.map (·.1) ++ [k]).Sublist order := by
        refine sublist_of_pairwise hnd _ ?_ ?_
        · intro j hj
          simp only [List.mem_append, List.mem_singleton] at hj
          rcases hj with hj | rfl
          · exact (hmem j hj).1
          · exact hkm
        · refine List.pairwise_append.2 ⟨?_, by simp, ?_⟩
          · rw [List.pairwise_map]
            refine hpw.imp_of_mem ?_
            intro p q hpm hqm hpq
            exact hrt _ _ hpq (hmem _ (List.mem_map.2 ⟨p, hpm, rfl⟩)).1 (hmem _ (List.mem_map.2 ⟨q, hqm, rfl⟩)).1
          · intro j hj k' hk'
            simp only [List.mem_singleton] at hk'
            subst hk'
            exact hrt _ _ (hmem j hj).2 (hmem j hj).1 hkm
      rw [g1] at hsl hnd
      exact g2.sublist subs (sublist_before hnd hsl) hadds
    · intro j raw' o' s'' hj hread' hs'
      obtain ⟨before', after', g1', g2', g3'⟩ := hshown j raw' o' s'' hj hread' hs'
      have pref' : before' <+: order := by rw [g1']; exact List.prefix_append _ _
      refine ⟨?_, ?_⟩
      · rcases List.prefix_or_prefix_of_prefix pref' pref with h | h
        · exact Or.inl (g2'.prefix g2 h)
        · exact Or.inr (g2.prefix g2' h)
      · intro hpre
        refine g2'.prefix g2 ?_
        have hsl := hrt j k hpre (by rw [g1']; simp) hkm
        rw [g1] at hsl
        have hjb := sublist_before (js := [j]) (by rw [← g1]; exact hnd) hsl
        have hjm : j ∈ before := hjb.subset (by simp)
        rcases List.prefix_or_prefix_of_prefix pref' pref with h | h
        · exact h
        · exfalso
          have : j ∈ before' := h.sublist.subset hjm
          rw [g1'] at hnd
          exact (List.nodup_append.1 hnd).2.2 j this j (by simp) rfl

/-! ## C133 -/

theorem step_fresh {n : ListNet} {k : Nat} {raw : Raw} {s : Sink} (h : n.conns[k]? = some (.fresh raw s)) (a : ListAct) :
    ((n.step env html sched a).conns[k]? = some (.fresh raw s) ∧ a ≠ .start k) ∨
    (a = .start k ∧ ((∃ o s', (n.step env html sched a).Served k o s') ∨ ∃ m, (n.step env html sched a).conns[k]? = some (.waiting m s))) := by
  have hlt := (List.getElem?_eq_some_iff.1 h).1
  cases a with
  | accept raw' s' =>
    refine Or.inl ⟨?_, by simp⟩
    simp only [ListNet.step]
    rw [List.getElem?_append_left hlt]
    exact h
  | start j =>
    by_cases hj : j = k
    · subst hj
      refine Or.inr ⟨rfl, ?_⟩
      simp only [ListNet.step, h]
      split
      · rename_i o s' _
        exact Or.inl ⟨o, s', by simp [ListNet.Served, List.getElem?_set_self hlt]⟩
      · rename_i m _
        exact Or.inr ⟨m, by simp [List.getElem?_set_self hlt]⟩
    · refine Or.inl ⟨?_, by simp [hj]⟩
      simp only [ListNet.step]
      split
      · split <;> · simp only; rw [List.getElem?_set_ne hj]; exact h
      · exact h
  | serve =>
    refine Or.inl ⟨?_, by simp⟩
    simp only [ListNet.step]
    split
    · exact h
    · split
      · rename_i j _ _ _ _ _ _ hj
        have : j ≠ k := by rintro rfl; rw [h] at hj; cases hj
        simp only; rw [List.getElem?_set_ne this]; exact h
      · exact h
  | finish j =>
    refine Or.inl ⟨?_, by simp⟩
    simp only [ListNet.step]
    split
    · rename_i m r s' hj
      have : j ≠ k := by rintro rfl; rw [h] at hj; cases hj
      simp only; rw [List.getElem?_set_ne this]; exact h
    · exact h

theorem step_replied {n : ListNet} {k : Nat} {m : ListMsg} {r : ListReply} {s : Sink} (h : n.conns[k]? = some (.replied m r s)) (a : ListAct) :
    ((n.step env html sched a).conns[k]? = some (.replied m r s) ∧ a ≠ .finish k) ∨
    (a = .finish k ∧ ∃ o s', (n.step env html sched a).Served k o s') := by
  have hlt := (List.getElem?_eq_some_iff.1 h).1
  cases a with
  | accept raw' s' =>
    refine Or.inl ⟨?_, by simp⟩
    simp only [ListNet.step]
    rw [List.getElem?_append_left hlt]
    exact h
  | start j =>
    refine Or.inl ⟨?_, by simp⟩
    simp only [ListNet.step]
    split
    · rename_i raw s' hj
      have : j ≠ k := by rintro rfl; rw [h] at hj; cases hj
      split <;> · simp only; rw [List.getElem?_set_ne this]; exact h
    · exact h
  | serve =>
    refine Or.inl ⟨?_, by simp⟩
    simp only [ListNet.step]
    split
    · exact h
    · split
      · rename_i j _ _ _ _ _ _ hj
        have : j ≠ k := by rintro rfl; rw [h] at hj; cases hj
        simp only; rw [List.getElem?_set_ne this]; exact h
      · exact h
  | finish j =>
    by_cases hj : j = k
    · subst hj
      refine Or.inr ⟨rfl, (listEnd env html m r s).1, (listEnd env html m r s).2, ?_⟩
      simp only [ListNet.step, h, ListNet.Served]
      rw [List.getElem?_set_self hlt]
    · refine Or.inl ⟨?_, by simp [hj]⟩
      simp only [ListNet.step]
      split
      · simp only; rw [List.getElem?_set_ne hj]; exact h
      · exact h

/-- A process that waits moves up in the mailbox each time the list process serves, and keeps its place otherwise. -/
theorem step_waiting {n : ListNet} {k : Nat} {m : ListMsg} {s : Sink} (h : n.conns[k]? = some (.waiting m s))
    {x y : List (Nat × ListMsg)} (hb : n.mailbox = x ++ (k, m) :: y) (hx : ∀ p ∈ x, p.1 ≠ k) (a : ListAct) :
    ((∃ y', (n.step env html sched a).mailbox = x ++ (k, m) :: y') ∧ (n.step env html sched a).conns[k]? = some (.waiting m s) ∧ a ≠ .serve) ∨
    (a = .serve ∧ ((∃ p x', x = p :: x' ∧ (n.step env html sched a).mailbox = x' ++ (k, m) :: y ∧
        (n.step env html sched a).conns[k]? = some (.waiting m s)) ∨
      ∃ r, (n.step env html sched a).conns[k]? = some (.replied m r s))) := by
  have hlt := (List.getElem?_eq_some_iff.1 h).1
  cases a with
  | accept raw' s' =>
    refine Or.inl ⟨⟨y, hb⟩, ?_, by simp⟩
    simp only [ListNet.step]
    rw [List.getElem?_append_left hlt]
    exact h
  | start j =>
    refine Or.inl ⟨?_, ?_, by simp⟩
    · simp only [ListNet.step]
      split
      · split
        · exact ⟨y, hb⟩
        · rename_i msg _
          exact ⟨y ++ [(j, msg)], by simp [hb]⟩
      · exact ⟨y, hb⟩
    · simp only [ListNet.step]
      split
      · rename_i raw s' hj
        have : j ≠ k := by rintro rfl; rw [h] at hj; cases hj
        split <;> · simp only; rw [List.getElem?_set_ne this]; exact h
      · exact h
  | finish j =>
    refine Or.inl ⟨?_, ?_, by simp⟩
    · simp only [ListNet.step]
      split <;> exact ⟨y, hb⟩
    · simp only [ListNet.step]
      split
      · rename_i m' r' s' hj
        have : j ≠ k := by rintro rfl; rw [h] at hj; cases hj
        simp only; rw [List.getElem?_set_ne this]; exact h
      · exact h
  | serve =>
    refine Or.inr ⟨rfl, ?_⟩
    cases x with
    | nil =>
      right
      simp only [ListNet.step, hb, List.nil_append, h]
      exact ⟨_, by rw [List.getElem?_set_self hlt]⟩
    | cons p x' =>
      left
      refine ⟨p, x', rfl, ?_⟩
      obtain ⟨j, mj⟩ := p
      have hj : j ≠ k := hx (j, mj) (by simp)
      simp only [ListNet.step, hb, List.cons_append]
      split
      · refine ⟨rfl, ?_⟩
        simp only; rw [List.getElem?_set_ne hj]; exact h
      · exact ⟨rfl, h⟩

theorem ListNet.after_succ (acts : Nat → ListAct) (i : Nat) :
    ListNet.after env html sched acts (i + 1) = (ListNet.after env html sched acts i).step env html sched (acts i) := by
  rw [ListNet.after, List.range_succ, List.map_append, List.map_cons, List.map_nil, ListNet.exec_snoc]
  rfl

/-- `P` holds from `i` on, or is left at some step. -/
theorem left_some_time {P : Nat → Prop} {Q : Nat → Prop} {i : Nat} (h : P i) (step : ∀ j, i ≤ j → P j → P (j + 1) ∨ Q (j + 1))
    (never : ¬ ∀ j, i ≤ j → P j) : ∃ j, i ≤ j ∧ Q j := by
  refine Classical.byContradiction fun hno => never ?_
  intro j hj
  induction j with
  | zero =>
    have : i = 0 := by omega
    subst this
    exact h
  | succ j ih =>
    by_cases he : i = j + 1
    · subst he; exact h
    have hj : i ≤ j := by omega
    rcases step j hj (ih hj) with h' | h'
    · exact h'
    · exact absurd ⟨j + 1, by omega, h'⟩ hno

/-- **C133.** In every fair history of the list example - any number of clients, whatever they send, connections accepted for ever - the
process of every accepted connection comes to its end. -/
theorem C133_every_client_served (env : HttpEnv) (html : ListPage → String) (sched : Nat → Nat) (acts : Nat → ListAct)
    (hf : ListFair env html sched acts) (i k : Nat) (hk : k < (listAccepted ((List.range i).map acts)).length) :
    ∃ j o s, (ListNet.after env html sched acts j).Served k o s := by
  have inv : ∀ j, ∃ log, ListInv env html sched (listAccepted ((List.range j).map acts)) log (ListNet.after env html sched acts j) := by
    intro j
    obtain ⟨log, h, -⟩ := listInv_exec (env := env) (html := html) (sched := sched) ((List.range j).map acts)
    exact ⟨log, h⟩
  -- replied → done
  have fin : ∀ i m r s, (ListNet.after env html sched acts i).conns[k]? = some (.replied m r s) →
      ∃ j o s, (ListNet.after env html sched acts j).Served k o s := by
    intro i m r s h
    obtain ⟨j, -, o, s', hj⟩ := left_some_time (P := fun j => (ListNet.after env html sched acts j).conns[k]? = some (.replied m r s))
      (Q := fun j => ∃ o s', (ListNet.after env html sched acts j).Served k o s') h (by
        intro j _ hj
        rw [ListNet.after_succ]
        rcases step_replied hj (acts j) with h' | h'
        · exact Or.inl h'.1
        · exact Or.inr h'.2) (by
        intro hall
        obtain ⟨j, hij, hj⟩ := hf.finish i k fun j hj => ⟨m, r, s, hall j hj⟩
        have h1 := hall j hij
        have h2 := hall (j + 1) (by omega)
        rw [ListNet.after_succ] at h2
        rcases step_replied (env := env) (html := html) (sched := sched) h1 (acts j) with h' | ⟨-, o, s', h'⟩
        · exact h'.2 hj
        · rw [ListNet.Served, h2] at h'; cases h')
    exact ⟨j, o, s', hj⟩
  -- waiting → replied
  have wait : ∀ l i m s x y, x.length = l → (ListNet.after env html sched acts i).conns[k]? = some (.waiting m s) →
      (ListNet.after env html sched acts i).mailbox = x ++ (k, m) :: y → (∀ p ∈ x, p.1 ≠ k) →
      ∃ j o s, (ListNet.after env html sched acts j).Served k o s := by
    intro l
    induction l with
    | zero =>
      intro i m s x y hl h hb hx
      have : x = [] := List.eq_nil_of_length_eq_zero hl
      subst this
      obtain ⟨j, -, r, hj⟩ := left_some_time (P := fun j => (∃ y, (ListNet.after env html sched acts j).mailbox = [] ++ (k, m) :: y) ∧
          (ListNet.after env html sched acts j).conns[k]? = some (.waiting m s))
        (Q := fun j => ∃ r, (ListNet.after env html sched acts j).conns[k]? = some (.replied m r s)) (i := i) ⟨⟨y, hb⟩, h⟩ (by
          rintro j - ⟨⟨y, hb⟩, hj⟩
          rw [ListNet.after_succ]
          rcases step_waiting hj hb hx (acts j) with h' | ⟨-, ⟨p, x', h', -⟩ | h'⟩
          · exact Or.inl ⟨h'.1, h'.2.1⟩
          · cases h'
          · exact Or.inr h') (by
          intro hall
          obtain ⟨j, hij, hj⟩ := hf.serve i fun j hj => by
            obtain ⟨⟨y, hy⟩, -⟩ := hall j hj
            rw [hy]; simp
          obtain ⟨⟨y, h1⟩, h2⟩ := hall j hij
          have h3 := (hall (j + 1) (by omega)).2
          rw [ListNet.after_succ] at h3
          rcases step_waiting (env := env) (html := html) (sched := sched) h2 h1 hx (acts j) with h' | ⟨-, ⟨p, x', h', -⟩ | ⟨r, h'⟩⟩
          · exact h'.2.2 hj
          · cases h'
          · rw [h3] at h'; cases h')
      exact fin j m r s hj
    | succ l ih =>
      intro i m s x y hl h hb hx
      obtain ⟨j, -, p, x', y', hx', hj1, hj2⟩ := left_some_time (P := fun j => (∃ y, (ListNet.after env html sched acts j).mailbox = x ++ (k, m) :: y) ∧
          (ListNet.after env html sched acts j).conns[k]? = some (.waiting m s))
        (Q := fun j => ∃ p x' y', x = p :: x' ∧ (ListNet.after env html sched acts j).mailbox = x' ++ (k, m) :: y' ∧
          (ListNet.after env html sched acts j).conns[k]? = some (.waiting m s)) (i := i) ⟨⟨y, hb⟩, h⟩ (by
          rintro j - ⟨⟨y, hb⟩, hj⟩
          rw [ListNet.after_succ]
          rcases step_waiting hj hb hx (acts j) with h' | ⟨ha, ⟨p, x', h1, h2, h3⟩ | ⟨r, h'⟩⟩
          · exact Or.inl ⟨h'.1, h'.2.1⟩
          · exact Or.inr ⟨p, x', y, h1, h2, h3⟩
          · exfalso
            cases x with
            | nil => simp at hl
            | cons q x' =>
              obtain ⟨kq, mq⟩ := q
              have hne : kq ≠ k := hx (kq, mq) (by simp)
              rw [ha] at h'
              simp only [ListNet.step, hb, List.cons_append] at h'
              split at h'
              · simp only at h'; rw [List.getElem?_set_ne hne, hj] at h'; cases h'
              · rw [hj] at h'; cases h') (by
          intro hall
          obtain ⟨j, hij, hj⟩ := hf.serve i fun j hj => by
            obtain ⟨⟨y, hy⟩, -⟩ := hall j hj
            rw [hy]; simp
          obtain ⟨⟨y, h1⟩, h2⟩ := hall j hij
          obtain ⟨⟨y', h3⟩, h3'⟩ := hall (j + 1) (by omega)
          rw [ListNet.after_succ] at h3 h3'
          rcases step_waiting (env := env) (html := html) (sched := sched) h2 h1 hx (acts j) with h' | ⟨-, ⟨p, x', h4, h5, -⟩ | ⟨r, h'⟩⟩
          · exact h'.2.2 hj
          · rw [h5, h4] at h3
            have hmem : p = (k, m) ∨ p ∈ x' := by
              cases x' with
              | nil =>
                simp only [List.nil_append, List.cons_append, List.cons.injEq] at h3
                exact Or.inl h3.1.symm
              | cons q x'' =>
                simp only [List.cons_append, List.cons.injEq] at h3
                exact Or.inr (by simp [h3.1])
            obtain ⟨log, hinv⟩ := inv j
            have hnd := hinv.boxOnce
            rw [h1, h4] at hnd
            simp only [List.cons_append, List.map_cons, List.nodup_cons, List.map_append, List.mem_append] at hnd
            rcases hmem with rfl | hmem
            · exact hnd.1 (Or.inr (by simp))
            · exact hnd.1 (Or.inl (List.mem_map.2 ⟨p, hmem, rfl⟩))
          · rw [h3'] at h'; cases h')
      exact ih j m s x' y' (by rw [hx'] at hl; simpa using hl) hj2 hj1 fun q hq => hx q (by rw [hx']; simp [hq])
  have wait' : ∀ i m s, (ListNet.after env html sched acts i).conns[k]? = some (.waiting m s) →
      ∃ j o s, (ListNet.after env html sched acts j).Served k o s := by
    intro i m s h
    obtain ⟨log, hinv⟩ := inv i
    obtain ⟨raw, s0, -, -, -, hmem, -⟩ := hinv.conn k _ h
    obtain ⟨x, y, hxy⟩ := List.append_of_mem hmem
    refine wait x.length i m s x y rfl h hxy ?_
    intro p hp he
    have hnd := hinv.boxOnce
    rw [hxy, List.map_append] at hnd
    exact (List.nodup_append.1 hnd).2.2 p.1 (List.mem_map.2 ⟨p, hp, rfl⟩) k (by simp) he
  obtain ⟨log, hinv⟩ := inv i
  rw [← hinv.len] at hk
  have hc := List.getElem?_eq_getElem hk
  generalize (ListNet.after env html sched acts i).conns[k] = c at hc
  cases c with
  | done o s => exact ⟨i, o, s, hc⟩
  | replied m r s => exact fin i m r s hc
  | waiting m s => exact wait' i m s hc
  | fresh raw s =>
    obtain ⟨j, -, hj⟩ := left_some_time (P := fun j => (ListNet.after env html sched acts j).conns[k]? = some (.fresh raw s))
      (Q := fun j => (∃ o s', (ListNet.after env html sched acts j).Served k o s') ∨
        ∃ m, (ListNet.after env html sched acts j).conns[k]? = some (.waiting m s)) hc (by
        intro j _ hj
        rw [ListNet.after_succ]
        rcases step_fresh hj (acts j) with h' | h'
        · exact Or.inl h'.1
        · exact Or.inr h'.2) (by
        intro hall
        obtain ⟨j, hij, hj⟩ := hf.start i k fun j hj => ⟨raw, s, hall j hj⟩
        have h1 := hall j hij
        have h2 := hall (j + 1) (by omega)
        rw [ListNet.after_succ] at h2
        rcases step_fresh (env := env) (html := html) (sched := sched) h1 (acts j) with h' | ⟨-, ⟨o, s', h'⟩ | ⟨m, h'⟩⟩
        · exact h'.2 hj
        · rw [ListNet.Served, h2] at h'; cases h'
        · rw [h2] at h'; cases h')
    rcases hj with ⟨o, s', hj⟩ | ⟨m, hj⟩
    · exact ⟨j, o, s', hj⟩
    · exact wait' j m s hj

/-! ## the two models of the list example agree -/

/-- The response for a page. -/
def pageResponse (html : ListPage → String) : ListPage → Response
  | .badRequest => err400
  | .notFound => err404
  | p => listResponse html p

/-- A connection served without interruption does what `listServe` (Model/ListApp, C74 - C76, C86 - C88, C110) says. -/
theorem list_uninterrupted (env : HttpEnv) (html : ListPage → String) (sched : Nat → Nat) (items : List String) (raw : Raw) (s : Sink) (req : Request)
    (hreq : Request.parse env raw = .ok (some req)) :
    ∃ items' o s', [ListAct.start 0, .serve, .finish 0].foldl (ListNet.step env html sched) ⟨items, [], [.fresh raw s]⟩ = ⟨items', [], [.done o s']⟩ ∧
      (∀ page after, listServe env.W sched req items = some (page, after) → items' = after ∧ (o, s') = respondUnwrap env (pageResponse html page) s) ∧
      (listServe env.W sched req items = none → items' = items ∧ o = .panic ∧ s' = s) := by
  have fin : ∀ r : (Outcome Unit Unit × Sink), listBegin env html sched raw s = .inl r →
      [ListAct.start 0, .serve, .finish 0].foldl (ListNet.step env html sched) ⟨items, [], [.fresh raw s]⟩ = ⟨items, [], [.done r.1 r.2]⟩ := by
    rintro ⟨o, s'⟩ h
    simp [ListNet.step, h]
  have ask : ∀ m, listBegin env html sched raw s = .inr m →
      [ListAct.start 0, .serve, .finish 0].foldl (ListNet.step env html sched) ⟨items, [], [.fresh raw s]⟩ =
        ⟨(listHandle items m).1, [], [.done (listEnd env html m (listHandle items m).2 s).1 (listEnd env html m (listHandle items m).2 s).2]⟩ := by
    intro m h
    simp [ListNet.step, h]
  unfold listBegin at fin ask
  simp only [hreq] at fin ask
  unfold listServe
  by_cases h1 : (req.method = .get && doesMatch [.static "submit"] req.url) = true
  · simp only [h1, if_true] at fin ⊢
    exact ⟨_, _, _, fin _ rfl, by rintro page after h; cases h; exact ⟨rfl, rfl⟩, by simp⟩
  simp only [h1, if_false] at fin ask ⊢
  by_cases h2 : (req.method = .post && doesMatch [.static "submit"] req.url) = true
  · simp only [h2, if_true] at fin ask ⊢
    unfold submitHandler
    cases hb : req.body.intoString env.W sched with
    | ok res =>
      simp only [hb] at fin ask ⊢
      by_cases h3 : startsWith "message=" res = true
      · simp only [h3, if_true] at fin ask ⊢
        cases hsp : splitAtSnd (strBytes "message=").length res with
        | none =>
          simp only [hsp] at fin ⊢
          exact ⟨_, _, _, fin _ rfl, by simp, fun _ => ⟨rfl, rfl, rfl⟩⟩
        | some seg =>
          simp only [hsp] at ask ⊢
          exact ⟨_, _, _, ask _ rfl, by rintro page after h; cases h; exact ⟨rfl, rfl⟩, by simp [listHandle]⟩
      · simp only [h3] at fin ⊢
        exact ⟨_, _, _, fin _ rfl, by rintro page after h; cases h; exact ⟨rfl, rfl⟩, by simp⟩
    | err e =>
      simp only [hb] at fin ⊢
      exact ⟨_, _, _, fin _ rfl, by simp, fun _ => ⟨rfl, rfl, rfl⟩⟩
    | panic =>
      simp only [hb] at fin ⊢
      exact ⟨_, _, _, fin _ rfl, by simp, fun _ => ⟨rfl, rfl, rfl⟩⟩
  simp only [h2] at fin ask ⊢
  by_cases h3 : doesMatch [.static "read", .intParam] req.url = true
  · simp only [h3, if_true] at fin ask ⊢
    unfold readHandler
    cases hsp : splitAtSnd (strBytes "/read/").length req.url.path with
    | none =>
      simp only [hsp] at fin ⊢
      exact ⟨_, _, _, fin _ rfl, by simp, fun _ => ⟨rfl, rfl, rfl⟩⟩
    | some segment =>
      simp only [hsp] at fin ask ⊢
      cases hn : parseUsize env.W segment with
      | none =>
        simp only [hn] at fin ⊢
        exact ⟨_, _, _, fin _ rfl, by simp, fun _ => ⟨rfl, rfl, rfl⟩⟩
      | some n =>
        simp only [hn] at ask ⊢
        refine ⟨_, _, _, ask _ rfl, ?_, ?_⟩
        · intro page after h
          rw [listHandle_lastN] at h ⊢
          simp only [Option.some.injEq, Prod.mk.injEq] at h
          obtain ⟨rfl, rfl⟩ := h
          refine ⟨rfl, ?_⟩
          simp only [listEnd]
          split <;> rfl
        · rw [listHandle_lastN]
          simp
  · simp only [h3] at fin ⊢
    exact ⟨_, _, _, fin _ rfl, by rintro page after h; cases h; exact ⟨rfl, rfl⟩, by simp⟩

/-! ## non-vacuity -/

/-- a form submission of `t`, and a read, in bytes -/
def postRaw (t : String) : Raw :=
  [.data (headBytes "POST" "/submit" [("Host", strBytes "a"), ("Content-Length", strBytes "10")] ++ strBytes ("message=" ++ t))]
def readRaw : Raw := [.data (headBytes "GET" "/read/3" [("Host", strBytes "a"), ("Content-Length", strBytes "10")])]

theorem postRaw_wire (t : String) (ht : (strBytes t).length = 2) : WirePost wireEnv (postRaw t) t := by
  have tok : Token (strBytes "POST") := ⟨by decide +kernel, by decide +kernel⟩
  have ts : Target (strBytes "/submit") ∧ strBytes "/" <+: strBytes "/submit" := ⟨⟨by decide +kernel, by decide +kernel⟩, by decide +kernel⟩
  refine ⟨Raw.WF.nil.cons ?_, by simp [Raw.Clean, postRaw], "POST", "/submit", _, "Host", "a",
      ⟨"http://a", "/submit", none⟩, wire_head _ ts _ tok, by decide +kernel, by decide +kernel, rfl, by simp [Raw.avail, postRaw], ?_⟩
  · intro h
    have := congrArg List.length h
    simp only [strBytes_append, List.length_append, ht, List.length_nil] at this
    omega
  · intro p hp hl
    simp only [List.mem_cons, List.not_mem_nil, or_false] at hp
    have hlen : (strBytes ("message=" ++ t)).length = 10 := by
      rw [strBytes_append, List.length_append, ht]
      decide +kernel
    rcases hp with rfl | rfl
    · exact absurd hl (by decide +kernel)
    · refine ⟨"10", by decide +kernel, ?_, by rw [hlen]; decide +kernel, by decide +kernel⟩
      have e1 : (strBytes ("message=" ++ t)).length = Decimal.value (strBytes "10") := by rw [hlen]; decide +kernel
      rw [e1]
      exact .plain ⟨by decide +kernel, by decide +kernel⟩

theorem readRaw_wire : WireRead wireEnv readRaw := by
  have tok : Token (strBytes "GET") := ⟨by decide +kernel, by decide +kernel⟩
  have tr : Target (strBytes "/read/3") ∧ strBytes "/" <+: strBytes "/read/3" := ⟨⟨by decide +kernel, by decide +kernel⟩, by decide +kernel⟩
  refine ⟨Raw.WF.nil.cons (by decide +kernel), "GET", "/read/3", _, "Host", "a", ⟨"http://a", "/read/3", none⟩, "3", 3, [], wire_head _ tr _ tok,
    by decide +kernel, by decide +kernel, ?_, by decide, by simp [Raw.avail, readRaw]⟩
  have : (3 : Nat) = Decimal.value (strBytes "3") := by decide +kernel
  rw [this]
  exact .plain ⟨by decide +kernel, by decide +kernel⟩

/-- Two submissions and a read at the same time, then a second read. -/
def busy : List ListAct :=
  [.accept (postRaw "hi") ⟨[], none⟩, .accept readRaw ⟨[], none⟩, .accept (postRaw "yo") ⟨[], none⟩, .start 2, .start 1, .start 0, .serve, .finish 0,
    .serve, .serve, .finish 1, .finish 0, .finish 2, .accept readRaw ⟨[], none⟩, .serve, .start 3, .serve, .finish 3]

theorem busy_wf : ∀ raw s, ListAct.accept raw s ∈ busy → raw.WF := by
  intro raw s h
  simp only [busy, List.mem_cons, ListAct.accept.injEq, reduceCtorEq, false_or, List.not_mem_nil, or_false] at h
  rcases h with ⟨rfl, -⟩ | ⟨rfl, -⟩ | ⟨rfl, -⟩ | ⟨rfl, -⟩
  · exact (postRaw_wire "hi" (by decide +kernel)).wf
  · exact readRaw_wire.wf
  · exact (postRaw_wire "yo" (by decide +kernel)).wf
  · exact readRaw_wire.wf

theorem busy_begin (html : ListPage → String) (sched : Nat → Nat) :
    (∀ s, listBegin wireEnv html sched (postRaw "hi") s = .inr (.add "hi")) ∧ (∀ s, listBegin wireEnv html sched (postRaw "yo") s = .inr (.add "yo")) ∧
    (∀ s, ∃ n, listBegin wireEnv html sched readRaw s = .inr (.lastN n)) :=
  ⟨fun _ => (listBegin_add (postRaw_wire "hi" (by decide +kernel)).wf "hi").2 ((postRaw_wire "hi" (by decide +kernel)).submits (fun _ => .refl _) hpReq_contract),
   fun _ => (listBegin_add (postRaw_wire "yo" (by decide +kernel)).wf "yo").2 ((postRaw_wire "yo" (by decide +kernel)).submits (fun _ => .refl _) hpReq_contract),
   fun _ => (listBegin_reads (by decide)).2 (readRaw_wire.reads (fun _ => .refl _) hpReq_contract)⟩

/-- C131, C132: the first reader sees one text, the second both, in the order in which the list process took them. -/
example (html : ListPage → String) (sched : Nat → Nat) : (ListNet.exec wireEnv html sched busy).items = ["yo", "hi"] ∧
    (∃ o s, (ListNet.exec wireEnv html sched busy).Served 1 o s) ∧ (∃ o s, (ListNet.exec wireEnv html sched busy).Served 3 o s) ∧
    ListPrecedes wireEnv html sched busy 0 3 ∧ ListPrecedes wireEnv html sched busy 1 3 ∧
    ∃ shown : Nat → List String, shown 1 <+: shown 3 ∧ "hi" ∈ shown 3 ∧
      (ListNet.exec wireEnv html sched busy).Receives 3 (html (listPage (shown 3))) := by
  obtain ⟨b1, b2, b3⟩ := busy_begin html sched
  obtain ⟨n, b3⟩ := b3 ⟨[], none⟩
  have h1 : (ListNet.exec wireEnv html sched busy).items = ["yo", "hi"] := by
    simp [ListNet.exec, busy, ListNet.step, ListNet.init, b1, b2, b3, listHandle]
  have h2 : ∃ o s, (ListNet.exec wireEnv html sched busy).Served 1 o s := by
    simp [ListNet.exec, ListNet.Served, busy, ListNet.step, ListNet.init, b1, b2, b3]
  have h3 : ∃ o s, (ListNet.exec wireEnv html sched busy).Served 3 o s := by
    simp [ListNet.exec, ListNet.Served, busy, ListNet.step, ListNet.init, b1, b2, b3]
  have p0 : ListPrecedes wireEnv html sched busy 0 3 := by
    have h : ∃ o s, (ListNet.exec wireEnv html sched (busy.take 13)).Served 0 o s := by
      simp [ListNet.exec, ListNet.Served, busy, ListNet.step, ListNet.init, b1, b2, b3]
    obtain ⟨o, s, h⟩ := h
    exact ⟨busy.take 13, busy.drop 13, o, s, (List.take_append_drop _ _).symm, h, by simp [listAccepted, busy]⟩
  have p1 : ListPrecedes wireEnv html sched busy 1 3 := by
    have h : ∃ o s, (ListNet.exec wireEnv html sched (busy.take 13)).Served 1 o s := by
      simp [ListNet.exec, ListNet.Served, busy, ListNet.step, ListNet.init, b1, b2, b3]
    obtain ⟨o, s, h⟩ := h
    exact ⟨busy.take 13, busy.drop 13, o, s, (List.take_append_drop _ _).symm, h, by simp [listAccepted, busy]⟩
  refine ⟨h1, h2, h3, p0, p1, ?_⟩
  obtain ⟨-, shown, hs⟩ := C132_clients_agree wireEnv (fun _ => .refl _) hpReq_contract (by decide) html sched busy busy_wf
  obtain ⟨o1, s1, h2⟩ := h2
  obtain ⟨o3, s3, h3⟩ := h3
  obtain ⟨c1, -, c2, c3⟩ := hs 3 readRaw o3 s3 rfl readRaw_wire h3
  refine ⟨shown, (c3 1 readRaw o1 s1 rfl readRaw_wire h2).2 p1, ?_, c1⟩
  have := c2 [(0, "hi")] (by
    intro j t hj
    simp only [List.mem_singleton, Prod.mk.injEq] at hj
    obtain ⟨rfl, rfl⟩ := hj
    exact ⟨p0, postRaw "hi", _, rfl, postRaw_wire "hi" (by decide +kernel)⟩) (by simp)
  exact this.subset (by simp)

/-- C133: one client, served for ever. -/
example (html : ListPage → String) (sched : Nat → Nat) (raw : Raw) (s : Sink) :
    ListFair wireEnv html sched (fun i => if i = 0 then .accept raw s else if i % 3 = 1 then .start 0 else if i % 3 = 2 then .serve else .finish 0) ∧
    0 < (listAccepted ((List.range 1).map fun i => if i = 0 then .accept raw s else if i % 3 = 1 then .start 0 else if i % 3 = 2 then .serve else .finish 0)).length := by
  refine ⟨?_, by simp [listAccepted, List.range_succ]⟩
  generalize ha : (fun i => if i = 0 then ListAct.accept raw s else if i % 3 = 1 then .start 0 else if i % 3 = 2 then .serve else .finish 0) = acts
  have hlen : ∀ i, (ListNet.after wireEnv html sched acts i).conns.length ≤ 1 := by
    intro i
    obtain ⟨log, h, -⟩ := listInv_exec (env := wireEnv) (html := html) (sched := sched) ((List.range i).map acts)
    have e : (ListNet.after wireEnv html sched acts i).conns.length = _ := h.len
    rw [e]
    cases i with
    | zero => simp [listAccepted]
    | succ i =>
      rw [List.range_succ_eq_map, List.map_cons, List.map_map]
      have : listAccepted (acts 0 :: (List.range i).map (acts ∘ Nat.succ)) = [(raw, s)] := by
        rw [listAccepted, List.filterMap_cons]
        have h0 : acts 0 = .accept raw s := by rw [← ha]; rfl
        rw [h0]
        simp only [List.cons.injEq, true_and]
        rw [List.filterMap_eq_nil_iff]
        intro a hm
        obtain ⟨j, -, rfl⟩ := List.mem_map.1 hm
        simp only [Function.comp, ← ha]
        split
        · rename_i h; split at h
          · omega
          · split at h
            · cases h
            · split at h <;> cases h
        · rfl
      rw [this]
      simp
  have hk : ∀ i k c, (ListNet.after wireEnv html sched acts i).conns[k]? = some c → k = 0 := by
    intro i k c h
    have h1 := (List.getElem?_eq_some_iff.1 h).1
    have := hlen i
    omega
  constructor
  · intro i k h
    obtain ⟨raw, s, h⟩ := h i (Nat.le_refl _)
    obtain rfl := hk _ _ _ h
    refine ⟨3 * i + 1, by omega, ?_⟩
    rw [← ha]
    have : (3 * i + 1) % 3 = 1 := by omega
    simp [this]
  · intro i _
    refine ⟨3 * i + 2, by omega, ?_⟩
    rw [← ha]
    have : (3 * i + 2) % 3 = 2 := by omega
    simp [this]
  · intro i k h
    obtain ⟨m, r, s, h⟩ := h i (Nat.le_refl _)
    obtain rfl := hk _ _ _ h
    refine ⟨3 * i + 3, by omega, ?_⟩
    rw [← ha]
    have : (3 * i + 3) % 3 = 0 := by omega
    simp [this]

end Puck
