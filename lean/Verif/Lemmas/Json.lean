import Verif.Model.Json
/-!
# The JSON reader implements the grammar of RFC 8259
-/
namespace Puck.Json

theorem skipWs_ws {w : List Char} (h : Ws w) (r : List Char) : skipWs (w ++ r) = skipWs r := by
  induction w with
  | nil => rfl
  | cons c cs ih =>
    have hc : IsWs c := h c (by simp)
    rw [List.cons_append, skipWs, if_pos hc]
    exact ih fun x hx => h x (by simp [hx])

theorem skipWs_split (cs : List Char) : ∃ w, Ws w ∧ cs = w ++ skipWs cs := by
  induction cs with
  | nil => exact ⟨[], by simp [Ws], rfl⟩
  | cons c cs ih =>
    rw [skipWs]
    split
    · next h =>
      obtain ⟨w, h1, h2⟩ := ih
      refine ⟨c :: w, ?_, by rw [List.cons_append, ← h2]⟩
      intro x hx
      rcases List.mem_cons.mp hx with rfl | hx
      · exact h
      · exact h1 x hx
    · exact ⟨[], by simp [Ws], rfl⟩

theorem skipWs_of_not {c : Char} (h : ¬ IsWs c) (r : List Char) : skipWs (c :: r) = c :: r := by
  rw [skipWs, if_neg h]

theorem skipWs_all {w : List Char} (h : Ws w) : skipWs w = [] := by
  have := skipWs_ws h []
  rw [List.append_nil] at this
  exact this

theorem ws_of_skipWs {r : List Char} (h : skipWs r = []) : Ws r := by
  obtain ⟨w, h1, h2⟩ := skipWs_split r
  rw [h, List.append_nil] at h2
  rw [h2]; exact h1

/-! ## Strings -/

theorem lookup_mem {c : Char} {v : Nat} : simpleEscapes.lookup c = some v → (c, v) ∈ simpleEscapes := by
  simp only [simpleEscapes, List.lookup]
  intro h
  split at h <;> try (next he => simp_all)
  all_goals (repeat' (split at h)) <;> simp_all

theorem mem_lookup {c : Char} {v : Nat} : (c, v) ∈ simpleEscapes → simpleEscapes.lookup c = some v := by
  simp only [simpleEscapes, List.mem_cons, Prod.mk.injEq, List.not_mem_nil, or_false]
  rintro (⟨rfl, rfl⟩ | ⟨rfl, rfl⟩ | ⟨rfl, rfl⟩ | ⟨rfl, rfl⟩ | ⟨rfl, rfl⟩ | ⟨rfl, rfl⟩ | ⟨rfl, rfl⟩ | ⟨rfl, rfl⟩) <;> decide

theorem readChars_sound (cs : List Char) : ∀ us r, readChars cs = some (us, r) →
    ∃ body, CharsText body us ∧ cs = body ++ '"' :: r := by
  fun_induction readChars cs with
  | case1 => intro us r h; simp at h
  | case2 cs =>
    intro us r h
    simp only [Option.some.injEq, Prod.mk.injEq] at h
    obtain ⟨rfl, rfl⟩ := h
    exact ⟨[], .nil, rfl⟩
  | case3 a b c d cs va vb vc vd us' r' h' hd hc hb ha ih =>
    intro us r h
    simp only [Option.some.injEq, Prod.mk.injEq] at h
    obtain ⟨rfl, rfl⟩ := h
    obtain ⟨body, h1, rfl⟩ := ih _ _ h'
    exact ⟨_, .cons (.hex a b c d va vb vc vd ha hb hc hd) h1, rfl⟩
  | case5 c cs hu v us' r' h' hv ih =>
    intro us r h
    simp only [Option.some.injEq, Prod.mk.injEq] at h
    obtain ⟨rfl, rfl⟩ := h
    obtain ⟨body, h1, rfl⟩ := ih _ _ h'
    exact ⟨_, .cons (.simple c v (lookup_mem hv)) h1, rfl⟩
  | case8 c cs hq _ _ hb us' r' h' ih =>
    intro us r h
    simp only [Option.some.injEq, Prod.mk.injEq] at h
    obtain ⟨rfl, rfl⟩ := h
    obtain ⟨body, h1, rfl⟩ := ih _ _ h'
    exact ⟨_, .cons (.plain c hq (fun e => hb (Or.inl e)) (by have := fun e => hb (Or.inr e); omega)) h1, rfl⟩
  | _ => intro us r h; simp at h

theorem readChars_complete {body : List Char} {us : List Nat} (h : CharsText body us) (r : List Char) :
    readChars (body ++ '"' :: r) = some (us, r) := by
  induction h with
  | nil => simp [readChars]
  | @cons t u ts us h1 _ ih =>
    cases h1 with
    | plain c hq hb hc =>
      have hn : ¬ (c = '\\' ∨ c.toNat < 0x20) := by
        rintro (e | e)
        · exact hb e
        · omega
      rw [List.append_assoc, List.cons_append, List.nil_append, readChars, if_neg hn, ih]
      · exact hq
      · intro _ _ _ _ _ e; exact absurd e hb
      · intro _ _ e; exact absurd e hb
    | simple c v hv =>
      rw [List.append_assoc, List.cons_append, List.cons_append, List.nil_append, readChars, mem_lookup hv, ih]
      intro _ _ _ _ _ e
      subst e
      simp [simpleEscapes] at hv
    | hex a b c d va vb vc vd ha hb hc hd =>
      simp only [List.cons_append, List.nil_append]
      rw [readChars, ha, hb, hc, hd, ih]

theorem readString_sound {cs : List Char} {s : List Nat} {r : List Char} (h : readString cs = some (s, r)) :
    ∃ t, StringText t s ∧ cs = t ++ r := by
  match cs with
  | [] => simp [readString] at h
  | c :: cs =>
    by_cases hc : c = '"'
    · subst hc
      rw [readString] at h
      split at h
      · next us r' hr =>
        simp only [Option.some.injEq, Prod.mk.injEq] at h
        obtain ⟨rfl, rfl⟩ := h
        obtain ⟨body, h1, rfl⟩ := readChars_sound _ _ _ hr
        exact ⟨_, ⟨body, us, h1, rfl, rfl⟩, by simp⟩
      · simp at h
    · rw [readString] at h
      · simp at h
      · intro _ e; exact hc (List.cons.inj e).1

theorem readString_complete {t : List Char} {s : List Nat} (h : StringText t s) (r : List Char) :
    readString (t ++ r) = some (s, r) := by
  obtain ⟨body, us, h1, rfl, rfl⟩ := h
  rw [List.cons_append, List.append_assoc, List.cons_append, List.nil_append, readString, readChars_complete h1]

/-! ## Numbers -/

/-- The text does not go on with a digit. -/
def NoDigit : List Char → Prop
  | [] => True
  | c :: _ => ¬ IsDigit c

theorem spanDigits_sound (cs : List Char) : (∀ c ∈ (spanDigits cs).1, IsDigit c) ∧ cs = (spanDigits cs).1 ++ (spanDigits cs).2 := by
  induction cs with
  | nil => simp [spanDigits]
  | cons c cs ih =>
    rw [spanDigits]
    split
    · next h =>
      refine ⟨?_, by rw [List.cons_append, ← ih.2]⟩
      intro x hx
      rcases List.mem_cons.mp hx with rfl | hx
      · exact h
      · exact ih.1 x hx
    · simp

theorem spanDigits_complete {ds r : List Char} (h : ∀ c ∈ ds, IsDigit c) (hr : NoDigit r) : spanDigits (ds ++ r) = (ds, r) := by
  induction ds with
  | nil =>
    cases r with
    | nil => rfl
    | cons c cs => rw [List.nil_append, spanDigits, if_neg hr]
  | cons d ds ih =>
    rw [List.cons_append, spanDigits, if_pos (h d (by simp)), ih fun c hc => h c (by simp [hc])]

theorem readDigits_sound {cs ds r : List Char} (h : readDigits cs = some (ds, r)) : Digits ds ∧ cs = ds ++ r := by
  have hs := spanDigits_sound cs
  rw [readDigits] at h
  split at h
  · simp at h
  · next ds' r' hne he =>
    simp only [Option.some.injEq, Prod.mk.injEq] at h
    obtain ⟨rfl, rfl⟩ := h
    rw [he] at hs
    exact ⟨⟨hne, hs.1⟩, hs.2⟩

theorem readDigits_complete {ds r : List Char} (h : Digits ds) (hr : NoDigit r) : readDigits (ds ++ r) = some (ds, r) := by
  obtain ⟨hne, hd⟩ := h
  rw [readDigits, spanDigits_complete hd hr]
  cases ds with
  | nil => exact absurd rfl hne
  | cons d ds => rfl

theorem readInt_sound {cs i r : List Char} (h : readInt cs = some (i, r)) : IntPart i ∧ cs = i ++ r := by
  cases cs with
  | nil => simp [readInt] at h
  | cons c cs =>
    rw [readInt] at h
    have hs := spanDigits_sound cs
    split at h
    · next hc =>
      simp only [Option.some.injEq, Prod.mk.injEq] at h
      obtain ⟨rfl, rfl⟩ := h
      exact ⟨Or.inl rfl, by rw [hc]; rfl⟩
    · next hc =>
      split at h
      · next hd =>
        simp only [Option.some.injEq, Prod.mk.injEq] at h
        obtain ⟨rfl, rfl⟩ := h
        refine ⟨Or.inr ⟨c, _, rfl, hc, by simp, ?_⟩, by rw [List.cons_append, ← hs.2]⟩
        intro x hx
        rcases List.mem_cons.mp hx with rfl | hx
        · exact hd
        · exact hs.1 x hx
      · simp at h

theorem readInt_complete {i r : List Char} (h : IntPart i) (hr : NoDigit r) : readInt (i ++ r) = some (i, r) := by
  rcases h with rfl | ⟨c, cs, rfl, hc, -, hd⟩
  · rw [List.cons_append, List.nil_append, readInt, if_pos rfl]
  · rw [List.cons_append, readInt, if_neg hc, if_pos (hd c (by simp)), spanDigits_complete (fun x hx => hd x (by simp [hx])) hr]

theorem readFrac_sound {cs f r : List Char} (h : readFrac cs = some (f, r)) : FracPart f ∧ cs = f ++ r := by
  rw [readFrac.eq_def] at h
  split at h
  · split at h
    · next ds r' hd =>
      simp only [Option.some.injEq, Prod.mk.injEq] at h
      obtain ⟨rfl, rfl⟩ := h
      have := readDigits_sound hd
      exact ⟨Or.inr ⟨ds, this.1, rfl⟩, by rw [this.2]; rfl⟩
    · simp at h
  · simp only [Option.some.injEq, Prod.mk.injEq] at h
    obtain ⟨rfl, rfl⟩ := h
    exact ⟨Or.inl rfl, rfl⟩

/-- The text does not go on with a given character. -/
def NotHead (x : Char) : List Char → Prop
  | [] => True
  | c :: _ => c ≠ x

theorem readFrac_complete {f r : List Char} (h : FracPart f) (hr : NoDigit r) (hp : NotHead '.' r) : readFrac (f ++ r) = some (f, r) := by
  rcases h with rfl | ⟨ds, hd, rfl⟩
  · rw [List.nil_append, readFrac.eq_def]
    split
    · exact absurd rfl hp
    · rfl
  · rw [List.cons_append, readFrac, readDigits_complete hd hr]

theorem readExp_sound {cs e r : List Char} (h : readExp cs = some (e, r)) : ExpPart e ∧ cs = e ++ r := by
  cases cs with
  | nil =>
    simp only [readExp, Option.some.injEq, Prod.mk.injEq] at h
    obtain ⟨rfl, rfl⟩ := h
    exact ⟨Or.inl rfl, rfl⟩
  | cons c cs =>
    rw [readExp.eq_def] at h
    dsimp only at h
    split at h
    · next hc =>
      split at h
      all_goals
        rw [Option.map_eq_some_iff] at h
        obtain ⟨⟨ds, r'⟩, hd, he⟩ := h
        simp only [Prod.mk.injEq] at he
        obtain ⟨rfl, rfl⟩ := he
        obtain ⟨h1, h2⟩ := readDigits_sound hd
      · exact ⟨Or.inr ⟨c, ['+'], ds, hc, by simp, h1, rfl⟩, by rw [h2]; rfl⟩
      · exact ⟨Or.inr ⟨c, ['-'], ds, hc, by simp, h1, rfl⟩, by rw [h2]; rfl⟩
      · exact ⟨Or.inr ⟨c, [], ds, hc, by simp, h1, rfl⟩, by rw [h2]; rfl⟩
    · simp only [Option.some.injEq, Prod.mk.injEq] at h
      obtain ⟨rfl, rfl⟩ := h
      exact ⟨Or.inl rfl, rfl⟩

theorem readExp_complete {e r : List Char} (h : ExpPart e) (hr : NoDigit r) (h1 : NotHead 'e' r) (h2 : NotHead 'E' r) :
    readExp (e ++ r) = some (e, r) := by
  rcases h with rfl | ⟨c, sign, ds, hc, hs, hd, rfl⟩
  · rw [List.nil_append]
    cases r with
    | nil => rfl
    | cons x xs =>
      have hn : ¬ (x = 'e' ∨ x = 'E') := by
        rintro (e | e)
        · exact h1 e
        · exact h2 e
      rw [readExp.eq_def]
      dsimp only
      rw [if_neg hn]
  · rw [List.cons_append, List.append_assoc, readExp.eq_def]
    dsimp only
    rw [if_pos hc]
    have hdr := readDigits_complete hd hr
    rcases hs with rfl | rfl | rfl
    · rw [List.nil_append]
      split
      · next hx =>
        cases ds with
        | nil => exact absurd rfl hd.1
        | cons d ds =>
          have hdd := hd.2 d (by simp)
          rw [List.cons_append] at hx
          rw [(List.cons.inj hx).1] at hdd
          exact absurd hdd (by decide)
      · next hx =>
        cases ds with
        | nil => exact absurd rfl hd.1
        | cons d ds =>
          have hdd := hd.2 d (by simp)
          rw [List.cons_append] at hx
          rw [(List.cons.inj hx).1] at hdd
          exact absurd hdd (by decide)
      · rw [hdr]; rfl
    · simp only [List.cons_append, List.nil_append, hdr]; rfl
    · simp only [List.cons_append, List.nil_append, hdr]; rfl

/-- What may follow a value: nothing that could continue a number. -/
def Stop (r : List Char) : Prop := NoDigit r ∧ NotHead '.' r ∧ NotHead 'e' r ∧ NotHead 'E' r

theorem exp_noDigit {e r : List Char} (h : ExpPart e) (hr : Stop r) : NoDigit (e ++ r) ∧ NotHead '.' (e ++ r) := by
  rcases h with rfl | ⟨c, sign, ds, rfl | rfl, -, -, rfl⟩
  · exact ⟨hr.1, hr.2.1⟩
  all_goals exact ⟨by simp only [List.cons_append, NoDigit]; decide, by simp only [List.cons_append, NotHead]; decide⟩

theorem frac_noDigit {f r : List Char} (h : FracPart f) (hr : NoDigit r) : NoDigit (f ++ r) := by
  rcases h with rfl | ⟨ds, -, rfl⟩
  · exact hr
  · simp only [List.cons_append, NoDigit]; decide

theorem readNumber_sound {cs t r : List Char} (h : readNumber cs = some (t, r)) : Number t ∧ cs = t ++ r := by
  have hu : ∀ {cs t r : List Char}, readUnsigned cs = some (t, r) →
      ∃ i f e, IntPart i ∧ FracPart f ∧ ExpPart e ∧ t = i ++ (f ++ e) ∧ cs = t ++ r := by
    intro cs t r h
    rw [readUnsigned] at h
    split at h
    · simp at h
    · next i r1 h1 =>
      split at h
      · simp at h
      · next f r2 h2 =>
        split at h
        · simp at h
        · next e r3 h3 =>
          simp only [Option.some.injEq, Prod.mk.injEq] at h
          obtain ⟨rfl, rfl⟩ := h
          obtain ⟨a1, a2⟩ := readInt_sound h1
          obtain ⟨b1, b2⟩ := readFrac_sound h2
          obtain ⟨c1, c2⟩ := readExp_sound h3
          exact ⟨i, f, e, a1, b1, c1, rfl, by rw [a2, b2, c2]; simp⟩
  rw [readNumber.eq_def] at h
  split at h
  · rw [Option.map_eq_some_iff] at h
    obtain ⟨⟨t', r'⟩, h', he⟩ := h
    simp only [Prod.mk.injEq] at he
    obtain ⟨rfl, rfl⟩ := he
    obtain ⟨i, f, e, h1, h2, h3, h4, h5⟩ := hu h'
    exact ⟨⟨['-'], i, f, e, Or.inr rfl, h1, h2, h3, by rw [h4]; rfl⟩, by rw [h5]; rfl⟩
  · obtain ⟨i, f, e, h1, h2, h3, h4, h5⟩ := hu h
    exact ⟨⟨[], i, f, e, Or.inl rfl, h1, h2, h3, by rw [h4]; rfl⟩, h5⟩

/-- A number starts with a minus sign or a digit. -/
theorem number_head {t : List Char} (h : Number t) : ∃ c cs, t = c :: cs ∧ (c = '-' ∨ IsDigit c) := by
  obtain ⟨minus, i, f, e, hm, hi, -, -, rfl⟩ := h
  have hih : ∃ c cs, i = c :: cs ∧ IsDigit c := by
    rcases hi with rfl | ⟨c, cs, rfl, -, -, hd⟩
    · exact ⟨'0', [], rfl, by decide⟩
    · exact ⟨c, cs, rfl, hd c (by simp)⟩
  obtain ⟨c, cs, rfl, hc⟩ := hih
  rcases hm with rfl | rfl
  · exact ⟨c, _, rfl, Or.inr hc⟩
  · exact ⟨'-', _, rfl, Or.inl rfl⟩

theorem readNumber_complete {t r : List Char} (h : Number t) (hr : Stop r) : readNumber (t ++ r) = some (t, r) := by
  obtain ⟨minus, i, f, e, hm, hi, hf, he, rfl⟩ := h
  have he' := exp_noDigit he hr
  have hu : readUnsigned (i ++ (f ++ (e ++ r))) = some (i ++ (f ++ e), r) := by
    rw [readUnsigned, readInt_complete hi (frac_noDigit hf he'.1)]
    simp only [readFrac_complete hf he'.1 he'.2, readExp_complete he hr.1 hr.2.2.1 hr.2.2.2]
  rcases hm with rfl | rfl
  · rw [readNumber.eq_def]
    simp only [List.nil_append, List.append_assoc] at *
    split
    · next hx =>
      rcases hi with rfl | ⟨c, cs, rfl, -, -, hd⟩
      · simp at hx
      · rw [List.cons_append] at hx
        have := hd c (by simp)
        rw [(List.cons.inj hx).1] at this
        exact absurd this (by decide)
    · exact hu
  · simp only [List.cons_append, List.nil_append, List.append_assoc, readNumber, hu]
    rfl

/-! ## Values -/

theorem readValue_number {c : Char} (h : c = '-' ∨ IsDigit c) (n : Nat) (cs : List Char) :
    readValue (n + 1) (c :: cs) = (readNumber (c :: cs)).map fun x => (.num x.1, x.2) := by
  have hne : ∀ x : Char, x = 'n' ∨ x = 't' ∨ x = 'f' ∨ x = '"' ∨ x = '[' ∨ x = '{' → c ≠ x := by
    rintro x (rfl | rfl | rfl | rfl | rfl | rfl) rfl <;> revert h <;> decide
  rw [readValue]
  · intro r e; exact hne _ (by simp) (List.cons.inj e).1
  · intro r e; exact hne _ (by simp) (List.cons.inj e).1
  · intro r e; exact hne _ (by simp) (List.cons.inj e).1
  · intro r e; exact hne _ (by simp) (List.cons.inj e).1
  · intro r e; exact hne _ (by simp) (List.cons.inj e).1
  · intro r e; exact hne _ (by simp) (List.cons.inj e).1

theorem skipWs_skipWs (cs : List Char) : skipWs (skipWs cs) = skipWs cs := by
  induction cs with
  | nil => rfl
  | cons c cs ih =>
    by_cases h : IsWs c
    · rw [skipWs, if_pos h, ih]
    · rw [skipWs_of_not h, skipWs_of_not h]

theorem readElements_skip (n : Nat) (cs : List Char) : readElements n (skipWs cs) = readElements n cs := by
  cases n with
  | zero => rw [readElements, readElements]
  | succ n => rw [readElements, readElements, skipWs_skipWs]

theorem readMembers_skip (n : Nat) (cs : List Char) : readMembers n (skipWs cs) = readMembers n cs := by
  cases n with
  | zero => rw [readMembers, readMembers]
  | succ n => rw [readMembers, readMembers, skipWs_skipWs]

theorem readElements_close (n : Nat) (r : List Char) : readElements n (']' :: r) = none := by
  cases n with
  | zero => rw [readElements]
  | succ n =>
    rw [readElements, skipWs_of_not (by decide)]
    cases n with
    | zero => rw [readValue]
    | succ n =>
      rw [readValue]
      · have : readNumber (']' :: r) = none := by
          rw [readNumber.eq_def]
          split
          · next h => exact absurd (List.cons.inj h).1 (by decide)
          · rw [readUnsigned, readInt, if_neg (by decide), if_neg (by decide)]
        rw [this]; rfl
      all_goals intro _ e; exact absurd (List.cons.inj e).1 (by decide)

theorem readMembers_close (n : Nat) (r : List Char) : readMembers n ('}' :: r) = none := by
  cases n with
  | zero => rw [readMembers]
  | succ n =>
    rw [readMembers, skipWs_of_not (by decide), readString]
    intro _ e; exact absurd (List.cons.inj e).1 (by decide)

theorem readValue_arr {n : Nat} {cs r : List Char} {vs : List Value} (h : readElements n cs = some (vs, r)) :
    readValue (n + 1) ('[' :: cs) = some (.arr vs, r) := by
  rw [readValue]
  split
  · next r' hs =>
    rw [← readElements_skip, hs, readElements_close] at h
    simp at h
  · rw [readElements_skip, h]; rfl

theorem readValue_obj {n : Nat} {cs r : List Char} {ms : List (List Nat × Value)} (h : readMembers n cs = some (ms, r)) :
    readValue (n + 1) ('{' :: cs) = some (.obj ms, r) := by
  rw [readValue]
  split
  · next r' hs =>
    rw [← readMembers_skip, hs, readMembers_close] at h
    simp at h
  · rw [readMembers_skip, h]; rfl

theorem stop_cons {c : Char} (h : ¬ IsDigit c) (h1 : c ≠ '.') (h2 : c ≠ 'e') (h3 : c ≠ 'E') (r : List Char) : Stop (c :: r) :=
  ⟨h, h1, h2, h3⟩

theorem stop_ws {w : List Char} (h : Ws w) {r : List Char} (hr : Stop r) : Stop (w ++ r) := by
  cases w with
  | nil => exact hr
  | cons c cs =>
    have hc : IsWs c := h c (by simp)
    rcases hc with rfl | rfl | rfl | rfl <;> exact stop_cons (by decide) (by decide) (by decide) (by decide) _

theorem digit_not_ws {c : Char} (h : c = '-' ∨ IsDigit c) : ¬ IsWs c := by
  intro hw
  rcases hw with rfl | rfl | rfl | rfl <;> revert h <;> decide

theorem value_head {t : List Char} {v : Value} (h : ValueText t v) (r : List Char) : skipWs (t ++ r) = t ++ r := by
  have key : ∃ c cs, t = c :: cs ∧ ¬ IsWs c := by
    cases h with
    | num h =>
      obtain ⟨c, cs, rfl, hd⟩ := number_head h
      exact ⟨c, cs, rfl, digit_not_ws hd⟩
    | str h =>
      obtain ⟨body, us, -, rfl, -⟩ := h
      exact ⟨_, _, rfl, by decide⟩
    | _ => exact ⟨_, _, rfl, by decide⟩
  obtain ⟨c, cs, rfl, hc⟩ := key
  exact skipWs_of_not hc _

theorem string_head {t : List Char} {s : List Nat} (h : StringText t s) (r : List Char) : skipWs (t ++ r) = t ++ r :=
  value_head (.str h) r

mutual
theorem readValue_complete : ∀ {t : List Char} {v : Value}, ValueText t v → ∀ n r, 2 * t.length < n → Stop r →
    readValue n (t ++ r) = some (v, r)
  | _, _, .null, n, r, hn, _ => by
    obtain ⟨m, rfl⟩ : ∃ m, n = m + 1 := ⟨n - 1, by omega⟩
    simp [readValue]
  | _, _, .true, n, r, hn, _ => by
    obtain ⟨m, rfl⟩ : ∃ m, n = m + 1 := ⟨n - 1, by omega⟩
    simp [readValue]
  | _, _, .false, n, r, hn, _ => by
    obtain ⟨m, rfl⟩ : ∃ m, n = m + 1 := ⟨n - 1, by omega⟩
    simp [readValue]
  | _, _, .num h, n, r, hn, hr => by
    obtain ⟨m, rfl⟩ : ∃ m, n = m + 1 := ⟨n - 1, by omega⟩
    have hc := readNumber_complete h hr
    obtain ⟨c, cs, rfl, hd⟩ := number_head h
    rw [List.cons_append] at hc ⊢
    rw [readValue_number hd, hc]; rfl
  | _, _, .str (t := t) h, n, r, hn, hr => by
    obtain ⟨m, rfl⟩ : ∃ m, n = m + 1 := ⟨n - 1, by omega⟩
    have hc := readString_complete h r
    obtain ⟨body, us, h1, rfl, rfl⟩ := h
    rw [List.cons_append] at hc ⊢
    rw [readValue, hc]; rfl
  | _, _, .emptyArr (w := w) h, n, r, hn, hr => by
    obtain ⟨m, rfl⟩ : ∃ m, n = m + 1 := ⟨n - 1, by omega⟩
    rw [List.cons_append, List.append_assoc, readValue, skipWs_ws h, List.cons_append, skipWs_of_not (by decide)]
    rfl
  | _, _, .arr (t := t) h, n, r, hn, hr => by
    obtain ⟨m, rfl⟩ : ∃ m, n = m + 1 := ⟨n - 1, by omega⟩
    rw [List.cons_append, List.append_assoc, List.cons_append, List.nil_append]
    refine readValue_arr (readElements_complete h m r ?_)
    simp only [List.length_cons, List.length_append, List.length_nil] at hn
    omega
  | _, _, .emptyObj (w := w) h, n, r, hn, hr => by
    obtain ⟨m, rfl⟩ : ∃ m, n = m + 1 := ⟨n - 1, by omega⟩
    rw [List.cons_append, List.append_assoc, readValue, skipWs_ws h, List.cons_append, skipWs_of_not (by decide)]
    rfl
  | _, _, .obj (t := t) h, n, r, hn, hr => by
    obtain ⟨m, rfl⟩ : ∃ m, n = m + 1 := ⟨n - 1, by omega⟩
    rw [List.cons_append, List.append_assoc, List.cons_append, List.nil_append]
    refine readValue_obj (readMembers_complete h m r ?_)
    simp only [List.length_cons, List.length_append, List.length_nil] at hn
    omega
theorem readElements_complete : ∀ {t : List Char} {vs : List Value}, ElementsText t vs → ∀ n r, 2 * t.length + 1 < n →
    readElements n (t ++ ']' :: r) = some (vs, r)
  | _, _, .one (w := w) (t := t) (w' := w') h1 h2 h3, n, r, hn => by
    obtain ⟨m, rfl⟩ : ∃ m, n = m + 1 := ⟨n - 1, by omega⟩
    simp only [List.length_append] at hn
    have hv := readValue_complete h2 m (w' ++ ']' :: r) (by omega)
      (stop_ws h3 (stop_cons (by decide) (by decide) (by decide) (by decide) _))
    simp only [List.append_assoc]
    rw [readElements, skipWs_ws h1, value_head h2, hv]
    simp only [skipWs_ws h3, skipWs_of_not (show ¬ IsWs ']' by decide)]
  | _, _, .more (w := w) (t := t) (w' := w') (ts := ts) h1 h2 h3 h4, n, r, hn => by
    obtain ⟨m, rfl⟩ : ∃ m, n = m + 1 := ⟨n - 1, by omega⟩
    simp only [List.length_append, List.length_cons] at hn
    have hv := readValue_complete h2 m (w' ++ ',' :: (ts ++ ']' :: r)) (by omega)
      (stop_ws h3 (stop_cons (by decide) (by decide) (by decide) (by decide) _))
    have ht := readElements_complete h4 m r (by omega)
    simp only [List.append_assoc, List.cons_append]
    rw [readElements, skipWs_ws h1, value_head h2, hv]
    simp only [skipWs_ws h3, skipWs_of_not (show ¬ IsWs ',' by decide), ht]
    rfl
theorem readMembers_complete : ∀ {t : List Char} {ms : List (List Nat × Value)}, MembersText t ms → ∀ n r, 2 * t.length + 1 < n →
    readMembers n (t ++ '}' :: r) = some (ms, r)
  | _, _, .one (w := w) (k := k) (w1 := w1) (w2 := w2) (t := t) (w3 := w3) h0 hk h1 h2 hv h3, n, r, hn => by
    obtain ⟨m, rfl⟩ : ∃ m, n = m + 1 := ⟨n - 1, by omega⟩
    simp only [List.length_append, List.length_cons] at hn
    have hv' := readValue_complete hv m (w3 ++ '}' :: r) (by omega)
      (stop_ws h3 (stop_cons (by decide) (by decide) (by decide) (by decide) _))
    simp only [List.append_assoc, List.cons_append]
    rw [readMembers, skipWs_ws h0, string_head hk, readString_complete hk]
    simp only [skipWs_ws h1, skipWs_of_not (show ¬ IsWs ':' by decide), skipWs_ws h2, value_head hv, hv', skipWs_ws h3,
      skipWs_of_not (show ¬ IsWs '}' by decide)]
  | _, _, .more (w := w) (k := k) (w1 := w1) (w2 := w2) (t := t) (w3 := w3) (ts := ts) h0 hk h1 h2 hv h3 h4, n, r, hn => by
    obtain ⟨m, rfl⟩ : ∃ m, n = m + 1 := ⟨n - 1, by omega⟩
    simp only [List.length_append, List.length_cons] at hn
    have hv' := readValue_complete hv m (w3 ++ ',' :: (ts ++ '}' :: r)) (by omega)
      (stop_ws h3 (stop_cons (by decide) (by decide) (by decide) (by decide) _))
    have ht := readMembers_complete h4 m r (by omega)
    simp only [List.append_assoc, List.cons_append]
    rw [readMembers, skipWs_ws h0, string_head hk, readString_complete hk]
    simp only [skipWs_ws h1, skipWs_of_not (show ¬ IsWs ':' by decide), skipWs_ws h2, value_head hv, hv', skipWs_ws h3,
      skipWs_of_not (show ¬ IsWs ',' by decide), ht]
    rfl
end

theorem read_sound (n : Nat) :
    (∀ cs v r, readValue n cs = some (v, r) → ∃ t, ValueText t v ∧ cs = t ++ r) ∧
    (∀ cs vs r, readElements n cs = some (vs, r) → ∃ t, ElementsText t vs ∧ cs = t ++ ']' :: r) ∧
    (∀ cs ms r, readMembers n cs = some (ms, r) → ∃ t, MembersText t ms ∧ cs = t ++ '}' :: r) := by
  induction n with
  | zero =>
    refine ⟨?_, ?_, ?_⟩ <;> intro cs v r h
    · rw [readValue] at h; simp at h
    · rw [readElements] at h; simp at h
    · rw [readMembers] at h; simp at h
  | succ n ih =>
    obtain ⟨ihv, ihe, ihm⟩ := ih
    refine ⟨?_, ?_, ?_⟩
    · intro cs v r h
      rw [readValue.eq_def] at h
      split at h
      · next he => simp at he
      · simp only [Option.some.injEq, Prod.mk.injEq] at h
        obtain ⟨rfl, rfl⟩ := h
        exact ⟨_, .null, rfl⟩
      · simp only [Option.some.injEq, Prod.mk.injEq] at h
        obtain ⟨rfl, rfl⟩ := h
        exact ⟨_, .true, rfl⟩
      · simp only [Option.some.injEq, Prod.mk.injEq] at h
        obtain ⟨rfl, rfl⟩ := h
        exact ⟨_, .false, rfl⟩
      · rw [Option.map_eq_some_iff] at h
        obtain ⟨⟨s, r'⟩, h', he⟩ := h
        simp only [Prod.mk.injEq] at he
        obtain ⟨rfl, rfl⟩ := he
        obtain ⟨t, h1, h2⟩ := readString_sound h'
        exact ⟨t, .str h1, h2⟩
      · next m cs he =>
        cases he
        split at h
        · next r' hs =>
          simp only [Option.some.injEq, Prod.mk.injEq] at h
          obtain ⟨rfl, rfl⟩ := h
          obtain ⟨w, h1, h2⟩ := skipWs_split cs
          refine ⟨_, .emptyArr h1, ?_⟩
          rw [h2, hs]; simp
        · rw [Option.map_eq_some_iff] at h
          obtain ⟨⟨s, r'⟩, h', he⟩ := h
          simp only [Prod.mk.injEq] at he
          obtain ⟨rfl, rfl⟩ := he
          rw [readElements_skip] at h'
          obtain ⟨t, h1, h2⟩ := ihe _ _ _ h'
          exact ⟨_, .arr h1, by rw [h2]; simp⟩
      · next m cs he =>
        cases he
        split at h
        · next r' hs =>
          simp only [Option.some.injEq, Prod.mk.injEq] at h
          obtain ⟨rfl, rfl⟩ := h
          obtain ⟨w, h1, h2⟩ := skipWs_split cs
          refine ⟨_, .emptyObj h1, ?_⟩
          rw [h2, hs]; simp
        · rw [Option.map_eq_some_iff] at h
          obtain ⟨⟨s, r'⟩, h', he⟩ := h
          simp only [Prod.mk.injEq] at he
          obtain ⟨rfl, rfl⟩ := he
          rw [readMembers_skip] at h'
          obtain ⟨t, h1, h2⟩ := ihm _ _ _ h'
          exact ⟨_, .obj h1, by rw [h2]; simp⟩
      · rw [Option.map_eq_some_iff] at h
        obtain ⟨⟨s, r'⟩, h', he⟩ := h
        simp only [Prod.mk.injEq] at he
        obtain ⟨rfl, rfl⟩ := he
        obtain ⟨h1, h2⟩ := readNumber_sound h'
        exact ⟨_, .num h1, h2⟩
    · intro cs vs r h
      rw [readElements] at h
      obtain ⟨w, hw, hcs⟩ := skipWs_split cs
      split at h
      · simp at h
      · next v r1 hv =>
        obtain ⟨t, ht, h2⟩ := ihv _ _ _ hv
        obtain ⟨w', hw', hr1⟩ := skipWs_split r1
        split at h
        · next r' hs =>
          simp only [Option.some.injEq, Prod.mk.injEq] at h
          obtain ⟨rfl, rfl⟩ := h
          refine ⟨_, .one hw ht hw', ?_⟩
          rw [hcs, h2, hr1, hs]; simp
        · next r' hs =>
          rw [Option.map_eq_some_iff] at h
          obtain ⟨⟨s, r2⟩, h', he⟩ := h
          simp only [Prod.mk.injEq] at he
          obtain ⟨rfl, rfl⟩ := he
          obtain ⟨ts, h3, h4⟩ := ihe _ _ _ h'
          refine ⟨_, .more hw ht hw' h3, ?_⟩
          rw [hcs, h2, hr1, hs, h4]; simp
        · simp at h
    · intro cs ms r h
      rw [readMembers] at h
      obtain ⟨w, hw, hcs⟩ := skipWs_split cs
      split at h
      · simp at h
      · next k r1 hk =>
        obtain ⟨tk, htk, hk2⟩ := readString_sound hk
        obtain ⟨w1, hw1, hr1⟩ := skipWs_split r1
        split at h
        · next r' hs =>
          obtain ⟨w2, hw2, hr'⟩ := skipWs_split r'
          split at h
          · simp at h
          · next v r2 hv =>
            obtain ⟨t, ht, h2⟩ := ihv _ _ _ hv
            obtain ⟨w3, hw3, hr2⟩ := skipWs_split r2
            split at h
            · next r3 hs3 =>
              simp only [Option.some.injEq, Prod.mk.injEq] at h
              obtain ⟨rfl, rfl⟩ := h
              refine ⟨_, .one hw htk hw1 hw2 ht hw3, ?_⟩
              rw [hcs, hk2, hr1, hs, hr', h2, hr2, hs3]; simp
            · next r3 hs3 =>
              rw [Option.map_eq_some_iff] at h
              obtain ⟨⟨s, r4⟩, h', he⟩ := h
              simp only [Prod.mk.injEq] at he
              obtain ⟨rfl, rfl⟩ := he
              obtain ⟨ts, h3, h4⟩ := ihm _ _ _ h'
              refine ⟨_, .more hw htk hw1 hw2 ht hw3 h3, ?_⟩
              rw [hcs, hk2, hr1, hs, hr', h2, hr2, hs3, h4]; simp
            · simp at h
        · simp at h

/-- The reader accepts exactly the JSON texts, and reads what they denote. -/
theorem parse_iff (text : String) (v : Value) : parse text = some v ↔ Denotes text v := by
  constructor
  · intro h
    rw [parse] at h
    split at h
    · simp at h
    · next v' r hv =>
      split at h
      · next hr =>
        cases h
        obtain ⟨t, h1, h2⟩ := (read_sound _).1 _ _ _ hv
        obtain ⟨w, hw, hs⟩ := skipWs_split text.toList
        exact ⟨w, t, r, hw, h1, ws_of_skipWs hr, by rw [hs, h2]⟩
      · simp at h
  · rintro ⟨w, t, w', hw, ht, hw', he⟩
    have hlen : t.length ≤ text.toList.length := by rw [he]; simp; omega
    rw [parse]
    rw [he] at hlen ⊢
    rw [skipWs_ws hw, value_head ht, readValue_complete ht _ w' (by omega) (by
      have := stop_ws hw' (r := []) ⟨trivial, trivial, trivial, trivial⟩
      rwa [List.append_nil] at this)]
    simp only [skipWs_all hw', if_true]

end Puck.Json
