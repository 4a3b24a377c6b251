import Verif.Model.Mime
import Verif.Spec.Mime
/-!
# Properties of MIME types (C46)
-/
namespace Puck
open MimeSpec

theorem isTokenChar_iff (c : Char) : isTokenChar c = true ↔ tchar c := by
  unfold isTokenChar tchar
  have : "!#$%&'*+-.^_`|~".toList = ['!', '#', '$', '%', '&', '\'', '*', '+', '-', '.', '^', '_', '`', '|', '~'] := by
    decide +kernel
  rw [this]
  simp only [Bool.or_eq_true, Bool.and_eq_true, decide_eq_true_eq, List.contains_iff_mem]
  constructor
  · rintro (h | (h | h) | h)
    · exact Or.inr (Or.inr (Or.inr h))
    · exact Or.inl h
    · exact Or.inr (Or.inl h)
    · exact Or.inr (Or.inr (Or.inl h))
  · rintro (h | h | h | h)
    · exact Or.inr (Or.inl (Or.inl h))
    · exact Or.inr (Or.inl (Or.inr h))
    · exact Or.inr (Or.inr h)
    · exact Or.inl h

theorem tchar_ne {c : Char} (h : tchar c) : c ≠ ';' ∧ c ≠ '"' ∧ c ≠ '\\' ∧ c ≠ '=' := by
  rcases h with ⟨h1, h2⟩ | ⟨h1, h2⟩ | ⟨h1, h2⟩ | h
  · refine ⟨?_, ?_, ?_, ?_⟩ <;> rintro rfl <;> revert h1 h2 <;> decide
  · refine ⟨?_, ?_, ?_, ?_⟩ <;> rintro rfl <;> revert h1 h2 <;> decide
  · refine ⟨?_, ?_, ?_, ?_⟩ <;> rintro rfl <;> revert h1 h2 <;> decide
  · refine ⟨?_, ?_, ?_, ?_⟩ <;> rintro rfl <;> revert h <;> decide

theorem upTo_append {stop : Char → Bool} {a : List Char} (h : ∀ c ∈ a, stop c = false) (t : List Char)
    (ht : ∀ c, t.head? = some c → stop c = true) : upTo stop (a ++ t) = (a, t) := by
  induction a with
  | nil =>
    cases t with
    | nil => rfl
    | cons c t => simp [upTo, ht c rfl]
  | cons x a ih =>
    have := ih fun c hc => h c (by simp [hc])
    simp [upTo, h x (by simp), this]

theorem quoted_escape (v t : List Char) : quoted (escapeMime v ++ '"' :: t) = some (v, t) := by
  induction v with
  | nil => simp [escapeMime, quoted]
  | cons c v ih =>
    by_cases h1 : c = '"'
    · subst h1
      have : escapeMime ('"' :: v) = '\\' :: '"' :: escapeMime v := by simp [escapeMime]
      rw [this, List.cons_append, List.cons_append, quoted]
      simp [ih]
    · by_cases h2 : c = '\\'
      · subst h2
        have : escapeMime ('\\' :: v) = '\\' :: '\\' :: escapeMime v := by simp [escapeMime]
        rw [this, List.cons_append, List.cons_append, quoted]
        simp [ih]
      · have : escapeMime (c :: v) = c :: escapeMime v := by simp [escapeMime, h1, h2]
        rw [this, List.cons_append, quoted]
        · simp [ih]
        · exact fun h => h1 h
        · exact fun x t' hx => absurd hx h2

theorem params_one {k : Nat} {name : List Char} {value : String} {rest : List Char} (hn : ∀ c ∈ name, c ≠ '=')
    (hr : ∀ c, rest.head? = some c → c = ';') :
    params (k + 1) (Mime.fmtParam (String.ofList name, value) ++ rest) =
      (params k rest).map fun l => (name, value.toList) :: l := by
  unfold Mime.fmtParam
  simp only [String.toList_ofList]
  split
  · rename_i h
    simp only [Bool.and_eq_true, List.all_eq_true, Bool.not_eq_true'] at h
    obtain ⟨h1, h2⟩ := h
    have hne : value.toList ≠ [] := by
      intro h0
      have : value = "" := by simpa using h0
      subst this
      simp at h2
    simp only [List.cons_append, List.append_assoc]
    rw [params, upTo_append (t := '=' :: (value.toList ++ rest)) (by simpa using hn) (by simp)]
    generalize hv : value.toList = v at h1 hne
    cases v with
    | nil => exact absurd rfl hne
    | cons c v =>
      have hc := tchar_ne ((isTokenChar_iff c).1 (h1 c (by simp)))
      have hu : upTo (· == ';') (c :: v ++ rest) = (c :: v, rest) := by
        refine upTo_append ?_ rest (by intro c hc; simpa using hr c hc)
        intro d hd
        simpa using (tchar_ne ((isTokenChar_iff d).1 (h1 d hd))).1
      simp only [List.cons_append] at hu ⊢
      split
      · rename_i heq
        simp only [Prod.mk.injEq, List.cons.injEq, true_and] at heq
        exact absurd heq.2.1 hc.2.1
      · rename_i heq
        simp only [Prod.mk.injEq, List.cons.injEq, true_and] at heq
        obtain ⟨rfl, rfl⟩ := heq
        rw [hu]
      · rename_i h
        exact absurd rfl (h _ _)
  · simp only [List.cons_append, List.append_assoc, List.nil_append]
    rw [params, upTo_append (t := '=' :: '"' :: (escapeMime value.toList ++ '"' :: rest)) (by simpa using hn) (by simp)]
    simp only [quoted_escape]

theorem fmtParam_head (p : String × String) : ∃ t, Mime.fmtParam p = ';' :: t := by
  unfold Mime.fmtParam
  split <;> exact ⟨_, rfl⟩

theorem params_all (ps : List (String × String)) (hn : ∀ p ∈ ps, ∀ c ∈ p.1.toList, c ≠ '=') :
    ∀ k, ps.length ≤ k → params k ((ps.map Mime.fmtParam).flatten) = some (ps.map fun p => (p.1.toList, p.2.toList)) := by
  induction ps with
  | nil => intro k _; cases k <;> simp [params]
  | cons p ps ih =>
    intro k hk
    cases k with
    | zero => simp at hk
    | succ k =>
      have := ih (fun q hq => hn q (by simp [hq])) k (by simpa using hk)
      rw [List.map_cons, List.flatten_cons]
      have e : p = (String.ofList p.1.toList, p.2) := by simp
      rw [e, params_one (hn p (by simp)), this]
      · simp
      · intro c hc
        cases ps with
        | nil => simp at hc
        | cons q qs =>
          obtain ⟨t, ht⟩ := fmtParam_head q
          simp [ht] at hc
          exact hc.symm

/-- **C46.** For every MIME value, the text begins with the essence, and a reader of MIME parameters recovers
from what follows exactly the parameters in order, with exactly their values (whatever characters these
contain), preceded by `charset=utf-8` if the flag is set.  A non-empty token is written bare, everything
else quoted. -/
theorem C46_mime_params (m : Mime) (hn : ∀ p ∈ m.params, ∀ c ∈ p.1.toList, c ≠ '=') :
    ∃ t, m.toStr = m.essence ++ String.ofList t ∧
      params (m.params.length + 1) t = some ((if m.isUtf8 then [("charset".toList, "utf-8".toList)] else []) ++
        m.params.map fun p => (p.1.toList, p.2.toList)) ∧
      ∀ p, (p.2.toList ≠ [] ∧ (∀ c ∈ p.2.toList, tchar c) → Mime.fmtParam p = ';' :: p.1.toList ++ '=' :: p.2.toList) ∧
        (¬ (p.2.toList ≠ [] ∧ ∀ c ∈ p.2.toList, tchar c) →
          ∃ q, Mime.fmtParam p = ';' :: p.1.toList ++ '=' :: '"' :: q ∧ quoted q = some (p.2.toList, [])) := by
  have hcond : ∀ p : String × String, (p.2.toList.all isTokenChar && !p.2.isEmpty) = true ↔
      p.2.toList ≠ [] ∧ ∀ c ∈ p.2.toList, tchar c := by
    intro p
    simp only [Bool.and_eq_true, List.all_eq_true, isTokenChar_iff, Bool.not_eq_true']
    constructor
    · rintro ⟨h1, h2⟩
      refine ⟨?_, h1⟩
      intro h0
      have : p.2 = "" := by simpa using h0
      rw [this] at h2
      simp at h2
    · rintro ⟨h1, h2⟩
      refine ⟨h2, ?_⟩
      cases he : p.2.isEmpty with
      | false => rfl
      | true => exact absurd (by simpa using he) h1
  refine ⟨(if m.isUtf8 then ";charset=utf-8".toList else []) ++ (m.params.map Mime.fmtParam).flatten, ?_, ?_, ?_⟩
  · unfold Mime.toStr
    rw [String.append_assoc]
    congr 1
    cases m.isUtf8 with
    | true => simp only [if_true, String.ofList_append]; rfl
    | false => simp only [Bool.false_eq_true, if_false, List.nil_append]; simp
  · cases m.isUtf8 with
    | false =>
      simp only [Bool.false_eq_true, if_false, List.nil_append]
      exact params_all m.params hn _ (by omega)
    | true =>
      simp only [if_true]
      have : params (m.params.length + 1) (((("charset", "utf-8") :: m.params).map Mime.fmtParam).flatten) = _ :=
        params_all (("charset", "utf-8") :: m.params) (by
          intro p hp c hc
          simp only [List.mem_cons] at hp
          rcases hp with rfl | hp
          · revert c; decide +kernel
          · exact hn p hp c hc) _ (by simp)
      have e : ";charset=utf-8".toList = Mime.fmtParam ("charset", "utf-8") := by decide +kernel
      rw [e]
      simpa using this
  · intro p
    refine ⟨fun h => ?_, fun h => ?_⟩
    · unfold Mime.fmtParam; rw [if_pos ((hcond p).2 h)]
    · refine ⟨escapeMime p.2.toList ++ ['"'], ?_, quoted_escape _ _⟩
      unfold Mime.fmtParam
      rw [if_neg (fun hc => h ((hcond p).1 hc))]
      simp

/-- example: an empty value, a value with a quote and a backslash, and a token. -/
example : Mime.toStr ⟨"a/b", true, [("x", ""), ("y", "q\"\\;"), ("z", "t")]⟩ =
    "a/b;charset=utf-8;x=\"\";y=\"q\\\"\\\\;\";z=t" := by decide +kernel

/-- The types the crate defines, written out. -/
theorem C46_constants : Mime.html.toStr = "text/html;charset=utf-8" ∧ Mime.plain.toStr = "text/plain;charset=utf-8" ∧
    Mime.byteStream.toStr = "application/octet-stream" := by decide +kernel

end Puck
