import Verif.Model.Response
import Verif.Lemmas.Body
import Verif.Lemmas.Headers
import Verif.Lemmas.Ascii
import Verif.Lemmas.HttpRead
/-! # Encoding responses and writing requests -/
namespace Puck

theorem Sink.writeEach_eq (bs : List Bytes) (s : Sink) : Sink.writeEach bs s = s.writeAll bs.flatten := by
  induction bs generalizing s with
  | nil => simp [Sink.writeEach]
  | cons b bs ih =>
    rw [List.flatten_cons, Sink.writeAll_append, Sink.writeEach]
    cases h : s.writeAll b with
    | mk ok s' => cases ok <;> simp [ih]

/-- The byte order of the encoder is the lexicographic order of byte strings. -/
theorem bytesLe_iff (a b : Bytes) : bytesLe a b = true ↔ ¬ b < a := by
  induction a generalizing b with
  | nil => simp [bytesLe]
  | cons x xs ih =>
    cases b with
    | nil => simp [bytesLe]
    | cons y ys =>
      rw [bytesLe]
      by_cases h1 : x < y
      · simp only [h1, if_true, true_iff]
        intro h
        rw [List.cons_lt_cons_iff] at h
        rcases h with h | ⟨rfl, _⟩
        · exact absurd h (UInt8.lt_asymm h1)
        · exact absurd h1 (UInt8.lt_irrefl _)
      · simp only [h1, if_false]
        by_cases h2 : x = y
        · subst h2
          simp only [if_true, ih, List.cons_lt_cons_iff, UInt8.lt_irrefl, false_or, true_and]
        · simp only [h2, if_false, Bool.false_eq_true, false_iff, List.cons_lt_cons_iff]
          intro h
          apply h
          left
          rcases UInt8.lt_or_lt_of_ne h2 with h | h
          · exact absurd h h1
          · exact h

theorem bytesLe_trans (a b c : Bytes) : bytesLe a b = true → bytesLe b c = true → bytesLe a c = true := by
  simp only [bytesLe_iff]
  intro h1 h2
  have h1 : a ≤ b := h1
  have h2 : b ≤ c := h2
  exact List.le_trans h1 h2

theorem bytesLe_total (a b : Bytes) : (bytesLe a b || bytesLe b a) = true := by
  rw [Bool.or_eq_true, bytesLe_iff, bytesLe_iff]
  exact List.le_total a b

theorem bytesLe_antisymm {a b : Bytes} (h1 : bytesLe a b = true) (h2 : bytesLe b a = true) : a = b := by
  rw [bytesLe_iff] at h1 h2
  exact List.le_antisymm h1 h2

theorem sortHeaders_perm (h : Headers) : (sortHeaders h).Perm h := List.mergeSort_perm _ _

theorem sortHeaders_le (h : Headers) :
    (sortHeaders h).Pairwise fun a b => bytesLe (strBytes a.1) (strBytes b.1) = true :=
  List.pairwise_mergeSort (le := fun a b : String × String => bytesLe (strBytes a.1) (strBytes b.1))
    (fun _ _ _ => bytesLe_trans _ _ _) (fun _ _ => bytesLe_total _ _) h

/-- The sorted header list is strictly increasing in the names. -/
theorem sortHeaders_lt {h : Headers} (hd : h.Distinct) :
    (sortHeaders h).Pairwise fun a b => strBytes a.1 < strBytes b.1 := by
  have hd' : (sortHeaders h).Distinct := by
    unfold Headers.Distinct at hd ⊢
    exact ((sortHeaders_perm h).map (fun p : String × String => p.1)).nodup_iff.2 hd
  have h1 := sortHeaders_le h
  unfold Headers.Distinct at hd'
  rw [List.nodup_iff_pairwise_ne, List.pairwise_map] at hd'
  refine (h1.and hd').imp ?_
  intro a b ⟨hle, hne⟩
  apply Classical.byContradiction
  intro hn
  have : bytesLe (strBytes b.1) (strBytes a.1) = true := (bytesLe_iff _ _).2 hn
  exact hne (strBytes_inj.1 (bytesLe_antisymm hle this))

/-- It does not depend on the order of the map. -/
theorem sortHeaders_congr {h h' : Headers} (hd : h.Distinct) (hp : h'.Perm h) : sortHeaders h' = sortHeaders h := by
  have hd' : h'.Distinct := by
    unfold Headers.Distinct at hd ⊢
    exact (hp.map (fun p : String × String => p.1)).nodup_iff.2 hd
  refine List.Perm.eq_of_pairwise (le := fun a b => strBytes a.1 < strBytes b.1) ?_ (sortHeaders_lt hd')
    (sortHeaders_lt hd) (((sortHeaders_perm h').trans hp).trans (sortHeaders_perm h).symm)
  intro a b _ _ h1 h2
  exact absurd h2 (List.lt_asymm h1)

/-- Header as bytes. -/
def fieldOf (p : String × String) : Bytes × Bytes := (strBytes p.1, strBytes p.2)

theorem headerLine_eq (p : String × String) : headerLine p = Http.fieldLine (fieldOf p) := by
  simp only [headerLine, Http.fieldLine, fieldOf, strBytes_append, Http.crlf]
  have h1 : strBytes ": " = [58, 32] := by decide +kernel
  have h2 : strBytes "\r\n" = [13, 10] := by decide +kernel
  rw [h1, h2]

/-- The head of a response: closed form. -/
def Response.headBytes (r : Response) : Bytes :=
  Http.head (Http.statusLine (strBytes (toString r.status)) (strBytes r.reason)) ((sortHeaders r.headers).map fieldOf)

theorem Response.head_eq (env : HttpEnv) (henv : ∀ h, (env.ord h).Perm h) (r : Response) (hd : r.headers.Distinct) :
    ([strBytes ("HTTP/1.1 " ++ toString r.status ++ " " ++ r.reason ++ "\r\n")] ++
      (sortHeaders (env.ord r.headers)).map headerLine ++ [strBytes "\r\n"]).flatten = r.headBytes := by
  rw [sortHeaders_congr hd (henv _)]
  have h1 : strBytes "HTTP/1.1 " = [72, 84, 84, 80, 47, 49, 46, 49, 32] := by decide +kernel
  have h2 : strBytes "\r\n" = [13, 10] := by decide +kernel
  have h3 : strBytes " " = [32] := by decide +kernel
  have h4 : (sortHeaders r.headers).map headerLine = ((sortHeaders r.headers).map fieldOf).map Http.fieldLine := by
    rw [List.map_map]; exact List.map_congr_left fun p _ => headerLine_eq p
  rw [h4]
  simp [Response.headBytes, Http.head, Http.statusLine, Http.crlf, h1, h2, h3]

/-- What encoding does to the sink. -/
theorem Response.encode_spec (env : HttpEnv) (henv : ∀ h, (env.ord h).Perm h) (r : Response)
    (hd : r.headers.Distinct) (hw : r.body.WF) (s : Sink) :
    (r.encode env s).2.2 = (s.writeAll (r.headBytes ++ r.body.avail)).2 ∧
    (¬ r.body.Fails → (s.writeAll (r.headBytes ++ r.body.avail)).1 = true → (r.encode env s).1 = .ok ()) ∧
    (r.body.Fails ∨ (s.writeAll (r.headBytes ++ r.body.avail)).1 = false → (r.encode env s).1 = .err ()) := by
  unfold Response.encode
  rw [Sink.writeEach_eq, Response.head_eq env henv r hd, Sink.writeAll_append]
  cases h : s.writeAll r.headBytes with
  | mk ok s' =>
    cases ok with
    | false => simp
    | true =>
      simp only
      obtain ⟨c1, c2, c3⟩ := Body.copyTo_spec copyBlk _ r.body s' (Nat.le_refl _) hw
      cases hc : r.body.copyTo copyBlk s' with
      | mk o bs =>
        obtain ⟨b, s''⟩ := bs
        rw [hc] at c1 c2 c3
        exact ⟨c1, fun h1 h2 => (c2 h1 h2).1, c3⟩

end Puck
