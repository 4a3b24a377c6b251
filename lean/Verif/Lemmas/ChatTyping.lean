import Verif.Spec.Typing
import Verif.Props.ChatView
import Verif.Props.Field
/-!
# For C123: what single instructions do to a page
-/
namespace Puck.Chat

open Puck

/-! ## Parts of the page that have nothing to do with the fields -/

mutual
/-- no listeners, and none of the ids 0 to 6 -/
def Quiet : LiveDom → Prop
  | .text _ => True
  | .elem _ attrs ls _ cs => ls = [] ∧ (∀ n, n < 7 → attrs.get "id" ≠ some (toString n)) ∧ QuietAll cs
def QuietAll : List LiveDom → Prop
  | [] => True
  | c :: cs => Quiet c ∧ QuietAll cs
end

theorem quietAll_mem {cs : List LiveDom} (h : QuietAll cs) {c : LiveDom} (hc : c ∈ cs) : Quiet c := by
  induction cs with
  | nil => cases hc
  | cons x xs ih =>
    rw [QuietAll] at h
    rcases List.mem_cons.1 hc with rfl | hc
    · exact h.1
    · exact ih h.2 hc

theorem quietAll_append {as bs : List LiveDom} : QuietAll (as ++ bs) ↔ QuietAll as ∧ QuietAll bs := by
  induction as with
  | nil => simp [QuietAll]
  | cons a as ih => rw [List.cons_append, QuietAll, QuietAll, ih, and_assoc]

mutual
theorem quiet_type (id v : String) : ∀ d : LiveDom, Quiet d → Quiet (d.typeInto id v)
  | .text _, _ => by rw [LiveDom.typeInto, Quiet]; trivial
  | .elem tag attrs ls ty cs, h => by
    rw [Quiet] at h
    rw [LiveDom.typeInto, Quiet]
    exact ⟨h.1, h.2.1, quietAll_type id v cs h.2.2⟩
theorem quietAll_type (id v : String) : ∀ ds : List LiveDom, QuietAll ds → QuietAll (typeIntoAll id v ds)
  | [], _ => by rw [typeIntoAll, QuietAll]; trivial
  | d :: ds, h => by
    rw [QuietAll] at h
    rw [typeIntoAll, QuietAll]
    exact ⟨quiet_type id v d h.1, quietAll_type id v ds h.2⟩
end

mutual
theorem quiet_absent {n : Nat} (hn : n < 7) (f : LiveDom → Option (List LiveDom)) : ∀ d : LiveDom, Quiet d → replaceLive (toString n) f d = none
  | .text _, _ => by rw [replaceLive]
  | .elem tag attrs ls ty cs, h => by
    rw [Quiet] at h
    rw [replaceLive, if_neg (h.2.1 n hn), quietAll_absent hn f cs h.2.2]
theorem quietAll_absent {n : Nat} (hn : n < 7) (f : LiveDom → Option (List LiveDom)) : ∀ ds : List LiveDom, QuietAll ds →
    replaceLiveIn (toString n) f ds = none
  | [], _ => by rw [replaceLiveIn]
  | d :: ds, h => by
    rw [QuietAll] at h
    rw [replaceLiveIn, quiet_absent hn f d h.1, quietAll_absent hn f ds h.2]
end

section
variable {id : String} {f : LiveDom → Option (List LiveDom)} (hf : ∀ d ds, Quiet d → f d = some ds → QuietAll ds)
include hf
mutual
theorem quiet_replace : ∀ (d : LiveDom) (ds : List LiveDom), Quiet d → replaceLive id f d = some (some ds) → QuietAll ds
  | .text _, ds, _, h => by rw [replaceLive] at h; cases h
  | .elem tag attrs ls ty cs, ds, hq, h => by
    rw [replaceLive] at h
    split at h
    · exact hf _ _ hq (Option.some.inj h)
    · rw [Quiet] at hq
      cases h1 : replaceLiveIn id f cs with
      | none => rw [h1] at h; cases h
      | some r =>
        cases r with
        | none => rw [h1] at h; cases h
        | some cs' =>
          rw [h1] at h
          simp only [Option.some.injEq] at h
          subst h
          rw [QuietAll, Quiet, QuietAll]
          exact ⟨⟨hq.1, hq.2.1, quietAll_replace cs cs' hq.2.2 h1⟩, trivial⟩
theorem quietAll_replace : ∀ (cs ds : List LiveDom), QuietAll cs → replaceLiveIn id f cs = some (some ds) → QuietAll ds
  | [], ds, _, h => by rw [replaceLiveIn] at h; cases h
  | c :: cs, ds, hq, h => by
    rw [QuietAll] at hq
    rw [replaceLiveIn] at h
    cases h1 : replaceLive id f c with
    | some r =>
      cases r with
      | none => rw [h1] at h; cases h
      | some c' =>
        rw [h1] at h
        simp only [Option.some.injEq] at h
        subst h
        rw [quietAll_append]
        exact ⟨quiet_replace c c' hq.1 h1, hq.2⟩
    | none =>
      rw [h1] at h
      simp only at h
      cases h2 : replaceLiveIn id f cs with
      | none => rw [h2] at h; cases h
      | some r =>
        cases r with
        | none => rw [h2] at h; cases h
        | some cs' =>
          rw [h2] at h
          simp only [Option.some.injEq] at h
          subst h
          rw [QuietAll]
          exact ⟨hq.1, quietAll_replace cs cs' hq.2 h2⟩
end
end

mutual
theorem quiet_silent : ∀ (d : LiveDom) (path : List Dom), Quiet d → Target d.erase path → ∀ x ∈ path, x.listeners = []
  | .text _, path, _, h => by rw [LiveDom.erase] at h; cases h
  | .elem tag attrs ls ty cs, path, hq, h => by
    rw [Quiet] at hq
    rw [LiveDom.erase] at h
    cases h with
    | here => intro x hx; rw [List.mem_singleton] at hx; subst hx; exact hq.1
    | inside h1 h2 =>
      intro x hx
      rcases List.mem_append.1 hx with hx | hx
      · exact quietAll_silent cs _ hq.2.2 _ h1 h2 x hx
      · rw [List.mem_singleton] at hx; subst hx; exact hq.1
theorem quietAll_silent : ∀ (cs : List LiveDom) (path : List Dom), QuietAll cs → ∀ d ∈ eraseAll cs, Target d path → ∀ x ∈ path, x.listeners = []
  | [], path, _, d, hd, _ => by rw [eraseAll] at hd; cases hd
  | c :: cs, path, hq, d, hd, h => by
    rw [QuietAll] at hq
    rw [eraseAll] at hd
    rcases List.mem_cons.1 hd with rfl | hd
    · exact quiet_silent c path hq.1 h
    · exact quietAll_silent cs path hq.2 d hd h
end

theorem dispatch_silent {path : List Dom} (h : ∀ x ∈ path, x.listeners = []) (on v : String) : dispatch on v path = [] := by
  unfold dispatch
  rw [List.flatMap_eq_nil_iff]
  intro x hx
  rw [h x hx]
  rfl

theorem quiet_inside {x d : LiveDom} (h : Inside x d) (hq : Quiet d) : Quiet x := by
  induction h with
  | here => exact hq
  | child h1 _ ih =>
    rw [Quiet] at hq
    exact ih (quietAll_mem hq.2.2 h1)

mutual
theorem quiet_fresh : ∀ d : Dom, d.Bare → (∀ n : Nat, toString n ∉ d.ids) → Quiet d.fresh
  | .text _, _, _ => by rw [Dom.fresh, Quiet]; trivial
  | .elem tag attrs ls cs, h, hi => by
    rw [Dom.Bare] at h
    rw [Dom.fresh, Quiet]
    refine ⟨h.1, fun n _ hn => hi n ?_, quietAll_fresh cs h.2 fun n hn => hi n ?_⟩
    · rw [Dom.ids, hn]; simp
    · rw [Dom.ids]; exact List.mem_append_right _ hn
theorem quietAll_fresh : ∀ ds : List Dom, BareAll ds → PageOk ds → QuietAll (freshAll ds)
  | [], _, _ => by rw [freshAll, QuietAll]; trivial
  | d :: ds, h, hi => by
    rw [BareAll] at h
    rw [freshAll, QuietAll]
    exact ⟨quiet_fresh d h.1 fun n hn => hi n (by rw [domIds]; exact List.mem_append_left _ hn),
      quietAll_fresh ds h.2 fun n hn => hi n (by rw [domIds]; exact List.mem_append_right _ hn)⟩
end

/-! ## Single instructions -/

theorem op_root (B : Browser) (k : Nat) {name : String} (hv : B.validTag name = true) (hp : '+' ∉ name.toList) (hc : NoCapitals name) (body : List LiveDom) :
    liveOp B (Op.serialize ⟨k, .createTag name none⟩) body = some (body ++ [.elem name [("id", toString k)] [] none []]) := by
  simp only [liveOp, Op.serialize, if_true, splitPlus_two hp (show '+' ∉ "".toList by decide), hv, asciiLower_small hc]

theorem op_create (B : Browser) (k p : Nat) {name : String} (hv : B.validTag name = true) (hp : '+' ∉ name.toList) (hc : NoCapitals name)
    (body : List LiveDom) : liveOp B (Op.serialize ⟨k, .createTag name (some p)⟩) body = withLive (toString p) (fun
      | .elem tag attrs ls ty cs => some [.elem tag attrs ls ty (cs ++ [.elem name [("id", toString k)] [] none []])]
      | .text _ => none) body := by
  simp only [liveOp, Op.serialize, if_true, splitPlus_two hp (toString_nat_noplus p), hv, asciiLower_small hc, if_neg (toString_nat_ne_empty p)]
  rfl

theorem op_setAttr (B : Browser) (k : Nat) {key v : String} (hv : B.validAttr key = true) (hp : '+' ∉ key.toList) (hc : NoCapitals key)
    (hw : '+' ∉ v.toList) (body : List LiveDom) : liveOp B (Op.serialize ⟨k, .setAttribute key v⟩) body = withLive (toString k) (fun
      | .elem tag attrs ls ty cs => some [.elem tag (attrs.insert key v) ls ty cs]
      | .text _ => none) body := by
  simp only [liveOp, Op.serialize, splitPlus_two hp hw, hv, asciiLower_small hc, if_true, String.reduceEq, if_false]
  rfl

/-- whatever the value -/
theorem op_setAttr_any (B : Browser) (k : Nat) {key : String} (v : String) (hv : B.validAttr key = true) (hp : '+' ∉ key.toList) (hc : NoCapitals key)
    (body : List LiveDom) : ∃ w, liveOp B (Op.serialize ⟨k, .setAttribute key v⟩) body = withLive (toString k) (fun
      | .elem tag attrs ls ty cs => some [.elem tag (attrs.insert key w) ls ty cs]
      | .text _ => none) body := by
  have h1 : splitPlus (key ++ "+" ++ v) = key :: (splitPlusAux v.toList).map String.ofList := by
    unfold splitPlus
    have : (key ++ "+" ++ v).toList = key.toList ++ '+' :: v.toList := by simp [String.toList_append]
    rw [this, splitPlusAux_append hp]
    simp
  cases h2 : (splitPlusAux v.toList).map String.ofList with
  | nil =>
    refine ⟨"undefined", ?_⟩
    simp only [liveOp, Op.serialize, h1, h2, hv, asciiLower_small hc, if_true, String.reduceEq, if_false]
    rfl
  | cons w ws =>
    refine ⟨w, ?_⟩
    simp only [liveOp, Op.serialize, h1, h2, hv, asciiLower_small hc, if_true, String.reduceEq, if_false]
    rfl

theorem op_attach (B : Browser) (k : Nat) {name on : String} (hp : '+' ∉ name.toList) (ho : '+' ∉ on.toList) (body : List LiveDom) :
    liveOp B (Op.serialize ⟨k, .attachListener name on⟩) body = withLive (toString k) (fun
      | .elem tag attrs ls ty cs => some [.elem tag attrs (ls ++ [⟨name, on⟩]) ty cs]
      | .text _ => none) body := by
  simp only [liveOp, Op.serialize, splitPlus_two hp ho, if_true, String.reduceEq, if_false]
  rfl

theorem op_removeAttr (B : Browser) (k : Nat) {key : String} (hc : NoCapitals key) (body : List LiveDom) :
    liveOp B (Op.serialize ⟨k, .removeAttribute key⟩) body = withLive (toString k) (fun
      | .elem tag attrs ls ty cs => some [.elem tag (attrs.remove key) ls ty cs]
      | .text _ => none) body := by
  simp only [liveOp, Op.serialize, Option.getD_some, asciiLower_small hc, if_true, String.reduceEq, if_false]
  rfl

theorem op_tag (B : Browser) (k : Nat) {name : String} (hv : B.validTag name = true) (hc : NoCapitals name) (body : List LiveDom) :
    liveOp B (Op.serialize ⟨k, .setTagName name⟩) body = withLive (toString k) (fun
      | .elem _ attrs _ _ cs => some [.elem name attrs [] none (freshAll (B.reparse name (eraseAll cs)))]
      | .text _ => none) body := by
  simp only [liveOp, Op.serialize, Option.getD_some, asciiLower_small hc, hv, if_true, String.reduceEq, if_false]
  rfl

theorem op_text (B : Browser) (k : Nat) (v : String) (body : List LiveDom) :
    liveOp B (Op.serialize ⟨k, .setText v⟩) body = withLive (toString k) (fun
      | .elem tag attrs ls ty _ => some [.elem tag attrs ls ty (freshAll (textContent v))]
      | .text _ => none) body := by
  simp only [liveOp, Op.serialize, Option.getD_some, if_true, String.reduceEq, if_false]
  rfl

theorem op_removeListeners (B : Browser) (k : Nat) (body : List LiveDom) :
    liveOp B (Op.serialize ⟨k, .removeListeners⟩) body = withLive (toString k) (fun d => some [d.cloneNode]) body := by
  simp only [liveOp, Op.serialize, if_true, String.reduceEq, if_false]

theorem op_delete (B : Browser) (k : Nat) (body : List LiveDom) :
    liveOp B (Op.serialize ⟨k, .deleteEl⟩) body = withLive (toString k) (fun _ => some []) body := by
  simp only [liveOp, Op.serialize, if_true, String.reduceEq, if_false]

theorem withLive_pre {Pre : List LiveDom} (hq : QuietAll Pre) {n : Nat} (hn : n < 7) (f : LiveDom → Option (List LiveDom)) (ds : List LiveDom) :
    withLive (toString n) f (Pre ++ ds) = (withLive (toString n) f ds).map (Pre ++ ·) := by
  induction Pre with
  | nil => simp
  | cons d Pre ih =>
    rw [QuietAll] at hq
    have ih := ih hq.2
    unfold withLive at ih ⊢
    rw [List.cons_append, replaceLiveIn, quiet_absent hn f d hq.1]
    simp only
    cases h : replaceLiveIn (toString n) f (Pre ++ ds) with
    | none =>
      rw [h] at ih
      simp only at ih ⊢
      cases h2 : replaceLiveIn (toString n) f ds with
      | none => rfl
      | some r => rw [h2] at ih; cases r with
        | none => rfl
        | some r => simp at ih
    | some r =>
      rw [h] at ih
      cases h2 : replaceLiveIn (toString n) f ds with
      | none => rw [h2] at ih; cases r with
        | none => rfl
        | some r => simp at ih
      | some r' => 
        rw [h2] at ih
        cases r with
        | none => cases r' with
          | none => rfl
          | some r' => simp at ih
        | some r => cases r' with
          | none => simp at ih
          | some r' => simp at ih; simp [ih]

theorem toString_eq {m n : Nat} : (toString m = toString n) ↔ m = n := ⟨toString_nat_inj, fun h => by rw [h]⟩

end Puck.Chat
