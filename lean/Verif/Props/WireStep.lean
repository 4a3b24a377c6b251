import Verif.Props.Wire
import Verif.Props.Live
import Verif.Props.SyncFree
/-!
# Which components C95 and C106 are about
-/
namespace Puck.Json

variable {D I S E P : Type}

/-- **C95, C106: the components they hold for.** A component keeps the page in step, message by message, if it is browser-friendly in the states it can reach;
if it has a fixed layout, exactly if every reachable update can be followed; and, with a structure that may change, if every reachable update can be followed. -/
theorem C106_components (B : Browser) (C : Component D I S E P) (p : P) (parse : String → Option ClientMessage) (data : D) (page : List Dom) (hp : PageOk page) :
    (FriendlyFrom B C p (C.new data p).1 → StaysInStep B C parse data p page) ∧
    (FixedLayout B C → (StaysInStep B C parse data p page ↔
      ∀ (is : List I) (i : I), InStep (C.render (C.after p (C.new data p).1 is)).1 (C.render (C.after p (C.new data p).1 (is ++ [i]))).1)) ∧
    (FreeLayout B C → (∀ (is : List I) (i : I), Followable (C.render (C.after p (C.new data p).1 is)).1 (C.render (C.after p (C.new data p).1 (is ++ [i]))).1) →
      StaysInStep B C parse data p page) :=
  ⟨fun hf ms hc => C84_reachable_partial B C p data hf parse page hp ms hc,
   fun hf => C84_fixed_layout B C p hf parse data page hp,
   fun hf h ms hc => ((C84_free_layout B C p hf parse data page hp).2 h ms hc).current⟩

/-- non-vacuity: the list that grows and shrinks (`feed`), down to the bytes, at every moment, whatever the reader process sends in between -/
example (B : Browser) (h1 : B.validTag "div" = true) (h2 : B.validTag "p" = true) (ms : List (Mail Nat Unit))
    (hc : ∀ m ∈ ms, m ≠ .ws (.error .connectionClosed) ∧ ∀ q, m ≠ .whoAmI q) (pongs ws : List Message) (hpongs : ∀ m ∈ pongs, ∃ q, m = .pong q)
    (hw : Merge (messagesOf (loopRun feed fromStr true (.waiting ()) (.whoAmI () :: ms)).2) pongs ws)
    (hlen : ∀ m ∈ ws, (wireOf m).payload.length < 2 ^ 64) (bs : Bytes) (hb : bs <+: (sendAll ws ⟨[], none⟩).2.out) :
    ∃ h, h <+: .whoAmI () :: ms ∧ ShowsAfter B feed () [] bs h := by
  have hp : PageOk [] := by simp [PageOk, domIds]
  have hs := (C106_components B feed () fromStr () [] hp).2.2 (feed_layout B h1 h2) fun _ _ => feed_followable _ _
  obtain ⟨h, h', e1, e2, e3, -⟩ := (C106_any_moment B feed () () [] hs ms hc pongs ws hpongs hw hlen).1 bs bs List.prefix_rfl hb
  exact ⟨h, e1.trans e2, e3⟩

end Puck.Json
