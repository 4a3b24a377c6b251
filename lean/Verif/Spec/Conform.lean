import Verif.Spec.Messages
/-!
# Specification: what RFC 6455 lets an endpoint send (sections 5.1 - 5.6 and 8.1, no extension negotiated)
-/
namespace Rfc6455
open Puck (Bytes Message strBytes)

/-- Control frames: close, ping, pong (RFC 6455 5.5). -/
def IsControl (k : Kind) : Prop := k = .close ∨ k = .ping ∨ k = .pong

instance (k : Kind) : Decidable (IsControl k) := by unfold IsControl; infer_instance

/-- Bytes of the shortest header announcing a payload of `len` bytes, without the mask key (RFC 6455 5.2). -/
def shortestHeader (len : Nat) : Nat := if len ≤ 125 then 2 else if len ≤ 65535 then 4 else 10

/-- A client reading `bs` takes the complete message `f` from it and is left with `rest`: `f` is an unmasked frame, its reserved bits
are zero, its opcode is known, it is not a fragment, a control frame has at most 125 bytes of payload, the payload of a close frame is
not a single byte, the payload of a text frame is UTF-8, and the length is written in the shortest form. -/
def Takes (bs : Bytes) (f : WireFrame) (rest : Bytes) : Prop :=
  decodeServer bs = some (f, rest) ∧
  f.rsv1 = false ∧ f.rsv2 = false ∧ f.rsv3 = false ∧ f.fin = true ∧
  kindOf f.nibble ≠ .reserved ∧ kindOf f.nibble ≠ .continue ∧
  (IsControl (kindOf f.nibble) → f.payload.length ≤ 125) ∧
  (kindOf f.nibble = .close → f.payload.length ≠ 1) ∧
  (kindOf f.nibble = .text → ∃ s : String, f.payload = strBytes s) ∧
  bs.length = shortestHeader f.payload.length + f.payload.length + rest.length

/-- A client reads these messages and nothing else from `bs`, and finds nothing to object to. -/
inductive Accepts : Bytes → List WireFrame → Prop
  | nil : Accepts [] []
  | cons {bs rest : Bytes} {f : WireFrame} {fs : List WireFrame} : Takes bs f rest → Accepts rest fs → Accepts bs (f :: fs)

/-- The length form of the shortest header. -/
def Form.shortest (len : Nat) : Form := if len ≤ 125 then .short else if len ≤ 65535 then .medium else .long

/-- A (masked) client frame that is legal on its own. -/
def Legal (f : ClientFrame) : Prop :=
  f.rsv1 = false ∧ f.rsv2 = false ∧ f.rsv3 = false ∧ kindOf f.nibble ≠ .reserved ∧
  (IsControl (kindOf f.nibble) → f.fin = true ∧ f.payload.length ≤ 125) ∧ f.form = Form.shortest f.payload.length

/-- What a receiver reports. -/
inductive Verdict where
  | message (m : Message)
  | closed
  | failed

/-- Reading `fs`, a receiver reports `vs`.  The first argument is the message begun but not finished: its kind and the payload so far.
A receiver stops at a close frame and at the first violation ("Fail the WebSocket Connection"). -/
inductive Receives : Option (Kind × Bytes) → List ClientFrame → List Verdict → Prop
  | done {s} : Receives s [] []
  | close {s f fs} : Legal f → kindOf f.nibble = .close → Receives s (f :: fs) [.closed]
  | control {s f fs m vs} : Legal f → kindOf f.nibble = .ping ∨ kindOf f.nibble = .pong → Puck.Means (kindOf f.nibble) f.payload m →
      Receives s fs vs → Receives s (f :: fs) (.message m :: vs)
  | whole {f fs m vs} : Legal f → kindOf f.nibble = .text ∨ kindOf f.nibble = .binary → f.fin = true →
      Puck.Means (kindOf f.nibble) f.payload m → Receives none fs vs → Receives none (f :: fs) (.message m :: vs)
  | start {f fs vs} : Legal f → kindOf f.nibble = .text ∨ kindOf f.nibble = .binary → f.fin = false →
      Receives (some (kindOf f.nibble, f.payload)) fs vs → Receives none (f :: fs) vs
  | more {k p f fs vs} : Legal f → kindOf f.nibble = .continue → f.fin = false → Receives (some (k, p ++ f.payload)) fs vs →
      Receives (some (k, p)) (f :: fs) vs
  | last {k p f fs m vs} : Legal f → kindOf f.nibble = .continue → f.fin = true → Puck.Means k (p ++ f.payload) m →
      Receives none fs vs → Receives (some (k, p)) (f :: fs) (.message m :: vs)
  | illegal {s f fs} : ¬ Legal f → Receives s (f :: fs) [.failed]
  | stray {f fs} : Legal f → kindOf f.nibble = .continue → Receives none (f :: fs) [.failed]
  | restart {k p f fs} : Legal f → kindOf f.nibble = .text ∨ kindOf f.nibble = .binary → Receives (some (k, p)) (f :: fs) [.failed]
  | text {f fs} : Legal f → kindOf f.nibble = .text → f.fin = true → (¬ ∃ m, Puck.Means .text f.payload m) →
      Receives none (f :: fs) [.failed]
  | texts {p f fs} : Legal f → kindOf f.nibble = .continue → f.fin = true → (¬ ∃ m, Puck.Means .text (p ++ f.payload) m) →
      Receives (some (.text, p)) (f :: fs) [.failed]

/-- No ping or pong comes between the fragments of a message, and a frame that neither begins nor continues a message (a continuation of
nothing, or an unknown opcode) is not marked as having continuations.  The first argument tells whether a message is unfinished. -/
def Undisturbed : Bool → List ClientFrame → Prop
  | _, [] => True
  | inside, f :: fs =>
    (inside = true → kindOf f.nibble ≠ .ping ∧ kindOf f.nibble ≠ .pong) ∧
    (inside = false → kindOf f.nibble = .continue ∨ kindOf f.nibble = .reserved → f.fin = true) ∧
    Undisturbed (if IsControl (kindOf f.nibble) then inside else !f.fin) fs

end Rfc6455
