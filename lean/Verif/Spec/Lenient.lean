import Verif.Spec.Conform
/-!
# Specification: a lenient receiver of WebSocket frames

The rules by which puck's iterator interprets the frames of a client (compare `Receives`, the rules of RFC 6455): nothing but the opcode, the
final bit and the payload of a frame matters; a control frame may be fragmented like any other; between the frames of a message only
continuations and a close are understood; and after an error the next frame begins a new message.
-/
namespace Rfc6455
open Puck (Bytes Message)

/-- Reading `fs`, one call reports `v` and leaves `rest`.  The first argument is the message begun but not finished. -/
inductive Report : Option (Kind × Bytes) → List ClientFrame → Verdict → List ClientFrame → Prop
  | close {s f fs} : kindOf f.nibble = .close → Report s (f :: fs) .closed fs
  | whole {f fs m} : kindOf f.nibble ≠ .close → f.fin = true → Puck.Means (kindOf f.nibble) f.payload m → Report none (f :: fs) (.message m) fs
  | nonsense {f fs} : kindOf f.nibble ≠ .close → f.fin = true → (¬ ∃ m, Puck.Means (kindOf f.nibble) f.payload m) → Report none (f :: fs) .failed fs
  | start {f fs v rest} : kindOf f.nibble ≠ .close → f.fin = false → Report (some (kindOf f.nibble, f.payload)) fs v rest → Report none (f :: fs) v rest
  | other {k p f fs} : kindOf f.nibble ≠ .close → kindOf f.nibble ≠ .continue → Report (some (k, p)) (f :: fs) .failed fs
  | last {k p f fs m} : kindOf f.nibble = .continue → f.fin = true → Puck.Means k (p ++ f.payload) m → Report (some (k, p)) (f :: fs) (.message m) fs
  | garbled {k p f fs} : kindOf f.nibble = .continue → f.fin = true → (¬ ∃ m, Puck.Means k (p ++ f.payload) m) → Report (some (k, p)) (f :: fs) .failed fs
  | more {k p f fs v rest} : kindOf f.nibble = .continue → f.fin = false → Report (some (k, p ++ f.payload)) fs v rest →
      Report (some (k, p)) (f :: fs) v rest

/-- The reports for `fs`, up to a close or to the last message that is complete. -/
inductive Reports : List ClientFrame → List Verdict → Prop
  | wait {fs} : (¬ ∃ v rest, Report none fs v rest) → Reports fs []
  | closed {fs rest} : Report none fs .closed rest → Reports fs [.closed]
  | next {fs v rest vs} : Report none fs v rest → v ≠ .closed → Reports rest vs → Reports fs (v :: vs)

end Rfc6455
