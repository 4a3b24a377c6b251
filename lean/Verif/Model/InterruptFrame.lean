import Verif.Model.Interrupt
/-!
# Frames read with interruptions
-/
namespace Puck

/-- Loop of `read_exact`, as `Buf.readExactGo`: std repeats an interrupted read. Used for puck/src/ws/frame.rs:54-55. -/
def IBuf.readExactGo (cap : Nat) : Nat → Nat → Bytes → IBuf → Option Bytes × IBuf
  | _, 0, acc, r => (some acc, r)
  | 0, _ + 1, _, r => (none, r)
  | f + 1, n + 1, acc, r =>
    match r.readRetry cap (n + 1) with
    | (none, r') => (none, r')
    | (some b, r') => if b = [] then (none, r') else IBuf.readExactGo cap f (n + 1 - b.length) (acc ++ b) r'

/-- `read_exact`, as `Buf.readExact`. Used for puck/src/ws/frame.rs:54-55. -/
def IBuf.readExact (cap n : Nat) (r : IBuf) : Option Bytes × IBuf := IBuf.readExactGo cap n n [] r

/-- Loop of `take(limit).read_to_end`, as `Buf.takeToEndGo`: std repeats an interrupted read. Used for puck/src/ws/frame.rs:69-71. -/
def IBuf.takeToEndGo (cap : Nat) : Nat → Nat → Bytes → IBuf → Option Bytes × IBuf
  | _, 0, acc, r => (some acc, r)
  | 0, _ + 1, acc, r => (some acc, r)
  | f + 1, n + 1, acc, r =>
    match r.readRetry cap (n + 1) with
    | (none, r') => (none, r')
    | (some b, r') => if b = [] then (some acc, r') else IBuf.takeToEndGo cap f (n + 1 - b.length) (acc ++ b) r'

/-- `take(limit).read_to_end`, as `Buf.takeToEnd`. Used for puck/src/ws/frame.rs:69-71. -/
def IBuf.takeToEnd (cap limit : Nat) (r : IBuf) : Option Bytes × IBuf := IBuf.takeToEndGo cap limit limit [] r

/-- puck/src/ws/frame.rs:53-57, as `readPayloadLength`. -/
def readPayloadLengthI (second : UInt8) (r : IBuf) : Option Nat × IBuf :=
  if (second &&& 0x7F) = 126 then
    match r.readExact defaultCap 2 with
    | (some b, r') => (some (beNat b), r')
    | (none, r') => (none, r')
  else if (second &&& 0x7F) = 127 then
    match r.readExact defaultCap 8 with
    | (some b, r') => (some (beNat b), r')
    | (none, r') => (none, r')
  else (some (second &&& 0x7F).toNat, r)

/-- puck/src/ws/frame.rs:63-84, as `readPayload`: the `read` of line 65 is a single one, and its `?` returns an interruption as an error. -/
def readPayloadI (W : Nat) (fin : Bool) (payloadLength : Nat) (r : IBuf) : Outcome ParseFrameError Bytes × IBuf :=
  match r.read defaultCap 4 with
  | (.fail, r') => (.err .ioError, r')
  | (.intr, r') => (.err .ioError, r')
  | (.ok key, r') =>
    if key.length ≠ 4 then (.err .insufficientData, r')
    else
      let asUsize := payloadLength % 2 ^ W
      if asUsize > isizeMax W then (.panic, r')
      else if min payloadLength (r'.buf.length + r'.raw.calm.coming) > isizeMax W then (.panic, r')
      else
        match r'.takeToEnd defaultCap payloadLength with
        | (none, r'') => (.err .ioError, r'')
        | (some encoded, r'') =>
          if encoded.length ≠ asUsize then
            if !fin && decide (payloadLength > encoded.length) then (.err (.waitForNextFrame (payloadLength - encoded.length)), r'')
            else (.err .ioError, r'')
          else (.ok (unmask key encoded), r'')

/-- puck/src/ws/frame.rs:22-97 `Frame::parse`, as `Frame.parse`: the `read` of line 27, too, is a single one. -/
def Frame.parseI (W : Nat) (raw : IRaw) : Outcome ParseFrameError Frame × IRaw :=
  match (IBuf.mk [] raw).read defaultCap 2 with
  | (.fail, r) => (.err .ioError, r.raw)
  | (.intr, r) => (.err .ioError, r.raw)
  | (.ok [first, second], r) =>
    let fin := first &&& 0x80 != 0
    let rsv1 := first &&& 0x40 != 0
    let rsv2 := first &&& 0x20 != 0
    let rsv3 := first &&& 0x10 != 0
    match opCodeOfNibble (first &&& 0x0F) with
    | none => (.err .invalidOpCode, r.raw)
    | some opCode =>
      let masked := second &&& 0x80 != 0
      match readPayloadLengthI second r with
      | (none, r) => (.err .ioError, r.raw)
      | (some payloadLength, r) =>
        if payloadLength > 0 && !masked then (.err .maskNotSet, r.raw)
        else if payloadLength > 0 then
          match readPayloadI W fin payloadLength r with
          | (.ok decoded, r) => (.ok ⟨fin, rsv1, rsv2, rsv3, opCode, decoded⟩, r.raw)
          | (.err e, r) => (.err e, r.raw)
          | (.panic, r) => (.panic, r.raw)
        else (.ok ⟨fin, rsv1, rsv2, rsv3, opCode, []⟩, r.raw)
  | (.ok _, r) => (.err .insufficientData, r.raw)

end Puck
