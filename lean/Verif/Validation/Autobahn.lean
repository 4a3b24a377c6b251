import Verif.Model.Message
import Verif.Spec.Rfc6455
/-!
# Validation of the model: the recorded Autobahn results

/repo/autobahn/server-results.json records how an echo server made with puck did in the Autobahn test suite.  The echo program is not in the repository, so it is
reconstructed here: every text and every binary message is sent back; an error ends the connection.  What the model does in a case is compared with what is
recorded for it: where the record says FAILED the model fails in the same way.  (When several frames are written at once they arrive in one read; "octet-wise" means
one octet per read.)  These are checks of the model, not proofs of properties.
-/
namespace Puck.Autobahn

open Puck Rfc6455

/-- The echo server; the first argument bounds the number of messages. -/
def echo : Nat → WsState → Conn → Conn
  | 0, _, c => c
  | k + 1, st, c =>
    match WebSocket.next 32 st c with
    | (.ok (.text s), st', c') => echo k st' (WebSocket.send (.text s) c').2
    | (.ok (.binary b), st', c') => echo k st' (WebSocket.send (.binary b) c').2
    | (.ok _, st', c') => echo k st' c'
    | (_, _, c') => c'

/-- What the client receives, as kind and payload; `none` at the end if the bytes stop inside a frame. -/
def received (reads : List Bytes) : List (Kind × Bytes) :=
  let out := (echo 30 .open ⟨reads.map .data, ⟨[], none⟩⟩).out.out
  (decodeAll 30 out).map fun f => (kindOf f.nibble, f.payload)

/-- A frame of the test client. -/
def frame (nibble : Nat) (payload : Bytes) (fin : Bool := true) (rsv : Nat := 0) : Bytes :=
  (⟨fin, rsv / 4 % 2 == 1, rsv / 2 % 2 == 1, rsv % 2 == 1, nibble, (0x37, 0xfa, 0x21, 0x3d), payload,
    if payload.length < 126 then .short else if payload.length < 65536 then .medium else .long⟩ : ClientFrame).encode

/-- One octet per read. -/
def octets (b : Bytes) : List Bytes := b.map fun c => [c]

def hello : Bytes := strBytes "Hello, world!"
def stars (n : Nat) : Bytes := List.replicate n 42
/-- A close frame with code 1000. -/
def bye : Bytes := frame 8 [3, 232]

/-- 1.1.1-1.1.5, 1.2.1-1.2.5: text and binary messages of 0, 125, 126, 127 and 128 bytes: OK, closed OK (and the reply has no close code). -/
example : [0, 125, 126, 127, 128].all (fun n =>
    received [frame 1 (stars n), bye] == [(.text, stars n), (.close, [])] &&
    received [frame 2 (stars n), bye] == [(.binary, stars n), (.close, [])]) = true := by decide +kernel

/-- 1.1.6, 1.2.6: 65535 bytes: FAILED.  The reply uses the eight-byte length, which Autobahn refuses as not minimal.  1.1.7, 1.2.7: 65536 bytes: OK. -/
example : formatLength 65535 = 127 ∧ extLength 65535 = [0, 0, 0, 0, 0, 0, 255, 255] ∧ formatLength 65534 = 126 ∧
    formatLength 65536 = 127 ∧ extLength 65536 = [0, 0, 0, 0, 0, 1, 0, 0] := by decide +kernel

/-- 2.1-2.4: a ping without payload, with a small one, with 125 bytes: OK, closed OK. -/
example : [[], hello, [0, 255, 254, 253, 252, 251, 0, 255], stars 125].all (fun p =>
    received [frame 9 p, bye] == [(.pong, p), (.close, [])]) = true := by decide +kernel

/-- 2.5: a ping of 126 bytes must be refused: FAILED.  It is answered. -/
example : received [frame 9 (stars 126)] = [(.pong, stars 126)] := by decide +kernel

/-- 2.6: a ping of 125 bytes, octet-wise: FAILED, not closed. -/
example : received (octets (frame 9 (stars 125)) ++ [bye]) = [] := by decide +kernel

/-- 2.9: a pong, then a ping, written together: FAILED (no pong), closed OK.  2.10: ten pings: FAILED (one pong instead of ten), closed OK.
2.11: octet-wise: FAILED, not closed. -/
example : received [frame 10 hello ++ frame 9 hello, bye] = [(.close, [])] ∧
    received [(List.replicate 10 (frame 9 hello)).flatten, bye] = [(.pong, hello), (.close, [])] ∧
    received (octets (List.replicate 10 (frame 9 hello)).flatten ++ [bye]) = [] := by decide +kernel

/-- 3.1, 3.5, 3.6: a text, a binary message, a ping with reserved bits must be refused: FAILED.  They are answered.  3.7: a close frame with
reserved bits: OK. -/
example : received [frame 1 hello (rsv := 1)] = [(.text, hello)] ∧ received [frame 2 hello (rsv := 5)] = [(.binary, hello)] ∧
    received [frame 9 hello (rsv := 6)] = [(.pong, hello)] ∧ received [frame 8 [] (rsv := 7)] = [(.close, [])] := by decide +kernel

/-- 4.1.1, 4.1.2, 4.2.1, 4.2.2: the reserved opcodes 3, 4, 11, 12 end the connection: OK. -/
example : received [frame 3 [], bye] = [] ∧ received [frame 4 hello, bye] = [] ∧ received [frame 11 [], bye] = [] ∧
    received [frame 12 hello, bye] = [] := by decide +kernel

/-- 4.1.3, 4.1.4, 4.2.3, 4.2.4: a text, a reserved opcode, a ping, written together: the text comes back, and the connection is not closed ("OK", closing FAILED),
because the reserved frame is lost with the rest of the read. -/
example : received [frame 1 hello ++ frame 5 [] ++ frame 9 []] = [(.text, hello)] ∧
    received [frame 1 hello ++ frame 13 [] ++ frame 9 []] = [(.text, hello)] := by decide +kernel

/-- 5.3, 5.4: a text in two fragments, written together: FAILED (not echoed), closed OK.  5.6, 5.7: with a ping between the fragments: FAILED, closed OK.
5.5, 5.8: octet-wise: FAILED, not closed. -/
example : received [frame 1 (strBytes "fragment1") (fin := false) ++ frame 0 (strBytes "fragment2"), bye] = [(.close, [])] ∧
    received [frame 1 (strBytes "fragment1") (fin := false) ++ frame 9 (strBytes "ping payload") ++ frame 0 (strBytes "fragment2"), bye] = [(.close, [])] ∧
    received (octets (frame 1 (strBytes "fragment1") (fin := false) ++ frame 0 (strBytes "fragment2")) ++ [bye]) = [] := by decide +kernel

/-- 5.9, 5.10, 5.14, 5.17: a continuation frame with nothing to continue (alone in its read) ends the connection: OK. -/
example : received [frame 0 hello, frame 1 hello, bye] = [] ∧ received [frame 0 hello (fin := true), frame 1 hello] = [] := by decide +kernel

/-- 6.3.1, 6.22.x: invalid UTF-8 ends the connection: OK; non-characters are echoed: OK. -/
example : received [frame 1 [0xce, 0xba, 0xe1, 0xbd, 0xb9, 0xcf, 0x83, 0xce, 0xbc, 0xce, 0xb5, 0xed, 0xa0, 0x80, 0x65, 0x64], bye] = [] ∧
    received [frame 1 [0xef, 0xbf, 0xbe], bye] = [(.text, [0xef, 0xbf, 0xbe]), (.close, [])] := by decide +kernel

/-- 7.1.2: two close frames: one reply; 7.1.3: a ping after the close frame is not answered; 7.3.x, 7.7.x: close frames with any payload get an empty reply: OK. -/
example : received [bye, bye] = [(.close, [])] ∧ received [bye, frame 9 hello] = [(.close, [])] ∧ received [frame 8 []] = [(.close, [])] ∧
    received [frame 8 (3 :: 232 :: stars 123)] = [(.close, [])] := by decide +kernel

end Puck.Autobahn
