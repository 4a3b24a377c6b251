import Verif.Model.Io
/-!
# Specification: RFC 4648 base64 decoding, and SHA-1 (FIPS 180-4)

Independent of the model of puck's code.
-/
namespace Base64
open Puck (Bytes)

/-- RFC 4648 table 1, read backwards. -/
def val (c : UInt8) : Option Nat :=
  if 65 ≤ c ∧ c ≤ 90 then some (c.toNat - 65)
  else if 97 ≤ c ∧ c ≤ 122 then some (c.toNat - 97 + 26)
  else if 48 ≤ c ∧ c ≤ 57 then some (c.toNat - 48 + 52)
  else if c = 43 then some 62
  else if c = 47 then some 63
  else none

/-- Groups of four characters; only the last may be padded, with the unused bits zero. -/
def decode : Bytes → Option Bytes
  | [] => some []
  | a :: b :: c :: d :: t =>
    match val a, val b with
    | some a, some b =>
      if c = 61 then
        if d = 61 ∧ t = [] ∧ b % 16 = 0 then some [UInt8.ofNat (a * 4 + b / 16)] else none
      else
        match val c with
        | none => none
        | some c =>
          if d = 61 then
            if t = [] ∧ c % 4 = 0 then some [UInt8.ofNat (a * 4 + b / 16), UInt8.ofNat (b % 16 * 16 + c / 4)] else none
          else
            match val d, decode t with
            | some d, some r =>
              some (UInt8.ofNat (a * 4 + b / 16) :: UInt8.ofNat (b % 16 * 16 + c / 4) :: UInt8.ofNat (c % 4 * 64 + d) :: r)
            | _, _ => none
    | _, _ => none
  | _ => none

end Base64

/-! ## SHA-1 -/
namespace Sha1
open Puck (Bytes)

/-- 32-bit words as naturals below 2^32. -/
def w32 (n : Nat) : Nat := n % 4294967296
/-- Rotate left. -/
def rotl (n x : Nat) : Nat := w32 (x <<< n) ||| (x >>> (32 - n))

/-- FIPS 180-4 5.1.1: append 1, zeros, and the bit length. -/
def pad (m : Bytes) : Bytes :=
  let bits := 8 * m.length
  let len : Bytes := (List.range 8).map fun i => UInt8.ofNat (bits >>> (8 * (7 - i)))
  let zeros : Bytes := List.replicate ((119 - m.length % 64) % 64) 0
  m ++ [128] ++ zeros ++ len

/-- The words of a block, big-endian. -/
def words : Bytes → List Nat
  | a :: b :: c :: d :: t => (a.toNat * 16777216 + b.toNat * 65536 + c.toNat * 256 + d.toNat) :: words t
  | _ => []

/-- FIPS 180-4 6.1.2 step 1: the message schedule, newest word first. -/
def schedule : Nat → List Nat → List Nat
  | 0, w => w
  | k + 1, w => schedule k (rotl 1 (w.getD 2 0 ^^^ w.getD 7 0 ^^^ w.getD 13 0 ^^^ w.getD 15 0) :: w)

/-- The five working variables. -/
structure St where
  a : Nat
  b : Nat
  c : Nat
  d : Nat
  e : Nat
  deriving DecidableEq

/-- FIPS 180-4 4.1.1 and 4.2.1: function and constant of round `t`. -/
def fk (t : Nat) (b c d : Nat) : Nat × Nat :=
  if t < 20 then ((b &&& c) ^^^ ((4294967295 ^^^ b) &&& d), 0x5a827999)
  else if t < 40 then (b ^^^ c ^^^ d, 0x6ed9eba1)
  else if t < 60 then ((b &&& c) ^^^ (b &&& d) ^^^ (c &&& d), 0x8f1bbcdc)
  else (b ^^^ c ^^^ d, 0xca62c1d6)

/-- FIPS 180-4 6.1.2 step 3. -/
def rounds : Nat → List Nat → St → St
  | _, [], s => s
  | t, w :: ws, s =>
    let (f, k) := fk t s.b s.c s.d
    rounds (t + 1) ws ⟨w32 (rotl 5 s.a + f + s.e + k + w), s.a, rotl 30 s.b, s.c, s.d⟩

/-- One block. -/
def block (s : St) (b : Bytes) : St :=
  let r := rounds 0 (schedule 64 (words b).reverse).reverse s
  ⟨w32 (s.a + r.a), w32 (s.b + r.b), w32 (s.c + r.c), w32 (s.d + r.d), w32 (s.e + r.e)⟩

/-- All blocks (the first argument bounds their number). -/
def blocks : Nat → Bytes → St → St
  | 0, _, s => s
  | k + 1, m, s => blocks k (m.drop 64) (block s (m.take 64))

/-- A word as four bytes. -/
def word4 (n : Nat) : Bytes :=
  [UInt8.ofNat (n >>> 24), UInt8.ofNat (n >>> 16), UInt8.ofNat (n >>> 8), UInt8.ofNat n]

/-- SHA-1. -/
def sha1 (m : Bytes) : Bytes :=
  let p := pad m
  let s := blocks (p.length / 64) p ⟨0x67452301, 0xefcdab89, 0x98badcfe, 0x10325476, 0xc3d2e1f0⟩
  word4 s.a ++ word4 s.b ++ word4 s.c ++ word4 s.d ++ word4 s.e

end Sha1
