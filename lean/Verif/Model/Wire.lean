import Mathlib.Data.Nat.Notation
/-!
# The protobuf wire format

`to_bytes` and `from_bytes` encode and decode messages with `prost` 0.14 (`encode_to_vec`, `Message::decode`), from code generated out of
`/repo/crates/fhe/src/proto/bfv.proto` and `/repo/crates/fhe-math/src/proto/rq.proto`.  Neither `prost` nor the generated code is in
`/repo`: this file models the format they implement (the proto3 encoding).  Bytes are natural numbers below 256.  All decoding errors are
mapped to one error by the callers, so they are not distinguished here.
-/
namespace Fhe

/-- A list of bytes.  The argument of `from_bytes`, for example `/repo/crates/fhe/src/bfv/ciphertext.rs` line 206. -/
def IsBytes (l : List Nat) : Prop := ∀ x ∈ l, x < 2 ^ 8

namespace Wire

/-- A base 128 integer: seven bits per byte, the least significant first, the high bit set on all bytes but the last.  Part of `encode_to_vec`,
called for example in `/repo/crates/fhe/src/bfv/ciphertext.rs` line 200. -/
def varint (n : Nat) : List Nat := if n < 128 then [n] else (n % 128 + 128) :: varint (n / 128)
termination_by n
decreasing_by omega

/-- Reads a base 128 integer of at most `k` bytes and returns the rest of the bytes; the tenth byte may only hold one bit.  Part of
`Message::decode`, called for example in `/repo/crates/fhe/src/bfv/ciphertext.rs` line 206. -/
def readVarint : (k : Nat) → List Nat → Option (Nat × List Nat)
  | 0, _ => none
  | _, [] => none
  | k + 1, x :: rest =>
    if x < 128 then if k = 0 ∧ 2 ≤ x then none else some (x, rest)
    else do
      let (v, rest) ← readVarint k rest
      return (x - 128 + 128 * v, rest)

/-- The value of a field.  The contents of fields of fixed width and of groups are only ever skipped.  Part of `Message::decode`, called for example
in `/repo/crates/fhe/src/bfv/ciphertext.rs` line 206. -/
inductive Value where
  | varint (n : Nat)
  | fixed64
  | len (payload : List Nat)
  | group
  | fixed32
deriving DecidableEq, Repr

/-- A field: its number and its value.  Part of `Message::decode`, called for example in `/repo/crates/fhe/src/bfv/ciphertext.rs` line 206. -/
abbrev Field := Nat × Value

/-- The key of a field: its number and the wire type.  A key must fit in 32 bits, and the number is not zero.  Part of `Message::decode`, called for
example in `/repo/crates/fhe/src/bfv/ciphertext.rs` line 206. -/
def readKey (bytes : List Nat) : Option (Nat × Nat × List Nat) := do
  let (key, rest) ← readVarint 10 bytes
  if key < 2 ^ 32 ∧ key % 8 < 6 ∧ key / 8 ≠ 0 then return (key / 8, key % 8, rest) else none

/-- Drops `n` bytes, which must be there.  Part of `Message::decode`, called for example in `/repo/crates/fhe/src/bfv/ciphertext.rs` line 206. -/
def skipBytes (n : Nat) (bytes : List Nat) : Option (List Nat) := if n ≤ bytes.length then some (bytes.drop n) else none

/-- The value of a field whose wire type is not that of a group.  Part of `Message::decode`, called for example in
`/repo/crates/fhe/src/bfv/ciphertext.rs` line 206. -/
def readValue (wireType : Nat) (bytes : List Nat) : Option (Value × List Nat) :=
  match wireType with
  | 0 => do
    let (n, rest) ← readVarint 10 bytes
    return (.varint n, rest)
  | 1 => do return (.fixed64, ← skipBytes 8 bytes)
  | 2 => do
    let (n, rest) ← readVarint 10 bytes
    if n ≤ rest.length then return (.len (rest.take n), rest.drop n) else none
  | 5 => do return (.fixed32, ← skipBytes 4 bytes)
  | _ => none

/-- Skips the rest of a group, up to and including the end of the group numbered `tag`.  Groups may be nested `depth` deep.  The first argument only
makes the recursion structural: every step consumes a byte.  Part of `Message::decode`, called for example in
`/repo/crates/fhe/src/bfv/ciphertext.rs` line 206. -/
def skipGroup : (fuel depth tag : Nat) → List Nat → Option (List Nat)
  | 0, _, _, _ => none
  | fuel + 1, depth, tag, bytes => do
    let (t, w, rest) ← readKey bytes
    if w = 4 then if t = tag then some rest else none
    else if depth = 0 then none
    else if w = 3 then do
      let rest ← skipGroup fuel (depth - 1) t rest
      skipGroup fuel depth tag rest
    else do
      let (_, rest) ← readValue w rest
      skipGroup fuel depth tag rest

/-- The value of a field.  Part of `Message::decode`, called for example in `/repo/crates/fhe/src/bfv/ciphertext.rs` line 206. -/
def readAny (depth tag wireType : Nat) (bytes : List Nat) : Option (Value × List Nat) :=
  if wireType = 3 then if depth = 0 then none else do return (.group, ← skipGroup bytes.length (depth - 1) tag bytes)
  else readValue wireType bytes

/-- The fields of a message of `fuel` bytes or less, in order.  `depth` limits the nesting.  Part of `Message::decode`, called for example in
`/repo/crates/fhe/src/bfv/ciphertext.rs` line 206. -/
def readFields : (fuel depth : Nat) → List Nat → Option (List Field)
  | _, _, [] => some []
  | 0, _, _ => none
  | fuel + 1, depth, bytes => do
    let (t, w, rest) ← readKey bytes
    let (v, rest) ← readAny depth t w rest
    return (t, v) :: (← readFields fuel depth rest)

/-- `Message::decode`: the fields of the bytes, merged one after the other into the empty message.  Called for example in
`/repo/crates/fhe/src/bfv/ciphertext.rs` line 206 and `/repo/crates/fhe-math/src/rq/serialize.rs` line 24. -/
def decode {M : Type} (merge : M → Field → Option M) (init : M) (depth : Nat) (bytes : List Nat) : Option M := do
  (← readFields bytes.length depth bytes).foldlM merge init

/-- The nesting of the outermost message.  Part of `Message::decode`, called for example in `/repo/crates/fhe/src/bfv/ciphertext.rs` line 206. -/
def maxDepth : Nat := 100

/-- The bytes of a field.  Part of `encode_to_vec`, called for example in `/repo/crates/fhe/src/bfv/ciphertext.rs` line 200. -/
def encodeField (f : Field) : List Nat :=
  match f.2 with
  | .varint n => varint (f.1 * 8) ++ varint n
  | .len p => varint (f.1 * 8 + 2) ++ varint p.length ++ p
  | _ => []

/-- The bytes of a message.  Part of `encode_to_vec`, called for example in `/repo/crates/fhe/src/bfv/ciphertext.rs` line 200. -/
def encode (fs : List Field) : List Nat := fs.flatMap encodeField

/-- A number, left out if it is zero.  Part of `encode_to_vec`, called for example in `/repo/crates/fhe/src/bfv/ciphertext.rs` line 200. -/
def scalar (tag n : Nat) : List Field := if n = 0 then [] else [(tag, .varint n)]
/-- Bytes, left out if there are none.  Part of `encode_to_vec`, called for example in `/repo/crates/fhe/src/bfv/ciphertext.rs` line 200. -/
def bytesField (tag : Nat) (p : List Nat) : List Field := if p = [] then [] else [(tag, .len p)]
/-- A list of byte strings: one field each.  Part of `encode_to_vec`, called for example in `/repo/crates/fhe/src/bfv/ciphertext.rs` line 200. -/
def repeatedBytes (tag : Nat) (l : List (List Nat)) : List Field := l.map fun p => (tag, .len p)
/-- A list of numbers: one field with all of them, left out if there are none.  Part of `encode_to_vec`, called for example in
`/repo/crates/fhe/src/bfv/ciphertext.rs` line 200. -/
def packed (tag : Nat) (l : List Nat) : List Field := if l = [] then [] else [(tag, .len (l.flatMap varint))]

/-- Reads base 128 integers until the end.  Part of `Message::decode`, called for example in `/repo/crates/fhe/src/bfv/ciphertext.rs` line 206. -/
def readPacked : (fuel : Nat) → List Nat → Option (List Nat)
  | _, [] => some []
  | 0, _ => none
  | fuel + 1, bytes => do
    let (n, rest) ← readVarint 10 bytes
    return n :: (← readPacked fuel rest)

/-- `u64 as u32`.  Part of `Message::decode`, called for example in `/repo/crates/fhe/src/bfv/ciphertext.rs` line 206. -/
def asU32 (n : Nat) : Nat := n % 2 ^ 32
/-- `u64 as i32`.  Part of `Message::decode`, called for example in `/repo/crates/fhe/src/bfv/ciphertext.rs` line 206. -/
def asI32 (n : Nat) : Int := if n % 2 ^ 32 < 2 ^ 31 then (n % 2 ^ 32 : Nat) else (n % 2 ^ 32 : Nat) - 2 ^ 32
/-- `i32 as u64`.  Part of `encode_to_vec`, called for example in `/repo/crates/fhe/src/bfv/ciphertext.rs` line 200. -/
def ofI32 (x : Int) : Nat := (x % 2 ^ 64).toNat
/-- The encoding of `sint64`: `0, -1, 1, -2, …` become `0, 1, 2, 3, …`.  Part of `encode_to_vec`, called for example in
`/repo/crates/fhe/src/bfv/ciphertext.rs` line 200. -/
def zigzag (x : Int) : Nat := if 0 ≤ x then 2 * x.natAbs else 2 * x.natAbs - 1
/-- Its inverse.  Part of `Message::decode`, called for example in `/repo/crates/fhe/src/bfv/ciphertext.rs` line 206. -/
def unzigzag (n : Nat) : Int := if n % 2 = 0 then (n / 2 : Nat) else -(n / 2 : Nat) - 1

end Wire
end Fhe
