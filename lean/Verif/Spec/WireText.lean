import Mathlib.Data.Nat.Digits.Defs
import Verif.Spec.Wire
/-!
# The encoding of a list of fields

The grammar of the protobuf encoding, independently of any reader: which bytes stand for which fields.
-/
namespace Fhe.Wire

/-- The bytes stand for the number: seven bits each, the least significant first, the high bit set on all but the last; at most ten bytes
and 64 bits.  Zeros may follow the most significant bits. -/
def IsNumber (l : List Nat) (n : Nat) : Prop :=
  ∃ front last, l = front ++ [last] ∧ (∀ x ∈ front, 128 ≤ x ∧ x < 256) ∧ last < 128 ∧ l.length ≤ 10 ∧ n = Nat.ofDigits 128 (l.map (· % 128)) ∧ n < 2 ^ 64

/-- The bytes stand for the number of a field, from 1 to 2^29 - 1, together with the wire type. -/
def IsKey (l : List Nat) (tag wireType : Nat) : Prop := IsNumber l (tag * 8 + wireType) ∧ 1 ≤ tag ∧ tag < 2 ^ 29

/-- The bytes stand for the fields, with groups nested less than `depth` deep: a number (0), eight bytes (1), as many bytes as are
announced (2), fields between the start of a group and its end (3 and 4), or four bytes (5). -/
inductive IsFields : (depth : Nat) → List Nat → List Field → Prop
  | nil (d) : IsFields d [] []
  | number {d k t v n r fs} : IsKey k t 0 → IsNumber v n → IsFields (d + 1) r fs → IsFields (d + 1) (k ++ v ++ r) ((t, .varint n) :: fs)
  | fixed64 {d k t v r fs} : IsKey k t 1 → v.length = 8 → IsFields (d + 1) r fs → IsFields (d + 1) (k ++ v ++ r) ((t, .fixed64) :: fs)
  | bytes {d k t v p r fs} : IsKey k t 2 → IsNumber v p.length → IsFields (d + 1) r fs → IsFields (d + 1) (k ++ (v ++ p) ++ r) ((t, .len p) :: fs)
  | group {d k t c inner e r fs} : IsKey k t 3 → IsFields d c inner → IsKey e t 4 → IsFields (d + 1) r fs → IsFields (d + 1) (k ++ (c ++ e) ++ r) ((t, .group) :: fs)
  | fixed32 {d k t v r fs} : IsKey k t 5 → v.length = 4 → IsFields (d + 1) r fs → IsFields (d + 1) (k ++ v ++ r) ((t, .fixed32) :: fs)

end Fhe.Wire
