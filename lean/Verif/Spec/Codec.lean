import Verif.Model.Codec
/-! Specification vocabulary for the value codec: which values are encodable, what comes back,
and which inputs have an impossible header. -/
namespace Verif.Codec
open VarInt

/-- What a value can be for `encode` to accept it: the ranges of its Rust types and the documented length limits. -/
def Valid : KVal → Prop
  | .byte i => -128 ≤ i ∧ i < 128
  | .str16 s => (strBytes s).length < 16
  | .int i => InI64 i
  | .str256 s => (strBytes s).length < 256
  | .decimal i _ => InI128 i
  | .bigStr s => (strBytes s).length < 2 ^ 63
  | .binary v => v.length < 2 ^ 63
  | .binaryArc v => v.length < 2 ^ 63
  | .binary8 v => v.length < 2 ^ 63
  | .binary4 v => v.length < 2 ^ 63
  | .binary2 v => v.length < 2 ^ 63
  | .undefined i => i < 8
  | _ => True

/-- The value as it comes back: a shared binary comes back as a plain one. -/
def norm : KVal → KVal
  | .binaryArc v => .binary v
  | k => k

/-- The stream starts with a length-prefixed integer whose length byte exceeds 8 and that many bytes follow. -/
def BadLength (inp : Bytes) : Prop :=
  ∃ n body, inp = n :: body ∧ 8 < n.toNat ∧ n.toNat ≤ body.length

/-- The stream starts with a length-prefixed integer of at most 8 bytes, of value `v`, followed by `rest`. -/
def GoodInt (inp : Bytes) (v : Int) (rest : Bytes) : Prop :=
  ∃ n bs, inp = n :: (bs ++ rest) ∧ n.toNat = bs.length ∧ bs.length ≤ 8 ∧ v = decode bs

/-- A block header that makes the decoder panic: one of the two integers has a length byte above 8,
or the second one (length of the tag section) is negative. -/
def PanicHeader (inp : Bytes) : Prop :=
  BadLength inp ∨ ∃ c rest, GoodInt inp c rest ∧
    (BadLength rest ∨ ∃ t rest2, GoodInt rest t rest2 ∧ t < 0)

end Verif.Codec
