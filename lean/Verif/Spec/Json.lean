import Verif.Spec.Json5
/-!
# JSON

The grammar of RFC 8259 and what its texts mean. `lim` is a switch: with `true` the texts keep to the limits of the parser.
* U+2028 and U+2029 do not occur in strings.
* There are no pairs of surrogates.
* There are no escapes in names.
* Integers fit into `i64`, the other numbers into `f64`.

Names of an object are distinct (the RFC says "SHOULD"). Numbers without fraction and exponent mean integers, as in the rest of the
program; the other ones mean what `pf` (the reader of floats of the standard library) makes of them.
-/
namespace Verif.Json5
open Source (JVal)
open Number (DecInt Lit Exp signed denotes exponent IsDigit IsHexDigit)

/-- section 2: `ws` -/
def Ws (g : List Char) : Prop := ∀ c ∈ g, c.toNat = 32 ∨ c.toNat = 9 ∨ c.toNat = 10 ∨ c.toNat = 13

/-- section 7: the characters after `\` that stand for one character by themselves -/
inductive JEscape : Char → Char → Prop
  | quote : JEscape '"' '"'
  | back : JEscape '\\' '\\'
  | slash : JEscape '/' '/'
  | b : JEscape 'b' (Char.ofNat 8)
  | f : JEscape 'f' (Char.ofNat 12)
  | n : JEscape 'n' (Char.ofNat 10)
  | r : JEscape 'r' (Char.ofNat 13)
  | t : JEscape 't' (Char.ofNat 9)

/-- a part of a string, and the characters it stands for -/
inductive JPiece (lim : Bool) : List Char → List Char → Prop
  | plain {c} : 32 ≤ c.toNat → c ≠ '"' → c ≠ '\\' → (lim = true → c.toNat ≠ 0x2028 ∧ c.toNat ≠ 0x2029) → JPiece lim [c] [c]
  | escape {c d} : JEscape c d → JPiece lim ['\\', c] [d]
  | unicode {a b c d} : IsHexDigit a → IsHexDigit b → IsHexDigit c → IsHexDigit d →
      ¬ (0xd800 ≤ denotes 16 [a, b, c, d] ∧ denotes 16 [a, b, c, d] ≤ 0xdfff) →
      JPiece lim ['\\', 'u', a, b, c, d] [Char.ofNat (denotes 16 [a, b, c, d])]
  | pair {a b c d a' b' c' d'} : IsHexDigit a → IsHexDigit b → IsHexDigit c → IsHexDigit d →
      IsHexDigit a' → IsHexDigit b' → IsHexDigit c' → IsHexDigit d' →
      0xd800 ≤ denotes 16 [a, b, c, d] → denotes 16 [a, b, c, d] ≤ 0xdbff →
      0xdc00 ≤ denotes 16 [a', b', c', d'] → denotes 16 [a', b', c', d'] ≤ 0xdfff → lim = false →
      JPiece lim ['\\', 'u', a, b, c, d, '\\', 'u', a', b', c', d']
        [Char.ofNat (0x10000 + (denotes 16 [a, b, c, d] - 0xd800) * 0x400 + (denotes 16 [a', b', c', d'] - 0xdc00))]

/-- the text between the quotes, and the string it stands for -/
inductive JStr (lim : Bool) : List Char → List Char → Prop
  | nil : JStr lim [] []
  | cons {t x r y} : JPiece lim t x → JStr lim r y → JStr lim (t ++ r) (x ++ y)

/-- section 6: a number with a fraction or an exponent -/
inductive JFrac : Lit → Prop
  | exp {s i e} : s ≠ some true → DecInt i → e.Wf → JFrac ⟨s, .intExp i e⟩
  | frac {s i f e} : s ≠ some true → DecInt i → f ≠ [] → (∀ x ∈ f, IsDigit x) → (∀ y, e = some y → y.Wf) → JFrac ⟨s, .frac i f e⟩

section
variable (pf : List Char → Option UInt64) (lim : Bool)

mutual
inductive JValue : List Char → JVal → Prop
  | null : JValue "null".toList .null
  | tru : JValue "true".toList (.bool true)
  | fls : JValue "false".toList (.bool false)
  | string {t x} : JStr lim t x → JValue ('"' :: (t ++ ['"'])) (.string (String.ofList x))
  | int {s i} : s ≠ some true → DecInt i → (lim = true → -(2 ^ 63) ≤ signed s (denotes 10 i) ∧ signed s (denotes 10 i) < 2 ^ 63) →
      JValue (Lit.text ⟨s, .int i⟩) (.int (signed s (denotes 10 i)))
  | float {l b} : JFrac l → pf l.text = some b → (lim = true → exponent b ≠ 2047) → JValue l.text (.double b.toBitVec)
  | array0 {g} : Ws g → JValue ('[' :: (g ++ [']'])) (.array [])
  | array {g t v r vs} : Ws g → JValue t v → JTail r vs → JValue ('[' :: (g ++ (t ++ r))) (.array (v :: vs))
  | object0 {g} : Ws g → JValue ('{' :: (g ++ ['}'])) (.map [])
  | object {g m k v r ms} : Ws g → JMember m k v → JMTail r ms → (k :: ms.map Prod.fst).Nodup →
      JValue ('{' :: (g ++ (m ++ r))) (.map ((k, v) :: ms))
inductive JTail : List Char → List JVal → Prop
  | close {g} : Ws g → JTail (g ++ [']']) []
  | more {g g' t v r vs} : Ws g → Ws g' → JValue t v → JTail r vs → JTail (g ++ ',' :: (g' ++ (t ++ r))) (v :: vs)
inductive JMember : List Char → String → JVal → Prop
  | mk {k name g g' t v} : JStr lim k name → (lim = true → '\\' ∉ k) → Ws g → Ws g' → JValue t v →
      JMember (('"' :: (k ++ ['"'])) ++ (g ++ ':' :: (g' ++ t))) (String.ofList name) v
inductive JMTail : List Char → List (String × JVal) → Prop
  | close {g} : Ws g → JMTail (g ++ ['}']) []
  | more {g g' m k v r ms} : Ws g → Ws g' → JMember m k v → JMTail r ms → JMTail (g ++ ',' :: (g' ++ (m ++ r))) ((k, v) :: ms)
end

/-- a JSON text and its value -/
inductive Json : List Char → JVal → Prop
  | mk {g t g' v} : Ws g → JValue pf lim t v → Ws g' → Json (g ++ (t ++ g')) v

end

end Verif.Json5
