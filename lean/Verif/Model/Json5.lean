import Verif.Model.Number
import Verif.Model.Source
/-!
# The parser of the sources

Model of `dochy_json5/src/json5.pest`, `de.rs`, `deserialize_item.rs`. A text is a list of characters.

The grammar is written with the operators of `pest`, rule by rule. A parser takes the rest of the text and yields the pairs it makes and
what remains, or fails. `~` of a rule that is not atomic is `nseq` (white space and comments are skipped in between), `*` of such a rule is
`nstar`; within `@` and `$` rules, in `WHITESPACE` and in `COMMENT` they are `seq` and `star`.

Simplifications.
* A pair has its rule, its text and its inner pairs; positions (spans) and messages of errors are left out.
* `value` calls itself through `array` and `object`; the model counts the depth down from the length of the text plus one. C64 shows that
  this is enough. The code has no such limit (but the stack of the thread).
* The Unicode classes of letters are parameters (`Uni`). `SPACE_SEPARATOR` is written out.
* `str::parse::<f64>` and `f64::from(u32)` are parameters, as in `Model/Number.lean`.
-/
namespace Verif.Json5
open Source (JVal)

/-- the rules that make a pair -/
inductive Rule where
  | null | undefined | boolean | string | identifier | number | array | object
  | charLiteral | charEscape | nulEscape | hexEscape | unicodeEscape | eoi
  deriving DecidableEq

/-- `pest::iterators::Pair` -/
inductive Pair where
  | mk (rule : Rule) (text : List Char) (inner : List Pair)

def Pair.rule : Pair → Rule
  | .mk r _ _ => r
def Pair.text : Pair → List Char
  | .mk _ t _ => t
def Pair.inner : Pair → List Pair
  | .mk _ _ i => i

/-- The Unicode classes that `json5.pest` refers to and that are not written out. -/
structure Uni where
  /-- json5.pest:116-123 `unicode_letter` -/
  letter : Char → Bool
  /-- json5.pest:59-62 `NONSPACING_MARK`, `DIACRITIC`, `DECIMAL_NUMBER`, `CONNECTOR_PUNCTUATION` -/
  mark : Char → Bool

/-! ## The operators of pest -/

abbrev P := List Char → Option (List Pair × List Char)

/-- `"…"` -/
def lit (t : List Char) : P := fun s => if t.isPrefixOf s then some ([], s.drop t.length) else none

/-- a class of characters -/
def one (p : Char → Bool) : P
  | [] => none
  | c :: r => if p c then some ([], r) else none

/-- `a ~ b` in an atomic rule -/
def seq (a b : P) : P := fun s =>
  match a s with
  | none => none
  | some (x, r) =>
    match b r with
    | none => none
    | some (y, r') => some (x ++ y, r')

/-- `a | b` -/
def alt (a b : P) : P := fun s =>
  match a s with
  | some x => some x
  | none => b s

/-- `a?` -/
def opt (a : P) : P := fun s =>
  match a s with
  | some x => some x
  | none => some ([], s)

/-- `!a` -/
def notP (a : P) : P := fun s =>
  match a s with
  | some _ => none
  | none => some ([], s)

/-- `&a` -/
def andP (a : P) : P := fun s =>
  match a s with
  | some _ => some ([], s)
  | none => none

def starN (a : P) : Nat → P
  | 0, s => some ([], s)
  | n + 1, s =>
    match a s with
    | none => some ([], s)
    | some (x, r) =>
      match starN a n r with
      | none => none
      | some (y, r') => some (x ++ y, r')

/-- `a*` in an atomic rule; every round takes at least one character, so there are no more rounds than characters -/
def star (a : P) : P := fun s => starN a s.length s

/-- `a+` in an atomic rule -/
def plus (a : P) : P := seq a (star a)

/-- `SOI`-less `EOI` -/
def eoi : P
  | [] => some ([.mk .eoi [] []], [])
  | _ :: _ => none

/-- a rule with `$`, or without a modifier -/
def rule (n : Rule) (a : P) : P := fun s =>
  match a s with
  | none => none
  | some (x, r) => some ([.mk n (s.take (s.length - r.length)) x], r)

/-- a rule with `@`: no inner pairs -/
def atomic (n : Rule) (a : P) : P := fun s =>
  match a s with
  | none => none
  | some (_, r) => some ([.mk n (s.take (s.length - r.length)) []], r)

/-! ## Characters -/

/-- json5.pest:77 `line_terminator` -/
def lineTerm (c : Char) : Bool := c == '\n' || c == '\r' || c == '\u2028' || c == '\u2029'

/-- `SPACE_SEPARATOR`: the class Zs of Unicode -/
def spaceSep (c : Char) : Bool :=
  c == ' ' || c == '\u00a0' || c == '\u1680' || (decide ('\u2000' ≤ c) && decide (c ≤ '\u200a')) || c == '\u202f' || c == '\u205f' ||
    c == '\u3000'

/-- json5.pest:6-15 `WHITESPACE` -/
def whitespaceChar (c : Char) : Bool :=
  c == '\t' || c == '\x0b' || c == '\x0c' || c == ' ' || c == '\u00a0' || c == '\ufeff' || spaceSep c || lineTerm c

/-- `ASCII_DIGIT` -/
def asciiDigit (c : Char) : Bool := decide ('0' ≤ c) && decide (c ≤ '9')
/-- `ASCII_NONZERO_DIGIT` -/
def asciiNonzero (c : Char) : Bool := decide ('1' ≤ c) && decide (c ≤ '9')
/-- `ASCII_HEX_DIGIT` -/
def asciiHex (c : Char) : Bool :=
  asciiDigit c || (decide ('a' ≤ c) && decide (c ≤ 'f')) || (decide ('A' ≤ c) && decide (c ≤ 'F'))
/-- `ANY` -/
def any : P := one fun _ => true

/-! ## White space and comments -/

/-- json5.pest:4 `COMMENT` -/
def comment : P :=
  alt (seq (lit ['/', '*']) (seq (star (seq (notP (lit ['*', '/'])) any)) (lit ['*', '/'])))
    (seq (lit ['/', '/']) (star (seq (notP (one lineTerm)) any)))

/-- what pest puts between the parts of a rule that is not atomic -/
def skip : P := seq (star (one whitespaceChar)) (star (seq comment (star (one whitespaceChar))))

/-- `a ~ b` in a rule that is not atomic -/
def nseq (a b : P) : P := seq a (seq skip b)

/-- `a*` in a rule that is not atomic -/
def nstar (a : P) : P := opt (seq a (star (seq skip a)))

/-! ## Words and numbers -/

/-- json5.pest:85 `null` -/
def nullP : P := atomic .null (lit "null".toList)
/-- json5.pest:87 `undefined` -/
def undefinedP : P := atomic .undefined (lit "undefined".toList)
/-- json5.pest:19 `boolean` -/
def booleanP : P := atomic .boolean (alt (lit "true".toList) (lit "false".toList))

/-- json5.pest:48 `exponent_part` -/
def exponentPart : P := seq (one fun c => c == 'e' || c == 'E') (seq (opt (one fun c => c == '+' || c == '-')) (plus (one asciiDigit)))

/-- json5.pest:52 `hex_integer_literal` -/
def hexInteger : P := seq (lit ['0']) (seq (one fun c => c == 'x' || c == 'X') (plus (one asciiHex)))

/-- json5.pest:25 `decimal_integer_literal` -/
def decimalInteger : P := alt (lit ['0']) (seq (one asciiNonzero) (star (one asciiDigit)))

/-- json5.pest:27-31 `decimal_literal` -/
def decimal : P :=
  alt (seq decimalInteger (seq (lit ['.']) (seq (star (one asciiDigit)) (opt exponentPart))))
    (alt (seq (lit ['.']) (seq (plus (one asciiDigit)) (opt exponentPart)))
      (seq decimalInteger (opt exponentPart)))

/-- json5.pest:91-96 `numeric_literal` -/
def numeric : P := alt hexInteger (alt decimal (alt (lit "Infinity".toList) (lit "NaN".toList)))

/-- json5.pest:89 `number` -/
def numberP : P := atomic .number (seq (opt (one fun c => c == '+' || c == '-')) numeric)

/-! ## Strings and names -/

/-- json5.pest:23 `char_literal` -/
def charLiteral : P := atomic .charLiteral (seq (notP (alt (lit ['\\']) (one lineTerm))) any)

/-- json5.pest:102 `single_escape_char` -/
def singleEscape (c : Char) : Bool :=
  c == '\'' || c == '"' || c == '\\' || c == 'b' || c == 'f' || c == 'n' || c == 'r' || c == 't' || c == 'v'

/-- json5.pest:39 `escape_char` -/
def escapeChar (c : Char) : Bool := singleEscape c || asciiDigit c || c == 'x' || c == 'u'

/-- json5.pest:81 `non_escape_char` -/
def nonEscape : P := seq (notP (alt (one escapeChar) (one lineTerm))) any

/-- json5.pest:21 `char_escape_sequence` -/
def charEscape : P := atomic .charEscape (alt (one singleEscape) nonEscape)

/-- json5.pest:83 `nul_escape_sequence` -/
def nulEscape : P := atomic .nulEscape (lit ['0'])

/-- json5.pest:50 `hex_escape_sequence` -/
def hexEscape : P := atomic .hexEscape (seq (one asciiHex) (one asciiHex))

/-- json5.pest:114 `unicode_escape_sequence` -/
def unicodeEscape : P := atomic .unicodeEscape (seq (one asciiHex) (seq (one asciiHex) (seq (one asciiHex) (one asciiHex))))

/-- json5.pest:41-46 `escape_sequence` -/
def escapeSequence : P := alt charEscape (alt nulEscape (alt (seq (lit ['x']) hexEscape) (seq (lit ['u']) unicodeEscape)))

/-- json5.pest:79 `line_terminator_sequence` -/
def lineTermSeq : P := alt (seq (lit ['\r']) (lit ['\n'])) (one lineTerm)

/-- json5.pest:75 `line_continuation` -/
def lineContinuation : P := seq (lit ['\\']) lineTermSeq

/-- json5.pest:33-37 `double_quote_char`, 104-108 `single_quote_char`, with the quote `q` -/
def quoteChar (q : Char) : P :=
  alt (seq (lit ['\\']) escapeSequence) (alt lineContinuation (seq (notP (lit [q])) charLiteral))

/-- json5.pest:110 `string` -/
def stringP : P :=
  rule .string (alt (seq (lit ['"']) (seq (star (quoteChar '"')) (lit ['"'])))
    (seq (lit ['\'']) (seq (star (quoteChar '\'')) (lit ['\'']))))

/-- json5.pest:68-71 `identifier_start` -/
def identStart (u : Uni) : P :=
  alt (seq (andP (alt (one u.letter) (one fun c => c == '$' || c == '_' || c == '@'))) charLiteral)
    (seq (lit ['\\', 'u']) unicodeEscape)

/-- json5.pest:56-66 `identifier_part` -/
def identPart (u : Uni) : P :=
  alt (identStart u) (seq (andP (one fun c => u.mark c || c == '\u200c' || c == '\u200d')) charLiteral)

/-- json5.pest:54 `identifier` -/
def identifierP (u : Uni) : P :=
  rule .identifier (seq (identStart u) (seq (star (identPart u)) (seq (opt (lit ['!'])) (opt (lit ['?'])))))

/-- json5.pest:73 `key` -/
def keyP (u : Uni) : P := alt (identifierP u) stringP

/-! ## Values -/

/-- json5.pest:100 `pair` -/
def pairP (u : Uni) (value : P) : P := nseq (keyP u) (nseq (lit [':']) value)

/-- json5.pest:98 `object` -/
def objectP (u : Uni) (value : P) : P :=
  rule .object (alt (nseq (lit ['{']) (lit ['}']))
    (nseq (lit ['{']) (nseq (pairP u value) (nseq (nstar (nseq (lit [',']) (pairP u value))) (nseq (opt (lit [','])) (lit ['}']))))))

/-- json5.pest:17 `array` -/
def arrayP (value : P) : P :=
  rule .array (alt (nseq (lit ['[']) (lit [']']))
    (nseq (lit ['[']) (nseq value (nseq (nstar (nseq (lit [',']) value)) (nseq (opt (lit [','])) (lit [']']))))))

/-- json5.pest:125 `value`, at most `n` levels deep -/
def valueP (u : Uni) : Nat → P
  | 0 => fun _ => none
  | n + 1 =>
    alt nullP (alt undefinedP (alt booleanP (alt stringP (alt numberP (alt (objectP u (valueP u n)) (arrayP (valueP u n)))))))

/-- json5.pest:112 `text` -/
def textP (u : Uni) (n : Nat) : P := seq skip (nseq (valueP u n) eoi)

/-! ## The values of the pairs -/

/-- de.rs:52-58 `parse_bool` -/
def parseBool (t : List Char) : Res Bool :=
  if t = "true".toList then .ok true else if t = "false".toList then .ok false else .panic

/-- de.rs:91-101 `parse_char_escape_sequence` -/
def parseCharEscape (t : List Char) : List Char :=
  if t = ['b'] then ['\x08']
  else if t = ['f'] then ['\x0c']
  else if t = ['n'] then ['\n']
  else if t = ['r'] then ['\r']
  else if t = ['t'] then ['\t']
  else if t = ['v'] then ['\x0b']
  else t

/-- `char::from_u32` -/
def charFromU32 (n : Nat) : Option Char := if n < 0xd800 ∨ (0xdfff < n ∧ n < 0x110000) then some (Char.ofNat n) else none

/-- de.rs:73-89 `parse_string` -/
def parseString : List Pair → Res (List Char)
  | [] => .ok []
  | .mk r t _ :: ps =>
    match r with
    | .charLiteral => (parseString ps).map (t ++ ·)
    | .charEscape => (parseString ps).map (parseCharEscape t ++ ·)
    | .nulEscape => (parseString ps).map ('\x00' :: ·)
    | .hexEscape | .unicodeEscape =>
      match Number.parseHex t with
      | none => .err
      | some n =>
        match charFromU32 n with
        | none => .err
        | some c => (parseString ps).map (c :: ·)
    | _ => .panic

/-- deserialize_item.rs:41-54: the name of a pair, `&s[1..s.len()-1]` for a string -/
def keyName : Pair → Res (List Char)
  | .mk .identifier t _ => .ok t
  | .mk .string t _ => if t.length < 2 then .panic else .ok ((t.drop 1).dropLast)
  | _ => .panic

/-- de.rs:33-39 -/
def readNum (pf : List Char → Option UInt64) (fromU32 : Nat → UInt64) (t : List Char) : Res JVal :=
  (Number.readNumber pf fromU32 t).map fun n =>
    match n with
    | .int i => .int i
    | .float b => .double b.toBitVec

mutual
/-- de.rs:24-50 `deserialize_any` -/
def deserialize (pf : List Char → Option UInt64) (fromU32 : Nat → UInt64) : Pair → Res JVal
  | .mk .null _ _ => .ok .null
  | .mk .undefined _ _ => .ok .undef
  | .mk .boolean t _ => (parseBool t).map .bool
  | .mk .string _ i => (parseString i).map fun s => .string (String.ofList s)
  | .mk .identifier _ i => (parseString i).map fun s => .string (String.ofList s)
  | .mk .number t _ => readNum pf fromU32 t
  | .mk .array _ i => (getSeq pf fromU32 i).map .array
  | .mk .object _ i => (getMap pf fromU32 [] i).map .map
  | _ => .panic
/-- deserialize_item.rs:24-31 `get_seq` -/
def getSeq (pf : List Char → Option UInt64) (fromU32 : Nat → UInt64) : List Pair → Res (List JVal)
  | [] => .ok []
  | p :: ps => (deserialize pf fromU32 p).bind fun v => (getSeq pf fromU32 ps).map (v :: ·)
/-- deserialize_item.rs:33-79 `get_map`; `acc` is the map so far -/
def getMap (pf : List Char → Option UInt64) (fromU32 : Nat → UInt64) (acc : List (String × JVal)) :
    List Pair → Res (List (String × JVal))
  | [] => .ok acc
  | [k] => (keyName k).bind fun _ => .panic
  | k :: p :: ps =>
    (keyName k).bind fun name =>
      (deserialize pf fromU32 p).bind fun v =>
        if (acc.map Prod.fst).contains (String.ofList name) then .err else getMap pf fromU32 (acc ++ [(String.ofList name, v)]) ps
end

/-- de.rs:17-22 `from_str` -/
def fromStr (u : Uni) (pf : List Char → Option UInt64) (fromU32 : Nat → UInt64) (s : List Char) : Res JVal :=
  match textP u (s.length + 1) s with
  | none => .err
  | some ([], _) => .panic
  | some (p :: _, _) => deserialize pf fromU32 p

end Verif.Json5
