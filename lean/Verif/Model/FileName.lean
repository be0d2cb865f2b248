import Verif.Model.VarInt
/-!
# History file names

Model of `dochy_fs/src/imp/history/file_name/{file_name_props,calc_filename,analyze_file_name}.rs`.
Strings are their UTF-8 bytes; slicing a `str` at a position that is not a character boundary panics.
-/
namespace Verif.FileName
open VarInt

/-- file_name_props.rs:8-13 `FileNameProps` (`u32` numbers; the tag as bytes). -/
structure Props where
  control : Nat
  prevCtl : Nat
  order : List Nat
  tag : Option Bytes
  deriving Repr, DecidableEq

/-- ASCII decimal digits of a number (`u32::to_string`). -/
def natBytes (n : Nat) : Bytes :=
  if n < 10 then [UInt8.ofNat (48 + n)] else natBytes (n / 10) ++ [UInt8.ofNat (48 + n % 10)]
termination_by n
decreasing_by omega

def isDigit (b : UInt8) : Bool := 48 ≤ b.toNat && b.toNat ≤ 57

/-- ".his" -/
def his : Bytes := [46, 104, 105, 115]

/-- calc_filename.rs:8-29 `calc_filename` ('#' = 35, '(' = 40, ')' = 41, '_' = 95). -/
def calcFilename (tag : Option Bytes) (control : Nat) (prevCtl : Option Nat) (order : List Nat) : Bytes :=
  (match tag with | some t => 35 :: (t ++ [35]) | none => []) ++
  (match prevCtl with | some p => 40 :: (natBytes p ++ [41]) | none => []) ++
  (95 :: natBytes control) ++ order.flatMap (fun n => 95 :: natBytes n) ++ his

/-- file_name_props.rs:58-62 `calc_filename`. -/
def Props.filename (p : Props) : Bytes :=
  calcFilename p.tag p.control (if p.control = p.prevCtl then none else some p.prevCtl) p.order

/-- Position of the first byte `b` (analyze_file_name.rs:100-104, 115-119: `iter().skip(1).enumerate()` counts from 0
at index 1). -/
def findByte (b : UInt8) : Bytes → Option Nat
  | [] => none
  | x :: xs => if x = b then some 0 else (findByte b xs).map (· + 1)

/-- Is `i` a character boundary of the UTF-8 text `s`? (`str::is_char_boundary`) -/
def isBoundary (s : Bytes) (i : Nat) : Bool :=
  match s[i]? with
  | some b => b.toNat / 64 != 2
  | none => i == s.length

/-- `&s[a..b]`. -/
def slice (s : Bytes) (a b : Nat) : Res Bytes :=
  if a ≤ b ∧ b ≤ s.length ∧ isBoundary s a ∧ isBoundary s b then .ok ((s.take b).drop a) else .panic

/-- analyze_file_name.rs:93-106 `get_tag` (the slice ends one byte too early, line 102). -/
def getTag (s : Bytes) : Res (Option Bytes) :=
  if s.length ≤ 1 then .ok none
  else if s.head? ≠ some 35 then .ok none
  else
    match findByte 35 s.tail with
    | some i => (slice s 1 i).map some
    | none => .ok none

/-- analyze_file_name.rs:108-121 `get_prev_ctl`. -/
def getPrevCtl (s : Bytes) : Res (Option Bytes) :=
  if s.length ≤ 1 then .ok none
  else if s.head? ≠ some 40 then .ok none
  else
    match findByte 41 s.tail with
    | some i => (slice s 1 (i + 1)).map some
    | none => .ok none

/-- analyze_file_name.rs:130-142, the loop of `get_num` after the first byte; `k` is the number of bytes that may still
be read (`i == 10` ends it), the result the number and the bytes after it. -/
def getNumLoop : Nat → Nat → Bytes → Option (Nat × Bytes)
  | 0, _, _ => none
  | _ + 1, _, [] => none
  | k + 1, acc, b :: bs =>
    if isDigit b then getNumLoop k (acc * 10 + (b.toNat - 48)) bs else some (acc, b :: bs)

/-- analyze_file_name.rs:124-145 `get_num`. -/
def getNum : Bytes → Option (Nat × Bytes)
  | [] => none
  | b :: bs => if b = 95 then getNumLoop 9 0 bs else none

/-- `u32::from_str`: an optional '+', at least one digit, no overflow. -/
def parseU32 (s : Bytes) : Option Nat :=
  let ds := if s.head? = some 43 then s.tail else s
  if ds ≠ [] ∧ ds.all isDigit then
    let v := ds.foldl (fun a b => a * 10 + (b.toNat - 48)) 0
    if v < 2 ^ 32 then some v else none
  else none

/-- analyze_file_name.rs:77-90: the order numbers. `fuel` bounds the loop by the length of the text
(every round consumes at least one byte). -/
def readOrder : Nat → Bytes → List Nat × Bytes
  | 0, s => ([], s)
  | fuel + 1, s =>
    match getNum s with
    | some (n, rest) => let r := readOrder fuel rest; (n :: r.1, r.2)
    | none => ([], s)

/-- analyze_file_name.rs:46-91 `analyze_file_name`. -/
def analyze (s : Bytes) : Res (Option Props) :=
  if ¬ his <:+ s then .ok none
  else
    (getTag s).bind fun tag =>
    (match tag with | some t => slice s (t.length + 2) s.length | none => .ok s).bind fun s =>
    (getPrevCtl s).bind fun prev =>
    (match prev with | some p => slice s (p.length + 2) s.length | none => .ok s).bind fun s =>
    match getNum s with
    | none => .ok none
    | some (n, s) =>
      let prevCtl := (prev.bind parseU32).getD n
      let r := readOrder s.length s
      if r.2 = his ∧ r.1 ≠ [] then .ok (some ⟨n, prevCtl, r.1, tag⟩) else .ok none

end Verif.FileName
