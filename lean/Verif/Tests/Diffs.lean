import Verif.Tests.Sources
/-!
# The tests of the diffs, run on the model

dochy_test/src/diff. An object is changed, the diff to the object of the source is written as bytes, and the bytes are applied to the object
of the source. These are tests of the model against the results the authors of the code expect; they are not proofs.
-/
namespace Verif.Tests
open Pipeline Source Core Codec VarInt Diff

/-- the bits of a decimal, and `f64::trunc` -/
def bits (f : Float) : BitVec 64 := BitVec.ofNat 64 f.toBits.toNat
def trunc (b : BitVec 64) : BitVec 64 :=
  let f := Float.ofBits (UInt64.ofNat b.toNat)
  bits (if f < 0 then f.ceil else f.floor)

def libF : Lib := { lib with float := { lib.float with trunc64 := trunc } }

/-- `get_diff` and `apply_diff`, on bytes -/
def diffBytes (a b : Root) : Res Bytes := ((ops libF).diff a b).bind encodeVals
def applyBytes (a : Root) (d : Bytes) : Res Root := (decodeVals d).bind fun v => (ops libF).app a v.1

/-- the function `apply` of the tests: what the source and the diff give -/
def restored (a b : Root) : Res Root := (diffBytes a b).bind (applyBytes a)

/-- assignments to members of the root -/
def assign (r : Root) (l : List (String × Param)) : Root := { r with sabun := l.foldl (fun s x => s.insert x.1 (.param x.2)) r.sabun }

/-- these members read as assigned -/
def reads (r : Root) (l : List (String × Param)) : Bool := l.all fun x => getRootParam r.erase x.1 = some x.2

/-- an object of the source is changed, restored from the diff, and read -/
def roundTrip (files : List (String × String)) (validation : Bool) (l : List (String × Param)) : Bool :=
  match (load files validation).bind fun a => restored a (assign a l) with
  | .ok r => reads r l
  | _ => false

def floats (l : List Float) : Param := .floatArray (.val (l.map bits))

/-- test_params.rs:13-69 `test_diff2` -/
def params2 : List (String × Param) :=
  [("hogeInt", int 1), ("hogeFloat", .float (.val (bits 1.0))), ("hogeString", .string (.val "山原や")), ("hogeBool", .bool (.val false)),
   ("hogeIntArray", .intArray (.val [])), ("hogeFloatArray", floats [1.2, 3.4, 5.6, 7.8]), ("hogeBinary", .binary (.val [4, 5, 6])),
   ("hogeIntHatena", int 1), ("hogeIntHatenaToNull", .int .null), ("hogeIntHatenaNull", int 1), ("hogeUndefined", int 1),
   ("hogeUndefinedToUndef", .int .undef), ("hogeUndefinedUndef", int 1), ("hogeUndefNullToNull", .int .null),
   ("hogeUndefNullToUndef", .int .undef), ("hogeUndefNullNull", int 1), ("hogeUndefNullUndef", int 1),
   ("hogeUndefNullNullToUndef", .int .undef), ("hogeUndefNullUndefToNull", .int .null)]

#guard roundTrip testDiffDiffParam true params2

/-- test_params.rs:71-148 `test_diff3`: the first state -/
def params3 : List (String × Param) :=
  [("hogeInt", int 2), ("hogeFloat", .float (.val (bits 2.0))), ("hogeString", .string (.val "山原やん")), ("hogeBool", .bool (.val true)),
   ("hogeIntArray", .intArray (.val [100])), ("hogeFloatArray", floats [1.12, 3.14, 5.16, 7.18]),
   ("hogeIntHatena", int 2), ("hogeIntHatenaToNull", int 3), ("hogeIntHatenaNull", int 2), ("hogeUndefined", int 2),
   ("hogeUndefinedToUndef", int 4), ("hogeUndefinedUndef", int 2), ("hogeUndefNullToNull", int 3),
   ("hogeUndefNullToUndef", int 4), ("hogeUndefNullNull", int 2), ("hogeUndefNullUndef", int 2),
   ("hogeUndefNullNullToUndef", int 4), ("hogeUndefNullUndefToNull", int 3)]

#guard match (load testDiffDiffParam true).bind fun a => (restored a (assign a params3)).bind fun a1 =>
    restored a1 (assign (assign a params3) (params2.filter (·.1 ≠ "hogeBinary"))) with
  | .ok r => reads r (params2.filter (·.1 ≠ "hogeBinary"))
  | _ => false

/-! ## test_big_structure.rs -/

-- test_big_structure.rs:24-41 `test_zero`: nothing is assigned, the object is that of the source
#guard match (load testDiffDiffBigStructure false).bind fun a => (restored a a).map fun r => (a, r) with
  | .ok (a, r) => a.sabun.isEmpty && r.sabun.isEmpty
  | _ => false

def ones (l : List Nat) : List (String × Param) := l.map fun i => (s!"mem{i}", int 1)

-- test_big_structure.rs:43-59 `test_mem1`
#guard match load testDiffDiffBigStructure false with
  | .ok a => reads a [("mem1", int 2)]
  | _ => false
#guard roundTrip testDiffDiffBigStructure false (ones [1])
-- test_big_structure.rs:61-80 `test_mem63_65`, 82-103 `test_mem64_65`, 105-130 `test_mem58_62`, 132-161 `test_mem58_63`
#guard roundTrip testDiffDiffBigStructure false (ones [63, 64, 65])
#guard roundTrip testDiffDiffBigStructure false (ones [64, 65])
#guard roundTrip testDiffDiffBigStructure false (ones [58, 59, 60, 61, 62])
#guard roundTrip testDiffDiffBigStructure false (ones [58, 59, 60, 61, 62, 63])

/-! ## Lists -/

abbrev MItems := List (Nat × Item) × Nat

def emptyItem : Item := .mk [] []
def insertLast (l : MItems) : MItems := (l.1 ++ [(l.2, emptyItem)], l.2 + 1)
def insertFirst (l : MItems) : MItems := ((l.2, emptyItem) :: l.1, l.2 + 1)
def removeFirst (l : MItems) : MItems := (l.1.tail, l.2)
def removeLast (l : MItems) : MItems := (l.1.dropLast, l.2)
def remove (id : Nat) (l : MItems) : MItems := (l.1.filter (·.1 ≠ id), l.2)
def onFirst (f : Item → Item) (l : MItems) : MItems := match l.1 with
  | x :: r => ((x.1, f x.2) :: r, l.2)
  | [] => l
def onLast (f : Item → Item) (l : MItems) : MItems := (l.1.dropLast ++ (l.1.getLast?.map fun x => (x.1, f x.2)).toList, l.2)
def setMem (n : String) (p : Param) (it : Item) : Item := .mk (it.values.insert n (.param p)) it.refs
def setRef (n : String) (q : Qv String) (it : Item) : Item := .mk it.values (it.refs.insert n q)
/-- the inner list of an item; an inserted item has none, then it is made (mut_item.rs) -/
def onMil (n : String) (f : MItems → MItems) (it : Item) : Item :=
  let l := match it.values.get n with
    | some (.mil items next) => (items, next)
    | _ => ([], 0)
  .mk (it.values.insert n (.mil (f l).1 (f l).2)) it.refs

def onList (n : String) (f : MItems → MItems) (r : Root) : Root :=
  match r.sabun.get n with
  | some (.list (some l)) => { r with sabun := r.sabun.insert n (.list (some (f l))) }
  | _ => r

def listOf (r : Root) (n : String) : MItems := match r.sabun.get n with
  | some (.list (some l)) => l
  | _ => ([], 0)
def milOf (it : Item) (n : String) : MItems := match it.values.get n with
  | some (.mil items next) => (items, next)
  | _ => ([], 0)
/-- the definition of a list of the root -/
def defOf (r : Root) (n : String) : ListDef := match r.erase.defs.get n with
  | some (.mlist d _) => d
  | _ => .mk [] ⟨[], false, []⟩ []

/-- a list of the source is changed, restored from the diff, and checked -/
def listTest (files : List (String × String)) (n : String) (f : MItems → MItems) (check : Root → MItems → Bool) : Bool :=
  match (load files false).bind fun a => restored a (onList n f a) with
  | .ok r => check r (listOf r n)
  | _ => false

-- test_list.rs:18-32 `test_modify`
#guard listTest testDiffDiffList "list" (onFirst (setMem "mem" (int 2))) fun _ l =>
  (l.1.map fun x => match x.2.values.get "mem" with | some (.param p) => p | _ => int 0) = [int 2]

-- test_list.rs:34-56 `test_add_add_remove`
#guard listTest testDiffDiffList "list" (fun l => removeFirst (onLast (setRef "refed1" (.val "a2")) (insertLast (insertLast l)))) fun _ l =>
  l.1.map (·.1) = [1, 2] && (l.1.getLast?.map fun x => x.2.refs.get "refed1") == some (some (.val "a2"))

-- test_list.rs:66-102 `test_remove_add_add_add_remove`
#guard listTest testDiffDiffList "list"
  (fun l => remove 3 (insertLast (insertLast (insertFirst (insertLast (removeFirst l)))))) fun _ l => l.1.map (·.1) = [2, 1, 4]

-- test_list.rs:112-164 `test_in_add_add_add_add_remove`, which the project never runs: it expects 4 as the last id, but the item with this id
-- is the one that was removed
#guard listTest testDiffDiffList "list"
  (fun l => onFirst (onMil "inList" fun f => onLast (setMem "inMem" (int 4)) (removeLast (insertLast (insertLast (insertFirst (insertFirst f))))))
    (onLast (onMil "inList" removeFirst) (insertLast l))) fun _ l =>
  l.1.map (·.1) = [0, 1] && l.1.map (fun x => (milOf x.2 "inList").1.map (·.1)) = [[2, 1, 0, 3], []] &&
    (l.1.head?.bind fun x => (milOf x.2 "inList").1.getLast?.bind fun y => y.2.values.get "inMem" |>.bind fun v =>
      match v with | .param p => some p | _ => none) = some (int 4)

/-! ## test_ref.rs -/

/-- assignments of references in an item -/
def setRefs (l : List (String × Qv String)) (it : Item) : Item := l.foldl (fun i x => setRef x.1 x.2 i) it
def readsRefs (d : ListDef) (l : List (String × Qv String)) (it : Option Item) : Bool :=
  match it with
  | some i => l.all fun x => getRefId d i x.1 = some x.2
  | none => false

/-- the steps of test_ref.rs:11-142 `test_diff2`: each list is changed in its first or last item, on top of the steps before; the object is
restored from the diff to the source after each -/
def refSteps : List (String × Bool × List (String × Qv String)) :=
  [("list1", true, [("refed1", .val "a2"), ("refed2", .val "b2"), ("refed3", .val "c2"), ("refed4", .val "d2")]),
   ("list1", false, [("refed1", .val "a1"), ("refed2", .val "b1"), ("refed3", .val "c1"), ("refed4", .val "d1")]),
   ("list2", true, [("refed1", .val "a2"), ("refed2", .val "b2"), ("refed3", .val "c2"), ("refed4", .val "d2")]),
   ("list2", false, [("refed2", .null), ("refed3", .undef), ("refed4", .null)]),
   ("list3", true, [("refed2", .null), ("refed3", .undef), ("refed4", .undef)]),
   ("list3", false, [("refed2", .null), ("refed3", .undef), ("refed4", .undef)])]

def runRefs (a : Root) : Root → List (String × Bool × List (String × Qv String)) → Bool
  | _, [] => true
  | r, (n, first, l) :: rest =>
    match restored a (onList n ((if first then onFirst else onLast) (setRefs l)) r) with
    | .ok r' =>
      let items := (listOf r' n).1.map (·.2)
      readsRefs (defOf r' n) l (if first then items.head? else items.getLast?) && runRefs a r' rest
    | _ => false

#guard match load testDiffDiffRef false with
  | .ok a => runRefs a a refSteps
  | _ => false

end Verif.Tests
