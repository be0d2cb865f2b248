import Verif.Props.AccessLoaded
import Verif.Props.AccessSet
import Verif.Lemmas.Adjust
/-!
# C70: objects on which functions of the accessor panic

Every source here is loaded and validated, and an accessor is generated for it.
-/
namespace Verif.Intf
open Core Diff Source

def isPanic {α : Type} : Res α → Bool
  | .panic => true
  | _ => false

theorem isPanic_iff {α : Type} {x : Res α} (h : isPanic x = true) : x = .panic := by
  cases x <;> first | rfl | cases h

/-- a getter of a parameter of the root panics -/
def rootPanics (r : RootObj) : Bool := r.defs.any fun e => match e.2 with
  | .param p vt => isPanic (readRoot r (.get e.1 (ptype p) vt))
  | _ => false

/-- the items of the mutable lists of the root -/
def topItems (r : RootObj) : List (ListDef × Item) := r.defs.flatMap fun e => match e.2, r.sabun.get e.1 with
  | .mlist d _, some (.list (some l)) => l.1.map fun i => (d, i.2)
  | _, _ => []

/-- a function of a member or a reference of the item panics -/
def itemPanics (defs : AMap RootVal) (d : ListDef) (it : Item) : Bool :=
  (d.members.any fun e => match e.2 with
    | .param p vt => isPanic (readItem defs d it (.get e.1 (ptype p) vt))
    | _ => false) ||
  (!d.refs.isEnum && d.refs.refs.any fun e => isPanic (readItem defs d it (.ref e.1 e.2.2))) ||
  (d.refs.isEnum && isPanic (readItem defs d it (.getEnum (d.refs.refs.map (·.1)))))

theorem rootPanics_iff {r : RootObj} (h : rootPanics r = true) : ∃ n b, RootFn r n b ∧ readRoot r b = .panic := by
  simp only [rootPanics, List.any_eq_true] at h
  obtain ⟨⟨k, v⟩, hm, h⟩ := h
  cases v with
  | param p vt => exact ⟨_, _, .param hm .get, isPanic_iff h⟩
  | _ => cases h

theorem itemPanics_iff {defs : AMap RootVal} {d : ListDef} {it : Item} (h : itemPanics defs d it = true) (isMut : Bool) :
    ∃ n b, ItemFn isMut d n b ∧ readItem defs d it b = .panic := by
  simp only [itemPanics, Bool.or_eq_true, Bool.and_eq_true, List.any_eq_true, Bool.not_eq_true'] at h
  rcases h with (⟨⟨k, v⟩, hm, h⟩ | ⟨he, ⟨t, q, vt⟩, hm, h⟩) | ⟨he, h⟩
  · cases v with
    | param p vt => exact ⟨_, _, .param hm .get, isPanic_iff h⟩
    | _ => cases h
  · exact ⟨_, _, .ref (.ref he hm), isPanic_iff h⟩
  · exact ⟨_, _, .ref (.enum he), isPanic_iff h⟩

theorem topItems_holds {r : RootObj} {d : ListDef} {it : Item} (h : (d, it) ∈ topItems r) : Holds r d it := by
  simp only [topItems, List.mem_flatMap] at h
  obtain ⟨⟨k, v⟩, hm, h⟩ := h
  cases v with
  | mlist d' u =>
    cases hs : r.sabun.get k with
    | none => simp [hs] at h
    | some x =>
      cases x with
      | param q => simp [hs] at h
      | list l =>
        cases l with
        | none => simp [hs] at h
        | some l =>
          simp only [hs, List.mem_map, Prod.mk.injEq] at h
          obtain ⟨⟨id, i⟩, hi, rfl, rfl⟩ := h
          exact .mlist hm hs hi
  | _ => simp at h

/-- `p` holds of the object, if the source is loaded and validated -/
def loadsTo (files : List (String × JVal)) (p : RootObj → Bool) : Bool :=
  match loadValid idEnv files with
  | .ok r => p r.erase
  | _ => false

theorem loadsTo_iff {files : List (String × JVal)} {p : RootObj → Bool} (h : loadsTo files p = true) :
    ∃ r, loadValid idEnv files = .ok r ∧ p r.erase = true := by
  unfold loadsTo at h
  cases hr : loadValid idEnv files with
  | ok r => rw [hr] at h; exact ⟨r, rfl, h⟩
  | err => rw [hr] at h; cases h
  | panic => rw [hr] at h; cases h

/-- a list with these members and items -/
def mlistWith (m : List (String × JVal)) (items : List JVal) : JVal := .array (.string "MList" :: .array [.map m] :: items)

/-- `{ a: ["Int", null] }`: the default of a member that is not nullable is null, and its getter panics -/
theorem C70_negation_null : loadsTo (rootOf [("a", .array [.string "Int", .null])]) rootPanics = true := by decide +kernel

/-- the same in an item -/
theorem C70_negation_item : loadsTo (rootOf [("l", mlistWith [("a", .array [.string "Int", .null])] [.map []])])
    (fun r => (topItems r).any fun e => itemPanics r.defs e.1 e.2) = true := by decide +kernel

/-- a default of a reference that is not an entry of the table; only references that are stored are looked up -/
theorem C70_negation_ref : loadsTo (rootOf [("t", tableWith ["x"]), ("l", mlistWith [("Ref", .map [("t", .string "y")])] [.map []])])
    (fun r => (topItems r).any fun e => itemPanics r.defs e.1 e.2) = true := by decide +kernel

/-- a default of a reference to a table that does not exist -/
theorem C70_negation_table : loadsTo (rootOf [("l", mlistWith [("Ref", .map [("t", .string "y")])] [.map []])])
    (fun r => (topItems r).any fun e => itemPanics r.defs e.1 e.2) = true := by decide +kernel

/-- a default of a reference that is null though it may not be -/
theorem C70_negation_refNull : loadsTo (rootOf [("t", tableWith ["x"]), ("l", mlistWith [("Ref", .map [("t", .null)])] [.map []])])
    (fun r => (topItems r).any fun e => itemPanics r.defs e.1 e.2) = true := by decide +kernel

/-- an enum whose only member is null: `get_enum` panics, validation counts the members -/
theorem C70_negation_enum : loadsTo (rootOf [("t", tableWith ["x"]), ("l", mlistWith [("Enum", .map [("t?", .null)])]
    [.map [("Enum", .map [("t", .null)])]])]) (fun r => (topItems r).any fun e => itemPanics r.defs e.1 e.2) = true := by decide +kernel

/-- mlist_ptr.rs:95-104 `insert_last`, `insert_first`: the item that is inserted has nothing stored; if its list has an enum, or a reference
without a default, its getter panics until it is assigned -/
theorem C70_negation_inserted :
    (loadsTo (rootOf [("t", tableWith ["x"]), ("l", mlistWith [("Enum", .map [("t", .null)])] [])])
      fun r => r.defs.any fun e => match e.2 with | .mlist d _ => itemPanics r.defs d (.mk [] []) | _ => false) = true ∧
    (loadsTo (rootOf [("t", tableWith ["x"]), ("l", mlistWith [("Ref", .map [("t", .string "")])] [])])
      fun r => r.defs.any fun e => match e.2 with | .mlist d _ => itemPanics r.defs d (.mk [] []) | _ => false) = true := by decide +kernel

/-- After an update the getter of a member panics that was nullable before: validation does not look at the nullability at the root. -/
theorem C70_negation_adjusted :
    let old : RootObj := ⟨[("x", .param (.int (.val 0)) .nullable)], [("x", .param (.int .null))], []⟩
    let new : RootObj := ⟨[("x", .param (.int (.val 0)) .normal)], [], []⟩
    (match adjustVersions new old true with | .ok r => rootPanics r | _ => false) = true := by decide +kernel

/-- **C70 is false.** There are sources that are loaded and validated, and on whose objects a function of the root or of an item panics. -/
theorem C70_negation :
    (∃ files r n b, loadValid idEnv files = .ok r ∧ RootFn r.erase n b ∧ readRoot r.erase b = .panic) ∧
    (∃ files r d it n b, loadValid idEnv files = .ok r ∧ Holds r.erase d it ∧ ItemFn true d n b ∧ readItem r.erase.defs d it b = .panic) := by
  refine ⟨?_, ?_⟩
  · obtain ⟨r, h1, h2⟩ := loadsTo_iff C70_negation_null
    obtain ⟨n, b, h3, h4⟩ := rootPanics_iff h2
    exact ⟨_, r, n, b, h1, h3, h4⟩
  · obtain ⟨r, h1, h2⟩ := loadsTo_iff C70_negation_enum
    simp only [List.any_eq_true] at h2
    obtain ⟨⟨d, it⟩, hm, h⟩ := h2
    obtain ⟨n, b, h3, h4⟩ := itemPanics_iff h true
    exact ⟨_, r, d, it, n, b, h1, topItems_holds hm, h3, h4⟩

/-! ## Examples -/

/-- a source with nullable and other members, a table, references, an enum and nested lists -/
def goodFiles : List (String × JVal) := rootOf [("a", .int 1), ("b?", .array [.string "Int", .null]), ("t", tableWith ["x", "y"]),
  ("l", mlistWith [("n", .string "s"), ("Ref", .map [("t", .string "x")]), ("in", .array [.string "MilDef", .array [.map [("m", .bool true)]]])]
    [.map [("n", .string "r")], .map [("Ref", .map [("t", .string "y")]), ("in", .array [.string "Mil", .map [("m", .bool false)]])]]),
  ("e", mlistWith [("Enum", .map [("t", .null)])] [.map [("Enum", .map [("t", .string "y")])]])]

/-! ## The missing check

What validation would have to check in addition. -/

def fitsB (p : Param) (vt : VType) (q : Param) : Bool := paramAcceptable p q && varAcceptable vt q.qvType

/-- the references of a definition -/
def refsOkB (defs : AMap RootVal) (d : RefDef) : Bool :=
  if d.isEnum then d.refs.all fun e => decide (e.2.2 = .normal)
  else d.refs.all fun e => varAcceptable e.2.2 e.2.1.type && match e.2.1 with
    | .val id => decide (id = "") || (match defs.get e.1 with | some (.table _ list _) => (list.get id).isSome | _ => false)
    | _ => true

mutual
def defOkB (defs : AMap RootVal) : ListDef → Bool
  | .mk members refs _ => refsOkB defs refs && membersOkB defs members
def membersOkB (defs : AMap RootVal) : List (String × DefVal) → Bool
  | [] => true
  | (_, v) :: r => valOkB defs v && membersOkB defs r
def valOkB (defs : AMap RootVal) : DefVal → Bool
  | .param p vt => fitsB p vt p
  | .cilDef d => defOkB defs d
  | .milDef d _ => defOkB defs d
end

/-- the defaults of an object fit, at every depth -/
def rootOkB (r : RootObj) : Bool := r.defs.all fun e => match e.2 with
  | .param p vt => fitsB p vt p
  | .table d _ _ => defOkB r.defs d
  | .clist d _ => defOkB r.defs d
  | .mlist d _ => defOkB r.defs d

theorem membersOkB_mem {defs : AMap RootVal} {e : String × DefVal} : ∀ {l}, membersOkB defs l = true → e ∈ l → valOkB defs e.2 = true
  | [], _, h => by cases h
  | (k, v) :: r, h, hm => by
    simp only [membersOkB, Bool.and_eq_true] at h
    rcases List.mem_cons.1 hm with rfl | hm
    · exact h.1
    · exact membersOkB_mem h.2 hm

theorem defOkB_mem {defs : AMap RootVal} {d : ListDef} (h : defOkB defs d = true) : refsOkB defs d.refs = true ∧
    ∀ e ∈ d.members, valOkB defs e.2 = true := by
  obtain ⟨members, refs, old⟩ := d
  simp only [defOkB, Bool.and_eq_true] at h
  exact ⟨h.1, fun e he => membersOkB_mem h.2 he⟩

theorem defOkB_sound {defs : AMap RootVal} {d : ListDef} (h : defOkB defs d = true) : DefaultsOk d ∧ RefDefaultsOk defs d := by
  obtain ⟨h1, h2⟩ := defOkB_mem h
  refine ⟨?_, ?_, ?_⟩
  · intro k p vt hg
    have := h2 _ (AMap.mem_of_get hg)
    simp only [valOkB, fitsB, Bool.and_eq_true] at this
    exact (fits_iff p vt p).2 this
  · intro he t q vt hg
    simp only [refsOkB, he, Bool.false_eq_true, if_false, List.all_eq_true, Bool.and_eq_true] at h1
    obtain ⟨h3, h4⟩ := h1 _ (AMap.mem_of_get hg)
    refine ⟨(fitsRef_iff vt q).2 h3, ?_⟩
    rintro id rfl
    simp only [Bool.or_eq_true, decide_eq_true_eq] at h4
    rcases h4 with h4 | h4
    · exact .inl h4
    · refine .inr ?_
      cases hd : defs.get t with
      | none => rw [hd] at h4; cases h4
      | some v =>
        rw [hd] at h4
        cases v with
        | table td list old =>
          obtain ⟨i, hi⟩ := Option.isSome_iff_exists.1 h4
          exact ⟨td, list, old, i, hd, hi⟩
        | _ => cases h4
  · intro he t q vt hg
    simp only [refsOkB, he, if_true, List.all_eq_true, decide_eq_true_eq] at h1
    exact h1 _ (AMap.mem_of_get hg)

theorem rootOkB_sound {r : RootObj} (h : rootOkB r = true) : (∀ k p vt, r.defs.get k = some (.param p vt) → Fits p vt p) ∧
    ∀ d, HasDef r d → DefaultsOk d ∧ RefDefaultsOk r.defs d := by
  simp only [rootOkB, List.all_eq_true] at h
  refine ⟨?_, fun d hd => defOkB_sound ?_⟩
  · intro k p vt hg
    have := h _ (AMap.mem_of_get hg)
    simp only [fitsB, Bool.and_eq_true] at this
    exact (fits_iff p vt p).2 this
  · induction hd with
    | table hm => exact h _ hm
    | clist hm => exact h _ hm
    | mlist hm => exact h _ hm
    | cil _ hm ih => exact (defOkB_mem ih).2 _ hm
    | mil _ hm ih => exact (defOkB_mem ih).2 _ hm

/-- **The check that is missing in validation is sufficient:** if the source is loaded and validated and its defaults pass the check, no function
of the accessor panics on it. -/
theorem C70_checked (env : Env) (he : env.Sound) (files : List (String × JVal)) (r : Root) (h : loadValid env files = .ok r)
    (hc : rootOkB r.erase = true) :
    (∀ n b, RootFn r.erase n b → readRoot r.erase b ≠ .panic) ∧
    (∀ k d list old, (k, RootVal.table d list old) ∈ r.erase.defs → ∀ n b, TableFn list old n b → readTable list d b ≠ .panic) ∧
    (∀ d it, Holds r.erase d it → ∀ isMut n b, ItemFn isMut d n b → readItem r.erase.defs d it b ≠ .panic) :=
  C70_loaded_partial env he files r h (rootOkB_sound hc).1 (rootOkB_sound hc).2

/-- … and it is necessary for parameters and their defaults: the getter of a default that does not fit panics. -/
theorem C70_checked_params (r : RootObj) (hm : Maps r) :
    (∀ k p vt, (k, RootVal.param p vt) ∈ r.defs → fitsB p vt p = false → readRoot r (.getDef k (ptype p) vt) = .panic) ∧
    (∀ d it k p vt, HasDef r d → (k, DefVal.param p vt) ∈ d.members → fitsB p vt p = false →
      readItem r.defs d it (.getDef k (ptype p) vt) = .panic) := by
  have hn : ∀ p vt, fitsB p vt p = false → ¬ Fits p vt p := by
    intro p vt hb hf
    have := (fits_iff p vt p).1 hf
    simp [fitsB, this.1, this.2] at hb
  refine ⟨?_, ?_⟩
  · intro k p vt hk hb
    obtain ⟨q, _, _, _, _, h⟩ := C70_root_value r hm.defs k p vt hk
    exact h (hn p vt hb)
  · intro d it k p vt hd hk hb
    obtain ⟨q, _, _, _, _, h⟩ := C70_item_value r.defs d it (hm.members d hd) k p vt hk
    exact h (hn p vt hb)

/-! ## After an update -/

theorem hasDef_congr {r r' : RootObj} (h : r'.defs = r.defs) {d : ListDef} (hd : HasDef r' d) : HasDef r d := by
  induction hd with
  | table hm => exact .table (h ▸ hm)
  | clist hm => exact .clist (h ▸ hm)
  | mlist hm => exact .mlist (h ▸ hm)
  | cil _ hm ih => exact .cil ih hm
  | mil _ hm ih => exact .mil ih hm

theorem adjusted_rootOk {new old r : RootObj} (hm : new.defs.Wf) (hn : RootOk new)
    (hs : ∀ k p vt q, new.defs.get k = some (.param p vt) → old.sabun.get k = some (.param q) → Fits p vt q)
    (h : adjustVersions new old true = .ok r) : RootOk r ∧ r.defs = new.defs ∧ validateRoot r true = .ok () := by
  have hv : validateRoot r true = .ok () := by
    obtain ⟨sabun, _, h⟩ := Core.Res.bind_eq_ok h
    obtain ⟨_, h1, h⟩ := Core.Res.map_eq_ok h
    rw [if_pos rfl] at h1
    rw [← h]
    exact h1
  obtain ⟨sabun, h1, rfl⟩ := adjustWith_ok h
  refine ⟨⟨hn.defaults, ?_, ?_⟩, rfl, hv⟩
  · intro k p vt q hd hq
    simp only at hd hq
    have := (adjustMembers_get hm h1 k).2.1 p vt hd
    rw [hq] at this
    split at this
    · rename_i hc
      simp only [Bool.and_eq_true] at hc
      simp only [Option.some.injEq, RootSab.param.injEq] at this
      subst this
      rw [fits_iff]
      have hc := hc.1
      cases p <;> cases vt <;> first | (exact ⟨rfl, rfl⟩) | (exact absurd hc (by decide))
    · cases ho : old.sabun.get k with
      | none => rw [ho] at this; exact hn.stored k p vt q hd this.symm
      | some x =>
        rw [ho] at this
        simp only [Option.some.injEq] at this
        subst this
        exact hs k p vt q hd ho
  · intro k d u hd
    simp only at hd
    have := (adjustMembers_get hm h1 k).2.2.1 d u hd
    split at this
    · rename_i hc
      simp only [Bool.and_eq_true] at hc
      exact ⟨none, this, fun _ => hc.1⟩
    · have hvu : ∀ l, sabun.get k = some (.list l) → (l = none → u = true) := by
        rintro l hl rfl
        have hk := forEach_ok (Core.Res.bind_eq_ok hv).choose_spec.2 _ (AMap.mem_of_get hd)
        unfold validateMember at hk
        obtain ⟨_, _, hk⟩ := Core.Res.bind_eq_ok hk
        simp only [hl] at hk
        simpa using failIf_ok hk
      obtain ⟨l0, hl0, hu0⟩ := hn.lists k d u hd
      cases ho : old.sabun.get k with
      | none => rw [ho] at this; exact ⟨l0, this.trans hl0, hu0⟩
      | some x =>
        rw [ho] at this
        obtain ⟨y, hy, he⟩ := this
        cases y with
        | none => exact ⟨l0, he.trans hl0, hu0⟩
        | some v =>
          cases x with
          | param q => cases hy
          | list l =>
            cases l with
            | none => cases hy; exact ⟨none, he, hvu _ he⟩
            | some l =>
              unfold adjustMlist at hy
              obtain ⟨l', _, e⟩ := Core.Res.map_eq_ok hy
              cases e
              exact ⟨_, he, by simp⟩

/-- **C70 after an update.** If the new source passes the check, and every parameter that is stored at the root of the old object fits its new
declaration, then no function of the accessor panics on the object that results from a validated update.

Partial: nothing checks the second condition (`C70_negation_adjusted`). -/
theorem C70_adjusted_partial (env : Env) (he : env.Sound) (files : List (String × JVal)) (new : Root) (h : loadDir env files = .ok new)
    (hc : rootOkB new.erase = true) (old r : RootObj)
    (hs : ∀ k p vt q, new.erase.defs.get k = some (.param p vt) → old.sabun.get k = some (.param q) → Fits p vt q)
    (ha : adjustVersions new.erase old true = .ok r) :
    (∀ n b, RootFn r n b → readRoot r b ≠ .panic) ∧
    (∀ k d list old, (k, RootVal.table d list old) ∈ r.defs → ∀ n b, TableFn list old n b → readTable list d b ≠ .panic) ∧
    (∀ d it, Holds r d it → ∀ isMut n b, ItemFn isMut d n b → readItem r.defs d it b ≠ .panic) := by
  have hm := loaded_maps env he h
  obtain ⟨h1, h2⟩ := rootOkB_sound hc
  obtain ⟨h3, h4, h5⟩ := adjusted_rootOk hm.defs (loaded_rootOk env he h h1) hs ha
  refine C70_valid_partial r true h5 ⟨h4 ▸ hm.defs, fun d hd => hm.members d (hasDef_congr h4 hd), fun d hd => hm.refs d (hasDef_congr h4 hd), ?_⟩ h3 ?_
  · rw [h4]; exact hm.tables
  · rw [h4]; exact fun d hd => h2 d (hasDef_congr h4 hd)

/-- an update of the example that meets the conditions -/
example : (match loadDir idEnv goodFiles with
    | .ok new =>
      let old : RootObj := ⟨[("a", .param (.int (.val 0)) .normal)], [("a", .param (.int (.val 7)))], []⟩
      rootOkB new.erase && (match adjustVersions new.erase old true with
        | .ok r => match getRootParam r "a" with | some (.int (.val i)) => i == 7 | _ => false
        | _ => false)
    | _ => false) = true := by decide +kernel

/-- the example is loaded, validated and passes the check -/
example : loadsTo goodFiles rootOkB = true := by decide +kernel
example : loadsTo goodFiles (fun r => (topItems r).length == 3) = true := by decide +kernel
/-- the sources of the negations do not -/
example : loadsTo (rootOf [("a", .array [.string "Int", .null])]) rootOkB = false := by decide +kernel

end Verif.Intf
