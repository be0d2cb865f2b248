import Verif.Props.Convert
import Verif.Props.AdjustExact
/-!
# C95: lists in converted data
-/
namespace Verif.Core
open Diff

/-- **C95 for constant lists and tables.** They are those of the new version. -/
theorem C95_const (new old r : RootObj) (b : Bool) (h : adjustVersions new old b = .ok r) : r.defs = new.defs := adjust_defs h

/-- **C95 for mutable lists.** The objects of the list in the new source are discarded: whatever they are, the list is the same. -/
theorem C95_discarded (new new' old r r' : RootObj) (b b' : Bool) (hw : new.defs.Wf) (hs : new'.defs = new.defs) (ho : old.ListsStored)
    (h : adjustVersions new old b = .ok r) (h' : adjustVersions new' old b' = .ok r') (k : String) (d d0 : ListDef) (u u0 : Bool)
    (hk : new.defs.get k = some (.mlist d u)) (hk0 : old.defs.get k = some (.mlist d0 u0)) : r'.sabun.get k = r.sabun.get k := by
  obtain ⟨sabun, h1, rfl⟩ := adjustWith_ok h
  obtain ⟨sabun', h1', rfl⟩ := adjustWith_ok h'
  obtain ⟨l, hl⟩ := ho k d0 u0 hk0
  have hg := (adjustMembers_get hw h1 k).2.2.1 d u hk
  have hg' := (adjustMembers_get (hs ▸ hw) h1' k).2.2.1 d u (hs ▸ hk)
  rw [if_neg (by rw [hk0]; simp), hl] at hg hg'
  obtain ⟨y, h2, h3⟩ := hg
  obtain ⟨y', h2', h3'⟩ := hg'
  rw [h2] at h2'
  cases h2'
  change sabun'.get k = sabun.get k
  rw [h3, h3']
  cases l with
  | none => cases h2; rfl
  | some l =>
    obtain ⟨x, _, rfl⟩ := Res.map_eq_ok h2
    rfl

/-- **C95 for lists that the old version did not have** and that may be undefined: there is no list, and asking for one gives an empty list. -/
theorem C95_undefined (new old r : RootObj) (b : Bool) (hw : new.defs.Wf) (h : adjustVersions new old b = .ok r) (k : String) (d : ListDef)
    (hk : new.defs.get k = some (.mlist d true)) (ho : old.defs.get k = none) :
    r.sabun.get k = some (.list none) ∧ ∃ r', touchRoot r k = some r' ∧ r'.sabun.get k = some (.list (some ([], 0))) := by
  have h1 := (C94_list new old r b hw h k d true hk).1 ho rfl
  refine ⟨h1, ?_⟩
  unfold touchRoot
  rw [adjust_defs h, hk, h1]
  exact ⟨_, rfl, AMap.get_insert_self _ _ _⟩

/-- Lists that may not be undefined are those of the new source. -/
theorem C95_added (new old r : RootObj) (b : Bool) (hw : new.defs.Wf) (h : adjustVersions new old b = .ok r) (k : String) (d : ListDef)
    (hk : new.defs.get k = some (.mlist d false)) (ho : old.defs.get k = none) (hs : old.Stores) : r.sabun.get k = new.sabun.get k := by
  refine ((C94_list new old r b hw h k d false hk).2 fun _ => rfl).1 fun l hl => ?_
  obtain ⟨v, hv⟩ := hs k _ hl
  rw [ho] at hv
  cases hv

/-! ## Items -/

theorem undefined_param (p : Param) (vt : VType) (v : SabVal) : Undefined (.param p vt) v ↔ Undefiable vt ∧ v = .param (toUndefined p) := by
  have base : ∀ v, Undefined (.param p .undefiable) v ↔ v = .param (toUndefined p) := by
    intro v
    constructor
    · intro h; cases h <;> rfl
    · rintro rfl; cases p <;> constructor
  constructor
  · intro h
    cases vt with
    | normal => cases h
    | nullable => cases h
    | undefiable => exact ⟨.inl rfl, (base v).1 h⟩
    | undefNullable =>
      cases h with
      | param h => exact ⟨.inr rfl, (base v).1 h⟩
  · rintro ⟨rfl | rfl, h⟩
    · exact (base v).2 h
    · exact .param ((base v).2 h)

theorem outItem_read {inner : ListDef → String → ListDef} {d : ListDef} {it it' : Item} (h : OutItem inner d it it') {k : String} {p : Param}
    {vt : VType} (hk : d.members.get k = some (.param p vt)) (q : Param) : getItemParam d it' k = some q ↔ ItemConverted d it k q := by
  obtain ⟨h1, _⟩ := h
  have hs := h1 k
  unfold getItemParam
  rw [hk]
  generalize e1 : it.values.get k = x at hs
  generalize e2 : it'.values.get k = y at hs
  cases hs with
  | param e3 =>
    constructor
    · rintro ⟨⟩; exact .kept e1
    · intro hq
      cases hq with
      | kept e => rw [e1] at e; cases e; rfl
      | undef _ e => rw [e1] at e; cases e
      | default _ e => exact absurd e1 (e _)
  | milNone e3 =>
    constructor
    · rintro ⟨⟩; exact .default hk (by rw [e1]; simp) (by rw [e1]; simp)
    · intro hq
      cases hq with
      | kept e => rw [e1] at e; cases e
      | undef _ e => rw [e1] at e; cases e
      | default e => rw [hk] at e; cases e; rfl
  | mil e3 =>
    constructor
    · rintro ⟨⟩; exact .default hk (by rw [e1]; simp) (by rw [e1]; simp)
    · intro hq
      cases hq with
      | kept e => rw [e1] at e; cases e
      | undef _ e => rw [e1] at e; cases e
      | default e => rw [hk] at e; cases e; rfl
  | dropped e3 => rw [hk] at e3; cases e3
  | undef e3 e4 =>
    rw [hk] at e3
    cases e3
    obtain ⟨hu, rfl⟩ := (undefined_param p vt _).1 e4
    constructor
    · rintro ⟨⟩
      exact .undef hk e1 hu ((toUndefined_iff p _).1 rfl).1 ((toUndefined_iff p _).1 rfl).2
    · intro hq
      cases hq with
      | kept e => rw [e1] at e; cases e
      | undef e _ _ e5 e6 =>
        rw [hk] at e
        cases e
        rw [(toUndefined_iff p q).2 ⟨e5, e6⟩]
      | default e _ e5 =>
        rw [hk] at e
        cases e
        exact absurd hu (e5 e1)
  | unset e3 e4 =>
    rw [hk] at e3
    cases e3
    have hu : ¬ Undefiable vt := fun hu => e4 _ ((undefined_param p vt _).2 ⟨hu, rfl⟩)
    constructor
    · rintro ⟨⟩
      exact .default hk (by rw [e1]; simp) fun _ => hu
    · intro hq
      cases hq with
      | kept e => rw [e1] at e; cases e
      | undef e _ e5 =>
        rw [hk] at e
        cases e
        exact absurd e5 hu
      | default e => rw [hk] at e; cases e; rfl

theorem outItems_at {inner : ListDef → String → ListDef} {d : ListDef} : ∀ {l l' : List (Nat × Item)}, OutItems inner d l l' →
    l'.map (·.1) = l.map (·.1) ∧ ∀ (i id : Nat) (it : Item), l[i]? = some (id, it) → ∃ it', l'[i]? = some (id, it') ∧ OutItem inner d it it'
  | _, _, .nil => ⟨rfl, fun i id it h => by simp at h⟩
  | _, _, .cons h1 h2 => by
    obtain ⟨h3, h4⟩ := outItems_at h2
    refine ⟨by simp [h3], fun i id it h => ?_⟩
    cases i with
    | zero =>
      simp only [List.getElem?_cons_zero, Option.some.injEq, Prod.mk.injEq] at h
      obtain ⟨rfl, rfl⟩ := h
      exact ⟨_, rfl, h1⟩
    | succ i =>
      rw [List.getElem?_cons_succ] at h ⊢
      exact h4 i id it h

/-- **C95 for the items.** The converted list has the items of the old one, with their ids and in their order, and what is read from every
parameter of the new definition is the value that was set, or undefined, or the new default. -/
theorem C95_items (new old r : RootObj) (b : Bool) (hw : new.defs.Wf) (h : adjustVersions new old b = .ok r) (k : String) (d : ListDef) (u : Bool)
    (hk : new.defs.get k = some (.mlist d u)) (ho : old.defs.get k ≠ none) (hd : d.members.Wf ∧ d.refs.refs.Wf)
    (l : List (Nat × Item)) (next : Nat) (hs : old.sabun.get k = some (.list (some (l, next)))) :
    ∃ l' next', r.sabun.get k = some (.list (some (l', next'))) ∧ l'.map (·.1) = l.map (·.1) ∧
      ∀ (i id : Nat) (it : Item), l[i]? = some (id, it) → ∃ it', l'[i]? = some (id, it') ∧
        ∀ n p vt, d.members.get n = some (.param p vt) → ∀ q, getItemParam d it' n = some q ↔ ItemConverted d it n q := by
  obtain ⟨l', next', h1, h2, _⟩ := C18_exact new old r b hw h k d u hk (fun _ => ho) hd l next hs
  obtain ⟨h3, h4⟩ := outItems_at h2
  refine ⟨l', next', h1, h3, fun i id it hi => ?_⟩
  obtain ⟨it', h5, h6⟩ := h4 i id it hi
  exact ⟨it', h5, fun n p vt hn q => outItem_read h6 hn q⟩

/-- **The wrapper of the manual, for the items of a list.** It returns the converted value of an item of the first version, and the new default if
none was set. -/
theorem C95_wrapper (f : Int → Int) (o n : String) (d : ListDef) (it it' : Item) (inner : ListDef → String → ListDef) (h : OutItem inner d it it')
    (i : Int) (ho : d.members.get o = some (.param (.int .null) .nullable)) (hn : d.members.get n = some (.param (.int (.val i)) .undefiable))
    (hn' : it.values.get n = none) (v : Option Int) (hv : it.values.get o = v.map fun j => .param (.int (.val j))) :
    itemWrapper f o n d it' = some ((v.map f).getD i) := by
  have r1 : getItemParam d it' n = some (.int .undef) :=
    (outItem_read h hn _).2 (.undef hn hn' (.inl rfl) (.int _ _) (by simp [IsUndef]))
  unfold itemWrapper
  rw [r1, hn]
  cases v with
  | none =>
    have r2 : getItemParam d it' o = some (.int .null) :=
      (outItem_read h ho _).2 (.default ho (by rw [hv]; simp) fun _ hu => by rcases hu with hu | hu <;> cases hu)
    simp only [r2]; rfl
  | some j =>
    have r2 : getItemParam d it' o = some (.int (.val j)) := (outItem_read h ho _).2 (.kept hv)
    simp only [r2]; rfl

/-- An item of the new version in which the old value is not set has the same value when it is converted once more, though its new value becomes
undefined (C18_negation_invented). -/
theorem C95_wrapper_again (f : Int → Int) (o n : String) (d : ListDef) (it it' : Item) (inner : ListDef → String → ListDef) (h : OutItem inner d it it')
    (i : Int) (ho : d.members.get o = some (.param (.int .null) .nullable)) (hn : d.members.get n = some (.param (.int (.val i)) .undefiable))
    (hn' : it.values.get n = none) (ho' : it.values.get o = none) : itemWrapper f o n d it' = itemWrapper f o n d it := by
  rw [C95_wrapper f o n d it it' inner h i ho hn hn' none ho']
  unfold itemWrapper getItemParam
  rw [hn', hn]
  rfl

/-- **But not if the old value is set in the new version.** Such an item reads as the new default; after a conversion that changes nothing it reads
as the converted old value. -/
theorem C95_negation_again : ∃ it', adjustItem innerDef (.mk [("o", .param (.int .null) .nullable), ("n", .param (num 100) .undefiable)] ⟨[], false, []⟩ [])
      (.mk [("o", .param (num 7))] []) = .ok it' ∧
    itemWrapper (· * 10) "o" "n" (.mk [("o", .param (.int .null) .nullable), ("n", .param (num 100) .undefiable)] ⟨[], false, []⟩ [])
      (.mk [("o", .param (num 7))] []) = some 100 ∧
    itemWrapper (· * 10) "o" "n" (.mk [("o", .param (.int .null) .nullable), ("n", .param (num 100) .undefiable)] ⟨[], false, []⟩ []) it' = some 70 :=
  ⟨_, rfl, rfl, rfl⟩

/-! ## Objects from source files -/

/-- In objects from source files that declare each name once every mutable list is stored, also after editing parameters. -/
theorem C95_loaded (env : Source.Env) (he : env.Sound) (files : List (String × Source.JVal)) (r : Source.Root) (h : Source.loadDir env files = .ok r)
    (l : List Source.Decl) (hl : Source.SourceDecls files l) (hd : Source.Distinct l) : r.erase.ListsStored := by
  intro k d u hk
  obtain ⟨_, _, h3, h4⟩ := Source.C56_distinct_partial env he files r h l hl hd
  rw [Source.erase_get] at hk
  by_cases hn : k ∈ Source.names l
  · obtain ⟨e, he', rfl⟩ := List.mem_map.1 hn
    obtain ⟨i, hi⟩ := List.mem_iff_getElem?.1 he'
    obtain ⟨x, y, sab, _, g2, g3, g4, _⟩ := h3 i e hi
    rw [g3] at hk
    cases x <;> simp only [Source.intoRootVal, Res.ok.injEq, Prod.mk.injEq, reduceCtorEq] at g2
    all_goals obtain ⟨rfl, rfl⟩ := g2
    all_goals first | (cases hk; done) | skip
    exact ⟨_, g4⟩
  · rw [h4 k hn] at hk
    cases hk

/-! ## The lists of the manual -/

/-- the lists of clist_and_mlist.md -/
def oldLists : List (String × Source.JVal) := [("root", .map [("mlist", .array [.string "MList", .array [.map [("bar", .int 0), ("baz", .int 1)]],
  .map [("bar", .int 1), ("baz", .int 2)], .map [("baz", .int 3)], .map [("bar", .int 3)]])])]
def newLists : List (String × Source.JVal) := [("root", .map [("mlist", .array [.string "MList", .array [.map [("baz", .int 100), ("qux", .int (-1))]],
  .map [("baz", .int 1001), ("qux", .int 2)], .map [("baz", .int 1002), ("qux", .int 3)]])])]

/-- what is read from a member of the items of a list -/
def column (k n : String) (r : RootObj) : List (Option Param) :=
  match r.defs.get k, r.sabun.get k with
  | some (.mlist d _), some (.list (some l)) => l.1.map fun e => getItemParam d e.2 n
  | _, _ => []

/-- what the test of the manual reads -/
example : (match Source.loadValid Source.idEnv oldLists, Source.loadValid Source.idEnv newLists with
    | .ok old, .ok new => match adjustVersions new.erase old.erase true with
      | .ok r => [column "mlist" "bar" r, column "mlist" "baz" r, column "mlist" "qux" r]
      | _ => []
    | _, _ => []) = [[none, none, none], [some (num 2), some (num 3), some (num 100)], [some (num (-1)), some (num (-1)), some (num (-1))]] := by
  decide +kernel

end Verif.Core
