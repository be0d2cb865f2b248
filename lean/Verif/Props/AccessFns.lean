import Verif.Spec.Access
import Verif.Props.Accessor
/-!
# C69: which functions the accessor has
-/
namespace Verif.Intf
open Core Diff

theorem fnName_eq (n : String) (old : List String) :
    fnName n (decide (n ∈ old)) = snakeName n.toList ++ (if n ∈ old then "_old".toList else []) := by
  unfold fnName withOld
  by_cases h : n ∈ old <;> simp [h]

theorem byRef_iff (t : PType) : byRef t = true ↔ t ∈ [PType.string, .intArray, .floatArray, .binary] := by
  cases t <;> simp [byRef]

theorem paramFns_iff (isMut : Bool) (n : String) (old : List String) (p : Param) (vt : VType) (f : Fn) :
    f ∈ paramFns isMut n (decide (n ∈ old)) p vt ↔ ParamFn isMut n old p vt f.name f.body := by
  obtain ⟨m, b⟩ := f
  simp only [paramFns, fnName_eq]
  constructor
  · intro h
    cases hb : byRef (ptype p) <;> cases isMut <;> simp only [hb, if_true, Bool.false_eq_true, if_false, List.append_nil,
      List.mem_append, List.mem_cons, List.not_mem_nil, or_false, Fn.mk.injEq] at h
    · rcases h with ⟨rfl, rfl⟩ | ⟨rfl, rfl⟩
      exacts [.get, .default]
    · rcases h with (⟨rfl, rfl⟩ | ⟨rfl, rfl⟩) | ⟨rfl, rfl⟩
      exacts [.get, .default, .set rfl]
    · rcases h with ⟨rfl, rfl⟩ | ⟨rfl, rfl⟩
      exacts [.default, .get]
    · rcases h with (⟨rfl, rfl⟩ | ⟨rfl, rfl⟩) | ⟨rfl, rfl⟩ | ⟨rfl, rfl⟩
      exacts [.default, .get, .getMut rfl ((byRef_iff _).1 hb), .set rfl]
  · intro h
    cases h with
    | get => cases byRef (ptype p) <;> simp
    | default => cases byRef (ptype p) <;> simp
    | getMut hm ht => rw [(byRef_iff _).2 ht, hm]; simp
    | set hm => rw [hm]; cases byRef (ptype p) <;> simp

theorem refFns_iff (d : RefDef) (f : Fn) : (f ∈ refGetFns d ↔ RefFn false d f.name f.body) ∧
    (f ∈ refGetFns d ++ refSetFns d ↔ RefFn true d f.name f.body) := by
  obtain ⟨m, b⟩ := f
  have hg : (⟨m, b⟩ : Fn) ∈ refGetFns d ↔ RefFn false d m b := by
    unfold refGetFns
    cases he : d.isEnum
    · simp only [Bool.false_eq_true, if_false, List.mem_flatMap, fnName_eq, List.mem_cons, List.not_mem_nil, or_false, Fn.mk.injEq]
      constructor
      · rintro ⟨⟨t, q, vt⟩, hm, ⟨rfl, rfl⟩ | ⟨rfl, rfl⟩⟩
        exacts [.ref he hm, .refId he hm]
      · intro h
        cases h with
        | set h => cases h
        | setEnum h => cases h
        | ref _ hm => exact ⟨_, hm, .inl ⟨rfl, rfl⟩⟩
        | refId _ hm => exact ⟨_, hm, .inr ⟨rfl, rfl⟩⟩
        | enum h => rw [he] at h; cases h
        | enumIds h => rw [he] at h; cases h
    · simp only [if_true, List.mem_cons, List.not_mem_nil, or_false, Fn.mk.injEq]
      constructor
      · rintro (⟨rfl, rfl⟩ | ⟨rfl, rfl⟩)
        exacts [.enum he, .enumIds he]
      · intro h
        cases h with
        | set h => cases h
        | setEnum h => cases h
        | ref h _ => rw [he] at h; cases h
        | refId h _ => rw [he] at h; cases h
        | enum h => exact .inl ⟨rfl, rfl⟩
        | enumIds h => exact .inr ⟨rfl, rfl⟩
  refine ⟨hg, ?_⟩
  rw [List.mem_append, hg]
  unfold refSetFns
  cases he : d.isEnum
  · simp only [Bool.false_eq_true, if_false, List.mem_map, fnName_eq, Fn.mk.injEq]
    constructor
    · rintro (h | ⟨⟨t, q, vt⟩, hm, rfl, rfl⟩)
      · cases h with
      | set h => cases h
      | setEnum h => cases h
        | ref h hm => exact .ref h hm
        | refId h hm => exact .refId h hm
        | enum h => exact .enum h
        | enumIds h => exact .enumIds h
      · exact .set rfl he hm
    · intro h
      cases h with
      | ref h hm => exact .inl (.ref h hm)
      | refId h hm => exact .inl (.refId h hm)
      | set _ h hm => exact .inr ⟨_, hm, rfl, rfl⟩
      | enum h => exact .inl (.enum h)
      | enumIds h => exact .inl (.enumIds h)
      | setEnum _ h => rw [he] at h; cases h
  · simp only [if_true, List.mem_cons, List.not_mem_nil, or_false, Fn.mk.injEq]
    constructor
    · rintro (h | ⟨rfl, rfl⟩)
      · cases h with
      | set h => cases h
      | setEnum h => cases h
        | ref h hm => exact .ref h hm
        | refId h hm => exact .refId h hm
        | enum h => exact .enum h
        | enumIds h => exact .enumIds h
      · exact .setEnum rfl he
    · intro h
      cases h with
      | ref h hm => exact .inl (.ref h hm)
      | refId h hm => exact .inl (.refId h hm)
      | set _ h hm => rw [he] at h; cases h
      | enum h => exact .inl (.enum h)
      | enumIds h => exact .inl (.enumIds h)
      | setEnum _ h => exact .inr ⟨rfl, rfl⟩

theorem rootFns_iff (r : RootObj) (f : Fn) : f ∈ rootFns r ↔
    (f.name ∈ ["new", "root_obj_ref", "root_obj_ref_mut", "deconstruct"].map String.toList ∧ f.body = .fixed) ∨ RootFn r f.name f.body := by
  obtain ⟨n, b⟩ := f
  unfold rootFns
  rw [List.mem_append]
  refine or_congr ?_ ?_
  · simp only [List.mem_map, Fn.mk.injEq]
    constructor
    · rintro ⟨s, hs, rfl, rfl⟩
      exact ⟨⟨s, hs, rfl⟩, rfl⟩
    · rintro ⟨⟨s, hs, rfl⟩, rfl⟩
      exact ⟨s, hs, rfl, rfl⟩
  · rw [List.mem_flatMap]
    constructor
    · rintro ⟨⟨k, v⟩, hm, hf⟩
      unfold rootMemberFns at hf
      cases v with
      | param p vt => exact .param hm ((paramFns_iff _ _ _ _ _ _).1 hf)
      | table d list old =>
        simp only [fnName_eq, List.mem_cons, List.not_mem_nil, or_false, Fn.mk.injEq] at hf
        obtain ⟨rfl, rfl⟩ := hf
        exact .table hm
      | clist d list =>
        simp only [fnName_eq, List.mem_cons, List.not_mem_nil, or_false, Fn.mk.injEq] at hf
        obtain ⟨rfl, rfl⟩ := hf
        exact .clist hm
      | mlist d u =>
        simp only [fnName_eq, List.mem_cons, List.not_mem_nil, or_false, Fn.mk.injEq] at hf
        rcases hf with ⟨rfl, rfl⟩ | ⟨rfl, rfl⟩
        exacts [.mlist hm, .mlistMut hm]
    · intro h
      cases h with
      | param hm hf => exact ⟨_, hm, (paramFns_iff _ _ _ _ _ ⟨n, b⟩).2 hf⟩
      | table hm => exact ⟨_, hm, by simp [rootMemberFns, fnName_eq]⟩
      | clist hm => exact ⟨_, hm, by simp [rootMemberFns, fnName_eq]⟩
      | mlist hm => exact ⟨_, hm, by simp [rootMemberFns, fnName_eq]⟩
      | mlistMut hm => exact ⟨_, hm, by simp [rootMemberFns, fnName_eq]⟩

theorem citemFns_iff (d : ListDef) (f : Fn) : f ∈ citemFns d ↔
    (f.name = "from".toList ∧ f.body = .fixed) ∨ ItemFn false d f.name f.body := by
  obtain ⟨n, b⟩ := f
  unfold citemFns
  rw [List.mem_cons, List.mem_append, List.mem_flatMap, (refFns_iff _ _).1, Fn.mk.injEq]
  refine or_congr Iff.rfl ?_
  constructor
  · rintro (⟨⟨k, v⟩, hm, hf⟩ | h)
    · unfold citemMemberFns at hf
      cases v with
      | param p vt => exact .param hm ((paramFns_iff _ _ _ _ _ _).1 hf)
      | cilDef d' =>
        simp only [fnName_eq, List.mem_cons, List.not_mem_nil, or_false, Fn.mk.injEq] at hf
        obtain ⟨rfl, rfl⟩ := hf
        exact .cil rfl hm
      | milDef d' u => cases hf
    · exact .ref h
  · intro h
    cases h with
    | param hm hf => exact .inl ⟨_, hm, (paramFns_iff _ _ _ _ _ ⟨n, b⟩).2 hf⟩
    | cil _ hm => exact .inl ⟨_, hm, by simp [citemMemberFns, fnName_eq]⟩
    | mil h _ => cases h
    | milMut h _ => cases h
    | ref h => exact .inr h

theorem mitemFns_iff (d : ListDef) (f : Fn) : f ∈ mitemFns d ↔
    (f.name = "from".toList ∧ f.body = .fixed) ∨ ItemFn true d f.name f.body := by
  obtain ⟨n, b⟩ := f
  unfold mitemFns
  rw [List.append_assoc, List.mem_cons, List.mem_append, List.mem_flatMap, (refFns_iff _ _).2, Fn.mk.injEq]
  refine or_congr Iff.rfl ?_
  constructor
  · rintro (⟨⟨k, v⟩, hm, hf⟩ | h)
    · unfold mitemMemberFns at hf
      cases v with
      | param p vt => exact .param hm ((paramFns_iff _ _ _ _ _ _).1 hf)
      | cilDef d' => cases hf
      | milDef d' u =>
        simp only [fnName_eq, List.mem_cons, List.not_mem_nil, or_false, Fn.mk.injEq] at hf
        rcases hf with ⟨rfl, rfl⟩ | ⟨rfl, rfl⟩
        exacts [.mil rfl hm, .milMut rfl hm]
    · exact .ref h
  · intro h
    cases h with
    | param hm hf => exact .inl ⟨_, hm, (paramFns_iff _ _ _ _ _ ⟨n, b⟩).2 hf⟩
    | cil h _ => cases h
    | mil _ hm => exact .inl ⟨_, hm, by simp [mitemMemberFns, fnName_eq]⟩
    | milMut _ hm => exact .inl ⟨_, hm, by simp [mitemMemberFns, fnName_eq]⟩
    | ref h => exact .inr h

theorem tableFns_iff (list : AMap Item) (old : List String) (f : Fn) : f ∈ tableFns list old ↔
    (f.body = .fixed ∧ (f.name = "new".toList ∨ list ≠ [] ∧ f.name ∈ ["get_by_id_us".toList, "get_by_id".toList])) ∨
    TableFn list old f.name f.body := by
  obtain ⟨n, b⟩ := f
  unfold tableFns keyName
  simp only [List.mem_cons, List.mem_append, List.mem_flatMap, Fn.mk.injEq, fnName_eq, List.not_mem_nil, or_false]
  constructor
  · rintro (⟨rfl, rfl⟩ | ⟨⟨id, i⟩, hm, ⟨rfl, rfl⟩ | ⟨rfl, rfl⟩⟩ | h)
    · exact .inl ⟨rfl, .inl rfl⟩
    · exact .inr (.entryUs hm)
    · exact .inr (.entry hm)
    · cases list with
      | nil => simp at h
      | cons e l =>
        simp only [List.isEmpty_cons, Bool.false_eq_true, if_false, List.mem_cons, Fn.mk.injEq, List.not_mem_nil, or_false] at h
        rcases h with ⟨rfl, rfl⟩ | ⟨rfl, rfl⟩
        · exact .inl ⟨rfl, .inr ⟨by simp, .inl rfl⟩⟩
        · exact .inl ⟨rfl, .inr ⟨by simp, .inr rfl⟩⟩
  · rintro (⟨rfl, rfl | ⟨hl, h⟩⟩ | h)
    · exact .inl ⟨rfl, rfl⟩
    · refine .inr (.inr ?_)
      cases list with
      | nil => exact absurd rfl hl
      | cons e l => rcases h with rfl | rfl <;> simp
    · cases h with
      | entry hm => exact .inr (.inl ⟨_, hm, .inr ⟨rfl, rfl⟩⟩)
      | entryUs hm => exact .inr (.inl ⟨_, hm, .inl ⟨rfl, rfl⟩⟩)

/-! ## The declarations -/

theorem citemDecls_self (stem : String) (d : ListDef) :
    (⟨citemName stem, none, false, citemFns d, usesOf stem (citemFns d)⟩ : Decl) ∈ citemDecls stem d := by
  obtain ⟨members, refs, old⟩ := d
  unfold citemDecls
  exact List.mem_cons_self

theorem mitemDecls_self (stem : String) (d : ListDef) :
    (⟨mitemName stem, none, false, mitemFns d, usesOf stem (mitemFns d)⟩ : Decl) ∈ mitemDecls stem d := by
  obtain ⟨members, refs, old⟩ := d
  unfold mitemDecls
  exact List.mem_cons_self

theorem cilDecls_sub {members : List (String × DefVal)} {k : String} {d : ListDef} (h : (k, DefVal.cilDef d) ∈ members) :
    citemDecls k d ⊆ cilDecls members := by
  induction members with
  | nil => cases h
  | cons e r ih =>
    obtain ⟨n, v⟩ := e
    unfold cilDecls
    rcases List.mem_cons.1 h with he | h
    · cases he
      intro x hx
      exact List.mem_append_left _ (by unfold cilDeclsVal; exact hx)
    · exact List.Subset.trans (ih h) (List.subset_append_right _ _)

theorem milDecls_sub {members : List (String × DefVal)} {k : String} {d : ListDef} {u : Bool} (h : (k, DefVal.milDef d u) ∈ members) :
    mitemDecls k d ⊆ milDecls members := by
  induction members with
  | nil => cases h
  | cons e r ih =>
    obtain ⟨n, v⟩ := e
    unfold milDecls
    rcases List.mem_cons.1 h with he | h
    · cases he
      intro x hx
      exact List.mem_append_left _ (by unfold milDeclsVal; exact hx)
    · exact List.Subset.trans (ih h) (List.subset_append_right _ _)

theorem rootMember_sub {r : RootObj} {e : String × RootVal} (h : e ∈ r.defs) : rootMemberDecls e ⊆ accessor r := by
  intro x hx
  exact List.mem_cons_of_mem _ (List.mem_flatMap.2 ⟨e, h, hx⟩)

theorem constDef_sub {r : RootObj} {s : String} {d : ListDef} (h : ConstDef r s d) : citemDecls s d ⊆ accessor r := by
  induction h with
  | table hm => exact List.Subset.trans (fun x hx => List.mem_append_right _ hx) (rootMember_sub hm)
  | clist hm => exact rootMember_sub hm
  | @cil s d k d' h hm ih =>
    refine List.Subset.trans ?_ ih
    obtain ⟨members, refs, old⟩ := d
    intro x hx
    rw [citemDecls]
    exact List.mem_cons_of_mem _ (List.mem_append_left _ (cilDecls_sub hm hx))

theorem mutDef_sub {r : RootObj} {s : String} {d : ListDef} (h : MutDef r s d) : mitemDecls s d ⊆ accessor r := by
  induction h with
  | mlist hm => exact rootMember_sub hm
  | @mil s d k d' u h hm ih =>
    refine List.Subset.trans ?_ ih
    obtain ⟨members, refs, old⟩ := d
    intro x hx
    rw [mitemDecls]
    exact List.mem_cons_of_mem _ (List.mem_append_left _ (milDecls_sub hm hx))

/-- **Nothing is missing.** The accessor declares a type for the root, for every table, and for the items of every list at every depth; each
has exactly the functions of its members and references, and a few fixed ones. -/
theorem C69_complete (r : RootObj) :
    (∃ x ∈ accessor r, x.name = "RootIntf".toList ∧ ∀ n b, ⟨n, b⟩ ∈ x.fns ↔
      (n ∈ ["new", "root_obj_ref", "root_obj_ref_mut", "deconstruct"].map String.toList ∧ b = .fixed) ∨ RootFn r n b) ∧
    (∀ k d list old, (k, RootVal.table d list old) ∈ r.defs →
      (∃ x ∈ accessor r, x.name = typeName k.toList ++ "Table".toList ∧ ∀ n b, ⟨n, b⟩ ∈ x.fns ↔
        (b = .fixed ∧ (n = "new".toList ∨ list ≠ [] ∧ n ∈ ["get_by_id_us".toList, "get_by_id".toList])) ∨ TableFn list old n b) ∧
      ∃ x ∈ accessor r, x.name = typeName k.toList ++ "TableID".toList ∧
        x.variants = some (list.map fun e => typeName e.1.toList ++ (if e.1 ∈ old then "Old".toList else []))) ∧
    (∀ s d, ConstDef r s d → ∃ x ∈ accessor r, x.name = typeName s.toList ++ "CItem".toList ∧ ∀ n b, ⟨n, b⟩ ∈ x.fns ↔
      (n = "from".toList ∧ b = .fixed) ∨ ItemFn false d n b) ∧
    (∀ s d, MutDef r s d → ∃ x ∈ accessor r, x.name = typeName s.toList ++ "MItem".toList ∧ ∀ n b, ⟨n, b⟩ ∈ x.fns ↔
      (n = "from".toList ∧ b = .fixed) ∨ ItemFn true d n b) := by
  refine ⟨⟨_, List.mem_cons_self, rfl, fun n b => rootFns_iff r ⟨n, b⟩⟩, ?_, ?_, ?_⟩
  · intro k d list old hm
    have hs : tableDecls k d list old ⊆ accessor r := rootMember_sub hm
    refine ⟨⟨_, hs List.mem_cons_self, rfl, fun n b => tableFns_iff list old ⟨n, b⟩⟩,
      ⟨_, hs (List.mem_cons_of_mem _ List.mem_cons_self), rfl, ?_⟩⟩
    refine congrArg some (List.map_congr_left ?_)
    intro e he
    unfold keyVariant
    by_cases h : e.1 ∈ old <;> simp [h]
  · intro s d h
    exact ⟨_, constDef_sub h (citemDecls_self s d), rfl, fun n b => citemFns_iff d ⟨n, b⟩⟩
  · intro s d h
    exact ⟨_, mutDef_sub h (mitemDecls_self s d), rfl, fun n b => mitemFns_iff d ⟨n, b⟩⟩

end Verif.Intf
