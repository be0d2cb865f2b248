import Verif.Spec.Accessor
import Mathlib.Data.List.Nodup
import Mathlib.Data.Multiset.Basic
import Mathlib.Data.Multiset.AddSub
import Mathlib.Algebra.Order.Group.Multiset
import Mathlib.Tactic.Abel
/-! # C69: the names of the generated accessor -/
namespace Verif.Intf
open Core Diff

/-! ## Types -/

theorem coe_perm {α : Type} {a b : List α} (h : (a : Multiset α) = b) : a.Perm b := Multiset.coe_eq_coe.1 h

mutual
theorem citem_names (stem : String) : (d : ListDef) → (((citemDecls stem d).map (·.name) : List (List Char)) : Multiset (List Char)) =
    (((constStems stem d).map citemName : List (List Char)) : Multiset (List Char)) + (((constEnums stem d).map enumName : List (List Char)) : Multiset (List Char))
  | .mk members refs old => by
    have h := cil_names members
    simp only [citemDecls, constStems, constEnums, List.map_cons, List.map_append, ← Multiset.cons_coe, ← Multiset.coe_add, h]
    cases hr : refs.isEnum <;>
      simp only [enumDecls, hr, if_true, Bool.false_eq_true, if_false, List.map_cons, List.map_nil, ← Multiset.cons_coe, Multiset.coe_nil,
        ← Multiset.singleton_add] <;> abel
theorem cil_names : (l : List (String × DefVal)) → (((cilDecls l).map (·.name) : List (List Char)) : Multiset (List Char)) =
    (((constStemsIn l).map citemName : List (List Char)) : Multiset (List Char)) + (((constEnumsIn l).map enumName : List (List Char)) : Multiset (List Char))
  | [] => by simp [cilDecls, constStemsIn, constEnumsIn]
  | (n, v) :: r => by
    have h := cil_names r
    have h' := cilVal_names n v
    simp only [cilDecls, constStemsIn, constEnumsIn, List.map_append, ← Multiset.coe_add, h, h']
    abel
theorem cilVal_names (n : String) : (v : DefVal) → (((cilDeclsVal n v).map (·.name) : List (List Char)) : Multiset (List Char)) =
    (((constStemsVal n v).map citemName : List (List Char)) : Multiset (List Char)) + (((constEnumsVal n v).map enumName : List (List Char)) : Multiset (List Char))
  | .cilDef d => by
    have h := citem_names n d
    simpa only [cilDeclsVal, constStemsVal, constEnumsVal] using h
  | .milDef _ _ => by simp [cilDeclsVal, constStemsVal, constEnumsVal]
  | .param _ _ => by simp [cilDeclsVal, constStemsVal, constEnumsVal]
end

mutual
theorem mitem_names (stem : String) : (d : ListDef) → (((mitemDecls stem d).map (·.name) : List (List Char)) : Multiset (List Char)) =
    (((mutStems stem d).map mitemName : List (List Char)) : Multiset (List Char)) + (((mutEnums stem d).map enumName : List (List Char)) : Multiset (List Char)) + (((mutEnums stem d).map kindName : List (List Char)) : Multiset (List Char))
  | .mk members refs old => by
    have h := mil_names members
    simp only [mitemDecls, mutStems, mutEnums, List.map_cons, List.map_append, ← Multiset.cons_coe, ← Multiset.coe_add, h]
    cases hr : refs.isEnum <;>
      simp only [enumDecls, hr, if_true, Bool.false_eq_true, if_false, List.map_cons, List.map_nil, ← Multiset.cons_coe, Multiset.coe_nil,
        ← Multiset.singleton_add] <;> abel
theorem mil_names : (l : List (String × DefVal)) → (((milDecls l).map (·.name) : List (List Char)) : Multiset (List Char)) =
    (((mutStemsIn l).map mitemName : List (List Char)) : Multiset (List Char)) + (((mutEnumsIn l).map enumName : List (List Char)) : Multiset (List Char)) + (((mutEnumsIn l).map kindName : List (List Char)) : Multiset (List Char))
  | [] => by simp [milDecls, mutStemsIn, mutEnumsIn]
  | (n, v) :: r => by
    have h := mil_names r
    have h' := milVal_names n v
    simp only [milDecls, mutStemsIn, mutEnumsIn, List.map_append, ← Multiset.coe_add, h, h']
    abel
theorem milVal_names (n : String) : (v : DefVal) → (((milDeclsVal n v).map (·.name) : List (List Char)) : Multiset (List Char)) =
    (((mutStemsVal n v).map mitemName : List (List Char)) : Multiset (List Char)) + (((mutEnumsVal n v).map enumName : List (List Char)) : Multiset (List Char)) + (((mutEnumsVal n v).map kindName : List (List Char)) : Multiset (List Char))
  | .milDef d _ => by
    have h := mitem_names n d
    simpa only [milDeclsVal, mutStemsVal, mutEnumsVal] using h
  | .cilDef _ => by simp [milDeclsVal, mutStemsVal, mutEnumsVal]
  | .param _ _ => by simp [milDeclsVal, mutStemsVal, mutEnumsVal]
end

/-- the names of the tables -/
def tableStems (r : RootObj) : List String := r.defs.flatMap fun e =>
  match e.2 with
  | .table _ _ _ => [e.1]
  | _ => []

/-- the names of the lists with mutable items that have an `Enum` -/
def rootMutEnums (r : RootObj) : List String := r.defs.flatMap fun e =>
  match e.2 with
  | .mlist d _ => mutEnums e.1 d
  | _ => []

theorem accessor_names (r : RootObj) : ((accessor r).map (·.name)).Perm ("RootIntf".toList ::
    ((rootConst r).map citemName ++ (rootMut r).map mitemName ++ (tableStems r).map tableName ++ (tableStems r).map idsName ++
      (rootEnums r).map enumName ++ (rootMutEnums r).map kindName)) := by
  simp only [accessor, List.map_cons]
  refine List.Perm.cons _ (coe_perm ?_)
  simp only [rootConst, rootMut, tableStems, rootEnums, rootMutEnums]
  induction r.defs with
  | nil => simp
  | cons e l ih =>
    obtain ⟨n, v⟩ := e
    simp only [List.flatMap_cons, List.map_append, ← Multiset.coe_add] at ih ⊢
    rw [ih]
    cases v with
    | param p vt => simp [rootMemberDecls]
    | table d list old =>
      simp only [rootMemberDecls, tableDecls, List.map_append, ← Multiset.coe_add, citem_names]
      simp only [List.map_cons, List.map_nil, ← Multiset.cons_coe, Multiset.coe_nil, ← Multiset.singleton_add]
      abel
    | clist d list =>
      simp only [rootMemberDecls, citem_names, List.map_nil, Multiset.coe_nil]
      abel
    | mlist d u =>
      simp only [rootMemberDecls, mitem_names, List.map_nil, Multiset.coe_nil]
      abel

/-- the camel case of a name -/
def camel (n : String) : List Char := typeName n.toList

theorem nodup_suffix (l : List String) (s : List Char) : (l.map fun n => typeName n.toList ++ s).Nodup ↔ (l.map camel).Nodup := by
  rw [show (l.map fun n => typeName n.toList ++ s) = (l.map camel).map (· ++ s) by simp [camel, Function.comp_def]]
  exact List.nodup_map_iff fun _ _ h => List.append_cancel_right h

/-- different ends -/
theorem ends_ne (x y s t : List Char) (h : ¬ (s.reverse <+: t.reverse) ∧ ¬ (t.reverse <+: s.reverse)) : x ++ s ≠ y ++ t := by
  intro he
  have he' : s.reverse ++ x.reverse = t.reverse ++ y.reverse := by
    have := congrArg List.reverse he
    simpa using this
  rcases List.prefix_or_prefix_of_prefix (⟨_, rfl⟩ : s.reverse <+: s.reverse ++ x.reverse) (⟨y.reverse, he'.symm⟩ : t.reverse <+: _) with h1 | h1
  · exact h.1 h1
  · exact h.2 h1

theorem disjoint_ends (l l' : List String) (s t : List Char) (h : ¬ (s.reverse <+: t.reverse) ∧ ¬ (t.reverse <+: s.reverse)) :
    List.Disjoint (l.map fun n => typeName n.toList ++ s) (l'.map fun n => typeName n.toList ++ t) := by
  intro a ha hb
  obtain ⟨x, _, rfl⟩ := List.mem_map.1 ha
  obtain ⟨y, _, hy⟩ := List.mem_map.1 hb
  exact ends_ne _ _ _ _ h hy.symm

theorem tableStems_sublist (r : RootObj) : (tableStems r).Sublist (rootConst r) := by
  simp only [tableStems, rootConst]
  induction r.defs with
  | nil => simp
  | cons e l ih =>
    simp only [List.flatMap_cons]
    refine List.Sublist.append ?_ ih
    obtain ⟨n, v⟩ := e
    cases v with
    | table d list old => cases d; simp [constStems]
    | param p vt => simp
    | clist d list => simp
    | mlist d u => simp

mutual
theorem mutEnums_subset (stem : String) : (d : ListDef) → ((mutEnums stem d : List String) : Multiset String) ≤ (mutStems stem d : List String)
  | .mk members refs old => by
    have h := mutEnumsIn_subset members
    simp only [mutEnums, mutStems, ← Multiset.coe_add, ← Multiset.cons_coe]
    rw [← Multiset.singleton_add, add_comm]
    refine add_le_add ?_ h
    cases refs.isEnum <;> simp
theorem mutEnumsIn_subset : (l : List (String × DefVal)) → ((mutEnumsIn l : List String) : Multiset String) ≤ (mutStemsIn l : List String)
  | [] => by simp [mutEnumsIn, mutStemsIn]
  | (n, v) :: r => by
    have h := mutEnumsIn_subset r
    have h' := mutEnumsVal_subset n v
    simp only [mutEnumsIn, mutStemsIn, ← Multiset.coe_add]
    exact add_le_add h' h
theorem mutEnumsVal_subset (n : String) : (v : DefVal) → ((mutEnumsVal n v : List String) : Multiset String) ≤ (mutStemsVal n v : List String)
  | .milDef d _ => by
    have h := mutEnums_subset n d
    simpa only [mutEnumsVal, mutStemsVal] using h
  | .cilDef _ => by simp [mutEnumsVal, mutStemsVal]
  | .param _ _ => by simp [mutEnumsVal, mutStemsVal]
end

theorem rootMutEnums_subset (r : RootObj) : ((rootMutEnums r : List String) : Multiset String) ≤ (rootMut r : List String) := by
  simp only [rootMutEnums, rootMut]
  induction r.defs with
  | nil => simp
  | cons e l ih =>
    simp only [List.flatMap_cons, ← Multiset.coe_add]
    refine add_le_add ?_ ih
    obtain ⟨n, v⟩ := e
    cases v with
    | mlist d u => exact mutEnums_subset n d
    | table d list old => simp
    | param p vt => simp
    | clist d list => simp

/-- **C69.** The generated types have different names exactly if, in camel case, the names of the lists with constant items are
different, those of the lists with mutable items, and those of the lists with an `Enum`. -/
theorem C69_types (r : RootObj) : ((accessor r).map (·.name)).Nodup ↔
    ((rootConst r).map camel).Nodup ∧ ((rootMut r).map camel).Nodup ∧ ((rootEnums r).map camel).Nodup := by
  rw [(accessor_names r).nodup_iff]
  have hci : (rootConst r).map citemName = (rootConst r).map fun n => typeName n.toList ++ "CItem".toList := rfl
  have hmi : (rootMut r).map mitemName = (rootMut r).map fun n => typeName n.toList ++ "MItem".toList := rfl
  have hta : (tableStems r).map tableName = (tableStems r).map fun n => typeName n.toList ++ "Table".toList := rfl
  have hid : (tableStems r).map idsName = (tableStems r).map fun n => typeName n.toList ++ "TableID".toList := rfl
  have hen : (rootEnums r).map enumName = (rootEnums r).map fun n => typeName n.toList ++ "Enum".toList := rfl
  have hki : (rootMutEnums r).map kindName = (rootMutEnums r).map fun n => typeName n.toList ++ "Kind".toList := rfl
  rw [hci, hmi, hta, hid, hen, hki]
  constructor
  · intro h
    have h := (List.nodup_cons.1 h).2
    simp only [List.nodup_append] at h
    exact ⟨(nodup_suffix _ _).1 h.1.1.1.1.1, (nodup_suffix _ _).1 h.1.1.1.1.2.1, (nodup_suffix _ _).1 h.1.2.1⟩
  · rintro ⟨h1, h2, h3⟩
    have ht : ((tableStems r).map camel).Nodup := h1.sublist ((tableStems_sublist r).map _)
    have hk : ((rootMutEnums r).map camel).Nodup := by
      have h2' : (Multiset.map camel (rootMut r : Multiset String)).Nodup := by simpa using h2
      have := Multiset.nodup_of_le (Multiset.map_le_map (f := camel) (rootMutEnums_subset r)) h2'
      simpa using this
    have n1 := (nodup_suffix _ "CItem".toList).2 h1
    have n2 := (nodup_suffix _ "MItem".toList).2 h2
    have n3 := (nodup_suffix _ "Table".toList).2 ht
    have n4 := (nodup_suffix _ "TableID".toList).2 ht
    have n5 := (nodup_suffix _ "Enum".toList).2 h3
    have n6 := (nodup_suffix _ "Kind".toList).2 hk
    refine List.nodup_cons.2 ⟨?_, ?_⟩
    · simp only [List.mem_append, List.mem_map, not_or, not_exists, not_and]
      refine ⟨⟨⟨⟨⟨?_, ?_⟩, ?_⟩, ?_⟩, ?_⟩, ?_⟩ <;> intro x _ hx <;>
        exact ends_ne _ [] _ "RootIntf".toList (by decide) hx
    · refine List.Nodup.append (List.Nodup.append (List.Nodup.append (List.Nodup.append (List.Nodup.append n1 n2 ?_) n3 ?_) n4 ?_) n5 ?_) n6 ?_
      all_goals try simp only [List.disjoint_append_left]
      · exact disjoint_ends _ _ _ _ (by decide)
      · exact ⟨disjoint_ends _ _ _ _ (by decide), disjoint_ends _ _ _ _ (by decide)⟩
      · exact ⟨⟨disjoint_ends _ _ _ _ (by decide), disjoint_ends _ _ _ _ (by decide)⟩, disjoint_ends _ _ _ _ (by decide)⟩
      · exact ⟨⟨⟨disjoint_ends _ _ _ _ (by decide), disjoint_ends _ _ _ _ (by decide)⟩, disjoint_ends _ _ _ _ (by decide)⟩,
          disjoint_ends _ _ _ _ (by decide)⟩
      · exact ⟨⟨⟨⟨disjoint_ends _ _ _ _ (by decide), disjoint_ends _ _ _ _ (by decide)⟩, disjoint_ends _ _ _ _ (by decide)⟩,
          disjoint_ends _ _ _ _ (by decide)⟩, disjoint_ends _ _ _ _ (by decide)⟩

/-! ## Letters -/

theorem char_small {P : Char → Prop} (h : ∀ n : Fin 128, P (Char.ofNat n)) (c : Char) (hc : c.toNat < 128) : P c := by
  have := h ⟨c.toNat, hc⟩
  simpa using this

instance (c : Char) : Decidable (Names.Lower c) := inferInstanceAs (Decidable (_ ∧ _))
instance (c : Char) : Decidable (Names.Upper c) := inferInstanceAs (Decidable (_ ∧ _))
instance (c : Char) : Decidable (Names.Digit c) := inferInstanceAs (Decidable (_ ∧ _))

/-- letters, digits and `_` -/
def WordChar (c : Char) : Prop := Names.Lower c ∨ Names.Upper c ∨ Names.Digit c ∨ c = '_'

instance (c : Char) : Decidable (WordChar c) := inferInstanceAs (Decidable (_ ∨ _))

theorem WordChar.small {c : Char} (h : WordChar c) : c.toNat < 128 := by
  rcases h with h | h | h | h
  · exact Nat.lt_of_le_of_lt h.2 (by decide)
  · exact Nat.lt_of_le_of_lt h.2 (by decide)
  · exact Nat.lt_of_le_of_lt h.2 (by decide)
  · subst h; decide

theorem wordChar_lower {c : Char} (h : WordChar c) : ∀ x ∈ snakeChar c, WordChar x := by
  have := char_small (P := fun c => WordChar c → ∀ x ∈ snakeChar c, WordChar x) (by decide +kernel) c h.small
  exact this h

theorem wordChar_upper {c : Char} (h : WordChar c) : WordChar c.toUpper := by
  have := char_small (P := fun c => WordChar c → WordChar c.toUpper) (by decide +kernel) c h.small
  exact this h

/-- the first character of an identifier of the source -/
def HeadChar (c : Char) : Prop := Names.Lower c ∨ c = '_'
instance (c : Char) : Decidable (HeadChar c) := inferInstanceAs (Decidable (_ ∨ _))

theorem HeadChar.small {c : Char} (h : HeadChar c) : c.toNat < 128 := by
  rcases h with h | h
  · exact Nat.lt_of_le_of_lt h.2 (by decide)
  · subst h; decide

theorem headChar_lower {c : Char} (h : HeadChar c) : HeadChar c.toLower := by
  have := char_small (P := fun c => HeadChar c → HeadChar c.toLower) (by decide +kernel) c h.small
  exact this h

theorem headChar_upper {c : Char} (h : HeadChar c) : Names.Upper c.toUpper ∨ c.toUpper = '_' := by
  have := char_small (P := fun c => HeadChar c → Names.Upper c.toUpper ∨ c.toUpper = '_') (by decide +kernel) c h.small
  exact this h

theorem typeTail_word (up : Bool) (r : List Char) (h : ∀ x ∈ r, WordChar x) : ∀ x ∈ typeTail up r, WordChar x := by
  induction r generalizing up with
  | nil => simp [typeTail]
  | cons c r ih =>
    have hr := fun up => ih up fun x hx => h x (List.mem_cons_of_mem _ hx)
    have hc := h c (List.mem_cons_self ..)
    simp only [typeTail]
    split
    · exact hr true
    · split
      · intro x hx
        rcases List.mem_cons.1 hx with rfl | hx
        · exact wordChar_upper hc
        · exact hr _ x hx
      · intro x hx
        rcases List.mem_cons.1 hx with rfl | hx
        · exact hc
        · exact hr _ x hx

/-- the name of a function of a legal name starts with a small letter or `_` -/
theorem snake_shape {n : List Char} (h : Names.Ident n) : ∃ c r, snakeName n = c :: r ∧ HeadChar c ∧ ∀ x ∈ r, WordChar x := by
  obtain ⟨c, r, rfl, hc, hr⟩ := h
  have hr' : ∀ x ∈ r.flatMap snakeChar, WordChar x := by
    intro x hx
    obtain ⟨y, hy, hx⟩ := List.mem_flatMap.1 hx
    exact wordChar_lower (hr y hy) x hx
  by_cases ha : c = '@'
  · subst ha
    refine ⟨'a', 't' :: r.flatMap snakeChar, rfl, by decide, ?_⟩
    intro x hx
    rcases List.mem_cons.1 hx with rfl | hx
    · decide
    · exact hr' x hx
  · refine ⟨c.toLower, r.flatMap snakeChar, by simp [snakeName, ha], headChar_lower ?_, hr'⟩
    rcases hc with h | h | h
    · exact .inl h
    · exact absurd h ha
    · exact .inr h

theorem type_shape {n : List Char} (h : Names.Ident n) :
    ∃ c r, typeName n = c :: r ∧ (Names.Upper c ∨ c = '_') ∧ ∀ x ∈ r, WordChar x := by
  obtain ⟨c, r, rfl, hc, hr⟩ := h
  have hr' := typeTail_word false r hr
  by_cases ha : c = '@'
  · subst ha
    refine ⟨'A', 't' :: typeTail false r, rfl, by decide, ?_⟩
    intro x hx
    rcases List.mem_cons.1 hx with rfl | hx
    · decide
    · exact hr' x hx
  · refine ⟨c.toUpper, typeTail false r, by simp [typeName, ha], headChar_upper ?_, hr'⟩
    rcases hc with h | h | h
    · exact .inl h
    · exact absurd h ha
    · exact .inr h

theorem snake_word {n : List Char} (h : Names.Ident n) : Word (snakeName n) := by
  obtain ⟨c, r, e, hc, hr⟩ := snake_shape h
  exact ⟨c, r, e, hc.elim .inl fun h => .inr (.inr h), hr⟩

theorem type_word {n : List Char} (h : Names.Ident n) : Word (typeName n) := by
  obtain ⟨c, r, e, hc, hr⟩ := type_shape h
  exact ⟨c, r, e, .inr hc, hr⟩

theorem Word.append {s t : List Char} (h : Word s) (ht : ∀ x ∈ t, WordChar x) : Word (s ++ t) := by
  obtain ⟨c, r, rfl, hc, hr⟩ := h
  refine ⟨c, r ++ t, rfl, hc, fun x hx => ?_⟩
  rcases List.mem_append.1 hx with h | h
  · exact hr x h
  · exact ht x h

theorem Word.chars {s : List Char} (h : Word s) : ∀ x ∈ s, WordChar x := by
  obtain ⟨c, r, rfl, hc, hr⟩ := h
  intro x hx
  rcases List.mem_cons.1 hx with rfl | hx
  · rcases hc with h | h | h
    · exact .inl h
    · exact .inr (.inl h)
    · exact .inr (.inr (.inr h))
  · exact hr x hx

/-! ## Functions -/

/-- Two names that end in different members of `S` are different, if they do not end in a member of `bad` without it. -/
def Ends (S bad : List (List Char)) : Prop :=
  ∀ a ∈ S, ∀ b ∈ S, a = b ∨ (¬ a.reverse <+: b.reverse ∧ ¬ b.reverse <+: a.reverse) ∨
    (∃ x ∈ S, b = x ++ a ∧ ∃ w ∈ bad, w <:+ x) ∨ (∃ x ∈ S, a = x ++ b ∧ ∃ w ∈ bad, w <:+ x)

instance (S bad : List (List Char)) : Decidable (Ends S bad) := inferInstanceAs (Decidable (∀ a ∈ S, _))

theorem ends_unique {S bad : List (List Char)} (h : Ends S bad) {s t a b : List Char} (hs : ∀ w ∈ bad, ¬ w <:+ s) (ht : ∀ w ∈ bad, ¬ w <:+ t)
    (ha : a ∈ S) (hb : b ∈ S) (he : s ++ a = t ++ b) : s = t ∧ a = b := by
  rcases h a ha b hb with rfl | h | ⟨x, _, rfl, w, hw, hx⟩ | ⟨x, _, rfl, w, hw, hx⟩
  · exact ⟨List.append_cancel_right he, rfl⟩
  · exact absurd he (ends_ne _ _ _ _ h)
  · rw [← List.append_assoc] at he
    have := List.append_cancel_right he
    exact absurd (hx.trans ⟨t, this.symm⟩) (hs w hw)
  · rw [← List.append_assoc] at he
    have := List.append_cancel_right he
    exact absurd (hx.trans ⟨s, this⟩) (ht w hw)

/-- the first word of a name is not changed by what is put behind the name -/
theorem first_word {w s a : List Char} (hw : '_' ∉ w) (h : ¬ w ++ ['_'] <+: s ++ ['_']) (ha : a = [] ∨ ∃ t, a = '_' :: t) :
    ¬ w ++ ['_'] <+: s ++ a := by
  intro hp
  rcases ha with rfl | ⟨t, rfl⟩
  · rw [List.append_nil] at hp
    exact h (hp.trans (List.prefix_append _ _))
  · have e : s ++ '_' :: t = (s ++ ['_']) ++ t := by simp
    rw [e] at hp
    rcases List.prefix_or_prefix_of_prefix hp (List.prefix_append _ t) with h1 | h1
    · exact h h1
    · obtain ⟨u, hu⟩ := h1
      rcases List.eq_nil_or_concat u with rfl | ⟨u', x, rfl⟩
      · rw [List.append_nil] at hu
        exact h (hu ▸ List.prefix_rfl)
      · have hu' : (s ++ '_' :: u') ++ [x] = w ++ ['_'] := by simpa using hu
        have := List.append_inj_left' hu' rfl
        exact hw (this ▸ by simp)

/-- The names in the list are `s` with different things put around it. -/
def Shaped (P S : List (List Char)) (s : List Char) (names : List (List Char)) : Prop :=
  ∃ sh : List (List Char × List Char), sh.Nodup ∧ (∀ q ∈ sh, q.1 ∈ P ∧ q.2 ∈ S) ∧ names = sh.map fun q => q.1 ++ (s ++ q.2)

/-- What is put around names that satisfy `G` can be told. -/
def Unique (P S : List (List Char)) (G : List Char → Prop) : Prop :=
  ∀ s t p q a b, G s → G t → p ∈ P → q ∈ P → a ∈ S → b ∈ S → p ++ (s ++ a) = q ++ (t ++ b) → p = q ∧ s = t ∧ a = b

theorem Shaped.mem {P S : List (List Char)} {s : List Char} {names : List (List Char)} (h : Shaped P S s names) {x : List Char}
    (hx : x ∈ names) : ∃ p ∈ P, ∃ a ∈ S, x = p ++ (s ++ a) := by
  obtain ⟨sh, _, hm, rfl⟩ := h
  obtain ⟨q, hq, rfl⟩ := List.mem_map.1 hx
  exact ⟨q.1, (hm q hq).1, q.2, (hm q hq).2, rfl⟩

theorem Shaped.nodup {P S : List (List Char)} {G : List Char → Prop} (hu : Unique P S G) {s : List Char} (hs : G s) {names : List (List Char)}
    (h : Shaped P S s names) : names.Nodup := by
  obtain ⟨sh, hn, hm, rfl⟩ := h
  refine hn.map_on fun x hx y hy he => ?_
  have := hu s s x.1 y.1 x.2 y.2 hs hs (hm x hx).1 (hm y hy).1 (hm x hx).2 (hm y hy).2 he
  exact Prod.ext this.1 this.2.2

theorem shaped_flat {α : Type} {P S : List (List Char)} {G : List Char → Prop} (hu : Unique P S G) (key : α → List Char)
    (names : α → List (List Char)) (l : List α) (hg : ∀ e ∈ l, G (key e)) (hs : ∀ e ∈ l, Shaped P S (key e) (names e))
    (hd : (l.map key).Nodup) : (l.flatMap names).Nodup := by
  induction l with
  | nil => simp
  | cons e l ih =>
    rw [List.map_cons, List.nodup_cons] at hd
    rw [List.flatMap_cons]
    refine List.Nodup.append (Shaped.nodup hu (hg e (by simp)) (hs e (by simp)))
      (ih (fun x hx => hg x (by simp [hx])) (fun x hx => hs x (by simp [hx])) hd.2) ?_
    intro x hx hx'
    obtain ⟨e', he', hx'⟩ := List.mem_flatMap.1 hx'
    obtain ⟨p, hp, a, ha, rfl⟩ := (hs e (by simp)).mem hx
    obtain ⟨q, hq, b, hb, h⟩ := (hs e' (by simp [he'])).mem hx'
    have := (hu _ _ p q a b (hg e (by simp)) (hg e' (by simp [he'])) hp hq ha hb h).2.1
    exact hd.1 (this ▸ List.mem_map_of_mem he')

/-- what is put before the name of a member -/
def memberPre : List (List Char) := ["", "set_"].map String.toList
/-- what is put behind the name of a member -/
def memberSuf : List (List Char) := ["", "_old", "_def_val", "_old_def_val", "_mut", "_old_mut"].map String.toList
/-- what is put before the name of a reference -/
def refPre : List (List Char) := ["ref_", "ref_id_", "set_ref_"].map String.toList
/-- what is put behind the name of a reference -/
def refSuf : List (List Char) := ["", "_old"].map String.toList
/-- what is put behind the id of an entry -/
def keySuf : List (List Char) := ["", "_old", "_us", "_old_us"].map String.toList

/-- `GoodName` as far as different functions are concerned -/
def MemberOk (s : List Char) : Prop :=
  (∀ w ∈ ["set_", "ref_"], ¬ w.toList <+: s ++ ['_']) ∧ ∀ w ∈ ["_old", "_def_val", "_mut"].map String.toList, ¬ w <:+ s

theorem GoodName.ok {n : String} (h : GoodName n) : MemberOk (snakeName n.toList) :=
  ⟨h.first, fun w hw => by obtain ⟨v, hv, rfl⟩ := List.mem_map.1 hw; exact h.last v hv⟩

/-- `GoodRef` as far as different functions are concerned -/
def RefOk (s : List Char) : Prop := ¬ "id_".toList <+: s ++ ['_'] ∧ ∀ w ∈ ["_old"].map String.toList, ¬ w <:+ s

theorem GoodRef.ok {n : String} (h : GoodRef n) : RefOk (snakeName n.toList) :=
  ⟨h.first, fun w hw => by
    rcases List.mem_singleton.1 hw
    exact h.last⟩

theorem sep_suf {S : List (List Char)} (h : ∀ a ∈ S, a = [] ∨ a.head? = some '_') {a : List Char} (ha : a ∈ S) : a = [] ∨ ∃ t, a = '_' :: t := by
  rcases h a ha with h | h
  · exact .inl h
  · cases a with
    | nil => exact .inl rfl
    | cons x t => exact .inr ⟨t, by simp at h; rw [h]⟩

theorem MemberOk.no_set {s a : List Char} (h : MemberOk s) (ha : a ∈ memberSuf) (t : List Char) : s ++ a ≠ "set_".toList ++ t := fun he =>
  first_word (w := "set".toList) (by decide) (h.1 "set_" (by simp)) (sep_suf (S := memberSuf) (by decide) ha) ⟨t, he.symm⟩

theorem MemberOk.no_ref {s a : List Char} (h : MemberOk s) (ha : a ∈ memberSuf) (t : List Char) : s ++ a ≠ "ref_".toList ++ t := fun he =>
  first_word (w := "ref".toList) (by decide) (h.1 "ref_" (by simp)) (sep_suf (S := memberSuf) (by decide) ha) ⟨t, he.symm⟩

theorem RefOk.no_id {s a : List Char} (h : RefOk s) (ha : a ∈ refSuf) (t : List Char) : s ++ a ≠ "id_".toList ++ t := fun he =>
  first_word (w := "id".toList) (by decide) h.1 (sep_suf (S := refSuf) (by decide) ha) ⟨t, he.symm⟩

theorem unique_members : Unique memberPre memberSuf MemberOk := by
  intro s t p q a b hs ht hp hq ha hb he
  have key : s ++ a = t ++ b → s = t ∧ a = b := ends_unique (S := memberSuf) (by decide) hs.2 ht.2 ha hb
  simp only [memberPre, List.map_cons, List.map_nil, List.mem_cons, List.not_mem_nil, or_false] at hp hq
  rcases hp with rfl | rfl <;> rcases hq with rfl | rfl
  · exact ⟨rfl, key he⟩
  · exact absurd he (hs.no_set ha _)
  · exact absurd he.symm (ht.no_set hb _)
  · exact ⟨rfl, key (List.append_cancel_left he)⟩

theorem unique_refs : Unique refPre refSuf RefOk := by
  intro s t p q a b hs ht hp hq ha hb he
  have key : s ++ a = t ++ b → s = t ∧ a = b := ends_unique (S := refSuf) (by decide) hs.2 ht.2 ha hb
  simp only [refPre, List.map_cons, List.map_nil, List.mem_cons, List.not_mem_nil, or_false] at hp hq
  have hid : "ref_id_".toList = "ref_".toList ++ "id_".toList := by decide
  rcases hp with rfl | rfl | rfl <;> rcases hq with rfl | rfl | rfl
  · exact ⟨rfl, key (List.append_cancel_left he)⟩
  · rw [hid, List.append_assoc] at he
    exact absurd (List.append_cancel_left he) (hs.no_id ha _)
  · simp at he
  · rw [hid, List.append_assoc] at he
    exact absurd (List.append_cancel_left he).symm (ht.no_id hb _)
  · exact ⟨rfl, key (List.append_cancel_left he)⟩
  · simp at he
  · simp at he
  · simp at he
  · exact ⟨rfl, key (List.append_cancel_left he)⟩

theorem member_ne_ref {s t p q a b : List Char} (hs : MemberOk s) (hp : p ∈ memberPre) (hq : q ∈ refPre) (ha : a ∈ memberSuf) :
    p ++ (s ++ a) ≠ q ++ (t ++ b) := by
  intro he
  have h1 : "ref_id_".toList = "ref_".toList ++ "id_".toList := by decide
  have h2 : "set_ref_".toList = "set_".toList ++ "ref_".toList := by decide
  simp only [memberPre, refPre, List.map_cons, List.map_nil, List.mem_cons, List.not_mem_nil, or_false] at hp hq
  rcases hp with rfl | rfl <;> rcases hq with rfl | rfl | rfl
  · exact hs.no_ref ha _ he
  · rw [h1, List.append_assoc] at he
    exact hs.no_ref ha _ he
  · rw [h2, List.append_assoc] at he
    exact hs.no_set ha _ he
  · simp at he
  · simp at he
  · rw [h2, List.append_assoc] at he
    exact hs.no_ref ha _ (List.append_cancel_left he)

theorem paramFns_shaped (isMut : Bool) (n : String) (isOld : Bool) (p : Param) (vt : VType) :
    Shaped memberPre memberSuf (snakeName n.toList) ((paramFns isMut n isOld p vt).map (·.name)) := by
  have e1 : "_old".toList ++ "_def_val".toList = "_old_def_val".toList := by decide
  have e2 : "_old".toList ++ "_mut".toList = "_old_mut".toList := by decide
  cases isOld <;> cases isMut <;> cases hb : byRef (ptype p)
  · refine ⟨[("".toList, "".toList), ("".toList, "_def_val".toList)], by decide, by decide, ?_⟩
    simp [paramFns, fnName, withOld, hb]
  · refine ⟨[("".toList, "_def_val".toList), ("".toList, "".toList)], by decide, by decide, ?_⟩
    simp [paramFns, fnName, withOld, hb]
  · refine ⟨[("".toList, "".toList), ("".toList, "_def_val".toList), ("set_".toList, "".toList)], by decide, by decide, ?_⟩
    simp [paramFns, fnName, withOld, hb]
  · refine ⟨[("".toList, "_def_val".toList), ("".toList, "".toList), ("".toList, "_mut".toList), ("set_".toList, "".toList)], by decide, by decide, ?_⟩
    simp [paramFns, fnName, withOld, hb]
  · refine ⟨[("".toList, "_old".toList), ("".toList, "_old_def_val".toList)], by decide, by decide, ?_⟩
    simp [paramFns, fnName, withOld, hb]
  · refine ⟨[("".toList, "_old_def_val".toList), ("".toList, "_old".toList)], by decide, by decide, ?_⟩
    simp [paramFns, fnName, withOld, hb]
  · refine ⟨[("".toList, "_old".toList), ("".toList, "_old_def_val".toList), ("set_".toList, "_old".toList)], by decide, by decide, ?_⟩
    simp [paramFns, fnName, withOld, hb]
  · refine ⟨[("".toList, "_old_def_val".toList), ("".toList, "_old".toList), ("".toList, "_old_mut".toList), ("set_".toList, "_old".toList)],
      by decide, by decide, ?_⟩
    simp [paramFns, fnName, withOld, hb]

theorem one_shaped (n : String) (isOld : Bool) : Shaped memberPre memberSuf (snakeName n.toList) [fnName n isOld] := by
  cases isOld
  · exact ⟨[("".toList, "".toList)], by decide, by decide, by simp [fnName, withOld]⟩
  · exact ⟨[("".toList, "_old".toList)], by decide, by decide, by simp [fnName, withOld]⟩

theorem two_shaped (n : String) (isOld : Bool) :
    Shaped memberPre memberSuf (snakeName n.toList) [fnName n isOld, fnName n isOld ++ "_mut".toList] := by
  cases isOld
  · exact ⟨[("".toList, "".toList), ("".toList, "_mut".toList)], by decide, by decide, by simp [fnName, withOld]⟩
  · exact ⟨[("".toList, "_old".toList), ("".toList, "_old_mut".toList)], by decide, by decide, by simp [fnName, withOld]⟩

theorem no_shaped (s : List Char) : Shaped memberPre memberSuf s [] := ⟨[], by decide, by simp, rfl⟩

theorem citemMember_shaped (old : List String) (e : String × DefVal) :
    Shaped memberPre memberSuf (snakeName e.1.toList) ((citemMemberFns old e).map (·.name)) := by
  obtain ⟨n, v⟩ := e
  cases v with
  | param p vt => exact paramFns_shaped _ _ _ _ _
  | cilDef d => exact one_shaped _ _
  | milDef d u => exact no_shaped _

theorem mitemMember_shaped (old : List String) (e : String × DefVal) :
    Shaped memberPre memberSuf (snakeName e.1.toList) ((mitemMemberFns old e).map (·.name)) := by
  obtain ⟨n, v⟩ := e
  cases v with
  | param p vt => exact paramFns_shaped _ _ _ _ _
  | cilDef d => exact no_shaped _
  | milDef d u => exact two_shaped _ _

theorem rootMember_shaped (old : List String) (e : String × RootVal) :
    Shaped memberPre memberSuf (snakeName e.1.toList) ((rootMemberFns old e).map (·.name)) := by
  obtain ⟨n, v⟩ := e
  cases v with
  | param p vt => exact paramFns_shaped _ _ _ _ _
  | table d l o => exact one_shaped _ _
  | clist d l => exact one_shaped _ _
  | mlist d u => exact two_shaped _ _

theorem refGet_shaped (n : String) (isOld : Bool) : Shaped (["ref_", "ref_id_"].map String.toList) refSuf (snakeName n.toList)
    ["ref_".toList ++ fnName n isOld, "ref_id_".toList ++ fnName n isOld] := by
  cases isOld
  · exact ⟨[("ref_".toList, "".toList), ("ref_id_".toList, "".toList)], by decide, by decide, by simp [fnName, withOld]⟩
  · exact ⟨[("ref_".toList, "_old".toList), ("ref_id_".toList, "_old".toList)], by decide, by decide, by simp [fnName, withOld]⟩

theorem refSet_shaped (n : String) (isOld : Bool) : Shaped (["set_ref_"].map String.toList) refSuf (snakeName n.toList)
    ["set_ref_".toList ++ fnName n isOld] := by
  cases isOld
  · exact ⟨[("set_ref_".toList, "".toList)], by decide, by decide, by simp [fnName, withOld]⟩
  · exact ⟨[("set_ref_".toList, "_old".toList)], by decide, by decide, by simp [fnName, withOld]⟩

theorem Shaped.mono {P P' S : List (List Char)} (h : P ⊆ P') {s : List Char} {names : List (List Char)} (hs : Shaped P S s names) :
    Shaped P' S s names := by
  obtain ⟨sh, h1, h2, h3⟩ := hs
  exact ⟨sh, h1, fun q hq => ⟨h (h2 q hq).1, (h2 q hq).2⟩, h3⟩

/-- not the name of a member, see `GoodName` -/
def BadMember (x : List Char) : Prop :=
  x ∈ ["new", "root_obj_ref", "deconstruct", "from", "get_enum", "get_enum_ids"].map String.toList ∨ x ∈ keywords ∨
    (∃ v ∈ ["set_", "ref_"], v.toList <+: x ++ ['_']) ∨ ∃ v ∈ ["_old", "_def_val", "_mut"], v.toList <:+ x

instance (w : List Char) : Decidable (BadMember w) := by unfold BadMember; infer_instance

/-- a name of a function that belongs to no member and no reference -/
def Fixed (w : List Char) : Prop :=
  (∀ p ∈ memberPre, ∀ a ∈ memberSuf, p <+: w → a <:+ w → BadMember ((w.drop p.length).take ((w.drop p.length).length - a.length))) ∧
  ∀ p ∈ refPre, ¬ p <+: w

instance (w : List Char) : Decidable (Fixed w) := by unfold Fixed; infer_instance

theorem Fixed.not_member {w : List Char} (hw : Fixed w) {n : String} (hn : GoodName n) {p a : List Char} (hp : p ∈ memberPre)
    (ha : a ∈ memberSuf) : w ≠ p ++ (snakeName n.toList ++ a) := by
  intro he
  have h := hw.1 p hp a ha ⟨_, he.symm⟩ ⟨p ++ snakeName n.toList, by rw [he]; simp⟩
  have hx : (w.drop p.length).take ((w.drop p.length).length - a.length) = snakeName n.toList := by
    rw [he]; simp
  rw [hx] at h
  rcases h with h | h | ⟨v, hv, h⟩ | ⟨v, hv, h⟩
  · exact hn.fixed h
  · exact hn.keyword h
  · exact hn.first v hv h
  · exact hn.last v hv h

theorem fixed_names : ∀ w ∈ ["new", "root_obj_ref", "root_obj_ref_mut", "deconstruct", "from", "get_enum", "get_enum_ids", "set_enum"], Fixed w.toList := by
  decide +kernel

theorem refGet_names {d : RefDef} (h : ∀ e ∈ d.refs, GoodRef e.1) (hd : (d.refs.map fun e => snakeName e.1.toList).Nodup) :
    ((refGetFns d).map (·.name)).Nodup := by
  unfold refGetFns
  cases d.isEnum with
  | true => exact (by decide : ["get_enum".toList, "get_enum_ids".toList].Nodup)
  | false =>
    simp only [Bool.false_eq_true, if_false, List.map_flatMap]
    refine shaped_flat unique_refs (fun e => snakeName e.1.toList) _ d.refs (fun e he => (h e he).ok) (fun e _ => ?_) hd
    exact (refGet_shaped e.1 (decide (e.1 ∈ d.old))).mono (by decide)

theorem refSet_names {d : RefDef} (h : ∀ e ∈ d.refs, GoodRef e.1) (hd : (d.refs.map fun e => snakeName e.1.toList).Nodup) :
    ((refSetFns d).map (·.name)).Nodup := by
  unfold refSetFns
  cases d.isEnum with
  | true => exact (by decide : ["set_enum".toList].Nodup)
  | false =>
    simp only [Bool.false_eq_true, if_false, List.map_map]
    have := shaped_flat unique_refs (fun e : String × Qv String × VType => snakeName e.1.toList)
      (fun e => ["set_ref_".toList ++ fnName e.1 (decide (e.1 ∈ d.old))]) d.refs (fun e he => (h e he).ok)
      (fun e _ => (refSet_shaped e.1 (decide (e.1 ∈ d.old))).mono (by decide)) hd
    rw [← List.map_eq_flatMap] at this
    exact this

/-- where the names of the functions of references come from -/
theorem mem_refGet {d : RefDef} {x : List Char} (hx : x ∈ (refGetFns d).map (·.name)) :
    x = "get_enum".toList ∨ x = "get_enum_ids".toList ∨
      d.isEnum = false ∧ ∃ e ∈ d.refs, ∃ p ∈ ["ref_", "ref_id_"].map String.toList, ∃ a ∈ refSuf, x = p ++ (snakeName e.1.toList ++ a) := by
  unfold refGetFns at hx
  cases h : d.isEnum with
  | true => rw [h] at hx; simp at hx; tauto
  | false =>
    rw [h] at hx
    simp only [Bool.false_eq_true, if_false, List.map_flatMap] at hx
    obtain ⟨e, he, hx⟩ := List.mem_flatMap.1 hx
    exact .inr (.inr ⟨rfl, e, he, (refGet_shaped e.1 (decide (e.1 ∈ d.old))).mem hx⟩)

theorem mem_refSet {d : RefDef} {x : List Char} (hx : x ∈ (refSetFns d).map (·.name)) :
    x = "set_enum".toList ∨
      d.isEnum = false ∧ ∃ e ∈ d.refs, ∃ p ∈ ["set_ref_"].map String.toList, ∃ a ∈ refSuf, x = p ++ (snakeName e.1.toList ++ a) := by
  unfold refSetFns at hx
  cases h : d.isEnum with
  | true => rw [h] at hx; simp at hx; tauto
  | false =>
    rw [h] at hx
    simp only [Bool.false_eq_true, if_false, List.map_map] at hx
    obtain ⟨e, he, rfl⟩ := List.mem_map.1 hx
    exact .inr ⟨rfl, e, he, (refSet_shaped e.1 (decide (e.1 ∈ d.old))).mem (List.mem_singleton.2 rfl)⟩

theorem citemFns_nodup {d : ListDef} (h : GoodDef d) : ((citemFns d).map (·.name)).Nodup := by
  unfold citemFns
  rw [List.map_cons, List.map_append, List.map_flatMap, List.nodup_cons]
  constructor
  · intro hm
    rcases List.mem_append.1 hm with hm | hm
    · obtain ⟨e, he, hm⟩ := List.mem_flatMap.1 hm
      obtain ⟨p, hp, a, ha, hx⟩ := (citemMember_shaped _ _).mem hm
      exact (fixed_names "from" (by simp)).not_member (h.members e he) hp ha hx
    · rcases mem_refGet hm with hm | hm | ⟨_, e, _, p, hp, a, _, hx⟩
      · simp at hm
      · simp at hm
      · exact (fixed_names "from" (by simp)).2 p ((by decide : ["ref_", "ref_id_"].map String.toList ⊆ refPre) hp) ⟨_, hx.symm⟩
  · refine List.Nodup.append (shaped_flat unique_members (fun e => snakeName e.1.toList) _ _ (fun e he => (h.members e he).ok)
      (fun e _ => citemMember_shaped _ _) h.membersDistinct) (refGet_names h.refs h.refsDistinct) ?_
    intro x hx hx'
    obtain ⟨e, he, hx⟩ := List.mem_flatMap.1 hx
    obtain ⟨p, hp, a, ha, rfl⟩ := (citemMember_shaped _ _).mem hx
    rcases mem_refGet hx' with hm | hm | ⟨_, e', _, q, hq, b, _, hx'⟩
    · exact (fixed_names "get_enum" (by simp)).not_member (h.members e he) hp ha hm.symm
    · exact (fixed_names "get_enum_ids" (by simp)).not_member (h.members e he) hp ha hm.symm
    · exact member_ne_ref (h.members e he).ok hp ((by decide : ["ref_", "ref_id_"].map String.toList ⊆ refPre) hq) ha hx'

theorem refs_disjoint {d : RefDef} (h : ∀ e ∈ d.refs, GoodRef e.1) :
    List.Disjoint ((refGetFns d).map (·.name)) ((refSetFns d).map (·.name)) := by
  intro x hx hx'
  rcases mem_refGet hx with rfl | rfl | ⟨_, e, he, p, hp, a, ha, rfl⟩
  · rcases mem_refSet hx' with hm | ⟨_, e', _, q, hq, b, _, hx'⟩
    · simp at hm
    · exact (fixed_names "get_enum" (by simp)).2 q ((by decide : ["set_ref_"].map String.toList ⊆ refPre) hq) ⟨_, hx'.symm⟩
  · rcases mem_refSet hx' with hm | ⟨_, e', _, q, hq, b, _, hx'⟩
    · simp at hm
    · exact (fixed_names "get_enum_ids" (by simp)).2 q ((by decide : ["set_ref_"].map String.toList ⊆ refPre) hq) ⟨_, hx'.symm⟩
  · have hp' := (by decide : ["ref_", "ref_id_"].map String.toList ⊆ refPre) hp
    rcases mem_refSet hx' with hm | ⟨_, e', he', q, hq, b, hb, hx'⟩
    · exact (fixed_names "set_enum" (by simp)).2 p hp' ⟨_, hm⟩
    · have := (unique_refs _ _ _ _ _ _ (h e he).ok (h e' he').ok hp'
        ((by decide : ["set_ref_"].map String.toList ⊆ refPre) hq) ha hb hx').1
      exact (by decide : ∀ p ∈ ["ref_", "ref_id_"].map String.toList, ∀ q ∈ ["set_ref_"].map String.toList, p ≠ q) p hp q hq this

theorem mitemFns_nodup {d : ListDef} (h : GoodDef d) : ((mitemFns d).map (·.name)).Nodup := by
  unfold mitemFns
  rw [List.map_cons, List.append_assoc, List.map_append, List.map_flatMap, List.map_append, List.nodup_cons]
  have sub1 := (by decide : ["ref_", "ref_id_"].map String.toList ⊆ refPre)
  have sub2 := (by decide : ["set_ref_"].map String.toList ⊆ refPre)
  constructor
  · intro hm
    rcases List.mem_append.1 hm with hm | hm
    · obtain ⟨e, he, hm⟩ := List.mem_flatMap.1 hm
      obtain ⟨p, hp, a, ha, hx⟩ := (mitemMember_shaped _ _).mem hm
      exact (fixed_names "from" (by simp)).not_member (h.members e he) hp ha hx
    · rcases List.mem_append.1 hm with hm | hm
      · rcases mem_refGet hm with hm | hm | ⟨_, e, _, p, hp, a, _, hx⟩
        · simp at hm
        · simp at hm
        · exact (fixed_names "from" (by simp)).2 p (sub1 hp) ⟨_, hx.symm⟩
      · rcases mem_refSet hm with hm | ⟨_, e, _, p, hp, a, _, hx⟩
        · simp at hm
        · exact (fixed_names "from" (by simp)).2 p (sub2 hp) ⟨_, hx.symm⟩
  · refine List.Nodup.append (shaped_flat unique_members (fun e => snakeName e.1.toList) _ _ (fun e he => (h.members e he).ok)
      (fun e _ => mitemMember_shaped _ _) h.membersDistinct)
      (List.Nodup.append (refGet_names h.refs h.refsDistinct) (refSet_names h.refs h.refsDistinct) (refs_disjoint h.refs)) ?_
    intro x hx hx'
    obtain ⟨e, he, hx⟩ := List.mem_flatMap.1 hx
    obtain ⟨p, hp, a, ha, rfl⟩ := (mitemMember_shaped _ _).mem hx
    rcases List.mem_append.1 hx' with hx' | hx'
    · rcases mem_refGet hx' with hm | hm | ⟨_, e', _, q, hq, b, _, hx'⟩
      · exact (fixed_names "get_enum" (by simp)).not_member (h.members e he) hp ha hm.symm
      · exact (fixed_names "get_enum_ids" (by simp)).not_member (h.members e he) hp ha hm.symm
      · exact member_ne_ref (h.members e he).ok hp (sub1 hq) ha hx'
    · rcases mem_refSet hx' with hm | ⟨_, e', _, q, hq, b, _, hx'⟩
      · exact (fixed_names "set_enum" (by simp)).not_member (h.members e he) hp ha hm.symm
      · exact member_ne_ref (h.members e he).ok hp (sub2 hq) ha hx'

theorem rootFns_nodup {r : RootObj} (h : Good r) : ((rootFns r).map (·.name)).Nodup := by
  unfold rootFns
  rw [List.map_append, List.map_flatMap]
  refine List.Nodup.append (by decide) (shaped_flat unique_members (fun e => snakeName e.1.toList) _ _ (fun e he => (h.members e he).ok)
    (fun e _ => rootMember_shaped _ _) h.membersDistinct) ?_
  intro x hx hx'
  obtain ⟨e, he, hx'⟩ := List.mem_flatMap.1 hx'
  obtain ⟨p, hp, a, ha, rfl⟩ := (rootMember_shaped _ _).mem hx'
  rw [List.map_map] at hx
  obtain ⟨w, hw, hx⟩ := List.mem_map.1 hx
  exact (fixed_names w ((by decide : ["new", "root_obj_ref", "root_obj_ref_mut", "deconstruct"] ⊆
    ["new", "root_obj_ref", "root_obj_ref_mut", "deconstruct", "from", "get_enum", "get_enum_ids", "set_enum"]) hw)).not_member (h.members e he) hp ha hx

/-- `GoodKey` as far as different functions are concerned -/
def KeyOk (s : List Char) : Prop := ∀ w ∈ ["_old", "_us"].map String.toList, ¬ w <:+ s

theorem GoodKey.ok {n : String} (h : GoodKey n) : KeyOk (snakeName n.toList) :=
  fun w hw => by obtain ⟨v, hv, rfl⟩ := List.mem_map.1 hw; exact h.last v hv

theorem unique_keys : Unique ["".toList] keySuf KeyOk := by
  intro s t p q a b hs ht hp hq ha hb he
  rcases List.mem_singleton.1 hp
  rcases List.mem_singleton.1 hq
  exact ⟨rfl, ends_unique (S := keySuf) (by decide) hs ht ha hb he⟩

theorem key_shaped (n : String) (isOld : Bool) : Shaped ["".toList] keySuf (snakeName n.toList)
    [keyName n isOld ++ "_us".toList, keyName n isOld] := by
  cases isOld
  · exact ⟨[("".toList, "_us".toList), ("".toList, "".toList)], by decide, by decide, by simp [keyName, fnName, withOld]⟩
  · exact ⟨[("".toList, "_old_us".toList), ("".toList, "_old".toList)], by decide, by decide, by simp [keyName, fnName, withOld]⟩

/-- not the id of an entry, see `GoodKey` -/
def BadKey (x : List Char) : Prop :=
  x ∈ ["new", "get_by_id"].map String.toList ∨ x ∈ keywords ∨ ∃ v ∈ ["_old", "_us"], v.toList <:+ x

instance (w : List Char) : Decidable (BadKey w) := by unfold BadKey; infer_instance

/-- a name of a function of a table that belongs to no entry -/
def FixedKey (w : List Char) : Prop := ∀ a ∈ keySuf, a <:+ w → BadKey (w.take (w.length - a.length))

instance (w : List Char) : Decidable (FixedKey w) := by unfold FixedKey; infer_instance

theorem FixedKey.not_key {w : List Char} (hw : FixedKey w) {n : String} (hn : GoodKey n) {a : List Char} (ha : a ∈ keySuf) :
    w ≠ snakeName n.toList ++ a := by
  intro he
  have h := hw a ha ⟨_, he.symm⟩
  have hx : w.take (w.length - a.length) = snakeName n.toList := by rw [he]; simp
  rw [hx] at h
  rcases h with h | h | ⟨v, hv, h⟩
  · exact hn.fixed h
  · exact hn.keyword h
  · exact hn.last v hv h

theorem fixed_keys : ∀ w ∈ ["new", "get_by_id_us", "get_by_id"], FixedKey w.toList := by decide +kernel

theorem tableFns_nodup {list : AMap Item} (old : List String) (h : GoodTable list) : ((tableFns list old).map (·.name)).Nodup := by
  unfold tableFns
  rw [if_neg (by simpa using h.inhabited), List.map_cons, List.map_append, List.map_flatMap, List.nodup_cons]
  have hmem : ∀ x ∈ list.flatMap (fun e => List.map (·.name) [(⟨keyName e.1 (decide (e.1 ∈ old)) ++ "_us".toList, .entry e.1⟩ : Fn),
      ⟨keyName e.1 (decide (e.1 ∈ old)), .entry e.1⟩]), ∃ e ∈ list, ∃ a ∈ keySuf, x = snakeName e.1.toList ++ a := by
    intro x hx
    obtain ⟨e, he, hx⟩ := List.mem_flatMap.1 hx
    obtain ⟨p, hp, a, ha, hx⟩ := (key_shaped e.1 (decide (e.1 ∈ old))).mem hx
    rcases List.mem_singleton.1 hp
    exact ⟨e, he, a, ha, hx⟩
  constructor
  · intro hm
    rcases List.mem_append.1 hm with hm | hm
    · obtain ⟨e, he, a, ha, hx⟩ := hmem _ hm
      exact (fixed_keys "new" (by simp)).not_key (h.keys e he) ha hx
    · simp at hm
  · refine List.Nodup.append (shaped_flat unique_keys (fun e => snakeName e.1.toList) _ _ (fun e he => (h.keys e he).ok)
      (fun e _ => key_shaped _ _) h.distinct) (by decide) ?_
    intro x hx hx'
    obtain ⟨e, he, a, ha, rfl⟩ := hmem _ hx
    simp only [List.map_cons, List.map_nil, List.mem_cons, List.not_mem_nil, or_false] at hx'
    rcases hx' with hx' | hx'
    · exact (fixed_keys "get_by_id_us" (by simp)).not_key (h.keys e he) ha hx'.symm
    · exact (fixed_keys "get_by_id" (by simp)).not_key (h.keys e he) ha hx'.symm

/-! ## Identifiers -/

theorem not_keyword_of_underscore {s : List Char} (h : '_' ∈ s) (hl : s.length ≠ 1) : s ≠ ['_'] ∧ s ∉ keywords := by
  constructor
  · rintro rfl; exact hl rfl
  · intro hk
    exact (by decide +kernel : ∀ k ∈ keywords, '_' ∉ k) s hk h

theorem ident_of_chars {s : List Char} (h : (match s with
    | [] => false
    | c :: r => (decide (Names.Lower c) || decide (Names.Upper c) || c == '_') &&
      r.all fun x => decide (Names.Lower x) || decide (Names.Upper x) || decide (Names.Digit x) || x == '_') = true)
    (h1 : s ≠ ['_']) (h2 : s ∉ keywords) : RustIdent s := by
  refine ⟨?_, h1, h2⟩
  cases s with
  | nil => simp at h
  | cons c r =>
    simp only [Bool.and_eq_true, Bool.or_eq_true, decide_eq_true_eq, List.all_eq_true, beq_iff_eq] at h
    refine ⟨c, r, rfl, ?_, fun x hx => ?_⟩
    · tauto
    · have := h.2 x hx
      tauto

theorem word_pre {p s : List Char} (hs : Word s) (hp : p = [] ∨ Word p) : Word (p ++ s) := by
  rcases hp with rfl | hp
  · exact hs
  · exact hp.append hs.chars

theorem wordChars {a : List Char} (h : (a.all fun x => decide (Names.Lower x) || decide (Names.Upper x) || decide (Names.Digit x) || x == '_') = true) :
    ∀ x ∈ a, WordChar x := by
  intro x hx
  have := List.all_eq_true.1 h x hx
  simp only [Bool.or_eq_true, decide_eq_true_eq, beq_iff_eq] at this
  unfold WordChar
  tauto

theorem memberSuf_chars : ∀ a ∈ memberSuf, ∀ x ∈ a, WordChar x := by
  intro a ha
  exact wordChars ((by decide : ∀ a ∈ memberSuf, (a.all fun x => decide (Names.Lower x) || decide (Names.Upper x) || decide (Names.Digit x) || x == '_') = true) a ha)

theorem refSuf_chars : ∀ a ∈ refSuf, ∀ x ∈ a, WordChar x := by
  intro a ha
  exact wordChars ((by decide : ∀ a ∈ refSuf, (a.all fun x => decide (Names.Lower x) || decide (Names.Upper x) || decide (Names.Digit x) || x == '_') = true) a ha)

theorem keySuf_chars : ∀ a ∈ keySuf, ∀ x ∈ a, WordChar x := by
  intro a ha
  exact wordChars ((by decide : ∀ a ∈ keySuf, (a.all fun x => decide (Names.Lower x) || decide (Names.Upper x) || decide (Names.Digit x) || x == '_') = true) a ha)

theorem pre_word : ∀ p ∈ memberPre ++ refPre, p = [] ∨ Word p := by
  intro p hp
  by_cases h : p = []
  · exact .inl h
  · right
    have : ∀ p ∈ memberPre ++ refPre, p ≠ [] → p ≠ ['_'] ∧ p ∉ keywords ∧ (match p with
      | [] => false
      | c :: r => (decide (Names.Lower c) || decide (Names.Upper c) || c == '_') &&
        r.all fun x => decide (Names.Lower x) || decide (Names.Upper x) || decide (Names.Digit x) || x == '_') = true := by decide +kernel
    obtain ⟨h1, h2, h3⟩ := this p hp h
    exact (ident_of_chars h3 h1 h2).1

theorem fixed_idents : ∀ w ∈ ["new", "root_obj_ref", "root_obj_ref_mut", "deconstruct", "from", "get_enum", "get_enum_ids", "set_enum",
    "get_by_id_us", "get_by_id", "from_str", "from_num", "len", "to_num", "metadata", "to_str", "id", "RootIntf"], RustIdent w.toList := by
  intro w hw
  have : ∀ w ∈ ["new", "root_obj_ref", "root_obj_ref_mut", "deconstruct", "from", "get_enum", "get_enum_ids", "set_enum",
    "get_by_id_us", "get_by_id", "from_str", "from_num", "len", "to_num", "metadata", "to_str", "id", "RootIntf"],
      w.toList ≠ ['_'] ∧ w.toList ∉ keywords ∧ (match w.toList with
      | [] => false
      | c :: r => (decide (Names.Lower c) || decide (Names.Upper c) || c == '_') &&
        r.all fun x => decide (Names.Lower x) || decide (Names.Upper x) || decide (Names.Digit x) || x == '_') = true := by decide +kernel
  obtain ⟨h1, h2, h3⟩ := this w hw
  exact ident_of_chars h3 h1 h2

theorem around_ident {n p a : List Char} (hi : Names.Ident n) (hp : p ∈ memberPre ++ refPre) (ha : ∀ x ∈ a, WordChar x)
    (h : p = [] → a = [] → snakeName n ≠ ['_'] ∧ snakeName n ∉ keywords) (ha' : a ≠ [] → '_' ∈ a ∧ a.length ≠ 1) :
    RustIdent (p ++ (snakeName n ++ a)) := by
  have hw : Word (p ++ (snakeName n ++ a)) := word_pre ((snake_word hi).append ha) (pre_word p hp)
  refine ⟨hw, ?_⟩
  by_cases h1 : p = []
  · by_cases h2 : a = []
    · rw [h1, h2, List.append_nil, List.nil_append]
      exact h h1 h2
    · have := ha' h2
      refine not_keyword_of_underscore ?_ ?_
      · simp [this.1]
      · obtain ⟨c, r, hc, _⟩ := snake_shape hi
        have := List.length_pos_of_mem this.1
        simp [hc]; omega
  · obtain ⟨h2, h3⟩ := (by decide : ∀ p ∈ memberPre ++ refPre, p ≠ [] → '_' ∈ p ∧ 1 < p.length) p hp h1
    refine not_keyword_of_underscore ?_ ?_
    · simp [h2]
    · simp; omega

theorem GoodName.fn_ident {n : String} (h : GoodName n) {p a : List Char} (hp : p ∈ memberPre) (ha : a ∈ memberSuf) :
    RustIdent (p ++ (snakeName n.toList ++ a)) :=
  around_ident h.ident (List.mem_append_left _ hp) (memberSuf_chars a ha) (fun _ _ => ⟨h.underscore, h.keyword⟩)
    ((by decide : ∀ a ∈ memberSuf, a ≠ [] → '_' ∈ a ∧ a.length ≠ 1) a ha)

theorem GoodRef.fn_ident {n : String} (h : GoodRef n) {p a : List Char} (hp : p ∈ refPre) (ha : a ∈ refSuf) :
    RustIdent (p ++ (snakeName n.toList ++ a)) :=
  around_ident h.ident (List.mem_append_right _ hp) (refSuf_chars a ha)
    (fun h1 _ => absurd h1 ((by decide : ∀ p ∈ refPre, p ≠ []) p hp))
    ((by decide : ∀ a ∈ refSuf, a ≠ [] → '_' ∈ a ∧ a.length ≠ 1) a ha)

theorem GoodKey.fn_ident {n : String} (h : GoodKey n) {a : List Char} (ha : a ∈ keySuf) :
    RustIdent (snakeName n.toList ++ a) :=
  around_ident (p := []) h.ident (by decide) (keySuf_chars a ha) (fun _ _ => ⟨h.underscore, h.keyword⟩)
    ((by decide : ∀ a ∈ keySuf, a ≠ [] → '_' ∈ a ∧ a.length ≠ 1) a ha)

theorem type_ident {n : String} (h : Names.Ident n.toList) :
    ∀ w ∈ ["CItem", "MItem", "Table", "TableID", "Enum", "Kind"], RustIdent (typeName n.toList ++ w.toList) := by
  intro w hw
  refine ⟨(type_word h).append (wordChars ((by decide : ∀ w ∈ ["CItem", "MItem", "Table", "TableID", "Enum", "Kind"],
    (w.toList.all fun x => decide (Names.Lower x) || decide (Names.Upper x) || decide (Names.Digit x) || x == '_') = true) w hw)), ?_, ?_⟩
  · intro he
    have h1 := (by decide : ∀ w ∈ ["CItem", "MItem", "Table", "TableID", "Enum", "Kind"], 1 < w.toList.length) w hw
    have := congrArg List.length he
    simp only [List.length_append, List.length_cons, List.length_nil] at this
    omega
  · intro hk
    exact (by decide +kernel : ∀ w ∈ ["CItem", "MItem", "Table", "TableID", "Enum", "Kind"], ∀ k ∈ keywords, ¬ w.toList <:+ k) w hw _ hk ⟨_, rfl⟩

/-! ## All declarations -/

/-- what `Declarable` says about one declaration -/
structure GoodDecl (d : Decl) : Prop where
  fns : (d.fns.map (·.name)).Nodup
  variants : ∀ vs, d.variants = some vs → vs.Nodup
  inhabited : d.repr = true → d.variants ≠ some []
  typeIdents : RustIdent d.name
  fnIdents : ∀ f ∈ d.fns, RustIdent f.name
  variantIdents : ∀ vs, d.variants = some vs → ∀ v ∈ vs, RustIdent v

theorem fixed_ident {w : String} (hw : w ∈ ["new", "root_obj_ref", "root_obj_ref_mut", "deconstruct", "from", "get_enum", "get_enum_ids", "set_enum",
    "get_by_id_us", "get_by_id", "from_str", "from_num", "len", "to_num", "metadata", "to_str", "id", "RootIntf"]) : RustIdent w.toList :=
  fixed_idents w hw

theorem refGet_idents {d : RefDef} (h : ∀ e ∈ d.refs, GoodRef e.1) : ∀ x ∈ (refGetFns d).map (·.name), RustIdent x := by
  intro x hx
  rcases mem_refGet hx with rfl | rfl | ⟨_, e, he, p, hp, a, ha, rfl⟩
  · exact fixed_ident (by simp)
  · exact fixed_ident (by simp)
  · exact (h e he).fn_ident ((by decide : ["ref_", "ref_id_"].map String.toList ⊆ refPre) hp) ha

theorem refSet_idents {d : RefDef} (h : ∀ e ∈ d.refs, GoodRef e.1) : ∀ x ∈ (refSetFns d).map (·.name), RustIdent x := by
  intro x hx
  rcases mem_refSet hx with rfl | ⟨_, e, he, p, hp, a, ha, rfl⟩
  · exact fixed_ident (by simp)
  · exact (h e he).fn_ident ((by decide : ["set_ref_"].map String.toList ⊆ refPre) hp) ha

theorem citemFns_idents {d : ListDef} (h : GoodDef d) : ∀ x ∈ (citemFns d).map (·.name), RustIdent x := by
  intro x hx
  unfold citemFns at hx
  rw [List.map_cons, List.map_append, List.map_flatMap] at hx
  rcases List.mem_cons.1 hx with rfl | hx
  · exact fixed_ident (by simp)
  · rcases List.mem_append.1 hx with hx | hx
    · obtain ⟨e, he, hx⟩ := List.mem_flatMap.1 hx
      obtain ⟨p, hp, a, ha, rfl⟩ := (citemMember_shaped _ _).mem hx
      exact (h.members e he).fn_ident hp ha
    · exact refGet_idents h.refs x hx

theorem mitemFns_idents {d : ListDef} (h : GoodDef d) : ∀ x ∈ (mitemFns d).map (·.name), RustIdent x := by
  intro x hx
  unfold mitemFns at hx
  rw [List.map_cons, List.append_assoc, List.map_append, List.map_flatMap, List.map_append] at hx
  rcases List.mem_cons.1 hx with rfl | hx
  · exact fixed_ident (by simp)
  · rcases List.mem_append.1 hx with hx | hx
    · obtain ⟨e, he, hx⟩ := List.mem_flatMap.1 hx
      obtain ⟨p, hp, a, ha, rfl⟩ := (mitemMember_shaped _ _).mem hx
      exact (h.members e he).fn_ident hp ha
    · rcases List.mem_append.1 hx with hx | hx
      · exact refGet_idents h.refs x hx
      · exact refSet_idents h.refs x hx

theorem tableFns_idents {list : AMap Item} (old : List String) (h : GoodTable list) : ∀ x ∈ (tableFns list old).map (·.name), RustIdent x := by
  intro x hx
  unfold tableFns at hx
  rw [if_neg (by simpa using h.inhabited), List.map_cons, List.map_append, List.map_flatMap] at hx
  rcases List.mem_cons.1 hx with rfl | hx
  · exact fixed_ident (by simp)
  · rcases List.mem_append.1 hx with hx | hx
    · obtain ⟨e, he, hx⟩ := List.mem_flatMap.1 hx
      obtain ⟨p, hp, a, ha, rfl⟩ := (key_shaped e.1 (decide (e.1 ∈ old))).mem hx
      rcases List.mem_singleton.1 hp
      exact (h.keys e he).fn_ident ha
    · simp only [List.map_cons, List.map_nil, List.mem_cons, List.not_mem_nil, or_false] at hx
      rcases hx with rfl | rfl
      · exact fixed_ident (by simp)
      · exact fixed_ident (by simp)

theorem rootFns_idents {r : RootObj} (h : Good r) : ∀ x ∈ (rootFns r).map (·.name), RustIdent x := by
  intro x hx
  unfold rootFns at hx
  rw [List.map_append, List.map_flatMap] at hx
  rcases List.mem_append.1 hx with hx | hx
  · simp only [List.map_cons, List.map_nil, List.mem_cons, List.not_mem_nil, or_false] at hx
    rcases hx with rfl | rfl | rfl | rfl <;> exact fixed_ident (by simp)
  · obtain ⟨e, he, hx⟩ := List.mem_flatMap.1 hx
    obtain ⟨p, hp, a, ha, rfl⟩ := (rootMember_shaped _ _).mem hx
    exact (h.members e he).fn_ident hp ha

theorem enumDecls_good {stem : String} (hs : Names.Ident stem.toList) {d : RefDef} (fromCItem : Bool) (h : ∀ e ∈ d.refs, GoodRef e.1)
    (hd : d.isEnum = true → (d.refs.map fun e => typeName e.1.toList).Nodup) : ∀ x ∈ enumDecls stem d fromCItem, GoodDecl x := by
  intro x hx
  unfold enumDecls at hx
  cases he : d.isEnum with
  | false => rw [he] at hx; simp at hx
  | true =>
    rw [he] at hx
    have hv : ∀ v ∈ d.refs.map (fun e => typeName e.1.toList), RustIdent v := by
      intro v hv
      obtain ⟨e, he, rfl⟩ := List.mem_map.1 hv
      exact ⟨type_word (h e he).ident, (h e he).variant.2, (h e he).variant.1⟩
    have g1 : GoodDecl ⟨enumName stem, some (d.refs.map fun e => typeName e.1.toList), false, [⟨"new".toList, .fixed⟩],
        d.refs.map fun e => citemName e.1⟩ := by
      refine ⟨by simp, ?_, by simp, type_ident hs "Enum" (by simp), ?_, ?_⟩
      · rintro vs ⟨⟩; exact hd he
      · intro f hf; rw [List.mem_singleton.1 hf]; exact fixed_ident (by simp)
      · rintro vs ⟨⟩; exact hv
    have g2 : GoodDecl ⟨kindName stem, some (d.refs.map fun e => typeName e.1.toList), false, [⟨"id".toList, .fixed⟩],
        d.refs.map fun e => idsName e.1⟩ := by
      refine ⟨by simp, ?_, by simp, type_ident hs "Kind" (by simp), ?_, ?_⟩
      · rintro vs ⟨⟩; exact hd he
      · intro f hf; rw [List.mem_singleton.1 hf]; exact fixed_ident (by simp)
      · rintro vs ⟨⟩; exact hv
    rw [if_pos rfl] at hx
    cases fromCItem
    · simp only [Bool.false_eq_true, if_false, List.mem_cons, List.not_mem_nil, or_false] at hx
      rcases hx with rfl | rfl
      · exact g1
      · exact g2
    · simp only [if_true, List.mem_cons, List.not_mem_nil, or_false] at hx
      exact hx ▸ g1

theorem itemDecl_good {name : List Char} {fns : List Fn} {uses : List (List Char)} (hn : RustIdent name) (h1 : (fns.map (·.name)).Nodup)
    (h2 : ∀ x ∈ fns.map (·.name), RustIdent x) : GoodDecl ⟨name, none, false, fns, uses⟩ :=
  ⟨h1, by simp, by simp, hn, fun _ hf => h2 _ (List.mem_map_of_mem hf), by simp⟩

mutual
theorem citem_good {r : RootObj} (hg : Good r) {stem : String} (hs : Names.Ident stem.toList) :
    (d : ListDef) → HasDef r d → ∀ x ∈ citemDecls stem d, GoodDecl x
  | .mk members refs old, hd => by
    intro x hx
    have g := hg.defs _ hd
    rw [citemDecls] at hx
    rcases List.mem_cons.1 hx with rfl | hx
    · exact itemDecl_good (type_ident hs "CItem" (by simp)) (citemFns_nodup g) (citemFns_idents g)
    · rcases List.mem_append.1 hx with hx | hx
      · exact cil_good hg members (fun e he => (g.members e he).ident) (fun k d' hk => .cil hd hk) x hx
      · exact enumDecls_good hs _ g.refs g.variantsDistinct x hx
theorem cil_good {r : RootObj} (hg : Good r) : (l : List (String × DefVal)) → (∀ e ∈ l, Names.Ident e.1.toList) →
    (∀ k d', (k, DefVal.cilDef d') ∈ l → HasDef r d') → ∀ x ∈ cilDecls l, GoodDecl x
  | [], _, _ => by intro x hx; simp [cilDecls] at hx
  | (n, v) :: l, hi, hd => by
    intro x hx
    rw [cilDecls] at hx
    rcases List.mem_append.1 hx with hx | hx
    · exact cilVal_good hg (hi (n, v) (by simp)) v (fun d' hv => hd n d' (by simp [hv])) x hx
    · exact cil_good hg l (fun e he => hi e (by simp [he])) (fun k d' hk => hd k d' (by simp [hk])) x hx
theorem cilVal_good {r : RootObj} (hg : Good r) {n : String} (hn : Names.Ident n.toList) : (v : DefVal) → (∀ d', v = .cilDef d' → HasDef r d') →
    ∀ x ∈ cilDeclsVal n v, GoodDecl x
  | .cilDef d, h => by
    intro x hx
    rw [cilDeclsVal] at hx
    exact citem_good hg hn d (h d rfl) x hx
  | .milDef _ _, _ => by intro x hx; simp [cilDeclsVal] at hx
  | .param _ _, _ => by intro x hx; simp [cilDeclsVal] at hx
end

mutual
theorem mitem_good {r : RootObj} (hg : Good r) {stem : String} (hs : Names.Ident stem.toList) :
    (d : ListDef) → HasDef r d → ∀ x ∈ mitemDecls stem d, GoodDecl x
  | .mk members refs old, hd => by
    intro x hx
    have g := hg.defs _ hd
    rw [mitemDecls] at hx
    rcases List.mem_cons.1 hx with rfl | hx
    · exact itemDecl_good (type_ident hs "MItem" (by simp)) (mitemFns_nodup g) (mitemFns_idents g)
    · rcases List.mem_append.1 hx with hx | hx
      · exact mil_good hg members (fun e he => (g.members e he).ident) (fun k d' u hk => .mil hd hk) x hx
      · exact enumDecls_good hs _ g.refs g.variantsDistinct x hx
theorem mil_good {r : RootObj} (hg : Good r) : (l : List (String × DefVal)) → (∀ e ∈ l, Names.Ident e.1.toList) →
    (∀ k d' u, (k, DefVal.milDef d' u) ∈ l → HasDef r d') → ∀ x ∈ milDecls l, GoodDecl x
  | [], _, _ => by intro x hx; simp [milDecls] at hx
  | (n, v) :: l, hi, hd => by
    intro x hx
    rw [milDecls] at hx
    rcases List.mem_append.1 hx with hx | hx
    · exact milVal_good hg (hi (n, v) (by simp)) v (fun d' u hv => hd n d' u (by simp [hv])) x hx
    · exact mil_good hg l (fun e he => hi e (by simp [he])) (fun k d' u hk => hd k d' u (by simp [hk])) x hx
theorem milVal_good {r : RootObj} (hg : Good r) {n : String} (hn : Names.Ident n.toList) : (v : DefVal) → (∀ d' u, v = .milDef d' u → HasDef r d') →
    ∀ x ∈ milDeclsVal n v, GoodDecl x
  | .milDef d u, h => by
    intro x hx
    rw [milDeclsVal] at hx
    exact mitem_good hg hn d (h d u rfl) x hx
  | .cilDef _, _ => by intro x hx; simp [milDeclsVal] at hx
  | .param _ _, _ => by intro x hx; simp [milDeclsVal] at hx
end

theorem table_good {r : RootObj} (hg : Good r) {k : String} {d : ListDef} {list : AMap Item} {old : List String}
    (hm : (k, RootVal.table d list old) ∈ r.defs) : ∀ x ∈ tableDecls k d list old, GoodDecl x := by
  intro x hx
  have hk := (hg.members _ hm).ident
  have ht := hg.tables k d list old hm
  unfold tableDecls at hx
  rcases List.mem_append.1 hx with hx | hx
  · simp only [List.mem_cons, List.not_mem_nil, or_false] at hx
    rcases hx with rfl | rfl
    · exact itemDecl_good (type_ident hk "Table" (by simp)) (tableFns_nodup old ht) (tableFns_idents old ht)
    · refine ⟨(by decide : (idsFns.map (·.name)).Nodup), ?_, ?_, type_ident hk "TableID" (by simp), ?_, ?_⟩
      · rintro vs ⟨⟩
        have := shaped_flat (P := ["".toList]) (S := ["", "Old"].map String.toList) (G := fun s => ¬ "Old".toList <:+ s) (by
            intro s t p q a b hs ht hp hq ha hb he
            rcases List.mem_singleton.1 hp
            rcases List.mem_singleton.1 hq
            exact ⟨rfl, ends_unique (S := ["", "Old"].map String.toList) (bad := ["Old".toList]) (by decide)
              (fun w hw => by rcases List.mem_singleton.1 hw; exact hs) (fun w hw => by rcases List.mem_singleton.1 hw; exact ht) ha hb he⟩)
          (fun e : String × Item => typeName e.1.toList) (fun e => [keyVariant e.1 (decide (e.1 ∈ old))]) list
          (fun e he => (ht.keys e he).variantLast)
          (fun e _ => by
            unfold keyVariant
            cases decide (e.1 ∈ old)
            · exact ⟨[("".toList, "".toList)], by decide, by decide, by simp⟩
            · exact ⟨[("".toList, "Old".toList)], by decide, by decide, by simp⟩) ht.variantsDistinct
        rw [← List.map_eq_flatMap] at this
        exact this
      · intro _ he
        have := ht.inhabited
        simp at he
        exact this he
      · intro f hf
        unfold idsFns at hf
        obtain ⟨w, hw, rfl⟩ := List.mem_map.1 hf
        exact fixed_ident ((by decide : ["from_str", "from_num", "len", "to_num", "metadata", "to_str"] ⊆ ["new", "root_obj_ref",
          "root_obj_ref_mut", "deconstruct", "from", "get_enum", "get_enum_ids", "set_enum",
          "get_by_id_us", "get_by_id", "from_str", "from_num", "len", "to_num", "metadata", "to_str", "id", "RootIntf"]) hw)
      · rintro vs ⟨⟩ v hv
        obtain ⟨e, he, rfl⟩ := List.mem_map.1 hv
        have g := ht.keys e he
        unfold keyVariant
        cases decide (e.1 ∈ old)
        · exact ⟨type_word g.ident, g.variant.2, g.variant.1⟩
        · refine ⟨(type_word g.ident).append (wordChars (by decide)), ?_, ?_⟩
          · intro h
            have := congrArg List.length h
            simp at this
          · intro h
            exact (by decide +kernel : ∀ k ∈ keywords, ¬ "Old".toList <:+ k) _ h ⟨_, rfl⟩
  · exact citem_good hg hk d (.table hm) x hx

/-! ## The types that are used -/

/-- every generated type that `x` uses is declared -/
def UsesIn (r : RootObj) (x : Decl) : Prop := ∀ u ∈ x.uses, u ∈ (accessor r).map (·.name)

/-- the references of a list are references to tables -/
def TableRefs (r : RootObj) (d : RefDef) : Prop := ∀ e ∈ d.refs, citemName e.1 ∈ (accessor r).map (·.name) ∧ idsName e.1 ∈ (accessor r).map (·.name)

theorem citemDecls_head (stem : String) (d : ListDef) : citemName stem ∈ (citemDecls stem d).map (·.name) := by
  cases d; simp [citemDecls]

theorem mitemDecls_head (stem : String) (d : ListDef) : mitemName stem ∈ (mitemDecls stem d).map (·.name) := by
  cases d; simp [mitemDecls]

theorem uses_param (stem : String) (isMut : Bool) (n : String) (isOld : Bool) (p : Param) (vt : VType) :
    usesOf stem (paramFns isMut n isOld p vt) = [] := by
  unfold usesOf paramFns
  cases isMut <;> cases hb : byRef (ptype p) <;> simp [hb, fnUses]

theorem cil_subset {n : String} {d : ListDef} {l : List (String × DefVal)} (h : (n, DefVal.cilDef d) ∈ l) : citemDecls n d ⊆ cilDecls l := by
  induction l with
  | nil => cases h
  | cons e l ih =>
    obtain ⟨k, v⟩ := e
    rw [cilDecls]
    rcases List.mem_cons.1 h with he | h
    · cases he
      rw [cilDeclsVal]
      exact List.subset_append_left _ _
    · exact List.Subset.trans (ih h) (List.subset_append_right _ _)

theorem mil_subset {n : String} {d : ListDef} {u : Bool} {l : List (String × DefVal)} (h : (n, DefVal.milDef d u) ∈ l) : mitemDecls n d ⊆ milDecls l := by
  induction l with
  | nil => cases h
  | cons e l ih =>
    obtain ⟨k, v⟩ := e
    rw [milDecls]
    rcases List.mem_cons.1 h with he | h
    · cases he
      rw [milDeclsVal]
      exact List.subset_append_left _ _
    · exact List.Subset.trans (ih h) (List.subset_append_right _ _)

theorem names_mono {a b : List Decl} (h : a ⊆ b) {u : List Char} (hu : u ∈ a.map (·.name)) : u ∈ b.map (·.name) := by
  obtain ⟨x, hx, rfl⟩ := List.mem_map.1 hu
  exact List.mem_map_of_mem (h hx)

theorem refGet_uses {r : RootObj} {stem : String} {d : RefDef} (h : TableRefs r d) {c : Bool} (he : enumDecls stem d c ⊆ accessor r) :
    ∀ u ∈ usesOf stem (refGetFns d), u ∈ (accessor r).map (·.name) := by
  intro u hu
  unfold usesOf refGetFns at hu
  cases hb : d.isEnum with
  | true =>
    rw [hb] at hu
    simp only [if_true, List.flatMap_cons, List.flatMap_nil, fnUses, List.append_nil, List.mem_singleton] at hu
    refine names_mono he ?_
    unfold enumDecls
    rw [hb, hu]
    simp
  | false =>
    rw [hb] at hu
    simp only [Bool.false_eq_true, if_false, List.mem_flatMap] at hu
    obtain ⟨f, ⟨e, hm, hf⟩, hu⟩ := hu
    simp only [List.mem_cons, List.not_mem_nil, or_false] at hf
    rcases hf with rfl | rfl
    · rw [List.mem_singleton.1 hu]; exact (h e hm).1
    · cases hu

theorem refSet_uses {r : RootObj} {stem : String} {d : RefDef} (h : TableRefs r d) (he : enumDecls stem d false ⊆ accessor r) :
    ∀ u ∈ usesOf stem (refSetFns d), u ∈ (accessor r).map (·.name) := by
  intro u hu
  unfold usesOf refSetFns at hu
  cases hb : d.isEnum with
  | true =>
    rw [hb] at hu
    simp only [if_true, List.flatMap_cons, List.flatMap_nil, fnUses, List.append_nil, List.mem_singleton] at hu
    refine names_mono he ?_
    unfold enumDecls
    rw [hb, hu]
    simp
  | false =>
    rw [hb] at hu
    simp only [Bool.false_eq_true, if_false, List.mem_flatMap, List.mem_map] at hu
    obtain ⟨f, ⟨e, hm, rfl⟩, hu⟩ := hu
    rw [List.mem_singleton.1 hu]
    exact (h e hm).2

theorem enum_uses {r : RootObj} {stem : String} {d : RefDef} (h : TableRefs r d) (c : Bool) : ∀ x ∈ enumDecls stem d c, UsesIn r x := by
  intro x hx u hu
  unfold enumDecls at hx
  cases hb : d.isEnum with
  | false => rw [hb] at hx; simp at hx
  | true =>
    rw [hb, if_pos rfl] at hx
    rcases List.mem_cons.1 hx with rfl | hx
    · obtain ⟨e, hm, rfl⟩ := List.mem_map.1 hu
      exact (h e hm).1
    · cases c with
      | true => simp at hx
      | false =>
        simp only [Bool.false_eq_true, if_false, List.mem_singleton] at hx
        subst hx
        obtain ⟨e, hm, rfl⟩ := List.mem_map.1 hu
        exact (h e hm).2

theorem usesOf_append (stem : String) (a b : List Fn) : usesOf stem (a ++ b) = usesOf stem a ++ usesOf stem b := by
  simp [usesOf]

theorem usesOf_flatMap {α : Type} (stem : String) (l : List α) (f : α → List Fn) : usesOf stem (l.flatMap f) = l.flatMap fun x => usesOf stem (f x) := by
  simp [usesOf, List.flatMap_assoc]

mutual
theorem citem_uses {r : RootObj} (hr : ∀ d, HasDef r d → TableRefs r d.refs) {stem : String} :
    (d : ListDef) → HasDef r d → citemDecls stem d ⊆ accessor r → ∀ x ∈ citemDecls stem d, UsesIn r x
  | .mk members refs old, hd, hs => by
    intro x hx
    have h := hr _ hd
    have hs' := hs
    rw [citemDecls] at hx hs'
    have hc : cilDecls members ⊆ accessor r := fun y hy => hs' (by simp [hy])
    have he : enumDecls stem refs true ⊆ accessor r := fun y hy => hs' (by simp [hy])
    rcases List.mem_cons.1 hx with rfl | hx
    · intro u hu
      simp only at hu
      unfold citemFns at hu
      rw [← List.singleton_append, usesOf_append, usesOf_append, usesOf_flatMap] at hu
      rcases List.mem_append.1 hu with hu | hu
      · cases hu
      · rcases List.mem_append.1 hu with hu | hu
        · obtain ⟨⟨k, v⟩, hm, hu⟩ := List.mem_flatMap.1 hu
          cases v with
          | param p vt =>
            unfold citemMemberFns at hu
            rw [uses_param] at hu
            cases hu
          | cilDef d' =>
            rw [List.mem_singleton.1 hu]
            exact names_mono (List.Subset.trans (cil_subset hm) hc) (citemDecls_head k d')
          | milDef d' b => cases hu
        · exact refGet_uses h he u hu
    · rcases List.mem_append.1 hx with hx | hx
      · exact cil_uses hr members (fun k d' hk => .cil hd hk) hc x hx
      · exact enum_uses h true x hx
theorem cil_uses {r : RootObj} (hr : ∀ d, HasDef r d → TableRefs r d.refs) : (l : List (String × DefVal)) →
    (∀ k d', (k, DefVal.cilDef d') ∈ l → HasDef r d') → cilDecls l ⊆ accessor r → ∀ x ∈ cilDecls l, UsesIn r x
  | [], _, _ => by intro x hx; simp [cilDecls] at hx
  | (n, v) :: l, hd, hs => by
    intro x hx
    rw [cilDecls] at hx hs
    rcases List.mem_append.1 hx with hx | hx
    · exact cilVal_uses hr v (fun d' hv => hd n d' (by simp [hv])) (fun y hy => hs (by simp [hy])) x hx
    · exact cil_uses hr l (fun k d' hk => hd k d' (by simp [hk])) (fun y hy => hs (by simp [hy])) x hx
theorem cilVal_uses {r : RootObj} (hr : ∀ d, HasDef r d → TableRefs r d.refs) {n : String} : (v : DefVal) → (∀ d', v = .cilDef d' → HasDef r d') →
    cilDeclsVal n v ⊆ accessor r → ∀ x ∈ cilDeclsVal n v, UsesIn r x
  | .cilDef d, h, hs => by
    intro x hx
    rw [cilDeclsVal] at hx hs
    exact citem_uses hr d (h d rfl) hs x hx
  | .milDef _ _, _, _ => by intro x hx; simp [cilDeclsVal] at hx
  | .param _ _, _, _ => by intro x hx; simp [cilDeclsVal] at hx
end

mutual
theorem mitem_uses {r : RootObj} (hr : ∀ d, HasDef r d → TableRefs r d.refs) {stem : String} :
    (d : ListDef) → HasDef r d → mitemDecls stem d ⊆ accessor r → ∀ x ∈ mitemDecls stem d, UsesIn r x
  | .mk members refs old, hd, hs => by
    intro x hx
    have h := hr _ hd
    have hs' := hs
    rw [mitemDecls] at hx hs'
    have hc : milDecls members ⊆ accessor r := fun y hy => hs' (by simp [hy])
    have he : enumDecls stem refs false ⊆ accessor r := fun y hy => hs' (by simp [hy])
    rcases List.mem_cons.1 hx with rfl | hx
    · intro u hu
      simp only at hu
      unfold mitemFns at hu
      rw [← List.singleton_append, usesOf_append, usesOf_append, usesOf_append, usesOf_flatMap] at hu
      rcases List.mem_append.1 hu with hu | hu
      · cases hu
      · rcases List.mem_append.1 hu with hu | hu
        · rcases List.mem_append.1 hu with hu | hu
          · obtain ⟨⟨k, v⟩, hm, hu⟩ := List.mem_flatMap.1 hu
            cases v with
            | param p vt =>
              unfold mitemMemberFns at hu
              rw [uses_param] at hu
              cases hu
            | cilDef d' => cases hu
            | milDef d' b =>
              have hu' : u = mitemName k := by
                simp only [usesOf, mitemMemberFns, List.flatMap_cons, List.flatMap_nil, fnUses, List.append_nil, List.cons_append,
                  List.nil_append, List.mem_cons, List.not_mem_nil, or_false, or_self] at hu
                exact hu
              rw [hu']
              exact names_mono (List.Subset.trans (mil_subset hm) hc) (mitemDecls_head k d')
          · exact refGet_uses h he u hu
        · exact refSet_uses h he u hu
    · rcases List.mem_append.1 hx with hx | hx
      · exact mil_uses hr members (fun k d' b hk => .mil hd hk) hc x hx
      · exact enum_uses h false x hx
theorem mil_uses {r : RootObj} (hr : ∀ d, HasDef r d → TableRefs r d.refs) : (l : List (String × DefVal)) →
    (∀ k d' b, (k, DefVal.milDef d' b) ∈ l → HasDef r d') → milDecls l ⊆ accessor r → ∀ x ∈ milDecls l, UsesIn r x
  | [], _, _ => by intro x hx; simp [milDecls] at hx
  | (n, v) :: l, hd, hs => by
    intro x hx
    rw [milDecls] at hx hs
    rcases List.mem_append.1 hx with hx | hx
    · exact milVal_uses hr v (fun d' b hv => hd n d' b (by simp [hv])) (fun y hy => hs (by simp [hy])) x hx
    · exact mil_uses hr l (fun k d' b hk => hd k d' b (by simp [hk])) (fun y hy => hs (by simp [hy])) x hx
theorem milVal_uses {r : RootObj} (hr : ∀ d, HasDef r d → TableRefs r d.refs) {n : String} : (v : DefVal) →
    (∀ d' b, v = .milDef d' b → HasDef r d') → milDeclsVal n v ⊆ accessor r → ∀ x ∈ milDeclsVal n v, UsesIn r x
  | .milDef d b, h, hs => by
    intro x hx
    rw [milDeclsVal] at hx hs
    exact mitem_uses hr d (h d b rfl) hs x hx
  | .cilDef _, _, _ => by intro x hx; simp [milDeclsVal] at hx
  | .param _ _, _, _ => by intro x hx; simp [milDeclsVal] at hx
end

theorem member_subset {r : RootObj} {e : String × RootVal} (h : e ∈ r.defs) : rootMemberDecls e ⊆ accessor r := by
  intro x hx
  unfold accessor
  exact List.mem_cons_of_mem _ (List.mem_flatMap.2 ⟨e, h, hx⟩)

/-- **C69: what is used is declared**, if every reference is a reference to a table. -/
theorem C69_used_partial {r : RootObj} (hr : ∀ d, HasDef r d → ∀ e ∈ d.refs.refs, ∃ td list old, (e.1, RootVal.table td list old) ∈ r.defs) :
    ∀ x ∈ accessor r, UsesIn r x := by
  have hr' : ∀ d, HasDef r d → TableRefs r d.refs := by
    intro d hd e he
    obtain ⟨td, list, old, hm⟩ := hr d hd e he
    have hs := member_subset hm
    constructor
    · exact names_mono (a := citemDecls e.1 td) (fun y hy => hs (by simp [rootMemberDecls, tableDecls, hy])) (citemDecls_head e.1 td)
    · exact names_mono hs (by simp [rootMemberDecls, tableDecls])
  intro x hx
  unfold accessor at hx
  rcases List.mem_cons.1 hx with rfl | hx
  · intro u hu
    simp only at hu
    unfold rootFns at hu
    rw [usesOf_append, usesOf_flatMap] at hu
    rcases List.mem_append.1 hu with hu | hu
    · simp [usesOf, fnUses] at hu
    · obtain ⟨⟨k, v⟩, hm, hu⟩ := List.mem_flatMap.1 hu
      have hs := member_subset hm
      cases v with
      | param p vt =>
        unfold rootMemberFns at hu
        simp only at hu
        rw [uses_param] at hu
        cases hu
      | table d l o =>
        rw [List.mem_singleton.1 hu]
        exact names_mono hs (by simp [rootMemberDecls, tableDecls])
      | clist d l =>
        rw [List.mem_singleton.1 hu]
        exact names_mono hs (citemDecls_head k d)
      | mlist d b =>
        have hu' : u = mitemName k := by
          simp only [usesOf, rootMemberFns, List.flatMap_cons, List.flatMap_nil, fnUses, List.append_nil, List.cons_append,
            List.nil_append, List.mem_cons, List.not_mem_nil, or_false, or_self] at hu
          exact hu
        rw [hu']
        exact names_mono hs (mitemDecls_head k d)
  · obtain ⟨⟨k, v⟩, hm, hx⟩ := List.mem_flatMap.1 hx
    have hs := member_subset hm
    cases v with
    | param p vt => simp [rootMemberDecls] at hx
    | table d l o =>
      have hc : citemDecls k d ⊆ accessor r := fun y hy => hs (by simp [rootMemberDecls, tableDecls, hy])
      simp only [rootMemberDecls, tableDecls] at hx
      rcases List.mem_append.1 hx with hx | hx
      · simp only [List.mem_cons, List.not_mem_nil, or_false] at hx
        rcases hx with rfl | rfl
        · intro u hu
          have hu' : u = citemName k ∨ u = idsName k := by
            simp only [usesOf, tableFns, List.flatMap_cons, List.flatMap_append, List.flatMap_assoc, fnUses, List.nil_append,
              List.mem_append, List.mem_flatMap] at hu
            rcases hu with ⟨e, _, hu⟩ | ⟨f, hf, hu⟩
            · simp at hu
              tauto
            · split at hf
              · cases hf
              · simp only [List.mem_cons, List.not_mem_nil, or_false] at hf
                rcases hf with rfl | rfl <;> cases hu
          rcases hu' with rfl | rfl
          · exact names_mono hc (citemDecls_head k d)
          · exact names_mono hs (by simp [rootMemberDecls, tableDecls])
        · intro u hu; cases hu
      · exact citem_uses hr' d (.table hm) hc x hx
    | clist d l => exact citem_uses hr' d (.clist hm) hs x hx
    | mlist d u => exact mitem_uses hr' d (.mlist hm) hs x hx

/-- **C69** for names that do not clash and references to tables: every name is declared once, and is an identifier, and every type that is
used is declared. -/
theorem C69_declarable_partial {r : RootObj} (h : Good r) : Declarable (accessor r) := by
  have hd : ∀ x ∈ accessor r, GoodDecl x := by
    intro x hx
    unfold accessor at hx
    rcases List.mem_cons.1 hx with rfl | hx
    · exact itemDecl_good (fixed_ident (by simp)) (rootFns_nodup h) (rootFns_idents h)
    · obtain ⟨⟨k, v⟩, hm, hx⟩ := List.mem_flatMap.1 hx
      have hk := (h.members _ hm).ident
      cases v with
      | param p vt => simp [rootMemberDecls] at hx
      | table d l o => exact table_good h hm x hx
      | clist d l => exact citem_good h hk d (.clist hm) x hx
      | mlist d u => exact mitem_good h hk d (.mlist hm) x hx
  exact ⟨(C69_types r).2 ⟨h.const, h.mutable, h.enums⟩, fun d hx => (hd d hx).fns, fun d hx => (hd d hx).variants,
    fun d hx => (hd d hx).inhabited, fun d hx => (hd d hx).typeIdents, fun d hx => (hd d hx).fnIdents, fun d hx => (hd d hx).variantIdents,
    C69_used_partial h.refs⟩

end Verif.Intf
