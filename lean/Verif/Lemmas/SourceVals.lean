import Verif.Lemmas.SourceItems
/-! # Lemmas about scalars and arrays of the source -/
namespace Verif.Source
open Diff Core

/-- an element of an array of a kind and what is read of it -/
def Elem : AType → JVal → Param → Prop
  | .float, v, p => ∃ f, FloatElem v f ∧ p = .float (.val f)
  | _, v, p => ∃ i, v = .int i ∧ p = .int (.val i)

theorem arrayNull_float {tag : Tag} {vt vt' : VType} {r : List JVal} {f : BitVec 64} (h : arrayNull tag vt r = .ok (.param (.float (.val f)) vt')) :
    tag = .float ∧ (r = [.double f] ∨ ∃ i, r = [.int i] ∧ f = i64ToF64 i) := by
  unfold arrayNull at h
  split at h
  · split at h <;> cases h
  · split at h <;> cases h
  · split at h
    · rename_i ht; cases h; exact ⟨ht, .inr ⟨_, rfl, rfl⟩⟩
    · cases h
  · split at h
    · rename_i ht; cases h; exact ⟨ht, .inl rfl⟩
    · cases h
  · cases h

theorem toParam_not_float {q : Qv (List Param)} {t : AType} {f : Qv (BitVec 64)} : toParam q t ≠ some (.float f) := by
  intro h
  cases t <;> simp only [toParam, Option.map_eq_some_iff] at h <;> obtain ⟨_, _, h⟩ := h <;> cases h

theorem intoList_not_param {env : Env} {tag : Tag} {vt vt' : VType} {t : TmpList} {p : Param} : intoList env tag vt t ≠ .ok (.param p vt') := by
  intro h
  unfold intoList at h
  split at h
  · split at h
    · unfold intoConstList at h; split at h
      · obtain ⟨_, _, h⟩ := map_inv h; cases h
      · cases h
    · unfold intoConstData at h; split at h
      · obtain ⟨_, _, h⟩ := map_inv h; cases h
      · cases h
    · unfold intoMutList at h; split at h
      · obtain ⟨_, _, h⟩ := map_inv h; cases h
      · cases h
    · unfold intoInnerList at h; split at h
      · obtain ⟨_, _, h⟩ := map_inv h; cases h
      · cases h
    · unfold intoMutInnerList at h; split at h
      · obtain ⟨_, _, h⟩ := map_inv h; cases h
      · cases h
    · unfold intoInnerDef at h; split at h <;> cases h
    · unfold intoInnerMutDef at h; split at h <;> cases h
    · cases h
  · split at h
    · unfold intoInnerMutDef at h; split at h <;> cases h
    · unfold intoMutList at h; split at h
      · obtain ⟨_, _, h⟩ := map_inv h; cases h
      · cases h
    · cases h
  · cases h

/-- the name of a tag -/
def tagName : Tag → String
  | .at .int => "IntArray"
  | .at .float => "FloatArray"
  | .at .binary => "Binary"
  | .int => "Int"
  | .float => "Float"
  | .str => "Str"
  | .bool => "Bool"
  | .clist => "CList"
  | .table => "Table"
  | .mlist => "MList"
  | .cil => "Cil"
  | .mil => "Mil"
  | .cilDef => "CilDef"
  | .milDef => "MilDef"
  | .milUndef => "__InnerMutUndefined"

theorem tagOf_name {s : String} {t : Tag} (h : tagOf s = some t) : s = tagName t := by
  unfold tagOf at h
  by_cases e : s = "IntArray"
  · rw [if_pos e] at h; cases h; exact e
  rw [if_neg e] at h; clear e
  by_cases e : s = "FloatArray"
  · rw [if_pos e] at h; cases h; exact e
  rw [if_neg e] at h; clear e
  by_cases e : s = "Binary"
  · rw [if_pos e] at h; cases h; exact e
  rw [if_neg e] at h; clear e
  by_cases e : s = "Int"
  · rw [if_pos e] at h; cases h; exact e
  rw [if_neg e] at h; clear e
  by_cases e : s = "Float"
  · rw [if_pos e] at h; cases h; exact e
  rw [if_neg e] at h; clear e
  by_cases e : s = "Str"
  · rw [if_pos e] at h; cases h; exact e
  rw [if_neg e] at h; clear e
  by_cases e : s = "Bool"
  · rw [if_pos e] at h; cases h; exact e
  rw [if_neg e] at h; clear e
  by_cases e : s = "CList"
  · rw [if_pos e] at h; cases h; exact e
  rw [if_neg e] at h; clear e
  by_cases e : s = "Table"
  · rw [if_pos e] at h; cases h; exact e
  rw [if_neg e] at h; clear e
  by_cases e : s = "MList"
  · rw [if_pos e] at h; cases h; exact e
  rw [if_neg e] at h; clear e
  by_cases e : s = "Cil"
  · rw [if_pos e] at h; cases h; exact e
  rw [if_neg e] at h; clear e
  by_cases e : s = "Mil"
  · rw [if_pos e] at h; cases h; exact e
  rw [if_neg e] at h; clear e
  by_cases e : s = "CilDef"
  · rw [if_pos e] at h; cases h; exact e
  rw [if_neg e] at h; clear e
  by_cases e : s = "MilDef"
  · rw [if_pos e] at h; cases h; exact e
  rw [if_neg e] at h; clear e
  by_cases e : s = "__InnerMutUndefined"
  · rw [if_pos e] at h; cases h; exact e
  rw [if_neg e] at h; clear e
  cases h

theorem tagOf_tagName (t : Tag) : tagOf (tagName t) = some t := by
  cases t with
  | «at» t => cases t <;> decide
  | _ => decide

theorem tagOf_inj {s s' : String} {t : Tag} (h : tagOf s = some t) (h' : tagOf s' = some t) : s = s' := by
  rw [tagOf_name h, tagOf_name h']

/-- what an array is, if a scalar or an array of numbers is read of it -/
theorem arrayVal_param {env : Env} {vt vt' : VType} {a : List JVal} {p : Param} (h : arrayVal env vt a = .ok (.param p vt')) :
    vt' = vt ∧ ((∃ s t r q, a = .string s :: r ∧ tagOf s = some (.at t) ∧ elements env t r.length r = .ok q ∧ toParam q t = some p) ∨
      (∃ s tag r, a = .string s :: r ∧ tagOf s = some tag ∧ (tag = .int ∨ tag = .float ∨ tag = .str ∨ tag = .bool) ∧
        arrayNull tag vt r = .ok (.param p vt)) ∨
      (∃ i r q, a = .int i :: r ∧ elements env .int (r.length + 1) r = .ok q ∧ toParam (pushParam (.int (.val i)) q) .int = some p)) := by
  have nul : ∀ {tag r}, arrayNull tag vt r = .ok (.param p vt') → vt' = vt := by
    intro tag r h
    unfold arrayNull at h
    split at h
    · split at h <;> cases h <;> rfl
    · split at h <;> cases h <;> rfl
    · split at h <;> cases h; rfl
    · split at h <;> cases h; rfl
    · cases h
  cases a with
  | nil => simp only [arrayVal] at h; cases h
  | cons x r =>
    cases x with
    | string s =>
      simp only [arrayVal] at h
      cases ht : tagOf s with
      | none => rw [ht] at h; cases h
      | some tag =>
        rw [ht] at h
        cases tag with
        | «at» t =>
          obtain ⟨q, hq, h⟩ := bind_inv h
          cases hp : toParam q t with
          | none => rw [hp] at h; cases h
          | some p' => rw [hp] at h; cases h; exact ⟨rfl, .inl ⟨s, t, r, q, rfl, ht, hq, hp⟩⟩
        | int => have e := nul h; subst e; exact ⟨rfl, .inr (.inl ⟨s, _, r, rfl, ht, .inl rfl, h⟩)⟩
        | float => have e := nul h; subst e; exact ⟨rfl, .inr (.inl ⟨s, _, r, rfl, ht, .inr (.inl rfl), h⟩)⟩
        | str => have e := nul h; subst e; exact ⟨rfl, .inr (.inl ⟨s, _, r, rfl, ht, .inr (.inr (.inl rfl)), h⟩)⟩
        | bool => have e := nul h; subst e; exact ⟨rfl, .inr (.inl ⟨s, _, r, rfl, ht, .inr (.inr (.inr rfl)), h⟩)⟩
        | milUndef => cases h
        | _ =>
          simp only at h
          split at h
          · obtain ⟨_, _, h⟩ := bind_inv h; exact absurd h intoList_not_param
          · cases h
    | int i =>
      simp only [arrayVal] at h
      obtain ⟨q, hq, h⟩ := bind_inv h
      cases hp : toParam (pushParam (.int (.val i)) q) .int with
      | none => rw [hp] at h; cases h
      | some p' => rw [hp] at h; cases h; exact ⟨rfl, .inr (.inr ⟨i, r, q, rfl, hq, hp⟩)⟩
    | _ => simp only [arrayVal] at h; cases h

theorem tag_float : tagOf "Float" = some .float := by decide

theorem arrayVal_float {env : Env} {vt vt' : VType} {a : List JVal} {f : BitVec 64} (h : arrayVal env vt a = .ok (.param (.float (.val f)) vt')) :
    FloatElem (.array a) f := by
  obtain ⟨_, h⟩ := arrayVal_param h
  rcases h with ⟨_, _, _, _, _, _, _, h⟩ | ⟨s, tag, r, rfl, ht, _, h⟩ | ⟨_, _, _, _, _, h⟩
  · exact absurd h toParam_not_float
  · obtain ⟨hf, hr⟩ := arrayNull_float h
    rw [hf] at ht
    have hs := tagOf_inj ht tag_float
    subst hs
    clear h
    rcases hr with rfl | ⟨i, rfl, rfl⟩
    · exact .taggedDouble f
    · exact .taggedInt i
  · exact absurd h toParam_not_float

theorem elements_of (env : Env) (t : AType) (n : Nat) {r : List JVal} {ps : List Param} (h : List.Forall₂ (Elem t) r ps) :
    elements env t n r = .ok (.val ps) := by
  induction h with
  | nil => simp [elements]
  | @cons v p r ps hv _ ih =>
    cases t with
    | float =>
      obtain ⟨f, hf, rfl⟩ := hv
      cases hf with
      | double => simp [elements, ih, pushParam]
      | int i => simp [elements, ih, pushParam]
      | taggedDouble => simp [elements, arrayVal, tag_float, arrayNull, innerFloat, ih, pushParam]
      | taggedInt i => simp [elements, arrayVal, tag_float, arrayNull, innerFloat, ih, pushParam]
    | int => obtain ⟨i, rfl, rfl⟩ := hv; simp [elements, ih, pushParam]
    | binary => obtain ⟨i, rfl, rfl⟩ := hv; simp [elements, ih, pushParam]

theorem elements_ok (env : Env) (t : AType) (n : Nat) : ∀ (r : List JVal) {q : Qv (List Param)}, r.length ≤ n → elements env t n r = .ok q →
    (∃ ps, q = .val ps ∧ List.Forall₂ (Elem t) r ps) ∨ (n = 1 ∧ r = [.null] ∧ q = .null) ∨ (n = 1 ∧ r = [.undef] ∧ q = .undef)
  | [], q, _, h => by simp only [elements, Res.ok.injEq] at h; exact .inl ⟨[], h.symm, .nil⟩
  | v :: r, q, hn, h => by
    simp only [List.length_cons] at hn
    have step : ∀ {p}, Elem t v p → (elements env t n r).map (pushParam p) = .ok q → ∃ ps, q = .val ps ∧ List.Forall₂ (Elem t) (v :: r) ps := by
      intro p hp h
      obtain ⟨q', hq, rfl⟩ := map_inv h
      rcases elements_ok env t n r (by omega) hq with ⟨ps, rfl, hps⟩ | ⟨h1, rfl, _⟩ | ⟨h1, rfl, _⟩
      · exact ⟨p :: ps, rfl, .cons hp hps⟩
      · simp at hn; omega
      · simp at hn; omega
    cases v with
    | double f =>
      simp only [elements] at h
      split at h
      · rename_i ht; subst ht; exact .inl (step ⟨f, .double f, rfl⟩ h)
      · cases h
    | int i =>
      simp only [elements] at h
      refine .inl (step ?_ h)
      cases t
      · exact ⟨_, .int i, by simp⟩
      · exact ⟨i, rfl, by simp⟩
      · exact ⟨i, rfl, by simp⟩
    | null =>
      simp only [elements] at h
      split at h
      · rename_i h1; cases h
        refine .inr (.inl ⟨h1, ?_, rfl⟩)
        rw [List.eq_nil_of_length_eq_zero (by omega : r.length = 0)]
      · cases h
    | undef =>
      simp only [elements] at h
      split at h
      · rename_i h1; cases h
        refine .inr (.inr ⟨h1, ?_, rfl⟩)
        rw [List.eq_nil_of_length_eq_zero (by omega : r.length = 0)]
      · cases h
    | array a =>
      simp only [elements] at h
      split at h
      · rename_i ht; subst ht
        obtain ⟨x, hx, h⟩ := bind_inv h
        obtain ⟨p, hp, h⟩ := bind_inv h
        unfold innerFloat at hp
        split at hp
        · cases hp; exact .inl (step ⟨_, arrayVal_float hx, rfl⟩ h)
        · cases hp
      · cases h
    | bool _ => simp only [elements] at h; cases h
    | string _ => simp only [elements] at h; cases h
    | map _ => simp only [elements] at h; cases h

/-! ## Conversion of the elements -/

theorem floats_inv {r : List JVal} {ps : List Param} (h : List.Forall₂ (Elem .float) r ps) :
    ∃ l, collectOpt toFloat ps = some l ∧ List.Forall₂ FloatElem r l := by
  induction h with
  | nil => exact ⟨[], rfl, .nil⟩
  | cons hv _ ih =>
    obtain ⟨f, hf, rfl⟩ := hv
    obtain ⟨l, h1, h2⟩ := ih
    exact ⟨f :: l, by simp [collectOpt, toFloat, h1], .cons hf h2⟩

theorem ints_inv {t : AType} (ht : t ≠ .float) {r : List JVal} {ps : List Param} (h : List.Forall₂ (Elem t) r ps) :
    ∃ l : List Int, r = l.map .int ∧ ps = l.map fun i => .int (.val i) := by
  induction h with
  | nil => exact ⟨[], rfl, rfl⟩
  | @cons v p r ps hv _ ih =>
    have hv : ∃ i, v = JVal.int i ∧ p = Param.int (.val i) := by cases t <;> first | exact absurd rfl ht | exact hv
    obtain ⟨i, rfl, rfl⟩ := hv
    obtain ⟨l, rfl, rfl⟩ := ih
    exact ⟨i :: l, rfl, rfl⟩

theorem ints_of {t : AType} (ht : t ≠ .float) : ∀ l : List Int, List.Forall₂ (Elem t) (l.map .int) (l.map fun i => .int (.val i))
  | [] => .nil
  | i :: l => .cons (by cases t <;> first | exact absurd rfl ht | exact ⟨i, rfl, rfl⟩) (ints_of ht l)

theorem floats_of {r : List JVal} {l : List (BitVec 64)} (h : List.Forall₂ FloatElem r l) :
    List.Forall₂ (Elem .float) r (l.map fun f => .float (.val f)) := by
  induction h with
  | nil => exact .nil
  | cons hv _ ih => exact .cons ⟨_, hv, rfl⟩ ih

theorem collect_ints : ∀ l : List Int, collectOpt toInt (l.map fun i => .int (.val i)) = some l
  | [] => rfl
  | i :: l => by simp [collectOpt, toInt, collect_ints l]

theorem collect_floats : ∀ l : List (BitVec 64), collectOpt toFloat (l.map fun f => .float (.val f)) = some l
  | [] => rfl
  | i :: l => by simp [collectOpt, toFloat, collect_floats l]

theorem u8_ofNat (b : UInt8) : UInt8.ofNat b.toNat = b := by simp

theorem collect_u8s : ∀ l : List UInt8, collectOpt toU8 (l.map fun b => .int (.val (b.toNat : Int))) = some l
  | [] => rfl
  | b :: l => by
    have hb : (b.toNat : Int) < 256 := by have := b.toNat_lt; omega
    simp [collectOpt, toU8, hb, collect_u8s l]

theorem collect_u8_inv : ∀ (l : List Int) {bs : List UInt8}, collectOpt toU8 (l.map fun i => .int (.val i)) = some bs →
    l = bs.map fun b => (b.toNat : Int)
  | [], bs, h => by cases h; rfl
  | i :: l, bs, h => by
    simp only [List.map_cons, collectOpt, toU8] at h
    split at h
    · cases h
    · rename_i y hy
      simp only [Option.map_eq_some_iff] at h
      obtain ⟨bs', h1, rfl⟩ := h
      split at hy
      · rename_i hi
        cases hy
        rw [List.map_cons, ← collect_u8_inv l h1]
        congr 1
        have : i.toNat < 256 := by omega
        simp [UInt8.toNat_ofNat', Nat.mod_eq_of_lt this, hi.1]
      · cases hy

end Verif.Source
