import Verif.Spec.Diff
import Verif.Model.DiffApply
import Verif.Lemmas.SourceItems
import Verif.Lemmas.DiffRoot
import Verif.Lemmas.DiffNamedSame
/-!
# Diffs that were read have the types of their columns

By id. Nothing is assumed about the values that are read.
-/
namespace Verif.Diff
open VarInt Codec Compaction LinkedMap Source

/-- the type of a parameter, without sizes -/
def ParamTy (pt : PType) (vt : VType) (p : Param) : Prop := p.ptype = pt ∧ vt.Allows p.qvType

section
variable {S X D : Type}

def CellTy (ok : S → X → Prop) : Option (Col S) → Option (Cell X) → Prop
  | _, none => True
  | some (.param pt vt), some (.param p) => ParamTy pt vt p
  | some (.mlist s), some (.mil (some x)) => ok s x
  | some (.optMil _), some (.mil none) => True
  | some (.optMil s), some (.mil (some x)) => ok s x
  | _, _ => False

def RowTy (ok : S → X → Prop) (tb : Table S) (r : Row X) : Prop :=
  (∀ i, CellTy ok (entry tb.items i) (entry r.values i)) ∧ ∀ i q, entry r.refs i = some q → ∃ vt, tb.refs[i]? = some vt ∧ vt.Allows q.type

def ListTy (ok : S → X → Prop) (tb : Table S) (l : SList (Row X)) : Prop := l.ids.Nodup ∧ ∀ x ∈ l.items, RowTy ok tb x.2

/-- the diff of a member fits its column -/
def ListDTy (ok : S → D → Prop) : Option (Col S) → Option D → Prop
  | some (.mlist s), some d => ok s d
  | some (.optMil _), none => True
  | some (.optMil s), some d => ok s d
  | _, _ => False

def ParamsTy (cols : List (Option (Col S))) (ps : List (Nat × Param)) : Prop :=
  ∀ x ∈ ps, ∃ pt vt, entry cols x.1 = some (.param pt vt) ∧ ParamTy pt vt x.2

def ListsTy (ok : S → D → Prop) (cols : List (Option (Col S))) (ls : List (Nat × Option D)) : Prop :=
  ∀ x ∈ ls, ListDTy ok (entry cols x.1) x.2

def RowDTy (ok : S → D → Prop) (tb : Table S) (d : RowDiff D) : Prop :=
  ParamsTy tb.items d.params ∧ ListsTy ok tb.items d.lists ∧ ∀ x ∈ d.refs, ∃ vt, tb.refs[x.1]? = some vt ∧ vt.Allows x.2.type

def ItemDTy (ok : S → D → Prop) (tb : Table S) : ItemDiff D → Prop
  | .delete => True
  | .create _ d => RowDTy ok tb d
  | .modify d => RowDTy ok tb d

end

def ObjTy : (n : Nat) → Sch n → Obj n → Prop
  | 0 => fun s _ => nomatch s
  | n + 1 => fun s l => ListTy (ObjTy n) s l

def DiffTy : (n : Nat) → Sch n → DiffT n → Prop
  | 0 => fun s _ => nomatch s
  | n + 1 => fun s d => ∀ x ∈ d.items, ItemDTy (DiffTy n) s x.2

def RootTy (n : Nat) (sch : RootSch n) (r : Root n) : Prop :=
  (∀ i, CellTy (ObjTy n) (entry sch i) (entry r i)) ∧
  ∀ i s, entry sch i = some (.mlist s) ∨ entry sch i = some (.optMil s) → entry r i ≠ none

def RootDTy (n : Nat) (sch : RootSch n) (d : RootDiff (DiffT n)) : Prop := ParamsTy sch d.params ∧ ListsTy (DiffTy n) sch d.lists

/-! ## Reading -/

section
variable {σ α β : Type}

/-- every value that can be read satisfies `P` -/
def Yields (r : Rd σ α) (P : α → Prop) : Prop := ∀ inp a rest, r inp = .ok (a, rest) → P a

theorem Yields.pure {P : α → Prop} {a : α} (h : P a) : Yields (σ := σ) (Rd.pure a) P := by
  intro inp b rest hb; cases hb; exact h

theorem Yields.fail {P : α → Prop} : Yields (σ := σ) (Rd.fail) P := by intro inp b rest hb; cases hb

theorem Yields.panic {P : α → Prop} : Yields (σ := σ) (fun _ => .panic) P := by intro inp b rest hb; cases hb

theorem Yields.bind {r : Rd σ α} {f : α → Rd σ β} {Q : α → Prop} {P : β → Prop} (hr : Yields r Q) (hf : ∀ a, Q a → Yields (f a) P) :
    Yields (Rd.bind r f) P := by
  intro inp b rest hb
  unfold Rd.bind at hb
  obtain ⟨p, h1, h2⟩ := bind_inv hb
  exact hf p.1 (hr inp p.1 p.2 h1) p.2 b rest h2

theorem Yields.bind' {r : Rd σ α} {f : α → Rd σ β} {P : β → Prop} (hf : ∀ a, Yields (f a) P) : Yields (Rd.bind r f) P :=
  Yields.bind (Q := fun _ => True) (fun _ _ _ _ => trivial) fun a _ => hf a

theorem Yields.mono {r : Rd σ α} {P Q : α → Prop} (h : Yields r P) (hpq : ∀ a, P a → Q a) : Yields r Q :=
  fun inp a rest h' => hpq a (h inp a rest h')

theorem Yields.times {r : Rd σ α} {P : α → Prop} (h : Yields r P) : ∀ n, Yields (readTimes r n) fun l => ∀ a ∈ l, P a
  | 0 => Yields.pure (by simp)
  | n + 1 => by
    refine Yields.bind h fun a ha => Yields.bind (Yields.times h n) fun l hl => Yields.pure fun x hx => ?_
    rcases List.mem_cons.mp hx with rfl | hx
    · exact ha
    · exact hl x hx

end

section
variable {α : Type} {f : Nat → Rd KVal (Option α)} {P : Nat × α → Prop}

theorem here_of {id : Nat} {a : Option α} (h : ∀ x, a = some x → P (id, x)) : ∀ x ∈ a.toList.map (fun a => (id, a)), P x := by
  cases a with
  | none => simp
  | some a => simpa using h a rfl

theorem Yields.flagLoop (hf : ∀ id, Yields (f id) fun a => ∀ x, a = some x → P (id, x)) (bits offset : Nat) :
    ∀ n flag index, Yields (Diff.flagLoop bits offset f n flag index) fun l => ∀ x ∈ l, P x
  | 0, _, _ => Yields.pure (by simp)
  | n + 1, flag, index => by
    rw [Diff.flagLoop]
    refine Yields.bind (Q := fun a => ∀ x, a = some x → P (index + offset, x)) ?_ fun a ha => ?_
    · split
      · exact hf _
      · exact Yields.pure (by simp)
    · dsimp only
      split
      · exact Yields.pure (here_of ha)
      · refine Yields.bind (Yields.flagLoop hf bits offset n _ _) fun l hl => Yields.pure fun x hx => ?_
        rcases List.mem_append.mp hx with hx | hx
        · exact here_of ha x hx
        · exact hl x hx

theorem Yields.readWord (hf : ∀ id, Yields (f id) fun a => ∀ x, a = some x → P (id, x)) (bits offset : Nat) :
    Yields (Diff.readWord bits offset f) fun l => ∀ x ∈ l, P x := Yields.flagLoop hf bits offset 64 1 0

theorem Yields.readWords64 (hf : ∀ id, Yields (f id) fun a => ∀ x, a = some x → P (id, x)) :
    ∀ bs offset, Yields (Diff.readWords64 f bs offset) fun l => ∀ x ∈ l, P x
  | [], _ => Yields.pure (by simp)
  | b :: bs, offset => by
    rw [Diff.readWords64]
    refine Yields.bind (Yields.readWord hf b offset) fun xs hxs => Yields.bind (Yields.readWords64 hf bs _) fun ys hys => Yields.pure fun x hx => ?_
    rcases List.mem_append.mp hx with hx | hx
    · exact hxs x hx
    · exact hys x hx

theorem Yields.readNumbers (hf : ∀ id, Yields (f id) fun a => ∀ x, a = some x → P (id, x)) :
    ∀ ids, Yields (Diff.readNumbers f ids) fun l => ∀ x ∈ l, P x
  | [] => Yields.pure (by simp)
  | id :: ids => by
    rw [Diff.readNumbers]
    refine Yields.bind (hf id) fun a ha => Yields.bind (Yields.readNumbers hf ids) fun ys hys => Yields.pure fun x hx => ?_
    rcases List.mem_append.mp hx with hx | hx
    · exact here_of ha x hx
    · exact hys x hx

end

theorem readParam2_ty (F : FloatOps) (pt : PType) : Yields (readParam2 F pt) fun p => p.ptype = pt ∧ p.qvType = .val := by
  cases pt <;> (rw [readParam2]; exact Yields.bind' fun _ => Yields.pure ⟨rfl, rfl⟩)

theorem readQv_ty {α : Type} {vt : VType} {value : Rd KVal α} {null undef : α} {P : α → Prop} (hv : Yields value P)
    (hn : vt.Allows .null → P null) (hu : vt.Allows .undef → P undef) : Yields (readQv vt value null undef) P := by
  cases vt <;> unfold readQv <;> dsimp only
  · exact hv
  · refine Yields.bind' fun b => ?_
    split
    · exact hv
    · exact Yields.pure (hn trivial)
  · refine Yields.bind' fun b => ?_
    split
    · exact hv
    · exact Yields.pure (hu trivial)
  · refine Yields.bind' fun b => ?_
    split
    · exact hv
    · refine Yields.bind' fun c => ?_
      split
      · exact Yields.pure (hn trivial)
      · exact Yields.pure (hu trivial)

theorem allows_val (vt : VType) : vt.Allows .val := by cases vt <;> trivial

theorem readParam_ty (F : FloatOps) (pt : PType) (vt : VType) : Yields (readParam F pt vt) (ParamTy pt vt) := by
  refine readQv_ty ?_ ?_ ?_
  · exact (readParam2_ty F pt).mono fun p h => ⟨h.1, h.2 ▸ allows_val vt⟩
  · intro h; cases pt <;> exact ⟨rfl, h⟩
  · intro h; cases pt <;> exact ⟨rfl, h⟩

theorem readARef_ty (vt : VType) : Yields (readARef vt) fun q => vt.Allows q.type :=
  readQv_ty (Yields.bind' fun _ => Yields.pure (allows_val vt)) id id

section
variable {S D : Type}

theorem readAParam_ty (F : FloatOps) (cols : List (Option (Col S))) (id : Nat) :
    Yields (readAParam F cols id) fun a => ∀ p, a = some p → ∃ pt vt, entry cols id = some (.param pt vt) ∧ ParamTy pt vt p := by
  unfold readAParam
  split
  · rename_i pt vt h
    exact Yields.bind (readParam_ty F pt vt) fun p hp => Yields.pure fun q hq => by cases hq; exact ⟨pt, vt, h, hp⟩
  · exact Yields.pure fun p h => by cases h

theorem readAParamStrict_ty (F : FloatOps) (cols : List (Option (Col S))) (id : Nat) :
    Yields (readAParamStrict F cols id) fun a => ∀ p, a = some p → ∃ pt vt, entry cols id = some (.param pt vt) ∧ ParamTy pt vt p := by
  unfold readAParamStrict
  split
  · rename_i pt vt h
    exact Yields.bind (readParam_ty F pt vt) fun p hp => Yields.pure fun q hq => by cases hq; exact ⟨pt, vt, h, hp⟩
  · exact Yields.fail

theorem readAList_ty {ok : S → D → Prop} {rl : S → Rd KVal D} (hl : ∀ s, Yields (rl s) (ok s)) (cols : List (Option (Col S))) (id : Nat) :
    Yields (readAList rl cols id) fun a => ∀ d, a = some d → ListDTy ok (entry cols id) d := by
  unfold readAList
  cases entry cols id with
  | none => exact Yields.panic
  | some c =>
    cases c with
    | param pt vt => exact Yields.pure fun p h => by cases h
    | mlist s => exact Yields.bind (hl s) fun d hd => Yields.pure fun x hx => by cases hx; exact hd
    | optMil s =>
      refine Yields.bind' fun b => ?_
      split
      · exact Yields.bind (hl s) fun d hd => Yields.pure fun x hx => by cases hx; exact hd
      · exact Yields.pure fun x hx => by cases hx; trivial

theorem readAListNumber_ty {ok : S → D → Prop} {rl : S → Rd KVal D} (hl : ∀ s, Yields (rl s) (ok s)) (cols : List (Option (Col S))) (id : Nat) :
    Yields (readAListNumber rl cols id) fun a => ∀ d, a = some d → ListDTy ok (entry cols id) d := by
  unfold readAListNumber
  cases entry cols id with
  | none => exact Yields.pure fun p h => by cases h
  | some c =>
    cases c with
    | param pt vt => exact Yields.pure fun p h => by cases h
    | mlist s => exact Yields.bind (hl s) fun d hd => Yields.pure fun x hx => by cases hx; exact hd
    | optMil s =>
      refine Yields.bind' fun b => ?_
      split
      · exact Yields.bind (hl s) fun d hd => Yields.pure fun x hx => by cases hx; exact hd
      · exact Yields.pure fun x hx => by cases hx; trivial

theorem readARefAt_ty (metas : List VType) (id : Nat) :
    Yields (readARefAt metas id) fun a => ∀ q, a = some q → ∃ vt, metas[id]? = some vt ∧ vt.Allows q.type := by
  unfold readARefAt
  split
  · rename_i vt h
    exact Yields.bind (readARef_ty vt) fun q hq => Yields.pure fun x hx => by cases hx; exact ⟨vt, h, hq⟩
  · exact Yields.panic

theorem readRefs_ty (metas : List VType) :
    Yields (readRefs metas) fun l => ∀ x ∈ l, ∃ vt, metas[x.1]? = some vt ∧ vt.Allows x.2.type := by
  refine Yields.bind' fun ids => ?_
  have hf : ∀ id, Yields (readARefAt metas id) fun a => ∀ x, a = some x →
      (fun x : Nat × Qv String => ∃ vt, metas[x.1]? = some vt ∧ vt.Allows x.2.type) (id, x) := fun id => readARefAt_ty metas id
  cases ids with
  | zero => exact Yields.pure (by simp)
  | u64 b => exact Yields.readWord hf b 0
  | bits bs => exact Yields.readWords64 hf bs 0
  | numbers n => exact Yields.readNumbers hf n

theorem readListItem2_ty (F : FloatOps) {ok : S → D → Prop} {rl : S → Rd KVal D} (hl : ∀ s, Yields (rl s) (ok s)) (tb : Table S) :
    Yields (readListItem2 F rl tb) (RowDTy ok tb) := by
  refine Yields.bind' fun ids => ?_
  have hp : ∀ id, Yields (readAParam F tb.items id) fun a => ∀ x, a = some x →
      (fun x : Nat × Param => ∃ pt vt, entry tb.items x.1 = some (.param pt vt) ∧ ParamTy pt vt x.2) (id, x) := readAParam_ty F tb.items
  have hp' : ∀ id, Yields (readAParamStrict F tb.items id) fun a => ∀ x, a = some x →
      (fun x : Nat × Param => ∃ pt vt, entry tb.items x.1 = some (.param pt vt) ∧ ParamTy pt vt x.2) (id, x) := readAParamStrict_ty F tb.items
  have h1 : ∀ id, Yields (readAList rl tb.items id) fun a => ∀ x, a = some x →
      (fun x : Nat × Option D => ListDTy ok (entry tb.items x.1) x.2) (id, x) := readAList_ty hl tb.items
  have h2 : ∀ id, Yields (readAListNumber rl tb.items id) fun a => ∀ x, a = some x →
      (fun x : Nat × Option D => ListDTy ok (entry tb.items x.1) x.2) (id, x) := readAListNumber_ty hl tb.items
  have hr := readRefs_ty tb.refs
  cases ids with
  | zero => exact Yields.bind hr fun r hr => Yields.pure ⟨fun x hx => (by cases hx), fun x hx => (by cases hx), hr⟩
  | u64 b =>
    exact Yields.bind (Yields.readWord hp b 0) fun p hp => Yields.bind (Yields.readWord h1 b 0) fun l hl => Yields.bind hr fun r hr =>
      Yields.pure ⟨hp, hl, hr⟩
  | bits bs =>
    exact Yields.bind (Yields.readWords64 hp bs 0) fun p hp => Yields.bind (Yields.readWords64 h1 bs 0) fun l hl => Yields.bind hr fun r hr =>
      Yields.pure ⟨hp, hl, hr⟩
  | numbers n =>
    exact Yields.bind (Yields.readNumbers hp' n) fun p hp => Yields.bind (Yields.readNumbers h2 n) fun l hl => Yields.bind hr fun r hr =>
      Yields.pure ⟨hp, hl, hr⟩

theorem readListItem_ty (F : FloatOps) {ok : S → D → Prop} {rl : S → Rd KVal D} (hl : ∀ s, Yields (rl s) (ok s)) (tb : Table S) :
    Yields (readListItem F rl tb) (ItemDTy ok tb) := by
  have h := readListItem2_ty F hl tb
  refine Yields.bind' fun b => ?_
  split
  · exact Yields.bind h fun d hd => Yields.pure hd
  · refine Yields.bind' fun c => ?_
    split
    · refine Yields.bind' fun p => ?_
      split
      · exact Yields.bind' fun _ => Yields.bind h fun d hd => Yields.pure hd
      · exact Yields.bind h fun d hd => Yields.pure hd
    · exact Yields.pure trivial

theorem readList_ty (F : FloatOps) {ok : S → D → Prop} {rl : S → Rd KVal D} (hl : ∀ s, Yields (rl s) (ok s)) (tb : Table S) :
    Yields (readList F rl tb) fun d => ∀ x ∈ d.items, ItemDTy ok tb x.2 := by
  refine Yields.bind' fun len => Yields.bind' fun next => ?_
  refine Yields.bind (Q := fun l : List (Nat × ItemDiff D) => ∀ x ∈ l, ItemDTy ok tb x.2) ?_ fun l hl => Yields.pure hl
  exact Yields.times (P := fun x : Nat × ItemDiff D => ItemDTy ok tb x.2)
    (Yields.bind' fun id => Yields.bind (readListItem_ty F hl tb) fun d hd => Yields.pure hd) len

end

theorem readListN_ty (F : FloatOps) : ∀ (n : Nat) (s : Sch n), Yields (readListN F n s) (DiffTy n s)
  | 0, s => nomatch s
  | n + 1, s => readList_ty F (readListN_ty F n) s

/-- What is read has the types of the columns. -/
theorem readRoot_ty (F : FloatOps) (n : Nat) (sch : RootSch n) : Yields (readRoot F n sch) (RootDTy n sch) := by
  refine Yields.bind' fun ids => ?_
  have hp : ∀ id, Yields (readAParam F sch id) fun a => ∀ x, a = some x →
      (fun x : Nat × Param => ∃ pt vt, entry sch x.1 = some (.param pt vt) ∧ ParamTy pt vt x.2) (id, x) := readAParam_ty F sch
  have h1 : ∀ id, Yields (readAList (readListN F n) sch id) fun a => ∀ x, a = some x →
      (fun x : Nat × Option (DiffT n) => ListDTy (DiffTy n) (entry sch x.1) x.2) (id, x) := readAList_ty (readListN_ty F n) sch
  have h2 : ∀ id, Yields (readAListNumber (readListN F n) sch id) fun a => ∀ x, a = some x →
      (fun x : Nat × Option (DiffT n) => ListDTy (DiffTy n) (entry sch x.1) x.2) (id, x) := readAListNumber_ty (readListN_ty F n) sch
  cases ids with
  | zero => exact Yields.pure ⟨fun x hx => (by cases hx), fun x hx => (by cases hx)⟩
  | u64 b => exact Yields.bind (Yields.readWord hp b 0) fun p hp => Yields.bind (Yields.readWord h1 b 0) fun l hl => Yields.pure ⟨hp, hl⟩
  | bits bs => exact Yields.bind (Yields.readWords64 hp bs 0) fun p hp => Yields.bind (Yields.readWords64 h1 bs 0) fun l hl => Yields.pure ⟨hp, hl⟩
  | numbers n => exact Yields.bind (Yields.readNumbers hp n) fun p hp => Yields.bind (Yields.readNumbers h2 n) fun l hl => Yields.pure ⟨hp, hl⟩

/-! ## Applying -/

theorem entry_set_any {α : Type} (l : List (Option α)) (i j : Nat) (c : α) :
    entry (l.set i (some c)) j = if i = j ∧ i < l.length then some c else entry l j := by
  unfold entry
  rw [List.getElem?_set]
  by_cases h : i = j
  · subst h
    by_cases h2 : i < l.length
    · simp [h2]
    · simp [h2]
  · simp [h]

section
variable {S X D : Type} {ok : S → X → Prop} {dok : S → D → Prop}

theorem cellsTy_set {cols : List (Option (Col S))} {v : List (Option (Cell X))} (h : ∀ i, CellTy ok (entry cols i) (entry v i)) {id : Nat}
    {c : Cell X} (hc : CellTy ok (entry cols id) (some c)) : ∀ i, CellTy ok (entry cols i) (entry (v.set id (some c)) i) := by
  intro i
  rw [entry_set_any]
  split
  · rename_i hi; rw [← hi.1]; exact hc
  · exact h i

theorem applyParams_ty {cols : List (Option (Col S))} : ∀ {ps : List (Nat × Param)} {v w : List (Option (Cell X))}, ParamsTy cols ps →
    (∀ i, CellTy ok (entry cols i) (entry v i)) → applyParams cols ps v = .ok w → ∀ i, CellTy ok (entry cols i) (entry w i)
  | [], v, w, _, h, hw => by cases hw; exact h
  | (id, p) :: ps, v, w, hp, h, hw => by
    obtain ⟨pt, vt, he, ht⟩ := hp (id, p) List.mem_cons_self
    dsimp only at he ht
    rw [applyParams, he] at hw
    refine applyParams_ty (fun x hx => hp x (List.mem_cons_of_mem _ hx)) (cellsTy_set h ?_) hw
    rw [he]; exact ht

theorem applyRootParams_ty {cols : List (Option (Col S))} : ∀ {ps : List (Nat × Param)} {v w : List (Option (Cell X))}, ParamsTy cols ps →
    (∀ i, CellTy ok (entry cols i) (entry v i)) → applyRootParams cols ps v = .ok w →
    (∀ i, CellTy ok (entry cols i) (entry w i)) ∧ ∀ i, entry w i = none → entry v i = none
  | [], v, w, _, h, hw => by cases hw; exact ⟨h, fun _ h => h⟩
  | (id, p) :: ps, v, w, hp, h, hw => by
    obtain ⟨pt, vt, he, ht⟩ := hp (id, p) List.mem_cons_self
    dsimp only at he ht
    rw [applyRootParams, he] at hw
    obtain ⟨h1, h2⟩ := applyRootParams_ty (fun x hx => hp x (List.mem_cons_of_mem _ hx)) (cellsTy_set h (by rw [he]; exact ht)) hw
    refine ⟨h1, fun i hi => ?_⟩
    have := h2 i hi
    rw [entry_set_any] at this
    split at this
    · cases this
    · exact this

theorem applyList_ty {ad : S → X → D → Res X} {dn : S → D → Res X} (ha : ∀ s x d y, ok s x → dok s d → ad s x d = .ok y → ok s y)
    (hd : ∀ s d y, dok s d → dn s d = .ok y → ok s y) {c : Option (Col S)} {s : S} (hs : c.bind Col.tables = some s) {cur : Option (Cell X)}
    (hcur : CellTy ok c cur) {d : Option D} (hdd : ListDTy dok c d) {r : Cell X} (h : applyList ad dn s cur d = .ok r) :
    CellTy ok c (some r) := by
  cases c with
  | none => cases hs
  | some c =>
    unfold applyList at h
    cases d with
    | none =>
      cases h
      cases c with
      | param => cases hs
      | mlist s' => cases hdd
      | optMil s' => trivial
    | some d =>
      have hok : dok s d ∧ ∀ x, CellTy ok (some c) (some (.mil (some x))) ↔ ok s x := by
        cases c with
        | param => cases hs
        | mlist s' => cases hs; exact ⟨hdd, fun x => Iff.rfl⟩
        | optMil s' => cases hs; exact ⟨hdd, fun x => Iff.rfl⟩
      have hnew : (dn s d).map (fun l => Cell.mil (some l)) = .ok r → CellTy ok (some c) (some r) := by
        intro h
        obtain ⟨y, hy, rfl⟩ := map_inv h
        exact (hok.2 _).2 (hd s d y hok.1 hy)
      dsimp only at h
      split at h
      · rename_i m
        obtain ⟨y, hy, rfl⟩ := map_inv h
        exact (hok.2 _).2 (ha s m d y ((hok.2 _).1 hcur) hok.1 hy)
      · exact hnew h

theorem applyLists_ty {ad : S → X → D → Res X} {dn : S → D → Res X} (ha : ∀ s x d y, ok s x → dok s d → ad s x d = .ok y → ok s y)
    (hd : ∀ s d y, dok s d → dn s d = .ok y → ok s y) {cols : List (Option (Col S))} :
    ∀ {ls : List (Nat × Option D)} {v w : List (Option (Cell X))}, ListsTy dok cols ls → (∀ i, CellTy ok (entry cols i) (entry v i)) →
      applyLists ad dn cols ls v = .ok w → ∀ i, CellTy ok (entry cols i) (entry w i)
  | [], v, w, _, h, hw => by cases hw; exact h
  | (id, d) :: ls, v, w, hl, h, hw => by
    rw [applyLists] at hw
    cases hs : (entry cols id).bind Col.tables with
    | none => rw [hs] at hw; cases hw
    | some s =>
      rw [hs] at hw
      obtain ⟨c, hc, hw⟩ := bind_inv hw
      exact applyLists_ty ha hd (fun x hx => hl x (List.mem_cons_of_mem _ hx))
        (cellsTy_set h (applyList_ty ha hd hs (h id) (hl (id, d) List.mem_cons_self) hc)) hw

theorem applyRootList_inv {ad : S → X → D → Res X} {dn : S → D → Res X} {s : S} {cur : Option (Cell X)} {d : Option D} {c : Cell X}
    (h : applyRootList ad dn s cur d = .ok c) : applyList ad dn s cur d = .ok c := by
  unfold applyRootList at h
  unfold applyList
  split at h
  · rename_i m
    split at h <;> exact h
  · cases h

theorem applyRootLists_ty {ad : S → X → D → Res X} {dn : S → D → Res X} (ha : ∀ s x d y, ok s x → dok s d → ad s x d = .ok y → ok s y)
    (hd : ∀ s d y, dok s d → dn s d = .ok y → ok s y) {cols : List (Option (Col S))} :
    ∀ {ls : List (Nat × Option D)} {v w : List (Option (Cell X))}, ListsTy dok cols ls → (∀ i, CellTy ok (entry cols i) (entry v i)) →
      applyRootLists ad dn cols ls v = .ok w → (∀ i, CellTy ok (entry cols i) (entry w i)) ∧ ∀ i, entry w i = none → entry v i = none
  | [], v, w, _, h, hw => by cases hw; exact ⟨h, fun _ h => h⟩
  | (id, d) :: ls, v, w, hl, h, hw => by
    rw [applyRootLists] at hw
    cases hs : (entry cols id).bind Col.tables with
    | none => rw [hs] at hw; cases hw
    | some s =>
      rw [hs] at hw
      obtain ⟨c, hc, hw⟩ := bind_inv hw
      obtain ⟨h1, h2⟩ := applyRootLists_ty ha hd (fun x hx => hl x (List.mem_cons_of_mem _ hx))
        (cellsTy_set h (applyList_ty ha hd hs (h id) (hl (id, d) List.mem_cons_self) (applyRootList_inv hc))) hw
      refine ⟨h1, fun i hi => ?_⟩
      have := h2 i hi
      rw [entry_set_any] at this
      split at this
      · cases this
      · exact this

theorem applyRefs_ty {metas : List VType} : ∀ {rs : List (Nat × Qv String)} {v w : List (Option (Qv String))},
    (∀ x ∈ rs, ∃ vt, metas[x.1]? = some vt ∧ vt.Allows x.2.type) → (∀ i q, entry v i = some q → ∃ vt, metas[i]? = some vt ∧ vt.Allows q.type) →
    applyRefs metas rs v = .ok w → ∀ i q, entry w i = some q → ∃ vt, metas[i]? = some vt ∧ vt.Allows q.type
  | [], v, w, _, h, hw => by cases hw; exact h
  | (id, q) :: rs, v, w, hr, h, hw => by
    obtain ⟨vt, he, ht⟩ := hr (id, q) List.mem_cons_self
    dsimp only at he ht
    rw [applyRefs, he] at hw
    refine applyRefs_ty (fun x hx => hr x (List.mem_cons_of_mem _ hx)) (fun i q' hq => ?_) hw
    rw [entry_set_any] at hq
    split at hq
    · rename_i hi; cases hq; rw [← hi.1]; exact ⟨vt, he, ht⟩
    · exact h i q' hq

theorem modifyItem_ty {ad : S → X → D → Res X} {dn : S → D → Res X} (ha : ∀ s x d y, ok s x → dok s d → ad s x d = .ok y → ok s y)
    (hd : ∀ s d y, dok s d → dn s d = .ok y → ok s y) {tb : Table S} {r r' : Row X} {d : RowDiff D} (hr : RowTy ok tb r) (hdd : RowDTy dok tb d)
    (h : modifyItem ad dn tb r d = .ok r') : RowTy ok tb r' := by
  unfold modifyItem at h
  obtain ⟨v, h1, h⟩ := bind_inv h
  obtain ⟨w, h2, h⟩ := bind_inv h
  obtain ⟨q, h3, rfl⟩ := map_inv h
  exact ⟨applyLists_ty ha hd hdd.2.1 (applyParams_ty hdd.1 hr.1 h1) h2, applyRefs_ty hdd.2.2 hr.2 h3⟩

theorem entry_replicate {α : Type} (n i : Nat) : entry (List.replicate n (none : Option α)) i = none := by
  unfold entry
  cases h : (List.replicate n (none : Option α))[i]? with
  | none => rfl
  | some x => have := List.eq_of_mem_replicate (List.mem_of_getElem? h); subst this; rfl

theorem newItem_ty {ad : S → X → D → Res X} {dn : S → D → Res X} (ha : ∀ s x d y, ok s x → dok s d → ad s x d = .ok y → ok s y)
    (hd : ∀ s d y, dok s d → dn s d = .ok y → ok s y) {tb : Table S} {r' : Row X} {d : RowDiff D} (hdd : RowDTy dok tb d)
    (h : newItemFromDiff ad dn tb d = .ok r') : RowTy ok tb r' := by
  refine modifyItem_ty ha hd ⟨fun i => ?_, fun i q hq => ?_⟩ hdd h
  · rw [entry_replicate]; cases entry tb.items i with
    | none => trivial
    | some c => cases c <;> trivial
  · rw [entry_replicate] at hq; cases hq

end

section
variable {V : Type}

theorem mem_putAfter {id : Nat} {x y : Nat × V} {l : List (Nat × V)} (h : y ∈ putAfter id x l) : y = x ∨ y ∈ l := by
  unfold putAfter at h
  obtain ⟨z, hz, h⟩ := List.mem_flatMap.mp h
  split at h
  · rcases List.mem_cons.mp h with rfl | h
    · exact .inr hz
    · exact .inl (List.mem_singleton.mp h)
  · rw [List.mem_singleton.mp h]; exact .inr hz

theorem find_inv {l : SList V} {id : Nat} {x : Nat × V} (h : l.find id = some x) : x ∈ l.items ∧ x.1 = id := by
  unfold SList.find at h
  exact ⟨List.mem_of_find?_eq_some h, by simpa using List.find?_some h⟩

theorem putAfter_nodup {id : Nat} {x : Nat × V} : ∀ {l : List (Nat × V)}, (l.map (·.1)).Nodup → x.1 ∉ l.map (·.1) →
    ((putAfter id x l).map (·.1)).Nodup
  | [], _, _ => by simp [putAfter]
  | y :: l, h, hx => by
    rw [List.map_cons, List.nodup_cons] at h
    rw [List.map_cons, List.mem_cons, not_or] at hx
    have hr := putAfter_nodup (id := id) (x := x) h.2 hx.2
    have hy : ∀ z ∈ putAfter id x l, z.1 ≠ y.1 := by
      intro z hz
      rcases mem_putAfter hz with rfl | hz
      · exact hx.1
      · intro he; exact h.1 (List.mem_map.mpr ⟨z, hz, he⟩)
    have hy' : y.1 ∉ (putAfter id x l).map (·.1) := by
      intro hm; obtain ⟨z, hz, he⟩ := List.mem_map.mp hm; exact hy z hz he
    unfold putAfter at hr hy' ⊢
    rw [List.flatMap_cons]
    split
    · rename_i he
      -- behind `y`, no other item has the id
      have hnone : l.flatMap (fun y => if y.1 = id then [y, x] else [y]) = l := by
        have : ∀ z ∈ l, (if z.1 = id then [z, x] else [z]) = [z] := by
          intro z hz
          rw [if_neg]
          intro hz'
          exact h.1 (List.mem_map.mpr ⟨z, hz, by rw [hz', he]⟩)
        clear hr hy hy' h hx
        induction l with
        | nil => rfl
        | cons a l ih =>
          rw [List.flatMap_cons, this a List.mem_cons_self, ih fun z hz => this z (List.mem_cons_of_mem _ hz)]
          rfl
      rw [hnone]
      simp only [List.cons_append, List.nil_append, List.map_cons, List.nodup_cons, List.mem_cons, not_or]
      exact ⟨⟨fun he => hx.1 he.symm, h.1⟩, hx.2, h.2⟩
    · simp only [List.cons_append, List.nil_append, List.map_cons, List.nodup_cons]
      exact ⟨hy', hr⟩

theorem without_nodup {l : SList V} (h : l.ids.Nodup) (id : Nat) : ((l.without id).map (·.1)).Nodup :=
  h.sublist (List.Sublist.map _ List.filter_sublist)

theorem not_mem_without (l : SList V) (id : Nat) : id ∉ (l.without id).map (·.1) := by
  intro h
  obtain ⟨x, hx, he⟩ := List.mem_map.mp h
  have := (List.mem_filter.mp hx).2
  simp [he] at this

end

section
variable {S X D : Type} {ok : S → X → Prop} {dok : S → D → Prop}

theorem applyItem_ty {ad : S → X → D → Res X} {dn : S → D → Res X} (ha : ∀ s x d y, ok s x → dok s d → ad s x d = .ok y → ok s y)
    (hd : ∀ s d y, dok s d → dn s d = .ok y → ok s y) {tb : Table S} {l l' : SList (Row X)} {x : Nat × ItemDiff D} (hl : ListTy ok tb l)
    (hx : ItemDTy dok tb x.2) (h : applyItem ad dn tb l x = .ok l') : ListTy ok tb l' := by
  obtain ⟨id, x⟩ := x
  unfold applyItem at h
  cases x with
  | delete =>
    cases h
    exact ⟨without_nodup hl.1 id, fun y hy => hl.2 y (List.mem_filter.mp hy).1⟩
  | modify d =>
    dsimp only at h hx
    cases hf : l.find id with
    | none => rw [hf] at h; cases h
    | some y =>
      rw [hf] at h
      dsimp only at h
      obtain ⟨row, hr, rfl⟩ := map_inv h
      have hrow := modifyItem_ty ha hd (hl.2 y (find_inv hf).1) hx hr
      refine ⟨?_, fun z hz => ?_⟩
      · have : ((l.step (.setItem id row)).1).ids = l.ids := by
          unfold SList.ids SList.step
          rw [List.map_map]
          apply List.map_congr_left
          intro a _
          dsimp only [Function.comp]
          split <;> rfl
        rw [this]; exact hl.1
      · obtain ⟨a, ha, rfl⟩ := List.mem_map.mp hz
        split
        · exact hrow
        · exact hl.2 a ha
  | create prev d =>
    dsimp only at h hx
    obtain ⟨row, hr, h⟩ := bind_inv h
    have hrow := newItem_ty ha hd hx hr
    by_cases hin : id ∈ l.ids
    · rw [show l.step (.insertFirstWithId id row) = (l, .bool false) by simp [SList.step, hin]] at h
      cases h
    · rw [show l.step (.insertFirstWithId id row) = (⟨(id, row) :: l.items, l.nextId⟩, .bool true) by simp [SList.step, hin]] at h
      dsimp only at h
      have h0 : ListTy ok tb ⟨(id, row) :: l.items, l.nextId⟩ := by
        refine ⟨List.nodup_cons.mpr ⟨hin, hl.1⟩, fun z hz => ?_⟩
        rcases List.mem_cons.mp hz with rfl | hz
        · exact hrow
        · exact hl.2 z hz
      cases prev with
      | none => cases h; exact h0
      | some p =>
        dsimp only at h
        generalize hl0 : (⟨(id, row) :: l.items, l.nextId⟩ : SList (Row X)) = l0 at h h0
        unfold SList.step at h
        dsimp only at h
        cases hf : l0.find id with
        | none => rw [hf] at h; cases h
        | some y =>
          rw [hf] at h
          dsimp only at h
          split at h
          · rename_i l1 heq
            cases h
            split at heq
            · injection heq with h1 h2
              subst h1
              obtain ⟨hm, he⟩ := find_inv hf
              refine ⟨putAfter_nodup (without_nodup h0.1 id) (by rw [he]; exact not_mem_without l0 id), fun z hz => ?_⟩
              rcases mem_putAfter hz with rfl | hz
              · exact h0.2 z hm
              · exact h0.2 z (List.mem_filter.mp hz).1
            · injection heq with h1 h2; cases h2
          · cases h

theorem applyItems_ty {ad : S → X → D → Res X} {dn : S → D → Res X} (ha : ∀ s x d y, ok s x → dok s d → ad s x d = .ok y → ok s y)
    (hd : ∀ s d y, dok s d → dn s d = .ok y → ok s y) {tb : Table S} : ∀ {xs : List (Nat × ItemDiff D)} {l l' : SList (Row X)}, ListTy ok tb l →
    (∀ x ∈ xs, ItemDTy dok tb x.2) → applyItems ad dn tb xs l = .ok l' → ListTy ok tb l'
  | [], l, l', hl, _, h => by cases h; exact hl
  | x :: xs, l, l', hl, hx, h => by
    rw [applyItems] at h
    obtain ⟨l1, h1, h⟩ := bind_inv h
    exact applyItems_ty ha hd (applyItem_ty ha hd hl (hx x List.mem_cons_self) h1) (fun y hy => hx y (List.mem_cons_of_mem _ hy)) h

end

theorem applyN_ty : ∀ n, (∀ s d y, DiffTy n s d → (applyN n).1 s d = .ok y → ObjTy n s y) ∧
    ∀ s x d y, ObjTy n s x → DiffTy n s d → (applyN n).2 s x d = .ok y → ObjTy n s y
  | 0 => ⟨fun s => (nomatch s), fun s => (nomatch s)⟩
  | n + 1 => by
    obtain ⟨h1, h2⟩ := applyN_ty n
    refine ⟨fun s d y hd h => ?_, fun s x d y hx hd h => ?_⟩
    · exact applyItems_ty (ok := ObjTy n) (dok := DiffTy n) h2 h1 (l := ⟨[], d.next⟩) ⟨List.nodup_nil, fun x hx => (by cases hx)⟩ hd h
    · exact applyItems_ty (ok := ObjTy n) (dok := DiffTy n) h2 h1 (l := ⟨x.items, d.next⟩) hx hd h

/-- Applying a diff of the right types keeps the types. -/
theorem applyRootDiff_ty {n : Nat} {sch : RootSch n} {r r' : Root n} {d : RootDiff (DiffT n)} (hr : RootTy n sch r) (hd : RootDTy n sch d)
    (h : applyRootDiff n sch r d = .ok r') : RootTy n sch r' := by
  unfold applyRootDiff at h
  obtain ⟨v, h1, h2⟩ := bind_inv h
  obtain ⟨a1, a2⟩ := applyRootParams_ty hd.1 hr.1 h1
  obtain ⟨b1, b2⟩ := applyRootLists_ty (applyN_ty n).2 (applyN_ty n).1 hd.2 a1 h2
  exact ⟨b1, fun i s hs hn => hr.2 i s hs (a2 i (b2 i hn))⟩

end Verif.Diff
