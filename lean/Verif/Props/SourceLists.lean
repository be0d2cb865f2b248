import Verif.Lemmas.SourceVals
import Verif.Lemmas.SourceMembers
import Verif.Lemmas.SourceRoot
import Verif.Props.Source
import Verif.Props.LinkedMap
/-! # C60–C63: what is loaded of the lists and the values of a source -/
namespace Verif.Source
open Diff Core

/-! ## C60: the ids of a mutable list -/

theorem mutList_of_item {env : Env} {vt : VType} {a : List JVal} {l : MutList}
    (h : (∃ d u, item env vt (.array a) = .ok (.mlist d u (some l))) ∨ item env vt (.array a) = .ok (.mil (some l))) :
    ∃ s r t, a = .string s :: r ∧ (s = "MList" ∨ s = "Mil") ∧ list env {} r = .ok t ∧ mutList env t = .ok l := by
  simp only [item] at h
  have main : ∀ x, arrayVal env vt a = .ok x → ((∃ d u, x = .mlist d u (some l)) ∨ x = .mil (some l)) →
      ∃ s r t, a = .string s :: r ∧ (s = "MList" ∨ s = "Mil") ∧ list env {} r = .ok t ∧ mutList env t = .ok l := by
    intro x h hx
    cases a with
    | nil => simp only [arrayVal] at h; cases h
    | cons y r =>
      cases y with
      | string s =>
        simp only [arrayVal] at h
        have nul : ∀ {tag}, arrayNull tag vt r ≠ .ok x := by
          intro tag h
          unfold arrayNull at h
          split at h
          · split at h <;> cases h <;> rcases hx with ⟨_, _, hx⟩ | hx <;> cases hx
          · split at h <;> cases h <;> rcases hx with ⟨_, _, hx⟩ | hx <;> cases hx
          · split at h <;> cases h; rcases hx with ⟨_, _, hx⟩ | hx <;> cases hx
          · split at h <;> cases h; rcases hx with ⟨_, _, hx⟩ | hx <;> cases hx
          · cases h
        cases ht : tagOf s with
        | none => rw [ht] at h; cases h
        | some tag =>
          rw [ht] at h
          have fin : ∀ t, list env {} r = .ok t → intoList env tag vt t = .ok x →
              ∃ s' r' t, JVal.string s :: r = .string s' :: r' ∧ (s' = "MList" ∨ s' = "Mil") ∧ list env {} r' = .ok t ∧ mutList env t = .ok l := by
            intro t hl hi
            have sol : mutList env t = .ok l → (tag = .mlist ∨ tag = .mil) →
                ∃ s' r' t, JVal.string s :: r = .string s' :: r' ∧ (s' = "MList" ∨ s' = "Mil") ∧ list env {} r' = .ok t ∧ mutList env t = .ok l := by
              intro hm htag
              refine ⟨s, r, t, rfl, ?_, hl, hm⟩
              rcases htag with rfl | rfl
              · exact .inl (tagOf_name ht)
              · exact .inr (tagOf_name ht)
            unfold intoList at hi
            split at hi
            · split at hi
              · unfold intoConstList at hi; split at hi
                · obtain ⟨_, _, rfl⟩ := map_inv hi; rcases hx with ⟨_, _, hx⟩ | hx <;> cases hx
                · cases hi
              · unfold intoConstData at hi; split at hi
                · obtain ⟨_, _, rfl⟩ := map_inv hi; rcases hx with ⟨_, _, hx⟩ | hx <;> cases hx
                · cases hi
              · unfold intoMutList at hi; split at hi
                · obtain ⟨_, hm, rfl⟩ := map_inv hi
                  rcases hx with ⟨_, _, hx⟩ | hx <;> cases hx
                  exact sol hm (.inl rfl)
                · cases hi
              · unfold intoInnerList at hi; split at hi
                · obtain ⟨_, _, rfl⟩ := map_inv hi; rcases hx with ⟨_, _, hx⟩ | hx <;> cases hx
                · cases hi
              · unfold intoMutInnerList at hi; split at hi
                · obtain ⟨_, hm, rfl⟩ := map_inv hi
                  rcases hx with ⟨_, _, hx⟩ | hx <;> cases hx
                  exact sol hm (.inr rfl)
                · cases hi
              · unfold intoInnerDef at hi; split at hi <;> cases hi; rcases hx with ⟨_, _, hx⟩ | hx <;> cases hx
              · unfold intoInnerMutDef at hi; split at hi <;> cases hi; rcases hx with ⟨_, _, hx⟩ | hx <;> cases hx
              · cases hi
            · split at hi
              · unfold intoInnerMutDef at hi; split at hi <;> cases hi; rcases hx with ⟨_, _, hx⟩ | hx <;> cases hx
              · unfold intoMutList at hi; split at hi
                · obtain ⟨_, hm, rfl⟩ := map_inv hi
                  rcases hx with ⟨_, _, hx⟩ | hx <;> cases hx
                  exact sol hm (.inl rfl)
                · cases hi
              · cases hi
            · cases hi
          cases tag with
          | «at» t =>
            obtain ⟨q, hq, h⟩ := bind_inv h
            split at h <;> cases h
            rcases hx with ⟨_, _, hx⟩ | hx <;> cases hx
          | int => exact absurd h nul
          | float => exact absurd h nul
          | str => exact absurd h nul
          | bool => exact absurd h nul
          | milUndef => cases h; rcases hx with ⟨_, _, hx⟩ | hx <;> cases hx
          | _ =>
            simp only at h
            split at h
            · obtain ⟨t, hl, hi⟩ := bind_inv h; exact fin t hl hi
            · cases h
      | int i =>
        simp only [arrayVal] at h
        obtain ⟨q, hq, h⟩ := bind_inv h
        split at h <;> cases h
        rcases hx with ⟨_, _, hx⟩ | hx <;> cases hx
      | _ => simp only [arrayVal] at h; cases h
  rcases h with ⟨d, u, h⟩ | h
  · exact main _ h (.inl ⟨d, u, rfl⟩)
  · exact main _ h (.inr rfl)

/-- **C60, exactly what happens.** The items of a mutable list have the numbers that are given as `ID`, or their places; the next id is
the number that is given as `NextID`, or the number of items. Nothing else is checked. -/
theorem C60_exact (env : Env) (vt : VType) (a : List JVal) (l : MutList)
    (h : (∃ d u, item env vt (.array a) = .ok (.mlist d u (some l))) ∨ item env vt (.array a) = .ok (.mil (some l))) :
    ∃ s as ms, (s = "MList" ∨ s = "Mil") ∧ (∃ r, a = .string s :: r ∧ ListSyntax r as ms) ∧ l.1.length = ms.length ∧
      NextIs as ms.length l.2 ∧ ∀ i m, ms[i]? = some m → ∃ it, l.1[i]? = some it ∧ IdIs m i it.1 := by
  obtain ⟨s, r, t, rfl, hs, hl, hm⟩ := mutList_of_item h
  obtain ⟨as, ms, h1, h2, h3, _⟩ := list_shape env r {} rfl hl
  obtain ⟨h4, h5, h6⟩ := mutList_exact env h2 (h3 rfl) hm
  refine ⟨s, as, ms, hs, ⟨r, rfl, h1⟩, h4, h5, fun i m hi => ?_⟩
  obtain ⟨it, ha, hb, _⟩ := h6 i m hi
  exact ⟨it, ha, hb⟩

theorem SeqIds.fresh {l : MutList} (h : SeqIds l) : FreshIds l := by
  refine ⟨by rw [h.1]; exact List.nodup_range, fun id hid => ?_⟩
  rw [h.1, List.mem_range] at hid
  rw [h.2]; exact hid

/-- All mutable lists inside an item have distinct ids below their next ids. -/
inductive FreshItem : Item → Prop
  | mk {values : List (String × SabVal)} {refs : List (String × Qv String)} :
      (∀ k items, (k, SabVal.cil items) ∈ values → ∀ i ∈ items, FreshItem i) →
      (∀ k items n, (k, SabVal.mil items n) ∈ values → FreshIds (items, n)) →
      (∀ k items n, (k, SabVal.mil items n) ∈ values → ∀ e ∈ items, FreshItem e.2) → FreshItem (.mk values refs)

theorem SeqItem.fresh {i : Item} (h : SeqItem i) : FreshItem i := by
  induction h with
  | mk _ h2 _ ih1 ih3 => exact .mk ih1 (fun k items n hk => (h2 k items n hk).fresh) ih3

theorem insAll_mem {n : String} {id : Nat} {x : RustVal} : ∀ (l : List (String × RustVal)) (c : Nat) (m : AMap (Nat × RustVal)),
    (insAll c l m).get n = some (id, x) → m.get n = some (id, x) ∨ (n, x) ∈ l
  | [], _, _, h => .inl h
  | (k, y) :: r, c, m, h => by
    simp only [insAll] at h
    rcases insAll_mem r (c + 1) _ h with h | h
    · by_cases hk : n = k
      · subst hk
        rw [AMap.get_insert_self] at h
        simp only [Option.some.injEq, Prod.mk.injEq] at h
        rw [h.2]
        exact .inr List.mem_cons_self
      · rw [AMap.get_insert_ne _ _ hk] at h; exact .inl h
    · exact .inr (List.mem_cons_of_mem _ h)

theorem addMembers_sab_mem {n : String} {sab : RootSab} : ∀ (l : List Member) (d : AMap (Nat × RootValI)) (s : AMap RootSab),
    (addMembers l d s).2.get n = some sab → s.get n = some sab ∨ ∃ y, (n, y, some sab) ∈ l
  | [], _, _, h => .inl h
  | (k, y, o) :: r, d, s, h => by
    simp only [addMembers] at h
    rcases addMembers_sab_mem r _ _ h with h | ⟨y', h⟩
    · cases o with
      | none => exact .inl h
      | some q =>
        simp only [putSab] at h
        by_cases hk : n = k
        · subst hk
          rw [AMap.get_insert_self, Option.some.injEq] at h
          rw [← h]
          exact .inr ⟨y, List.mem_cons_self⟩
        · rw [AMap.get_insert_ne _ _ hk] at h; exact .inl h
    · exact .inr ⟨y', List.mem_cons_of_mem _ h⟩

theorem mapDecls_val {m : List (String × JVal)} {l : List Decl} (h : MapDecls m l) : ∀ d ∈ l, ∃ k, (k, d.val) ∈ m := by
  induction h with
  | nil => intro d hd; cases hd
  | member hw _ ih =>
    intro d hd
    rcases List.mem_cons.1 hd with rfl | hd
    · exact ⟨_, List.mem_cons_self⟩
    · obtain ⟨k, hk⟩ := ih d hd; exact ⟨k, List.mem_cons_of_mem _ hk⟩
  | special _ _ ih => intro d hd; obtain ⟨k, hk⟩ := ih d hd; exact ⟨k, List.mem_cons_of_mem _ hk⟩

theorem fileDecls_val {m : List (String × JVal)} {l : List Decl} (h : FileDecls m l) : ∀ d ∈ l, ∃ k, (k, d.val) ∈ m := by
  induction h with
  | nil => intro d hd; cases hd
  | member _ hw _ ih =>
    intro d hd
    rcases List.mem_cons.1 hd with rfl | hd
    · exact ⟨_, List.mem_cons_self⟩
    · obtain ⟨k, hk⟩ := ih d hd; exact ⟨k, List.mem_cons_of_mem _ hk⟩
  | root _ ih => intro d hd; obtain ⟨k, hk⟩ := ih d hd; exact ⟨k, List.mem_cons_of_mem _ hk⟩

/-- where the values and the items of a loaded source come from -/
theorem loaded_from (env : Env) (he : env.Sound) {files : List (String × JVal)} {r : Root} (h : loadDir env files = .ok r) :
    (∀ n sab, r.sabun.get n = some sab → ∃ v vt d u l, ((∃ s, (s, v) ∈ files) ∨ ∃ m k, ("root", .map m) ∈ files ∧ (k, v) ∈ m) ∧
      item env vt v = .ok (.mlist d u l) ∧ sab = .list l) ∧
    (∀ n id y, r.defs.get n = some (id, y) → ∃ v vt x sab, ((∃ s, (s, v) ∈ files) ∨ ∃ m k, ("root", .map m) ∈ files ∧ (k, v) ∈ m) ∧
      item env vt v = .ok x ∧ intoRootVal x = .ok (y, sab)) := by
  obtain ⟨⟨L⟩, _⟩ := loads env he h
  have ofList : ∀ {v vt x y sab}, item env vt v = .ok x → intoRootVal x = .ok (y, some sab) →
      ∃ d u l, item env vt v = .ok (.mlist d u l) ∧ sab = .list l := by
    intro v vt x y sab hx hy
    cases x <;> simp only [intoRootVal, Res.ok.injEq, Prod.mk.injEq, Option.some.injEq, reduceCtorEq, and_false] at hy
    exact ⟨_, _, _, hx, hy.2.symm⟩
  have ofRoot : ∀ {n id x}, L.o.default.get n = some (id, x) → ∃ v vt, (∃ m k, ("root", .map m) ∈ files ∧ (k, v) ∈ m) ∧ item env vt v = .ok x := by
    intro n id x hx
    rw [L.ins] at hx
    rcases insAll_mem _ _ _ hx with hx | hx
    · cases hx
    · rw [List.mem_map] at hx
      obtain ⟨e, he', hx⟩ := hx
      simp only [Prod.mk.injEq] at hx
      obtain ⟨k, hk⟩ := mapDecls_val L.decls e.1 (List.mem_map.2 ⟨e, he', rfl⟩)
      exact ⟨e.1.val, e.1.vt, ⟨L.m, k, L.mem, hk⟩, by rw [L.items e he', hx.2]⟩
  have ofFile : ∀ {n y sab}, (n, y, sab) ∈ (sortZ (·.2) L.z).map (·.2) → ∃ v vt x, (∃ s, (s, v) ∈ files) ∧ item env vt v = .ok x ∧
      intoRootVal x = .ok (y, sab) := by
    intro n y sab hm
    obtain ⟨e, he', hx⟩ := List.mem_map.1 hm
    rw [sortZ_mem] at he'
    obtain ⟨x, h1, h2⟩ := (L.files.loaded e he').ex
    rw [hx] at h2
    obtain ⟨k, hk⟩ := fileDecls_val L.files.decls e.1 (List.mem_map.2 ⟨e, he', rfl⟩)
    exact ⟨_, _, x, ⟨k, hk⟩, h1, h2⟩
  constructor
  · intro n sab hs
    rw [L.sabun] at hs
    rcases addMembers_sab_mem _ _ _ hs with hs | ⟨y, hs⟩
    · cases hd : L.o.default.get n with
      | none => rw [(L.rootOf.none n hd).2] at hs; cases hs
      | some p =>
        obtain ⟨id, x⟩ := p
        obtain ⟨y, sab', h1, _, h3⟩ := L.rootOf.member n id x hd
        rw [hs] at h3
        subst h3
        obtain ⟨v, vt, hv, hx⟩ := ofRoot hd
        obtain ⟨d, u, l, ha, hb⟩ := ofList hx h1
        exact ⟨v, vt, d, u, l, .inr hv, ha, hb⟩
    · obtain ⟨v, vt, x, hv, hx, h1⟩ := ofFile hs
      obtain ⟨d, u, l, ha, hb⟩ := ofList hx h1
      exact ⟨v, vt, d, u, l, .inl hv, ha, hb⟩
  · intro n id y hy
    rw [L.defs] at hy
    rcases addMembers_mem _ _ _ (AMap.mem_of_get hy) with hm | ⟨sab, hm⟩
    · have hg := AMap.get_of_mem L.rootOf.wf hm
      cases hd : L.o.default.get n with
      | none => rw [(L.rootOf.none n hd).1] at hg; cases hg
      | some p =>
        obtain ⟨id', x⟩ := p
        obtain ⟨y', sab', h1, h2, _⟩ := L.rootOf.member n id' x hd
        rw [hg] at h2
        simp only [Option.some.injEq, Prod.mk.injEq] at h2
        obtain ⟨v, vt, hv, hx⟩ := ofRoot hd
        exact ⟨v, vt, x, sab', .inr hv, hx, by rw [h2.2]; exact h1⟩
    · obtain ⟨v, vt, x, hv, hx, h1⟩ := ofFile hm
      exact ⟨v, vt, x, sab, .inl hv, hx, h1⟩

/-- **C60 for sources without ids.** If no number is given as `ID` or `NextID`, all mutable lists, at every depth, have distinct ids below
their next ids. -/
theorem C60_plain_partial (env : Env) (he : env.Sound) (files : List (String × JVal)) (hp : ∀ e ∈ files, Plain e.2) (r : Root)
    (h : loadDir env files = .ok r) :
    (∀ n l, r.sabun.get n = some (.list (some l)) → FreshIds l ∧ ∀ e ∈ l.1, FreshItem e.2) ∧
    (∀ n id d l, r.defs.get n = some (id, .clist d l) → ∀ i ∈ l, FreshItem i) ∧
    (∀ n id d l o, r.defs.get n = some (id, .table d l o) → ∀ e ∈ l, FreshItem e.2) := by
  obtain ⟨h1, h2⟩ := loaded_from env he h
  have plain : ∀ v, ((∃ s, (s, v) ∈ files) ∨ ∃ m k, ("root", .map m) ∈ files ∧ (k, v) ∈ m) → Plain v := by
    rintro v (⟨s, hs⟩ | ⟨m, k, hm, hk⟩)
    · exact hp _ hs
    · exact (hp _ hm).map_inv.2 _ hk
  refine ⟨fun n l hn => ?_, fun n id d l hn i hi => ?_, fun n id d l o hn e hi => ?_⟩
  · obtain ⟨v, vt, d, u, l', hv, hx, e⟩ := h1 n _ hn
    cases e
    have := item_seq env he vt v (plain v hv) _ hx l rfl
    exact ⟨this.1.fresh, fun e he' => (this.2 e he').fresh⟩
  · obtain ⟨v, vt, x, sab, hv, hx, hy⟩ := h2 n id _ hn
    cases x <;> simp only [intoRootVal, Res.ok.injEq, Prod.mk.injEq, reduceCtorEq, false_and, RootValI.clist.injEq] at hy
    obtain ⟨⟨_, rfl⟩, _⟩ := hy
    exact (item_seq env he vt v (plain v hv) _ hx i hi).fresh
  · obtain ⟨v, vt, x, sab, hv, hx, hy⟩ := h2 n id _ hn
    cases x <;> simp only [intoRootVal, Res.ok.injEq, Prod.mk.injEq, reduceCtorEq, false_and, RootValI.table.injEq] at hy
    obtain ⟨⟨_, rfl, _⟩, _⟩ := hy
    exact (item_seq env he vt v (plain v hv) _ hx e hi).fresh

/-- The mutable lists of such a source become linked maps on which every run of the public operations behaves like the same run on an ordered
list. -/
theorem C60_live (env : Env) (he : env.Sound) (files : List (String × JVal)) (hp : ∀ e ∈ files, Plain e.2) (r : Root)
    (h : loadDir env files = .ok r) (n : String) (l : MutList) (hn : r.sabun.get n = some (.list (some l))) (ops : List (LinkedMap.Op Item))
    (ho : ∀ op ∈ ops, op.IsPublic) :
    ∃ m m', LinkedMap.construct l.1 l.2 = .ok m ∧ LinkedMap.LM.run ops m = .ok (m', (LinkedMap.SList.run ops ⟨l.1, l.2⟩).2) ∧
      LinkedMap.Observes m' (LinkedMap.SList.run ops ⟨l.1, l.2⟩).1 := by
  obtain ⟨hf, _⟩ := (C60_plain_partial env he files hp r h).1 n l hn
  have h0 : (if l.1 = [] then 0 else l.2) = l.2 := by
    split
    · rename_i he'
      obtain ⟨v, vt, d, u, l', hv, hx, e⟩ := (loaded_from env he h).1 n _ hn
      cases e
      cases v with
      | array a =>
        obtain ⟨_, as, ms, _, _, hl, hnx, _⟩ := C60_exact env vt a l (.inl ⟨d, u, hx⟩)
        rw [he'] at hl
        rcases hnx with ⟨_, h0⟩ | ⟨h0, _⟩
        · exact h0.symm
        · exact absurd hl.symm h0
      | _ => simp only [item] at hx; cases hx
    · rfl
  have := LinkedMap.C14_public l.1 l.2 hf.1 (fun x hx => hf.2 x.1 (List.mem_map.2 ⟨x, hx, rfl⟩)) ops ho
  rwa [h0] at this

/-- the mutable list of a member of the root -/
def listOf (n : String) : Res Root → Option MutList
  | .ok r =>
    match r.sabun.get n with
    | some (.list l) => l
    | _ => none
  | _ => none

/-- the ids and the next id -/
def idsNext (o : Option MutList) : Option (List Nat × Nat) := o.map fun l => (l.1.map (·.1), l.2)

/-- a mutable list of items with a member `a` -/
def mlistOf (rest : List JVal) : List (String × JVal) := [("root", .map [("l", .array (.string "MList" :: .array [.map [("a", .int 1)]] :: rest))])]

/-- the number 1.0 -/
def one : BitVec 64 := 0x3ff0000000000000#64

/-- Two items of the same `ID`. -/
def sameIds : List (String × JVal) := mlistOf [.map [("ID", .double one)], .map [("ID", .double one)]]

/-- how walking a list ends: 0 at its end, 1 with an error, 2 through a dangling pointer -/
def walk (o : Option MutList) : Option Nat :=
  o.map fun l => ending ((LinkedMap.construct l.1 l.2).bind fun m => m.iterAll)

/-- how walking a list ends after one insertion at its end -/
def walkInserted (o : Option MutList) : Option Nat :=
  o.map fun l => ending ((LinkedMap.construct l.1 l.2).bind fun m => (m.insertLast (.mk [] [])).bind fun x => x.1.iterAll)

/-- **C60 is false.** Two items with the same `ID` are accepted. The second one replaces the first one in the hash map, which frees it, and
the list still begins with it: walking the list reads freed memory. (The validation of the real code walks it; the model of the validation
has a plain list there.) -/
theorem C60_negation : idsNext (listOf "l" (loadValid idEnv sameIds)) = some ([1, 1], 2) ∧ walk (listOf "l" (loadValid idEnv sameIds)) = some 2 := by
  decide +kernel

/-- With one item of the `ID` 1.0 the next id is 1 as well, so the next insertion frees the item. -/
theorem C60_negation_default : idsNext (listOf "l" (loadValid idEnv (mlistOf [.map [("ID", .double one)]]))) = some ([1], 1) ∧
    walk (listOf "l" (loadValid idEnv (mlistOf [.map [("ID", .double one)]]))) = some 0 ∧
    walkInserted (listOf "l" (loadValid idEnv (mlistOf [.map [("ID", .double one)]]))) = some 2 := by decide +kernel

/-- The same with a `NextID` that is too small; a negative one becomes a large number. -/
theorem C60_negation_next :
    idsNext (listOf "l" (loadValid idEnv (mlistOf [.array [.string "NextID", .int 0], .map []].tail))) = some ([0], 1) ∧
    idsNext (listOf "l" (loadValid idEnv (mlistOf [.array [.string "NextID", .int 0], .map []]))) = some ([0], 0) ∧
    walkInserted (listOf "l" (loadValid idEnv (mlistOf [.array [.string "NextID", .int 0], .map []]))) = some 2 ∧
    idsNext (listOf "l" (loadValid idEnv (mlistOf [.array [.string "NextID", .int (-1)], .map []]))) = some ([0], 18446744073709551615) := by
  decide +kernel

/-- An `ID` that is written without a point is refused. -/
theorem C60_int_refused : ending (loadValid idEnv (mlistOf [.map [("ID", .int 1)]])) = 1 := by decide +kernel

example : idsNext (listOf "l" (loadValid idEnv (mlistOf [.map [("a", .int 5)], .map []]))) = some ([0, 1], 2) ∧
    walkInserted (listOf "l" (loadValid idEnv (mlistOf [.map [("a", .int 5)], .map []]))) = some 0 := by decide +kernel
example : ∀ e ∈ mlistOf [.map [("a", .int 5)], .map []], Plain e.2 := by
  intro e he
  simp only [mlistOf, List.mem_singleton] at he
  subst he
  have h0 : Plain (.map []) := .map (fun _ h => (nomatch h)) (fun _ h => (nomatch h))
  have h1 : ∀ i, Plain (.map [("a", .int i)]) := fun i => .map
    (fun e he hx => by simp only [List.mem_singleton] at he; subst he; exact absurd hx.1 (show ¬ "a" = "ID" by decide))
    (fun e he => by simp only [List.mem_singleton] at he; subst he; exact .int i)
  refine .map (fun e he hx => by simp only [List.mem_singleton] at he; subst he; exact absurd hx.1 (by decide)) (fun e he => ?_)
  simp only [List.mem_singleton] at he
  subst he
  refine .array (by simp) fun v hv => ?_
  simp only [List.mem_cons, List.not_mem_nil, or_false] at hv
  rcases hv with rfl | rfl | rfl | rfl
  · exact .string _
  · exact .array (by simp) fun v hv => by simp only [List.mem_singleton] at hv; subst hv; exact h1 1
  · exact h1 5
  · exact h0

/-! ## C61: the entries of a table -/

/-- the entries that were read of the objects of a table -/
def Rows (env : Env) : List (List (String × JVal)) → List (String × Item) → Prop := List.Forall₂ fun m p => Row env m p.1 p.2

theorem table_of_item {env : Env} {vt : VType} {r : List JVal} {d : LDef} {l : AMap Item} {o : List String}
    (h : item env vt (.array (.string "Table" :: r)) = .ok (.table d l o)) : ∃ t, list env {} r = .ok t ∧ dataItems env t.vec [] = .ok l := by
  simp only [item, arrayVal] at h
  rw [show tagOf "Table" = some .table by decide] at h
  simp only at h
  split at h
  · obtain ⟨t, hl, hi⟩ := bind_inv h
    unfold intoList at hi
    split at hi
    · simp only [intoConstData] at hi
      split at hi
      · obtain ⟨l', hl', e⟩ := map_inv hi; cases e; exact ⟨t, hl, hl'⟩
      · cases hi
    · cases hi
    · cases hi
  · cases h

/-- **C61, exactly what happens.** Every object of a table has a string as its `ID`; of the objects with the same `ID` the last one is
the entry. -/
theorem C61_exact (env : Env) (vt : VType) (r : List JVal) (d : LDef) (l : AMap Item) (o : List String)
    (h : item env vt (.array (.string "Table" :: r)) = .ok (.table d l o)) :
    ∃ as ms rows, ListSyntax r as ms ∧ Rows env ms rows ∧ l.Wf ∧ (∀ n, n ∈ l.map (·.1) ↔ n ∈ rows.map (·.1)) ∧
      ∀ p n it s, rows = p ++ (n, it) :: s → n ∉ s.map (·.1) → l.get n = some it := by
  obtain ⟨t, hl, hd⟩ := table_of_item h
  obtain ⟨as, ms, h1, h2, _, _⟩ := list_shape env r {} rfl hl
  obtain ⟨rows, h3, rfl⟩ := dataItems_rows env h2 [] hd
  refine ⟨as, ms, rows, h1, h3, insRows_wf _ _ (by simp [AMap.Wf]), fun n => by rw [insRows_keys]; simp, ?_⟩
  rintro p n it s rfl hs
  exact insRows_last hs p []

theorem rows_ids {env : Env} {ms : List (List (String × JVal))} {rows : List (String × Item)} (h : Rows env ms rows) :
    rows.length = ms.length ∧ ∀ (i : Nat) (m : List (String × JVal)), ms[i]? = some m → ∃ p : String × Item, rows[i]? = some p ∧ Row env m p.1 p.2 := by
  induction h with
  | nil => exact ⟨rfl, fun i m h => by simp at h⟩
  | cons hr _ ih =>
    refine ⟨by simp [ih.1], fun i m hm => ?_⟩
    cases i with
    | zero => simp only [List.getElem?_cons_zero, Option.some.injEq] at hm; subst hm; exact ⟨_, rfl, hr⟩
    | succ i => simp only [List.getElem?_cons_succ] at hm; simpa using ih.2 i m hm

/-- **C61 for tables with distinct ids.** Every object of the table is an entry under its `ID`, and there are no others. -/
theorem C61_distinct_partial (env : Env) (vt : VType) (r : List JVal) (d : LDef) (l : AMap Item) (o : List String)
    (h : item env vt (.array (.string "Table" :: r)) = .ok (.table d l o)) (as : List (List JVal)) (ms : List (List (String × JVal)))
    (hs : ListSyntax r as ms)
    (hd : ∀ (i j : Nat) (m m' : List (String × JVal)) (s : String), ms[i]? = some m → ms[j]? = some m' → ("ID", .string s) ∈ m → ("ID", .string s) ∈ m' → i = j) :
    l.length = ms.length ∧ ∀ m ∈ ms, ∃ id it, ("ID", .string id) ∈ m ∧ l.get id = some it ∧
      ∃ x, obj env false m 0 {} = .ok x ∧ toItem env x = .ok it := by
  obtain ⟨as', ms', rows, h1, h2, h3, h4, h5⟩ := C61_exact env vt r d l o h
  have e : ms' = ms := by
    have inj : ∀ (as as' : List (List JVal)) (ms ms' : List (List (String × JVal))),
        as.map JVal.array ++ ms.map JVal.map = as'.map JVal.array ++ ms'.map JVal.map → ms = ms' := by
      intro as
      induction as with
      | nil =>
        intro as' ms ms' h
        cases as' with
        | nil =>
          simp only [List.map_nil, List.nil_append] at h
          exact List.map_injective_iff.2 (fun a b h => by cases h; rfl) h
        | cons a as' =>
          cases ms with
          | nil => cases h
          | cons m ms => cases h
      | cons a as ih =>
        intro as' ms ms' h
        cases as' with
        | nil =>
          cases ms' with
          | nil => cases h
          | cons m ms => cases h
        | cons a' as' =>
          simp only [List.map_cons, List.cons_append, List.cons.injEq] at h
          exact ih as' ms ms' h.2
    exact inj as' as ms' ms (h1 ▸ hs)
  subst e
  obtain ⟨hlen, hrow⟩ := rows_ids h2
  have hnd : (rows.map (·.1)).Nodup := by
    rw [List.nodup_iff_injective_getElem]
    rintro ⟨i, hi⟩ ⟨j, hj⟩ hij
    simp only [List.length_map] at hi hj
    simp only [List.getElem_map] at hij
    obtain ⟨p, hp, rp⟩ := hrow i _ (List.getElem?_eq_getElem (hlen ▸ hi))
    obtain ⟨q, hq, rq⟩ := hrow j _ (List.getElem?_eq_getElem (hlen ▸ hj))
    rw [List.getElem?_eq_getElem hi, Option.some.injEq] at hp
    rw [List.getElem?_eq_getElem hj, Option.some.injEq] at hq
    rw [hp, hq] at hij
    have := hd i j _ _ p.1 (List.getElem?_eq_getElem (hlen ▸ hi)) (List.getElem?_eq_getElem (hlen ▸ hj)) rp.mem (hij ▸ rq.mem)
    exact Fin.ext this
  refine ⟨?_, fun m hm => ?_⟩
  · have hperm : (l.map (·.1)).Perm (rows.map (·.1)) := (List.perm_ext_iff_of_nodup h3 hnd).2 h4
    have := hperm.length_eq
    simpa [hlen] using this
  · obtain ⟨i, hi⟩ := List.getElem?_of_mem hm
    obtain ⟨p, hp, rp⟩ := hrow i m hi
    obtain ⟨a, b, rfl⟩ := List.append_of_mem (List.mem_of_getElem? hp)
    refine ⟨p.1, p.2, rp.mem, h5 a p.1 p.2 b rfl ?_, rp.item⟩
    rw [List.map_append, List.map_cons, List.nodup_append] at hnd
    exact (List.nodup_cons.1 hnd.2.1).1

/-- the ids of the entries of a table of the root -/
def tableIds (n : String) : Res Root → Option (List (String × List (String × Option Int)))
  | .ok r =>
    match r.defs.get n with
    | some (_, .table _ l _) => some (l.map fun e => (e.1, match e.2 with
      | .mk v _ => v.map fun x => (x.1, match x.2 with | .param (.int (.val i)) => some i | _ => none)))
    | _ => none
  | _ => none

/-- a table of items with a member `a` -/
def tableOf (rest : List JVal) : List (String × JVal) := [("root", .map [("t", .array (.string "Table" :: .array [.map [("a", .int 1)]] :: rest))])]

/-- **C61 is false.** Of two objects with the same `ID` the first one is lost without an error. -/
theorem C61_negation : tableIds "t" (loadValid idEnv (tableOf [.map [("ID", .string "x"), ("a", .int 2)], .map [("ID", .string "x"), ("a", .int 3)]])) =
    some [("x", [("a", some 3)])] := by decide +kernel

example : tableIds "t" (loadValid idEnv (tableOf [.map [("ID", .string "x"), ("a", .int 2)], .map [("ID", .string "y"), ("a", .int 3)]])) =
    some [("x", [("a", some 2)]), ("y", [("a", some 3)])] := by decide +kernel

/-! ## C62: values -/

/-- **C62.** The value that is loaded is the one that is written, and nothing else is loaded as a value. -/
theorem C62_value (env : Env) (vt vt' : VType) (v : JVal) (p : Param) : item env vt v = .ok (.param p vt') ↔ vt' = vt ∧ Means v p := by
  constructor
  · intro h
    cases v with
    | bool b => simp only [item, Res.ok.injEq, RustVal.param.injEq] at h; exact ⟨h.2.symm, h.1 ▸ .bool b⟩
    | int b => simp only [item, Res.ok.injEq, RustVal.param.injEq] at h; exact ⟨h.2.symm, h.1 ▸ .int b⟩
    | double b => simp only [item, Res.ok.injEq, RustVal.param.injEq] at h; exact ⟨h.2.symm, h.1 ▸ .double b⟩
    | string b => simp only [item, Res.ok.injEq, RustVal.param.injEq] at h; exact ⟨h.2.symm, h.1 ▸ .string b⟩
    | map _ => simp only [item] at h; cases h
    | null => simp only [item] at h; cases h
    | undef => simp only [item] at h; cases h
    | array a =>
      simp only [item] at h
      obtain ⟨rfl, h⟩ := arrayVal_param h
      refine ⟨rfl, ?_⟩
      rcases h with ⟨s, t, r, q, rfl, ht, hq, hp⟩ | ⟨s, tag, r, rfl, ht, htag, hn⟩ | ⟨i, r, q, rfl, hq, hp⟩
      · rw [tagOf_name ht]
        rcases elements_ok env t r.length r (Nat.le_refl _) hq with ⟨ps, rfl, hps⟩ | ⟨_, rfl, rfl⟩ | ⟨_, rfl, rfl⟩
        · cases t with
          | float =>
            obtain ⟨l, h1, h2⟩ := floats_inv hps
            simp only [toParam, qvOptMap, h1, Option.map_some, Option.some.injEq] at hp
            rw [← hp]; exact .floatArray h2
          | int =>
            obtain ⟨l, rfl, rfl⟩ := ints_inv (by decide) hps
            simp only [toParam, qvOptMap, collect_ints, Option.map_some, Option.some.injEq] at hp
            rw [← hp]; exact .intArray l
          | binary =>
            obtain ⟨l, rfl, rfl⟩ := ints_inv (by decide) hps
            simp only [toParam, qvOptMap, Option.map_map, Option.map_eq_some_iff] at hp
            obtain ⟨bs, h1, h2⟩ := hp
            rw [← h2, collect_u8_inv l h1, List.map_map]
            exact .binary bs
        · cases t <;> simp only [toParam, qvOptMap, Option.map_some, Option.some.injEq] at hp <;> rw [← hp]
          · exact .floatArrayNull
          · exact .intArrayNull
          · exact .binaryNull
        · cases t <;> simp only [toParam, qvOptMap, Option.map_some, Option.some.injEq] at hp <;> rw [← hp]
          · exact .floatArrayUndef
          · exact .intArrayUndef
          · exact .binaryUndef
      · rw [tagOf_name ht]
        unfold arrayNull at hn
        split at hn
        · split at hn <;> cases hn
          · exact .floatNull
          · exact .intNull
          · exact .strNull
          · exact .boolNull
        · split at hn <;> cases hn
          · exact .floatUndef
          · exact .intUndef
          · exact .strUndef
          · exact .boolUndef
        · split at hn
          · rename_i e; subst e; cases hn; exact .floatInt _
          · cases hn
        · split at hn
          · rename_i e; subst e; cases hn; exact .floatDouble _
          · cases hn
        · cases hn
      · rcases elements_ok env .int (r.length + 1) r (by omega) hq with ⟨ps, rfl, hps⟩ | ⟨h1, rfl, _⟩ | ⟨h1, rfl, _⟩
        · obtain ⟨l, rfl, rfl⟩ := ints_inv (by decide) hps
          have hc := collect_ints (i :: l)
          simp only [List.map_cons] at hc
          simp only [pushParam, toParam, qvOptMap, hc, Option.map_some, Option.some.injEq] at hp
          rw [← hp]
          exact .ints (a := i :: l) (by simp)
        · simp at h1
        · simp at h1
  · rintro ⟨rfl, h⟩
    cases h with
    | bool => simp [item]
    | int => simp [item]
    | double => simp [item]
    | string => simp [item]
    | floatDouble f => simp [item, arrayVal, tag_float, arrayNull]
    | floatInt i => simp [item, arrayVal, tag_float, arrayNull]
    | intNull => simp [item, arrayVal, arrayNull, show tagOf "Int" = some .int by decide]
    | intUndef => simp [item, arrayVal, arrayNull, show tagOf "Int" = some .int by decide]
    | floatNull => simp [item, arrayVal, arrayNull, tag_float]
    | floatUndef => simp [item, arrayVal, arrayNull, tag_float]
    | strNull => simp [item, arrayVal, arrayNull, show tagOf "Str" = some .str by decide]
    | strUndef => simp [item, arrayVal, arrayNull, show tagOf "Str" = some .str by decide]
    | boolNull => simp [item, arrayVal, arrayNull, show tagOf "Bool" = some .bool by decide]
    | boolUndef => simp [item, arrayVal, arrayNull, show tagOf "Bool" = some .bool by decide]
    | @ints a ha =>
      cases a with
      | nil => exact absurd rfl ha
      | cons i l =>
        have hc := collect_ints (i :: l)
        simp only [List.map_cons] at hc
        simp only [item, List.map_cons, arrayVal, elements_of env .int _ (ints_of (by decide) l), Res.bind_ok, pushParam, toParam, qvOptMap, hc,
          Option.map_some]
    | intArray l =>
      simp only [item, arrayVal, show tagOf "IntArray" = some (.at .int) by decide, elements_of env .int _ (ints_of (by decide) l), Res.bind_ok,
        toParam, qvOptMap, collect_ints, Option.map_some]
    | intArrayNull => simp [item, arrayVal, show tagOf "IntArray" = some (.at .int) by decide, elements, toParam, qvOptMap]
    | intArrayUndef => simp [item, arrayVal, show tagOf "IntArray" = some (.at .int) by decide, elements, toParam, qvOptMap]
    | @floatArray a l hl =>
      simp only [item, arrayVal, show tagOf "FloatArray" = some (.at .float) by decide, elements_of env .float _ (floats_of hl), Res.bind_ok,
        toParam, qvOptMap, collect_floats, Option.map_some]
    | floatArrayNull => simp [item, arrayVal, show tagOf "FloatArray" = some (.at .float) by decide, elements, toParam, qvOptMap]
    | floatArrayUndef => simp [item, arrayVal, show tagOf "FloatArray" = some (.at .float) by decide, elements, toParam, qvOptMap]
    | binary l =>
      have he := elements_of env .binary (l.map fun b => (b.toNat : Int)).length (ints_of (t := .binary) (by decide) (l.map fun b => (b.toNat : Int)))
      simp only [List.map_map, Function.comp_def, List.length_map] at he
      simp only [item, arrayVal, show tagOf "Binary" = some (.at .binary) by decide, List.length_map, he, Res.bind_ok, toParam, qvOptMap, collect_u8s,
        Option.map_some]
    | binaryNull => simp [item, arrayVal, show tagOf "Binary" = some (.at .binary) by decide, elements, toParam, qvOptMap]
    | binaryUndef => simp [item, arrayVal, show tagOf "Binary" = some (.at .binary) by decide, elements, toParam, qvOptMap]

/-- A value has one meaning. -/
theorem C62_unique (v : JVal) (p p' : Param) (h : Means v p) (h' : Means v p') : p = p' := by
  have h1 := (C62_value idEnv .normal .normal v p).2 ⟨rfl, h⟩
  rw [(C62_value idEnv .normal .normal v p').2 ⟨rfl, h'⟩] at h1
  simp only [Res.ok.injEq, RustVal.param.injEq, and_true] at h1
  exact h1.symm

example : Means (.array [.string "Binary", .int 0, .int 255]) (.binary (.val [0, 255])) := .binary [0, 255]
example : Means (.array [.int 3, .int (-1)]) (.intArray (.val [3, 0xffffffffffffffff#64])) := .ints (a := [3, -1]) (by simp)
example : Means (.array [.string "FloatArray", .int 1, .double 0]) (.floatArray (.val [one, 0])) :=
  .floatArray (.cons (show FloatElem (.int 1) one from (show i64ToF64 1 = one by decide +kernel) ▸ .int 1) (.cons (.double 0) .nil))
example : ∀ p, ¬ Means (.array [.string "Binary", .int 256]) p := fun p h => by
  have := (C62_value idEnv .normal .normal _ p).2 ⟨rfl, h⟩
  rw [show item idEnv .normal (.array [.string "Binary", .int 256]) = .err by rfl] at this
  cases this

/-! ## C63: members of items and of list definitions -/

/-- **C63 for items.** An item of a list has exactly the members that its object declares; of several declarations of a name the last one
counts. A member that is written as a value has this value. -/
theorem C63_item (env : Env) (he : env.Sound) (m : List (String × JVal)) (o : TmpObj) (ho : obj env false m 0 {} = .ok o)
    (values : List (String × SabVal)) (refs : List (String × Qv String)) (hi : toItem env o = .ok (.mk values refs)) :
    ∃ l, MapDecls m l ∧ (values.map (·.1)).Nodup ∧ (∀ n, n ∈ values.map (·.1) ↔ n ∈ names l) ∧
      (∀ p d s, l = p ++ d :: s → d.name ∉ names s → ∀ q, (d.name, SabVal.param q) ∈ values ↔ Means d.val q) ∧
      ∀ p d s, l = p ++ d :: s → d.name ∉ names s → ∃ x y, item env d.vt d.val = .ok x ∧ intoSabVal x = .ok y ∧ (d.name, y) ∈ values := by
  obtain ⟨l, h1, h2, h3, h4⟩ := obj_members env he ho
  unfold toItem at hi
  obtain ⟨v, hv, e⟩ := map_inv hi
  simp only [Item.mk.injEq] at e
  obtain ⟨rfl, _⟩ := e
  obtain ⟨h5, h6, h7⟩ := sabMap_members _ _ h2 hv
  have hw : AMap.Wf v := h7 (by simp [AMap.Wf])
  have last : ∀ p d s, l = p ++ d :: s → d.name ∉ names s → ∃ x y, item env d.vt d.val = .ok x ∧ intoSabVal x = .ok y ∧ AMap.get v d.name = some y := by
    intro p d s hl hd
    obtain ⟨x, hx, hm⟩ := h3 p d s hl hd
    obtain ⟨y, hy, hg⟩ := h5 _ _ _ hm
    exact ⟨x, y, hx, hy, hg⟩
  refine ⟨l, h1, hw, fun n => ?_, ?_, ?_⟩
  · constructor
    · intro hn
      by_contra hl
      exact AMap.get_eq_none.1 ((h6 n (h4 n hl)).trans (by rfl)) hn
    · intro hn
      obtain ⟨p, d, s, hl, rfl, hs⟩ := last_split hn
      obtain ⟨x, y, _, _, hg⟩ := last p d s hl hs
      exact List.mem_map.2 ⟨_, AMap.mem_of_get hg, rfl⟩
  · intro p d s hl hd q
    obtain ⟨x, y, hx, hy, hg⟩ := last p d s hl hd
    constructor
    · intro hm
      have := AMap.get_of_mem hw hm
      rw [hg, Option.some.injEq] at this
      subst this
      cases x with
      | param q' vt =>
        simp only [intoSabVal, Res.ok.injEq, SabVal.param.injEq] at hy
        subst hy
        exact ((C62_value env d.vt vt d.val q').1 hx).2
      | mil o => cases o <;> simp only [intoSabVal] at hy <;> cases hy
      | _ => simp only [intoSabVal] at hy; cases hy
    · intro hq
      have := (C62_value env d.vt d.vt d.val q).2 ⟨rfl, hq⟩
      rw [hx, Res.ok.injEq] at this
      subst this
      cases hy
      exact AMap.mem_of_get hg
  · intro p d s hl hd
    obtain ⟨x, y, hx, hy, hg⟩ := last p d s hl hd
    exact ⟨x, y, hx, hy, AMap.mem_of_get hg⟩

/-- **C63 for list definitions.** A definition has exactly the members that its object declares, with the nullability that is written. -/
theorem C63_def (env : Env) (he : env.Sound) (m : List (String × JVal)) (o : TmpObj) (ho : obj env false m 0 {} = .ok o) (d : LDef)
    (hd : intoListDef env o = .ok d) :
    ∃ l, MapDecls m l ∧ (∀ n, n ∈ d.members.map (·.1) ↔ n ∈ names l) ∧
      ∀ p e s, l = p ++ e :: s → e.name ∉ names s → ∃ i y, d.members.get e.name = some (i, y) ∧
        ∀ q vt, y = .param q vt ↔ vt = e.vt ∧ Means e.val q := by
  obtain ⟨l, h1, h2, h3, h4⟩ := obj_members env he ho
  unfold intoListDef at hd
  split at hd
  · cases hd
  obtain ⟨v, hv, rfl⟩ := map_inv hd
  obtain ⟨h5, h6⟩ := defMap_members _ _ _ h2 hv
  refine ⟨l, h1, fun n => ?_, fun p e s hl hs => ?_⟩
  · constructor
    · intro hn
      by_contra hl
      exact AMap.get_eq_none.1 ((h6 n (h4 n hl)).trans (by rfl)) hn
    · intro hn
      obtain ⟨p, d, s, hl, rfl, hs⟩ := last_split hn
      obtain ⟨x, _, hm⟩ := h3 p d s hl hs
      obtain ⟨_, _, _, hg⟩ := h5 _ _ _ hm
      exact List.mem_map.2 ⟨_, AMap.mem_of_get hg, rfl⟩
  · obtain ⟨x, hx, hm⟩ := h3 p e s hl hs
    obtain ⟨i, y, hy, hg⟩ := h5 _ _ _ hm
    refine ⟨i, y, hg, fun q vt => ?_⟩
    rw [← C62_value env, hx, Res.ok.injEq]
    cases x <;> simp only [intoDefVal, Res.ok.injEq, reduceCtorEq] at hy <;> subst hy <;> simp

/-- the values of the first item of a mutable list -/
def firstValues (o : Option MutList) : Option (List (String × Option Int)) :=
  match o with
  | some ((_, .mk v _) :: _, _) => some (v.map fun x => (x.1, match x.2 with | .param (.int (.val i)) => some i | _ => none))
  | _ => none

/-- A name that an item declares twice, as `a` and `a?`, has the later value. -/
example : firstValues (listOf "l" (loadValid idEnv (mlistOf [.map [("a", .int 5), ("a?", .int 6)]]))) = some [("a", some 6)] := by decide +kernel
example : MapDecls [("a", .int 5), ("ID", .string "x"), ("b?", .bool true)] [⟨"a", .normal, .int 5⟩, ⟨"b", .nullable, .bool true⟩] :=
  .member (written_iff.2 (by decide)) (.special (nameOf_system nameOf_ID) (.member (written_iff.2 (by decide)) .nil))

end Verif.Source
