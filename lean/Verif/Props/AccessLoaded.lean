import Verif.Props.Access
import Verif.Props.AccessorNames
import Verif.Props.SourceLists
/-!
# The functions of the accessor on objects that were validated, loaded and changed (C70)
-/
namespace Verif.Intf
open Core Diff

/-! ## Validated objects -/

/-- The defaults of the references of a list fit, and name entries unless they are empty; the tables of an `Enum` are declared without `?`
and `!`. -/
structure RefDefaultsOk (defs : AMap RootVal) (d : ListDef) : Prop where
  refs : d.refs.isEnum = false → ∀ t q vt, d.refs.refs.get t = some (q, vt) →
    FitsRef vt q ∧ ∀ id, q = .val id → id = "" ∨ HasEntry defs t id
  enum : d.refs.isEnum = true → ∀ t q vt, d.refs.refs.get t = some (q, vt) → vt = .normal

theorem holds_hasDef {r : RootObj} {d : ListDef} {it : Item} (h : Holds r d it) : HasDef r d := by
  induction h with
  | table h _ => exact .table h
  | clist h _ => exact .clist h
  | mlist h _ _ => exact .mlist h
  | cil _ h _ _ ih => exact .cil ih (AMap.mem_of_get h)
  | mil _ h _ _ ih => exact .mil ih (AMap.mem_of_get h)

theorem validateRef_inv {defs : AMap RootVal} {d : RefDef} {b : Bool} {t : String} {q : Qv String}
    (h : validateRef defs d b (t, q) = .ok ()) : ∃ q0 vt, d.refs.get t = some (q0, vt) ∧ FitsRef vt q ∧ ∀ id, q = .val id → HasEntry defs t id := by
  unfold validateRef at h
  obtain ⟨_, _, h⟩ := Core.Res.bind_eq_ok h
  simp only at h
  cases hg : d.refs.get t with
  | none => rw [hg] at h; cases h
  | some x =>
    rw [hg] at h
    obtain ⟨_, hf, h⟩ := Core.Res.bind_eq_ok h
    refine ⟨x.1, x.2, rfl, (fitsRef_iff _ _).2 (by simpa using failIf_ok hf), ?_⟩
    rintro id rfl
    obtain ⟨_, _, h⟩ := Core.Res.bind_eq_ok h
    cases hd : defs.get t with
    | none => rw [hd] at h; cases h
    | some v =>
      rw [hd] at h
      cases v with
      | table td list old =>
        obtain ⟨_, h1, _⟩ := Core.Res.bind_eq_ok h
        have h1 := failIf_ok h1
        cases hl : list.get id with
        | none => rw [hl] at h1; cases h1
        | some i => exact ⟨td, list, old, i, hd, hl⟩
      | param _ _ => cases h
      | clist _ _ => cases h
      | mlist _ _ => cases h

/-- What validation ensures of an item. -/
theorem itemOk_of_valid {r : RootObj} {b : Bool} (h : validateRoot r b = .ok ()) {d : ListDef} {it : Item} (hi : Holds r d it)
    (hd : RefDefaultsOk r.defs d) : ItemOk r.defs d it := by
  obtain ⟨_, _, h3, h4⟩ := C20_validated r b h
  have hv := validateRoot_holds h hi
  have hrefs : validateRefs r.defs d.refs it.refs b = .ok () := by
    obtain ⟨values, refs⟩ := it
    unfold validateItem at hv
    exact (Core.Res.bind_eq_ok hv).choose_spec.1
  refine ⟨h3 d it hi, ?_, ?_, ?_, ?_⟩
  · intro k p vt q hg hs
    obtain ⟨dv, h5, h6⟩ := h4 d it hi k _ (AMap.mem_of_get hs)
    obtain ⟨p', vt', h7, h8⟩ := h6 q rfl
    rw [hg] at h5
    cases h5
    cases h7
    exact h8
  · intro k d' u hg hs
    obtain ⟨dv, h5, _, h6⟩ := validateValues_mem (validateItem_values hv) (AMap.mem_of_get hs)
    rw [hg] at h5
    cases h5
    unfold validateValue at h6
    simpa using failIf_ok h6
  · intro he t q0 vt hg q hq
    obtain ⟨_, h1, h2⟩ := Core.Res.bind_eq_ok hrefs
    cases hq with
    | stored hs =>
      obtain ⟨q', vt', h5, h6, h7⟩ := validateRef_inv (forEach_ok h2 _ (AMap.mem_of_get hs))
      rw [hg] at h5
      cases h5
      exact ⟨h6, h7⟩
    | default hs hg' =>
      rw [hg] at hg'
      cases hg'
      obtain ⟨h5, h6⟩ := hd.refs he t _ _ hg
      refine ⟨h5, ?_⟩
      rintro id rfl
      rcases h6 id rfl with rfl | h6
      · rw [he] at h1
        simp only [Bool.false_eq_true, if_false] at h1
        have := failIf_ok (forEach_ok h1 _ (AMap.mem_of_get hg))
        simp [hs] at this
      · exact h6
  · intro he
    obtain ⟨_, h1, h2⟩ := Core.Res.bind_eq_ok hrefs
    rw [he] at h1
    simp only [if_true] at h1
    have h1 := failIf_ok h1
    simp only [decide_eq_false_iff_not, ne_eq, not_not] at h1
    obtain ⟨⟨t, q⟩, hl⟩ := List.length_eq_one_iff.1 h1
    obtain ⟨q0, vt, h5, h6, h7⟩ := validateRef_inv (forEach_ok h2 (t, q) (by rw [hl]; exact List.mem_cons_self))
    have hn := hd.enum he t q0 vt h5
    cases q with
    | val id => exact ⟨t, id, hl, List.mem_map.2 ⟨_, AMap.mem_of_get h5, rfl⟩, h7 id rfl⟩
    | null => rw [hn] at h6; rcases h6.1 rfl with h | h <;> cases h
    | undef => rw [hn] at h6; rcases h6.2 rfl with h | h <;> cases h

/-- **C70 for validated objects.** In a validated object whose defaults fit their declarations, whose stored parameters at the root do, and
whose mutable lists are stored, no function of the accessor panics, at the root, in a table or in any item of any list at any depth.

Partial: validation checks neither the defaults nor the parameters at the root; see the negations in `Props/AccessPanic.lean`. -/
theorem C70_valid_partial (r : RootObj) (b : Bool) (hv : validateRoot r b = .ok ()) (hm : Maps r) (hr : RootOk r)
    (hd : ∀ d, HasDef r d → DefaultsOk d ∧ RefDefaultsOk r.defs d) :
    (∀ n b, RootFn r n b → readRoot r b ≠ .panic) ∧
    (∀ k d list old, (k, RootVal.table d list old) ∈ r.defs → ∀ n b, TableFn list old n b → readTable list d b ≠ .panic) ∧
    (∀ d it, Holds r d it → ∀ isMut n b, ItemFn isMut d n b → readItem r.defs d it b ≠ .panic) := by
  refine ⟨C70_root_partial r hm.defs hr, ?_, ?_⟩
  · intro k d list old hk n b h
    obtain ⟨_, _, _, h⟩ := C70_table d list (hm.tables k d list old hk) old n b h
    rw [h]; simp
  · intro d it hi
    have hh := holds_hasDef hi
    exact C70_item_partial r.defs d it (hm.members d hh) (hm.refs d hh) (hd d hh).1 (itemOk_of_valid hv hi (hd d hh).2)

/-! ## Loaded objects -/

open Source

theorem item_shape {env : Env} {vt : VType} {v : JVal} {x : RustVal} (h : item env vt v = .ok x) :
    (∀ d u l, x = .mlist d u l → l ≠ none) ∧ (∀ d l o, x = .table d l o → l.Wf) := by
  cases v with
  | array a =>
    simp only [item] at h
    cases a with
    | nil => simp only [arrayVal] at h; cases h
    | cons y r =>
      cases y with
      | string s =>
        simp only [arrayVal] at h
        have nul : ∀ {tag}, arrayNull tag vt r = .ok x →
            (∀ d u l, x = .mlist d u l → l ≠ none) ∧ (∀ d l o, x = .table d l o → l.Wf) := by
          intro tag h
          unfold arrayNull at h
          split at h
          · split at h <;> cases h <;> exact ⟨fun _ _ _ h => (nomatch h), fun _ _ _ h => (nomatch h)⟩
          · split at h <;> cases h <;> exact ⟨fun _ _ _ h => (nomatch h), fun _ _ _ h => (nomatch h)⟩
          · split at h <;> cases h; exact ⟨fun _ _ _ h => (nomatch h), fun _ _ _ h => (nomatch h)⟩
          · split at h <;> cases h; exact ⟨fun _ _ _ h => (nomatch h), fun _ _ _ h => (nomatch h)⟩
          · cases h
        cases ht : tagOf s with
        | none => rw [ht] at h; cases h
        | some tag =>
          rw [ht] at h
          have fin : ∀ t, list env {} r = .ok t → intoList env tag vt t = .ok x →
              (∀ d u l, x = .mlist d u l → l ≠ none) ∧ (∀ d l o, x = .table d l o → l.Wf) := by
            intro t hl0 hi
            have hmut : ∀ u, intoMutList env t u = .ok x → (∀ d u l, x = .mlist d u l → l ≠ none) ∧ (∀ d l o, x = .table d l o → l.Wf) := by
              intro u hi
              unfold intoMutList at hi; split at hi
              · obtain ⟨_, hm, rfl⟩ := map_inv hi
                refine ⟨?_, fun _ _ _ h => (nomatch h)⟩
                rintro _ _ _ ⟨⟩
                simp
              · cases hi
            unfold intoList at hi
            split at hi
            · split at hi
              · unfold intoConstList at hi; split at hi
                · obtain ⟨_, _, rfl⟩ := map_inv hi; exact ⟨fun _ _ _ h => (nomatch h), fun _ _ _ h => (nomatch h)⟩
                · cases hi
              · unfold intoConstData at hi; split at hi
                · obtain ⟨l, hl, rfl⟩ := map_inv hi
                  refine ⟨fun _ _ _ h => (nomatch h), ?_⟩
                  rintro _ _ _ ⟨⟩
                  obtain ⟨as, ms, h1, h2, _, _⟩ := list_shape env r {} rfl hl0
                  obtain ⟨rows, _, rfl⟩ := dataItems_rows env h2 [] hl
                  exact insRows_wf _ _ (by simp [AMap.Wf])
                · cases hi
              · exact hmut _ hi
              · unfold intoInnerList at hi; split at hi
                · obtain ⟨_, _, rfl⟩ := map_inv hi; exact ⟨fun _ _ _ h => (nomatch h), fun _ _ _ h => (nomatch h)⟩
                · cases hi
              · unfold intoMutInnerList at hi; split at hi
                · obtain ⟨_, hm, rfl⟩ := map_inv hi; exact ⟨fun _ _ _ h => (nomatch h), fun _ _ _ h => (nomatch h)⟩
                · cases hi
              · unfold intoInnerDef at hi; split at hi <;> cases hi; exact ⟨fun _ _ _ h => (nomatch h), fun _ _ _ h => (nomatch h)⟩
              · unfold intoInnerMutDef at hi; split at hi <;> cases hi; exact ⟨fun _ _ _ h => (nomatch h), fun _ _ _ h => (nomatch h)⟩
              · cases hi
            · split at hi
              · unfold intoInnerMutDef at hi; split at hi <;> cases hi; exact ⟨fun _ _ _ h => (nomatch h), fun _ _ _ h => (nomatch h)⟩
              · exact hmut _ hi
              · cases hi
            · cases hi
          cases tag with
          | «at» t =>
            obtain ⟨q, hq, h⟩ := bind_inv h
            split at h <;> cases h
            exact ⟨fun _ _ _ h => (nomatch h), fun _ _ _ h => (nomatch h)⟩
          | int => exact nul h
          | float => exact nul h
          | str => exact nul h
          | bool => exact nul h
          | milUndef => cases h; exact ⟨fun _ _ _ h => (nomatch h), fun _ _ _ h => (nomatch h)⟩
          | _ =>
            simp only at h
            split at h
            · obtain ⟨t, hl, hi⟩ := bind_inv h; exact fin t hl hi
            · cases h
      | int i =>
        simp only [arrayVal] at h
        obtain ⟨q, hq, h⟩ := bind_inv h
        split at h <;> cases h
        exact ⟨fun _ _ _ h => (nomatch h), fun _ _ _ h => (nomatch h)⟩
      | _ => simp only [arrayVal] at h; cases h
  | _ => simp only [item] at h; cases h <;> exact ⟨fun _ _ _ h => (nomatch h), fun _ _ _ h => (nomatch h)⟩

/-- every mutable list has its items -/
def ListsThere (d : AMap (Nat × RootValI)) (s : AMap RootSab) : Prop :=
  ∀ n id dd u, d.get n = some (id, .mlist dd u) → ∃ l, s.get n = some (.list (some l))

theorem addMembers_lists : ∀ (l : List Member) (d : AMap (Nat × RootValI)) (s : AMap RootSab),
    (∀ n dd u sab, (n, RootValI.mlist dd u, sab) ∈ l → ∃ i, sab = some (.list (some i))) → ListsThere d s →
    ListsThere (addMembers l d s).1 (addMembers l d s).2
  | [], _, _, _, h => h
  | (k, v, sab) :: r, d, s, hl, h => by
    simp only [addMembers]
    refine addMembers_lists r _ _ (fun n dd u sab hm => hl n dd u sab (List.mem_cons_of_mem _ hm)) ?_
    intro n id dd u hn
    by_cases hk : k = n
    · subst hk
      rw [AMap.get_insert_self] at hn
      simp only [Option.some.injEq, Prod.mk.injEq] at hn
      obtain ⟨_, rfl⟩ := hn
      obtain ⟨i, rfl⟩ := hl k dd u sab List.mem_cons_self
      exact ⟨i, by simp only [putSab, AMap.get_insert_self]⟩
    · rw [AMap.get_insert_ne _ _ (Ne.symm hk)] at hn
      obtain ⟨i, hi⟩ := h n id dd u hn
      refine ⟨i, ?_⟩
      cases sab with
      | none => exact hi
      | some l => simpa only [putSab, AMap.get_insert_ne _ _ (Ne.symm hk)] using hi

theorem intoRootVal_list {env : Env} {vt : VType} {v : JVal} {x : RustVal} (hx : item env vt v = .ok x) {d : LDef} {u : Bool}
    {sab : Option RootSab} (h : intoRootVal x = .ok (.mlist d u, sab)) : ∃ i, sab = some (.list (some i)) := by
  cases x <;> simp only [intoRootVal, Res.ok.injEq, Prod.mk.injEq, reduceCtorEq, false_and, RootValI.mlist.injEq] at h
  rename_i d' u' l
  obtain ⟨⟨rfl, rfl⟩, rfl⟩ := h
  cases l with
  | none => exact absurd rfl ((item_shape hx).1 _ _ _ rfl)
  | some i => exact ⟨i, rfl⟩

/-- **The lists of a loaded source.** Every mutable list of a loaded source has its items, and nothing else is stored. -/
theorem loaded_lists (env : Env) (he : env.Sound) {files : List (String × JVal)} {r : Root} (h : loadDir env files = .ok r) :
    ListsThere r.defs r.sabun := by
  obtain ⟨⟨L⟩, _⟩ := loads env he h
  rw [L.defs, L.sabun]
  refine addMembers_lists _ _ _ ?_ ?_
  · intro n dd u sab hm
    obtain ⟨e, he', hx⟩ := List.mem_map.1 hm
    rw [sortZ_mem] at he'
    obtain ⟨x, h1, h2⟩ := (L.files.loaded e he').ex
    rw [hx] at h2
    exact intoRootVal_list h1 h2
  · intro n id dd u hn
    cases hd : L.o.default.get n with
    | none => rw [(L.rootOf.none n hd).1] at hn; cases hn
    | some q =>
      obtain ⟨id', x⟩ := q
      obtain ⟨y, sab, h1, h2, h3⟩ := L.rootOf.member n id' x hd
      rw [hn] at h2
      cases h2
      rw [h3]
      rw [L.ins] at hd
      rcases insAll_mem _ _ _ hd with hx | hx
      · cases hx
      · rw [List.mem_map] at hx
        obtain ⟨e, he', hx⟩ := hx
        simp only [Prod.mk.injEq] at hx
        have := L.items e he'
        rw [hx.2] at this
        exact intoRootVal_list this h1

theorem erase_get {r : Root} {k : String} {v : RootVal} (h : r.erase.defs.get k = some v) :
    ∃ id y, r.defs.get k = some (id, y) ∧ y.erase = v := by
  have : ∀ l : AMap (Nat × RootValI), AMap.get (l.map fun e => (e.1, e.2.2.erase)) k = (l.get k).map fun e => e.2.erase := by
    intro l
    induction l with
    | nil => rfl
    | cons e l ih =>
      obtain ⟨a, b⟩ := e
      simp only [List.map_cons, AMap.get]
      split
      · rfl
      · exact ih
  simp only [Root.erase] at h
  rw [this] at h
  cases hd : r.defs.get k with
  | none => rw [hd] at h; cases h
  | some e => rw [hd] at h; exact ⟨e.1, e.2, rfl, by simpa using h⟩

theorem eraseMembers_keys : ∀ l, (eraseMembers l).map (·.1) = l.map (·.1)
  | [] => rfl
  | (_, _, _) :: r => by simp [eraseMembers, eraseMembers_keys r]

theorem eraseMembers_mem {k : String} {v : DefVal} : ∀ {l}, (k, v) ∈ eraseMembers l → ∃ id w, (k, id, w) ∈ l ∧ w.erase = v
  | [], h => by cases h
  | (k', id, w) :: r, h => by
    simp only [eraseMembers, List.mem_cons, Prod.mk.injEq] at h
    rcases h with ⟨rfl, rfl⟩ | h
    · exact ⟨id, w, List.mem_cons_self, rfl⟩
    · obtain ⟨id, w, h1, h2⟩ := eraseMembers_mem h
      exact ⟨id, w, List.mem_cons_of_mem _ h1, h2⟩

theorem numbered_erase {ld : LDef} (h : Numbered ld) : ld.erase.members.Wf ∧ ld.erase.refs.refs.Wf ∧
    ∀ k d, ((k, DefVal.cilDef d) ∈ ld.erase.members ∨ ∃ u, (k, DefVal.milDef d u) ∈ ld.erase.members) → ∃ ld', Numbered ld' ∧ ld'.erase = d := by
  cases h with
  | @mk members refs old h1 _ h3 _ h5 h6 =>
    refine ⟨?_, ?_, ?_⟩
    · simp only [LDef.erase, ListDef.members, AMap.Wf, eraseMembers_keys]
      exact h1
    · simp only [LDef.erase, ListDef.refs, RefDefI.erase, AMap.Wf, List.map_map, Function.comp_def]
      exact h3
    · rintro k d (h | ⟨u, h⟩)
      · obtain ⟨id, w, hm, hw⟩ := eraseMembers_mem (by simpa only [LDef.erase, ListDef.members] using h)
        cases w <;> simp only [LDefVal.erase, reduceCtorEq, DefVal.cilDef.injEq] at hw
        exact ⟨_, h5 _ _ _ hm, hw⟩
      · obtain ⟨id, w, hm, hw⟩ := eraseMembers_mem (by simpa only [LDef.erase, ListDef.members] using h)
        cases w <;> simp only [LDefVal.erase, reduceCtorEq, DefVal.milDef.injEq] at hw
        exact ⟨_, h6 _ _ _ _ hm, hw.1⟩

theorem erase_mem {r : Root} {k : String} {v : RootVal} (h : (k, v) ∈ r.erase.defs) : ∃ id y, (k, id, y) ∈ r.defs ∧ y.erase = v := by
  simp only [Root.erase, List.mem_map, Prod.mk.injEq] at h
  obtain ⟨e, h1, rfl, h2⟩ := h
  exact ⟨e.2.1, e.2.2, h1, h2⟩

/-- The maps of a loaded source have no name twice. -/
theorem loaded_maps (env : Env) (he : env.Sound) {files : List (String × JVal)} {r : Root} (h : loadDir env files = .ok r) : Maps r.erase := by
  obtain ⟨⟨L⟩, _⟩ := loads env he h
  have hw : r.defs.Wf := L.wf
  have hn : ∀ k id y, (k, id, y) ∈ r.defs → ∀ d, y.ldef = some d → Numbered d := fun k id y hm d hd =>
    C57_numbered env he files r h k id y (AMap.get_of_mem hw hm) d hd
  have hd : ∀ d, HasDef r.erase d → ∃ ld, Numbered ld ∧ ld.erase = d := by
    intro d hh
    induction hh with
    | table hm =>
      obtain ⟨id, y, h1, h2⟩ := erase_mem hm
      cases y <;> simp only [RootValI.erase, reduceCtorEq, RootVal.table.injEq] at h2
      exact ⟨_, hn _ _ _ h1 _ rfl, h2.1⟩
    | clist hm =>
      obtain ⟨id, y, h1, h2⟩ := erase_mem hm
      cases y <;> simp only [RootValI.erase, reduceCtorEq, RootVal.clist.injEq] at h2
      exact ⟨_, hn _ _ _ h1 _ rfl, h2.1⟩
    | mlist hm =>
      obtain ⟨id, y, h1, h2⟩ := erase_mem hm
      cases y <;> simp only [RootValI.erase, reduceCtorEq, RootVal.mlist.injEq] at h2
      exact ⟨_, hn _ _ _ h1 _ rfl, h2.1⟩
    | cil _ hm ih =>
      obtain ⟨ld, h1, rfl⟩ := ih
      exact (numbered_erase h1).2.2 _ _ (.inl hm)
    | mil _ hm ih =>
      obtain ⟨ld, h1, rfl⟩ := ih
      exact (numbered_erase h1).2.2 _ _ (.inr ⟨_, hm⟩)
  refine ⟨?_, ?_, ?_, ?_⟩
  · simp only [Root.erase, AMap.Wf, List.map_map, Function.comp_def]
    exact hw
  · intro d hh
    obtain ⟨ld, h1, rfl⟩ := hd d hh
    exact (numbered_erase h1).1
  · intro d hh
    obtain ⟨ld, h1, rfl⟩ := hd d hh
    exact (numbered_erase h1).2.1
  · intro k d list old hm
    obtain ⟨id, y, h1, h2⟩ := erase_mem hm
    cases y <;> simp only [RootValI.erase, reduceCtorEq, RootVal.table.injEq] at h2
    obtain ⟨_, rfl, rfl⟩ := h2
    obtain ⟨v, vt, x, sab, _, hx, hy⟩ := (loaded_from env he h).2 k id _ (AMap.get_of_mem hw h1)
    cases x <;> simp only [intoRootVal, Res.ok.injEq, Prod.mk.injEq, reduceCtorEq, false_and, RootValI.table.injEq] at hy
    obtain ⟨⟨_, rfl, _⟩, _⟩ := hy
    exact (item_shape hx).2 _ _ _ rfl

theorem loaded_rootOk (env : Env) (he : env.Sound) {files : List (String × JVal)} {r : Root} (h : loadDir env files = .ok r)
    (hd : ∀ k p vt, r.erase.defs.get k = some (.param p vt) → Fits p vt p) : RootOk r.erase := by
  refine ⟨hd, ?_, ?_⟩
  · intro k p vt q _ hs
    obtain ⟨_, _, _, _, _, _, _, hc⟩ := (loaded_from env he h).1 k _ hs
    cases hc
  · intro k d u hg
    obtain ⟨id, y, h1, h2⟩ := erase_get hg
    cases y <;> simp only [RootValI.erase, reduceCtorEq, RootVal.mlist.injEq] at h2
    obtain ⟨l, hl⟩ := loaded_lists env he h k id _ _ h1
    exact ⟨some l, hl, by simp⟩

/-- **C70 for loaded objects.** In an object that was loaded from a source and validated, no function of the accessor panics, at the root,
in a table or in any item of any list at any depth, provided that every default fits the declaration it belongs to.

Partial: the loader accepts defaults that do not fit (`C70_negation_null`, `C70_negation_ref`, `C70_negation_enum`). -/
theorem C70_loaded_partial (env : Env) (he : env.Sound) (files : List (String × JVal)) (r : Root) (h : loadValid env files = .ok r)
    (hp : ∀ k p vt, r.erase.defs.get k = some (.param p vt) → Fits p vt p)
    (hd : ∀ d, HasDef r.erase d → DefaultsOk d ∧ RefDefaultsOk r.erase.defs d) :
    (∀ n b, RootFn r.erase n b → readRoot r.erase b ≠ .panic) ∧
    (∀ k d list old, (k, RootVal.table d list old) ∈ r.erase.defs → ∀ n b, TableFn list old n b → readTable list d b ≠ .panic) ∧
    (∀ d it, Holds r.erase d it → ∀ isMut n b, ItemFn isMut d n b → readItem r.erase.defs d it b ≠ .panic) := by
  obtain ⟨r', h1, h2⟩ := bind_inv h
  obtain ⟨_, hv, rfl⟩ := map_inv h2
  exact C70_valid_partial _ false hv (loaded_maps env he h1) (loaded_rootOk env he h1 hp) hd

end Verif.Intf
