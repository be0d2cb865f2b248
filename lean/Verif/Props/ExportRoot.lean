import Verif.Lemmas.ExportDef
import Verif.Props.Export
import Verif.Lemmas.ExportPrinter
import Verif.Props.Source
/-!
# C68: an object written as JSON can be read
-/
namespace Verif.Export
open Diff Core Source
open Number (RustFloat exponent)

section
variable (env : Env) (u : Json5.Uni) (pf : List Char → Option UInt64) (fromU32 : Nat → UInt64) (disp : BitVec 64 → List Char)

/-- the full statement ("That JSON can be converted back to RootObject", root_to_json.rs:16): every object is read again, with the values
that its parameters have and with the lists that it has -/
def C68_full : Prop :=
  ∀ r : Root, (∃ files, loadValid env files = .ok r) → ∃ r', reload env u pf fromU32 disp r = .ok r' ∧
    (∀ k, current r' k = current r k) ∧ ∀ k, k ∈ r'.defs.map (·.1) ↔ k ∈ r.defs.map (·.1)

/-- C68: an object whose mutable lists have no items is read again. Its parameters have their present values as defaults, its mutable lists have
the same definitions (but cannot be undefined any more), and there is nothing else: the constant lists are gone. -/
theorem C68_plain_partial (he : env.Sound) (hu : u.Sound) (hpf : ∀ s, (pf s).isSome ↔ RustFloat s) (hp : Printer disp pf) (r : Root)
    (h : Plain r) : ∃ r', reload env u pf fromU32 disp r = .ok r' ∧
      (∀ k, Back r k ((r'.defs.get k).map (·.2)) (r'.sabun.get k)) ∧ ∀ n, n ∈ r'.old ↔ n ∈ r.old := by
  obtain ⟨m, l, o, h1, h2, h3, h4, h5, ho, h6, ds, d1, d2, d3, d4⟩ := root_written (disp := disp) (pf := pf) env he hp h
  have hf := C67_means u pf fromU32 disp hu hpf _ _ h2
  have hmem : ∀ e ∈ o.default, ReadAs r e.1 e.2.2 := by
    intro e hm
    rw [d1] at hm
    rcases insAll_mem _ _ _ e hm with hm | hm
    · cases hm
    · obtain ⟨y, hy, e1⟩ := List.mem_map.1 hm
      have := d4 y hy
      simp only [Prod.mk.injEq] at e1
      rw [e1.1, e1.2] at this
      exact this
  have hperm : (env.order o.default).Perm o.default := he _
  obtain ⟨x, hx⟩ := rootHash_ok (env.order o.default) [] [] (by
    intro e hm
    rcases hmem e (hperm.mem_iff.1 hm) with ⟨p, vt, _, h⟩ | ⟨_, _, _, d', _, _, h⟩ <;> rw [h] <;> exact ⟨_, rfl⟩)
  have hro : RootOf o ⟨x.1, x.2, o.old, []⟩ := rootHash_rootOf env he ho hx rfl rfl
  obtain ⟨t, ht⟩ := rootTable_ok env he hro d1 d2
  have hro' : RootOf o ⟨x.1, x.2, o.old, t⟩ := rootHash_rootOf env he ho hx rfl rfl
  refine ⟨⟨x.1, x.2, o.old, t⟩, ?_, fun k => ?_, h6⟩
  · unfold reload
    rw [h1, Res.bind_ok]
    unfold loadText
    rw [hf, Res.bind_ok]
    simp only [h3, Res.bind_ok]
    unfold intoRoot
    rw [h4, h5]
    simp only [Option.isSome_none, Bool.false_eq_true, if_false, List.length_nil, ne_eq, not_true_eq_false]
    rw [hx, Res.bind_ok]
    have ht' : metaRoot env x.1 = .ok t := ht
    rw [ht', Res.map_ok]
  · have hkeys : k ∈ o.default.map (·.1) ↔ k ∈ names (ds.map (·.1)) := by
      rw [d1, insAll_keys]
      simp [names, Function.comp_def]
    cases hk : o.default.get k with
    | some y =>
      obtain ⟨z, sab, e1, e2, e3⟩ := hro'.member k y.1 y.2 hk
      rcases hmem _ (AMap.mem_of_get hk) with ⟨p, vt, h8, h9⟩ | ⟨i, d, un, d', h8, h9, h10⟩
      · simp only at h8 h9
        rw [h9] at e1
        cases e1
        simp only at e2 e3
        rw [e2, e3]
        exact .param h8
      · simp only at h8 h10
        rw [h10] at e1
        cases e1
        simp only at e2 e3
        rw [e2, e3]
        exact .mlist h8 h9
    | none =>
      obtain ⟨e1, e2⟩ := hro'.none k hk
      simp only at e1 e2
      rw [e1, e2]
      have hn : k ∉ names (ds.map (·.1)) := fun h => AMap.get_eq_none.1 hk (hkeys.2 h)
      rw [d3, not_or, not_not] at hn
      exact .gone hn.1 fun i d un h => hn.2 ⟨i, d, un, h⟩

/-! ## Lists -/

theorem MeansM.member {m : List (String × JV)} {l : List (String × JVal)} (h : MeansM disp pf m l) : ∀ {k : String} {v : JV}, (k, v) ∈ m →
    ∃ j, (k, j) ∈ l ∧ Means disp pf v j := by
  induction m generalizing l with
  | nil => exact fun h => nomatch h
  | cons e m ih =>
    intro k v hm
    cases h with
    | cons _ hv hr =>
      rcases List.mem_cons.1 hm with he | hm
      · cases he
        exact ⟨_, by simp, hv⟩
      · obtain ⟨j, h1, h2⟩ := ih hr hm
        exact ⟨j, by simp [h1], h2⟩

theorem MeansL.member {a : List JV} {l : List JVal} (h : MeansL disp pf a l) : ∀ {v : JV}, v ∈ a → ∃ j, j ∈ l ∧ Means disp pf v j := by
  induction a generalizing l with
  | nil => exact fun h => nomatch h
  | cons e a ih =>
    intro v hm
    cases h with
    | cons hv hr =>
      rcases List.mem_cons.1 hm with rfl | hm
      · exact ⟨_, by simp, hv⟩
      · obtain ⟨j, h1, h2⟩ := ih hr hm
        exact ⟨j, by simp [h1], h2⟩

theorem int_means_only {f : BitVec 64} {s : Option Bool} {i : List Char} (h : disp f = Number.Lit.text ⟨s, .int i⟩) (hi : Number.DecInt i) {j : JVal}
    (hm : Means disp pf (.number f) j) : ∃ n, j = .int n := by
  cases hm with
  | int => exact ⟨_, rfl⟩
  | float h1 =>
    refine absurd ?_ (int_text_no_dot s hi)
    rw [← h, h1]
    exact List.mem_append_right _ (List.mem_append_right _ (List.mem_cons_self ..))

/-- what is written for a list of the root is in the written map -/
theorem root_list_mem {r : Root} (hw : (r.defs.map (·.1)).Nodup) (hn : ∀ e ∈ r.defs, Names.Ident e.1.toList) {m : List (String × JV)}
    (h : rootToJson r = .ok (.map m)) {k : String} {id : Nat} {v : RootValI} (hm : (k, id, v) ∈ r.defs) (hv : ∀ p vt, v ≠ .param p vt)
    {s : RootSab} (hs : r.sabun.get k = some s) : ∃ j, rootListJV v s = .ok j ∧ (k, j) ∈ m := by
  unfold rootToJson at h
  obtain ⟨l, h1, h2⟩ := map_inv h
  obtain ⟨h3, h4, h5⟩ := rootMembers_keys h1
  obtain ⟨a, h6, h7⟩ := h5 k id v hm
  have hx : ∃ j, rootListJV v s = .ok j ∧ a = [(k, k, j)] := by
    cases v with
    | param p vt => exact absurd rfl (hv p vt)
    | table d t old => simp only [rootMember, hs] at h6; obtain ⟨j, h8, h9⟩ := map_inv h6; exact ⟨j, h8, h9.symm⟩
    | clist d t => simp only [rootMember, hs] at h6; obtain ⟨j, h8, h9⟩ := map_inv h6; exact ⟨j, h8, h9.symm⟩
    | mlist d t => simp only [rootMember, hs] at h6; obtain ⟨j, h8, h9⟩ := map_inv h6; exact ⟨j, h8, h9.symm⟩
  obtain ⟨j, h8, rfl⟩ := hx
  have hl : (k, k, j) ∈ l := h7 _ (by simp)
  have hk : (l.map (·.1)).Nodup := hw.sublist h3
  have hid : ∀ x ∈ l, Names.Ident x.1.toList := by
    intro x hx
    obtain ⟨e, he, e1⟩ := List.mem_map.1 (h3.subset (List.mem_map.2 ⟨x, hx, rfl⟩))
    rw [← e1]
    exact hn e he
  have hk' : (l.map (·.2.1)).Nodup := by
    refine List.Nodup.map_on ?_ (hk.of_map _)
    intro x hx y hy e
    obtain ⟨vt, e1⟩ := h4 x hx
    obtain ⟨vt', e2⟩ := h4 y hy
    rw [e1, e2] at e
    exact List.inj_on_of_nodup_map hk hx hy (withSuffix_inj (hid x hx) (hid y hy) e)
  refine ⟨j, h8, ?_⟩
  cases h2
  refine bInsert_mem_ne _ ?_ _ (((valueMap_perm l hk hk').mem_iff).2 (List.mem_map.2 ⟨_, hl, rfl⟩))
  rintro rfl
  have := nameOf_withSuffix (vt := .normal) (hid _ hl)
  simp only at this
  rw [withSuffix_normal, show nameOf "Old" = some (.system .old) by decide] at this
  simp at this

/-- An object in whose mutable list there is an item is not read again: the ids of items are written as integers and are not accepted as
ids (get_id.rs:4-10). -/
theorem C68_items (hu : u.Sound) (hpf : ∀ s, (pf s).isSome ↔ RustFloat s) (hp : Printer disp pf) (r : Root)
    (hw : (r.defs.map (·.1)).Nodup) (hn : ∀ e ∈ r.defs, Names.Ident e.1.toList) (hc : ∀ j, rootToJson r = .ok j → Clean j)
    (k : String) (id : Nat) (d : LDef) (und : Bool) (hm : (k, id, .mlist d und) ∈ r.defs) (l : List (Nat × Item)) (next : Nat)
    (hs : r.sabun.get k = some (.list (some (l, next)))) (i : Nat × Item) (hi : i ∈ l) (hb : i.1 ≤ 2 ^ 53) (r' : Root) :
    reload env u pf fromU32 disp r ≠ .ok r' := by
  intro h
  unfold reload at h
  obtain ⟨j, h1, h2⟩ := bind_inv h
  have h1' := h1
  unfold rootToJson at h1'
  obtain ⟨l', _, rfl⟩ := map_inv h1'
  obtain ⟨j', h3, h4⟩ := root_list_mem hw hn h1 hm (by simp) hs
  simp only [rootListJV, Res.ok.injEq] at h3
  subst h3
  obtain ⟨jv, h5, _⟩ := (hc _ h1).means hp
  unfold loadText at h2
  rw [C67_means u pf fromU32 disp hu hpf _ _ h5, Res.bind_ok] at h2
  cases h5 with
  | map h6 h7 =>
  simp only at h2
  obtain ⟨o, h8, _⟩ := bind_inv h2
  obtain ⟨jl, h9, h10⟩ := MeansM.member pf disp h6 h4
  obtain ⟨ds, d1, d2, _⟩ := obj_decls env _ 0 {} h8
  have hk := nameOf_withSuffix (vt := .normal) (hn _ hm)
  rw [withSuffix_normal] at hk
  obtain ⟨e, he, e1⟩ := List.mem_map.1 ((mapDecls_mem d1).2 _ _ k .normal h9 (written_iff.2 hk))
  have h11 := d2 e he
  rw [e1] at h11
  simp only at h11
  cases h10 with
  | array h12 =>
  cases h12 with
  | cons h13 h14 =>
  cases h13 with
  | string _ =>
  simp only [item, arrayVal, show tagOf "MList" = some .mlist by decide, true_or, if_true] at h11
  obtain ⟨t, h15, _⟩ := bind_inv h11
  obtain ⟨as, ms, h16, h17, _⟩ := list_shape env _ {} rfl h15
  have hj : ∃ m, JV.map m ∈ mutItemsJV l ∧ ("ID", intJV i.1) ∈ m := by
    clear hs h1 h4 h14 hc h6 h7 h8 h9 d1
    induction l with
    | nil => cases hi
    | cons x l ih =>
      rcases List.mem_cons.1 hi with rfl | hi
      · obtain ⟨a, b⟩ := i
        rw [mutItemsJV]
        cases b with
        | mk vs rs =>
          rw [itemJV]
          refine ⟨_, List.mem_cons_self .., ?_⟩
          unfold addIdRef
          dsimp only
          split
          · exact bInsert_mem_ne _ (by decide) _ (bInsert_mem _ _ _)
          · exact bInsert_mem _ _ _
      · obtain ⟨m, a, b⟩ := ih hi
        exact ⟨m, by rw [show x = (x.1, x.2) from rfl, mutItemsJV]; simp [a], b⟩
  obtain ⟨m, h18, h19⟩ := hj
  obtain ⟨jm, h20, h21⟩ := MeansL.member pf disp h14 (v := .map m) (by simp [h18])
  cases h21 with
  | map h22 _ =>
  obtain ⟨ji, h23, h24⟩ := MeansM.member pf disp h22 h19
  obtain ⟨s, di, h25, _, h26, _⟩ := hp.exact i.1 (by simpa using hb)
  obtain ⟨n, rfl⟩ := int_means_only pf disp h25 h26 h24
  rw [h16] at h20
  have h27 := List.mem_append.1 h20
  rcases h27 with h27 | h27
  · obtain ⟨x, _, hx⟩ := List.mem_map.1 h27
    cases hx
  · obtain ⟨x, h28, hx⟩ := List.mem_map.1 h27
    cases hx
    obtain ⟨o, _, h29⟩ := (forall2_mem h17).2 _ h28
    rcases obj_idOf env _ 0 {} h29 with ⟨_, h30⟩ | ⟨_, v, iv, _, h31, _, h32⟩
    · exact h30 _ h23
    · rw [← h32 _ h23] at h31
      cases h31

/-! ## What is lost -/

/-- an object with a constant list and with a mutable list without items, which has lists in its items -/
def withLists : List (String × JVal) := [("root", .map [("a", .int 7),
  ("l", .array [.string "CList", .array [.map [("b", .int 1)]], .map []]),
  ("m!", .array [.string "MList", .array [.map [("b", .int 1), ("c!", .array [.string "MilDef", .array [.map [("d", .string "x")]]])]]])])]

/-- what is needed of the object -/
def isWithLists : Res Root → Bool
  | .ok r =>
    match r.defs, r.sabun with
    | [("a", _, .param (.int (.val 7)) .normal), ("l", _, .clist _ [.mk [] []]),
      ("m", _, .mlist (.mk [("b", _, .param (.int (.val 1)) .normal), ("c", _, .milDef (.mk [("d", _, .param (.string (.val "x")) .normal)] ⟨[], _, _⟩ []) true)]
          ⟨[], _, _⟩ []) true)], [("m", .list (some ([], 0)))] => r.old.isEmpty
    | _, _ => false
  | _ => false

theorem withLists_loads : ∃ r, loadValid idEnv withLists = .ok r ∧ r.defs.map (·.1) = ["a", "l", "m"] ∧ current r "a" = some (.int (.val 7), .normal) ∧
    current r "l" = none ∧ (∃ i d, r.defs.get "l" = some (i, .clist d [.mk [] []])) ∧ (∃ i d, r.defs.get "m" = some (i, .mlist d true)) ∧ Plain r := by
  have h : isWithLists (loadValid idEnv withLists) = true := by decide +kernel
  revert h
  cases loadValid idEnv withLists with
  | ok r =>
    intro h
    obtain ⟨defs, sabun, old, table⟩ := r
    simp only [isWithLists] at h
    split at h
    · rw [List.isEmpty_iff] at h
      subst h
      have hid : ∀ s ∈ ["a", "l", "m", "b", "c", "d"], Names.Ident s.toList := by
        intro s hs
        simp only [List.mem_cons, List.not_mem_nil, or_false] at hs
        rcases hs with rfl | rfl | rfl | rfl | rfl | rfl <;>
          exact ⟨_, [], rfl, .inl (by unfold Names.Lower; decide), fun _ h => nomatch h⟩
      have hr : ∀ b o, PlainRefs ⟨[], b, o⟩ := fun b o => ⟨by simp, fun e he => (nomatch he), fun e he => nomatch he⟩
      refine ⟨_, rfl, rfl, rfl, rfl, ⟨_, _, rfl⟩, ⟨_, _, rfl⟩, (by decide : ["a", "l", "m"].Nodup), ?_, fun n hn => (nomatch hn), ?_, ?_⟩
      · intro e he
        refine hid e.1 ?_
        simp only [List.mem_cons, List.not_mem_nil, or_false] at he
        rcases he with rfl | rfl | rfl <;> simp
      · intro k id v hm
        simp only [List.mem_cons, List.not_mem_nil, or_false] at hm
        rcases hm with h | h | h <;> cases h
        · trivial
        · rfl
        · refine ⟨?_, _, rfl, ?_⟩
          · simp only [PlainDef, PlainMembers, PlainVal, and_true, hr, true_and]
            refine ⟨(by decide : ["b", "c"].Nodup), ⟨hid _ (by simp), (by decide : (1 : Int).natAbs ≤ 2 ^ 53), hid _ (by simp),
              ⟨(by decide : ["d"].Nodup), ⟨hid _ (by simp), ?_⟩, ?_⟩⟩, ?_⟩
            · show CleanStr "x"
              unfold CleanStr Json5.LineTerm
              decide
            · exact fun n hn => nomatch hn
            · exact fun n hn => nomatch hn
          · rintro x ⟨⟩
            exact ⟨rfl, by norm_num⟩
      · intro k p vt hk
        have hm := current_mem hk
        simp only [List.map_cons, List.map_nil, List.mem_cons, List.not_mem_nil, or_false] at hm
        rcases hm with rfl | rfl | rfl
        · cases hk
          show (7 : Int).natAbs ≤ 2 ^ 53
          decide
        · cases hk
        · cases hk
    · cases h
  | err => exact fun h => nomatch h
  | panic => exact fun h => nomatch h

/-- the hypotheses of C68_plain_partial hold together -/
example : ∃ (disp : BitVec 64 → List Char) (pf : List Char → Option UInt64) (r : Root), Printer disp pf ∧ (∀ s, (pf s).isSome ↔ RustFloat s) ∧
    idEnv.Sound ∧ Json5.asciiUni.Sound ∧ Plain r ∧ current r "a" = some (.int (.val 7), .normal) ∧ ∃ i d, r.defs.get "m" = some (i, .mlist d true) := by
  obtain ⟨disp, pf, h1, h2⟩ := printer_exists
  obtain ⟨r, _, _, h3, _, _, h5, h4⟩ := withLists_loads
  exact ⟨disp, pf, r, h1, h2, idEnv_sound, Json5.asciiUni_sound, h4, h3, h5⟩

/-- C68: the full statement is false: a constant list is not written. -/
theorem C68_negation (hu : u.Sound) (hpf : ∀ s, (pf s).isSome ↔ RustFloat s) (hp : Printer disp pf) : ¬ C68_full idEnv u pf fromU32 disp := by
  intro h
  obtain ⟨r, h1, h2, _, hc, ⟨i0, d0, hl⟩, _, h3⟩ := withLists_loads
  obtain ⟨r', h4, _, h5⟩ := h r ⟨_, h1⟩
  obtain ⟨r'', h6, h7, _⟩ := C68_plain_partial idEnv u pf fromU32 disp idEnv_sound hu hpf hp r h3
  rw [h4] at h6
  cases h6
  have h8 := (h5 "l").2 (by rw [h2]; simp)
  obtain ⟨y, hy⟩ := Option.isSome_iff_exists.1 (Option.isSome_iff_ne_none.2 fun h => AMap.get_eq_none.1 h h8)
  have h9 := h7 "l"
  rw [hy] at h9
  generalize r'.sabun.get "l" = sab at h9
  generalize hv : Option.map (·.2) (some y) = v at h9
  cases h9 with
  | param h => rw [hc] at h; cases h
  | mlist h => rw [hl] at h; cases h
  | gone => cases hv

/-- an object with a mutable list of one item -/
def withItem : List (String × JVal) := [("root", .map [("l", .array [.string "MList", .array [.map []], .map []])])]

/-- what is needed of the object -/
def isWithItem : Res Root → Bool
  | .ok r =>
    match r.defs, r.sabun with
    | [("l", _, .mlist (.mk [] ⟨[], _, _⟩ []) _)], [("l", .list (some ([(0, .mk [] [])], 1)))] => r.old.isEmpty
    | _, _ => false
  | _ => false

/-- C68: an object with a mutable list of one item, which is loaded from a source, is not read again. -/
theorem C68_negation_items (hu : u.Sound) (hpf : ∀ s, (pf s).isSome ↔ RustFloat s) (hp : Printer disp pf) :
    ∃ r, loadValid idEnv withItem = .ok r ∧ ∀ r', reload env u pf fromU32 disp r ≠ .ok r' := by
  have h : isWithItem (loadValid idEnv withItem) = true := by decide +kernel
  revert h
  cases loadValid idEnv withItem with
  | ok r =>
    intro h
    obtain ⟨defs, sabun, old, table⟩ := r
    simp only [isWithItem] at h
    split at h
    · rename_i x b o y
      rw [List.isEmpty_iff] at h
      subst h
      have hl : Names.Ident "l".toList := ⟨'l', [], rfl, .inl (by unfold Names.Lower; decide), fun _ h => nomatch h⟩
      have hstr : ∀ s ∈ ["MList", "NextID", "l", "Old", "ID"], CleanStr s := by
        unfold CleanStr Json5.LineTerm
        decide
      have h0 : CleanNum (i64ToF64 0) := by
        unfold CleanNum
        decide +kernel
      have h1 : CleanNum (i64ToF64 1) := by
        unfold CleanNum
        decide +kernel
      refine ⟨_, rfl, fun r' => C68_items env u pf fromU32 disp hu hpf hp _ (by simp) ?_ ?_ "l" x _ y (List.mem_singleton.2 rfl) _ _ rfl (0, .mk [] []) (by simp)
        (by norm_num) r'⟩
      · intro e he
        rw [List.mem_singleton] at he
        subst he
        exact hl
      · intro j hj
        have : rootToJson ⟨[("l", x, .mlist (.mk [] ⟨[], b, o⟩ []) y)], [("l", .list (some ([(0, .mk [] [])], 1)))], [], table⟩ =
          .ok (.map [("Old", .array []), ("l", .array [.string "MList", .array [.string "NextID", .number (i64ToF64 1)], .array [.map []],
            .map [("ID", .number (i64ToF64 0))]])]) := by
          simp [rootToJson, rootMembers, rootMember, AMap.get, rootListJV, mutItemsJV, itemJV, itemVals, ldefJV, ldefMembers, addRefOld,
            addIdRef, valueMap, btree, bInsert, setJV, bset, intJV, show "Old" < "l" by decide]
        rw [this] at hj
        cases hj
        refine .map (by decide) ?_ ?_
        · simp [hstr]
        · intro e he
          simp only [List.mem_cons, List.not_mem_nil, or_false] at he
          rcases he with rfl | rfl
          · exact .array fun v hv => nomatch hv
          · refine .array fun v hv => ?_
            simp only [List.mem_cons, List.not_mem_nil, or_false] at hv
            rcases hv with rfl | rfl | rfl | rfl
            · exact .string (hstr _ (by simp))
            · refine .array fun v hv => ?_
              simp only [List.mem_cons, List.not_mem_nil, or_false] at hv
              rcases hv with rfl | rfl
              · exact .string (hstr _ (by simp))
              · exact .number h1
            · refine .array fun v hv => ?_
              rw [List.mem_singleton] at hv
              subst hv
              exact .map (by simp) (fun e he => nomatch he) fun e he => nomatch he
            · refine .map (by simp) ?_ ?_
              · simp [hstr]
              · intro e he
                rw [List.mem_singleton] at he
                subst he
                exact .number h0
    · cases h
  | err => exact fun h => nomatch h
  | panic => exact fun h => nomatch h

/-- C68: an integer beyond 2^53 is written as another one. -/
theorem C68_negation_int (id : Nat) (vt : VType) :
    rootToJson ⟨[("a", id, .param (.int (.val (2 ^ 53 + 1))) vt)], [], [], []⟩ = rootToJson ⟨[("a", id, .param (.int (.val (2 ^ 53))) vt)], [], [], []⟩ := by
  have : getParam (.int (.val (2 ^ 53 + 1))) = getParam (.int (.val (2 ^ 53))) := by
    show JV.number (i64ToF64 (2 ^ 53 + 1)) = .number (i64ToF64 (2 ^ 53))
    rw [show i64ToF64 (2 ^ 53 + 1) = i64ToF64 (2 ^ 53) by decide +kernel]
  simp only [rootToJson, rootMembers, rootMember, AMap.get, this]

/-- C68: an undefined list and an empty list are written in the same way, and so are a list that can be undefined and one that cannot. -/
theorem C68_negation_undefined (k : String) (id : Nat) (d : LDef) (und und' : Bool) :
    rootToJson ⟨[(k, id, .mlist d und)], [(k, .list none)], [], []⟩ = rootToJson ⟨[(k, id, .mlist d und')], [(k, .list (some ([], 0)))], [], []⟩ := by
  simp [rootToJson, rootMembers, rootMember, AMap.get, rootListJV, mutItemsJV]

/-- C68: the next id of a list in an item is not written. -/
theorem C68_negation_next (l : List (Nat × Item)) (n n' : Nat) : sabJV (.mil l n) = sabJV (.mil l n') := by
  rw [sabJV, sabJV]

end

end Verif.Export
