import Verif.Lemmas.DiffLooseNamed
import Verif.Props.SessionEx
import Verif.Lemmas.HistoryPipeline
/-!
# Whatever is changed through the interface, its diff applies

C79. Items may be moved, inserted and removed without a trace, floats may go from `0.0` to `-0.0`: the diff is written, applies, and restores
everything but the order of the items, next ids and signs of zeros.
-/
namespace Verif.Named
open VarInt Codec Diff Core Source LinkedMap

section
variable {defs : AMap (Nat × RootValI)} {table : MetaTable}

/-- what a session keeps -/
theorem sessionAny_keeps {n c : Nat} (hc : c < 2 ^ 62) (hr : RootTable defs table) (hl : LevelOk n table) (hlen : defs.length < 2 ^ 62)
    (hs : ∀ k id d u, defs.get k = some (id, .mlist d u) → Sized c c d) {s t : AMap RootSab} (h : SessionAny defs s t) (hf : ListsFresh s)
    (hs' : RootFits defs s) : ListsFresh t ∧ RootFits defs t ∧ (OptUndefined defs s → OptUndefined defs t) ∧
      RootStays n (rootValsL n table s) (rootValsL n table t) := by
  have ok := rootOkF_of hc hr hl hlen hs hs' hf
  induction h with
  | start => exact ⟨hf, hs', id, RootStays.refl ok⟩
  | change _ hop ih =>
    obtain ⟨h1, h2, h3, h4⟩ := ih
    obtain ⟨h5, h6, h7⟩ := rootChange_keeps hop h1 h2
    exact ⟨h5, h6, fun ho => optUndefined_grows h7 (h3 ho), RootStays.trans ok h4 (rootStays_of hr hl h2 h6 h7)⟩

/-- **C79 (partial), objects.** The diff of a session, in which items may be moved and next ids raised, can be written. Applied to the object
before, it gives an object that fits its definition and is the object after but for the order of items, next ids and signs of zeros.
Missing: definitions with an undefiable list in the root or not `Legible` (C09, C13). -/
theorem C79_session_partial (F : Compaction.FloatOps) {n c : Nat} (hc : c < 2 ^ 62) (hr : RootTable defs table) (hl : LevelOk n table)
    (hlen : defs.length < 2 ^ 62) (hs : ∀ k id d u, defs.get k = some (id, .mlist d u) → Legible c d) (ptr : Ptr) {f t : AMap RootSab}
    (hfr : ListsFresh f) (hf : RootFits defs f) (hof : OptUndefined defs f) (h : SessionAny defs f t) :
    ∃ bytes, nGetDiff F n ptr defs table f t = .ok bytes ∧
      (bytes.length < 2 ^ 60 → ∃ res, nApplyDiff F n table f bytes = .ok res ∧ RootFits defs res ∧ ListsFresh res ∧ LooseRoot defs res t) := by
  have hc' : c < 2 ^ 62 := hc
  have hs' : ∀ k id d u, defs.get k = some (id, .mlist d u) → Sized c c d :=
    fun k id d u hk => (hs k id d u hk).sized
  obtain ⟨htr, ht, ho, hst⟩ := sessionAny_keeps hc' hr hl hlen hs' h hfr hf
  have okf := rootOkF_of hc' hr hl hlen hs' hf hfr
  have okt := rootOkF_of hc' hr hl hlen hs' ht htr
  have uf := optUndefined_of hr hl hof
  have ut := optUndefined_of hr hl (ho hof)
  obtain ⟨d, bytes, h1, h2, h3⟩ := C13_written_diff_readable_partial F n ptr (rootL n table) _ _ okf.1 okt.1 uf ut
  refine ⟨bytes, by rw [C72_get_diff F hc' hr hl hlen hs' ptr hf ht hof (ho hof)]; exact h2, fun hb => ?_⟩
  obtain ⟨vals, h4, h5⟩ := h3 hb
  rw [if_pos (rootReadable_of_legible (legibleRoot_of hr hl hs) (getRootDiff_ok okf.1 okt.1 uf ut h1))] at h5
  obtain ⟨r, e1, e2, e3, _⟩ := applyRootDiff_loose okf okf okt uf ut (RootLoose.refl okf) hst h1
  unfold nApplyDiff
  rw [h4, Res.bind_ok]
  simp only
  rw [h5, Res.bind_ok]
  have h6 := nApplyRoot_eq hr hl f d
  rw [e1] at h6
  obtain ⟨res, h7, h8⟩ := map_inv h6
  subst h8
  have hk := keptRoot_apply hr (keptRoot_fresh (keptRoot_of_fits (C := fun _ => True) hf fun _ => trivial) hfr) h7
  obtain ⟨g1, g2⟩ := root_of_okF hr hl hk e2
  exact ⟨res, h7, g1, g2, looseRoot_of hr hl g1 ht e3⟩

/-- Sessions of C73 are such sessions. -/
theorem C79_of_session {s t : AMap RootSab} (h : Session defs s t) : SessionAny defs s t := by
  induction h with
  | start => exact .start _
  | change _ hop ih => exact .change ih (.op hop)

end

/-- **C79 (partial), loaded objects.** The same for an object loaded from a source whose files are plain. -/
theorem C79_loaded_partial (F : Compaction.FloatOps) (env : Env) (he : env.Sound) (files : List (String × JVal)) (hp : ∀ e ∈ files, Plain e.2)
    (r : Source.Root) (h : loadValid env files = .ok r) (l : List Source.Decl) (hl : SourceDecls files l) (hd : Distinct l)
    (hm : ListsInMemory r.sabun) (hno : ∀ k id d, r.defs.get k ≠ some (id, .mlist d true)) {n c : Nat} (hn : LevelOk n r.table)
    (hc : c < 2 ^ 62) (hlen : r.defs.length < 2 ^ 62) (hs : ∀ k id d u, r.defs.get k = some (id, .mlist d u) → Legible c d)
    (ptr : Ptr) (t : AMap RootSab) (ht : SessionAny r.defs r.sabun t) :
    ∃ bytes, nGetDiff F n ptr r.defs r.table r.sabun t = .ok bytes ∧
      (bytes.length < 2 ^ 60 → ∃ res, nApplyDiff F n r.table r.sabun bytes = .ok res ∧ RootFits r.defs res ∧ ListsFresh res ∧
        LooseRoot r.defs res t) := by
  obtain ⟨h1, h2⟩ := C72_loaded_plain_partial env he files hp r h l hl hd hm
  obtain ⟨r', h3, h4⟩ := bind_inv h
  obtain ⟨_, hv, rfl⟩ := map_inv h4
  exact C79_session_partial F hc h1 hn hlen hs ptr (C60_plain_partial env he files hp r' h3).1 h2 (fun k id d hk => absurd hk (hno k id d)) ht

/-! ## Moving items -/

/-- the functions of `mlist_mut.rs` and `mlist_ptr.rs` that move items -/
inductive ListMove : LinkedMap.Op Item → Prop
  | first (i) : ListMove (.moveToFirst i)
  | last (i) : ListMove (.moveToLast i)
  | prev (j i) : ListMove (.moveToPrev j i)
  | next (j i) : ListMove (.moveToNext j i)

theorem perm_without {l : List (Nat × Item)} {i : Nat} {x : Nat × Item} (hn : (l.map (·.1)).Nodup) (hx : l.find? (·.1 = i) = some x) :
    (x :: l.filter (·.1 ≠ i)).Perm l := by
  have h1 := List.mem_of_find?_eq_some hx
  have h2 : x.1 = i := by simpa using List.find?_some hx
  subst h2
  obtain ⟨a, y, b, e, h3⟩ := without_split hn (List.mem_map.2 ⟨x, h1, rfl⟩)
  rw [h3]
  have hy : y = x := by
    by_contra hne
    have hm : x ∈ a ++ b := by
      rw [e, List.mem_append, List.mem_cons] at h1
      rcases h1 with h | rfl | h
      · exact List.mem_append_left _ h
      · exact absurd rfl hne
      · exact List.mem_append_right _ h
    rw [← h3, List.mem_filter] at hm
    simp at hm
  rw [e, hy]
  exact List.perm_middle.symm

theorem perm_put {l : List (Nat × Item)} {j : Nat} {x : Nat × Item} (hn : (l.map (·.1)).Nodup) (hj : j ∈ l.map (·.1)) :
    (putBefore j x l).Perm (x :: l) ∧ (putAfter j x l).Perm (x :: l) := by
  have id' : ∀ (m : List (Nat × Item)), j ∉ m.map (·.1) → putBefore j x m = m ∧ putAfter j x m = m := by
    intro m hm
    induction m with
    | nil => exact ⟨rfl, rfl⟩
    | cons y m ih =>
      simp only [List.map_cons, List.mem_cons, not_or] at hm
      have hy : ¬ y.1 = j := fun h => hm.1 h.symm
      obtain ⟨h1, h2⟩ := ih hm.2
      unfold putBefore putAfter at *
      rw [List.flatMap_cons, List.flatMap_cons, if_neg hy, if_neg hy, h1, h2]
      exact ⟨rfl, rfl⟩
  induction l with
  | nil => cases hj
  | cons y l ih =>
    simp only [List.map_cons, List.nodup_cons] at hn
    by_cases hy : y.1 = j
    · obtain ⟨h1, h2⟩ := id' l (hy ▸ hn.1)
      unfold putBefore putAfter at *
      rw [List.flatMap_cons, List.flatMap_cons, if_pos hy, if_pos hy, h1, h2]
      exact ⟨.refl _, .swap _ _ _⟩
    · simp only [List.map_cons, List.mem_cons] at hj
      obtain ⟨h1, h2⟩ := ih hn.2 (hj.resolve_left fun h => hy h.symm)
      unfold putBefore putAfter at *
      rw [List.flatMap_cons, List.flatMap_cons, if_neg hy, if_neg hy]
      exact ⟨(h1.cons y).trans (.swap _ _ _), (h2.cons y).trans (.swap _ _ _)⟩

/-- Moving an item puts the items into another order. -/
theorem move_perm {l : List (Nat × Item)} {n : Nat} (hn : (l.map (·.1)).Nodup) {op : LinkedMap.Op Item} (h : ListMove op) :
    (SList.step ⟨l, n⟩ op).1.items.Perm l ∧ (SList.step ⟨l, n⟩ op).1.nextId = n := by
  have mem : ∀ {i j x}, l.find? (·.1 = i) = some x → i ≠ j ∧ j ∈ l.map (·.1) →
      ((l.filter (·.1 ≠ i)).map (·.1)).Nodup ∧ j ∈ (l.filter (·.1 ≠ i)).map (·.1) := by
    intro i j x _ hj
    refine ⟨hn.sublist (List.filter_sublist.map _), ?_⟩
    obtain ⟨y, hy, rfl⟩ := List.mem_map.1 hj.2
    exact List.mem_map.2 ⟨y, List.mem_filter.2 ⟨hy, by simpa using fun h => hj.1 h.symm⟩, rfl⟩
  cases h with
  | first i =>
    simp only [SList.step, SList.find, SList.without]
    cases hx : l.find? (·.1 = i) with
    | none => exact ⟨.refl _, rfl⟩
    | some x => exact ⟨perm_without hn hx, rfl⟩
  | last i =>
    simp only [SList.step, SList.find, SList.without]
    cases hx : l.find? (·.1 = i) with
    | none => exact ⟨.refl _, rfl⟩
    | some x => exact ⟨(List.perm_append_singleton _ _).trans (perm_without hn hx), rfl⟩
  | prev j i =>
    simp only [SList.step, SList.find, SList.without]
    cases hx : l.find? (·.1 = i) with
    | none => exact ⟨.refl _, rfl⟩
    | some x =>
      simp only
      split
      · rename_i hj
        obtain ⟨h1, h2⟩ := mem hx hj
        exact ⟨(perm_put h1 h2).1.trans (perm_without hn hx), rfl⟩
      · exact ⟨.refl _, rfl⟩
  | next j i =>
    simp only [SList.step, SList.find, SList.without]
    cases hx : l.find? (·.1 = i) with
    | none => exact ⟨.refl _, rfl⟩
    | some x =>
      simp only
      split
      · rename_i hj
        obtain ⟨h1, h2⟩ := mem hx hj
        exact ⟨(perm_put h1 h2).2.trans (perm_without hn hx), rfl⟩
      · exact ⟨.refl _, rfl⟩

/-- **C79, the interface.** Moving an item of an inner list is such a change. -/
theorem C79_api_move {d d' : LDef} {values : AMap SabVal} {refs : AMap (Qv String)} {k : String} {id : Nat} {u : Bool} {l : List (Nat × Item)} {n : Nat}
    (hk : d.members.get k = some (id, .milDef d' u)) (hv : values.get k = some (.mil l n)) (hn : (l.map (·.1)).Nodup) (h1 : n < 2 ^ 64)
    {op : LinkedMap.Op Item} (h : ListMove op) :
    ItemChange d (.mk values refs) (.mk (values.insert k (.mil (SList.step ⟨l, n⟩ op).1.items (SList.step ⟨l, n⟩ op).1.nextId)) refs) := by
  obtain ⟨h2, h3⟩ := move_perm (n := n) hn h
  exact .arrange hk hv h2 h3.ge (h3.le.trans_lt h1)

/-- **C79, the interface.** Moving an item of a list of the root is such a change. -/
theorem C79_api_root_move {defs : AMap (Nat × RootValI)} {s : AMap RootSab} {k : String} {id : Nat} {d : LDef} {u : Bool} {l : List (Nat × Item)}
    {n : Nat} (hk : defs.get k = some (id, .mlist d u)) (hv : s.get k = some (.list (some (l, n)))) (hn : (l.map (·.1)).Nodup) (h1 : n < 2 ^ 64)
    {op : LinkedMap.Op Item} (h : ListMove op) :
    RootChange defs s (s.insert k (.list (some ((SList.step ⟨l, n⟩ op).1.items, (SList.step ⟨l, n⟩ op).1.nextId)))) := by
  obtain ⟨h2, h3⟩ := move_perm (n := n) hn h
  exact .arrange hk hv h2 h3.ge (h3.le.trans_lt h1)

/-! ## The sample -/

/-- a number is assigned, an item inserted, changed and moved to the front -/
def sampleMoved : AMap RootSab :=
  (((sampleSab.insert "y" (.param (.int (.val 7)))).insert "x" (.list (some ([(0, .mk [("p", .param (.int (.val 5)))] []), (1, .mk [] [])], 2)))).insert
    "x" (.list (some ([(0, .mk [("p", .param (.int (.val 5)))] []), (1, sampleItem)], 2)))).insert "x"
    (.list (some ([(1, sampleItem), (0, .mk [("p", .param (.int (.val 5)))] [])], 2)))

theorem sample_moved : SessionAny sampleDefs sampleSab sampleMoved := by
  have hy : sampleDefs.get "y" = some (0, .param (.int (.val 1)) .normal) := rfl
  have hx : sampleDefs.get "x" = some (1, .mlist sampleDef false) := rfl
  refine .change (.change (.change (.change (.start _) (.op (.set hy ?_))) (.op (.last hx (items := [(0, .mk [("p", .param (.int (.val 5)))] [])])
    (next := 1) rfl (by decide) (by decide)))) (.inner hx (a := [(0, .mk [("p", .param (.int (.val 5)))] [])]) (b := []) (i := 1) (x := .mk [] [])
      (y := sampleItem) (next := 2) rfl (.op (.set (p := .int (.val 0)) (id := 0) (vt := .normal) rfl ?_))))
    (C79_api_root_move (l := [(0, .mk [("p", .param (.int (.val 5)))] []), (1, sampleItem)]) (n := 2) hx rfl (by decide) (by decide) (.first 1))
  · refine ⟨rfl, trivial, ?_⟩
    show InI64 7
    unfold InI64; decide
  · refine ⟨rfl, trivial, ?_⟩
    show InI64 9
    unfold InI64; decide

/-- The sample meets every hypothesis of `C79_loaded_partial`. -/
theorem C79_sample (F : Compaction.FloatOps) (ptr : Ptr) : ∃ r, loadValid idEnv sampleSource = .ok r ∧ r.sabun = sampleSab ∧
    SessionAny r.defs r.sabun sampleMoved ∧ ∃ n bytes, nGetDiff F n ptr r.defs r.table r.sabun sampleMoved = .ok bytes ∧
      (bytes.length < 2 ^ 60 → ∃ res, nApplyDiff F n r.table r.sabun bytes = .ok res ∧ LooseRoot r.defs res sampleMoved) := by
  obtain ⟨r, h1, h2, h3⟩ := isSample_spec sample_is
  have hs : SessionAny r.defs r.sabun sampleMoved := by rw [h2, h3]; exact sample_moved
  obtain ⟨n, hn⟩ := C72_level r.table
  refine ⟨r, h1, h3, hs, n, ?_⟩
  obtain ⟨bytes, h4, h5⟩ := C79_loaded_partial F idEnv idEnv_sound sampleSource sample_plain r h1 _ sample_decls (by unfold Distinct; decide)
    (by rw [h3]; exact sample_memory)
    (by
      rw [h2]
      intro k id d h
      have hm := AMap.mem_of_get h
      simp [sampleDefs] at hm) hn (c := 11) (by decide) (by rw [h2]; decide) (by rw [h2]; exact sample_legible) ptr _ hs
  exact ⟨bytes, h4, fun hb => by obtain ⟨res, h6, _, _, h7⟩ := h5 hb; exact ⟨res, h6, h7⟩⟩

/-- ids of the items of `x` and its next id: before, after, and as restored by the diff -/
def lostRun (f t : AMap RootSab) (r : Source.Root) : Res (List (List Nat × Nat)) :=
  (nGetDiff F0 2 same r.defs r.table f t).bind fun bytes => (nApplyDiff F0 2 r.table f bytes).map fun res =>
    [f, t, res].map fun s => match s.get "x" with | some (.list (some l)) => (l.1.map (·.1), l.2) | _ => ([], 0)

/-- **What C79 leaves out is lost.** The order, if items are only moved; the next id, if an inserted item is removed again. -/
theorem C79_negation_exact :
    (loadValid idEnv sampleSource).bind (lostRun
      [("x", .list (some ([(0, .mk [] []), (1, .mk [] [])], 2)))] [("x", .list (some ([(1, .mk [] []), (0, .mk [] [])], 2)))]) =
      .ok [([0, 1], 2), ([1, 0], 2), ([0, 1], 2)] ∧
    (loadValid idEnv sampleSource).bind (lostRun
      [("x", .list (some ([(0, .mk [] [])], 1)))] [("x", .list (some ([(0, .mk [] [])], 2)))]) =
      .ok [([0], 1), ([0], 2), ([0], 1)] := by decide +kernel

end Verif.Named
