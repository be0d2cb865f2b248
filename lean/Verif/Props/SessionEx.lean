import Verif.Props.Session
/-!
# Examples and counterexamples for C72 and C73

Sources that are loaded, changed, compared and restored.
-/
namespace Verif.Named
open VarInt Codec Diff Core Source LinkedMap

/-- what the sample is loaded as -/
def sampleDef : LDef := .mk [("p", 0, .param (.int (.val 0)) .normal), ("q", 1, .param (.string (.val "")) .undefiable)] ⟨[], false, []⟩ []
def sampleDefs : AMap (Nat × RootValI) := [("y", 0, .param (.int (.val 1)) .normal), ("x", 1, .mlist sampleDef false),
  ("e", 2, .param (.bool (.val true)) .normal), ("f", 3, .param (.int .null) .nullable)]
def sampleSab : AMap RootSab := [("x", .list (some ([(0, .mk [("p", .param (.int (.val 5)))] [])], 1)))]

def isSample (r : Res Source.Root) : Bool :=
  match r with
  | .ok ⟨[(a, i0, .param p0 v0), (b, i1, .mlist (.mk [(c, j0, .param q0 w0), (d, j1, .param q1 w1)] ⟨[], en, []⟩ []) u), (e, i2, .param p2 v2),
      (f, i3, .param p3 v3)], [(g, .list (some ([(k, .mk [(h, .param q)] [])], n)))], _, _⟩ =>
    decide ((a, i0, p0, v0) = ("y", 0, .int (.val 1), .normal)) && decide ((b, i1, u, en) = ("x", 1, false, false)) &&
    decide ((c, j0, q0, w0) = ("p", 0, .int (.val 0), .normal)) && decide ((d, j1, q1, w1) = ("q", 1, .string (.val ""), .undefiable)) &&
    decide ((e, i2, p2, v2) = ("e", 2, .bool (.val true), .normal)) && decide ((f, i3, p3, v3) = ("f", 3, .int .null, .nullable)) &&
    decide ((g, k, h, q, n) = ("x", 0, "p", .int (.val 5), 1))
  | _ => false

theorem isSample_spec {r : Res Source.Root} (h : isSample r = true) : ∃ x, r = .ok x ∧ x.defs = sampleDefs ∧ x.sabun = sampleSab := by
  unfold isSample at h
  split at h
  · simp only [Bool.and_eq_true, decide_eq_true_eq, Prod.mk.injEq] at h
    obtain ⟨⟨⟨⟨⟨⟨⟨rfl, rfl, rfl, rfl⟩, rfl, rfl, rfl, rfl⟩, rfl, rfl, rfl, rfl⟩, rfl, rfl, rfl, rfl⟩, rfl, rfl, rfl, rfl⟩, rfl, rfl, rfl, rfl⟩, rfl, rfl, rfl, rfl, rfl⟩ := h
    exact ⟨_, rfl, rfl, rfl⟩
  · cases h


theorem sample_is : isSample (loadValid idEnv sampleSource) = true := by decide +kernel


/-- the object after a session: a number is assigned, an item inserted and changed, the first item removed -/
def sampleItem : Item := .mk [("p", .param (.int (.val 9)))] []
def sampleEnd : AMap RootSab :=
  (((sampleSab.insert "y" (.param (.int (.val 7)))).insert "x" (.list (some ([(0, .mk [("p", .param (.int (.val 5)))] []), (1, .mk [] [])], 2)))).insert
    "x" (.list (some ([(0, .mk [("p", .param (.int (.val 5)))] []), (1, sampleItem)], 2)))).insert "x" (.list (some ([(1, sampleItem)], 2)))

theorem sample_session : Session sampleDefs sampleSab sampleEnd := by
  have hy : sampleDefs.get "y" = some (0, .param (.int (.val 1)) .normal) := rfl
  have hx : sampleDefs.get "x" = some (1, .mlist sampleDef false) := rfl
  refine .change (.change (.change (.change (.start _) (.set hy ?_)) (.last hx (items := [(0, .mk [("p", .param (.int (.val 5)))] [])]) (next := 1) rfl
    (by decide) (by decide))) (.inner hx (a := [(0, .mk [("p", .param (.int (.val 5)))] [])]) (b := []) (i := 1) (x := .mk [] []) (y := sampleItem)
      (next := 2) rfl (.set (p := .int (.val 0)) (id := 0) (vt := .normal) rfl ?_)))
    (.remove hx (a := []) (b := [(1, sampleItem)]) (x := (0, .mk [("p", .param (.int (.val 5)))] [])) rfl)
  · refine ⟨rfl, trivial, ?_⟩
    show InI64 7
    unfold InI64; decide
  · refine ⟨rfl, trivial, ?_⟩
    show InI64 9
    unfold InI64; decide

theorem sample_settled : RootSettled sampleDefs sampleSab sampleEnd := by
  have hx : ∀ l, sampleSab.get "x" = some (.list (some l)) → l = ([(0, .mk [("p", .param (.int (.val 5)))] [])], 1) := by
    intro l h
    have : sampleSab.get "x" = some (.list (some ([(0, .mk [("p", .param (.int (.val 5)))] [])], 1))) := rfl
    rw [this] at h
    cases h
    rfl
  have hx' : ∀ l, sampleEnd.get "x" = some (.list (some l)) → l = ([(1, sampleItem)], 2) := by
    intro l h
    have : sampleEnd.get "x" = some (.list (some ([(1, sampleItem)], 2))) := rfl
    rw [this] at h
    cases h
    rfl
  have only : ∀ k v, sampleSab.get k = some v → k = "x" := by
    intro k v h
    have := AMap.mem_of_get h
    simp only [sampleSab, List.mem_singleton, Prod.mk.injEq] at this
    exact this.1
  refine ⟨?_, ?_, ?_⟩
  · intro k id p vt q q' _ h
    have := only k _ h
    subst this
    have h' : sampleSab.get "x" = some (.list (some ([(0, .mk [("p", .param (.int (.val 5)))] [])], 1))) := rfl
    rw [h'] at h
    cases h
  · intro k id d u l m _ hl hm hs
    have := only k _ hl
    subst this
    rw [hx l hl, hx' m hm] at hs
    exact absurd hs.1 (by decide)
  · intro k id d u l m _ hl hm x hx1 y hy1 he
    have := only k _ hl
    subst this
    rw [hx l hl] at hx1
    rw [hx' m hm] at hy1
    cases List.mem_singleton.1 hx1
    cases List.mem_singleton.1 hy1
    exact absurd he (by decide)

theorem sample_legible (k : String) (id : Nat) (d : LDef) (u : Bool) (h : sampleDefs.get k = some (id, .mlist d u)) : Legible 11 d := by
  have hm := AMap.mem_of_get h
  simp only [sampleDefs, List.mem_cons, Prod.mk.injEq, reduceCtorEq, and_false, List.not_mem_nil, or_false, false_or, RootValI.mlist.injEq] at hm
  obtain ⟨_, _, rfl, _⟩ := hm
  refine .mk (by decide) (by decide) ?_ ?_ ?_ <;>
  · intro k id d' u h
    have hm := AMap.mem_of_get h
    simp [sampleDef, LDef.members] at hm

theorem sample_plain : ∀ e ∈ sampleSource, Plain e.2 := by
  have nil : ∀ (a : List JVal), a = [] → ∀ v ∈ a, Plain v := by rintro _ rfl v h; cases h
  simp only [sampleSource, sampleRoot, List.forall_mem_cons, List.not_mem_nil, false_implies, implies_true, and_true]
  refine ⟨.array (by simp) ?_, .map ?_ ?_, .bool _⟩
  · simp only [List.forall_mem_cons, List.not_mem_nil, false_implies, implies_true, and_true]
    exact ⟨.string _, .null⟩
  · simp [IsNumId]
  · simp only [List.forall_mem_cons, List.not_mem_nil, false_implies, implies_true, and_true]
    refine ⟨.int _, .array (by simp) ?_, .array (by simp) ?_⟩
    · simp only [List.forall_mem_cons, List.not_mem_nil, false_implies, implies_true, and_true]
      exact .string _
    · simp only [List.forall_mem_cons, List.not_mem_nil, false_implies, implies_true, and_true]
      refine ⟨.string _, .array (by simp) ?_, .map (by simp [IsNumId]) ?_⟩
      · simp only [List.forall_mem_cons, List.not_mem_nil, false_implies, implies_true, and_true]
        refine .map (by simp [IsNumId]) ?_
        simp only [List.forall_mem_cons, List.not_mem_nil, false_implies, implies_true, and_true]
        exact ⟨.int _, .string _⟩
      · simp only [List.forall_mem_cons, List.not_mem_nil, false_implies, implies_true, and_true]
        exact .int _

theorem sample_memory : ListsInMemory sampleSab := by
  intro k l h
  have hm := AMap.mem_of_get h
  simp only [sampleSab, List.mem_singleton, Prod.mk.injEq, RootSab.list.injEq, Option.some.injEq] at hm
  obtain ⟨_, rfl⟩ := hm
  refine ⟨by decide, by decide, by simp, ?_⟩
  simp only [List.mem_singleton, forall_eq]
  refine .mk ?_ (fun _ _ h => nomatch h) ?_ ?_
  · intro k p h
    simp only [List.mem_singleton, Prod.mk.injEq, SabVal.param.injEq] at h
    obtain ⟨_, rfl⟩ := h
    show InI64 5
    unfold InI64
    decide
  · intro k items n h; simp at h
  · intro k items n h; simp at h

/-- The sample meets every hypothesis of `C73_loaded_partial`, and its session is restored. -/
theorem C73_sample (F : Compaction.FloatOps) (ptr : Ptr) : ∃ r, loadValid idEnv sampleSource = .ok r ∧ r.sabun = sampleSab ∧
    Session r.defs r.sabun sampleEnd ∧ ∃ n bytes, nGetDiff F n ptr r.defs r.table r.sabun sampleEnd = .ok bytes ∧
      (bytes.length < 2 ^ 60 → ∃ res, nApplyDiff F n r.table r.sabun bytes = .ok res ∧ SameRoot r.defs sampleEnd res) := by
  obtain ⟨r, h1, h2, h3⟩ := isSample_spec sample_is
  have hs : Session r.defs r.sabun sampleEnd := by rw [h2, h3]; exact sample_session
  obtain ⟨n, hn⟩ := C72_level r.table
  refine ⟨r, h1, h3, hs, n, ?_⟩
  refine C73_loaded_partial F idEnv idEnv_sound sampleSource sample_plain r h1 _ sample_decls (by unfold Distinct; decide) ?_ ?_ hn
    (c := 11) (by decide) ?_ ?_ ptr _ hs ?_
  · rw [h3]; exact sample_memory
  · rw [h2]
    intro k id d h
    have hm := AMap.mem_of_get h
    simp [sampleDefs] at hm
  · rw [h2]; decide
  · rw [h2]; exact sample_legible
  · rw [h2, h3]; exact sample_settled

/-- The sample meets the hypotheses of the theorems of C72. -/
example : ∃ r, loadValid idEnv sampleSource = .ok r ∧ RootTable r.defs r.table ∧ RootFits r.defs r.sabun ∧ RootFits r.defs sampleEnd ∧
    OptUndefined r.defs r.sabun ∧ OptUndefined r.defs sampleEnd ∧ RootStepN r.defs r.sabun sampleEnd ∧ ¬ SameRoot r.defs r.sabun sampleEnd := by
  obtain ⟨r, h1, h2, h3⟩ := isSample_spec sample_is
  have hs : Session r.defs r.sabun sampleEnd := by rw [h2, h3]; exact sample_session
  obtain ⟨h4, h5⟩ := C72_loaded_plain_partial idEnv idEnv_sound sampleSource sample_plain r h1 _ sample_decls (by unfold Distinct; decide)
    (by rw [h3]; exact sample_memory)
  obtain ⟨r', h6, h7⟩ := bind_inv h1
  obtain ⟨_, _, rfl⟩ := map_inv h7
  have hf := (C60_plain_partial idEnv idEnv_sound sampleSource sample_plain r' h6).1
  have ho : ∀ s, OptUndefined r'.defs s := by
    rw [h2]
    intro s k id d h
    have hm := AMap.mem_of_get h
    simp [sampleDefs] at hm
  refine ⟨r', h1, h4, h5, (C73_session_fits hs hf h5).2, ho _, ho _, C73_session_step hs hf h5 (by rw [h2, h3]; exact sample_settled), fun hc => ?_⟩
  have := hc.params "y" 0 (.int (.val 1)) .normal (by rw [h2]; rfl)
  rw [h3] at this
  exact absurd this (fun h => nomatch h)

/-- Bytes and results for one run of the sample. -/
def sampleRun (r : Source.Root) : Res (Bytes × List (String × Nat × Nat)) :=
  (nGetDiff F0 2 same r.defs r.table r.sabun sampleEnd).bind fun bytes => (nApplyDiff F0 2 r.table r.sabun bytes).map fun res =>
    (bytes, res.map fun e => match e.2 with | .list (some l) => (e.1, l.1.length, l.2) | .list none => (e.1, 0, 0) | .param _ => (e.1, 0, 0))

theorem C72_sample_run : (loadValid idEnv sampleSource).bind sampleRun =
    .ok ([1, 17, 1, 5, 219, 110, 174, 239, 124, 3, 7, 2, 2, 9], [("x", 1, 2), ("y", 0, 0)]) := by decide +kernel

/-! ## Enums -/

/-- a list whose items hold an entry of one of two tables; its only item holds `u` of the table `a` -/
def enumSource : List (String × JVal) := [
  ("a", .array [.string "Table", .array [.map []], .map [("ID", .string "u")]]),
  ("b", .array [.string "Table", .array [.map []], .map [("ID", .string "v")]]),
  ("root", .map [("l", .array [.string "MList", .array [.map [("Enum", .map [("a?", .null), ("b?", .null)])]],
    .map [("Enum", .map [("a", .string "u")])]])])]

/-- the stored items of the list `l` -/
def itemsOf (s : AMap RootSab) : List (Nat × Item) := match s.get "l" with | some (.list (some l)) => l.1 | _ => []
/-- change every item of the list `l` -/
def mapItems (f : Item → Item) (s : AMap RootSab) : AMap RootSab :=
  match s.get "l" with
  | some (.list (some l)) => s.insert "l" (.list (some (l.1.map fun e => (e.1, f e.2), l.2)))
  | _ => s

/-- what the items hold, before, after assigning `v` of the table `b`, and after applying the diff of this change to the object before;
and the number of references then -/
def enumRun (r : Source.Root) : Res (List (List (Option (String × String))) × List Nat) :=
  let t := mapItems (fun it => (setEnum it "b" "v").1) r.sabun
  (nGetDiff F0 2 same r.defs r.table r.sabun t).bind fun bytes => (nApplyDiff F0 2 r.table r.sabun bytes).map fun res =>
    ([r.sabun, t, res].map fun s => (itemsOf s).map fun e => getEnum e.2, (itemsOf res).map fun e => e.2.refs.length)

/-- **C73 is false for enums.** The diff of a changed enum does not say that the old entry is no longer referred to. After it is applied the
item refers to both, and the one that is found first in the hash map is read: here the old one. -/
theorem C73_negation_enum : (loadValid idEnv enumSource).bind enumRun = .ok ([[some ("a", "u")], [some ("b", "v")], [some ("a", "u")]], [2]) := by
  decide +kernel

/-- what validation says about the item before, after the change, and as restored -/
def enumValid (r : Source.Root) : Res (List Nat) :=
  let t := mapItems (fun it => (setEnum it "b" "v").1) r.sabun
  (nGetDiff F0 2 same r.defs r.table r.sabun t).bind fun bytes => (nApplyDiff F0 2 r.table r.sabun bytes).map fun res =>
    [r.sabun, t, res].map fun s => match validateRoot { r.erase with sabun := s } false with | .ok _ => 0 | .err => 1 | .panic => 2

/-- Validation would refuse the restored object, but is not done after diffs are applied. -/
theorem C73_negation_enum_invalid : (loadValid idEnv enumSource).bind enumValid = .ok [0, 0, 1] := by decide +kernel

end Verif.Named
