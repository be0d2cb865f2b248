import Verif.Lemmas.SourceRoot
/-!
# Loading the source: ids of members (C56–C59)
-/
namespace Verif.Source
open Diff Core

/-- maps iterated in the order of insertion -/
def idEnv : Env := ⟨fun m => m⟩
/-- maps iterated backwards -/
def revEnv : Env := ⟨fun m => m.reverse⟩

theorem idEnv_sound : idEnv.Sound := fun m => List.Perm.refl m
theorem revEnv_sound : revEnv.Sound := fun m => List.reverse_perm m

/-! ## C56: every member has an id of its own -/

/-- **C56, exactly what happens.** The last declaration of a name counts. A member of the root object has the number of its declaration as
its id. A member with a file of its own has as its id the number of names that were there before. -/
theorem C56_exact (env : Env) (he : env.Sound) (files : List (String × JVal)) (r : Root) (h : loadDir env files = .ok r) :
    ∃ lr lf, DeclsOf files lr lf ∧
      (∀ p d s, lr ++ lf = p ++ d :: s → d.name ∉ names s → ∃ x y sab, item env d.vt d.val = .ok x ∧ intoRootVal x = .ok (y, sab) ∧
        r.defs.get d.name = some (if p.length < lr.length then p.length else (names p).dedup.length, y)) ∧
      (∀ n, n ∉ names (lr ++ lf) → r.defs.get n = none) ∧ r.defs.length = (names (lr ++ lf)).dedup.length := by
  obtain ⟨⟨L⟩, ht⟩ := loads env he h
  refine ⟨L.rd, L.fd, L.declsOf, fun p d s hs hd => ?_, fun n hn => ?_, L.length⟩
  · obtain ⟨y, sab, ⟨x, h1, h2⟩, h3, _⟩ := L.last hs hd
    exact ⟨x, y, sab, h1, h2, h3⟩
  · rw [AMap.get_eq_none, L.keys]; exact hn

/-- **C56 for sources that declare each name once.** The ids are 0, 1, 2, … in the order of the declarations: those of the root object,
then the files by name. Each member is loaded from its own declaration, its items are stored under its name, and the table has its name and
its type at its id. -/
theorem C56_distinct_partial (env : Env) (he : env.Sound) (files : List (String × JVal)) (r : Root) (h : loadDir env files = .ok r)
    (l : List Decl) (hl : SourceDecls files l) (hd : Distinct l) :
    r.defs.length = l.length ∧ r.table.length = l.length ∧
    (∀ i d, l[i]? = some d → ∃ x y sab, item env d.vt d.val = .ok x ∧ intoRootVal x = .ok (y, sab) ∧ r.defs.get d.name = some (i, y) ∧
      r.sabun.get d.name = sab ∧ RootPlace d.name y (r.table[i]?)) ∧
    ∀ n, n ∉ names l → r.defs.get n = none := by
  obtain ⟨⟨L⟩, ht⟩ := loads env he h
  obtain ⟨lr, lf, h1, rfl⟩ := hl
  obtain ⟨rfl, rfl⟩ := L.unique h1
  obtain ⟨t, ht', htl, htp⟩ := L.table he hd
  rw [ht, Res.ok.injEq] at ht'
  subst ht'
  obtain ⟨h2, h3, _⟩ := L.distinct hd
  refine ⟨h2, by rw [htl, h2], fun i d hi => ?_, fun n hn => by rw [AMap.get_eq_none, L.keys]; exact hn⟩
  obtain ⟨y, sab, ⟨x, ha, hb⟩, hc, hs⟩ := h3 i d hi
  exact ⟨x, y, sab, ha, hb, hc, hs, htp _ _ _ (AMap.mem_of_get hc)⟩

/-- Every source that is loaded has declarations, and only one list of them. -/
theorem C56_declares (env : Env) (he : env.Sound) (files : List (String × JVal)) (r : Root) (h : loadDir env files = .ok r) :
    ∃ l, SourceDecls files l ∧ ∀ l', SourceDecls files l' → l' = l := by
  obtain ⟨⟨L⟩, _⟩ := loads env he h
  refine ⟨L.rd ++ L.fd, ⟨_, _, L.declsOf, rfl⟩, ?_⟩
  rintro l' ⟨lr, lf, h1, rfl⟩
  obtain ⟨rfl, rfl⟩ := L.unique h1
  rfl

/-- the names and ids of the members -/
def idsOf (r : Res Root) : List (String × Nat) := match r with | .ok r => r.defs.map fun e => (e.1, e.2.1) | _ => []
/-- the names in the table, by place -/
def placesOf (r : Res Root) : List (Option String) := match r with | .ok r => r.table.map fun e => e.map (·.1) | _ => []

/-- a root object with `a`, and files for `a` and `b` -/
def twice : List (String × JVal) := [("a", .int 2), ("b", .int 3), ("root", .map [("a", .int 1)])]

/-- **C56 is false.** If the root object and a file declare the same name, two members get the same id: `a` is replaced by the one of the
file, which gets the id 1, and so does `b`. The table has no place for `a` and an empty one. It is loaded and validated without an error. -/
theorem C56_negation : idsOf (loadValid idEnv twice) = [("a", 1), ("b", 1)] ∧ placesOf (loadValid idEnv twice) = [none, some "b"] := by
  decide +kernel

/-- The same with two files of the same name in different directories. -/
theorem C56_negation_files :
    idsOf (loadValid idEnv [("a", .int 2), ("root", .map []), ("a", .int 4), ("b", .int 3)]) = [("a", 1), ("b", 1)] := by decide +kernel

/-- `a` and `a?` are different keys of an object but the same name: the first declaration is lost, and its id is never used. -/
theorem C56_negation_suffix :
    idsOf (loadValid idEnv [("root", .map [("a?", .int 2), ("a", .array [.string "CList", .array [.map []]])])]) = [("a", 1)] := by
  decide +kernel

/-- A list that is replaced by a number leaves its items behind. -/
def stale : List (String × JVal) :=
  [("a", .int 2), ("b", .array [.string "CList", .array [.map []]]), ("root", .map [("a", .array [.string "MList", .array [.map []], .map []]),
    ("c", .int 0), ("d", .int 0)])]

def sabunOf (r : Res Root) : List String := match r with | .ok r => r.sabun.map (·.1) | _ => []
def isParam (n : String) (r : Res Root) : Bool :=
  match r with
  | .ok r => match r.defs.get n with | some (_, .param _ _) => true | _ => false
  | _ => false

/-- **The items of a list stay behind** if the root object declares it and a file replaces it by a number. -/
theorem C56_negation_items : isParam "a" (loadDir idEnv stale) = true ∧ sabunOf (loadDir idEnv stale) = ["a"] := by decide +kernel

/-! ### Example -/

/-- the root object of a source -/
def sampleRoot : List (String × JVal) := [("y", .int 1), ("Old", .array [.string "y"]),
    ("x", .array [.string "MList", .array [.map [("p", .int 0), ("q!", .string "")]], .map [("p", .int 5)]])]

/-- a source with two members in the root object and two files -/
def sampleSource : List (String × JVal) :=
  [("f?", .array [.string "Int", .null]), ("root", .map sampleRoot), ("e", .bool true)]

theorem sample_decls : SourceDecls sampleSource [⟨"y", .normal, .int 1⟩,
    ⟨"x", .normal, .array [.string "MList", .array [.map [("p", .int 0), ("q!", .string "")]], .map [("p", .int 5)]]⟩,
    ⟨"e", .normal, .bool true⟩, ⟨"f", .nullable, .array [.string "Int", .null]⟩] := by
  have w : ∀ k n vt, nameOf k = some (.name n.toList vt) → Written k n vt := fun k n vt h => written_iff.2 h
  refine ⟨[_, _], [_, _], ⟨_, [⟨"f", .nullable, .array [.string "Int", .null]⟩, ⟨"e", .normal, .bool true⟩], ?_,
    .member (w "y" "y" .normal (by decide)) (.special (v := .array [.string "y"]) (.inl rfl) (.member (w "x" "x" .normal (by decide)) .nil)), ?_, ?_, ?_⟩, rfl⟩
  · exact List.mem_cons_of_mem _ List.mem_cons_self
  · exact .member (by decide) (w _ _ _ (by decide)) (.root (.member (by decide) (w _ _ _ (by decide)) .nil))
  · simp only [List.pairwise_cons, List.mem_singleton, forall_eq, List.not_mem_nil, false_implies, implies_true, List.Pairwise.nil, and_true]
    decide
  · intro n
    by_cases h1 : n = "e"
    · subst h1; simp
    · by_cases h2 : n = "f"
      · subst h2; simp
      · simp [Ne.symm h1, Ne.symm h2]

example : idsOf (loadValid revEnv sampleSource) = [("x", 1), ("y", 0), ("e", 2), ("f", 3)] ∧
    placesOf (loadValid revEnv sampleSource) = [some "y", some "x", some "e", some "f"] := by decide +kernel
example : Distinct [⟨"y", .normal, .int 1⟩, ⟨"x", .normal, .null⟩, ⟨"e", .normal, .bool true⟩, ⟨"f", .nullable, .null⟩] := by unfold Distinct; decide

/-! ## C57: list definitions -/

/-- **C57.** In every list definition, at every depth, the members have distinct names and the ids 0, 1, 2, …, and so have the references. -/
theorem C57_numbered (env : Env) (he : env.Sound) (files : List (String × JVal)) (r : Root) (h : loadDir env files = .ok r) (n : String) (id : Nat)
    (y : RootValI) (hn : r.defs.get n = some (id, y)) (d : LDef) (hd : y.ldef = some d) : Numbered d := by
  obtain ⟨⟨L⟩, _⟩ := loads env he h
  exact L.good he (n, id, y) (AMap.mem_of_get hn) d hd

/-- The tables of a numbered definition can be made without a panic, and have every member that can change and every reference at its id,
at every depth. -/
theorem C57_table (env : Env) (he : env.Sound) (d : LDef) (hd : Numbered d) :
    (∃ t, metaList env d = .ok t ∧ TableOf d t) ∧ ∃ t, metaRefs env d.refs = .ok t ∧ RefsIn d.refs.refs t := by
  refine ⟨metaList_spec env he hd, ?_⟩
  obtain ⟨m, rs, o⟩ := d
  cases hd with
  | mk _ _ _ h _ _ => exact metaRefs_spec env he rs h

/-- the first list definition of a root -/
def ldefOf (n : String) (r : Res Root) : Option LDef :=
  match r with
  | .ok r => match r.defs.get n with | some (_, y) => y.ldef | none => none
  | _ => none

/-- the names and ids of the members of a list -/
def memberIds (d : Option LDef) : List (String × Nat) := match d with | some d => d.members.map fun e => (e.1, e.2.1) | none => []

example : memberIds (ldefOf "x" (loadDir idEnv sampleSource)) = [("p", 0), ("q", 1)] := by decide +kernel

/-- In a list as well, `a` and `a?` are the same name, and one of the declarations is lost. -/
theorem C57_merged : memberIds (ldefOf "l" (loadValid idEnv
    [("root", .map [("l", .array [.string "MList", .array [.map [("a", .int 1), ("a?", .string "s"), ("b", .int 2)]]])])])) = [("a", 0), ("b", 1)] := by
  decide +kernel

/-! ## C58: ids depend on the source alone -/

/-- **C58 for the root.** The ids of the members of the root do not depend on the order in which maps are iterated. -/
theorem C58_root_partial (env env' : Env) (he : env.Sound) (he' : env'.Sound) (files : List (String × JVal)) (r r' : Root)
    (h : loadDir env files = .ok r) (h' : loadDir env' files = .ok r') (n : String) : (r.defs.get n).map (·.1) = (r'.defs.get n).map (·.1) := by
  obtain ⟨⟨L⟩, _⟩ := loads env he h
  obtain ⟨⟨L'⟩, _⟩ := loads env' he' h'
  obtain ⟨e1, e2⟩ := L.unique L'.declsOf
  by_cases hn : n ∈ names (L.rd ++ L.fd)
  · obtain ⟨p, d, s, h1, rfl, h3⟩ := last_split hn
    obtain ⟨y, _, _, h4, _⟩ := L.last h1 h3
    rw [e1, e2] at h1
    obtain ⟨y', _, _, h5, _⟩ := L'.last h1 h3
    rw [h4, h5, e1]; rfl
  · have hn' : n ∉ names (L'.rd ++ L'.fd) := by rw [← e1, ← e2]; exact hn
    rw [AMap.get_eq_none.2 (by rw [L.keys]; exact hn), AMap.get_eq_none.2 (by rw [L'.keys]; exact hn')]

/-- The names of the members are the same, too. -/
theorem C58_names (env env' : Env) (he : env.Sound) (he' : env'.Sound) (files : List (String × JVal)) (r r' : Root)
    (h : loadDir env files = .ok r) (h' : loadDir env' files = .ok r') (n : String) : n ∈ r.defs.map (·.1) ↔ n ∈ r'.defs.map (·.1) := by
  have := C58_root_partial env env' he he' files r r' h h' n
  constructor
  · intro hn
    by_contra hn'
    rw [AMap.get_eq_none.2 hn'] at this
    cases hg : r.defs.get n with
    | none => exact AMap.get_eq_none.1 hg hn
    | some x => rw [hg] at this; cases this
  · intro hn
    by_contra hn'
    rw [AMap.get_eq_none.2 hn'] at this
    cases hg : r'.defs.get n with
    | none => exact AMap.get_eq_none.1 hg hn
    | some x => rw [hg] at this; cases this

/-- **C58 is false for the members of lists.** Their ids follow the order in which a hash map is iterated. The hasher of the code is fixed
(hash_m.rs:8), so this is about two implementations of the hash map, not about two runs of one program. -/
theorem C58_negation : ∃ env env' : Env, env.Sound ∧ env'.Sound ∧ memberIds (ldefOf "x" (loadValid env sampleSource)) = [("p", 0), ("q", 1)] ∧
    memberIds (ldefOf "x" (loadValid env' sampleSource)) = [("q", 0), ("p", 1)] :=
  ⟨idEnv, revEnv, idEnv_sound, revEnv_sound, by decide +kernel, by decide +kernel⟩

example : ∃ r r', loadDir idEnv sampleSource = .ok r ∧ loadDir revEnv sampleSource = .ok r' ∧
    (r.defs.get "x").map (·.1) = some 1 ∧ (r'.defs.get "x").map (·.1) = some 1 := by
  have e : ∀ q : Res Root, (match q with | .ok r => decide ((r.defs.get "x").map (·.1) = some 1) | _ => false) = true →
      ∃ r, q = .ok r ∧ (r.defs.get "x").map (·.1) = some 1 := by
    intro q hq
    cases q with
    | ok r => exact ⟨r, rfl, by simpa using hq⟩
    | err => cases hq
    | panic => cases hq
  obtain ⟨r, h1, h2⟩ := e (loadDir idEnv sampleSource) (by decide +kernel)
  obtain ⟨r', h1', h2'⟩ := e (loadDir revEnv sampleSource) (by decide +kernel)
  exact ⟨r, r', h1, h1', h2, h2'⟩

/-! ## C59: no panic -/

/-- **C59 for sources that declare each name once.** Whatever the files have in them, loading them returns an object or an error. -/
theorem C59_distinct_partial (env : Env) (he : env.Sound) (files : List (String × JVal))
    (hr : ∀ m l, ("root", .map m) ∈ files → MapDecls m l → Distinct l) (hd : ∀ l, SourceDecls files l → Distinct l) :
    loadDir env files ≠ .panic := by
  have h : All (fun _ => True) (loadDir env files) := by
    unfold loadDir
    refine (fileItems_all env he files hr).bind fun items hi _ => ?_
    cases ht : takeRoot items with
    | none => trivial
    | some p =>
      refine (memberItems_all p.2).bind fun ms hm _ => ?_
      unfold constructRoot
      simp only
      obtain ⟨L⟩ := loads_of env he hi ht hm (r := ⟨_, _, [], []⟩) rfl rfl
      obtain ⟨t, h1, _⟩ := L.table he (hd _ ⟨_, _, L.declsOf, rfl⟩)
      simp only at h1
      rw [h1]
      trivial
  exact h.ne_panic

/-- A single file never makes the loader panic, unless it is the root: every value, however odd, is loaded or refused. -/
theorem C59_values (env : Env) (he : env.Sound) (vt : VType) (v : JVal) : item env vt v ≠ .panic := (item_good env he vt v).ne_panic

/-- how a run ends: 0 with an object, 1 with an error, 2 with a panic -/
def ending {α : Type} : Res α → Nat
  | .ok _ => 0
  | .err => 1
  | .panic => 2

/-- **C59 is false.** `a`, `a?` and `b` in the root object: two names, but `b` has the id 2, and the table has two places. -/
theorem C59_negation : ending (loadDir idEnv [("root", .map [("a", .int 1), ("a?", .int 2), ("b", .int 3)])]) = 2 := by decide +kernel

/-- The same for every order of iteration. -/
theorem C59_negation_all (env : Env) (he : env.Sound) : loadDir env [("root", .map [("a", .int 1), ("a?", .int 2), ("b", .int 3)])] = .panic := by
  have ho : obj env false [("a", .int 1), ("a?", .int 2), ("b", .int 3)] 0 {} =
      .ok { default := [("a", 1, .param (.int (.val 2)) .nullable), ("b", 2, .param (.int (.val 3)) .normal)] } := by
    have h1 : nameOf "a" = some (.name ['a'] .normal) := by decide
    have h2 : nameOf "a?" = some (.name ['a'] .nullable) := by decide
    have h3 : nameOf "b" = some (.name ['b'] .normal) := by decide
    rw [obj_name h1]
    simp only [Bool.false_eq_true, if_false, item, Res.bind_ok]
    rw [obj_name h2]
    simp only [Bool.false_eq_true, if_false, item, Res.bind_ok]
    rw [obj_name h3]
    simp only [Bool.false_eq_true, if_false, item, Res.bind_ok, obj]
    rfl
  have hg := (obj_good env he false _ 0 {} TmpObj.good_empty).of_ok ho
  have hroot : intoRoot env { default := [("a", 1, .param (.int (.val 2)) .nullable), ("b", 2, .param (.int (.val 3)) .normal)] } = .panic := by
    unfold intoRoot
    rw [if_neg (by simp), if_neg (by simp)]
    cases hx : rootHash (env.order [("a", 1, RustVal.param (.int (.val 2)) .nullable), ("b", 2, .param (.int (.val 3)) .normal)]) [] [] with
    | panic => exact absurd hx (rootHash_all _ _ _).ne_panic
    | err =>
      have key : ∀ (l : List (String × Nat × RustVal)) d s, (∀ e ∈ l, ∃ p vt, e.2.2 = .param p vt) → rootHash l d s ≠ .err := by
        intro l
        induction l with
        | nil => intro d s _ h; cases h
        | cons e r ih =>
          intro d s h
          obtain ⟨k, id, v⟩ := e
          obtain ⟨p, vt, hv⟩ := h _ List.mem_cons_self
          simp only at hv
          subst hv
          exact ih _ _ fun e he => h e (List.mem_cons_of_mem _ he)
      refine absurd hx (key _ _ _ fun e hm => ?_)
      have := (he _).mem_iff.1 hm
      simp only [List.mem_cons, List.not_mem_nil, or_false] at this
      rcases this with rfl | rfl
      · exact ⟨_, _, rfl⟩
      · exact ⟨_, _, rfl⟩
    | ok x =>
      have hr := rootHash_rootOf env he hg hx (r := ⟨x.1, x.2, [], []⟩) rfl rfl
      obtain ⟨y, sab, h1, h2, _⟩ := hr.member "b" 2 (.param (.int (.val 3)) .normal) rfl
      simp only [intoRootVal, Res.ok.injEq, Prod.mk.injEq] at h1
      obtain ⟨rfl, rfl⟩ := h1
      have hlen : List.length x.1 ≤ 2 := by
        have hl := length_eq_card hr.wf
        simp only at hl
        rw [hl]
        have : (x.1.map (·.1)).toFinset = {"a", "b"} := by
          ext n
          rw [List.mem_toFinset, hr.keys n]
          simp
        rw [this]
        decide
      have := metaRoot_panic env he hr.good (AMap.mem_of_get h2) (by simp [metaRootVal]) hlen
      simp only at this
      rw [Res.bind_ok, this]
      rfl
  unfold loadDir fileItems fileItem
  rw [if_pos rfl]
  simp only
  rw [ho, Res.bind_ok, hroot]
  rfl

/-- The root object and a file that declare the same name are enough: the one of the file gets the id 1, and there is one name. -/
theorem C59_negation_file : ending (loadDir idEnv [("a", .int 2), ("root", .map [("a", .int 1)])]) = 2 := by decide +kernel

example : (∀ m l, ("root", .map m) ∈ sampleSource → MapDecls m l → Distinct l) ∧ ∀ l, SourceDecls sampleSource l → Distinct l := by
  obtain ⟨lr, lf, hs, hl⟩ := sample_decls
  have hd : Distinct (lr ++ lf) := by rw [← hl]; unfold Distinct; decide
  obtain ⟨m0, l0, h1, h2, h3, h4⟩ := hs
  have only : ∀ m, ("root", .map m) ∈ sampleSource → m = m0 := by
    have h : ∀ m, ("root", JVal.map m) ∈ sampleSource → m = sampleRoot := by
      intro m hm
      simp only [sampleSource, List.mem_cons, Prod.mk.injEq, List.not_mem_nil, or_false] at hm
      rcases hm with ⟨hm, _⟩ | ⟨_, hm⟩ | ⟨hm, _⟩
      · exact absurd hm (by decide)
      · exact JVal.map.inj hm
      · exact absurd hm (by decide)
    intro m hm
    rw [h m hm, ← h m0 h1]
  constructor
  · intro m l hm hl'
    rw [only m hm] at hl'
    rw [mapDecls_unique hl' h2]
    unfold Distinct at hd ⊢
    rw [List.map_append, List.nodup_append] at hd
    exact hd.1
  · rintro l ⟨lr', lf', ⟨m, l1, ha, hb, hc, hd'⟩, rfl⟩
    rw [only m ha] at hb
    rw [fileDecls_unique hc h3] at hd'
    rw [mapDecls_unique hb h2, sortedFrom_unique hd' h4]
    exact hd

end Verif.Source
