import Verif.Props.Pipeline
import Verif.Props.SessionEx
import Verif.Props.Json5
/-!
# An example for C76

Two versions of a source, as bytes. The first is loaded, changed and saved; the process of the second one loads the file.
-/
namespace Verif.Pipeline
open Codec VarInt Source Core Named Archive

/-- texts of two versions; the second one has another number -/
def text (b : Bool) : String :=
  if b then "{ y: 1, z: 2, x: ['MList', [{ p: 0, 'q!': '' }], { p: 5 }] }" else "{ y: 1, x: ['MList', [{ p: 0, 'q!': '' }], { p: 5 }] }"

/-- nothing is compressed; the hash is the number of bytes -/
def lib : Lib :=
  { env := idEnv, uni := Json5.asciiUni, pf := fun _ => none, fromU32 := fun _ => 0, float := Diff.F0, compress := some, decompress := some,
    hash := fun b => b.length % 2 ^ 128, ptr := Diff.same }

def folder (b : Bool) : List Node := [.file "root.json5" (strBytes (text b)), .file "notes.txt" [1, 2]]
def version (b : Bool) : Src := .dir "src" (folder b)

def rootJson (b : Bool) : List (String × JVal) :=
  ("y", .int 1) :: (if b then [("z", .int 2)] else []) ++
    [("x", .array [.string "MList", .array [.map [("p", .int 0), ("q!", .string "")]], .map [("p", .int 5)]])]

theorem text_json (b : Bool) : Json5.fromStr lib.uni lib.pf lib.fromU32 (text b).toList = .ok (.map (rootJson b)) := by
  cases b
  · exact Json5.isOk_eq (by decide +kernel)
  · exact Json5.isOk_eq (by decide +kernel)

theorem version_files (b : Bool) : (version b).Files lib [("src/root.json5", strBytes (text b))] := by
  refine ⟨List.pairwise_singleton _ _, fun q d => ?_⟩
  rw [holds_json]
  constructor
  · intro h
    simp only [List.mem_singleton, Prod.mk.injEq] at h
    obtain ⟨rfl, rfl⟩ := h
    refine ⟨"root.json5", by simp [folder], by decide +kernel, .inr (.inl ⟨"json5", by simp [jsonOpts], "root", by decide, by decide, by decide⟩)⟩
  · rintro ⟨n, h1, rfl, h2⟩
    simp only [folder, List.mem_cons, Node.file.injEq, List.not_mem_nil, or_false] at h1
    rcases h1 with ⟨rfl, rfl⟩ | ⟨rfl, rfl⟩
    · rw [List.mem_singleton, show join "src" "root.json5" = "src/root.json5" by decide +kernel]
    · exfalso
      rcases h2 with h2 | ⟨e, he, stem, h3, h4, h5⟩ | ⟨h2, _⟩
      · cases h2
      · simp only [jsonOpts, List.mem_singleton] at he
        subst he
        have := congrArg (fun s : String => s.toList.reverse.head?) h4
        simp only [String.toList_append, List.reverse_append] at this
        revert this
        have h6 : "json5".toList.reverse = '5' :: "nosj".toList := by decide
        have h7 : "notes.txt".toList.reverse.head? = some 't' := by decide
        rw [h6, h7]
        simp
      · simp [jsonOpts] at h2

def vDefs (b : Bool) : AMap (Nat × RootValI) :=
  ("y", 0, .param (.int (.val 1)) .normal) :: (if b then [("z", 1, .param (.int (.val 2)) .normal)] else []) ++
    [("x", if b then 2 else 1, .mlist sampleDef false)]

def isFirst (r : Res (Root × Nat)) : Bool :=
  match r with
  | .ok (⟨[(a, i0, .param p0 v0), (n, i1, .mlist (.mk [(c, j0, .param q0 w0), (d, j1, .param q1 w1)] ⟨[], en, []⟩ []) u)],
      [(g, .list (some ([(k, .mk [(h, .param q)] [])], nx)))], _, _⟩, hash) =>
    decide ((a, i0, p0, v0) = ("y", 0, .int (.val 1), .normal)) && decide ((n, i1, u, en) = ("x", 1, false, false)) &&
    decide ((c, j0, q0, w0) = ("p", 0, .int (.val 0), .normal)) && decide ((d, j1, q1, w1) = ("q", 1, .string (.val ""), .undefiable)) &&
    decide ((g, k, h, q, nx) = ("x", 0, "p", .int (.val 5), 1)) && hash == 68
  | _ => false

def isSecond (r : Res (Root × Nat)) : Bool :=
  match r with
  | .ok (⟨[(a, i0, .param p0 v0), (e, i2, .param p2 v2), (n, i1, .mlist (.mk [(c, j0, .param q0 w0), (d, j1, .param q1 w1)] ⟨[], en, []⟩ []) u)],
      [(g, .list (some ([(k, .mk [(h, .param q)] [])], nx)))], _, _⟩, hash) =>
    decide ((a, i0, p0, v0) = ("y", 0, .int (.val 1), .normal)) && decide ((n, i1, u, en) = ("x", 2, false, false)) &&
    decide ((e, i2, p2, v2) = ("z", 1, .int (.val 2), .normal)) &&
    decide ((c, j0, q0, w0) = ("p", 0, .int (.val 0), .normal)) && decide ((d, j1, q1, w1) = ("q", 1, .string (.val ""), .undefiable)) &&
    decide ((g, k, h, q, nx) = ("x", 0, "p", .int (.val 5), 1)) && hash == 74
  | _ => false

theorem isFirst_spec {r : Res (Root × Nat)} (h : isFirst r = true) : ∃ x, r = .ok (x, 68) ∧ x.defs = vDefs false ∧ x.sabun = sampleSab := by
  unfold isFirst at h
  split at h
  · simp only [Bool.and_eq_true, decide_eq_true_eq, Prod.mk.injEq, beq_iff_eq] at h
    obtain ⟨⟨⟨⟨⟨⟨rfl, rfl, rfl, rfl⟩, rfl, rfl, rfl, rfl⟩, rfl, rfl, rfl, rfl⟩, rfl, rfl, rfl, rfl⟩, rfl, rfl, rfl, rfl, rfl⟩, rfl⟩ := h
    exact ⟨_, rfl, rfl, rfl⟩
  · cases h

theorem isSecond_spec {r : Res (Root × Nat)} (h : isSecond r = true) : ∃ x, r = .ok (x, 74) ∧ x.defs = vDefs true ∧ x.sabun = sampleSab := by
  unfold isSecond at h
  split at h
  · simp only [Bool.and_eq_true, decide_eq_true_eq, Prod.mk.injEq, beq_iff_eq] at h
    obtain ⟨⟨⟨⟨⟨⟨⟨rfl, rfl, rfl, rfl⟩, rfl, rfl, rfl, rfl⟩, rfl, rfl, rfl, rfl⟩, rfl, rfl, rfl, rfl⟩, rfl, rfl, rfl, rfl⟩, rfl, rfl, rfl, rfl, rfl⟩, rfl⟩ := h
    exact ⟨_, rfl, rfl, rfl⟩
  · cases h

theorem version_root (b : Bool) : ∃ x, (version b).root lib = .ok (x, if b then 74 else 68) ∧ x.defs = vDefs b ∧ x.sabun = sampleSab :=
  match b with
  | false => isFirst_spec (by decide +kernel)
  | true => isSecond_spec (by decide +kernel)

theorem vDefs_list {b : Bool} {k : String} {id : Nat} {d : LDef} {u : Bool} (h : (vDefs b).get k = some (id, .mlist d u)) :
    d = sampleDef ∧ u = false := by
  have hm := AMap.mem_of_get h
  cases b <;> simp [vDefs] at hm <;> exact ⟨hm.2.2.1, hm.2.2.2⟩

theorem rootJson_plain (b : Bool) : Plain (.map (rootJson b)) := by
  have hx : Plain (.array [.string "MList", .array [.map [("p", .int 0), ("q!", .string "")]], .map [("p", .int 5)]]) := by
    refine .array (by simp) ?_
    simp only [List.forall_mem_cons, List.not_mem_nil, false_implies, implies_true, and_true]
    refine ⟨.string _, .array (by simp) ?_, .map (by simp [IsNumId]) ?_⟩
    · simp only [List.forall_mem_cons, List.not_mem_nil, false_implies, implies_true, and_true]
      refine .map (by simp [IsNumId]) ?_
      simp only [List.forall_mem_cons, List.not_mem_nil, false_implies, implies_true, and_true]
      exact ⟨.int _, .string _⟩
    · simp only [List.forall_mem_cons, List.not_mem_nil, false_implies, implies_true, and_true]
      exact .int _
  cases b
  · refine .map (by simp [rootJson, IsNumId]) ?_
    simp only [rootJson, Bool.false_eq_true, if_false, List.nil_append, List.cons_append, List.forall_mem_cons, List.not_mem_nil, false_implies,
      implies_true, and_true]
    exact ⟨.int _, hx⟩
  · refine .map (by simp [rootJson, IsNumId]) ?_
    simp only [rootJson, if_true, List.cons_append, List.nil_append, List.forall_mem_cons, List.not_mem_nil, false_implies, implies_true, and_true]
    exact ⟨.int _, .int _, hx⟩

theorem rootJson_decls (b : Bool) : ∃ l, SourceDecls [("root", .map (rootJson b))] l ∧ Distinct l := by
  have w : ∀ k n vt, nameOf k = some (.name n.toList vt) → Written k n vt := fun k n vt h => written_iff.2 h
  have hs : SortedFrom [] [] := ⟨.nil, fun _ => rfl⟩
  cases b
  · refine ⟨[⟨"y", .normal, _⟩, ⟨"x", .normal, _⟩], ⟨[_, _], [], ⟨rootJson false, [], List.mem_singleton.2 rfl, .member (w "y" "y" .normal (by decide))
      (.member (w "x" "x" .normal (by decide)) .nil), .root .nil, hs⟩, rfl⟩, ?_⟩
    unfold Distinct; decide
  · refine ⟨[⟨"y", .normal, _⟩, ⟨"z", .normal, _⟩, ⟨"x", .normal, _⟩], ⟨[_, _, _], [], ⟨rootJson true, [], List.mem_singleton.2 rfl,
      .member (w "y" "y" .normal (by decide)) (.member (w "z" "z" .normal (by decide)) (.member (w "x" "x" .normal (by decide)) .nil)), .root .nil, hs⟩, rfl⟩, ?_⟩
    unfold Distinct; decide

def archiveLen (b : Bool) : Nat :=
  match writeArchive [("src/root.json5", some (strBytes (text b)))] with
  | .ok o => o.length
  | _ => 0

def validNow (b : Bool) : Bool :=
  match (version b).root lib with
  | .ok (r, _) => match validateRoot r.erase false with | .ok () => true | _ => false
  | _ => false

theorem version_usable (b : Bool) : Usable lib (version b) := by
  obtain ⟨x, h1, h2, h3⟩ := version_root b
  have hx : ∀ r h, (version b).root lib = .ok (r, h) → r = x := by
    intro r h hr
    rw [h1] at hr
    cases hr
    rfl
  refine ⟨?_, ?_, ?_, ?_, ?_, ?_⟩
  · intro p es h
    cases h
    simp [folder, nodeName]
  · intro p es _ files hf
    cases files_unique hf (version_files b)
    refine ⟨by simp, ?_, ?_⟩
    · intro f hf
      rw [List.mem_singleton] at hf
      subst hf
      refine ⟨by cases b <;> decide +kernel, strBytes (text b), rfl, rfl, by cases b <;> decide +kernel⟩
    · intro out ho
      have h4 : archiveLen b < 2 ^ 63 := by cases b <;> decide +kernel
      unfold archiveLen at h4
      simp only [List.map_cons, List.map_nil, lib] at ho
      rw [ho] at h4
      exact h4
  · intro files js hf hj
    cases files_unique hf (version_files b)
    cases hj with
    | cons h4 h5 =>
      cases h5
      obtain ⟨s, h6, h7, h8⟩ := h4
      rename_i j
      obtain ⟨stem, v⟩ := j
      have hs : strOfBytes (strBytes (text b)) = some (text b) := by cases b <;> decide +kernel
      have hst : fileStem "src/root.json5" = some "root" := by decide +kernel
      simp only at h6 h7 h8
      rw [hs] at h6
      cases h6
      rw [hst] at h7
      cases h7
      rw [text_json] at h8
      cases h8
      refine ⟨?_, rootJson_decls b⟩
      intro e he
      rw [List.mem_singleton] at he
      subst he
      exact rootJson_plain b
  · intro r h hr
    have h4 : validNow b = true := by cases b <;> decide +kernel
    unfold validNow at h4
    rw [hr] at h4
    simp only at h4
    split at h4
    · assumption
    · cases h4
  · intro r h hr
    rw [hx r h hr, h2, h3]
    exact ⟨sample_memory, by cases b <;> decide⟩
  · intro r h hr
    rw [hx r h hr, h2]
    refine ⟨fun k id d hk => ?_, 11, by decide, fun k id d u hk => ?_⟩
    · cases (vDefs_list hk).2
    · rw [(vDefs_list hk).1]
      exact sample_legible "x" 1 sampleDef false rfl

/-- the versions of the example -/
def Occurs (v : Src) : Prop := ∃ b, v = version b

theorem occurs_versions : Versions lib Occurs := by
  refine ⟨?_, ?_⟩
  · rintro v ⟨b, rfl⟩
    exact version_usable b
  · rintro v v' s s' h ⟨b, rfl⟩ ⟨b', rfl⟩ h1 h2
    obtain ⟨x, e1, _⟩ := version_root b
    obtain ⟨x', e2, _⟩ := version_root b'
    rw [e1] at h1
    rw [e2] at h2
    cases h1
    have : b = b' := by
      simp only [Res.ok.injEq, Prod.mk.injEq] at h2
      revert h2
      cases b <;> cases b' <;> simp
    subst this
    rw [e1] at e2
    cases e2
    cases h2
    rfl

theorem version_session : Session (vDefs false) sampleSab sampleEnd := by
  have hy : (vDefs false).get "y" = some (0, .param (.int (.val 1)) .normal) := rfl
  have hx : (vDefs false).get "x" = some (1, .mlist sampleDef false) := rfl
  refine .change (.change (.change (.change (.start _) (.set hy ?_)) (.last hx (items := [(0, .mk [("p", .param (.int (.val 5)))] [])]) (next := 1) rfl
    (by decide) (by decide))) (.inner hx (a := [(0, .mk [("p", .param (.int (.val 5)))] [])]) (b := []) (i := 1) (x := .mk [] []) (y := sampleItem)
      (next := 2) rfl (.set (p := .int (.val 0)) (id := 0) (vt := .normal) rfl ?_)))
    (.remove hx (a := []) (b := [(1, sampleItem)]) (x := (0, .mk [("p", .param (.int (.val 5)))] [])) rfl)
  · refine ⟨rfl, trivial, ?_⟩
    show InI64 7
    unfold InI64; decide
  · refine ⟨rfl, trivial, ?_⟩
    show InI64 9
    unfold InI64; decide

theorem version_settled : RootSettled (vDefs false) sampleSab sampleEnd := by
  have hl : ∀ k id d u, (vDefs false).get k = some (id, .mlist d u) → sampleDefs.get k = some (1, .mlist sampleDef false) := by
    intro k id d u h
    have hm := AMap.mem_of_get h
    simp [vDefs] at hm
    obtain ⟨rfl, _⟩ := hm
    rfl
  have hd := @vDefs_list false
  obtain ⟨s1, s2, s3⟩ := sample_settled
  refine ⟨?_, ?_, ?_⟩
  · intro k id p vt q q' _ h
    have := AMap.mem_of_get h
    simp [sampleSab] at this
  · intro k id d u l m h hl' hm hs
    obtain ⟨rfl, rfl⟩ := hd h
    exact s2 k 1 sampleDef false l m (hl _ _ _ _ h) hl' hm hs
  · intro k id d u l m h
    obtain ⟨rfl, rfl⟩ := hd h
    exact s3 k 1 sampleDef false l m (hl _ _ _ _ h)

def diffLen : Nat :=
  match (version false).root lib with
  | .ok (r, _) =>
    match ((ops lib).diff r { r with sabun := sampleEnd }).bind encodeVals with
    | .ok out => out.length
    | _ => 0
  | _ => 0

/-- What is saved in the example. -/
theorem version_saved {r : Root} {h : Nat} (hr : (version false).root lib = .ok (r, h)) : Saved lib r { r with sabun := sampleEnd } := by
  obtain ⟨x, h1, h2, h3⟩ := version_root false
  have hrx : r = x := by
    rw [h1] at hr
    cases hr
    rfl
  subst hrx
  refine ⟨rfl, ?_, ?_, ?_⟩
  · rw [h2, h3]; exact version_session
  · rw [h2, h3]; exact version_settled
  · intro vals out hv ho
    have h4 : diffLen < 2 ^ 60 := by decide +kernel
    unfold diffLen at h4
    rw [hr] at h4
    simp only at h4
    rw [hv, Res.bind_ok, ho] at h4
    exact h4

attribute [local irreducible] dirRoot archiveDir strBytes HashDir.hashToFolderName in
open Filesys HashDir in
/-- The example meets the hypotheses of C76: a file is saved by the first version, the source is edited, the process of the second version
has started. -/
theorem C76_sample : ∃ (d : Disk {v // Occurs v}) (k : Known Root) (bad : Nat → Prop) (s s' : Root),
    Reach (opsOn lib Occurs) (Saved lib) d (some (s', 74)) k bad ∧ (version false).root lib = .ok (s, 68) ∧ (version true).root lib = .ok (s', 74) ∧
      k 68 fileA = some (some { s with sabun := sampleEnd }) ∧ ¬ bad 68 := by
  obtain ⟨s, h1⟩ : ∃ s, (version false).root lib = .ok (s, 68) := by obtain ⟨s, h, _⟩ := version_root false; exact ⟨s, h⟩
  obtain ⟨s', h2⟩ : ∃ s', (version true).root lib = .ok (s', 74) := by obtain ⟨s, h, _⟩ := version_root true; exact ⟨s, h⟩
  have hh : ∀ b, lib.hash b < 2 ^ 128 := fun b => Nat.mod_lt _ (by decide)
  let v : {v // Occurs v} := ⟨version false, false, rfl⟩
  let d0 : Disk {v // Occurs v} := ⟨v, fun _ => none⟩
  have hg := version_saved h1
  obtain ⟨c, hc⟩ := C76_archives (version_usable false)
  have hn : isReserved fileA = false := by decide +kernel
  obtain ⟨acts, ha⟩ := C76_saves idEnv_sound hh occurs_versions d0 v s 68 h1 epoch (by decide) fileA hn _ hg false c hc (.inr rfl)
  have hstart : Reach (opsOn lib Occurs) (Saved lib) d0 (some (s, 68)) (fun _ _ => none) fun _ => False := .start s 68 (.init v) h1
  have hsave := Reach.save s 68 epoch fileA _ false acts hstart hn hg ha
  let w : {v // Occurs v} := ⟨version true, true, rfl⟩
  have hedit := Reach.start s' 74 (Reach.edit w hsave) h2
  refine ⟨_, _, _, s, s', hedit, h1, h2, by simp [Known.set], ?_⟩
  rintro (h | h)
  · exact h
  · have := C40_spoiled (opsOn lib Occurs) (C76_lawful idEnv_sound hh occurs_versions) s 68 epoch fileA hn _ false d0 h1 acts _ ha acts.length 0 68
      (by decide) (by rw [cut_whole _ _ (le_refl _)]; exact h)
    rcases this.2 with ⟨c', _, h4, _⟩ | h4
    · rw [List.getElem?_eq_none (le_refl _)] at h4
      cases h4
    · exact h4 c hc

/-- the items of the list of an object, with the names of what is set -/
def view (r : Root) : List (Nat × List String) :=
  match r.sabun.get "x" with
  | some (.list (some l)) => l.1.map fun e => (e.1, e.2.values.map (·.1))
  | _ => []

open Filesys HashDir in
/-- one run, from the bytes: load the first version, save the changed object, load the file with one of the versions; the lengths of what
is written and what is loaded -/
def sampleFile (b : Bool) : Res (List Nat × List (Nat × List String)) :=
  ((version false).root lib).bind fun r => ((version b).root lib).bind fun r' =>
  let x := { r.1 with sabun := sampleEnd }
  let o := opsOn lib Occurs
  let d : Disk {v // Occurs v} := ⟨⟨version false, false, rfl⟩, fun _ => none⟩
  let acts := (save o (r.2, r.1) epoch fileA x false d).1
  (load true o (r'.2, r'.1) (hashToFolderName r.2) fileA true (runAll d acts)).map fun y =>
    (acts.map fun a => match a with | .mkdir _ => 0 | .put _ _ c => c.length, view y)

/-- The run: a folder, a time, an archive and a file are written; both versions load one item, the one with the id 1. For the second one
its string, which was never assigned, has become undefined (a finding of C18). -/
theorem C76_run : sampleFile false = .ok ([0, 12, 75, 14], [(1, ["p"])]) ∧ sampleFile true = .ok ([0, 12, 75, 14], [(1, ["p", "q"])]) := by
  decide +kernel

end Verif.Pipeline
