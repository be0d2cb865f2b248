import Verif.Lemmas.DiffNamedFits
import Verif.Props.Pipeline
import Verif.Props.SessionEx
/-!
# Property C77: what comes out of a save file fits its definition, whatever the bytes are

A save file is not checked after its diff is applied. The theorems say what holds nevertheless, and what does not.
-/
namespace Verif.Named
open VarInt Codec Diff Core Source LinkedMap

section
variable {defs : AMap (Nat × RootValI)} {table : MetaTable}

/-- **C77.** Whatever bytes are read as a diff and applied to an object that fits its definition: if an object comes out, it fits as
well. Every stored name is declared and stored once, values have their declared types, null and undefined occur only where they may, no
mutable list is missing, no list has an id twice. That numbers and lengths fit the memory is all that is assumed about the result. -/
theorem C77_fits (F : Compaction.FloatOps) {n : Nat} (hr : RootTable defs table) (hl : LevelOk n table) {s res : AMap RootSab}
    (hf : RootFits defs s) {bytes : Bytes} (h : nApplyDiff F n table s bytes = .ok res) (hm : RootInMemory res) : RootFits defs res := by
  unfold nApplyDiff at h
  obtain ⟨vals, _, h⟩ := bind_inv h
  obtain ⟨⟨df, rest⟩, h1, h2⟩ := bind_inv h
  have hty : RootTy n (rootL n table) (rootValsL n table res) := by
    refine applyRootDiff_ty (rootTy_of_fits hr hl hf) (readRoot_ty F n _ _ _ _ h1) ?_
    have := nApplyRoot_eq hr hl s df
    simp only at h2
    rw [h2] at this
    exact this.symm
  exact rootFits_of_ty hr hl (keptRoot_apply hr (keptRoot_of_fits (C := fun _ => True) hf fun _ => trivial) h2) hty hm

end
end Verif.Named

namespace Verif.Pipeline
open Codec VarInt Source Core Named Archive

section
variable {L : Lib}

/-- what is loaded from a usable version has a table and fits -/
theorem usable_fits (he : L.env.Sound) {v : Src} (hu : Usable L v) {a : Root} {h : Nat} (hr : v.root L = .ok (a, h)) :
    RootTable a.defs a.table ∧ RootFits a.defs a.sabun ∧ ListsFresh a.sabun := by
  obtain ⟨files, f1, f2, _⟩ := root_inv hu.names hr
  obtain ⟨js, f3, f4⟩ := tree_inv f2
  obtain ⟨hp, l, hl, hd⟩ := hu.json files js f1 f3
  have hval : loadValid L.env js = .ok a := by
    unfold loadValid
    rw [f4, Res.bind_ok, hu.valid a h hr]
    rfl
  obtain ⟨hm, hlen⟩ := hu.memory a h hr
  obtain ⟨h1, h2⟩ := C72_loaded_plain_partial L.env he js hp a hval l hl hd hm
  exact ⟨h1, h2, (C60_plain_partial L.env he js hp a f4).1⟩

open Filesys HashDir in
/-- **C77, files.** A process that has loaded a usable version loads a file of this version, with any content: definitions and tables
stay, and what is stored fits. -/
theorem C77_file {V : Type} (checked : Bool) (he : L.env.Sound) {v : Src} (hu : Usable L v) {a : Root} {h : Nat} (hr : v.root L = .ok (a, h))
    (d : Disk V) (o : FsOps V Root) (ho : o.app = (ops L).app) (folder name : Bytes) (validation : Bool)
    (hh : folderNameToHash checked folder = .ok (some h)) {y : Root} (hy : load checked o (h, a) folder name validation d = .ok y)
    (hm : RootInMemory y.sabun) : y = { a with sabun := y.sabun } ∧ RootFits a.defs y.sabun := by
  obtain ⟨h1, h2, _⟩ := usable_fits he hu hr
  unfold load at hy
  rw [hh, Res.bind_ok] at hy
  obtain ⟨b, hb, hy⟩ := bind_inv hy
  have hba : b = a := by
    unfold loadBase at hb
    simp only [if_true] at hb
    cases hb
    rfl
  subst hba
  cases hc : d.read folder name with
  | none => rw [hc] at hy; cases hy
  | some c =>
    rw [hc] at hy
    obtain ⟨⟨vals, rest⟩, g1, hy⟩ := bind_inv hy
    obtain ⟨x, g2, hy⟩ := bind_inv hy
    simp only [ne_eq, not_true_eq_false, if_false, Res.ok.injEq] at hy
    subst hy
    rw [ho] at g2
    change applyVals L _ b vals = _ at g2
    have g3 := g2
    unfold applyVals at g3
    obtain ⟨⟨df, r⟩, g4, g5⟩ := bind_inv g3
    obtain ⟨s, g6, rfl⟩ := map_inv g5
    refine ⟨rfl, C77_fits L.float h1 (levelOk_depth b.table) h2 (bytes := c) ?_ hm⟩
    unfold nApplyDiff
    rw [g1, Res.bind_ok, g4, Res.bind_ok]
    exact g6

end
end Verif.Pipeline

namespace Verif.Named
open VarInt Codec Diff Core Source LinkedMap

/-- a file that says that the next id is 0, and a number of the item with the id 0 -/
def badNext : Bytes := [1, 11, 1, 3, 223, 95, 190, 2, 6]

/-- the list of the sample after a diff is applied, and the numbers of its items -/
def listAfter (bytes : Bytes) (r : Source.Root) : Res (List (Nat × List Param) × Nat) :=
  (nApplyDiff F0 2 r.table r.sabun bytes).bind fun res =>
    match res.get "x" with
    | some (.list (some l)) => .ok (l.1.map fun e => (e.1, e.2.values.filterMap fun v => match v.2 with | .param p => some p | _ => none), l.2)
    | _ => .err

/-- what becomes of a list with one item whose next id is that of the item, when an item is inserted and the list is walked -/
def insertAndWalk (l : List (Nat × List Param) × Nat) : Res (List (Nat × List Param)) :=
  (construct l.1 l.2).bind fun m => (m.insertLast []).bind fun r => r.1.iterAll

/-- **C77 does not hold for the next ids.** They are taken from the file as they are. The file above is loaded without an error; when an
item is inserted into the list, it is given the id of the one that is there, whose memory is freed while the list still leads to it:
walking over the list reads freed memory. -/
theorem C77_negation_next : (loadValid idEnv sampleSource).bind (listAfter badNext) = .ok ([(0, [.int (.val 6)])], 0) ∧
    insertAndWalk ([(0, [.int (.val 6)])], 0) = .panic := by
  decide +kernel

/-- the stored values of the sample after the file above -/
def badSab : AMap RootSab := [("x", .list (some ([(0, .mk [("p", .param (.int (.val 6)))] [])], 0)))]

def isBad (r : Res (AMap RootSab)) : Bool :=
  match r with
  | .ok [(g, .list (some ([(k, .mk [(h, .param q)] [])], n)))] => decide ((g, k, h, q, n) = ("x", 0, "p", .int (.val 6), 0))
  | _ => false

theorem isBad_spec {r : Res (AMap RootSab)} (h : isBad r = true) : r = .ok badSab := by
  unfold isBad at h
  split at h
  · simp only [decide_eq_true_eq, Prod.mk.injEq] at h
    obtain ⟨rfl, rfl, rfl, rfl, rfl⟩ := h
    rfl
  · cases h

/-- The sample and the file above meet the hypotheses of `C77_fits`. -/
example : ∃ r res, loadValid idEnv sampleSource = .ok r ∧ nApplyDiff F0 2 r.table r.sabun badNext = .ok res ∧ RootTable r.defs r.table ∧
    RootFits r.defs r.sabun ∧ RootInMemory res ∧ ¬ ListsFresh res := by
  obtain ⟨r, h1, h2, h3⟩ := isSample_spec sample_is
  obtain ⟨h4, h5⟩ := C72_loaded_plain_partial idEnv idEnv_sound sampleSource sample_plain r h1 _ sample_decls (by unfold Distinct; decide)
    (by rw [h3]; exact sample_memory)
  have h6 : isBad ((loadValid idEnv sampleSource).bind fun r => nApplyDiff F0 2 r.table r.sabun badNext) = true := by decide +kernel
  have h7 := isBad_spec h6
  rw [h1, Res.bind_ok] at h7
  refine ⟨r, badSab, h1, h7, h4, h5, ⟨?_, ?_⟩, fun hc => ?_⟩
  · intro k p h
    have hm := AMap.mem_of_get h
    simp [badSab] at hm
  · intro k l h
    have hm := AMap.mem_of_get h
    simp only [badSab, List.mem_singleton, Prod.mk.injEq, RootSab.list.injEq, Option.some.injEq] at hm
    obtain ⟨_, rfl⟩ := hm
    refine ⟨by decide, by decide, by simp, ?_⟩
    simp only [List.mem_singleton, forall_eq]
    refine .mk ?_ (fun _ _ h => nomatch h) ?_ ?_
    · intro k p h
      simp only [List.mem_singleton, Prod.mk.injEq, SabVal.param.injEq] at h
      obtain ⟨_, rfl⟩ := h
      show InI64 6
      unfold InI64
      decide
    · intro k items n h; simp at h
    · intro k items n h; simp at h
  · have := (hc "x" _ rfl).1.2 0 (by simp)
    exact absurd this (by decide)

end Verif.Named
