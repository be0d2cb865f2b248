import Verif.Spec.SessionShared
import Verif.Lemmas.SessionAny
/-! # Sessions in which lists are copied on write -/
namespace Verif.Named
open Diff Core Source LinkedMap

theorem itemUnshare_keeps {d : LDef} {x y : Item} (h : ItemUnshare d x y) : FreshItem x → ItemFits d x → FreshItem y ∧ ItemFits d y := by
  induction h with
  | @list d d' values refs k id u n hk hv =>
    intro hx hf
    refine ⟨hx.put _ _ (fun _ h => nomatch h) ?_, itemFits_mil hf hk ⟨List.nodup_nil, by simp, by decide, by decide⟩ (by simp)⟩
    intro items n he
    cases he
    exact ⟨⟨List.nodup_nil, by simp⟩, by simp⟩
  | @inner d d' values refs k id u a b i x y next hk hv _ ih =>
    intro hx hf
    have f1 := hx.vals.2.1 _ _ _ (AMap.mem_of_get hv)
    have f2 := hx.vals.2.2 _ _ _ (AMap.mem_of_get hv)
    obtain ⟨g1, g2⟩ := hf.inMil hk hv
    have hm : (i, x) ∈ a ++ (i, x) :: b := List.mem_append_right _ List.mem_cons_self
    obtain ⟨e1, e2⟩ := ih (f2 _ hm) (g2 _ hm)
    refine ⟨hx.put _ _ (fun _ h => nomatch h) ?_, itemFits_mil hf hk (idsOk_inner g1) (fits_inner g2 e2)⟩
    intro items n he
    cases he
    refine ⟨freshIds_inner f1, fun e he => ?_⟩
    rcases mem_middle (x := x) he with he | rfl
    · exact f2 e he
    · exact e1

theorem rootUnshare_keeps {defs : AMap (Nat × RootValI)} {s t : AMap RootSab} (h : RootUnshare defs s t) (hf : ListsFresh s)
    (hs : RootFits defs s) : ListsFresh t ∧ RootFits defs t := by
  cases h with
  | list hk hl =>
    refine ⟨listsFresh_put hf _ _ ?_, rootFits_list hs hk ⟨List.nodup_nil, by simp, by decide, by decide⟩ (by simp)⟩
    intro l hl'
    cases hl'
    exact ⟨⟨List.nodup_nil, by simp⟩, by simp⟩
  | @inner k id d u a b i x y next hk hl hop =>
    obtain ⟨f1, f2⟩ := hf _ _ hl
    obtain ⟨g1, g2⟩ := hs.items _ _ _ _ _ (AMap.mem_of_get hl) hk
    have hm : (i, x) ∈ a ++ (i, x) :: b := List.mem_append_right _ List.mem_cons_self
    obtain ⟨e1, e2⟩ := itemUnshare_keeps hop (f2 _ hm) (g2 _ hm)
    refine ⟨listsFresh_put hf _ _ ?_, rootFits_list hs hk (idsOk_inner g1) (fits_inner g2 e2)⟩
    intro l hl'
    cases hl'
    refine ⟨freshIds_inner f1, fun e he => ?_⟩
    rcases mem_middle (x := x) he with he | rfl
    · exact f2 e he
    · exact e1

theorem sessionShared_keeps {defs : AMap (Nat × RootValI)} {s t : AMap RootSab} (h : SessionShared defs s t) (hf : ListsFresh s)
    (hs : RootFits defs s) : ListsFresh t ∧ RootFits defs t := by
  induction h with
  | start => exact ⟨hf, hs⟩
  | change _ hop ih => obtain ⟨h1, h2, _⟩ := rootChange_keeps hop ih.1 ih.2; exact ⟨h1, h2⟩
  | unshare _ hop ih => exact rootUnshare_keeps hop ih.1 ih.2

end Verif.Named
