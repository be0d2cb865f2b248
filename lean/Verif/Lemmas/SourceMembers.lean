import Verif.Lemmas.SourceRoot
import Verif.Lemmas.SourceItems
/-! # Lemmas about the members of items and of list definitions -/
namespace Verif.Source
open Diff Core

theorem sabMap_members : ∀ (l : List (String × Nat × RustVal)) (m : AMap SabVal) {m' : AMap SabVal}, (l.map (·.1)).Nodup → sabMap l m = .ok m' →
    (∀ k id v, (k, id, v) ∈ l → ∃ s, intoSabVal v = .ok s ∧ m'.get k = some s) ∧ (∀ k, k ∉ l.map (·.1) → m'.get k = m.get k) ∧ (m.Wf → m'.Wf)
  | [], m, m', _, h => by
    simp only [sabMap, Res.ok.injEq] at h
    subst h
    exact ⟨(fun _ _ _ h => (nomatch h)), fun _ _ => rfl, fun h => h⟩
  | (k, id, v) :: r, m, m', hn, h => by
    simp only [sabMap] at h
    obtain ⟨s, hs, h⟩ := bind_inv h
    simp only [List.map_cons, List.nodup_cons] at hn
    obtain ⟨h1, h2, h3⟩ := sabMap_members r _ hn.2 h
    refine ⟨fun k' id' v' hm => ?_, fun k' hk' => ?_, fun hw => h3 (hw.insert _ _)⟩
    · rcases List.mem_cons.1 hm with e | hm
      · cases e
        exact ⟨s, hs, by rw [h2 k hn.1, AMap.get_insert_self]⟩
      · exact h1 k' id' v' hm
    · simp only [List.map_cons, List.mem_cons, not_or] at hk'
      rw [h2 k' hk'.2, AMap.get_insert_ne _ _ hk'.1]

theorem defMap_members : ∀ (l : List (String × Nat × RustVal)) (c : Nat) (m : AMap (Nat × LDefVal)) {m' : AMap (Nat × LDefVal)}, (l.map (·.1)).Nodup →
    defMap l c m = .ok m' →
    (∀ k id v, (k, id, v) ∈ l → ∃ i s, intoDefVal v = .ok s ∧ m'.get k = some (i, s)) ∧ (∀ k, k ∉ l.map (·.1) → m'.get k = m.get k)
  | [], c, m, m', _, h => by
    simp only [defMap, Res.ok.injEq] at h
    subst h
    exact ⟨(fun _ _ _ h => (nomatch h)), fun _ _ => rfl⟩
  | (k, id, v) :: r, c, m, m', hn, h => by
    simp only [defMap] at h
    obtain ⟨s, hs, h⟩ := bind_inv h
    simp only [List.map_cons, List.nodup_cons] at hn
    obtain ⟨h1, h2⟩ := defMap_members r _ _ hn.2 h
    refine ⟨fun k' id' v' hm => ?_, fun k' hk' => ?_⟩
    · rcases List.mem_cons.1 hm with e | hm
      · cases e
        exact ⟨c, s, hs, by rw [h2 k hn.1, AMap.get_insert_self]⟩
      · exact h1 k' id' v' hm
    · simp only [List.map_cons, List.mem_cons, not_or] at hk'
      rw [h2 k' hk'.2, AMap.get_insert_ne _ _ hk'.1]

/-- the members of an object, by the declarations -/
theorem obj_members (env : Env) (he : env.Sound) {m : List (String × JVal)} {o : TmpObj} (h : obj env false m 0 {} = .ok o) :
    ∃ l, MapDecls m l ∧ ((env.order o.default).map (·.1)).Nodup ∧
      (∀ p d s, l = p ++ d :: s → d.name ∉ names s → ∃ x, item env d.vt d.val = .ok x ∧ (d.name, p.length, x) ∈ env.order o.default) ∧
      ∀ n, n ∉ names l → n ∉ (env.order o.default).map (·.1) := by
  obtain ⟨l, h1, h2, h3⟩ := obj_decls env m 0 {} h
  have hw : o.default.Wf := by rw [h3]; exact insAll_wf _ _ _ (by simp [AMap.Wf])
  have hp : (env.order o.default).Perm o.default := he _
  refine ⟨_, h1, (hp.map _).nodup_iff.2 hw, ?_, fun n hn hm => ?_⟩
  · intro p d s hl hd
    obtain ⟨p', q, hl1, hp', hq⟩ := List.map_eq_append_iff.1 hl
    obtain ⟨e, s', rfl, rfl, hs'⟩ := List.map_eq_cons_iff.1 hq
    have hx := h2 e (by rw [hl1]; simp)
    refine ⟨e.2, hx, hp.mem_iff.2 (AMap.mem_of_get ?_)⟩
    have hlen : p.length = p'.length := by rw [← hp']; simp
    rw [h3, hl1, List.map_append, List.map_cons, insAll_get_last]
    · simp [hlen]
    · rw [← hs'] at hd
      simpa [names, Function.comp_def] using hd
  · rw [(hp.map _).mem_iff, h3, insAll_keys] at hm
    rcases hm with hm | hm
    · cases hm
    · exact hn (by simpa [names, Function.comp_def] using hm)

end Verif.Source
