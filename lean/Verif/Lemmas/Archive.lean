import Mathlib.Data.List.Basic
import Mathlib.Order.Basic
import Verif.Lemmas.Codec
import Verif.Spec.Archive
/-! # Sorted maps -/
namespace Verif.Archive
open Codec

variable {V : Type}

theorem strBytes_inj {a b : String} (h : strBytes a = strBytes b) : a = b := by
  have := strOfBytes_strBytes a
  rw [h, strOfBytes_strBytes] at this
  exact (Option.some.inj this).symm

theorem pathLt_iff {a b : String} : pathLt a b = true ↔ strBytes a < strBytes b := by unfold pathLt; simp

theorem bytes_trichotomy (a b : List UInt8) : a < b ∨ a = b ∨ b < a := by
  induction a generalizing b with
  | nil => cases b with
    | nil => exact .inr (.inl rfl)
    | cons y b => exact .inl (List.nil_lt_cons _ _)
  | cons x a ih => cases b with
    | nil => exact .inr (.inr (List.nil_lt_cons _ _))
    | cons y b =>
      simp only [List.cons_lt_cons_iff, List.cons.injEq]
      have hxy : x < y ∨ x = y ∨ y < x := by
        rcases Nat.lt_trichotomy x.toNat y.toNat with h | h | h
        · exact .inl (UInt8.lt_iff_toNat_lt.2 h)
        · exact .inr (.inl (UInt8.toNat_inj.1 h))
        · exact .inr (.inr (UInt8.lt_iff_toNat_lt.2 h))
      rcases hxy with h | h | h
      · exact .inl (.inl h)
      · subst h
        rcases ih b with h | h | h
        · exact .inl (.inr ⟨rfl, h⟩)
        · exact .inr (.inl ⟨rfl, h⟩)
        · exact .inr (.inr (.inr ⟨rfl, h⟩))
      · exact .inr (.inr (.inl h))

theorem bytes_irrefl (a : List UInt8) : ¬ a < a := by
  induction a with
  | nil => exact List.not_lt_nil _
  | cons x a ih =>
    rw [List.cons_lt_cons_iff]
    rintro (h | ⟨_, h⟩)
    · exact Nat.lt_irrefl _ (UInt8.lt_iff_toNat_lt.1 h)
    · exact ih h

theorem bytes_trans {a b c : List UInt8} (h : a < b) (h' : b < c) : a < c := by
  induction a generalizing b c with
  | nil =>
    cases c with
    | nil => exact absurd h' (List.not_lt_nil _)
    | cons z c => exact List.nil_lt_cons _ _
  | cons x a ih =>
    cases b with
    | nil => exact absurd h (List.not_lt_nil _)
    | cons y b =>
      cases c with
      | nil => exact absurd h' (List.not_lt_nil _)
      | cons z c =>
        rw [List.cons_lt_cons_iff] at h h' ⊢
        rcases h with h | ⟨rfl, h⟩
        · rcases h' with h' | ⟨rfl, h'⟩
          · exact .inl (UInt8.lt_iff_toNat_lt.2 (Nat.lt_trans (UInt8.lt_iff_toNat_lt.1 h) (UInt8.lt_iff_toNat_lt.1 h')))
          · exact .inl h
        · rcases h' with h' | ⟨rfl, h'⟩
          · exact .inl h'
          · exact .inr ⟨rfl, ih h h'⟩

theorem lt_of_not {a b : String} (hne : a ≠ b) (h : ¬ pathLt a b = true) : strBytes b < strBytes a := by
  rw [pathLt_iff] at h
  rcases bytes_trichotomy (strBytes a) (strBytes b) with h' | h' | h'
  · exact absurd h' h
  · exact absurd (strBytes_inj h') hne
  · exact h'

theorem mem_insert {m : List (String × V)} (hm : Sorted m) (k : String) (v : V) (x : String × V) :
    x ∈ insert k v m ↔ x = (k, v) ∨ (x ∈ m ∧ x.1 ≠ k) := by
  induction m with
  | nil => simp [insert]
  | cons e r ih =>
    have he : ∀ y ∈ r, strBytes e.1 < strBytes y.1 := (List.pairwise_cons.1 hm).1
    have hr : Sorted r := (List.pairwise_cons.1 hm).2
    unfold insert
    by_cases h1 : k = e.1
    · rw [if_pos h1]
      simp only [List.mem_cons]
      constructor
      · rintro (h | h)
        · exact .inl h
        · refine .inr ⟨.inr h, fun hk => ?_⟩
          have := he x h
          rw [hk, h1] at this
          exact bytes_irrefl _ this
      · rintro (h | ⟨h | h, hne⟩)
        · exact .inl h
        · exact absurd (by rw [h, h1]) hne
        · exact .inr h
    · rw [if_neg h1]
      by_cases h2 : pathLt k e.1 = true
      · rw [if_pos h2]
        have h2' := pathLt_iff.1 h2
        simp only [List.mem_cons]
        constructor
        · rintro (h | h | h)
          · exact .inl h
          · exact .inr ⟨.inl h, by rw [h]; exact fun hk => h1 hk.symm⟩
          · refine .inr ⟨.inr h, fun hk => ?_⟩
            have := bytes_trans h2' (he x h)
            rw [hk] at this
            exact bytes_irrefl _ this
        · rintro (h | ⟨h | h, _⟩)
          · exact .inl h
          · exact .inr (.inl h)
          · exact .inr (.inr h)
      · rw [if_neg h2]
        simp only [List.mem_cons, ih hr]
        constructor
        · rintro (h | h | ⟨h, hne⟩)
          · exact .inr ⟨.inl h, by rw [h]; exact fun hk => h1 hk.symm⟩
          · exact .inl h
          · exact .inr ⟨.inr h, hne⟩
        · rintro (h | ⟨h | h, hne⟩)
          · exact .inr (.inl h)
          · exact .inl h
          · exact .inr (.inr ⟨h, hne⟩)

theorem sorted_insert {m : List (String × V)} (hm : Sorted m) (k : String) (v : V) : Sorted (insert k v m) := by
  induction m with
  | nil => simp [insert, Sorted]
  | cons e r ih =>
    have he : ∀ y ∈ r, strBytes e.1 < strBytes y.1 := (List.pairwise_cons.1 hm).1
    have hr : Sorted r := (List.pairwise_cons.1 hm).2
    unfold insert
    by_cases h1 : k = e.1
    · rw [if_pos h1]
      subst h1
      exact List.pairwise_cons.2 ⟨he, hr⟩
    · rw [if_neg h1]
      by_cases h2 : pathLt k e.1 = true
      · rw [if_pos h2]
        have h2' := pathLt_iff.1 h2
        refine List.pairwise_cons.2 ⟨?_, hm⟩
        intro y hy
        rcases List.mem_cons.1 hy with rfl | hy
        · exact h2'
        · exact bytes_trans h2' (he y hy)
      · rw [if_neg h2]
        refine List.pairwise_cons.2 ⟨?_, ih hr⟩
        intro y hy
        rcases (mem_insert hr k v y).1 hy with rfl | ⟨hy, _⟩
        · exact lt_of_not h1 h2
        · exact he y hy

/-- Two maps with the same entries are equal. -/
theorem sorted_ext {m m' : List (String × V)} (hm : Sorted m) (hm' : Sorted m') (h : ∀ x, x ∈ m ↔ x ∈ m') : m = m' := by
  induction m generalizing m' with
  | nil =>
    cases m' with
    | nil => rfl
    | cons e r => exact absurd ((h e).2 List.mem_cons_self) (by simp)
  | cons e r ih =>
    cases m' with
    | nil => exact absurd ((h e).1 List.mem_cons_self) (by simp)
    | cons e' r' =>
      have he := (List.pairwise_cons.1 hm).1
      have he' := (List.pairwise_cons.1 hm').1
      have hee : e = e' := by
        rcases List.mem_cons.1 ((h e).1 List.mem_cons_self) with h1 | h1
        · exact h1
        · rcases List.mem_cons.1 ((h e').2 List.mem_cons_self) with h2 | h2
          · exact h2.symm
          · exact absurd (bytes_trans (he _ h2) (he' _ h1)) (bytes_irrefl _)
      subst hee
      congr 1
      refine ih (List.pairwise_cons.1 hm).2 (List.pairwise_cons.1 hm').2 fun x => ?_
      constructor
      · intro hx
        rcases List.mem_cons.1 ((h x).1 (List.mem_cons_of_mem _ hx)) with rfl | h1
        · exact absurd (he _ hx) (bytes_irrefl _)
        · exact h1
      · intro hx
        rcases List.mem_cons.1 ((h x).2 (List.mem_cons_of_mem _ hx)) with rfl | h1
        · exact absurd (he' _ hx) (bytes_irrefl _)
        · exact h1

/-- inserting all of a list -/
def insertAll (l : List (String × V)) (m : List (String × V)) : List (String × V) := l.foldl (fun m e => insert e.1 e.2 m) m

theorem sorted_insertAll (l : List (String × V)) {m : List (String × V)} (hm : Sorted m) : Sorted (insertAll l m) := by
  induction l generalizing m with
  | nil => exact hm
  | cons e r ih => exact ih (sorted_insert hm _ _)

theorem mem_insertAll (l : List (String × V)) (hl : (l.map fun e => e.1).Nodup) {m : List (String × V)} (hm : Sorted m) (x : String × V) :
    x ∈ insertAll l m ↔ x ∈ l ∨ (x ∈ m ∧ x.1 ∉ l.map fun e => e.1) := by
  induction l generalizing m with
  | nil => simp [insertAll]
  | cons e r ih =>
    rw [List.map_cons, List.nodup_cons] at hl
    have := ih hl.2 (sorted_insert hm e.1 e.2)
    unfold insertAll at this ⊢
    rw [List.foldl_cons, this, mem_insert hm]
    simp only [List.mem_cons, List.map_cons, not_or]
    constructor
    · rintro (h | ⟨h | ⟨h, hne⟩, hn⟩)
      · exact .inl (.inr h)
      · exact .inl (.inl h)
      · exact .inr ⟨h, hne, hn⟩
    · rintro ((h | h) | ⟨h, hne, hn⟩)
      · exact .inr ⟨.inl h, by rw [h]; exact hl.1⟩
      · exact .inl h
      · exact .inr ⟨.inr ⟨h, hne⟩, hn⟩

theorem sorted_nil : Sorted ([] : List (String × V)) := List.Pairwise.nil

theorem nodup_of_sorted {m : List (String × V)} (hm : Sorted m) : (m.map fun e => e.1).Nodup := by
  unfold List.Nodup
  rw [List.pairwise_map]
  exact hm.imp fun {a b} h he => by rw [he] at h; exact bytes_irrefl _ h

theorem insertAll_sorted {m : List (String × V)} (hm : Sorted m) : insertAll m [] = m :=
  sorted_ext (sorted_insertAll m sorted_nil) hm fun x => by
    rw [mem_insertAll m (nodup_of_sorted hm) sorted_nil]; simp

theorem insertAll_perm {l l' : List (String × V)} (h : l.Perm l') (hl : (l.map fun e => e.1).Nodup) : insertAll l [] = insertAll l' [] :=
  sorted_ext (sorted_insertAll l sorted_nil) (sorted_insertAll l' sorted_nil) fun x => by
    rw [mem_insertAll l hl sorted_nil, mem_insertAll l' ((h.map _).nodup_iff.1 hl) sorted_nil]
    simp [h.mem_iff]

end Verif.Archive
