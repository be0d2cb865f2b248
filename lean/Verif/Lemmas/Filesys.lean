import Verif.Spec.Filesys
import Verif.Props.HashDir
import Verif.Props.Codec
/-! # Lemmas on save files -/
namespace Verif.Filesys
open Codec VarInt HashDir

section
variable {V S : Type} {Good Same : S → S → Prop}

theorem runAll_append (d : Disk V) (a b : List Act) : runAll d (a ++ b) = runAll (runAll d a) b := List.foldl_append

theorem runAll_src (d : Disk V) (a : List Act) : (runAll d a).src = d.src := by
  induction a generalizing d with
  | nil => rfl
  | cons x a ih => rw [runAll, List.foldl_cons]; change (runAll _ a).src = _; rw [ih]; cases x <;> rfl

theorem cut_whole (a : List Act) (n : Nat) {i : Nat} (h : a.length ≤ i) : cut a i n = a := by
  unfold cut
  rw [List.take_of_length_le h, List.getElem?_eq_none h, List.append_nil]

theorem cut_left (a b : List Act) (n : Nat) {i : Nat} (h : i < a.length) : cut (a ++ b) i n = cut a i n := by
  unfold cut
  rw [List.take_append_of_le_length (by omega), List.getElem?_append_left h]

theorem cut_last (a : List Act) (f nm b : Bytes) (n : Nat) : cut (a ++ [.put f nm b]) a.length n = a ++ [.put f nm (b.take n)] := by
  unfold cut
  rw [List.take_append_of_le_length (by omega), List.take_length, List.getElem?_append_right (by omega), Nat.sub_self]
  rfl

/-- Files with reserved names are written to the folder. -/
def Tame (f : Bytes) (acts : List Act) : Prop := ∀ a ∈ acts, ∃ nm b, a = .put f nm b ∧ isReserved nm = true

/-- The same, after the folder was made, if it was missing. -/
def Prep (f : Bytes) (d : Disk V) (acts : List Act) : Prop :=
  Tame f acts ∨ (d.dirs f = none ∧ ∃ t, acts = .mkdir f :: t ∧ Tame f t)

theorem Tame.cut {f : Bytes} {acts : List Act} (h : Tame f acts) (i n : Nat) : Tame f (cut acts i n) := by
  intro a ha
  unfold Filesys.cut at ha
  rcases List.mem_append.1 ha with ha | ha
  · exact h a (List.mem_of_mem_take ha)
  · split at ha
    · rename_i g nm b he
      obtain ⟨nm', b', h1, h2⟩ := h _ (List.mem_of_getElem? he)
      cases h1
      rw [List.mem_singleton] at ha
      exact ⟨_, _, ha, h2⟩
    · cases ha

theorem Prep.cut {f : Bytes} {d : Disk V} {acts : List Act} (h : Prep f d acts) (i n : Nat) : Prep f d (cut acts i n) := by
  rcases h with h | ⟨h0, t, rfl, h⟩
  · exact Or.inl (h.cut i n)
  · cases i with
    | zero => left; intro a ha; simp [Filesys.cut] at ha
    | succ i =>
      refine Or.inr ⟨h0, Filesys.cut t i n, ?_, h.cut i n⟩
      simp [Filesys.cut]

theorem put_read (d : Disk V) (f nm b g y : Bytes) :
    (Act.run d (.put f nm b)).read g y = if g = f ∧ y = nm ∧ (d.dirs f).isSome then some b else d.read g y := by
  unfold Disk.read Act.run
  by_cases hg : g = f
  · subst hg
    cases hd : d.dirs g with
    | none => simp [hd]
    | some x => by_cases hy : y = nm <;> simp [hd, hy]
  · simp [hg]

theorem put_other (d : Disk V) (f nm b g : Bytes) (h : g ≠ f) : (Act.run d (.put f nm b)).dirs g = d.dirs g := by
  simp [Act.run, h]

theorem put_some (d : Disk V) (f nm b g : Bytes) : ((Act.run d (.put f nm b)).dirs g).isSome = (d.dirs g).isSome := by
  simp only [Act.run]
  split
  · simp
  · rfl

theorem Tame.run {f : Bytes} {acts : List Act} (h : Tame f acts) (d : Disk V) :
    (∀ g, g ≠ f → (runAll d acts).dirs g = d.dirs g) ∧
      (∀ nm, isReserved nm = false → (runAll d acts).read f nm = d.read f nm) ∧
      (∀ g, ((runAll d acts).dirs g).isSome = (d.dirs g).isSome) := by
  induction acts generalizing d with
  | nil => exact ⟨fun _ _ => rfl, fun _ _ => rfl, fun _ => rfl⟩
  | cons a r ih =>
    obtain ⟨nm, b, rfl, hres⟩ := h a (by simp)
    obtain ⟨h1, h2, h3⟩ := ih (fun x hx => h x (by simp [hx])) (Act.run d (.put f nm b))
    refine ⟨fun g hg => (h1 g hg).trans (put_other _ _ _ _ _ hg), fun y hy => (h2 y hy).trans ?_, fun g => (h3 g).trans (put_some _ _ _ _ _)⟩
    rw [put_read, if_neg]
    rintro ⟨_, rfl, _⟩
    rw [hres] at hy
    cases hy

theorem Prep.run {f : Bytes} {d : Disk V} {acts : List Act} (h : Prep f d acts) :
    (∀ g, g ≠ f → (runAll d acts).dirs g = d.dirs g) ∧
      (∀ nm, isReserved nm = false → (runAll d acts).read f nm = d.read f nm) := by
  rcases h with h | ⟨h0, t, rfl, h⟩
  · exact ⟨(h.run d).1, (h.run d).2.1⟩
  · obtain ⟨h1, h2, _⟩ := h.run (Act.run d (.mkdir f))
    refine ⟨fun g hg => (h1 g hg).trans (by simp [Act.run, hg]), fun y hy => (h2 y hy).trans ?_⟩
    simp [Act.run, Disk.read, h0]

theorem reserved_archive : isReserved archiveName = true := by decide +kernel
theorem reserved_time : isReserved timeName = true := by decide +kernel
theorem archive_ne_time : archiveName ≠ timeName := by decide +kernel

/-- What `prepare` does. -/
theorem prepare_spec (o : FsOps V S) (now : Time) (f : Bytes) (d : Disk V) (a : List Act) (r : Res Unit)
    (h : prepare o now f d = (a, r)) :
    Prep f d a ∧ (∀ c, d.read f archiveName = some c → a = [] ∧ r = .ok ()) ∧
      (r = .ok () → ((runAll d a).dirs f).isSome ∧ (runAll d a).read f archiveName ≠ none) ∧
      (r = .ok () → d.read f archiveName = none → ∃ c, o.archive d.src = .ok c ∧ (runAll d a).read f archiveName = some c) := by
  unfold prepare makeDir at h
  cases hd : d.dirs f with
  | some fo =>
    rw [hd] at h
    simp only [runAll, List.foldl_nil, List.nil_append] at h
    unfold makeArchive at h
    cases ha : d.read f archiveName with
    | some c =>
      rw [ha] at h
      cases h
      refine ⟨Or.inl (by intro x hx; cases hx), fun _ _ => ⟨rfl, rfl⟩, fun _ => ⟨by simp [runAll, hd], by simp [runAll, ha]⟩,
        fun _ h => (nomatch h)⟩
    | none =>
      rw [ha] at h
      simp only at h
      refine ⟨?_, (fun _ h => nomatch h), ?_, ?_⟩
      · left
        cases hc : o.archive d.src <;> rw [hc] at h <;> cases h <;> intro x hx <;> rw [List.mem_singleton] at hx <;> subst hx <;>
          exact ⟨_, _, rfl, reserved_archive⟩
      · rintro rfl
        cases hc : o.archive d.src with
        | ok c =>
          rw [hc] at h; cases h
          simp only [runAll, List.foldl_cons, List.foldl_nil]
          rw [put_some, put_read]
          simp [hd]
        | err => rw [hc] at h; simp only [Prod.mk.injEq] at h; cases h.2
        | panic => rw [hc] at h; simp only [Prod.mk.injEq] at h; cases h.2
      · rintro rfl -
        cases hc : o.archive d.src with
        | ok c =>
          rw [hc] at h; cases h
          simp only [runAll, List.foldl_cons, List.foldl_nil]
          rw [put_read]
          exact ⟨c, rfl, by simp [hd]⟩
        | err => rw [hc] at h; simp only [Prod.mk.injEq] at h; cases h.2
        | panic => rw [hc] at h; simp only [Prod.mk.injEq] at h; cases h.2
  | none =>
    have hna : d.read f archiveName = none := by simp [Disk.read, hd]
    rw [hd] at h
    simp only at h
    rw [hna]
    cases ht : createTimeDat now with
    | err =>
      rw [ht] at h; cases h
      refine ⟨Or.inr ⟨hd, _, rfl, ?_⟩, (fun _ h => nomatch h), (fun h => nomatch h), (fun h => nomatch h)⟩
      intro x hx; rw [List.mem_singleton] at hx; subst hx; exact ⟨_, _, rfl, reserved_time⟩
    | panic =>
      rw [ht] at h; cases h
      refine ⟨Or.inr ⟨hd, _, rfl, ?_⟩, (fun _ h => nomatch h), (fun h => nomatch h), (fun h => nomatch h)⟩
      intro x hx; rw [List.mem_singleton] at hx; subst hx; exact ⟨_, _, rfl, reserved_time⟩
    | ok b =>
      rw [ht] at h
      simp only at h
      have hd1 : ((runAll d [Act.mkdir f, Act.put f timeName b]).dirs f).isSome := by
        simp only [runAll, List.foldl_cons, List.foldl_nil]
        rw [put_some]
        simp [Act.run]
      have hna1 : (runAll d [Act.mkdir f, Act.put f timeName b]).read f archiveName = none := by
        simp only [runAll, List.foldl_cons, List.foldl_nil]
        rw [put_read, if_neg (fun h => archive_ne_time h.2.1)]
        simp [Act.run, Disk.read]
      unfold makeArchive at h
      rw [hna1, runAll_src] at h
      simp only at h
      refine ⟨?_, (fun _ h => nomatch h), ?_, ?_⟩
      · right
        refine ⟨hd, ?_⟩
        cases hc : o.archive d.src <;> rw [hc] at h <;> cases h <;> refine ⟨_, rfl, ?_⟩ <;> intro x hx <;>
          rcases List.mem_cons.1 hx with rfl | hx
        all_goals first
          | exact ⟨_, _, rfl, reserved_time⟩
          | (replace hx : x ∈ [_] := hx
             rw [List.mem_singleton] at hx; subst hx; exact ⟨_, _, rfl, reserved_archive⟩)
      · rintro rfl
        cases hc : o.archive d.src with
        | ok c =>
          rw [hc] at h; cases h
          rw [runAll_append]
          generalize runAll d [Act.mkdir f, Act.put f timeName b] = d1 at hd1
          simp only [runAll, List.foldl_cons, List.foldl_nil]
          rw [put_some, put_read]
          simp [hd1]
        | err => rw [hc] at h; simp only [Prod.mk.injEq] at h; cases h.2
        | panic => rw [hc] at h; simp only [Prod.mk.injEq] at h; cases h.2
      · rintro rfl -
        cases hc : o.archive d.src with
        | ok c =>
          rw [hc] at h; cases h
          rw [runAll_append]
          generalize runAll d [Act.mkdir f, Act.put f timeName b] = d1 at hd1
          simp only [runAll, List.foldl_cons, List.foldl_nil]
          rw [put_read]
          exact ⟨c, rfl, by simp [hd1]⟩
        | err => rw [hc] at h; simp only [Prod.mk.injEq] at h; cases h.2
        | panic => rw [hc] at h; simp only [Prod.mk.injEq] at h; cases h.2

/-- The actions of a save: those of `prepare`, and the writing of the file if it succeeds. -/
theorem save_shape (o : FsOps V S) (info : Nat × S) (now : Time) (name : Bytes) (x : S) (ow : Bool) (d : Disk V) (acts : List Act)
    (r : Res Unit) (h : save o info now name x ow d = (acts, r)) :
    ∃ a ra, prepare o now (hashToFolderName info.1) d = (a, ra) ∧
      ((r ≠ .ok () ∧ acts = a) ∨
        (r = .ok () ∧ ra = .ok () ∧ ∃ vals b, o.diff info.2 x = .ok vals ∧ encodeVals vals = .ok b ∧
          acts = a ++ [.put (hashToFolderName info.1) name b] ∧
          (ow = false → (runAll d a).read (hashToFolderName info.1) name = none))) := by
  unfold save at h
  simp only at h
  obtain ⟨⟨a, ra⟩, hp⟩ : ∃ p, prepare o now (hashToFolderName info.1) d = p := ⟨_, rfl⟩
  rw [hp] at h
  refine ⟨a, ra, hp, ?_⟩
  simp only at h
  cases ra with
  | err => cases h; exact Or.inl ⟨by simp, rfl⟩
  | panic => cases h; exact Or.inl ⟨by simp, rfl⟩
  | ok u =>
    simp only at h
    split at h
    · cases h; exact Or.inl ⟨by simp, rfl⟩
    · rename_i hex
      cases hd : o.diff info.2 x with
      | err => rw [hd] at h; cases h; exact Or.inl ⟨by simp [Res.map], rfl⟩
      | panic => rw [hd] at h; cases h; exact Or.inl ⟨by simp [Res.map], rfl⟩
      | ok vals =>
        rw [hd] at h
        simp only [Res.bind_ok] at h
        cases he : encodeVals vals with
        | err => rw [he] at h; cases h; exact Or.inl ⟨by simp [Res.map], rfl⟩
        | panic => rw [he] at h; cases h; exact Or.inl ⟨by simp [Res.map], rfl⟩
        | ok b =>
          rw [he] at h
          cases h
          refine Or.inr ⟨rfl, rfl, vals, b, rfl, he, rfl, fun how => ?_⟩
          subst how
          simpa using hex

/-- What there is after a crash at any point of a save (or after the whole save). -/
theorem crash_cases (o : FsOps V S) (info : Nat × S) (now : Time) (name : Bytes) (x : S) (ow : Bool) (d : Disk V) (acts : List Act)
    (r : Res Unit) (h : save o info now name x ow d = (acts, r)) (hn : isReserved name = false) (i n : Nat)
    (before : Option (Option S)) :
    let f := hashToFolderName info.1
    let d' := runAll d (cut acts i n)
    (∀ g, g ≠ f → d'.dirs g = d.dirs g) ∧
    (∀ nm, nm ≠ name → isReserved nm = false → d'.read f nm = d.read f nm) ∧
    (∀ c, d.read f archiveName = some c → d'.read f archiveName = some c) ∧
    ((d'.read f name = d.read f name ∧ afterCrash acts r i n x before = before) ∨
      (r = .ok () ∧ d'.read f archiveName ≠ none ∧ ∃ vals b, o.diff info.2 x = .ok vals ∧ encodeVals vals = .ok b ∧
        ((d'.read f name = some b ∧ afterCrash acts r i n x before = some (some x)) ∨
          (n < b.length ∧ d'.read f name = some (b.take n) ∧ afterCrash acts r i n x before = some none)))) := by
  intro f d'
  obtain ⟨a, ra, hp, hcase⟩ := save_shape o info now name x ow d acts r h
  obtain ⟨hprep, hsome, hok, _⟩ := prepare_spec o now _ d a ra hp
  have hnoarch : name ≠ archiveName := by rintro rfl; rw [reserved_archive] at hn; cases hn
  have hsm : ∀ i n c, d.read f archiveName = some c → (runAll d (cut a i n)).read f archiveName = some c := by
    intro i n c hc
    obtain ⟨rfl, _⟩ := hsome c hc
    rw [show cut ([] : List Act) i n = [] by simp [cut]]
    exact hc
  rcases hcase with ⟨hr, rfl⟩ | ⟨rfl, rfl, vals, b, hdf, he, rfl, _⟩
  · obtain ⟨h1, h2⟩ := (hprep.cut i n).run
    refine ⟨h1, fun nm _ hnm => h2 nm hnm, hsm i n, Or.inl ⟨h2 name hn, ?_⟩⟩
    unfold afterCrash
    cases r with
    | ok u => exact absurd rfl hr
    | err => rfl
    | panic => rfl
  · obtain ⟨hisS, hisA⟩ := hok rfl
    by_cases hi : i < a.length
    · obtain ⟨h1, h2⟩ := (hprep.cut i n).run
      have hc := cut_left a [.put f name b] n hi
      simp only [d']
      rw [hc]
      refine ⟨h1, fun nm _ hnm => h2 nm hnm, hsm i n, Or.inl ⟨h2 name hn, ?_⟩⟩
      unfold afterCrash
      simp only [List.length_append, List.length_singleton]
      rw [if_neg (by omega), if_neg (by omega)]
    · have key : ∀ y, (∀ g, g ≠ f → (runAll d (a ++ [.put f name y])).dirs g = d.dirs g) ∧
          (∀ nm, nm ≠ name → isReserved nm = false → (runAll d (a ++ [.put f name y])).read f nm = d.read f nm) ∧
          (∀ c, d.read f archiveName = some c → (runAll d (a ++ [.put f name y])).read f archiveName = some c) ∧
          (runAll d (a ++ [.put f name y])).read f archiveName ≠ none ∧
          (runAll d (a ++ [.put f name y])).read f name = some y := by
        intro y
        obtain ⟨h1, h2⟩ := hprep.run
        have h3 := hsm a.length 0
        rw [cut_whole a 0 (Nat.le_refl _)] at h3
        rw [runAll_append]
        generalize runAll d a = d1 at *
        simp only [runAll, List.foldl_cons, List.foldl_nil]
        refine ⟨fun g hg => (put_other _ _ _ _ _ hg).trans (h1 g hg), fun nm hne hnm => ?_, fun c hc => ?_, ?_, ?_⟩
        · rw [put_read, if_neg (fun h => hne h.2.1)]; exact h2 nm hnm
        · rw [put_read, if_neg (fun h => hnoarch h.2.1.symm)]; exact h3 c hc
        · rw [put_read, if_neg (fun h => hnoarch h.2.1.symm)]; exact hisA
        · rw [put_read, if_pos ⟨rfl, rfl, hisS⟩]
      by_cases hi2 : i = a.length
      · subst hi2
        obtain ⟨k1, k2, k3, k4, k5⟩ := key (b.take n)
        simp only [d']
        rw [cut_last]
        refine ⟨k1, k2, k3, Or.inr ⟨trivial, k4, vals, b, hdf, he, ?_⟩⟩
        unfold afterCrash
        simp only [List.length_append, List.length_singleton]
        rw [if_neg (by omega), if_pos trivial, List.getElem?_append_right (by omega), Nat.sub_self]
        simp only [List.getElem?_cons_zero]
        by_cases hnb : n < b.length
        · exact Or.inr ⟨hnb, k5, if_pos hnb⟩
        · left
          rw [if_neg hnb]
          rw [List.take_of_length_le (by omega)] at k5 ⊢
          exact ⟨k5, rfl⟩
      · obtain ⟨k1, k2, k3, k4, k5⟩ := key b
        have hc := cut_whole (a ++ [.put f name b]) n (i := i) (by simp only [List.length_append, List.length_singleton]; omega)
        simp only [d']
        rw [hc]
        refine ⟨k1, k2, k3, Or.inr ⟨trivial, k4, vals, b, hdf, he, Or.inl ⟨k5, ?_⟩⟩⟩
        unfold afterCrash
        simp only [List.length_append, List.length_singleton]
        rw [if_pos (by omega)]

theorem folder_inj {h h' : Nat} (hh : h < 2 ^ 128) (hh' : h' < 2 ^ 128) (he : hashToFolderName h = hashToFolderName h') : h = h' :=
  C43_one_to_one.2.1 _ _ _ (C43_name h hh) (he ▸ C43_name h' hh')

/-- The contents of a file, as known: nothing, a part of the diff of an object, or all of it. -/
def Holds (o : FsOps V S) (Good : S → S → Prop) (h : Nat) (content : Option Bytes) : Option (Option S) → Prop
  | none => content = none
  | some (some x) => ∃ v s vals b, o.root v = .ok (s, h) ∧ Good s x ∧ o.diff s x = .ok vals ∧ encodeVals vals = .ok b ∧ content = some b
  | some none => ∃ v s x vals b n, o.root v = .ok (s, h) ∧ Good s x ∧ o.diff s x = .ok vals ∧ encodeVals vals = .ok b ∧ n < b.length ∧
      content = some (b.take n)

structure Inv (o : FsOps V S) (Good : S → S → Prop) (d : Disk V) (p : Option (S × Nat)) (k : Known S) (bad : Nat → Prop) : Prop where
  proc : ∀ s h, p = some (s, h) → ∃ v, o.root v = .ok (s, h)
  files : ∀ h name, h < 2 ^ 128 → isReserved name = false → Holds o Good h (d.read (hashToFolderName h) name) (k h name)
  archives : ∀ h, h < 2 ^ 128 → ¬ bad h → ∀ c, d.read (hashToFolderName h) archiveName = some c →
    ∃ v s, o.root v = .ok (s, h) ∧ o.archive v = .ok c
  present : ∀ h name, h < 2 ^ 128 → ¬ bad h → isReserved name = false → k h name ≠ none →
    d.read (hashToFolderName h) archiveName ≠ none

theorem Inv.crash {o : FsOps V S} (hl : o.Lawful Good Same) {d : Disk V} {s : S} {h : Nat} {k : Known S} {bad : Nat → Prop}
    (hi : Inv o Good d (some (s, h)) k bad) (now : Time) (name : Bytes) (x : S) (ow : Bool) (acts : List Act) (r : Res Unit) (i n : Nat)
    (hn : isReserved name = false) (hg : Good s x) (hs : save o (h, s) now name x ow d = (acts, r)) (p : Option (S × Nat))
    (hp : p = none ∨ p = some (s, h)) :
    Inv o Good (runAll d (cut acts i n)) p (k.set h name (afterCrash acts r i n x (k h name)))
      fun h' => bad h' ∨ Spoils o d (runAll d (cut acts i n)) h' := by
  obtain ⟨v, hv⟩ := hi.proc s h rfl
  have hh := hl.hash v s h hv
  obtain ⟨c1, c2, c3, c4⟩ := crash_cases o (h, s) now name x ow d acts r hs hn i n (k h name)
  simp only at c1 c2 c3 c4
  have hother : ∀ h' y, h' < 2 ^ 128 → h' ≠ h → (runAll d (cut acts i n)).read (hashToFolderName h') y =
      d.read (hashToFolderName h') y := by
    intro h' y hh' hne
    unfold Disk.read
    rw [c1 _ fun he => hne (folder_inj hh' hh he)]
  refine ⟨?_, ?_, ?_, ?_⟩
  · rintro s' h' hp'
    rcases hp with rfl | rfl
    · cases hp'
    · cases hp'; exact ⟨v, hv⟩
  · intro h' y hh' hy
    unfold Known.set
    by_cases he : h' = h
    · subst he
      by_cases hey : y = name
      · subst hey
        rw [if_pos ⟨rfl, rfl⟩]
        rcases c4 with ⟨e1, e2⟩ | ⟨_, _, vals, b, e1, e2, ⟨e3, e4⟩ | ⟨e5, e3, e4⟩⟩
        · rw [e1, e2]; exact hi.files _ _ hh' hy
        · rw [e3, e4]; exact ⟨v, s, vals, b, hv, hg, e1, e2, rfl⟩
        · rw [e3, e4]; exact ⟨v, s, x, vals, b, n, hv, hg, e1, e2, e5, rfl⟩
      · rw [if_neg (fun h => hey h.2), c2 y hey hy]
        exact hi.files _ _ hh' hy
    · rw [if_neg (fun h => he h.1), hother h' y hh' he]
      exact hi.files _ _ hh' hy
  · intro h' hh' hb c hc
    rw [not_or] at hb
    cases ho : d.read (hashToFolderName h') archiveName with
    | none =>
      by_contra hcon
      exact hb.2 ⟨ho, c, hc, hcon⟩
    | some c0 =>
      have : c = c0 := by
        by_cases he : h' = h
        · subst he
          have := c3 c0 ho
          rw [hc] at this
          exact Option.some.inj this
        · rw [hother h' _ hh' he, ho] at hc
          exact (Option.some.inj hc).symm
      exact hi.archives h' hh' hb.1 c (this ▸ ho)
  · intro h' y hh' hb' hy hk
    have hmono : d.read (hashToFolderName h') archiveName ≠ none →
        (runAll d (cut acts i n)).read (hashToFolderName h') archiveName ≠ none := by
      intro h0
      by_cases he : h' = h
      · subst he
        cases ho : d.read (hashToFolderName h') archiveName with
        | none => exact absurd ho h0
        | some c0 => rw [c3 c0 ho]; simp
      · rw [hother h' _ hh' he]; exact h0
    unfold Known.set at hk
    by_cases he : h' = h ∧ y = name
    · rw [if_pos he] at hk
      obtain ⟨rfl, rfl⟩ := he
      rcases c4 with ⟨_, e2⟩ | ⟨_, e1, _⟩
      · rw [e2] at hk
        exact hmono (hi.present _ _ hh' (fun hb => hb' (Or.inl hb)) hy hk)
      · exact e1
    · rw [if_neg he] at hk
      exact hmono (hi.present _ _ hh' (fun hb => hb' (Or.inl hb)) hy hk)

theorem removeSome_read {d : Disk V} {h : Nat} (gone : Bytes → Bool) (hh : h < 2 ^ 128) (h' : Nat) (y : Bytes) (hh' : h' < 2 ^ 128) :
    (removeSome h gone d).read (hashToFolderName h') y =
      if h' = h ∧ gone y = true then none else d.read (hashToFolderName h') y := by
  unfold Disk.read removeSome
  by_cases he : h' = h
  · subst he
    simp only [if_true, true_and]
    cases d.dirs (hashToFolderName h') with
    | none => simp
    | some f => simp
  · simp only
    rw [if_neg (fun hf => he (folder_inj hh' hh hf)), if_neg (fun hf => he hf.1)]

theorem removeDir_read {d d' : Disk V} {h : Nat} (hh : h < 2 ^ 128) (hs : removeDir h d = .ok d') (h' : Nat) (y : Bytes)
    (hh' : h' < 2 ^ 128) : d'.read (hashToFolderName h') y = if h' = h then none else d.read (hashToFolderName h') y := by
  unfold removeDir at hs
  split at hs
  · cases hs
  · cases hs
    unfold Disk.read
    by_cases he : h' = h
    · subst he; simp
    · simp only
      rw [if_neg (fun hf => he (folder_inj hh' hh hf)), if_neg he]

theorem Reach.inv {o : FsOps V S} (hl : o.Lawful Good Same) {d : Disk V} {p : Option (S × Nat)} {k : Known S} {bad : Nat → Prop}
    (hr : Reach o Good d p k bad) : Inv o Good d p k bad := by
  induction hr with
  | init v => exact ⟨by simp, fun _ _ _ _ => rfl, fun _ _ _ c hc => (nomatch hc), fun _ _ _ _ _ h => absurd rfl h⟩
  | edit v _ ih => exact ⟨ih.proc, ih.files, ih.archives, ih.present⟩
  | start s h _ hs ih => exact ⟨fun s' h' he => by cases he; exact ⟨_, hs⟩, ih.files, ih.archives, ih.present⟩
  | save s h now name x ow acts _ hn hg hs ih =>
    have := ih.crash hl now name x ow acts (.ok ()) acts.length 0 hn hg hs (some (s, h)) (Or.inr rfl)
    rw [cut_whole _ _ (Nat.le_refl _)] at this
    unfold afterCrash at this
    simp only [Nat.le_refl, if_true] at this
    exact this
  | @fail d k bad s h now name x ow acts r _ hn hg hs hf ih =>
    have := ih.crash hl now name x ow acts r acts.length 0 hn hg hs (some (s, h)) (Or.inr rfl)
    rw [cut_whole _ _ (Nat.le_refl _)] at this
    have hk : k.set h name (afterCrash acts r acts.length 0 x (k h name)) = k := by
      funext a b
      unfold Known.set afterCrash
      split
      · rename_i he
        obtain ⟨rfl, rfl⟩ := he
        cases r with
        | ok u => exact absurd rfl hf
        | err => rfl
        | panic => rfl
      · rfl
    rw [hk] at this
    exact this
  | crash s h now name x ow acts r i n _ hn hg hs ih =>
    exact ih.crash hl now name x ow acts r i n hn hg hs none (Or.inl rfl)
  | @remove d d' p k bad h name hh _ hs ih =>
    unfold Filesys.remove at hs
    split at hs
    · rename_i hn
      split at hs
      · cases hs
      · cases hs
        have hread : ∀ h' y, h' < 2 ^ 128 → Disk.read (V := V) ⟨d.src, fun x => if x = hashToFolderName h then
            (d.dirs x).map fun f y => if y = name then none else f y else d.dirs x⟩ (hashToFolderName h') y =
            if h' = h ∧ y = name then none else d.read (hashToFolderName h') y := by
          intro h' y hh'
          unfold Disk.read
          by_cases he : h' = h
          · subst he
            simp only [if_true, true_and]
            cases d.dirs (hashToFolderName h') with
            | none => simp
            | some f => simp
          · simp only
            rw [if_neg (fun hf => he (folder_inj hh' hh hf)), if_neg (fun hf => he hf.1)]
        have hna : archiveName ≠ name := by rintro rfl; rw [reserved_archive] at hn; cases hn
        refine ⟨ih.proc, ?_, ?_, ?_⟩
        · intro h' y hh' hy
          rw [hread h' y hh']
          unfold Known.set
          split
          · rfl
          · exact ih.files h' y hh' hy
        · intro h' hh' hb c hc
          rw [hread h' _ hh', if_neg (fun h => hna h.2)] at hc
          exact ih.archives h' hh' hb c hc
        · intro h' y hh' hb hy hk
          rw [hread h' _ hh', if_neg (fun h => hna h.2)]
          refine ih.present h' y hh' hb hy ?_
          unfold Known.set at hk
          split at hk
          · exact absurd rfl hk
          · exact hk
    · cases hs
  | @removeDir d d' p k bad h hh _ hs ih =>
    have hread := removeDir_read hh hs
    refine ⟨ih.proc, ?_, ?_, ?_⟩
    · intro h' y hh' hy
      rw [hread h' y hh']
      by_cases he : h' = h
      · rw [if_pos he, if_pos he]; rfl
      · rw [if_neg he, if_neg he]; exact ih.files h' y hh' hy
    · intro h' hh' hb c hc
      rw [hread h' _ hh'] at hc
      split at hc
      · cases hc
      · rename_i he
        exact ih.archives h' hh' (fun hx => hb ⟨he, hx⟩) c hc
    · intro h' y hh' hb hy hk
      rw [hread h' _ hh']
      split at hk
      · exact absurd rfl hk
      · rename_i he
        rw [if_neg he]
        exact ih.present h' y hh' (fun hx => hb ⟨he, hx⟩) hy hk
  | @removeSome d p k bad h gone hh _ ih =>
    have hread := removeSome_read (d := d) gone hh
    refine ⟨ih.proc, ?_, ?_, ?_⟩
    · intro h' y hh' hy
      rw [hread h' y hh']
      by_cases he : h' = h ∧ gone y = true
      · rw [if_pos he, if_pos he]; rfl
      · rw [if_neg he, if_neg he]; exact ih.files h' y hh' hy
    · intro h' hh' hb c hc
      rw [hread h' _ hh'] at hc
      split at hc
      · cases hc
      · exact ih.archives h' hh' (fun hx => hb (Or.inl hx)) c hc
    · intro h' y hh' hb hy hk
      rw [hread h' _ hh', if_neg fun he => hb (Or.inr he)]
      split at hk
      · exact absurd rfl hk
      · exact ih.present h' y hh' (fun hx => hb (Or.inl hx)) hy hk

end
end Verif.Filesys
