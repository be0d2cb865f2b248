import Verif.Props.Filesys
/-! # C91: removing the folder of a version -/
namespace Verif.Filesys
open Codec VarInt HashDir

section
variable {V S : Type} {Good Same : S → S → Prop}

/-- A load reads the archive and the file. -/
theorem load_of_read (checked : Bool) (o : FsOps V S) (info : Nat × S) (folder name : Bytes) (validation : Bool) (d d' : Disk V)
    (ha : d'.read folder archiveName = d.read folder archiveName) (hf : d'.read folder name = d.read folder name) :
    load checked o info folder name validation d' = load checked o info folder name validation d := by
  unfold load loadBase
  rw [ha, hf]

/-- C91: the removal fails if there is no such folder, and only then. -/
theorem C91_succeeds (h : Nat) (d : Disk V) : (∃ d', removeDir h d = .ok d') ↔ d.dirs (hashToFolderName h) ≠ none := by
  unfold removeDir
  cases d.dirs (hashToFolderName h) with
  | none => simp
  | some f => simp

/-- C91: the files of the other folders are loaded as before, by every version, on every disk. -/
theorem C91_others (checked : Bool) (o : FsOps V S) (info : Nat × S) (h h' : Nat) (hh : h < 2 ^ 128) (hh' : h' < 2 ^ 128) (hne : h' ≠ h)
    (name : Bytes) (validation : Bool) (d d' : Disk V) (hs : removeDir h d = .ok d') :
    load checked o info (hashToFolderName h') name validation d' = load checked o info (hashToFolderName h') name validation d := by
  apply load_of_read <;> rw [removeDir_read hh hs _ _ hh', if_neg hne]

/-- C91: the files of the folder are not loaded any more, by any version. -/
theorem C91_gone (checked : Bool) (o : FsOps V S) (s' : S) (h h' : Nat) (hh : h < 2 ^ 128) (name : Bytes) (validation : Bool)
    (d d' : Disk V) (hs : removeDir h d = .ok d') : load checked o (h', s') (hashToFolderName h) name validation d' = .err := by
  have hr := fun y => removeDir_read hh hs h y hh
  simp only [if_true] at hr
  by_cases he : h' = h
  · subst he
    rw [load_same checked o s' h' hh, hr]
  · rw [load_other checked o s' h' h hh he, hr]

/-- C91: what is saved after the removal. If the source is the one that the process started with, then the folder is made again
with a complete archive, and the file is loaded as it was saved by the same version, and as the adjustment of it by every other
version; so the removal also mends a folder of which the archive was spoiled. -/
theorem C91_again_partial (checked : Bool) (o : FsOps V S) (hl : o.Lawful Good Same) (d d' : Disk V) (s : S) (h : Nat) (k : Known S)
    (bad : Nat → Prop) (hr : Reach o Good d (some (s, h)) k bad) (hs : removeDir h d = .ok d') (hv : o.root d.src = .ok (s, h))
    (now : Time) (name : Bytes) (hn : isReserved name = false) (x : S) (hg : Good s x) (ow : Bool) (acts : List Act)
    (hsv : save o (h, s) now name x ow d' = (acts, .ok ())) (validation : Bool) :
    ∃ y, Same x y ∧ load checked o (h, s) (hashToFolderName h) name validation (runAll d' acts) = .ok y ∧
      ∀ s' h', h' ≠ h →
        load checked o (h', s') (hashToFolderName h) name validation (runAll d' acts) =
          (if validation then o.check s else .ok ()).bind fun _ => o.adjust s' y validation := by
  have hh := hl.hash _ _ _ hv
  have hsrc : d'.src = d.src := by
    unfold removeDir at hs
    split at hs <;> cases hs
    rfl
  have h1 := Reach.save s h now name x ow acts (Reach.removeDir h hh hr hs) hn hg hsv
  have hnb : ¬ ((h ≠ h ∧ bad h) ∨ Spoils o d' (runAll d' acts) h) := by
    rintro (⟨hx, _⟩ | hsp)
    · exact hx rfl
    · have hw : cut acts acts.length 0 = acts := cut_whole _ _ (Nat.le_refl _)
      rw [← hw] at hsp
      rcases (C40_spoiled o hl s h now name hn x ow d' (by rw [hsrc]; exact hv) acts _ hsv _ _ h hh hsp).2 with ⟨c, _, h2, _⟩ | h2
      · rw [List.getElem?_eq_none (Nat.le_refl _)] at h2
        cases h2
      · obtain ⟨a, ra, hp, hcase⟩ := save_shape o (h, s) now name x ow d' acts _ hsv
        rcases hcase with ⟨hx, _⟩ | ⟨_, hra, _⟩
        · exact hx rfl
        · obtain ⟨c, hc, _⟩ := (prepare_spec o now _ d' a ra hp).2.2.2 hra
            (by rw [removeDir_read hh hs h _ hh, if_pos rfl])
          rw [hsrc] at hc h2
          exact h2 c hc
  have hi := h1.inv hl
  have hf := hi.files h name hh hn
  rw [show (Known.set (fun h' n => if h' = h then none else k h' n) h name (some (some x))) h name = some (some x) by
    simp [Known.set]] at hf
  obtain ⟨v, s0, vals, b, e1, hg, e2, e3, e4⟩ := hf
  obtain rfl := hl.collision _ _ _ _ _ e1 hv
  obtain ⟨w1, y, w2, w3⟩ := read_whole hl e1 hg e2 e3
  refine ⟨y, w3, ?_, fun s' h' hne => ?_⟩
  · rw [load_same checked o s0 h hh, e4]
    simp only
    rw [w1]
    exact w2
  · rw [load_other checked o s' h' h hh hne]
    cases hc : (runAll d' acts).read (hashToFolderName h) archiveName with
    | none => exact absurd hc (hi.present h name hh hnb hn (by simp [Known.set]))
    | some c =>
      obtain ⟨v', s2, g1, g2⟩ := hi.archives h hh hnb c hc
      obtain rfl := hl.collision v v' s0 s2 h e1 g1
      simp only
      rw [hl.whole v' s0 h c g1 g2, e4]
      simp only [Res.bind_ok]
      rw [w1]
      simp only [Res.bind_ok]
      rw [w2]
      rfl

/-- C91: a removal that stops in between. The files that are still there are loaded as they were saved by the same version, and by
every other version if the archive is still there and was not spoiled. -/
theorem C91_cut (checked : Bool) (o : FsOps V S) (hl : o.Lawful Good Same) (d : Disk V) (s' : S) (h' : Nat) (k : Known S)
    (bad : Nat → Prop) (hr : Reach o Good d (some (s', h')) k bad) (h : Nat) (hh : h < 2 ^ 128) (gone : Bytes → Bool) (name : Bytes)
    (hn : isReserved name = false) (x : S) (hk : k h name = some (some x)) (hgone : gone name = false) (validation : Bool) :
    ∃ y, Same x y ∧ (h' = h → load checked o (h', s') (hashToFolderName h) name validation (removeSome h gone d) = .ok y) ∧
    (h' ≠ h → ¬ bad h → gone archiveName = false → ∃ v s, o.root v = .ok (s, h) ∧
      load checked o (h', s') (hashToFolderName h) name validation (removeSome h gone d) =
        (if validation then o.check s else .ok ()).bind fun _ => o.adjust s' y validation) := by
  obtain ⟨y, h1, h2, h3⟩ := C53_load checked o hl _ s' h' _ _ (Reach.removeSome h gone hh hr) h hh name hn x
    (by simp [hgone, hk]) validation
  exact ⟨y, h1, h2, fun hne hb ha => h3 hne (by rintro (hx | ⟨_, hx⟩); exacts [hb hx, by simp [ha] at hx])⟩

/-- C91: a file that the removal took is not loaded, and every other version refuses the files that lost their archive. -/
theorem C91_cut_gone (checked : Bool) (o : FsOps V S) (s' : S) (h h' : Nat) (hh : h < 2 ^ 128) (gone : Bytes → Bool) (name : Bytes)
    (validation : Bool) (d : Disk V) (hg : h' = h ∧ gone name = true ∨ h' ≠ h ∧ gone archiveName = true) :
    load checked o (h', s') (hashToFolderName h) name validation (removeSome h gone d) = .err := by
  rcases hg with ⟨rfl, hg⟩ | ⟨hne, hg⟩
  · rw [load_same checked o s' h' hh, removeSome_read gone hh h' name hh, if_pos ⟨rfl, hg⟩]
  · rw [load_other checked o s' h' h hh hne, removeSome_read gone hh h _ hh, if_pos ⟨rfl, hg⟩]

end

/-- The toy versions: the disk after the first save of `true`, the source of the disk being `v` by now, and after the removal of the
folder. -/
theorem toy_removed (v : Bool) : ∃ d k bad, Reach toy all d (some (false, 0)) k bad ∧ d.src = some v ∧ k 0 fileA = some (some true) ∧
    d.read (hashToFolderName 0) archiveName = some [7, 0] ∧
    load true toy (0, false) (hashToFolderName 0) fileA false d = .ok true ∧
    load true toy (1, true) (hashToFolderName 0) fileA false d = .ok true ∧ removeDir 0 d = .ok (disk0 (some v)) := by
  have h0 : Reach toy all (disk0 (some false)) (some (false, 0)) (fun _ _ => none) fun _ => False :=
    .start false 0 (.init (some false)) rfl
  have s0 := toy_save false 0 fileA true true (disk0 (some false)) _ (prepare_first _ false rfl) (Or.inl rfl)
  have h1 := Reach.save false 0 epoch fileA true true _ h0 (by decide +kernel) trivial s0
  refine ⟨_, _, _, Reach.edit (some v) h1, rfl, by simp [Known.set], by cases v <;> decide +kernel, by cases v <;> decide +kernel,
    by cases v <;> decide +kernel, ?_⟩
  simp only [removeDir, runAll, Act.run, List.foldl_cons, List.foldl_nil, List.cons_append, List.nil_append, if_true, disk0,
    Option.map_some]
  congr 2
  funext x
  by_cases hx : x = hashToFolderName 0
  · rw [if_pos hx]
  · simp only [if_neg hx]

/-- C91 is false: the source is edited while a process runs, and the folder is removed. The process saves again, and makes the folder
again with the archive of the edited source, so that the next version loads another object than the one that was saved. Without
the removal, the folder had the right archive. -/
theorem C91_negation_edit : ∃ d d' k bad acts, Reach toy all d (some (false, 0)) k bad ∧
    d.read (hashToFolderName 0) archiveName = some [7, 0] ∧ removeDir 0 d = .ok d' ∧
    save toy (0, false) epoch fileA false true d' = (acts, .ok ()) ∧
    (runAll d' acts).read (hashToFolderName 0) archiveName = some [7, 1] ∧
    load true toy (1, true) (hashToFolderName 0) fileA false (runAll d' acts) = .ok true := by
  obtain ⟨d, k, bad, hr, _, _, ha, _, _, hs⟩ := toy_removed true
  have s1 := toy_save false 0 fileA false true (disk0 (some true)) _ (prepare_first _ true rfl) (Or.inl rfl)
  exact ⟨d, _, k, bad, _, hr, ha, hs, s1, by decide +kernel, by decide +kernel⟩

/-- C91 is false for a removal that stops in between: the archive is gone and the file is there; the next version could load the file
before, and cannot now, though the version of the file can. -/
theorem C91_negation_cut : ∃ d k bad gone, Reach toy all d (some (false, 0)) k bad ∧ gone fileA = false ∧
    load true toy (1, true) (hashToFolderName 0) fileA false d = .ok true ∧
    load true toy (1, true) (hashToFolderName 0) fileA false (removeSome 0 gone d) = .err ∧
    load true toy (0, false) (hashToFolderName 0) fileA false (removeSome 0 gone d) = .ok true := by
  obtain ⟨d, k, bad, hr, _, _, _, hl, hl', _⟩ := toy_removed false
  have hg : (fileA == archiveName) = false := by decide +kernel
  refine ⟨d, k, bad, fun y => y == archiveName, hr, hg, hl', ?_, ?_⟩
  · exact C91_cut_gone true toy true 0 1 (by decide) _ fileA false d (Or.inr ⟨by decide, by simp⟩)
  · rw [load_same true toy false 0 (by decide), removeSome_read _ (by decide) 0 _ (by decide), if_neg (by simp [hg]),
      ← load_same true toy false 0 (by decide)]
    exact hl

/-- The hypotheses of `C91_again_partial` are met. -/
example : ∃ d d' k bad acts, Reach toy all d (some (false, 0)) k bad ∧ removeDir 0 d = .ok d' ∧ toy.root d.src = .ok (false, 0) ∧
    save toy (0, false) epoch fileA false true d' = (acts, .ok ()) ∧
    load true toy (1, true) (hashToFolderName 0) fileA false (runAll d' acts) = .ok false := by
  obtain ⟨d, k, bad, hr, hsrc, _, _, _, _, hs⟩ := toy_removed false
  have s1 := toy_save false 0 fileA false true (disk0 (some false)) _ (prepare_first _ false rfl) (Or.inl rfl)
  exact ⟨d, _, k, bad, _, hr, hs, by rw [hsrc]; rfl, s1, by decide +kernel⟩

end Verif.Filesys
