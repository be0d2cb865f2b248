import Verif.Lemmas.ListFiles
import Verif.Lemmas.Filesys
/-! # The list of saved files (C74) -/
namespace Verif.ListFiles
open Codec VarInt HashDir Filesys

/-- **C74, what is listed.** The loop ends after as many rounds as there are entries. If an entry that cannot be read comes before the
first folder of saved files, the whole list is an error. Otherwise it has exactly the files of the folders that are named after a hash
and can be opened, sorted by their times, those of the same time in the order of the system. -/
theorem C74_exact (checked : Bool) (entries : List (Option PEntry)) (hf : NoFatal checked entries) (n : Nat) (hn : size entries < n) :
    (StartsBad entries → listFiles checked n (some entries) = some .err) ∧
    (¬ StartsBad entries → ∃ out, listFiles checked n (some entries) = some (.ok out) ∧ out.Perm (shown entries) ∧
      (out.Pairwise fun a b => a.modified.le b.modified = true) ∧
      ∀ t, out.filter (fun x => decide (x.modified = t)) = (shown entries).filter fun x => decide (x.modified = t)) := by
  unfold listFiles
  obtain ⟨p, hp, ⟨h1, rfl, h3, h4⟩ | ⟨d, hex, h1, h2, h5, h4⟩ | ⟨h1, h2, h5, h4⟩⟩ := findNextDir_items entries hf
  · have hs : shown entries = [] := by rw [← keep_items, h3]; rfl
    refine ⟨?_, fun _ => ⟨[], by simp only [h1], by rw [hs], List.Pairwise.nil, fun t => by rw [hs]⟩⟩
    rintro ⟨a, e, r, rfl, h6, h7⟩
    obtain ⟨q, rfl, h8⟩ := h4 e (by simp)
    rcases h7 q rfl with h9 | h9
    · rcases h8 with h8 | h8
      · rw [h8] at h9; cases h9
      · rw [h8.1] at h9; cases h9
    · rcases h8 with h8 | h8
      · rw [h8] at h9; cases h9.1
      · rw [h8.2] at h9; cases h9.2.1
  · refine ⟨fun hb => absurd hb h5, fun _ => ?_⟩
    have hl : loopF checked n ⟨p, d, hex⟩ = some (.ok (shown entries)) := by
      have hi : (⟨p, d, hex⟩ : Inner).items = entries.flatMap entryItems := by rw [h4]; rfl
      rw [loopF_items n ⟨p, d, hex⟩ hp (by rw [hi]; exact Nat.lt_of_le_of_lt (items_size _) hn), hi, keep_items]
    simp only [h1, hl]
    refine ⟨_, rfl, List.mergeSort_perm _ _, List.pairwise_mergeSort
      (fun a b c => time_le_trans a.modified b.modified c.modified) (fun a b => time_le_total a.modified b.modified) _, fun t => ?_⟩
    have hsub : ((shown entries).filter fun x => decide (x.modified = t)).Sublist
        ((shown entries).mergeSort fun a b => a.modified.le b.modified) := by
      refine List.sublist_mergeSort (fun a b c => time_le_trans a.modified b.modified c.modified)
        (fun a b => time_le_total a.modified b.modified) ?_ List.filter_sublist
      refine List.Pairwise.imp_of_mem (R := fun _ _ => True) ?_ (List.pairwise_of_forall fun _ _ => trivial)
      intro a b ha hb _
      rw [List.mem_filter] at ha hb
      have ea := of_decide_eq_true ha.2
      have eb := of_decide_eq_true hb.2
      rw [ea, eb]
      have := time_le_total t t
      rwa [Bool.or_self] at this
    have hsub2 := hsub.filter fun x => decide (x.modified = t)
    rw [List.filter_filter] at hsub2
    simp only [Bool.and_self] at hsub2
    exact (hsub2.eq_of_length (((List.mergeSort_perm (shown entries) _).filter _).length_eq).symm).symm
  · exact ⟨fun _ => by simp only [h1], fun hb => absurd h5 hb⟩

theorem OnDisk.readable {V : Type} {d : Disk V} {entries : List (Option PEntry)} (h : OnDisk d entries) : ¬ StartsBad entries := by
  rintro ⟨a, e, r, rfl, _, hu⟩
  obtain ⟨p, b, rfl, hb, ho⟩ := h.plain e (by simp)
  rcases hu p rfl with h1 | ⟨h1, _, h2⟩
  · rw [hb] at h1; cases h1
  · rw [hb] at h1
    cases h1
    obtain ⟨l, hl, _⟩ := ho rfl
    rw [h2] at hl; cases hl

theorem mem_shownOf {h : Nat} {l : List (Option FEntry)} {x : FileData} : x ∈ shownOf h l ↔
    ∃ f, some f ∈ l ∧ x.hash = h ∧ f.stat = some (x.modified, x.len) ∧ x.name = lossy f.name ∧ isReserved (lossy f.name) = false := by
  unfold shownOf
  rw [List.mem_filterMap]
  constructor
  · rintro ⟨e, he, h1⟩
    rcases e with _ | ⟨name, b, _ | ⟨t, n⟩⟩
    · cases h1
    · cases h1
    · simp only at h1
      split at h1
      · cases h1
      · rename_i hr
        cases h1
        exact ⟨_, he, rfl, rfl, rfl, by simpa using hr⟩
  · rintro ⟨⟨name, b, st⟩, hf, h1, h2, h3, h4⟩
    simp only at h2
    subst h2
    refine ⟨_, hf, ?_⟩
    simp only at h3 h4 ⊢
    rw [h4, ← h1, ← h3]
    rfl

theorem mem_shown {entries : List (Option PEntry)} {x : FileData} : x ∈ shown entries ↔
    ∃ p l, some p ∈ entries ∧ p.isDir = some true ∧ p.opened = some l ∧ hashOf (lossy p.name) = some x.hash ∧ x ∈ shownOf x.hash l := by
  unfold shown
  rw [List.mem_flatMap]
  constructor
  · rintro ⟨e, he, h1⟩
    rcases e with _ | ⟨name, _ | _ | _, _ | l⟩
    · cases h1
    · cases h1
    · cases h1
    · cases h1
    · cases h1
    · cases h1
    · simp only at h1
      cases hh : hashOf (lossy name) with
      | none => rw [hh] at h1; cases h1
      | some h =>
        rw [hh] at h1
        simp only at h1
        obtain ⟨f, _, e, _⟩ := mem_shownOf.1 h1
        subst e
        exact ⟨_, l, he, rfl, rfl, hh, h1⟩
  · rintro ⟨⟨name, b, o⟩, l, hp, h1, h2, h3, h4⟩
    simp only at h1 h2 h3
    subst h1 h2
    refine ⟨_, hp, ?_⟩
    simp only [h3]
    exact h4

/-- **C74, the disk.** If everything can be read and the names are UTF-8, the saved files are listed, and nothing else is. -/
theorem C74_disk {V : Type} (checked : Bool) (d : Disk V) (entries : List (Option PEntry)) (hd : OnDisk d entries) (hu : Utf8Names d)
    (hf : NoFatal checked entries) (n : Nat) (hn : size entries < n) :
    ∃ out, listFiles checked n (some entries) = some (.ok out) ∧ (out.Pairwise fun a b => a.modified.le b.modified = true) ∧
      (∀ hash name, Saved d hash name ↔ ∃ x ∈ out, x.hash = hash ∧ x.name = name) ∧
      (∀ x ∈ out, (d.read x.calcPath.1 x.calcPath.2).isSome) := by
  obtain ⟨out, h1, h2, h3, _⟩ := (C74_exact checked entries hf n hn).2 hd.readable
  have key : ∀ hash name, Saved d hash name ↔ ∃ x ∈ out, x.hash = hash ∧ x.name = name := by
    intro hash name
    constructor
    · rintro ⟨hh, hr, hs⟩
      unfold Disk.read at hs
      cases hdir : d.dirs (hashToFolderName hash) with
      | none => rw [hdir] at hs; cases hs
      | some f =>
        obtain ⟨p, l, hp, hpn, hpd, hpo, hfl⟩ := hd.folder _ _ hdir
        have hs' : (f name).isSome := by rw [hdir] at hs; exact hs
        obtain ⟨y, hy, hyn⟩ := (hfl name).1 hs'
        obtain ⟨p', b, e, hb, ho⟩ := hd.plain _ hp
        cases e
        rw [hpd] at hb
        cases hb
        obtain ⟨l', hl', hl⟩ := ho rfl
        rw [hpo] at hl'
        cases hl'
        obtain ⟨y', e, _, hst⟩ := hl _ hy
        cases e
        obtain ⟨⟨t, len⟩, hst⟩ := Option.isSome_iff_exists.1 hst
        have hv : (strOfBytes name).isSome := hu (hashToFolderName hash) name (by unfold Disk.read; rw [hdir]; exact hs')
        have hlos : lossy y.name = name := by rw [hyn]; exact lossy_valid hv
        refine ⟨⟨hash, t, len, name⟩, h2.mem_iff.2 (mem_shown.2 ⟨p, l, hp, hpd, hpo, ?_, ?_⟩), rfl, rfl⟩
        · rw [hpn]; exact hashOf_folder hh
        · exact mem_shownOf.2 ⟨y, hy, rfl, hst, hlos.symm, by rw [hlos]; exact hr⟩
    · rintro ⟨x, hx, rfl, rfl⟩
      obtain ⟨p, l, hp, hpd, hpo, hh, hx⟩ := mem_shown.1 (h2.mem_iff.1 hx)
      obtain ⟨y, hy, _, _, hyn, hr⟩ := mem_shownOf.1 hx
      obtain ⟨hlt, hpn⟩ := hashOf_lossy hh
      obtain ⟨f, hfo⟩ := Option.isSome_iff_exists.1 (hd.only p hp hpd)
      obtain ⟨p', l', hp', hpn', hpd', hpo', hfl⟩ := hd.folder _ _ hfo
      -- names occur once
      have hpp : p' = p := by
        by_contra hne
        obtain ⟨i, hi, ei⟩ := List.mem_iff_getElem.1 hp
        obtain ⟨j, hj, ej⟩ := List.mem_iff_getElem.1 hp'
        have ho := List.pairwise_iff_getElem.1 hd.once
        rcases Nat.lt_trichotomy i j with hij | hij | hij
        · exact ho i j hi hj hij p p' ei ej hpn'.symm
        · subst hij
          rw [ei] at ej
          cases ej
          exact hne rfl
        · exact ho j i hj hi hij p' p ej ei hpn'
      subst hpp
      rw [hpo] at hpo'
      cases hpo'
      have hs : (f y.name).isSome := (hfl y.name).2 ⟨y, hy, rfl⟩
      have hrd : (d.read (hashToFolderName x.hash) y.name).isSome := by unfold Disk.read; rw [← hpn, hfo]; exact hs
      have hlos := lossy_valid (hu _ _ hrd)
      rw [hlos] at hyn hr
      rw [hyn]
      exact ⟨hlt, hr, hrd⟩
  exact ⟨out, h1, h3, key, fun x hx => ((key x.hash x.name).2 ⟨x, hx, rfl, rfl⟩).2.2⟩

/-- … and no file is listed twice. -/
theorem C74_once {V : Type} (checked : Bool) (d : Disk V) (entries : List (Option PEntry)) (hd : OnDisk d entries) (hu : Utf8Names d)
    (hf : NoFatal checked entries) (n : Nat) (hn : size entries < n) (out : List FileData)
    (h : listFiles checked n (some entries) = some (.ok out)) : (out.map FileData.calcPath).Nodup := by
  obtain ⟨out', h1, h2, _⟩ := (C74_exact checked entries hf n hn).2 hd.readable
  rw [h] at h1
  cases h1
  rw [(h2.map _).nodup_iff, List.nodup_iff_pairwise_ne, List.pairwise_map]
  -- names in folders are UTF-8
  have hval : ∀ p l f, some p ∈ entries → p.isDir = some true → p.opened = some l → some f ∈ l → lossy f.name = f.name := by
    intro p l f hp hpd hpo hfm
    obtain ⟨g, hg⟩ := Option.isSome_iff_exists.1 (hd.only p hp hpd)
    obtain ⟨p', l', hp', hpn', hpd', hpo', hfl⟩ := hd.folder _ _ hg
    have hpp : p' = p := by
      by_contra hne
      obtain ⟨i, hi, ei⟩ := List.mem_iff_getElem.1 hp
      obtain ⟨j, hj, ej⟩ := List.mem_iff_getElem.1 hp'
      have ho := List.pairwise_iff_getElem.1 hd.once
      rcases Nat.lt_trichotomy i j with hij | hij | hij
      · exact ho i j hi hj hij p p' ei ej hpn'.symm
      · subst hij
        rw [ei] at ej
        cases ej
        exact hne rfl
      · exact ho j i hj hi hij p' p ej ei hpn'
    subst hpp
    rw [hpo] at hpo'
    cases hpo'
    refine lossy_valid (hu p'.name f.name ?_)
    unfold Disk.read
    rw [hg]
    exact (hfl f.name).2 ⟨f, hfm, rfl⟩
  have main : ∀ es : List (Option PEntry), (∀ e ∈ es, e ∈ entries) →
      (es.Pairwise fun a b => ∀ p q, a = some p → b = some q → p.name ≠ q.name) →
      (shown es).Pairwise fun a b => a.calcPath ≠ b.calcPath := by
    intro es hes hon
    induction es with
    | nil => exact List.Pairwise.nil
    | cons e r ih =>
      rw [List.pairwise_cons] at hon
      have ih := ih (fun x hx => hes x (List.mem_cons_of_mem _ hx)) hon.2
      have hsplit : shown (e :: r) = shown [e] ++ shown r := by unfold shown; simp
      rw [hsplit, List.pairwise_append]
      refine ⟨?_, ih, ?_⟩
      · rcases e with _ | ⟨name, _ | _ | _, _ | l⟩
        · exact List.Pairwise.nil
        · exact List.Pairwise.nil
        · exact List.Pairwise.nil
        · exact List.Pairwise.nil
        · exact List.Pairwise.nil
        · exact List.Pairwise.nil
        · cases hh : hashOf (lossy name) with
          | none => unfold shown; simp [hh]
          | some hx =>
            have he : shown [some ⟨name, some true, some l⟩] = shownOf hx l := by unfold shown; simp [hh]
            rw [he]
            have hmem := hes _ List.mem_cons_self
            have hin := hd.onceIn _ l hmem rfl
            unfold shownOf
            rw [List.pairwise_filterMap]
            refine List.Pairwise.imp_of_mem ?_ hin
            intro a b ha hb hab x hx' y hy' heq
            rcases a with _ | ⟨na, _, _ | ⟨ta, la⟩⟩
            · cases hx'
            · cases hx'
            · rcases b with _ | ⟨nb, _, _ | ⟨tb, lb⟩⟩
              · cases hy'
              · cases hy'
              · have va := hval _ l _ hmem rfl rfl ha
                have vb := hval _ l _ hmem rfl rfl hb
                simp only at hx' hy' va vb
                split at hx'
                · cases hx'
                · split at hy'
                  · cases hy'
                  · cases hx'
                    cases hy'
                    have e2 : lossy na = lossy nb := (Prod.mk.inj heq).2
                    rw [va, vb] at e2
                    exact hab _ _ rfl rfl e2
      · intro a ha b hb heq
        obtain ⟨p, l, hp, hpd, hpo, hh, ha'⟩ := mem_shown.1 ha
        obtain ⟨q, m, hq, hqd, hqo, hh', hb'⟩ := mem_shown.1 hb
        rw [List.mem_singleton] at hp
        subst hp
        obtain ⟨_, n1⟩ := hashOf_lossy hh
        obtain ⟨_, n2⟩ := hashOf_lossy hh'
        exact hon.1 _ hq _ _ rfl rfl (by rw [n1, n2]; exact (Prod.mk.inj heq).1)
  exact main entries (fun _ h => h) hd.once

/-! ## Saving and removing -/

/-- **C74, saves.** After a save that succeeded the file is among the saved ones, and all others are as before. -/
theorem C74_save {V S : Type} (o : FsOps V S) (info : Nat × S) (hi : info.1 < 2 ^ 128) (now : Time) (name : Bytes)
    (hn : isReserved name = false) (x : S) (ow : Bool) (d : Disk V) (acts : List Act)
    (h : save o info now name x ow d = (acts, .ok ())) (hash : Nat) (file : Bytes) :
    Saved (runAll d acts) hash file ↔ Saved d hash file ∨ (hash = info.1 ∧ file = name) := by
  obtain ⟨a, ra, hp, ⟨hne, _⟩ | ⟨_, hra, vals, b, _, _, rfl, _⟩⟩ := save_shape o info now name x ow d acts _ h
  · exact absurd rfl hne
  · obtain ⟨hprep, _, hdir, _⟩ := prepare_spec o now _ d a ra hp
    obtain ⟨h1, h2⟩ := hprep.run
    have hsome := (hdir hra).1
    unfold Saved
    rw [runAll_append]
    simp only [runAll, List.foldl_cons, List.foldl_nil]
    rw [put_read]
    have hrest : ∀ (hr : isReserved file = false),
        (List.foldl Act.run d a).read (hashToFolderName hash) file = d.read (hashToFolderName hash) file := by
      intro hr
      by_cases hf : hashToFolderName hash = hashToFolderName info.1
      · rw [hf]; exact h2 file hr
      · unfold Disk.read
        rw [show (List.foldl Act.run d a).dirs (hashToFolderName hash) = d.dirs (hashToFolderName hash) from h1 _ hf]
    constructor
    · rintro ⟨hh, hr, hs⟩
      split at hs
      · rename_i hc
        exact .inr ⟨folder_inj hh hi hc.1, hc.2.1⟩
      · rw [hrest hr] at hs
        exact .inl ⟨hh, hr, hs⟩
    · rintro (⟨hh, hr, hs⟩ | ⟨rfl, rfl⟩)
      · refine ⟨hh, hr, ?_⟩
        split
        · rfl
        · rw [hrest hr]; exact hs
      · exact ⟨hi, hn, by rw [if_pos ⟨rfl, rfl, hsome⟩]; rfl⟩

/-- **C74, removing.** After a file was removed it is not among the saved ones, and all others are as before. -/
theorem C74_remove {V : Type} (d d' : Disk V) (hash : Nat) (hh : hash < 2 ^ 128) (name : Bytes) (h : remove hash name d = .ok d')
    (hash' : Nat) (file : Bytes) : Saved d' hash' file ↔ Saved d hash' file ∧ ¬ (hash' = hash ∧ file = name) := by
  unfold remove at h
  split at h
  · rename_i hr
    cases hs : d.read (hashToFolderName hash) name with
    | none => rw [hs] at h; cases h
    | some c =>
      rw [hs] at h
      cases h
      have hread : ∀ g, hash' < 2 ^ 128 → (Disk.read (V := V) ⟨d.src, fun x => if x = hashToFolderName hash then (d.dirs x).map fun f y => if y = name then none else f y
          else d.dirs x⟩ (hashToFolderName hash') g) = if hash' = hash ∧ g = name then none else d.read (hashToFolderName hash') g := by
        intro g hh'
        unfold Disk.read
        by_cases he : hash' = hash
        · subst he
          cases hdd : d.dirs (hashToFolderName hash') with
          | none => simp [hdd]
          | some f => by_cases hg : g = name <;> simp [hg, hdd]
        · have : hashToFolderName hash' ≠ hashToFolderName hash := fun hc => he (folder_inj hh' hh hc)
          simp [this, he]
      unfold Saved
      constructor
      · rintro ⟨h1, h2, h3⟩
        rw [hread file h1] at h3
        split at h3
        · cases h3
        · rename_i hne
          exact ⟨⟨h1, h2, h3⟩, hne⟩
      · rintro ⟨⟨h1, h2, h3⟩, hne⟩
        refine ⟨h1, h2, ?_⟩
        rw [hread file h1, if_neg hne]
        exact h3
  · cases h

/-! ## Examples -/

def t1 : Time := ⟨1700000000, 0⟩
def t2 : Time := ⟨1700000001, 500⟩
def nameA : Bytes := strBytes "a.dochy"
def nameB : Bytes := strBytes "b.dochy"

/-- the list before it is sorted -/
def unsorted (checked : Bool) (n : Nat) (proj : List (Option PEntry)) : Option (Res (List FileData)) :=
  match findNextDir checked proj with
  | (.ok (some (d, hex)), p) => loopF checked n ⟨p, d, hex⟩
  | _ => none

theorem listFiles_run {checked : Bool} {n : Nat} {proj : List (Option PEntry)} {l : List FileData}
    (h : unsorted checked n proj = some (.ok l)) :
    listFiles checked n (some proj) = some (.ok (l.mergeSort fun a b => a.modified.le b.modified)) := by
  unfold unsorted at h
  unfold listFiles
  split at h
  · rename_i e
    simp only [e, h]
    rfl
  · cases h

theorem sort_two (a b : FileData) :
    [a, b].mergeSort (fun a b => a.modified.le b.modified) = if a.modified.le b.modified then [a, b] else [b, a] := by
  simp [List.mergeSort, List.MergeSort.Internal.splitInTwo, List.merge]

/-- a folder with the archive, `b.dochy` and the older `a.dochy` -/
def dir5 : List (Option FEntry) :=
  [some ⟨archiveName, false, some (t1, 100)⟩, some ⟨nameB, false, some (t2, 20)⟩, some ⟨nameA, false, some (t1, 10)⟩]

/-- a file, the folder of the hash 5, and a folder that is not named after a hash -/
def sampleEntries : List (Option PEntry) :=
  [some ⟨strBytes "note.txt", some false, none⟩, some ⟨hashToFolderName 5, some true, some dir5⟩,
   some ⟨strBytes "backup", some true, some [some ⟨nameA, false, some (t2, 1)⟩]⟩]

/-- `checked` or not, the two files are listed, the older one first -/
theorem C74_sample (checked : Bool) : listFiles checked 9 (some sampleEntries) = some (.ok [⟨5, t1, 10, nameA⟩, ⟨5, t2, 20, nameB⟩]) := by
  rw [listFiles_run (l := [⟨5, t2, 20, nameB⟩, ⟨5, t1, 10, nameA⟩]) (by cases checked <;> decide +kernel), sort_two]
  rfl

theorem fatal_length {name : Bytes} (h : name.length ≠ 32) : ¬ FatalName name := fun hf => h hf.1

theorem fatal_hex {name : Bytes} (h : ∀ b ∈ name, HexByte b) : ¬ FatalName name := by
  rintro ⟨_, a, b, r, rfl, _, hb⟩
  exact ((fatal_iff b).1 hb).1 (h b (by simp))

/-- the hypotheses of `C74_exact` -/
example : NoFatal true sampleEntries ∧ ¬ StartsBad sampleEntries ∧ size sampleEntries < 9 := by
  refine ⟨?_, ?_, by decide +kernel⟩
  · intro _ p hp hd
    simp only [sampleEntries, List.mem_cons, Option.some.injEq, List.not_mem_nil, or_false] at hp
    rcases hp with rfl | rfl | rfl
    · cases hd
    · exact fatal_hex (by decide +kernel)
    · exact fatal_length (by decide +kernel)
  · rintro ⟨a, e, r, h1, h2, h3⟩
    unfold sampleEntries at h1
    rcases a with _ | ⟨_, _ | ⟨x, a⟩⟩
    · cases h1
      rcases h3 _ rfl with h | h
      · cases h
      · cases h.1
    · cases h1
      rcases h3 _ rfl with h | h
      · cases h
      · cases h.2.2
    · simp only [List.cons_append, List.cons.injEq] at h1
      obtain ⟨_, rfl, _⟩ := h1
      obtain ⟨p, hp, h⟩ := h2 _ (List.mem_cons_of_mem _ List.mem_cons_self)
      cases hp
      rcases h with h | h
      · cases h
      · revert h; decide +kernel

/-- the same on a disk -/
def sampleDisk : Disk Unit where
  src := ()
  dirs := fun x =>
    if x = hashToFolderName 5 then some fun y => if y = archiveName ∨ y = nameA ∨ y = nameB then some [1] else none
    else if x = strBytes "backup" then some fun y => if y = nameA then some [1] else none
    else none

theorem sample_onDisk : OnDisk sampleDisk sampleEntries where
  plain := by
    intro e he
    simp only [sampleEntries, List.mem_cons, List.not_mem_nil, or_false] at he
    rcases he with rfl | rfl | rfl
    · exact ⟨_, false, rfl, rfl, fun h => by cases h⟩
    · refine ⟨_, true, rfl, rfl, fun _ => ⟨_, rfl, ?_⟩⟩
      intro x hx
      simp only [dir5, List.mem_cons, List.not_mem_nil, or_false] at hx
      rcases hx with rfl | rfl | rfl <;> exact ⟨_, rfl, rfl, rfl⟩
    · refine ⟨_, true, rfl, rfl, fun _ => ⟨_, rfl, ?_⟩⟩
      intro x hx
      simp only [List.mem_cons, List.not_mem_nil, or_false] at hx
      subst hx
      exact ⟨_, rfl, rfl, rfl⟩
  folder := by
    intro name f h
    simp only [sampleDisk] at h
    split at h
    · rename_i hn
      cases h
      refine ⟨_, dir5, List.mem_cons_of_mem _ List.mem_cons_self, hn.symm, rfl, rfl, fun y => ?_⟩
      constructor
      · intro hy
        dsimp only at hy
        split at hy
        · rename_i hc
          rcases hc with rfl | rfl | rfl
          · exact ⟨_, List.mem_cons_self, rfl⟩
          · exact ⟨_, List.mem_cons_of_mem _ (List.mem_cons_of_mem _ List.mem_cons_self), rfl⟩
          · exact ⟨_, List.mem_cons_of_mem _ List.mem_cons_self, rfl⟩
        · cases hy
      · rintro ⟨x, hx, rfl⟩
        simp only [dir5, List.mem_cons, Option.some.injEq, List.not_mem_nil, or_false] at hx
        rcases hx with rfl | rfl | rfl <;> simp
    · split at h
      · rename_i hn
        cases h
        refine ⟨_, _, List.mem_cons_of_mem _ (List.mem_cons_of_mem _ List.mem_cons_self), hn.symm, rfl, rfl, fun y => ?_⟩
        constructor
        · intro hy
          dsimp only at hy
          split at hy
          · rename_i hc
            subst hc
            exact ⟨_, List.mem_cons_self, rfl⟩
          · cases hy
        · rintro ⟨x, hx, rfl⟩
          simp only [List.mem_cons, Option.some.injEq, List.not_mem_nil, or_false] at hx
          subst hx
          simp
      · cases h
  only := by
    intro p hp hd
    simp only [sampleEntries, List.mem_cons, Option.some.injEq, List.not_mem_nil, or_false] at hp
    rcases hp with rfl | rfl | rfl
    · cases hd
    · simp [sampleDisk]
    · have : strBytes "backup" ≠ hashToFolderName 5 := by decide +kernel
      simp [sampleDisk, this]
  once := by
    simp only [sampleEntries, List.pairwise_cons, List.mem_cons, List.not_mem_nil, or_false]
    refine ⟨?_, ?_, fun _ h => h.elim, List.Pairwise.nil⟩
    · rintro b (rfl | rfl) p q hp hq <;> cases hp <;> cases hq <;> decide +kernel
    · rintro b rfl p q hp hq; cases hp; cases hq; decide +kernel
  onceIn := by
    intro p l hp hl
    simp only [sampleEntries, List.mem_cons, Option.some.injEq, List.not_mem_nil, or_false] at hp
    rcases hp with rfl | rfl | rfl
    · cases hl
    · cases hl
      simp only [dir5, List.pairwise_cons, List.mem_cons, List.not_mem_nil, or_false]
      refine ⟨?_, ?_, fun _ h => h.elim, List.Pairwise.nil⟩
      · rintro b (rfl | rfl) p q hp hq <;> cases hp <;> cases hq <;> decide +kernel
      · rintro b rfl p q hp hq; cases hp; cases hq; decide +kernel
    · cases hl
      simp

/-- the hypotheses of `C74_disk` and `C74_once` -/
example : OnDisk sampleDisk sampleEntries ∧ Utf8Names sampleDisk ∧ Saved sampleDisk 5 nameA := by
  refine ⟨sample_onDisk, ?_, by decide, by decide +kernel, by decide +kernel⟩
  intro folder name h
  unfold Disk.read at h
  simp only [sampleDisk] at h
  split at h
  · simp only [Option.bind_some] at h
    split at h
    · rename_i hc
      rcases hc with rfl | rfl | rfl <;> decide +kernel
    · cases h
  · split at h
    · simp only [Option.bind_some] at h
      split at h
      · rename_i hc
        subst hc
        decide +kernel
      · cases h
    · cases h

/-- removing one of them -/
example : ∃ d, remove 5 nameA sampleDisk = .ok d ∧ ¬ Saved d 5 nameA ∧ Saved d 5 nameB := by
  have h : ∃ d, remove 5 nameA sampleDisk = .ok d := by
    unfold remove
    rw [if_pos (by decide +kernel), show sampleDisk.read (hashToFolderName 5) nameA = some [1] from by decide +kernel]
    exact ⟨_, rfl⟩
  obtain ⟨d, h⟩ := h
  have hr := C74_remove sampleDisk d 5 (by decide) nameA h
  refine ⟨d, h, fun hs => ((hr 5 nameA).1 hs).2 ⟨rfl, rfl⟩, (hr 5 nameB).2 ⟨⟨by decide, by decide +kernel, by decide +kernel⟩, ?_⟩⟩
  rintro ⟨_, h⟩
  revert h
  decide +kernel

/-! ## What is wrong -/

/-- a folder of saved files that cannot be opened -/
def locked : Option PEntry := some ⟨hashToFolderName 6, some true, none⟩

/-- **C74 does not hold for folders that cannot be opened**: whether the other files are listed, or the whole list is an error, depends on
the order in which the system returns the folders. -/
theorem C74_negation_order : listFiles false 9 (some (locked :: sampleEntries)) = some .err ∧
    listFiles false 9 (some (sampleEntries ++ [locked])) = some (.ok [⟨5, t1, 10, nameA⟩, ⟨5, t2, 20, nameB⟩]) := by
  refine ⟨by decide +kernel, ?_⟩
  rw [listFiles_run (l := [⟨5, t2, 20, nameB⟩, ⟨5, t1, 10, nameA⟩]) (by decide +kernel), sort_two]
  rfl

/-- A folder in a folder of saved files is listed as a file. -/
theorem C74_negation_folder :
    listFiles false 9 (some [some ⟨hashToFolderName 5, some true, some [some ⟨strBytes "sub", true, some (t1, 4096)⟩]⟩]) =
      some (.ok [⟨5, t1, 4096, strBytes "sub"⟩]) := by
  rw [listFiles_run (l := [⟨5, t1, 4096, strBytes "sub"⟩]) (by decide +kernel), List.mergeSort_singleton]

/-- Two files whose names are not UTF-8 are listed with the same path, which is that of neither. -/
theorem C74_negation_name : ∃ out a b, listFiles false 9 (some [some ⟨hashToFolderName 5, some true,
      some [some ⟨[97, 0xfe], false, some (t1, 1)⟩, some ⟨[97, 0xff], false, some (t2, 2)⟩]⟩]) = some (.ok out) ∧
    out = [a, b] ∧ a.calcPath = b.calcPath ∧ a.calcPath.2 ≠ [97, 0xfe] ∧ a.calcPath.2 ≠ [97, 0xff] :=
  ⟨_, ⟨5, t1, 1, [97, 0xef, 0xbf, 0xbd]⟩, ⟨5, t2, 2, [97, 0xef, 0xbf, 0xbd]⟩,
    by rw [listFiles_run (l := [⟨5, t1, 1, [97, 0xef, 0xbf, 0xbd]⟩, ⟨5, t2, 2, [97, 0xef, 0xbf, 0xbd]⟩]) (by decide +kernel), sort_two]; rfl,
    rfl, by decide +kernel, by decide, by decide⟩

/-- With overflow checks, a folder of another kind whose name has 32 bytes makes the list panic (C43). -/
theorem C74_negation_panic :
    listFiles true 9 (some (sampleEntries ++ [some ⟨strBytes "New folder for the backup of it!", some true, some []⟩])) = some .panic := by
  decide +kernel

/-! ## Names that are not UTF-8 -/

/-- the bytes of a text -/
def IsText (b : Bytes) : Prop := ∃ s, b = strBytes s

theorem isText_iff {b : Bytes} : IsText b ↔ (strOfBytes b).isSome := by
  constructor
  · rintro ⟨s, rfl⟩
    rw [strOfBytes_strBytes]
    rfl
  · intro h
    unfold strOfBytes String.fromUTF8? at h
    split at h
    · rename_i hv
      exact ⟨String.ofByteArray _ hv, by simp [strBytes]⟩
    · cases h

theorem IsText.append {a b : Bytes} (ha : IsText a) (hb : IsText b) : IsText (a ++ b) := by
  obtain ⟨s, rfl⟩ := ha
  obtain ⟨t, rfl⟩ := hb
  exact ⟨s ++ t, by simp [strBytes]⟩

theorem lossyF_text : ∀ (n : Nat) (b : Bytes), IsText (lossyF n b)
  | n, [] => by
    have : lossyF n [] = [] := by cases n <;> rfl
    rw [this]
    exact ⟨"", by decide +kernel⟩
  | 0, _ :: _ => ⟨"", by rw [show strBytes "" = [] from by decide +kernel]; rfl⟩
  | n + 1, x :: r => by
    rw [lossyF]
    rotate_left
    · intro h
      cases h
    cases hc : charLen (x :: r) with
    | none => exact IsText.append ⟨"\uFFFD", by decide +kernel⟩ (lossyF_text n _)
    | some k =>
      refine IsText.append (isText_iff.2 ?_) (lossyF_text n _)
      have := List.find?_some hc
      simp only [Bool.and_eq_true] at this
      exact this.2

/-- **C74: every listed name is text**, whatever the bytes of the name are. -/
theorem C74_text (name : Bytes) : (strOfBytes (lossy name)).isSome := by
  unfold lossy
  split
  · assumption
  · exact isText_iff.1 (lossyF_text _ _)

/-- **C74, exactly.** The listed name is the one on the disk if and only if that one is UTF-8. -/
theorem C74_name_iff (name : Bytes) : lossy name = name ↔ (strOfBytes name).isSome :=
  ⟨fun h => h ▸ C74_text name, lossy_valid⟩

/-- How bytes that belong to no character are replaced: a cut character at once, other bytes one by one. -/
theorem C74_replaced : lossy (strBytes "a" ++ [0xe3, 0x81] ++ strBytes "b") = strBytes "a\uFFFDb" ∧ lossy [0xe3, 0x81] = strBytes "\uFFFD" ∧
    lossy [0xf0, 0x9f, 0x98] = strBytes "\uFFFD" ∧ lossy [0xf0, 0x9f, 0x98, 0x41] = strBytes "\uFFFDA" ∧
    lossy [0xe0, 0x80] = strBytes "\uFFFD\uFFFD" ∧ lossy [0xff, 0xfe] = strBytes "\uFFFD\uFFFD" ∧ lossy [0xc3] = strBytes "\uFFFD" := by
  decide +kernel

/-- **C74: without a save folder** the list is an error, not empty. -/
theorem C74_missing (checked : Bool) (n : Nat) : listFiles checked n none = some .err := rfl

end Verif.ListFiles
