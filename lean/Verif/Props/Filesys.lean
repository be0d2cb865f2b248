import Verif.Lemmas.Filesys
import Verif.Lemmas.CodecEval
import Verif.Props.Archive
/-!
# Properties C39, C40 and C53 (save files and the archives of their sources)
-/
namespace Verif.Filesys
open Codec VarInt HashDir

section
variable {V S : Type} {Good Same : S → S → Prop}

/-! ## Reading what was written -/

theorem read_whole {o : FsOps V S} (hl : o.Lawful Good Same) {v : V} {s x : S} {h : Nat} (hv : o.root v = .ok (s, h)) (hg : Good s x)
    {vals : List KVal} {b : Bytes} (hd : o.diff s x = .ok vals) (he : encodeVals vals = .ok b) :
    decodeVals b = .ok (vals.map norm, []) ∧ ∃ y, o.app s (vals.map norm) = .ok y ∧ Same x y := by
  obtain ⟨l1, l2, l3, l4⟩ := hl.diff v s h x vals hv hg hd
  have := decode_encodeVals vals l1 l2 b he (l3 b he) []
  rw [List.append_nil] at this
  exact ⟨this, l4⟩

theorem read_torn {o : FsOps V S} (hl : o.Lawful Good Same) {v : V} {s x : S} {h : Nat} (hv : o.root v = .ok (s, h)) (hg : Good s x)
    {vals : List KVal} {b : Bytes} (hd : o.diff s x = .ok vals) (he : encodeVals vals = .ok b) (n : Nat) (hn : n < b.length) :
    decodeVals (b.take n) = .err := by
  obtain ⟨l1, l2, l3, _⟩ := hl.diff v s h x vals hv hg hd
  exact C03_truncation_rejected vals l1 l2 b he (l3 b he) n hn

/-- Loading with the version that the file was saved with. -/
theorem load_same (checked : Bool) (o : FsOps V S) (s : S) (h : Nat) (hh : h < 2 ^ 128) (name : Bytes) (validation : Bool)
    (d : Disk V) : load checked o (h, s) (hashToFolderName h) name validation d =
      match d.read (hashToFolderName h) name with
      | none => .err
      | some c => (decodeVals c).bind fun r => o.app s r.1 := by
  unfold load
  rw [C43_round_trip checked h hh]
  simp only [Res.bind_ok, loadBase, if_true]
  cases d.read (hashToFolderName h) name with
  | none => rfl
  | some c =>
    simp only [ne_eq, not_true_eq_false, if_false]
    cases decodeVals c with
    | err => rfl
    | panic => rfl
    | ok r =>
      simp only [Res.bind_ok]
      cases o.app s r.1 <;> rfl

/-- Loading with another version. -/
theorem load_other (checked : Bool) (o : FsOps V S) (s' : S) (h' h : Nat) (hh : h < 2 ^ 128) (hne : h' ≠ h) (name : Bytes)
    (validation : Bool) (d : Disk V) : load checked o (h', s') (hashToFolderName h) name validation d =
      match d.read (hashToFolderName h) archiveName with
      | none => .err
      | some a => (o.read a).bind fun r => (if validation then o.check r.1 else .ok ()).bind fun _ =>
        match d.read (hashToFolderName h) name with
        | none => .err
        | some c => (decodeVals c).bind fun v => (o.app r.1 v.1).bind fun x => o.adjust s' x validation := by
  unfold load
  rw [C43_round_trip checked h hh]
  simp only [Res.bind_ok, loadBase]
  rw [if_neg hne]
  cases d.read (hashToFolderName h) archiveName with
  | none => rfl
  | some a =>
    simp only
    cases o.read a with
    | err => rfl
    | panic => rfl
    | ok r =>
      simp only [Res.bind_ok, ne_eq, hne, not_false_eq_true, if_true]
      cases validation with
      | false => rfl
      | true =>
        simp only [if_true]
        cases o.check r.1 <;> rfl

/-! ## C39 -/

/-- C39, what holds: when a save is interrupted, after the first `i` of its actions and `n` bytes of the next one, then the file is
as before, or new, or it was being written (this is the last action) and cannot be loaded. -/
theorem C39_crash_partial (checked : Bool) (o : FsOps V S) (hl : o.Lawful Good Same) (v : V) (s : S) (h : Nat) (hv : o.root v = .ok (s, h))
    (now : Time) (name : Bytes) (hn : isReserved name = false) (x : S) (hg : Good s x) (ow : Bool) (d : Disk V) (acts : List Act)
    (r : Res Unit) (hs : save o (h, s) now name x ow d = (acts, r)) (i n : Nat) (validation : Bool) :
    let now := load checked o (h, s) (hashToFolderName h) name validation (runAll d (cut acts i n))
    let before := load checked o (h, s) (hashToFolderName h) name validation d
    (r ≠ .ok () → now = before) ∧ (r = .ok () → i + 1 < acts.length → now = before) ∧
      (r = .ok () → acts.length ≤ i → ∃ y, now = .ok y ∧ Same x y) ∧
      (r = .ok () → i + 1 = acts.length → ∃ b, acts[i]? = some (.put (hashToFolderName h) name b) ∧
        ((n < b.length ∧ now = .err) ∨ (b.length ≤ n ∧ ∃ y, now = .ok y ∧ Same x y))) := by
  intro now' before
  have hh := hl.hash v s h hv
  obtain ⟨a, ra, hp, hcase⟩ := save_shape o (h, s) now name x ow d acts r hs
  obtain ⟨hprep, _, hok, _⟩ := prepare_spec o now _ d a ra hp
  have hpre : ∀ i n, load checked o (h, s) (hashToFolderName h) name validation (runAll d (cut a i n)) = before := by
    intro i n
    simp only [before]
    rw [load_same checked o s h hh, load_same checked o s h hh, ((hprep.cut i n).run).2 name hn]
  have hput : ∀ y, ra = .ok () → load checked o (h, s) (hashToFolderName h) name validation
      (runAll d (a ++ [.put (hashToFolderName h) name y])) = (decodeVals y).bind fun r => o.app s r.1 := by
    intro y hra
    rw [load_same checked o s h hh, runAll_append]
    have := (hok hra).1
    generalize runAll d a = d1 at this
    simp only [runAll, List.foldl_cons, List.foldl_nil]
    rw [put_read, if_pos ⟨rfl, rfl, this⟩]
  rcases hcase with ⟨hr, rfl⟩ | ⟨rfl, rfl, vals, b, hd, he, rfl, _⟩
  · exact ⟨fun _ => hpre i n, fun h => absurd h hr, fun h => absurd h hr, fun h => absurd h hr⟩
  · obtain ⟨w1, w2⟩ := read_whole hl hv hg hd he
    refine ⟨fun h => absurd rfl h, fun _ hi => ?_, fun _ hi => ?_, fun _ hi => ⟨b, ?_, ?_⟩⟩
    · simp only [List.length_append, List.length_singleton] at hi
      simp only [now']
      rw [cut_left _ _ _ (by omega)]
      exact hpre i n
    · simp only [now']
      rw [cut_whole _ _ hi, hput b rfl, w1]
      exact w2
    · simp only [List.length_append, List.length_singleton] at hi
      rw [List.getElem?_append_right (by omega), show i - a.length = 0 by omega]
      rfl
    · simp only [List.length_append, List.length_singleton] at hi
      obtain rfl : i = a.length := by omega
      simp only [now']
      rw [cut_last, hput _ rfl]
      by_cases hnb : n < b.length
      · left
        rw [read_torn hl hv hg hd he n hnb]
        exact ⟨hnb, rfl⟩
      · right
        rw [List.take_of_length_le (by omega), w1]
        exact ⟨by omega, w2⟩

/-- C39, what holds: all other files, and the archive if there is one, are as before, wherever the save is interrupted. -/
theorem C39_others (o : FsOps V S) (info : Nat × S) (now : Time) (name : Bytes) (x : S) (ow : Bool) (d : Disk V) (acts : List Act)
    (r : Res Unit) (hs : save o info now name x ow d = (acts, r)) (hn : isReserved name = false) (i n : Nat) :
    (∀ g y, g ≠ hashToFolderName info.1 → (runAll d (cut acts i n)).read g y = d.read g y) ∧
      (∀ y, y ≠ name → isReserved y = false →
        (runAll d (cut acts i n)).read (hashToFolderName info.1) y = d.read (hashToFolderName info.1) y) ∧
      (∀ c, d.read (hashToFolderName info.1) archiveName = some c →
        (runAll d (cut acts i n)).read (hashToFolderName info.1) archiveName = some c) := by
  obtain ⟨c1, c2, c3, _⟩ := crash_cases o info now name x ow d acts r hs hn i n none
  refine ⟨fun g y hg => ?_, c2, c3⟩
  unfold Disk.read
  rw [c1 g hg]

/-- C39 is false for every save that succeeds: there is a point of it where, if the process dies, nothing can be loaded, neither
the old contents nor the new. -/
theorem C39_negation (checked : Bool) (o : FsOps V S) (hl : o.Lawful Good Same) (v : V) (s : S) (h : Nat) (hv : o.root v = .ok (s, h))
    (now : Time) (name : Bytes) (x : S) (ow : Bool) (d : Disk V) (acts : List Act)
    (hs : save o (h, s) now name x ow d = (acts, .ok ())) (validation : Bool) :
    ∃ i, load checked o (h, s) (hashToFolderName h) name validation (runAll d (cut acts i 0)) = .err := by
  have hh := hl.hash v s h hv
  obtain ⟨a, ra, hp, hcase⟩ := save_shape o (h, s) now name x ow d acts _ hs
  obtain ⟨hprep, _, hok, _⟩ := prepare_spec o now _ d a ra hp
  rcases hcase with ⟨hr, _⟩ | ⟨_, rfl, vals, b, hd, he, rfl, _⟩
  · exact absurd rfl hr
  · refine ⟨a.length, ?_⟩
    rw [cut_last, load_same checked o s h hh, runAll_append]
    have := (hok rfl).1
    generalize runAll d a = d1 at this
    simp only [runAll, List.foldl_cons, List.foldl_nil]
    rw [put_read, if_pos ⟨rfl, rfl, this⟩]
    rfl

/-! ## C40 -/

/-- C40, what holds: the archive in a folder is complete and is read as the source that the save files of the folder were made
from, except in the folders that were spoiled, which are those of `C40_spoiled`. -/
theorem C40_archive_partial (o : FsOps V S) (hl : o.Lawful Good Same) (d : Disk V) (p : Option (S × Nat)) (k : Known S) (bad : Nat → Prop)
    (hr : Reach o Good d p k bad) (h : Nat) (hh : h < 2 ^ 128) (hb : ¬ bad h) (name : Bytes) (hn : isReserved name = false) (x : S)
    (hk : k h name = some (some x)) :
    ∃ s c b vals, d.read (hashToFolderName h) archiveName = some c ∧ o.read c = .ok (s, h) ∧
      d.read (hashToFolderName h) name = some b ∧ decodeVals b = .ok (vals, []) ∧ ∃ y, o.app s vals = .ok y ∧ Same x y := by
  have hi := hr.inv hl
  have hf := hi.files h name hh hn
  rw [hk] at hf
  obtain ⟨v, s, vals, b, h1, hg, h2, h3, h4⟩ := hf
  cases hc : d.read (hashToFolderName h) archiveName with
  | none => exact absurd hc (hi.present h name hh hb hn (by rw [hk]; simp))
  | some c =>
    obtain ⟨v', s', g1, g2⟩ := hi.archives h hh hb c hc
    obtain rfl := hl.collision v v' s s' h h1 g1
    obtain ⟨w1, w2⟩ := read_whole hl h1 hg h2 h3
    exact ⟨s, c, b, _, rfl, hl.whole v' s h c g1 g2, h4, w1, w2⟩

/-- C40: how a folder is spoiled. If the source is the one that the process started with, then only a crash within the writing of
the archive, or a failure of making the archive, spoils a folder. -/
theorem C40_spoiled (o : FsOps V S) (hl : o.Lawful Good Same) (s : S) (h : Nat) (now : Time) (name : Bytes) (hn : isReserved name = false)
    (x : S) (ow : Bool) (d : Disk V) (hv : o.root d.src = .ok (s, h)) (acts : List Act) (r : Res Unit)
    (hs : save o (h, s) now name x ow d = (acts, r)) (i n : Nat) (h' : Nat) (hh' : h' < 2 ^ 128)
    (hsp : Spoils o d (runAll d (cut acts i n)) h') :
    h' = h ∧ ((∃ c, o.archive d.src = .ok c ∧ acts[i]? = some (.put (hashToFolderName h) archiveName c) ∧ n < c.length) ∨
      ∀ c, o.archive d.src ≠ .ok c) := by
  have hh := hl.hash _ s h hv
  obtain ⟨c1, c2, c3, _⟩ := crash_cases o (h, s) now name x ow d acts r hs hn i n none
  obtain ⟨hnone, c, hc, hnot⟩ := hsp
  have he : h' = h := by
    by_contra hne
    unfold Disk.read at hc hnone
    simp only at c1
    rw [c1 _ fun he => hne (folder_inj hh' hh he), hnone] at hc
    cases hc
  subst he
  refine ⟨rfl, ?_⟩
  cases ha : o.archive d.src with
  | err => right; intro c h; cases h
  | panic => right; intro c h; cases h
  | ok full =>
    left
    refine ⟨full, rfl, ?_⟩
    have hcne : c ≠ full := by
      rintro rfl
      exact hnot ⟨_, s, hv, ha⟩
    -- where the archive is written
    obtain ⟨a, ra, hp, hcase⟩ := save_shape o (h', s) now name x ow d acts r hs
    have hnoarch : name ≠ archiveName := by rintro rfl; rw [reserved_archive] at hn; cases hn
    have hpa : (∃ t, a = t ∧ ∀ y ∈ t, ∃ nm b, y = Act.put (hashToFolderName h') nm b ∧ nm ≠ archiveName ∨
        y = Act.mkdir (hashToFolderName h')) ∨
      ∃ t, a = t ++ [.put (hashToFolderName h') archiveName full] ∧ ∀ y ∈ t, ∃ nm b, y = Act.put (hashToFolderName h') nm b ∧
        nm ≠ archiveName ∨ y = Act.mkdir (hashToFolderName h') := by
      have htime := archive_ne_time.symm
      unfold prepare makeDir at hp
      cases hd : d.dirs (hashToFolderName h') with
      | some fo =>
        right
        rw [hd] at hp
        simp only [runAll, List.foldl_nil, List.nil_append] at hp
        unfold makeArchive at hp
        rw [hnone, ha] at hp
        cases hp
        exact ⟨[], rfl, fun _ h => (nomatch h)⟩
      | none =>
        rw [hd] at hp
        simp only at hp
        cases ht : createTimeDat now with
        | err =>
          rw [ht] at hp
          cases hp
          left
          refine ⟨_, rfl, ?_⟩
          intro y hy
          simp only [List.mem_cons, List.not_mem_nil, or_false] at hy
          rcases hy with rfl | rfl
          · exact ⟨[], [], Or.inr rfl⟩
          · exact ⟨_, _, Or.inl ⟨rfl, htime⟩⟩
        | panic =>
          rw [ht] at hp
          cases hp
          left
          refine ⟨_, rfl, ?_⟩
          intro y hy
          simp only [List.mem_cons, List.not_mem_nil, or_false] at hy
          rcases hy with rfl | rfl
          · exact ⟨[], [], Or.inr rfl⟩
          · exact ⟨_, _, Or.inl ⟨rfl, htime⟩⟩
        | ok b =>
          rw [ht] at hp
          simp only at hp
          have hna1 : (runAll d [Act.mkdir (hashToFolderName h'), Act.put (hashToFolderName h') timeName b]).read
              (hashToFolderName h') archiveName = none := by
            simp only [runAll, List.foldl_cons, List.foldl_nil]
            rw [put_read, if_neg (fun h => archive_ne_time h.2.1)]
            simp [Act.run, Disk.read]
          unfold makeArchive at hp
          rw [hna1, runAll_src, ha] at hp
          cases hp
          right
          refine ⟨_, rfl, ?_⟩
          intro y hy
          simp only [List.mem_cons, List.not_mem_nil, or_false] at hy
          rcases hy with rfl | rfl
          · exact ⟨[], [], Or.inr rfl⟩
          · exact ⟨_, _, Or.inl ⟨rfl, htime⟩⟩
    -- actions that do not write the archive leave it missing
    have hquiet : ∀ (t : List Act) (d0 : Disk V), d0.read (hashToFolderName h') archiveName = none →
        (∀ y ∈ t, ∃ nm b, y = Act.put (hashToFolderName h') nm b ∧ nm ≠ archiveName ∨ y = Act.mkdir (hashToFolderName h')) →
        (runAll d0 t).read (hashToFolderName h') archiveName = none := by
      intro t
      induction t with
      | nil => intro d0 h0 _; exact h0
      | cons y t ih =>
        intro d0 h0 ht
        refine ih (Act.run d0 y) ?_ fun z hz => ht z (by simp [hz])
        obtain ⟨nm, b, ⟨rfl, hne⟩ | rfl⟩ := ht y (by simp)
        · rw [put_read, if_neg (fun h => hne h.2.1.symm)]; exact h0
        · simp [Act.run, Disk.read]
    have hcutq : ∀ (t : List Act) (i n : Nat),
        (∀ y ∈ t, ∃ nm b, y = Act.put (hashToFolderName h') nm b ∧ nm ≠ archiveName ∨ y = Act.mkdir (hashToFolderName h')) →
        ∀ y ∈ cut t i n, ∃ nm b, y = Act.put (hashToFolderName h') nm b ∧ nm ≠ archiveName ∨ y = Act.mkdir (hashToFolderName h') := by
      intro t i n ht y hy
      unfold cut at hy
      rcases List.mem_append.1 hy with hy | hy
      · exact ht y (List.mem_of_mem_take hy)
      · split at hy
        · rename_i g nm b hg
          rw [List.mem_singleton] at hy
          obtain ⟨nm', b', ⟨h1, h2⟩ | h1⟩ := ht _ (List.mem_of_getElem? hg)
          · cases h1
            exact ⟨nm, _, Or.inl ⟨hy, h2⟩⟩
          · cases h1
        · cases hy
    -- the other actions of the save
    obtain ⟨rest, hacts, hrest⟩ : ∃ rest, acts = a ++ rest ∧
        ∀ y ∈ rest, ∃ nm b, y = Act.put (hashToFolderName h') nm b ∧ nm ≠ archiveName ∨ y = Act.mkdir (hashToFolderName h') := by
      rcases hcase with ⟨_, rfl⟩ | ⟨_, _, vals, b, _, _, rfl, _⟩
      · exact ⟨[], by simp, fun _ h => (nomatch h)⟩
      · refine ⟨_, rfl, ?_⟩
        intro y hy
        rw [List.mem_singleton] at hy
        exact ⟨_, _, Or.inl ⟨hy, hnoarch⟩⟩
    rcases hpa with ⟨t, rfl, ht⟩ | ⟨t, rfl, ht⟩
    · exfalso
      have hall : ∀ y ∈ a ++ rest, ∃ nm b, y = Act.put (hashToFolderName h') nm b ∧ nm ≠ archiveName ∨
          y = Act.mkdir (hashToFolderName h') := by
        intro y hy
        rcases List.mem_append.1 hy with hy | hy
        · exact ht y hy
        · exact hrest y hy
      rw [hacts, hquiet _ d hnone (hcutq _ i n hall)] at hc
      cases hc
    · rw [List.append_assoc] at hacts
      rcases Nat.lt_trichotomy i t.length with hi | hi | hi
      · exfalso
        rw [hacts, cut_left _ _ _ hi, hquiet _ d hnone (hcutq _ i n ht)] at hc
        cases hc
      · subst hi
        refine ⟨?_, ?_⟩
        · rw [hacts, List.getElem?_append_right (by omega), Nat.sub_self]
          rfl
        · by_contra hnl
          have hcut : cut acts t.length n = t ++ [.put (hashToFolderName h') archiveName full] := by
            rw [hacts]
            unfold cut
            rw [List.take_append_of_le_length (by omega), List.take_length, List.getElem?_append_right (by omega), Nat.sub_self]
            simp only [List.singleton_append, List.getElem?_cons_zero]
            rw [List.take_of_length_le (by omega)]
          rw [hcut, runAll_append] at hc
          simp only [runAll, List.foldl_cons, List.foldl_nil] at hc
          rw [put_read] at hc
          split at hc
          · exact hcne (Option.some.inj hc).symm
          · have := hquiet t d hnone ht
            unfold runAll at this
            rw [this] at hc
            cases hc
      · exfalso
        have hrest2 : ∀ y ∈ rest, ∃ nm b, y = Act.put (hashToFolderName h') nm b ∧ nm ≠ archiveName := by
          rcases hcase with ⟨_, hx⟩ | ⟨_, _, vals, b, _, _, hx, _⟩
          · rw [hx] at hacts
            have : rest = [] := by
              have := congrArg List.length hacts
              simp only [List.length_append, List.length_singleton] at this
              exact List.length_eq_zero_iff.1 (by omega)
            subst this
            intro y hy; cases hy
          · rw [hx, List.append_assoc] at hacts
            have := List.append_cancel_left (List.append_cancel_left hacts)
            subst this
            intro y hy
            rw [List.mem_singleton] at hy
            exact ⟨_, _, hy, hnoarch⟩
        have hcut : ∃ u, cut acts i n = (t ++ [.put (hashToFolderName h') archiveName full]) ++ u ∧
            ∀ y ∈ u, ∃ nm b, y = Act.put (hashToFolderName h') nm b ∧ nm ≠ archiveName := by
          rw [hacts, ← List.append_assoc]
          unfold cut
          rw [List.take_append, List.take_of_length_le (by simp only [List.length_append, List.length_singleton]; omega),
            List.append_assoc]
          refine ⟨_, rfl, ?_⟩
          intro y hy
          rcases List.mem_append.1 hy with hy | hy
          · exact hrest2 y (List.mem_of_mem_take hy)
          · rw [List.getElem?_append_right (by simp only [List.length_append, List.length_singleton]; omega)] at hy
            split at hy
            · rename_i g nm b hg
              obtain ⟨nm', b', h1, h2⟩ := hrest2 _ (List.mem_of_getElem? hg)
              cases h1
              rw [List.mem_singleton] at hy
              exact ⟨_, _, hy, h2⟩
            · cases hy
        obtain ⟨u, hu, hu2⟩ := hcut
        rw [hu, runAll_append, runAll_append] at hc
        have hpres : ∀ (u : List Act) (d0 : Disk V), (∀ y ∈ u, ∃ nm b, y = Act.put (hashToFolderName h') nm b ∧ nm ≠ archiveName) →
            (runAll d0 u).read (hashToFolderName h') archiveName = d0.read (hashToFolderName h') archiveName := by
          intro u
          induction u with
          | nil => intro d0 _; rfl
          | cons y u ih =>
            intro d0 hu
            refine (ih (Act.run d0 y) fun z hz => hu z (by simp [hz])).trans ?_
            obtain ⟨nm, b, rfl, hne⟩ := hu y (by simp)
            rw [put_read, if_neg (fun h => hne h.2.1.symm)]
        rw [hpres u _ hu2] at hc
        have h0 := hquiet t d hnone ht
        generalize runAll d t = d1 at hc h0
        simp only [runAll, List.foldl_cons, List.foldl_nil] at hc
        rw [put_read] at hc
        split at hc
        · exact hcne (Option.some.inj hc).symm
        · rw [h0] at hc; cases hc

/-! ## C53 -/

/-- C53: after any run, a file that was saved is loaded by a process of the same version as it was saved, and by a process of another
version as the adjustment of what was saved, if the archive was not spoiled. -/
theorem C53_load (checked : Bool) (o : FsOps V S) (hl : o.Lawful Good Same) (d : Disk V) (s' : S) (h' : Nat) (k : Known S) (bad : Nat → Prop)
    (hr : Reach o Good d (some (s', h')) k bad) (h : Nat) (hh : h < 2 ^ 128) (name : Bytes) (hn : isReserved name = false) (x : S)
    (hk : k h name = some (some x)) (validation : Bool) :
    ∃ y, Same x y ∧ (h' = h → load checked o (h', s') (hashToFolderName h) name validation d = .ok y) ∧
    (h' ≠ h → ¬ bad h → ∃ v s, o.root v = .ok (s, h) ∧ load checked o (h', s') (hashToFolderName h) name validation d =
      (if validation then o.check s else .ok ()).bind fun _ => o.adjust s' y validation) := by
  have hi := hr.inv hl
  have hf := hi.files h name hh hn
  rw [hk] at hf
  obtain ⟨v, s, vals, b, h1, hg, h2, h3, h4⟩ := hf
  obtain ⟨w1, y, w2, w3⟩ := read_whole hl h1 hg h2 h3
  refine ⟨y, w3, ?_, fun hne hb => ?_⟩
  · rintro rfl
    obtain ⟨v', hv'⟩ := hi.proc s' h' rfl
    obtain rfl := hl.collision _ _ _ _ _ h1 hv'
    rw [load_same checked o s h' hh, h4]
    simp only
    rw [w1]
    exact w2
  · refine ⟨v, s, h1, ?_⟩
    rw [load_other checked o s' h' h hh hne]
    cases hc : d.read (hashToFolderName h) archiveName with
    | none => exact absurd hc (hi.present h name hh hb hn (by rw [hk]; simp))
    | some c =>
      obtain ⟨v', s2, g1, g2⟩ := hi.archives h hh hb c hc
      obtain rfl := hl.collision v v' s s2 h h1 g1
      simp only
      rw [hl.whole v' s h c g1 g2, h4]
      simp only [Res.bind_ok]
      rw [w1]
      simp only [Res.bind_ok]
      rw [w2]
      rfl

/-- C53: a file that was never saved, that was removed, or of which the writing was interrupted is never loaded, as whatever
object. -/
theorem C53_no_other (checked : Bool) (o : FsOps V S) (hl : o.Lawful Good Same) (d : Disk V) (s' : S) (h' : Nat) (k : Known S)
    (bad : Nat → Prop) (hr : Reach o Good d (some (s', h')) k bad) (h : Nat) (hh : h < 2 ^ 128) (name : Bytes)
    (hn : isReserved name = false) (hk : k h name = none ∨ k h name = some none) (validation : Bool) (y : S) :
    load checked o (h', s') (hashToFolderName h) name validation d ≠ .ok y := by
  have hi := hr.inv hl
  have hf := hi.files h name hh hn
  have hno : d.read (hashToFolderName h) name = none ∨ ∃ c, d.read (hashToFolderName h) name = some c ∧ decodeVals c = .err := by
    rcases hk with hk | hk
    · rw [hk] at hf; exact Or.inl hf
    · rw [hk] at hf
      obtain ⟨v, s, x, vals, b, n, h1, hg, h2, h3, h4, h5⟩ := hf
      exact Or.inr ⟨_, h5, read_torn hl h1 hg h2 h3 n h4⟩
  by_cases hne : h' = h
  · subst hne
    rw [load_same checked o s' h' hh]
    rcases hno with h0 | ⟨c, h0, h1⟩
    · rw [h0]; simp
    · rw [h0]; simp only; rw [h1]; intro hx; cases hx
  · rw [load_other checked o s' h' h hh hne]
    cases d.read (hashToFolderName h) archiveName with
    | none => simp
    | some a =>
      simp only
      cases o.read a with
      | err => intro hx; cases hx
      | panic => intro hx; cases hx
      | ok r =>
        simp only [Res.bind_ok]
        cases (if validation = true then o.check r.1 else Res.ok ()) with
        | err => intro hx; cases hx
        | panic => intro hx; cases hx
        | ok u =>
          simp only [Res.bind_ok]
          rcases hno with h0 | ⟨c, h0, h1⟩
          · rw [h0]; simp
          · rw [h0]; simp only; rw [h1]; intro hx; cases hx

/-! ## C54 -/

/-- C54: without permission to overwrite, a save under a name that is taken fails and changes no file but perhaps the archive and the
time of the folder, also if the process dies; the file stays as it is. -/
theorem C54_no_overwrite (o : FsOps V S) (info : Nat × S) (now : Time) (name : Bytes) (hn : isReserved name = false) (x : S)
    (d : Disk V) (c : Bytes) (hc : d.read (hashToFolderName info.1) name = some c) (acts : List Act) (r : Res Unit)
    (hs : save o info now name x false d = (acts, r)) :
    r ≠ .ok () ∧ ∀ i n g y, isReserved y = false → (runAll d (cut acts i n)).read g y = d.read g y := by
  obtain ⟨a, ra, hp, hcase⟩ := save_shape o info now name x false d acts r hs
  obtain ⟨hprep, _, _, _⟩ := prepare_spec o now _ d a ra hp
  rcases hcase with ⟨hr, rfl⟩ | ⟨_, _, _, _, _, _, _, hno⟩
  · refine ⟨hr, fun i n g y hy => ?_⟩
    obtain ⟨h1, h2⟩ := (hprep.cut i n).run
    by_cases hg : g = hashToFolderName info.1
    · subst hg; exact h2 y hy
    · unfold Disk.read; rw [h1 g hg]
  · have := hno rfl
    rw [hprep.run.2 name hn, hc] at this
    cases this

/-- C54: a save succeeds if the folder can be prepared, the diff can be made, and the name is free or may be overwritten. -/
theorem C54_saves (o : FsOps V S) (hl : o.Lawful Good Same) (info : Nat × S) (v : V) (hv : o.root v = .ok (info.2, info.1)) (now : Time)
    (hnow : 0 ≤ now.secs) (name : Bytes) (hn : isReserved name = false) (x : S) (hg : Good info.2 x) (ow : Bool) (d : Disk V) (c : Bytes) (hc : o.archive d.src = .ok c)
    (vals : List KVal) (hd : o.diff info.2 x = .ok vals) (hf : ow = true ∨ d.read (hashToFolderName info.1) name = none) :
    ∃ acts, save o info now name x ow d = (acts, .ok ()) := by
  obtain ⟨b, hb⟩ := encodeVals_ok_of_valid vals (hl.diff _ _ _ _ _ hv hg hd).1
  obtain ⟨⟨a, ra⟩, hp⟩ : ∃ p, prepare o now (hashToFolderName info.1) d = p := ⟨_, rfl⟩
  obtain ⟨hprep, _, _, _⟩ := prepare_spec o now _ d a ra hp
  have hra : ra = .ok () := by
    have ht : createTimeDat now = .ok (leBytes 8 now.secs.toNat ++ leBytes 4 now.nanos) := by
      unfold createTimeDat; rw [if_neg (by omega)]
    have hm : ∀ d1 : Disk V, d1.src = d.src → (makeArchive o (hashToFolderName info.1) d1).2 = .ok () := by
      intro d1 h1
      unfold makeArchive
      rw [h1, hc]
      cases d1.read (hashToFolderName info.1) archiveName <;> rfl
    unfold prepare makeDir at hp
    rw [ht] at hp
    cases hdir : d.dirs (hashToFolderName info.1) with
    | none =>
      rw [hdir] at hp
      simp only at hp
      rw [← (Prod.mk.inj hp).2]
      exact hm _ (runAll_src _ _)
    | some f =>
      rw [hdir] at hp
      simp only at hp
      rw [← (Prod.mk.inj hp).2]
      exact hm _ (runAll_src _ _)
  subst hra
  refine ⟨a ++ [.put (hashToFolderName info.1) name b], ?_⟩
  unfold save
  simp only
  rw [hp]
  simp only
  rw [if_neg, hd, Res.bind_ok, hb]
  rcases hf with rfl | hf
  · simp
  · rw [hprep.run.2 name hn, hf]; simp

end

/-! ## The laws of archives, from the model of the archiver -/

section
variable {T S : Type}

/-- The sources of a directory that can be archived: the files by their paths, as many and as large as they can be counted. -/
def Archivable (F : Archive.Fns T Nat) (files : List (String × Bytes)) : Prop :=
  Archive.Sorted files ∧ files.length < 2 ^ 62 ∧ (∀ f ∈ files, (strBytes f.1).length < 2 ^ 63) ∧
    (∀ f ∈ files, Archive.Undoes F f.2) ∧
    ∀ out, Archive.writeArchive (Archive.messages F (Archive.archiveAll F files)) = .ok out → out.length < 2 ^ 63

/-- `FsOps` with the archiver of `Model/Archive.lean`; `parse` is archive_data_to_root.rs:16-59, and the rest is that of `o`. -/
def withArchiver (F : Archive.Fns T Nat) (parse : List (String × (T × Bytes)) → Res S) (o : FsOps Unit S) :
    FsOps {files : List (String × Bytes) // Archivable F files} S where
  root v := let data := Archive.archiveAll F v.1; (parse data.btree).map fun s => (s, data.hash)
  archive v := Archive.writeArchive (Archive.messages F (Archive.archiveAll F v.1))
  read b := (Archive.readArchive F b).bind fun r => (parse r.1.btree).map fun s => (s, r.1.hash)
  check := o.check
  diff := o.diff
  app := o.app
  adjust := o.adjust

/-- With the archiver of `Model/Archive.lean`, whole archives are read as their source and parts of them are refused, so the laws
`whole` and `torn` are met, whatever the parser. -/
theorem C40_archiver (F : Archive.Fns T Nat) (parse : List (String × (T × Bytes)) → Res S) (o : FsOps Unit S) :
    let a := withArchiver F parse o
    (∀ v, ∃ out, a.archive v = .ok out) ∧ (∀ v out, a.archive v = .ok out → a.read out = a.root v) ∧
      ∀ v out n, a.archive v = .ok out → n < out.length → a.read (out.take n) = .err := by
  intro a
  refine ⟨?_, ?_, ?_⟩
  · rintro ⟨files, h1, h2, h3, h4, h5⟩
    obtain ⟨out, ho, _⟩ := Archive.C45_hash F files h1 h2 h3 h4 _ (List.Perm.refl _)
    exact ⟨out, ho⟩
  · rintro ⟨files, h1, h2, h3, h4, h5⟩ out ho
    obtain ⟨out', ho', hr⟩ := Archive.C45_hash F files h1 h2 h3 h4 _ (List.Perm.refl _)
    replace ho : Archive.writeArchive (Archive.messages F (Archive.archiveAll F files)) = .ok out := ho
    rw [ho] at ho'
    cases ho'
    have := hr (h5 out ho) []
    rw [List.append_nil] at this
    simp only [a, withArchiver]
    rw [this]
    rfl
  · rintro ⟨files, h1, h2, h3, h4, h5⟩ out n ho hn
    replace ho : Archive.writeArchive (Archive.messages F (Archive.archiveAll F files)) = .ok out := ho
    obtain ⟨out', ho', hr⟩ := Archive.C45_hash F files h1 h2 h3 h4 _ (List.Perm.refl _)
    rw [ho] at ho'
    cases ho'
    have hfull := hr (h5 out ho) []
    rw [List.append_nil] at hfull
    have : Archive.readArchive F (out.take n) = .err := by
      cases h : Archive.readArchive F (out.take n) with
      | err => rfl
      | panic =>
        have := (Archive.Stable.readArchive F).panic _ (out.drop n) h
        rw [List.take_append_drop, hfull] at this; cases this
      | ok r =>
        exfalso
        have := (Archive.Stable.readArchive F).ok _ _ _ (out.drop n) h
        rw [List.take_append_drop, hfull] at this
        simp only [Res.ok.injEq, Prod.mk.injEq] at this
        have h2 := congrArg List.length this.2
        simp at h2
        omega
    simp only [a, withArchiver]
    rw [this]
    rfl

end

/-! ## Runs that spoil an archive -/

/-- Two sources with the hashes 0 and 1, and a third one that cannot be archived; objects are bits, a diff is a bit. -/
def toy : FsOps (Option Bool) Bool where
  root
    | some v => .ok (v, if v then 1 else 0)
    | none => .err
  archive
    | some v => .ok [7, if v then 1 else 0]
    | none => .err
  read
    | [7, 0] => .ok (false, 0)
    | [7, 1] => .ok (true, 1)
    | _ => .err
  check _ := .ok ()
  diff a b := .ok [.bit (a != b)]
  app s v := match v with | [.bit x] => .ok (s != x) | _ => .err
  adjust _ old _ := .ok old

/-- all pairs -/
def all : Bool → Bool → Prop := fun _ _ => True

theorem enc_bit (b : Bool) : encodeVals [.bit b] = .ok [1, 1, 1, 1, if b then 192 else 128] :=
  encodeVals_small 1 _ _ (by cases b <;> decide +kernel)

theorem toy_lawful : toy.Lawful all Eq where
  hash v s h hv := by
    cases v with
    | none => cases hv
    | some v => cases v <;> cases hv <;> decide
  collision v v' s s' h hv hv' := by
    cases v with
    | none => cases hv
    | some v =>
      cases v' with
      | none => cases hv'
      | some v' =>
        simp only [toy, Res.ok.injEq, Prod.mk.injEq] at hv hv'
        obtain ⟨rfl, h1⟩ := hv
        obtain ⟨rfl, h2⟩ := hv'
        revert h1 h2
        cases v <;> cases v' <;> simp <;> omega
  whole v s h out hv ha := by
    cases v with
    | none => cases hv
    | some v => cases v <;> cases hv <;> cases ha <;> rfl
  torn v s h out n hv ha hn := by
    cases v with
    | none => cases hv
    | some v =>
      cases ha
      left
      match n, hn with
      | 0, _ => rfl
      | 1, _ => rfl
  diff w a h b v _ _ hv := by
    cases hv
    refine ⟨?_, by simp, ?_, ?_⟩
    · intro x hx
      simp only [List.mem_singleton] at hx
      subst hx
      trivial
    · intro out ho
      rw [enc_bit] at ho
      cases ho
      simp
    · exact ⟨b, by cases a <;> cases b <;> rfl, rfl⟩

/-- the name of a save file -/
def fileA : Bytes := strBytes "a"

/-- 1970-01-01 -/
def epoch : Time := ⟨0, 0⟩

/-- A save of `toy`, in terms of what it does before it writes the file. -/
theorem toy_save (s : Bool) (h : Nat) (name : Bytes) (x : Bool) (ow : Bool) (d : Disk (Option Bool)) (a : List Act)
    (hp : prepare toy epoch (hashToFolderName h) d = (a, .ok ()))
    (he : ow = true ∨ (runAll d a).read (hashToFolderName h) name = none) :
    save toy (h, s) epoch name x ow d =
      (a ++ [.put (hashToFolderName h) name [1, 1, 1, 1, if s != x then 192 else 128]], .ok ()) := by
  unfold save
  simp only
  rw [hp]
  simp only
  rw [if_neg (by rcases he with rfl | he <;> simp [*])]
  have hd : toy.diff s x = .ok [.bit (s != x)] := rfl
  rw [hd]
  simp only [Res.bind_ok]
  rw [enc_bit]

/-- the disk at the start, with the source `v` -/
def disk0 (v : Option Bool) : Disk (Option Bool) := ⟨v, fun _ => none⟩

theorem prepare_first (v : Option Bool) (w : Bool) (hv : v = some w) : prepare toy epoch (hashToFolderName 0) (disk0 v) =
    ([.mkdir (hashToFolderName 0), .put (hashToFolderName 0) timeName (leBytes 8 0 ++ leBytes 4 0),
      .put (hashToFolderName 0) archiveName [7, if w then 1 else 0]], .ok ()) := by
  subst hv
  cases w <;> rfl

/-- A save into a folder that has an archive. -/
theorem toy_again {d : Disk (Option Bool)} {k : Known Bool} {bad : Nat → Prop} (x : Bool)
    (h : Reach toy all d (some (false, 0)) k bad) (c : Bytes) (ha : d.read (hashToFolderName 0) archiveName = some c) :
    ∃ acts bad', acts = [.put (hashToFolderName 0) fileA [1, 1, 1, 1, if false != x then 192 else 128]] ∧
      save toy (0, false) epoch fileA x true d = (acts, .ok ()) ∧
      Reach toy all (runAll d acts) (some (false, 0)) (k.set 0 fileA (some (some x))) bad' := by
  have hp : prepare toy epoch (hashToFolderName 0) d = ([], .ok ()) := by
    unfold prepare makeDir
    cases hf : d.dirs (hashToFolderName 0) with
    | none => simp [Disk.read, hf] at ha
    | some f =>
      simp only [runAll, List.foldl_nil, List.nil_append]
      unfold makeArchive
      rw [ha]
  have s1 := toy_save false 0 fileA x true d _ hp (Or.inl rfl)
  exact ⟨_, _, rfl, s1, Reach.save false 0 epoch fileA x true _ h (by decide +kernel) trivial s1⟩

/-- C40 is false after a crash: the process dies while it writes the archive. The next process (with the same source) saves, but it
does not write the archive again. After an edit of the source, the file cannot be loaded. -/
theorem C40_negation_crash : ∃ d k bad, Reach toy all d (some (true, 1)) k bad ∧ k 0 fileA = some (some true) ∧
    d.read (hashToFolderName 0) archiveName = some [7] ∧
    load true toy (1, true) (hashToFolderName 0) fileA false d = .err := by
  have h0 : Reach toy all (disk0 (some false)) (some (false, 0)) (fun _ _ => none) fun _ => False :=
    .start false 0 (.init (some false)) rfl
  have s0 := toy_save false 0 fileA true true (disk0 (some false)) _ (prepare_first _ false rfl) (Or.inl rfl)
  have h1 := Reach.crash false 0 epoch fileA true true _ _ 2 1 h0 (by decide +kernel) trivial s0
  have h2 := Reach.start false 0 h1 rfl
  obtain ⟨_, _, rfl, _, h3⟩ := toy_again true h2 [7] (by decide +kernel)
  have h4 := Reach.start true 1 (Reach.edit (some true) h3) rfl
  refine ⟨_, _, _, h4, ?_, ?_, ?_⟩
  · simp [Known.set]
  · decide +kernel
  · decide +kernel

/-- C40 is false after an edit: the source is edited after the process has read it and before its first save. The archive is that of
the edited source; the process of the next version loads another object than the one that was saved. -/
theorem C40_negation_edit : ∃ d k bad, Reach toy all d (some (true, 1)) k bad ∧ k 0 fileA = some (some false) ∧
    d.read (hashToFolderName 0) archiveName = some [7, 1] ∧
    load true toy (1, true) (hashToFolderName 0) fileA false d = .ok true := by
  have h0 : Reach toy all (disk0 (some false)) (some (false, 0)) (fun _ _ => none) fun _ => False :=
    .start false 0 (.init (some false)) rfl
  have h1 := Reach.edit (some true) h0
  have s1 := toy_save false 0 fileA false true (disk0 (some true)) _ (prepare_first _ true rfl) (Or.inl rfl)
  have h2 := Reach.save false 0 epoch fileA false true _ h1 (by decide +kernel) trivial s1
  have h3 := Reach.start true 1 h2 rfl
  refine ⟨_, _, _, h3, ?_, ?_, ?_⟩
  · simp [Known.set]
  · decide +kernel
  · decide +kernel

/-- C40 is false after a failure: making the archive fails, because the source is damaged at that time; the empty file stays. When
the source is as it was, a save succeeds, and the archive remains empty. -/
theorem C40_negation_failure : ∃ d k bad, Reach toy all d (some (true, 1)) k bad ∧ k 0 fileA = some (some true) ∧
    d.read (hashToFolderName 0) archiveName = some [] ∧
    load true toy (1, true) (hashToFolderName 0) fileA false d = .err := by
  have h0 : Reach toy all (disk0 (some false)) (some (false, 0)) (fun _ _ => none) fun _ => False :=
    .start false 0 (.init (some false)) rfl
  have h1 := Reach.edit none h0
  have s1 : save toy (0, false) epoch fileA true true (disk0 none) = ([.mkdir (hashToFolderName 0),
      .put (hashToFolderName 0) timeName (leBytes 8 0 ++ leBytes 4 0), .put (hashToFolderName 0) archiveName []], .err) := rfl
  have h2 := Reach.edit (some false) (Reach.fail false 0 epoch fileA true true _ _ h1 (by decide +kernel) trivial s1 (by simp))
  obtain ⟨_, _, rfl, _, h3⟩ := toy_again true h2 [] (by decide +kernel)
  have h4 := Reach.start true 1 (Reach.edit (some true) h3) rfl
  refine ⟨_, _, _, h4, ?_, ?_, ?_⟩
  · simp [Known.set]
  · decide +kernel
  · decide +kernel

/-- C40 is false for saves with the name of the archive: nothing keeps a caller from overwriting it. -/
theorem C40_negation_name : ∃ acts, save toy (0, false) epoch archiveName true true (disk0 (some false)) = (acts, .ok ()) ∧
    (runAll (disk0 (some false)) acts).read (hashToFolderName 0) archiveName = some [1, 1, 1, 1, 192] ∧
    toy.read [1, 1, 1, 1, 192] = .err := by
  have s0 := toy_save false 0 archiveName true true (disk0 (some false)) _ (prepare_first _ false rfl) (Or.inl rfl)
  exact ⟨_, s0, by decide +kernel, rfl⟩

/-- C39 is false: a run. The file holds `true` and is overwritten with `false`; the process dies after the file was emptied. -/
theorem C39_negation_run : ∃ d k bad acts i, Reach toy all d (some (false, 0)) k bad ∧
    load true toy (0, false) (hashToFolderName 0) fileA false d = .ok true ∧
    save toy (0, false) epoch fileA false true d = (acts, .ok ()) ∧
    load true toy (0, false) (hashToFolderName 0) fileA false (runAll d acts) = .ok false ∧
    load true toy (0, false) (hashToFolderName 0) fileA false (runAll d (cut acts i 0)) = .err := by
  have h0 : Reach toy all (disk0 (some false)) (some (false, 0)) (fun _ _ => none) fun _ => False :=
    .start false 0 (.init (some false)) rfl
  have s0 := toy_save false 0 fileA true true (disk0 (some false)) _ (prepare_first _ false rfl) (Or.inl rfl)
  have h1 := Reach.save false 0 epoch fileA true true _ h0 (by decide +kernel) trivial s0
  obtain ⟨_, _, rfl, s1, _⟩ := toy_again false h1 [7, 0] (by decide +kernel)
  exact ⟨_, _, _, _, 0, h1, by decide +kernel, s1, by decide +kernel, by decide +kernel⟩

/-- The hypotheses of C40 and C53 are met: a file is saved, the source is edited, the file is loaded. -/
example : ∃ d k bad, Reach toy all d (some (true, 1)) k bad ∧ k 0 fileA = some (some true) ∧ ¬ bad 0 ∧
    load true toy (1, true) (hashToFolderName 0) fileA true d = .ok true := by
  have h0 : Reach toy all (disk0 (some false)) (some (false, 0)) (fun _ _ => none) fun _ => False :=
    .start false 0 (.init (some false)) rfl
  have s0 := toy_save false 0 fileA true true (disk0 (some false)) _ (prepare_first _ false rfl) (Or.inl rfl)
  have h1 := Reach.start true 1 (Reach.edit (some true) (Reach.save false 0 epoch fileA true true _ h0 (by decide +kernel) trivial s0)) rfl
  refine ⟨_, _, _, h1, by simp [Known.set], ?_, by decide +kernel⟩
  · rintro (h | ⟨_, c, h2, h3⟩)
    · exact h
    · refine h3 ⟨some false, false, rfl, ?_⟩
      have : some c = some [7, 0] := by rw [← h2]; decide +kernel
      cases this
      rfl

end Verif.Filesys
