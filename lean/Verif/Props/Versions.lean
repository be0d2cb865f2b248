import Verif.Spec.Versions
import Verif.Props.History
/-! # C49: loading listed files of several source versions -/
namespace Verif.History
open VarInt FileName FileHistory Phase

section
variable {S : Type}

/-- **C49**, what is done, exactly: the folder the file was listed in does not matter, its name and the names of the files it
depends on are looked up in the folder of the current version. -/
theorem C49_exact (o : Opts) (P : Project S) (d : FileData) (validation : Bool) :
    loadData o P d validation = load o P.ops (dirOf P.dirs P.cur) d.history d.props := by
  unfold loadData loadHistoryFile loadImpl
  rw [if_neg (by simp)]

/-- **C49** (partial): a file that was listed in the folder of the current version is loaded from there. Missing: files of other
versions, for which the claim is false (`C49_negation`). The full statement would be without `hc`. -/
theorem C49_current_partial (o : Opts) (P : Project S) (d : FileData) (hc : d.hash = P.cur) (validation : Bool) (r : S) :
    loadData o P d validation = .ok r ↔ ShouldLoad o P d validation r := by
  rw [C49_exact]
  constructor
  · intro h
    exact ⟨r, ⟨P.ops.src, .inl ⟨hc, rfl⟩, by rw [hc]; exact h⟩, .inl ⟨hc, rfl⟩⟩
  · rintro ⟨s, ⟨root, h1, h2⟩, h3⟩
    rcases h1 with ⟨-, rfl⟩ | ⟨h1, -⟩
    · rcases h3 with ⟨-, rfl⟩ | ⟨h3, -⟩
      · rw [hc] at h2; exact h2
      · exact absurd hc h3
    · exact absurd hc h1

/-- **C49**, with the repair: `load_impl` does what it should for all versions, if it is given the hash of the file instead of the
current one. -/
theorem C49_repaired (o : Opts) (P : Project S) (d : FileData) (validation : Bool) (r : S) :
    loadImpl o P d.hash d.props d.history validation = .ok r ↔ ShouldLoad o P d validation r := by
  by_cases hc : d.hash = P.cur
  · rw [← C49_current_partial o P d hc, C49_exact]
    unfold loadImpl
    rw [if_neg (by simp [hc]), hc]
  · unfold loadImpl hashRoot
    have hc' : P.cur ≠ d.hash := fun h => hc h.symm
    rw [if_pos hc', if_pos hc']
    constructor
    · intro h
      obtain ⟨root, h1, h2⟩ := bind_ok_inv _ _ _ h
      obtain ⟨s, h3, h4⟩ := bind_ok_inv _ _ _ h2
      exact ⟨s, ⟨root, .inr ⟨hc, h1⟩, h3⟩, .inr ⟨hc, h4⟩⟩
    · rintro ⟨s, ⟨root, h1, h2⟩, h3⟩
      rcases h1 with ⟨h1, -⟩ | ⟨-, h1⟩
      · exact absurd h1 hc
      rcases h3 with ⟨h3, -⟩ | ⟨-, h3⟩
      · exact absurd h3 hc
      rw [h1, Res.bind_ok, h2, Res.bind_ok, h3]

theorem histories_mem : ∀ (dirs : List (Nat × Dir)) (l : List (Nat × FileHistory.History)), histories dirs = .ok l →
    (dirs.map (·.1)).Nodup → ∀ x ∈ l, ∃ d, (x.1, d) ∈ dirs ∧ dirOf dirs x.1 = d ∧ createHistory (d.map (·.1)) .empty = .ok x.2
  | [], l, h, _, x, hx => by cases h; simp at hx
  | (hash, d) :: r, l, h, hn, x, hx => by
    simp only [List.map_cons, List.nodup_cons] at hn
    have tail : ∀ l', histories r = .ok l' → x ∈ l' → ∃ d', (x.1, d') ∈ (hash, d) :: r ∧ dirOf ((hash, d) :: r) x.1 = d' ∧
        createHistory (d'.map (·.1)) .empty = .ok x.2 := by
      intro l' hl' hx'
      obtain ⟨d', h1, h2, h3⟩ := histories_mem r l' hl' hn.2 x hx'
      refine ⟨d', List.mem_cons_of_mem _ h1, ?_, h3⟩
      unfold dirOf
      rw [if_neg, h2]
      rintro rfl
      exact hn.1 (List.mem_map_of_mem (f := Prod.fst) h1)
    unfold histories at h
    split at h
    · rename_i g hg
      cases hr : histories r with
      | ok l' =>
        rw [hr, Res.map_ok] at h
        cases h
        rcases List.mem_cons.1 hx with rfl | hx'
        · exact ⟨d, by simp, by simp [dirOf], hg⟩
        · exact tail l' hr hx'
      | err => rw [hr] at h; cases h
      | panic => rw [hr] at h; cases h
    · exact tail l h hx
    · cases h

/-- **C49** (partial), end to end: if the files in the folder of the current version were made by saves and loads, then each of its
files in the list of all versions loads the object that was saved in it (with the cumulative option, which is the default). -/
theorem C49_saved_partial (o : Opts) (hcum : o.cumulative.isSome = true) (P : Project S) (hlaw : P.ops.Lawful)
    (hn : (P.dirs.map (·.1)).Nodup) (base : Option (Nat × Props)) (log : List (Props × S))
    (hr : Reach o P.ops ⟨dirOf P.dirs P.cur, base⟩ log) (l : List (Nat × FileHistory.History)) (hl : histories P.dirs = .ok l)
    (d : FileData) (hd : d ∈ listData l) (hc : d.hash = P.cur) (validation : Bool) :
    ∃ s, (d.props, s) ∈ log ∧ loadData o P d validation = .ok s := by
  unfold listData at hd
  simp only [List.mem_flatMap, List.mem_map] at hd
  obtain ⟨x, hx, p, hp, rfl⟩ := hd
  obtain ⟨dd, h1, h2, h3⟩ := histories_mem P.dirs l hl hn x hx
  simp only at hc
  rw [hc] at h2
  obtain ⟨h, hh, hload⟩ := C29_load_saved_cumulative o hcum P.ops hlaw _ log hr
  have : h = x.2 := by
    unfold St.history at hh
    simp only [h2, h3] at hh
    cases hh; rfl
  subst this
  obtain ⟨s, hs, hs'⟩ := hload p hp
  exact ⟨s, hs, by rw [C49_exact]; exact hs'⟩

theorem histories_wf : ∀ (dirs : List (Nat × Dir)) (l : List (Nat × FileHistory.History)), histories dirs = .ok l →
    ∀ x ∈ l, ∃ d : Dir, createHistory (d.map (·.1)) .empty = .ok x.2
  | [], l, h, x, hx => by cases h; simp at hx
  | (hash, d) :: r, l, h, x, hx => by
    unfold histories at h
    split at h
    · rename_i g hg
      cases hr : histories r with
      | ok l' =>
        rw [hr, Res.map_ok] at h
        cases h
        rcases List.mem_cons.1 hx with rfl | hx'
        · exact ⟨d, hg⟩
        · exact histories_wf r l' hr x hx'
      | err => rw [hr] at h; cases h
      | panic => rw [hr] at h; cases h
    · exact histories_wf r l h x hx
    · cases h

theorem createHistory_hwf (names : List Bytes) : ∀ (g h : Hist), HWF g → createHistory names g = .ok h → HWF h := by
  induction names with
  | nil => intro g h hg hh; cases hh; exact hg
  | cons n names ih =>
    intro g h hg hh
    rw [createHistory] at hh
    obtain ⟨x, h1, h2⟩ := bind_ok_inv _ _ _ hh
    cases x with
    | none => exact ih g h hg h2
    | some q =>
      obtain ⟨a1, a2, a3, a4, a5⟩ := analyze_some n q h1
      have hq : InRange q := ⟨a2, fun x hx => by
        rcases List.mem_cons.1 hx with rfl | hx
        · omega
        · have := a5 x hx; omega⟩
      exact ih (g.add q) h (hwf_add g hg q hq) h2

/-- **C55** (partial): the newest file of all versions is the last one in the list of all files, if the newest folder has a file.
Missing: a newest folder without files (`C55_negation`). The full statement would be without `hne`. -/
theorem C55_newest_partial (dirs : List (Nat × Dir)) (l : List (Nat × FileHistory.History)) (hl : histories dirs = .ok l)
    (x : Nat × FileHistory.History) (hx : l.getLast? = some x) (hne : x.2.listFiles ≠ []) :
    newestData l = (listData l).getLast? ∧ (newestData l).isSome := by
  obtain ⟨d, hd⟩ := histories_wf dirs l hl x (List.mem_of_getLast? hx)
  have hw : HWF x.2 := createHistory_hwf _ _ _ hwf_empty hd
  have he := newest_eq x.2 hw
  obtain ⟨p, hp⟩ : ∃ p, x.2.listFiles.getLast? = some p := by
    cases h : x.2.listFiles.getLast? with
    | none => exact absurd (List.getLast?_eq_none_iff.1 h) hne
    | some p => exact ⟨p, rfl⟩
  have h1 : newestData l = some ⟨x.1, x.2, p⟩ := by
    unfold newestData
    rw [hx]
    simp only [he, hp, Option.map_some]
  refine ⟨?_, by rw [h1]; rfl⟩
  rw [h1]
  obtain ⟨l', rfl⟩ : ∃ l', l = l' ++ [x] := by
    obtain ⟨l', hl'⟩ := List.getLast?_eq_some_iff.1 hx
    exact ⟨l', hl'⟩
  unfold listData
  rw [List.flatMap_append, List.getLast?_append]
  simp [hp]

end

/-! ## The negations -/

/-- Two source versions, each with one file that was saved by the program; the current one is 2. -/
def twoVersions : Project UInt8 where
  cur := 2
  ops := demo
  dirs := [(1, (play plain shiftExact demo [.save 0 5]).1.dir), (2, (play plain shiftExact demo [.save 0 6]).1.dir)]
  archived := fun _ => .ok 0
  adjust := fun _ s _ => .ok s

/-- The same, before the first save with the current source. -/
def newVersion : Project UInt8 := { twoVersions with dirs := [(1, (play plain shiftExact demo [.save 0 5]).1.dir)] }

/-- **C49** is false: a listed file of the older version should load 5, the object saved in it, but another object is loaded, from
the file of the same name in the folder of the current version (each version begins with the same names), without an error. -/
theorem C49_negation : ∃ l d, histories twoVersions.dirs = .ok l ∧ d ∈ listData l ∧ ShouldLoad plain twoVersions d true 5 ∧
    loadData plain twoVersions d true = .ok 6 := by
  obtain ⟨l, h1, h2⟩ := res_ex (histories twoVersions.dirs) (fun l =>
    match listData l with
    | [] => false
    | d :: _ => decide (loadImpl plain twoVersions d.hash d.props d.history true = .ok 5 ∧ loadData plain twoVersions d true = .ok 6))
    (by decide +kernel)
  cases h : listData l with
  | nil => rw [h] at h2; cases h2
  | cons d r =>
    rw [h] at h2
    simp only [decide_eq_true_eq] at h2
    exact ⟨l, d, h1, by rw [h]; simp, (C49_repaired _ _ _ _ _).1 h2.1, h2.2⟩

/-- **C49** is false: if the current version has no file of this name, loading fails. -/
theorem C49_negation_missing : ∃ l d, histories newVersion.dirs = .ok l ∧ d ∈ listData l ∧ ShouldLoad plain newVersion d true 5 ∧
    loadData plain newVersion d true = .err := by
  obtain ⟨l, h1, h2⟩ := res_ex (histories newVersion.dirs) (fun l =>
    match listData l with
    | [] => false
    | d :: _ => decide (loadImpl plain newVersion d.hash d.props d.history true = .ok 5 ∧ loadData plain newVersion d true = .err))
    (by decide +kernel)
  cases h : listData l with
  | nil => rw [h] at h2; cases h2
  | cons d r =>
    rw [h] at h2
    simp only [decide_eq_true_eq] at h2
    exact ⟨l, d, h1, by rw [h]; simp, (C49_repaired _ _ _ _ _).1 h2.1, h2.2⟩

/-- The hypotheses of `C49_saved_partial`, with the default kind of files. -/
example : (cumul.cumulative.isSome = true) ∧
    Reach cumul demo ⟨dirOf [(1, []), (2, (play cumul shiftExact demo [.save 0 6]).1.dir)] 2, none⟩
      (play cumul shiftExact demo [.save 0 6]).2 :=
  ⟨rfl, .restart _ _ (play_reach cumul shiftExact demo [.save 0 6] (by decide))⟩

/-- `C55_newest_partial` for two versions. -/
example : ∃ l x, histories twoVersions.dirs = .ok l ∧ l.getLast? = some x ∧ x.2.listFiles ≠ [] := by
  obtain ⟨l, h1, h2⟩ := res_ex (histories twoVersions.dirs) (fun l =>
    match l.getLast? with
    | some x => !x.2.listFiles.isEmpty
    | none => false) (by decide +kernel)
  split at h2
  · rename_i x h
    exact ⟨l, x, h1, h, by simpa using h2⟩
  · cases h2

/-- The file of the current version: `C49_current_partial` applies to it. -/
example : ∃ l d, histories twoVersions.dirs = .ok l ∧ d ∈ listData l ∧ d.hash = twoVersions.cur ∧
    loadData plain twoVersions d true = .ok 6 := by
  obtain ⟨l, h1, h2⟩ := res_ex (histories twoVersions.dirs) (fun l =>
    match listData l with
    | [_, d] => decide (d.hash = twoVersions.cur ∧ loadData plain twoVersions d true = .ok 6)
    | _ => false)
    (by decide +kernel)
  split at h2
  · rename_i a d h
    simp only [decide_eq_true_eq] at h2
    exact ⟨l, d, h1, by rw [h]; simp, h2⟩
  · cases h2

/-- **C55** is false if the newest folder has no files (the folder is made before the first file is written, so this is what a failed
or interrupted first save leaves): there is no newest file, although files are listed. -/
theorem C55_negation : ∃ l, histories [(1, (play plain shiftExact demo [.save 0 5]).1.dir), (2, [])] = .ok l ∧
    newestData l = none ∧ listData l ≠ [] := by
  obtain ⟨l, h1, h2⟩ := res_ex (histories [(1, (play plain shiftExact demo [.save 0 5]).1.dir), (2, [])])
    (fun l => (newestData l).isNone && !(listData l).isEmpty) (by decide +kernel)
  simp only [Bool.and_eq_true, Option.isNone_iff_eq_none, Bool.not_eq_true', List.isEmpty_eq_false_iff] at h2
  exact ⟨l, h1, h2.1, h2.2⟩

end Verif.History
