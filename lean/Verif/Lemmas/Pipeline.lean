import Verif.Spec.Pipeline
import Verif.Props.Archive
import Verif.Props.Session
/-! # Files of a source, their archive, and the objects they give -/
namespace Verif.Pipeline
open Codec VarInt Source Core Named Archive

/-! ## Depth -/

theorem levelOk_depth : ∀ t : MetaTable, LevelOk (tableDepth t) t
  | [] => levelOk_nil _
  | none :: r => by
    rw [tableDepth]
    exact levelOk_cons (levelOk_depth r) fun _ _ _ hx => by cases hx
  | some (k, .param pt vt) :: r => by
    rw [tableDepth]
    exact levelOk_cons (levelOk_mono (levelOk_depth r) (Nat.le_max_right _ _)) fun _ _ _ hx ht => by cases hx; cases ht
  | some (k, .mlist i rs) :: r => by
    rw [tableDepth, metaDepth]
    refine levelOk_cons (levelOk_mono (levelOk_depth r) (Nat.le_max_right _ _)) fun _ _ _ hx ht => ?_
    cases hx; cases ht
    exact ⟨max (tableDepth i + 1) (tableDepth r) - 1, by omega, levelOk_mono (levelOk_depth i) (by omega)⟩
  | some (k, .optMil i rs) :: r => by
    rw [tableDepth, metaDepth]
    refine levelOk_cons (levelOk_mono (levelOk_depth r) (Nat.le_max_right _ _)) fun _ _ _ hx ht => ?_
    cases hx; cases ht
    exact ⟨max (tableDepth i + 1) (tableDepth r) - 1, by omega, levelOk_mono (levelOk_depth i) (by omega)⟩

/-! ## Folders -/

theorem join_inj {p a b : String} (h : join p a = join p b) : a = b := by
  unfold join at h
  have key : ∀ x : String, x ++ a = x ++ b → a = b := by
    intro x hx
    have := congrArg String.toList hx
    rw [String.toList_append, String.toList_append] at this
    exact String.ext (List.append_cancel_left this)
  split at h <;> exact key _ h

/-- the files directly in the folder -/
theorem holds_json {p : String} {es : List Node} {q : String} {d : Bytes} :
    Holds jsonOpts p es q d ↔ ∃ n, .file n d ∈ es ∧ q = join p n ∧ Selected jsonOpts n := by
  constructor
  · intro h
    cases h with
    | file h hs => exact ⟨_, h, rfl, hs⟩
    | sub _ ho _ => cases ho
  · rintro ⟨n, h, rfl, hs⟩
    exact .file h hs

theorem readIn_of_mem {p : String} {es : List Node} (hn : (es.map nodeName).Nodup) {n : String} {d : Bytes} (h : .file n d ∈ es) :
    readIn p es (join p n) = some d := by
  unfold readIn
  induction es with
  | nil => cases h
  | cons e r ih =>
    rw [List.map_cons, List.nodup_cons] at hn
    rw [List.findSome?_cons]
    rcases List.mem_cons.1 h with rfl | h'
    · simp
    · have hne : nodeName e ≠ n := fun he => hn.1 (List.mem_map.2 ⟨_, h', he.symm⟩)
      cases e with
      | file n' d' =>
        have hj : join p n' ≠ join p n := fun he => hne (join_inj he)
        simp only [hj, if_false]
        exact ih hn.2 h'
      | dir => exact ih hn.2 h'
      | other => exact ih hn.2 h'

theorem readAll_inv {read : String → Option Bytes} : ∀ {set : List (String × Unit)} {files : List (String × Bytes)}, readAll read set = .ok files →
    files.map (·.1) = set.map (·.1) ∧ ∀ f ∈ files, read f.1 = some f.2
  | [], _, h => by cases h; exact ⟨rfl, fun _ h => nomatch h⟩
  | e :: r, files, h => by
    unfold readAll at h
    obtain ⟨d, h1, h2⟩ := bind_inv h
    obtain ⟨l, h3, rfl⟩ := map_inv h2
    obtain ⟨h4, h5⟩ := readAll_inv h3
    refine ⟨by simp [h4], ?_⟩
    intro f hf
    rcases List.mem_cons.1 hf with rfl | hf
    · cases hr : read e.1 with
      | none => rw [hr] at h1; cases h1
      | some x => rw [hr] at h1; cases h1; rfl
    · exact h5 f hf

/-- What is read of a folder are its files, and reading does not fail. -/
theorem dir_data (L : Lib) (p : String) (es : List Node) (hn : (es.map nodeName).Nodup) :
    ∃ files, Src.Files L (.dir p es) files ∧ readDirectory L.fns jsonOpts (readIn p es) p es = .ok (archiveAll L.fns files) := by
  have hread : ∀ q d, Holds jsonOpts p es q d → readIn p es q = some d := by
    intro q d h
    obtain ⟨n, h1, rfl, _⟩ := holds_json.1 h
    exact readIn_of_mem hn h1
  obtain ⟨hs, hm⟩ := dirPaths_spec jsonOpts p es [] sorted_nil
  have hm' : ∀ q, (q, ()) ∈ dirPaths jsonOpts p es [] ↔ ∃ d, Holds jsonOpts p es q d := by intro q; rw [hm]; simp
  obtain ⟨files, hf, hk, hv⟩ := readAll_ok (read := readIn p es) (set := dirPaths jsonOpts p es []) fun e he => by
    obtain ⟨q, u⟩ := e
    obtain ⟨d, hd⟩ := (hm' q).1 he
    exact ⟨d, hread q d hd⟩
  refine ⟨files, ⟨?_, fun q d => ?_⟩, ?_⟩
  · have h1 : (files.map fun f => f.1).Pairwise fun a b => strBytes a < strBytes b := by
      rw [hk]; exact List.pairwise_map.2 hs
    rw [List.pairwise_map] at h1
    exact h1
  · constructor
    · intro h
      have : q ∈ files.map fun f => f.1 := List.mem_map.2 ⟨_, h, rfl⟩
      rw [hk] at this
      obtain ⟨⟨q', u⟩, hq, rfl⟩ := List.mem_map.1 this
      obtain ⟨d', hd'⟩ := (hm' q').1 hq
      have h1 := hread _ _ hd'
      rw [hv _ h] at h1
      cases h1
      exact hd'
    · intro h
      have : q ∈ files.map fun f => f.1 := by
        rw [hk]; exact List.mem_map.2 ⟨(q, ()), (hm' q).2 ⟨d, h⟩, rfl⟩
      obtain ⟨f, hf, rfl⟩ := List.mem_map.1 this
      have h1 := hread _ _ h
      rw [hv f hf] at h1
      cases h1
      exact hf
  · unfold readDirectory
    rw [hf]
    rfl

theorem files_unique {L : Lib} {v : Src} {a b : List (String × Bytes)} (ha : v.Files L a) (hb : v.Files L b) : a = b := by
  cases v with
  | dir p es => exact sorted_ext ha.1 hb.1 fun x => by rw [ha.2 x.1 x.2, hb.2 x.1 x.2]
  | archive c =>
    obtain ⟨d, r, h1, rfl⟩ := ha
    obtain ⟨d', r', h2, rfl⟩ := hb
    rw [h1] at h2
    cases h2
    rfl

/-! ## Archives -/

theorem mem_insert_of {V : Type} {k : String} {v : V} : ∀ {m : List (String × V)} {x : String × V}, x ∈ insert k v m → x = (k, v) ∨ x ∈ m
  | [], x, h => by simpa [Archive.insert] using h
  | e :: r, x, h => by
    unfold Archive.insert at h
    split at h
    · rcases List.mem_cons.1 h with h | h
      · exact .inl h
      · exact .inr (List.mem_cons_of_mem _ h)
    · split at h
      · rcases List.mem_cons.1 h with h | h
        · exact .inl h
        · exact .inr h
      · rcases List.mem_cons.1 h with h | h
        · exact .inr (by rw [h]; exact List.mem_cons_self)
        · rcases mem_insert_of h with h | h
          · exact .inl h
          · exact .inr (List.mem_cons_of_mem _ h)

/-- Every entry holds what its data are converted to. -/
theorem archiveAll_conv {T H : Type} (F : Fns T H) (files : List (String × Bytes)) :
    ∀ e ∈ (archiveAll F files).btree, e.2.1 = F.converter e.1 e.2.2 := by
  have : ∀ (m : List (String × (T × Bytes))), (∀ e ∈ m, e.2.1 = F.converter e.1 e.2.2) →
      ∀ e ∈ files.foldl (fun m f => insert f.1 (F.converter f.1 f.2, f.2) m) m, e.2.1 = F.converter e.1 e.2.2 := by
    induction files with
    | nil => exact fun m h => h
    | cons f r ih =>
      intro m h
      refine ih _ fun e he => ?_
      rcases mem_insert_of he with rfl | he
      · rfl
      · exact h e he
  exact this [] fun _ h => nomatch h

theorem readArchive_inv {T H : Type} {F : Fns T H} {b : Bytes} {d : Data T H} {rest : Bytes} (h : readArchive F b = .ok (d, rest)) :
    ∃ files, d = archiveAll F files := by
  unfold readArchive at h
  obtain ⟨x, _, h⟩ := bind_inv h
  obtain ⟨y, _, h⟩ := bind_inv h
  obtain ⟨z, h1, h2⟩ := map_inv h
  obtain ⟨w, _, h4⟩ := map_inv h1
  exact ⟨w, by rw [h4]; cases h2; rfl⟩

/-- The files of a source, as the object is made of them. -/
theorem root_inv {L : Lib} {v : Src} (hn : ∀ p es, v = .dir p es → (es.map nodeName).Nodup) {r : Root} {h : Nat} (hr : v.root L = .ok (r, h)) :
    ∃ files, v.Files L files ∧ treeToRoot L (files.map fun f => (f.1, (converter L f.1 f.2, f.2))) = .ok r ∧ ∃ b, h = L.hash b := by
  cases v with
  | dir p es =>
    obtain ⟨files, h1, h2⟩ := dir_data L p es (hn p es rfl)
    refine ⟨files, h1, ?_⟩
    change dirRoot L p es = _ at hr
    unfold dirRoot at hr
    rw [h2] at hr
    simp only [Res.bind_ok] at hr
    obtain ⟨_, _, hr⟩ := bind_inv hr
    obtain ⟨r', h3, h4⟩ := map_inv hr
    cases h4
    rw [archiveAll_sorted L.fns h1.1] at h3
    exact ⟨h3, _, rfl⟩
  | archive b =>
    change archiveRoot L b = _ at hr
    unfold archiveRoot at hr
    obtain ⟨⟨d, rest⟩, h1, hr⟩ := bind_inv hr
    obtain ⟨r', h3, h4⟩ := map_inv hr
    cases h4
    refine ⟨d.btree.map fun e => (e.1, e.2.2), ⟨d, rest, h1, rfl⟩, ?_⟩
    obtain ⟨files, rfl⟩ := readArchive_inv h1
    refine ⟨?_, _, rfl⟩
    rw [List.map_map]
    rw [List.map_congr_left (g := id), List.map_id]
    · exact h3
    · rintro ⟨q, t, d⟩ he
      have := archiveAll_conv L.fns files _ he
      simp only [Function.comp, id]
      rw [show t = converter L q d from this]

/-! ## Objects -/

theorem converter_inv {L : Lib} {p : String} {d : Bytes} {x : FileItem} (h : converter L p d = .ok x) :
    ∃ j, FileOf L (p, d) j ∧ fileItem L.env j.1 j.2 = .ok x := by
  unfold converter at h
  split at h
  · rename_i s stem h1 h2
    split at h
    · obtain ⟨v, h3, h4⟩ := bind_inv h
      exact ⟨(stem, v), ⟨s, h1, h2, h3⟩, h4⟩
    · split at h
      · obtain ⟨v, h3, h4⟩ := bind_inv h
        exact ⟨(stem, v), ⟨s, h1, h2, h3⟩, h4⟩
      · cases h
  · cases h

theorem membersR_inv : ∀ {l : List (Res FileItem)} {ms : List Member}, membersR l = .ok ms → ∃ ys, l = ys.map .ok ∧ memberItems ys = .ok ms
  | [], ms, h => ⟨[], rfl, h⟩
  | .ok (.member n v s) :: r, ms, h => by
    unfold membersR at h
    obtain ⟨m, h1, rfl⟩ := map_inv h
    obtain ⟨ys, rfl, h2⟩ := membersR_inv h1
    exact ⟨.member n v s :: ys, rfl, by unfold memberItems; rw [h2]; rfl⟩
  | .ok (.root _) :: _, ms, h => by cases h
  | .err :: _, ms, h => by cases h
  | .panic :: _, ms, h => by cases h

theorem takeRootR_inv : ∀ {l rest : List (Res FileItem)} {r : Root}, takeRootR l = some (r, rest) → ∀ {ys : List FileItem}, rest = ys.map .ok →
    ∃ zs, l = zs.map .ok ∧ takeRoot zs = some (r, ys)
  | [], rest, r, h, ys, hy => by cases h
  | .ok (.root r') :: l, rest, r, h, ys, hy => by
    cases h
    exact ⟨.root r' :: ys, by rw [hy]; rfl, rfl⟩
  | .ok (.member n v s) :: l, rest, r, h, ys, hy => by
    unfold takeRootR at h
    cases ht : takeRootR l with
    | none => rw [ht] at h; cases h
    | some p =>
      rw [ht] at h
      cases h
      cases ys with
      | nil => cases hy
      | cons y ys =>
        rw [List.map_cons] at hy
        injection hy with h1 h2
        cases h1
        obtain ⟨zs, h3, h4⟩ := takeRootR_inv (l := l) (rest := p.2) (r := p.1) ht h2
        exact ⟨.member n v s :: zs, by rw [h3]; rfl, by unfold takeRoot; rw [h4]; rfl⟩
  | .err :: l, rest, r, h, ys, hy => by
    unfold takeRootR at h
    cases ht : takeRootR l with
    | none => rw [ht] at h; cases h
    | some p =>
      rw [ht] at h
      cases h
      cases ys with
      | nil => cases hy
      | cons y ys => rw [List.map_cons] at hy; injection hy with h1 h2; cases h1
  | .panic :: l, rest, r, h, ys, hy => by
    unfold takeRootR at h
    cases ht : takeRootR l with
    | none => rw [ht] at h; cases h
    | some p =>
      rw [ht] at h
      cases h
      cases ys with
      | nil => cases hy
      | cons y ys => rw [List.map_cons] at hy; injection hy with h1 h2; cases h1

theorem fileItems_of {L : Lib} : ∀ {files : List (String × Bytes)} {zs : List FileItem}, (files.map fun f => converter L f.1 f.2) = zs.map .ok →
    ∃ js, List.Forall₂ (FileOf L) files js ∧ fileItems L.env js = .ok zs
  | [], [], _ => ⟨[], .nil, rfl⟩
  | [], _ :: _, h => by cases h
  | _ :: _, [], h => by cases h
  | f :: files, z :: zs, h => by
    rw [List.map_cons, List.map_cons] at h
    injection h with h1 h2
    obtain ⟨j, h3, h4⟩ := converter_inv h1
    obtain ⟨js, h5, h6⟩ := fileItems_of h2
    exact ⟨j :: js, .cons h3 h5, by unfold fileItems; rw [h4, Res.bind_ok, h6]; rfl⟩

/-- The object of files of bytes is the object of the json values. -/
theorem tree_inv {L : Lib} {files : List (String × Bytes)} {r : Root}
    (h : treeToRoot L (files.map fun f => (f.1, (converter L f.1 f.2, f.2))) = .ok r) :
    ∃ js, List.Forall₂ (FileOf L) files js ∧ loadDir L.env js = .ok r := by
  unfold treeToRoot at h
  rw [List.map_map] at h
  change (match takeRootR (files.map fun f => converter L f.1 f.2) with
    | none => Res.err
    | some (root, rest) => (membersR rest).bind fun ms => constructRoot L.env root ms) = _ at h
  split at h
  · cases h
  · rename_i root rest ht
    obtain ⟨ms, h1, h2⟩ := bind_inv h
    obtain ⟨ys, h3, h4⟩ := membersR_inv h1
    obtain ⟨zs, h5, h6⟩ := takeRootR_inv ht h3
    obtain ⟨js, h7, h8⟩ := fileItems_of h5
    refine ⟨js, h7, ?_⟩
    unfold loadDir
    rw [h8, Res.bind_ok, h6]
    simp only
    rw [h4, Res.bind_ok]
    exact h2

/-! ## Diffs -/

/-- The values of the diff of a session can be encoded. -/
theorem session_valid (F : Compaction.FloatOps) {defs : AMap (Nat × RootValI)} {table : MetaTable} {n c : Nat} (hc : c < 2 ^ 62)
    (hr : RootTable defs table) (hl : LevelOk n table) (hlen : defs.length < 2 ^ 62)
    (hs : ∀ k id d u, defs.get k = some (id, .mlist d u) → Legible c d) (ptr : Diff.Ptr) {f t : AMap RootSab}
    (hf : RootFits defs f) (ht : RootFits defs t) (hof : OptUndefined defs f) (hot : OptUndefined defs t) {v : List KVal}
    (hv : ((nRootDiff n ptr defs table f t).bind fun d => Diff.writeRoot F n (rootL n table) d) = .ok v) : ∀ x ∈ v, Valid x := by
  have hc' : c < 2 ^ 62 := hc
  have hs' : ∀ k id d u, defs.get k = some (id, .mlist d u) → Sized c c d :=
    fun k id d u hk => (hs k id d u hk).sized
  obtain ⟨d, h1, h2⟩ := bind_inv hv
  rw [nRootDiff_eq hc' hr hl hlen hs' ptr hf ht hof hot] at h1
  obtain ⟨o, h3, h4, _⟩ := Diff.good_root F n (rootL n table) d (Diff.getRootDiff_ok (rootOk_of hc' hr hl hlen hs' hf) (rootOk_of hc' hr hl hlen hs' ht)
    (optUndefined_of hr hl hof) (optUndefined_of hr hl hot) h1)
  rw [h2] at h3
  cases h3
  exact h4

end Verif.Pipeline
