import Mathlib.Tactic.ByContra
import Mathlib.Data.List.TakeDrop
import Mathlib.Data.List.TakeWhile
import Verif.Lemmas.Archive
import Verif.Lemmas.Compaction
/-! # Source archives: properties C45, C47 and the part of C46 about directories -/
namespace Verif.Archive
open Codec VarInt Compaction

variable {T H : Type}

/-! ## Lemmas -/

theorem archiveAll_btree (F : Fns T H) (files : List (String × Bytes)) :
    (archiveAll F files).btree = insertAll (files.map fun f => (f.1, (F.converter f.1 f.2, f.2))) [] := by
  unfold archiveAll insertAll
  rw [List.foldl_map]

theorem archiveAll_sorted (F : Fns T H) {files : List (String × Bytes)} (h : Sorted files) :
    (archiveAll F files).btree = files.map fun f => (f.1, (F.converter f.1 f.2, f.2)) := by
  rw [archiveAll_btree]
  refine insertAll_sorted ?_
  unfold Sorted
  rw [List.pairwise_map]
  exact h

theorem receive_ok (l m : List (String × Bytes)) : receive (l.map fun e => (e.1, some e.2)) m = .ok (insertAll l m) := by
  induction l generalizing m with
  | nil => rfl
  | cons e r ih =>
    rw [List.map_cons]
    unfold receive
    exact ih _

theorem receive_err {l : List (String × Option Bytes)} {p : String} (h : (p, none) ∈ l) (m : List (String × Bytes)) : receive l m = .err := by
  induction l generalizing m with
  | nil => cases h
  | cons e r ih =>
    obtain ⟨q, o⟩ := e
    cases o with
    | none => rfl
    | some c =>
      unfold receive
      rcases List.mem_cons.1 h with h | h
      · cases h
      · exact ih h _

theorem parseEntries_header (items : List (String × Bytes)) (h : ∀ e ∈ items, e.2.length < 2 ^ 63) (rest : List KVal) :
    parseEntries items.length ((items.flatMap fun e => [compStr e.1, compInt e.2.length]) ++ rest)
      = .ok (items.map fun e => (e.1, e.2.length)) := by
  induction items with
  | nil => rfl
  | cons e r ih =>
    rw [List.flatMap_cons, List.append_assoc, List.length_cons]
    simp only [List.cons_append, List.nil_append]
    unfold parseEntries
    rw [asString_compStr, asI64_compInt]
    simp only [Res.ofOption_some, Res.bind_ok]
    rw [ih fun x hx => h x (List.mem_cons_of_mem _ hx), asUsize_of _ (h e List.mem_cons_self)]
    rfl

theorem readBufs_ok (items : List (String × Bytes)) (rest : Bytes) :
    readBufs (items.map fun e => e.2.length) ((items.flatMap fun e => e.2) ++ rest) = .ok (items.map fun e => e.2, rest) := by
  induction items with
  | nil => rfl
  | cons e r ih =>
    rw [List.map_cons, List.flatMap_cons, List.append_assoc]
    unfold readBufs
    rw [Rd.bind_apply, Codec.readN_append, Res.bind_ok, Rd.bind_apply, ih]
    rfl

theorem decompressAll_ok (F : Fns T H) (items files : List (String × Bytes))
    (h : items.map (fun e => (e.1, F.decompress e.2)) = files.map fun f => (f.1, some f.2)) :
    decompressAll F items = .ok files := by
  induction items generalizing files with
  | nil =>
    cases files with
    | nil => rfl
    | cons f r => simp at h
  | cons e r ih =>
    cases files with
    | nil => simp at h
    | cons f r' =>
      obtain ⟨p, c⟩ := e
      obtain ⟨q, d⟩ := f
      simp only [List.map_cons, List.cons.injEq, Prod.mk.injEq] at h
      obtain ⟨⟨rfl, hd⟩, hr⟩ := h
      unfold decompressAll
      rw [hd, ih _ hr]
      rfl

theorem norm_compInt (i : Int) : norm (compInt i) = compInt i := by
  unfold compInt; repeat' split
  all_goals rfl

theorem norm_compStr (s : String) : norm (compStr s) = compStr s := by
  unfold compStr; simp only; repeat' split
  all_goals rfl

/-- What `write_items` writes. -/
theorem readArchive_items (F : Fns T H) (items files : List (String × Bytes)) (hn : items.length < 2 ^ 62)
    (hp : ∀ e ∈ items, (strBytes e.1).length < 2 ^ 63) (hc : ∀ e ∈ items, e.2.length < 2 ^ 63)
    (hd : items.map (fun e => (e.1, F.decompress e.2)) = files.map fun f => (f.1, some f.2)) :
    ∃ out, writeItems items = .ok out ∧
      (out.length < 2 ^ 63 → ∀ rest, readArchive F (out ++ rest) = .ok (archiveAll F files, rest)) := by
  have hv : ∀ k ∈ header items, Valid k := by
    intro k hk
    rcases List.mem_cons.1 hk with rfl | hk
    · exact valid_compInt _ (inI64_of _ (by omega))
    · obtain ⟨e, he, hk⟩ := List.mem_flatMap.1 hk
      simp only [List.mem_cons, List.not_mem_nil, or_false] at hk
      rcases hk with rfl | rfl
      · exact valid_compStr _ (hp e he)
      · exact valid_compInt _ (inI64_of _ (hc e he))
  obtain ⟨o, ho⟩ := encodeVals_ok_of_valid _ hv
  refine ⟨o ++ items.flatMap fun e => e.2, by unfold writeItems; rw [ho]; rfl, fun hl rest => ?_⟩
  have hlen : (header items).length < 2 ^ 63 := by
    have : ∀ l : List (String × Bytes), (l.flatMap fun e => [compStr e.1, compInt e.2.length]).length = 2 * l.length := by
      intro l
      induction l with
      | nil => rfl
      | cons e r ih => rw [List.flatMap_cons, List.length_append, ih, List.length_cons]; simp; omega
    unfold header
    rw [List.length_cons, this]
    omega
  have hol : o.length < 2 ^ 63 := by rw [List.length_append] at hl; omega
  have hnorm : (header items).map norm = header items := by
    rw [List.map_congr_left (g := id), List.map_id]
    intro k hk
    rcases List.mem_cons.1 hk with rfl | hk
    · exact norm_compInt _
    · obtain ⟨e, he, hk⟩ := List.mem_flatMap.1 hk
      simp only [List.mem_cons, List.not_mem_nil, or_false] at hk
      rcases hk with rfl | rfl
      · exact norm_compStr _
      · exact norm_compInt _
  have h1 := decode_encodeVals _ hv hlen o ho hol ((items.flatMap fun e => e.2) ++ rest)
  rw [hnorm] at h1
  have h2 : readHeader (o ++ ((items.flatMap fun e => e.2) ++ rest))
      = .ok (items.map fun e => (e.1, e.2.length), (items.flatMap fun e => e.2) ++ rest) := by
    unfold readHeader
    rw [Rd.bind_apply, h1, Res.bind_ok]
    unfold header
    simp only [Rd.lift_apply]
    rw [asI64_compInt, Res.ofOption_some, Res.bind_ok, asUsize_of _ (by omega)]
    have := parseEntries_header items hc []
    rw [List.append_nil] at this
    rw [this]
    rfl
  unfold readArchive
  rw [List.append_assoc, Rd.bind_apply, h2, Res.bind_ok, Rd.bind_apply]
  simp only [List.map_map, Function.comp_def]
  rw [readBufs_ok, Res.bind_ok]
  simp only [Rd.lift_apply]
  rw [← List.unzip_fst, ← List.unzip_snd, List.zip_unzip, decompressAll_ok F items files hd]
  rfl

/-! ## C45 -/

/-- the files of an archive -/
def filesOf (data : Data T H) : List (String × Bytes) := data.btree.map fun e => (e.1, e.2.2)

theorem write_read (F : Fns T H) (data : Data T H) (hs : Sorted data.btree) (hn : data.btree.length < 2 ^ 62)
    (hp : ∀ e ∈ data.btree, (strBytes e.1).length < 2 ^ 63) (hc : ∀ e ∈ data.btree, Undoes F e.2.2)
    (arrival : List (String × Option Bytes)) (ha : arrival.Perm (messages F data)) :
    ∃ out, writeArchive arrival = .ok out ∧
      (out.length < 2 ^ 63 → ∀ rest, readArchive F (out ++ rest) = .ok (archiveAll F (filesOf data), rest)) := by
  have hsome : ∀ m ∈ messages F data, m.2.isSome = true := by
    intro m hm
    obtain ⟨e, he, rfl⟩ := List.mem_map.1 hm
    obtain ⟨c, hc, _⟩ := hc e he
    simp [hc]
  let strip : String × Option Bytes → String × Bytes := fun m => (m.1, m.2.getD [])
  have hstrip : ∀ l : List (String × Option Bytes), (∀ m ∈ l, m.2.isSome = true) →
      (l.map strip).map (fun e => (e.1, some e.2)) = l := by
    intro l hl
    rw [List.map_map, List.map_congr_left (g := id), List.map_id]
    intro m hm
    obtain ⟨p, o⟩ := m
    have := hl _ hm
    cases o with
    | none => simp at this
    | some c => rfl
  have hperm : (arrival.map strip).Perm ((messages F data).map strip) := ha.map _
  have hnd : ((arrival.map strip).map fun e => e.1).Nodup := by
    refine ((hperm.map _).nodup_iff).2 ?_
    have : ((messages F data).map strip).map (fun e => e.1) = data.btree.map fun e => e.1 := by
      unfold messages; simp [strip]
    rw [this]
    exact nodup_of_sorted hs
  have hsorted : Sorted ((messages F data).map strip) := by
    unfold Sorted messages
    rw [List.map_map, List.pairwise_map]
    exact hs
  have hrec : receive arrival [] = .ok ((messages F data).map strip) := by
    have := receive_ok (arrival.map strip) []
    rw [hstrip arrival fun m hm => hsome m (ha.subset hm)] at this
    rw [this, insertAll_perm hperm hnd, insertAll_sorted hsorted]
  have hmem : ∀ e ∈ (messages F data).map strip, ∃ b ∈ data.btree, e.1 = b.1 ∧ F.decompress e.2 = some b.2.2 ∧ e.2.length < 2 ^ 63 := by
    intro e he
    obtain ⟨m, hm, rfl⟩ := List.mem_map.1 he
    obtain ⟨b, hb, rfl⟩ := List.mem_map.1 hm
    obtain ⟨c, h1, h2, h3⟩ := hc b hb
    exact ⟨b, hb, rfl, by simp [strip, h1, h2], by simpa [strip, h1] using h3⟩
  obtain ⟨out, ho, hr⟩ := readArchive_items F ((messages F data).map strip) (filesOf data)
    (by unfold messages; simpa using hn)
    (fun e he => by obtain ⟨b, hb, h1, _⟩ := hmem e he; rw [h1]; exact hp b hb)
    (fun e he => by obtain ⟨b, hb, _, _, h3⟩ := hmem e he; exact h3)
    (by
      unfold messages filesOf
      rw [List.map_map, List.map_map, List.map_map]
      refine List.map_congr_left fun b hb => ?_
      obtain ⟨c, h1, h2, h3⟩ := hc b hb
      simp [strip, h1, h2])
  exact ⟨out, by unfold writeArchive; rw [hrec]; exact ho, hr⟩

theorem sorted_filesOf {data : Data T H} (hs : Sorted data.btree) : Sorted (filesOf data) := by
  unfold filesOf Sorted
  rw [List.pairwise_map]
  exact hs

/-- **C45.** An archive is written for every set of files, whatever the order in which the workers compress them, and reading it
gives the same paths with the same contents in the same order. -/
theorem C45_round_trip (F : Fns T H) (data : Data T H) (hs : Sorted data.btree) (hn : data.btree.length < 2 ^ 62)
    (hp : ∀ e ∈ data.btree, (strBytes e.1).length < 2 ^ 63) (hc : ∀ e ∈ data.btree, Undoes F e.2.2)
    (arrival : List (String × Option Bytes)) (ha : arrival.Perm (messages F data)) :
    ∃ out, writeArchive arrival = .ok out ∧
      (out.length < 2 ^ 63 → ∀ rest, ∃ d, readArchive F (out ++ rest) = .ok (d, rest) ∧
        d.btree = data.btree.map fun e => (e.1, (F.converter e.1 e.2.2, e.2.2))) := by
  obtain ⟨out, ho, hr⟩ := write_read F data hs hn hp hc arrival ha
  refine ⟨out, ho, fun hl rest => ⟨_, hr hl rest, ?_⟩⟩
  rw [archiveAll_sorted F (sorted_filesOf hs)]
  unfold filesOf
  rw [List.map_map]
  rfl

/-- The hash is restored too: what was read from a directory (`files` sorted by path) and written to an archive is read from the
archive as it was, with the hash. -/
theorem C45_hash (F : Fns T H) (files : List (String × Bytes)) (hs : Sorted files) (hn : files.length < 2 ^ 62)
    (hp : ∀ f ∈ files, (strBytes f.1).length < 2 ^ 63) (hc : ∀ f ∈ files, Undoes F f.2)
    (arrival : List (String × Option Bytes)) (ha : arrival.Perm (messages F (archiveAll F files))) :
    ∃ out, writeArchive arrival = .ok out ∧
      (out.length < 2 ^ 63 → ∀ rest, readArchive F (out ++ rest) = .ok (archiveAll F files, rest)) := by
  have hb := archiveAll_sorted F hs
  have hf : filesOf (archiveAll F files) = files := by
    unfold filesOf
    rw [hb, List.map_map]
    exact List.map_id' files
  have hsb : Sorted (archiveAll F files).btree := by
    rw [archiveAll_btree]; exact sorted_insertAll _ sorted_nil
  have hm : ∀ e ∈ (archiveAll F files).btree, ∃ f ∈ files, e.1 = f.1 ∧ e.2.2 = f.2 := by
    intro e he
    rw [hb] at he
    obtain ⟨f, hf, rfl⟩ := List.mem_map.1 he
    exact ⟨f, hf, rfl, rfl⟩
  have := write_read F (archiveAll F files) hsb (by rw [hb]; simpa using hn)
    (fun e he => by obtain ⟨f, hf, h1, _⟩ := hm e he; rw [h1]; exact hp f hf)
    (fun e he => by obtain ⟨f, hf, _, h2⟩ := hm e he; rw [h2]; exact hc f hf) arrival ha
  rw [hf] at this
  exact this

/-- If one of the files cannot be compressed, no archive is written, whatever the order. -/
theorem C45_refused (F : Fns T H) (data : Data T H) {e : String × (T × Bytes)} (he : e ∈ data.btree) (hc : F.compress e.2.2 = none)
    (arrival : List (String × Option Bytes)) (ha : arrival.Perm (messages F data)) : writeArchive arrival = .err := by
  unfold writeArchive
  have : (e.1, none) ∈ arrival := by
    rw [ha.mem_iff]
    exact List.mem_map.2 ⟨e, he, by rw [hc]⟩
  rw [receive_err this]
  rfl

theorem Stable.readBufs (l : List Nat) : Stable (readBufs l) := by
  induction l with
  | nil => exact Stable.pure _
  | cons n r ih => exact Stable.bind (Stable.readN n) fun _ => Stable.bind ih fun _ => Stable.pure _

theorem Stable.readHeader : Stable readHeader :=
  Stable.bind Stable.decodeVals fun kvals => by
    cases kvals with
    | nil => exact Stable.fail
    | cons k r => exact Stable.lift _

theorem Stable.readArchive (F : Fns T H) : Stable (readArchive F) :=
  Stable.bind Stable.readHeader fun _ => Stable.bind (Stable.readBufs _) fun _ => Stable.lift _

/-- An archive that was cut off anywhere is refused. -/
theorem C45_truncated (F : Fns T H) (data : Data T H) (hs : Sorted data.btree) (hn : data.btree.length < 2 ^ 62)
    (hp : ∀ e ∈ data.btree, (strBytes e.1).length < 2 ^ 63) (hc : ∀ e ∈ data.btree, Undoes F e.2.2)
    (arrival : List (String × Option Bytes)) (ha : arrival.Perm (messages F data)) (out : Bytes)
    (ho : writeArchive arrival = .ok out) (hl : out.length < 2 ^ 63) (cut : Nat) (hcut : cut < out.length) :
    readArchive F (out.take cut) = .err := by
  obtain ⟨out', ho', hr⟩ := write_read F data hs hn hp hc arrival ha
  rw [ho] at ho'
  cases ho'
  have hfull := hr hl []
  rw [List.append_nil] at hfull
  cases h : readArchive F (out.take cut) with
  | err => rfl
  | panic =>
    have := (Stable.readArchive F).panic _ (out.drop cut) h
    rw [List.take_append_drop, hfull] at this; cases this
  | ok p =>
    obtain ⟨a, rest⟩ := p
    have := (Stable.readArchive F).ok _ _ _ (out.drop cut) h
    rw [List.take_append_drop, hfull] at this
    have h2 := (Prod.mk.inj (Res.ok.inj this)).2
    have h3 := congrArg List.length h2
    rw [List.length_append, List.length_drop, List.length_nil] at h3
    omega

/-- an example: compression that reverses and appends a byte -/
def sampleFns : Fns Nat Bytes where
  compress d := some (7 :: d.reverse)
  decompress c := match c with | 7 :: r => some r.reverse | _ => none
  converter _ d := d.length
  hash := id

def sampleFiles : List (String × Bytes) := [("src/a.json5", [1, 2]), ("src/b.json5", []), ("src/sub/a.json5", [3])]

example : Sorted sampleFiles ∧ (∀ f ∈ sampleFiles, Undoes sampleFns f.2) := by
  constructor
  · unfold Sorted sampleFiles; decide +kernel
  · intro f hf
    refine ⟨7 :: f.2.reverse, rfl, by simp [sampleFns], ?_⟩
    simp only [sampleFiles, List.mem_cons, List.not_mem_nil, or_false] at hf
    rcases hf with rfl | rfl | rfl <;> decide

example : ∃ out, writeArchive ((messages sampleFns (archiveAll sampleFns sampleFiles)).reverse) = .ok out ∧
    (readArchive sampleFns (out ++ [9])).map (fun p => (filesOf p.1, p.2)) = .ok (sampleFiles, [9]) := by
  refine ⟨_, rfl, ?_⟩
  decide +kernel

/-! ## C46: the order in which a directory is listed -/

theorem hasExt_iff (name e : String) :
    HasExt name e ↔ ∃ s : List Char, s ≠ [] ∧ name.toList = s ++ '.' :: e.toList ∧ '.' ∉ e.toList := by
  constructor
  · rintro ⟨stem, h1, h2, h3⟩
    refine ⟨stem.toList, fun h => h1 ?_, ?_, h3⟩
    · exact String.toList_eq_nil_iff.1 h
    · rw [h2]; simp
  · rintro ⟨s, h1, h2, h3⟩
    refine ⟨String.ofList s, fun h => h1 ?_, ?_, h3⟩
    · have := congrArg String.toList h; simpa using this
    · apply String.toList_inj.1; rw [h2]; simp

theorem last_dot {s s' e e' : List Char} (h : s ++ '.' :: e = s' ++ '.' :: e') (he : '.' ∉ e) (he' : '.' ∉ e') : s = s' ∧ e = e' := by
  rcases List.append_eq_append_iff.1 h with ⟨a, h1, h2⟩ | ⟨a, h1, h2⟩
  · cases a with
    | nil => simp only [List.nil_append, List.cons.injEq, true_and] at h2; exact ⟨by simpa using h1.symm, h2⟩
    | cons c a =>
      simp only [List.cons_append, List.cons.injEq] at h2
      exact absurd (by rw [h2.2]; simp) he
  · cases a with
    | nil => simp only [List.nil_append, List.cons.injEq, true_and] at h2; exact ⟨by simpa using h1, h2.symm⟩
    | cons c a =>
      simp only [List.cons_append, List.cons.injEq] at h2
      exact absurd (by rw [h2.2]; simp) he'

/-- the part after the last dot -/
theorem extension_spec (name : String) :
    (HasExt name (extension name)) ∨ (extension name = "" ∧ ¬ ∃ e, HasExt name e) := by
  have hsplit := List.takeWhile_append_dropWhile (p := fun c => c != '.') (l := name.toList.reverse)
  have hafter : '.' ∉ (name.toList.reverse.takeWhile fun c => c != '.') := fun h => by
    have := List.mem_takeWhile_imp h
    simp at this
  unfold extension
  rw [List.span_eq_takeWhile_dropWhile]
  generalize hA : (name.toList.reverse.takeWhile fun c => c != '.') = after at *
  cases hR : (name.toList.reverse.dropWhile fun c => c != '.') with
  | nil =>
    refine .inr ⟨rfl, ?_⟩
    rintro ⟨e, he⟩
    obtain ⟨s, h1, h2, h3⟩ := (hasExt_iff _ _).1 he
    rw [hR, List.append_nil] at hsplit
    apply hafter
    rw [hsplit, h2]
    simp
  | cons c r =>
    have hc : c = '.' := by
      have := List.head_dropWhile_not (p := fun c => c != '.') (l := name.toList.reverse) (by rw [hR]; simp)
      simp only [hR, List.head_cons] at this
      simpa using this
    subst hc
    have hL : name.toList = r.reverse ++ '.' :: after.reverse := by
      rw [hR] at hsplit
      have := congrArg List.reverse hsplit
      rw [List.reverse_reverse] at this
      rw [← this]; simp
    cases r with
    | nil =>
      refine .inr ⟨rfl, ?_⟩
      rintro ⟨e, he⟩
      obtain ⟨s, h1, h2, h3⟩ := (hasExt_iff _ _).1 he
      rw [hL] at h2
      exact h1 (last_dot h2 (by simpa using hafter) h3).1.symm
    | cons c r =>
      refine .inl ((hasExt_iff _ _).2 ⟨(c :: r).reverse, by simp, ?_, ?_⟩)
      · rw [hL]; simp
      · simpa using hafter

theorem hasExt_unique {name e e' : String} (h : HasExt name e) (h' : HasExt name e') : e = e' := by
  obtain ⟨s, _, h2, h3⟩ := (hasExt_iff _ _).1 h
  obtain ⟨s', _, h2', h3'⟩ := (hasExt_iff _ _).1 h'
  rw [h2] at h2'
  exact String.toList_inj.1 (last_dot h2' h3 h3').2

theorem isArchived_iff (opt : Opts) (name : String) : isArchived opt (extension name) = true ↔ Selected opt name := by
  unfold isArchived Selected
  by_cases h0 : opt.extensions.length = 0
  · rw [if_pos h0]
    simp only [true_iff]
    exact .inl (List.length_eq_zero_iff.1 h0)
  · rw [if_neg h0]
    have h0' : opt.extensions ≠ [] := fun h => h0 (by rw [h]; rfl)
    simp only [List.contains_iff_mem, h0', false_or]
    rcases extension_spec name with h | ⟨h, hn⟩
    · constructor
      · exact fun hm => .inl ⟨_, hm, h⟩
      · rintro (⟨e, hm, he⟩ | ⟨_, hn⟩)
        · rw [hasExt_unique h he]; exact hm
        · exact absurd ⟨_, h⟩ hn
    · constructor
      · exact fun hm => .inr ⟨by rw [← h]; exact hm, hn⟩
      · rintro (⟨e, _, he⟩ | ⟨hm, _⟩)
        · exact absurd ⟨_, he⟩ hn
        · rw [h]; exact hm

mutual
theorem nodePaths_spec (opt : Opts) (cur : String) (e : Node) (set : List (String × Unit)) (hs : Sorted set) :
    Sorted (nodePaths opt cur e set) ∧
      ∀ p, (p, ()) ∈ nodePaths opt cur e set ↔ (p, ()) ∈ set ∨ ∃ d, Holds opt cur [e] p d := by
  cases e with
  | file name data =>
    unfold nodePaths
    by_cases h : isArchived opt (extension name) = true
    · rw [if_pos h]
      refine ⟨sorted_insert hs _ _, fun p => ?_⟩
      rw [mem_insert hs]
      constructor
      · rintro (h1 | ⟨h1, _⟩)
        · cases h1
          exact .inr ⟨data, .file List.mem_cons_self ((isArchived_iff _ _).1 h)⟩
        · exact .inl h1
      · rintro (h1 | ⟨d, hd⟩)
        · by_cases hp : p = join cur name
          · exact .inl (by rw [hp])
          · exact .inr ⟨h1, hp⟩
        · cases hd with
          | file h1 h2 =>
            rw [List.mem_singleton] at h1
            cases h1
            exact .inl rfl
          | sub h1 => rw [List.mem_singleton] at h1; cases h1
    · rw [if_neg h]
      refine ⟨hs, fun p => ⟨.inl, ?_⟩⟩
      rintro (h1 | ⟨d, hd⟩)
      · exact h1
      · cases hd with
        | file h1 h2 =>
          rw [List.mem_singleton] at h1
          cases h1
          exact absurd ((isArchived_iff _ _).2 h2) h
        | sub h1 => rw [List.mem_singleton] at h1; cases h1
  | dir name es =>
    unfold nodePaths
    by_cases h : opt.subfolders = true
    · rw [if_pos h]
      obtain ⟨h1, h2⟩ := dirPaths_spec opt (join cur name) es set hs
      refine ⟨h1, fun p => ?_⟩
      rw [h2]
      constructor
      · rintro (h3 | ⟨d, hd⟩)
        · exact .inl h3
        · exact .inr ⟨d, .sub List.mem_cons_self h hd⟩
      · rintro (h3 | ⟨d, hd⟩)
        · exact .inl h3
        · cases hd with
          | file h1 h2 => rw [List.mem_singleton] at h1; cases h1
          | sub h1 _ hi =>
            rw [List.mem_singleton] at h1
            cases h1
            exact .inr ⟨d, hi⟩
    · rw [if_neg h]
      refine ⟨hs, fun p => ⟨.inl, ?_⟩⟩
      rintro (h1 | ⟨d, hd⟩)
      · exact h1
      · cases hd with
        | file h1 h2 => rw [List.mem_singleton] at h1; cases h1
        | sub h1 ho => exact absurd ho h
  | other name =>
    unfold nodePaths
    refine ⟨hs, fun p => ⟨.inl, ?_⟩⟩
    rintro (h1 | ⟨d, hd⟩)
    · exact h1
    · cases hd with
      | file h1 h2 => rw [List.mem_singleton] at h1; cases h1
      | sub h1 => rw [List.mem_singleton] at h1; cases h1
theorem dirPaths_spec (opt : Opts) (cur : String) (es : List Node) (set : List (String × Unit)) (hs : Sorted set) :
    Sorted (dirPaths opt cur es set) ∧
      ∀ p, (p, ()) ∈ dirPaths opt cur es set ↔ (p, ()) ∈ set ∨ ∃ d, Holds opt cur es p d := by
  cases es with
  | nil =>
    unfold dirPaths
    refine ⟨hs, fun p => ⟨.inl, ?_⟩⟩
    rintro (h | ⟨d, hd⟩)
    · exact h
    · cases hd with
      | file h1 => cases h1
      | sub h1 => cases h1
  | cons e r =>
    unfold dirPaths
    obtain ⟨h1, h2⟩ := nodePaths_spec opt cur e set hs
    obtain ⟨h3, h4⟩ := dirPaths_spec opt cur r _ h1
    refine ⟨h3, fun p => ?_⟩
    rw [h4, h2]
    constructor
    · rintro ((h | ⟨d, hd⟩) | ⟨d, hd⟩)
      · exact .inl h
      · refine .inr ⟨d, ?_⟩
        cases hd with
        | file h1 h2 => rw [List.mem_singleton] at h1; exact .file (by rw [h1]; exact List.mem_cons_self) h2
        | sub h1 ho hi => rw [List.mem_singleton] at h1; exact .sub (by rw [h1]; exact List.mem_cons_self) ho hi
      · refine .inr ⟨d, ?_⟩
        cases hd with
        | file h1 h2 => exact .file (List.mem_cons_of_mem _ h1) h2
        | sub h1 ho hi => exact .sub (List.mem_cons_of_mem _ h1) ho hi
    · rintro (h | ⟨d, hd⟩)
      · exact .inl (.inl h)
      · cases hd with
        | file h1 h2 =>
          rcases List.mem_cons.1 h1 with h1 | h1
          · exact .inl (.inr ⟨d, .file (by rw [h1]; exact List.mem_cons_self) h2⟩)
          · exact .inr ⟨d, .file h1 h2⟩
        | sub h1 ho hi =>
          rcases List.mem_cons.1 h1 with h1 | h1
          · exact .inl (.inr ⟨d, .sub (by rw [h1]; exact List.mem_cons_self) ho hi⟩)
          · exact .inr ⟨d, .sub h1 ho hi⟩
end

theorem holds_cons {opt : Opts} {cur p : String} {d : Bytes} {e : Node} {r : List Node} :
    Holds opt cur (e :: r) p d ↔ Holds opt cur [e] p d ∨ Holds opt cur r p d := by
  constructor
  · intro hd
    cases hd with
    | file h1 h2 =>
      rcases List.mem_cons.1 h1 with h1 | h1
      · exact .inl (.file (by rw [h1]; exact List.mem_cons_self) h2)
      · exact .inr (.file h1 h2)
    | sub h1 ho hi =>
      rcases List.mem_cons.1 h1 with h1 | h1
      · exact .inl (.sub (by rw [h1]; exact List.mem_cons_self) ho hi)
      · exact .inr (.sub h1 ho hi)
  · rintro (hd | hd)
    · cases hd with
      | file h1 h2 => rw [List.mem_singleton] at h1; exact .file (by rw [h1]; exact List.mem_cons_self) h2
      | sub h1 ho hi => rw [List.mem_singleton] at h1; exact .sub (by rw [h1]; exact List.mem_cons_self) ho hi
    · cases hd with
      | file h1 h2 => exact .file (List.mem_cons_of_mem _ h1) h2
      | sub h1 ho hi => exact .sub (List.mem_cons_of_mem _ h1) ho hi

theorem holds_dir {opt : Opts} {cur p name : String} {d : Bytes} {es : List Node} :
    Holds opt cur [.dir name es] p d ↔ opt.subfolders = true ∧ Holds opt (join cur name) es p d := by
  constructor
  · intro hd
    cases hd with
    | file h1 h2 => rw [List.mem_singleton] at h1; cases h1
    | sub h1 ho hi => rw [List.mem_singleton] at h1; cases h1; exact ⟨ho, hi⟩
  · rintro ⟨ho, hi⟩
    exact .sub List.mem_cons_self ho hi

theorem reordered_holds {es es' : List Node} (h : Reordered es es') (opt : Opts) (cur p : String) (d : Bytes) :
    Holds opt cur es p d ↔ Holds opt cur es' p d := by
  induction h generalizing cur with
  | nil => exact Iff.rfl
  | cons e _ ih => rw [holds_cons, ih, ← holds_cons]
  | inner name r _ ih => rw [holds_cons, holds_dir, ih, ← holds_dir, ← holds_cons]
  | swap a b r =>
    rw [holds_cons, holds_cons (e := b), holds_cons (r := a :: r), holds_cons (r := r) (e := a)]
    constructor
    · rintro (h | h | h)
      exacts [.inr (.inl h), .inl h, .inr (.inr h)]
    · rintro (h | h | h)
      exacts [.inr (.inl h), .inl h, .inr (.inr h)]
  | trans _ _ ih1 ih2 => exact (ih1 cur).trans (ih2 cur)

/-- **C46, directories.** The result does not depend on the order in which the operating system lists the directory and its
subfolders. -/
theorem C46_listing_order (F : Fns T H) (opt : Opts) (read : String → Option Bytes) (path : String) {es es' : List Node}
    (h : Reordered es es') : readDirectory F opt read path es = readDirectory F opt read path es' := by
  unfold readDirectory
  obtain ⟨h1, h2⟩ := dirPaths_spec opt path es [] sorted_nil
  obtain ⟨h3, h4⟩ := dirPaths_spec opt path es' [] sorted_nil
  rw [sorted_ext h1 h3 fun x => ?_]
  obtain ⟨p, u⟩ := x
  cases u
  rw [h2, h4]
  simp only [reordered_holds h]

theorem readAll_ok {read : String → Option Bytes} {set : List (String × Unit)} (h : ∀ e ∈ set, ∃ d, read e.1 = some d) :
    ∃ files, readAll read set = .ok files ∧ (files.map fun f => f.1) = (set.map fun e => e.1) ∧ ∀ f ∈ files, read f.1 = some f.2 := by
  induction set with
  | nil => exact ⟨[], rfl, rfl, fun _ h => nomatch h⟩
  | cons e r ih =>
    obtain ⟨d, hd⟩ := h e List.mem_cons_self
    obtain ⟨files, h1, h2, h3⟩ := ih fun x hx => h x (List.mem_cons_of_mem _ hx)
    refine ⟨(e.1, d) :: files, ?_, by simp [h2], ?_⟩
    · unfold readAll; rw [hd, h1]; rfl
    · intro f hf
      rcases List.mem_cons.1 hf with rfl | hf
      · exact hd
      · exact h3 f hf

/-- What is read from a directory: exactly the selected files, each with its contents, sorted by path. `read` gives the contents of
the files at their paths. -/
theorem C46_directory (F : Fns T H) (opt : Opts) (read : String → Option Bytes) (path : String) (es : List Node)
    (hr : ∀ p d, Holds opt path es p d → read p = some d) :
    ∃ data, readDirectory F opt read path es = .ok data ∧ Sorted data.btree ∧
      (∀ p t d, (p, (t, d)) ∈ data.btree ↔ Holds opt path es p d ∧ t = F.converter p d) ∧
      data.hash = F.hash (hashInput (filesOf data)) := by
  obtain ⟨h1, h2⟩ := dirPaths_spec opt path es [] sorted_nil
  have h2' : ∀ p, (p, ()) ∈ dirPaths opt path es [] ↔ ∃ d, Holds opt path es p d := by
    intro p; rw [h2]; simp
  obtain ⟨files, hf, hk, hv⟩ := readAll_ok (read := read) (set := dirPaths opt path es []) fun e he => by
    obtain ⟨p, u⟩ := e
    cases u
    obtain ⟨d, hd⟩ := (h2' p).1 he
    exact ⟨d, hr p d hd⟩
  have hsf : Sorted files := by
    have a : ∀ {V : Type} (l : List (String × V)), Sorted l ↔ (l.map fun e => e.1).Pairwise fun x y => strBytes x < strBytes y := by
      intro V l
      rw [List.pairwise_map]
      rfl
    rw [a, hk, ← a]
    exact h1
  have hb := archiveAll_sorted F hsf
  refine ⟨archiveAll F files, by unfold readDirectory; rw [hf]; rfl, ?_, ?_, ?_⟩
  · rw [archiveAll_btree]; exact sorted_insertAll _ sorted_nil
  · intro p t d
    rw [hb, List.mem_map]
    constructor
    · rintro ⟨f, hf', he⟩
      cases he
      have : (f.1, ()) ∈ dirPaths opt path es [] := by
        have hm : f.1 ∈ files.map fun f => f.1 := List.mem_map_of_mem hf'
        rw [hk] at hm
        obtain ⟨x, hx, hx'⟩ := List.mem_map.1 hm
        obtain ⟨q, u⟩ := x
        cases u
        cases hx'
        exact hx
      obtain ⟨d, hd⟩ := (h2' _).1 this
      have e1 := hr _ _ hd
      rw [hv f hf'] at e1
      cases e1
      exact ⟨hd, rfl⟩
    · rintro ⟨hd, rfl⟩
      have : p ∈ files.map fun f => f.1 := by
        rw [hk]
        exact List.mem_map.2 ⟨(p, ()), (h2' p).2 ⟨d, hd⟩, rfl⟩
      obtain ⟨f, hf', rfl⟩ := List.mem_map.1 this
      have e1 := hv f hf'
      rw [hr _ _ hd] at e1
      cases e1
      exact ⟨f, hf', rfl⟩
  · have hf' : filesOf (archiveAll F files) = files := by
      unfold filesOf
      rw [hb, List.map_map]
      exact List.map_id' files
    rw [hf']
    rfl

/-- an example: two listings of a directory with a subfolder -/
def sampleDir : List Node := [.file "b.json5" [], .dir "sub" [.file "x.txt" [8], .file "a.json5" [3]], .other "link", .file "a.json5" [1, 2]]
def sampleDir' : List Node := [.file "a.json5" [1, 2], .file "b.json5" [], .dir "sub" [.file "a.json5" [3], .file "x.txt" [8]], .other "link"]
def sampleRead (p : String) : Option Bytes := (sampleFiles.find? fun f => f.1 == p).map fun f => f.2

example : Reordered sampleDir sampleDir' := by
  refine .trans (.cons _ (.inner _ _ (.swap _ _ _))) (.trans (.cons _ (.cons _ (.swap _ _ _))) (.trans (.cons _ (.swap _ _ _)) (.swap _ _ _)))

example : (readDirectory sampleFns ⟨["json5"], true⟩ sampleRead "src" sampleDir).map filesOf = .ok sampleFiles := by decide +kernel

/-! ## C46: the order in which the workers compress -/

/-- **C46, writing.** The archive does not depend on the order in which the workers compress the files. -/
theorem C46_write_order (F : Fns T H) (data : Data T H) (hs : Sorted data.btree) {arrival arrival' : List (String × Option Bytes)}
    (ha : arrival.Perm (messages F data)) (ha' : arrival'.Perm (messages F data)) : writeArchive arrival = writeArchive arrival' := by
  by_cases hc : ∃ e ∈ data.btree, F.compress e.2.2 = none
  · obtain ⟨e, he, hc⟩ := hc
    rw [C45_refused F data he hc _ ha, C45_refused F data he hc _ ha']
  · have hsome : ∀ m ∈ messages F data, m.2.isSome = true := by
      intro m hm
      obtain ⟨e, he, rfl⟩ := List.mem_map.1 hm
      cases h : F.compress e.2.2 with
      | none => exact absurd ⟨e, he, h⟩ hc
      | some c => simp only [Option.isSome_some]
    let strip : String × Option Bytes → String × Bytes := fun m => (m.1, m.2.getD [])
    have hstrip : ∀ l : List (String × Option Bytes), (∀ m ∈ l, m.2.isSome = true) →
        (l.map strip).map (fun e => (e.1, some e.2)) = l := by
      intro l hl
      rw [List.map_map, List.map_congr_left (g := id), List.map_id]
      intro m hm
      obtain ⟨p, o⟩ := m
      have := hl _ hm
      cases o with
      | none => simp at this
      | some c => rfl
    have hnd : ((messages F data).map strip |>.map fun e => e.1).Nodup := by
      have : ((messages F data).map strip).map (fun e => e.1) = data.btree.map fun e => e.1 := by
        unfold messages; simp [strip]
      rw [this]
      exact nodup_of_sorted hs
    have key : ∀ l : List (String × Option Bytes), l.Perm (messages F data) →
        receive l [] = .ok (insertAll ((messages F data).map strip) []) := by
      intro l hl
      have := receive_ok (l.map strip) []
      rw [hstrip l fun m hm => hsome m (hl.subset hm)] at this
      rw [this, insertAll_perm (hl.map strip).symm hnd]
    unfold writeArchive
    rw [key _ ha, key _ ha']

/-! ## C47 -/

/-- **C47 is false**: two different sets of files with the same input of the hash function. -/
theorem C47_negation : ∃ files files' : List (String × Bytes), Sorted files ∧ Sorted files' ∧ files ≠ files' ∧
    hashInput files = hashInput files' :=
  ⟨[("a", strBytes "bc")], [("ab", strBytes "c")], List.pairwise_singleton _ _, List.pairwise_singleton _ _, by decide +kernel, by decide +kernel⟩

/-- … also with names and contents as they are in a source directory: the two files hold texts, and the paths are in one folder. -/
theorem C47_negation_files : ∃ files files' : List (String × Bytes), Sorted files ∧ Sorted files' ∧ files ≠ files' ∧
    (files.map fun f => f.1) = (files'.map fun f => f.1) ∧ hashInput files = hashInput files' := by
  refine ⟨[("src/a.json5", strBytes "{}"), ("src/b.json5", strBytes "{}src/b.json5{}")],
    [("src/a.json5", strBytes "{}src/b.json5{}"), ("src/b.json5", strBytes "{}")], ?_, ?_, ?_, ?_, ?_⟩
  · unfold Sorted; decide +kernel
  · unfold Sorted; decide +kernel
  · decide +kernel
  · decide +kernel
  · decide +kernel

/-- **C47, what holds**: sets of files whose paths and contents have the same lengths get different inputs. Missing: the lengths are
not part of the input. -/
theorem C47_lengths_partial (files files' : List (String × Bytes))
    (hl : (files.map fun f => ((strBytes f.1).length, f.2.length)) = files'.map fun f => ((strBytes f.1).length, f.2.length))
    (h : hashInput files = hashInput files') : files = files' := by
  induction files generalizing files' with
  | nil =>
    cases files' with
    | nil => rfl
    | cons f r => simp at hl
  | cons f r ih =>
    cases files' with
    | nil => simp at hl
    | cons f' r' =>
      obtain ⟨p, d⟩ := f
      obtain ⟨p', d'⟩ := f'
      simp only [List.map_cons, List.cons.injEq, Prod.mk.injEq] at hl
      unfold hashInput at h
      rw [List.flatMap_cons, List.flatMap_cons] at h
      obtain ⟨h1, h2⟩ := List.append_inj h (by rw [List.length_append, List.length_append]; have := hl.1; simp only at this ⊢; omega)
      obtain ⟨h3, h4⟩ := List.append_inj h1 hl.1.1
      rw [ih _ hl.2 h2]
      simp only at h3 h4
      rw [strBytes_inj h3, h4]

/-- A change of the contents of one file changes the input. -/
theorem C47_one_file (l r : List (String × Bytes)) (p : String) (d d' : Bytes)
    (h : hashInput (l ++ (p, d) :: r) = hashInput (l ++ (p, d') :: r)) : d = d' := by
  unfold hashInput at h
  rw [List.flatMap_append, List.flatMap_append, List.flatMap_cons, List.flatMap_cons] at h
  have h1 := List.append_cancel_left h
  rw [List.append_assoc, List.append_assoc] at h1
  exact List.append_cancel_right (List.append_cancel_left h1)

/-- A new name of one file changes the input, if it stays at its place in the order. -/
theorem C47_one_name (l r : List (String × Bytes)) (p p' : String) (d : Bytes)
    (h : hashInput (l ++ (p, d) :: r) = hashInput (l ++ (p', d) :: r)) : p = p' := by
  unfold hashInput at h
  rw [List.flatMap_append, List.flatMap_append, List.flatMap_cons, List.flatMap_cons] at h
  have h1 := List.append_cancel_left h
  rw [List.append_assoc, List.append_assoc] at h1
  exact strBytes_inj (List.append_cancel_right h1)

/-- A new file changes the input. -/
theorem C47_new_file (l r : List (String × Bytes)) (p : String) (d : Bytes) (hp : p ≠ "") :
    hashInput (l ++ (p, d) :: r) ≠ hashInput (l ++ r) := by
  intro h
  have h1 := congrArg List.length h
  unfold hashInput at h1
  rw [List.flatMap_append, List.flatMap_append, List.flatMap_cons] at h1
  simp only [List.length_append] at h1
  have : (strBytes p).length = 0 := by omega
  exact hp (strBytes_inj (by rw [List.length_eq_zero_iff.1 this]; rfl))

end Verif.Archive
