import Verif.Props.Pipeline
/-!
# Property C75: where the source lies

The object of a source does not depend on the path under which its folder is given; the hash does.
-/
namespace Verif.Pipeline
open Codec VarInt Source Core Named Archive

theorem join_eq (p n : String) : join p n = prefixOf p ++ n := by
  unfold join prefixOf
  split <;> rfl

theorem strBytes_append (a b : String) : strBytes (a ++ b) = strBytes a ++ strBytes b := by
  unfold strBytes
  simp

theorem strBytes_inj {a b : String} (h : strBytes a = strBytes b) : a = b := by
  unfold strBytes at h
  exact String.toByteArray_inj.1 (ByteArray.ext (Array.toList_inj.1 h))

theorem append_lt_append {a b c : List UInt8} : a ++ b < a ++ c ↔ b < c := by
  induction a with
  | nil => rfl
  | cons x r ih => rw [List.cons_append, List.cons_append, List.cons_lt_cons_iff]; simp [ih]

/-- The paths of the files of a folder are their names after what stands for the folder. -/
theorem C75_files {L : Lib} {p : String} {es : List Node} {files : List (String × Bytes)} (h : Src.Files L (.dir "" es) files) :
    Src.Files L (.dir p es) (files.map fun f => (prefixOf p ++ f.1, f.2)) := by
  obtain ⟨h1, h2⟩ := h
  refine ⟨?_, fun q d => ?_⟩
  · unfold Sorted at h1 ⊢
    rw [List.pairwise_map]
    refine h1.imp fun {a b} hab => ?_
    simp only [strBytes_append]
    exact append_lt_append.2 hab
  · rw [List.mem_map, holds_json]
    constructor
    · rintro ⟨f, hf, he⟩
      cases he
      obtain ⟨n, h3, h4, h5⟩ := holds_json.1 ((h2 f.1 f.2).1 hf)
      refine ⟨n, h3, ?_, h5⟩
      rw [join_eq, h4, join_eq]
      simp [prefixOf]
    · rintro ⟨n, h3, rfl, h5⟩
      refine ⟨(n, d), (h2 n d).2 (holds_json.2 ⟨n, h3, ?_, h5⟩), by rw [join_eq]⟩
      rw [join_eq]
      simp [prefixOf]

/-! ## The stem of a path -/

theorem parts_name (n : List Char) (hn : '/' ∉ n) : ∀ acc, parts acc n = [acc.reverse ++ n] := by
  induction n with
  | nil => intro acc; simp [parts]
  | cons c r ih =>
    intro acc
    have hc : c ≠ '/' := fun h => hn (by simp [h])
    rw [parts, if_neg hc, ih (fun h => hn (List.mem_cons_of_mem _ h))]
    simp

theorem parts_append (a : List Char) (n : List Char) : ∀ acc, parts acc (a ++ '/' :: n) = parts acc a ++ parts [] n := by
  induction a with
  | nil => intro acc; simp [parts]
  | cons c r ih =>
    intro acc
    rw [List.cons_append, parts, parts]
    split
    · rw [ih, List.cons_append]
    · exact ih _

/-- what stands for the folder is nothing or ends with a slash -/
theorem prefixOf_cases (p : String) : prefixOf p = "" ∨ ∃ a : List Char, (prefixOf p).toList = a ++ ['/'] := by
  unfold prefixOf
  split
  · rename_i h
    rcases h with rfl | h
    · exact .inl rfl
    · right
      obtain ⟨a, ha⟩ := List.getLast?_eq_some_iff.1 h
      exact ⟨a, ha⟩
  · exact .inr ⟨p.toList, by rw [String.toList_append]; rfl⟩

theorem fileName_prefix {n : String} (hn : NameOk n) (p : String) : fileName (prefixOf p ++ n) = some n.toList := by
  obtain ⟨h1, h2, h3, h4⟩ := hn
  have e1 : n.toList ≠ [] := fun h => h1 (String.ext h)
  have e2 : n.toList ≠ ['.'] := fun h => h2 (String.ext h)
  have e3 : n.toList ≠ ['.', '.'] := fun h => h3 (String.ext h)
  have hlast : ((parts [] (prefixOf p ++ n).toList).filter fun p => p ≠ [] ∧ p ≠ ['.']).getLast? = some n.toList := by
    rw [String.toList_append]
    rcases prefixOf_cases p with h | ⟨a, ha⟩
    · rw [h, show "".toList = [] from rfl, List.nil_append, parts_name _ h4]
      simp [e1, e2]
    · rw [ha, List.append_assoc, List.singleton_append, parts_append, parts_name _ h4, List.filter_append]
      simp [e1, e2]
  unfold fileName
  rw [hlast]
  split
  · rename_i h
    exact absurd (Option.some.inj h) e3
  · rfl

theorem fileStem_prefix {n : String} (hn : NameOk n) (p : String) : fileStem (prefixOf p ++ n) = some (String.ofList (stemOf n.toList)) := by
  unfold fileStem
  rw [fileName_prefix hn]
  rfl

/-- **C75, names.** In a folder under any path, a file is named by what comes before the last dot of its own name; if there is no such dot,
or nothing before it, by its whole name. -/
theorem C75_stem (p n e : String) (hn : n ≠ "") (h1 : '/' ∉ n.toList) (he : '/' ∉ e.toList ∧ '.' ∉ e.toList) (hd : n ≠ "." ∨ e ≠ "") :
    fileStem (prefixOf p ++ (n ++ "." ++ e)) = some n := by
  have hne : n.toList ≠ [] := fun h => hn (String.ext h)
  have hl : (n ++ "." ++ e).toList = n.toList ++ '.' :: e.toList := by
    rw [String.toList_append, String.toList_append, List.append_assoc]; rfl
  have hok : NameOk (n ++ "." ++ e) := by
    refine ⟨?_, ?_, ?_, ?_⟩ <;> intro h
    · have := congrArg String.toList h; rw [hl] at this; simp at this
    · have := congrArg String.toList h
      rw [hl] at this
      have h2 := congrArg List.length this
      have : 0 < n.toList.length := List.length_pos_iff.2 hne
      simp at h2
      omega
    · have h4 := congrArg String.toList h
      rw [hl] at h4
      change n.toList ++ '.' :: e.toList = ['.', '.'] at h4
      have h2 := congrArg List.length h4
      have : 0 < n.toList.length := List.length_pos_iff.2 hne
      simp only [List.length_append, List.length_cons, List.length_nil] at h2
      have h3 : e.toList = [] := List.length_eq_zero_iff.1 (by omega)
      rcases hd with hd | hd
      · apply hd
        rw [h3] at h4
        have : n.toList = ['.'] := List.append_inj_left' (t₁ := ['.']) (t₂ := ['.']) h4 rfl
        exact String.ext this
      · exact hd (String.ext h3)
    · rw [hl] at h
      simp only [List.mem_append, List.mem_cons] at h
      rcases h with h | h | h
      · exact h1 h
      · cases h
      · exact he.1 h
  rw [fileStem_prefix hok, hl]
  congr 1
  have hdrop : ∀ l : List Char, '.' ∉ l → ∀ r, (l ++ '.' :: r).dropWhile (fun c => c ≠ '.') = '.' :: r := by
    intro l
    induction l with
    | nil => intro _ r; simp
    | cons c l ih =>
      intro h r
      simp only [List.mem_cons, not_or] at h
      rw [List.cons_append, List.dropWhile_cons, if_pos (by simpa using fun h' => h.1 h'.symm)]
      exact ih h.2 r
  unfold stemOf
  rw [List.reverse_append, List.reverse_cons, List.append_assoc, List.singleton_append, hdrop _ (by simpa using he.2)]
  obtain ⟨x, r, hx⟩ : ∃ x r, n.toList.reverse = x :: r := by
    cases hc : n.toList.reverse with
    | nil => exact absurd (List.reverse_eq_nil_iff.1 hc) hne
    | cons x r => exact ⟨x, r, rfl⟩
  rw [hx]
  simp only
  rw [← hx, List.reverse_reverse, String.ofList_toList]

theorem C75_stem_whole (p n : String) (hn : NameOk n) (h : '.' ∉ n.toList.tail) : fileStem (prefixOf p ++ n) = some n := by
  rw [fileStem_prefix hn]
  congr 1
  rw [← String.ofList_toList (s := n)]
  congr 1
  rw [String.toList_ofList]
  unfold stemOf
  obtain ⟨c, r, hc⟩ : ∃ c r, n.toList = c :: r := by
    cases hl : n.toList with
    | nil => exact absurd (String.ext hl) hn.1
    | cons c r => exact ⟨c, r, rfl⟩
  rw [hc] at h ⊢
  have hdrop : ∀ l : List Char, '.' ∉ l → ∀ r, (l ++ r).dropWhile (fun c => c ≠ '.') = r.dropWhile (fun c => c ≠ '.') := by
    intro l
    induction l with
    | nil => intro _ r; rfl
    | cons c l ih =>
      intro h r
      simp only [List.mem_cons, not_or] at h
      rw [List.cons_append, List.dropWhile_cons, if_pos (by simpa using fun h' => h.1 h'.symm)]
      exact ih h.2 r
  rw [List.reverse_cons, hdrop _ (by simpa using h)]
  by_cases hd : c = '.'
  · subst hd; simp
  · rw [List.dropWhile_cons, if_pos (by simpa using hd)]; simp

example : fileStem (prefixOf "a/b" ++ ("x.y" ++ "." ++ "json5")) = some "x.y" := C75_stem "a/b" "x.y" "json5" (by decide) (by decide) (by decide) (by decide)
example : fileStem (prefixOf "a/b" ++ ".json5") = some ".json5" :=
  C75_stem_whole "a/b" ".json5" ⟨by decide, by decide, by decide, by decide⟩ (by decide)

theorem converter_prefix (L : Lib) {n : String} (hn : NameOk n) (p p' : String) (d : Bytes) :
    converter L (prefixOf p ++ n) d = converter L (prefixOf p' ++ n) d := by
  unfold converter
  rw [fileStem_prefix hn, fileStem_prefix hn]

/-! ## The object and the hash -/

theorem dirRoot_eq {L : Lib} {p : String} {es : List Node} (hn : (es.map nodeName).Nodup) {files : List (String × Bytes)}
    (h : Src.Files L (.dir p es) files) :
    dirRoot L p es = (checkTree (files.map fun f => (f.1, (converter L f.1 f.2, f.2)))).bind fun _ =>
      (treeToRoot L (files.map fun f => (f.1, (converter L f.1 f.2, f.2)))).map fun r => (r, L.hash (hashInput files)) := by
  obtain ⟨files', h1, h2⟩ := dir_data L p es hn
  cases files_unique h h1
  unfold dirRoot
  rw [h2, Res.bind_ok, archiveAll_sorted L.fns h.1]
  rfl

theorem checkTree_congr : ∀ {a b : Tree} (_ : a.map (fun e => e.2.1) = b.map (fun e => e.2.1)), checkTree a = checkTree b
  | [], [], _ => rfl
  | [], _ :: _, h => by cases h
  | _ :: _, [], h => by cases h
  | x :: a, y :: b, h => by
    rw [List.map_cons, List.map_cons] at h
    injection h with h1 h2
    have ih := checkTree_congr h2
    unfold checkTree at ih ⊢
    rw [List.foldr_cons, List.foldr_cons, ih, h1]

theorem treeToRoot_congr {L : Lib} {a b : Tree} (h : a.map (fun e => e.2.1) = b.map (fun e => e.2.1)) : treeToRoot L a = treeToRoot L b := by
  unfold treeToRoot
  rw [h]

/-- **C75, the object.** The object that is made of a folder is the same under every path. -/
theorem C75_object (L : Lib) (es : List Node) (hn : (es.map nodeName).Nodup) (hok : ∀ e ∈ es, NameOk (nodeName e)) (p p' : String) :
    (dirRoot L p es).map (·.1) = (dirRoot L p' es).map (·.1) := by
  obtain ⟨files, h1, _⟩ := dir_data L "" es hn
  rw [dirRoot_eq hn (C75_files (p := p) h1), dirRoot_eq hn (C75_files (p := p') h1)]
  have hc : ∀ q : String, ((files.map fun f => (prefixOf q ++ f.1, f.2)).map fun f => (f.1, (converter L f.1 f.2, f.2))).map (fun e => e.2.1) =
      files.map fun f => converter L (prefixOf "" ++ f.1) f.2 := by
    intro q
    rw [List.map_map, List.map_map]
    refine List.map_congr_left fun f hf => ?_
    obtain ⟨n, h3, h4, _⟩ := holds_json.1 ((h1.2 f.1 f.2).1 hf)
    have hname : f.1 = n := by rw [h4, join_eq]; simp [prefixOf]
    have : NameOk f.1 := by rw [hname]; exact hok _ h3
    exact converter_prefix L this q "" f.2
  have e := (hc p).trans (hc p').symm
  rw [checkTree_congr e, treeToRoot_congr (L := L) e]
  cases checkTree ((files.map fun f => (prefixOf p' ++ f.1, f.2)).map fun f => (f.1, (converter L f.1 f.2, f.2))) with
  | err => rfl
  | panic => rfl
  | ok u =>
    simp only [Res.bind_ok]
    cases treeToRoot L ((files.map fun f => (prefixOf p' ++ f.1, f.2)).map fun f => (f.1, (converter L f.1 f.2, f.2))) <;> rfl

/-- **C75, the hash.** It is the hash of the path of the folder, the name and the data of each file, in the order of the names. -/
theorem C75_exact (L : Lib) (p : String) (es : List Node) (hn : (es.map nodeName).Nodup) (r : Root) (h : Nat) (hr : dirRoot L p es = .ok (r, h)) :
    ∃ files, Src.Files L (.dir "" es) files ∧ h = L.hash (files.flatMap fun f => strBytes (prefixOf p) ++ strBytes f.1 ++ f.2) := by
  obtain ⟨files, h1, _⟩ := dir_data L "" es hn
  refine ⟨files, h1, ?_⟩
  rw [dirRoot_eq hn (C75_files (p := p) h1)] at hr
  obtain ⟨_, _, hr⟩ := bind_inv hr
  obtain ⟨r', _, hr⟩ := map_inv hr
  cases hr
  unfold hashInput
  rw [List.flatMap_map]
  simp only [strBytes_append]

theorem flatMap_prefix_length (a : Bytes) : ∀ files : List (String × Bytes), (files.flatMap fun f => a ++ strBytes f.1 ++ f.2).length =
    files.length * a.length + (files.flatMap fun f => strBytes f.1 ++ f.2).length
  | [] => by simp
  | f :: r => by
    rw [List.flatMap_cons, List.flatMap_cons, List.length_append, List.length_append, flatMap_prefix_length a r]
    simp only [List.length_append, List.length_cons]
    rw [Nat.succ_mul]
    omega

/-- **C75 is false for the hash.** Whatever the files are, if there is at least one, then under two paths (that differ in more than a slash
at the end) different bytes are hashed. -/
theorem C75_negation (a b : String) (hab : a ≠ b) (files : List (String × Bytes)) (hf : files ≠ []) :
    (files.flatMap fun f => strBytes a ++ strBytes f.1 ++ f.2) ≠ files.flatMap fun f => strBytes b ++ strBytes f.1 ++ f.2 := by
  intro h
  have hl := congrArg List.length h
  rw [flatMap_prefix_length, flatMap_prefix_length] at hl
  have hpos : 0 < files.length := List.length_pos_iff.2 hf
  have hlen : (strBytes a).length = (strBytes b).length := by
    have : files.length * (strBytes a).length = files.length * (strBytes b).length := by omega
    exact Nat.eq_of_mul_eq_mul_left hpos this
  cases files with
  | nil => exact hf rfl
  | cons f r =>
    rw [List.flatMap_cons, List.flatMap_cons, List.append_assoc, List.append_assoc, List.append_assoc, List.append_assoc] at h
    exact hab (strBytes_inj (List.append_inj h hlen).1)

end Verif.Pipeline
