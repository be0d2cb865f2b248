import Verif.Lemmas.Export
import Verif.Props.SourceLists
/-!
# Sorted maps, and reading the written root
-/
namespace Verif.Export
open Diff Core Source
open Number (DecInt Lit signed denotes exponent IsDigit)

/-! ## Sorted maps -/

section
variable {α : Type}

theorem bInsert_perm (k : String) (v : α) : ∀ m : List (String × α), k ∉ m.map (·.1) → (bInsert k v m).Perm ((k, v) :: m)
  | [], _ => .refl _
  | (l, w) :: r, h => by
    simp only [List.map_cons, List.mem_cons, not_or] at h
    unfold bInsert
    split
    · exact .refl _
    · rw [if_neg h.1]
      exact ((bInsert_perm k v r h.2).cons _).trans (.swap _ _ _)

theorem foldl_perm : ∀ (l m : List (String × α)), (m.map (·.1) ++ l.map (·.1)).Nodup →
    (l.foldl (fun m e => bInsert e.1 e.2 m) m).Perm (m ++ l)
  | [], m, _ => by simp
  | (k, v) :: r, m, h => by
    rw [List.foldl_cons]
    have h' := h
    rw [List.map_cons, List.nodup_append] at h'
    have hk : k ∉ m.map (·.1) := fun hm => h'.2.2 k hm k (by simp) rfl
    have hp := bInsert_perm k v m hk
    refine (foldl_perm r (bInsert k v m) ?_).trans ?_
    · have : ((bInsert k v m).map (·.1) ++ r.map (·.1)).Perm (m.map (·.1) ++ (k :: r.map (·.1))) := by
        refine ((hp.map _).append_right _).trans ?_
        simp only [List.map_cons, List.cons_append]
        exact List.perm_middle.symm
      exact this.nodup_iff.2 (by simpa using h)
    · exact (hp.append_right r).trans (by simpa using List.perm_middle.symm)

theorem btree_perm (l : List (String × α)) (h : (l.map (·.1)).Nodup) : (btree l).Perm l := by
  have := foldl_perm l [] (by simpa using h)
  simpa [btree] using this

theorem bInsert_mem (k : String) (v : α) : ∀ m : List (String × α), (k, v) ∈ bInsert k v m
  | [] => by simp [bInsert]
  | (l, w) :: r => by
    unfold bInsert
    split
    · simp
    · split
      · simp
      · simp [bInsert_mem k v r]

theorem bInsert_mem_ne {k l : String} (v : α) {w : α} (h : l ≠ k) : ∀ m : List (String × α), (l, w) ∈ m → (l, w) ∈ bInsert k v m
  | (l', w') :: r, hm => by
    unfold bInsert
    split
    · exact List.mem_cons_of_mem _ hm
    · rcases List.mem_cons.1 hm with he | hm
      · cases he
        rw [if_neg (Ne.symm h)]
        exact List.mem_cons_self
      · split
        · exact List.mem_cons_of_mem _ hm
        · exact List.mem_cons_of_mem _ (bInsert_mem_ne v h r hm)

theorem mem_bInsert {k l : String} {v w : α} : ∀ {m : List (String × α)}, (l, w) ∈ bInsert k v m → (l = k ∧ w = v) ∨ (l, w) ∈ m
  | [], h => by
    simp only [bInsert, List.mem_singleton, Prod.mk.injEq] at h
    exact .inl h
  | (l', w') :: r, h => by
    unfold bInsert at h
    split at h
    · rcases List.mem_cons.1 h with h | h
      · cases h
        exact .inl ⟨rfl, rfl⟩
      · exact .inr h
    · split at h
      · rcases List.mem_cons.1 h with h | h
        · cases h
          exact .inl ⟨rfl, rfl⟩
        · exact .inr (List.mem_cons_of_mem _ h)
      · rcases List.mem_cons.1 h with h | h
        · exact .inr (h ▸ List.mem_cons_self)
        · rcases mem_bInsert h with h | h
          · exact .inl h
          · exact .inr (List.mem_cons_of_mem _ h)

theorem keys_bInsert (k : String) (v : α) : ∀ (m : List (String × α)) (l : String), l ∈ (bInsert k v m).map (·.1) ↔ l = k ∨ l ∈ m.map (·.1)
  | [], l => by simp [bInsert]
  | (k', w) :: r, l => by
    unfold bInsert
    split
    · simp
    · split
      · rename_i h
        subst h
        simp
      · simp only [List.map_cons, List.mem_cons, keys_bInsert k v r l]
        tauto

theorem keys_foldl : ∀ (l m : List (String × α)) (k : String),
    k ∈ (l.foldl (fun m e => bInsert e.1 e.2 m) m).map (·.1) ↔ k ∈ m.map (·.1) ∨ k ∈ l.map (·.1)
  | [], m, k => by simp
  | (k', v) :: r, m, k => by
    rw [List.foldl_cons, keys_foldl r, keys_bInsert]
    simp only [List.map_cons, List.mem_cons]
    tauto

theorem keys_btree (l : List (String × α)) (k : String) : k ∈ (btree l).map (·.1) ↔ k ∈ l.map (·.1) := by
  unfold btree
  rw [keys_foldl]
  simp

theorem bInsert_sorted (k : String) (v : α) : ∀ m : List (String × α), (m.map (·.1)).Pairwise (· < ·) →
    ((bInsert k v m).map (·.1)).Pairwise (· < ·)
  | [], _ => by simp [bInsert]
  | (l, w) :: r, h => by
    have h' := h
    rw [List.map_cons, List.pairwise_cons] at h'
    unfold bInsert
    split
    · rename_i hk
      rw [List.map_cons, List.pairwise_cons]
      refine ⟨fun x hx => ?_, h⟩
      rw [List.map_cons, List.mem_cons] at hx
      rcases hx with rfl | hx
      · exact hk
      · exact String.lt_trans hk (h'.1 x hx)
    · split
      · rename_i e
        subst e
        exact h
      · rename_i h1 h2
        rw [List.map_cons, List.pairwise_cons]
        refine ⟨fun x hx => ?_, bInsert_sorted k v r h'.2⟩
        rcases (keys_bInsert k v r x).1 hx with rfl | hx
        · by_contra h3
          exact h2 (String.le_antisymm (String.not_lt.1 h3) (String.not_lt.1 h1))
        · exact h'.1 x hx

theorem btree_sorted (l : List (String × α)) : ((btree l).map (·.1)).Pairwise (· < ·) := by
  unfold btree
  suffices h : ∀ (l m : List (String × α)), (m.map (·.1)).Pairwise (· < ·) →
      ((l.foldl (fun m e => bInsert e.1 e.2 m) m).map (·.1)).Pairwise (· < ·) from h l [] (by simp)
  intro l
  induction l with
  | nil => exact fun m h => h
  | cons e r ih => exact fun m h => ih _ (bInsert_sorted _ _ m h)

theorem sorted_nodup {l : List String} (h : l.Pairwise (· < ·)) : l.Nodup :=
  h.imp fun h e => by subst e; exact absurd h (String.lt_irrefl _)

theorem mem_bset (l : List String) (n : String) : n ∈ bset l ↔ n ∈ l := by
  unfold bset
  rw [keys_btree, List.map_map]
  simp

theorem bset_nodup (l : List String) : (bset l).Nodup := sorted_nodup (btree_sorted _)

end

theorem valueMap_perm (l : List (String × String × JV)) (h : (l.map (·.1)).Nodup) (h' : (l.map (·.2.1)).Nodup) :
    (valueMap l).Perm (l.map (·.2)) := by
  have hp := btree_perm l h
  have hq : ((btree l).map (·.2)).Perm (l.map (·.2)) := hp.map _
  refine (btree_perm _ ?_).trans hq
  rw [(hq.map _).nodup_iff, List.map_map]
  exact h'

/-! ## Values -/

section
variable {disp : BitVec 64 → List Char} {pf : List Char → Option UInt64}

theorem int_means (hp : Printer disp pf) {n : Int} (h : n.natAbs ≤ 2 ^ 53) : Means disp pf (intJV n) (.int n) := by
  obtain ⟨s, i, h1, h2, h3, h4⟩ := hp.exact n h
  have := Means.int (pf := pf) h1 h3 (by rw [h4]; omega) (by rw [h4]; omega)
  rwa [h4] at this

theorem clean_tag {s : String} (h : s ∈ ["Bool", "Str", "Float", "Int", "IntArray", "FloatArray", "Binary", "Old"]) : CleanStr s := by
  simp only [List.mem_cons, List.not_mem_nil, or_false] at h
  rcases h with rfl | rfl | rfl | rfl | rfl | rfl | rfl | rfl <;> (unfold CleanStr Json5.LineTerm; decide)

theorem ints_means (hp : Printer disp pf) : ∀ {l : List Int}, (∀ n ∈ l, n.natAbs ≤ 2 ^ 53) → MeansL disp pf (l.map intJV) (l.map .int)
  | [], _ => .nil
  | n :: l, h => .cons (int_means hp (h n (by simp))) (ints_means hp fun m hm => h m (by simp [hm]))

theorem float_means (hp : Printer disp pf) {f : BitVec 64} (h : CleanNum f) :
    ∃ j, Means disp pf (floatJV f) (.array [.string "Float", j]) ∧ FloatElem (.array [.string "Float", j]) f ∧
      Source.Means (.array [.string "Float", j]) (.float (.val f)) := by
  obtain ⟨j, h1, h2⟩ := number_means hp h
  refine ⟨j, .array (.cons (.string (clean_tag (by simp))) (.cons h1 .nil)), ?_⟩
  cases h2 with
  | double => exact ⟨.taggedDouble f, .floatDouble f⟩
  | int h => exact h ▸ ⟨.taggedInt _, .floatInt _⟩

theorem floats_means (hp : Printer disp pf) : ∀ {l : List (BitVec 64)}, (∀ f ∈ l, CleanNum f) →
    ∃ a, MeansL disp pf (l.map floatJV) a ∧ List.Forall₂ FloatElem a l
  | [], _ => ⟨_, .nil, .nil⟩
  | f :: l, h => by
    obtain ⟨j, h1, h2, _⟩ := float_means hp (h f (by simp))
    obtain ⟨a, h3, h4⟩ := floats_means hp (l := l) fun m hm => h m (by simp [hm])
    exact ⟨_, .cons h1 h3, .cons h2 h4⟩

theorem null_means {s : String} (h : s ∈ ["Bool", "Str", "Float", "Int", "IntArray", "FloatArray", "Binary", "Old"]) :
    Means disp pf (.array [.string s, .null]) (.array [.string s, .null]) :=
  .array (.cons (.string (clean_tag h)) (.cons .null .nil))
theorem undef_means {s : String} (h : s ∈ ["Bool", "Str", "Float", "Int", "IntArray", "FloatArray", "Binary", "Old"]) :
    Means disp pf (.array [.string s, .undef]) (.array [.string s, .undef]) :=
  .array (.cons (.string (clean_tag h)) (.cons .undef .nil))

theorem ofInt_toInt (b : BitVec 64) : BitVec.ofInt 64 b.toInt = b := by simp

/-- A value that fits is written as a text that means it. -/
theorem param_means (hp : Printer disp pf) {p : Param} (h : Fits p) : ∃ j, Means disp pf (getParam p) j ∧ Source.Means j p := by
  match p, h with
  | .bool (.val b), _ => exact ⟨_, .bool, .bool b⟩
  | .bool .null, _ => exact ⟨_, null_means (by simp), .boolNull⟩
  | .bool .undef, _ => exact ⟨_, undef_means (by simp), .boolUndef⟩
  | .string (.val s), h => exact ⟨_, .string h, .string s⟩
  | .string .null, _ => exact ⟨_, null_means (by simp), .strNull⟩
  | .string .undef, _ => exact ⟨_, undef_means (by simp), .strUndef⟩
  | .float (.val f), h =>
    obtain ⟨j, h1, _, h2⟩ := float_means hp h
    exact ⟨_, h1, h2⟩
  | .float .null, _ => exact ⟨_, null_means (by simp), .floatNull⟩
  | .float .undef, _ => exact ⟨_, undef_means (by simp), .floatUndef⟩
  | .int (.val i), h => exact ⟨_, int_means hp h, .int i⟩
  | .int .null, _ => exact ⟨_, null_means (by simp), .intNull⟩
  | .int .undef, _ => exact ⟨_, undef_means (by simp), .intUndef⟩
  | .intArray (.val []), _ => exact ⟨_, .array (.cons (.string (clean_tag (by simp))) .nil), .intArray []⟩
  | .intArray (.val (b :: l)), h =>
    have h1 := ints_means hp (l := (b :: l).map BitVec.toInt) (by simpa [Fits] using h)
    have h2 := Source.Means.ints (a := (b :: l).map BitVec.toInt) (by simp)
    have e : ((b :: l).map BitVec.toInt).map (BitVec.ofInt 64) = b :: l := by
      rw [List.map_map, show (BitVec.ofInt 64 ∘ BitVec.toInt) = (id : BitVec 64 → BitVec 64) from funext ofInt_toInt, List.map_id]
    rw [e] at h2
    refine ⟨_, .array ?_, h2⟩
    rw [List.map_map] at h1
    exact h1
  | .intArray .null, _ => exact ⟨_, null_means (by simp), .intArrayNull⟩
  | .intArray .undef, _ => exact ⟨_, undef_means (by simp), .intArrayUndef⟩
  | .floatArray (.val l), h =>
    obtain ⟨a, h1, h2⟩ := floats_means hp h
    exact ⟨_, .array (.cons (.string (clean_tag (by simp))) h1), .floatArray h2⟩
  | .floatArray .null, _ => exact ⟨_, null_means (by simp), .floatArrayNull⟩
  | .floatArray .undef, _ => exact ⟨_, undef_means (by simp), .floatArrayUndef⟩
  | .binary (.val l), _ =>
    have h1 := ints_means hp (l := l.map fun b => (b.toNat : Int)) (by
      intro n hn
      obtain ⟨b, -, rfl⟩ := List.mem_map.1 hn
      have := b.toNat_lt
      omega)
    rw [List.map_map, List.map_map] at h1
    exact ⟨_, .array (.cons (.string (clean_tag (by simp))) h1), .binary l⟩
  | .binary .null, _ => exact ⟨_, null_means (by simp), .binaryNull⟩
  | .binary .undef, _ => exact ⟨_, undef_means (by simp), .binaryUndef⟩

end

/-! ## Names -/

theorem nameOf_withSuffix {k : String} {vt : VType} (h : Names.Ident k.toList) : nameOf (withSuffix k vt) = some (.name k.toList vt) := by
  unfold nameOf withSuffix
  rw [String.toList_ofList]
  exact Names.C23_written _ _ h

theorem withSuffix_inj {k k' : String} {vt vt' : VType} (h : Names.Ident k.toList) (h' : Names.Ident k'.toList)
    (e : withSuffix k vt = withSuffix k' vt') : k = k' := by
  have h1 := nameOf_withSuffix (vt := vt) h
  rw [e, nameOf_withSuffix h'] at h1
  simp only [Option.some.injEq, Names.NameType.name.injEq] at h1
  exact String.ext h1.1.symm

theorem ident_clean {s : List Char} (h : Names.Ident s) : ∀ c ∈ s, c ≠ '"' ∧ c ≠ '\\' ∧ ¬ Json5.LineTerm c := by
  obtain ⟨a, r, rfl, ha, hr⟩ := h
  have key : ∀ c : Char, (Names.Lower c ∨ Names.Upper c ∨ Names.Digit c ∨ c = '_' ∨ c = '@') → c ≠ '"' ∧ c ≠ '\\' ∧ ¬ Json5.LineTerm c := by
    intro c hc
    unfold Names.Lower Names.Upper Names.Digit at hc
    unfold Json5.LineTerm
    rcases hc with hc | hc | hc | rfl | rfl
    · refine ⟨?_, ?_, by omega⟩ <;> (rintro rfl; revert hc; decide)
    · refine ⟨?_, ?_, by omega⟩ <;> (rintro rfl; revert hc; decide)
    · refine ⟨?_, ?_, by omega⟩ <;> (rintro rfl; revert hc; decide)
    · decide
    · decide
  intro c hc
  rcases List.mem_cons.1 hc with rfl | hc
  · exact key _ (by tauto)
  · have := hr c hc
    exact key _ (by tauto)

theorem ident_cleanStr {k : String} (h : Names.Ident k.toList) : CleanStr k := ident_clean h

theorem withSuffix_clean {k : String} {vt : VType} (h : Names.Ident k.toList) : CleanStr (withSuffix k vt) := by
  unfold CleanStr withSuffix
  rw [String.toList_ofList]
  intro c hc
  rcases List.mem_append.1 hc with hc | hc
  · exact ident_clean h c hc
  · revert hc
    unfold Json5.LineTerm
    cases vt <;> simp only [Names.toSuffix, List.mem_cons, List.not_mem_nil, or_false, false_imp_iff, forall_eq_or_imp, forall_eq]
    · rintro rfl; decide
    · rintro rfl; decide
    · rintro (rfl | rfl) <;> decide

theorem getOld_names : ∀ (l acc : List String), (acc ++ l).Nodup → (∀ n ∈ l, Names.Ident n.toList) → getOld acc (l.map .string) = .ok (acc ++ l)
  | [], acc, _, _ => by simp [getOld]
  | n :: l, acc, h, hi => by
    have h1 : nameOf n = some (.name n.toList .normal) := by
      have := nameOf_withSuffix (vt := .normal) (hi n (by simp))
      simpa [withSuffix, Names.nameWithSuffix, Names.toSuffix] using this
    have hn : n ∉ acc := fun hm => (List.nodup_append.1 h).2.2 n hm n (by simp) rfl
    simp only [List.map_cons, getOld, h1]
    unfold insertName
    rw [String.ofList_toList, if_neg hn, getOld_names l (acc ++ [n]) (by simpa using h) fun m hm => hi m (by simp [hm])]
    simp

/-! ## The members of a map -/

section
variable {disp : BitVec 64 → List Char} {pf : List Char → Option UInt64}

theorem meansM_of {P : String → JV → JVal → Prop} : ∀ {m : List (String × JV)},
    (∀ e ∈ m, CleanStr e.1 ∧ ∃ j, Means disp pf e.2 j ∧ P e.1 e.2 j) →
    ∃ l, MeansM disp pf m l ∧ List.Forall₂ (fun e f => f.1 = e.1 ∧ P e.1 e.2 f.2) m l
  | [], _ => ⟨_, .nil, .nil⟩
  | (k, v) :: m, h => by
    obtain ⟨h1, j, h2, h3⟩ := h (k, v) (by simp)
    obtain ⟨l, h4, h5⟩ := meansM_of (m := m) fun e he => h e (by simp [he])
    exact ⟨_, .cons h1 h2 h4, .cons ⟨rfl, h3⟩ h5⟩

theorem forall2_mem {α β : Type} {R : α → β → Prop} {a : List α} {b : List β} (h : List.Forall₂ R a b) :
    (∀ y ∈ b, ∃ x ∈ a, R x y) ∧ ∀ x ∈ a, ∃ y ∈ b, R x y := by
  induction h with
  | nil => simp
  | cons h _ ih =>
    constructor
    · intro y hy
      rcases List.mem_cons.1 hy with rfl | hy
      · exact ⟨_, by simp, h⟩
      · obtain ⟨x, hx, hr⟩ := ih.1 y hy
        exact ⟨x, by simp [hx], hr⟩
    · intro x hx
      rcases List.mem_cons.1 hx with rfl | hx
      · exact ⟨_, by simp, h⟩
      · obtain ⟨y, hy, hr⟩ := ih.2 x hx
        exact ⟨y, by simp [hy], hr⟩

theorem strings_means : ∀ {l : List String}, (∀ n ∈ l, CleanStr n) → MeansL disp pf (l.map .string) (l.map .string)
  | [], _ => .nil
  | n :: l, h => .cons (.string (h n (by simp))) (strings_means fun m hm => h m (by simp [hm]))

end

theorem mapDecls_mem {m : List (String × JVal)} {ds : List Decl} (h : MapDecls m ds) :
    (∀ d ∈ ds, ∃ k, (k, d.val) ∈ m ∧ Written k d.name d.vt) ∧
    ∀ k v n vt, (k, v) ∈ m → Written k n vt → ⟨n, vt, v⟩ ∈ ds := by
  induction h with
  | nil => simp
  | @member k n vt v m ds h _ ih =>
    constructor
    · intro d hd
      rcases List.mem_cons.1 hd with rfl | hd
      · exact ⟨k, by simp, h⟩
      · obtain ⟨k', h1, h2⟩ := ih.1 d hd
        exact ⟨k', by simp [h1], h2⟩
    · intro k' v' n' vt' hm hw
      rcases List.mem_cons.1 hm with hm | hm
      · cases hm
        obtain ⟨rfl, rfl⟩ := written_unique h hw
        simp
      · exact List.mem_cons_of_mem _ (ih.2 k' v' n' vt' hm hw)
  | @special k v m ds h _ ih =>
    constructor
    · intro d hd
      obtain ⟨k', h1, h2⟩ := ih.1 d hd
      exact ⟨k', by simp [h1], h2⟩
    · intro k' v' n' vt' hm hw
      rcases List.mem_cons.1 hm with hm | hm
      · cases hm
        exact absurd h (written_not_special hw)
      · exact ih.2 k' v' n' vt' hm hw

theorem current_mem {r : Root} {k : String} {x : Param × VType} (h : current r k = some x) : k ∈ r.defs.map (·.1) := by
  unfold current at h
  by_contra hn
  rw [AMap.get_eq_none.2 hn] at h
  cases h

theorem rootHash_ok : ∀ (l : List (String × Nat × RustVal)) (d : AMap (Nat × RootValI)) (s : AMap RootSab),
    (∀ e ∈ l, ∃ y, intoRootVal e.2.2 = .ok y) → ∃ x, rootHash l d s = .ok x
  | [], d, s, _ => ⟨_, rfl⟩
  | (k, id, v) :: l, d, s, h => by
    obtain ⟨y, hy⟩ := h (k, id, v) (by simp)
    simp only at hy
    simp only [rootHash, hy, Res.bind_ok]
    exact rootHash_ok l _ _ fun e he => h e (by simp [he])

end Verif.Export
