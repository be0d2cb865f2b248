import Verif.Model.DiffWrite
import Verif.Model.DiffRead
import Verif.Spec.Diff
import Verif.Lemmas.StoreIds
/-! What is written for a diff is read back, at every level. -/
namespace Verif.Diff
open VarInt Codec Compaction LinkedMap

/-- The reader turns the values `w` into `a` if `c`, and fails otherwise. -/
def Reads {α : Type} (r : Rd KVal α) (w : List KVal) (c : Bool) (a : α) : Prop :=
  ∀ rest, r (w ++ rest) = if c then .ok (a, rest) else .err

/-- The writer produces values that can be encoded and that the reader turns into `a`. -/
def Good {α : Type} (w : Res (List KVal)) (r : Rd KVal α) (c : Bool) (a : α) : Prop :=
  ∃ o, w = .ok o ∧ (∀ k ∈ o, Valid k) ∧ Reads r (o.map norm) c a

theorem reads_pure {α : Type} (a : α) : Reads (Rd.pure a) [] true a := fun _ => rfl

theorem reads_bind {α β : Type} {r : Rd KVal α} {k : α → Rd KVal β} {w w' : List KVal} {c c' : Bool} {a : α} {b : β}
    (h : Reads r w c a) (h' : Reads (k a) w' c' b) : Reads (Rd.bind r k) (w ++ w') (c && c') b := by
  intro rest
  unfold Rd.bind
  rw [List.append_assoc, h]
  cases c with
  | false => rfl
  | true =>
    simp only [if_true, Res.bind_ok, Bool.true_and]
    exact h' rest

theorem reads_bind_pure {α β : Type} {r : Rd KVal α} {w : List KVal} {c : Bool} {a : α} (h : Reads r w c a) (g : α → β) :
    Reads (Rd.bind r fun x => Rd.pure (g x)) w c (g a) := by
  have := reads_bind (k := fun x => Rd.pure (g x)) h (reads_pure (g a))
  rwa [List.append_nil, Bool.and_true] at this

theorem reads_bit {β : Type} {b : Bool} {k : Bool → Rd KVal β} {w : List KVal} {c : Bool} {x : β} (h : Reads (k b) w c x) :
    Reads (Rd.bind readBool k) (.bit b :: w) c x := by
  have : Reads readBool [.bit b] true b := fun rest => readBool_bit b rest
  exact reads_bind this h

theorem reads_u64 {β : Type} {n : Nat} (hn : n < 2 ^ 64) {k : Nat → Rd KVal β} {w : List KVal} {c : Bool} {x : β}
    (h : Reads (k n) w c x) : Reads (Rd.bind readU64 k) (compU64 n :: w) c x := by
  have : Reads readU64 [compU64 n] true n := fun rest => readU64_compU64 n hn rest
  exact reads_bind this h

theorem reads_ids {β : Type} {s : StoredIDs} (hs : s.Fits) {k : StoredIDs → Rd KVal β} {w : List KVal} {c : Bool} {x : β}
    (h : Reads (k s) w c x) : Reads (Rd.bind readStoredIds k) (writeStoredIds s ++ w) c x := by
  have : Reads readStoredIds (writeStoredIds s) true s := fun rest => read_writeStoredIds s hs rest
  exact reads_bind this h

/-! ## Single values -/

theorem reads_bool (b : Bool) : Reads readBool [.bit b] true b := fun rest => readBool_bit b rest
theorem reads_i64 (i : Int) : Reads readI64 [compInt i] true i := fun rest => readI64_compInt i rest
theorem reads_str (s : String) : Reads readStr [compStr s] true s := fun rest => readStr_compStr s rest
theorem reads_binary8 (v : List (BitVec 64)) : Reads readBinary8 [.binary8 v] true v := fun _ => rfl
theorem reads_binary (v : Bytes) : Reads readBinary [.binary v] true v := fun _ => rfl

theorem inI64_f64ToI64 (a : BitVec 64) : InI64 (f64ToI64 a) := by
  unfold f64ToI64 Fmt.toInt InI64 i64Lo i64Hi
  split
  · constructor <;> decide
  · simp only
    constructor <;> omega

theorem valid_compDouble (F : FloatOps) (d : BitVec 64) : Valid (compDouble F d) := by
  unfold compDouble
  split
  · trivial
  · simp only
    split
    · trivial
    · split
      · exact valid_compInt _ (inI64_f64ToI64 _)
      · split <;> trivial

theorem norm_compDouble (F : FloatOps) (d : BitVec 64) : norm (compDouble F d) = compDouble F d := by
  unfold compDouble
  split
  · rfl
  · simp only
    split
    · rfl
    · split
      · exact norm_compInt _
      · split <;> rfl

theorem good_param2 (F : FloatOps) (p : Param) (hq : p.qvType = .val) (hf : p.Fits) :
    Good (writeParam2 F p) (readParam2 F p.ptype) true p := by
  cases p with
  | bool q =>
    cases q with
    | val b =>
      refine ⟨_, rfl, ?_, ?_⟩
      · intro k hk; simp only [List.mem_cons, List.not_mem_nil, or_false] at hk; subst hk; trivial
      · exact reads_bind_pure (reads_bool b) fun x => Param.bool (.val x)
    | undef => cases hq
    | null => cases hq
  | int q =>
    cases q with
    | val i =>
      refine ⟨_, rfl, ?_, ?_⟩
      · intro k hk; simp only [List.mem_cons, List.not_mem_nil, or_false] at hk; subst hk; exact valid_compInt i hf
      · rw [List.map_singleton, norm_compInt]
        exact reads_bind_pure (reads_i64 i) fun x => Param.int (.val x)
    | undef => cases hq
    | null => cases hq
  | float q =>
    cases q with
    | val d =>
      refine ⟨_, rfl, ?_, ?_⟩
      · intro k hk; simp only [List.mem_cons, List.not_mem_nil, or_false] at hk; subst hk; exact valid_compDouble F d
      · rw [List.map_singleton, norm_compDouble]
        refine reads_bind_pure (a := d) (g := fun f => Param.float (.val f)) ?_
        intro rest
        simp [Rd.bind, readOne, Rd.lift, compDouble_bits]
    | undef => cases hq
    | null => cases hq
  | string q =>
    cases q with
    | val s =>
      refine ⟨_, rfl, ?_, ?_⟩
      · intro k hk; simp only [List.mem_cons, List.not_mem_nil, or_false] at hk; subst hk; exact valid_compStr s hf
      · rw [List.map_singleton, norm_compStr]
        exact reads_bind_pure (reads_str s) fun x => Param.string (.val x)
    | undef => cases hq
    | null => cases hq
  | intArray q =>
    cases q with
    | val v =>
      refine ⟨_, rfl, ?_, ?_⟩
      · intro k hk; simp only [List.mem_cons, List.not_mem_nil, or_false] at hk; subst hk; exact hf
      · exact reads_bind_pure (reads_binary8 v) fun x => Param.intArray (.val x)
    | undef => cases hq
    | null => cases hq
  | floatArray q =>
    cases q with
    | val v =>
      refine ⟨_, rfl, ?_, ?_⟩
      · intro k hk; simp only [List.mem_cons, List.not_mem_nil, or_false] at hk; subst hk; exact hf
      · exact reads_bind_pure (reads_binary8 v) fun x => Param.floatArray (.val x)
    | undef => cases hq
    | null => cases hq
  | binary q =>
    cases q with
    | val v =>
      refine ⟨_, rfl, ?_, ?_⟩
      · intro k hk; simp only [List.mem_cons, List.not_mem_nil, or_false] at hk; subst hk; exact hf
      · exact reads_bind_pure (reads_binary v) fun x => Param.binary (.val x)
    | undef => cases hq
    | null => cases hq

/-- The marker bits. -/
theorem good_qv {α : Type} (vt : VType) (q : QvType) (w : Res (List KVal)) (r : Rd KVal α) (null undef a : α)
    (ha : vt.Allows q) (hv : q = .val → Good w r true a) (hn : q = .null → a = null) (hu : q = .undef → a = undef) :
    Good (writeQv vt q w) (readQv vt r null undef) true a := by
  have hbit : ∀ (l : List KVal), (∀ k ∈ l, Valid k) → ∀ b, ∀ k ∈ KVal.bit b :: l, Valid k := by
    intro l hl b k hk
    rcases List.mem_cons.mp hk with rfl | hk
    · trivial
    · exact hl k hk
  have hnil : ∀ k ∈ ([] : List KVal), Valid k := fun k hk => nomatch hk
  cases q with
  | val =>
    obtain ⟨o, rfl, h2, h3⟩ := hv rfl
    cases vt with
    | normal => exact ⟨o, rfl, h2, h3⟩
    | nullable => exact ⟨_, rfl, hbit o h2 true, reads_bit (b := true) (k := fun b => if b then r else Rd.pure null) h3⟩
    | undefiable => exact ⟨_, rfl, hbit o h2 true, reads_bit (b := true) (k := fun b => if b then r else Rd.pure undef) h3⟩
    | undefNullable =>
      exact ⟨_, rfl, hbit o h2 true, reads_bit (b := true)
        (k := fun b => if b then r else Rd.bind readBool fun c => if c then Rd.pure null else Rd.pure undef) h3⟩
  | null =>
    rw [hn rfl]
    cases vt with
    | normal => exact ha.elim
    | nullable =>
      exact ⟨_, rfl, hbit [] hnil false, reads_bit (b := false) (k := fun b => if b then r else Rd.pure null) (reads_pure null)⟩
    | undefiable => exact ha.elim
    | undefNullable =>
      exact ⟨_, rfl, hbit _ (hbit [] hnil true) false, reads_bit (b := false)
        (k := fun b => if b then r else Rd.bind readBool fun c => if c then Rd.pure null else Rd.pure undef)
        (reads_bit (b := true) (k := fun c => if c then Rd.pure null else Rd.pure undef) (reads_pure null))⟩
  | undef =>
    rw [hu rfl]
    cases vt with
    | normal => exact ha.elim
    | nullable => exact ha.elim
    | undefiable =>
      exact ⟨_, rfl, hbit [] hnil false, reads_bit (b := false) (k := fun b => if b then r else Rd.pure undef) (reads_pure undef)⟩
    | undefNullable =>
      exact ⟨_, rfl, hbit _ (hbit [] hnil false) false, reads_bit (b := false)
        (k := fun b => if b then r else Rd.bind readBool fun c => if c then Rd.pure null else Rd.pure undef)
        (reads_bit (b := false) (k := fun c => if c then Rd.pure null else Rd.pure undef) (reads_pure undef))⟩

theorem eq_getNull (p : Param) (h : p.qvType = .null) : p = getNull p.ptype := by
  cases p with
  | bool q => cases q <;> first | rfl | cases h
  | int q => cases q <;> first | rfl | cases h
  | float q => cases q <;> first | rfl | cases h
  | string q => cases q <;> first | rfl | cases h
  | intArray q => cases q <;> first | rfl | cases h
  | floatArray q => cases q <;> first | rfl | cases h
  | binary q => cases q <;> first | rfl | cases h

theorem eq_getUndefined (p : Param) (h : p.qvType = .undef) : p = getUndefined p.ptype := by
  cases p with
  | bool q => cases q <;> first | rfl | cases h
  | int q => cases q <;> first | rfl | cases h
  | float q => cases q <;> first | rfl | cases h
  | string q => cases q <;> first | rfl | cases h
  | intArray q => cases q <;> first | rfl | cases h
  | floatArray q => cases q <;> first | rfl | cases h
  | binary q => cases q <;> first | rfl | cases h

theorem good_param (F : FloatOps) (pt : PType) (vt : VType) (p : Param) (h : ParamOk pt vt p) :
    Good (writeParam F vt p) (readParam F pt vt) true p := by
  obtain ⟨rfl, h2, h3⟩ := h
  exact good_qv vt _ _ _ _ _ _ h2 (fun hq => good_param2 F p hq h3) (eq_getNull p) (eq_getUndefined p)

theorem good_ref (vt : VType) (q : Qv String) (h : RefOk vt q) : Good (writeQv vt q.type (writeVal q)) (readARef vt) true q := by
  refine good_qv vt _ _ _ _ _ _ h.1 ?_ ?_ ?_
  · intro hq
    cases q with
    | val s =>
      refine ⟨_, rfl, ?_, ?_⟩
      · intro k hk; simp only [List.mem_cons, List.not_mem_nil, or_false] at hk; subst hk; exact valid_compStr s h.2
      · rw [List.map_singleton, norm_compStr]
        exact reads_bind_pure (reads_str s) _
    | undef => cases hq
    | null => cases hq
  · intro hq; cases q <;> first | rfl | cases hq
  · intro hq; cases q <;> first | rfl | cases hq

/-! ## Loops -/

theorem good_each {α : Type} (w : Nat × α → Res (List KVal)) (f : Nat → Rd KVal (Option α)) (c : Nat × α → Bool)
    (xs : List (Nat × α)) (h : ∀ x ∈ xs, Good (w x) (f x.1) (c x) (some x.2)) :
    Good (writeEach w xs) (readNumbers f (xs.map (·.1))) (xs.all c) xs := by
  induction xs with
  | nil => exact ⟨[], rfl, (fun k hk => nomatch hk), reads_pure []⟩
  | cons x xs ih =>
    obtain ⟨o, h1, h2, h3⟩ := h x (by simp)
    obtain ⟨o', h1', h2', h3'⟩ := ih fun y hy => h y (by simp [hy])
    refine ⟨o ++ o', by simp [writeEach, h1, h1'], ?_, ?_⟩
    · intro k hk
      rcases List.mem_append.mp hk with hk | hk
      · exact h2 k hk
      · exact h2' k hk
    · rw [List.map_append, List.map_cons, List.all_cons]
      exact reads_bind h3 (reads_bind_pure h3' fun rest => [(x.1, x.2)] ++ rest)

theorem readNumbers_filter {α : Type} (f : Nat → Rd KVal (Option α)) (sel : Nat → Bool) (ids : List Nat)
    (h : ∀ i ∈ ids, sel i = false → f i = Rd.pure none) : readNumbers f ids = readNumbers f (ids.filter sel) := by
  induction ids with
  | nil => rfl
  | cons i ids ih =>
    have ih := ih fun j hj => h j (by simp [hj])
    rw [List.filter_cons]
    cases hs : sel i with
    | true => simp only [if_true, readNumbers, ih]
    | false =>
      rw [readNumbers, h i (by simp) hs, ih]
      funext inp
      simp only [Rd.bind, Rd.pure, Res.bind_ok, Option.toList_none, List.map_nil, List.nil_append, Bool.false_eq_true, if_false]
      generalize readNumbers f _ inp = r
      cases r <;> rfl

theorem sorted_ext {a b : List Nat} (ha : a.Pairwise (· < ·)) (hb : b.Pairwise (· < ·)) (h : ∀ i, i ∈ a ↔ i ∈ b) : a = b := by
  induction a generalizing b with
  | nil =>
    cases b with
    | nil => rfl
    | cons y b => exact absurd ((h y).mpr (by simp)) (by simp)
  | cons x a ih =>
    cases b with
    | nil => exact absurd ((h x).mp (by simp)) (by simp)
    | cons y b =>
      rw [List.pairwise_cons] at ha hb
      have hxy : x = y := by
        have h1 := (h x).mp (by simp)
        have h2 := (h y).mpr (by simp)
        rcases List.mem_cons.mp h1 with h1 | h1
        · exact h1
        · rcases List.mem_cons.mp h2 with h2 | h2
          · exact h2.symm
          · have := hb.1 x h1; have := ha.1 y h2; omega
      subst hxy
      rw [ih ha.2 hb.2]
      intro i
      constructor
      · intro hi
        rcases List.mem_cons.mp ((h i).mp (by simp [hi])) with e | e
        · have := ha.1 i hi; omega
        · exact e
      · intro hi
        rcases List.mem_cons.mp ((h i).mpr (by simp [hi])) with e | e
        · have := hb.1 i hi; omega
        · exact e

/-- The ids that are parameters, in the order of reading. -/
theorem filter_ids_params (P L : List Nat) (hP : Keys P) (hL : Keys L) (hd : ∀ i ∈ P, i ∉ L) (hlen : P.length + L.length < 2 ^ 64)
    (sel : Nat → Bool) (hsp : ∀ i ∈ P, sel i = true) (hsl : ∀ i ∈ L, sel i = false) :
    (storeIds P L).ids.filter sel = P := by
  obtain ⟨_, h2, _, _, h5⟩ := storeIds_spec P L hP hL hd hlen
  rcases h5 with h5 | h5
  · refine sorted_ext (h5.filter _) hP.1 ?_
    intro i
    rw [List.mem_filter, h2]
    constructor
    · rintro ⟨h | h, hs⟩
      · exact h
      · rw [hsl i h] at hs; cases hs
    · exact fun h => ⟨Or.inl h, hsp i h⟩
  · rw [h5]
    simp only [StoredIDs.ids, List.filter_append]
    rw [List.filter_eq_self.mpr hsp, List.filter_eq_nil_iff.mpr (fun i hi => by rw [hsl i hi]; simp), List.append_nil]

/-- The ids that are lists, in the order of reading. -/
theorem filter_ids_lists (P L : List Nat) (hP : Keys P) (hL : Keys L) (hd : ∀ i ∈ P, i ∉ L) (hlen : P.length + L.length < 2 ^ 64)
    (sel : Nat → Bool) (hsp : ∀ i ∈ P, sel i = false) (hsl : ∀ i ∈ L, sel i = true) :
    (storeIds P L).ids.filter sel = L := by
  obtain ⟨_, h2, _, _, h5⟩ := storeIds_spec P L hP hL hd hlen
  rcases h5 with h5 | h5
  · refine sorted_ext (h5.filter _) hL.1 ?_
    intro i
    rw [List.mem_filter, h2]
    constructor
    · rintro ⟨h | h, hs⟩
      · rw [hsp i h] at hs; cases hs
      · exact h
    · exact fun h => ⟨Or.inr h, hsl i h⟩
  · rw [h5]
    simp only [StoredIDs.ids, List.filter_append]
    rw [List.filter_eq_self.mpr hsl, List.filter_eq_nil_iff.mpr (fun i hi => by rw [hsp i hi]; simp), List.nil_append]

end Verif.Diff
