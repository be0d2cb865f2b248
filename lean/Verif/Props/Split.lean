import Verif.Props.Grammar
import Verif.Props.ValidExact
import Verif.Spec.Split
import Verif.Model.Pipeline
/-!
# C93: a source that is split into several files
-/
namespace Verif.Source
open Diff Core

/-! ## Declarations -/

theorem Split.decls {m m' fs : List (String × JVal)} (h : Split m m' fs) {l : List Decl} (hl : MapDecls m l) :
    ∃ l' lf, MapDecls m' l' ∧ FileDecls fs lf ∧ l.Perm (l' ++ lf) := by
  induction h generalizing l with
  | nil => cases hl; exact ⟨[], [], .nil, .nil, .refl _⟩
  | keep k v _ ih =>
    cases hl with
    | member hw hl =>
      obtain ⟨l', lf, h1, h2, h3⟩ := ih hl
      exact ⟨_ :: l', lf, .member hw h1, h2, h3.cons _⟩
    | special hs hl =>
      obtain ⟨l', lf, h1, h2, h3⟩ := ih hl
      exact ⟨l', lf, .special hs h1, h2, h3⟩
  | move v hk hs _ ih =>
    cases hl with
    | member hw hl =>
      obtain ⟨l', lf, h1, h2, h3⟩ := ih hl
      exact ⟨l', _ :: lf, h1, .member hk hw h2, (h3.cons _).trans List.perm_middle.symm⟩
    | special hs' hl => exact absurd hs' hs

theorem Split.join {m m' fs : List (String × JVal)} (h : Split m m' fs) {l' lf : List Decl} (hl : MapDecls m' l') (hf : FileDecls fs lf) :
    ∃ l, MapDecls m l ∧ l.Perm (l' ++ lf) := by
  induction h generalizing l' lf with
  | nil => cases hl; cases hf; exact ⟨[], .nil, .refl _⟩
  | keep k v _ ih =>
    cases hl with
    | member hw hl =>
      obtain ⟨l, h1, h2⟩ := ih hl hf
      exact ⟨_ :: l, .member hw h1, h2.cons _⟩
    | special hs hl =>
      obtain ⟨l, h1, h2⟩ := ih hl hf
      exact ⟨l, .special hs h1, h2⟩
  | move v hk hs _ ih =>
    cases hf with
    | root hf => exact absurd rfl hk
    | member _ hw hf =>
      obtain ⟨l, h1, h2⟩ := ih hl hf
      exact ⟨_ :: l, .member hw h1, (h2.cons _).trans List.perm_middle.symm⟩

theorem Split.under {m m' fs : List (String × JVal)} (h : Split m m' fs) {k : String} (hk : Names.Special k.toList) :
    under k m = under k m' := by
  unfold Source.under
  induction h with
  | nil => rfl
  | keep k' v _ ih =>
    by_cases hc : k' = k
    · rw [List.filter_cons_of_pos (by simp [hc]), List.filter_cons_of_pos (by simp [hc]), List.map_cons, List.map_cons, ih]
    · rw [List.filter_cons_of_neg (by simp [hc]), List.filter_cons_of_neg (by simp [hc]), ih]
  | @move _ _ _ k' v _ hs _ ih =>
    rw [List.filter_cons_of_neg, ih]
    simp only [decide_eq_true_eq]
    rintro rfl
    exact hs hk

theorem Split.refs {m m' fs : List (String × JVal)} (h : Split m m' fs) : refEntries m = refEntries m' := by
  unfold refEntries
  induction h with
  | nil => rfl
  | keep k' v _ ih =>
    by_cases hc : k' = "Ref" ∨ k' = "Enum"
    · rw [List.filter_cons_of_pos (by simpa using hc), List.filter_cons_of_pos (by simpa using hc), List.map_cons, List.map_cons, ih]
    · rw [List.filter_cons_of_neg (by simpa using hc), List.filter_cons_of_neg (by simpa using hc), ih]
  | @move _ _ _ k' v _ hs _ ih =>
    rw [List.filter_cons_of_neg, ih]
    simp only [decide_eq_true_eq]
    rintro (rfl | rfl)
    · exact hs (.inr (.inr (.inl rfl)))
    · exact hs (.inr (.inr (.inr rfl)))

theorem Split.noRoot {m m' fs : List (String × JVal)} (h : Split m m' fs) : ∀ e ∈ fs, e.1 ≠ "root" := by
  induction h with
  | nil => intro e he; cases he
  | keep _ _ _ ih => exact ih
  | move v hk _ _ ih =>
    intro e he
    rcases List.mem_cons.1 he with rfl | he
    · exact hk
    · exact ih e he

theorem Split.old {m m' fs : List (String × JVal)} (h : Split m m' fs) (old : List String) : OldIs m old ↔ OldIs m' old := by
  unfold OldIs
  rw [h.under (.inl rfl)]

theorem Split.noId {m m' fs : List (String × JVal)} (h : Split m m' fs) : NoId m ↔ NoId m' := by
  unfold NoId
  rw [h.under (.inr (.inl rfl))]

theorem fileDecls_perm {a b : List (String × JVal)} (h : a.Perm b) {l : List Decl} (hl : FileDecls a l) :
    ∃ l', FileDecls b l' ∧ l.Perm l' := by
  induction h generalizing l with
  | nil => exact ⟨l, hl, .refl _⟩
  | cons e _ ih =>
    cases hl with
    | root hl => obtain ⟨l', h1, h2⟩ := ih hl; exact ⟨l', .root h1, h2⟩
    | member hk hw hl => obtain ⟨l', h1, h2⟩ := ih hl; exact ⟨_ :: l', .member hk hw h1, h2.cons _⟩
  | swap x y r =>
    cases hl with
    | root hl =>
      cases hl with
      | root hl => exact ⟨l, .root (.root hl), .refl _⟩
      | member hk hw hl => exact ⟨_, .member hk hw (.root hl), .refl _⟩
    | member hk hw hl =>
      cases hl with
      | root hl => exact ⟨_, .root (.member hk hw hl), .refl _⟩
      | member hk' hw' hl => exact ⟨_, .member hk' hw' (.member hk hw hl), .swap _ _ _⟩
  | trans _ _ ih1 ih2 =>
    obtain ⟨l', h1, h2⟩ := ih1 hl
    obtain ⟨l'', h3, h4⟩ := ih2 h1
    exact ⟨l'', h3, h2.trans h4⟩

theorem fileDecls_mem {fs : List (String × JVal)} {lf : List Decl} (h : FileDecls fs lf) :
    (∀ e ∈ fs, e.1 ≠ "root" → ∃ n vt, Written e.1 n vt ∧ ⟨n, vt, e.2⟩ ∈ lf) ∧
    ∀ d ∈ lf, ∃ e ∈ fs, e.1 ≠ "root" ∧ Written e.1 d.name d.vt ∧ e.2 = d.val := by
  induction h with
  | nil => exact ⟨fun e he => (nomatch he), fun d hd => (nomatch hd)⟩
  | root _ ih =>
    refine ⟨?_, ?_⟩
    · intro e he hk
      rcases List.mem_cons.1 he with rfl | he
      · exact absurd rfl hk
      · exact ih.1 e he hk
    · intro d hd
      obtain ⟨e, h1, h2⟩ := ih.2 d hd
      exact ⟨e, List.mem_cons_of_mem _ h1, h2⟩
  | @member s n vt v r l hk hw _ ih =>
    refine ⟨?_, ?_⟩
    · intro e he hk
      rcases List.mem_cons.1 he with rfl | he
      · exact ⟨n, vt, hw, List.mem_cons_self⟩
      · obtain ⟨n', vt', h1, h2⟩ := ih.1 e he hk
        exact ⟨n', vt', h1, List.mem_cons_of_mem _ h2⟩
    · intro d hd
      rcases List.mem_cons.1 hd with rfl | hd
      · exact ⟨(s, v), List.mem_cons_self, hk, hw, rfl⟩
      · obtain ⟨e, h1, h2⟩ := ih.2 d hd
        exact ⟨e, List.mem_cons_of_mem _ h1, h2⟩

theorem fileDecls_of {fs : List (String × JVal)} (h : ∀ e ∈ fs, e.1 ≠ "root" ∧ ∃ n vt, Written e.1 n vt) : ∃ lf, FileDecls fs lf := by
  induction fs with
  | nil => exact ⟨[], .nil⟩
  | cons e r ih =>
    obtain ⟨lf, hf⟩ := ih fun e' he' => h e' (List.mem_cons_of_mem _ he')
    obtain ⟨h1, n, vt, h2⟩ := h e List.mem_cons_self
    exact ⟨_, .member h1 h2 hf⟩

theorem sortedFrom_mem {l l' : List Decl} (h : SortedFrom l l') (d : Decl) : d ∈ l' ↔ d ∈ l := by
  have hf := h.2 d.name
  have key : ∀ x : List Decl, d ∈ x ↔ d ∈ x.filter (fun e => e.name = d.name) := fun x => by simp
  rw [key l', key l, hf]

theorem sortedFrom_names {l l' : List Decl} (h : SortedFrom l l') : (names l').Perm (names l) := by
  rw [List.perm_iff_count]
  intro n
  have key : ∀ x : List Decl, (names x).count n = (x.filter (fun e => e.name = n)).length := by
    intro x
    unfold names
    rw [List.count, List.countP_map, List.countP_eq_length_filter]
    congr 1
  rw [key, key, h.2]

theorem last_of_distinct {l : List Decl} (h : Distinct l) {d : Decl} (hd : d ∈ l) : Last l d := by
  obtain ⟨p, s, rfl⟩ := List.append_of_mem hd
  refine ⟨p, s, rfl, ?_⟩
  unfold Distinct at h
  rw [List.map_append, List.map_cons, List.nodup_append] at h
  exact (List.nodup_cons.1 h.2.1).1

/-- No items are there for names that are not declared. -/
theorem Loads.sabNone {env : Env} {files : List (String × JVal)} {r : Root} (L : Loads env files r) {n : String} (h : r.defs.get n = none) :
    r.sabun.get n = none := by
  rw [AMap.get_eq_none, L.defs, addMembers_keys] at h
  rw [not_or] at h
  rw [L.sabun, (addMembers_get_ne n _ _ _ h.2).2]
  cases hg : L.o.default.get n with
  | none => exact (L.rootOf.none n hg).2
  | some x =>
    obtain ⟨y, sab, _, h1, _⟩ := L.rootOf.member n x.1 x.2 hg
    exact absurd (AMap.get_eq_none.2 h.1) (by rw [h1]; simp)

/-! ## What is declared -/

/-- the files of a split source, in any order -/
structure SplitOf (m m' fs : List (String × JVal)) (files : List (String × JVal)) : Prop where
  split : Split m m' fs
  files : files.Perm (("root", .map m') :: fs)

namespace SplitOf
variable {m m' fs files : List (String × JVal)} (S : SplitOf m m' fs files)
include S

theorem rootIs {v : JVal} (h : ("root", v) ∈ files) : v = .map m' := by
  rcases List.mem_cons.1 (S.files.mem_iff.1 h) with h | h
  · cases h; rfl
  · exact absurd rfl (S.split.noRoot _ h)

theorem sourceDecls {l2 : List Decl} (h : SourceDecls files l2) :
    ∃ l, MapDecls m l ∧ (names l2).Perm (names l) ∧ ∀ d, d ∈ l2 ↔ d ∈ l := by
  obtain ⟨lr, lf, ⟨m'', lx, h1, h2, h3, h4⟩, rfl⟩ := h
  have := S.rootIs h1
  cases this
  obtain ⟨ly, h5, h6⟩ := fileDecls_perm S.files h3
  have h5 : FileDecls fs ly := by
    cases h5 with
    | root h5 => exact h5
    | member hk _ _ => exact absurd rfl hk
  obtain ⟨l, h7, h8⟩ := S.split.join h2 h5
  refine ⟨l, h7, ?_, fun d => ?_⟩
  · have e1 : (names (lr ++ lf)).Perm (names lr ++ names lx) := by
      rw [show names (lr ++ lf) = names lr ++ names lf from List.map_append]
      exact (sortedFrom_names h4).append_left _
    have e2 : (names l).Perm (names lr ++ names ly) := by
      rw [← show names (lr ++ ly) = names lr ++ names ly from List.map_append]
      exact h8.map _
    exact e1.trans (((h6.map _).append_left _).trans e2.symm)
  · rw [h8.mem_iff, List.mem_append, List.mem_append, sortedFrom_mem h4, h6.mem_iff]

theorem readable_iff (hd : ∀ l, MapDecls m l → Distinct l) : Readable [("root", .map m)] ↔ Readable files := by
  constructor
  · rintro ⟨p, m0, s, l, old, h1, ⟨h2, h3, h4, ⟨r, h5, h6⟩, h7, h8⟩, h9⟩
    obtain ⟨rfl, rfl, rfl⟩ : p = [] ∧ m0 = m ∧ s = [] := by
      cases p with
      | nil => cases h1; exact ⟨rfl, rfl, rfl⟩
      | cons e p => have := congrArg List.length h1; simp at this
    obtain ⟨l', lf, g1, g2, g3⟩ := S.split.decls h2
    have hm : ("root", .map m') ∈ files := S.files.mem_iff.2 List.mem_cons_self
    obtain ⟨p, s, rfl⟩ := List.append_of_mem hm
    have hps : (p ++ s).Perm fs := (List.perm_middle.symm.trans S.files).cons_inv
    refine ⟨p, m', s, l', old, rfl, ⟨g1, S.split.noId.1 h3, (S.split.old _).1 h4, ⟨r, S.split.refs ▸ h5, h6⟩, ?_, ?_⟩, ?_⟩
    · exact fun d hd' => h7 d (g3.mem_iff.2 (List.mem_append_left _ hd'))
    · exact fun d hd' => h8 d (last_of_distinct (hd l h2) (g3.mem_iff.2 (List.mem_append_left _ hd'.mem)))
    · intro e he
      have he := hps.mem_iff.1 he
      have hk := S.split.noRoot e he
      obtain ⟨n, vt, g4, g5⟩ := (fileDecls_mem g2).1 e he hk
      obtain ⟨y, sab, g6⟩ := h8 _ (last_of_distinct (hd l h2) (g3.mem_iff.2 (List.mem_append_right _ g5)))
      exact ⟨hk, n, vt, y, sab, g4, g6⟩
  · rintro ⟨p, m0, s, l', old, rfl, ⟨h2, h3, h4, ⟨r, h5, h6⟩, h7, h8⟩, h9⟩
    have := S.rootIs (v := .map m0) (by simp)
    cases this
    have hps : (p ++ s).Perm fs := (List.perm_middle.symm.trans S.files).cons_inv
    obtain ⟨lf, hf⟩ := fileDecls_of (fs := fs) fun e he => by
      obtain ⟨a, n, vt, _, _, b, _⟩ := h9 e (hps.mem_iff.2 he)
      exact ⟨a, n, vt, b⟩
    obtain ⟨l, hl, hp⟩ := S.split.join h2 hf
    have hdl := hd l hl
    have hdl' : Distinct l' := by
      have : ((l' ++ lf).map (·.name)).Nodup := (hp.map _).nodup_iff.1 hdl
      rw [List.map_append, List.nodup_append] at this
      exact this.1
    have hread : ∀ d ∈ l, ∃ y sab, ReadsRoot d y sab := by
      intro d hd'
      rcases List.mem_append.1 (hp.mem_iff.1 hd') with hd' | hd'
      · exact h8 d (last_of_distinct hdl' hd')
      · obtain ⟨e, g1, g2, g3, g4⟩ := (fileDecls_mem hf).2 d hd'
        obtain ⟨_, n, vt, y, sab, g5, g6⟩ := h9 e (hps.mem_iff.2 g1)
        obtain ⟨rfl, rfl⟩ := written_unique g3 g5
        rw [g4] at g6
        exact ⟨y, sab, g6⟩
    refine ⟨[], m, [], l, old, rfl, ⟨hl, S.split.noId.2 h3, (S.split.old _).2 h4, ⟨r, S.split.refs ▸ h5, h6⟩, ?_, ?_⟩, fun e he => (nomatch he)⟩
    · intro d hd'
      obtain ⟨y, sab, x, hx, _⟩ := hread d hd'
      exact ⟨x, hx⟩
    · exact fun d hd' => hread d hd'.mem

end SplitOf

theorem single_decls {m : List (String × JVal)} {l : List Decl} : SourceDecls [("root", .map m)] l ↔ MapDecls m l := by
  constructor
  · rintro ⟨lr, lf, ⟨m', lx, h1, h2, h3, h4⟩, rfl⟩
    simp only [List.mem_cons, Prod.mk.injEq, JVal.map.injEq, true_and, List.not_mem_nil, or_false] at h1
    subst h1
    cases h3 with
    | root h3 =>
      cases h3
      have : lf = [] := List.eq_nil_iff_forall_not_mem.2 fun d hd => by simpa using (sortedFrom_mem h4 d).1 hd
      rw [this, List.append_nil]
      exact h2
    | member hk _ _ => exact absurd rfl hk
  · intro h
    exact ⟨l, [], ⟨m, [], by simp, h, .root .nil, List.Pairwise.nil, fun _ => rfl⟩, by simp⟩

theorem oldIs_unique {m : List (String × JVal)} {a b : List String} (ha : OldIs m a) (hb : OldIs m b) (n : String) : n ∈ a ↔ n ∈ b := by
  rcases ha.2 with ⟨h1, rfl⟩ | ⟨p, x, h1, l, rfl, _, _, h2⟩
  · rcases hb.2 with ⟨_, rfl⟩ | ⟨p', x', h3, _⟩
    · rfl
    · rw [h1] at h3; simp at h3
  · rcases hb.2 with ⟨h3, _⟩ | ⟨p', x', h3, l', rfl, _, _, h4⟩
    · rw [h1] at h3; simp at h3
    · rw [h1] at h3
      have h5 := List.append_inj_right' h3 rfl
      simp only [List.cons.injEq, JVal.array.injEq, and_true] at h5
      have : l = l' := by
        refine List.map_injective_iff.2 ?_ h5
        intro u v huv
        cases huv
        rfl
      rw [h2, h4, this]

/-- **C93.** A source with one file is loaded if and only if it is loaded when it is split, and as the same object but for the ids of
the members of the root and their order. The names have to be declared once. -/
theorem C93_split_partial (env : Env) (he : env.Sound) (m m' fs files : List (String × JVal)) (hs : Split m m' fs)
    (hf : files.Perm (("root", .map m') :: fs)) (hd : ∀ l, MapDecls m l → Distinct l) :
    ((∃ r, loadDir env [("root", .map m)] = .ok r) ↔ ∃ r', loadDir env files = .ok r') ∧
    ∀ r r', loadDir env [("root", .map m)] = .ok r → loadDir env files = .ok r' → SameRoot r r' := by
  have S : SplitOf m m' fs files := ⟨hs, hf⟩
  have hd2 : ∀ l, SourceDecls files l → Distinct l := by
    intro l2 h2
    obtain ⟨l, h3, h4, _⟩ := S.sourceDecls h2
    exact h4.nodup_iff.2 (hd l h3)
  have hd1 : ∀ l, SourceDecls [("root", .map m)] l → Distinct l := fun l hl => hd l (single_decls.1 hl)
  refine ⟨⟨?_, ?_⟩, ?_⟩
  · rintro ⟨r, h⟩
    have hr := (S.readable_iff hd).1 (C83_load env he _ r h)
    refine (C83_exact env he files ?_ hd2).2 hr
    intro m'' l'' hm hl
    have := S.rootIs hm
    cases this
    obtain ⟨l, hl1, _⟩ := C56_declares env he _ r h
    obtain ⟨l', lf, g1, _, g3⟩ := hs.decls (single_decls.1 hl1)
    rw [mapDecls_unique hl g1]
    have : ((l' ++ lf).map (·.name)).Nodup := (g3.map _).nodup_iff.1 (hd l (single_decls.1 hl1))
    rw [List.map_append, List.nodup_append] at this
    exact this.1
  · rintro ⟨r', h⟩
    have hr := (S.readable_iff hd).2 (C83_load env he _ r' h)
    refine (C83_exact env he _ ?_ hd1).2 hr
    intro m'' l'' hm hl
    simp only [List.mem_cons, Prod.mk.injEq, JVal.map.injEq, true_and, List.not_mem_nil, or_false] at hm
    subst hm
    exact hd l'' hl
  · intro r r' h h'
    obtain ⟨l2, g1, _⟩ := C56_declares env he _ r' h'
    obtain ⟨l, g2, g3, g4⟩ := S.sourceDecls g1
    obtain ⟨_, _, a3, a4⟩ := C56_distinct_partial env he _ r h l (single_decls.2 g2) (hd l g2)
    obtain ⟨_, _, b3, b4⟩ := C56_distinct_partial env he _ r' h' l2 g1 (hd2 l2 g1)
    have hval : ∀ n, (r'.defs.get n).map (·.2) = (r.defs.get n).map (·.2) ∧ (n ∈ names l → r'.sabun.get n = r.sabun.get n) := by
      intro n
      by_cases hn : n ∈ names l
      · obtain ⟨d, hdl, rfl⟩ := List.mem_map.1 hn
        obtain ⟨i, hi⟩ := List.mem_iff_getElem?.1 hdl
        obtain ⟨j, hj⟩ := List.mem_iff_getElem?.1 ((g4 d).2 hdl)
        obtain ⟨x, y, sab, e1, e2, e3, e4, _⟩ := a3 i d hi
        obtain ⟨x', y', sab', f1, f2, f3, f4, _⟩ := b3 j d hj
        rw [e1] at f1
        cases f1
        rw [e2] at f2
        cases f2
        rw [e3, f3, e4, f4]
        exact ⟨rfl, fun _ => rfl⟩
      · have hn2 : n ∉ names l2 := fun h => hn (g3.mem_iff.1 h)
        rw [a4 n hn, b4 n hn2]
        exact ⟨rfl, fun h => absurd h hn⟩
    refine ⟨fun n => (hval n).1, fun n => ?_, fun n => ?_⟩
    · by_cases hn : n ∈ names l
      · exact (hval n).2 hn
      · have hn2 : n ∉ names l2 := fun h => hn (g3.mem_iff.1 h)
        obtain ⟨⟨L⟩, _⟩ := loads env he h
        obtain ⟨⟨L'⟩, _⟩ := loads env he h'
        rw [L.sabNone (a4 n hn), L'.sabNone (b4 n hn2)]
    · obtain ⟨m1, _, _, c1, c2, _⟩ := C83_content env he _ r h
      obtain ⟨m2, _, _, c3, c4, _⟩ := C83_content env he _ r' h'
      have := S.rootIs c3
      cases this
      simp only [List.mem_cons, Prod.mk.injEq, JVal.map.injEq, true_and, List.not_mem_nil, or_false] at c1
      subst c1
      exact oldIs_unique c4 ((hs.old _).1 c2) n

/-! ## Validation -/

theorem _root_.Verif.Core.Valid.congr {r r' : RootObj} {b : Bool} (hm : ∀ e, e ∈ r.defs ↔ e ∈ r'.defs)
    (hg : ∀ n, r.defs.get n = r'.defs.get n) (hs : ∀ n, r.sabun.get n = r'.sabun.get n) (ho : ∀ n, n ∈ r'.old → n ∈ r.old)
    (h : Valid r b) : Valid r' b := by
  obtain ⟨h1, h2, h3, h4, h5, h6⟩ := h
  refine ⟨?_, ?_, ?_, ?_, ?_, ?_⟩
  · intro n hn
    rw [← hg]
    exact h1 n (ho n hn)
  · intro k p vt hk x hx
    exact h2 k p vt ((hm _).2 hk) x (by rw [hs]; exact hx)
  · exact fun k d list old hk => h3 k d list old ((hm _).2 hk)
  · intro k d u hk x hx
    exact h4 k d u ((hm _).2 hk) x (by rw [hs]; exact hx)
  · intro m d hl
    refine h5 m d ?_
    induction hl with
    | table hk => exact .table ((hm _).2 hk)
    | clist hk => exact .clist ((hm _).2 hk)
    | mlist hk => exact .mlist ((hm _).2 hk)
    | cil _ hk ih => exact .cil ih hk
    | mil _ hk ih => exact .mil ih hk
  · intro d it hi
    have hi' : Holds r d it := by
      induction hi with
      | table hk hx => exact .table ((hm _).2 hk) hx
      | clist hk hx => exact .clist ((hm _).2 hk) hx
      | mlist hk hx hy => exact .mlist ((hm _).2 hk) (by rw [hs]; exact hx) hy
      | cil _ ha hb hc ih => exact .cil ih ha hb hc
      | mil _ ha hb hc ih => exact .mil ih ha hb hc
    obtain ⟨g1, g2, g3, g4, g5⟩ := h6 d it hi'
    refine ⟨g1, g2, fun t q hq => ?_, g4, g5⟩
    obtain ⟨e1, dq, vt, e2, e3, e4, e5⟩ := g3 t q hq
    refine ⟨e1, dq, vt, e2, e3, e4, fun id hid => ?_⟩
    rw [← hg]
    exact e5 id hid

theorem erase_get (r : Root) (n : String) : r.erase.defs.get n = (r.defs.get n).map fun e => e.2.erase := by
  unfold Root.erase
  simp only
  induction r.defs with
  | nil => rfl
  | cons e l ih =>
    simp only [List.map_cons, AMap.get] at ih ⊢
    split
    · rfl
    · exact ih

theorem SameRoot.symm {r r' : Root} (h : SameRoot r r') : SameRoot r' r :=
  ⟨fun n => (h.defs n).symm, fun n => (h.sabun n).symm, fun n => (h.old n).symm⟩

theorem SameRoot.valid {r r' : Root} (h : SameRoot r r') (hw : r.defs.Wf) (hw' : r'.defs.Wf) (b : Bool) (hv : Valid r.erase b) :
    Valid r'.erase b := by
  have hg : ∀ n, r.erase.defs.get n = r'.erase.defs.get n := by
    intro n
    rw [erase_get, erase_get]
    have := congrArg (Option.map RootValI.erase) (h.defs n)
    rw [Option.map_map, Option.map_map] at this
    exact this.symm
  have wf : ∀ r : Root, r.defs.Wf → r.erase.defs.Wf := by
    intro r hr
    unfold AMap.Wf Root.erase at *
    simpa [List.map_map, Function.comp_def] using hr
  refine hv.congr (fun e => ?_) hg (fun n => (h.sabun n).symm) (fun n hn => (h.old n).1 hn)
  constructor
  · intro he
    exact AMap.mem_of_get (by rw [← hg]; exact AMap.get_of_mem (wf r hw) he)
  · intro he
    exact AMap.mem_of_get (by rw [hg]; exact AMap.get_of_mem (wf r' hw') he)

/-- **C93 with the validation.** A source with one file is loaded and valid if and only if it is when it is split, and as the same object
but for ids and order. -/
theorem C93_valid_partial (env : Env) (he : env.Sound) (m m' fs files : List (String × JVal)) (hs : Split m m' fs)
    (hf : files.Perm (("root", .map m') :: fs)) (hd : ∀ l, MapDecls m l → Distinct l) :
    ((∃ r, loadValid env [("root", .map m)] = .ok r) ↔ ∃ r', loadValid env files = .ok r') ∧
    ∀ r r', loadValid env [("root", .map m)] = .ok r → loadValid env files = .ok r' → SameRoot r r' := by
  obtain ⟨h1, h2⟩ := C93_split_partial env he m m' fs files hs hf hd
  have inv : ∀ fl r, loadValid env fl = .ok r ↔ loadDir env fl = .ok r ∧ Valid r.erase false := by
    intro fl r
    constructor
    · intro h
      obtain ⟨r0, h3, h4⟩ := bind_inv h
      obtain ⟨u, h5, rfl⟩ := map_inv h4
      exact ⟨h3, (C22_exact _ _).1 h5⟩
    · rintro ⟨h3, h4⟩
      unfold loadValid
      rw [h3, Res.bind_ok, (C22_exact _ _).2 h4]
      rfl
  have wf : ∀ fl r, loadDir env fl = .ok r → r.defs.Wf := by
    intro fl r h
    obtain ⟨⟨L⟩, _⟩ := loads env he h
    exact L.wf
  refine ⟨⟨?_, ?_⟩, ?_⟩
  · rintro ⟨r, h⟩
    obtain ⟨h3, h4⟩ := (inv _ _).1 h
    obtain ⟨r', h5⟩ := h1.1 ⟨r, h3⟩
    exact ⟨r', (inv _ _).2 ⟨h5, (h2 r r' h3 h5).valid (wf _ _ h3) (wf _ _ h5) _ h4⟩⟩
  · rintro ⟨r', h⟩
    obtain ⟨h3, h4⟩ := (inv _ _).1 h
    obtain ⟨r, h5⟩ := h1.2 ⟨r', h3⟩
    exact ⟨r, (inv _ _).2 ⟨h5, (h2 r r' h5 h3).symm.valid (wf _ _ h3) (wf _ _ h5) _ h4⟩⟩
  · intro r r' h h'
    exact h2 r r' ((inv _ _).1 h).1 ((inv _ _).1 h').1

/-! ## Examples and negations -/

/-- the source of the manual (split_src.md) in one file -/
def manualMap : List (String × JVal) := [("int", .int 10),
  ("list", .array [.string "CList", .array [.map [("v", .int 0)]], .map [("v", .int 1)]]), ("string", .string "aaaaa")]

/-- it can be split as in the manual -/
example : Split manualMap [] manualMap ∧ (∃ r, loadValid idEnv [("root", .map manualMap)] = .ok r) ∧
    ∃ r, loadValid idEnv (("root", .map []) :: manualMap) = .ok r := by
  have ok : ∀ x : Res Root, (match x with | .ok _ => true | _ => false) = true → ∃ r, x = .ok r := by
    intro x hx
    cases x with
    | ok r => exact ⟨r, rfl⟩
    | err => cases hx
    | panic => cases hx
  exact ⟨.move _ (by decide) (by unfold Names.Special; decide) (.move _ (by decide) (by unfold Names.Special; decide)
    (.move _ (by decide) (by unfold Names.Special; decide) .nil)), ok _ (by decide +kernel), ok _ (by decide +kernel)⟩

/-- If a name is declared twice, with and without a suffix, the source with one file panics, but split it can be loaded. -/
theorem C93_negation_twice :
    Split [("a", .int 1), ("a?", .int 2), ("b", .int 3)] [("a?", .int 2)] [("a", .int 1), ("b", .int 3)] ∧
    loadValid idEnv [("root", .map [("a", .int 1), ("a?", .int 2), ("b", .int 3)])] = .panic ∧
    idsOf (loadValid idEnv [("root", .map [("a?", .int 2)]), ("a", .int 1), ("b", .int 3)]) = [("a", 1), ("b", 1)] := by
  have pan : ∀ x : Res Root, (match x with | .panic => true | _ => false) = true → x = .panic := by
    intro x hx
    cases x with
    | ok r => cases hx
    | err => cases hx
    | panic => rfl
  exact ⟨.move _ (by decide) (by unfold Names.Special; decide) (.keep _ _ (.move _ (by decide) (by unfold Names.Special; decide) .nil)),
    pan _ (by decide +kernel), by decide +kernel⟩

/-- the number stored for a member -/
def intOf (n : String) : Res Root → Option Int
  | .ok r => match r.defs.get n with
    | some (_, .param (.int (.val i)) _) => some i
    | _ => none
  | _ => none

/-- a list that cannot change -/
def constList : JVal := .array [.string "CList", .array [.map [("v", .int 0)]], .map [("v", .int 1)]]

/-- It may also be loaded either way, but with another value: in one file the last declaration counts, and a file counts before the root. -/
theorem C93_negation_value :
    Split [("a", .int 1), ("a?", .int 2), ("b", constList)] [("a?", .int 2)] [("a", .int 1), ("b", constList)] ∧
    intOf "a" (loadValid idEnv [("root", .map [("a", .int 1), ("a?", .int 2), ("b", constList)])]) = some 2 ∧
    intOf "a" (loadValid idEnv [("root", .map [("a?", .int 2)]), ("a", .int 1), ("b", constList)]) = some 1 :=
  ⟨.move _ (by decide) (by unfold Names.Special; decide) (.keep _ _ (.move _ (by decide) (by unfold Names.Special; decide) .nil)),
    by decide +kernel, by decide +kernel⟩

/-- The root of the manual is an empty file; such a file is refused, so the source of the manual cannot be loaded as it is printed. An
empty object has to be written. -/
theorem C93_negation_empty (L : Pipeline.Lib) (path : String) : ∀ x, Pipeline.converter L path [] ≠ .ok x := by
  intro x h
  have h0 : Verif.Codec.strOfBytes [] = some "" := by decide
  have h1 : Json5.fromStr L.uni L.pf L.fromU32 "".toList = .err := rfl
  unfold Pipeline.converter at h
  rw [h0] at h
  split at h
  · rename_i s stem e1 e2
    cases e1
    rw [h1] at h
    split at h
    · cases h
    · split at h <;> cases h
  · cases h

end Verif.Source
