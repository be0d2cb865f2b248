import Verif.Lemmas.ExportRoot
/-!
# Reading what was written for a definition
-/
namespace Verif.Export
open Diff Core Source

/-! ## Members of the root -/

theorem withSuffix_normal (k : String) : withSuffix k .normal = k := by
  simp [withSuffix, Names.nameWithSuffix, Names.toSuffix]

theorem rootMember_key {sab : AMap RootSab} {k : String} {v : RootValI} {l : List (String × String × JV)} (h : rootMember sab k v = .ok l) :
    l = [] ∨ ∃ vt j, l = [(k, withSuffix k vt, j)] := by
  have key : ∀ {v : RootValI} {s : RootSab}, (rootListJV v s).map (fun j => [(k, k, j)]) = .ok l → ∃ vt j, l = [(k, withSuffix k vt, j)] := by
    intro v s h
    obtain ⟨j, _, rfl⟩ := map_inv h
    exact ⟨.normal, j, by rw [withSuffix_normal]⟩
  cases v with
  | param p vt =>
    simp only [rootMember] at h
    split at h <;> cases h <;> exact .inr ⟨vt, _, rfl⟩
  | table d t old =>
    simp only [rootMember] at h
    split at h
    · exact .inr (key h)
    · cases h; exact .inl rfl
  | clist d t =>
    simp only [rootMember] at h
    split at h
    · exact .inr (key h)
    · cases h; exact .inl rfl
  | mlist d t =>
    simp only [rootMember] at h
    split at h
    · exact .inr (key h)
    · cases h; exact .inl rfl

theorem rootMembers_keys {sab : AMap RootSab} : ∀ {d : AMap (Nat × RootValI)} {l : List (String × String × JV)}, rootMembers sab d = .ok l →
    (l.map (·.1)).Sublist (d.map (·.1)) ∧ (∀ x ∈ l, ∃ vt, x.2.1 = withSuffix x.1 vt) ∧
    ∀ k id v, (k, id, v) ∈ d → ∃ a, rootMember sab k v = .ok a ∧ ∀ x ∈ a, x ∈ l
  | [], l, h => by
    simp only [rootMembers, Res.ok.injEq] at h
    subst h
    simp
  | (k, id, v) :: d, l, h => by
    rw [rootMembers] at h
    obtain ⟨a, h1, h⟩ := bind_inv h
    obtain ⟨b, h2, rfl⟩ := map_inv h
    obtain ⟨h3, h4, h5⟩ := rootMembers_keys h2
    have hk := rootMember_key h1
    refine ⟨?_, ?_, ?_⟩
    · rcases hk with rfl | ⟨vt, j, rfl⟩
      · exact h3.cons _
      · exact h3.cons_cons _
    · intro x hx
      rcases List.mem_append.1 hx with hx | hx
      · rcases hk with rfl | ⟨vt, j, rfl⟩
        · cases hx
        · rw [List.mem_singleton] at hx
          subst hx
          exact ⟨vt, rfl⟩
      · exact h4 x hx
    · intro k' id' v' hm
      rcases List.mem_cons.1 hm with he | hm
      · cases he
        exact ⟨a, h1, fun x hx => by simp [hx]⟩
      · obtain ⟨a', h6, h7⟩ := h5 k' id' v' hm
        exact ⟨a', h6, fun x hx => by simp [h7 x hx]⟩

/-! ## Objects -/

/-- an entry that can be read -/
inductive Reads (env : Env) : String → JVal → Prop
  | old {k a l} : k = "Old" → getOld [] a = .ok l → Reads env k (.array a)
  | refs (b : Bool) {k m x r} : k = (if b then "Enum" else "Ref") → obj env true m 0 {} = .ok x → getRef env x = .ok r → Reads env k (.map m)
  | member {k n vt v x} : nameOf k = some (.name n vt) → item env vt v = .ok x → Reads env k v

theorem nameOf_old : nameOf "Old" = some (.system .old) := by decide
theorem nameOf_ref : nameOf "Ref" = some (.system .ref) := by decide
theorem nameOf_enum : nameOf "Enum" = some (.system .enum) := by decide

/-- what the entries make of an object -/
theorem obj_reads (env : Env) : ∀ (m : List (String × JVal)) (c : Nat) (o : TmpObj), (∀ e ∈ m, Reads env e.1 e.2) → (m.map (·.1)).Nodup →
    ¬ ("Ref" ∈ m.map (·.1) ∧ "Enum" ∈ m.map (·.1)) → (("Ref" ∈ m.map (·.1) ∨ "Enum" ∈ m.map (·.1)) → o.refs.map = []) →
    ∃ o', obj env false m c o = .ok o' ∧ o'.id = o.id ∧
      ("Old" ∉ m.map (·.1) → o'.old = o.old) ∧ (∀ a l, ("Old", .array a) ∈ m → getOld [] a = .ok l → o'.old = l) ∧
      ("Ref" ∉ m.map (·.1) → "Enum" ∉ m.map (·.1) → o'.refs = o.refs) ∧
      ∀ b m' x r, ((if b then "Enum" else "Ref"), .map m') ∈ m → obj env true m' 0 {} = .ok x → getRef env x = .ok r →
        o'.refs = { r with isEnum := b }
  | [], c, o, _, _, _, _ => ⟨o, rfl, rfl, fun _ => rfl, fun _ _ h => (nomatch h), fun _ _ => rfl, fun _ _ _ _ h => (nomatch h)⟩
  | (k, v) :: m, c, o, h, hn, hre, hr0 => by
    rw [List.map_cons, List.nodup_cons] at hn
    have hre' : ¬ ("Ref" ∈ m.map (·.1) ∧ "Enum" ∈ m.map (·.1)) := fun h => hre ⟨by simp [h.1], by simp [h.2]⟩
    have ih := fun c o => obj_reads env m c o (fun e he => h e (by simp [he])) hn.2 hre'
    have hkv := h (k, v) (by simp)
    simp only at hkv
    cases hkv with
    | @old _ a l hk' h2 =>
      subst hk'
      rw [obj_old nameOf_old]
      simp only [addOld, h2, Res.map_ok, Res.bind_ok]
      obtain ⟨o', h3, h4, h5, _, h6, h7⟩ := ih c { o with old := l } fun h => hr0 (by simpa using h)
      refine ⟨o', h3, h4, fun hm => absurd (by simp) hm, fun a' l' hm hg => ?_, fun h1 h2 => h6 (by simpa using h1) (by simpa using h2),
        fun b m' x r hm => h7 b m' x r ?_⟩
      · rcases List.mem_cons.1 hm with hm | hm
        · cases hm
          rw [h2] at hg
          cases hg
          exact h5 hn.1
        · exact absurd (List.mem_map.2 ⟨_, hm, rfl⟩) hn.1
      · rcases List.mem_cons.1 hm with hm | hm
        · cases b <;> simp at hm
        · exact hm
    | @refs b _ m1 x r hk' h1 h2 =>
      have ho : o.refs.map = [] := hr0 (by cases b <;> simp at hk' <;> subst hk' <;> simp)
      have hobj : obj env false ((k, .map m1) :: m) c o = obj env false m c { o with refs := { r with isEnum := b } } := by
        cases b
        · rw [hk', if_neg (by simp), obj_ref nameOf_ref]
          simp [refsOf, addRefs, ho, h1, h2]
        · rw [hk', if_pos rfl, obj_enum nameOf_enum]
          simp [refsOf, addRefs, ho, h1, h2]
      have hboth : "Ref" ∉ m.map (·.1) ∧ "Enum" ∉ m.map (·.1) := by
        cases b
        · rw [if_neg (by simp)] at hk'
          subst hk'
          exact ⟨hn.1, fun h => hre ⟨by simp, by simp [h]⟩⟩
        · rw [if_pos rfl] at hk'
          subst hk'
          exact ⟨fun h => hre ⟨by simp [h], by simp⟩, hn.1⟩
      rw [hobj]
      obtain ⟨o', h3, h4, h5, h5', h6, _⟩ := ih c { o with refs := { r with isEnum := b } } fun h => by tauto
      have hkold : k ≠ "Old" := by rw [hk']; cases b <;> decide
      refine ⟨o', h3, h4, fun hm => h5 fun h => hm (by simp [h]), fun a l hm hg => h5' a l ?_ hg, fun h1 h2 => ?_, fun b' m' x' r' hm hx hr => ?_⟩
      · rcases List.mem_cons.1 hm with hm | hm
        · cases hm
        · exact hm
      · cases b <;> simp [hk'] at h1 h2
      · rcases List.mem_cons.1 hm with hm | hm
        · simp only [Prod.mk.injEq, JVal.map.injEq] at hm
          obtain ⟨e1, e2⟩ := hm
          have : b' = b := by
            rw [hk'] at e1
            cases b <;> cases b' <;> first | rfl | (exact absurd e1 (by decide))
          subst this
          subst e2
          rw [h1] at hx
          cases hx
          rw [h2] at hr
          cases hr
          exact h6 hboth.1 hboth.2
        · have : (if b' then "Enum" else "Ref") ∈ m.map (·.1) := List.mem_map.2 ⟨_, hm, rfl⟩
          cases b'
          · exact absurd this hboth.1
          · exact absurd this hboth.2
    | @member _ n vt _ x h1 h2 =>
      rw [obj_name h1]
      simp only [Bool.false_eq_true, if_false]
      rw [h2, Res.bind_ok]
      have hne : ∀ s y, nameOf s = some (.system y) → k ≠ s := by
        rintro s y h3 rfl
        rw [h1] at h3
        cases h3
      have hk1 := hne _ _ nameOf_old
      have hk2 := hne _ _ nameOf_ref
      have hk3 := hne _ _ nameOf_enum
      obtain ⟨o', h3, h4, h5, h5', h6, h7⟩ := ih (c + 1) (addMember o (String.ofList n) c x) fun h => hr0 (by simpa [hk2.symm, hk3.symm] using h)
      refine ⟨o', h3, h4, fun hm => h5 fun h' => hm (by simp [h']), fun a l hm => h5' a l ?_,
        fun h1 h2 => h6 (fun h => h1 (by simp [h])) fun h => h2 (by simp [h]), fun b m' x r hm => h7 b m' x r ?_⟩
      · rcases List.mem_cons.1 hm with hm | hm
        · cases hm
          exact absurd rfl hk1
        · exact hm
      · rcases List.mem_cons.1 hm with hm | hm
        · simp only [Prod.mk.injEq] at hm
          cases b
          · exact absurd hm.1.symm hk2
          · exact absurd hm.1.symm hk3
        · exact hm

/-! ## References -/

theorem perm_of_map {α β : Type} {f : α → β} : ∀ {l : List β} {a : List α}, l.Perm (a.map f) → ∃ b : List α, b.Perm a ∧ l = b.map f := by
  intro l a h
  induction l generalizing a with
  | nil =>
    have : a = [] := List.map_eq_nil_iff.1 (List.nil_perm.1 h)
    exact ⟨[], by rw [this], rfl⟩
  | cons x l ih =>
    obtain ⟨y, hy, rfl⟩ := List.mem_map.1 (h.mem_iff.1 (List.mem_cons_self ..))
    obtain ⟨a1, a2, rfl⟩ := List.append_of_mem hy
    have h' : l.Perm ((a1 ++ a2).map f) := by
      rw [List.map_append, List.map_cons] at h
      have := h.trans List.perm_middle
      rw [List.map_append]
      exact this.cons_inv
    obtain ⟨b, hb1, hb2⟩ := ih h'
    exact ⟨y :: b, (hb1.cons y).trans List.perm_middle.symm, by rw [hb2]; rfl⟩

/-- what a reference is written as -/
def refVal : Qv String → JVal
  | .val s => .string s
  | .null => .null
  | .undef => .undef

theorem itemRef_refVal (vt : VType) (q : Qv String) : itemRef vt (refVal q) = .ok (.param (.string q) vt) := by
  cases q <;> rfl

theorem obj_refEntries (env : Env) : ∀ (l : List (String × VType × Qv String)) (c : Nat) (o : TmpObj), (∀ e ∈ l, Names.Ident e.1.toList) →
    obj env true (l.map fun e => (withSuffix e.1 e.2.1, refVal e.2.2)) c o =
      .ok { o with default := insAll c (l.map fun e => (e.1, .param (.string e.2.2) e.2.1)) o.default }
  | [], c, o, _ => by simp only [List.map_nil, obj, insAll]
  | e :: l, c, o, h => by
    rw [List.map_cons, obj_name (nameOf_withSuffix (h e (by simp)))]
    simp only [if_true, itemRef_refVal, Res.bind_ok]
    rw [obj_refEntries env l _ _ fun e he => h e (by simp [he])]
    simp [addMember, insAll]

theorem refLoop_ok : ∀ (l : List (String × Nat × RustVal)) (idx : Nat) (m : AMap (Nat × Qv String × VType)), (l.map (·.1)).Nodup →
    (∀ e ∈ l, ∃ q vt, e.2.2 = .param (.string q) vt ∧ ∀ s, q = .val s → s = "" ∨ Names.Ident s.toList) →
    ∃ m', refLoop l idx m = .ok m' ∧ (∀ k id q vt, (k, id, .param (.string q) vt) ∈ l → (m'.get k).map (·.2) = some (q, vt)) ∧
      ∀ k, k ∉ l.map (·.1) → m'.get k = m.get k
  | [], idx, m, _, _ => ⟨m, rfl, fun _ _ _ _ h => (nomatch h), fun _ _ => rfl⟩
  | (k, id, v) :: l, idx, m, hn, h => by
    rw [List.map_cons, List.nodup_cons] at hn
    obtain ⟨q, vt, h1, h2⟩ := h (k, id, v) (by simp)
    simp only at h1
    subst h1
    obtain ⟨m', h3, h4, h5⟩ := refLoop_ok l (idx + 1) (m.insert k (idx, q, vt)) hn.2 fun e he => h e (by simp [he])
    have hstep : refLoop ((k, id, .param (.string q) vt) :: l) idx m = refLoop l (idx + 1) (m.insert k (idx, q, vt)) := by
      cases q with
      | val s =>
        rw [refLoop, if_neg]
        rintro ⟨a, b⟩
        rcases h2 s rfl with h | h
        · exact b h
        · rw [(Names.C23_simple s.toList s.toList).2 ⟨rfl, h⟩] at a
          cases a
      | null => rw [refLoop]; simp
      | undef => rw [refLoop]; simp
    refine ⟨m', by rw [hstep, h3], ?_, ?_⟩
    · intro k' id' q' vt' hm
      rcases List.mem_cons.1 hm with hm | hm
      · simp only [Prod.mk.injEq, RustVal.param.injEq, Param.string.injEq] at hm
        obtain ⟨rfl, _, rfl, rfl⟩ := hm
        rw [h5 _ hn.1, AMap.get_insert_self]
        rfl
      · exact h4 k' id' q' vt' hm
    · intro k' hk'
      simp only [List.map_cons, List.mem_cons, not_or] at hk'
      rw [h5 k' hk'.2, AMap.get_insert_ne _ _ hk'.1]

section
variable {disp : BitVec 64 → List Char} {pf : List Char → Option UInt64}

theorem refVal_means {q : Qv String} (h : ∀ s, q = .val s → s = "" ∨ Names.Ident s.toList) : Means disp pf (refJV q) (refVal q) := by
  cases q with
  | val s =>
    refine .string ?_
    rcases h s rfl with rfl | h
    · intro c hc
      cases hc
    · exact ident_cleanStr h
  | null => exact .null
  | undef => exact .undef

/-- references are read again -/
theorem refs_reads (env : Env) (he : env.Sound) {r : RefDefI} (h : PlainRefs r) : ∃ m x r', Means disp pf (.map (refDefJV r)) (.map m) ∧
    obj env true m 0 {} = .ok x ∧ getRef env x = .ok r' ∧ ∀ k, (r'.map.get k).map (·.2) = (r.refs.get k).map (·.2) := by
  obtain ⟨h1, h2, h3⟩ := h
  have hinj : ((r.refs.map fun e => (withSuffix e.1 e.2.2.2, refJV e.2.2.1)).map (·.1)).Nodup := by
    rw [List.map_map]
    refine List.Nodup.map_on ?_ (h1.of_map _)
    intro a ha b hb e
    exact List.inj_on_of_nodup_map h1 ha hb (withSuffix_inj (h2 a ha) (h2 b hb) e)
  have hp := btree_perm _ hinj
  -- the entries in the order of the text
  obtain ⟨L, hL1, hL2⟩ : ∃ L : List (String × VType × Qv String), L.Perm (r.refs.map fun e => (e.1, e.2.2.2, e.2.2.1)) ∧
      refDefJV r = L.map fun e => (withSuffix e.1 e.2.1, refJV e.2.2) := by
    have hp' : (refDefJV r).Perm ((r.refs.map fun e => (e.1, e.2.2.2, e.2.2.1)).map fun e => (withSuffix e.1 e.2.1, refJV e.2.2)) := by
      rw [List.map_map]
      exact hp
    exact perm_of_map hp'
  have hLm : ∀ e ∈ L, Names.Ident e.1.toList ∧ ∀ s, e.2.2 = .val s → s = "" ∨ Names.Ident s.toList := by
    intro e hm
    rw [hL1.mem_iff] at hm
    obtain ⟨x, hx, rfl⟩ := List.mem_map.1 hm
    exact ⟨h2 x hx, h3 x hx⟩
  have hLn : (L.map (·.1)).Nodup := by
    rw [(hL1.map _).nodup_iff, List.map_map]
    exact h1
  have hobj := obj_refEntries env L 0 {} fun e hm => (hLm e hm).1
  let dflt := insAll 0 (L.map fun e => (e.1, RustVal.param (.string e.2.2) e.2.1)) []
  have hwf : AMap.Wf dflt := insAll_wf _ _ _ (by simp [AMap.Wf])
  have hperm : (env.order dflt).Perm dflt := he _
  have hget : ∀ e ∈ L, ∃ i, (e.1, i, RustVal.param (.string e.2.2) e.2.1) ∈ dflt := by
    intro e hm
    obtain ⟨a, b, rfl⟩ := List.append_of_mem hm
    refine ⟨_, AMap.mem_of_get (m := dflt) (v := (0 + (a.map fun e => (e.1, RustVal.param (.string e.2.2) e.2.1)).length, _)) ?_⟩
    simp only [dflt]
    rw [List.map_append, List.map_cons, insAll_get_last]
    rw [List.map_append, List.map_cons, List.nodup_append, List.nodup_cons] at hLn
    simpa [Function.comp_def] using hLn.2.1.1
  have hkeys : ∀ k, k ∈ dflt.map (·.1) ↔ k ∈ L.map (·.1) := by
    intro k
    rw [insAll_keys]
    simp [Function.comp_def]
  have hvals : ∀ e ∈ dflt, ∃ x ∈ L, e.1 = x.1 ∧ e.2.2 = .param (.string x.2.2) x.2.1 := by
    intro e hm
    obtain ⟨x, hx, e1⟩ := List.mem_map.1 ((hkeys e.1).1 (List.mem_map.2 ⟨e, hm, rfl⟩))
    obtain ⟨i, hi⟩ := hget x hx
    refine ⟨x, hx, e1.symm, ?_⟩
    have := List.inj_on_of_nodup_map hwf hm hi e1.symm
    rw [this]
  obtain ⟨m', hm1, hm2, hm3⟩ := refLoop_ok (env.order dflt) 0 [] ((hperm.map _).nodup_iff.2 hwf) (by
    intro e hm
    obtain ⟨x, hx, _, e2⟩ := hvals e (hperm.mem_iff.1 hm)
    exact ⟨_, _, e2, (hLm x hx).2⟩)
  refine ⟨_, _, { map := m' }, ?_, hobj, ?_, ?_⟩
  · refine .map ?_ (sorted_nodup (btree_sorted _))
    rw [hL2]
    clear hL2 hL1 hobj hget hkeys hvals hm1 hm2 hm3 hperm hwf hLn
    induction L with
    | nil => exact .nil
    | cons e L ih =>
      obtain ⟨a, b⟩ := hLm e (by simp)
      exact .cons (withSuffix_clean a) (refVal_means b) (ih fun e hm => hLm e (by simp [hm]))
  · unfold getRef
    simp only [List.length_nil, ne_eq, not_true_eq_false, if_false, Option.isSome_none, Bool.false_eq_true]
    rw [hm1, Res.map_ok]
  · intro k
    simp only
    by_cases hk : k ∈ L.map (·.1)
    · obtain ⟨x, hx, rfl⟩ := List.mem_map.1 hk
      obtain ⟨i, hi⟩ := hget x hx
      rw [hm2 x.1 i x.2.2 x.2.1 (hperm.mem_iff.2 hi)]
      rw [hL1.mem_iff] at hx
      obtain ⟨y, hy, rfl⟩ := List.mem_map.1 hx
      rw [AMap.get_of_mem (m := r.refs) h1 (k := y.1) (v := y.2) hy]
      rfl
    · have h4 : k ∉ r.refs.map (·.1) := by
        rwa [(hL1.map _).mem_iff, List.map_map] at hk
      rw [hm3 k (by rwa [(hperm.map _).mem_iff, hkeys]), AMap.get_eq_none.2 h4]
      rfl

/-! ## Objects that were written -/

/-- the entry for the old names -/
def oldEntry : Option (List String) → List (String × JV)
  | none => []
  | some l => [("Old", setJV l)]

/-- the entry for the references -/
def refEntry : Option RefDefI → List (String × JV)
  | none => []
  | some r => [(if r.isEnum then "Enum" else "Ref", .map (refDefJV r))]

/-- A map with the members `es`, old names and references is read as an object with these. -/
theorem obj_written (env : Env) (he : env.Sound) (es : List (String × String × JV)) (old : Option (List String)) (refs : Option RefDefI)
    (Q : String → RustVal → Prop) (m : List (String × JV)) (hm : m.Perm (oldEntry old ++ (refEntry refs ++ es.map (·.2))))
    (hn : (es.map (·.1)).Nodup)
    (hes : ∀ e ∈ es, Names.Ident e.1.toList ∧ ∃ vt j x, e.2.1 = withSuffix e.1 vt ∧ Means disp pf e.2.2 j ∧ item env vt j = .ok x ∧ Q e.1 x)
    (hold : ∀ l, old = some l → ∀ n ∈ l, Names.Ident n.toList) (hrefs : ∀ r, refs = some r → PlainRefs r) :
    ∃ l o, Means disp pf (.map m) (.map l) ∧ obj env false l 0 {} = .ok o ∧ o.id = none ∧ o.Good ∧
      (∀ n, n ∈ o.old ↔ ∃ l, old = some l ∧ n ∈ l) ∧ (refs = none → o.refs = {}) ∧
      (∀ r, refs = some r → o.refs.isEnum = r.isEnum ∧ ∀ k, (o.refs.map.get k).map (·.2) = (r.refs.get k).map (·.2)) ∧
      ∃ ds : List (Decl × RustVal), o.default = insAll 0 (ds.map fun e => (e.1.name, e.2)) [] ∧ Distinct (ds.map (·.1)) ∧
        (∀ n, n ∈ names (ds.map (·.1)) ↔ n ∈ es.map (·.1)) ∧ ∀ e ∈ ds, Q e.1.name e.2 := by
  -- the keys
  have hkey : ∀ e ∈ es, ∃ vt, nameOf e.2.1 = some (.name e.1.toList vt) := by
    intro e h
    obtain ⟨h1, vt, _, _, h2, _⟩ := hes e h
    exact ⟨vt, by rw [h2]; exact nameOf_withSuffix h1⟩
  have hsys : ∀ s y, nameOf s = some (.system y) → s ∉ (es.map (·.2)).map (·.1) := by
    intro s y hs h
    rw [List.map_map] at h
    obtain ⟨e, h1, rfl⟩ := List.mem_map.1 h
    obtain ⟨vt, h2⟩ := hkey e h1
    simp only [Function.comp_apply] at hs
    rw [h2] at hs
    cases hs
  have hesn : ((es.map (·.2)).map (·.1)).Nodup := by
    rw [List.map_map]
    refine List.Nodup.map_on ?_ (hn.of_map _)
    intro a ha b hb e
    obtain ⟨h1, vt, _, _, h2, _⟩ := hes a ha
    obtain ⟨h1', vt', _, _, h2', _⟩ := hes b hb
    simp only [Function.comp_apply] at e
    rw [h2, h2'] at e
    exact List.inj_on_of_nodup_map hn ha hb (withSuffix_inj h1 h1' e)
  have hnd : (m.map (·.1)).Nodup := by
    rw [(hm.map _).nodup_iff]
    have h1 := hsys _ _ nameOf_old
    have h2 := hsys _ _ nameOf_ref
    have h3 := hsys _ _ nameOf_enum
    cases old <;> cases refs <;> simp only [oldEntry, refEntry, List.nil_append, List.cons_append, List.map_cons, List.nodup_cons]
    · exact hesn
    · refine ⟨?_, hesn⟩
      split <;> assumption
    · exact ⟨h1, hesn⟩
    · refine ⟨?_, ?_, hesn⟩
      · rw [List.mem_cons, not_or]
        refine ⟨?_, h1⟩
        split <;> decide
      · split <;> assumption
  -- the text
  have hr : ∀ r, refs = some r → ∃ m x r', Means disp pf (.map (refDefJV r)) (.map m) ∧
    obj env true m 0 {} = .ok x ∧ getRef env x = .ok r' ∧ ∀ k, (r'.map.get k).map (·.2) = (r.refs.get k).map (·.2) :=
    fun r h => refs_reads env he (hrefs r h)
  have hg : ∀ l, old = some l → getOld [] ((bset l).map .string) = .ok (bset l) := by
    intro l h
    have := getOld_names (bset l) [] (by simpa using bset_nodup _) fun n hn => hold l h n ((mem_bset _ _).1 hn)
    simpa using this
  obtain ⟨l, h1, h2⟩ := meansM_of (disp := disp) (pf := pf) (m := m)
    (P := fun k v j => (∃ l, old = some l ∧ k = "Old" ∧ j = .array ((bset l).map .string)) ∨
      (∃ r m x r', refs = some r ∧ k = (if r.isEnum then "Enum" else "Ref") ∧ j = .map m ∧ obj env true m 0 {} = .ok x ∧ getRef env x = .ok r' ∧
        ∀ k, (r'.map.get k).map (·.2) = (r.refs.get k).map (·.2)) ∨
      ∃ n vt x, n ∈ es.map (·.1) ∧ Names.Ident n.toList ∧ k = withSuffix n vt ∧ (n, k, v) ∈ es ∧ item env vt j = .ok x ∧ Q n x) (by
      intro e h
      rw [hm.mem_iff, List.mem_append, List.mem_append] at h
      rcases h with h | h | h
      · cases hc : old with
        | none => rw [hc] at h; cases h
        | some l =>
          rw [hc] at h
          simp only [oldEntry, List.mem_singleton] at h
          subst h
          exact ⟨clean_tag (by simp), _, .array (strings_means fun n hn => ident_cleanStr (hold l hc n ((mem_bset _ _).1 hn))), .inl ⟨l, rfl, rfl, rfl⟩⟩
      · cases hc : refs with
        | none => rw [hc] at h; cases h
        | some r =>
          rw [hc] at h
          simp only [refEntry, List.mem_singleton] at h
          subst h
          obtain ⟨m', x, r', a, b, c, d⟩ := hr r hc
          refine ⟨?_, _, a, .inr (.inl ⟨r, m', x, r', rfl, rfl, rfl, b, c, d⟩)⟩
          simp only
          split <;> (unfold CleanStr Json5.LineTerm; decide)
      · obtain ⟨x, hx, rfl⟩ := List.mem_map.1 h
        obtain ⟨a, vt, j, y, b, c, d, f⟩ := hes x hx
        refine ⟨by rw [b]; exact withSuffix_clean a, j, c, .inr (.inr ⟨x.1, vt, y, List.mem_map.2 ⟨x, hx, rfl⟩, a, b, hx, d, f⟩)⟩)
  obtain ⟨h3, h4⟩ := forall2_mem h2
  have hnd' : (l.map (·.1)).Nodup := by rw [h1.keys]; exact hnd
  have hreads : ∀ e ∈ l, Reads env e.1 e.2 := by
    intro e h
    obtain ⟨x, hx, e1, h⟩ := h3 e h
    rw [e1]
    rcases h with ⟨lo, a, b, c⟩ | ⟨r, m', y, r', a, b, c, d, f, _⟩ | ⟨n, vt, y, _, a, b, _, d, _⟩
    · rw [c]
      exact .old b (hg lo a)
    · rw [c]
      exact .refs r.isEnum b d f
    · exact .member (by rw [b]; exact nameOf_withSuffix a) d
  have hkl : ∀ k, k ∈ l.map (·.1) ↔ k ∈ m.map (·.1) := fun k => by rw [h1.keys]
  have hsp : ∀ k y, nameOf k = some (.system y) → (k ∈ l.map (·.1) ↔ k ∈ (oldEntry old ++ refEntry refs).map (·.1)) := by
    intro k y hy
    rw [hkl, (hm.map _).mem_iff, ← List.append_assoc, List.map_append, List.mem_append]
    exact ⟨fun h => h.resolve_right (hsys k y hy), .inl⟩
  obtain ⟨o, h5, h6, h7, h8, h9, h10⟩ := obj_reads env l 0 {} hreads hnd' (by
    rw [hsp _ _ nameOf_ref, hsp _ _ nameOf_enum]
    cases old <;> cases refs <;> simp [oldEntry, refEntry]) fun _ => rfl
  have ho := obj_good env he false l 0 {} TmpObj.good_empty
  rw [h5] at ho
  obtain ⟨ds, d1, d2, d3⟩ := obj_decls env l 0 {} h5
  -- every declaration is of a member
  have hentry : ∀ k j n vt, (k, j) ∈ l → Written k n vt → n ∈ es.map (·.1) ∧ k = withSuffix n vt ∧ (∃ v, (n, k, v) ∈ es) ∧ ∃ x, item env vt j = .ok x ∧ Q n x := by
    intro k j n vt hk hw
    obtain ⟨x, hx, e1, h⟩ := h3 _ hk
    have hw' := written_iff.1 hw
    simp only at e1
    rw [← e1] at h
    rcases h with ⟨lo, a, b, c⟩ | ⟨r, m', y, r', a, b, c, d, f, _⟩ | ⟨n', vt', y, c0, a, b, c, d, f⟩
    · rw [b, nameOf_old] at hw'
      cases hw'
    · rw [b] at hw'
      split at hw'
      · rw [nameOf_enum] at hw'; cases hw'
      · rw [nameOf_ref] at hw'; cases hw'
    · have := nameOf_withSuffix (vt := vt') a
      rw [← b] at this
      obtain ⟨rfl, rfl⟩ := written_unique hw (written_iff.2 this)
      exact ⟨c0, b, ⟨_, c⟩, y, d, f⟩
  have hds : ∀ e ∈ ds, Q e.1.name e.2 := by
    intro e h
    obtain ⟨k, hk, hw⟩ := (mapDecls_mem d1).1 e.1 (List.mem_map.2 ⟨e, h, rfl⟩)
    obtain ⟨_, _, _, x, a, b⟩ := hentry _ _ _ _ hk hw
    have := d2 e h
    rw [a] at this
    cases this
    exact b
  have hdist : Distinct (ds.map (·.1)) := by
    have key : ∀ (m : List (String × JVal)) (ds : List Decl), MapDecls m ds → (∀ e ∈ m, e ∈ l) → (m.map (·.1)).Nodup → Distinct ds := by
      intro m ds hd
      induction hd with
      | nil => exact fun _ _ => List.nodup_nil
      | @member k n vt v m ds hw hd ih =>
        intro hl hn
        rw [List.map_cons, List.nodup_cons] at hn
        have := ih (fun e h => hl e (by simp [h])) hn.2
        unfold Distinct at this ⊢
        rw [List.map_cons, List.nodup_cons]
        refine ⟨fun h => ?_, this⟩
        obtain ⟨d, hd', e⟩ := List.mem_map.1 h
        simp only at e
        obtain ⟨k', a, b⟩ := (mapDecls_mem hd).1 d hd'
        obtain ⟨_, c1, ⟨v1, c2⟩, _⟩ := hentry k v n vt (hl _ (by simp)) hw
        obtain ⟨_, c1', ⟨v2, c2'⟩, _⟩ := hentry k' d.val d.name d.vt (hl _ (by simp [a])) b
        have := List.inj_on_of_nodup_map ‹(es.map (·.1)).Nodup› c2 c2' e.symm
        simp only [Prod.mk.injEq] at this
        refine hn.1 (List.mem_map.2 ⟨_, a, ?_⟩)
        exact this.2.1.symm
      | @special k v m ds h _ ih =>
        intro hl hn
        rw [List.map_cons, List.nodup_cons] at hn
        exact ih (fun e h => hl e (by simp [h])) hn.2
    exact key l _ d1 (fun _ h => h) hnd'
  refine ⟨l, o, .map h1 hnd, h5, h6, ho, ?_, ?_, ?_, ds, d3, hdist, ?_, hds⟩
  · intro n
    cases hc : old with
    | none =>
      have : "Old" ∉ l.map (·.1) := by
        rw [hsp _ _ nameOf_old, hc]
        cases refs with
        | none => simp [oldEntry, refEntry]
        | some r => simp only [oldEntry, refEntry, List.nil_append, List.map_cons, List.map_nil, List.mem_singleton]; split <;> decide
      rw [h7 this]
      simp
    | some lo =>
      have hmo : ("Old", setJV lo) ∈ m := by
        rw [hm.mem_iff, hc]
        simp [oldEntry]
      obtain ⟨y, hy, e1, h⟩ := h4 _ hmo
      obtain ⟨a, b⟩ := y
      simp only at e1
      subst e1
      rcases h with ⟨l2, c1, _, c2⟩ | ⟨r, m', y, r', c1, c2, _⟩ | ⟨n', vt', y, c0, c1, c2, _⟩
      · rw [hc] at c1
        cases c1
        simp only at c2
        subst c2
        rw [h8 _ _ hy (hg lo hc), mem_bset]
        simp
      · simp only at c2
        split at c2 <;> exact absurd c2 (by decide)
      · have := nameOf_withSuffix (vt := vt') c1
        simp only at c2
        rw [← c2, nameOf_old] at this
        cases this
  · intro hc
    have key : ∀ s y, nameOf s = some (.system y) → s ≠ "Old" → s ∉ l.map (·.1) := by
      intro s y hs hne
      rw [hsp _ _ hs, hc]
      cases old <;> simp [oldEntry, refEntry, hne]
    exact h9 (key _ _ nameOf_ref (by decide)) (key _ _ nameOf_enum (by decide))
  · intro r hc
    have hmo : ((if r.isEnum then "Enum" else "Ref"), JV.map (refDefJV r)) ∈ m := by
      rw [hm.mem_iff, hc]
      simp [refEntry]
    obtain ⟨y, hy, e1, h⟩ := h4 _ hmo
    obtain ⟨a, b⟩ := y
    simp only at e1
    subst e1
    rcases h with ⟨l2, c1, c2, _⟩ | ⟨r2, m', y, r', c1, c2, c3, c4, c5, c6⟩ | ⟨n', vt', y, c0, c1, c2, _⟩
    · simp only at c2
      split at c2 <;> exact absurd c2 (by decide)
    · rw [hc] at c1
      cases c1
      simp only at c3
      subst c3
      rw [h10 _ _ _ _ hy c4 c5]
      exact ⟨rfl, c6⟩
    · have := nameOf_withSuffix (vt := vt') c1
      simp only at c2
      rw [← c2] at this
      split at this
      · rw [nameOf_enum] at this; cases this
      · rw [nameOf_ref] at this; cases this
  · intro n
    constructor
    · intro h
      simp only [names, List.map_map] at h
      obtain ⟨e, he', rfl⟩ := List.mem_map.1 h
      obtain ⟨k, hk, hw⟩ := (mapDecls_mem d1).1 e.1 (List.mem_map.2 ⟨e, he', rfl⟩)
      exact (hentry _ _ _ _ hk hw).1
    · intro h
      obtain ⟨x, hx, rfl⟩ := List.mem_map.1 h
      have hmx : x.2 ∈ m := by
        rw [hm.mem_iff]
        simp only [List.mem_append]
        exact .inr (.inr (List.mem_map.2 ⟨x, hx, rfl⟩))
      obtain ⟨y, hy, e1, _⟩ := h4 _ hmx
      obtain ⟨vt, hv⟩ := hkey x hx
      rw [← e1] at hv
      have := (mapDecls_mem d1).2 y.1 y.2 x.1 vt hy (written_iff.2 hv)
      exact List.mem_map.2 ⟨_, this, rfl⟩

/-! ## Definitions of lists -/

theorem insAll_mem : ∀ (l : List (String × RustVal)) (c : Nat) (m : AMap (Nat × RustVal)), ∀ e ∈ insAll c l m, e ∈ m ∨ (e.1, e.2.2) ∈ l
  | [], c, m, e, h => .inl h
  | (k, x) :: r, c, m, e, h => by
    rw [insAll] at h
    rcases insAll_mem r _ _ e h with h | h
    · rcases mem_insert h with h | h
      · exact .inl h
      · subst h
        exact .inr (by simp)
    · exact .inr (by simp [h])

theorem defMap_ok : ∀ (l : List (String × Nat × RustVal)) (c : Nat) (m : AMap (Nat × LDefVal)), (∀ e ∈ l, ∃ v, intoDefVal e.2.2 = .ok v) →
    ∃ m', defMap l c m = .ok m'
  | [], c, m, _ => ⟨m, rfl⟩
  | (k, i, x) :: l, c, m, h => by
    obtain ⟨v, hv⟩ := h (k, i, x) (by simp)
    simp only at hv
    simp only [defMap, hv, Res.bind_ok]
    exact defMap_ok l _ _ fun e he => h e (by simp [he])

theorem keys_nodup {es : List (String × String × JV)} (hn : (es.map (·.1)).Nodup)
    (h : ∀ e ∈ es, Names.Ident e.1.toList ∧ ∃ vt, e.2.1 = withSuffix e.1 vt) : (es.map (·.2.1)).Nodup := by
  refine List.Nodup.map_on ?_ (hn.of_map _)
  intro a ha b hb e
  obtain ⟨h1, vt, h2⟩ := h a ha
  obtain ⟨h1', vt', h2'⟩ := h b hb
  rw [h2, h2'] at e
  exact List.inj_on_of_nodup_map hn ha hb (withSuffix_inj h1 h1' e)

theorem not_system {es : List (String × String × JV)} (h : ∀ e ∈ es, Names.Ident e.1.toList ∧ ∃ vt, e.2.1 = withSuffix e.1 vt) {s : String}
    {y : Names.System} (hs : nameOf s = some (.system y)) : s ∉ (es.map (·.2)).map (·.1) := by
  rw [List.map_map]
  intro hm
  obtain ⟨e, h1, rfl⟩ := List.mem_map.1 hm
  obtain ⟨h2, vt, h3⟩ := h e h1
  simp only [Function.comp_apply] at hs
  rw [h3, nameOf_withSuffix h2] at hs
  cases hs

theorem addRefOld_perm {es : List (String × String × JV)} (refs : RefDefI) (old : List String) (hn : (es.map (·.1)).Nodup)
    (h : ∀ e ∈ es, Names.Ident e.1.toList ∧ ∃ vt, e.2.1 = withSuffix e.1 vt) :
    (addRefOld refs old (valueMap es)).Perm (oldEntry (if old = [] then none else some old) ++
      (refEntry (if refs.refs = [] then none else some refs) ++ es.map (·.2))) := by
  have hv := valueMap_perm es hn (keys_nodup hn h)
  have h1 : ∀ s y, nameOf s = some (.system y) → s ∉ (valueMap es).map (·.1) := by
    intro s y hs
    rw [(hv.map _).mem_iff]
    exact not_system h hs
  have hr : (if refs.refs.length ≠ 0 then bInsert (if refs.isEnum then "Enum" else "Ref") (.map (refDefJV refs)) (valueMap es) else valueMap es).Perm
      (refEntry (if refs.refs = [] then none else some refs) ++ es.map (·.2)) := by
    by_cases he : refs.refs = []
    · simp only [he, List.length_nil, ne_eq, not_true_eq_false, if_false, if_true, refEntry, List.nil_append]
      exact hv
    · have : refs.refs.length ≠ 0 := by simpa using he
      rw [if_pos this, if_neg he]
      simp only [refEntry]
      refine (bInsert_perm _ _ _ ?_).trans (hv.cons _)
      split
      · exact h1 _ _ nameOf_enum
      · exact h1 _ _ nameOf_ref
  unfold addRefOld
  dsimp only
  by_cases he : old = []
  · simp only [he, List.length_nil, ne_eq, not_true_eq_false, if_false, if_true, oldEntry, List.nil_append]
    exact hr
  · have : old.length ≠ 0 := by simpa using he
    rw [if_pos this, if_neg he]
    simp only [oldEntry]
    refine (bInsert_perm _ _ _ ?_).trans (hr.cons _)
    rw [(hr.map _).mem_iff, List.map_append, List.mem_append]
    rintro (hm | hm)
    · revert hm
      split
      · simp [refEntry]
      · simp only [refEntry, List.map_cons, List.map_nil, List.mem_singleton]
        split <;> decide
    · exact not_system h nameOf_old hm

theorem ldefMembers_map : ∀ ms : List (String × Nat × LDefVal), ldefMembers ms = ms.map fun e => (e.1, ldefVal e.1 e.2.2)
  | [] => rfl
  | (k, i, v) :: r => by rw [ldefMembers, ldefMembers_map r]; rfl

theorem sameMembers_of : ∀ {ms : List (String × Nat × LDefVal)} {m : AMap (Nat × LDefVal)},
    (∀ e ∈ ms, ∃ i v', m.get e.1 = some (i, v') ∧ SameVal e.2.2 v') → SameMembers ms m
  | [], m, _ => by rw [SameMembers]; trivial
  | (k, i, v) :: ms, m, h => by
    rw [SameMembers]
    exact ⟨h (k, i, v) (by simp), sameMembers_of fun e he => h e (by simp [he])⟩

theorem plainMembers_mem : ∀ {ms : List (String × Nat × LDefVal)}, PlainMembers ms → ∀ e ∈ ms, Names.Ident e.1.toList ∧ PlainVal e.2.2
  | (k, i, v) :: ms, h, e, he => by
    rw [PlainMembers] at h
    rcases List.mem_cons.1 he with rfl | he
    · exact ⟨h.1, h.2.1⟩
    · exact plainMembers_mem h.2.2 e he

/-- A list of a single attribute, the definition, is read. -/
theorem list_def (env : Env) {l : List (String × JVal)} {o : TmpObj} {d : LDef} (h1 : obj env false l 0 {} = .ok o)
    (h2 : intoListDef env o = .ok d) (t : TmpList) (ht : t.default = none) :
    list env t [.array [.map l]] = .ok { t with default := some d } := by
  simp only [list, listAttr, h1, h2, Res.bind_ok, Res.map_ok, addAttr, ht, Option.isNone_none, if_true]

mutual
/-- What is written for a definition is read as the same definition. -/
theorem ldef_reads (env : Env) (he : env.Sound) (hp : Printer disp pf) : ∀ d : LDef, PlainDef d → ∃ l o d', Means disp pf (ldefJV d) (.map l) ∧
    obj env false l 0 {} = .ok o ∧ intoListDef env o = .ok d' ∧ SameDef d d'
  | .mk ms refs old, h => by
    rw [PlainDef] at h
    obtain ⟨h1, h2, h3, h4⟩ := h
    have hv := ldefMembers_reads env he hp ms h2
    have hid := plainMembers_mem h2
    have hes : ∀ e ∈ ldefMembers ms, Names.Ident e.1.toList ∧ ∃ vt j x, e.2.1 = withSuffix e.1 vt ∧ Means disp pf e.2.2 j ∧ item env vt j = .ok x ∧
        ∃ i v v', (e.1, i, v) ∈ ms ∧ intoDefVal x = .ok v' ∧ SameVal v v' := by
      rw [ldefMembers_map]
      intro e hm
      obtain ⟨y, hy, rfl⟩ := List.mem_map.1 hm
      obtain ⟨vt, j, x, v', a, b, c, d, f⟩ := hv y hy
      exact ⟨(hid y hy).1, vt, j, x, a, b, c, y.2.1, y.2.2, v', hy, d, f⟩
    have hn : ((ldefMembers ms).map (·.1)) = ms.map (·.1) := by
      rw [ldefMembers_map, List.map_map]
      rfl
    have hperm := addRefOld_perm refs old (es := ldefMembers ms) (hn ▸ h1) fun e hm => by
      obtain ⟨a, vt, _, _, b, _⟩ := hes e hm
      exact ⟨a, vt, b⟩
    obtain ⟨l, o, m1, m2, m3, m4, m5, m6, m7, ds, d1, d2, d3, d4⟩ := obj_written (disp := disp) (pf := pf) env he (ldefMembers ms)
      (if old = [] then none else some old) (if refs.refs = [] then none else some refs)
      (fun n x => ∃ i v v', (n, i, v) ∈ ms ∧ intoDefVal x = .ok v' ∧ SameVal v v') _ hperm (hn ▸ h1) hes
      (by
        intro l hl
        split at hl
        · cases hl
        · cases hl
          exact h4)
      (by
        intro r hr
        split at hr
        · cases hr
        · cases hr
          exact h3)
    have hmem : ∀ e ∈ o.default, ∃ i v v', (e.1, i, v) ∈ ms ∧ intoDefVal e.2.2 = .ok v' ∧ SameVal v v' := by
      intro e hm
      rw [d1] at hm
      rcases insAll_mem _ _ _ e hm with hm | hm
      · cases hm
      · obtain ⟨y, hy, e1⟩ := List.mem_map.1 hm
        have := d4 y hy
        simp only [Prod.mk.injEq] at e1
        rw [e1.1, e1.2] at this
        exact this
    have hkeys : ∀ k, k ∈ o.default.map (·.1) ↔ k ∈ ms.map (·.1) := by
      intro k
      rw [d1, insAll_keys, ← hn, ← d3]
      simp [names, Function.comp_def]
    have hperm' : (env.order o.default).Perm o.default := he _
    obtain ⟨m, hm⟩ := defMap_ok (env.order o.default) 0 [] fun e h => by
      obtain ⟨_, _, v', _, h, _⟩ := hmem e (hperm'.mem_iff.1 h)
      exact ⟨v', h⟩
    have hw : ((env.order o.default).map (·.1)).Nodup := (hperm'.map _).nodup_iff.2 m4.wf
    obtain ⟨c1, c2⟩ := defMap_members _ _ _ hw hm
    refine ⟨l, o, .mk m { refs := o.refs.map, isEnum := o.refs.isEnum, old := o.refs.old } o.old, ?_, m2, ?_, ?_⟩
    · rw [ldefJV]
      exact m1
    · unfold intoListDef
      rw [m3, hm]
      rfl
    · rw [SameDef]
      refine ⟨sameMembers_of fun e hm => ?_, fun k => ?_, ⟨fun k => ?_, fun hne => ?_⟩, fun n => ?_⟩
      · obtain ⟨y, hy, e1⟩ := List.mem_map.1 ((hkeys e.1).2 (List.mem_map.2 ⟨e, hm, rfl⟩))
        obtain ⟨i, v, v', a, b, c⟩ := hmem y hy
        obtain ⟨i', s, a', b'⟩ := c1 y.1 y.2.1 y.2.2 (hperm'.mem_iff.2 hy)
        rw [b] at a'
        cases a'
        rw [e1] at a b'
        have := List.inj_on_of_nodup_map h1 hm a rfl
        refine ⟨i', v', b', ?_⟩
        rw [this]
        exact c
      · rw [← hkeys]
        constructor
        · intro hk
          by_contra hk'
          have := c2 k fun h => hk' ((hperm'.map _).mem_iff.1 h)
          exact absurd hk (AMap.get_eq_none.1 (this.trans rfl))
        · intro hk
          obtain ⟨y, hy, rfl⟩ := List.mem_map.1 hk
          obtain ⟨i', s, a', b'⟩ := c1 y.1 y.2.1 y.2.2 (hperm'.mem_iff.2 hy)
          exact List.mem_map.2 ⟨_, AMap.mem_of_get b', rfl⟩
      · by_cases hr : refs.refs = []
        · simp only [LDef.refs]
          rw [m6 (if_pos hr), hr]
        · exact (m7 refs (if_neg hr)).2 k
      · exact (m7 refs (if_neg hne)).1
      · simp only [LDef.old]
        rw [m5]
        split
        · rename_i h
          simp [h]
        · simp
theorem ldefMembers_reads (env : Env) (he : env.Sound) (hp : Printer disp pf) : ∀ ms : List (String × Nat × LDefVal), PlainMembers ms →
    ∀ e ∈ ms, ∃ vt j x v', (ldefVal e.1 e.2.2).1 = withSuffix e.1 vt ∧ Means disp pf (ldefVal e.1 e.2.2).2 j ∧ item env vt j = .ok x ∧
      intoDefVal x = .ok v' ∧ SameVal e.2.2 v'
  | [], _, e, hm => nomatch hm
  | (k, i, v) :: ms, h, e, hm => by
    rw [PlainMembers] at h
    rcases List.mem_cons.1 hm with hm | hm
    · rw [hm]
      exact ldefVal_reads env he hp k v h.2.1
    · exact ldefMembers_reads env he hp ms h.2.2 e hm
theorem ldefVal_reads (env : Env) (he : env.Sound) (hp : Printer disp pf) (k : String) : ∀ v : LDefVal, PlainVal v →
    ∃ vt j x v', (ldefVal k v).1 = withSuffix k vt ∧ Means disp pf (ldefVal k v).2 j ∧ item env vt j = .ok x ∧
      intoDefVal x = .ok v' ∧ SameVal v v'
  | .param p vt, h => by
    rw [PlainVal] at h
    obtain ⟨j, h1, h2⟩ := param_means hp h
    exact ⟨vt, j, _, _, by rw [ldefVal], by rw [ldefVal]; exact h1, (C62_value env vt vt j p).2 ⟨rfl, h2⟩, rfl, by rw [SameVal]⟩
  | .cilDef d, h => by
    rw [PlainVal] at h
    obtain ⟨l, o, d', h1, h2, h3, h4⟩ := ldef_reads env he hp d h
    refine ⟨.normal, .array [.string "CilDef", .array [.map l]], .cilDef d', .cilDef d', by rw [ldefVal, withSuffix_normal], ?_, ?_, rfl,
      by rw [SameVal]; exact ⟨d', rfl, h4⟩⟩
    · rw [ldefVal]
      exact .array (.cons (.string (by unfold CleanStr Json5.LineTerm; decide)) (.cons (.array (.cons h1 .nil)) .nil))
    · simp only [item, arrayVal, show tagOf "CilDef" = some .cilDef by decide, true_or, if_true]
      rw [list_def env h2 h3 {} rfl]
      rfl
  | .milDef d u, h => by
    rw [PlainVal] at h
    obtain ⟨l, o, d', h1, h2, h3, h4⟩ := ldef_reads env he hp d h
    refine ⟨if u then .undefiable else .normal, .array [.string "MilDef", .array [.map l]], .milDef d' u, .milDef d' u, ?_, ?_, ?_, rfl,
      by rw [SameVal]; exact ⟨d', rfl, h4⟩⟩
    · rw [ldefVal]
      cases u
      · simp [withSuffix_normal]
      · simp
    · rw [ldefVal]
      exact .array (.cons (.string (by unfold CleanStr Json5.LineTerm; decide)) (.cons (.array (.cons h1 .nil)) .nil))
    · simp only [item, arrayVal, show tagOf "MilDef" = some .milDef by decide]
      rw [if_pos (by cases u <;> simp), list_def env h2 h3 {} rfl]
      cases u <;> rfl
end

/-- What is written for a mutable list without items is read as such a list. -/
theorem mlist_reads (env : Env) (he : env.Sound) (hp : Printer disp pf) {d : LDef} (h : PlainDef d) {n : Nat} (hn : n ≤ 2 ^ 53) :
    ∃ j d', Means disp pf (.array [.string "MList", .array [.string "NextID", intJV n], .array [ldefJV d]]) j ∧
      item env .normal j = .ok (.mlist d' false (some ([], 0))) ∧ SameDef d d' := by
  obtain ⟨l, o, d', h1, h2, h3, h4⟩ := ldef_reads env he hp d h
  refine ⟨.array [.string "MList", .array [.string "NextID", .int n], .array [.map l]], d', ?_, ?_, h4⟩
  · refine .array (.cons (.string (by unfold CleanStr Json5.LineTerm; decide)) (.cons (.array (.cons (.string ?_) (.cons ?_ .nil)))
      (.cons (.array (.cons h1 .nil)) .nil)))
    · unfold CleanStr Json5.LineTerm; decide
    · exact int_means hp (by simpa using hn)
  · simp only [item, arrayVal, show tagOf "MList" = some .mlist by decide, true_or, if_true]
    rw [list]
    simp only [listAttr, show ("NextID" = "Default") = False by decide, show ("NextID" = "Old") = False by decide, if_false, if_true, nextIdAttr,
      Res.bind_ok, addAttr, Option.isNone_none]
    rw [list_def env h2 h3 _ rfl]
    rfl

/-! ## The root -/

/-- what a member of the written root is read as -/
def ReadAs (r : Root) (n : String) (x : RustVal) : Prop :=
  (∃ p vt, current r n = some (p, vt) ∧ x = .param p vt) ∨
  ∃ i d u d', r.defs.get n = some (i, .mlist d u) ∧ SameDef d d' ∧ x = .mlist d' false (some ([], 0))

theorem rootMember_plain (env : Env) (he : env.Sound) (hp : Printer disp pf) {r : Root} (h : Plain r) {k : String} {id : Nat} {v : RootValI}
    (hm : (k, id, v) ∈ r.defs) : ∃ a, rootMember r.sabun k v = .ok a ∧
      (∀ x ∈ a, x.1 = k ∧ ∃ vt j y, x.2.1 = withSuffix k vt ∧ Means disp pf x.2.2 j ∧ item env vt j = .ok y ∧ ReadAs r k y) ∧
      (a = [] → current r k = none ∧ ∀ i d u, r.defs.get k ≠ some (i, .mlist d u)) := by
  have hg := AMap.get_of_mem h.wf hm
  have hl := h.lists k id v hm
  have hcur : ∀ p vt, current r k = some (p, vt) → ∃ vt' j y, withSuffix k vt = withSuffix k vt' ∧ Means disp pf (getParam p) j ∧ item env vt' j = .ok y ∧
      ReadAs r k y := by
    intro p vt hc
    obtain ⟨j, h1, h2⟩ := param_means hp (h.values k p vt hc)
    exact ⟨vt, j, _, rfl, h1, (C62_value env vt vt j p).2 ⟨rfl, h2⟩, .inl ⟨p, vt, hc, rfl⟩⟩
  cases v with
  | param p vt =>
    have : ∃ q, current r k = some (q, vt) ∧ rootMember r.sabun k (.param p vt) = .ok [(k, withSuffix k vt, getParam q)] := by
      unfold current
      rw [hg]
      simp only [rootMember]
      cases r.sabun.get k with
      | none => exact ⟨p, rfl, rfl⟩
      | some s => cases s <;> exact ⟨_, rfl, rfl⟩
    obtain ⟨q, h1, h2⟩ := this
    refine ⟨_, h2, fun x hx => ?_, fun h => by simp at h⟩
    rw [List.mem_singleton] at hx
    subst hx
    exact ⟨rfl, hcur q vt h1⟩
  | table d l o =>
    simp only [PlainList] at hl
    refine ⟨[], by simp [rootMember, hl], (fun x hx => nomatch hx), fun _ => ⟨by simp [current, hg], fun i d u hd => ?_⟩⟩
    rw [hg] at hd
    cases hd
  | clist d l =>
    simp only [PlainList] at hl
    refine ⟨[], by simp [rootMember, hl], (fun x hx => nomatch hx), fun _ => ⟨by simp [current, hg], fun i d u hd => ?_⟩⟩
    rw [hg] at hd
    cases hd
  | mlist d u =>
    simp only [PlainList] at hl
    obtain ⟨h1, l, h2, h3⟩ := hl
    have : ∃ n : Nat, n ≤ 2 ^ 53 ∧ rootListJV (.mlist d u) (.list l) = .ok (.array [.string "MList", .array [.string "NextID", intJV n], .array [ldefJV d]]) := by
      cases l with
      | none => exact ⟨0, by omega, rfl⟩
      | some x =>
        obtain ⟨a, b⟩ := x
        obtain ⟨h4, h5⟩ := h3 _ rfl
        simp only at h4 h5
        subst h4
        exact ⟨b, h5, rfl⟩
    obtain ⟨n, h4, h5⟩ := this
    obtain ⟨j, d', h6, h7, h8⟩ := mlist_reads (disp := disp) (pf := pf) env he hp h1 h4
    refine ⟨[(k, k, .array [.string "MList", .array [.string "NextID", intJV n], .array [ldefJV d]])], by simp only [rootMember, h2, h5, Res.map_ok],
      fun x hx => ?_, fun h => by simp at h⟩
    rw [List.mem_singleton] at hx
    subst hx
    exact ⟨rfl, .normal, j, _, (withSuffix_normal k).symm, h6, h7, .inr ⟨id, d, u, d', hg, h8, rfl⟩⟩

theorem rootMembers_ok {sab : AMap RootSab} : ∀ (d : AMap (Nat × RootValI)), (∀ e ∈ d, ∃ a, rootMember sab e.1 e.2.2 = .ok a) →
    ∃ l, rootMembers sab d = .ok l ∧ ∀ x ∈ l, ∃ e ∈ d, ∃ a, rootMember sab e.1 e.2.2 = .ok a ∧ x ∈ a
  | [], _ => ⟨[], rfl, fun x h => nomatch h⟩
  | (k, id, v) :: d, h => by
    obtain ⟨a, h1⟩ := h (k, id, v) (by simp)
    obtain ⟨l, h2, h3⟩ := rootMembers_ok d fun e he => h e (by simp [he])
    simp only at h1
    refine ⟨a ++ l, by simp only [rootMembers, h1, h2, Res.bind_ok, Res.map_ok], fun x hx => ?_⟩
    rcases List.mem_append.1 hx with hx | hx
    · exact ⟨(k, id, v), by simp, a, h1, hx⟩
    · obtain ⟨e, he, h4⟩ := h3 x hx
      exact ⟨e, by simp [he], h4⟩

/-- The written root is read. -/
theorem root_written (env : Env) (he : env.Sound) (hp : Printer disp pf) {r : Root} (h : Plain r) :
    ∃ m l o, rootToJson r = .ok (.map m) ∧ Means disp pf (.map m) (.map l) ∧ obj env false l 0 {} = .ok o ∧ o.id = none ∧ o.refs = {} ∧ o.Good ∧
      (∀ n, n ∈ o.old ↔ n ∈ r.old) ∧
      ∃ ds : List (Decl × RustVal), o.default = insAll 0 (ds.map fun e => (e.1.name, e.2)) [] ∧ Distinct (ds.map (·.1)) ∧
        (∀ n, n ∈ names (ds.map (·.1)) ↔ (current r n ≠ none ∨ ∃ i d u, r.defs.get n = some (i, .mlist d u))) ∧ ∀ e ∈ ds, ReadAs r e.1.name e.2 := by
  have hmem : ∀ e ∈ r.defs, _ := fun e hm => rootMember_plain env he hp h (k := e.1) (id := e.2.1) (v := e.2.2) hm
  obtain ⟨es, h1, h2⟩ := rootMembers_ok r.defs fun e hm => by
    obtain ⟨a, h, _⟩ := hmem e hm
    exact ⟨a, h⟩
  obtain ⟨h3, _, h5⟩ := rootMembers_keys h1
  have hes : ∀ e ∈ es, Names.Ident e.1.toList ∧ ∃ vt j x, e.2.1 = withSuffix e.1 vt ∧ Means disp pf e.2.2 j ∧ item env vt j = .ok x ∧ ReadAs r e.1 x := by
    intro x hx
    obtain ⟨e, hm, a, ha, hx⟩ := h2 x hx
    obtain ⟨a', ha', hb, _⟩ := hmem e hm
    rw [ha] at ha'
    cases ha'
    obtain ⟨h6, h7⟩ := hb x hx
    rw [h6]
    exact ⟨h.names e hm, h7⟩
  have hid : ∀ e ∈ es, Names.Ident e.1.toList ∧ ∃ vt, e.2.1 = withSuffix e.1 vt := by
    intro e hm
    obtain ⟨a, vt, _, _, b, _⟩ := hes e hm
    exact ⟨a, vt, b⟩
  have hn : (es.map (·.1)).Nodup := h.wf.sublist h3
  have hv := valueMap_perm es hn (keys_nodup hn hid)
  have hperm : (bInsert "Old" (setJV r.old) (valueMap es)).Perm (oldEntry (some r.old) ++ (refEntry none ++ es.map (·.2))) := by
    refine (bInsert_perm _ _ _ ?_).trans (hv.cons _)
    rw [(hv.map _).mem_iff]
    exact not_system hid nameOf_old
  obtain ⟨l, o, m1, m2, m3, m4, m5, m6, _, ds, d1, d2, d3, d4⟩ := obj_written (disp := disp) (pf := pf) env he es (some r.old) none (ReadAs r) _ hperm hn hes
    (by rintro _ ⟨⟩; exact h.old) (by rintro _ ⟨⟩)
  refine ⟨_, l, o, by unfold rootToJson; rw [h1, Res.map_ok], m1, m2, m3, m6 rfl, m4, fun n => by rw [m5]; simp, ds, d1, d2, fun n => ?_, d4⟩
  rw [d3]
  constructor
  · intro hk
    obtain ⟨x, hx, rfl⟩ := List.mem_map.1 hk
    obtain ⟨_, _, _, _, _, _, _, hr⟩ := hes x hx
    rcases hr with ⟨p, vt, hc, _⟩ | ⟨i, d, u, _, hc, _⟩
    · exact .inl (by rw [hc]; simp)
    · exact .inr ⟨i, d, u, hc⟩
  · intro hk
    have hk' : n ∈ r.defs.map (·.1) := by
      rcases hk with hk | ⟨i, d, u, hk⟩
      · obtain ⟨x, hx⟩ := Option.ne_none_iff_exists'.1 hk
        exact current_mem hx
      · exact List.mem_map.2 ⟨_, AMap.mem_of_get hk, rfl⟩
    obtain ⟨e, hm, rfl⟩ := List.mem_map.1 hk'
    obtain ⟨a, ha, hb, hc⟩ := hmem e hm
    obtain ⟨a', ha', hd⟩ := h5 e.1 e.2.1 e.2.2 hm
    rw [ha] at ha'
    cases ha'
    cases a with
    | nil =>
      obtain ⟨c1, c2⟩ := hc rfl
      rcases hk with hk | ⟨i, d, u, hk⟩
      · exact absurd c1 hk
      · exact absurd hk (c2 i d u)
    | cons x a =>
      obtain ⟨c1, _⟩ := hb x (by simp)
      exact List.mem_map.2 ⟨x, hd x (by simp), c1⟩

end

end Verif.Export
