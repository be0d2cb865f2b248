import Verif.Lemmas.GrammarVal
import Verif.Lemmas.ExportRoot
/-! # C83: the language of sources -/
namespace Verif.Source
open Diff Core

/-- **C83 for values.** A value that is read is a value of the language, and what it is read as is what the language says: all values,
references, old names, ids and items, at every depth. -/
theorem C83_value (env : Env) (he : env.Sound) (vt : VType) (v : JVal) (x : RustVal) (h : item env vt v = .ok x) : Reads vt v x :=
  (good he v vt).1 x h

/-- **C83 for values, conversely.** Every value of the language is read, and as the same kind of value. -/
theorem C83_value_read (env : Env) (he : env.Sound) (vt : VType) (v : JVal) (x : RustVal) (h : Reads vt v x) :
    ∃ x', item env vt v = .ok x' ∧ kind x' = kind x := (good he v vt).2 x h

/-- Values outside of the language are refused with an error. -/
theorem C83_value_refused (env : Env) (he : env.Sound) (vt : VType) (v : JVal) : item env vt v = .err ↔ ∀ x, ¬ Reads vt v x := by
  constructor
  · intro h x hx
    obtain ⟨x', h', _⟩ := C83_value_read env he vt v x hx
    rw [h] at h'
    cases h'
  · intro h
    cases hi : item env vt v with
    | ok x => exact absurd (C83_value env he vt v x hi) (h x)
    | err => rfl
    | panic => exact absurd hi ((item_good env he vt v).ne_panic)

/-! ## Whole sources -/

theorem bind_ne_err {α β : Type} {r : Res α} {f : α → Res β} (h : r ≠ .err) (hf : ∀ x, r = .ok x → f x ≠ .err) : r.bind f ≠ .err := by
  cases r with
  | ok x => exact hf x rfl
  | err => exact absurd rfl h
  | panic => exact fun h => (nomatch h)

theorem map_ne_err {α β : Type} {r : Res α} {f : α → β} (h : r ≠ .err) : r.map f ≠ .err := by
  cases r with
  | ok x => exact fun h => (nomatch h)
  | err => exact absurd rfl h
  | panic => exact fun h => (nomatch h)

theorem fill_ne_err : ∀ (l : List (String × Nat × Option Meta)) (v : MetaTable), fill l v ≠ .err
  | [], v => fun h => (nomatch h)
  | (k, id, some m) :: r, v => by
    simp only [fill]
    refine bind_ne_err ?_ fun x _ => fill_ne_err r x
    unfold setAt
    split <;> exact fun h => (nomatch h)
  | (_, _, none) :: r, v => by simp only [fill]; exact fill_ne_err r v

theorem metaRefs_ne_err (env : Env) (d : RefDefI) : metaRefs env d ≠ .err := fill_ne_err _ _

mutual
theorem metaList_ne_err (env : Env) : ∀ d : LDef, metaList env d ≠ .err
  | .mk members _ _ => by simp only [metaList]; exact bind_ne_err (metaMembers_ne_err env members) fun _ _ => fill_ne_err _ _
theorem metaMembers_ne_err (env : Env) : ∀ l : List (String × Nat × LDefVal), metaMembers env l ≠ .err
  | [] => by simp only [metaMembers]; exact fun h => (nomatch h)
  | (k, id, v) :: r => by
    simp only [metaMembers]
    exact bind_ne_err (metaDefVal_ne_err env v) fun _ _ => map_ne_err (metaMembers_ne_err env r)
theorem metaDefVal_ne_err (env : Env) : ∀ v : LDefVal, metaDefVal env v ≠ .err
  | .param p vt => by simp only [metaDefVal]; exact fun h => (nomatch h)
  | .cilDef _ => by simp only [metaDefVal]; exact fun h => (nomatch h)
  | .milDef (.mk members refs old) u => by
    simp only [metaDefVal]
    exact bind_ne_err (metaList_ne_err env (.mk members refs old)) fun _ _ => map_ne_err (metaRefs_ne_err env refs)
end

theorem metaRootVals_ne_err (env : Env) : ∀ l : AMap (Nat × RootValI), metaRootVals env l ≠ .err
  | [] => fun h => (nomatch h)
  | (k, id, v) :: r => by
    simp only [metaRootVals]
    refine bind_ne_err ?_ fun _ _ => map_ne_err (metaRootVals_ne_err env r)
    cases v with
    | mlist d u => simp only [metaRootVal]; exact bind_ne_err (metaList_ne_err env d) fun _ _ => map_ne_err (metaRefs_ne_err env d.refs)
    | _ => exact fun h => (nomatch h)

theorem metaRoot_ne_err (env : Env) (l : AMap (Nat × RootValI)) : metaRoot env l ≠ .err :=
  bind_ne_err (metaRootVals_ne_err env l) fun _ _ => fill_ne_err _ _

theorem objRun_rootMap {env : Env} (he : env.Sound) {m : List (String × JVal)} {o : TmpObj} (ho : obj env false m 0 {} = .ok o) {r : Root}
    (hr : intoRoot env o = .ok r) : ∃ l, RootMap m l r.old := by
  obtain ⟨l, hl⟩ := obj_run env false m 0 {} ho
  have hm := hl.members he
  have hrefs : RefsAre (refEntries m) o.refs.def := refsAre_of (fun _ _ _ _ => refsGood env he _) hl.refs
  unfold intoRoot at hr
  split at hr
  · cases hr
  rename_i hid
  split at hr
  · cases hr
  rename_i href
  obtain ⟨x, hx, hr⟩ := bind_inv hr
  obtain ⟨t, _, rfl⟩ := map_inv hr
  obtain ⟨h1, _⟩ := rootHash_spec _ _ _ (d' := x.1) (s' := x.2) hm.nodup hx
  refine ⟨l.map (·.1), hl.decls, ?_, oldIs_of hl.old, ⟨_, hrefs, ?_⟩, ?_, ?_⟩
  · rcases (idRun_iff _ _).1 hl.id with ⟨h, _⟩ | ⟨s, _, h⟩ | ⟨f, _, h⟩
    · exact h
    · rw [h] at hid; simp at hid
    · rw [h] at hid; simp at hid
  · have : o.refs.map = [] := by simpa using href
    exact this
  · intro d hd
    obtain ⟨e, he', rfl⟩ := List.mem_map.1 hd
    exact ⟨e.2, C83_value env he _ _ _ (hl.vals e he')⟩
  · intro d hd
    obtain ⟨i, x, h4, h5⟩ := hm.last d hd
    obtain ⟨y, sab, h6, _⟩ := h1 _ _ _ h4
    exact ⟨y, sab, x, C83_value env he _ _ _ h5, (rootValOf_iff _ _ _).2 h6⟩

theorem rootMap_obj {env : Env} (he : env.Sound) {m : List (String × JVal)} {l : List Decl} {old : List String} (h : RootMap m l old) :
    ∃ o, obj env false m 0 {} = .ok o ∧ intoRoot env o ≠ .err := by
  obtain ⟨h1, h2, h3, ⟨r, h4, h5⟩, h6, h7⟩ := h
  haveI : Nonempty RustVal := ⟨.mil none⟩
  choose! f hf using h6
  obtain ⟨o, ho, h8, _, _, h9, h10, h11⟩ := obj_ok he (fun e _ => good he e.2) h1 h3 h4 hf (i := none) (by rw [show under "ID" m = [] from h2]; rfl)
  refine ⟨o, ho, ?_⟩
  obtain ⟨x, hx⟩ := Export.rootHash_ok (env.order o.default) [] [] (by
    rintro ⟨k, j, x⟩ hx
    obtain ⟨d, hd, rfl, hx'⟩ := h10.from_ k j x hx
    obtain ⟨y, s, x0, hr, hy⟩ := h7 d hd
    obtain ⟨x1, hx1, hk⟩ := C83_value_read env he _ _ _ hr
    have hx' : item env d.vt d.val = .ok x := hx'
    rw [hx1, Res.ok.injEq] at hx'
    subst hx'
    exact root_kind hk hy)
  unfold intoRoot
  rw [h8, h9.2 h5, hx]
  simp only [Option.isSome_none, Bool.false_eq_true, if_false, List.length_nil, ne_eq, not_true, Res.bind_ok]
  cases hm : metaRoot env x.1 with
  | ok t => simp [Res.map]
  | panic => simp [Res.map]
  | err => exact absurd hm (metaRoot_ne_err env _)

/-- a file is a member -/
def MemberFile (e : String × JVal) : Prop := e.1 ≠ "root" ∧ ∃ n vt y sab, Written e.1 n vt ∧ ReadsRoot ⟨n, vt, e.2⟩ y sab

theorem memberFile_of {env : Env} (he : env.Sound) {s : String} {v : JVal} {x : FileItem} (hs : s ≠ "root") (h : fileItem env s v = .ok x) : MemberFile (s, v) := by
  obtain ⟨d, y, sab, rfl, hw, ⟨z, hz, hz'⟩, _⟩ := fileItem_member hs h
  exact ⟨hs, d.name, d.vt, y, sab, hw, z, C83_value env he _ _ _ hz, (rootValOf_iff _ _ _).2 hz'⟩

theorem memberFile_run {env : Env} (he : env.Sound) {s : String} {v : JVal} (h : MemberFile (s, v)) : ∃ n y sab, fileItem env s v = .ok (.member n y sab) := by
  obtain ⟨hs, n, vt, y, sab, hw, x, hx, hy⟩ := h
  obtain ⟨x', hx', hk⟩ := C83_value_read env he _ _ _ hx
  obtain ⟨y', hy'⟩ := root_kind hk hy
  refine ⟨n, y'.1, y'.2, ?_⟩
  simp only at hs hw hx'
  unfold fileItem
  rw [if_neg hs, written_iff.1 hw]
  simp only [hx', Res.bind_ok, hy', Res.map_ok, String.ofList_toList]

theorem memberFiles_of {env : Env} (he : env.Sound) : ∀ (files : List (String × JVal)) {items : List FileItem} {ms : List Member},
    fileItems env files = .ok items → memberItems items = .ok ms → ∀ e ∈ files, MemberFile e
  | [], items, ms, _, _ => fun _ h => (nomatch h)
  | (s, v) :: r, items, ms, h, hm => by
    obtain ⟨x, l, hx, hl, rfl⟩ := fileItems_cons h
    by_cases hs : s = "root"
    · subst hs
      obtain ⟨m, o, rr, rfl, ho, hr, rfl⟩ := fileItem_root hx
      cases hm
    · have h1 := memberFile_of he hs hx
      obtain ⟨d, y, sab, _, _, _, rfl⟩ := fileItem_member hs hx
      simp only [memberItems] at hm
      obtain ⟨ms', hm', _⟩ := map_inv hm
      intro e he'
      rcases List.mem_cons.1 he' with rfl | he'
      · exact h1
      · exact memberFiles_of he r hl hm' e he'

theorem memberFiles_run {env : Env} (he : env.Sound) : ∀ (files : List (String × JVal)), (∀ e ∈ files, MemberFile e) →
    ∃ ms : List Member, fileItems env files = .ok (ms.map fun e => .member e.1 e.2.1 e.2.2)
  | [], _ => ⟨[], rfl⟩
  | (s, v) :: r, h => by
    obtain ⟨n, y, sab, h1⟩ := memberFile_run he (h _ List.mem_cons_self)
    obtain ⟨ms, h2⟩ := memberFiles_run he r fun e he' => h e (List.mem_cons_of_mem _ he')
    exact ⟨(n, y, sab) :: ms, by simp only [fileItems, h1, Res.bind_ok, h2, Res.map_ok, List.map_cons]⟩

theorem files_of {env : Env} (he : env.Sound) : ∀ (files : List (String × JVal)) {items rest : List FileItem} {root : Root} {ms : List Member},
    fileItems env files = .ok items → takeRoot items = some (root, rest) → memberItems rest = .ok ms →
    ∃ p m s l, files = p ++ ("root", .map m) :: s ∧ RootMap m l root.old ∧ ∀ e ∈ p ++ s, MemberFile e
  | [], items, rest, root, ms, h, ht, _ => by cases h; cases ht
  | (s, v) :: r, items, rest, root, ms, h, ht, hm => by
    obtain ⟨x, l, hx, hl, rfl⟩ := fileItems_cons h
    by_cases hs : s = "root"
    · subst hs
      obtain ⟨m, o, rr, rfl, ho, hr, rfl⟩ := fileItem_root hx
      simp only [takeRoot, Option.some.injEq, Prod.mk.injEq] at ht
      obtain ⟨rfl, rfl⟩ := ht
      obtain ⟨l', hl'⟩ := objRun_rootMap he ho hr
      exact ⟨[], m, r, l', rfl, hl', memberFiles_of he r hl hm⟩
    · have h1 := memberFile_of he hs hx
      obtain ⟨d, y, sab, _, _, _, rfl⟩ := fileItem_member hs hx
      simp only [takeRoot, Option.map_eq_some_iff] at ht
      obtain ⟨⟨root', rest'⟩, ht, he'⟩ := ht
      simp only [Prod.mk.injEq] at he'
      obtain ⟨rfl, rfl⟩ := he'
      simp only [memberItems] at hm
      obtain ⟨ms', hm', _⟩ := map_inv hm
      obtain ⟨p, m, s', l', h2, h3, h4⟩ := files_of he r hl ht hm'
      refine ⟨(s, v) :: p, m, s', l', by rw [h2]; rfl, h3, fun e he' => ?_⟩
      rcases List.mem_cons.1 he' with rfl | he'
      · exact h1
      · exact h4 e he'

theorem fileItems_append (env : Env) (b : List (String × JVal)) : ∀ a, fileItems env (a ++ b) = (fileItems env a).bind fun x => (fileItems env b).map (x ++ ·)
  | [] => by simp only [List.nil_append, fileItems, Res.bind_ok]; cases fileItems env b <;> rfl
  | (s, v) :: r => by
    simp only [List.cons_append, fileItems, fileItems_append env b r]
    cases fileItem env s v with
    | ok x =>
      simp only [Res.bind_ok]
      cases fileItems env r with
      | ok y => simp only [Res.bind_ok, Res.map_ok]; cases fileItems env b <;> rfl
      | _ => rfl
    | _ => rfl

theorem takeRoot_members (root : Root) (l : List FileItem) : ∀ ms : List Member, takeRoot ((ms.map fun e => .member e.1 e.2.1 e.2.2) ++ .root root :: l) =
    some (root, (ms.map fun e => .member e.1 e.2.1 e.2.2) ++ l)
  | [] => rfl
  | m :: ms => by simp only [List.map_cons, List.cons_append, takeRoot, takeRoot_members root l ms, Option.map_some]

theorem memberItems_members : ∀ ms : List Member, memberItems (ms.map fun e => .member e.1 e.2.1 e.2.2) = .ok ms
  | [] => rfl
  | m :: ms => by simp only [List.map_cons, memberItems, memberItems_members ms, Res.map_ok]

/-- **C83.** A source that is loaded is readable. -/
theorem C83_load (env : Env) (he : env.Sound) (files : List (String × JVal)) (r : Root) (h : loadDir env files = .ok r) : Readable files := by
  obtain ⟨items, root, rest, ms, h1, h2, h3, h4⟩ := loadDir_inv h
  obtain ⟨p, m, s, l, h5, h6, h7⟩ := files_of he files h1 h2 h3
  exact ⟨p, m, s, l, root.old, h5, h6, h7⟩

/-- **C83, conversely.** No error is returned for a readable source. -/
theorem C83_no_error (env : Env) (he : env.Sound) (files : List (String × JVal)) (h : Readable files) : loadDir env files ≠ .err := by
  obtain ⟨p, m, s, l, old, rfl, h1, h2⟩ := h
  obtain ⟨mp, hp⟩ := memberFiles_run he p fun e he' => h2 e (List.mem_append_left _ he')
  obtain ⟨mq, hq⟩ := memberFiles_run he s fun e he' => h2 e (List.mem_append_right _ he')
  obtain ⟨o, ho, hr⟩ := rootMap_obj he h1
  unfold loadDir
  rw [fileItems_append, hp, Res.bind_ok, fileItems]
  have hf : fileItem env "root" (.map m) = (intoRoot env o).map .root := by
    unfold fileItem
    rw [if_pos rfl]
    simp only [ho, Res.bind_ok]
  rw [hf]
  cases hi : intoRoot env o with
  | err => exact absurd hi hr
  | panic => exact fun h => (nomatch h)
  | ok root =>
    simp only [Res.map_ok, Res.bind_ok, hq, takeRoot_members, ← List.map_append, memberItems_members]
    unfold constructRoot
    exact map_ne_err (metaRoot_ne_err env _)

/-- **C83 for sources that declare each name once.** They are loaded exactly if they are readable. -/
theorem C83_exact (env : Env) (he : env.Sound) (files : List (String × JVal))
    (hr : ∀ m l, ("root", .map m) ∈ files → MapDecls m l → Distinct l) (hd : ∀ l, SourceDecls files l → Distinct l) :
    (∃ r, loadDir env files = .ok r) ↔ Readable files := by
  constructor
  · rintro ⟨r, h⟩; exact C83_load env he files r h
  · intro h
    cases hl : loadDir env files with
    | ok r => exact ⟨r, rfl⟩
    | err => exact absurd hl (C83_no_error env he files h)
    | panic => exact absurd hl (C59_distinct_partial env he files hr hd)

/-- **C83, what is loaded.** The old names are those of the root object. Each name has what its last declaration is in the language; a name
that is declared once also has its items, and nothing else is there. -/
theorem C83_content (env : Env) (he : env.Sound) (files : List (String × JVal)) (r : Root) (h : loadDir env files = .ok r) :
    ∃ m lr lf, ("root", .map m) ∈ files ∧ OldIs m r.old ∧ DeclsOf files lr lf ∧
      (∀ d p s, lr ++ lf = p ++ d :: s → d.name ∉ names s → ∃ id y sab, r.defs.get d.name = some (id, y) ∧ ReadsRoot d y sab ∧
        (d.name ∉ names p → r.sabun.get d.name = sab)) ∧
      ∀ n, n ∉ names (lr ++ lf) → r.defs.get n = none := by
  obtain ⟨⟨L⟩, _⟩ := loads env he h
  obtain ⟨items, root, rest, ms, h1, h2, h3, h4⟩ := loadDir_inv h
  obtain ⟨p, m, s, l, h5, h6, h7⟩ := files_of he files h1 h2 h3
  have ho : r.old = root.old := by
    unfold constructRoot at h4
    obtain ⟨t, _, rfl⟩ := map_inv h4
    rfl
  refine ⟨m, L.rd, L.fd, by rw [h5]; simp, by rw [ho]; exact h6.2.2.1, L.declsOf, fun d p s hs hd => ?_, fun n hn => by rw [AMap.get_eq_none, L.keys]; exact hn⟩
  obtain ⟨y, sab, ⟨x, ha, hb⟩, hc, hs'⟩ := L.last hs hd
  exact ⟨_, y, sab, hc, ⟨x, C83_value env he _ _ _ ha, (rootValOf_iff _ _ _).2 hb⟩, hs'⟩

theorem sameRefs (r : RefDefI) : SameRefs r r.erase := by
  refine ⟨?_, Iff.rfl, rfl⟩
  simp only [RefDefI.erase]
  induction r.refs with
  | nil => exact .nil
  | cons e l ih => exact .cons ⟨rfl, rfl, rfl⟩ ih

mutual
theorem sameDef : ∀ d : LDef, SameDef d d.erase
  | .mk ms r o => by simp only [LDef.erase]; exact .mk (sameMembers ms) (sameRefs r)
theorem sameMembers : ∀ l : List (String × Nat × LDefVal), SameMembers l (eraseMembers l)
  | [] => by simp only [eraseMembers]; exact .nil
  | (k, id, .param p vt) :: r => by simp only [eraseMembers, LDefVal.erase]; exact .param (sameMembers r)
  | (k, id, .cilDef d) :: r => by simp only [eraseMembers, LDefVal.erase]; exact .cilDef (sameDef d) (sameMembers r)
  | (k, id, .milDef d u) :: r => by simp only [eraseMembers, LDefVal.erase]; exact .milDef (sameDef d) (sameMembers r)
end

/-- **C83, the object that is validated and used** is the loaded one without its ids, at every depth. -/
theorem C83_object (r : Root) : r.erase.sabun = r.sabun ∧ r.erase.old = r.old ∧ ∀ n, (r.defs.get n = none → r.erase.defs.get n = none) ∧
    ∀ id y, r.defs.get n = some (id, y) → ∃ y', r.erase.defs.get n = some y' ∧ SameRootVal y y' := by
  refine ⟨rfl, rfl, fun n => ?_⟩
  have h : ∀ l : AMap (Nat × RootValI), AMap.get (l.map fun e => (e.1, e.2.2.erase)) n = (l.get n).map fun e => e.2.erase := by
    intro l
    induction l with
    | nil => rfl
    | cons e l ih =>
      simp only [List.map_cons, AMap.get, List.lookup_cons]
      split
      · rfl
      · exact ih
  refine ⟨fun hn => by simp only [Root.erase, h, hn, Option.map_none], fun id y hy => ⟨y.erase, by simp only [Root.erase, h, hy, Option.map_some], ?_⟩⟩
  cases y with
  | param p vt => exact .param p vt
  | table d l o => exact .table l o (sameDef d)
  | clist d l => exact .clist l (sameDef d)
  | mlist d u => exact .mlist u (sameDef d)

/-! ### Examples -/

example : ∃ y', (Root.mk [("a", 0, .mlist (.mk [("x", 0, .milDef (.mk [] ⟨[], true, []⟩ []) true)] ⟨[], false, []⟩ ["b"]) true)] [] [] []).erase.defs.get "a" = some y' ∧
    SameRootVal (.mlist (.mk [("x", 0, .milDef (.mk [] ⟨[], true, []⟩ []) true)] ⟨[], false, []⟩ ["b"]) true) y' :=
  ((C83_object _).2.2 "a").2 0 _ rfl

/-- the definition of a list with a member and a reference -/
def refDef : JVal := .map [("a", .int 1), ("Ref", .map [("t?", .null)]), ("Old", .array [.string "b"])]

/-- a source with a table, a list that refers to it, and an inner list -/
def grammarSource : List (String × JVal) :=
  [("l", .array [.string "MList", .array [.string "NextID", .int 9], .array [.string "Default", refDef],
      .map [("ID", .double one), ("a", .int 3), ("Ref", .map [("t", .string "x")])], .map []]),
   ("root", .map [("t", .array [.string "Table", .array [.map [("in", .array [.string "MilDef", .array [.map [("f", .double one)]]])]],
      .array [.string "Old", .string "u", .string "u"],
      .map [("ID", .string "x"), ("in", .array [.string "Mil", .map []])]]), ("Old", .array [.string "s"]), ("n?", .array [.string "Int", .null])])]

example : Readable grammarSource := by
  obtain ⟨r, h⟩ : ∃ r, loadDir idEnv grammarSource = .ok r := by
    have : ending (loadDir idEnv grammarSource) = 0 := by decide +kernel
    cases hl : loadDir idEnv grammarSource with
    | ok r => exact ⟨r, rfl⟩
    | err => rw [hl] at this; cases this
    | panic => rw [hl] at this; cases this
  exact C83_load idEnv idEnv_sound _ r h

/-- constant lists have no old names -/
example : ∀ x, ¬ Reads .normal (written "CList" [[.map []], [.string "Old", .string "a"]] []) x :=
  (C83_value_refused idEnv idEnv_sound _ _).1 rfl
/-- constant inner lists have no next id -/
example : ∀ x, ¬ Reads .normal (written "Cil" [[.string "NextID", .int 3]] []) x := (C83_value_refused idEnv idEnv_sound _ _).1 rfl
/-- references are declared once -/
example : ∀ x, ¬ Reads .normal (written "CList" [[.map [("Ref", .map [("a", .string "x")]), ("Enum", .map [("b", .string "y")])]]] []) x :=
  (C83_value_refused idEnv idEnv_sound _ _).1 (by
    have : ending (item idEnv .normal (written "CList" [[.map [("Ref", .map [("a", .string "x")]), ("Enum", .map [("b", .string "y")])]]] [])) = 1 := by decide +kernel
    cases h : item idEnv .normal (written "CList" [[.map [("Ref", .map [("a", .string "x")]), ("Enum", .map [("b", .string "y")])]]] []) with
    | err => rfl
    | ok _ => rw [h] at this; cases this
    | panic => rw [h] at this; cases this)
/-- An empty list has the next id 0, whatever is written. -/
example : Reads .normal (written "Mil" [[.string "NextID", .int 7]] []) (.mil (some ([], 0))) :=
  .mil (n := some 7) (ms := []) (items := []) rfl (fun i m e h => by simp at h) (fun _ h => (nomatch h))

end Verif.Source
