import Verif.Props.Accessor
import Verif.Props.Source
/-!
# C69: sources whose generated accessor cannot be compiled

Every source here is loaded and validated; the names of its members clash, or are not identifiers.
-/
namespace Verif.Intf
open Core Diff Source

/-- the generated declarations, if the source is loaded and validated -/
def generated (files : List (String × JVal)) : Option (List Decl) :=
  match loadValid idEnv files with
  | .ok r => some (accessor r.erase)
  | _ => none

/-- `p` holds of what is generated -/
def generates (files : List (String × JVal)) (p : List Decl → Bool) : Bool :=
  match generated files with
  | some ds => p ds
  | none => false

theorem generates_iff {files : List (String × JVal)} {p : List Decl → Bool} (h : generates files p = true) :
    ∃ r, loadValid idEnv files = .ok r ∧ p (accessor r.erase) = true := by
  unfold generates generated at h
  cases hr : loadValid idEnv files with
  | ok r => rw [hr] at h; exact ⟨r, rfl, h⟩
  | err => rw [hr] at h; cases h
  | panic => rw [hr] at h; cases h

def sameType (ds : List Decl) : Bool := !decide (ds.map (·.name)).Nodup
def sameFn (ds : List Decl) : Bool := ds.any fun d => !decide (d.fns.map (·.name)).Nodup
def sameVariant (ds : List Decl) : Bool := ds.any fun d => match d.variants with
  | some vs => !decide vs.Nodup
  | none => false
def noVariant (ds : List Decl) : Bool := ds.any fun d => d.repr && decide (d.variants = some [])
def keywordFn (ds : List Decl) : Bool := ds.any fun d => d.fns.any fun f => decide (f.name ∈ keywords ∨ f.name = ['_'])
def keywordVariant (ds : List Decl) : Bool := ds.any fun d => match d.variants with
  | some vs => vs.any fun v => decide (v ∈ keywords)
  | none => false
def badLetter (ds : List Decl) : Bool := ds.any fun d => d.fns.any fun f => f.name.any fun c => !decide (WordChar c)

def undeclared (ds : List Decl) : Bool := ds.any fun d => d.uses.any fun u => decide (u ∉ ds.map (·.name))

theorem not_declarable {ds : List Decl} (h : (undeclared ds || sameType ds || sameFn ds || sameVariant ds || noVariant ds || keywordFn ds || keywordVariant ds || badLetter ds) = true) :
    ¬ Declarable ds := by
  intro hd
  simp only [Bool.or_eq_true] at h
  rcases h with ((((((h | h) | h) | h) | h) | h) | h) | h
  · simp only [undeclared, List.any_eq_true, decide_eq_true_eq] at h
    obtain ⟨d, hm, u, hu, h⟩ := h
    exact h (hd.used d hm u hu)
  · simp only [sameType, Bool.not_eq_true', decide_eq_false_iff_not] at h
    exact h hd.types
  · simp only [sameFn, List.any_eq_true, Bool.not_eq_true', decide_eq_false_iff_not] at h
    obtain ⟨d, hm, h⟩ := h
    exact h (hd.fns d hm)
  · simp only [sameVariant, List.any_eq_true] at h
    obtain ⟨d, hm, h⟩ := h
    cases hv : d.variants with
    | none => rw [hv] at h; cases h
    | some vs =>
      rw [hv] at h
      simp only [Bool.not_eq_true', decide_eq_false_iff_not] at h
      exact h (hd.variants d hm vs hv)
  · simp only [noVariant, List.any_eq_true, Bool.and_eq_true, decide_eq_true_eq] at h
    obtain ⟨d, hm, h1, h2⟩ := h
    exact hd.inhabited d hm h1 h2
  · simp only [keywordFn, List.any_eq_true, decide_eq_true_eq] at h
    obtain ⟨d, hm, f, hf, h⟩ := h
    have := hd.fnIdents d hm f hf
    rcases h with h | h
    · exact this.2.2 h
    · exact this.2.1 h
  · simp only [keywordVariant, List.any_eq_true] at h
    obtain ⟨d, hm, h⟩ := h
    cases hv : d.variants with
    | none => rw [hv] at h; cases h
    | some vs =>
      rw [hv] at h
      simp only [List.any_eq_true, decide_eq_true_eq] at h
      obtain ⟨v, hv', h⟩ := h
      exact (hd.variantIdents d hm vs hv v hv').2.2 h
  · simp only [badLetter, List.any_eq_true, Bool.not_eq_true', decide_eq_false_iff_not] at h
    obtain ⟨d, hm, f, hf, c, hc, h⟩ := h
    exact h ((hd.fnIdents d hm f hf).1.chars c hc)

/-- a source of the root object alone -/
def rootOf (m : List (String × JVal)) : List (String × JVal) := [("root", .map m)]
/-- an empty list with these members -/
def mlistOf (m : List (String × JVal)) : JVal := .array [.string "MList", .array [.map m]]
/-- an empty list with these members -/
def clistOf (m : List (String × JVal)) : JVal := .array [.string "CList", .array [.map m]]
/-- a table with these ids and no members -/
def tableWith (ids : List String) : JVal := .array (.string "Table" :: .array [.map []] :: ids.map fun s => .map [("ID", .string s)])

/-- names that differ in the source are the same function -/
theorem C69_negation_case : generates (rootOf [("aB", .int 1), ("a_b", .int 2)]) sameFn = true := by decide +kernel
theorem C69_negation_at : generates (rootOf [("@a", .int 1), ("ata", .int 2)]) sameFn = true := by decide +kernel
/-- the name of a member is what is generated for another one -/
theorem C69_negation_def : generates (rootOf [("a", .int 1), ("a_def_val", .int 2)]) sameFn = true := by decide +kernel
theorem C69_negation_mut : generates (rootOf [("a", .string ""), ("a_mut", .int 2)]) sameFn = true := by decide +kernel
theorem C69_negation_set : generates (rootOf [("a", .int 1), ("setA", .int 2)]) sameFn = true := by decide +kernel
/-- the old member `set` and the setter of `old` -/
theorem C69_negation_old : generates (rootOf [("set", .int 1), ("old", .int 2), ("Old", .array [.string "set"])]) sameFn = true := by decide +kernel
/-- the name of a member is the name of a function that every accessor has -/
theorem C69_negation_new : generates (rootOf [("new", .int 1)]) sameFn = true := by decide +kernel
theorem C69_negation_from : generates (rootOf [("l", mlistOf [("from", .int 1)])]) sameFn = true := by decide +kernel
/-- references to the tables `old` and `id`, of which `id` is old -/
theorem C69_negation_ref : generates (rootOf [("old", tableWith ["x"]), ("id", tableWith ["x"]),
    ("l", mlistOf [("Ref", .map [("old", .string "x"), ("id", .string "x"), ("Old", .array [.string "id"])])])]) sameFn = true := by decide +kernel
/-- keywords -/
theorem C69_negation_keyword : generates (rootOf [("type", .int 1)]) keywordFn = true := by decide +kernel
theorem C69_negation_underscore : generates (rootOf [("_", .int 1)]) keywordFn = true := by decide +kernel
/-- lists in different items with the same name give the same type -/
theorem C69_negation_nested : generates (rootOf [("a", mlistOf [("x", .array [.string "MilDef", .array [.map []]])]),
    ("b", mlistOf [("x", .array [.string "MilDef", .array [.map []]])])]) sameType = true := by decide +kernel
/-- the ids of a table are any strings -/
theorem C69_negation_key : generates (rootOf [("t", tableWith ["a b"])]) badLetter = true := by decide +kernel
theorem C69_negation_self : generates (rootOf [("t", tableWith ["self_"])]) keywordVariant = true := by decide +kernel
theorem C69_negation_variants : generates (rootOf [("t", tableWith ["aB", "a_b"])]) sameVariant = true := by decide +kernel
/-- an empty table gives an enum without variants, but with a representation -/
theorem C69_negation_empty : generates (rootOf [("t", tableWith [])]) noVariant = true := by decide +kernel

/-- a reference to a table that does not exist, in a list without items -/
theorem C69_negation_used : generates (rootOf [("l", mlistOf [("Ref", .map [("nothing", .string "x")])])]) undeclared = true := by decide +kernel

/-- **C69 is false.** -/
theorem C69_negation : ∃ files r, loadValid idEnv files = .ok r ∧ ¬ Declarable (accessor r.erase) := by
  obtain ⟨r, h1, h2⟩ := generates_iff C69_negation_case
  exact ⟨_, r, h1, not_declarable (by simp [h2])⟩

/-- two lists with an `Enum` and the same name, of which one is constant -/
theorem C69_negation_enums : generates (rootOf [("t", tableWith ["x"]), ("a", clistOf [("Enum", .map [("t?", .null)])]),
    ("b", mlistOf [("a", .array [.string "MilDef", .array [.map [("Enum", .map [("t?", .null)])]]])])]) sameType = true := by decide +kernel

/-! ## Plain names -/

/-- small letters and digits, and none of a few words -/
structure PlainName (n : String) : Prop where
  chars : ∃ c r, n.toList = c :: r ∧ Names.Lower c ∧ ∀ x ∈ r, Names.Lower x ∨ Names.Digit x
  keyword : n.toList ∉ keywords
  word : n.toList ∉ ["new", "deconstruct", "from", "set", "id", "old"].map String.toList

/-- small letters and digits -/
def PlainChar (c : Char) : Prop := Names.Lower c ∨ Names.Digit c
instance (c : Char) : Decidable (PlainChar c) := inferInstanceAs (Decidable (_ ∨ _))

theorem PlainChar.small {c : Char} (h : PlainChar c) : c.toNat < 128 := by
  rcases h with h | h
  · exact Nat.lt_of_le_of_lt h.2 (by decide)
  · exact Nat.lt_of_le_of_lt h.2 (by decide)

theorem PlainChar.facts {c : Char} (h : PlainChar c) : c ≠ '_' ∧ c ≠ '@' ∧ c.isUpper = false ∧ c.toLower = c ∧ ¬ Names.Upper c :=
  char_small (P := fun c => PlainChar c → c ≠ '_' ∧ c ≠ '@' ∧ c.isUpper = false ∧ c.toLower = c ∧ ¬ Names.Upper c) (by decide +kernel) c h.small h

theorem lower_upper {c : Char} (h : Names.Lower c) : Names.Upper c.toUpper ∧ c.toUpper.toLower = c :=
  char_small (P := fun c => Names.Lower c → Names.Upper c.toUpper ∧ c.toUpper.toLower = c) (by decide +kernel) c
    (Nat.lt_of_le_of_lt h.2 (by decide)) h

theorem snake_plain {r : List Char} (h : ∀ x ∈ r, PlainChar x) : r.flatMap snakeChar = r := by
  induction r with
  | nil => rfl
  | cons c r ih =>
    rw [List.flatMap_cons, ih fun x hx => h x (by simp [hx])]
    simp [snakeChar, (h c (by simp)).facts.2.2.1]

theorem tail_plain {r : List Char} (h : ∀ x ∈ r, PlainChar x) : typeTail false r = r := by
  induction r with
  | nil => rfl
  | cons c r ih => rw [typeTail, ih fun x hx => h x (by simp [hx]), if_neg (h c (by simp)).facts.1]; rfl

namespace PlainName
variable {n : String} (h : PlainName n)
include h

theorem plain : ∀ x ∈ n.toList, PlainChar x := by
  obtain ⟨c, r, e, hc, hr⟩ := h.chars
  rw [e]
  intro x hx
  rcases List.mem_cons.1 hx with rfl | hx
  · exact .inl hc
  · exact hr x hx

theorem snake : snakeName n.toList = n.toList := by
  have hp := h.plain
  obtain ⟨c, r, e, hc, hr⟩ := h.chars
  rw [e] at hp ⊢
  have f := (hp c (by simp)).facts
  simp only [snakeName, if_neg f.2.1, f.2.2.2.1]
  rw [snake_plain fun x hx => hp x (by simp [hx])]
  rfl

theorem camel_eq : ∃ c r, n.toList = c :: r ∧ Names.Lower c ∧ (∀ x ∈ r, PlainChar x) ∧ typeName n.toList = c.toUpper :: r := by
  have hp := h.plain
  obtain ⟨c, r, e, hc, hr⟩ := h.chars
  rw [e] at hp ⊢
  have f := (hp c (by simp)).facts
  refine ⟨c, r, rfl, hc, fun x hx => hp x (by simp [hx]), ?_⟩
  simp only [typeName, if_neg f.2.1]
  rw [tail_plain fun x hx => hp x (by simp [hx])]
  rfl

theorem ident : Names.Ident n.toList := by
  obtain ⟨c, r, e, hc, hr⟩ := h.chars
  exact ⟨c, r, e, .inl hc, fun x hx => (hr x hx).elim .inl fun h => .inr (.inr (.inl h))⟩

theorem no_underscore : '_' ∉ n.toList := fun hm => (h.plain _ hm).facts.1 rfl

theorem no_suffix (w : List Char) (hw : '_' ∈ w) : ¬ w <:+ n.toList := fun hs => h.no_underscore (hs.subset hw)

theorem no_first (w : List Char) (hn : n.toList ≠ w) : ¬ w ++ ['_'] <+: n.toList ++ ['_'] := by
  intro hp
  obtain ⟨t, ht⟩ := hp
  rcases List.eq_nil_or_concat t with rfl | ⟨t, x, rfl⟩
  · rw [List.append_nil] at ht
    exact hn (List.append_cancel_right ht).symm
  · have e : (w ++ '_' :: t) ++ [x] = n.toList ++ ['_'] := by simpa using ht
    have := List.append_inj_left' e rfl
    exact h.no_underscore (this ▸ by simp)

theorem camel_keyword : typeName n.toList ∉ keywords ∧ typeName n.toList ≠ ['_'] := by
  obtain ⟨c, r, e, hc, hr, ht⟩ := h.camel_eq
  have hu := lower_upper hc
  rw [ht]
  constructor
  · intro hk
    have h1 := (by decide +kernel : ∀ k ∈ keywords, Names.Upper (k.headD ' ') → k = "Self".toList) _ hk hu.1
    have h2 := List.cons.inj (h1.trans (show "Self".toList = 'S' :: "elf".toList by decide))
    have h3 : c = 's' := by rw [← hu.2, h2.1]; decide
    refine h.keyword ?_
    rw [e, h3, h2.2]
    decide
  · intro he
    have := (List.cons.inj he).1
    rw [this] at hu
    exact absurd hu.1 (by decide)

theorem no_old : ¬ "Old".toList <:+ typeName n.toList := by
  obtain ⟨c, r, e, hc, hr, ht⟩ := h.camel_eq
  have hu := lower_upper hc
  rw [ht]
  intro hs
  rcases List.suffix_cons_iff.1 hs with h1 | h1
  · have h2 := List.cons.inj ((show 'O' :: "ld".toList = "Old".toList by decide).trans h1)
    have h3 : c = 'o' := by rw [← hu.2, ← h2.1]; decide
    refine h.word ?_
    rw [e, h3, ← h2.2]
    decide
  · exact (hr 'O' (h1.subset (by decide))).facts.2.2.2.2 (by decide)

theorem goodName : GoodName n := by
  have hw := h.word
  refine ⟨h.ident, ?_, ?_, ?_, ?_, ?_⟩ <;> rw [h.snake]
  · intro w hw'
    simp only [List.mem_cons, List.not_mem_nil, or_false] at hw'
    rcases hw' with rfl | rfl
    · exact h.no_first "set".toList (fun he => h.word (he ▸ by decide))
    · exact h.no_first "ref".toList (fun he => h.keyword (he ▸ by decide))
  · intro w hw'
    exact h.no_suffix _ ((by decide : ∀ w ∈ ["_old", "_def_val", "_mut"], '_' ∈ w.toList) w hw')
  · intro hm
    have := (by decide : ∀ x ∈ ["new", "root_obj_ref", "deconstruct", "from", "get_enum", "get_enum_ids"].map String.toList,
      '_' ∈ x ∨ x ∈ ["new", "deconstruct", "from", "set", "id", "old"].map String.toList) _ hm
    rcases this with h1 | h1
    · exact h.no_underscore h1
    · exact hw h1
  · exact h.keyword
  · intro he
    exact h.no_underscore (he ▸ by simp)

theorem goodRef : GoodRef n := by
  refine ⟨h.ident, ?_, ?_, h.camel_keyword⟩ <;> rw [h.snake]
  · exact h.no_first "id".toList (fun he => h.word (he ▸ by decide))
  · exact h.no_suffix _ (by decide)

theorem goodKey : GoodKey n := by
  refine ⟨h.ident, ?_, ?_, ?_, ?_, h.no_old, h.camel_keyword⟩ <;> rw [h.snake]
  · intro w hw'
    exact h.no_suffix _ ((by decide : ∀ w ∈ ["_old", "_us"], '_' ∈ w.toList) w hw')
  · intro hm
    have := (by decide : ∀ x ∈ ["new", "get_by_id"].map String.toList,
      '_' ∈ x ∨ x ∈ ["new", "deconstruct", "from", "set", "id", "old"].map String.toList) _ hm
    rcases this with h1 | h1
    · exact h.no_underscore h1
    · exact h.word h1
  · exact h.keyword
  · intro he
    exact h.no_underscore (he ▸ by simp)

theorem snake_inj {m : String} (hm : PlainName m) (he : snakeName n.toList = snakeName m.toList) : n = m := by
  rw [h.snake, hm.snake] at he
  exact String.toList_injective he

theorem camel_inj {m : String} (hm : PlainName m) (he : typeName n.toList = typeName m.toList) : n = m := by
  obtain ⟨c, r, e, hc, _, ht⟩ := h.camel_eq
  obtain ⟨c', r', e', hc', _, ht'⟩ := hm.camel_eq
  rw [ht, ht'] at he
  have := List.cons.inj he
  refine String.toList_injective ?_
  rw [e, e', this.2, ← (lower_upper hc).2, this.1, (lower_upper hc').2]

end PlainName

/-! ### The names of lists are names of members -/

mutual
theorem constStems_of {P : String → Prop} {r : RootObj} (h : ∀ d, HasDef r d → ∀ e ∈ d.members, P e.1) {stem : String} (hs : P stem) :
    (d : ListDef) → HasDef r d → (∀ n ∈ constStems stem d, P n) ∧ ∀ n ∈ constEnums stem d, P n
  | .mk members refs old, hd => by
    have ih := constStemsIn_of h members (h _ hd) (fun k d' hk => .cil hd hk)
    constructor
    · intro n hn
      rw [constStems] at hn
      rcases List.mem_cons.1 hn with rfl | hn
      · exact hs
      · exact ih.1 n hn
    · intro n hn
      rw [constEnums] at hn
      rcases List.mem_append.1 hn with hn | hn
      · exact ih.2 n hn
      · split at hn
        · rw [List.mem_singleton.1 hn]; exact hs
        · simp at hn
theorem constStemsIn_of {P : String → Prop} {r : RootObj} (h : ∀ d, HasDef r d → ∀ e ∈ d.members, P e.1) :
    (l : List (String × DefVal)) → (∀ e ∈ l, P e.1) → (∀ k d', (k, DefVal.cilDef d') ∈ l → HasDef r d') →
    (∀ n ∈ constStemsIn l, P n) ∧ ∀ n ∈ constEnumsIn l, P n
  | [], _, _ => by simp [constStemsIn, constEnumsIn]
  | (k, v) :: l, hi, hd => by
    have i1 := constStemsVal_of h (hi (k, v) (by simp)) v (fun d' hv => hd k d' (by simp [hv]))
    have i2 := constStemsIn_of h l (fun e he => hi e (by simp [he])) (fun k d' hk => hd k d' (by simp [hk]))
    constructor
    · intro n hn
      rw [constStemsIn] at hn
      exact (List.mem_append.1 hn).elim (i1.1 n) (i2.1 n)
    · intro n hn
      rw [constEnumsIn] at hn
      exact (List.mem_append.1 hn).elim (i1.2 n) (i2.2 n)
theorem constStemsVal_of {P : String → Prop} {r : RootObj} (h : ∀ d, HasDef r d → ∀ e ∈ d.members, P e.1) {k : String} (hk : P k) :
    (v : DefVal) → (∀ d', v = .cilDef d' → HasDef r d') → (∀ n ∈ constStemsVal k v, P n) ∧ ∀ n ∈ constEnumsVal k v, P n
  | .cilDef d, hd => by
    rw [constStemsVal, constEnumsVal]
    exact constStems_of h hk d (hd d rfl)
  | .milDef _ _, _ => by simp [constStemsVal, constEnumsVal]
  | .param _ _, _ => by simp [constStemsVal, constEnumsVal]
end

mutual
theorem mutStems_of {P : String → Prop} {r : RootObj} (h : ∀ d, HasDef r d → ∀ e ∈ d.members, P e.1) {stem : String} (hs : P stem) :
    (d : ListDef) → HasDef r d → (∀ n ∈ mutStems stem d, P n) ∧ ∀ n ∈ mutEnums stem d, P n
  | .mk members refs old, hd => by
    have ih := mutStemsIn_of h members (h _ hd) (fun k d' u hk => .mil hd hk)
    constructor
    · intro n hn
      rw [mutStems] at hn
      rcases List.mem_cons.1 hn with rfl | hn
      · exact hs
      · exact ih.1 n hn
    · intro n hn
      rw [mutEnums] at hn
      rcases List.mem_append.1 hn with hn | hn
      · exact ih.2 n hn
      · split at hn
        · rw [List.mem_singleton.1 hn]; exact hs
        · simp at hn
theorem mutStemsIn_of {P : String → Prop} {r : RootObj} (h : ∀ d, HasDef r d → ∀ e ∈ d.members, P e.1) :
    (l : List (String × DefVal)) → (∀ e ∈ l, P e.1) → (∀ k d' u, (k, DefVal.milDef d' u) ∈ l → HasDef r d') →
    (∀ n ∈ mutStemsIn l, P n) ∧ ∀ n ∈ mutEnumsIn l, P n
  | [], _, _ => by simp [mutStemsIn, mutEnumsIn]
  | (k, v) :: l, hi, hd => by
    have i1 := mutStemsVal_of h (hi (k, v) (by simp)) v (fun d' u hv => hd k d' u (by simp [hv]))
    have i2 := mutStemsIn_of h l (fun e he => hi e (by simp [he])) (fun k d' u hk => hd k d' u (by simp [hk]))
    constructor
    · intro n hn
      rw [mutStemsIn] at hn
      exact (List.mem_append.1 hn).elim (i1.1 n) (i2.1 n)
    · intro n hn
      rw [mutEnumsIn] at hn
      exact (List.mem_append.1 hn).elim (i1.2 n) (i2.2 n)
theorem mutStemsVal_of {P : String → Prop} {r : RootObj} (h : ∀ d, HasDef r d → ∀ e ∈ d.members, P e.1) {k : String} (hk : P k) :
    (v : DefVal) → (∀ d' u, v = .milDef d' u → HasDef r d') → (∀ n ∈ mutStemsVal k v, P n) ∧ ∀ n ∈ mutEnumsVal k v, P n
  | .milDef d u, hd => by
    rw [mutStemsVal, mutEnumsVal]
    exact mutStems_of h hk d (hd d u rfl)
  | .cilDef _, _ => by simp [mutStemsVal, mutEnumsVal]
  | .param _ _, _ => by simp [mutStemsVal, mutEnumsVal]
end

theorem stems_of {P : String → Prop} {r : RootObj} (h0 : ∀ e ∈ r.defs, P e.1) (h : ∀ d, HasDef r d → ∀ e ∈ d.members, P e.1) :
    (∀ n ∈ rootConst r, P n) ∧ (∀ n ∈ rootMut r, P n) ∧ ∀ n ∈ rootEnums r, P n := by
  refine ⟨?_, ?_, ?_⟩
  · intro n hn
    obtain ⟨⟨k, v⟩, hm, hn⟩ := List.mem_flatMap.1 hn
    cases v with
    | param p vt => simp at hn
    | table d l o => exact (constStems_of h (h0 _ hm) d (.table hm)).1 n hn
    | clist d l => exact (constStems_of h (h0 _ hm) d (.clist hm)).1 n hn
    | mlist d u => simp at hn
  · intro n hn
    obtain ⟨⟨k, v⟩, hm, hn⟩ := List.mem_flatMap.1 hn
    cases v with
    | mlist d u => exact (mutStems_of h (h0 _ hm) d (.mlist hm)).1 n hn
    | _ => simp at hn
  · intro n hn
    obtain ⟨⟨k, v⟩, hm, hn⟩ := List.mem_flatMap.1 hn
    cases v with
    | param p vt => simp at hn
    | table d l o => exact (constStems_of h (h0 _ hm) d (.table hm)).2 n hn
    | clist d l => exact (constStems_of h (h0 _ hm) d (.clist hm)).2 n hn
    | mlist d u => exact (mutStems_of h (h0 _ hm) d (.mlist hm)).2 n hn

/-- **C69 for plain names.** If all names consist of small letters and digits and are none of a few words, if no table is empty and if no
two lists with constant items, no two lists with mutable items and no two lists with an `Enum` have the same name, and if references are
references to tables, everything that is generated can be declared. -/
theorem C69_plain_partial {r : RootObj} (h0 : ∀ e ∈ r.defs, PlainName e.1) (n0 : (r.defs.map (·.1)).Nodup)
    (hd : ∀ d, HasDef r d → (∀ e ∈ d.members, PlainName e.1) ∧ (d.members.map (·.1)).Nodup ∧
      (∀ e ∈ d.refs.refs, PlainName e.1) ∧ (d.refs.refs.map (·.1)).Nodup)
    (ht : ∀ k d list old, (k, RootVal.table d list old) ∈ r.defs → (∀ e ∈ list, PlainName e.1) ∧ (list.map (·.1)).Nodup ∧ list ≠ [])
    (hc : (rootConst r).Nodup) (hm : (rootMut r).Nodup) (he : (rootEnums r).Nodup)
    (hr : ∀ d, HasDef r d → ∀ e ∈ d.refs.refs, ∃ td list old, (e.1, RootVal.table td list old) ∈ r.defs) : Declarable (accessor r) := by
  have snakes : ∀ {α : Type} (l : List (String × α)), (∀ e ∈ l, PlainName e.1) → (l.map (·.1)).Nodup →
      (l.map fun e => snakeName e.1.toList).Nodup := by
    intro α l hp hn
    have := hn.map_on (f := fun n : String => snakeName n.toList) (by
      intro x hx y hy he
      obtain ⟨e, h1, rfl⟩ := List.mem_map.1 hx
      obtain ⟨e', h2, rfl⟩ := List.mem_map.1 hy
      exact (hp e h1).snake_inj (hp e' h2) he)
    rwa [List.map_map] at this
  have camels : ∀ {l : List String}, (∀ n ∈ l, PlainName n) → l.Nodup → (l.map fun n => typeName n.toList).Nodup := by
    intro l hp hn
    exact hn.map_on fun x hx y hy he => (hp x hx).camel_inj (hp y hy) he
  have camels' : ∀ {α : Type} (l : List (String × α)), (∀ e ∈ l, PlainName e.1) → (l.map (·.1)).Nodup →
      (l.map fun e => typeName e.1.toList).Nodup := by
    intro α l hp hn
    have := camels (l := l.map (·.1)) (by intro n hn; obtain ⟨e, he, rfl⟩ := List.mem_map.1 hn; exact hp e he) hn
    rwa [List.map_map] at this
  obtain ⟨s1, s2, s3⟩ := stems_of h0 fun d h => (hd d h).1
  refine C69_declarable_partial ⟨fun e h => (h0 e h).goodName, snakes _ h0 n0, ?_, ?_, camels s1 hc, camels s2 hm, camels s3 he, hr⟩
  · intro d h
    obtain ⟨a, b, c, e⟩ := hd d h
    exact ⟨fun x hx => (a x hx).goodName, snakes _ a b, fun x hx => (c x hx).goodRef, snakes _ c e, fun _ => camels' _ c e⟩
  · intro k d list old h
    obtain ⟨a, b, c⟩ := ht k d list old h
    exact ⟨fun x hx => (a x hx).goodKey, snakes _ a b, camels' _ a b, c⟩

/-! ## Examples -/

theorem plainName_of {n : String} (h : (match n.toList with
    | [] => false
    | c :: r => decide (Names.Lower c) && r.all fun x => decide (PlainChar x)) = true) (h1 : n.toList ∉ keywords)
    (h2 : n.toList ∉ ["new", "deconstruct", "from", "set", "id", "old"].map String.toList) : PlainName n := by
  refine ⟨?_, h1, h2⟩
  cases e : n.toList with
  | nil => rw [e] at h; cases h
  | cons c r =>
    rw [e] at h
    simp only [Bool.and_eq_true, decide_eq_true_eq, List.all_eq_true] at h
    exact ⟨c, r, rfl, h.1, h.2⟩

/-- a table, and a list whose items have a reference and a list -/
def plainRoot : RootObj :=
  let inner : ListDef := .mk [("q", .param (.string (.val "")) .nullable)] ⟨[("t", .null, .nullable)], true, []⟩ []
  { defs := [("n1", .param (.int (.val 1)) .normal), ("t", .table (.mk [] ⟨[], false, []⟩ []) [("x", .mk [] []), ("y", .mk [] [])] ["y"]),
      ("l", .mlist (.mk [("p", .param (.string (.val "")) .nullable), ("in2", .milDef inner true)] ⟨[("t", .val "x", .normal)], false, []⟩ ["p"]) false)]
    sabun := [], old := ["n1"] }

example : Declarable (accessor plainRoot) := by
  have pl : ∀ n ∈ ["n1", "t", "l", "x", "y", "p", "in2", "q"], PlainName n := by
    intro n hn
    have := (by decide +kernel : ∀ n ∈ ["n1", "t", "l", "x", "y", "p", "in2", "q"], (match n.toList with
      | [] => false
      | c :: r => decide (Names.Lower c) && r.all fun x => decide (PlainChar x)) = true ∧ n.toList ∉ keywords ∧
      n.toList ∉ ["new", "deconstruct", "from", "set", "id", "old"].map String.toList) n hn
    exact plainName_of this.1 this.2.1 this.2.2
  have key : ∀ d, HasDef plainRoot d → d ∈ [(.mk [] ⟨[], false, []⟩ [] : ListDef),
      .mk [("q", .param (.string (.val "")) .nullable)] ⟨[("t", .null, .nullable)], true, []⟩ [],
      .mk [("p", .param (.string (.val "")) .nullable), ("in2", .milDef (.mk [("q", .param (.string (.val "")) .nullable)]
        ⟨[("t", .null, .nullable)], true, []⟩ []) true)] ⟨[("t", .val "x", .normal)], false, []⟩ ["p"]] := by
    intro d hd
    induction hd with
    | table h => simp [plainRoot] at h; simp [h]
    | clist h => simp [plainRoot] at h
    | mlist h => simp [plainRoot] at h; simp [h]
    | cil _ h ih =>
      simp only [List.mem_cons, List.not_mem_nil, or_false] at ih
      rcases ih with rfl | rfl | rfl <;> simp [ListDef.members] at h
    | mil _ h ih =>
      simp only [List.mem_cons, List.not_mem_nil, or_false] at ih
      rcases ih with rfl | rfl | rfl
      · simp [ListDef.members] at h
      · simp [ListDef.members] at h
      · simp [ListDef.members] at h
        simp [h]
  refine C69_plain_partial (r := plainRoot) ?_ (by decide) ?_ ?_ (by decide +kernel) (by decide +kernel) (by decide +kernel) ?_
  · intro e he
    simp only [plainRoot, List.mem_cons, List.not_mem_nil, or_false] at he
    rcases he with rfl | rfl | rfl <;> exact pl _ (by simp)
  · intro d hd
    have key := key d hd
    simp only [List.mem_cons, List.not_mem_nil, or_false] at key
    rcases key with rfl | rfl | rfl
    · exact ⟨by simp [ListDef.members], by decide, by simp [ListDef.refs], by decide⟩
    · refine ⟨?_, by decide, ?_, by decide⟩ <;> intro e he <;> rw [List.mem_singleton.1 he] <;> exact pl _ (by simp)
    · refine ⟨?_, by decide, ?_, by decide⟩
      · intro e he
        simp only [ListDef.members, List.mem_cons, List.not_mem_nil, or_false] at he
        rcases he with rfl | rfl <;> exact pl _ (by simp)
      · intro e he
        rw [List.mem_singleton.1 he]
        exact pl _ (by simp)
  · intro k d list old h
    simp [plainRoot] at h
    obtain ⟨-, -, rfl, -⟩ := h
    refine ⟨?_, by decide, by simp⟩
    intro e he
    simp only [List.mem_cons, List.not_mem_nil, or_false] at he
    rcases he with rfl | rfl <;> exact pl _ (by simp)
  · intro d hd e he
    have key := key d hd
    have ht : e.1 = "t" := by
      simp only [List.mem_cons, List.not_mem_nil, or_false] at key
      rcases key with rfl | rfl | rfl
      · cases he
      · rw [List.mem_singleton.1 he]
      · rw [List.mem_singleton.1 he]
    rw [ht]
    exact ⟨.mk [] ⟨[], false, []⟩ [], [("x", .mk [] []), ("y", .mk [] [])], ["y"], by simp [plainRoot]⟩

/-- what is generated for it -/
example : (accessor plainRoot).map (fun d => (String.ofList d.name, d.fns.map fun f => String.ofList f.name)) =
    [("RootIntf", ["new", "root_obj_ref", "root_obj_ref_mut", "deconstruct", "n1_old", "n1_old_def_val", "set_n1_old", "t", "l", "l_mut"]),
     ("TTable", ["new", "x_us", "x", "y_old_us", "y_old", "get_by_id_us", "get_by_id"]),
     ("TTableID", ["from_str", "from_num", "len", "to_num", "metadata", "to_str"]), ("TCItem", ["from"]),
     ("LMItem", ["from", "p_old_def_val", "p_old", "p_old_mut", "set_p_old", "in2", "in2_mut", "ref_t", "ref_id_t", "set_ref_t"]),
     ("In2MItem", ["from", "q_def_val", "q", "q_mut", "set_q", "get_enum", "get_enum_ids", "set_enum"]),
     ("In2Enum", ["new"]), ("In2Kind", ["id"])] := by decide +kernel

/-! ## What the names look like -/

/-- the first letter in capitals -/
def capital : List Char → List Char
  | [] => []
  | c :: r => c.toUpper :: r

theorem typeTail_word_end (up : Bool) (x : List Char) (hx : '_' ∉ x) : typeTail up x = if up then capital x else x := by
  induction x generalizing up with
  | nil => cases up <;> rfl
  | cons c r ih =>
    have hc : c ≠ '_' := fun h => hx (h ▸ List.mem_cons_self)
    have hr : '_' ∉ r := fun h => hx (List.mem_cons_of_mem _ h)
    rw [typeTail, if_neg hc, ih false hr]
    cases up <;> simp [capital]

theorem typeTail_word_sep (up : Bool) (x r : List Char) (hx : '_' ∉ x) :
    typeTail up (x ++ '_' :: r) = (if up then capital x else x) ++ typeTail true r := by
  induction x generalizing up with
  | nil => cases up <;> simp [typeTail, capital]
  | cons c x ih =>
    have hc : c ≠ '_' := fun h => hx (h ▸ List.mem_cons_self)
    have hr : '_' ∉ x := fun h => hx (List.mem_cons_of_mem _ h)
    rw [List.cons_append, typeTail, if_neg hc, ih false hr]
    cases up <;> simp [capital]

/-- words with underscores between them -/
def underscored : List (List Char) → List Char
  | [] => []
  | [w] => w
  | w :: v :: r => w ++ '_' :: underscored (v :: r)

theorem typeTail_words (up : Bool) (w : List Char) (ws : List (List Char)) (h : ∀ x ∈ w :: ws, '_' ∉ x) :
    typeTail up (underscored (w :: ws)) = (if up then capital w else w) ++ (ws.map capital).flatten := by
  induction ws generalizing up w with
  | nil => rw [underscored, typeTail_word_end up w (h w (by simp))]; simp
  | cons v r ih =>
    rw [underscored, typeTail_word_sep up w _ (h w (by simp)), ih true v fun x hx => h x (by simp [List.mem_cons.1 hx])]
    simp

/-- **C69, the names of types**: words with underscores between them become words that begin with capitals. -/
theorem C69_type_words (c : Char) (w : List Char) (ws : List (List Char)) (hc : c ≠ '@') (h : ∀ x ∈ (c :: w) :: ws, '_' ∉ x) :
    typeName (underscored ((c :: w) :: ws)) = (((c :: w) :: ws).map capital).flatten := by
  have hw : ∀ x ∈ w :: ws, '_' ∉ x := by
    intro x hx
    rcases List.mem_cons.1 hx with rfl | hx
    · exact fun hm => h _ List.mem_cons_self (List.mem_cons_of_mem _ hm)
    · exact h x (List.mem_cons_of_mem _ hx)
  have he : underscored ((c :: w) :: ws) = c :: underscored (w :: ws) := by cases ws <;> rfl
  rw [he, typeName, if_neg hc, typeTail_words false w ws hw]
  simp [capital]

/-- **C69, the names of functions**: words that begin with capitals become words with underscores between them. -/
theorem C69_fn_words (c : Char) (w : List Char) (ws : List (List Char)) (hc : PlainChar c) (hw : ∀ x ∈ w, PlainChar x)
    (h : ∀ v ∈ ws, ∃ a r, v = a :: r ∧ Names.Lower a ∧ ∀ x ∈ r, PlainChar x) :
    snakeName ((c :: w) ++ (ws.map capital).flatten) = underscored ((c :: w) :: ws) := by
  have key : ∀ (w : List Char) (ws : List (List Char)), (∀ x ∈ w, PlainChar x) →
      (∀ v ∈ ws, ∃ a r, v = a :: r ∧ Names.Lower a ∧ ∀ x ∈ r, PlainChar x) →
      (w ++ (ws.map capital).flatten).flatMap snakeChar = underscored (w :: ws) := by
    intro w ws
    induction ws generalizing w with
    | nil => intro hw _; simpa [underscored] using snake_plain hw
    | cons v r ih =>
      intro hw hv
      obtain ⟨a, t, rfl, ha, ht⟩ := hv v List.mem_cons_self
      have hat : ∀ x ∈ a :: t, PlainChar x := by
        intro x hx
        rcases List.mem_cons.1 hx with rfl | hx
        · exact .inl ha
        · exact ht x hx
      have ih := ih (a :: t) hat fun v hv' => hv v (List.mem_cons_of_mem _ hv')
      rw [List.cons_append, List.flatMap_cons] at ih
      have e1 : snakeChar a = [a] := by simp [snakeChar, (hat a List.mem_cons_self).facts.2.2.1]
      have e2 : snakeChar a.toUpper = ['_', a] := by
        have hu := lower_upper ha
        have : a.toUpper.isUpper = true :=
          char_small (P := fun c => Names.Lower c → c.toUpper.isUpper = true) (by decide +kernel) a (Nat.lt_of_le_of_lt ha.2 (by decide)) ha
        simp [snakeChar, this, hu.2]
      rw [e1] at ih
      rw [List.map_cons, List.flatten_cons, List.flatMap_append, snake_plain hw, capital, List.cons_append, List.flatMap_cons, e2, underscored,
        ← ih]
      rfl
  have hk := key w ws hw h
  rw [List.cons_append, snakeName, if_neg hc.facts.2.1, hc.facts.2.2.2.1, hk]
  cases ws <;> rfl

example : typeName "my_long_name".toList = "MyLongName".toList ∧ underscored ["my".toList, "long".toList, "name".toList] = "my_long_name".toList ∧
    snakeName "myLongName".toList = "my_long_name".toList := by decide +kernel

end Verif.Intf
