import Verif.Spec.ListFiles
import Verif.Props.HashDir
/-! # Lemmas about the list of saved files -/
namespace Verif.ListFiles
open Codec VarInt HashDir Filesys

/-! ## Names -/

theorem ascii_char (x : UInt8) (h : x.toNat < 128) : String.utf8EncodeChar (Char.ofNat x.toNat) = [x] := by
  have : ∀ n : Fin 128, String.utf8EncodeChar (Char.ofNat n.val) = [UInt8.ofNat n.val] := by decide +kernel
  have := this ⟨x.toNat, h⟩
  rw [this]; simp

theorem ascii_valid (b : Bytes) (h : ∀ x ∈ b, x.toNat < 128) : (strOfBytes b).isSome := by
  have e : b = strBytes (String.ofList (b.map fun x => Char.ofNat x.toNat)) := by
    have e' : ∀ l : List Char, strBytes (String.ofList l) = l.flatMap String.utf8EncodeChar := by
      intro l; unfold strBytes; simp [List.utf8Encode]
    rw [e']
    induction b with
    | nil => rfl
    | cons x r ih =>
      rw [List.map_cons, List.flatMap_cons, ascii_char x (h x List.mem_cons_self), ← ih fun y hy => h y (List.mem_cons_of_mem _ hy)]
      rfl
  rw [e, strOfBytes_strBytes]
  rfl

theorem lossyF_ascii (n : Nat) (b : Bytes) (hn : b.length ≤ n) (h : ∀ x ∈ lossyF n b, x.toNat < 128) : lossyF n b = b := by
  induction n generalizing b with
  | zero => rw [List.length_eq_zero_iff.1 (Nat.le_zero.1 hn)]; rfl
  | succ n ih =>
    cases b with
    | nil => rfl
    | cons x r =>
      rw [lossyF] at h ⊢
      · cases hc : charLen (x :: r) with
        | none =>
          rw [hc] at h
          exact absurd (h 0xef (by simp)) (by decide)
        | some k =>
          rw [hc] at h
          simp only at h ⊢
          have hk : k ∈ [1, 2, 3, 4] := List.mem_of_find?_eq_some hc
          have hk1 : 1 ≤ k := by
            simp only [List.mem_cons, List.not_mem_nil, or_false] at hk
            omega
          rw [ih _ (by rw [List.length_drop]; simp only [List.length_cons] at hn ⊢; omega)
            fun y hy => h y (List.mem_append_right _ hy), List.take_append_drop]
      · simp
      · simp

theorem lossy_valid {b : Bytes} (h : (strOfBytes b).isSome) : lossy b = b := by unfold lossy; rw [if_pos h]

/-- a name whose replacement is ASCII was not replaced -/
theorem lossy_ascii {b : Bytes} (h : ∀ x ∈ lossy b, x.toNat < 128) : lossy b = b := by
  unfold lossy at h ⊢
  split
  · rfl
  · rename_i hv
    rw [if_neg hv] at h
    have e := lossyF_ascii _ _ (Nat.le_refl _) h
    rw [e] at h
    exact absurd (ascii_valid b h) hv

theorem hex_ascii {b : UInt8} (h : HexByte b) : b.toNat < 128 := by unfold HexByte at h; omega

theorem hashOf_eq (name : Bytes) (h : Nat) : hashOf name = some h ↔ Names name h := by
  unfold hashOf Names
  split
  · rename_i hc
    simp [hc.1, hc.2]
    exact fun _ => hc.2
  · rename_i hc
    constructor
    · intro h; cases h
    · rintro ⟨a, b, _⟩; exact absurd ⟨a, b⟩ hc

/-- the folder of a hash has one name -/
theorem hashOf_lossy {name : Bytes} {h : Nat} (e : hashOf (lossy name) = some h) : h < 2 ^ 128 ∧ name = hashToFolderName h := by
  have hn := (hashOf_eq _ _).1 e
  have hl : lossy name = name := lossy_ascii fun x hx => hex_ascii (hn.2.1 x hx)
  rw [hl] at hn
  have h128 := C43_one_to_one.2.2 _ _ hn
  exact ⟨h128, C43_one_to_one.1 _ _ _ hn (C43_name h h128)⟩

theorem hashOf_folder {h : Nat} (hh : h < 2 ^ 128) : hashOf (lossy (hashToFolderName h)) = some h := by
  have hn := C43_name h hh
  rw [lossy_valid (ascii_valid _ fun x hx => hex_ascii (hn.2.1 x hx))]
  exact (hashOf_eq _ _).2 hn

theorem folderNameToHash_eq (checked : Bool) (name : Bytes) (h : checked = true → ¬ FatalName name) :
    folderNameToHash checked name = .ok (hashOf name) := by
  obtain ⟨h1, h2, h3⟩ := C43_exact checked name
  cases e : folderNameToHash checked name with
  | err => exact absurd e h3
  | panic => exact absurd (h2.1 e).2 (h (h2.1 e).1)
  | ok o =>
    cases o with
    | some v => rw [(hashOf_eq _ _).2 ((h1 v).1 e)]
    | none =>
      cases e' : hashOf name with
      | none => rfl
      | some v => rw [(h1 v).2 ((hashOf_eq _ _).1 e')] at e; cases e

/-! ## The items of the iterator -/

/-- the items that a folder gives -/
def dirItems (hex : Nat) (d : List (Option FEntry)) : List (Res FileData) :=
  d.map fun e => match e with | some e => FileData.of hex e | none => .err

/-- the items that an entry of the save folder gives -/
def entryItems (e : Option PEntry) : List (Res FileData) :=
  match e with
  | none => [.err]
  | some e =>
    match e.isDir with
    | none => [.err]
    | some false => []
    | some true =>
      match hashOf (lossy e.name) with
      | none => []
      | some h => match e.opened with | some d => dirItems h d | none => [.err]

/-- all items that are to come -/
def Inner.items (s : Inner) : List (Res FileData) := dirItems s.hex s.dir ++ s.proj.flatMap entryItems

theorem NoFatal.tail {checked : Bool} {e : Option PEntry} {r : List (Option PEntry)} (h : NoFatal checked (e :: r)) : NoFatal checked r :=
  fun hc p hp => h hc p (List.mem_cons_of_mem _ hp)

/-- what `find_next_dir` does -/
theorem findNextDir_items {checked : Bool} (l : List (Option PEntry)) (hf : NoFatal checked l) :
    ∃ p, NoFatal checked p ∧
      ((findNextDir checked l = (.ok none, p) ∧ p = [] ∧ l.flatMap entryItems = [] ∧ ∀ x ∈ l, Other x) ∨
       (∃ d hex, findNextDir checked l = (.ok (some (d, hex)), p) ∧ p.length < l.length ∧ ¬ StartsBad l ∧
          l.flatMap entryItems = dirItems hex d ++ p.flatMap entryItems) ∨
       (findNextDir checked l = (.err, p) ∧ p.length < l.length ∧ StartsBad l ∧ l.flatMap entryItems = .err :: p.flatMap entryItems)) := by
  induction l with
  | nil => exact ⟨[], hf, .inl ⟨rfl, rfl, rfl, by simp⟩⟩
  | cons e r ih =>
    have ih := ih hf.tail
    -- an entry that is passed over
    have skip : Other e → entryItems e = [] → findNextDir checked (e :: r) = findNextDir checked r →
        ∃ p, NoFatal checked p ∧
        ((findNextDir checked (e :: r) = (.ok none, p) ∧ p = [] ∧ (e :: r).flatMap entryItems = [] ∧ ∀ x ∈ e :: r, Other x) ∨
        (∃ d hex, findNextDir checked (e :: r) = (.ok (some (d, hex)), p) ∧ p.length < (e :: r).length ∧ ¬ StartsBad (e :: r) ∧
          (e :: r).flatMap entryItems = dirItems hex d ++ p.flatMap entryItems) ∨
        (findNextDir checked (e :: r) = (.err, p) ∧ p.length < (e :: r).length ∧ StartsBad (e :: r) ∧
          (e :: r).flatMap entryItems = .err :: p.flatMap entryItems)) := by
      intro ho he hs
      rw [hs, List.flatMap_cons, he, List.nil_append]
      obtain ⟨p, hp, h | ⟨d, hex, h1, h2, h3, h4⟩ | ⟨h1, h2, h3, h4⟩⟩ := ih
      · refine ⟨p, hp, .inl ⟨h.1, h.2.1, h.2.2.1, ?_⟩⟩
        intro x hx
        rcases List.mem_cons.1 hx with rfl | hx
        · exact ho
        · exact h.2.2.2 x hx
      · refine ⟨p, hp, .inr (.inl ⟨d, hex, h1, by rw [List.length_cons]; omega, ?_, h4⟩)⟩
        rintro ⟨a, x, q, h5, h6, h7⟩
        cases a with
        | nil =>
          simp only [List.nil_append, List.cons.injEq] at h5
          obtain ⟨rfl, rfl⟩ := h5
          obtain ⟨y, rfl, hy⟩ := ho
          rcases h7 y rfl with h8 | h8
          · rcases hy with hy | hy
            · rw [hy] at h8; cases h8
            · rw [hy.1] at h8; cases h8
          · rcases hy with hy | hy
            · rw [hy] at h8; cases h8.1
            · rw [hy.2] at h8; cases h8.2.1
        | cons z a =>
          simp only [List.cons_append, List.cons.injEq] at h5
          exact h3 ⟨a, x, q, h5.2, fun w hw => h6 w (List.mem_cons_of_mem _ hw), h7⟩
      · refine ⟨p, hp, .inr (.inr ⟨h1, by rw [List.length_cons]; omega, ?_, h4⟩)⟩
        obtain ⟨a, x, q, h5, h6, h7⟩ := h3
        refine ⟨e :: a, x, q, by rw [h5]; rfl, ?_, h7⟩
        intro w hw
        rcases List.mem_cons.1 hw with rfl | hw
        · exact ho
        · exact h6 w hw
    cases e with
    | none =>
      exact ⟨r, hf.tail, .inr (.inr ⟨rfl, by simp, ⟨[], none, r, rfl, by simp, fun p hp => by cases hp⟩, rfl⟩)⟩
    | some e =>
      cases hd : e.isDir with
      | none =>
        refine ⟨r, hf.tail, .inr (.inr ⟨by simp [findNextDir, hd], by simp, ⟨[], some e, r, rfl, by simp, ?_⟩, ?_⟩)⟩
        · rintro p hp; cases hp; exact .inl hd
        · simp [List.flatMap_cons, entryItems, hd]
      | some b =>
        cases b with
        | false => exact skip ⟨e, rfl, .inl hd⟩ (by simp [entryItems, hd]) (by simp [findNextDir, hd])
        | true =>
          have hn := folderNameToHash_eq checked (lossy e.name) fun hc => hf hc e List.mem_cons_self hd
          cases hh : hashOf (lossy e.name) with
          | none =>
            rw [hh] at hn
            exact skip ⟨e, rfl, .inr ⟨hd, hh⟩⟩ (by simp [entryItems, hd, hh]) (by simp [findNextDir, hd, hn])
          | some h =>
            rw [hh] at hn
            cases ho : e.opened with
            | none =>
              refine ⟨r, hf.tail, .inr (.inr ⟨by simp [findNextDir, hd, hn, ho], by simp, ⟨[], some e, r, rfl, by simp, ?_⟩, ?_⟩)⟩
              · rintro p hp; cases hp; exact .inr ⟨hd, by simp [hh], ho⟩
              · simp [List.flatMap_cons, entryItems, hd, hh, ho]
            | some d =>
              refine ⟨r, hf.tail, .inr (.inl ⟨d, h, by simp [findNextDir, hd, hn, ho], by simp, ?_, ?_⟩)⟩
              · rintro ⟨a, x, q, h5, h6, h7⟩
                cases a with
                | nil =>
                  simp only [List.nil_append, List.cons.injEq] at h5
                  obtain ⟨rfl, rfl⟩ := h5
                  rcases h7 e rfl with h8 | h8
                  · rw [hd] at h8; cases h8
                  · rw [ho] at h8; cases h8.2.2
                | cons z a =>
                  simp only [List.cons_append, List.cons.injEq] at h5
                  obtain ⟨rfl, _⟩ := h5
                  obtain ⟨y, hy, h8⟩ := h6 _ List.mem_cons_self
                  cases hy
                  rcases h8 with h8 | h8
                  · rw [hd] at h8; cases h8
                  · rw [hh] at h8; cases h8.2
              · simp [List.flatMap_cons, entryItems, hd, hh, ho]

/-- `next` returns the items one after the other -/
theorem nextF_items {checked : Bool} (n : Nat) (s : Inner) (hf : NoFatal checked s.proj) (hn : s.proj.length < n) :
    ∃ s', NoFatal checked s'.proj ∧ nextF checked n s = (s.items.head?, s') ∧ s'.items = s.items.tail := by
  induction n generalizing s with
  | zero => omega
  | succ n ih =>
    obtain ⟨proj, dir, hex⟩ := s
    simp only at hf hn
    unfold nextF
    cases dir with
    | cons e r =>
      cases e with
      | none => exact ⟨⟨proj, r, hex⟩, hf, rfl, rfl⟩
      | some e => exact ⟨⟨proj, r, hex⟩, hf, rfl, rfl⟩
    | nil =>
      simp only [findNextFile]
      obtain ⟨p, hp, ⟨h1, rfl, h3, _⟩ | ⟨d, hex', h1, h2, _, h4⟩ | ⟨h1, h2, _, h4⟩⟩ := findNextDir_items proj hf
      · rw [h1]
        refine ⟨⟨[], [], hex⟩, hp, ?_, ?_⟩
        · simp [Inner.items, dirItems, h3]
        · simp [Inner.items, dirItems, h3]
      · rw [h1]
        obtain ⟨s', a, b, c⟩ := ih ⟨p, d, hex'⟩ hp (by simp only; omega)
        refine ⟨s', a, ?_, ?_⟩
        · simp only [b]
          simp [Inner.items, dirItems, h4]
        · rw [c]
          simp [Inner.items, dirItems, h4]
      · rw [h1]
        refine ⟨⟨p, [], hex⟩, hp, ?_, ?_⟩
        · simp [Inner.items, dirItems, h4]
        · simp [Inner.items, dirItems, h4]

theorem not_panic_dirItems (h : Nat) (d : List (Option FEntry)) : Res.panic ∉ dirItems h d := by
  unfold dirItems
  simp only [List.mem_map, not_exists, not_and]
  rintro e _ he
  cases e with
  | none => cases he
  | some e =>
    simp only [FileData.of] at he
    split at he <;> cases he

theorem not_panic_entryItems (e : Option PEntry) : Res.panic ∉ entryItems e := by
  unfold entryItems
  split
  · simp
  · split
    · simp
    · simp
    · split
      · simp
      · split
        · exact not_panic_dirItems _ _
        · simp

theorem not_panic_items (s : Inner) : Res.panic ∉ s.items := by
  unfold Inner.items
  simp only [List.mem_append, List.mem_flatMap, not_or, not_exists, not_and]
  exact ⟨not_panic_dirItems _ _, fun e _ => not_panic_entryItems e⟩

/-- what is kept of an item -/
def keep : Res FileData → Option FileData
  | .ok d => if isReserved d.name then none else some d
  | _ => none

theorem loopF_items {checked : Bool} (n : Nat) (s : Inner) (hf : NoFatal checked s.proj) (hn : s.items.length < n) :
    loopF checked n s = some (.ok (s.items.filterMap keep)) := by
  induction n generalizing s with
  | zero => omega
  | succ n ih =>
    obtain ⟨s', h1, h2, h3⟩ := nextF_items (checked := checked) (s.proj.length + 1) s hf (Nat.lt_succ_self _)
    unfold loopF Inner.next
    rw [h2]
    have hp := not_panic_items s
    cases hi : s.items with
    | nil => simp
    | cons x r =>
      rw [hi] at h3 hn hp
      have hs := ih s' h1 (by rw [h3]; simp only [List.tail_cons, List.length_cons] at hn ⊢; omega)
      rw [h3] at hs
      cases x with
      | err => simp only [List.head?_cons, hs]; rfl
      | panic => exact absurd List.mem_cons_self hp
      | ok d =>
        simp only [List.head?_cons, hs, Option.map_some, List.tail_cons]
        rw [List.filterMap_cons]
        simp only [keep]
        split <;> rfl

theorem keep_dirItems (h : Nat) (d : List (Option FEntry)) : (dirItems h d).filterMap keep = shownOf h d := by
  unfold dirItems shownOf
  rw [List.filterMap_map]
  congr 1
  funext e
  rcases e with _ | ⟨name, b, _ | ⟨t, n⟩⟩
  · rfl
  · rfl
  · rfl

theorem keep_items (l : List (Option PEntry)) : (l.flatMap entryItems).filterMap keep = shown l := by
  unfold shown
  induction l with
  | nil => rfl
  | cons e r ih =>
    rw [List.flatMap_cons, List.flatMap_cons, List.filterMap_append, ih]
    congr 1
    rcases e with _ | ⟨name, b, o⟩
    · rfl
    · unfold entryItems
      rcases b with _ | _ | _
      · rfl
      · rfl
      · cases o with
        | none => cases hh : hashOf (lossy name) <;> simp [hh, keep]
        | some d =>
          cases hh : hashOf (lossy name) with
          | none => simp [hh]
          | some h => simpa [hh] using keep_dirItems h d

theorem items_size (l : List (Option PEntry)) : (l.flatMap entryItems).length ≤ size l := by
  unfold size
  induction l with
  | nil => exact Nat.le_refl _
  | cons e r ih =>
    rw [List.flatMap_cons, List.length_append, List.map_cons, List.sum_cons]
    refine Nat.add_le_add ?_ ih
    rcases e with _ | ⟨name, b, o⟩
    · exact Nat.le_refl _
    · unfold entryItems
      rcases b with _ | _ | _
      · cases o <;> simp
      · cases o <;> simp
      · simp only
        cases hashOf (lossy name) with
        | none => simp
        | some h =>
          cases o with
          | none => exact Nat.le_refl _
          | some d => simp [dirItems]

end Verif.ListFiles
