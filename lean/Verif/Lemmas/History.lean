import Verif.Spec.History
import Verif.Lemmas.FileHistory
import Verif.Lemmas.FileName
/-! Helper lemmas: the invariant of history directories. -/
namespace Verif.History
open VarInt FileName FileHistory Phase

/-! Directories -/

theorem read_write (d : Dir) (n : Bytes) (f : File) (m : Bytes) :
    (d.write n f).read m = if n = m then some f else d.read m := by
  induction d with
  | nil => simp [Dir.write, Dir.read]
  | cons e d ih =>
    obtain ⟨k, g⟩ := e
    rw [Dir.write]
    by_cases hk : k = n
    · subst hk
      rw [if_pos rfl, Dir.read, Dir.read]
      by_cases hm : k = m <;> simp [hm]
    · rw [if_neg hk, Dir.read, Dir.read, ih]
      by_cases hm : k = m
      · subst hm
        simp [Ne.symm hk]
      · simp [hm]

theorem write_fresh (d : Dir) (n : Bytes) (f : File) (h : n ∉ d.map (·.1)) : d.write n f = d ++ [(n, f)] := by
  induction d with
  | nil => rfl
  | cons e d ih =>
    obtain ⟨k, g⟩ := e
    simp only [List.map_cons, List.mem_cons, not_or] at h
    rw [Dir.write, if_neg (Ne.symm h.1), ih h.2]
    rfl

theorem read_none (d : Dir) (n : Bytes) (h : n ∉ d.map (·.1)) : d.read n = none := by
  induction d with
  | nil => rfl
  | cons e d ih =>
    obtain ⟨k, g⟩ := e
    simp only [List.map_cons, List.mem_cons, not_or] at h
    rw [Dir.read, if_neg (Ne.symm h.1), ih h.2]

theorem read_mem (d : Dir) (hn : (d.map (·.1)).Nodup) (n : Bytes) (f : File) : d.read n = some f ↔ (n, f) ∈ d := by
  induction d with
  | nil => simp [Dir.read]
  | cons e d ih =>
    obtain ⟨k, g⟩ := e
    rw [List.map_cons, List.nodup_cons] at hn
    rw [Dir.read]
    by_cases hk : k = n
    · subst hk
      rw [if_pos rfl]
      constructor
      · intro h; cases h; simp
      · intro h
        rcases List.mem_cons.1 h with h | h
        · cases h; rfl
        · exact absurd (List.mem_map_of_mem h) hn.1
    · rw [if_neg hk, ih hn.2]
      constructor
      · intro h; simp [h]
      · intro h
        rcases List.mem_cons.1 h with h | h
        · cases h; exact absurd rfl hk
        · exact h

theorem read_perm (d d' : Dir) (hp : d'.Perm d) (hn : (d.map (·.1)).Nodup) (n : Bytes) : d'.read n = d.read n := by
  have hn' : (d'.map (·.1)).Nodup := (hp.map _).nodup_iff.2 hn
  have : ∀ f, d'.read n = some f ↔ d.read n = some f := by
    intro f
    rw [read_mem d' hn', read_mem d hn]
    exact hp.mem_iff
  cases h : d.read n with
  | none =>
    cases h' : d'.read n with
    | none => rfl
    | some f => rw [(this f).1 h'] at h; cases h
  | some f => exact (this f).2 h

theorem mem_of_read (d : Dir) (n : Bytes) (f : File) (h : d.read n = some f) : n ∈ d.map (·.1) := by
  by_contra hc
  rw [read_none d n hc] at h
  cases h

/-! Listing a directory -/

theorem createHistory_fold (names : List Bytes) (f : Bytes → Option Props) (hf : ∀ n ∈ names, analyze n = .ok (f n))
    (h : FileHistory.History) : createHistory names h = .ok ((names.filterMap f).foldl FileHistory.History.add h) := by
  induction names generalizing h with
  | nil => rfl
  | cons n names ih =>
    rw [createHistory, hf n (by simp)]
    simp only [Res.bind_ok]
    cases hfn : f n with
    | none =>
      simp only
      rw [ih (fun m hm => hf m (by simp [hm])), List.filterMap_cons, hfn]
    | some p =>
      simp only
      rw [ih (fun m hm => hf m (by simp [hm])), List.filterMap_cons, hfn]
      rfl

theorem foldl_add (ps : List Props) (hr : ∀ p ∈ ps, InRange p) (h : FileHistory.History) (hh : HWF h) :
    HWF (ps.foldl FileHistory.History.add h) ∧
    ∀ c o p, (ps.foldl FileHistory.History.add h).getProps c o = some p →
      (p ∈ ps ∧ key p = c :: o) ∨ h.getProps c o = some p := by
  induction ps generalizing h with
  | nil => exact ⟨hh, fun c o p hp => Or.inr hp⟩
  | cons q ps ih =>
    have hq := hr q (by simp)
    obtain ⟨i1, i2⟩ := ih (fun p hp => hr p (by simp [hp])) (h.add q) (hwf_add h hh q hq)
    refine ⟨i1, fun c o p hp => ?_⟩
    rcases i2 c o p hp with ⟨h1, h2⟩ | h1
    · exact Or.inl ⟨by simp [h1], h2⟩
    · rw [hgetProps_add h q hq.1] at h1
      split at h1
      · cases h1
        rename_i hk
        exact Or.inl ⟨by simp, hk⟩
      · exact Or.inr h1

theorem foldl_add_mem (ps : List Props) (hr : ∀ p ∈ ps, InRange p)
    (hu : ∀ p ∈ ps, ∀ q ∈ ps, key p = key q → p = q) (h : FileHistory.History) (p : Props) (hp : p ∈ ps) :
    (ps.foldl FileHistory.History.add h).getProps p.control p.order = some p := by
  have keep : ∀ (l : List Props) (h : FileHistory.History), (∀ q ∈ l, q ∈ ps) → h.getProps p.control p.order = some p →
      (l.foldl FileHistory.History.add h).getProps p.control p.order = some p := by
    intro l
    induction l with
    | nil => intro h _ h'; exact h'
    | cons q l ih =>
      intro h hl h'
      refine ih (h.add q) (fun x hx => hl x (by simp [hx])) ?_
      have hq := hl q (by simp)
      rw [hgetProps_add h q (hr q hq).1]
      split
      · rename_i hk
        rw [hu q hq p hp hk]
      · exact h'
  have main : ∀ (l : List Props) (h : FileHistory.History), (∀ q ∈ l, q ∈ ps) → p ∈ l →
      (l.foldl FileHistory.History.add h).getProps p.control p.order = some p := by
    intro l
    induction l with
    | nil => intro h _ h'; simp at h'
    | cons q l ih =>
      intro h hl h'
      rcases List.mem_cons.1 h' with rfl | h'
      · refine keep l _ (fun x hx => hl x (by simp [hx])) ?_
        rw [hgetProps_add h p (hr p hp).1, if_pos (show key p = p.control :: p.order from rfl)]
      · exact ih _ (fun x hx => hl x (by simp [hx])) h'
  exact main ps h (fun q hq => hq) hp

/-! The invariant -/

section
variable {S : Type}

structure Inv (o : Opts) (st : St) (log : List (Props × S)) : Prop where
  nodup : (st.dir.map (·.1)).Nodup
  names : ∀ n ∈ st.dir.map (·.1), analyze n = .ok none ∨ ∃ e ∈ log, n = e.1.filename
  files : ∀ e ∈ log, ∃ f, st.dir.read e.1.filename = some f ∧ f.1.length = e.1.order.length
  small : ∀ e ∈ log, e.1.tag = none ∧ e.1.order ≠ [] ∧ e.1.order.length ≤ o.maxPhase + 1 ∧
    e.1.control < log.length ∧ e.1.prevCtl < log.length ∧ ∀ x ∈ e.1.order, x < log.length
  len : log.length < 10 ^ 8
  sorted : log.Pairwise (fun a b => key b.1 < key a.1)
  base : ∀ r p, st.base = some (r, p) → ∃ e ∈ log, e.1 = p

/-- A history that knows exactly the files of the log. -/
def Knows (h : FileHistory.History) (log : List (Props × S)) : Prop :=
  HWF h ∧ ∀ c o p, h.getProps c o = some p ↔ (∃ e ∈ log, e.1 = p) ∧ key p = c :: o

theorem key_inj_of_sorted (log : List (Props × S)) (hs : log.Pairwise (fun a b => key b.1 < key a.1))
    (a b : Props × S) (ha : a ∈ log) (hb : b ∈ log) (hk : key a.1 = key b.1) : a = b := by
  induction log with
  | nil => simp at ha
  | cons e log ih =>
    rw [List.pairwise_cons] at hs
    rcases List.mem_cons.1 ha with rfl | ha' <;> rcases List.mem_cons.1 hb with rfl | hb'
    · rfl
    · have := hs.1 b hb'
      rw [hk] at this
      exact absurd this (List.lt_irrefl _)
    · have := hs.1 a ha'
      rw [hk] at this
      exact absurd this (List.lt_irrefl _)
    · exact ih hs.2 ha' hb'

theorem Inv.analyze_file {o : Opts} {st : St} {log : List (Props × S)} (hi : Inv o st log) (e : Props × S) (he : e ∈ log) :
    analyze e.1.filename = .ok (some e.1) := by
  obtain ⟨h1, h2, _, h4, h5, h6⟩ := hi.small e he
  have hl := hi.len
  rw [analyze_untagged e.1 h1 h2 (by omega), if_pos ⟨by omega, fun x hx => by have := h6 x hx; omega⟩]

theorem Inv.inRange {o : Opts} {st : St} {log : List (Props × S)} (hi : Inv o st log) (e : Props × S) (he : e ∈ log) :
    InRange e.1 := by
  obtain ⟨h1, h2, _, h4, h5, h6⟩ := hi.small e he
  have hl := hi.len
  refine ⟨h2, fun x hx => ?_⟩
  rcases List.mem_cons.1 hx with rfl | hx
  · omega
  · have := h6 x hx; omega

open Classical in
theorem Inv.history {o : Opts} {st : St} {log : List (Props × S)} (hi : Inv o st log) :
    ∃ h, st.history = .ok h ∧ Knows h log := by
  let f : Bytes → Option Props := fun n => if h : ∃ e ∈ log, n = e.1.filename then some h.choose.1 else none
  have hf1 : ∀ e ∈ log, f e.1.filename = some e.1 := by
    intro e he
    have hex : ∃ e' ∈ log, e.1.filename = e'.1.filename := ⟨e, he, rfl⟩
    show (if h : ∃ e' ∈ log, e.1.filename = e'.1.filename then some h.choose.1 else none) = some e.1
    rw [dif_pos hex]
    rw [filename_injective _ _ hex.choose_spec.2.symm]
  have hf : ∀ n ∈ st.dir.map (·.1), analyze n = .ok (f n) := by
    intro n hn
    by_cases hex : ∃ e ∈ log, n = e.1.filename
    · obtain ⟨e, he, rfl⟩ := hex
      rw [hf1 e he, hi.analyze_file e he]
    · rcases hi.names n hn with h | h
      · rw [h]
        show _ = Res.ok (if h : ∃ e ∈ log, n = e.1.filename then some h.choose.1 else none)
        rw [dif_neg hex]
      · exact absurd h hex
  have hps : ∀ p, p ∈ (st.dir.map (·.1)).filterMap f ↔ ∃ e ∈ log, e.1 = p := by
    intro p
    rw [List.mem_filterMap]
    constructor
    · rintro ⟨n, hn, hp⟩
      have : f n = (if h : ∃ e ∈ log, n = e.1.filename then some h.choose.1 else none) := rfl
      rw [this] at hp
      split at hp
      · rename_i hex
        exact ⟨hex.choose, hex.choose_spec.1, by simpa using hp⟩
      · cases hp
    · rintro ⟨e, he, rfl⟩
      obtain ⟨fl, hfl, _⟩ := hi.files e he
      exact ⟨e.1.filename, mem_of_read _ _ _ hfl, hf1 e he⟩
  refine ⟨_, createHistory_fold _ f hf _, ?_⟩
  have hr : ∀ p ∈ (st.dir.map (·.1)).filterMap f, InRange p := by
    intro p hp
    obtain ⟨e, he, rfl⟩ := (hps p).1 hp
    exact hi.inRange e he
  obtain ⟨g1, g2⟩ := foldl_add _ hr .empty hwf_empty
  refine ⟨g1, fun c ord p => ?_⟩
  constructor
  · intro hp
    rcases g2 c ord p hp with ⟨h1, h2⟩ | h1
    · exact ⟨(hps p).1 h1, h2⟩
    · simp [hgetProps, FileHistory.History.empty, BMap.get] at h1
  · rintro ⟨he, hk⟩
    have hu : ∀ p ∈ (st.dir.map (·.1)).filterMap f, ∀ q ∈ (st.dir.map (·.1)).filterMap f, key p = key q → p = q := by
      intro p hp q hq hk
      obtain ⟨a, ha, rfl⟩ := (hps p).1 hp
      obtain ⟨b, hb, rfl⟩ := (hps q).1 hq
      rw [key_inj_of_sorted log hi.sorted a b ha hb hk]
    have := foldl_add_mem _ hr hu .empty p ((hps p).2 he)
    simp only [key, List.cons.injEq] at hk
    rw [hk.1, hk.2] at this
    exact this

/-- Two ascending lists of files with the same members are equal. -/
theorem sorted_unique (l m : List Props) (hl : l.Pairwise (fun a b => key a < key b))
    (hm : m.Pairwise (fun a b => key a < key b)) (h : ∀ p, p ∈ l ↔ p ∈ m) : l = m := by
  induction l generalizing m with
  | nil =>
    cases m with
    | nil => rfl
    | cons x m => exact absurd ((h x).2 (by simp)) (by simp)
  | cons a l ih =>
    cases m with
    | nil => exact absurd ((h a).1 (by simp)) (by simp)
    | cons b m =>
      rw [List.pairwise_cons] at hl hm
      have hab : a = b := by
        rcases List.mem_cons.1 ((h a).1 (by simp)) with h1 | h1
        · exact h1
        · rcases List.mem_cons.1 ((h b).2 (by simp)) with h2 | h2
          · exact h2.symm
          · exact absurd (List.lt_trans (hm.1 a h1) (hl.1 b h2)) (List.lt_irrefl _)
      subst hab
      rw [ih m hl.2 hm.2]
      intro p
      constructor
      · intro hp
        rcases List.mem_cons.1 ((h p).1 (by simp [hp])) with h1 | h1
        · subst h1; exact absurd (hl.1 p hp) (List.lt_irrefl _)
        · exact h1
      · intro hp
        rcases List.mem_cons.1 ((h p).2 (by simp [hp])) with h1 | h1
        · subst h1; exact absurd (hm.1 p hp) (List.lt_irrefl _)
        · exact h1

theorem Knows.listFiles {h : FileHistory.History} {log : List (Props × S)} (hk : Knows h log)
    (hs : log.Pairwise (fun a b => key b.1 < key a.1)) : h.listFiles = (log.map (·.1)).reverse := by
  refine sorted_unique _ _ (listFiles_sorted h hk.1) ?_ ?_
  · rw [List.pairwise_reverse, List.pairwise_map]
    exact hs
  · intro p
    rw [mem_listFiles h hk.1, hk.2]
    simp [key]

theorem Knows.newest {h : FileHistory.History} {log : List (Props × S)} (hk : Knows h log)
    (hs : log.Pairwise (fun a b => key b.1 < key a.1)) : h.newest = (log.head?).map (·.1) := by
  rw [newest_eq h hk.1, hk.listFiles hs, List.getLast?_reverse, List.head?_map]

/-! Ancestors -/

theorem siblings_mem (h : FileHistory.History) (base : List Nat) (k : Nat) (p : Props) (l : List Props)
    (hl : siblings h base k p = .ok l) : ∀ q ∈ l, ∃ c o, h.getProps c o = some q := by
  induction k generalizing p l with
  | zero => cases hl; simp
  | succ k ih =>
    rw [siblings] at hl
    split at hl
    · rename_i q hq
      cases hr : siblings h base k q with
      | ok r =>
        rw [hr] at hl
        cases hl
        intro x hx
        rcases List.mem_cons.1 hx with rfl | hx
        · exact ⟨_, _, hq⟩
        · exact ih q r hr x hx
      | err => rw [hr] at hl; cases hl
      | panic => rw [hr] at hl; cases hl
    · cases hl

theorem parents_mem (h : FileHistory.History) (fuel : Nat) (p : Props) (l : List Props)
    (hl : parents h fuel p = .ok l) : ∀ q ∈ l, ∃ c o, h.getProps c o = some q := by
  induction fuel generalizing p l with
  | zero => cases hl; simp
  | succ k ih =>
    rw [parents] at hl
    split at hl
    · split at hl
      · rename_i q hq
        cases hr : parents h k q with
        | ok r =>
          rw [hr] at hl
          cases hl
          intro x hx
          rcases List.mem_cons.1 hx with rfl | hx
          · exact ⟨_, _, hq⟩
          · exact ih q r hr x hx
        | err => rw [hr] at hl; cases hl
        | panic => rw [hr] at hl; cases hl
      · cases hl
    · cases hl; simp

theorem ancestorsRev_shape (h : FileHistory.History) (p : Props) (m : Nat) (c : Bool) (l : List Props)
    (hl : ancestorsRev h p m c = .ok l) : ∃ r, l = p :: r ∧ ∀ q ∈ r, ∃ c o, h.getProps c o = some q := by
  unfold ancestorsRev at hl
  split at hl
  · cases hl; exact ⟨[], rfl, by simp⟩
  · cases hs : (if p.order.length - 1 = m ∧ c = true then siblings h (orderBase p) (orderLast p) p else .ok []) with
    | ok sib =>
      rw [hs] at hl
      simp only [Res.bind_ok] at hl
      cases hp : parents h p.order.length (sib.getLastD p) with
      | ok par =>
        rw [hp] at hl
        cases hl
        refine ⟨sib ++ par, rfl, fun q hq => ?_⟩
        rcases List.mem_append.1 hq with hq | hq
        · split at hs
          · exact siblings_mem _ _ _ _ _ hs q hq
          · cases hs; simp at hq
        · exact parents_mem _ _ _ _ hp q hq
      | err => rw [hp] at hl; cases hl
      | panic => rw [hp] at hl; cases hl
    | err => rw [hs] at hl; cases hl
    | panic => rw [hs] at hl; cases hl

/-! Orders -/

theorem incLast_append (b : List Nat) (x : Nat) : incLast (b ++ [x]) = b ++ [x + 1] := by
  simp [incLast]

theorem split_last (o : List Nat) (h : o ≠ []) : o = o.dropLast ++ [o.getLastD 0] := by
  have h1 := (List.dropLast_concat_getLast h).symm
  have h2 : o.getLastD 0 = o.getLast h := by
    rw [List.getLastD_eq_getLast?, List.getLast?_eq_some_getLast h]; rfl
  rw [h2]; exact h1

theorem length_incLast (o : List Nat) (h : o ≠ []) : (incLast o).length = o.length := by
  have : o.length ≠ 0 := by simpa using h
  simp [incLast]; omega

theorem incLast_ne_nil (o : List Nat) : incLast o ≠ [] := by simp [incLast]

theorem mem_incLast (o : List Nat) (n : Nat) (hn : ∀ x ∈ o, x < n) (h : o ≠ []) : ∀ x ∈ incLast o, x < n + 1 := by
  intro x hx
  have hs := split_last o h
  rw [incLast] at hx
  rcases List.mem_append.1 hx with hx | hx
  · have := hn x (by rw [hs]; simp [hx])
    omega
  · have := hn (o.getLastD 0) (by rw [hs]; simp)
    simp at hx
    simp at this
    omega

/-- Everything `create_dependencies` does to the order and the statistics. -/
theorem nextOrder_spec (o : Opts) (shift : Shift) (anc : List Props) (last : Props) (d : Data) (next : Nat)
    (hne : last.order ≠ []) (hlen : last.order.length ≤ o.maxPhase + 1) (hd : d.length = last.order.length)
    (hn : calcNextPhase o shift d = .ok next) (ord : List Nat) (prev : Nat)
    (h : nextOrder anc last next o.maxPhase = .ok (ord, prev)) (size bound : Nat) (hb : ∀ x ∈ last.order, x < bound) :
    ord ≠ [] ∧ ord.length ≤ o.maxPhase + 1 ∧ last.order < ord ∧ (∀ x ∈ ord, x < bound + 1) ∧
    (d.popAndPush next size).length = ord.length ∧ (prev = last.control ∨ ∃ a ∈ anc, prev = a.prevCtl) := by
  have h0 : last.order.length ≠ 0 := by simpa using hne
  unfold nextOrder at h
  by_cases h1 : last.order.length - 1 < o.maxPhase
  · rw [if_pos h1] at h
    cases h
    have hnx : next = d.length := by
      unfold calcNextPhase at hn
      rw [if_pos (by omega)] at hn
      cases hn; rfl
    refine ⟨by simp, by simp; omega, ?_, ?_, ?_, Or.inl rfl⟩
    · have := lt_append last.order [] [0] (List.nil_lt_cons 0 [])
      simpa using this
    · intro x hx
      rcases List.mem_append.1 hx with hx | hx
      · have := hb x hx; omega
      · simp at hx; omega
    · subst hnx
      simp [Data.popAndPush, Data.push, hd]
  · rw [if_neg h1] at h
    by_cases h2 : next = o.maxPhase
    · rw [if_pos h2] at h
      cases h
      refine ⟨incLast_ne_nil _, by rw [length_incLast _ hne]; exact hlen, ?_, mem_incLast _ _ hb hne, ?_, Or.inl rfl⟩
      · have hs := split_last _ hne
        have := lt_head last.order.dropLast (last.order.getLastD 0) (last.order.getLastD 0 + 1) [] [] (by omega)
        rw [← hs] at this
        exact this
      · rw [length_incLast _ hne]
        simp only [Data.popAndPush, Data.push, List.length_append, List.length_map, List.length_take, List.length_cons,
          List.length_nil]
        omega
    · rw [if_neg h2] at h
      by_cases h3 : last.order.length < next + 1
      · rw [if_pos h3] at h; cases h
      · rw [if_neg h3] at h
        split at h
        · rename_i a ha
          cases h
          have htne : last.order.take (next + 1) ≠ [] := by
            intro hc
            have := congrArg List.length hc
            rw [List.length_take, List.length_nil] at this
            omega
          have htl : (last.order.take (next + 1)).length = next + 1 := by rw [List.length_take]; omega
          refine ⟨incLast_ne_nil _, by rw [length_incLast _ htne]; omega, ?_,
            mem_incLast _ _ (fun x hx => hb x (List.mem_of_mem_take hx)) htne, ?_, Or.inr ⟨a, List.mem_of_getElem? ha, rfl⟩⟩
          · have hs := split_last _ htne
            have hdd : last.order = (last.order.take (next + 1)).dropLast ++
                ((last.order.take (next + 1)).getLastD 0 :: last.order.drop (next + 1)) := by
              have h9 := (List.take_append_drop (next + 1) last.order).symm
              rw [hs] at h9
              simpa using h9
            have := lt_head (last.order.take (next + 1)).dropLast ((last.order.take (next + 1)).getLastD 0)
              ((last.order.take (next + 1)).getLastD 0 + 1) (last.order.drop (next + 1)) [] (by omega)
            rw [← hdd] at this
            exact this
          · rw [length_incLast _ htne, htl]
            simp only [Data.popAndPush, Data.push, List.length_append, List.length_map, List.length_take,
              List.length_cons, List.length_nil]
            omega
        · cases h

theorem createDependencies_ok (anc : List Props) (last : Props) (hl : anc.getLast? = some last) (next ctl : Nat)
    (tag : Option Bytes) (m : Nat) (cu : Bool) (deps : List Props) (p : Props)
    (h : createDependencies anc next ctl tag m cu = .ok (deps, p)) :
    ∃ ord prev, nextOrder anc last next m = .ok (ord, prev) ∧ p = ⟨ctl, prev, ord, tag⟩ ∧
      deps = if next = m ∧ cu = true then anc else anc.take next := by
  unfold createDependencies at h
  rw [hl] at h
  simp only at h
  cases hn : nextOrder anc last next m with
  | ok op =>
    obtain ⟨ord, prev⟩ := op
    rw [hn] at h
    simp only [Res.bind_ok] at h
    refine ⟨ord, prev, rfl, ?_⟩
    by_cases h1 : next = m ∧ cu = true
    · rw [if_pos h1] at h ⊢
      cases h
      exact ⟨rfl, rfl⟩
    · rw [if_neg h1] at h ⊢
      split at h
      · cases h; exact ⟨rfl, rfl⟩
      · cases h
  | err => rw [hn] at h; cases h
  | panic => rw [hn] at h; cases h

/-- What a successful `derive_impl` did. -/
theorem deriveImpl_ok (o : Opts) (shift : Shift) (ops : Ops S) (tag : Option Bytes) (s : S) (h : FileHistory.History)
    (dir dir' : Dir) (f p : Props) (hd : deriveImpl o shift ops tag s h dir f = .ok (dir', p)) :
    ∃ np file next rev deps c d, h.newest = some np ∧ dir.read f.filename = some file ∧
      calcNextPhase o shift file.1 = .ok next ∧ ancestorsRev h f o.maxPhase o.cumulative.isSome = .ok rev ∧
      createDependencies rev.reverse next (if np = f then np.control else np.control + 1) tag o.maxPhase
        o.cumulative.isSome = .ok (deps, p) ∧
      compose ops dir deps ops.src = .ok c ∧ ops.diff c s = .ok d ∧
      dir' = dir.write p.filename (file.1.popAndPush next d.length, d) := by
  unfold deriveImpl at hd
  split at hd
  · cases hd
  · rename_i np hnp
    simp only at hd
    split at hd
    · cases hd
    · rename_i file hfile
      cases hn : calcNextPhase o shift file.1 with
      | err => rw [hn] at hd; cases hd
      | panic => rw [hn] at hd; cases hd
      | ok next =>
        rw [hn] at hd
        simp only [Res.bind_ok] at hd
        cases hr : ancestorsRev h f o.maxPhase o.cumulative.isSome with
        | err => rw [hr] at hd; cases hd
        | panic => rw [hr] at hd; cases hd
        | ok rev =>
          rw [hr] at hd
          simp only [Res.bind_ok] at hd
          cases hc : createDependencies rev.reverse next (if np = f then np.control else np.control + 1) tag o.maxPhase
              o.cumulative.isSome with
          | err => rw [hc] at hd; cases hd
          | panic => rw [hc] at hd; cases hd
          | ok dp =>
            obtain ⟨deps, p'⟩ := dp
            rw [hc] at hd
            simp only [Res.bind_ok] at hd
            cases hco : compose ops dir deps ops.src with
            | err => rw [hco] at hd; cases hd
            | panic => rw [hco] at hd; cases hd
            | ok c =>
              rw [hco] at hd
              simp only [Res.bind_ok] at hd
              cases hdi : ops.diff c s with
              | err => rw [hdi] at hd; cases hd
              | panic => rw [hdi] at hd; cases hd
              | ok d =>
                rw [hdi] at hd
                cases hd
                exact ⟨np, file, next, rev, deps, c, d, hnp, hfile, hn, rfl, hc, hco, hdi, rfl⟩

/-! Preservation -/

theorem Inv.add {o : Opts} {st : St} {log : List (Props × S)} (hi : Inv o st log) (hl : log.length < 10 ^ 8 - 1)
    (p : Props) (s : S) (rid : Nat) (f : File) (ht : p.tag = none) (ho : p.order ≠ [])
    (hlen : p.order.length ≤ o.maxPhase + 1) (hc : p.control < log.length + 1) (hpc : p.prevCtl < log.length + 1)
    (hx : ∀ x ∈ p.order, x < log.length + 1) (hf : f.1.length = p.order.length)
    (hnew : ∀ e ∈ log, key e.1 < key p) :
    p.filename ∉ st.dir.map (·.1) ∧ Inv o ⟨st.dir.write p.filename f, some (rid, p)⟩ ((p, s) :: log) := by
  have han : analyze p.filename = .ok (some p) := by
    rw [analyze_untagged p ht ho (by omega), if_pos ⟨by omega, fun x hx' => by have := hx x hx'; omega⟩]
  have hfresh : p.filename ∉ st.dir.map (·.1) := by
    intro hm
    rcases hi.names _ hm with h | ⟨e, he, h⟩
    · rw [h] at han; cases han
    · have := filename_injective _ _ h
      have h2 := hnew e he
      rw [← this] at h2
      exact List.lt_irrefl _ h2
  refine ⟨hfresh, ?_⟩
  constructor
  · simp only
    rw [write_fresh _ _ _ hfresh, List.map_append, List.nodup_append]
    refine ⟨hi.nodup, by simp, ?_⟩
    intro a ha b hb
    simp at hb
    subst hb
    intro hab
    subst hab
    exact hfresh ha
  · intro n hn
    simp only at hn
    rw [write_fresh _ _ _ hfresh, List.map_append, List.mem_append] at hn
    rcases hn with hn | hn
    · rcases hi.names n hn with h | ⟨e, he, h⟩
      · exact Or.inl h
      · exact Or.inr ⟨e, by simp [he], h⟩
    · simp at hn
      exact Or.inr ⟨(p, s), by simp, hn⟩
  · intro e he
    simp only
    rcases List.mem_cons.1 he with rfl | he
    · exact ⟨f, by rw [read_write, if_pos rfl], hf⟩
    · obtain ⟨g, h1, h2⟩ := hi.files e he
      refine ⟨g, ?_, h2⟩
      rw [read_write, if_neg, h1]
      intro hc
      rw [hc] at hfresh
      exact hfresh (mem_of_read _ _ _ h1)
  · intro e he
    rcases List.mem_cons.1 he with rfl | he
    · exact ⟨ht, ho, hlen, by simpa using hc, by simpa using hpc, by simpa using hx⟩
    · obtain ⟨h1, h2, h3, h4, h5, h6⟩ := hi.small e he
      refine ⟨h1, h2, h3, ?_, ?_, ?_⟩
      · simp only [List.length_cons]; omega
      · simp only [List.length_cons]; omega
      · intro x hx'
        have := h6 x hx'
        simp only [List.length_cons]; omega
  · simp only [List.length_cons]; omega
  · rw [List.pairwise_cons]
    exact ⟨hnew, hi.sorted⟩
  · intro r q hq
    simp only [Option.some.injEq, Prod.mk.injEq] at hq
    exact ⟨(p, s), by simp, hq.2⟩

theorem head_max (log : List (Props × S)) (hs : log.Pairwise (fun a b => key b.1 < key a.1)) (n : Props)
    (hn : (log.head?).map (·.1) = some n) : ∀ e ∈ log, key e.1 = key n ∨ key e.1 < key n := by
  cases log with
  | nil => simp at hn
  | cons e log =>
    simp at hn
    subst hn
    rw [List.pairwise_cons] at hs
    intro x hx
    rcases List.mem_cons.1 hx with rfl | hx
    · exact Or.inl rfl
    · exact Or.inr (hs.1 x hx)

theorem lt_control (a b : Props) (h : a.control < b.control) : key a < key b := by
  unfold key
  rw [List.cons_lt_cons_iff]
  exact Or.inl h

theorem lt_order (a b : Props) (h : a.control = b.control) (ho : a.order < b.order) : key a < key b := by
  unfold key
  rw [List.cons_lt_cons_iff]
  exact Or.inr ⟨h, ho⟩

/-- The file a derivation creates is new. -/
theorem derive_new {o : Opts} {st : St} {log : List (Props × S)} (hi : Inv o st log) (h : FileHistory.History)
    (hk : Knows h log) (f : Props) (hf : ∃ e ∈ log, e.1 = f) (shift : Shift) (ops : Ops S) (s : S)
    (dir' : Dir) (p : Props) (hd : deriveImpl o shift ops none s h st.dir f = .ok (dir', p)) :
    ∃ file : File, dir' = st.dir.write p.filename file ∧ file.1.length = p.order.length ∧ p.tag = none ∧ p.order ≠ [] ∧
      p.order.length ≤ o.maxPhase + 1 ∧ p.control < log.length + 1 ∧ p.prevCtl < log.length + 1 ∧
      (∀ x ∈ p.order, x < log.length + 1) ∧ ∀ e ∈ log, key e.1 < key p := by
  obtain ⟨np, file, next, rev, deps, c, d, h1, h2, h3, h4, h5, h6, h7, rfl⟩ := deriveImpl_ok _ _ _ _ _ _ _ _ _ _ hd
  obtain ⟨e0, he0, rfl⟩ := hf
  obtain ⟨r, rfl, hr⟩ := ancestorsRev_shape _ _ _ _ _ h4
  obtain ⟨g, hg1, hg2⟩ := hi.files e0 he0
  rw [hg1] at h2
  cases h2
  obtain ⟨s1, s2, s3, s4, s5, s6⟩ := hi.small e0 he0
  obtain ⟨ord, prev, hno, rfl, hdeps⟩ := createDependencies_ok _ e0.1 (by simp) _ _ _ _ _ _ _ h5
  obtain ⟨n1, n2, n3, n4, n5, n6⟩ := nextOrder_spec o shift _ e0.1 file.1 next s2 s3 hg2 h3 ord prev hno d.length
    log.length s6
  have hnewest := hk.newest hi.sorted
  rw [h1] at hnewest
  have hnpl : ∃ e ∈ log, e.1 = np := by
    cases log with
    | nil => simp at hnewest
    | cons e l => simp at hnewest; exact ⟨e, by simp, hnewest.symm⟩
  obtain ⟨e1, he1, he1n⟩ := hnpl
  have hctl := (hi.small e1 he1).2.2.2.1
  rw [he1n] at hctl
  refine ⟨_, rfl, n5, rfl, n1, n2, ?_, ?_, n4, ?_⟩
  · show (if np = e0.1 then np.control else np.control + 1) < _
    split <;> omega
  · show prev < _
    rcases n6 with rfl | ⟨a, ha, rfl⟩
    · omega
    · rw [List.mem_reverse] at ha
      rcases List.mem_cons.1 ha with rfl | ha
      · omega
      · obtain ⟨c', o', hq⟩ := hr a ha
        obtain ⟨⟨e2, he2, rfl⟩, _⟩ := (hk.2 _ _ _).1 hq
        have := (hi.small e2 he2).2.2.2.2.1
        omega
  · intro e he
    have hle := head_max log hi.sorted np hnewest.symm e he
    have hnp : key np < key (⟨if np = e0.1 then np.control else np.control + 1, prev, ord, none⟩ : Props) := by
      by_cases hc : np = e0.1
      · rw [if_pos hc]
        exact lt_order _ _ rfl (by rw [hc]; exact n3)
      · rw [if_neg hc]
        exact lt_control _ _ (Nat.lt_succ_self _)
    rcases hle with hle | hle
    · rw [hle]; exact hnp
    · exact List.lt_trans hle hnp

theorem fromFile_mem {o : Opts} {log : List (Props × S)} (h : FileHistory.History) (hk : Knows h log) (b newest f : Props)
    (hb : ∃ e ∈ log, e.1 = b) (hf : fromFile o h b newest = some f) : ∃ e ∈ log, e.1 = f := by
  unfold fromFile at hf
  split at hf
  · exact ((hk.2 _ _ _).1 hf).1
  · cases hf; exact hb

theorem newControl_eq {log : List (Props × S)} (h : FileHistory.History) (hk : Knows h log)
    (hs : log.Pairwise (fun a b => key b.1 < key a.1)) :
    newControl h = match log with | e :: _ => e.1.control + 1 | [] => 0 := by
  unfold newControl
  rw [hk.newest hs]
  cases log <;> rfl

/-- The file a new start creates. -/
theorem start_new_props {o : Opts} {st : St} {log : List (Props × S)} (hi : Inv o st log)
    (hl : log.length < 10 ^ 8 - 1) (h : FileHistory.History) (hk : Knows h log) :
    analyze (calcFilename none (newControl h) none [0]) = .ok (some ⟨newControl h, newControl h, [0], none⟩) ∧
    newControl h < log.length + 1 ∧ ∀ e ∈ log, key e.1 < key (⟨newControl h, newControl h, [0], none⟩ : Props) := by
  have hnc := newControl_eq h hk hi.sorted
  have hlt : newControl h < log.length + 1 := by
    rw [hnc]
    cases log with
    | nil => simp
    | cons e l =>
      have := (hi.small e (by simp)).2.2.2.1
      simp only; omega
  have hname : calcFilename none (newControl h) none [0] = (⟨newControl h, newControl h, [0], none⟩ : Props).filename := by
    simp [Props.filename]
  refine ⟨?_, hlt, ?_⟩
  · rw [hname, analyze_untagged _ rfl (by simp) (by simp only; omega), if_pos ⟨by simp only; omega, by simp⟩]
  · intro e he
    cases log with
    | nil => simp at he
    | cons e1 l =>
      simp only at hnc
      have hle : e.1.control ≤ e1.1.control := by
        rcases head_max (e1 :: l) hi.sorted e1.1 rfl e he with h | h
        · simp only [key, List.cons.injEq] at h
          omega
        · unfold key at h
          rw [List.cons_lt_cons_iff] at h
          omega
      exact lt_control _ _ (by simp only; omega)

/-- A successful save, case by case. -/
theorem save_ok {o : Opts} {st st' : St} {log : List (Props × S)} (hi : Inv o st log) (hl : log.length < 10 ^ 8 - 1)
    (shift : Shift) (ops : Ops S) (rid : Nat) (s : S) (p : Props)
    (hs : save o shift ops st rid none s = (st', .ok p)) :
    ∃ h, st.history = .ok h ∧ Knows h log ∧
      ((∃ f dir', (∃ e ∈ log, e.1 = f) ∧ deriveImpl o shift ops none s h st.dir f = .ok (dir', p) ∧
          st' = ⟨dir', some (rid, p)⟩ ∧
          ∃ b newest, st.baseFor rid = some b ∧ h.newest = some newest ∧ fromFile o h b newest = some f) ∨
       (∃ d, ops.diff ops.src s = .ok d ∧ p = ⟨newControl h, newControl h, [0], none⟩ ∧
          st' = ⟨st.dir.write p.filename (Data.new d.length, d), some (rid, p)⟩)) := by
  obtain ⟨h, hh, hk⟩ := hi.history
  refine ⟨h, hh, hk, ?_⟩
  have hnew : saveNew ops st h rid none s = (st', .ok p) →
      ∃ d, ops.diff ops.src s = .ok d ∧ p = ⟨newControl h, newControl h, [0], none⟩ ∧
          st' = ⟨st.dir.write p.filename (Data.new d.length, d), some (rid, p)⟩ := by
    intro hs
    unfold saveNew writePhase0 at hs
    cases hd : ops.diff ops.src s with
    | err => rw [hd] at hs; simp at hs
    | panic => rw [hd] at hs; simp at hs
    | ok d =>
      rw [hd] at hs
      simp only [(start_new_props hi hl h hk).1, Res.bind_ok] at hs
      cases hs
      refine ⟨d, rfl, rfl, ?_⟩
      simp [Props.filename]
  unfold save at hs
  rw [hh] at hs
  simp only at hs
  split at hs
  · rename_i b newest hb hn
    unfold saveDerived at hs
    split at hs
    · simp at hs
    · rename_i f hf
      cases hd : deriveImpl o shift ops none s h st.dir f with
      | err => rw [hd] at hs; simp at hs
      | panic => rw [hd] at hs; simp at hs
      | ok r =>
        obtain ⟨dir', p'⟩ := r
        rw [hd] at hs
        simp only [Prod.mk.injEq, Res.ok.injEq] at hs
        obtain ⟨h1, h2⟩ := hs
        subst h2
        have hbl : ∃ e ∈ log, e.1 = b := by
          unfold St.baseFor at hb
          split at hb
          · rename_i r q hq
            split at hb
            · cases hb; exact hi.base _ _ hq
            · cases hb
          · cases hb
        left
        exact ⟨f, dir', fromFile_mem h hk b newest f hbl hf, hd, h1.symm, b, newest, hb, hn, hf⟩
  · right; exact hnew hs

/-- A failed save changes nothing. -/
theorem save_fail {o : Opts} {st st' : St} {log : List (Props × S)} (hi : Inv o st log) (hl : log.length < 10 ^ 8 - 1)
    (shift : Shift) (ops : Ops S) (rid : Nat) (s : S) (r : Res Props)
    (hs : save o shift ops st rid none s = (st', r)) (hf : ∀ p, r ≠ .ok p) : st' = st := by
  obtain ⟨h, hh, hk⟩ := hi.history
  unfold save at hs
  rw [hh] at hs
  simp only at hs
  split at hs
  · unfold saveDerived at hs
    split at hs
    · cases hs; rfl
    · split at hs
      · cases hs; exact absurd rfl (hf _)
      · cases hs; rfl
      · cases hs; rfl
  · unfold saveNew writePhase0 at hs
    cases hd : ops.diff ops.src s with
    | err => rw [hd] at hs; cases hs; rfl
    | panic => rw [hd] at hs; cases hs; rfl
    | ok d =>
      rw [hd] at hs
      simp only [(start_new_props hi hl h hk).1, Res.bind_ok] at hs
      cases hs
      exact absurd rfl (hf _)

theorem inv_start (o : Opts) (dir : Dir) (hn : (dir.map (·.1)).Nodup) (hf : ∀ e ∈ dir, analyze e.1 = .ok none) :
    Inv (S := S) o ⟨dir, none⟩ [] := by
  constructor
  · exact hn
  · intro n hn
    obtain ⟨e, he, rfl⟩ := List.mem_map.1 hn
    exact Or.inl (hf e he)
  · simp
  · simp
  · simp
  · simp
  · intro r p h; cases h

/-- A successful save keeps the invariant and creates a new file. -/
theorem save_inv {o : Opts} {st st' : St} {log : List (Props × S)} (hi : Inv o st log) (hl : log.length < 10 ^ 8 - 1)
    (shift : Shift) (ops : Ops S) (rid : Nat) (s : S) (p : Props)
    (hs : save o shift ops st rid none s = (st', .ok p)) :
    p.filename ∉ st.dir.map (·.1) ∧ Inv o st' ((p, s) :: log) ∧ (∃ f, st'.dir = st.dir ++ [(p.filename, f)]) := by
  obtain ⟨h, hh, hk, ⟨f, dir', hf, hd, rfl, _⟩ | ⟨d, hd, rfl, rfl⟩⟩ := save_ok hi hl shift ops rid s p hs
  · obtain ⟨file, rfl, h1, h2, h3, h4, h5, h6, h7, h8⟩ := derive_new hi h hk f hf shift ops s dir' p hd
    obtain ⟨g1, g2⟩ := hi.add hl p s rid file h2 h3 h4 h5 h6 h7 h1 h8
    exact ⟨g1, g2, file, write_fresh _ _ _ g1⟩
  · obtain ⟨h1, h2, h3⟩ := start_new_props hi hl h hk
    obtain ⟨g1, g2⟩ := hi.add hl (⟨newControl h, newControl h, [0], none⟩ : Props) s rid (Data.new d.length, d) rfl (by simp)
      (by simp) h2 h2 (by intro x hx; simp at hx; omega) (by simp [Data.new]) h3
    exact ⟨g1, g2, _, write_fresh _ _ _ g1⟩

theorem Reach.inv {o : Opts} {ops : Ops S} {st : St} {log : List (Props × S)} (hr : Reach o ops st log) : Inv o st log := by
  induction hr with
  | start dir hn hf => exact inv_start o dir hn hf
  | save shift st st' log rid s p hr hl hs ih => exact (save_inv ih hl shift ops rid s p hs).2.1
  | unfinished shift st st' log rid s p hr hl hs ih =>
    obtain ⟨h1, h2, h3, h4, h5, h6, _⟩ := (save_inv ih hl shift ops rid s p hs).2.1
    refine ⟨h1, h2, h3, h4, h5, h6, fun r q hq => ?_⟩
    obtain ⟨e, he, hq⟩ := ih.base r q hq
    exact ⟨e, List.mem_cons_of_mem _ he, hq⟩
  | fail shift st st' log rid s r hr hl hs hf ih => rw [save_fail ih hl shift ops rid s r hs hf]; exact ih
  | load st log h p rid hr hh hp ih =>
    unfold loadFile
    split
    · obtain ⟨h', hh', hk⟩ := ih.history
      rw [hh] at hh'
      cases hh'
      rw [mem_listFiles h hk.1, hk.2] at hp
      refine ⟨ih.nodup, ih.names, ih.files, ih.small, ih.len, ih.sorted, ?_⟩
      intro r q hq
      simp only [Option.some.injEq, Prod.mk.injEq] at hq
      rw [← hq.2]
      exact hp.1
    · exact ih
    · exact ih
  | list st dir log hr hp ih =>
    refine ⟨(hp.map _).nodup_iff.2 ih.nodup, fun n hn => ih.names n ((hp.map _).mem_iff.1 hn), fun e he => ?_, ih.small,
      ih.len, ih.sorted, ih.base⟩
    simp only
    rw [read_perm _ _ hp ih.nodup]
    exact ih.files e he
  | restart st log hr ih => exact ⟨ih.nodup, ih.names, ih.files, ih.small, ih.len, ih.sorted, fun r p h => by cases h⟩
  | other st log r e hr he ih =>
    exact ⟨ih.nodup, ih.names, ih.files, ih.small, ih.len, ih.sorted, fun r p h => by cases h; exact ⟨e, he, rfl⟩⟩

end
end Verif.History
